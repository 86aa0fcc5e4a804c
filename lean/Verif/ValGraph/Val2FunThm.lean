/-
`val2fun` makes a recording with the values of the value graph.
-/
import Verif.ValGraph.Val2Fun
import Verif.ValGraph.CleanPass
import Verif.ValGraph.FoldCon

namespace CppAD.ValGraph
open CppAD CppAD.Record CppAD.Optim CppAD.Graph Classical

variable {c : FCfg} {ind : List ℝ} {st : ℕ → ℝ} {nV nI : ℕ} {s s' : FromSt} {F F' : ℕ → ℝ} {V : List ℝ} {T : VTape}

/-- the constants of a list of operators -/
def consOf (l : List Node) : List ℝ := l.filterMap fun nd => match nd.kind with | .con v => v | _ => none

theorem vix_pos {n r a : ℕ} (h : a < r) (hr : n < r) (hne : a ≠ n) : 1 ≤ vix n a ∧ vix n a < r := by
  unfold vix; split_ifs <;> omega

theorem vix_self {n a : ℕ} (h : n < a) : vix n a = a := by
  unfold vix; rw [if_neg (by omega), if_neg (by omega)]

/-- a comparison that is recorded has an operand that is not a constant: its value is nan when the independents are -/
def CmpNode (nan : ℕ → ValGraph.V) (nd : Node) : Prop := ∀ k, nd.kind = .comp k → k ≠ .no → ∃ a ∈ nd.args, nan a = none

/-- the state of `val2fun` before operator `i`; `w` are the values of the graph, `nan` its values when the independents are nan,
`V` are the values of what was recorded -/
structure V2FI (c : FCfg) (ind : List ℝ) (st : ℕ → ℝ) (nV nI : ℕ) (T : VTape) (w nan : ℕ → ValGraph.V) (i : ℕ) (q : FromSt × List ℕ) (V : List ℝ) (F : ℕ → ℝ) : Prop where
  fi : FI c ind st nV nI q.1 V F
  main : Main nV nI q.1
  len : V.length = T.res i
  val : ∀ a < T.res i, a ≠ T.nInd → w a = some (at' V (vix T.nInd a))
  con : ∀ a < T.res i, a ≠ T.nInd → isCon (q.1.ty (vix T.nInd a)) = true → nan a = w a
  cl : List.Forall₂ (fun p v => NodeV c ind q.1 F .constant p v) q.2 (consOf (T.nodes.drop i))
  dyn : nI = 0 → NoDyn q.1
  fails : (∀ nd ∈ T.nodes, CmpNode nan nd) → q.1.fails c ind F = (T.nodes.take i).countP fun nd => decide (FalseAt w nd)

theorem NodeV.out {p : ℕ} {v : ℝ} (h : NodeV c ind s F .constant p v) (hg : Grows c.disc ind s.r s'.r) (ha : ∃ l, s'.r.parAll = s.r.parAll ++ l) :
    NodeV c ind s' F' .constant p v := by
  obtain ⟨l, hl⟩ := ha
  obtain ⟨h1, h2, h3, h4⟩ := h
  exact ⟨h1, lt_of_lt_of_le h2 hg.1, by rw [← h3]; exact hg.2 p h2, by rw [hl, at'_append h2]; exact h4⟩

theorem drop_node {i : ℕ} (hi : i < T.nOp) : T.nodes.drop i = T.node i :: T.nodes.drop (i + 1) := by
  rw [node_eq T hi]; exact List.drop_eq_getElem_cons hi

/-- one step -/
theorem V2FI.step {w nan : ℕ → ValGraph.V} {i : ℕ} {q : FromSt × List ℕ} (hw : T.WF) (hp : T.Plain) (hi : i < T.nOp) (h0 : 0 < i) (H : V2FI c ind st nV nI T w nan i q V F) {R : List ℝ} {con : List Bool} {e : ℕ}
    {cl : List ℕ} (hO : Out c ind st nV nI q.1 F V s' R con e) (hR : R.length = (T.node i).nres) (hcon : con.length = (T.node i).nres)
    (h1 : ∀ k < (T.node i).nres, w (T.res i + k) = some (at' R k)) (h2 : ∀ k < (T.node i).nres, con.getD k false = true → nan (T.res i + k) = w (T.res i + k))
    (h3 : List.Forall₂ (fun p v => NodeV c ind q.1 F .constant p v) cl (consOf (T.nodes.drop (i + 1)))) (h4 : nI = 0 → NoDyn s')
    (h5 : (∀ nd ∈ T.nodes, CmpNode nan nd) → e = if FalseAt w (T.node i) then 1 else 0) :
    ∃ F', V2FI c ind st nV nI T w nan (i + 1) (s', cl) (V ++ R) F' := by
  obtain ⟨F', f1, f2, f3, f4, f5, f6⟩ := hO
  have hn := nInd_lt_res hw hp i h0
  have hr := res_succ T hi
  have hl := H.len
  refine ⟨F', f1, f2, ?_, ?_, ?_, ?_, h4, ?_⟩
  · rw [List.length_append, hl, hR, hr]
  · intro a ha hne
    by_cases hlt : a < T.res i
    · rw [H.val a hlt hne, at'_append (by rw [hl]; exact (vix_pos hlt hn hne).2)]
    · obtain ⟨k, rfl⟩ := Nat.exists_eq_add_of_le (not_lt.1 hlt)
      rw [h1 k (by omega), vix_self (by omega), ← hl]
      unfold at'
      rw [List.getD_append_right _ _ _ _ (by omega)]; simp
  · intro a ha hne hc
    have hv := vix_pos ha (by omega) hne
    rw [← map_isCon _ (by rw [f1.tlen, List.length_append, hl, hR, ← hr]; exact hv.2), f3] at hc
    by_cases hlt : a < T.res i
    · have hv' := (vix_pos hlt hn hne).2
      have hlen : (q.1.typ.map isCon).length = T.res i := by rw [List.length_map, H.fi.tlen, hl]
      rw [List.getD_append _ _ _ _ (by rw [hlen]; exact hv'), map_isCon _ (by rw [H.fi.tlen, hl]; exact hv')] at hc
      exact H.con a hlt hne hc
    · obtain ⟨k, rfl⟩ := Nat.exists_eq_add_of_le (not_lt.1 hlt)
      have hlen : (q.1.typ.map isCon).length = T.res i := by rw [List.length_map, H.fi.tlen, hl]
      rw [vix_self (by omega), List.getD_append_right _ _ _ _ (by omega), hlen, Nat.add_sub_cancel_left] at hc
      exact h2 k (by omega) hc
  · exact h3.imp fun p v h => NodeV.out h f5 f6
  · intro hc
    rw [f4, H.fails hc, h5 hc, take_countP hi]

theorem args_pos {i k : ℕ} (hw : T.WF) (hi : i < T.nOp) (hk : k < (T.node i).args.length) : (T.node i).args.getD k 0 < T.res i ∧ (T.node i).args.getD k 0 ∈ (T.node i).args :=
  ⟨hw.args i hi _ (getD_mem hk), getD_mem hk⟩

theorem conAt_ok {nan : List ValGraph.V} {a : ℕ} {v : ℝ} (h : rd nan a = some v) : conAt c nan a = v := by simp [conAt, h]

theorem consOf_drop {i : ℕ} (hi : i < T.nOp) (h : ∀ v, (T.node i).kind ≠ .con v) : consOf (T.nodes.drop (i + 1)) = consOf (T.nodes.drop i) := by
  rw [drop_node hi]
  unfold consOf
  rw [List.filterMap_cons]
  cases hk : (T.node i).kind <;> simp_all

theorem unOp_spec (u : Un) : u.op = u.spec := by cases u <;> rfl

theorem v2fNode_ok {w : ℕ → ValGraph.V} {nan : List ValGraph.V} {x : List ValGraph.V} {i : ℕ} {q q' : FromSt × List ℕ} (hw : T.WF) (hcl : T.Clean) (hi : i < T.nOp) (h0 : 0 < i)
    (hs : nI = 0 ∨ T.NoSum)
    (hsol : Sol T (realPrim c.disc) x w) (hnan : ∀ v, (T.node i).kind = .con v → rd nan (T.res i) = v) (H : V2FI c ind st nV nI T w (rd nan) i q V F)
    (hq : v2fNode c nan T.nInd q (T.node i) = some q') : ∃ V' F', V2FI c ind st nV nI T w (rd nan) (i + 1) q' V' F' := by
  have hp := clean_plain hw hcl
  have hn := nInd_lt_res hw hp i h0
  obtain ⟨hsim, hne⟩ := hcl.node h0 hi
  have har := hw.arity i hi
  have pos : ∀ k, k < (T.node i).args.length → (1 ≤ vix T.nInd ((T.node i).args.getD k 0) ∧ vix T.nInd ((T.node i).args.getD k 0) < V.length) ∧
      w ((T.node i).args.getD k 0) = some (at' V (vix T.nInd ((T.node i).args.getD k 0))) ∧
      (q.1.ty (vix T.nInd ((T.node i).args.getD k 0)) = .constant → conAt c nan ((T.node i).args.getD k 0) = at' V (vix T.nInd ((T.node i).args.getD k 0))) := by
    intro k hk
    obtain ⟨a1, a2⟩ := args_pos hw hi hk
    have a3 := H.val _ a1 (hne _ a2)
    refine ⟨by rw [H.len]; exact vix_pos a1 hn (hne _ a2), a3, fun ht => ?_⟩
    refine conAt_ok ?_
    rw [H.con _ a1 (hne _ a2) (by rw [isCon, decide_eq_true_eq]; exact ht), a3]
  have rdv : ∀ k, k < (T.node i).args.length → rd ((T.node i).args.map w) k = some (at' V (vix T.nInd ((T.node i).args.getD k 0))) := by
    intro k hk
    rw [getD_map_V _ _ hk]; exact (pos k hk).2.1
  have hval : (T.node i).nres = 1 → w (T.res i) = rd ((T.node i).kind.out (realPrim c.disc) ((T.node i).args.map w)) 0 := by
    intro h1
    have := hsol.2 i hi 0 (by rw [h1]; exact Nat.one_pos)
    simpa using this
  -- an operator with one result
  have one : (T.node i).nres = 1 → (∀ v, (T.node i).kind ≠ .con v) → (∀ k, (T.node i).kind ≠ .comp k) → ∀ (t : FromSt) (y : ℝ), Out c ind st nV nI q.1 F V t [y] [false] 0 →
      w (T.res i) = some y → (nI = 0 → NoDyn t) → (t, q.2) = q' → ∃ V' F', V2FI c ind st nV nI T w (rd nan) (i + 1) q' V' F' := by
    intro h1 h2 h3 t y hO hy hd hq
    subst hq
    obtain ⟨F', hF⟩ := V2FI.step hw hp hi h0 H hO (by rw [h1]; rfl) (by rw [h1]; rfl)
      (by intro k hk; rw [h1, Nat.lt_one_iff] at hk; subst hk; simpa [at'] using hy)
      (by intro k hk; rw [h1, Nat.lt_one_iff] at hk; subst hk; simp)
      (by rw [consOf_drop hi h2]; exact H.cl) hd
      (by
        intro _
        rw [if_neg]
        unfold FalseAt
        cases hk : (T.node i).kind <;> simp
        exact absurd hk (h3 _))
    exact ⟨_, F', hF⟩
  cases hk : (T.node i).kind with
  | con v =>
    cases v with
    | none => rw [hk] at hsim; simp [Kind.simple] at hsim
    | some v =>
      simp only [v2fNode, hk] at hq
      have hcl' := H.cl
      have e : consOf (T.nodes.drop i) = v :: consOf (T.nodes.drop (i + 1)) := by
        rw [drop_node hi]; unfold consOf
        rw [List.filterMap_cons]; simp only [hk]
      rw [e] at hcl'
      cases hq2 : q.2 with
      | nil => rw [hq2] at hq; simp at hq
      | cons p l =>
        rw [hq2] at hq hcl'
        simp only [Option.some.injEq] at hq
        subst hq
        obtain ⟨g1, g2⟩ := List.forall₂_cons.1 hcl'
        have hnr : (T.node i).nres = 1 := by simp [Node.nres, hk, Kind.nres]
        have hwv : w (T.res i) = some v := by rw [hval hnr, hk]; simp [Kind.out, rd_cons_zero]
        obtain ⟨F', hF⟩ := V2FI.step hw hp hi h0 H (Out.mk' H.fi H.main H.fi.rc (.refl _ _) (t := .constant) g1) (by rw [hnr]; rfl) (by rw [hnr]; rfl)
          (by intro k hk'; rw [hnr, Nat.lt_one_iff] at hk'; subst hk'; simpa [at'] using hwv)
          (by intro k hk'; rw [hnr, Nat.lt_one_iff] at hk'; subst hk'; intro _; rw [Nat.add_zero, hwv]; exact hnan _ hk)
          g2 (fun h => (H.dyn h).push rfl (by simp)) (by intro _; simp [FalseAt, hk])
        exact ⟨_, F', hF⟩
  | un u =>
    rw [hk] at har; simp only [Kind.arityOk] at har
    simp only [v2fNode, hk] at hq
    obtain ⟨t, ht, hq⟩ := Option.map_eq_some_iff.1 hq
    obtain ⟨o1, o2⟩ := v2fUn_ok H.fi H.main (pos 0 (by omega)).1.1 (pos 0 (by omega)).1.2 ht
    have hnr : (T.node i).nres = 1 := by simp [Node.nres, hk, Kind.nres]
    refine one hnr (by simp [hk]) (by simp [hk]) t _ o1 ?_ (fun h => o2 (H.dyn h)) hq
    rw [hval hnr, hk]; simp only [Kind.out, rd_cons_zero]; rw [rdv 0 (by omega), unOp_spec]; rfl
  | neg =>
    rw [hk] at har; simp only [Kind.arityOk] at har
    simp only [v2fNode, hk] at hq
    obtain ⟨t, ht, hq⟩ := Option.map_eq_some_iff.1 hq
    obtain ⟨o1, o2⟩ := v2fUn_ok H.fi H.main (pos 0 (by omega)).1.1 (pos 0 (by omega)).1.2 ht
    have hnr : (T.node i).nres = 1 := by simp [Node.nres, hk, Kind.nres]
    refine one hnr (by simp [hk]) (by simp [hk]) t _ o1 ?_ (fun h => o2 (H.dyn h)) hq
    rw [hval hnr, hk]; simp only [Kind.out, rd_cons_zero]; rw [rdv 0 (by omega)]; rfl
  | add =>
    rw [hk] at har; simp only [Kind.arityOk] at har
    simp only [v2fNode, hk] at hq
    obtain ⟨t, ht, hq⟩ := Option.map_eq_some_iff.1 hq
    obtain ⟨o1, o2⟩ := v2fBin_ok H.fi H.main (pos 0 (by omega)).1 (pos 1 (by omega)).1 ht
    have hnr : (T.node i).nres = 1 := by simp [Node.nres, hk, Kind.nres]
    refine one hnr (by simp [hk]) (by simp [hk]) t _ o1 ?_ (fun h => o2 (H.dyn h)) hq
    rw [hval hnr, hk]; simp only [Kind.out, rd_cons_zero]; rw [rdv 0 (by omega), rdv 1 (by omega)]; rfl
  | sub =>
    rw [hk] at har; simp only [Kind.arityOk] at har
    simp only [v2fNode, hk] at hq
    obtain ⟨t, ht, hq⟩ := Option.map_eq_some_iff.1 hq
    obtain ⟨o1, o2⟩ := v2fBin_ok H.fi H.main (pos 0 (by omega)).1 (pos 1 (by omega)).1 ht
    have hnr : (T.node i).nres = 1 := by simp [Node.nres, hk, Kind.nres]
    refine one hnr (by simp [hk]) (by simp [hk]) t _ o1 ?_ (fun h => o2 (H.dyn h)) hq
    rw [hval hnr, hk]; simp only [Kind.out, rd_cons_zero]; rw [rdv 0 (by omega), rdv 1 (by omega)]; rfl
  | mul =>
    rw [hk] at har; simp only [Kind.arityOk] at har
    simp only [v2fNode, hk] at hq
    obtain ⟨t, ht, hq⟩ := Option.map_eq_some_iff.1 hq
    obtain ⟨o1, o2⟩ := v2fBin_ok H.fi H.main (pos 0 (by omega)).1 (pos 1 (by omega)).1 ht
    have hnr : (T.node i).nres = 1 := by simp [Node.nres, hk, Kind.nres]
    refine one hnr (by simp [hk]) (by simp [hk]) t _ o1 ?_ (fun h => o2 (H.dyn h)) hq
    rw [hval hnr, hk]; simp only [Kind.out, rd_cons_zero]; rw [rdv 0 (by omega), rdv 1 (by omega)]; rfl
  | div =>
    rw [hk] at har; simp only [Kind.arityOk] at har
    simp only [v2fNode, hk] at hq
    obtain ⟨t, ht, hq⟩ := Option.map_eq_some_iff.1 hq
    obtain ⟨o1, o2⟩ := v2fBin_ok H.fi H.main (pos 0 (by omega)).1 (pos 1 (by omega)).1 ht
    have hnr : (T.node i).nres = 1 := by simp [Node.nres, hk, Kind.nres]
    refine one hnr (by simp [hk]) (by simp [hk]) t _ o1 ?_ (fun h => o2 (H.dyn h)) hq
    rw [hval hnr, hk]; simp only [Kind.out, rd_cons_zero]; rw [rdv 0 (by omega), rdv 1 (by omega)]; rfl
  | pow =>
    rw [hk] at har; simp only [Kind.arityOk] at har
    simp only [v2fNode, hk] at hq
    obtain ⟨t, ht, hq⟩ := Option.map_eq_some_iff.1 hq
    obtain ⟨o1, o2⟩ := v2fBin_ok H.fi H.main (pos 0 (by omega)).1 (pos 1 (by omega)).1 ht
    have hnr : (T.node i).nres = 1 := by simp [Node.nres, hk, Kind.nres]
    refine one hnr (by simp [hk]) (by simp [hk]) t _ o1 ?_ (fun h => o2 (H.dyn h)) hq
    rw [hval hnr, hk]; simp only [Kind.out, rd_cons_zero]; rw [rdv 0 (by omega), rdv 1 (by omega)]; rfl
  | dis k =>
    rw [hk] at har; simp only [Kind.arityOk] at har
    simp only [v2fNode, hk] at hq
    obtain ⟨t, ht, hq⟩ := Option.map_eq_some_iff.1 hq
    obtain ⟨o1, o2⟩ := v2fDis_ok H.fi H.main (pos 0 (by omega)).1.1 (pos 0 (by omega)).1.2 ht
    have hnr : (T.node i).nres = 1 := by simp [Node.nres, hk, Kind.nres]
    refine one hnr (by simp [hk]) (by simp [hk]) t _ o1 ?_ (fun h => o2 (H.dyn h)) hq
    rw [hval hnr, hk]; simp only [Kind.out, rd_cons_zero]; rw [rdv 0 (by omega)]; rfl
  | cexp k =>
    rw [hk] at har; simp only [Kind.arityOk] at har
    simp only [v2fNode, hk] at hq
    obtain ⟨t, ht, hq⟩ := Option.map_eq_some_iff.1 hq
    obtain ⟨⟨y, o1, o3⟩, o2⟩ := v2fCexp_ok H.fi H.main (pos 0 (by omega)).1 (pos 1 (by omega)).1 (pos 2 (by omega)).1 (pos 3 (by omega)).1 ht
    have hnr : (T.node i).nres = 1 := by simp [Node.nres, hk, Kind.nres]
    refine one hnr (by simp [hk]) (by simp [hk]) t _ o1 ?_ (fun h => o2 (H.dyn h)) hq
    rw [hval hnr, hk]; simp only [Kind.out, rd_cons_zero]
    rw [rdv 0 (by omega), rdv 1 (by omega), rdv 2 (by omega), rdv 3 (by omega)]; exact o3
  | comp k =>
    rw [hk] at har; simp only [Kind.arityOk] at har
    simp only [v2fNode, hk, Option.some.injEq] at hq
    subst hq
    have p0 := pos 0 (by omega)
    have p1 := pos 1 (by omega)
    obtain ⟨⟨e, o1, o2⟩, o3⟩ := v2fComp_ok H.fi H.main k p0.1 p1.1 p0.2.2 p1.2.2
    have hnr : (T.node i).nres = 0 := by simp [Node.nres, hk, Kind.nres]
    obtain ⟨F', hF⟩ := V2FI.step hw hp hi h0 H o1 (by rw [hnr]; rfl) (by rw [hnr]; rfl) (by rw [hnr]; simp) (by rw [hnr]; simp)
      (by rw [consOf_drop hi (by simp [hk])]; exact H.cl) (fun h => o3 (H.dyn h))
      (by
        intro hc
        rw [o2]
        · simp only [FalseAt, hk]
          rw [p0.2.1, p1.2.1]
          by_cases hh : k.holds (some (at' V (vix T.nInd ((T.node i).args.getD 0 0)))) (some (at' V (vix T.nInd ((T.node i).args.getD 1 0))))
          · rw [if_pos hh, if_neg (not_not.2 hh)]
          · rw [if_neg hh, if_pos hh]
        · intro hk' ⟨t0, t1⟩
          obtain ⟨a, ha, hav⟩ := hc _ (node_mem T hi) k hk hk'
          have hnc : ∀ j, j < (T.node i).args.length → q.1.ty (vix T.nInd ((T.node i).args.getD j 0)) = .constant → rd nan ((T.node i).args.getD j 0) ≠ none := by
            intro j hj ht
            obtain ⟨a1, a2⟩ := args_pos hw hi hj
            rw [H.con _ a1 (hne _ a2) (by rw [isCon, decide_eq_true_eq]; exact ht), (pos j hj).2.1]
            simp
          have hor : a = (T.node i).args.getD 0 0 ∨ a = (T.node i).args.getD 1 0 := by
            match hl : (T.node i).args, har with
            | [b, b'], _ => rw [hl] at ha; simpa using ha
          rcases hor with rfl | rfl
          · exact hnc 0 (by omega) t0 hav
          · exact hnc 1 (by omega) t1 hav)
    exact ⟨_, F', hF⟩
  | csum n m =>
    have hnI : nI = 0 := by
      rcases hs with h | h
      · exact h
      · exact absurd hk (h _ (tail_node h0 hi) n m)
    rw [hk] at har; simp only [Kind.arityOk] at har
    simp only [v2fNode, hk] at hq
    obtain ⟨t, ht, hq⟩ := Option.map_eq_some_iff.1 hq
    have hmem : ∀ a ∈ (T.node i).args.take n ++ (T.node i).args.drop n, ∃ k, k < (T.node i).args.length ∧ a = (T.node i).args.getD k 0 := by
      intro a ha
      rw [List.take_append_drop] at ha
      obtain ⟨k, hk', rfl⟩ := List.getElem_of_mem ha
      exact ⟨k, hk', by rw [List.getD_eq_getElem _ _ hk']⟩
    obtain ⟨o1, o2⟩ := v2fSum_ok H.fi H.main (vix T.nInd) (conAt c nan) _ _
      (fun a ha => by obtain ⟨k, hk', rfl⟩ := hmem a ha; exact (pos k hk').1)
      (fun a ha => by obtain ⟨k, hk', rfl⟩ := hmem a ha; exact (pos k hk').2.2) (H.dyn hnI) ht
    have hnr : (T.node i).nres = 1 := by simp [Node.nres, hk, Kind.nres]
    refine one hnr (by simp [hk]) (by simp [hk]) t _ o1 ?_ (fun h => o2) hq
    have hmap : (T.node i).args.map w = ((T.node i).args.map fun a => at' V (vix T.nInd a)).map some := by
      rw [List.map_map]
      refine List.map_congr_left fun a ha => ?_
      obtain ⟨k, hk', rfl⟩ := List.getElem_of_mem ha
      have := (pos k hk').2.1
      rw [List.getD_eq_getElem _ _ hk'] at this
      exact this
    rw [hval hnr, hk, hmap]
    simp only [Kind.out, rd_cons_zero, ← List.map_take, ← List.map_drop]
    rw [foldl_some_add, foldl_some_sub, zero_add]
    rfl
  | call a b d => rw [hk] at hsim; simp [Kind.simple] at hsim
  | pri a b => rw [hk] at hsim; simp [Kind.simple] at hsim
  | vec a => rw [hk] at hsim; simp [Kind.simple] at hsim
  | load a => rw [hk] at hsim; simp [Kind.simple] at hsim
  | store a => rw [hk] at hsim; simp [Kind.simple] at hsim

/-- all the operators -/
theorem v2fNodes_ok {w : ℕ → ValGraph.V} {nan : List ValGraph.V} {x : List ValGraph.V} (hw : T.WF) (hcl : T.Clean) (hs : nI = 0 ∨ T.NoSum)
    (hsol : Sol T (realPrim c.disc) x w) (hnan : ∀ i < T.nOp, ∀ v, (T.node i).kind = .con v → rd nan (T.res i) = v) (n : ℕ) :
    ∀ (i : ℕ) (q q' : FromSt × List ℕ) (V : List ℝ) (F : ℕ → ℝ), 0 < i → i + n = T.nOp → V2FI c ind st nV nI T w (rd nan) i q V F →
      v2fNodes c nan T.nInd (T.nodes.drop i) q = some q' → ∃ V' F', V2FI c ind st nV nI T w (rd nan) T.nOp q' V' F' := by
  induction n with
  | zero =>
    intro i q q' V F h0 hi H hq
    rw [Nat.add_zero] at hi
    subst hi
    rw [show T.nOp = T.nodes.length from rfl, List.drop_length] at hq
    simp only [v2fNodes, Option.some.injEq] at hq
    subst hq
    exact ⟨V, F, H⟩
  | succ n ih =>
    intro i q q' V F h0 hi H hq
    rw [drop_node (by omega)] at hq
    simp only [v2fNodes] at hq
    obtain ⟨q1, hq1, hq2⟩ := Option.bind_eq_some_iff.1 hq
    obtain ⟨V1, F1, H1⟩ := v2fNode_ok hw hcl (by omega) h0 hs hsol (hnan i (by omega)) H hq1
    exact ih (i + 1) q1 q' V1 F1 (by omega) (by omega) H1 hq2

end CppAD.ValGraph
