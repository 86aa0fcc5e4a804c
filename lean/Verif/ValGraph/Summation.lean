/-
`summation` preserves the function that a value graph represents, at the points where no sum,
difference or negation is nan.
-/
import Verif.ValGraph.RevDep
import Mathlib.Tactic.Ring
import Mathlib.Tactic.Linarith

namespace CppAD.ValGraph
open Classical

/-- the number that a value is -/
noncomputable def num (v : ℕ → V) (a : ℕ) : ℝ := (v a).getD 0

/-- what a `csum_info_t` stands for -/
noncomputable def CsumInfo.S (v : ℕ → V) (c : CsumInfo) : ℝ :=
  (c.add.map (num v)).sum - (c.sub.map (num v)).sum

theorem foldl_vadd (v : ℕ → V) (l : List ℕ) (h : ∀ b ∈ l, v b ≠ none) (r : ℝ) :
    (l.map v).foldl vadd (some r) = some (r + (l.map (num v)).sum) := by
  induction l generalizing r with
  | nil => simp
  | cons b l ih =>
    obtain ⟨a, ha⟩ := Option.ne_none_iff_exists'.mp (h b List.mem_cons_self)
    have hn : num v b = a := by simp [num, ha]
    simp only [List.map_cons, List.foldl_cons, List.sum_cons, ha, vadd, hn]
    rw [ih (fun c hc => h c (List.mem_cons_of_mem _ hc))]
    congr 1; ring

theorem foldl_vsub (v : ℕ → V) (l : List ℕ) (h : ∀ b ∈ l, v b ≠ none) (r : ℝ) :
    (l.map v).foldl vsub (some r) = some (r - (l.map (num v)).sum) := by
  induction l generalizing r with
  | nil => simp
  | cons b l ih =>
    obtain ⟨a, ha⟩ := Option.ne_none_iff_exists'.mp (h b List.mem_cons_self)
    have hn : num v b = a := by simp [num, ha]
    simp only [List.map_cons, List.foldl_cons, List.sum_cons, ha, vsub, hn]
    rw [ih (fun c hc => h c (List.mem_cons_of_mem _ hc))]
    congr 1; ring

theorem csum_out (P : Prim) (v : ℕ → V) (c : CsumInfo) (h : ∀ b ∈ c.add ++ c.sub, v b ≠ none) :
    (csumNode c).kind.out P ((csumNode c).args.map v) = [some (c.S v)] := by
  simp only [csumNode, Kind.out, List.map_append]
  rw [List.take_left' (by simp), List.drop_left' (by simp),
    foldl_vadd v _ (fun b hb => h b (by simp [hb])),
    foldl_vsub v _ (fun b hb => h b (by simp [hb]))]
  simp [CsumInfo.S]

/-- no sum, difference or negation is nan, and the values satisfy the equations -/
structure SumPt (T : VTape) (v : ℕ → V) : Prop where
  neg : ∀ i, i < T.nOp → (T.node i).kind = .neg →
    v ((T.node i).args.getD 0 0) ≠ none ∧ v (T.res i) ≠ none ∧
      num v (T.res i) = - num v ((T.node i).args.getD 0 0)
  add : ∀ i, i < T.nOp → (T.node i).kind = .add →
    v ((T.node i).args.getD 0 0) ≠ none ∧ v ((T.node i).args.getD 1 0) ≠ none ∧
      v (T.res i) ≠ none ∧
      num v (T.res i) = num v ((T.node i).args.getD 0 0) + num v ((T.node i).args.getD 1 0)
  sub : ∀ i, i < T.nOp → (T.node i).kind = .sub →
    v ((T.node i).args.getD 0 0) ≠ none ∧ v ((T.node i).args.getD 1 0) ≠ none ∧
      v (T.res i) ≠ none ∧
      num v (T.res i) = num v ((T.node i).args.getD 0 0) - num v ((T.node i).args.getD 1 0)

theorem sumPt_of_sol {T : VTape} {P : Prim} {x : List V} {v : ℕ → V} (hw : T.WF)
    (hs : Sol T P x v)
    (hn : ∀ i, i < T.nOp → (T.node i).kind.isSum = true → v (T.res i) ≠ none) : SumPt T v := by
  have e1 : ∀ i, i < T.nOp → (T.node i).nres = 1 →
      v (T.res i) = rd ((T.node i).kind.out P ((T.node i).args.map v)) 0 := by
    intro i hi h1
    have := hs.2 i hi 0 (by omega)
    rwa [Nat.add_zero] at this
  refine ⟨?_, ?_, ?_⟩
  · intro i hi hk
    have har := hw.arity i hi
    have h1 := e1 i hi (by simp [Node.nres, hk, Kind.nres])
    have h2 := hn i hi (by simp [hk, Kind.isSum])
    rw [hk] at h1 har
    simp only [Kind.arityOk] at har
    simp only [Kind.out, rd_cons_zero] at h1
    rw [getD_map_V _ _ (by omega)] at h1
    generalize (T.node i).args.getD 0 0 = a at *
    cases ha : v a with
    | none => rw [ha] at h1; exact absurd h1 h2
    | some r => rw [ha] at h1; exact ⟨by simp, h2, by simp [num, h1, ha, vneg]⟩
  · intro i hi hk
    have har := hw.arity i hi
    have h1 := e1 i hi (by simp [Node.nres, hk, Kind.nres])
    have h2 := hn i hi (by simp [hk, Kind.isSum])
    rw [hk] at h1 har
    simp only [Kind.arityOk] at har
    simp only [Kind.out, rd_cons_zero] at h1
    rw [getD_map_V _ _ (by omega), getD_map_V _ _ (by omega)] at h1
    generalize (T.node i).args.getD 0 0 = a at *
    generalize (T.node i).args.getD 1 0 = b at *
    cases ha : v a with
    | none => rw [ha] at h1; exact absurd h1 h2
    | some r =>
      cases hb : v b with
      | none => rw [ha, hb] at h1; exact absurd h1 h2
      | some q => rw [ha, hb] at h1; exact ⟨by simp, by simp, h2, by simp [num, h1, ha, hb, vadd]⟩
  · intro i hi hk
    have har := hw.arity i hi
    have h1 := e1 i hi (by simp [Node.nres, hk, Kind.nres])
    have h2 := hn i hi (by simp [hk, Kind.isSum])
    rw [hk] at h1 har
    simp only [Kind.arityOk] at har
    simp only [Kind.out, rd_cons_zero] at h1
    rw [getD_map_V _ _ (by omega), getD_map_V _ _ (by omega)] at h1
    generalize (T.node i).args.getD 0 0 = a at *
    generalize (T.node i).args.getD 1 0 = b at *
    cases ha : v a with
    | none => rw [ha] at h1; exact absurd h1 h2
    | some r =>
      cases hb : v b with
      | none => rw [ha, hb] at h1; exact absurd h1 h2
      | some q => rw [ha, hb] at h1; exact ⟨by simp, by simp, h2, by simp [num, h1, ha, hb, vsub]⟩

/-- the part of operator `nd` that is in its entry -/
noncomputable def part (v : ℕ → V) (nd : Node) (c : CsumInfo) : ℝ :=
  match nd.kind with
  | .neg => if c.first = true then - num v (nd.args.getD 0 0) else 0
  | .add => (if c.first = true then num v (nd.args.getD 0 0) else 0) +
      (if c.second = true then num v (nd.args.getD 1 0) else 0)
  | .sub => (if c.first = true then num v (nd.args.getD 0 0) else 0) -
      (if c.second = true then num v (nd.args.getD 1 0) else 0)
  | _ => 0

/-- the elements of an entry are defined before `r` and are not nan -/
def Elems (T : VTape) (r : ℕ) (c : CsumInfo) : Prop :=
  ∀ b ∈ c.add ++ c.sub, b < r ∧ ∀ v, SumPt T v → v b ≠ none

/-- the entry of operator `j` when the operators before `i` were handled -/
structure EntryOk (T : VTape) (i j : ℕ) (c : CsumInfo) : Prop where
  lt : j < T.nOp
  sum : (T.node j).kind.isSum = true
  el : Elems T (T.res j) c
  part : ∀ v, SumPt T v → c.S v = part v (T.node j) c
  neg : (T.node j).kind = .neg → c.first = true
  first : c.first = true → (T.node j).args.getD 0 0 < T.res i
  second : c.second = true → (T.node j).args.getD 1 0 < T.res i

/-- an entry that stands for the result of operator `i` -/
structure Full (T : VTape) (i : ℕ) (c : CsumInfo) : Prop where
  el : Elems T (T.res i) c
  val : ∀ v, SumPt T v → c.S v = num v (T.res i)

theorem isSum_cases {k : Kind} (h : k.isSum = true) : k = .neg ∨ k = .add ∨ k = .sub := by
  cases k <;> simp_all [Kind.isSum]

theorem finish_full {T : VTape} (hw : T.WF) {i : ℕ} {c : CsumInfo} (H : EntryOk T i i c) :
    Full T i (finish (T.node i) c) := by
  have hi := H.lt
  have har := hw.arity i hi
  have hargs := hw.args i hi
  rcases isSum_cases H.sum with hk | hk | hk
  · have hf := H.neg hk
    refine ⟨?_, ?_⟩
    · intro b hb
      simp only [finish, hk] at hb
      exact H.el b hb
    · intro v hv
      have e := H.part v hv
      simp only [finish, hk]
      simp only [CsumInfo.S, ValGraph.part, hk, hf, if_true] at e ⊢
      rw [e, (hv.neg i hi hk).2.2]
  · rw [hk] at har
    simp only [Kind.arityOk] at har
    have hx := hargs _ (getD_mem (l := (T.node i).args) (k := 0) (by omega))
    have hy := hargs _ (getD_mem (l := (T.node i).args) (k := 1) (by omega))
    refine ⟨?_, ?_⟩
    · intro b hb
      have hb' : b ∈ c.add ++ c.sub ∨ b = (T.node i).args.getD 0 0 ∨
          b = (T.node i).args.getD 1 0 := by
        simp only [finish, hk] at hb
        split_ifs at hb <;> simp only [List.mem_append, List.mem_singleton] at hb ⊢ <;> tauto
      rcases hb' with h | h | h
      · exact H.el b h
      · rw [h]; exact ⟨hx, fun v hv => (hv.add i hi hk).1⟩
      · rw [h]; exact ⟨hy, fun v hv => (hv.add i hi hk).2.1⟩
    · intro v hv
      have e := H.part v hv
      rw [(hv.add i hi hk).2.2.2]
      simp only [finish, hk]
      simp only [CsumInfo.S, ValGraph.part, hk] at e ⊢
      cases hf : c.first <;> cases hs : c.second <;> simp_all <;> linarith
  · rw [hk] at har
    simp only [Kind.arityOk] at har
    have hx := hargs _ (getD_mem (l := (T.node i).args) (k := 0) (by omega))
    have hy := hargs _ (getD_mem (l := (T.node i).args) (k := 1) (by omega))
    refine ⟨?_, ?_⟩
    · intro b hb
      have hb' : b ∈ c.add ++ c.sub ∨ b = (T.node i).args.getD 0 0 ∨
          b = (T.node i).args.getD 1 0 := by
        simp only [finish, hk] at hb
        split_ifs at hb <;> simp only [List.mem_append, List.mem_singleton] at hb ⊢ <;> tauto
      rcases hb' with h | h | h
      · exact H.el b h
      · rw [h]; exact ⟨hx, fun v hv => (hv.sub i hi hk).1⟩
      · rw [h]; exact ⟨hy, fun v hv => (hv.sub i hi hk).2.1⟩
    · intro v hv
      have e := H.part v hv
      rw [(hv.sub i hi hk).2.2.2]
      simp only [finish, hk]
      simp only [CsumInfo.S, ValGraph.part, hk] at e ⊢
      cases hf : c.first <;> cases hs : c.second <;> simp_all <;> linarith

theorem fresh_full {T : VTape} (hw : T.WF) {i : ℕ} (hi : i < T.nOp)
    (hs : (T.node i).kind.isSum = true) : Full T i (fresh (T.node i)) := by
  have har := hw.arity i hi
  have hargs := hw.args i hi
  rcases isSum_cases hs with hk | hk | hk
  · rw [hk] at har
    simp only [Kind.arityOk] at har
    have hx := hargs _ (getD_mem (l := (T.node i).args) (k := 0) (by omega))
    refine ⟨?_, ?_⟩
    · intro b hb
      simp only [fresh, hk, List.nil_append, List.mem_singleton] at hb
      rw [hb]; exact ⟨hx, fun v hv => (hv.neg i hi hk).1⟩
    · intro v hv
      rw [(hv.neg i hi hk).2.2]
      simp [fresh, hk, CsumInfo.S]
  · rw [hk] at har
    simp only [Kind.arityOk] at har
    have hx := hargs _ (getD_mem (l := (T.node i).args) (k := 0) (by omega))
    have hy := hargs _ (getD_mem (l := (T.node i).args) (k := 1) (by omega))
    refine ⟨?_, ?_⟩
    · intro b hb
      simp only [fresh, hk, List.append_nil, List.mem_cons, List.not_mem_nil, or_false] at hb
      rcases hb with h | h
      · rw [h]; exact ⟨hx, fun v hv => (hv.add i hi hk).1⟩
      · rw [h]; exact ⟨hy, fun v hv => (hv.add i hi hk).2.1⟩
    · intro v hv
      rw [(hv.add i hi hk).2.2.2]
      simp [fresh, hk, CsumInfo.S]
  · rw [hk] at har
    simp only [Kind.arityOk] at har
    have hx := hargs _ (getD_mem (l := (T.node i).args) (k := 0) (by omega))
    have hy := hargs _ (getD_mem (l := (T.node i).args) (k := 1) (by omega))
    by_cases he : (T.node i).args.getD 0 0 = (T.node i).args.getD 1 0
    · refine ⟨?_, ?_⟩
      · intro b hb
        simp only [fresh, hk, he, ne_eq, not_true_eq_false, if_false] at hb
        simp at hb
      · intro v hv
        rw [(hv.sub i hi hk).2.2.2, he]
        simp only [fresh, hk, he, ne_eq, not_true_eq_false, if_false]
        simp [CsumInfo.S]
    · refine ⟨?_, ?_⟩
      · intro b hb
        simp only [fresh, hk, ne_eq, he, not_false_eq_true, if_true, List.mem_append,
          List.mem_singleton] at hb
        rcases hb with h | h
        · rw [h]; exact ⟨hx, fun v hv => (hv.sub i hi hk).1⟩
        · rw [h]; exact ⟨hy, fun v hv => (hv.sub i hi hk).2.1⟩
      · intro v hv
        rw [(hv.sub i hi hk).2.2.2]
        simp only [fresh, hk, ne_eq, he, not_false_eq_true, if_true]
        simp [CsumInfo.S]

/-- an entry that has nothing in it, or the entry that is there -/
structure Entry0 (T : VTape) (i j : ℕ) (c : CsumInfo) : Prop where
  el : Elems T (T.res j) c
  part : ∀ v, SumPt T v → c.S v = part v (T.node j) c
  first : c.first = true → (T.node j).args.getD 0 0 < T.res i
  second : c.second = true → (T.node j).args.getD 1 0 < T.res i

set_option maxHeartbeats 1000000 in
theorem absorb_ok {T : VTape} (hw : T.WF) {i j : ℕ} (hi : i < T.nOp) (hj : j < T.nOp)
    (hni : (T.node i).nres = 1)
    (hs : (T.node j).kind.isSum = true) (hmem : T.res i ∈ (T.node j).args) {ci cj : CsumInfo}
    (hc : Full T i ci) (hcj : Entry0 T i j cj) :
    EntryOk T (i + 1) j (absorb (T.node j) (T.res i) ci cj) := by
  have hlt : T.res i < T.res j := hw.args j hj _ hmem
  have hres := res_succ T hi
  have har := hw.arity j hj
  have hel : ∀ b, b ∈ ci.add ++ ci.sub → b < T.res j ∧ ∀ v, SumPt T v → v b ≠ none := by
    intro b hb
    have := hc.el b hb
    exact ⟨by omega, this.2⟩
  have hel' : ∀ l1 l2 : List ℕ, (∀ b ∈ l1 ++ l2, b ∈ cj.add ++ cj.sub ∨ b ∈ ci.add ++ ci.sub) →
      ∀ f g, Elems T (T.res j) ⟨f, g, l1, l2⟩ := by
    intro l1 l2 h f g b hb
    rcases h b hb with h | h
    · exact hcj.el b h
    · exact hel b h
  rcases isSum_cases hs with hk | hk | hk
  · -- neg
    rw [hk] at har
    simp only [Kind.arityOk] at har
    match hargs : (T.node j).args, har with
    | [a], _ =>
      have ha : T.res i = a := by rw [hargs] at hmem; simpa using hmem
      have hff : cj.first = false := by
        by_contra hh
        have := hcj.first (by simpa using hh)
        rw [hargs] at this
        simp at this
        omega
      have e : absorb (T.node j) (T.res i) ci cj =
          ⟨true, cj.second, cj.add ++ ci.sub, cj.sub ++ ci.add⟩ := by
        simp [absorb, hk]
      rw [e]
      refine ⟨hj, hs, hel' _ _ ?_ _ _, ?_, fun _ => rfl, ?_, ?_⟩
      · intro b hb; simp only [List.mem_append] at hb ⊢; tauto
      · intro v hv
        have e1 := hc.val v hv
        have e2 := hcj.part v hv
        simp only [CsumInfo.S, ValGraph.part, hk, hff, hargs, List.map_append, List.sum_append] at *
        simp only [List.getD_cons_zero, if_true, Bool.false_eq_true, if_false] at *
        rw [← ha]
        linarith
      · intro _; rw [hargs]; simp only [List.getD_cons_zero]; omega
      · intro h; have := hcj.second h; omega
  · -- add
    rw [hk] at har
    simp only [Kind.arityOk] at har
    match hargs : (T.node j).args, har with
    | [a, b], _ =>
      have hab : T.res i = a ∨ T.res i = b := by rw [hargs] at hmem; simpa using hmem
      have hf : cj.first = true → a < T.res i := by
        intro h; have := hcj.first h; rw [hargs] at this; simpa using this
      have hg : cj.second = true → b < T.res i := by
        intro h; have := hcj.second h; rw [hargs] at this; simpa using this
      by_cases heq : b = a
      · have hff : cj.first = false := by
          by_contra hh
          have := hf (by simpa using hh); omega
        have hgg : cj.second = false := by
          by_contra hh
          have := hg (by simpa using hh); omega
        have e : absorb (T.node j) (T.res i) ci cj =
            ⟨true, true, cj.add ++ ci.add ++ ci.add, cj.sub ++ ci.sub ++ ci.sub⟩ := by
          simp [absorb, hk, hargs, heq]
        rw [e]
        refine ⟨hj, hs, hel' _ _ ?_ _ _, ?_, fun _ => rfl, ?_, ?_⟩
        · intro b hb; simp only [List.mem_append] at hb ⊢; tauto
        · intro v hv
          have e1 := hc.val v hv
          have e2 := hcj.part v hv
          simp only [CsumInfo.S, ValGraph.part, hk, hff, hgg, hargs, List.map_append,
            List.sum_append] at *
          simp only [List.getD_cons_zero, List.getD_cons_succ, if_true, Bool.false_eq_true,
            if_false] at *
          rw [heq, show a = T.res i by omega]
          linarith
        · intro _; rw [hargs]; simp only [List.getD_cons_zero]; omega
        · intro _; rw [hargs]; simp only [List.getD_cons_zero, List.getD_cons_succ]; omega
      · by_cases hr : b = T.res i
        · have hgg : cj.second = false := by
            by_contra hh
            have := hg (by simpa using hh); omega
          have e : absorb (T.node j) (T.res i) ci cj =
              ⟨cj.first, true, cj.add ++ ci.add, cj.sub ++ ci.sub⟩ := by
            simp only [absorb, hk, hargs, List.getD_cons_zero, List.getD_cons_succ]
            have hne : T.res i ≠ a := by omega
            simp [hr, hne]
          rw [e]
          refine ⟨hj, hs, hel' _ _ ?_ _ _, ?_, fun h => absurd h (by rw [hk]; simp), ?_, ?_⟩
          · intro b hb; simp only [List.mem_append] at hb ⊢; tauto
          · intro v hv
            have e1 := hc.val v hv
            have e2 := hcj.part v hv
            simp only [CsumInfo.S, ValGraph.part, hk, hgg, hargs, List.map_append,
              List.sum_append] at *
            simp only [List.getD_cons_zero, List.getD_cons_succ, if_true, Bool.false_eq_true,
              if_false] at *
            rw [hr]
            linarith
          · intro h; rw [hargs]; simp only [List.getD_cons_zero]; have := hf h; omega
          · intro _; rw [hargs]; simp only [List.getD_cons_zero, List.getD_cons_succ]; omega
        · have ha : T.res i = a := by omega
          have hff : cj.first = false := by
            by_contra hh
            have := hf (by simpa using hh); omega
          have e : absorb (T.node j) (T.res i) ci cj =
              ⟨true, cj.second, cj.add ++ ci.add, cj.sub ++ ci.sub⟩ := by
            simp only [absorb, hk, hargs, List.getD_cons_zero, List.getD_cons_succ]
            simp [heq, hr]
          rw [e]
          refine ⟨hj, hs, hel' _ _ ?_ _ _, ?_, fun _ => rfl, ?_, ?_⟩
          · intro b hb; simp only [List.mem_append] at hb ⊢; tauto
          · intro v hv
            have e1 := hc.val v hv
            have e2 := hcj.part v hv
            simp only [CsumInfo.S, ValGraph.part, hk, hff, hargs, List.map_append,
              List.sum_append] at *
            simp only [List.getD_cons_zero, List.getD_cons_succ, if_true, Bool.false_eq_true,
              if_false] at *
            rw [← ha]
            linarith
          · intro _; rw [hargs]; simp only [List.getD_cons_zero]; omega
          · intro h; rw [hargs]; simp only [List.getD_cons_zero, List.getD_cons_succ]
            have := hg h; omega
  · -- sub
    rw [hk] at har
    simp only [Kind.arityOk] at har
    match hargs : (T.node j).args, har with
    | [a, b], _ =>
      have hab : T.res i = a ∨ T.res i = b := by rw [hargs] at hmem; simpa using hmem
      have hf : cj.first = true → a < T.res i := by
        intro h; have := hcj.first h; rw [hargs] at this; simpa using this
      have hg : cj.second = true → b < T.res i := by
        intro h; have := hcj.second h; rw [hargs] at this; simpa using this
      by_cases heq : b = a
      · have hff : cj.first = false := by
          by_contra hh
          have := hf (by simpa using hh); omega
        have hgg : cj.second = false := by
          by_contra hh
          have := hg (by simpa using hh); omega
        have hai : a = T.res i := by omega
        have e : absorb (T.node j) (T.res i) ci cj = ⟨true, true, cj.add, cj.sub⟩ := by
          simp [absorb, hk, hargs, heq, hai]
        rw [e]
        refine ⟨hj, hs, hel' _ _ ?_ _ _, ?_, fun _ => rfl, ?_, ?_⟩
        · intro b hb; simp only [List.mem_append] at hb ⊢; tauto
        · intro v hv
          have e2 := hcj.part v hv
          simp only [CsumInfo.S, ValGraph.part, hk, hff, hgg, hargs] at *
          simp only [List.getD_cons_zero, List.getD_cons_succ, if_true, Bool.false_eq_true,
            if_false] at *
          rw [heq]
          linarith
        · intro _; rw [hargs]; simp only [List.getD_cons_zero]; omega
        · intro _; rw [hargs]; simp only [List.getD_cons_zero, List.getD_cons_succ]; omega
      · by_cases hr : b = T.res i
        · have hgg : cj.second = false := by
            by_contra hh
            have := hg (by simpa using hh); omega
          have hne : T.res i ≠ a := by omega
          have e : absorb (T.node j) (T.res i) ci cj =
              ⟨cj.first, true, cj.add ++ ci.sub, cj.sub ++ ci.add⟩ := by
            simp only [absorb, hk, hargs, List.getD_cons_zero, List.getD_cons_succ]
            simp [hr, hne]
          rw [e]
          refine ⟨hj, hs, hel' _ _ ?_ _ _, ?_, fun h => absurd h (by rw [hk]; simp), ?_, ?_⟩
          · intro b hb; simp only [List.mem_append] at hb ⊢; tauto
          · intro v hv
            have e1 := hc.val v hv
            have e2 := hcj.part v hv
            simp only [CsumInfo.S, ValGraph.part, hk, hgg, hargs, List.map_append,
              List.sum_append] at *
            simp only [List.getD_cons_zero, List.getD_cons_succ, if_true, Bool.false_eq_true,
              if_false] at *
            rw [hr]
            linarith
          · intro h; rw [hargs]; simp only [List.getD_cons_zero]; have := hf h; omega
          · intro _; rw [hargs]; simp only [List.getD_cons_zero, List.getD_cons_succ]; omega
        · have ha : T.res i = a := by omega
          have hff : cj.first = false := by
            by_contra hh
            have := hf (by simpa using hh); omega
          have e : absorb (T.node j) (T.res i) ci cj =
              ⟨true, cj.second, cj.add ++ ci.add, cj.sub ++ ci.sub⟩ := by
            simp only [absorb, hk, hargs, List.getD_cons_zero, List.getD_cons_succ]
            simp [heq, hr]
          rw [e]
          refine ⟨hj, hs, hel' _ _ ?_ _ _, ?_, fun _ => rfl, ?_, ?_⟩
          · intro b hb; simp only [List.mem_append] at hb ⊢; tauto
          · intro v hv
            have e1 := hc.val v hv
            have e2 := hcj.part v hv
            simp only [CsumInfo.S, ValGraph.part, hk, hff, hargs, List.map_append,
              List.sum_append] at *
            simp only [List.getD_cons_zero, List.getD_cons_succ, if_true, Bool.false_eq_true,
              if_false] at *
            rw [← ha]
            linarith
          · intro _; rw [hargs]; simp only [List.getD_cons_zero]; omega
          · intro h; rw [hargs]; simp only [List.getD_cons_zero, List.getD_cons_succ]
            have := hg h; omega

/-- loop invariant of `summation` -/
structure SumInv (T : VTape) (i : ℕ) (s : SumSt) : Prop where
  len : s.nodes.length = T.nOp
  late : ∀ j, i ≤ j → s.nodes.getD j default = T.node j
  nodes : ∀ j, j < T.nOp → s.nodes.getD j default = T.node j ∨
    (T.node j).kind.isSum = true ∧ 0 < j ∧
      ∃ c, s.nodes.getD j default = csumNode c ∧ Full T j c
  entry : ∀ j, i ≤ j → ∀ c, s.map j = some c → EntryOk T i j c

theorem EntryOk.mono {T : VTape} {i i' j : ℕ} (h : i ≤ i') {c : CsumInfo} (H : EntryOk T i j c) :
    EntryOk T i' j c := by
  have := res_mono T h
  refine ⟨H.lt, H.sum, H.el, H.part, H.neg, fun h => ?_, fun h => ?_⟩
  · have := H.first h; omega
  · have := H.second h; omega

theorem getD_set_node (l : List Node) (i j : ℕ) (nd : Node) (hi : i < l.length) :
    (l.set i nd).getD j default = if j = i then nd else l.getD j default := by
  simp only [List.getD_eq_getElem?_getD, List.getElem?_set]
  by_cases h : i = j
  · subst h; simp [hi]
  · simp [h, Ne.symm h]

theorem sumStep_inv {T : VTape} {use : ℕ → ℕ} (hw : T.WF)
    (htag : ∀ a, use a = 0 ∨ use a = T.nOp ∨ use a < T.nOp ∧ a ∈ (T.node (use a)).args)
    {i : ℕ} (hi : i < T.nOp) (hi0 : 0 < i) {s : SumSt} (H : SumInv T i s) :
    SumInv T (i + 1) (sumStep T use s i) := by
  have weak : SumInv T (i + 1) s :=
    ⟨H.len, fun j hj => H.late j (by omega), H.nodes,
      fun j hj c hc => (H.entry j (by omega) c hc).mono (by omega)⟩
  unfold sumStep
  simp only []
  by_cases hc : (T.node i).kind.isSum = true ∧ use (T.res i) ≠ 0
  · rw [if_pos hc]
    obtain ⟨hs, hu⟩ := hc
    have hn1 : (T.node i).nres = 1 := by
      rcases isSum_cases hs with h | h | h <;> simp [Node.nres, h, Kind.nres]
    by_cases hj : use (T.res i) = T.nOp ∨
        (s.nodes.getD (use (T.res i)) default).kind.isSum = false
    · rw [if_pos hj]
      cases hm : s.map i with
      | none => exact weak
      | some c =>
        have hfull := finish_full hw (H.entry i le_rfl c hm)
        have hlen : i < s.nodes.length := by rw [H.len]; exact hi
        simp only [Option.map_some]
        refine ⟨by simp [H.len], ?_, ?_, ?_⟩
        · intro j hj
          show (s.nodes.set i _).getD j default = _
          rw [getD_set_node _ _ _ _ hlen, if_neg (by omega)]
          exact H.late j (by omega)
        · intro j hj
          show (s.nodes.set i _).getD j default = _ ∨ _ ∧ _ ∧ ∃ c, (s.nodes.set i _).getD j default = _ ∧ _
          simp only [getD_set_node _ _ _ _ hlen]
          by_cases hji : j = i
          · subst hji
            right
            rw [if_pos rfl]
            exact ⟨hs, hi0, _, rfl, hfull⟩
          · rw [if_neg hji]; exact H.nodes j hj
        · intro j hj c' hc'
          have hji : j ≠ i := by omega
          simp only [Function.update_of_ne hji] at hc'
          exact (H.entry j (by omega) c' hc').mono (by omega)
    · rw [if_neg hj]
      push Not at hj
      obtain ⟨hj1, hj2⟩ := hj
      obtain ⟨hjlt, hmem⟩ : use (T.res i) < T.nOp ∧ T.res i ∈ (T.node (use (T.res i))).args := by
        rcases htag (T.res i) with h | h | h
        · exact absurd h hu
        · exact absurd h hj1
        · exact h
      generalize use (T.res i) = j at *
      have hij : i < j := by
        have h1 := hw.args j hjlt _ hmem
        by_contra hh
        have := res_mono T (show j ≤ i by omega)
        omega
      have hnj := H.late j (by omega)
      rw [hnj] at hj2 ⊢
      have hsj : (T.node j).kind.isSum = true := by simpa using hj2
      have hfull : Full T i (((s.map i).map (finish (T.node i))).getD (fresh (T.node i))) := by
        cases hm : s.map i with
        | none => exact fresh_full hw hi hs
        | some c => exact finish_full hw (H.entry i le_rfl c hm)
      have hcj : Entry0 T i j ((s.map j).getD ⟨false, false, [], []⟩) := by
        cases hm : s.map j with
        | none =>
          refine ⟨by intro b hb; simp at hb, ?_, by simp, by simp⟩
          intro v _
          simp only [Option.getD_none, CsumInfo.S, ValGraph.part]
          rcases isSum_cases hsj with h | h | h <;> simp [h]
        | some c =>
          have := H.entry j (by omega) c hm
          exact ⟨this.el, this.part, this.first, this.second⟩
      have hnew := absorb_ok hw hi hjlt hn1 hsj hmem hfull hcj
      refine ⟨H.len, fun k hk => H.late k (by omega), H.nodes, ?_⟩
      intro k hk c' hc'
      by_cases hkj : k = j
      · subst hkj
        simp only [Function.update_self] at hc'
        injection hc' with hc'
        subst hc'
        exact hnew
      · simp only [Function.update_of_ne hkj] at hc'
        exact (H.entry k (by omega) c' hc').mono (by omega)
  · rw [if_neg hc]; exact weak

theorem sumLoop_inv {T : VTape} {P : Prim} (hw : T.WF) (hp : T.Plain) :
    SumInv T T.nOp (forRange 1 T.nOp (⟨T.nodes, fun _ => none⟩ : SumSt)
      (fun i s => sumStep T (revDepend T P).use s i)) := by
  obtain ⟨l0, hl0⟩ := hw.head
  have h0 : 0 < T.nOp := by simp [VTape.nOp, hl0]
  refine forRange_ind (show 1 ≤ T.nOp from h0) (P := fun i s => SumInv T i s) ?_ ?_
  · exact ⟨rfl, fun _ _ => rfl, fun _ _ => Or.inl rfl, fun _ _ _ h => by simp at h⟩
  · intro i s h1 h2 H
    exact sumStep_inv hw (revDepend_inv P hw hp).tag h2 h1 H

section
variable {T : VTape} {P : Prim} (hw : T.WF) (hp : T.Plain)
include hw hp

theorem summation_nOp : (summation T P).nOp = T.nOp := (sumLoop_inv (P := P) hw hp).len

theorem summation_node (j : ℕ) (hj : j < T.nOp) : (summation T P).node j = T.node j ∨
    (T.node j).kind.isSum = true ∧ 0 < j ∧
      ∃ c, (summation T P).node j = csumNode c ∧ Full T j c :=
  (sumLoop_inv (P := P) hw hp).nodes j hj

theorem summation_nres (j : ℕ) (hj : j < T.nOp) :
    ((summation T P).node j).nres = (T.node j).nres := by
  rcases summation_node (P := P) hw hp j hj with h | ⟨hs, _, c, h, _⟩
  · rw [h]
  · rw [h]
    rcases isSum_cases hs with h | h | h <;> simp [Node.nres, h, Kind.nres, csumNode]

theorem summation_res (i : ℕ) (hi : i ≤ T.nOp) : (summation T P).res i = T.res i := by
  induction i with
  | zero => simp only [res_zero]; rfl
  | succ i ih =>
    rw [res_succ _ (by rw [summation_nOp hw hp]; omega), res_succ T (by omega), ih (by omega),
      summation_nres hw hp i (by omega)]

theorem summation_nVal : (summation T P).nVal = T.nVal := by
  rw [← res_nOp, ← res_nOp, summation_nOp hw hp, summation_res hw hp _ le_rfl]

theorem summation_wf : (summation T P).WF := by
  obtain ⟨l0, hl0⟩ := hw.head
  have h0 : 0 < T.nOp := by simp [VTape.nOp, hl0]
  refine ⟨?_, ?_, ?_, ?_⟩
  · have hn0 : T.node 0 = ⟨.con none, []⟩ := by simp [VTape.node, hl0]
    have hlen := summation_nOp (P := P) hw hp
    rcases summation_node (P := P) hw hp 0 h0 with h | ⟨_, h, _⟩
    · rw [hn0] at h
      cases hl : (summation T P).nodes with
      | nil => rw [show (summation T P).nOp = (summation T P).nodes.length from rfl, hl] at hlen; simp at hlen; omega
      | cons a l =>
        have : a = ⟨.con none, []⟩ := by simpa [VTape.node, hl] using h
        exact ⟨l, by rw [this]⟩
    · omega
  · intro i hi a ha
    rw [summation_nOp hw hp] at hi
    rw [summation_res hw hp i hi.le]
    rcases summation_node (P := P) hw hp i hi with h | ⟨_, _, c, h, hc⟩
    · rw [h] at ha; exact hw.args i hi a ha
    · rw [h] at ha; exact (hc.el a ha).1
  · intro i hi
    rw [summation_nOp hw hp] at hi
    rcases summation_node (P := P) hw hp i hi with h | ⟨_, _, c, h, hc⟩
    · rw [h]; exact hw.arity i hi
    · rw [h]; simp [csumNode, Kind.arityOk]
  · intro d hd
    rw [summation_nVal hw hp]; exact hw.dep d hd

theorem summation_plain : (summation T P).Plain := by
  intro nd hnd
  rw [nodes_eq_range] at hnd
  simp only [List.mem_map, List.mem_range] at hnd
  obtain ⟨i, hi, rfl⟩ := hnd
  rw [summation_nOp hw hp] at hi
  rcases summation_node (P := P) hw hp i hi with h | ⟨_, _, c, h, hc⟩
  · rw [h]; exact hp _ (node_mem T hi)
  · rw [h]; rfl

/-- at a point where no sum, difference or negation is nan, the values of the tape satisfy the
equations of the tape that `summation` makes -/
theorem summation_sol {x : List V} {v : ℕ → V} (hs : Sol T P x v)
    (hn : ∀ i, i < T.nOp → (T.node i).kind.isSum = true → v (T.res i) ≠ none) :
    Sol (summation T P) P x v := by
  have hv := sumPt_of_sol hw hs hn
  refine ⟨hs.1, ?_⟩
  intro i hi k hk
  rw [summation_nOp hw hp] at hi
  rw [summation_nres hw hp i hi] at hk
  rw [summation_res hw hp i hi.le]
  rcases summation_node (P := P) hw hp i hi with h | ⟨hsum, _, c, h, hc⟩
  · rw [h]; exact hs.2 i hi k hk
  · have hk0 : k = 0 := by
      rcases isSum_cases hsum with h | h | h <;>
        (simp [Node.nres, h, Kind.nres] at hk; exact hk)
    subst hk0
    rw [h, csum_out P v c (fun b hb => (hc.el b hb).2 v hv), hc.val v hv]
    obtain ⟨r, hr⟩ := Option.ne_none_iff_exists'.mp (hn i hi hsum)
    simp [rd, num, hr]

/-- **`summation` preserves the dependents, the number of false comparisons and the printed text,
for every tape without dynamic vectors, at every point where no sum, difference or negation on the
tape is nan.** -/
theorem summation_ok_partial {x : List V} (hx : x.length = T.nInd)
    (hn : ∀ i, i < T.nOp → (T.node i).kind.isSum = true →
      rd (T.run P x).val (T.res i) ≠ none) :
    (summation T P).eval P x = T.eval P x ∧
      (summation T P).compareFalse P x = T.compareFalse P x ∧
      (summation T P).printed P x = T.printed P x := by
  have hs := run_sol (P := P) hp hw hx
  have hs' := summation_sol hw hp hs hn
  have hw' := summation_wf (P := P) hw hp
  have hp' := summation_plain (P := P) hw hp
  obtain ⟨c1, o1⟩ := run_cf_out hp hw hx hs
  obtain ⟨c2, o2⟩ := run_cf_out hp' hw' hx hs'
  have hq : ∀ i, i < T.nOp → ∀ v, (FalseAt v ((summation T P).node i) ↔ FalseAt v (T.node i)) ∧
      printAt T.nInd v ((summation T P).node i) = printAt T.nInd v (T.node i) := by
    intro i hi v
    rcases summation_node (P := P) hw hp i hi with h | ⟨hsum, _, c, h, hc⟩
    · rw [h]; exact ⟨Iff.rfl, rfl⟩
    · rw [h]
      rcases isSum_cases hsum with h | h | h <;> simp [FalseAt, printAt, h, csumNode]
  refine ⟨?_, ?_, ?_⟩
  · rw [eval_eq hp' hw' hx hs', eval_eq hp hw hx hs]; rfl
  · rw [c2, c1, nodes_eq_range, nodes_eq_range T, summation_nOp hw hp]
    simp only [List.countP_map]
    apply List.countP_congr
    intro i hi
    simp only [Function.comp, decide_eq_true_eq]
    exact (hq i (List.mem_range.mp hi) _).1
  · rw [o2, o1, nodes_eq_range, nodes_eq_range T, summation_nOp hw hp]
    simp only [List.filterMap_map]
    apply List.filterMap_congr
    intro i hi
    exact (hq i (List.mem_range.mp hi) _).2

end

end CppAD.ValGraph
