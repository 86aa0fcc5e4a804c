/-
The value graph part of `optimize`: `renumber`, then `summation`, then `dead_code`.
-/
import Verif.ValGraph.DeadCode
import Verif.ValGraph.FoldCon
import Verif.ValGraph.Summation

namespace CppAD.ValGraph
open Classical

/-- every operator has a representative: an operator of the same kind whose result its result is
mapped to, and that has its arguments -/
def RenLive (T : VTape) (i : ℕ) (s : RenSt) : Prop :=
  ∀ j, j < i → (T.node j).nres ≠ 0 → ∃ m, m < T.nOp ∧ (T.node m).kind = (T.node j).kind ∧
    s.idx (T.res j) = T.res m ∧ ∀ b ∈ (T.node j).args, s.idx b ∈ (T.node m).args.map s.idx

theorem matches_mem {idx : ℕ → ℕ} {a b : Node} (h : matches' idx a b)
    (ha : a.kind.arityOk a.args.length) : ∀ c ∈ a.args, idx c ∈ b.args.map idx := by
  obtain ⟨hk, hl, h | ⟨hc, h1, h2⟩⟩ := h
  · intro c hc
    rw [← h]; exact List.mem_map_of_mem hc
  · have hl2 : a.args.length = 2 := by
      rcases hc with hc | hc <;> (rw [hc] at ha; exact ha)
    match hA : a.args, hl2 with
    | [p, q], _ =>
      rw [hA] at h1 h2 hl
      simp only [List.getD_cons_zero, List.getD_cons_succ] at h1 h2
      have hb : b.args.length = 2 := by rw [← hl]; rfl
      intro c hcm
      have hc' : c = p ∨ c = q := by simpa using hcm
      rcases hc' with rfl | rfl
      · rw [h1]; exact List.mem_map_of_mem (getD_mem (by omega))
      · rw [h2]; exact List.mem_map_of_mem (getD_mem (by omega))

theorem renLoop_live (hash : Kind → List ℕ → ℕ) {T : VTape} (hw : T.WF) (n : ℕ)
    (hn : n ≤ T.nOp) : RenLive T n (renLoop hash T n) := by
  induction n with
  | zero => intro j hj; omega
  | succ i ih =>
    have hi : i < T.nOp := hn
    have H := renLoop_inv_to hash hw i (by omega)
    have L := ih (by omega)
    have e : renLoop hash T (i + 1) = renStep hash T (renLoop hash T i) i := by
      unfold renLoop; rw [forRange_succ (Nat.zero_le _)]
    rw [e]
    set s := renLoop hash T i with hs
    have hnode := H.later i le_rfl
    have hres := res_succ T hi
    obtain ⟨l0, hl0⟩ := hw.head
    have h0 : 0 < T.nOp := by simp [VTape.nOp, hl0]
    have hn0 : T.node 0 = ⟨.con none, []⟩ := by simp [VTape.node, hl0]
    -- the index map does not change
    have keep : ∀ t : RenSt, t.idx = s.idx → RenLive T (i + 1) t := by
      intro t ht j hj hz
      rw [ht]
      rcases Nat.lt_succ_iff_lt_or_eq.mp hj with h | h
      · exact L j h hz
      · subst h
        exact ⟨j, hi, rfl, H.same _ le_rfl, fun b hb => List.mem_map_of_mem hb⟩
    have matched : ∀ m tb, m < i → (T.node m).kind = (T.node i).kind →
        (∀ b ∈ (T.node i).args, s.idx b ∈ (T.node m).args.map s.idx) →
        RenLive T (i + 1) ⟨s.nodes, setRange s.idx (T.res i) (T.res m) (T.node i).nres, tb⟩ := by
      intro m tb hm hk harg j hj hz
      have hold : ∀ a, a < T.res i →
          setRange s.idx (T.res i) (T.res m) (T.node i).nres a = s.idx a := by
        intro a ha
        simp only [setRange]
        rw [if_neg (by omega)]
      have hmap : ∀ q, q ≤ i → q < T.nOp → (T.node q).args.map
          (setRange s.idx (T.res i) (T.res m) (T.node i).nres) = (T.node q).args.map s.idx := by
        intro q hq hq'
        apply List.map_congr_left
        intro a ha
        have h1 := hw.args q hq' a ha
        have h2 := res_mono T hq
        exact hold a (by omega)
      have hb : ∀ b ∈ (T.node j).args,
          setRange s.idx (T.res i) (T.res m) (T.node i).nres b = s.idx b := by
        intro b hb
        have h1 := hw.args j (by omega) b hb
        have h2 := res_mono T (show j ≤ i by omega)
        exact hold b (by omega)
      rcases Nat.lt_succ_iff_lt_or_eq.mp hj with h | h
      · obtain ⟨q, q1, q2, q3, q4⟩ := L j h hz
        have hrj : T.res j < T.res i := by
          have h1 := res_succ T (show j < T.nOp by omega)
          have h2 := res_mono T (show j + 1 ≤ i from h)
          omega
        have hqi : q ≤ i := by
          by_contra hh
          have h1 := res_mono T (show i + 1 ≤ q by omega)
          have h2 := H.le (T.res j)
          have h3 := res_mono T (show i ≤ i + 1 by omega)
          omega
        refine ⟨q, q1, q2, (hold _ hrj).trans q3, fun b hb' => ?_⟩
        show setRange s.idx (T.res i) (T.res m) (T.node i).nres b ∈ List.map _ _
        rw [hb b hb', hmap q hqi q1]; exact q4 b hb'
      · subst h
        refine ⟨m, by omega, hk, ?_, fun b hb' => ?_⟩
        · simp only [setRange]
          rw [if_pos (by omega)]; omega
        · show setRange s.idx (T.res j) (T.res m) (T.node j).nres b ∈ List.map _ _
          rw [hb b hb', hmap m (by omega) (by omega)]; exact harg b hb'
    unfold renStep
    simp only
    rcases matchOp_cases hash (fun j => s.nodes.getD j default) s.idx s.table i with
      ⟨hk, hm⟩ | ⟨hk, c, j, hj, hma, hm⟩ | ⟨hk, c, hm⟩
    · rw [hm]
      rw [hnode] at hk
      have hargs : (T.node i).args = [] := by
        have := hw.arity i hi; rw [hk] at this; exact List.length_eq_zero_iff.mp this
      by_cases hi0 : (0 : ℕ) = i
      · simp only [hi0, if_true]; exact keep _ rfl
      · simp only [hi0, if_false]
        rw [if_neg (by simp [Node.nres, hk, Kind.nres])]
        exact matched 0 _ (by omega) (by rw [hn0, hk]) (by rw [hargs]; simp)
    · rw [hm]
      obtain ⟨hji, hnj⟩ := H.table c j hj
      rw [hnode, hnj] at hma
      simp only [show ¬ (j = i) by omega, if_false]
      split_ifs with hz
      · exact keep _ rfl
      · exact matched j _ hji hma.1.symm (matches_mem hma (hw.arity i hi))
    · rw [hm]
      simp only [if_true]
      exact keep _ rfl

theorem renumber_live (hash : Kind → List ℕ → ℕ) {T : VTape} (hw : T.WF) (hp : T.Plain) {a : ℕ}
    (h : Live T a) : Live (renumber hash T) ((renLoop hash T T.nOp).idx a) := by
  induction h with
  | dep h => exact Live.dep (List.mem_map_of_mem h)
  | @arg i a hi hr hc _ ha ih =>
    obtain ⟨m, m1, m2, m3, m4⟩ := renLoop_live hash hw T.nOp le_rfl i hi hr
    have hnr : (T.node m).nres ≠ 0 := by simp only [Node.nres, m2] at *; exact hr
    have hnode : (renumber hash T).node m =
        ⟨(T.node m).kind, (T.node m).args.map (renLoop hash T T.nOp).idx⟩ := by
      rw [renumber_node hash m m1]
      rcases (renLoop_inv hash hw hp).nodes m m1 with h | ⟨h, _⟩
      · rw [h]
      · exact absurd h hnr
    rw [m3, ← renumber_res hash hw hp m m1.le] at ih
    refine Live.arg (i := m) (by rw [renumber_nOp hash hw hp]; exact m1)
      (by rw [renumber_nres hash hw hp m m1]; exact hnr) ?_ ih ?_
    · rw [hnode, m2]; exact hc
    · rw [hnode]; exact m4 a ha

/-- `renumber` keeps the property that the operands of what `dead_code` keeps are not dead code -/
theorem renumber_keptLive (hash : Kind → List ℕ → ℕ) {T : VTape} (hw : T.WF) (hp : T.Plain)
    (hk : T.KeptLive) : (renumber hash T).KeptLive := by
  have H := renLoop_inv hash hw hp
  intro nd hnd hkept a ha
  rw [nodes_eq_range] at hnd
  simp only [List.mem_map, List.mem_range] at hnd
  obtain ⟨i, hi, rfl⟩ := hnd
  rw [renumber_nOp hash hw hp] at hi
  have hflag : (renumber hash T).keepCompare = T.keepCompare ∧
      (renumber hash T).keepPrint = T.keepPrint ∧ (renumber hash T).nInd = T.nInd := ⟨rfl, rfl, rfl⟩
  rw [renumber_node hash i hi] at hkept ha
  have hin := H.ind T.nInd le_rfl
  have hpl := hp _ (node_mem T hi)
  have har := hw.arity i hi
  rcases H.nodes i hi with h | ⟨hz, h, _⟩
  · rw [h] at hkept ha
    have hk' : Kept T (T.node i) := by
      unfold Kept at hkept ⊢
      rw [hflag.1, hflag.2.1, hflag.2.2] at hkept
      cases hkind : (T.node i).kind with
      | comp c => simp only [hkind] at hkept ⊢; exact hkept
      | pri b c =>
        simp only [hkind] at hkept ⊢
        refine ⟨hkept.1, fun he => hkept.2 ?_⟩
        rw [hkind] at har
        simp only [Kind.arityOk] at har
        have : ((T.node i).args.map (renLoop hash T T.nOp).idx).getD 0 0 =
            (renLoop hash T T.nOp).idx ((T.node i).args.getD 0 0) := by
          simp [List.getD_eq_getElem?_getD, show 0 < (T.node i).args.length by omega]
        rw [this, he, hin]
      | _ => simp only [hkind] at hkept
    simp only [List.mem_map] at ha
    obtain ⟨b, hb, rfl⟩ := ha
    rcases hk _ (node_mem T hi) hk' b hb with h' | h'
    · left; rw [H.ind b h']; exact h'
    · right; exact renumber_live hash hw hp h'
  · exfalso
    rw [h] at hkept
    unfold Kept at hkept
    rw [hflag.2.2] at hkept
    cases hkind : (T.node i).kind with
    | comp c => simp [noOp, hkind] at hkept
    | pri b c =>
      rw [hkind] at har
      simp only [Kind.arityOk] at har
      simp only [noOp, hkind] at hkept
      apply hkept.2
      have : 0 < (T.node i).args.length := by omega
      simp [List.getD_eq_getElem?_getD, this, hin]
    | vec w => rw [hkind] at hpl; simp [Kind.isVector] at hpl
    | load w => rw [hkind] at hpl; simp [Kind.isVector] at hpl
    | store w => rw [hkind] at hpl; simp [Kind.isVector] at hpl
    | _ => simp [Node.nres, hkind, Kind.nres] at hz; try simp [noOp, hkind] at hkept

/-- the tape with the options that `optimize` sets -/
def VTape.options (T : VTape) (compareOp printOp : Bool) : VTape :=
  { T with keepCompare := compareOp, keepPrint := printOp }

/-- **The value graph passes of `optimize("val_graph ...")` preserve the function**, for every tape
without dynamic vectors, every hash function and every point; with cumulative sums the point must
be one where no sum, difference or negation on the tape is nan, and the comparisons and prints must
not be kept (`val_optimize_sum_wrong` shows why).  The comparisons that are kept are all true if and
only if all the comparisons of the original are; the same text is printed, maybe fewer times. -/
theorem val_optimize_ok_partial {hash : Kind → List ℕ → ℕ} {compareOp cumulativeSum printOp : Bool}
    {T : VTape} {P : Prim} (hw : T.WF) (hp : T.Plain) (hP : P.RevDependOk)
    (hk : (T.options compareOp printOp).KeptLive) {x : List V} (hx : x.length = T.nInd)
    (hsum : cumulativeSum = true → compareOp = false ∧ printOp = false ∧
      ∀ i, i < T.nOp → (T.node i).kind.isSum = true → rd (T.run P x).val (T.res i) ≠ none) :
    let T' := valOptimize hash compareOp cumulativeSum printOp T P
    T'.nInd = T.nInd ∧ T'.eval P x = T.eval P x ∧
      (compareOp = true → (T'.compareFalse P x = 0 ↔ T.compareFalse P x = 0) ∧
        T'.compareFalse P x ≤ T.compareFalse P x) ∧
      (compareOp = false → T'.compareFalse P x = 0) ∧
      (printOp = true → (T'.printed P x).Sublist (T.printed P x) ∧
        ∀ p ∈ T.printed P x, p ∈ T'.printed P x) ∧
      (printOp = false → T'.printed P x = []) := by
  intro T'
  have hw0 : (T.options compareOp printOp).WF := ⟨hw.head, hw.args, hw.arity, hw.dep⟩
  have hp0 : (T.options compareOp printOp).Plain := hp
  have hx0 : x.length = (T.options compareOp printOp).nInd := hx
  have r := renumber_ok_partial hash hw0 hp0 (P := P) hx0
  have hw1 := renumber_wf hash hw0 hp0
  have hp1 := renumber_plain hash hw0 hp0
  have hk1 := renumber_keptLive hash hw0 hp0 hk
  obtain ⟨r1, r2, r3, r4, r5⟩ := r
  have o1 : (T.options compareOp printOp).eval P x = T.eval P x := rfl
  have o2 : (T.options compareOp printOp).compareFalse P x = T.compareFalse P x := rfl
  have o3 : (T.options compareOp printOp).printed P x = T.printed P x := rfl
  rw [o1] at r1
  rw [o2] at r2 r3
  rw [o3] at r4 r5
  cases hcs : cumulativeSum with
  | false =>
    have e : T' = deadCode (renumber hash (T.options compareOp printOp)) P := by
      simp only [T', valOptimize, hcs, Bool.false_eq_true, if_false]
      rfl
    obtain ⟨d1, d2, d3⟩ := dead_code_ok_partial hw1 hp1 hk1 hP (x := x) hx0
    have dn := (deadCode_wf (P := P) hw1 hp1 hk1).2.2
    have k1 : (renumber hash (T.options compareOp printOp)).keepCompare = compareOp := rfl
    have k2 : (renumber hash (T.options compareOp printOp)).keepPrint = printOp := rfl
    rw [k1] at d2
    rw [k2] at d3
    rw [e]
    refine ⟨dn, by rw [d1, r1], ?_, ?_, ?_, ?_⟩
    · intro h; rw [d2, if_pos h]; exact ⟨r3, r2⟩
    · intro h; rw [d2, h]; rfl
    · intro h; rw [d3, if_pos h]; exact ⟨r4, r5⟩
    · intro h; rw [d3, h]; rfl
  | true =>
    obtain ⟨hc, hpr, hnan⟩ := hsum hcs
    subst hc
    subst hpr
    set T1 := renumber hash (T.options false false) with hT1
    have e : T' = deadCode (summation T1 P) P := by
      simp only [T', valOptimize, hcs, if_true]
      rfl
    have hn1 : ∀ i, i < T1.nOp → (T1.node i).kind.isSum = true →
        rd (T1.run P x).val (T1.res i) ≠ none := by
      intro i hi hs
      rw [hT1, renumber_nOp hash hw0 hp0] at hi
      have hi' : i < T.nOp := hi
      rw [hT1, renumber_res hash hw0 hp0 i hi.le,
        renumber_val hash hw0 hp0 hx0 (by
          have h1 := res_add_lt (T.options false false) (k := 0) hi (by
            rw [← renumber_nres hash hw0 hp0 i hi]
            rcases isSum_cases hs with h | h | h <;> (rw [hT1] at h; simp [Node.nres, h, Kind.nres]))
          exact h1)]
      refine hnan i hi' ?_
      rw [hT1, renumber_node hash i hi] at hs
      rcases (renLoop_inv hash hw0 hp0).nodes i hi with h | ⟨hz, h, _⟩
      · rw [h] at hs; exact hs
      · rw [h] at hs
        simp only at hs
        have hz' : (noOp (T.options false false).nInd ((T.options false false).node i)).nres = 0 := by
          rw [noOp_nres]; exact hz
        rcases isSum_cases hs with h | h | h <;> simp [Node.nres, h, Kind.nres] at hz'
    obtain ⟨s1, s2, s3⟩ := summation_ok_partial (P := P) hw1 hp1 hx0 hn1
    have hw2 := summation_wf (P := P) hw1 hp1
    have hp2 := summation_plain (P := P) hw1 hp1
    have hk2 : (summation T1 P).KeptLive := by
      intro nd _ hkept
      exfalso
      have f1 : (summation T1 P).keepCompare = false := rfl
      have f2 : (summation T1 P).keepPrint = false := rfl
      unfold Kept at hkept
      rw [f1, f2] at hkept
      cases hkind : nd.kind <;> simp [hkind] at hkept
    obtain ⟨d1, d2, d3⟩ := dead_code_ok_partial hw2 hp2 hk2 hP (x := x) hx0
    have dn := (deadCode_wf (P := P) hw2 hp2 hk2).2.2
    rw [e]
    have f1 : (summation T1 P).keepCompare = false := rfl
    have f2 : (summation T1 P).keepPrint = false := rfl
    rw [f1] at d2
    rw [f2] at d3
    refine ⟨dn, by rw [d1, s1, r1], by simp, ?_, by simp, ?_⟩
    · intro _; rw [d2]; rfl
    · intro _; rw [d3]; rfl

end CppAD.ValGraph
