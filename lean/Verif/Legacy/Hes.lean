import Verif.Legacy.Jac
import Verif.Sparsity.Symm

/-!
# `SparseHessian`
-/

open scoped ContDiff Topology

namespace CppAD.Legacy

open Sparsity IndexSort SparseJac SparseHes

variable {T : Tape} {f : ADFun}

/-- the work information of a previous call with the same subset and pattern -/
structure GoodHes (n K : ℕ) (row col : ℕ → ℕ) (s : Sp) (coloring : Coloring) (w : HWork) : Prop where
  plain : coloring = .general → ∀ k < K, w.row k = row k ∧ w.col k = col k
  reflect : ∀ k < K, (w.row k = row k ∧ w.col k = col k) ∨ (w.row k = col k ∧ w.col k = row k)
  colored : ∀ k < K, w.color (w.row k) < n
  not : ∀ j < n, (∀ k < K, w.row k ≠ j) → w.color j = n
  recover : ∀ k < K, ∀ j < n, j ≠ w.row k → w.color j = w.color (w.row k) → w.col k ∉ s j
  ordered : Ordered K w.color w.row w.order

/-- *Specification*: the second partials that are not in the pattern are zero at `x`.  This is only
required for the entries that matter (`SparseHes.Matters`): for the general coloring, the rows and the columns of the subset; for
the symmetric coloring, the indices that appear in the subset as a row or as a column. -/
def Covers2 (T : Tape) (wt : List ℝ) (K : ℕ) (row col : ℕ → ℕ) (P : ℕ → ℕ → Prop) (coloring : Coloring) (x : ℕ → ℝ) : Prop :=
  ∀ i < T.n, ∀ j < T.n, Matters K row col i j coloring → ¬ P i j → IsPartial2 (wsum T wt) x i j 0

theorem hesWork_good {sort : List (Element ℕ) → List (Element ℕ)} (hs : StdSort Element.lt sort)
    {n K : ℕ} {row col : ℕ → ℕ} {s : Sp} (h : Inside n n K row col fun i j => j ∈ s i) (fjunk : ℕ → Bool)
    {coloring : Coloring} (hsym : coloring = .symmetric → ∀ i < n, ∀ j < n, j ∈ s i → i ∈ s j) :
    GoodHes n K row col s coloring (hesWork sort n K row col s fjunk coloring) := by
  cases coloring with
  | general =>
    have hv := Color.color_general_valid n n K s row col fjunk h
    exact ⟨fun _ k _ => ⟨rfl, rfl⟩, fun k _ => Or.inl ⟨rfl, rfl⟩, hv.colored, hv.not, hv.recover, colorOrder_ok hs K _ row⟩
  | symmetric =>
    have hv := Color.Sym.color_symmetric_valid hs n K s row col fjunk (hsym rfl) h
    exact ⟨fun h => (by cases h), hv.reflect, hv.colored, hv.not, hv.recover, colorOrder_ok hs K _ _⟩

/-- the values computed for the colors, rows, columns and order in `work`: each is a sum of second partials over the
indices with the color of the row -/
theorem sparseHessianCompute_sum (hT : T.WF) {S : St} (h : Reach T f S) {sort : List (Element ℕ) → List (Element ℕ)}
    (junk0 : ℕ → ℝ) (junk junk' : ℕ → ℕ → ℝ) (fjunk : ℕ → Bool) (nan : ℝ)
    (xv wt : List ℝ) (hl : xv.length = T.n) (hwt : wt.length = T.dep.length) (hD : T.Dom (at' xv)) (ps : Sp)
    (K : ℕ) (hK : K ≠ 0) (row col : ℕ → ℕ) (val : ℕ → ℝ) (coloring : Coloring) (work : Option HWork) (w : HWork)
    (hw : work.getD (hesWork sort T.n K row col ps fjunk coloring) = w)
    (hrc : ∀ k < K, w.row k < T.n ∧ w.col k < T.n) (hcl : ∀ k < K, w.color (w.row k) < T.n)
    (ho : Ordered K w.color w.row w.order) (H : ℕ → ℕ → ℝ) (hH : ∀ i j, IsPartial2 (wsum T wt) (at' xv) i j (H i j)) :
    (∀ k < K, (sparseHessianCompute sort f junk0 junk junk' fjunk nan xv wt ps K row col val coloring work).2.2.1 k =
      ∑ j ∈ cls T.n w.color (w.color (w.row k)), H (w.col k) j) ∧
    (sparseHessianCompute sort f junk0 junk junk' fjunk nan xv wt ps K row col val coloring work).2.2.2 = some w := by
  have h0 := fwd0_ready hT h junk0 nan xv hl
  have hn : f.n = T.n := by rw [(h.inv hT).2]
  unfold sparseHessianCompute
  simp only [hn]
  generalize (f.forward junk0 nan 0 xv).1 = f0 at h0
  rw [if_neg hK, hw]
  refine ⟨?_, rfl⟩
  set nc := nColor T.n w.color with hnc
  set val0 := forRange 0 K val fun k v => Function.update v k 0
  let Q : ℕ → ℝ → Prop := fun k v => v = ∑ j ∈ cls T.n w.color (w.color (w.row k)), H (w.col k) j
  have main := forRange_ind (Nat.zero_le nc) (s := (f0, 0, val0))
    (f := fun ell s =>
      if s.2.1 = K then s
      else if w.color (w.row (w.order s.2.1)) ≠ ell then s
      else
        let f1 := (s.1.forward (junk ell) nan 1 (tab T.n 1 fun j _ => if w.color j = ell then 1 else 0)).1
        let r := f1.reverse (junk' ell) 2 wt
        (r.1, store K w.color w.row w.order ell (fun k => at' r.2 (w.col k * 2 + 1)) s.2))
    (P := fun q s => Ready T s.1 (at' xv) ∧ Stored K w.color w.row w.order Q q s.2)
    ⟨h0, stored_init _⟩ (by
      rintro ell ⟨g, k, v⟩ _ hell ⟨hr, hst⟩
      dsimp only at hr hst ⊢
      by_cases h1 : k = K
      · rw [if_pos h1]
        refine ⟨hr, hst.le, ?_, hst.val⟩
        intro p hp
        have := (hst.pos p hp)
        dsimp only at this ⊢
        constructor
        · intro h; have := this.mp h; omega
        · intro; omega
      · have hkK : k < K := by have := hst.le; dsimp only at this; omega
        rw [if_neg h1]
        by_cases h2 : w.color (w.row (w.order k)) = ell
        · rw [if_neg (by simpa using h2)]
          have hf1 := (fwd1_ok hT hr (junk ell) nan (tab T.n 1 fun j _ => if w.color j = ell then 1 else 0)
            (by rw [tab_length, Nat.mul_one])).1
          rw [at_cls] at hf1
          generalize (g.forward (junk ell) nan 1 (tab T.n 1 fun j _ => if w.color j = ell then 1 else 0)).1 = f1
            at hf1 ⊢
          have hrev := rev2_ok hT hf1 (junk' ell) wt hwt
          obtain ⟨⟨S1, a1, a2, _, a4⟩, hrev2⟩ := hrev
          refine ⟨⟨S1, a1, by omega, fun j hj => (a4 j hj).1⟩, ?_⟩
          dsimp only
          refine store_ok ho hst ?_
          intro k' hk' hc
          obtain ⟨r2, r1⟩ := hrc k' hk'
          obtain ⟨dg, d1, d2⟩ := hrev2 hD (w.col k') r1
          show _ = _
          rw [hc]
          exact dir_sum2 hT hD (H (w.col k')) (cls T.n w.color ell) d1 d2 fun j _ => hH _ j
        · rw [if_pos h2]
          refine ⟨hr, hst.le, ?_, hst.val⟩
          intro p hp
          have hk := hst.pos k hkK
          have := hst.pos p hp
          dsimp only at hk this ⊢
          constructor
          · intro h; have := this.mp h; omega
          · intro h
            by_contra hc
            rcases Nat.lt_or_eq_of_le (Nat.not_lt.mp hc) with hlt | rfl
            · have := ho.mono k p hlt hp
              omega
            · omega)
  refine stored_end ho main.2 ?_
  intro k hk
  exact nColor_gt T.n w.color (w.row k) (hrc k hk).1 (hcl k hk)

theorem sparseHessianCompute_ok (hT : T.WF) {S : St} (h : Reach T f S) {sort : List (Element ℕ) → List (Element ℕ)}
    (hs : StdSort Element.lt sort) (junk0 : ℕ → ℝ) (junk junk' : ℕ → ℕ → ℝ) (fjunk : ℕ → Bool) (nan : ℝ)
    (xv wt : List ℝ) (hl : xv.length = T.n) (hwt : wt.length = T.dep.length) (hD : T.Dom (at' xv)) (p ps : Sp)
    (K : ℕ) (row col : ℕ → ℕ) (val : ℕ → ℝ)
    (hin : Inside T.n T.n K row col fun i j => j ∈ p i) (coloring : Coloring)
    (hpat : Covers2 T wt K row col (fun i j => j ∈ p i) coloring (at' xv))
    (hsym : coloring = .symmetric → ∀ i < T.n, ∀ j < T.n, j ∈ p i → i ∈ p j)
    (work : Option HWork) (hps : work = none → ps = p) (hw : ∀ w, work = some w → GoodHes T.n K row col p coloring w) :
    (∀ k < K, IsPartial2 (wsum T wt) (at' xv) (row k) (col k)
      ((sparseHessianCompute sort f junk0 junk junk' fjunk nan xv wt ps K row col val coloring work).2.2.1 k)) ∧
    (∀ w, (sparseHessianCompute sort f junk0 junk junk' fjunk nan xv wt ps K row col val coloring work).2.2.2 = some w →
      GoodHes T.n K row col p coloring w) := by
  by_cases hK : K = 0
  · unfold sparseHessianCompute
    simp only [hK, if_true]
    exact ⟨fun k hk => by omega, fun w e => hK ▸ hw w e⟩
  have hwg : GoodHes T.n K row col p coloring (work.getD (hesWork sort T.n K row col ps fjunk coloring)) := by
    cases work with
    | none =>
      rw [hps rfl]
      exact hesWork_good hs hin fjunk hsym
    | some w => exact hw w rfl
  generalize hwe : work.getD (hesWork sort T.n K row col ps fjunk coloring) = w at hwg
  have hrc : ∀ k < K, w.row k < T.n ∧ w.col k < T.n := by
    intro k hk
    obtain ⟨h1, h2, -⟩ := hin k hk
    rcases hwg.reflect k hk with ⟨a, b⟩ | ⟨a, b⟩ <;> rw [a, b] <;> exact ⟨by assumption, by assumption⟩
  choose H hH hH2 using wsum_mixed hT hD wt
  obtain ⟨hsum, hwork⟩ := sparseHessianCompute_sum hT h junk0 junk junk' fjunk nan xv wt hl hwt hD ps K hK row col val coloring work w
    hwe hrc hwg.colored hwg.ordered H hH
  refine ⟨fun k' hk' => ?_, fun w' e => by rw [hwork] at e; cases e; exact hwg⟩
  rw [hsum k' hk']
  obtain ⟨r2, r1⟩ := hrc k' hk'
  rw [Finset.sum_eq_single (w.row k')]
  · rcases hwg.reflect k' hk' with ⟨a, b⟩ | ⟨a, b⟩
    · rw [a, b]; exact hH2 _ _
    · rw [a, b]; exact hH _ _
  · intro j hj hjc
    simp only [cls, Finset.mem_filter, Finset.mem_range] at hj
    have app : ∀ k < K, Appears K row col (w.col k) ∧ Appears K row col (w.row k) := by
      intro k hk
      rcases hwg.reflect k hk with ⟨a, b⟩ | ⟨a, b⟩
      · exact ⟨⟨k, hk, Or.inr b.symm⟩, ⟨k, hk, Or.inl a.symm⟩⟩
      · exact ⟨⟨k, hk, Or.inl b.symm⟩, ⟨k, hk, Or.inr a.symm⟩⟩
    have hj2 : ∃ k < K, w.row k = j := by
      by_contra hno
      have := hwg.not j hj.1 (fun k hk e => hno ⟨k, hk, e⟩)
      have := hwg.colored k' hk'
      omega
    obtain ⟨k2, hk2, e2⟩ := hj2
    have hm : Matters K row col j (w.col k') coloring := by
      cases coloring with
      | general => exact ⟨⟨k2, hk2, (hwg.plain rfl k2 hk2).1.symm.trans e2⟩, k', hk', ((hwg.plain rfl k' hk').2).symm⟩
      | symmetric => exact ⟨e2 ▸ (app k2 hk2).2, (app k' hk').1⟩
    exact isPartial2_unique (hH _ _) (isPartial2_symm hT hD (hpat _ hj.1 _ r1 hm (hwg.recover k' hk' j hj.1 hjc hj.2)))
  · intro hn
    exact absurd (by simp [cls, r2]) hn

/-- **C45** `SparseHessian(x, w, p, row, col, hes, work)`: for every history of calls, point, weights, pattern (vector of bool or of
sets) that contains the second partials that are not zero at the point and is symmetric when the symmetric coloring is used, subset of
the pattern, and `work` that is empty or from a previous call with this subset and pattern: entry `k` is set to the second partial of
`∑ w_i F_i` with respect to `x_(row k)` and `x_(col k)`, and the resulting `work` is again usable. -/
theorem sparse_hessian_work_ok (hT : T.WF) {S : St} (h : Reach T f S) {sort : List (Element ℕ) → List (Element ℕ)}
    (hs : StdSort Element.lt sort) (junk0 : ℕ → ℝ) (junk junk' : ℕ → ℕ → ℝ) (fjunk : ℕ → Bool) (nan : ℝ)
    (xv wt : List ℝ) (hl : xv.length = T.n) (hwt : wt.length = T.dep.length) (hD : T.Dom (at' xv))
    (p : SetVec) (hp : p.Ok false T.n T.n) (K : ℕ) (row col : ℕ → ℕ) (val : ℕ → ℝ)
    (hin : Inside T.n T.n K row col (p.Has false T.n T.n)) (coloring : Coloring)
    (hpat : Covers2 T wt K row col (p.Has false T.n T.n) coloring (at' xv))
    (hsym : coloring = .symmetric → ∀ i j, p.Has false T.n T.n i j → p.Has false T.n T.n j i)
    (work : Option HWork) (hw : ∀ w, work = some w → GoodHes T.n K row col (user2internal false T.n T.n p) coloring w) :
    (∀ k < K, IsPartial2 (wsum T wt) (at' xv) (row k) (col k)
      ((sparseHessianWork sort f junk0 junk junk' fjunk nan xv wt p K row col val coloring work).2.2.1 k)) ∧
    (∀ w, (sparseHessianWork sort f junk0 junk junk' fjunk nan xv wt p K row col val coloring work).2.2.2 = some w →
      GoodHes T.n K row col (user2internal false T.n T.n p) coloring w) := by
  have hn : f.n = T.n := by rw [(h.inv hT).2]
  have he := mem_user2internal false T.n T.n p hp
  unfold sparseHessianWork
  simp only [hn]
  by_cases hK : K = 0
  · rw [if_pos hK]
    exact ⟨fun k hk => by omega, hw⟩
  rw [if_neg hK]
  exact sparseHessianCompute_ok hT h hs junk0 junk junk' fjunk nan xv wt hl hwt hD (user2internal false T.n T.n p) _ K row col val
    (inside_congr (fun i _ j _ => (he i j).symm) hin) coloring
    (fun i hi j hj hm hno => hpat i hi j hj hm fun h => hno ((he i j).2 h))
    (fun e i _ j _ h => (he j i).2 (hsym e i j ((he i j).1 h))) work (fun e => by rw [e]; rfl) hw

/-- **C45** `SparseHessian(x, w, p)`: for every history of calls, point, weights and symmetric pattern that contains the
second partials that are not zero at the point, element `i * n + j` of the result is the second partial of `∑ w_k F_k` with
respect to `x_i` and `x_j`. -/
theorem sparse_hessian_ok (hT : T.WF) {S : St} (h : Reach T f S) {sort : List (Element ℕ) → List (Element ℕ)}
    (hs : StdSort Element.lt sort) (junk0 : ℕ → ℝ) (junk junk' : ℕ → ℕ → ℝ) (fjunk : ℕ → Bool) (nan : ℝ) (hes0 H0 : ℕ → ℝ)
    (xv wt : List ℝ) (hl : xv.length = T.n) (hwt : wt.length = T.dep.length) (hD : T.Dom (at' xv))
    (p : SetVec) (hp : p.Ok false T.n T.n) (hsym : ∀ i j, p.Has false T.n T.n i j → p.Has false T.n T.n j i)
    (hpat : ∀ i < T.n, ∀ j < T.n, ¬ p.Has false T.n T.n i j → IsPartial2 (wsum T wt) (at' xv) i j 0)
    (i j : ℕ) (hi : i < T.n) (hj : j < T.n) :
    IsPartial2 (wsum T wt) (at' xv) i j
      ((sparseHessian sort f junk0 junk junk' fjunk nan hes0 H0 xv wt p).2 (i * T.n + j)) := by
  have hn : f.n = T.n := by rw [(h.inv hT).2]
  unfold sparseHessian
  simp only [hn]
  have he : ∀ i j, j ∈ user2internal false T.n T.n p i ↔ p.Has false T.n T.n i j :=
    fun i j => mem_user2internal false T.n T.n p hp i j
  generalize user2internal false T.n T.n p = st at he ⊢
  have hmem := mem_entries T.n st
  generalize entries T.n st = e at hmem ⊢
  have hin : Inside T.n T.n e.length (fun k => (e.getD k (0, 0)).1) (fun k => (e.getD k (0, 0)).2) fun i j => j ∈ st i := by
    intro k hk
    have : e.getD k (0, 0) ∈ e := by rw [List.getD_eq_getElem _ _ hk]; exact List.getElem_mem hk
    obtain ⟨h1, h2⟩ := (hmem _ _).1 this
    exact ⟨h1, ((he _ _).1 h2).2.1, h2⟩
  have key := (sparseHessianCompute_ok hT h hs junk0 junk junk' fjunk nan xv wt hl hwt hD st st e.length _ _ H0 hin .symmetric
    (fun i hi j hj _ hno => hpat i hi j hj fun hp => hno ((he i j).2 hp))
    (fun _ i _ j _ h => (he j i).2 (hsym i j ((he i j).1 h))) none (fun _ => rfl) (fun w hw => by cases hw)).1
  refine put_entries (m := T.n) (fun k hk => ⟨(hin k hk).1, (hin k hk).2.1⟩) _ _ (fun i j v => IsPartial2 (wsum T wt) (at' xv) i j v)
    key ?_ i j hi hj
  intro i hi j hj hno
  rw [zero_entries _ _ _ _ _ hi hj]
  refine hpat i hi j hj fun hp => ?_
  obtain ⟨k, hk, e'⟩ := List.mem_iff_getElem.1 ((hmem i j).2 ⟨hi, (he i j).2 hp⟩)
  refine hno k hk ?_
  rw [List.getD_eq_getElem _ _ hk, e']
  exact ⟨rfl, rfl⟩

/-- **C45** `SparseHessian(x, w)`: for every history of calls, point and weights, element `i * n + j` of the
result is the second partial of `∑ w_k F_k` with respect to `x_i` and `x_j`.  Partial: (1) components that are the same variable
must have weights that are both zero or both not zero (`sparse_hessian_wrong` shows that the claim is false otherwise), (2) atomic
functions are excluded. -/
theorem sparse_hessian_x_ok_partial (hT : T.WF) {S : St} (h : Reach T f S) {sort : List (Element ℕ) → List (Element ℕ)}
    (hs : StdSort Element.lt sort) (junk0 : ℕ → ℝ) (junk junk' : ℕ → ℕ → ℝ) (fjunk rjunk sjunk pjunk pjunk' : ℕ → Bool) (nan : ℝ)
    (hes0 H0 : ℕ → ℝ) (xv wt : List ℝ) (hl : xv.length = T.n) (hwt : wt.length = T.dep.length) (hD : T.Dom (at' xv))
    (hna : ∀ op ∈ T.ops, ∀ c, op ≠ .atom c)
    (hdup : ∀ k < T.dep.length, ∀ k' < T.dep.length, T.dep.getD k 0 = T.dep.getD k' 0 → (at' wt k = 0 ↔ at' wt k' = 0))
    (i j : ℕ) (hi : i < T.n) (hj : j < T.n) :
    IsPartial2 (wsum T wt) (at' xv) i j
      ((sparseHessianX sort f junk0 junk junk' fjunk rjunk sjunk pjunk pjunk' nan hes0 H0 xv wt).2 (i * T.n + j)) := by
  classical
  have ht : f.toTape = T := (h.inv hT).2
  unfold sparseHessianX
  simp only [ht]
  have hsel : ∀ k < T.dep.length, (forRange 0 T.dep.length sjunk fun i s => Function.update s i (decide (at' wt i ≠ 0))) k
      = decide (at' wt k ≠ 0) := by
    have := forRange_ind (Nat.zero_le T.dep.length) (s := sjunk) (f := fun i s => Function.update s i (decide (at' wt i ≠ 0)))
      (P := fun q (s : ℕ → Bool) => ∀ k < q, s k = decide (at' wt k ≠ 0)) (by intro k hk; omega) (by
        intro q s _ _ ih k hk
        rw [Function.update_apply]
        split_ifs with e
        · rw [e]
        · exact ih k (by omega))
    exact this
  set sv := forRange 0 T.dep.length sjunk fun i s => Function.update s i (decide (at' wt i ≠ 0)) with hsv
  have hid : (identityBools T.n rjunk).Ok false T.n T.n := by unfold identityBools SetVec.Ok; trivial
  have hJ : (forSparseJac T pjunk T.n (identityBools T.n rjunk) false false).2
      = forJac false T.ops (T.n + 1) (post false T.n T.n (fun j => j + 1) (identityBools T.n rjunk)) := rfl
  refine sparse_hessian_ok hT h hs junk0 junk junk' fjunk nan hes0 H0 xv wt hl hwt hD _ ?_ ?_ ?_ i j hi hj
  · unfold revSparseHes readHes SetVec.kind SetVec.Ok; trivial
  · have hpat : ∀ i j, (revSparseHes T pjunk' T.n (forSparseJac T pjunk T.n (identityBools T.n rjunk) false false).2 (.bools sv) false).Has
        false T.n T.n j i ↔ i < T.n ∧ j < T.n ∧ j ∈ (revHes (forJac false T.ops (T.n + 1)
          (post false T.n T.n (fun j => j + 1) (identityBools T.n rjunk))) T.ops (T.n + 1) (revFlags T (.bools sv), fun _ => ∅)).2 (i + 1) := by
      intro i j
      rw [← SetVec.Has_flip]
      unfold revSparseHes
      dsimp only
      rw [has_readHes, hJ]
    intro i j hij
    rw [hpat] at hij ⊢
    obtain ⟨h1, h2, h3⟩ := hij
    refine ⟨h2, h1, revHes_symm hT hna _ (fun k hk => ?_) _ j i h1 h2 h3⟩
    ext c
    rw [mem_post false T.n T.n _ _ hid, Finset.mem_singleton]
    simp only [identityBools_has]
    constructor
    · rintro ⟨a, e, _, rfl⟩; omega
    · rintro rfl; exact ⟨c, rfl, hk, rfl⟩
  · intro i hi j hj hno
    obtain ⟨v, hv, hv2⟩ := wsum_mixed hT hD wt i j
    by_cases h0 : v = 0
    · rw [h0] at hv; exact hv
    · exfalso
      apply hno
      refine rev_sparse_hes_ok_partial hT pjunk pjunk' T.n _ (.bools sv) false false false hid (fun k j => un j k)
        (fun k hk j _ hne => (identityBools_has ..).2 ⟨hk, ?_⟩) wt (fun k hk hne => ?_) (fun _ k hk k' hk' e => ?_) (Or.inl hna)
        (at' xv) hD j i hj hi v (isMixed_of_partial2 hv2) h0
      · by_contra hkj
        exact hne (by simp [un, Ne.symm hkj])
      · show sv k = true
        rw [hsel k hk]
        simpa using hne
      · show sv k = true ↔ sv k' = true
        rw [hsel k hk, hsel k' hk']
        simpa using not_congr (hdup k hk k' hk' e)

end CppAD.Legacy
