import Verif.Legacy.Patterns

/-!
# `SparseJacobianForward`, `SparseJacobianReverse`, `SparseJacobian`
-/

open scoped ContDiff Topology

namespace CppAD.Legacy

open Sparsity IndexSort SparseJac

variable {T : Tape} {f : ADFun}

/-- *Specification*: the partials that are not in the pattern `P` are zero at `x`; only the rows and columns of the subset
matter (the documented "Column Subset" and "Row Subset") -/
def Covers (T : Tape) (K : ℕ) (row col : ℕ → ℕ) (P : ℕ → ℕ → Prop) (x : ℕ → ℝ) : Prop :=
  ∀ i < T.dep.length, ∀ j < T.n, (∃ k < K, row k = i) → (∃ k < K, col k = j) → ¬ P i j →
    IsPartial (fun y => T.eval y i) x j 0

/-- *Specification*: the entries of the subset are inside the matrix and in the pattern -/
def Inside (m n K : ℕ) (row col : ℕ → ℕ) (P : ℕ → ℕ → Prop) : Prop :=
  ∀ k < K, row k < m ∧ col k < n ∧ P (row k) (col k)

/-- the work information of a previous call with this subset and pattern -/
def GoodFor (n K : ℕ) (row col : ℕ → ℕ) (pt : Sp) (w : Work) : Prop :=
  Color.Valid n K pt col row w.color ∧ Ordered K w.color col w.order

/-- as `GoodFor`, for the reverse mode version -/
def GoodRev (m K : ℕ) (row col : ℕ → ℕ) (p : Sp) (w : Work) : Prop :=
  Color.Valid m K p row col w.color ∧ Ordered K w.color row w.order

theorem sparseJacobianFor_ok (hT : T.WF) {S : St} (h : Reach T f S) {sort : List (Element ℕ) → List (Element ℕ)}
    (hs : StdSort Element.lt sort) (junk0 : ℕ → ℝ) (junk : ℕ → ℕ → ℝ) (fjunk : ℕ → Bool) (nan : ℝ)
    {maxR : ℕ} (hg : 0 < maxR) (xv : List ℝ) (hl : xv.length = T.n) (hD : T.Dom (at' xv))
    (pt ps : Sp) (K : ℕ) (row col : ℕ → ℕ) (val : ℕ → ℝ)
    (hin : Inside T.dep.length T.n K row col fun i j => i ∈ pt j) (hpat : Covers T K row col (fun i j => i ∈ pt j) (at' xv))
    (work : Option Work) (hps : work = none → ps = pt) (hw : ∀ w, work = some w → GoodFor T.n K row col pt w) :
    (∀ k < K, IsPartial (fun y => T.eval y (row k)) (at' xv) (col k)
      ((sparseJacobianFor sort f junk0 junk fjunk nan maxR xv ps K row col val work).2.2.1 k)) ∧
    (∀ w, (sparseJacobianFor sort f junk0 junk fjunk nan maxR xv ps K row col val work).2.2.2 = some w →
      GoodFor T.n K row col pt w) := by
  have h0 := fwd0_ready hT h junk0 nan xv hl
  have hn : f.n = T.n := by rw [(h.inv hT).2]
  unfold sparseJacobianFor
  simp only [hn]
  generalize (f.forward junk0 nan 0 xv).1 = f0 at h0
  by_cases hK : K = 0
  · rw [if_pos hK]
    exact ⟨fun k hk => by omega, hw⟩
  rw [if_neg hK]
  have hwg : GoodFor T.n K row col pt (work.getD (let color := Color.colorGeneral T.n K ps col row fjunk; (⟨color, colorOrder sort K color col⟩ : Work))) := by
    cases work with
    | none =>
      rw [hps rfl]
      exact ⟨Color.color_general_valid T.n T.dep.length K _ col row fjunk fun k hk => ⟨(hin k hk).2.1, (hin k hk).1, (hin k hk).2.2⟩,
        colorOrder_ok hs K _ col⟩
    | some w => exact hw w rfl
  dsimp only at hwg
  generalize Option.getD work _ = w at hwg ⊢
  refine ⟨?_, fun w' e => by cases e; exact hwg⟩
  obtain ⟨hv, ho⟩ := hwg
  set nc := nColor T.n w.color with hnc
  set val0 := forRange 0 K val fun k v => Function.update v k 0
  let Q : ℕ → ℝ → Prop := fun k v => IsPartial (fun y => T.eval y (row k)) (at' xv) (col k) v
  -- the value of an entry
  have entry : ∀ k < K, ∀ (u : ℕ → ℝ) (v : ℝ), (∀ j < T.n, u j = indic (cls T.n w.color (w.color (col k))) j) →
      HasDerivAt (fun t => T.eval (fun j => at' xv j + t * u j) (row k)) v 0 → Q k v := by
    intro k hk u v hu hd
    obtain ⟨h1, h2, -⟩ := hin k hk
    have e : (fun y => T.eval y (row k)) = wsum T (unitVec T.dep.length (row k)) := by
      funext y; rw [wsum_unit h1]
    obtain ⟨d, hp⟩ := wsum_partial hT hD (unitVec T.dep.length (row k)) (col k)
    rw [← e] at hp
    have hmem : col k ∈ cls T.n w.color (w.color (col k)) := by simp [cls, h2]
    have : v = d := color_dir hT hD h1 hu hd hmem hp (by
      intro j' hj' hne
      simp only [cls, Finset.mem_filter, Finset.mem_range] at hj'
      have hj2 : ∃ k' < K, col k' = j' := by
        by_contra hno
        have := hv.not j' hj'.1 (fun k' hk' e => hno ⟨k', hk', e⟩)
        have := hv.colored k hk
        omega
      apply hpat _ h1 _ hj'.1 ⟨k, hk, rfl⟩ hj2
      exact hv.recover k hk j' hj'.1 hne hj'.2)
    rw [this]; exact hp
  have main := whileLoop_rule (c := fun s => decide (s.1.2 < nc))
    (b := dirGroup T.n K maxR nc junk row col w)
    (fun s => Ready T s.1.1 (at' xv) ∧ s.1.2 ≤ nc ∧ Stored K w.color col w.order Q s.1.2 s.2)
    (fun s => nc - s.1.2) (by
      rintro ⟨⟨g, cc⟩, s2⟩ ⟨hr, hcc, hst⟩ hc
      simp only [decide_eq_true_eq] at hc
      dsimp only at hr hcc hst
      unfold dirGroup
      dsimp only
      set gs := min maxR (nc - cc) with hgs
      have hgs1 : 0 < gs := by omega
      have hgs2 : cc + gs ≤ nc := by omega
      set dx := tab T.n gs fun j ell => if w.color j = ell + cc then (1 : ℝ) else 0 with hdx
      have hdxl : dx.length = T.n * gs := tab_length _ _ _
      have hdir : ∀ ell < gs, ∀ j < T.n, at' dx (gs * j + ell) = indic (cls T.n w.color (ell + cc)) j := by
        intro ell hell j hj
        rw [Nat.mul_comm gs j, hdx, at_tab _ hj hell]
        unfold indic cls
        simp [hj]
      have hrok := dirs_ok hT hr (junk cc) hgs1 dx (by rw [hdxl, Nat.mul_comm])
      have hr2 := hrok.2 hD
      refine ⟨⟨hrok.1, hgs2, ?_⟩, by omega⟩
      refine forRange_ind (Nat.zero_le gs) (s := s2)
        (P := fun q s => Stored K w.color col w.order Q (cc + q) s) hst ?_
      intro ell s _ hell hs'
      have : cc + (ell + 1) = (ell + cc) + 1 := by omega
      rw [this]
      refine store_ok ho (by rw [Nat.add_comm ell cc]; exact hs') ?_
      intro k hk hck
      refine entry k hk (fun j => at' dx (gs * j + ell)) _ ?_ (hr2 _ (hin k hk).1 ell hell)
      intro j hj
      rw [hdir ell hell j hj, hck])
    (s := ((f0, 0), 0, val0)) ⟨h0, Nat.zero_le _, stored_init _⟩
  obtain ⟨⟨_, m2, m3⟩, m4⟩ := main
  simp only [decide_eq_false_iff_not] at m4
  refine stored_end ho m3 ?_
  intro k hk
  have h1 := nColor_gt T.n w.color (col k) (hin k hk).2.1 (hv.colored k hk)
  omega

theorem sparseJacobianRev_ok (hT : T.WF) {S : St} (h : Reach T f S) {sort : List (Element ℕ) → List (Element ℕ)}
    (hs : StdSort Element.lt sort) (junk0 : ℕ → ℝ) (junk : ℕ → ℕ → ℝ) (fjunk : ℕ → Bool) (nan : ℝ)
    (xv : List ℝ) (hl : xv.length = T.n) (hD : T.Dom (at' xv))
    (p ps : Sp) (K : ℕ) (row col : ℕ → ℕ) (val : ℕ → ℝ)
    (hin : Inside T.dep.length T.n K row col fun i j => j ∈ p i) (hpat : Covers T K row col (fun i j => j ∈ p i) (at' xv))
    (work : Option Work) (hps : work = none → ps = p) (hw : ∀ w, work = some w → GoodRev T.dep.length K row col p w) :
    (∀ k < K, IsPartial (fun y => T.eval y (row k)) (at' xv) (col k)
      ((sparseJacobianRev sort f junk0 junk fjunk nan xv ps K row col val work).2.2.1 k)) ∧
    (∀ w, (sparseJacobianRev sort f junk0 junk fjunk nan xv ps K row col val work).2.2.2 = some w →
      GoodRev T.dep.length K row col p w) := by
  have h0 := fwd0_ready hT h junk0 nan xv hl
  have hd : f.dep.length = T.dep.length := by rw [(h.inv hT).2]
  unfold sparseJacobianRev
  simp only [hd]
  generalize (f.forward junk0 nan 0 xv).1 = f0 at h0
  by_cases hK : K = 0
  · rw [if_pos hK]
    exact ⟨fun k hk => by omega, hw⟩
  rw [if_neg hK]
  have hwg : GoodRev T.dep.length K row col p (work.getD (let color := Color.colorGeneral T.dep.length K ps row col fjunk; (⟨color, colorOrder sort K color row⟩ : Work))) := by
    cases work with
    | none =>
      rw [hps rfl]
      exact ⟨Color.color_general_valid T.dep.length T.n K _ row col fjunk fun k hk => ⟨(hin k hk).1, (hin k hk).2.1, (hin k hk).2.2⟩,
        colorOrder_ok hs K _ row⟩
    | some w => exact hw w rfl
  dsimp only at hwg
  generalize Option.getD work _ = w at hwg ⊢
  refine ⟨?_, fun w' e => by cases e; exact hwg⟩
  obtain ⟨hv, ho⟩ := hwg
  set nc := nColor T.dep.length w.color with hnc
  set val0 := forRange 0 K val fun k v => Function.update v k 0
  let Q : ℕ → ℝ → Prop := fun k v => IsPartial (fun y => T.eval y (row k)) (at' xv) (col k) v
  have entry : ∀ k < K, ∀ (v : ℝ),
      IsPartial (wsum T (tab T.dep.length 1 fun i _ => if w.color i = w.color (row k) then 1 else 0))
        (at' xv) (col k) v → Q k v := by
    intro k hk v hpv
    obtain ⟨h1, h2, -⟩ := hin k hk
    have e : ∀ i < T.dep.length, (fun y => T.eval y i) = wsum T (unitVec T.dep.length i) := by
      intro i hi; funext y; rw [wsum_unit hi]
    have hex : ∀ i < T.dep.length, ∃ d, IsPartial (fun y => T.eval y i) (at' xv) (col k) d := by
      intro i hi
      rw [e i hi]; exact wsum_partial hT hD _ _
    obtain ⟨d, hp⟩ := hex _ h1
    have hsum : IsPartial (wsum T (tab T.dep.length 1 fun i _ => if w.color i = w.color (row k) then 1 else 0))
        (at' xv) (col k) (∑ i ∈ Finset.range T.dep.length,
          indic (cls T.dep.length w.color (w.color (row k))) i * (if i = row k then d else 0)) := by
      unfold IsPartial wsum
      rw [at_cls]
      refine HasDerivAt.fun_sum fun i hi => ?_
      have hi := Finset.mem_range.mp hi
      by_cases hik : i = row k
      · subst hik
        rw [if_pos rfl]
        exact HasDerivAt.const_mul _ hp
      · rw [if_neg hik]
        by_cases hc : w.color i = w.color (row k)
        · refine HasDerivAt.const_mul _ ?_
          have hi2 : ∃ k' < K, row k' = i := by
            by_contra hno
            have := hv.not i hi (fun k' hk' e => hno ⟨k', hk', e⟩)
            have := hv.colored k hk
            omega
          apply hpat i hi _ h2 hi2 ⟨k, hk, rfl⟩
          exact hv.recover k hk i hi hik hc
        · have : indic (cls T.dep.length w.color (w.color (row k))) i = 0 := by simp [indic, cls, hc]
          rw [this]
          simpa using hasDerivAt_const (0 : ℝ) (0 : ℝ)
    have hv' := isPartial_unique hpv hsum
    have : v = d := by
      rw [hv', Finset.sum_eq_single (row k)]
      · simp [indic, cls, h1]
      · intro b _ hb; simp [hb]
      · intro hb; simp [h1] at hb
    show IsPartial _ _ _ v
    rw [this]; exact hp
  have main := forRange_ind (Nat.zero_le nc) (s := (f0, 0, val0))
    (f := fun ell s =>
      let r := s.1.reverse (junk ell) 1 (tab T.dep.length 1 fun i _ => if w.color i = ell then 1 else 0)
      (r.1, store K w.color row w.order ell (fun k => at' r.2 (col k)) s.2))
    (P := fun q s => Ready T s.1 (at' xv) ∧ Stored K w.color row w.order Q q s.2)
    ⟨h0, stored_init _⟩ (by
      rintro ell ⟨g, k, v⟩ _ hell ⟨hr, hst⟩
      dsimp only at hr hst ⊢
      have hrev := rev1_ok hT hr (junk ell) (tab T.dep.length 1 fun i _ => if w.color i = ell then 1 else 0)
        (by rw [tab_length, Nat.mul_one])
      refine ⟨hrev.1, store_ok ho hst ?_⟩
      intro k' hk' hc
      refine entry k' hk' _ ?_
      rw [hc]
      exact hrev.2 hD (col k') (hin k' hk').2.1)
  refine stored_end ho main.2 ?_
  intro k hk
  exact nColor_gt T.dep.length w.color (row k) (hin k hk).1 (hv.colored k hk)


theorem covers_congr {K : ℕ} {row col : ℕ → ℕ} {P Q : ℕ → ℕ → Prop} {x : ℕ → ℝ}
    (h : ∀ i < T.dep.length, ∀ j < T.n, (P i j ↔ Q i j)) (hc : Covers T K row col P x) : Covers T K row col Q x := by
  intro i hi j hj a b hno
  exact hc i hi j hj a b fun hp => hno ((h i hi j hj).1 hp)

theorem inside_congr {m n K : ℕ} {row col : ℕ → ℕ} {P Q : ℕ → ℕ → Prop} (h : ∀ i < m, ∀ j < n, (P i j ↔ Q i j))
    (hi : Inside m n K row col P) : Inside m n K row col Q := by
  intro k hk
  obtain ⟨a, b, c⟩ := hi k hk
  exact ⟨a, b, (h _ a _ b).1 c⟩

theorem mem_transposed (m n : ℕ) (p : SetVec) (hp : p.Ok false m n) (i j : ℕ) :
    i ∈ user2internal true n m p j ↔ p.Has false m n i j := by
  rw [mem_user2internal true n m p ((SetVec.Ok_flip false n m p).2 hp)]
  exact SetVec.Has_flip false n m p j i

/-- **C45** `SparseJacobianForward`: for every history of calls, point, pattern (vector of bool or of sets) that contains
the partials that are not zero at the point, subset of the pattern and `work` that is empty or from a previous call with this
subset and pattern, entry `k` is set to the partial of component `row k` with respect to `x_(col k)` and the resulting
`work` is again usable.  Only the rows and columns of the subset need to be covered. -/
theorem sparse_jacobian_forward_ok (hT : T.WF) {S : St} (h : Reach T f S) {sort : List (Element ℕ) → List (Element ℕ)}
    (hs : StdSort Element.lt sort) (junk0 : ℕ → ℝ) (junk : ℕ → ℕ → ℝ) (fjunk : ℕ → Bool) (nan : ℝ)
    {maxR : ℕ} (hg : 0 < maxR) (xv : List ℝ) (hl : xv.length = T.n) (hD : T.Dom (at' xv))
    (p : SetVec) (hp : p.Ok false T.dep.length T.n) (K : ℕ) (row col : ℕ → ℕ) (val : ℕ → ℝ)
    (hin : Inside T.dep.length T.n K row col (p.Has false T.dep.length T.n))
    (hpat : Covers T K row col (p.Has false T.dep.length T.n) (at' xv))
    (work : Option Work) (hw : ∀ w, work = some w → GoodFor T.n K row col (user2internal true T.n T.dep.length p) w) :
    (∀ k < K, IsPartial (fun y => T.eval y (row k)) (at' xv) (col k)
      ((sparseJacobianForward sort f junk0 junk fjunk nan maxR xv p K row col val work).2.2.1 k)) ∧
    (∀ w, (sparseJacobianForward sort f junk0 junk fjunk nan maxR xv p K row col val work).2.2.2 = some w →
      GoodFor T.n K row col (user2internal true T.n T.dep.length p) w) := by
  have hn : f.n = T.n := by rw [(h.inv hT).2]
  have hd : f.dep.length = T.dep.length := by rw [(h.inv hT).2]
  have he : ∀ i < T.dep.length, ∀ j < T.n,
      (p.Has false T.dep.length T.n i j ↔ i ∈ user2internal true T.n T.dep.length p j) :=
    fun i _ j _ => (mem_transposed T.dep.length T.n p hp i j).symm
  unfold sparseJacobianForward
  simp only [hn, hd]
  by_cases hK : K = 0
  · rw [if_pos hK]
    exact ⟨fun k hk => by omega, hw⟩
  rw [if_neg hK]
  exact sparseJacobianFor_ok hT h hs junk0 junk fjunk nan hg xv hl hD _ _ K row col val (inside_congr he hin) (covers_congr he hpat)
    work (fun e => by rw [e]; rfl) hw

/-- **C45** `SparseJacobianReverse`: the same for the reverse mode version. -/
theorem sparse_jacobian_reverse_ok (hT : T.WF) {S : St} (h : Reach T f S) {sort : List (Element ℕ) → List (Element ℕ)}
    (hs : StdSort Element.lt sort) (junk0 : ℕ → ℝ) (junk : ℕ → ℕ → ℝ) (fjunk : ℕ → Bool) (nan : ℝ)
    (xv : List ℝ) (hl : xv.length = T.n) (hD : T.Dom (at' xv))
    (p : SetVec) (hp : p.Ok false T.dep.length T.n) (K : ℕ) (row col : ℕ → ℕ) (val : ℕ → ℝ)
    (hin : Inside T.dep.length T.n K row col (p.Has false T.dep.length T.n))
    (hpat : Covers T K row col (p.Has false T.dep.length T.n) (at' xv))
    (work : Option Work) (hw : ∀ w, work = some w → GoodRev T.dep.length K row col (user2internal false T.dep.length T.n p) w) :
    (∀ k < K, IsPartial (fun y => T.eval y (row k)) (at' xv) (col k)
      ((sparseJacobianReverse sort f junk0 junk fjunk nan xv p K row col val work).2.2.1 k)) ∧
    (∀ w, (sparseJacobianReverse sort f junk0 junk fjunk nan xv p K row col val work).2.2.2 = some w →
      GoodRev T.dep.length K row col (user2internal false T.dep.length T.n p) w) := by
  have hn : f.n = T.n := by rw [(h.inv hT).2]
  have hd : f.dep.length = T.dep.length := by rw [(h.inv hT).2]
  have he : ∀ i < T.dep.length, ∀ j < T.n,
      (p.Has false T.dep.length T.n i j ↔ j ∈ user2internal false T.dep.length T.n p i) :=
    fun i _ j _ => (mem_user2internal false T.dep.length T.n p hp i j).symm
  unfold sparseJacobianReverse
  simp only [hn, hd]
  by_cases hK : K = 0
  · rw [if_pos hK]
    exact ⟨fun k hk => by omega, hw⟩
  rw [if_neg hK]
  exact sparseJacobianRev_ok hT h hs junk0 junk fjunk nan xv hl hD _ _ K row col val (inside_congr he hin) (covers_congr he hpat)
    work (fun e => by rw [e]; rfl) hw

theorem mem_entries (nr : ℕ) (s : Sp) (i j : ℕ) : (i, j) ∈ entries nr s ↔ i < nr ∧ j ∈ s i := by
  unfold entries
  simp only [List.mem_flatMap, List.mem_range, List.mem_map, Finset.mem_sort, Prod.mk.injEq]
  constructor
  · rintro ⟨a, h1, b, h2, rfl, rfl⟩; exact ⟨h1, h2⟩
  · rintro ⟨h1, h2⟩; exact ⟨i, h1, j, h2, rfl, rfl⟩

theorem zero_entries (m n : ℕ) (v0 : ℕ → ℝ) (i j : ℕ) (hi : i < m) (hj : j < n) :
    forRange 0 m v0 (fun i v => forRange 0 n v fun j v => Function.update v (i * n + j) 0) (i * n + j) = 0 := by
  have inner : ∀ (q : ℕ) (v : ℕ → ℝ) (a : ℕ), (forRange 0 n v fun j v => Function.update v (q * n + j) 0) a
      = if q * n ≤ a ∧ a < q * n + n then 0 else v a := by
    intro q v a
    have := forRange_ind (Nat.zero_le n) (s := v) (f := fun j v => Function.update v (q * n + j) 0)
      (P := fun r (u : ℕ → ℝ) => u a = if q * n ≤ a ∧ a < q * n + r then 0 else v a) (by
        rw [if_neg (by omega)]) (by
        intro r u _ _ ih
        rw [Function.update_apply]
        by_cases e : a = q * n + r
        · rw [if_pos e, if_pos (by omega)]
        · rw [if_neg e, ih]
          by_cases e2 : q * n ≤ a ∧ a < q * n + r
          · rw [if_pos e2, if_pos (by omega)]
          · rw [if_neg e2, if_neg (by omega)])
    exact this
  have := forRange_ind (Nat.zero_le m) (s := v0) (f := fun i v => forRange 0 n v fun j v => Function.update v (i * n + j) 0)
    (P := fun q (v : ℕ → ℝ) => i < q → v (i * n + j) = 0) (by omega) (by
      intro q v _ _ ih hq
      rw [inner]
      rcases Nat.lt_succ_iff_lt_or_eq.1 hq with h | rfl
      · rw [ih h, ite_self]
      · rw [if_pos (by omega)])
  exact this hi

/-- storing the values of a list of entries -/
theorem put_entries {m n K : ℕ} {row col : ℕ → ℕ} (hin : ∀ k < K, row k < m ∧ col k < n) (v0 J : ℕ → ℝ)
    (Q : ℕ → ℕ → ℝ → Prop) (hJ : ∀ k < K, Q (row k) (col k) (J k))
    (h0 : ∀ i < m, ∀ j < n, (∀ k < K, ¬ (row k = i ∧ col k = j)) → Q i j (v0 (i * n + j))) (i j : ℕ) (hi : i < m) (hj : j < n) :
    Q i j (forRange 0 K v0 (fun k v => Function.update v (row k * n + col k) (J k)) (i * n + j)) := by
  have := forRange_ind (Nat.zero_le K) (s := v0) (f := fun k v => Function.update v (row k * n + col k) (J k))
    (P := fun q (v : ℕ → ℝ) => ((∃ k < q, row k = i ∧ col k = j) ∧ Q i j (v (i * n + j))) ∨
      ((∀ k < q, ¬ (row k = i ∧ col k = j)) ∧ v (i * n + j) = v0 (i * n + j)))
    (Or.inr ⟨fun k hk => by omega, rfl⟩) (by
      intro q v _ hq ih
      rw [Function.update_apply]
      by_cases e : i * n + j = row q * n + col q
      · rw [if_pos e]
        obtain ⟨e1, e2⟩ := boolIdx_inj (tr := false) (nr := m) (nc := n) hi hj (hin q hq).1 (hin q hq).2 (by simpa [boolIdx] using e)
        refine Or.inl ⟨⟨q, by omega, e1.symm, e2.symm⟩, ?_⟩
        rw [e1, e2]
        exact hJ q hq
      · rw [if_neg e]
        rcases ih with ⟨⟨k, hk, h⟩, h'⟩ | ⟨h, h'⟩
        · exact Or.inl ⟨⟨k, by omega, h⟩, h'⟩
        · refine Or.inr ⟨fun k hk => ?_, h'⟩
          rcases Nat.lt_succ_iff_lt_or_eq.1 hk with hk | rfl
          · exact h k hk
          · rintro ⟨rfl, rfl⟩; exact e rfl)
  rcases this with ⟨_, h⟩ | ⟨h, h'⟩
  · exact h
  · rw [h']; exact h0 i hi j hj h

/-- **C45** `SparseJacobian(x, p)`: for every history of calls, point and pattern that contains the partials
that are not zero at the point, the element `i * n + j` of the result is the partial of component `i` with respect to `x_j`. -/
theorem sparse_jacobian_ok (hT : T.WF) {S : St} (h : Reach T f S) {sort : List (Element ℕ) → List (Element ℕ)}
    (hs : StdSort Element.lt sort) (junk0 : ℕ → ℝ) (junk : ℕ → ℕ → ℝ) (fjunk : ℕ → Bool) (nan : ℝ)
    {maxR : ℕ} (hg : 0 < maxR) (jac0 J0 : ℕ → ℝ) (xv : List ℝ) (hl : xv.length = T.n) (hD : T.Dom (at' xv))
    (p : SetVec) (hp : p.Ok false T.dep.length T.n)
    (hpat : ∀ i < T.dep.length, ∀ j < T.n, ¬ p.Has false T.dep.length T.n i j → IsPartial (fun y => T.eval y i) (at' xv) j 0)
    (i j : ℕ) (hi : i < T.dep.length) (hj : j < T.n) :
    IsPartial (fun y => T.eval y i) (at' xv) j
      ((sparseJacobian sort f junk0 junk fjunk nan maxR jac0 J0 xv p).2 (i * T.n + j)) := by
  have hn : f.n = T.n := by rw [(h.inv hT).2]
  have hd : f.dep.length = T.dep.length := by rw [(h.inv hT).2]
  unfold sparseJacobian
  simp only [hn, hd]
  by_cases hc : T.n ≤ T.dep.length
  · rw [if_pos hc]
    dsimp only
    have he : ∀ i j, i ∈ user2internal true T.n T.dep.length p j ↔ p.Has false T.dep.length T.n i j :=
      mem_transposed T.dep.length T.n p hp
    generalize user2internal true T.n T.dep.length p = st at he ⊢
    have hmem := mem_entries T.n st
    generalize entries T.n st = e at hmem ⊢
    have hin : Inside T.dep.length T.n e.length (fun k => (e.getD k (0, 0)).2) (fun k => (e.getD k (0, 0)).1) fun i j => i ∈ st j := by
      intro k hk
      have : e.getD k (0, 0) ∈ e := by rw [List.getD_eq_getElem _ _ hk]; exact List.getElem_mem hk
      obtain ⟨h1, h2⟩ := (hmem _ _).1 this
      exact ⟨((he _ _).1 h2).1, h1, h2⟩
    have key := (sparseJacobianFor_ok hT h hs junk0 junk fjunk nan hg xv hl hD st st e.length _ _ J0 hin
      (fun i hi j hj _ _ hno => hpat i hi j hj fun hp => hno ((he i j).2 hp)) none (fun _ => rfl) (fun w hw => by cases hw)).1
    refine put_entries (m := T.dep.length) (fun k hk => ⟨(hin k hk).1, (hin k hk).2.1⟩) _ _ (fun i j v => IsPartial (fun y => T.eval y i) (at' xv) j v)
      key ?_ i j hi hj
    intro i hi j hj hno
    rw [zero_entries _ _ _ _ _ hi hj]
    refine hpat i hi j hj fun hp => ?_
    obtain ⟨k, hk, e'⟩ := List.mem_iff_getElem.1 ((hmem j i).2 ⟨hj, (he i j).2 hp⟩)
    refine hno k hk ?_
    rw [List.getD_eq_getElem _ _ hk, e']
    exact ⟨rfl, rfl⟩
  · rw [if_neg hc]
    dsimp only
    have he : ∀ i j, j ∈ user2internal false T.dep.length T.n p i ↔ p.Has false T.dep.length T.n i j :=
      fun i j => mem_user2internal false T.dep.length T.n p hp i j
    generalize user2internal false T.dep.length T.n p = st at he ⊢
    have hmem := mem_entries T.dep.length st
    generalize entries T.dep.length st = e at hmem ⊢
    have hin : Inside T.dep.length T.n e.length (fun k => (e.getD k (0, 0)).1) (fun k => (e.getD k (0, 0)).2) fun i j => j ∈ st i := by
      intro k hk
      have : e.getD k (0, 0) ∈ e := by rw [List.getD_eq_getElem _ _ hk]; exact List.getElem_mem hk
      obtain ⟨h1, h2⟩ := (hmem _ _).1 this
      exact ⟨h1, ((he _ _).1 h2).2.1, h2⟩
    have key := (sparseJacobianRev_ok hT h hs junk0 junk fjunk nan xv hl hD st st e.length _ _ J0 hin
      (fun i hi j hj _ _ hno => hpat i hi j hj fun hp => hno ((he i j).2 hp)) none (fun _ => rfl) (fun w hw => by cases hw)).1
    refine put_entries (m := T.dep.length) (fun k hk => ⟨(hin k hk).1, (hin k hk).2.1⟩) _ _ (fun i j v => IsPartial (fun y => T.eval y i) (at' xv) j v)
      key ?_ i j hi hj
    intro i hi j hj hno
    rw [zero_entries _ _ _ _ _ hi hj]
    refine hpat i hi j hj fun hp => ?_
    obtain ⟨k, hk, e'⟩ := List.mem_iff_getElem.1 ((hmem i j).2 ⟨hi, (he i j).2 hp⟩)
    refine hno k hk ?_
    rw [List.getD_eq_getElem _ _ hk, e']
    exact ⟨rfl, rfl⟩

theorem identityBools_has (n : ℕ) (junk : ℕ → Bool) (i j : ℕ) : (identityBools n junk).Has false n n i j ↔ i < n ∧ j = i := by
  unfold identityBools SetVec.Has
  simp only [Bool.false_eq_true, if_false]
  have inner : ∀ (q : ℕ) (v : ℕ → Bool) (a : ℕ), (forRange 0 n v fun j v => Function.update v (q * n + j) false) a
      = if q * n ≤ a ∧ a < q * n + n then false else v a := by
    intro q v a
    have := forRange_ind (Nat.zero_le n) (s := v) (f := fun j v => Function.update v (q * n + j) false)
      (P := fun r (u : ℕ → Bool) => u a = if q * n ≤ a ∧ a < q * n + r then false else v a) (by
        rw [if_neg (by omega)]) (by
        intro r u _ _ ih
        rw [Function.update_apply]
        by_cases e : a = q * n + r
        · rw [if_pos e, if_pos (by omega)]
        · rw [if_neg e, ih]
          by_cases e2 : q * n ≤ a ∧ a < q * n + r
          · rw [if_pos e2, if_pos (by omega)]
          · rw [if_neg e2, if_neg (by omega)])
    exact this
  have key : i < n → j < n → ((forRange 0 n junk fun j r =>
      Function.update (forRange 0 n r fun k r => Function.update r (j * n + k) false) (j * n + j) true) (i * n + j) = true ↔ j = i) := by
    intro hi hj
    have := forRange_ind (Nat.zero_le n) (s := junk) (f := fun j r =>
        Function.update (forRange 0 n r fun k r => Function.update r (j * n + k) false) (j * n + j) true)
      (P := fun q (v : ℕ → Bool) => i < q → (v (i * n + j) = true ↔ j = i)) (by omega) (by
        intro q v _ hq ih hiq
        rw [Function.update_apply, inner]
        by_cases e : i * n + j = q * n + q
        · rw [if_pos e]
          obtain ⟨e1, e2⟩ := boolIdx_inj (tr := false) (nr := n) (nc := n) hi hj hq hq (by simpa [boolIdx] using e)
          simp [e1, e2]
        · rw [if_neg e]
          by_cases e2 : q * n ≤ i * n + j ∧ i * n + j < q * n + n
          · rw [if_pos e2]
            obtain ⟨e3, e4⟩ := boolIdx_inj (tr := false) (nr := n) (nc := n) hi hj hq (show i * n + j - q * n < n by omega)
              (by simp only [boolIdx, Bool.false_eq_true, if_false]; omega)
            subst e3
            constructor
            · intro h; cases h
            · intro h; subst h; exact absurd rfl e
          · rw [if_neg e2]
            rcases Nat.lt_succ_iff_lt_or_eq.1 hiq with h | rfl
            · exact ih h
            · omega)
    exact this hi
  constructor
  · rintro ⟨h1, h2, h3⟩; exact ⟨h1, (key h1 h2).1 h3⟩
  · rintro ⟨h1, rfl⟩; exact ⟨h1, h1, (key h1 h1).2 rfl⟩

/-- **C45** `SparseJacobian(x)`: for every history of calls and point, the element `i * n + j` of the result is the partial of
component `i` with respect to `x_j`. -/
theorem sparse_jacobian_x_ok (hT : T.WF) {S : St} (h : Reach T f S) {sort : List (Element ℕ) → List (Element ℕ)}
    (hs : StdSort Element.lt sort) (junk0 : ℕ → ℝ) (junk : ℕ → ℕ → ℝ) (fjunk rjunk pjunk : ℕ → Bool) (nan : ℝ)
    {maxR : ℕ} (hg : 0 < maxR) (jac0 J0 : ℕ → ℝ) (xv : List ℝ) (hl : xv.length = T.n) (hD : T.Dom (at' xv))
    (i j : ℕ) (hi : i < T.dep.length) (hj : j < T.n) :
    IsPartial (fun y => T.eval y i) (at' xv) j
      ((sparseJacobianX sort f junk0 junk fjunk rjunk pjunk nan maxR jac0 J0 xv).2 (i * T.n + j)) := by
  have hn : f.n = T.n := by rw [(h.inv hT).2]
  have hd : f.dep.length = T.dep.length := by rw [(h.inv hT).2]
  have ht : f.toTape = T := (h.inv hT).2
  unfold sparseJacobianX
  simp only [ht]
  refine sparse_jacobian_ok hT h hs junk0 junk fjunk nan hg jac0 J0 xv hl hD _ ?_ ?_ i j hi hj
  · split_ifs
    · unfold forSparseJac readBack identityBools SetVec.kind SetVec.Ok; trivial
    · unfold revSparseJac readBack identityBools SetVec.kind SetVec.Ok; trivial
  · intro i hi j hj hno
    obtain ⟨v, hv⟩ := partial_exists hT hD hi j
    by_cases h0 : v = 0
    · rw [h0] at hv; exact hv
    · exfalso
      apply hno
      split_ifs with hc
      · have hv' := hv
        unfold IsPartial at hv'
        simp only [upd_un] at hv'
        refine for_sparse_jac_ok hT pjunk T.n _ false false (by unfold identityBools SetVec.Ok; trivial) (fun k j => un j k)
          (fun k hk j _ hne => (identityBools_has ..).2 ⟨hk, ?_⟩) (at' xv) hD i j hi hj v hv' h0
        by_contra hkj
        exact hne (by simp [un, Ne.symm hkj])
      · refine rev_sparse_jac_ok hT pjunk T.dep.length _ false false (by unfold identityBools SetVec.Ok; trivial) i j hi hj
          (unitVec T.dep.length i) (fun k hk hne => (identityBools_has ..).2 ⟨hi, ?_⟩) (at' xv) hD v ?_ h0
        · by_contra hkj
          exact hne (by rw [at_unitVec hi, if_neg hkj])
        · have : wsum T (unitVec T.dep.length i) = fun y => T.eval y i := by funext y; rw [wsum_unit hi]
          rw [this]; exact hv

end CppAD.Legacy
