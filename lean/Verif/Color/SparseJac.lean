import Verif.Color.Calc
import Verif.Color.Symmetric
import Verif.Taylor.History

/-!
# `sparse_jac_for` and `sparse_jac_rev`

include/cppad/core/sparse_jac.hpp.  The vectors of a `sparse_rcv` are functions
`row`, `col`, `val` with number of entries `K`.
-/

open scoped ContDiff Topology

namespace CppAD

/-- the indices of a sparsity pattern `sparse_rc`, include/cppad/utility/sparse_rc.hpp -/
structure Pattern where
  nnz : ℕ
  row : ℕ → ℕ
  col : ℕ → ℕ

namespace SparseJac

open IndexSort

/-- include/cppad/local/sparse/internal.hpp:96-140: `set_internal_pattern` with
`zero_empty` false, `internal_index` the identity and an empty internal pattern -/
def setInternal (transpose : Bool) (pat : Pattern) : ℕ → Finset ℕ :=
  forRange 0 pat.nnz (fun _ => ∅) fun k a =>
    let r := if transpose then pat.col k else pat.row k
    let c := if transpose then pat.row k else pat.col k
    Function.update a r (insert c (a r))

theorem mem_setInternal (transpose : Bool) (pat : Pattern) (r c : ℕ) :
    c ∈ setInternal transpose pat r ↔ ∃ k < pat.nnz,
      (if transpose then pat.row k = c ∧ pat.col k = r else pat.row k = r ∧ pat.col k = c) := by
  cases transpose
  · have := Color.mem_appear pat.nnz pat.col pat.row c r
    simp only [Bool.false_eq_true, if_false]
    rw [show setInternal false pat = Color.appear pat.nnz pat.col pat.row from rfl, this]
    constructor <;> (rintro ⟨k, hk, a, b⟩; exact ⟨k, hk, b, a⟩)
  · exact Color.mem_appear pat.nnz pat.row pat.col c r

/-- `sparse_jac_work`, sparse_jac.hpp:230-246 (and the vectors `color`, `order`
of `sparse_hes_work`, sparse_hes.hpp:254-276) -/
structure Work where
  color : ℕ → ℕ
  order : ℕ → ℕ

/-- sparse_jac.hpp:384-388 and 576-580: sorting the entries by color -/
def colorOrder (sort : List (Element ℕ) → List (Element ℕ)) (K : ℕ) (color idx : ℕ → ℕ) : ℕ → ℕ :=
  fun p => (indexSort sort ((List.range K).map fun k => color (idx k))).getD p 0

/-- sparse_jac.hpp:394-396 and 586-588: `n_color` -/
def nColor (n : ℕ) (color : ℕ → ℕ) : ℕ :=
  forRange 0 n 1 fun j c => if color j < n then max c (color j + 1) else c

/-- sparse_jac.hpp:431-436 and 623-626: store the results for one color;
`idx` is `col` (forward) or `row` (reverse), `g` the value of an entry; state is
(k, values) -/
noncomputable def store (K : ℕ) (color idx order : ℕ → ℕ) (c : ℕ) (g : ℕ → ℝ) (s : ℕ × (ℕ → ℝ)) :
    ℕ × (ℕ → ℝ) :=
  whileLoop (fun s => decide (s.1 < K) && decide (color (idx (order s.1)) = c))
    (fun s => (s.1 + 1, Function.update s.2 (order s.1) (g (order s.1)))) s

instance : Nonempty ADFun := ⟨⟨⟨0, [], []⟩, fun _ => 0, 0, 0, 0⟩⟩

/-- sparse_jac.hpp:337-389: colors and order for the forward case -/
def workFor (sort : List (Element ℕ) → List (Element ℕ)) (n K : ℕ) (row col : ℕ → ℕ) (pat : Pattern)
    (fjunk : ℕ → Bool) : Work :=
  let color := Color.colorGeneral n K (setInternal true pat) col row fjunk
  ⟨color, colorOrder sort K color col⟩

/-- sparse_jac.hpp:530-581: colors and order for the reverse case -/
def workRev (sort : List (Element ℕ) → List (Element ℕ)) (m K : ℕ) (row col : ℕ → ℕ) (pat : Pattern)
    (fjunk : ℕ → Bool) : Work :=
  let color := Color.colorGeneral m K (setInternal false pat) row col fjunk
  ⟨color, colorOrder sort K color row⟩

/-- sparse_jac.hpp:407-440: one group of colors; state is ((f, color_count), k, values) -/
noncomputable def group (n m K groupMax nc : ℕ) (junk : ℕ → ℕ → ℝ) (nan : ℝ) (row col : ℕ → ℕ) (w : Work)
    (s : (ADFun × ℕ) × ℕ × (ℕ → ℝ)) : (ADFun × ℕ) × ℕ × (ℕ → ℝ) :=
  let g := min groupMax (nc - s.1.2)
  let dx := tab n g fun j ell => if w.color j = ell + s.1.2 then 1 else 0
  let r := if g = 1 then s.1.1.forward (junk s.1.2) nan 1 dx else s.1.1.forwardDirs (junk s.1.2) 1 g dx
  let s2 := forRange 0 g s.2 fun ell s2 =>
    store K w.color col w.order (ell + s.1.2) (fun k => at' r.2 (row k * g + ell)) s2
  ((r.1, s.1.2 + g), s2)

/-- `ADFun::sparse_jac_for`, sparse_jac.hpp:293-444.  `work` is `none` when its vectors are
empty.  Returns the object, the number of colors, the values in `subset`, and `work`.
`junk0`, `junk` are contents of new memory, `val` the initial values in `subset`. -/
noncomputable def sparseJacFor (sort : List (Element ℕ) → List (Element ℕ)) (f : ADFun)
    (junk0 : ℕ → ℝ) (junk : ℕ → ℕ → ℝ) (fjunk : ℕ → Bool) (nan : ℝ) (groupMax : ℕ) (x : List ℝ)
    (K : ℕ) (row col : ℕ → ℕ) (val : ℕ → ℝ) (pat : Pattern) (work : Option Work) :
    ADFun × ℕ × (ℕ → ℝ) × Option Work :=
  let n := f.n
  let m := f.dep.length
  let f := (f.forward junk0 nan 0 x).1
  if K = 0 then (f, 0, val, work)
  else
    let w := work.getD (workFor sort n K row col pat fjunk)
    let nc := nColor n w.color
    let val := forRange 0 K val fun k v => Function.update v k 0
    let s := whileLoop (fun s => decide (s.1.2 < nc)) (group n m K groupMax nc junk nan row col w)
      ((f, 0), 0, val)
    (s.1.1, nc, s.2.2, some w)

/-- `ADFun::sparse_jac_rev`, sparse_jac.hpp:487-629 -/
noncomputable def sparseJacRev (sort : List (Element ℕ) → List (Element ℕ)) (f : ADFun)
    (junk0 : ℕ → ℝ) (junk : ℕ → ℕ → ℝ) (fjunk : ℕ → Bool) (nan : ℝ) (x : List ℝ)
    (K : ℕ) (row col : ℕ → ℕ) (val : ℕ → ℝ) (pat : Pattern) (work : Option Work) :
    ADFun × ℕ × (ℕ → ℝ) × Option Work :=
  let m := f.dep.length
  let f := (f.forward junk0 nan 0 x).1
  if K = 0 then (f, 0, val, work)
  else
    let w := work.getD (workRev sort m K row col pat fjunk)
    let nc := nColor m w.color
    let val := forRange 0 K val fun k v => Function.update v k 0
    let s := forRange 0 nc (f, 0, val) fun ell s =>
      if s.2.1 = K then s
      else if w.color (row (w.order s.2.1)) ≠ ell then s
      else
        let r := s.1.reverse (junk ell) 1 (tab m 1 fun i _ => if w.color i = ell then 1 else 0)
        (r.1, store K w.color row w.order ell (fun k => at' r.2 (col k)) s.2)
    (s.1, nc, s.2.2, some w)

/-! ## the loop over the colors -/

/-- `order` is a permutation of the entries such that the colors do not decrease -/
structure Ordered (K : ℕ) (color idx order : ℕ → ℕ) : Prop where
  lt : ∀ p < K, order p < K
  inj : ∀ p < K, ∀ q < K, order p = order q → p = q
  surj : ∀ k < K, ∃ p < K, order p = k
  mono : ∀ p q, p < q → q < K → color (idx (order p)) ≤ color (idx (order q))

theorem colorOrder_ok {sort : List (Element ℕ) → List (Element ℕ)} (hs : StdSort Element.lt sort)
    (K : ℕ) (color idx : ℕ → ℕ) : Ordered K color idx (colorOrder sort K color idx) := by
  set keys := (List.range K).map fun k => color (idx k) with hk
  have hlen : keys.length = K := by simp [hk]
  have h := index_sort_sorts hs keys
  have hl : (indexSort sort keys).length = K := by rw [h.size, hlen]
  have hget : ∀ p, (hp : p < K) → colorOrder sort K color idx p = (indexSort sort keys)[p]'(by omega) := by
    intro p hp
    show (indexSort sort keys).getD p 0 = _
    rw [List.getD_eq_getElem _ _ (by omega)]
  have hperm := h.perm
  rw [hlen] at hperm
  have hlt : ∀ p < K, colorOrder sort K color idx p < K := by
    intro p hp
    rw [hget p hp]
    exact List.mem_range.mp (hperm.subset (List.getElem_mem _))
  refine ⟨hlt, ?_, ?_, ?_⟩
  · intro p hp q hq e
    rw [hget p hp, hget q hq] at e
    exact (hperm.nodup_iff.mpr List.nodup_range).getElem_inj_iff.mp e
  · intro k hk'
    obtain ⟨p, hp, e⟩ := List.getElem_of_mem (hperm.symm.subset (List.mem_range.mpr hk'))
    exact ⟨p, by omega, by rw [hget p (by omega)]; exact e⟩
  · intro p q hpq hq
    have hkey : ∀ k < K, keys[k]? = some (color (idx k)) := by
      intro k hk'
      simp [hk, hk']
    have := h.sorted p q _ _ _ _ hpq (by rw [List.getElem?_eq_getElem (by omega), ← hget p (by omega)])
      (by rw [List.getElem?_eq_getElem (by omega), ← hget q hq]) (hkey _ (hlt p (by omega))) (hkey _ (hlt q hq))
    omega

theorem nColor_gt (n : ℕ) (color : ℕ → ℕ) : ∀ j < n, color j < n → color j < nColor n color := by
  refine forRange_ind (Nat.zero_le n) (P := fun q c => ∀ j < q, color j < n → color j < c)
    (fun j hj => by omega) ?_
  intro q c _ _ ih j hj hc
  rcases Nat.lt_succ_iff_lt_or_eq.mp hj with hj | rfl
  · have := ih j hj hc
    split <;> omega
  · rw [if_pos hc]; omega

/-- the entries with color less than `c` have their values -/
structure Stored (K : ℕ) (color idx order : ℕ → ℕ) (Q : ℕ → ℝ → Prop) (c : ℕ) (s : ℕ × (ℕ → ℝ)) : Prop where
  le : s.1 ≤ K
  pos : ∀ p < K, (p < s.1 ↔ color (idx (order p)) < c)
  val : ∀ p < s.1, Q (order p) (s.2 (order p))

theorem store_ok {K : ℕ} {color idx order : ℕ → ℕ} {Q : ℕ → ℝ → Prop} {c : ℕ} {g : ℕ → ℝ}
    {s : ℕ × (ℕ → ℝ)} (ho : Ordered K color idx order) (h : Stored K color idx order Q c s)
    (hg : ∀ k < K, color (idx k) = c → Q k (g k)) :
    Stored K color idx order Q (c + 1) (store K color idx order c g s) := by
  unfold store
  have := whileLoop_rule (c := fun s => decide (s.1 < K) && decide (color (idx (order s.1)) = c))
    (b := fun s => (s.1 + 1, Function.update s.2 (order s.1) (g (order s.1))))
    (fun s => s.1 ≤ K ∧ (∀ p < K, p < s.1 → color (idx (order p)) ≤ c) ∧
      (∀ p < K, color (idx (order p)) < c → p < s.1) ∧ ∀ p < s.1, Q (order p) (s.2 (order p)))
    (fun s => K - s.1) (by
      rintro ⟨k, v⟩ ⟨h1, h2, h3, h4⟩ hc
      simp only [Bool.and_eq_true, decide_eq_true_eq] at hc
      refine ⟨⟨by dsimp only; omega, ?_, ?_, ?_⟩, by dsimp only; omega⟩
      · intro p hp hpk
        dsimp only at hpk
        rcases Nat.lt_succ_iff_lt_or_eq.mp hpk with hpk | rfl
        · exact h2 p hp hpk
        · omega
      · intro p hp hpc
        have := h3 p hp hpc
        dsimp only at this ⊢; omega
      · intro p hp
        dsimp only at hp ⊢
        rcases Nat.lt_succ_iff_lt_or_eq.mp hp with hp | rfl
        · rw [Function.update_of_ne]
          · exact h4 p hp
          · intro e
            have := ho.inj p (by omega) k (by omega) e
            omega
        · rw [Function.update_self]
          exact hg _ (ho.lt p hc.1) hc.2)
    (s := s) ⟨h.le, fun p hp hps => ((h.pos p hp).mp hps).le, fun p hp hpc => (h.pos p hp).mpr hpc, h.val⟩
  revert this
  generalize whileLoop (fun s => decide (s.1 < K) && decide (color (idx (order s.1)) = c))
    (fun s => (s.1 + 1, Function.update s.2 (order s.1) (g (order s.1)))) s = t
  rintro ⟨⟨h1, h2, h3, h4⟩, h5⟩
  refine ⟨h1, ?_, h4⟩
  intro p hp
  constructor
  · intro hps; have := h2 p hp hps; omega
  · intro hpc
    by_contra hps
    rw [Bool.and_eq_false_iff, decide_eq_false_iff_not, decide_eq_false_iff_not] at h5
    rcases h5 with h5 | h5
    · omega
    · have hk : ¬ color (idx (order t.1)) < c := fun hlt =>
        absurd (h3 _ (by omega) hlt) (lt_irrefl _)
      rcases Nat.lt_or_eq_of_le (Nat.not_lt.mp hps) with hlt | he
      · have := ho.mono _ p hlt hp
        omega
      · rw [he] at h5 hk
        omega

/-! ## tabulated directions -/

theorem at_tab {n g : ℕ} (F : ℕ → ℕ → ℝ) {j ell : ℕ} (hj : j < n) (hell : ell < g) :
    at' (tab n g F) (j * g + ell) = F j ell := by
  unfold at' tab
  have h1 : j * g + ell < n * g := by
    have : (j + 1) * g ≤ n * g := Nat.mul_le_mul_right _ hj
    rw [Nat.add_mul] at this; omega
  rw [List.getD_eq_getElem _ _ (by simpa using h1)]
  simp only [List.getElem_map, List.getElem_range]
  rw [Nat.mul_comm j g, Nat.mul_add_div (by omega), Nat.mul_add_mod, Nat.div_eq_of_lt hell, Nat.mod_eq_of_lt hell,
    Nat.add_zero]

theorem tab_length (n g : ℕ) (F : ℕ → ℕ → ℝ) : (tab n g F).length = n * g := by simp [tab]

/-- columns with color `c` -/
def cls (n : ℕ) (color : ℕ → ℕ) (c : ℕ) : Finset ℕ := (Finset.range n).filter fun j => color j = c

theorem at_cls {n : ℕ} {color : ℕ → ℕ} {c : ℕ} :
    at' (tab n 1 fun j _ => if color j = c then 1 else 0) = indic (cls n color c) := by
  funext j
  unfold indic cls
  by_cases hj : j < n
  · have := at_tab (fun j _ => if color j = c then (1 : ℝ) else 0) hj (ell := 0) (g := 1) (by omega)
    rw [Nat.mul_one, Nat.add_zero] at this
    rw [this]
    simp [hj]
  · rw [if_neg (by simp [hj])]
    unfold at'
    rw [List.getD_eq_default]
    rw [tab_length]; omega

variable {T : Tape} {f : ADFun} {x : ℕ → ℝ}

/-- `Forward(1, r, dx)` after order zero at `x` -/
theorem dirs_ok (hT : T.WF) (h : Ready T f x) (junk : ℕ → ℝ) {r : ℕ} (hr : 0 < r) (dx : List ℝ)
    (hl : dx.length = r * T.n) :
    Ready T (f.forwardDirs junk 1 r dx).1 x ∧
    (T.Dom x → ∀ i < T.dep.length, ∀ ell < r,
      HasDerivAt (fun t => T.eval (fun j => x j + t * at' dx (r * j + ell)) i)
        (at' (f.forwardDirs junk 1 r dx).2 (i * r + ell)) 0) := by
  obtain ⟨S, hS, hn, hx⟩ := h
  have hpre : S.preDirs T.n 1 r dx := ⟨one_pos, hr, hl, hn, Or.inl rfl⟩
  refine ⟨⟨_, Reach.dirs junk 1 r dx hS hpre, by simp [St.dirs], ?_⟩, ?_⟩
  · intro j hj
    unfold St.dirs
    simp only [zero_ne_one, if_false]
    split <;> exact hx j hj
  · intro hD i hi ell hell
    have hD' : T.Dom fun j => S.x 0 j 0 := T.Dom_congr hT (fun j hj => (hx j hj).symm) hD
    rw [(forward_directions hT hS junk 1 r dx one_pos hr hl hn (Or.inl rfl) hD').2 i hi ell hell]
    exact Y_two hT (fun j k => if k = 1 then at' dx (r * j + ell) else if k = 0 then S.x 0 j 0 else S.x ell j k)
      (fun j hj => by simp [hx j hj]) (fun j hj => by simp) hi le_rfl hD

/-- a first order forward calculation in the direction of one color -/
theorem color_dir (hT : T.WF) (hD : T.Dom x) {i : ℕ} (hi : i < T.dep.length) {s : Finset ℕ} {j : ℕ} {d v : ℝ}
    {u : ℕ → ℝ} (hu : ∀ j < T.n, u j = indic s j)
    (hv : HasDerivAt (fun t => T.eval (fun j => x j + t * u j) i) v 0)
    (hj : j ∈ s) (hd : IsPartial (fun y => T.eval y i) x j d)
    (hz : ∀ j' ∈ s, j' ≠ j → IsPartial (fun y => T.eval y i) x j' 0) : v = d := by
  classical
  have e : (fun y => T.eval y i) = wsum T (unitVec T.dep.length i) := by
    funext y; rw [wsum_unit hi]
  rw [e] at hd hz
  have := dir_sum hT hD (unitVec T.dep.length i) (fun j' => if j' = j then d else 0) s (by
    intro j' hj'
    by_cases hjj : j' = j
    · subst hjj; simpa using hd
    · simpa [hjj] using hz j' hj' hjj)
  rw [Finset.sum_ite_eq' s j, if_pos hj] at this
  refine HasDerivAt.unique hv (this.congr_of_eventuallyEq (Filter.Eventually.of_forall fun t => ?_))
  simp only
  rw [wsum_unit hi]
  exact T.eval_congr hT (fun j' hj' => by rw [hu j' hj']) hi

/-- the work information of a previous call with the same subset and pattern -/
def GoodFor (n K : ℕ) (row col : ℕ → ℕ) (pat : Pattern) (w : Work) : Prop :=
  Color.Valid n K (setInternal true pat) col row w.color ∧ Ordered K w.color col w.order

/-- as `GoodFor`, for `sparse_jac_rev` -/
def GoodRev (m K : ℕ) (row col : ℕ → ℕ) (pat : Pattern) (w : Work) : Prop :=
  Color.Valid m K (setInternal false pat) row col w.color ∧ Ordered K w.color row w.order

/-- Specification: the entries that are not in the pattern are zero at `x`.  This is only
required for rows and columns that appear in the subset. -/
def Covers (T : Tape) (K : ℕ) (row col : ℕ → ℕ) (pat : Pattern) (x : ℕ → ℝ) : Prop :=
  ∀ i < T.dep.length, ∀ j < T.n, (∃ k < K, row k = i) → (∃ k < K, col k = j) → (∀ k < pat.nnz, ¬ (pat.row k = i ∧ pat.col k = j)) →
    IsPartial (fun y => T.eval y i) x j 0

/-- the entries of `subset` are inside the matrix and in the pattern -/
def Inside (m n K : ℕ) (row col : ℕ → ℕ) (pat : Pattern) : Prop :=
  ∀ k < K, row k < m ∧ col k < n ∧ ∃ q < pat.nnz, pat.row q = row k ∧ pat.col q = col k

theorem workFor_good {sort : List (Element ℕ) → List (Element ℕ)} (hs : StdSort Element.lt sort)
    {m n K : ℕ} {row col : ℕ → ℕ} {pat : Pattern} (h : Inside m n K row col pat) (fjunk : ℕ → Bool) :
    GoodFor n K row col pat (workFor sort n K row col pat fjunk) := by
  refine ⟨Color.color_general_valid n m K _ col row fjunk ?_, colorOrder_ok hs K _ col⟩
  intro k hk
  obtain ⟨h1, h2, q, hq, h3, h4⟩ := h k hk
  refine ⟨h2, h1, ?_⟩
  rw [mem_setInternal]
  exact ⟨q, hq, by simp [h3, h4]⟩

theorem workRev_good {sort : List (Element ℕ) → List (Element ℕ)} (hs : StdSort Element.lt sort)
    {m n K : ℕ} {row col : ℕ → ℕ} {pat : Pattern} (h : Inside m n K row col pat) (fjunk : ℕ → Bool) :
    GoodRev m K row col pat (workRev sort m K row col pat fjunk) := by
  refine ⟨Color.color_general_valid m n K _ row col fjunk ?_, colorOrder_ok hs K _ row⟩
  intro k hk
  obtain ⟨h1, h2, q, hq, h3, h4⟩ := h k hk
  refine ⟨h1, h2, ?_⟩
  rw [mem_setInternal]
  exact ⟨q, hq, by simp [h3, h4]⟩

theorem stored_init {K : ℕ} {color idx order : ℕ → ℕ} {Q : ℕ → ℝ → Prop} (v : ℕ → ℝ) :
    Stored K color idx order Q 0 (0, v) :=
  ⟨Nat.zero_le _, fun p _ => by simp, fun p hp => absurd hp (Nat.not_lt_zero _)⟩

theorem stored_end {K : ℕ} {color idx order : ℕ → ℕ} {Q : ℕ → ℝ → Prop} {c : ℕ} {s : ℕ × (ℕ → ℝ)}
    (ho : Ordered K color idx order) (h : Stored K color idx order Q c s)
    (hc : ∀ k < K, color (idx k) < c) : ∀ k < K, Q k (s.2 k) := by
  intro k hk
  obtain ⟨p, hp, rfl⟩ := ho.surj k hk
  exact h.val p ((h.pos p hp).mpr (hc _ hk))

/-- **C20** `sparse_jac_for`: for every history of calls, point, subset, pattern that
covers the non-zero entries at the point (in the rows and columns of the subset), bound on the group size, and for a `work` that is
empty or from a previous call with this subset and pattern: the entry `k` of the subset is set to
the partial derivative of component `row k` with respect to `x_(col k)`, and the
resulting `work` is again usable. -/
theorem sparse_jac_for_ok (hT : T.WF) {S : St} (h : Reach T f S) {sort : List (Element ℕ) → List (Element ℕ)}
    (hs : StdSort Element.lt sort) (junk0 : ℕ → ℝ) (junk : ℕ → ℕ → ℝ) (fjunk : ℕ → Bool) (nan : ℝ)
    {groupMax : ℕ} (hg : 0 < groupMax) (xv : List ℝ) (hl : xv.length = T.n) (hD : T.Dom (at' xv))
    (K : ℕ) (row col : ℕ → ℕ) (val : ℕ → ℝ) (pat : Pattern)
    (hin : Inside T.dep.length T.n K row col pat) (hpat : Covers T K row col pat (at' xv))
    (work : Option Work) (hw : ∀ w, work = some w → GoodFor T.n K row col pat w) :
    (∀ k < K, IsPartial (fun y => T.eval y (row k)) (at' xv) (col k)
      ((sparseJacFor sort f junk0 junk fjunk nan groupMax xv K row col val pat work).2.2.1 k)) ∧
    (∀ w, (sparseJacFor sort f junk0 junk fjunk nan groupMax xv K row col val pat work).2.2.2 = some w →
      GoodFor T.n K row col pat w) := by
  have h0 := fwd0_ready hT h junk0 nan xv hl
  have hn : f.n = T.n := by rw [(h.inv hT).2]
  have hd : f.dep.length = T.dep.length := by rw [(h.inv hT).2]
  unfold sparseJacFor
  simp only [hn, hd]
  generalize (f.forward junk0 nan 0 xv).1 = f0 at h0
  by_cases hK : K = 0
  · rw [if_pos hK]
    exact ⟨fun k hk => by omega, hw⟩
  rw [if_neg hK]
  have hwg : GoodFor T.n K row col pat (work.getD (workFor sort T.n K row col pat fjunk)) := by
    cases work with
    | none => exact workFor_good hs hin fjunk
    | some w => exact hw w rfl
  generalize work.getD (workFor sort T.n K row col pat fjunk) = w at hwg
  refine ⟨?_, fun w' e => by cases e; exact hwg⟩
  obtain ⟨hv, ho⟩ := hwg
  set nc := nColor T.n w.color with hnc
  set val0 := forRange 0 K val fun k v => Function.update v k 0
  let Q : ℕ → ℝ → Prop := fun k v => IsPartial (fun y => T.eval y (row k)) (at' xv) (col k) v
  -- the value of an entry
  have entry : ∀ k < K, ∀ (u : ℕ → ℝ) (v : ℝ), (∀ j < T.n, u j = indic (cls T.n w.color (w.color (col k))) j) →
      HasDerivAt (fun t => T.eval (fun j => at' xv j + t * u j) (row k)) v 0 → Q k v := by
    intro k hk u v hu hd
    obtain ⟨h1, h2, -⟩ := hin k hk
    have e : (fun y => T.eval y (row k)) = wsum T (unitVec T.dep.length (row k)) := by
      funext y; rw [wsum_unit h1]
    obtain ⟨d, hp⟩ := wsum_partial hT hD (unitVec T.dep.length (row k)) (col k)
    rw [← e] at hp
    have hmem : col k ∈ cls T.n w.color (w.color (col k)) := by simp [cls, h2]
    have : v = d := color_dir hT hD h1 hu hd hmem hp (by
      intro j' hj' hne
      simp only [cls, Finset.mem_filter, Finset.mem_range] at hj'
      have hj2 : ∃ k' < K, col k' = j' := by
        by_contra hno
        have := hv.not j' hj'.1 (fun k' hk' e => hno ⟨k', hk', e⟩)
        have := hv.colored k hk
        omega
      apply hpat _ h1 _ hj'.1 ⟨k, hk, rfl⟩ hj2
      intro q hq ⟨e1, e2⟩
      apply hv.recover k hk j' hj'.1 hne hj'.2
      rw [mem_setInternal]
      exact ⟨q, hq, by simp [e1, e2]⟩)
    rw [this]; exact hp
  have main := whileLoop_rule (c := fun s => decide (s.1.2 < nc))
    (b := group T.n T.dep.length K groupMax nc junk nan row col w)
    (fun s => Ready T s.1.1 (at' xv) ∧ s.1.2 ≤ nc ∧ Stored K w.color col w.order Q s.1.2 s.2)
    (fun s => nc - s.1.2) (by
      rintro ⟨⟨g, cc⟩, s2⟩ ⟨hr, hcc, hst⟩ hc
      simp only [decide_eq_true_eq] at hc
      dsimp only at hr hcc hst
      unfold group
      dsimp only
      set gs := min groupMax (nc - cc) with hgs
      have hgs1 : 0 < gs := by omega
      have hgs2 : cc + gs ≤ nc := by omega
      set dx := tab T.n gs fun j ell => if w.color j = ell + cc then (1 : ℝ) else 0 with hdx
      have hdxl : dx.length = T.n * gs := tab_length _ _ _
      have hdir : ∀ ell < gs, ∀ j < T.n, at' dx (gs * j + ell) = indic (cls T.n w.color (ell + cc)) j := by
        intro ell hell j hj
        rw [Nat.mul_comm gs j, hdx, at_tab _ hj hell]
        unfold indic cls
        simp [hj]
      set r := if gs = 1 then g.forward (junk cc) nan 1 dx else g.forwardDirs (junk cc) 1 gs dx with hrdef
      have hrok : Ready T r.1 (at' xv) ∧ ∀ i < T.dep.length, ∀ ell < gs,
          HasDerivAt (fun t => T.eval (fun j => at' xv j + t * at' dx (gs * j + ell)) i)
            (at' r.2 (i * gs + ell)) 0 := by
        by_cases h1 : gs = 1
        · rw [if_pos h1] at hrdef
          have h2 := fwd1_ok hT hr (junk cc) nan dx (by rw [hdxl, h1, Nat.mul_one])
          rw [← hrdef] at h2
          obtain ⟨⟨S1, a1, a2, _, a4⟩, h2'⟩ := h2
          refine ⟨⟨S1, a1, by omega, fun j hj => (a4 j hj).1⟩, ?_⟩
          intro i hi ell hell
          have := h2' hD i hi
          have he : ell = 0 := by omega
          subst he
          simpa [h1] using this
        · rw [if_neg h1] at hrdef
          have h2 := dirs_ok hT hr (junk cc) hgs1 dx (by rw [hdxl, Nat.mul_comm])
          rw [← hrdef] at h2
          exact ⟨h2.1, h2.2 hD⟩
      refine ⟨⟨hrok.1, hgs2, ?_⟩, by omega⟩
      refine forRange_ind (Nat.zero_le gs) (s := s2)
        (P := fun q s => Stored K w.color col w.order Q (cc + q) s) hst ?_
      intro ell s _ hell hs'
      have : cc + (ell + 1) = (ell + cc) + 1 := by omega
      rw [this]
      refine store_ok ho (by rw [Nat.add_comm ell cc]; exact hs') ?_
      intro k hk hck
      refine entry k hk (fun j => at' dx (gs * j + ell)) _ ?_ (hrok.2 _ (hin k hk).1 ell hell)
      intro j hj
      rw [hdir ell hell j hj, hck])
    (s := ((f0, 0), 0, val0)) ⟨h0, Nat.zero_le _, stored_init _⟩
  obtain ⟨⟨_, m2, m3⟩, m4⟩ := main
  simp only [decide_eq_false_iff_not] at m4
  refine stored_end ho m3 ?_
  intro k hk
  have h1 := nColor_gt T.n w.color (col k) (hin k hk).2.1 (hv.colored k hk)
  omega

/-- **C20** `sparse_jac_rev`: the same for the reverse mode version. -/
theorem sparse_jac_rev_ok (hT : T.WF) {S : St} (h : Reach T f S) {sort : List (Element ℕ) → List (Element ℕ)}
    (hs : StdSort Element.lt sort) (junk0 : ℕ → ℝ) (junk : ℕ → ℕ → ℝ) (fjunk : ℕ → Bool) (nan : ℝ)
    (xv : List ℝ) (hl : xv.length = T.n) (hD : T.Dom (at' xv))
    (K : ℕ) (row col : ℕ → ℕ) (val : ℕ → ℝ) (pat : Pattern)
    (hin : Inside T.dep.length T.n K row col pat) (hpat : Covers T K row col pat (at' xv))
    (work : Option Work) (hw : ∀ w, work = some w → GoodRev T.dep.length K row col pat w) :
    (∀ k < K, IsPartial (fun y => T.eval y (row k)) (at' xv) (col k)
      ((sparseJacRev sort f junk0 junk fjunk nan xv K row col val pat work).2.2.1 k)) ∧
    (∀ w, (sparseJacRev sort f junk0 junk fjunk nan xv K row col val pat work).2.2.2 = some w →
      GoodRev T.dep.length K row col pat w) := by
  have h0 := fwd0_ready hT h junk0 nan xv hl
  have hd : f.dep.length = T.dep.length := by rw [(h.inv hT).2]
  unfold sparseJacRev
  simp only [hd]
  generalize (f.forward junk0 nan 0 xv).1 = f0 at h0
  by_cases hK : K = 0
  · rw [if_pos hK]
    exact ⟨fun k hk => by omega, hw⟩
  rw [if_neg hK]
  have hwg : GoodRev T.dep.length K row col pat (work.getD (workRev sort T.dep.length K row col pat fjunk)) := by
    cases work with
    | none => exact workRev_good hs hin fjunk
    | some w => exact hw w rfl
  generalize work.getD (workRev sort T.dep.length K row col pat fjunk) = w at hwg
  refine ⟨?_, fun w' e => by cases e; exact hwg⟩
  obtain ⟨hv, ho⟩ := hwg
  set nc := nColor T.dep.length w.color with hnc
  set val0 := forRange 0 K val fun k v => Function.update v k 0
  let Q : ℕ → ℝ → Prop := fun k v => IsPartial (fun y => T.eval y (row k)) (at' xv) (col k) v
  have entry : ∀ k < K, ∀ (v : ℝ),
      IsPartial (wsum T (tab T.dep.length 1 fun i _ => if w.color i = w.color (row k) then 1 else 0))
        (at' xv) (col k) v → Q k v := by
    intro k hk v hpv
    obtain ⟨h1, h2, -⟩ := hin k hk
    have e : ∀ i < T.dep.length, (fun y => T.eval y i) = wsum T (unitVec T.dep.length i) := by
      intro i hi; funext y; rw [wsum_unit hi]
    have hex : ∀ i < T.dep.length, ∃ d, IsPartial (fun y => T.eval y i) (at' xv) (col k) d := by
      intro i hi
      rw [e i hi]; exact wsum_partial hT hD _ _
    obtain ⟨d, hp⟩ := hex _ h1
    have hsum : IsPartial (wsum T (tab T.dep.length 1 fun i _ => if w.color i = w.color (row k) then 1 else 0))
        (at' xv) (col k) (∑ i ∈ Finset.range T.dep.length,
          indic (cls T.dep.length w.color (w.color (row k))) i * (if i = row k then d else 0)) := by
      unfold IsPartial wsum
      rw [at_cls]
      refine HasDerivAt.fun_sum fun i hi => ?_
      have hi := Finset.mem_range.mp hi
      by_cases hik : i = row k
      · subst hik
        rw [if_pos rfl]
        exact HasDerivAt.const_mul _ hp
      · rw [if_neg hik]
        by_cases hc : w.color i = w.color (row k)
        · refine HasDerivAt.const_mul _ ?_
          have hi2 : ∃ k' < K, row k' = i := by
            by_contra hno
            have := hv.not i hi (fun k' hk' e => hno ⟨k', hk', e⟩)
            have := hv.colored k hk
            omega
          apply hpat i hi _ h2 hi2 ⟨k, hk, rfl⟩
          intro q hq ⟨e1, e2⟩
          apply hv.recover k hk i hi hik hc
          rw [mem_setInternal]
          exact ⟨q, hq, by simp [e1, e2]⟩
        · have : indic (cls T.dep.length w.color (w.color (row k))) i = 0 := by simp [indic, cls, hc]
          rw [this]
          simpa using hasDerivAt_const (0 : ℝ) (0 : ℝ)
    have hv' := isPartial_unique hpv hsum
    have : v = d := by
      rw [hv', Finset.sum_eq_single (row k)]
      · simp [indic, cls, h1]
      · intro b _ hb; simp [hb]
      · intro hb; simp [h1] at hb
    show IsPartial _ _ _ v
    rw [this]; exact hp
  have main := forRange_ind (Nat.zero_le nc) (s := (f0, 0, val0))
    (f := fun ell s =>
      if s.2.1 = K then s
      else if w.color (row (w.order s.2.1)) ≠ ell then s
      else
        let r := s.1.reverse (junk ell) 1 (tab T.dep.length 1 fun i _ => if w.color i = ell then 1 else 0)
        (r.1, store K w.color row w.order ell (fun k => at' r.2 (col k)) s.2))
    (P := fun q s => Ready T s.1 (at' xv) ∧ Stored K w.color row w.order Q q s.2)
    ⟨h0, stored_init _⟩ (by
      rintro ell ⟨g, k, v⟩ _ hell ⟨hr, hst⟩
      dsimp only at hr hst ⊢
      by_cases h1 : k = K
      · rw [if_pos h1]
        refine ⟨hr, hst.le, ?_, hst.val⟩
        intro p hp
        have := (hst.pos p hp)
        dsimp only at this ⊢
        constructor
        · intro h; have := this.mp h; omega
        · intro; omega
      · have hkK : k < K := by have := hst.le; dsimp only at this; omega
        rw [if_neg h1]
        by_cases h2 : w.color (row (w.order k)) = ell
        · rw [if_neg (by simpa using h2)]
          have hrev := rev1_ok hT hr (junk ell) (tab T.dep.length 1 fun i _ => if w.color i = ell then 1 else 0)
            (by rw [tab_length, Nat.mul_one])
          refine ⟨hrev.1, ?_⟩
          dsimp only
          refine store_ok ho hst ?_
          intro k' hk' hc
          refine entry k' hk' _ ?_
          rw [hc]
          exact hrev.2 hD (col k') (hin k' hk').2.1
        · rw [if_pos h2]
          refine ⟨hr, hst.le, ?_, hst.val⟩
          intro p hp
          have hk := hst.pos k hkK
          have := hst.pos p hp
          dsimp only at hk this ⊢
          constructor
          · intro h; have := this.mp h; omega
          · intro h
            by_contra hc
            rcases Nat.lt_or_eq_of_le (Nat.not_lt.mp hc) with hlt | rfl
            · have := ho.mono k p hlt hp
              omega
            · omega)
  refine stored_end ho main.2 ?_
  intro k hk
  exact nColor_gt T.dep.length w.color (row k) (hin k hk).1 (hv.colored k hk)

end SparseJac

end CppAD
