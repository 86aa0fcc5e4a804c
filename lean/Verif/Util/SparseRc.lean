import Verif.Util.IndexSort
import Verif.Taylor.Loop

/-!
# `sparse_rc`

include/cppad/utility/sparse_rc.hpp.  Simple vectors are lists; reading an
element that does not exist is the result `none`.  Integers of type
`size_t` are natural numbers (no overflow in the keys).
-/

namespace CppAD.SparseRc

open IndexSort

/-- the private data of `sparse_rc`, sparse_rc.hpp:333-355 -/
structure Rc where
  nr : ℕ
  nc : ℕ
  nnz : ℕ
  row : List ℕ
  col : List ℕ
  rowMajor : List ℕ
  colMajor : List ℕ

/-- default constructor, sparse_rc.hpp:371-373 -/
def Rc.empty : Rc := ⟨0, 0, 0, [], [], [], []⟩

/-- sparse_rc.hpp:491-499 (and the sizing constructor 386-390).  The elements after `resize` are
arbitrary: `jr`, `jc`. -/
def Rc.resize (_ : Rc) (nr nc nnz : ℕ) (jr jc : List ℕ) : Rc := ⟨nr, nc, nnz, jr, jc, [], []⟩

/-- sparse_rc.hpp:502-520 -/
def Rc.set (s : Rc) (k r c : ℕ) : Rc :=
  { s with row := s.row.set k r, col := s.col.set k c, rowMajor := [], colMajor := [] }

/-- sparse_rc.hpp:523-540 -/
def Rc.pushBack (s : Rc) (r c : ℕ) : Rc :=
  { s with row := s.row ++ [r], col := s.col ++ [c], nnz := s.nnz + 1, rowMajor := [], colMajor := [] }

variable (sort : List (Element ℕ) → List (Element ℕ))

/-- sparse_rc.hpp:563-587 -/
def Rc.row_major (s : Rc) : List ℕ :=
  if 0 < s.rowMajor.length then s.rowMajor
  else indexSort sort ((List.range s.nnz).map fun k => s.row.getD k 0 * s.nc + s.col.getD k 0)

/-- sparse_rc.hpp:590-613 -/
def Rc.col_major (s : Rc) : List ℕ :=
  if 0 < s.colMajor.length then s.colMajor
  else indexSort sort ((List.range s.nnz).map fun k => s.col.getD k 0 * s.nr + s.row.getD k 0)

/-- sparse_rc.hpp:615-617 -/
def Rc.setRowMajor (s : Rc) : Rc := { s with rowMajor := s.row_major sort }

/-- sparse_rc.hpp:622-624 -/
def Rc.setColMajor (s : Rc) : Rc := { s with colMajor := s.col_major sort }

/-- sparse_rc.hpp:442-478: the two orders that are compared -/
def orders (s t : Rc) : List ℕ × List ℕ :=
  let this_row_ok := decide (0 < s.rowMajor.length)
  let this_col_ok := decide (0 < s.colMajor.length)
  let other_row_ok := decide (0 < t.rowMajor.length)
  let other_col_ok := decide (0 < t.colMajor.length)
  if this_row_ok && this_row_ok then (s.rowMajor, t.rowMajor)
  else if this_col_ok && this_col_ok then (s.colMajor, t.colMajor)
  else if this_row_ok then (s.rowMajor, t.row_major sort)
  else if this_col_ok then (s.colMajor, t.col_major sort)
  else if other_row_ok then (s.row_major sort, t.rowMajor)
  else if other_col_ok then (s.col_major sort, t.colMajor)
  else (s.row_major sort, t.row_major sort)

/-- one iteration of sparse_rc.hpp:481-486 -/
def cmp (s t : Rc) (o p : List ℕ) (k : ℕ) : Option Bool := do
  let i ← o[k]?
  let j ← p[k]?
  let r1 ← s.row[i]?
  let r2 ← t.row[j]?
  let c1 ← s.col[i]?
  let c2 ← t.col[j]?
  some (r1 == r2 && c1 == c2)

/-- sparse_rc.hpp:433-488: `operator==` -/
def Rc.eq (s t : Rc) : Option Bool :=
  if ¬ (s.nr = t.nr ∧ s.nc = t.nc ∧ s.nnz = t.nnz) then some false
  else
    let o := orders sort s t
    forRange 0 s.nnz (some true) fun k res => do
      let b ← res
      let c ← cmp s t o.1 o.2 k
      some (b && c)

/-! ## Specification -/

/-- `Holds s nr nc l`: after some history of calls the object `s` is a pattern with `nr` rows, `nc`
columns and the list of entries `l`.  Copy, assignment, swap and move give an object that is equal to
one that has such a history. -/
inductive Holds : Rc → ℕ → ℕ → List (ℕ × ℕ) → Prop
  | empty : Holds Rc.empty 0 0 []
  | resize {s nr nc l} (nr' nc' : ℕ) (l' : List (ℕ × ℕ)) : Holds s nr nc l →
      Holds (s.resize nr' nc' l'.length (l'.map Prod.fst) (l'.map Prod.snd)) nr' nc' l'
  | set {s nr nc l} (k r c : ℕ) : Holds s nr nc l → k < l.length → r < nr → c < nc →
      Holds (s.set k r c) nr nc (l.set k (r, c))
  | push {s nr nc l} (r c : ℕ) : Holds s nr nc l → r < nr → c < nc →
      Holds (s.pushBack r c) nr nc (l ++ [(r, c)])
  | setRow {s nr nc l} : Holds s nr nc l → (∀ e ∈ l, e.1 < nr ∧ e.2 < nc) → Holds (s.setRowMajor sort) nr nc l
  | setCol {s nr nc l} : Holds s nr nc l → (∀ e ∈ l, e.1 < nr ∧ e.2 < nc) → Holds (s.setColMajor sort) nr nc l

/-- Specification: `o` is a permutation of the entry numbers, and in this order the entries are sorted
with respect to `le` -/
def OrdersBy (le : ℕ × ℕ → ℕ × ℕ → Prop) (l : List (ℕ × ℕ)) (o : List ℕ) : Prop :=
  o.Perm (List.range l.length) ∧ (o.map fun k => l.getD k (0, 0)).Pairwise le

/-- row major order -/
def rowLe (a b : ℕ × ℕ) : Prop := a.1 < b.1 ∨ (a.1 = b.1 ∧ a.2 ≤ b.2)
/-- column major order -/
def colLe (a b : ℕ × ℕ) : Prop := a.2 < b.2 ∨ (a.2 = b.2 ∧ a.1 ≤ b.1)

/-! ## Proofs -/

theorem key_le {n a b c d : ℕ} (hb : b < n) (hd : d < n) : ¬ c * n + d < a * n + b ↔ a < c ∨ (a = c ∧ b ≤ d) := by
  rcases Nat.lt_trichotomy a c with h | rfl | h
  · have : (a + 1) * n ≤ c * n := Nat.mul_le_mul_right _ h
    rw [Nat.add_mul] at this
    constructor
    · intro _; exact Or.inl h
    · intro _; omega
  · omega
  · have : (c + 1) * n ≤ a * n := Nat.mul_le_mul_right _ h
    rw [Nat.add_mul] at this
    omega

variable {sort}

theorem ordersBy_sort (hs : StdSort Element.lt sort) (l : List (ℕ × ℕ)) (key : ℕ × ℕ → ℕ)
    (le : ℕ × ℕ → ℕ × ℕ → Prop) (hk : ∀ a ∈ l, ∀ b ∈ l, ¬ key b < key a → le a b) :
    OrdersBy le l (indexSort sort ((List.range l.length).map fun k => key (l.getD k (0, 0)))) := by
  set keys := (List.range l.length).map fun k => key (l.getD k (0, 0)) with hkeys
  have hlen : keys.length = l.length := by simp [hkeys]
  have h := index_sort_sorts hs keys
  have hp := h.perm
  rw [hlen] at hp
  refine ⟨hp, ?_⟩
  rw [List.pairwise_map, List.pairwise_iff_getElem]
  intro p q hp' hq' hpq
  have hm : ∀ p, (hp' : p < (indexSort sort keys).length) → (indexSort sort keys)[p] < l.length := fun p hp' =>
    List.mem_range.mp (hp.subset (List.getElem_mem hp'))
  have hget : ∀ k, k < l.length → keys[k]? = some (key (l.getD k (0, 0))) := by
    intro k hk'; simp [hkeys, hk']
  have hin : ∀ k, k < l.length → l.getD k (0, 0) ∈ l := by
    intro k hk'
    rw [List.getD_eq_getElem _ _ hk']; exact List.getElem_mem _
  exact hk _ (hin _ (hm p hp')) _ (hin _ (hm q hq'))
    (h.sorted p q _ _ _ _ hpq (List.getElem?_eq_getElem hp') (List.getElem?_eq_getElem hq')
      (hget _ (hm p hp')) (hget _ (hm q hq')))

theorem ordersBy_row (hs : StdSort Element.lt sort) {l : List (ℕ × ℕ)} {nr nc : ℕ}
    (hin : ∀ e ∈ l, e.1 < nr ∧ e.2 < nc) :
    OrdersBy rowLe l (indexSort sort ((List.range l.length).map fun k =>
      (l.getD k (0, 0)).1 * nc + (l.getD k (0, 0)).2)) :=
  ordersBy_sort hs l (fun e => e.1 * nc + e.2) rowLe (by
    intro a ha b hb h
    exact (key_le (hin a ha).2 (hin b hb).2).mp h)

theorem ordersBy_col (hs : StdSort Element.lt sort) {l : List (ℕ × ℕ)} {nr nc : ℕ}
    (hin : ∀ e ∈ l, e.1 < nr ∧ e.2 < nc) :
    OrdersBy colLe l (indexSort sort ((List.range l.length).map fun k =>
      (l.getD k (0, 0)).2 * nr + (l.getD k (0, 0)).1)) :=
  ordersBy_sort hs l (fun e => e.2 * nr + e.1) colLe (by
    intro a ha b hb h
    exact (key_le (hin a ha).1 (hin b hb).1).mp h)

theorem getD_fst (l : List (ℕ × ℕ)) (k : ℕ) : (l.map Prod.fst).getD k 0 = (l.getD k (0, 0)).1 := by
  by_cases h : k < l.length
  · rw [List.getD_eq_getElem _ _ (by simpa using h), List.getD_eq_getElem _ _ h]; simp
  · rw [List.getD_eq_default _ _ (by simpa using h), List.getD_eq_default _ _ (by simpa using h)]

theorem getD_snd (l : List (ℕ × ℕ)) (k : ℕ) : (l.map Prod.snd).getD k 0 = (l.getD k (0, 0)).2 := by
  by_cases h : k < l.length
  · rw [List.getD_eq_getElem _ _ (by simpa using h), List.getD_eq_getElem _ _ h]; simp
  · rw [List.getD_eq_default _ _ (by simpa using h), List.getD_eq_default _ _ (by simpa using h)]

/-- representation invariant -/
structure Inv (s : Rc) (nr nc : ℕ) (l : List (ℕ × ℕ)) : Prop where
  nr : s.nr = nr
  nc : s.nc = nc
  nnz : s.nnz = l.length
  row : s.row = l.map Prod.fst
  col : s.col = l.map Prod.snd
  rowMajor : s.rowMajor = [] ∨ OrdersBy rowLe l s.rowMajor
  colMajor : s.colMajor = [] ∨ OrdersBy colLe l s.colMajor

theorem Inv.row_major (hs : StdSort Element.lt sort) {s : Rc} {nr nc : ℕ} {l : List (ℕ × ℕ)} (h : Inv s nr nc l)
    (hin : ∀ e ∈ l, e.1 < nr ∧ e.2 < nc) : OrdersBy rowLe l (s.row_major sort) := by
  unfold Rc.row_major
  split
  · rename_i hl
    rcases h.rowMajor with h1 | h1
    · rw [h1] at hl; simp at hl
    · exact h1
  · rw [h.row, h.col, h.nc, h.nnz]
    simp only [getD_fst, getD_snd]
    exact ordersBy_row hs hin

theorem Inv.col_major (hs : StdSort Element.lt sort) {s : Rc} {nr nc : ℕ} {l : List (ℕ × ℕ)} (h : Inv s nr nc l)
    (hin : ∀ e ∈ l, e.1 < nr ∧ e.2 < nc) : OrdersBy colLe l (s.col_major sort) := by
  unfold Rc.col_major
  split
  · rename_i hl
    rcases h.colMajor with h1 | h1
    · rw [h1] at hl; simp at hl
    · exact h1
  · rw [h.row, h.col, h.nr, h.nnz]
    simp only [getD_fst, getD_snd]
    exact ordersBy_col hs hin

theorem Holds.inv (hs : StdSort Element.lt sort) {s : Rc} {nr nc : ℕ} {l : List (ℕ × ℕ)}
    (h : Holds sort s nr nc l) : Inv s nr nc l := by
  induction h with
  | empty => exact ⟨rfl, rfl, rfl, rfl, rfl, Or.inl rfl, Or.inl rfl⟩
  | resize nr' nc' l' _ _ => exact ⟨rfl, rfl, rfl, rfl, rfl, Or.inl rfl, Or.inl rfl⟩
  | set k r c _ _ _ _ ih =>
    refine ⟨ih.nr, ih.nc, ?_, ?_, ?_, Or.inl rfl, Or.inl rfl⟩
    · rw [List.length_set]; exact ih.nnz
    · show List.set _ _ _ = _
      rw [ih.row, List.map_set]
    · show List.set _ _ _ = _
      rw [ih.col, List.map_set]
  | push r c _ _ _ ih =>
    refine ⟨ih.nr, ih.nc, ?_, ?_, ?_, Or.inl rfl, Or.inl rfl⟩
    · show _ + 1 = _
      rw [ih.nnz]; simp
    · show _ ++ _ = _
      rw [ih.row]; simp
    · show _ ++ _ = _
      rw [ih.col]; simp
  | setRow _ hin ih =>
    exact ⟨ih.nr, ih.nc, ih.nnz, ih.row, ih.col, Or.inr (ih.row_major hs hin), ih.colMajor⟩
  | setCol _ hin ih =>
    exact ⟨ih.nr, ih.nc, ih.nnz, ih.row, ih.col, ih.rowMajor, Or.inr (ih.col_major hs hin)⟩

/-- **C27**: for every history, `row_major()` and `col_major()` are permutations that sort the entries -/
theorem row_major_col_major (hs : StdSort Element.lt sort) {s : Rc} {nr nc : ℕ} {l : List (ℕ × ℕ)}
    (h : Holds sort s nr nc l) (hin : ∀ e ∈ l, e.1 < nr ∧ e.2 < nc) :
    OrdersBy rowLe l (s.row_major sort) ∧ OrdersBy colLe l (s.col_major sort) :=
  ⟨(h.inv hs).row_major hs hin, (h.inv hs).col_major hs hin⟩

/-- **C27**: for every history, the sizes and entries are the ones that were set (in particular
`set_row_major` and `set_col_major` do not change them) -/
theorem entries_ok (hs : StdSort Element.lt sort) {s : Rc} {nr nc : ℕ} {l : List (ℕ × ℕ)}
    (h : Holds sort s nr nc l) :
    s.nr = nr ∧ s.nc = nc ∧ s.nnz = l.length ∧ s.row.zip s.col = l := by
  have := h.inv hs
  refine ⟨this.nr, this.nc, this.nnz, ?_⟩
  rw [this.row, this.col]
  clear h this
  induction l with
  | nil => rfl
  | cons a l ih => simp [ih]

/-! ### equality -/

theorem map_getD_perm {l : List (ℕ × ℕ)} {o : List ℕ} (h : o.Perm (List.range l.length)) :
    (o.map fun k => l.getD k (0, 0)).Perm l := by
  have := h.map fun k => l.getD k (0, 0)
  have e : (List.range l.length).map (fun k => l.getD k (0, 0)) = l := by
    apply List.ext_getElem
    · simp
    · intro i h1 h2
      simp only [List.length_map, List.length_range] at h1
      simp [List.getElem?_eq_getElem h1]
  rwa [e] at this

theorem cmp_eq {s t : Rc} {nr nc nr' nc' : ℕ} {l m : List (ℕ × ℕ)} (h : Inv s nr nc l) (h' : Inv t nr' nc' m)
    {o p : List ℕ} (ho : o.Perm (List.range l.length)) (hp : p.Perm (List.range m.length)) (hlen : l.length = m.length)
    {k : ℕ} (hk : k < l.length) :
    cmp s t o p k = some (decide ((o.map fun k => l.getD k (0, 0))[k]? = (p.map fun k => m.getD k (0, 0))[k]?)) := by
  have lo : o.length = l.length := by simpa using ho.length_eq
  have lp : p.length = m.length := by simpa using hp.length_eq
  have h1 : o[k]'(by omega) < l.length := List.mem_range.mp (ho.subset (List.getElem_mem _))
  have h2 : p[k]'(by omega) < m.length := List.mem_range.mp (hp.subset (List.getElem_mem _))
  unfold cmp
  rw [List.getElem?_eq_getElem (by omega : k < o.length), List.getElem?_eq_getElem (by omega : k < p.length),
    h.row, h.col, h'.row, h'.col]
  simp only [Option.bind_eq_bind, Option.bind_some, List.getElem?_map, List.getElem?_eq_getElem h1,
    List.getElem?_eq_getElem h2, Option.map_some, Option.some.injEq,
    List.getElem?_eq_getElem (by omega : k < o.length), List.getElem?_eq_getElem (by omega : k < p.length)]
  rw [List.getD_eq_getElem _ _ h1, List.getD_eq_getElem _ _ h2, Bool.eq_iff_iff]
  simp only [Bool.and_eq_true, beq_iff_eq, decide_eq_true_eq]
  constructor
  · rintro ⟨a, b⟩; exact Prod.ext a b
  · intro e; rw [e]; exact ⟨rfl, rfl⟩

theorem loop_eq {n : ℕ} {g : ℕ → Option Bool} {v : ℕ → Bool} (hg : ∀ k < n, g k = some (v k)) :
    ∃ b, (forRange 0 n (some true) fun k res => do
      let b ← res
      let c ← g k
      some (b && c)) = some b ∧ (b = true ↔ ∀ k < n, v k = true) := by
  have := forRange_ind (Nat.zero_le n) (s := some true) (f := fun k res => do
      let b ← res
      let c ← g k
      some (b && c)) (P := fun q res => ∃ b, res = some b ∧ (b = true ↔ ∀ k < q, v k = true))
    ⟨true, rfl, by simp⟩ (by
      rintro q res _ hq ⟨b, rfl, hb⟩
      refine ⟨b && v q, by simp [hg q hq], ?_⟩
      rw [Bool.and_eq_true, hb]
      constructor
      · rintro ⟨h1, h2⟩ k hk
        rcases Nat.lt_succ_iff_lt_or_eq.mp hk with hk | rfl
        · exact h1 k hk
        · exact h2
      · intro h; exact ⟨fun k hk => h k (by omega), h q (by omega)⟩)
  exact this

/-- The condition under which `operator==` is correct: when this pattern has its row (column) major order
set, the other pattern has it set too. -/
def OrderOk (s t : Rc) : Prop :=
  (s.rowMajor ≠ [] → t.rowMajor ≠ []) ∧ (s.rowMajor = [] → s.colMajor ≠ [] → t.colMajor ≠ [])

/-- **C27** (partial): `operator==` is equality of sizes and of the entries up to their order, for patterns
that meet the condition `OrderOk`.  Without this condition it is wrong: see `eq_reads_outside`. -/
theorem eq_ok_partial (hs : StdSort Element.lt sort) {s t : Rc} {nr nc nr' nc' : ℕ} {l m : List (ℕ × ℕ)}
    (h : Holds sort s nr nc l) (h' : Holds sort t nr' nc' m) (hin : ∀ e ∈ l, e.1 < nr ∧ e.2 < nc)
    (hin' : ∀ e ∈ m, e.1 < nr' ∧ e.2 < nc') (hok : OrderOk s t) :
    ∃ b, s.eq sort t = some b ∧ (b = true ↔ nr = nr' ∧ nc = nc' ∧ l.Perm m) := by
  have i := h.inv hs
  have i' := h'.inv hs
  unfold Rc.eq
  by_cases hd : s.nr = t.nr ∧ s.nc = t.nc ∧ s.nnz = t.nnz
  swap
  · rw [if_pos hd]
    refine ⟨false, rfl, ?_⟩
    simp only [Bool.false_eq_true, false_iff]
    rintro ⟨h1, h2, h3⟩
    apply hd
    rw [i.nr, i.nc, i.nnz, i'.nr, i'.nc, i'.nnz]
    exact ⟨h1, h2, h3.length_eq⟩
  rw [if_neg (by simpa using hd)]
  rw [i.nr, i.nc, i.nnz, i'.nr, i'.nc, i'.nnz] at hd
  obtain ⟨rfl, rfl, hlen⟩ := hd
  dsimp only
  -- the two orders sort with respect to the same order
  have hord : ∃ le : ℕ × ℕ → ℕ × ℕ → Prop, (∀ a b, le a b → le b a → a = b) ∧
      OrdersBy le l (orders sort s t).1 ∧ OrdersBy le m (orders sort s t).2 := by
    have hr : ∀ a b, rowLe a b → rowLe b a → a = b := by
      rintro ⟨a, b⟩ ⟨c, d⟩ h1 h2
      unfold rowLe at h1 h2
      simp only at h1 h2
      ext <;> simp only <;> omega
    have hc : ∀ a b, colLe a b → colLe b a → a = b := by
      rintro ⟨a, b⟩ ⟨c, d⟩ h1 h2
      unfold colLe at h1 h2
      simp only at h1 h2
      ext <;> simp only <;> omega
    unfold orders
    simp only [Bool.and_self, decide_eq_true_eq, List.length_pos_iff]
    by_cases a1 : s.rowMajor = []
    · by_cases a2 : s.colMajor = []
      · rw [if_neg (not_not.mpr a1), if_neg (not_not.mpr a2), if_neg (not_not.mpr a1), if_neg (not_not.mpr a2)]
        by_cases b1 : t.rowMajor = []
        · rw [if_neg (not_not.mpr b1)]
          by_cases b2 : t.colMajor = []
          · rw [if_neg (not_not.mpr b2)]
            exact ⟨rowLe, hr, i.row_major hs hin, i'.row_major hs hin'⟩
          · rw [if_pos b2]
            exact ⟨colLe, hc, i.col_major hs hin, i'.colMajor.resolve_left b2⟩
        · rw [if_pos b1]
          exact ⟨rowLe, hr, i.row_major hs hin, i'.rowMajor.resolve_left b1⟩
      · rw [if_neg (not_not.mpr a1), if_pos a2]
        exact ⟨colLe, hc, i.colMajor.resolve_left a2, i'.colMajor.resolve_left (hok.2 a1 a2)⟩
    · rw [if_pos a1]
      exact ⟨rowLe, hr, i.rowMajor.resolve_left a1, i'.rowMajor.resolve_left (hok.1 a1)⟩
  obtain ⟨le, hanti, ⟨o1, o2⟩, ⟨p1, p2⟩⟩ := hord
  obtain ⟨b, hb1, hb2⟩ := loop_eq (n := s.nnz) (fun k hk =>
    cmp_eq i i' o1 p1 hlen (k := k) (by rw [i.nnz] at hk; exact hk))
  refine ⟨b, hb1, ?_⟩
  rw [hb2]
  have lo : (orders sort s t).1.length = l.length := by simpa using o1.length_eq
  have lp : (orders sort s t).2.length = m.length := by simpa using p1.length_eq
  have e : (∀ k < s.nnz, decide (((orders sort s t).1.map fun k => l.getD k (0, 0))[k]?
        = ((orders sort s t).2.map fun k => m.getD k (0, 0))[k]?) = true) ↔
      ((orders sort s t).1.map fun k => l.getD k (0, 0)) = ((orders sort s t).2.map fun k => m.getD k (0, 0)) := by
    constructor
    · intro hk
      apply List.ext_getElem?
      intro k
      by_cases hkn : k < s.nnz
      · simpa using hk k hkn
      · rw [i.nnz] at hkn
        rw [List.getElem?_eq_none (by rw [List.length_map]; omega), List.getElem?_eq_none (by rw [List.length_map]; omega)]
    · intro h k _; rw [h]; simp
  rw [e]
  constructor
  · intro he
    have h1 := (map_getD_perm o1).symm
    rw [he] at h1
    exact ⟨rfl, rfl, h1.trans (map_getD_perm p1)⟩
  · rintro ⟨-, -, hperm⟩
    exact List.Perm.eq_of_pairwise (fun a b _ _ => hanti a b) o2 p2
      ((map_getD_perm o1).trans (hperm.trans (map_getD_perm p1).symm))

/-- **C27** (the property fails): there are two patterns with the same entry, reached by allowed
calls, for which `operator==` reads an element of an empty vector: the condition
`this_row_ok && this_row_ok` in line 451 should be `this_row_ok && other_row_ok`. -/
theorem eq_reads_outside (hs : StdSort Element.lt sort) :
    ∃ s t : Rc, Holds sort s 1 1 [(0, 0)] ∧ Holds sort t 1 1 [(0, 0)] ∧ s.eq sort t = none := by
  have h0 : Holds sort (Rc.empty.resize 1 1 0 [] []) 1 1 [] := Holds.resize 1 1 [] Holds.empty
  have h1 := Holds.push 0 0 h0 (by decide) (by decide)
  rw [List.nil_append] at h1
  have h2 := Holds.setRow h1 (by decide)
  refine ⟨_, _, h2, h1, ?_⟩
  set t := (Rc.empty.resize 1 1 0 [] []).pushBack 0 0 with ht
  have hlen : 0 < (t.setRowMajor sort).rowMajor.length := by
    have := ((h1.inv hs).row_major hs (by decide)).1.length_eq
    show 0 < (t.row_major sort).length
    rw [this]; decide
  unfold Rc.eq
  rw [if_neg (by simp [Rc.setRowMajor])]
  have ho : (orders sort (t.setRowMajor sort) t).2 = [] := by
    unfold orders
    rw [if_pos (by simpa using hlen)]
    rfl
  show (forRange 0 (0 + 1) _ _) = _
  rw [forRange_succ (Nat.zero_le 0), forRange_of_le le_rfl]
  have hc : ∀ o, cmp (t.setRowMajor sort) t o [] 0 = none := by
    intro o
    unfold cmp
    cases o[0]? <;> simp
  rw [ho, hc]
  rfl

/-- a pattern with two entries that meets the hypotheses of `eq_ok_partial` -/
example : ∃ s t : Rc, Holds sort s 2 3 [(1, 2), (0, 1)] ∧ Holds sort t 2 3 [(0, 1), (1, 2)] ∧ OrderOk s t := by
  have h0 : Holds sort (Rc.empty.resize 2 3 0 [] []) 2 3 [] := Holds.resize 2 3 [] Holds.empty
  have h1 := Holds.push 0 1 (Holds.push 1 2 h0 (by decide) (by decide)) (by decide) (by decide)
  have h2 := Holds.push 1 2 (Holds.push 0 1 h0 (by decide) (by decide)) (by decide) (by decide)
  exact ⟨_, _, h1, h2, fun h => absurd rfl h, fun _ h => absurd rfl h⟩

end CppAD.SparseRc
