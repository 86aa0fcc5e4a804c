import Mathlib.Data.List.Sort
import Mathlib.Data.List.GetD
import Mathlib.Data.List.OfFn
import Mathlib.Order.Basic

/-!
# `index_sort`

include/cppad/utility/index_sort.hpp.  The C++ standard library function
`std::sort` is not part of the repository: it is a parameter with its contract
from the C++ standard.
-/

namespace CppAD.IndexSort

/-- Contract of `std::sort(work, work + n)` with the operator `<` of the
elements: the result is a permutation, and no element is less than an element before
it.  The order of elements with equal keys is not specified. -/
structure StdSort {ε : Type} (lt : ε → ε → Prop) (sort : List ε → List ε) : Prop where
  perm : ∀ l, (sort l).Perm l
  sorted : ∀ l, (sort l).Pairwise fun a b => ¬ lt b a

/-- index_sort.hpp:76-101: `index_sort_element`, a key and an index -/
structure Element (κ : Type) where
  key : κ
  index : ℕ

/-- index_sort.hpp:84-85: `operator<` only looks at the keys -/
def Element.lt {κ : Type} [LT κ] (a b : Element κ) : Prop := a.key < b.key

/-- index_sort.hpp:149-153: copy of the initial order -/
def work {κ : Type} : List κ → ℕ → List (Element κ)
  | [], _ => []
  | k :: ks, i => ⟨k, i⟩ :: work ks (i + 1)

/-- index_sort.hpp:130-167.  The work vector from `thread_alloc` is a list. -/
def indexSort {κ : Type} (sort : List (Element κ) → List (Element κ)) (keys : List κ) : List ℕ :=
  (sort (work keys 0)).map Element.index

theorem work_length {κ : Type} (keys : List κ) (i : ℕ) : (work keys i).length = keys.length := by
  induction keys generalizing i with
  | nil => rfl
  | cons k ks ih => simp [work, ih]

theorem work_index {κ : Type} (keys : List κ) (i : ℕ) :
    (work keys i).map Element.index = List.range' i keys.length := by
  induction keys generalizing i with
  | nil => rfl
  | cons k ks ih => simp [work, ih, List.range'_succ]

theorem work_mem {κ : Type} (keys : List κ) (i : ℕ) :
    ∀ e ∈ work keys i, i ≤ e.index ∧ keys[e.index - i]? = some e.key := by
  induction keys generalizing i with
  | nil => simp [work]
  | cons k ks ih =>
    intro e he
    simp only [work, List.mem_cons] at he
    rcases he with rfl | he
    · simp
    · obtain ⟨h1, h2⟩ := ih (i + 1) e he
      refine ⟨by omega, ?_⟩
      have : e.index - i = e.index - (i + 1) + 1 := by omega
      rw [this, List.getElem?_cons_succ, h2]

/-- Specification: `ind` is a permutation of `0, …, n-1`, and for positions
`p < q`, `keys[ind[q]] < keys[ind[p]]` is false. -/
structure Sorts {κ : Type} [LT κ] (keys : List κ) (ind : List ℕ) : Prop where
  size : ind.length = keys.length
  perm : ind.Perm (List.range keys.length)
  sorted : ∀ (p q a b : ℕ) (kp kq : κ), p < q → ind[p]? = some a → ind[q]? = some b →
    keys[a]? = some kp → keys[b]? = some kq → ¬ kq < kp

/-- **C26**: for every vector of keys, the result of `index_sort` sorts the keys -/
theorem index_sort_sorts {κ : Type} [LT κ] {sort : List (Element κ) → List (Element κ)}
    (hs : StdSort Element.lt sort) (keys : List κ) : Sorts keys (indexSort sort keys) := by
  have hperm : (indexSort sort keys).Perm (List.range keys.length) := by
    have := (hs.perm (work keys 0)).map Element.index
    rwa [work_index, ← List.range_eq_range'] at this
  refine ⟨by simpa using hperm.length_eq, hperm, ?_⟩
  intro p q a b kp kq hpq hp hq hkp hkq
  unfold indexSort at hp hq
  rw [List.getElem?_map, Option.map_eq_some_iff] at hp hq
  obtain ⟨ea, ha, rfl⟩ := hp
  obtain ⟨eb, hb, rfl⟩ := hq
  have ma := work_mem keys 0 ea ((hs.perm _).subset (List.mem_of_getElem? ha))
  have mb := work_mem keys 0 eb ((hs.perm _).subset (List.mem_of_getElem? hb))
  rw [Nat.sub_zero, hkp] at ma
  rw [Nat.sub_zero, hkq] at mb
  obtain ⟨hp', rfl⟩ := List.getElem?_eq_some_iff.mp ha
  obtain ⟨hq', rfl⟩ := List.getElem?_eq_some_iff.mp hb
  have := List.pairwise_iff_getElem.mp (hs.sorted (work keys 0)) p q hp' hq' hpq
  have e1 := Option.some.inj ma.2
  have e2 := Option.some.inj mb.2
  rw [e1, e2]
  exact this

/-- the contract is met by a sorting function, for keys that are natural numbers -/
theorem stdSort_mergeSort :
    StdSort (Element.lt (κ := ℕ)) (fun l => l.mergeSort fun a b => decide (a.key ≤ b.key)) where
  perm l := List.mergeSort_perm l _
  sorted l := by
    have := List.pairwise_mergeSort (le := fun (a b : Element ℕ) => decide (a.key ≤ b.key))
      (fun a b c h1 h2 => by simp only [decide_eq_true_eq] at *; omega)
      (fun a b => by simp only [Bool.or_eq_true, decide_eq_true_eq]; omega) l
    refine this.imp ?_
    intro a b h
    simp only [decide_eq_true_eq] at h
    exact Nat.not_lt.mpr h

example : Sorts [3, 1, 2, 1]
    (indexSort (fun l => l.mergeSort fun a b => decide (a.key ≤ b.key)) [3, 1, 2, 1]) :=
  index_sort_sorts stdSort_mergeSort _

end CppAD.IndexSort
