import Verif.SetVec.Spec

/-! # Iteration in increasing order -/

namespace CppAD.SetVec

/-- `m` is the smallest element of `S` that is at least `n`, or `e` if there is none -/
def LeastFrom (S : Finset ℕ) (e n m : ℕ) : Prop :=
  (m = e ∨ m ∈ S) ∧ (m < e → n ≤ m) ∧ ∀ y ∈ S, n ≤ y → m ≤ y

theorem sort_getElem_lt (S : Finset ℕ) {i j : ℕ} (hij : i < j) (hj : j < (S.sort (· ≤ ·)).length) :
    (S.sort (· ≤ ·))[i]'(by omega) < (S.sort (· ≤ ·))[j] := by
  have h := Finset.sortedLT_sort S
  exact List.SortedLT.getElem_lt_getElem_of_lt h hij

theorem iterate_sort {S : Finset ℕ} {e : ℕ} (hS : ∀ x ∈ S, x < e) {f : ℕ → ℕ}
    (h0 : LeastFrom S e 0 (f 0)) (hs : ∀ k, f k < e → LeastFrom S e (f k + 1) (f (k + 1)))
    (hend : ∀ k, f k = e → f (k + 1) = e) (k : ℕ) :
    f k = (S.sort (· ≤ ·)).getD k e := by
  set L := S.sort (· ≤ ·) with hL
  have hmem : ∀ x, x ∈ L ↔ x ∈ S := fun x => by simp [hL]
  have hlt : ∀ {i j : ℕ} (hij : i < j) (hj : j < L.length), L[i]'(by omega) < L[j] :=
    fun hij hj => sort_getElem_lt S hij hj
  -- the least element from `n` on is the k-th when everything before is below `n`
  have key : ∀ n k m, LeastFrom S e n m → (∀ i (hi : i < L.length), i < k → L[i] < n) →
      (∀ (h : k < L.length), n ≤ L[k]) → m = L.getD k e := by
    intro n k m hm hb ha
    by_cases hk : k < L.length
    · have hin : L[k] ∈ S := (hmem _).mp (List.getElem_mem hk)
      have h1 := hm.2.2 _ hin (ha hk)
      rw [List.getD_eq_getElem?_getD, List.getElem?_eq_getElem hk, Option.getD_some]
      have hme : m < e := lt_of_le_of_lt h1 (hS _ hin)
      rcases hm.1 with h2 | h2
      · omega
      · obtain ⟨j, hj, hjm⟩ := List.getElem_of_mem ((hmem m).mpr h2)
        have hnm := hm.2.1 hme
        by_contra hne
        have : j < k := by
          by_contra hjk
          rcases Nat.lt_or_ge k j with h3 | h3
          · have := hlt h3 hj; omega
          · have : j = k := by omega
            subst this; exact hne hjm.symm
        have := hb j hj this
        omega
    · rw [List.getD_eq_getElem?_getD, List.getElem?_eq_none (by omega), Option.getD_none]
      rcases hm.1 with h2 | h2
      · exact h2
      · exfalso
        obtain ⟨j, hj, hjm⟩ := List.getElem_of_mem ((hmem m).mpr h2)
        have := hb j hj (by omega)
        have := hm.2.1 (hS _ h2)
        omega
  induction k with
  | zero => exact key 0 0 _ h0 (fun i _ h => by omega) (fun _ => Nat.zero_le _)
  | succ k ih =>
    by_cases hk : k < L.length
    · have hfk : f k = L[k] := by
        rw [ih, List.getD_eq_getElem?_getD, List.getElem?_eq_getElem hk, Option.getD_some]
      have hlt' : f k < e := by
        rw [hfk]; exact hS _ ((hmem _).mp (List.getElem_mem hk))
      refine key _ (k + 1) _ (hs k hlt') ?_ ?_
      · intro i hi hik
        rcases Nat.lt_succ_iff_lt_or_eq.mp hik with h3 | h3
        · have := hlt h3 hk; omega
        · subst h3; omega
      · intro h; have := hlt (show k < k + 1 by omega) h; omega
    · have hfk : f k = e := by
        rw [ih, List.getD_eq_getElem?_getD, List.getElem?_eq_none (by omega), Option.getD_none]
      rw [hend k hfk, List.getD_eq_getElem?_getD, List.getElem?_eq_none (by omega),
        Option.getD_none]

end CppAD.SetVec
