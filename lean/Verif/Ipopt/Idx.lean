import Verif.Ipopt.Spec

/-!
# The callback object of `ipopt::solve`: the vectors of row and column indices
-/

namespace CppAD.Ipopt

/-- the pairs in row major order, where `C i` are the columns in row `i` -/
def pairs (lo hi : ℕ) (C : ℕ → List ℕ) : List (ℕ × ℕ) := (List.range' lo (hi - lo)).flatMap fun i => (C i).map fun j => (i, j)

theorem mem_pairs {lo hi : ℕ} {C : ℕ → List ℕ} {e : ℕ × ℕ} : e ∈ pairs lo hi C ↔ lo ≤ e.1 ∧ e.1 < hi ∧ e.2 ∈ C e.1 := by
  unfold pairs
  simp only [List.mem_flatMap, List.mem_range'_1, List.mem_map]
  constructor
  · rintro ⟨i, h, j, hj, rfl⟩
    exact ⟨h.1, by omega, hj⟩
  · rintro ⟨h1, h2, h3⟩
    exact ⟨e.1, by omega, e.2, h3, rfl⟩

theorem pairs_nodup {lo hi : ℕ} {C : ℕ → List ℕ} (hC : ∀ i, (C i).Nodup) : (pairs lo hi C).Nodup := by
  unfold pairs
  rw [List.nodup_flatMap]
  refine ⟨fun i _ => (hC i).map fun a b h => (Prod.mk.inj h).2, ?_⟩
  refine (List.nodup_range' (step := 1)).imp ?_
  intro a b hab e h1 h2
  obtain ⟨j, _, rfl⟩ := List.mem_map.1 h1
  obtain ⟨j', _, h⟩ := List.mem_map.1 h2
  exact hab (Prod.mk.inj h).1.symm

theorem pairs_mono {lo hi : ℕ} {C : ℕ → List ℕ} : (pairs lo hi C).Pairwise fun a b => a.1 ≤ b.1 := by
  unfold pairs
  rw [List.pairwise_flatMap]
  refine ⟨fun i _ => ?_, ?_⟩
  · rw [List.pairwise_map]
    exact List.pairwise_of_forall fun _ _ => le_rfl
  · refine (List.pairwise_lt_range' (step := 1)).imp ?_
    intro a b hab e1 h1 e2 h2
    obtain ⟨j, _, rfl⟩ := List.mem_map.1 h1
    obtain ⟨j', _, rfl⟩ := List.mem_map.1 h2
    exact hab.le

/-- the row and column indices of a list of pairs -/
def unz (P : List (ℕ × ℕ)) : List ℕ × List ℕ := (P.map Prod.fst, P.map Prod.snd)

theorem push_inner (n i : ℕ) (c : ℕ → Bool) (P : List (ℕ × ℕ)) (body : ℕ → List ℕ × List ℕ → List ℕ × List ℕ)
    (hb : ∀ j rc, body j rc = if c j then push i j rc else rc) :
    forRange 0 n (unz P) body = unz (P ++ ((List.range n).filter c).map fun j => (i, j)) := by
  refine forRange_ind (s := unz P) (f := body) (Nat.zero_le n)
    (fun K t => t = unz (P ++ ((List.range K).filter c).map fun j => (i, j))) (by simp) ?_
  intro j t _ _ ih
  rw [hb, ih, List.range_succ, List.filter_append]
  by_cases hc : c j
  · rw [if_pos hc]
    simp [unz, push, hc]
  · rw [if_neg hc]
    simp [hc]

theorem push_outer {lo hi : ℕ} (h : lo ≤ hi) (C : ℕ → List ℕ) (body : ℕ → List ℕ × List ℕ → List ℕ × List ℕ)
    (hb : ∀ i P, body i (unz P) = unz (P ++ (C i).map fun j => (i, j))) :
    forRange lo hi ([], []) body = unz (pairs lo hi C) := by
  refine forRange_ind (s := (([], []) : List ℕ × List ℕ)) (f := body) h (fun K t => t = unz (pairs lo K C)) (by simp [pairs, unz]) ?_
  intro i t h1 _ ih
  rw [ih, hb]
  congr 1
  unfold pairs
  rw [show i + 1 - lo = (i - lo) + 1 by omega, List.range'_concat, List.flatMap_append]
  simp [show lo + (i - lo) = i by omega]

theorem jacIdxSparse_eq (nf nfg nx : ℕ) (h : nf ≤ nfg) (pat : ℕ → Bool) :
    jacIdxSparse nf nfg nx pat = unz (pairs nf nfg fun i => (List.range nx).filter fun j => pat (i * nx + j)) :=
  push_outer h _ _ fun i P => push_inner nx i _ P _ fun _ _ => rfl

theorem jacIdxDense_eq (nf nfg nx : ℕ) (h : nf ≤ nfg) :
    jacIdxDense nf nfg nx = unz (pairs nf nfg fun _ => List.range nx) := by
  refine push_outer h _ _ fun i P => ?_
  have := push_inner nx i (fun _ => true) P (fun j rc => push i j rc) fun _ _ => by simp
  simpa using this

theorem hesIdxSparse_eq (nx : ℕ) (pat : ℕ → Bool) :
    hesIdxSparse nx pat = unz (pairs 0 nx fun i => (List.range nx).filter fun j => pat (i * nx + j) && decide (j ≤ i)) := by
  refine push_outer (Nat.zero_le _) _ _ fun i P => push_inner nx i _ P _ fun j rc => ?_
  by_cases h1 : pat (i * nx + j) <;> by_cases h2 : j ≤ i <;> simp [h1, h2]

theorem hesIdxDense_eq (nx : ℕ) : hesIdxDense nx = unz (pairs 0 nx fun i => List.range (i + 1)) := by
  refine push_outer (Nat.zero_le _) _ _ fun i P => ?_
  have := push_inner (i + 1) i (fun _ => true) P (fun j rc => push i j rc) fun _ _ => by simp
  simpa using this

/-- element access in the vectors of indices -/
theorem unz_getD {P : List (ℕ × ℕ)} {k : ℕ} (hk : k < P.length) :
    (unz P).1.getD k 0 = (P.getD k (0, 0)).1 ∧ (unz P).2.getD k 0 = (P.getD k (0, 0)).2 := by
  unfold unz
  simp [List.getD_eq_getElem?_getD, List.getElem?_eq_getElem hk]

theorem getD_mem {P : List (ℕ × ℕ)} {k : ℕ} (hk : k < P.length) : P.getD k (0, 0) ∈ P := by
  rw [List.getD_eq_getElem _ _ hk]; exact List.getElem_mem hk

/-- *Specification*: `nk` pairs of a row and a column, in row major order as far as rows are concerned, each pair
one time, and exactly the pairs in `S` -/
structure Lists (row col : List ℕ) (S : ℕ → ℕ → Prop) : Prop where
  len : col.length = row.length
  mem : ∀ k < row.length, S (row.getD k 0) (col.getD k 0)
  all : ∀ i j, S i j → ∃ k < row.length, row.getD k 0 = i ∧ col.getD k 0 = j
  inj : ∀ k < row.length, ∀ l < row.length, row.getD k 0 = row.getD l 0 → col.getD k 0 = col.getD l 0 → k = l
  mono : ∀ k l, k ≤ l → l < row.length → row.getD k 0 ≤ row.getD l 0

theorem lists_pairs {lo hi : ℕ} {C : ℕ → List ℕ} (hC : ∀ i, (C i).Nodup) :
    Lists (unz (pairs lo hi C)).1 (unz (pairs lo hi C)).2 fun i j => lo ≤ i ∧ i < hi ∧ j ∈ C i := by
  have hl : (unz (pairs lo hi C)).1.length = (pairs lo hi C).length := by simp [unz]
  refine ⟨by simp [unz], fun k hk => ?_, ?_, ?_, ?_⟩
  · rw [hl] at hk
    rw [(unz_getD hk).1, (unz_getD hk).2]
    exact mem_pairs.1 (getD_mem hk)
  · intro i j h
    obtain ⟨k, hk, e⟩ := List.getElem_of_mem ((mem_pairs (e := (i, j))).2 h)
    refine ⟨k, by rw [hl]; exact hk, ?_⟩
    rw [(unz_getD hk).1, (unz_getD hk).2, List.getD_eq_getElem _ _ hk, e]
    exact ⟨rfl, rfl⟩
  · intro k hk l hl' e1 e2
    rw [hl] at hk hl'
    rw [(unz_getD hk).1, (unz_getD hl').1] at e1
    rw [(unz_getD hk).2, (unz_getD hl').2] at e2
    have e : (pairs lo hi C).getD k (0, 0) = (pairs lo hi C).getD l (0, 0) := Prod.ext e1 e2
    rw [List.getD_eq_getElem _ _ hk, List.getD_eq_getElem _ _ hl'] at e
    exact (pairs_nodup hC).getElem_inj_iff.1 e
  · intro k l hkl hl'
    rw [hl] at hl'
    rw [(unz_getD (by omega)).1, (unz_getD hl').1]
    rcases Nat.lt_or_eq_of_le hkl with h | rfl
    · rw [List.getD_eq_getElem _ _ (by omega), List.getD_eq_getElem _ _ hl']
      exact List.pairwise_iff_getElem.1 pairs_mono k l (by omega) hl' h
    · exact le_rfl

theorem Lists.congr {row col : List ℕ} {S S' : ℕ → ℕ → Prop} (h : Lists row col S) (e : ∀ i j, S i j ↔ S' i j) : Lists row col S' :=
  ⟨h.len, fun k hk => (e _ _).1 (h.mem k hk), fun i j hs => h.all i j ((e _ _).2 hs), h.inj, h.mono⟩

end CppAD.Ipopt
