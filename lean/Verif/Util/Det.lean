import Verif.Util.Lu
import Mathlib.LinearAlgebra.Matrix.Determinant.Basic
import Mathlib.Tactic.FinCases

/-! # C52: determinants by expansion by minors and by LU factorization

`cppad/speed/det_of_minor.hpp`, `det_by_minor.hpp`, `det_by_lu.hpp`. -/

namespace CppAD.Det

open CppAD

variable {F : Type} [CommRing F]

/-! ## Model -/

/-- contents of the work vectors `r` and `c` -/
abbrev Vec := ℕ → ℕ

/-- local variables of the loop det_of_minor.hpp:219-248: detM, sign, r, c, C(j-1), C(j) -/
structure St (F : Type) where
  detM : F
  sign : ℤ
  r : Vec
  c : Vec
  cj1 : ℕ
  cj : ℕ

/-- det_of_minor.hpp:178-256: returned value and the vectors `r` and `c` after the call (they are arguments by reference).  The assertions are not
modelled.  A vector is a function on the indices. -/
def detOfMinor (a : ℕ → F) (m : ℕ) : ℕ → Vec → Vec → F × Vec × Vec
  | 0, r, c => (0, Function.update (Function.update r m (r (r m))) m (r m), c)
  | n + 1, r, c =>
    let R0 := r m
    if n = 0 then (a (R0 * m + c m), r, c)
    else
      let s := forRange 0 (n + 1) (⟨0, 1, Function.update r m (r R0), c, m, c m⟩ : St F) fun _ s =>
        let M0j := a (R0 * m + s.cj)
        let c1 := Function.update s.c s.cj1 (s.c s.cj)
        let d := detOfMinor a m n s.r c1
        let c2 := Function.update d.2.2 s.cj1 s.cj
        ⟨if s.sign > 0 then s.detM + M0j * d.1 else s.detM - M0j * d.1, -s.sign, d.2.1, c2, s.cj, c2 s.cj⟩
      (s.detM, Function.update s.r m R0, s.c)

/-- the object `det_by_minor`: the size and the vectors r_, c_, a_; det_by_minor.hpp:115-129 -/
structure ByMinor (F : Type) where
  m : ℕ
  r : Vec
  c : Vec
  a : ℕ → F

/-- constructor, det_by_minor.hpp:131-141 -/
def ByMinor.mk' (F : Type) [CommRing F] (m : ℕ) : ByMinor F :=
  let rc := forRange 0 m ((fun _ => 0, fun _ => 0) : Vec × Vec) fun i s => (Function.update s.1 i (i + 1), Function.update s.2 i (i + 1))
  ⟨m, Function.update rc.1 m 0, Function.update rc.2 m 0, fun _ => 0⟩

/-- operator(), det_by_minor.hpp:144-168 -/
def ByMinor.call (o : ByMinor F) (x : ℕ → F) : F × ByMinor F :=
  let a := forRange 0 (o.m * o.m) o.a fun i a => Function.update a i (x i)
  let d := detOfMinor a o.m o.m o.r o.c
  (d.1, { o with a := a, r := d.2.1, c := d.2.2 })

/-! ## Specification -/

/-- the vector `r` defines the function `R` as in the documentation, det_of_minor.hpp:104-121 (and 126-145 for `c`) -/
structure Defines (v : Vec) (m n : ℕ) (R : ℕ → ℕ) : Prop where
  zero : v m = R 0
  succ : ∀ i, i + 1 < n → v (R i) = R (i + 1)
  last : v (R (n - 1)) = m
  lt : ∀ i < n, R i < m

/-- the minor, det_of_minor.hpp:42-54 -/
def minor (a : ℕ → F) (m n : ℕ) (R C : ℕ → ℕ) : Matrix (Fin n) (Fin n) F := fun i j => a (R i * m + C j)

/-! ## Proofs -/

theorem Defines.inj {v : Vec} {m n : ℕ} {R : ℕ → ℕ} (h : Defines v m n R) {i j : ℕ} (hi : i < n) (hj : j < n) (e : R i = R j) : i = j := by
  have key : ∀ d i j, i < j → j < n → n - 1 - j = d → R i = R j → False := by
    intro d
    induction d with
    | zero =>
      intro i j hij hj hd e
      have h1 : v (R j) = m := by rw [show j = n - 1 by omega]; exact h.last
      have h2 := h.succ i (by omega)
      rw [e, h1] at h2
      have := h.lt (i + 1) (by omega)
      omega
    | succ d ih =>
      intro i j hij hj hd e
      refine ih (i + 1) (j + 1) (by omega) (by omega) (by omega) ?_
      rw [← h.succ i (by omega), ← h.succ j (by omega), e]
  rcases lt_trichotomy i j with hl | hl | hl
  · exact (key _ i j hl hj rfl e).elim
  · exact hl
  · exact (key _ j i hl hi rfl e.symm).elim

/-- removing the first row -/
theorem Defines.tail {v : Vec} {m n : ℕ} {R : ℕ → ℕ} (h : Defines v m (n + 2) R) :
    Defines (Function.update v m (v (R 0))) m (n + 1) fun i => R (i + 1) := by
  refine ⟨?_, fun i hi => ?_, ?_, fun i hi => h.lt _ (by omega)⟩
  · rw [Function.update_self]; exact h.succ 0 (by omega)
  · have := h.lt (i + 1) (by omega)
    rw [Function.update_of_ne (by omega)]
    exact h.succ (i + 1) (by omega)
  · have := h.lt (n + 1) (by omega)
    have h1 := h.last
    simp only [Nat.add_sub_cancel] at h1 ⊢
    rw [show n + 2 - 1 = n + 1 by omega] at h1
    rw [Function.update_of_ne (by omega), h1]

/-- the index before `R j` -/
def prev (m : ℕ) (R : ℕ → ℕ) (j : ℕ) : ℕ := if j = 0 then m else R (j - 1)

/-- the function without column `j` -/
def skip (R : ℕ → ℕ) (j : ℕ) : ℕ → ℕ := fun k => if k < j then R k else R (k + 1)

theorem Defines.prev {v : Vec} {m n : ℕ} {R : ℕ → ℕ} (h : Defines v m n R) {j : ℕ} (hj : j < n) : v (prev m R j) = R j := by
  unfold Det.prev
  split_ifs with h0
  · rw [h0]; exact h.zero
  · have := h.succ (j - 1) (by omega)
    rwa [show j - 1 + 1 = j by omega] at this

/-- removing column `j` -/
theorem Defines.remove {v : Vec} {m n : ℕ} {R : ℕ → ℕ} (h : Defines v m (n + 2) R) {j : ℕ} (hj : j < n + 2) :
    Defines (Function.update v (Det.prev m R j) (v (R j))) m (n + 1) (skip R j) := by
  have hne : ∀ k < n + 2, k + 1 ≠ j → R k ≠ Det.prev m R j := by
    intro k hk hkj e
    unfold Det.prev at e
    split_ifs at e with h0
    · have := h.lt k hk; omega
    · have := h.inj hk (by omega) e
      omega
  refine ⟨?_, fun i hi => ?_, ?_, fun i hi => ?_⟩
  · by_cases h0 : j = 0
    · subst h0
      simp only [Det.prev, if_true, Function.update_self, skip, Nat.lt_irrefl, if_false]
      exact h.succ 0 (by omega)
    · have := h.lt (j - 1) (by omega)
      simp only [Det.prev, if_neg h0, skip]
      rw [Function.update_of_ne (by omega), if_pos (by omega)]
      exact h.zero
  · unfold skip
    by_cases h1 : i + 1 < j
    · rw [if_pos (by omega), if_pos h1, Function.update_of_ne (hne i (by omega) (by omega))]
      exact h.succ i (by omega)
    · rw [if_neg h1]
      by_cases h2 : i < j
      · have e : Det.prev m R j = R i := by
          unfold Det.prev; rw [if_neg (by omega), show j - 1 = i by omega]
        rw [if_pos h2, e, Function.update_self, show j = i + 1 by omega]
        exact h.succ (i + 1) (by omega)
      · rw [if_neg h2, Function.update_of_ne (hne (i + 1) (by omega) (by omega))]
        exact h.succ (i + 1) (by omega)
  · unfold skip
    have hl := h.last
    rw [show n + 2 - 1 = n + 1 by omega] at hl
    rw [show n + 1 - 1 = n by omega]
    by_cases h2 : n < j
    · have e : Det.prev m R j = R n := by
        unfold Det.prev; rw [if_neg (by omega), show j - 1 = n by omega]
      rw [if_pos h2, e, Function.update_self, show j = n + 1 by omega, hl]
    · rw [if_neg h2, Function.update_of_ne (hne (n + 1) (by omega) (by omega)), hl]
  · unfold skip
    split_ifs
    · exact h.lt _ (by omega)
    · exact h.lt _ (by omega)

theorem minor_sub (a : ℕ → F) (m n : ℕ) (R C : ℕ → ℕ) (j : Fin (n + 1)) :
    (minor a m (n + 1) R C).submatrix Fin.succ j.succAbove = minor a m n (fun i => R (i + 1)) (skip C j) := by
  funext i k
  simp only [Matrix.submatrix_apply, minor, skip, Fin.val_succ]
  by_cases h : (k : ℕ) < j
  · rw [if_pos h, Fin.succAbove_of_castSucc_lt _ _ (by simpa [Fin.lt_def] using h)]; rfl
  · rw [if_neg h, Fin.succAbove_of_le_castSucc _ _ (by simpa [Fin.le_def] using h)]; rfl

/-- **C52** det_of_minor: for every matrix and every minor (every pair of vectors `r`, `c` as in the
documentation) the result is the determinant of the minor, and `r` and `c` are as before the call. -/
theorem detOfMinor_ok (a : ℕ → F) (m n : ℕ) (hn : 1 ≤ n) (r c : Vec) (R C : ℕ → ℕ) (hr : Defines r m n R) (hc : Defines c m n C) :
    detOfMinor a m n r c = ((minor a m n R C).det, r, c) := by
  obtain ⟨n, rfl⟩ : ∃ k, n = k + 1 := ⟨n - 1, by omega⟩
  clear hn
  induction n generalizing r c R C with
  | zero =>
    unfold detOfMinor
    simp only [if_true]
    rw [hr.zero, hc.zero]
    simp [minor]
  | succ n ih =>
    unfold detOfMinor
    simp only [Nat.succ_ne_zero, Nat.add_eq_zero_iff, one_ne_zero, and_false, if_false]
    have hrt := hr.tail
    rw [hr.zero]
    have key : ∀ N ≤ n + 2, forRange 0 N (⟨0, 1, Function.update r m (r (R 0)), c, m, c m⟩ : St F) (fun _ s =>
        (⟨if s.sign > 0 then s.detM + a (R 0 * m + s.cj) * (detOfMinor a m (n + 1) s.r (Function.update s.c s.cj1 (s.c s.cj))).1
            else s.detM - a (R 0 * m + s.cj) * (detOfMinor a m (n + 1) s.r (Function.update s.c s.cj1 (s.c s.cj))).1, -s.sign,
          (detOfMinor a m (n + 1) s.r (Function.update s.c s.cj1 (s.c s.cj))).2.1,
          Function.update (detOfMinor a m (n + 1) s.r (Function.update s.c s.cj1 (s.c s.cj))).2.2 s.cj1 s.cj, s.cj,
          Function.update (detOfMinor a m (n + 1) s.r (Function.update s.c s.cj1 (s.c s.cj))).2.2 s.cj1 s.cj s.cj⟩ : St F)) =
        ⟨∑ j ∈ Finset.range N, (-1) ^ j * a (R 0 * m + C j) * (minor a m (n + 1) (fun i => R (i + 1)) (skip C j)).det, (-1) ^ N,
          Function.update r m (r (R 0)), c, prev m C N, c (prev m C N)⟩ := by
      intro N
      induction N with
      | zero => intro _; simp [forRange_of_le, prev]
      | succ j ihj =>
        intro hj
        have hcj : c (prev m C j) = C j := hc.prev (by omega)
        rw [forRange_succ (Nat.zero_le j), ihj (by omega)]
        simp only [hcj]
        rw [ih _ _ _ _ hrt (hc.remove (show j < n + 2 by omega))]
        have hrest : Function.update (Function.update c (prev m C j) (c (C j))) (prev m C j) (C j) = c := by
          rw [Function.update_idem, ← hcj, Function.update_eq_self]
        simp only [hrest]
        have hpn : prev m C (j + 1) = C j := by simp [prev]
        rw [hpn, Finset.sum_range_succ]
        congr 1
        · rcases Nat.even_or_odd j with he | ho
          · simp [he.neg_one_pow]
          · simp [ho.neg_one_pow]; ring
        · rw [pow_succ]; ring
    rw [key (n + 2) le_rfl]
    simp only
    have hrest : Function.update (Function.update r m (r (R 0))) m (R 0) = r := by
      rw [Function.update_idem, ← hr.zero, Function.update_eq_self]
    rw [hrest, Matrix.det_succ_row_zero, Finset.sum_range fun j => (-1) ^ j * a (R 0 * m + C j) * (minor a m (n + 1) (fun i => R (i + 1)) (skip C j)).det]
    congr 1
    refine Finset.sum_congr rfl fun j _ => ?_
    rw [minor_sub]
    rfl

/-- the vectors r_ and c_ define the entire matrix -/
theorem defines_id {v : Vec} {m : ℕ} (hm : 1 ≤ m) (h : ∀ i < m, v i = i + 1) (h0 : v m = 0) : Defines v m m id :=
  ⟨h0, fun i hi => h i (by omega), by simpa [show m - 1 + 1 = m by omega] using h (m - 1) (by omega), fun _ h => h⟩

/-- what is true of a `det_by_minor` object between calls (the assertions det_by_minor.hpp:160-165) -/
structure ByMinor.Ok (o : ByMinor F) (m : ℕ) : Prop where
  size : o.m = m
  r : ∀ i < m, o.r i = i + 1
  r0 : o.r m = 0
  c : ∀ i < m, o.c i = i + 1
  c0 : o.c m = 0

theorem ByMinor.mk'_ok (m : ℕ) : (ByMinor.mk' F m).Ok m := by
  have key : ∀ N, ∀ i < N, (forRange 0 N ((fun _ => 0, fun _ => 0) : Vec × Vec) fun i s => (Function.update s.1 i (i + 1), Function.update s.2 i (i + 1))).1 i = i + 1 ∧
      (forRange 0 N ((fun _ => 0, fun _ => 0) : Vec × Vec) fun i s => (Function.update s.1 i (i + 1), Function.update s.2 i (i + 1))).2 i = i + 1 := by
    intro N
    induction N with
    | zero => intro i hi; omega
    | succ N ih =>
      intro i hi
      rw [forRange_succ (Nat.zero_le N)]
      by_cases h : i = N
      · subst h; simp
      · simp only [Function.update_of_ne h]
        exact ih i (by omega)
  refine ⟨rfl, fun i hi => ?_, ?_, fun i hi => ?_, ?_⟩
  · simp only [ByMinor.mk']; rw [Function.update_of_ne (by omega)]; exact (key m i hi).1
  · simp [ByMinor.mk']
  · simp only [ByMinor.mk']; rw [Function.update_of_ne (by omega)]; exact (key m i hi).2
  · simp [ByMinor.mk']

/-- one call of operator() -/
theorem ByMinor.call_ok {o : ByMinor F} {m : ℕ} (hm : 1 ≤ m) (h : o.Ok m) (x : ℕ → F) :
    (o.call x).1 = (Matrix.of fun i j : Fin m => x (i * m + j)).det ∧ (o.call x).2.Ok m := by
  have hcopy : ∀ N, ∀ i < N, (forRange 0 N o.a fun i a => Function.update a i (x i)) i = x i := by
    intro N
    induction N with
    | zero => intro i hi; omega
    | succ N ih =>
      intro i hi
      rw [forRange_succ (Nat.zero_le N)]
      by_cases h : i = N
      · subst h; simp
      · rw [Function.update_of_ne h]; exact ih i (by omega)
  have e := detOfMinor_ok (forRange 0 (o.m * o.m) o.a fun i a => Function.update a i (x i)) m m hm o.r o.c id id
    (defines_id hm h.r h.r0) (defines_id hm h.c h.c0)
  have hs := h.size
  subst hs
  unfold ByMinor.call
  simp only [e]
  refine ⟨?_, ⟨rfl, h.r, h.r0, h.c, h.c0⟩⟩
  congr 1
  funext i j
  simp only [minor, id]
  refine hcopy _ _ ?_
  have h1 := i.2
  have h2 := j.2
  calc (i : ℕ) * o.m + j < i * o.m + o.m := by omega
    _ = (i + 1) * o.m := by ring
    _ ≤ o.m * o.m := Nat.mul_le_mul_right _ h1

/-- the results of a sequence of calls of operator() of one object -/
def ByMinor.calls (o : ByMinor F) : List (ℕ → F) → List F
  | [] => []
  | x :: xs => (o.call x).1 :: (o.call x).2.calls xs

/-- **C52** det_by_minor: every call of one object, whatever the calls before it, returns the determinant of its
argument -/
theorem detByMinor_ok {m : ℕ} (hm : 1 ≤ m) (xs : List (ℕ → F)) :
    (ByMinor.mk' F m).calls xs = xs.map fun x => (Matrix.of fun i j : Fin m => x (i * m + j)).det := by
  have : ∀ (o : ByMinor F), o.Ok m → o.calls xs = xs.map fun x => (Matrix.of fun i j : Fin m => x (i * m + j)).det := by
    induction xs with
    | nil => intro o _; rfl
    | cons x xs ih =>
      intro o ho
      obtain ⟨h1, h2⟩ := ByMinor.call_ok hm ho x
      simp only [ByMinor.calls, List.map_cons, h1, ih _ h2]
  exact this _ (ByMinor.mk'_ok m)

/-- det_by_lu::operator(), det_by_lu.hpp:127-163; `ip0`, `jp0` and `x0` are the contents of uninitialized memory -/
noncomputable def detByLu (n : ℕ) (ip0 jp0 : ℕ → ℕ) (x0 A0 B0 : ℕ → ℝ) (x : ℕ → ℝ) : ℝ :=
  let A := forRange 0 (n * n) A0 fun i a => Function.update a i (x i)
  let s := Lu.luSolve Lu.absGeq Lu.leqZero Real.log n 0 ip0 jp0 x0 A B0
  (s.2.2 : ℝ) * Real.exp s.2.1

/-- **C52** det_by_lu returns the determinant, of singular matrices too -/
theorem detByLu_ok (n : ℕ) (ip0 jp0 : ℕ → ℕ) (x0 A0 B0 x : ℕ → ℝ) :
    detByLu n ip0 jp0 x0 A0 B0 x = (Matrix.of fun i j : Fin n => x (i * n + j)).det := by
  have hcopy : ∀ N, ∀ i < N, (forRange 0 N A0 fun i a => Function.update a i (x i)) i = x i := by
    intro N
    induction N with
    | zero => intro i hi; omega
    | succ N ih =>
      intro i hi
      rw [forRange_succ (Nat.zero_le N)]
      by_cases h : i = N
      · subst h; simp
      · rw [Function.update_of_ne h]; exact ih i (by omega)
  have e : Lu.mat n n (forRange 0 (n * n) A0 fun i a => Function.update a i (x i)) = Matrix.of fun i j : Fin n => x (i * n + j) := by
    funext i j
    simp only [Lu.mat]
    refine hcopy _ _ ?_
    have h1 := i.2
    have h2 := j.2
    calc (i : ℕ) * n + j < i * n + n := by omega
      _ = (i + 1) * n := by ring
      _ ≤ n * n := Nat.mul_le_mul_right _ h1
  have h := Lu.luSolve_real n 0 ip0 jp0 x0 (forRange 0 (n * n) A0 fun i a => Function.update a i (x i)) B0
  simp only at h
  rw [e] at h
  unfold detByLu
  simp only
  by_cases hd : (Matrix.of fun i j : Fin n => x (i * n + j)).det = 0
  · rw [h.1 hd, hd]; simp
  · exact (h.2 hd).2.1

/-! ## Concrete cases -/

/-- the 2 by 2 minor with rows 0, 2 and columns 1, 2 of a 3 by 3 matrix -/
example (a : ℕ → ℤ) : detOfMinor a 3 2 (fun i => if i = 3 then 0 else if i = 0 then 2 else if i = 2 then 3 else 1)
      (fun i => if i = 3 then 1 else if i = 1 then 2 else if i = 2 then 3 else 0) =
    (a 1 * a 8 - a 2 * a 7, (fun i => if i = 3 then 0 else if i = 0 then 2 else if i = 2 then 3 else 1),
      (fun i => if i = 3 then 1 else if i = 1 then 2 else if i = 2 then 3 else 0)) := by
  rw [detOfMinor_ok a 3 2 (by norm_num) _ _ (fun i => 2 * i) (fun i => i + 1)
    ⟨by simp, by intro i hi; have : i = 0 := by omega
                 subst this; simp, by simp, by intro i hi; omega⟩
    ⟨by simp, by intro i hi; have : i = 0 := by omega
                 subst this; simp, by simp, by intro i hi; omega⟩]
  simp [minor, Matrix.det_fin_two]

example : (ByMinor.mk' ℤ 2).calls [fun i => i, fun i => 3 * i + 1] = [-2, -18] := by
  rw [detByMinor_ok (by norm_num)]
  simp [Matrix.det_fin_two]

end CppAD.Det
