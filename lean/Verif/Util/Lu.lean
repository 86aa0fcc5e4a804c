import Verif.Taylor.Loop
import Mathlib.LinearAlgebra.Matrix.Block
import Mathlib.LinearAlgebra.Matrix.NonsingularInverse
import Mathlib.Analysis.SpecialFunctions.Log.Basic
import Mathlib.Analysis.SpecialFunctions.Complex.Log
import Mathlib.Analysis.Complex.Basic

/-! # LU factorization and solution of linear equations (property C35)

Model of cppad/utility/lu_factor.hpp, lu_invert.hpp and lu_solve.hpp with exact arithmetic in a field `F`.
Vectors are memories `ℕ → F` and `ℕ → ℕ`; a matrix with `m` columns is stored row major, element `(i, j)` is at `i * m + j`. -/

namespace CppAD.Lu

variable {F : Type} [Field F] [DecidableEq F]

/-- state of LuFactor, lu_factor.hpp:283-291; `aborted` is true after the return at line 362 -/
structure State (F : Type) where
  ip : ℕ → ℕ
  jp : ℕ → ℕ
  lu : ℕ → F
  sign : ℤ
  aborted : Bool

/-- lu_factor.hpp:318-334: the position of the pivot, `(imax, jmax, emax)`; `geq` is AbsGeq -/
def findMax (geq : F → F → Bool) (n p : ℕ) (ip jp : ℕ → ℕ) (lu : ℕ → F) : ℕ × ℕ × F :=
  forRange p n (n, n, 0) fun i s => forRange p n s fun j s =>
    let etmp := lu (ip i * n + jp j)
    if geq etmp s.2.2 then (i, j, etmp) else s

/-- lu_factor.hpp:342-348 and 349-355: exchange two indices when they are different -/
def exchange (v : ℕ → ℕ) (p q : ℕ) : ℕ → ℕ :=
  if q ≠ p then Function.update (Function.update v p (v q)) q (v p) else v

/-- lu_factor.hpp:369-370 -/
def scaleRow (n p : ℕ) (ip jp : ℕ → ℕ) (pivot : F) (lu : ℕ → F) : ℕ → F :=
  forRange (p + 1) n lu fun j lu => Function.update lu (ip p * n + jp j) (lu (ip p * n + jp j) / pivot)

/-- lu_factor.hpp:378-381 -/
def subRow (n p i : ℕ) (ip jp : ℕ → ℕ) (etmp : F) (lu : ℕ → F) : ℕ → F :=
  forRange (p + 1) n lu fun j lu =>
    Function.update lu (ip i * n + jp j) (lu (ip i * n + jp j) - etmp * lu (ip p * n + jp j))

/-- lu_factor.hpp:376-382 -/
def subRows (n p : ℕ) (ip jp : ℕ → ℕ) (lu : ℕ → F) : ℕ → F :=
  forRange (p + 1) n lu fun i lu => subRow n p i ip jp (lu (ip i * n + jp p)) lu

/-- lu_factor.hpp:315-383, one pivot -/
def pivotStep (geq : F → F → Bool) (n p : ℕ) (s : State F) : State F :=
  if s.aborted then s
  else
    let e := findMax geq n p s.ip s.jp s.lu
    let ip := exchange s.ip p e.1
    let sign := if e.1 ≠ p then -s.sign else s.sign
    let jp := exchange s.jp p e.2.1
    let sign := if e.2.1 ≠ p then -sign else sign
    let pivot := s.lu (ip p * n + jp p)
    if pivot = 0 then ⟨ip, jp, s.lu, sign, true⟩
    else ⟨ip, jp, subRows n p ip jp (scaleRow n p ip jp pivot s.lu), sign, false⟩

/-- lu_factor.hpp:270-385; `ip0`, `jp0` are the contents of the vectors before the call.  Returns ip, jp, LU and
the value of the function. -/
def luFactor (geq : F → F → Bool) (n : ℕ) (ip0 jp0 : ℕ → ℕ) (lu : ℕ → F) : (ℕ → ℕ) × (ℕ → ℕ) × (ℕ → F) × ℤ :=
  let ij := forRange 0 n (ip0, jp0) fun i (s : (ℕ → ℕ) × (ℕ → ℕ)) => (Function.update s.1 i i, Function.update s.2 i i)
  let s := forRange 0 n ⟨ij.1, ij.2, lu, 1, false⟩ fun p s => pivotStep geq n p s
  (s.ip, s.jp, s.lu, if s.aborted then 0 else s.sign)

/-- lu_invert.hpp:202-210: invert `c = L * b` for column `k` -/
def forwardSub (n m k : ℕ) (ip jp : ℕ → ℕ) (lu : ℕ → F) (B : ℕ → F) : ℕ → F :=
  forRange 0 n B fun p B =>
    let etmp := B (ip p * m + k) / lu (ip p * n + jp p)
    let B := Function.update B (ip p * m + k) etmp
    forRange (p + 1) n B fun i B =>
      Function.update B (ip i * m + k) (B (ip i * m + k) - etmp * lu (ip i * n + jp p))

/-- lu_invert.hpp:213-221: invert `x = U * c`; state is (B, x) -/
def backwardSub (n m k : ℕ) (ip jp : ℕ → ℕ) (lu : ℕ → F) (s : (ℕ → F) × (ℕ → F)) : (ℕ → F) × (ℕ → F) :=
  forDown0 n s fun p s =>
    let etmp := s.1 (ip p * m + k)
    let x := Function.update s.2 (jp p) etmp
    (forRange 0 p s.1 fun i B =>
      Function.update B (ip i * m + k) (B (ip i * m + k) - etmp * lu (ip i * n + jp p)), x)

/-- lu_invert.hpp:160-228 for a matrix `B` with `m = B.size() / n` columns; `x` is the content of the new vector.
Simplification: `m` is a parameter (for `n = 0` the C++ code divides by zero, so the model is meant for `0 < n`). -/
def luInvert (n m : ℕ) (ip jp : ℕ → ℕ) (lu : ℕ → F) (B x : ℕ → F) : ℕ → F :=
  (forRange 0 m (B, x) fun k s =>
    let s := backwardSub n m k ip jp lu (forwardSub n m k ip jp lu s.1, s.2)
    (forRange 0 n s.1 fun i B => Function.update B (i * m + k) (s.2 i), s.2)).1

/-- lu_solve.hpp:312-332: (signdet, logdet) and whether the function returned with zero -/
def luDet (leqZero : F → Bool) (log : F → F) (n : ℕ) (ip jp : ℕ → ℕ) (lu : ℕ → F) (sign : ℤ) : ℤ × F × Bool :=
  forRange 0 n (sign, 0, false) fun p s =>
    if s.2.2 then s
    else
      let pivot := lu (ip p * n + jp p)
      if pivot = 0 then (s.1, 0, true)
      else if leqZero pivot then (-s.1, s.2.1 + log (-pivot), false)
      else (s.1, s.2.1 + log pivot, false)

/-- lu_solve.hpp:261-339.  Returns X, logdet and the value of the function.  When the result is zero,
X is B (line 306) and logdet is zero. -/
def luSolve (geq : F → F → Bool) (leqZero : F → Bool) (log : F → F) (n m : ℕ) (ip0 jp0 : ℕ → ℕ) (x0 : ℕ → F)
    (A B : ℕ → F) : (ℕ → F) × F × ℤ :=
  let r := luFactor geq n ip0 jp0 A
  let d := luDet leqZero log n r.1 r.2.1 r.2.2.1 r.2.2.2
  if d.2.2 then (B, 0, 0)
  else (luInvert n m r.1 r.2.1 r.2.2.1 B x0, d.2.1, d.1)

/-! ## AbsGeq and LeqZero -/

/-- lu_factor.hpp:242-251 for the real numbers -/
noncomputable def absGeq (x y : ℝ) : Bool :=
  let xabs := if x ≤ 0 then -x else x
  let yabs := if y ≤ 0 then -y else y
  decide (yabs ≤ xabs)

/-- lu_factor.hpp:252-259 for the complex numbers -/
noncomputable def absGeqC (x y : ℂ) : Bool :=
  let xsq := x.re * x.re + x.im * x.im
  let ysq := y.re * y.re + y.im * y.im
  decide (ysq ≤ xsq)

/-- *Specification* of AbsGeq: comparison of sizes, where only zero has the size of zero
(lu_factor.hpp:130-180, "AbsGeq") -/
def IsAbsGeq (geq : F → F → Bool) : Prop :=
  ∃ size : F → ℝ, (∀ x y, geq x y = true ↔ size y ≤ size x) ∧ (∀ x, size 0 ≤ size x) ∧ ∀ x, size x = size 0 → x = 0

theorem absGeq_ok : IsAbsGeq absGeq := by
  refine ⟨fun x => |x|, fun x y => ?_, fun x => by simp, fun x h => by simpa using h⟩
  have h : ∀ z : ℝ, (if z ≤ 0 then -z else z) = |z| := by
    intro z; split_ifs with h
    · rw [abs_of_nonpos h]
    · rw [abs_of_pos (not_le.1 h)]
  simp [absGeq, h]

theorem absGeqC_ok : IsAbsGeq absGeqC := by
  refine ⟨fun x => Complex.normSq x, fun x y => ?_, fun x => by simp [Complex.normSq_nonneg], fun x h => ?_⟩
  · simp [absGeqC, Complex.normSq_apply]
  · simpa using h

/-! ## Specifications -/

/-- the `n` by `m` matrix stored in a vector -/
def mat (n m : ℕ) (A : ℕ → F) : Matrix (Fin n) (Fin m) F := fun i j => A (i * m + j)

/-- The matrix `L` described in lu_factor.hpp:60-100: the lower triangle of the permuted matrix LU -/
def lower (n : ℕ) (ip jp : ℕ → ℕ) (lu : ℕ → F) : Matrix (Fin n) (Fin n) F :=
  fun i j => if j ≤ i then lu (ip i * n + jp j) else 0

/-- The matrix `U` described in lu_factor.hpp:60-100: the upper triangle of the permuted matrix LU with ones
on the diagonal -/
def upper (n : ℕ) (ip jp : ℕ → ℕ) (lu : ℕ → F) : Matrix (Fin n) (Fin n) F :=
  fun i j => if i < j then lu (ip i * n + jp j) else if i = j then 1 else 0

/-- `ip` holds the permutation `σ` -/
def Holds {n : ℕ} (ip : ℕ → ℕ) (σ : Equiv.Perm (Fin n)) : Prop := ∀ i : Fin n, ip i = σ i

/-! ## Proofs -/

section
variable {n : ℕ} {ip jp : ℕ → ℕ} {σ τ : Equiv.Perm (Fin n)}

theorem Holds.lt (h : Holds ip σ) {i : ℕ} (hi : i < n) : ip i < n := by
  rw [h ⟨i, hi⟩]; exact (σ ⟨i, hi⟩).2

theorem Holds.inj (h : Holds ip σ) {i j : ℕ} (hi : i < n) (hj : j < n) (e : ip i = ip j) : i = j := by
  have h1 := h ⟨i, hi⟩
  have h2 := h ⟨j, hj⟩
  simp only at h1 h2
  rw [h1, h2] at e
  have := σ.injective (Fin.ext e)
  exact congrArg Fin.val this

theorem idx_inj {m a b c d : ℕ} (hb : b < m) (hd : d < m) (h : a * m + b = c * m + d) : a = c ∧ b = d := by
  have hm : 0 < m := by omega
  have h1 : (a * m + b) / m = a := by
    rw [Nat.add_comm, Nat.add_mul_div_right _ _ hm, Nat.div_eq_of_lt hb, Nat.zero_add]
  have h2 : (c * m + d) / m = c := by
    rw [Nat.add_comm, Nat.add_mul_div_right _ _ hm, Nat.div_eq_of_lt hd, Nat.zero_add]
  have h3 : a = c := by rw [← h1, ← h2, h]
  subst h3
  exact ⟨rfl, by omega⟩

theorem idx_ne (hi : Holds ip σ) (hj : Holds jp τ) {i j a b : ℕ} (h1 : i < n) (h2 : j < n) (h3 : a < n) (h4 : b < n)
    (h : ¬ (i = a ∧ j = b)) : ip i * n + jp j ≠ ip a * n + jp b := by
  intro e
  obtain ⟨e1, e2⟩ := idx_inj (hj.lt h2) (hj.lt h4) e
  exact h ⟨hi.inj h1 h3 e1, hj.inj h2 h4 e2⟩

omit [Field F] [DecidableEq F] in
theorem upd_view (hi : Holds ip σ) (hj : Holds jp τ) (lu : ℕ → F) {i j a b : ℕ} (h1 : i < n) (h2 : j < n) (h3 : a < n)
    (h4 : b < n) (v : F) :
    Function.update lu (ip i * n + jp j) v (ip a * n + jp b) = if a = i ∧ b = j then v else lu (ip a * n + jp b) := by
  by_cases h : i = a ∧ j = b
  · obtain ⟨rfl, rfl⟩ := h; simp
  · rw [Function.update_of_ne (idx_ne hi hj h1 h2 h3 h4 h).symm, if_neg]
    rintro ⟨rfl, rfl⟩; exact h ⟨rfl, rfl⟩

omit [DecidableEq F] in
theorem scaleRow_view (hi : Holds ip σ) (hj : Holds jp τ) (lu : ℕ → F) {p : ℕ} (hp : p < n) (pivot : F) {a b : ℕ} (ha : a < n)
    (hb : b < n) : scaleRow n p ip jp pivot lu (ip a * n + jp b) =
      if a = p ∧ p < b then lu (ip a * n + jp b) / pivot else lu (ip a * n + jp b) := by
  unfold scaleRow
  have := forRange_ind (lo := p + 1) (hi := n) (by omega) (s := lu)
    (f := fun j lu => Function.update lu (ip p * n + jp j) (lu (ip p * n + jp j) / pivot))
    (P := fun j s => ∀ a b, a < n → b < n → s (ip a * n + jp b) =
      if a = p ∧ p < b ∧ b < j then lu (ip a * n + jp b) / pivot else lu (ip a * n + jp b)) ?_ ?_
  · rw [this a b ha hb]; simp [hb]
  · intro a b _ _; rw [if_neg (by omega)]
  · intro j s h1 h2 ih a b ha hb
    beta_reduce
    have e0 := ih p j hp h2
    rw [if_neg (by omega)] at e0
    rw [upd_view hi hj s hp h2 ha hb, e0]
    by_cases h : a = p ∧ b = j
    · obtain ⟨rfl, rfl⟩ := h; rw [if_pos ⟨rfl, rfl⟩, if_pos (by omega)]
    · rw [if_neg h, ih a b ha hb]
      congr 1
      simp only [eq_iff_iff]
      omega

omit [DecidableEq F] in
theorem subRow_view (hi : Holds ip σ) (hj : Holds jp τ) (lu : ℕ → F) {p i : ℕ} (hp : p < n) (hin : i < n) (hip : i ≠ p)
    (e : F) {a b : ℕ} (ha : a < n) (hb : b < n) : subRow n p i ip jp e lu (ip a * n + jp b) =
      if a = i ∧ p < b then lu (ip a * n + jp b) - e * lu (ip p * n + jp b) else lu (ip a * n + jp b) := by
  unfold subRow
  have := forRange_ind (lo := p + 1) (hi := n) (by omega) (s := lu)
    (f := fun j lu => Function.update lu (ip i * n + jp j) (lu (ip i * n + jp j) - e * lu (ip p * n + jp j)))
    (P := fun j s => ∀ a b, a < n → b < n → s (ip a * n + jp b) =
      if a = i ∧ p < b ∧ b < j then lu (ip a * n + jp b) - e * lu (ip p * n + jp b) else lu (ip a * n + jp b)) ?_ ?_
  · rw [this a b ha hb]; simp [hb]
  · intro a b _ _; rw [if_neg (by omega)]
  · intro j s h1 h2 ih a b ha hb
    beta_reduce
    have e0 := ih i j hin h2
    rw [if_neg (by omega)] at e0
    have e1 := ih p j hp h2
    rw [if_neg (by omega)] at e1
    rw [upd_view hi hj s hin h2 ha hb, e0, e1]
    by_cases h : a = i ∧ b = j
    · obtain ⟨rfl, rfl⟩ := h; rw [if_pos ⟨rfl, rfl⟩, if_pos (by omega)]
    · rw [if_neg h, ih a b ha hb]
      congr 1
      simp only [eq_iff_iff]
      omega

omit [DecidableEq F] in
theorem subRows_view (hi : Holds ip σ) (hj : Holds jp τ) (lu : ℕ → F) {p : ℕ} (hp : p < n) {a b : ℕ} (ha : a < n)
    (hb : b < n) : subRows n p ip jp lu (ip a * n + jp b) =
      if p < a ∧ p < b then lu (ip a * n + jp b) - lu (ip a * n + jp p) * lu (ip p * n + jp b)
      else lu (ip a * n + jp b) := by
  unfold subRows
  have := forRange_ind (lo := p + 1) (hi := n) (by omega) (s := lu)
    (f := fun i lu => subRow n p i ip jp (lu (ip i * n + jp p)) lu)
    (P := fun i s => ∀ a b, a < n → b < n → s (ip a * n + jp b) =
      if p < a ∧ a < i ∧ p < b then lu (ip a * n + jp b) - lu (ip a * n + jp p) * lu (ip p * n + jp b)
      else lu (ip a * n + jp b)) ?_ ?_
  · rw [this a b ha hb]; simp [ha]
  · intro a b _ _; rw [if_neg (by omega)]
  · intro i s h1 h2 ih a b ha hb
    beta_reduce
    have e0 := ih i p h2 hp
    rw [if_neg (by omega)] at e0
    have e1 := ih p b hp hb
    rw [if_neg (by omega)] at e1
    rw [subRow_view hi hj s hp h2 (by omega) _ ha hb, e0, e1]
    have e2 := ih a b ha hb
    by_cases h : a = i ∧ p < b
    · obtain ⟨rfl, h⟩ := h
      rw [if_neg (by omega)] at e2
      rw [if_pos ⟨rfl, h⟩, e2, if_pos (by omega)]
    · rw [if_neg h, e2]
      congr 1
      simp only [eq_iff_iff]
      omega

end

/-- the pivot is an element of the remaining block with largest size -/
theorem findMax_ok {geq : F → F → Bool} {size : F → ℝ} (hs : ∀ x y, geq x y = true ↔ size y ≤ size x)
    (h0 : ∀ x, size 0 ≤ size x) {n p : ℕ} (hp : p < n) (ip jp : ℕ → ℕ) (lu : ℕ → F) :
    let e := findMax geq n p ip jp lu
    p ≤ e.1 ∧ e.1 < n ∧ p ≤ e.2.1 ∧ e.2.1 < n ∧ e.2.2 = lu (ip e.1 * n + jp e.2.1) ∧
      ∀ i j, p ≤ i → i < n → p ≤ j → j < n → size (lu (ip i * n + jp j)) ≤ size e.2.2 := by
  intro e
  -- after row `i`
  let Q : ℕ → ℕ → ℕ × ℕ × F → Prop := fun i' j' s =>
    (∀ i j, p ≤ i → p ≤ j → j < n → (i < i' ∨ (i = i' ∧ j < j')) → size (lu (ip i * n + jp j)) ≤ size s.2.2) ∧
    ((p < i' ∨ p < j') → p ≤ s.1 ∧ s.1 < n ∧ p ≤ s.2.1 ∧ s.2.1 < n ∧ s.2.2 = lu (ip s.1 * n + jp s.2.1)) ∧
    ((i' ≤ p ∧ j' ≤ p) → s.2.2 = 0)
  have key : Q n p e := by
    refine forRange_ind (lo := p) (hi := n) hp.le (P := fun i s => Q i p s) ?_ ?_
    · exact ⟨fun i j h1 h2 h3 h4 => absurd h4 (by omega), fun h => absurd h (by omega), fun _ => rfl⟩
    · intro i s h1 h2 ih
      have inner := forRange_ind (lo := p) (hi := n) hp.le (s := s)
        (f := fun j s => if geq (lu (ip i * n + jp j)) s.2.2 then (i, j, lu (ip i * n + jp j)) else s)
        (P := fun j s => Q i j s) ih ?_
      · refine ⟨fun a b ha hb hbn h => ?_, fun _ => inner.2.1 (.inr hp), fun h => absurd h (by omega)⟩
        refine inner.1 a b ha hb hbn ?_
        omega
      · intro j s h3 h4 ih
        beta_reduce
        by_cases hg : geq (lu (ip i * n + jp j)) s.2.2 = true
        · rw [if_pos hg]
          have hle := (hs _ _).1 hg
          refine ⟨fun a b ha hb hbn h => ?_, fun _ => ⟨h1, h2, h3, h4, rfl⟩, fun h => absurd h (by omega)⟩
          rcases h with h | ⟨rfl, h⟩
          · exact (ih.1 a b ha hb hbn (.inl h)).trans hle
          · by_cases hbj : b = j
            · subst hbj; exact le_rfl
            · exact (ih.1 a b ha hb hbn (.inr ⟨rfl, by omega⟩)).trans hle
        · rw [if_neg hg]
          have hlt : size (lu (ip i * n + jp j)) < size s.2.2 := by
            by_contra hc; exact hg ((hs _ _).2 (not_lt.1 hc))
          refine ⟨fun a b ha hb hbn h => ?_, fun _ => ?_, fun h => absurd h (by omega)⟩
          · rcases h with h | ⟨rfl, h⟩
            · exact ih.1 a b ha hb hbn (.inl h)
            · by_cases hbj : b = j
              · subst hbj; exact hlt.le
              · exact ih.1 a b ha hb hbn (.inr ⟨rfl, by omega⟩)
          · by_cases hc : p < i ∨ p < j
            · exact ih.2.1 hc
            · rw [ih.2.2 (by omega)] at hlt
              exact absurd (h0 _) (not_le.2 hlt)
  obtain ⟨k1, k2, _⟩ := key
  obtain ⟨a1, a2, a3, a4, a5⟩ := k2 (.inl hp)
  exact ⟨a1, a2, a3, a4, a5, fun i j hi hin hj hjn => k1 i j hi hj hjn (.inl hin)⟩

theorem exchange_holds {n : ℕ} {v : ℕ → ℕ} {σ : Equiv.Perm (Fin n)} (h : Holds v σ) {p q : ℕ} (hp : p < n) (hq : q < n) :
    Holds (exchange v p q) (σ * Equiv.swap ⟨p, hp⟩ ⟨q, hq⟩) := by
  intro i
  unfold exchange
  by_cases hpq : q = p
  · subst hpq; simp [h i]
  · rw [if_pos hpq]
    simp only [Equiv.Perm.coe_mul, Function.comp_apply]
    by_cases h1 : (i : ℕ) = q
    · have : i = ⟨q, hq⟩ := Fin.ext h1
      subst this
      rw [Equiv.swap_apply_right, Function.update_self]
      exact h ⟨p, hp⟩
    · rw [Function.update_of_ne h1]
      by_cases h2 : (i : ℕ) = p
      · have : i = ⟨p, hp⟩ := Fin.ext h2
        subst this
        rw [Equiv.swap_apply_left, Function.update_self]
        exact h ⟨q, hq⟩
      · rw [Function.update_of_ne h2, Equiv.swap_apply_of_ne_of_ne]
        · exact h i
        · intro e; exact h2 (congrArg Fin.val e)
        · intro e; exact h1 (congrArg Fin.val e)

/-- values of `exchange` -/
theorem exchange_apply (v : ℕ → ℕ) (p q i : ℕ) :
    exchange v p q i = v (if i = q then p else if i = p then q else i) := by
  unfold exchange
  by_cases hpq : q = p
  · subst hpq; rw [if_neg (by simp)]; split_ifs with h <;> simp_all
  · rw [if_pos hpq]
    by_cases h1 : i = q
    · subst h1; simp
    · rw [Function.update_of_ne h1, if_neg h1]
      by_cases h2 : i = p
      · subst h2; simp
      · rw [Function.update_of_ne h2, if_neg h2]

/-- entry of the partial factor `L` -/
def Lf (M : ℕ → ℕ → F) (i k : ℕ) : F := if k ≤ i then M i k else 0
/-- entry of the partial factor `U` -/
def Uf (M : ℕ → ℕ → F) (k j : ℕ) : F := if k < j then M k j else if k = j then 1 else 0

open Finset in
/-- invariant of the loop over the pivots -/
structure Inv (n p : ℕ) (A : ℕ → F) (s : State F) (σ τ : Equiv.Perm (Fin n)) : Prop where
  ip : Holds s.ip σ
  jp : Holds s.jp τ
  sign : s.sign = Equiv.Perm.sign σ * Equiv.Perm.sign τ
  diag : ∀ k < p, s.lu (s.ip k * n + s.jp k) ≠ 0
  fact : ∀ i < n, ∀ j < n, A (s.ip i * n + s.jp j) =
    (∑ k ∈ range p, Lf (fun i j => s.lu (s.ip i * n + s.jp j)) i k * Uf (fun i j => s.lu (s.ip i * n + s.jp j)) k j)
      + if p ≤ i ∧ p ≤ j then s.lu (s.ip i * n + s.jp j) else 0

open Finset in
theorem inv_swap {n p : ℕ} {A : ℕ → F} {s : State F} {σ τ : Equiv.Perm (Fin n)} (h : Inv n p A s σ τ) {a b : ℕ} (hp : p < n)
    (ha : a < n) (hpa : p ≤ a) (hb : b < n) (hpb : p ≤ b) (ab : Bool) :
    Inv n p A ⟨exchange s.ip p a, exchange s.jp p b, s.lu,
        (if b ≠ p then -(if a ≠ p then -s.sign else s.sign) else (if a ≠ p then -s.sign else s.sign)), ab⟩
      (σ * Equiv.swap ⟨p, hp⟩ ⟨a, ha⟩) (τ * Equiv.swap ⟨p, hp⟩ ⟨b, hb⟩) := by
  refine ⟨exchange_holds h.ip hp ha, exchange_holds h.jp hp hb, ?_, fun k hk => ?_, fun i hi j hj => ?_⟩
  · simp only [Equiv.Perm.sign_mul, h.sign]
    by_cases h1 : a = p
    · subst h1
      by_cases h2 : b = a
      · subst h2; simp
      · have : (⟨a, hp⟩ : Fin n) ≠ ⟨b, hb⟩ := by intro e; exact h2 (congrArg Fin.val e).symm
        simp [h2, Equiv.Perm.sign_swap this]
    · have h1' : (⟨p, hp⟩ : Fin n) ≠ ⟨a, ha⟩ := by intro e; exact h1 (congrArg Fin.val e).symm
      by_cases h2 : b = p
      · subst h2; simp [h1, Equiv.Perm.sign_swap h1']
      · have : (⟨p, hp⟩ : Fin n) ≠ ⟨b, hb⟩ := by intro e; exact h2 (congrArg Fin.val e).symm
        simp [h1, h2, Equiv.Perm.sign_swap this, Equiv.Perm.sign_swap h1']
  · simp only [exchange_apply]
    rw [if_neg (by omega), if_neg (by omega), if_neg (by omega), if_neg (by omega)]
    exact h.diag k hk
  · simp only [exchange_apply]
    let f : ℕ → ℕ := fun i => if i = a then p else if i = p then a else i
    let g : ℕ → ℕ := fun j => if j = b then p else if j = p then b else j
    have hf1 : f i < n := by simp only [f]; split_ifs <;> omega
    have hg1 : g j < n := by simp only [g]; split_ifs <;> omega
    have hfp : ∀ i, p ≤ f i ↔ p ≤ i := by intro i; simp only [f]; split_ifs <;> omega
    have hgp : ∀ i, p ≤ g i ↔ p ≤ i := by intro i; simp only [g]; split_ifs <;> omega
    have hfk : ∀ k < p, f k = k := by intro k hk; simp only [f]; rw [if_neg (by omega), if_neg (by omega)]
    have hgk : ∀ k < p, g k = k := by intro k hk; simp only [g]; rw [if_neg (by omega), if_neg (by omega)]
    change A (s.ip (f i) * n + s.jp (g j)) = (∑ k ∈ range p, Lf (fun i j => s.lu (s.ip (f i) * n + s.jp (g j))) i k *
      Uf (fun i j => s.lu (s.ip (f i) * n + s.jp (g j))) k j) +
      if p ≤ i ∧ p ≤ j then s.lu (s.ip (f i) * n + s.jp (g j)) else 0
    have hfact := h.fact (f i) hf1 (g j) hg1
    simp only [hfp, hgp] at hfact
    rw [hfact]
    congr 1
    refine sum_congr rfl fun k hk => ?_
    have hk := mem_range.1 hk
    have e1 : (k ≤ f i) ↔ (k ≤ i) := by
      by_cases h1 : p ≤ i
      · have := (hfp i).2 h1; omega
      · rw [hfk i (by omega)]
    have e2 : (k < g j) ↔ (k < j) := by
      by_cases h1 : p ≤ j
      · have := (hgp j).2 h1; omega
      · rw [hgk j (by omega)]
    have e3 : (k = g j) ↔ (k = j) := by
      by_cases h1 : p ≤ j
      · have := (hgp j).2 h1; omega
      · rw [hgk j (by omega)]
    simp only [Lf, Uf, e1, e2, e3, hfk k hk, hgk k hk]

open Finset in
theorem inv_elim {n p : ℕ} {A : ℕ → F} {s : State F} {σ τ : Equiv.Perm (Fin n)} (h : Inv n p A s σ τ) (hp : p < n)
    (hpiv : s.lu (s.ip p * n + s.jp p) ≠ 0) (ab : Bool) :
    Inv n (p + 1) A ⟨s.ip, s.jp, subRows n p s.ip s.jp (scaleRow n p s.ip s.jp (s.lu (s.ip p * n + s.jp p)) s.lu), s.sign, ab⟩
      σ τ := by
  set pivot := s.lu (s.ip p * n + s.jp p) with hpv
  -- the new entries
  have new : ∀ a < n, ∀ b < n,
      subRows n p s.ip s.jp (scaleRow n p s.ip s.jp pivot s.lu) (s.ip a * n + s.jp b) =
        if p < a ∧ p < b then s.lu (s.ip a * n + s.jp b) - s.lu (s.ip a * n + s.jp p) * (s.lu (s.ip p * n + s.jp b) / pivot)
        else if a = p ∧ p < b then s.lu (s.ip a * n + s.jp b) / pivot else s.lu (s.ip a * n + s.jp b) := by
    intro a ha b hb
    rw [subRows_view h.ip h.jp _ hp ha hb]
    by_cases h1 : p < a ∧ p < b
    · have e0 := scaleRow_view h.ip h.jp s.lu hp pivot ha hb
      rw [if_neg (by omega)] at e0
      have e1 := scaleRow_view h.ip h.jp s.lu hp pivot ha hp
      rw [if_neg (by omega)] at e1
      have e2 := scaleRow_view h.ip h.jp s.lu hp pivot hp hb
      rw [if_pos (by omega)] at e2
      rw [if_pos h1, if_pos h1, e0, e1, e2]
    · rw [if_neg h1, if_neg h1, scaleRow_view h.ip h.jp _ hp _ ha hb]
  refine ⟨h.ip, h.jp, h.sign, fun k hk => ?_, fun i hi j hj => ?_⟩
  · simp only
    rw [new k (by omega) k (by omega), if_neg (by omega), if_neg (by omega)]
    by_cases hkp : k = p
    · subst hkp; exact hpiv
    · exact h.diag k (by omega)
  · simp only
    rw [h.fact i hi j hj, sum_range_succ, add_assoc]
    congr 1
    · refine sum_congr rfl fun k hk => ?_
      have hk := mem_range.1 hk
      simp only [Lf, Uf]
      have e0 := new i hi k (by omega)
      rw [if_neg (by omega), if_neg (by omega)] at e0
      have e1 := new k (by omega) j hj
      rw [if_neg (by omega), if_neg (by omega)] at e1
      rw [e0, e1]
    · simp only [Lf, Uf]
      have e0 := new i hi p hp
      rw [if_neg (by omega), if_neg (by omega)] at e0
      have e1 := new p hp j hj
      rw [if_neg (by omega)] at e1
      have e2 := new i hi j hj
      rw [e0, e1, e2]
      clear e0 e1 e2
      by_cases h1 : p ≤ i
      · by_cases h2 : p < j
        · rw [if_pos ⟨h1, by omega⟩, if_pos h1, if_pos h2]
          rw [if_pos (by omega)]
          by_cases h3 : p = i
          · subst h3
            rw [if_neg (by omega), add_zero]
            field_simp
            rw [hpv]
          · rw [if_pos (by omega), if_pos (by omega)]
            ring
        · by_cases h3 : p = j
          · subst h3
            simp [h1]
          · have g1 : ¬ (p ≤ i ∧ p ≤ j) := by omega
            have g2 : ¬ (p + 1 ≤ i ∧ p + 1 ≤ j) := by omega
            rw [if_neg g1, if_neg g2, if_neg h2, if_neg h3]
            ring
      · have g1 : ¬ (p ≤ i ∧ p ≤ j) := by omega
        have g2 : ¬ (p + 1 ≤ i ∧ p + 1 ≤ j) := by omega
        rw [if_neg g1, if_neg g2, if_neg h1]
        ring

/-- result of the loop over the pivots -/
inductive Done (n : ℕ) (A : ℕ → F) (s : State F) : ℕ → Prop
  | run (p : ℕ) (σ τ : Equiv.Perm (Fin n)) : s.aborted = false → Inv n p A s σ τ → Done n A s p
  | stop (p q : ℕ) (σ τ : Equiv.Perm (Fin n)) : s.aborted = true → q < p → Inv n q A s σ τ →
      (∀ i j, q ≤ i → i < n → q ≤ j → j < n → s.lu (s.ip i * n + s.jp j) = 0) → Done n A s p

theorem pivotStep_done {geq : F → F → Bool} (hg : IsAbsGeq geq) {n p : ℕ} (hp : p < n) {A : ℕ → F} {s : State F}
    (h : Done n A s p) : Done n A (pivotStep geq n p s) (p + 1) := by
  unfold pivotStep
  cases h with
  | stop q σ τ h1 h2 h3 h4 =>
    rw [if_pos h1]
    exact .stop _ q σ τ h1 (by omega) h3 h4
  | run σ τ h1 h2 =>
    rw [if_neg (by simp [h1])]
    obtain ⟨size, hs, h0, hz⟩ := hg
    obtain ⟨a1, a2, b1, b2, he, hmax⟩ := findMax_ok hs h0 hp s.ip s.jp s.lu
    set e := findMax geq n p s.ip s.jp s.lu with hedef
    dsimp only
    have hsw := fun ab => inv_swap h2 hp a2 a1 b2 b1 ab
    have hpv : s.lu (exchange s.ip p e.1 p * n + exchange s.jp p e.2.1 p) = e.2.2 := by
      rw [exchange_apply, exchange_apply, he]
      have q : ∀ a : ℕ, (if p = a then p else if p = p then a else p) = a := by
        intro a
        by_cases h : p = a
        · rw [if_pos h]; exact h
        · rw [if_neg h, if_pos rfl]
      rw [q, q]
    by_cases hz0 : s.lu (exchange s.ip p e.1 p * n + exchange s.jp p e.2.1 p) = 0
    · rw [if_pos hz0]
      refine .stop _ p _ _ rfl (by omega) (hsw true) fun i j hi hin hj hjn => ?_
      rw [hpv] at hz0
      simp only [exchange_apply]
      refine hz _ (le_antisymm ?_ (h0 _))
      rw [← hz0]
      refine hmax _ _ ?_ ?_ ?_ ?_ <;> split_ifs <;> omega
    · rw [if_neg hz0]
      exact .run _ _ _ rfl (inv_elim (hsw false) hp hz0 false)

/-- the loop that initializes the permutations -/
theorem init_ok (n : ℕ) (ip0 jp0 : ℕ → ℕ) :
    let ij : (ℕ → ℕ) × (ℕ → ℕ) := forRange 0 n (ip0, jp0) fun i (s : (ℕ → ℕ) × (ℕ → ℕ)) => (Function.update s.1 i i, Function.update s.2 i i)
    (∀ i < n, ij.1 i = i) ∧ ∀ i < n, ij.2 i = i := by
  refine forRange_ind (Nat.zero_le n) (P := fun k (s : (ℕ → ℕ) × (ℕ → ℕ)) => (∀ i < k, s.1 i = i) ∧ ∀ i < k, s.2 i = i) ?_ ?_
  · exact ⟨fun i hi => absurd hi (by omega), fun i hi => absurd hi (by omega)⟩
  · intro k s _ _ ih
    constructor <;> intro i hi <;> simp only [Function.update_apply] <;> split_ifs with h
    · exact h.symm
    · exact ih.1 i (by omega)
    · exact h.symm
    · exact ih.2 i (by omega)

/-- the state when LuFactor returns -/
theorem luFactor_done {geq : F → F → Bool} (hg : IsAbsGeq geq) (n : ℕ) (ip0 jp0 : ℕ → ℕ) (A : ℕ → F) :
    ∃ s : State F, Done n A s n ∧ luFactor geq n ip0 jp0 A = (s.ip, s.jp, s.lu, if s.aborted then 0 else s.sign) := by
  unfold luFactor
  set ij := forRange 0 n (ip0, jp0) fun i (s : (ℕ → ℕ) × (ℕ → ℕ)) => (Function.update s.1 i i, Function.update s.2 i i) with hij
  obtain ⟨h1, h2⟩ := init_ok n ip0 jp0
  refine ⟨_, ?_, rfl⟩
  refine forRange_ind (Nat.zero_le n) (P := fun p s => Done n A s p) ?_ ?_
  · refine .run 0 1 1 rfl ⟨fun i => ?_, fun i => ?_, by simp, fun k hk => absurd hk (by omega), fun i _ j _ => by simp⟩
    · exact h1 i i.2
    · exact h2 i i.2
  · intro p s _ hp ih
    exact pivotStep_done hg hp ih

/-- *Specification* of a successful factorization: `ip`, `jp` are permutations, `L * U` is the matrix `A` with its
rows and columns permuted, and no pivot is zero. -/
structure Factored (n : ℕ) (A : ℕ → F) (ip jp : ℕ → ℕ) (lu : ℕ → F) (σ τ : Equiv.Perm (Fin n)) : Prop where
  rows : Holds ip σ
  cols : Holds jp τ
  prod : lower n ip jp lu * upper n ip jp lu = (mat n n A).submatrix σ τ
  diag : ∀ k : Fin n, lower n ip jp lu k k ≠ 0

open Finset in
theorem Inv.prod {n : ℕ} {A : ℕ → F} {s : State F} {σ τ : Equiv.Perm (Fin n)} {p : ℕ} (h : Inv n p A s σ τ) (hp : p ≤ n)
    (hz : ∀ i j, p ≤ i → i < n → p ≤ j → j < n → s.lu (s.ip i * n + s.jp j) = 0) :
    (Matrix.of fun (i k : Fin n) => if (k : ℕ) < p then Lf (fun i j => s.lu (s.ip i * n + s.jp j)) i k else 0) *
      (upper n s.ip s.jp s.lu) = (mat n n A).submatrix σ τ := by
  ext i j
  rw [Matrix.mul_apply, Matrix.submatrix_apply]
  have h1 := h.fact i i.2 j j.2
  have h2 : (if p ≤ (i : ℕ) ∧ p ≤ (j : ℕ) then s.lu (s.ip i * n + s.jp j) else 0) = 0 := by
    split_ifs with h3
    · exact hz i j h3.1 i.2 h3.2 j.2
    · rfl
  rw [h2, add_zero] at h1
  have h3 : mat n n A (σ i) (τ j) = A (s.ip i * n + s.jp j) := by rw [h.ip i, h.jp j]; rfl
  rw [h3, h1]
  have h4 : ∀ k : Fin n, (Matrix.of fun (i k : Fin n) =>
      if (k : ℕ) < p then Lf (fun i j => s.lu (s.ip i * n + s.jp j)) i k else 0) i k * upper n s.ip s.jp s.lu k j =
      (fun k : ℕ => if k < p then Lf (fun i j => s.lu (s.ip i * n + s.jp j)) i k *
        Uf (fun i j => s.lu (s.ip i * n + s.jp j)) k j else 0) k := by
    intro k
    simp only [Matrix.of_apply, upper, Uf]
    have e1 : ((k : ℕ) < (j : ℕ)) ↔ k < j := Iff.rfl
    have e2 : ((k : ℕ) = (j : ℕ)) ↔ k = j := Fin.ext_iff.symm
    simp only [e1, e2]
    split_ifs <;> simp
  rw [sum_congr rfl fun k _ => h4 k, Fin.sum_univ_eq_sum_range (fun k : ℕ => if k < p then
    Lf (fun i j => s.lu (s.ip i * n + s.jp j)) i k * Uf (fun i j => s.lu (s.ip i * n + s.jp j)) k j else 0) n]
  rw [← sum_filter]
  refine sum_congr ?_ fun _ _ => rfl
  ext k; simp only [mem_filter, mem_range]; omega

omit [DecidableEq F] in
theorem upper_det (n : ℕ) (ip jp : ℕ → ℕ) (lu : ℕ → F) : (upper n ip jp lu).det = 1 := by
  rw [Matrix.det_of_isUpperTriangular]
  · refine Finset.prod_eq_one fun i _ => ?_
    simp [upper]
  · intro i j hij
    simp only [id] at hij
    simp only [upper]
    rw [if_neg (not_lt.2 hij.le), if_neg hij.ne']

omit [DecidableEq F] in
theorem lower_det (n : ℕ) (ip jp : ℕ → ℕ) (lu : ℕ → F) :
    (lower n ip jp lu).det = ∏ k : Fin n, lu (ip k * n + jp k) := by
  rw [Matrix.det_of_isLowerTriangular]
  · refine Finset.prod_congr rfl fun i _ => ?_
    simp [lower]
  · intro i j hij
    have hij : i < j := hij
    simp only [lower]
    rw [if_neg (not_le.2 hij)]

omit [DecidableEq F] in
theorem Factored.det {n : ℕ} {A : ℕ → F} {ip jp : ℕ → ℕ} {lu : ℕ → F} {σ τ : Equiv.Perm (Fin n)}
    (h : Factored n A ip jp lu σ τ) : (mat n n A).det =
      ((Equiv.Perm.sign σ * Equiv.Perm.sign τ : ℤˣ) : ℤ) * ∏ k : Fin n, lu (ip k * n + jp k) := by
  have h1 : ((mat n n A).submatrix σ τ).det = ∏ k : Fin n, lu (ip k * n + jp k) := by
    rw [← h.prod, Matrix.det_mul, upper_det, lower_det, mul_one]
  have h2 : (mat n n A).submatrix σ τ = ((mat n n A).submatrix σ id).submatrix id τ := by
    rw [Matrix.submatrix_submatrix]; rfl
  rw [h2, Matrix.det_permute', Matrix.det_permute] at h1
  rw [← h1]
  have e : ∀ u : ℤˣ, ((u : ℤ) : F) * ((u : ℤ) : F) = 1 := by
    intro u
    rcases Int.units_eq_one_or u with rfl | rfl <;> simp
  push_cast
  calc (mat n n A).det = (((Equiv.Perm.sign σ : ℤˣ) : ℤ) : F) * (((Equiv.Perm.sign σ : ℤˣ) : ℤ) : F) *
        ((((Equiv.Perm.sign τ : ℤˣ) : ℤ) : F) * (((Equiv.Perm.sign τ : ℤˣ) : ℤ) : F)) * (mat n n A).det := by
        rw [e, e]; simp
    _ = _ := by ring

/-- **C35, LuFactor.**  For every matrix: either the result is zero and the matrix is singular, or `L * U` is the permuted
matrix, the result is the product of the signs of the two permutations, and the matrix is not singular. -/
theorem luFactor_ok {geq : F → F → Bool} (hg : IsAbsGeq geq) (n : ℕ) (ip0 jp0 : ℕ → ℕ) (A : ℕ → F) :
    let r := luFactor geq n ip0 jp0 A
    (r.2.2.2 = 0 ∧ (mat n n A).det = 0) ∨
      ∃ σ τ : Equiv.Perm (Fin n), Factored n A r.1 r.2.1 r.2.2.1 σ τ ∧
        r.2.2.2 = Equiv.Perm.sign σ * Equiv.Perm.sign τ ∧ (mat n n A).det ≠ 0 := by
  intro r
  obtain ⟨s, hd, hr⟩ := luFactor_done hg n ip0 jp0 A
  rw [show r = _ from hr]
  cases hd with
  | run σ τ h1 h2 =>
    right
    have hf : Factored n A s.ip s.jp s.lu σ τ := by
      refine ⟨h2.ip, h2.jp, ?_, fun k => ?_⟩
      · have h3 := h2.prod le_rfl (fun i j h1 h2 => by omega)
        rw [← h3]
        congr 1
        ext i k
        simp only [lower, Matrix.of_apply, Lf]
        rw [if_pos k.2]
        rfl
      · simpa [lower] using h2.diag k k.2
    refine ⟨σ, τ, hf, by simp [h1, h2.sign], ?_⟩
    rw [hf.det]
    refine mul_ne_zero ?_ (Finset.prod_ne_zero_iff.2 fun k _ => h2.diag k k.2)
    rcases Int.units_eq_one_or (Equiv.Perm.sign σ * Equiv.Perm.sign τ) with e | e <;> rw [e] <;> simp
  | stop q σ τ h1 h2 h3 h4 =>
    left
    refine ⟨by simp [h1], ?_⟩
    have h5 := h3.prod (by omega) h4
    have h6 : ((mat n n A).submatrix σ τ).det = 0 := by
      rw [← h5, Matrix.det_mul]
      rw [Matrix.det_eq_zero_of_column_eq_zero ⟨q, h2⟩, zero_mul]
      intro i
      simp
    have h7 : (mat n n A).submatrix σ τ = ((mat n n A).submatrix σ id).submatrix id τ := by
      rw [Matrix.submatrix_submatrix]; rfl
    rw [h7, Matrix.det_permute', Matrix.det_permute] at h6
    rcases Int.units_eq_one_or (Equiv.Perm.sign σ) with e1 | e1 <;>
      rcases Int.units_eq_one_or (Equiv.Perm.sign τ) with e2 | e2 <;> simpa [e1, e2] using h6


/-! ### LuInvert -/

section
variable {n m k : ℕ} {ip jp : ℕ → ℕ} {σ τ : Equiv.Perm (Fin n)}

theorem col_inj (hi : Holds ip σ) (hk : k < m) {i a : ℕ} (h1 : i < n) (h2 : a < n) (h : ip i * m + k = ip a * m + k) :
    i = a := hi.inj h1 h2 (idx_inj hk hk h).1

omit [Field F] [DecidableEq F] in
theorem col_upd (hi : Holds ip σ) (hk : k < m) (B : ℕ → F) {i a : ℕ} (h1 : i < n) (h2 : a < n) (v : F) :
    Function.update B (ip i * m + k) v (ip a * m + k) = if a = i then v else B (ip a * m + k) := by
  by_cases h : a = i
  · subst h; simp
  · rw [if_neg h, Function.update_of_ne fun e => h (col_inj hi hk h2 h1 e)]

/-- `B'` differs from `B` only in column `k` -/
def OnlyCol (n m k : ℕ) (B B' : ℕ → F) : Prop := ∀ x, (∀ i < n, x ≠ i * m + k) → B' x = B x

omit [Field F] [DecidableEq F] in
theorem OnlyCol.upd (hi : Holds ip σ) {B B' : ℕ → F} (h : OnlyCol n m k B B') {i : ℕ} (hin : i < n) (v : F) :
    OnlyCol n m k B (Function.update B' (ip i * m + k) v) := by
  intro x hx
  rw [Function.update_of_ne (hx _ (hi.lt hin)), h x hx]

omit [DecidableEq F] in
/-- subtracting the effect of one variable from the rows `lo ≤ i < hi` -/
theorem sub_col (hi : Holds ip σ) (hk : k < m) {lo up : ℕ} (hlu : lo ≤ up) (hup : up ≤ n) (B0 B : ℕ → F) (h0 : OnlyCol n m k B0 B)
    (e : F) (c : ℕ → F) :
    let B' := forRange lo up B fun i B => Function.update B (ip i * m + k) (B (ip i * m + k) - e * c i)
    OnlyCol n m k B0 B' ∧ ∀ a < n, B' (ip a * m + k) =
      if lo ≤ a ∧ a < up then B (ip a * m + k) - e * c a else B (ip a * m + k) := by
  refine forRange_ind (lo := lo) (hi := up) hlu (P := fun i B' => OnlyCol n m k B0 B' ∧ ∀ a < n, B' (ip a * m + k) =
      if lo ≤ a ∧ a < i then B (ip a * m + k) - e * c a else B (ip a * m + k)) ?_ ?_
  · exact ⟨h0, fun a _ => by rw [if_neg (by omega)]⟩
  · intro i s h1 h2 ⟨ih1, ih2⟩
    refine ⟨ih1.upd hi (by omega) _, fun a ha => ?_⟩
    have e0 := ih2 i (by omega)
    rw [if_neg (by omega)] at e0
    rw [col_upd hi hk s (by omega) ha, e0]
    by_cases h : a = i
    · subst h; rw [if_pos rfl, if_pos (by omega)]
    · rw [if_neg h, ih2 a ha]
      congr 1
      simp only [eq_iff_iff]
      omega

open Finset in
omit [DecidableEq F] in
/-- `L * c = b` after the forward substitution -/
theorem forwardSub_ok (hi : Holds ip σ) (hk : k < m) (lu : ℕ → F) (B : ℕ → F)
    (hd : ∀ q < n, lu (ip q * n + jp q) ≠ 0) :
    let B' := forwardSub n m k ip jp lu B
    OnlyCol n m k B B' ∧ ∀ i < n, B (ip i * m + k) =
      ∑ q ∈ range n, Lf (fun i j => lu (ip i * n + jp j)) i q * B' (ip q * m + k) := by
  have key := forRange_ind (lo := 0) (hi := n) (Nat.zero_le n) (s := B)
    (f := fun p B => forRange (p + 1) n (Function.update B (ip p * m + k) (B (ip p * m + k) / lu (ip p * n + jp p)))
      fun i B' => Function.update B' (ip i * m + k)
        (B' (ip i * m + k) - B (ip p * m + k) / lu (ip p * n + jp p) * lu (ip i * n + jp p)))
    (P := fun p B' => OnlyCol n m k B B' ∧ ∀ i < n, B (ip i * m + k) =
      (∑ q ∈ range p, Lf (fun i j => lu (ip i * n + jp j)) i q * B' (ip q * m + k)) +
        if p ≤ i then B' (ip i * m + k) else 0) ?_ ?_
  · refine ⟨key.1, fun i hin => ?_⟩
    have := key.2 i hin
    rw [if_neg (by omega), add_zero] at this
    exact this
  · exact ⟨fun _ _ => rfl, fun i _ => by simp⟩
  · intro p s _ hp ⟨ih1, ih2⟩
    set e := s (ip p * m + k) / lu (ip p * n + jp p) with he
    obtain ⟨s1, s2⟩ := sub_col hi hk (lo := p + 1) (up := n) (by omega) le_rfl B
      (Function.update s (ip p * m + k) e) (ih1.upd hi hp e) e (fun i => lu (ip i * n + jp p))
    refine ⟨s1, fun i hin => ?_⟩
    rw [ih2 i hin, sum_range_succ, add_assoc]
    have hlow : ∀ a, a < p → forRange (p + 1) n (Function.update s (ip p * m + k) e)
        (fun i B' => Function.update B' (ip i * m + k) (B' (ip i * m + k) - e * lu (ip i * n + jp p))) (ip a * m + k) =
        s (ip a * m + k) := by
      intro a ha
      rw [s2 a (by omega), if_neg (by omega), col_upd hi hk s hp (by omega), if_neg (by omega)]
    have hpp : forRange (p + 1) n (Function.update s (ip p * m + k) e)
        (fun i B' => Function.update B' (ip i * m + k) (B' (ip i * m + k) - e * lu (ip i * n + jp p))) (ip p * m + k) =
        e := by
      rw [s2 p hp, if_neg (by omega), col_upd hi hk s hp hp, if_pos rfl]
    congr 1
    · refine sum_congr rfl fun q hq => ?_
      rw [hlow q (mem_range.1 hq)]
    · rw [hpp]
      simp only [Lf]
      by_cases h1 : p ≤ i
      · rw [if_pos h1, if_pos h1]
        by_cases h2 : p = i
        · subst h2
          rw [if_neg (by omega), add_zero, he, mul_div_cancel₀ _ (hd p hp)]
        · rw [if_pos (by omega), s2 i hin, if_pos (by omega), col_upd hi hk s hp hin, if_neg (by omega)]
          ring
      · rw [if_neg h1, if_neg h1, if_neg (by omega)]
        ring

open Finset in
omit [DecidableEq F] in
/-- `U * x = c` after the backward substitution -/
theorem backwardSub_ok (hi : Holds ip σ) (hj : Holds jp τ) (hk : k < m) (lu : ℕ → F) (B x : ℕ → F) :
    let s := backwardSub n m k ip jp lu (B, x)
    OnlyCol n m k B s.1 ∧ ∀ i < n, B (ip i * m + k) =
      ∑ q ∈ range n, Uf (fun i j => lu (ip i * n + jp j)) i q * s.2 (jp q) := by
  have key := forDown0_ind (n := n) (s := (B, x))
    (f := fun p s => (forRange 0 p s.1 fun i B' => Function.update B' (ip i * m + k)
        (B' (ip i * m + k) - s.1 (ip p * m + k) * lu (ip i * n + jp p)),
          Function.update s.2 (jp p) (s.1 (ip p * m + k))))
    (P := fun p s => OnlyCol n m k B s.1 ∧ ∀ i < n, B (ip i * m + k) =
      (∑ q ∈ Ico p n, Uf (fun i j => lu (ip i * n + jp j)) i q * s.2 (jp q)) +
        if i < p then s.1 (ip i * m + k) else 0) ?_ ?_
  · refine ⟨key.1, fun i hin => ?_⟩
    have := key.2 i hin
    rw [if_neg (by omega), add_zero, ← range_eq_Ico] at this
    exact this
  · exact ⟨fun _ _ => rfl, fun i hin => by simp [hin]⟩
  · intro p s hp ⟨ih1, ih2⟩
    set e := s.1 (ip p * m + k) with he
    obtain ⟨s1, s2⟩ := sub_col hi hk (lo := 0) (up := p) (by omega) hp.le B s.1 ih1 e (fun i => lu (ip i * n + jp p))
    refine ⟨s1, fun i hin => ?_⟩
    rw [ih2 i hin, Finset.sum_eq_sum_Ico_succ_bot hp]
    have hx : ∀ q ∈ Ico (p + 1) n, Function.update s.2 (jp p) e (jp q) = s.2 (jp q) := by
      intro q hq
      have hq := mem_Ico.1 hq
      rw [Function.update_of_ne]
      intro h
      have := hj.inj hq.2 hp h
      omega
    dsimp only
    have hxs : (∑ q ∈ Ico (p + 1) n, Uf (fun i j => lu (ip i * n + jp j)) i q * Function.update s.2 (jp p) e (jp q)) =
        ∑ q ∈ Ico (p + 1) n, Uf (fun i j => lu (ip i * n + jp j)) i q * s.2 (jp q) :=
      sum_congr rfl fun q hq => by rw [hx q hq]
    rw [Function.update_self, hxs]
    simp only [Uf]
    by_cases h1 : i < p
    · rw [if_pos h1, if_pos (by omega), if_pos h1, s2 i hin, if_pos ⟨by omega, h1⟩]
      ring
    · by_cases h2 : i = p
      · subst h2
        rw [if_pos (by omega), if_neg h1, if_pos rfl, if_neg h1, he]
        ring
      · rw [if_neg (by omega), if_neg h1, if_neg h2, if_neg h1]
        ring

omit [Field F] [DecidableEq F] in
theorem copy_ok (hk : k < m) (B0 B x : ℕ → F) (h0 : OnlyCol n m k B0 B) :
    let B' := forRange 0 n B fun i B => Function.update B (i * m + k) (x i)
    OnlyCol n m k B0 B' ∧ ∀ i < n, B' (i * m + k) = x i := by
  have key := forRange_ind (lo := 0) (hi := n) (Nat.zero_le n) (s := B)
    (f := fun i B => Function.update B (i * m + k) (x i))
    (P := fun p B' => OnlyCol n m k B0 B' ∧ ∀ i < p, B' (i * m + k) = x i) ⟨h0, fun i hi => absurd hi (by omega)⟩ ?_
  · exact key
  · intro p s _ hp ⟨ih1, ih2⟩
    refine ⟨fun y hy => ?_, fun i hi => ?_⟩
    · beta_reduce; rw [Function.update_of_ne (hy p hp)]; exact ih1 y hy
    · beta_reduce
      by_cases h : i = p
      · subst h; simp
      · rw [Function.update_of_ne fun e => h (idx_inj hk hk e).1]
        exact ih2 i (by omega)

end

open Finset in
omit [DecidableEq F] in
/-- **C35, LuInvert.**  If `ip`, `jp` and `lu` hold a factorization of `A`, then LuInvert changes `B` to the solution `X` of
the equations `A * X = B`, for every number of columns. -/
theorem luInvert_ok {n : ℕ} {A : ℕ → F} {ip jp : ℕ → ℕ} {lu : ℕ → F} {σ τ : Equiv.Perm (Fin n)}
    (h : Factored n A ip jp lu σ τ) (m : ℕ) (B x0 : ℕ → F) :
    mat n n A * mat n m (luInvert n m ip jp lu B x0) = mat n m B := by
  have hd : ∀ q < n, lu (ip q * n + jp q) ≠ 0 := by
    intro q hq
    have := h.diag ⟨q, hq⟩
    simpa [lower] using this
  have hA : ∀ i j : Fin n, mat n n A (σ i) (τ j) =
      ∑ q ∈ range n, Lf (fun i j => lu (ip i * n + jp j)) i q * Uf (fun i j => lu (ip i * n + jp j)) q j := by
    intro i j
    have := congrFun (congrFun h.prod i) j
    rw [Matrix.submatrix_apply] at this
    rw [← this, Matrix.mul_apply]
    rw [← Fin.sum_univ_eq_sum_range (fun q => Lf (fun i j => lu (ip i * n + jp j)) i q *
      Uf (fun i j => lu (ip i * n + jp j)) q j) n]
    refine sum_congr rfl fun q _ => ?_
    simp only [lower, upper, Lf, Uf, Fin.le_def, Fin.lt_def, Fin.ext_iff]
  have key := forRange_ind (lo := 0) (hi := m) (Nat.zero_le m) (s := (B, x0))
    (f := fun k s =>
      let s := backwardSub n m k ip jp lu (forwardSub n m k ip jp lu s.1, s.2)
      (forRange 0 n s.1 fun i B => Function.update B (i * m + k) (s.2 i), s.2))
    (P := fun k s => (∀ k' < k, ∀ i : Fin n, ∑ j : Fin n, mat n n A i j * s.1 (j * m + k') = B (i * m + k')) ∧
      ∀ k' < m, k ≤ k' → ∀ i < n, s.1 (i * m + k') = B (i * m + k')) ?_ ?_
  · ext i k
    rw [Matrix.mul_apply]
    exact key.1 k k.2 i
  · exact ⟨fun k hk => absurd hk (by omega), fun _ _ _ _ _ => rfl⟩
  · intro k s _ hk ⟨ih1, ih2⟩
    dsimp only
    obtain ⟨f1, f2⟩ := forwardSub_ok (jp := jp) h.rows hk lu s.1 hd
    obtain ⟨b1, b2⟩ := backwardSub_ok h.rows h.cols hk lu (forwardSub n m k ip jp lu s.1) s.2
    set r := backwardSub n m k ip jp lu (forwardSub n m k ip jp lu s.1, s.2) with hr
    have h0 : OnlyCol n m k s.1 r.1 := fun y hy => (b1 y hy).trans (f1 y hy)
    obtain ⟨c1, c2⟩ := copy_ok hk s.1 r.1 r.2 h0
    have other : ∀ k' < m, k' ≠ k → ∀ i, (forRange 0 n r.1 fun i B => Function.update B (i * m + k) (r.2 i)) (i * m + k') =
        s.1 (i * m + k') := by
      intro k' hk' hne i
      refine c1 _ fun a _ e => hne (idx_inj hk' hk e).2
    refine ⟨fun k' hk' i => ?_, fun k' hk' hkk i hin => ?_⟩
    · by_cases hkk : k' = k
      · subst hkk
        have e1 : ∀ j : Fin n, mat n n A i j * (forRange 0 n r.1 fun i B => Function.update B (i * m + k') (r.2 i)) (j * m + k') =
            mat n n A i j * r.2 j := fun j => by rw [c2 j j.2]
        rw [sum_congr rfl fun j _ => e1 j, ← ih2 k' hk le_rfl i i.2]
        obtain ⟨i', rfl⟩ := σ.surjective i
        have e2 : s.1 ((σ i' : Fin n) * m + k') = s.1 (ip i' * m + k') := by rw [h.rows i']
        rw [e2, f2 i' i'.2, ← Equiv.sum_comp τ]
        have e3 : ∀ j : Fin n, mat n n A (σ i') (τ j) * r.2 (τ j : Fin n) = ∑ q ∈ range n,
            Lf (fun i j => lu (ip i * n + jp j)) i' q * (Uf (fun i j => lu (ip i * n + jp j)) q j * r.2 (jp j)) := by
          intro j
          rw [hA, h.cols j, sum_mul]
          exact sum_congr rfl fun q _ => by ring
        rw [sum_congr rfl fun j _ => e3 j, sum_comm]
        refine sum_congr rfl fun q hq => ?_
        rw [b2 q (mem_range.1 hq), ← mul_sum,
          Fin.sum_univ_eq_sum_range (fun j => Uf (fun i j => lu (ip i * n + jp j)) q j * r.2 (jp j)) n]
      · have e1 : ∀ j : Fin n, mat n n A i j * (forRange 0 n r.1 fun i B => Function.update B (i * m + k) (r.2 i)) (j * m + k') =
            mat n n A i j * s.1 (j * m + k') := fun j => by rw [other k' (by omega) hkk]
        rw [sum_congr rfl fun j _ => e1 j]
        exact ih1 k' (by omega) i
    · rw [other k' hk' (by omega) i]
      exact ih2 k' hk' (by omega) i hin

/-! ### LuSolve -/

/-- *Specification* of the scalar functions used by LuSolve: `exp` inverts `log` where LuSolve evaluates it -/
structure IsLog (leqZero : F → Bool) (log exp : F → F) : Prop where
  exp_zero : exp 0 = 1
  exp_add : ∀ x y, exp (x + y) = exp x * exp y
  pos : ∀ x, x ≠ 0 → leqZero x = false → exp (log x) = x
  neg : ∀ x, x ≠ 0 → leqZero x = true → exp (log (-x)) = -x

/-- lu_solve.hpp:249-251 -/
noncomputable def leqZero (x : ℝ) : Bool := decide (x ≤ 0)

/-- lu_solve.hpp:252-255 -/
noncomputable def leqZeroC (x : ℂ) : Bool := decide (x = 0)

theorem isLog_real : IsLog leqZero Real.log Real.exp := by
  refine ⟨Real.exp_zero, Real.exp_add, fun x _ h => Real.exp_log ?_, fun x h0 h => Real.exp_log ?_⟩
  · simpa [leqZero] using h
  · have : x ≤ 0 := by simpa [leqZero] using h
    exact neg_pos.2 (lt_of_le_of_ne this h0)

theorem isLog_complex : IsLog leqZeroC Complex.log Complex.exp := by
  refine ⟨Complex.exp_zero, Complex.exp_add, fun x h0 _ => Complex.exp_log h0, fun x h0 h => ?_⟩
  exact absurd (by simpa [leqZeroC] using h) h0

/-- the loop that computes the log of the determinant -/
theorem luDet_ok {leqZero : F → Bool} {log exp : F → F} (hl : IsLog leqZero log exp) (n : ℕ) (ip jp : ℕ → ℕ) (lu : ℕ → F)
    (sign : ℤ) :
    let d := luDet leqZero log n ip jp lu sign
    (d.2.2 = true ∧ ∃ q < n, lu (ip q * n + jp q) = 0) ∨
      (d.2.2 = false ∧ (∀ q < n, lu (ip q * n + jp q) ≠ 0) ∧ (d.1 = sign ∨ d.1 = -sign) ∧
        (d.1 : F) * exp d.2.1 = sign * ∏ q ∈ Finset.range n, lu (ip q * n + jp q)) := by
  refine forRange_ind (lo := 0) (hi := n) (Nat.zero_le n) (P := fun p (d : ℤ × F × Bool) =>
    (d.2.2 = true ∧ ∃ q < p, lu (ip q * n + jp q) = 0) ∨
      (d.2.2 = false ∧ (∀ q < p, lu (ip q * n + jp q) ≠ 0) ∧ (d.1 = sign ∨ d.1 = -sign) ∧
        (d.1 : F) * exp d.2.1 = sign * ∏ q ∈ Finset.range p, lu (ip q * n + jp q))) ?_ ?_
  · right
    exact ⟨rfl, fun q hq => absurd hq (by omega), .inl rfl, by simp [hl.exp_zero]⟩
  · intro p d _ hp ih
    dsimp only
    rcases ih with ⟨h1, q, hq, h2⟩ | ⟨h1, h2, hsg, h3⟩
    · left
      rw [if_pos h1]
      exact ⟨h1, q, by omega, h2⟩
    · have h1' : ¬ (d.2.2 = true) := by simp [h1]
      rw [if_neg h1']
      by_cases hz : lu (ip p * n + jp p) = 0
      · left
        rw [if_pos hz]
        exact ⟨rfl, p, by omega, hz⟩
      · right
        rw [if_neg hz]
        have hall : ∀ q < p + 1, lu (ip q * n + jp q) ≠ 0 := by
          intro q hq
          by_cases h : q = p
          · subst h; exact hz
          · exact h2 q (by omega)
        rw [Finset.prod_range_succ, ← mul_assoc, ← h3]
        by_cases hq : leqZero (lu (ip p * n + jp p)) = true
        · rw [if_pos hq]
          refine ⟨rfl, hall, by dsimp only; omega, ?_⟩
          dsimp only
          rw [hl.exp_add, hl.neg _ hz hq]
          push_cast
          ring
        · rw [if_neg hq]
          refine ⟨rfl, hall, hsg, ?_⟩
          dsimp only
          rw [hl.exp_add, hl.pos _ hz (by simpa using hq)]
          ring

/-- when LuFactor returns zero there is a zero on the diagonal of the permuted matrix LU -/
theorem luFactor_zero {geq : F → F → Bool} (hg : IsAbsGeq geq) (n : ℕ) (ip0 jp0 : ℕ → ℕ) (A : ℕ → F)
    (h : (mat n n A).det = 0) : let r := luFactor geq n ip0 jp0 A
    ∃ q < n, r.2.2.1 (r.1 q * n + r.2.1 q) = 0 := by
  intro r
  have hok := luFactor_ok hg n ip0 jp0 A
  obtain ⟨s, hd, hr⟩ := luFactor_done hg n ip0 jp0 A
  rw [hr] at hok
  rw [show r = _ from hr]
  cases hd with
  | run σ τ h1 h2 =>
    rcases hok with hok | ⟨_, _, _, _, h'⟩
    · have h3 : s.sign = 0 := by simpa [h1] using hok.1
      rw [h2.sign] at h3
      rcases Int.units_eq_one_or (Equiv.Perm.sign σ) with e1 | e1 <;>
        rcases Int.units_eq_one_or (Equiv.Perm.sign τ) with e2 | e2 <;> simp [e1, e2] at h3
    · exact absurd h h'
  | stop q σ τ h1 h2 h3 h4 => exact ⟨q, h2, h4 q q le_rfl h2 le_rfl h2⟩

/-- **C35, LuSolve.**  For every matrix `A` and right hand side `B`: if `A` is singular, the result is zero; otherwise the
result is one or minus one, the determinant of `A` is the result times `exp (logdet)`, and `A * X = B`. -/
theorem luSolve_ok {geq : F → F → Bool} (hg : IsAbsGeq geq) {leqZero : F → Bool} {log exp : F → F}
    (hl : IsLog leqZero log exp) (n m : ℕ) (ip0 jp0 : ℕ → ℕ) (x0 A B : ℕ → F) :
    let r := luSolve geq leqZero log n m ip0 jp0 x0 A B
    ((mat n n A).det = 0 → r.2.2 = 0) ∧
      ((mat n n A).det ≠ 0 → (r.2.2 = 1 ∨ r.2.2 = -1) ∧ (r.2.2 : F) * exp r.2.1 = (mat n n A).det ∧
        mat n n A * mat n m r.1 = mat n m B) := by
  intro r
  have hr : r = luSolve geq leqZero log n m ip0 jp0 x0 A B := rfl
  unfold luSolve at hr
  set f := luFactor geq n ip0 jp0 A with hf
  have hd := luDet_ok hl n f.1 f.2.1 f.2.2.1 f.2.2.2
  set d := luDet leqZero log n f.1 f.2.1 f.2.2.1 f.2.2.2 with hdd
  dsimp only at hr
  constructor
  · intro h
    obtain ⟨q, hq, hz⟩ := luFactor_zero hg n ip0 jp0 A h
    rcases hd with ⟨h1, _⟩ | ⟨_, h2, _, _⟩
    · rw [if_pos h1] at hr; rw [hr]
    · exact absurd hz (h2 q hq)
  · intro h
    rcases luFactor_ok hg n ip0 jp0 A with ⟨_, h0⟩ | ⟨σ, τ, hfac, hs, _⟩
    · exact absurd h0 h
    · rcases hd with ⟨_, q, hq, hz⟩ | ⟨h1, _, hsg, h3⟩
      · refine absurd hz ?_
        have := hfac.diag ⟨q, hq⟩
        simpa [lower] using this
      · have h1' : ¬ (d.2.2 = true) := by simp [h1]
        rw [if_neg h1'] at hr
        rw [hr]
        refine ⟨?_, ?_, luInvert_ok hfac m B x0⟩
        · change d.1 = 1 ∨ d.1 = -1
          have hs' : f.2.2.2 = Equiv.Perm.sign σ * Equiv.Perm.sign τ := hs
          rw [hs'] at hsg
          rcases Int.units_eq_one_or (Equiv.Perm.sign σ) with e1 | e1 <;>
            rcases Int.units_eq_one_or (Equiv.Perm.sign τ) with e2 | e2 <;> simp [e1, e2] at hsg <;> omega
        · change (d.1 : F) * exp d.2.1 = _
          rw [h3, hfac.det, show f.2.2.2 = _ from hs,
            Fin.prod_univ_eq_prod_range (fun k => f.2.2.1 (f.1 k * n + f.2.1 k)) n]
          push_cast
          rfl

/-- **C35 for the real numbers** -/
theorem luSolve_real (n m : ℕ) (ip0 jp0 : ℕ → ℕ) (x0 A B : ℕ → ℝ) :
    let r := luSolve absGeq leqZero Real.log n m ip0 jp0 x0 A B
    ((mat n n A).det = 0 → r.2.2 = 0) ∧
      ((mat n n A).det ≠ 0 → (r.2.2 = 1 ∨ r.2.2 = -1) ∧ (r.2.2 : ℝ) * Real.exp r.2.1 = (mat n n A).det ∧
        mat n n A * mat n m r.1 = mat n m B) :=
  luSolve_ok absGeq_ok isLog_real n m ip0 jp0 x0 A B

/-- **C35 for the complex numbers** -/
theorem luSolve_complex (n m : ℕ) (ip0 jp0 : ℕ → ℕ) (x0 A B : ℕ → ℂ) :
    let r := luSolve absGeqC leqZeroC Complex.log n m ip0 jp0 x0 A B
    ((mat n n A).det = 0 → r.2.2 = 0) ∧
      ((mat n n A).det ≠ 0 → (r.2.2 = 1 ∨ r.2.2 = -1) ∧ (r.2.2 : ℂ) * Complex.exp r.2.1 = (mat n n A).det ∧
        mat n n A * mat n m r.1 = mat n m B) :=
  luSolve_ok absGeqC_ok isLog_complex n m ip0 jp0 x0 A B

/-! ## Concrete cases -/

/-- the matrix `[[0, 2], [1, 3]]` has a zero in its first position, so a row exchange is needed -/
def exA : ℕ → ℝ := fun i => if i = 0 then 0 else if i = 1 then 2 else if i = 2 then 1 else 3

theorem exA_det : (mat 2 2 exA).det = -2 := by
  rw [Matrix.det_fin_two]; norm_num [mat, exA]

/-- the hypotheses are met by a matrix with determinant -2, for every right hand side -/
example (B x0 : ℕ → ℝ) : let r := luSolve absGeq leqZero Real.log 2 1 id id x0 exA B
    (r.2.2 : ℝ) * Real.exp r.2.1 = -2 ∧ mat 2 2 exA * mat 2 1 r.1 = mat 2 1 B := by
  have := (luSolve_real 2 1 id id x0 exA B).2 (by rw [exA_det]; norm_num)
  rw [exA_det] at this
  exact ⟨this.2.1, this.2.2⟩

/-- ... and the singular case by the matrix of ones -/
example (B x0 : ℕ → ℝ) : (luSolve absGeq leqZero Real.log 2 1 id id x0 (fun _ => 1) B).2.2 = 0 := by
  refine (luSolve_real 2 1 id id x0 _ B).1 ?_
  rw [Matrix.det_fin_two]; norm_num [mat]

end CppAD.Lu
