import Verif.AtomEx.VecFwd

/-! # Atomic vector operations: reverse mode -/

open scoped ContDiff Topology
open PowerSeries

namespace CppAD.AtomEx

variable {m : ℕ}

/-- derivative of a weighted sum -/
theorem hasDeriv_wsum {m q : ℕ} (py : ℕ → ℝ) {F : ℝ → ℕ → ℕ → ℝ} {D : ℕ → ℕ → ℝ}
    (h : ∀ i < m, ∀ l < q, HasDerivAt (fun h => F h i l) (D i l) 0) :
    HasDerivAt (fun h => ∑ i ∈ Finset.range m, ∑ l ∈ Finset.range q, py (i * q + l) * F h i l)
      (∑ i ∈ Finset.range m, ∑ l ∈ Finset.range q, py (i * q + l) * D i l) 0 := by
  refine HasDerivAt.fun_sum fun i hi => HasDerivAt.fun_sum fun l hl => ?_
  exact (h i (Finset.mem_range.1 hi) l (Finset.mem_range.1 hl)).const_mul _

/-- derivative of the coefficients of a product -/
theorem coeff_mul_deriv (A B dA dB : ℝ⟦X⟧) (l : ℕ) :
    HasDerivAt (fun h : ℝ => coeff l ((A + C h * dA) * (B + C h * dB))) (coeff l (dA * B + A * dB)) 0 := by
  have e : ∀ h : ℝ, coeff l ((A + C h * dA) * (B + C h * dB))
      = coeff l (A * B) + h * coeff l (dA * B + A * dB) + h ^ 2 * coeff l (dA * dB) := by
    intro h
    have : (A + C h * dA) * (B + C h * dB) = A * B + C h * (dA * B + A * dB) + C (h ^ 2) * (dA * dB) := by
      rw [map_pow]; ring
    rw [this, map_add, map_add, coeff_C_mul, coeff_C_mul]
  simp only [e]
  have h1 := (((hasDerivAt_id' (0 : ℝ)).mul_const (coeff l (dA * B + A * dB))).const_add (coeff l (A * B))).fun_add
    (((hasDerivAt_id' (0 : ℝ)).fun_pow 2).mul_const (coeff l (dA * dB)))
  simpa using h1

/-- derivative of the coefficients of an affine function -/
theorem coeff_affine_deriv (A dA : ℝ⟦X⟧) (l : ℕ) :
    HasDerivAt (fun h : ℝ => coeff l (A + C h * dA)) (coeff l dA) 0 := by
  simp only [map_add, coeff_C_mul]
  simpa using ((hasDerivAt_id' (0 : ℝ)).mul_const (coeff l dA)).const_add (coeff l A)

/-- derivative of the coefficients of a quotient -/
theorem coeff_div_deriv {A B dA dB D : ℝ⟦X⟧} {Z : ℝ → ℝ⟦X⟧} (h0 : coeff 0 B ≠ 0)
    (hZ : ∀ᶠ h in 𝓝 (0 : ℝ), Z h * (B + C h * dB) = A + C h * dA) (hD : D * B + Z 0 * dB = dA) (l : ℕ) :
    HasDerivAt (fun h : ℝ => coeff l (Z h)) (coeff l D) 0 := by
  induction l using Nat.strong_induction_on with
  | _ l ih =>
    have hG : HasDerivAt (fun h : ℝ => coeff l (A + C h * dA)
        - ∑ d ∈ Finset.range l, coeff d (Z h) * coeff (l - d) (B + C h * dB))
        (coeff l dA - ∑ d ∈ Finset.range l, (coeff d D * coeff (l - d) (B + C 0 * dB) + coeff d (Z 0) * coeff (l - d) dB)) 0 := by
      refine (coeff_affine_deriv A dA l).sub (HasDerivAt.fun_sum fun d hd => ?_)
      exact (ih d (Finset.mem_range.1 hd)).mul (coeff_affine_deriv B dB (l - d))
    have hV := coeff_affine_deriv B dB 0
    have hV0 : coeff 0 (B + C (0 : ℝ) * dB) ≠ 0 := by simpa using h0
    have hQ := hG.div hV hV0
    have hev : (fun h : ℝ => coeff l (Z h)) =ᶠ[𝓝 0] (fun h : ℝ => coeff l (A + C h * dA)
        - ∑ d ∈ Finset.range l, coeff d (Z h) * coeff (l - d) (B + C h * dB)) / (fun h : ℝ => coeff 0 (B + C h * dB)) := by
      filter_upwards [hZ, hV.continuousAt.eventually_ne hV0] with h hh hne
      rw [Pi.div_apply, ← hh, coeff_mul_range, Finset.sum_range_succ, Nat.sub_self]
      field_simp
      ring
    refine (hQ.congr_of_eventuallyEq hev).congr_deriv ?_
    have e0 : coeff l (A + C (0 : ℝ) * dA) = ∑ d ∈ Finset.range (l + 1), coeff d (Z 0) * coeff (l - d) (B + C 0 * dB) := by
      rw [← coeff_mul_range, hZ.self_of_nhds]
    have eD : coeff l dA = ∑ d ∈ Finset.range (l + 1), coeff d D * coeff (l - d) B
        + ∑ d ∈ Finset.range (l + 1), coeff d (Z 0) * coeff (l - d) dB := by
      rw [← coeff_mul_range, ← coeff_mul_range, ← map_add, hD]
    rw [e0, eD]
    simp only [Finset.sum_range_succ, Nat.sub_self, map_zero, zero_mul, add_zero, Finset.sum_add_distrib]
    field_simp
    ring

/-! ### The values that are computed -/

theorem reverseMul_val (m q : ℕ) (tx px py : ℕ → ℝ) {i k : ℕ} (hi : i < m) (hk : k < q) :
    reverseMul m q tx px py (i * q + k)
      = ∑ l ∈ Finset.range q, py (i * q + l) * (if k ≤ l then tx ((m + i) * q + (l - k)) else 0) ∧
    reverseMul m q tx px py ((m + i) * q + k)
      = ∑ l ∈ Finset.range q, py (i * q + l) * (if k ≤ l then tx (i * q + (l - k)) else 0) := by
  set px0 := forRange 0 (2 * m) px fun j px => forRange 0 q px fun k px => vset px (j * q + k) 0 with hpx0
  have hz : ∀ j < 2 * m, ∀ k < q, px0 (j * q + k) = 0 := by
    intro j hj k hk
    have := fill_zero (m := 2 * m) 0 px hj hk
    simpa using this
  have hG : ∀ c, reverseMul m q tx px py c = px0 c + ∑ i ∈ Finset.Ico 0 m, ∑ k ∈ Finset.range q,
      ∑ d ∈ Finset.Ico 0 (k + 1), ((if c = i * q + (k - d) then py (i * q + k) * tx ((m + i) * q + d) else 0)
        + if c = (m + i) * q + d then py (i * q + k) * tx (i * q + (k - d)) else 0) := by
    intro c
    unfold reverseMul
    rw [← hpx0]
    refine forRange_additive px0 _ (fun i c => ∑ k ∈ Finset.range q,
      ∑ d ∈ Finset.Ico 0 (k + 1), ((if c = i * q + (k - d) then py (i * q + k) * tx ((m + i) * q + d) else 0)
        + if c = (m + i) * q + d then py (i * q + k) * tx (i * q + (k - d)) else 0)) (fun i v c _ _ => ?_) c
    refine forDown0_additive v _ (fun k c => ∑ d ∈ Finset.Ico 0 (k + 1),
        ((if c = i * q + (k - d) then py (i * q + k) * tx ((m + i) * q + d) else 0)
        + if c = (m + i) * q + d then py (i * q + k) * tx (i * q + (k - d)) else 0)) (fun k v c _ => ?_) c
    refine forRange_additive v _ (fun d c => ((if c = i * q + (k - d) then py (i * q + k) * tx ((m + i) * q + d) else 0)
        + if c = (m + i) * q + d then py (i * q + k) * tx (i * q + (k - d)) else 0)) (fun d v c _ _ => ?_) c
    simp only [azmul_eq]
    show vadd (vadd v (i * q + (k - d)) (py (i * q + k) * tx ((m + i) * q + d))) ((m + i) * q + d)
      (py (i * q + k) * tx (i * q + (k - d))) c = _
    rw [vadd_apply, vadd_apply, add_assoc]
  constructor
  · rw [hG, hz i (by omega) k hk, zero_add, Finset.sum_eq_single i]
    · refine Finset.sum_congr rfl fun l hl => ?_
      rw [Finset.mem_range] at hl
      by_cases hkl : k ≤ l
      · rw [if_pos hkl, Finset.sum_eq_single (l - k)]
        · rw [if_pos (by congr 1; omega), if_neg, add_zero]
          intro h; have := (idx_inj hk (by omega) h).1; omega
        · intro d hd hne
          rw [Finset.mem_Ico] at hd
          rw [if_neg (fun h => by have := (idx_inj hk (by omega) h).2; omega),
            if_neg (fun h => by have := (idx_inj hk (by omega) h).1; omega), add_zero]
        · intro h; exact absurd (Finset.mem_Ico.2 ⟨Nat.zero_le _, by omega⟩) h
      · rw [if_neg hkl, mul_zero]
        refine Finset.sum_eq_zero fun d hd => ?_
        rw [Finset.mem_Ico] at hd
        rw [if_neg (fun h => by have := (idx_inj hk (by omega) h).2; omega),
            if_neg (fun h => by have := (idx_inj hk (by omega) h).1; omega), add_zero]
    · intro i' hi' hne
      refine Finset.sum_eq_zero fun l hl => Finset.sum_eq_zero fun d hd => ?_
      rw [Finset.mem_Ico] at hd
      rw [Finset.mem_range] at hl
      rw [if_neg (fun h => by have := (idx_inj hk (by omega) h).1; omega),
            if_neg (fun h => by have := (idx_inj hk (by omega) h).1; omega), add_zero]
    · intro h; exact absurd (Finset.mem_Ico.2 ⟨Nat.zero_le _, hi⟩) h
  · rw [hG, hz (m + i) (by omega) k hk, zero_add, Finset.sum_eq_single i]
    · refine Finset.sum_congr rfl fun l hl => ?_
      rw [Finset.mem_range] at hl
      by_cases hkl : k ≤ l
      · rw [if_pos hkl, Finset.sum_eq_single k]
        · rw [if_neg (fun h => by have := (idx_inj hk (by omega) h).1; omega), if_pos rfl, zero_add]
        · intro d hd hne
          rw [Finset.mem_Ico] at hd
          rw [if_neg (fun h => by have := (idx_inj hk (by omega) h).1; omega),
            if_neg (fun h => by have := (idx_inj hk (by omega) h).2; omega), add_zero]
        · intro h; exact absurd (Finset.mem_Ico.2 ⟨Nat.zero_le _, by omega⟩) h
      · rw [if_neg hkl, mul_zero]
        refine Finset.sum_eq_zero fun d hd => ?_
        rw [Finset.mem_Ico] at hd
        rw [if_neg (fun h => by have := (idx_inj hk (by omega) h).1; omega),
            if_neg (fun h => by have := (idx_inj hk (by omega) h).2; omega), add_zero]
    · intro i' hi' hne
      rw [Finset.mem_Ico] at hi'
      refine Finset.sum_eq_zero fun l hl => Finset.sum_eq_zero fun d hd => ?_
      rw [Finset.mem_Ico] at hd
      rw [Finset.mem_range] at hl
      rw [if_neg (fun h => by have := (idx_inj hk (by omega) h).1; omega),
            if_neg (fun h => by have := (idx_inj hk (by omega) h).1; omega), add_zero]
    · intro h; exact absurd (Finset.mem_Ico.2 ⟨Nat.zero_le _, hi⟩) h

/-- one step of the loop over orders in `reverse_div` -/
theorem divStep (m q : ℕ) (tx ty : ℕ → ℝ) {i k : ℕ} (hi : i < m) (hk : k < q) (s : (ℕ → ℝ) × (ℕ → ℝ)) :
    let scaled := s.2 (i * q + k) / tx ((i + m) * q + 0)
    let s1 := forRange 1 (k + 1) s fun d (s : (ℕ → ℝ) × (ℕ → ℝ)) =>
        (vset s.1 ((i + m) * q + d) (s.1 ((i + m) * q + d) - scaled * ty (i * q + (k - d))),
         vset s.2 (i * q + (k - d)) (s.2 (i * q + (k - d)) - scaled * tx ((i + m) * q + d)))
    let px := vset s1.1 (i * q + k) scaled
    let px' := vset px ((i + m) * q + 0) (px ((i + m) * q + 0) - scaled * ty (i * q + k))
    px' (i * q + k) = scaled ∧ (∀ a l, l < q → (a ≠ i ∨ l ≠ k) → a ≠ i + m → px' (a * q + l) = s.1 (a * q + l)) ∧
    (∀ l < q, px' ((i + m) * q + l) = s.1 ((i + m) * q + l) - if l ≤ k then scaled * ty (i * q + (k - l)) else 0) ∧
    (∀ l < q, s1.2 (i * q + l) = s.2 (i * q + l) - if l < k then scaled * tx ((i + m) * q + (k - l)) else 0) ∧
    (∀ a l, l < q → a ≠ i → s1.2 (a * q + l) = s.2 (a * q + l)) := by
  intro scaled s1 px px'
  have e1 : s1 = (forRange 1 (k + 1) s.1 fun d v => vadd v ((i + m) * q + d) (-(scaled * ty (i * q + (k - d)))),
      forRange 1 (k + 1) s.2 fun d v => vadd v (i * q + (k - d)) (-(scaled * tx ((i + m) * q + d)))) := by
    rw [← forRange_pair]
    simp only [vadd, ← sub_eq_add_neg]
    rfl
  have h1 : ∀ c, s1.1 c = s.1 c + ∑ d ∈ Finset.Ico 1 (k + 1),
      if c = (i + m) * q + d then -(scaled * ty (i * q + (k - d))) else 0 := by
    intro c
    rw [e1]
    exact forRange_additive s.1 (fun d v => vadd v ((i + m) * q + d) (-(scaled * ty (i * q + (k - d)))))
      (fun d c => if c = (i + m) * q + d then -(scaled * ty (i * q + (k - d))) else 0) (fun d v c _ _ => vadd_apply _ _ _ _) c
  have h2 : ∀ c, s1.2 c = s.2 c + ∑ d ∈ Finset.Ico 1 (k + 1),
      if c = i * q + (k - d) then -(scaled * tx ((i + m) * q + d)) else 0 := by
    intro c
    rw [e1]
    exact forRange_additive s.2 (fun d v => vadd v (i * q + (k - d)) (-(scaled * tx ((i + m) * q + d))))
      (fun d c => if c = i * q + (k - d) then -(scaled * tx ((i + m) * q + d)) else 0) (fun d v c _ _ => vadd_apply _ _ _ _) c
  refine ⟨?_, ?_, ?_, ?_, ?_⟩
  · rw [show px' = vset px ((i + m) * q + 0) (px ((i + m) * q + 0) - scaled * ty (i * q + k)) from rfl,
      vset_ne _ _ (fun h => by have := (idx_inj hk (by omega) h).1; omega)]
    exact vset_self _ _ _
  · intro a l hl hne hne'
    rw [show px' = vset px ((i + m) * q + 0) (px ((i + m) * q + 0) - scaled * ty (i * q + k)) from rfl,
      vset_ne _ _ (fun h => by have := (idx_inj hl (by omega) h).1; omega),
      show px = vset s1.1 (i * q + k) scaled from rfl, vset_ne _ _ (fun h => by have := idx_inj hl hk h; omega), h1,
      Finset.sum_eq_zero, add_zero]
    intro d hd
    rw [Finset.mem_Ico] at hd
    rw [if_neg (fun h => by have := (idx_inj hl (by omega) h).1; omega)]
  · intro l hl
    have hp : ∀ l < q, px ((i + m) * q + l) = s1.1 ((i + m) * q + l) := fun l hl => by
      rw [show px = vset s1.1 (i * q + k) scaled from rfl, vset_ne _ _ (fun h => by have := idx_inj hl hk h; omega)]
    rw [show px' = vset px ((i + m) * q + 0) (px ((i + m) * q + 0) - scaled * ty (i * q + k)) from rfl]
    by_cases e : l = 0
    · subst e
      rw [vset_self, hp 0 hl, h1, Finset.sum_eq_zero, if_pos (Nat.zero_le k), Nat.sub_zero, add_zero]
      intro d hd
      rw [Finset.mem_Ico] at hd
      rw [if_neg (fun h => by have := (idx_inj hl (by omega) h).2; omega)]
    · rw [vset_ne _ _ (fun h => by have := (idx_inj hl (by omega) h).2; omega), hp l hl, h1]
      by_cases hlk : l ≤ k
      · rw [if_pos hlk, Finset.sum_eq_single l, if_pos rfl, ← sub_eq_add_neg]
        · intro d hd hne
          rw [Finset.mem_Ico] at hd
          rw [if_neg (fun h => by have := (idx_inj hl (by omega) h).2; omega)]
        · intro h; exact absurd (Finset.mem_Ico.2 ⟨by omega, by omega⟩) h
      · rw [if_neg hlk, sub_zero, Finset.sum_eq_zero, add_zero]
        intro d hd
        rw [Finset.mem_Ico] at hd
        rw [if_neg (fun h => by have := (idx_inj hl (by omega) h).2; omega)]
  · intro l hl
    rw [h2]
    by_cases hlk : l < k
    · rw [if_pos hlk, Finset.sum_eq_single (k - l), if_pos (by congr 1; omega), ← sub_eq_add_neg]
      · intro d hd hne
        rw [Finset.mem_Ico] at hd
        rw [if_neg (fun h => by have := (idx_inj hl (by omega) h).2; omega)]
      · intro h; exact absurd (Finset.mem_Ico.2 ⟨by omega, by omega⟩) h
    · rw [if_neg hlk, sub_zero, Finset.sum_eq_zero, add_zero]
      intro d hd
      rw [Finset.mem_Ico] at hd
      rw [if_neg (fun h => by have := (idx_inj hl (by omega) h).2; omega)]
  · intro a l hl hne
    rw [h2, Finset.sum_eq_zero, add_zero]
    intro d hd
    rw [Finset.mem_Ico] at hd
    rw [if_neg (fun h => by have := (idx_inj hl (by omega) h).1; omega)]

theorem divBody_spec (m q : ℕ) (tx ty : ℕ → ℝ) {i k : ℕ} (hi : i < m) (hk : k < q) (s : (ℕ → ℝ) × (ℕ → ℝ)) :
    ∃ P S : ℕ → ℝ, divBody m q tx ty i k s = (P, S) ∧ P (i * q + k) = s.2 (i * q + k) / tx ((i + m) * q + 0) ∧
    (∀ a l, l < q → (a ≠ i ∨ l ≠ k) → a ≠ i + m → P (a * q + l) = s.1 (a * q + l)) ∧
    (∀ l < q, P ((i + m) * q + l) = s.1 ((i + m) * q + l)
      - if l ≤ k then s.2 (i * q + k) / tx ((i + m) * q + 0) * ty (i * q + (k - l)) else 0) ∧
    (∀ l < q, S (i * q + l) = s.2 (i * q + l)
      - if l < k then s.2 (i * q + k) / tx ((i + m) * q + 0) * tx ((i + m) * q + (k - l)) else 0) ∧
    (∀ a l, l < q → a ≠ i → S (a * q + l) = s.2 (a * q + l)) :=
  ⟨_, _, rfl, divStep m q tx ty hi hk s⟩

/-- what `reverse_div` computes for one row: `partial_u = w` solves the transposed equations and `partial_v` is the
product of `w` and `y` -/
def DivDone (m q : ℕ) (tx ty py px : ℕ → ℝ) (i K : ℕ) : Prop :=
  (∀ k, K ≤ k → k < q → ∑ l ∈ Finset.Ico k q, px (i * q + l) * tx ((i + m) * q + (l - k)) = py (i * q + k)) ∧
  ∀ k < q, px ((i + m) * q + k) = -∑ l ∈ Finset.Ico (max K k) q, px (i * q + l) * ty (i * q + (l - k))

theorem reverseDiv_val (m q : ℕ) (tx ty px py : ℕ → ℝ) (hv : ∀ i < m, tx ((i + m) * q + 0) ≠ 0) {i : ℕ} (hi : i < m) :
    DivDone m q tx ty py (reverseDiv m q tx ty px py) i 0 := by
  set px0 := forRange 0 m px fun i px => forRange 0 q px fun k px => vset px ((i + m) * q + k) 0 with hpx0
  have hz : ∀ i < m, ∀ k < q, px0 ((i + m) * q + k) = 0 := fun i hi k hk => fill_zero (m := m) m px hi hk
  show DivDone m q tx ty py (forRange 0 m (px0, py) fun i s => forDown0 q s (divBody m q tx ty i)).1 i 0
  have key := forRange_ind (s := (px0, py)) (f := fun i s => forDown0 q s (divBody m q tx ty i)) (Nat.zero_le m)
    (fun I s => (∀ i < I, DivDone m q tx ty py s.1 i 0) ∧ ∀ i, I ≤ i → i < m → ∀ k < q,
      s.2 (i * q + k) = py (i * q + k) ∧ s.1 ((i + m) * q + k) = 0)
    ⟨by intros; omega, fun i _ hi k hk => ⟨rfl, hz i hi k hk⟩⟩ ?_
  · exact key.1 i hi
  · rintro I s _ hI ⟨hd, hr⟩
    have row := forDown0_ind (n := q) (s := s) (f := divBody m q tx ty I)
      (fun K t => DivDone m q tx ty py t.1 I K ∧
        (∀ k < K, k < q → t.2 (I * q + k) = py (I * q + k)
          - ∑ l ∈ Finset.Ico K q, t.1 (I * q + l) * tx ((I + m) * q + (l - k))) ∧
        (∀ a l, l < q → a ≠ I → t.2 (a * q + l) = s.2 (a * q + l)) ∧
        ∀ a l, l < q → a ≠ I → a ≠ I + m → t.1 (a * q + l) = s.1 (a * q + l)) ?_ ?_
    · obtain ⟨r1, r2, r3, r4⟩ := row
      refine ⟨?_, ?_⟩
      · intro i hi
        by_cases e : i = I
        · subst e; exact r1
        · obtain ⟨d1, d2⟩ := hd i (by omega)
          refine ⟨?_, ?_⟩
          · intro k h1 hk
            rw [← d1 k h1 hk]
            refine Finset.sum_congr rfl fun l hl => ?_
            rw [Finset.mem_Ico] at hl
            rw [r4 _ _ (by omega) e (by omega)]
          · intro k hk
            rw [r4 _ _ hk (by omega) (by omega), d2 k hk]
            congr 1
            refine Finset.sum_congr rfl fun l hl => ?_
            rw [Finset.mem_Ico] at hl
            rw [r4 _ _ (by omega) e (by omega)]
      · intro i h1 h2 k hk
        rw [r3 _ _ hk (by omega), r4 _ _ hk (by omega) (by omega)]
        exact hr i (by omega) h2 k hk
    · refine ⟨⟨by intros; omega, ?_⟩, ?_, fun _ _ _ _ => rfl, fun _ _ _ _ _ => rfl⟩
      · intro k hk
        rw [(hr I le_rfl hI k hk).2, Finset.Ico_eq_empty (by omega)]; simp
      · intro k hk _
        rw [(hr I le_rfl hI k hk).1, Finset.Ico_eq_empty (by omega)]; simp
    · rintro K t hK ⟨⟨t1, t2⟩, t3, t4, t5⟩
      obtain ⟨P, S, e, a1, a2, a3, a4, a5⟩ := divBody_spec m q tx ty hI hK t
      rw [e]
      dsimp only
      set scaled := t.2 (I * q + K) / tx ((I + m) * q + 0) with hsc
      have keep : ∀ l, K < l → l < q → P (I * q + l) = t.1 (I * q + l) :=
        fun l h1 h2 => a2 I l h2 (Or.inr (by omega)) (by omega)
      have keepS : ∀ r : ℕ → ℝ, ∑ l ∈ Finset.Ico (K + 1) q, P (I * q + l) * r l
          = ∑ l ∈ Finset.Ico (K + 1) q, t.1 (I * q + l) * r l := by
        intro r
        refine Finset.sum_congr rfl fun l hl => ?_
        rw [Finset.mem_Ico] at hl
        rw [keep l (by omega) (by omega)]
      refine ⟨⟨?_, ?_⟩, ?_, ?_, ?_⟩
      · intro k h1 hk
        by_cases e : k = K
        · subst e
          rw [Finset.sum_eq_sum_Ico_succ_bot hk, a1, Nat.sub_self, hsc, div_mul_cancel₀ _ (hv I hI), t3 k (by omega) hk,
            keepS (fun l => tx ((I + m) * q + (l - k)))]
          ring
        · rw [← t1 k (by omega) hk]
          refine Finset.sum_congr rfl fun l hl => ?_
          rw [Finset.mem_Ico] at hl
          rw [keep l (by omega) (by omega)]
      · intro k hk
        rw [a3 k hk, t2 k hk]
        by_cases e : k ≤ K
        · rw [if_pos e, max_eq_left e, max_eq_left (by omega : k ≤ K + 1), Finset.sum_eq_sum_Ico_succ_bot hK, a1,
            keepS (fun l => ty (I * q + (l - k)))]
          ring
        · rw [if_neg e, max_eq_right (by omega), max_eq_right (by omega), sub_zero]
          congr 1
          refine Finset.sum_congr rfl fun l hl => ?_
          rw [Finset.mem_Ico] at hl
          rw [keep l (by omega) (by omega)]
      · intro k hk hk'
        rw [a4 k hk', if_pos hk, t3 k (by omega) hk', Finset.sum_eq_sum_Ico_succ_bot hK, a1,
            keepS (fun l => tx ((I + m) * q + (l - k)))]
        ring
      · intro a l hl hne
        rw [a5 a l hl hne, t4 a l hl hne]
      · intro a l hl hne hne'
        rw [a2 a l hl (Or.inl hne) hne', t5 a l hl hne hne']

end CppAD.AtomEx
