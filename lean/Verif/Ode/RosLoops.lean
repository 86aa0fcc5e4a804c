import Verif.Ode.RosCoef
import Verif.Ode.Rosen34
import Verif.Ode.RkRefine
import Mathlib.Analysis.Normed.Ring.Units
import Mathlib.LinearAlgebra.Matrix.ToLinearEquiv
import Mathlib.Analysis.Calculus.Deriv.Prod
import Mathlib.Analysis.Calculus.Deriv.Pi

/-! # The loops of `Rosen34` over the real numbers (property C68) -/

namespace CppAD.Rk

open scoped ContDiff

variable {n : ℕ}

theorem hasnan_false (v : ℕ → ℝ) (N : ℕ) : hasnan (fun _ => false) N v = false :=
  forRange_ind (Nat.zero_le N) (s := false) (f := fun i b => b || (fun _ => false) (v i)) (fun _ (b : Bool) => b = false) rfl
    (by intro L b _ _ ih; rw [ih]; rfl)

theorem row2_apply (c h : ℝ) (g : ℕ → ℝ) (l : ℕ) (x : ℕ → ℝ) (i : ℕ) :
    forRange 0 n x (fun i x => Function.update x i (x i + c * g (i * 3 + l) * h)) i =
      if i < n then x i + c * g (i * 3 + l) * h else x i := by
  have key := forRange_ind (Nat.zero_le n) (s := x)
    (f := fun i x => Function.update x i (x i + c * g (i * 3 + l) * h))
    (fun L (y : ℕ → ℝ) => ∀ i, y i = if i < L then x i + c * g (i * 3 + l) * h else x i) (by intro i; simp)
    (by
      intro L y _ hL ih i
      by_cases hi : i = L
      · subst hi
        rw [Function.update_self, ih]
        simp
      · rw [Function.update_of_ne hi, ih]
        have : (i < L + 1) ↔ (i < L) := by omega
        simp only [this])
  exact key i

theorem xloc_apply (w : ℕ → ℝ) (h : ℝ) (g xf : ℕ → ℝ) (k i : ℕ) (hi : i < n) :
    forRange 0 k xf (fun l x => forRange 0 n x fun i x => Function.update x i (x i + w l * g (i * 3 + l) * h)) i =
      xf i + ∑ l ∈ Finset.range k, w l * g (i * 3 + l) * h := by
  have key := forRange_ind (Nat.zero_le k) (s := xf)
    (f := fun l x => forRange 0 n x fun i x => Function.update x i (x i + w l * g (i * 3 + l) * h))
    (fun L (y : ℕ → ℝ) => ∀ i, i < n → y i = xf i + ∑ l ∈ Finset.range L, w l * g (i * 3 + l) * h)
    (by intro i _; simp)
    (by
      intro L y _ hL ih i hi
      rw [row2_apply, if_pos hi, ih i hi, Finset.sum_range_succ, add_assoc])
  exact key i hi

theorem rosEg_apply (k kk : ℕ) (h : ℝ) (fT ftmp g Eg : ℕ → ℝ) (i : ℕ) (hi : i < n) :
    rosEg re n k kk h fT ftmp g Eg i =
      ftmp i + re (rosCt k) * fT i * h + ∑ l ∈ Finset.range k, re (rosCg (kk * 3 + l)) * g (i * 3 + l) := by
  have h0 := forRange_ind (Nat.zero_le n) (s := Eg)
    (f := fun i Eg => Function.update Eg i (ftmp i + re (rosCt k) * fT i * h))
    (fun L (y : ℕ → ℝ) => ∀ i < L, y i = ftmp i + re (rosCt k) * fT i * h) (by intro i hi; omega)
    (by
      intro L y _ hL ih i hi
      by_cases e : i = L
      · subst e; exact Function.update_self _ _ _
      · rw [Function.update_of_ne e]; exact ih i (by omega))
  rw [rosEg]
  set Eg1 := forRange 0 n Eg (fun i Eg => Function.update Eg i (ftmp i + re (rosCt k) * fT i * h)) with hE
  have key := forRange_ind (Nat.zero_le k) (s := Eg1)
    (f := fun l Eg => forRange 0 n Eg fun i Eg => Function.update Eg i (Eg i + re (rosCg (kk * 3 + l)) * g (i * 3 + l)))
    (fun L (y : ℕ → ℝ) => ∀ i, i < n → y i = Eg1 i + ∑ l ∈ Finset.range L, re (rosCg (kk * 3 + l)) * g (i * 3 + l))
    (by intro i _; simp)
    (by
      intro L y _ hL ih i hi
      have r := row2_apply (n := n) (re (rosCg (kk * 3 + L))) 1 g L y i
      simp only [mul_one] at r
      rw [r, if_pos hi, ih i hi, Finset.sum_range_succ, add_assoc])
  have := key i hi
  rw [h0 i hi] at this
  exact this

theorem rosE_apply (h : ℝ) (fx : ℕ → ℝ) (i j : Fin n) :
    rosE n (re 2) h fx (i * n + j) = (if i = j then 1 else 0) - h / 2 * fx (i * n + j) := by
  have inner : ∀ (r : ℕ) (E : ℕ → ℝ) (L : ℕ), L ≤ n → ∀ q, forRange 0 L E (fun j E =>
      Function.update E (r * n + j) (-E (r * n + j) * h / re 2)) q =
        if r * n ≤ q ∧ q < r * n + L then -E q * h / re 2 else E q := by
    intro r E L hL
    exact forRange_ind (Nat.zero_le L) (s := E) (f := fun j E => Function.update E (r * n + j) (-E (r * n + j) * h / re 2))
      (fun L (y : ℕ → ℝ) => ∀ q, y q = if r * n ≤ q ∧ q < r * n + L then -E q * h / re 2 else E q)
      (by intro q; rw [if_neg (by omega)])
      (by
        intro L y _ _ ih q
        by_cases e : q = r * n + L
        · subst e
          rw [Function.update_self, ih, if_neg (by omega), if_pos (by omega)]
        · rw [Function.update_of_ne e, ih]
          have : (r * n ≤ q ∧ q < r * n + (L + 1)) ↔ (r * n ≤ q ∧ q < r * n + L) := by omega
          simp only [this])
  have key := forRange_ind (Nat.zero_le n) (s := fx)
    (f := fun i E =>
      Function.update (forRange 0 n E fun j E => Function.update E (i * n + j) (-E (i * n + j) * h / re 2)) (i * n + i)
        ((forRange 0 n E fun j E => Function.update E (i * n + j) (-E (i * n + j) * h / re 2)) (i * n + i) + 1))
    (fun L (y : ℕ → ℝ) => (∀ r < L, ∀ c < n, y (r * n + c) = (if r = c then 1 else 0) - h / 2 * fx (r * n + c)) ∧
      ∀ r, L ≤ r → ∀ c < n, y (r * n + c) = fx (r * n + c))
    ⟨by intro r hr; omega, fun _ _ _ _ => rfl⟩
    (by
      intro L y _ hL ih
      have idx : ∀ r c q d : ℕ, c < n → d < n → r * n + c = q * n + d → r = q ∧ c = d := by
        intro r c q d hc hd he
        have h1 : (r * n + c) / n = (q * n + d) / n := by rw [he]
        have hn : 0 < n := by omega
        rw [mul_comm r n, mul_comm q n, Nat.mul_add_div hn, Nat.mul_add_div hn, Nat.div_eq_of_lt hc, Nat.div_eq_of_lt hd] at h1
        simp only [add_zero] at h1
        subst h1
        exact ⟨rfl, by omega⟩
      have inn := inner L y n le_rfl
      have rng : ∀ r c : ℕ, c < n → ((L * n ≤ r * n + c ∧ r * n + c < L * n + n) ↔ r = L) := by
        intro r c hc
        constructor
        · rintro ⟨h1, h2⟩
          have : r * n + c = L * n + (r * n + c - L * n) := by omega
          exact (idx r c L (r * n + c - L * n) hc (by omega) this).1
        · rintro rfl; omega
      refine ⟨fun r hr c hc => ?_, fun r hr c hc => ?_⟩
      · by_cases e : r = L
        · subst e
          by_cases e2 : r = c
          · subst e2
            rw [Function.update_self, inn, if_pos ((rng r r hc).2 rfl), ih.2 r le_rfl r hc, if_pos rfl]
            simp only [re]; push_cast; ring
          · rw [Function.update_of_ne (by omega), inn, if_pos ((rng r c hc).2 rfl), ih.2 r le_rfl c hc, if_neg e2]
            simp only [re]; push_cast; ring
        · have hne : r * n + c ≠ L * n + L := fun he => e (idx r c L L hc hL he).1
          rw [Function.update_of_ne hne, inn, if_neg (fun hh => e ((rng r c hc).1 hh))]
          exact ih.1 r (by omega) c hc
      · have e : r ≠ L := by omega
        have hne : r * n + c ≠ L * n + L := fun he => e (idx r c L L hc hL he).1
        rw [Function.update_of_ne hne, inn, if_neg (fun hh => e ((rng r c hc).1 hh))]
        exact ih.2 r (by omega) c hc)
  have := key.1 i i.2 j j.2
  simp only [Fin.val_inj] at this
  exact this

theorem store3_apply (Eg : ℕ → ℝ) (h d3 d4 : ℝ) (k : ℕ) (hk : k < 3) (g x3 x4 : ℕ → ℝ) :
    let w := forRange 0 n (g, x3, x4) fun i w =>
      (Function.update w.1 (i * 3 + k) (Eg i), Function.update w.2.1 i (w.2.1 i + h * d3 * Eg i),
        Function.update w.2.2 i (w.2.2 i + h * d4 * Eg i))
    (∀ i < n, w.1 (i * 3 + k) = Eg i) ∧ (∀ i < n, ∀ l < 3, l ≠ k → w.1 (i * 3 + l) = g (i * 3 + l)) ∧
    (∀ i < n, w.2.1 i = x3 i + h * d3 * Eg i) ∧ (∀ i < n, w.2.2 i = x4 i + h * d4 * Eg i) := by
  intro w
  have key := forRange_ind (Nat.zero_le n) (s := (g, x3, x4)) (f := fun i w =>
      (Function.update w.1 (i * 3 + k) (Eg i), Function.update w.2.1 i (w.2.1 i + h * d3 * Eg i),
        Function.update w.2.2 i (w.2.2 i + h * d4 * Eg i)))
    (fun L (v : (ℕ → ℝ) × (ℕ → ℝ) × (ℕ → ℝ)) => (∀ i < L, v.1 (i * 3 + k) = Eg i) ∧
      (∀ i, ∀ l < 3, l ≠ k → v.1 (i * 3 + l) = g (i * 3 + l)) ∧
      (∀ i, v.2.1 i = if i < L then x3 i + h * d3 * Eg i else x3 i) ∧
      (∀ i, v.2.2 i = if i < L then x4 i + h * d4 * Eg i else x4 i))
    ⟨by intro i hi; omega, fun _ _ _ _ => rfl, by intro i; simp, by intro i; simp⟩
    (by
      rintro L ⟨v1, v2, v3⟩ _ hL ⟨i1, i2, i3, i4⟩
      refine ⟨fun i hi => ?_, fun i l hl hlk => ?_, fun i => ?_, fun i => ?_⟩
      · show Function.update v1 _ _ _ = _
        by_cases e : i = L
        · subst e; exact Function.update_self _ _ _
        · rw [Function.update_of_ne (by omega)]
          exact i1 i (by omega)
      · show Function.update v1 _ _ _ = _
        rw [Function.update_of_ne (by omega)]
        exact i2 i l hl hlk
      · show Function.update v2 _ _ _ = _
        by_cases e : i = L
        · subst e
          rw [Function.update_self, i3 i]; simp
        · rw [Function.update_of_ne e, show v2 i = _ from i3 i]
          have : (i < L + 1) ↔ (i < L) := by omega
          simp only [this]
      · show Function.update v3 _ _ _ = _
        by_cases e : i = L
        · subst e
          rw [Function.update_self, i4 i]; simp
        · rw [Function.update_of_ne e, show v3 i = _ from i4 i]
          have : (i < L + 1) ↔ (i < L) := by omega
          simp only [this])
  obtain ⟨k1, k2, k3, k4⟩ := key
  exact ⟨k1, fun i _ => k2 i, fun i hi => by rw [k3 i, if_pos hi], fun i hi => by rw [k4 i, if_pos hi]⟩

/-! ## the linear equation -/

/-- *Specification*: `fT` and `fX` return the partial derivatives of `F` -/
structure IsJac (F : ℝ → (Fin n → ℝ) → Fin n → ℝ) (fT fX : ℝ → (ℕ → ℝ) → ℕ → ℝ) : Prop where
  t : ∀ (t : ℝ) (x : ℕ → ℝ) (i : Fin n), fT t x i = deriv (fun s => F s (res n x) i) t
  x : ∀ (t : ℝ) (x : ℕ → ℝ) (i j : Fin n),
    fX t x (i * n + j) = deriv (fun y => F t (Function.update (res n x) j y) i) (x j)

/-- what `Rosen34` uses, for real numbers -/
noncomputable def realEnv (n : ℕ) (F : ℝ → (Fin n → ℝ) → Fin n → ℝ) (fT fX : ℝ → (ℕ → ℝ) → ℕ → ℝ) (ip0 jp0 : ℕ → ℕ)
    (x0 : ℕ → ℝ) : Env ℝ ((ℕ → ℕ) × (ℕ → ℕ) × (ℕ → ℝ) × ℤ) where
  ofQ := re
  isnan := fun _ => false
  nan := 0
  neg := fun x => decide (x < 0)
  fac := fun A => Lu.luFactor Lu.absGeq n ip0 jp0 A
  inv := fun L B => Lu.luInvert n 1 L.1 L.2.1 L.2.2.1 B x0
  f := ode n F
  fT := fT
  fX := fX

variable {F : ℝ → (Fin n → ℝ) → Fin n → ℝ} (hF : ContDiff ℝ ∞ fun p : ℝ × (Fin n → ℝ) => F p.1 p.2)
include hF

theorem auto_smooth' : ContDiff ℝ ∞ (auto F) := contDiff_const.prodMk hF

theorem jac_apply {fT fX : ℝ → (ℕ → ℝ) → ℕ → ℝ} (hJ : IsJac F fT fX) (t : ℝ) (xf : ℕ → ℝ) (τ : ℝ) (g : Fin n → ℝ) :
    (G1 (auto F) (t, res n xf) (τ, g)).1 = 0 ∧
    ∀ i : Fin n, (G1 (auto F) (t, res n xf) (τ, g)).2 i = τ * fT t xf i + ∑ j : Fin n, g j * fX t xf (i * n + j) := by
  have hd : HasFDerivAt (auto F) (G1 (auto F) (t, res n xf)) (t, res n xf) :=
    (((auto_smooth' hF).differentiable (by simp)) _).hasFDerivAt
  constructor
  · have h1 : HasFDerivAt (fun z => (auto F z).1) ((ContinuousLinearMap.fst ℝ ℝ (Fin n → ℝ)).comp (G1 (auto F) (t, res n xf)))
        (t, res n xf) := (ContinuousLinearMap.fst ℝ ℝ (Fin n → ℝ)).hasFDerivAt.comp _ hd
    have h2 : HasFDerivAt (fun z => (auto F z).1) (0 : ℝ × (Fin n → ℝ) →L[ℝ] ℝ) (t, res n xf) := hasFDerivAt_const _ _
    have := h1.unique h2
    exact congrArg (fun L : ℝ × (Fin n → ℝ) →L[ℝ] ℝ => L (τ, g)) this
  · intro i
    have e1 : G1 (auto F) (t, res n xf) (τ, g) = τ • G1 (auto F) (t, res n xf) (1, 0) +
        ∑ j : Fin n, g j • G1 (auto F) (t, res n xf) (0, Pi.single j 1) := by
      have : ((τ, g) : ℝ × (Fin n → ℝ)) = τ • ((1, 0) : ℝ × (Fin n → ℝ)) + ∑ j : Fin n, g j • ((0, Pi.single j 1) : ℝ × (Fin n → ℝ)) := by
        refine Prod.ext ?_ ?_
        · simp [Prod.fst_sum]
        · simp only [Prod.snd_add, Prod.smul_snd, smul_zero, zero_add, Prod.snd_sum]
          funext i
          simp [Finset.sum_apply, Pi.single_apply]
      rw [this, map_add, map_smul, map_sum]
      simp only [map_smul]
    have snd_i : ∀ w : ℝ × (Fin n → ℝ), ∀ c : ℝ → ℝ × (Fin n → ℝ), ∀ s0 : ℝ, c s0 = (t, res n xf) → HasDerivAt c w s0 →
        HasDerivAt (fun s => F (c s).1 (c s).2 i) ((G1 (auto F) (t, res n xf) w).2 i) s0 := by
      intro w c s0 hc hcd
      rw [← hc] at hd ⊢
      have h1 := hd.comp_hasDerivAt s0 hcd
      have h2 := (ContinuousLinearMap.snd ℝ ℝ (Fin n → ℝ)).hasFDerivAt.comp_hasDerivAt s0 h1
      exact hasDerivAt_pi.1 h2 i
    have eT : (G1 (auto F) (t, res n xf) (1, 0)).2 i = fT t xf i := by
      rw [hJ.t]
      exact (snd_i (1, 0) (fun s => (s, res n xf)) t rfl (HasDerivAt.prodMk (hasDerivAt_id' t) (hasDerivAt_const _ _))).deriv.symm
    have eX : ∀ j : Fin n, (G1 (auto F) (t, res n xf) (0, Pi.single j 1)).2 i = fX t xf (i * n + j) := by
      intro j
      rw [hJ.x]
      refine (snd_i (0, Pi.single j 1) (fun y => (t, Function.update (res n xf) j y)) (xf j) ?_
        (HasDerivAt.prodMk (hasDerivAt_const _ _) (hasDerivAt_update _ _ _))).deriv.symm
      show (t, Function.update (res n xf) j (res n xf j)) = _
      rw [Function.update_eq_self]
    rw [e1]
    show τ * (G1 (auto F) (t, res n xf) (1, 0)).2 i + (∑ j : Fin n, g j • G1 (auto F) (t, res n xf) (0, Pi.single j 1)).2 i = _
    rw [eT, Prod.snd_sum, Finset.sum_apply]
    congr 1
    refine Finset.sum_congr rfl fun j _ => ?_
    show g j * (G1 (auto F) (t, res n xf) (0, Pi.single j 1)).2 i = _
    rw [eX]

/-- the linear operator of the method -/
noncomputable def opE (F : ℝ → (Fin n → ℝ) → Fin n → ℝ) (h : ℝ) (z : ℝ × (Fin n → ℝ)) :
    ℝ × (Fin n → ℝ) →L[ℝ] ℝ × (Fin n → ℝ) := 1 - (h / 2) • G1 (auto F) z

/-- `LuFactor` and `LuInvert` solve the equation -/
theorem solve_code {fT fX : ℝ → (ℕ → ℝ) → ℕ → ℝ} (hJ : IsJac F fT fX) (ip0 jp0 : ℕ → ℕ) (x0 : ℕ → ℝ) (t h : ℝ) (xf : ℕ → ℝ)
    (hU : IsUnit (opE F h (t, res n xf))) (Eg : ℕ → ℝ) (r : ℝ × (Fin n → ℝ))
    (hr : ∀ i : Fin n, Eg i = r.2 i + h / 2 * (r.1 * fT t xf i)) :
    let v := realEnv n F fT fX ip0 jp0 x0
    Ring.inverse (opE F h (t, res n xf)) r = (r.1, res n (v.inv (v.fac (rosE n (re 2) h (fX t xf))) Eg)) := by
  intro v
  set A := rosE n (re 2) h (fX t xf) with hA
  set g := v.inv (v.fac A) Eg with hg
  have app : ∀ (τ : ℝ) (g : Fin n → ℝ), (opE F h (t, res n xf) (τ, g)).1 = τ ∧
      ∀ i : Fin n, (opE F h (t, res n xf) (τ, g)).2 i =
        ∑ j : Fin n, A (i * n + j) * g j - h / 2 * (τ * fT t xf i) := by
    intro τ g
    obtain ⟨j1, j2⟩ := jac_apply hF hJ t xf τ g
    constructor
    · show τ - h / 2 * (G1 (auto F) (t, res n xf) (τ, g)).1 = τ
      rw [j1]; ring
    · intro i
      show g i - h / 2 * (G1 (auto F) (t, res n xf) (τ, g)).2 i = _
      rw [j2]
      have : ∀ j : Fin n, A (i * n + j) * g j = (if i = j then g j else 0) - h / 2 * (g j * fX t xf (i * n + j)) := by
        intro j
        rw [hA, rosE_apply]
        split_ifs <;> ring
      simp only [this, Finset.sum_sub_distrib, Finset.sum_ite_eq, Finset.mem_univ, if_true, ← Finset.mul_sum]
      ring
  have hinj : ∀ w, opE F h (t, res n xf) w = 0 → w = 0 := by
    intro w hw
    have := congrArg (fun L : ℝ × (Fin n → ℝ) →L[ℝ] ℝ × (Fin n → ℝ) => L w) (Ring.inverse_mul_cancel _ hU)
    have h2 : Ring.inverse (opE F h (t, res n xf)) (opE F h (t, res n xf) w) = w := this
    rw [hw, map_zero] at h2
    exact h2.symm
  have hdet : (Lu.mat n n A).det ≠ 0 := by
    intro h0
    obtain ⟨w, hw0, hw⟩ := Matrix.exists_mulVec_eq_zero_iff.2 h0
    have : opE F h (t, res n xf) (0, w) = 0 := by
      refine Prod.ext (app 0 w).1 (funext fun i => ?_)
      rw [(app 0 w).2 i]
      have := congrFun hw i
      rw [Matrix.mulVec, dotProduct] at this
      simp only [Lu.mat] at this
      rw [this]
      simp
    exact hw0 (congrArg Prod.snd (hinj _ this))
  have hsol : ∀ i : Fin n, ∑ j : Fin n, A (i * n + j) * g j = Eg i := by
    rcases Lu.luFactor_ok Lu.absGeq_ok n ip0 jp0 A with h1 | ⟨σ, τ, hf, _, _⟩
    · exact absurd h1.2 hdet
    · have h2 := Lu.luInvert_ok hf 1 Eg x0
      intro i
      have h3 := congrFun (congrFun h2 i) (0 : Fin 1)
      rw [Matrix.mul_apply] at h3
      have h4 : ∑ j : Fin n, A (i * n + j) * Lu.luInvert n 1 (Lu.luFactor Lu.absGeq n ip0 jp0 A).1
          (Lu.luFactor Lu.absGeq n ip0 jp0 A).2.1 (Lu.luFactor Lu.absGeq n ip0 jp0 A).2.2.1 Eg x0 j = Eg i := by
        simpa [Lu.mat] using h3
      exact h4
  have e : opE F h (t, res n xf) (r.1, res n g) = r := by
    refine Prod.ext (app r.1 (res n g)).1 (funext fun i => ?_)
    rw [(app r.1 (res n g)).2 i]
    have := hsol i
    simp only [res]
    rw [this, hr i]
    ring
  have := congrArg (fun L : ℝ × (Fin n → ℝ) →L[ℝ] ℝ × (Fin n → ℝ) => L (r.1, res n g)) (Ring.inverse_mul_cancel _ hU)
  have h2 : Ring.inverse (opE F h (t, res n xf)) (opE F h (t, res n xf) (r.1, res n g)) = (r.1, res n g) := this
  rw [e] at h2
  exact h2

end CppAD.Rk
