import Verif.AbsOpt.Slope
import Verif.AbsOpt.Box

/-!
# `abs_min_linear` minimizes the abs-normal approximation
-/

namespace CppAD.AbsOpt

open CppAD.AtomEx (forRange_assign)

/-- *Specification*: a solver of linear programs with `N` variables that does not fail, and whose results are solutions when it returns true -/
def LpOk (N : ℕ) (lp : LpSolver) : Prop :=
  ∀ k A b c d, ∃ ok x, lp k A b c d = some (ok, x) ∧ (ok = true → SolvesBox k N A b c d x)

theorem boxSolver_ok (n maxitr : ℕ) (nan : ℝ) (junk : ℕ → ℝ) : LpOk (n + 1) (boxSolver n maxitr nan junk) :=
  fun k A b c d => lpBox_ok k (n + 1) A b c d maxitr nan junk junk junk junk junk

theorem cutA_ok (n k : ℕ) (C c junk : ℕ → ℝ) :
    (∀ i < k, (∀ j < n, (cutA n k C c junk).1 (i * (n + 1) + j) = C (i * n + j)) ∧ (cutA n k C c junk).1 (i * (n + 1) + n) = -1) ∧
    ∀ i < k, (cutA n k C c junk).2 i = c i := by
  unfold cutA
  refine forRange_ind (s := (junk, junk)) (Nat.zero_le k) (fun K t => (∀ i < K, (∀ j < n, t.1 (i * (n + 1) + j) = C (i * n + j)) ∧ t.1 (i * (n + 1) + n) = -1) ∧
    ∀ i < K, t.2 i = c i) ⟨by intros; omega, by intros; omega⟩ ?_
  rintro K t _ _ ⟨h1, h2⟩
  dsimp only
  have hrow := assign_off n (K * (n + 1)) t.1 (fun j => C (K * n + j))
  refine ⟨fun i hi => ?_, fun i hi => ?_⟩
  · by_cases e : i = K
    · subst e
      refine ⟨fun j hj => ?_, by rw [Function.update_self]⟩
      rw [Function.update_of_ne (by omega)]
      exact (hrow _).1 j hj rfl
    · have hlt : i * (n + 1) + n < K * (n + 1) := by
        calc i * (n + 1) + n < i * (n + 1) + (n + 1) := by omega
          _ = (i + 1) * (n + 1) := by ring
          _ ≤ K * (n + 1) := Nat.mul_le_mul_right _ (by omega)
      obtain ⟨i1, i2⟩ := h1 i (by omega)
      refine ⟨fun j hj => ?_, ?_⟩
      · rw [Function.update_of_ne (by omega), (hrow _).2 (Or.inl (by omega))]
        exact i1 j hj
      · rw [Function.update_of_ne (by omega), (hrow _).2 (Or.inl (by omega))]
        exact i2
  · by_cases e : i = K
    · subst e; rw [Function.update_self]
    · rw [Function.update_of_ne e]; exact h2 i (by omega)

theorem cutC_ok (n : ℕ) (junk x : ℕ → ℝ) : cost (n + 1) (cutC n junk) x = x n := by
  unfold cost cutC
  rw [Finset.sum_range_succ, Function.update_self, one_mul, Finset.sum_eq_zero, zero_add]
  intro j hj
  have hj' := Finset.mem_range.1 hj
  rw [Function.update_of_ne (by omega), forRange_assign (α := ℝ) junk (fun _ => 0) _ (fun _ _ _ => rfl) (show j < n + 1 by omega), zero_mul]

theorem cutD_ok (n : ℕ) (bound : ℕ → ℝ) : (∀ j < n, cutD n bound j = some (bound j)) ∧ cutD n bound n = none := by
  unfold cutD
  refine ⟨fun j hj => ?_, Function.update_self ..⟩
  rw [Function.update_of_ne (by omega)]
  exact forRange_assign (α := Option ℝ) _ (fun j => some (bound j)) _ (fun _ _ _ => rfl) hj

theorem cut_feasible (n k : ℕ) (C c junk bound x : ℕ → ℝ) :
    FeasibleBox k (n + 1) (cutA n k C c junk).1 (cutA n k C c junk).2 (cutD n bound) x ↔
      (∀ i < k, c i + ∑ j ∈ Finset.range n, C (i * n + j) * x j ≤ x n) ∧ InBox n bound x := by
  obtain ⟨h1, h2⟩ := cutA_ok n k C c junk
  obtain ⟨d1, d2⟩ := cutD_ok n bound
  have hrow : ∀ i < k, rowVal (n + 1) (cutA n k C c junk).1 (cutA n k C c junk).2 x i = c i + ∑ j ∈ Finset.range n, C (i * n + j) * x j - x n := by
    intro i hi
    unfold rowVal
    rw [Finset.sum_range_succ, (h1 i hi).2, h2 i hi]
    have : ∑ j ∈ Finset.range n, (cutA n k C c junk).1 (i * (n + 1) + j) * x j = ∑ j ∈ Finset.range n, C (i * n + j) * x j :=
      Finset.sum_congr rfl fun j hj => by rw [(h1 i hi).1 j (Finset.mem_range.1 hj)]
    rw [this]
    ring
  unfold FeasibleBox
  constructor
  · rintro ⟨f1, f2⟩
    refine ⟨fun i hi => ?_, fun j hj => ?_⟩
    · have := f1 i hi
      rw [hrow i hi] at this
      linarith
    · exact abs_le.2 (f2 j (by omega) _ (d1 j hj))
  · rintro ⟨f1, f2⟩
    refine ⟨fun i hi => ?_, fun j hj dj hd => ?_⟩
    · rw [hrow i hi]
      have := f1 i hi
      linarith
    · by_cases e : j = n
      · subst e; rw [d2] at hd; cases hd
      · rw [d1 j (by omega)] at hd
        cases hd
        exact abs_le.1 (f2 j (by omega))

theorem allLoop (n : ℕ) (P : ℕ → Prop) [DecidablePred P] : (forRange 0 n true fun j b => b && decide (P j)) = true ↔ ∀ j < n, P j := by
  refine forRange_ind (s := true) (f := fun j b => b && decide (P j)) (Nat.zero_le n) (fun K t => t = true ↔ ∀ j < K, P j) (by simp) ?_
  intro k t _ _ ih
  rw [Bool.and_eq_true, ih, decide_eq_true_iff]
  constructor
  · rintro ⟨h1, h2⟩ j hj
    by_cases e : j = k
    · subst e; exact h2
    · exact h1 j (by omega)
  · intro h
    exact ⟨fun j hj => h j (by omega), h k (by omega)⟩

theorem maxLoop (n : ℕ) (e : ℕ → ℝ) (b : ℝ) : (forRange 0 n (0 : ℝ) fun j a => max a |e j|) < b ↔ 0 < b ∧ ∀ j < n, |e j| < b := by
  refine forRange_ind (s := (0 : ℝ)) (f := fun j a => max a |e j|) (Nat.zero_le n) (fun K t => t < b ↔ 0 < b ∧ ∀ j < K, |e j| < b) (by simp) ?_
  intro k t _ _ ih
  rw [max_lt_iff, ih]
  constructor
  · rintro ⟨⟨h0, h1⟩, h2⟩
    refine ⟨h0, fun j hj => ?_⟩
    by_cases e : j = k
    · subst e; exact h2
    · exact h1 j (by omega)
  · rintro ⟨h0, h⟩
    exact ⟨⟨h0, fun j hj => h j (by omega)⟩, h k (by omega)⟩

theorem subLoop (N : ℕ) (a : ℝ) (f : ℕ → ℝ) : forRange 0 N a (fun i t => t - f i) = a - ∑ i ∈ Finset.range N, f i := by
  induction N with
  | zero => rw [forRange_of_le le_rfl]; simp
  | succ N ih => rw [forRange_succ (Nat.zero_le N), ih, Finset.sum_range_succ, sub_sub]

theorem sigmaOf_ok (s : ℕ) (gt sigma : ℕ → ℝ) : ∀ k < s, sigmaOf s gt sigma k = sgn (gt (1 + k)) :=
  fun _ hk => forRange_assign (α := ℝ) sigma (fun k => sgn (gt (1 + k))) _ (fun _ _ _ => rfl) hk

/-- what holds before every iteration; `P y` restricts the points at which the cutting planes are below `f` -/
structure CutInv (n s : ℕ) (g gj bound : ℕ → ℝ) (f : (ℕ → ℝ) → ℝ) (M : Prop) (k : ℕ) (t : Cut) : Prop where
  box : InBox n bound t.d
  approx : IsApprox n 1 s g gj t.d t.gt
  sigma : ∀ i < s, t.sigma i = sgn (t.gt (1 + i))
  planes : M → ∀ i < k, ∀ y, t.c i + ∑ j ∈ Finset.range n, t.C (i * n + j) * y j ≤ f y

/-- *Specification*: all the cutting planes at points of the trust region are below `f` -/
def Minorants (n s : ℕ) (g gj bound : ℕ → ℝ) (f : (ℕ → ℝ) → ℝ) : Prop :=
  ∀ d gt sigma p, InBox n bound d → IsApprox n 1 s g gj d gt → (∀ i < s, sigma i = sgn (gt (1 + i))) → IsSlope n s gj sigma p →
    ∀ y, f d + ∑ j ∈ Finset.range n, p j * (y j - d j) ≤ f y

/-- *Specification*: `d` is an approximate minimizer in the trust region: either all the components of a derivative at `d` are smaller than
`eps1`, or a point with distance less than `eps0` has almost the minimal value -/
def NearMin (n s : ℕ) (g gj bound : ℕ → ℝ) (f : (ℕ → ℝ) → ℝ) (eps0 eps1 : ℝ) (d : ℕ → ℝ) : Prop :=
  (∃ gt sigma p, IsApprox n 1 s g gj d gt ∧ (∀ i < s, sigma i = sgn (gt (1 + i))) ∧ IsSlope n s gj sigma p ∧ ∀ j < n, |p j| < eps1) ∨
  ∃ d' gt sigma p, InBox n bound d' ∧ (∀ j < n, |d' j - d j| < eps0) ∧ IsApprox n 1 s g gj d' gt ∧ (∀ i < s, sigma i = sgn (gt (1 + i))) ∧
    IsSlope n s gj sigma p ∧ (Minorants n s g gj bound f → ∀ y, InBox n bound y → f d' + ∑ j ∈ Finset.range n, p j * (d j - d' j) ≤ f y)

theorem cutStep_ok {n s : ℕ} {g gj bound : ℕ → ℝ} (ht : IsTri n 1 s gj) {f : (ℕ → ℝ) → ℝ} (hf : IsTilde n s g gj f)
    (eps0 eps1 : ℝ) {lp : LpSolver} (hlp : LpOk (n + 1) lp) (junk : ℕ → ℝ) (ip jp : ℕ → ℕ) {k : ℕ} {t : Cut}
    (h : CutInv n s g gj bound f (Minorants n s g gj bound f) k t) :
    ∃ u, cutStep n s g gj bound eps0 eps1 lp junk ip jp k t = some u ∧
      match u with
      | .stop ok d => InBox n bound d ∧ (ok = true → NearMin n s g gj bound f eps0 eps1 d)
      | .next t => CutInv n s g gj bound f (Minorants n s g gj bound f) (k + 1) t := by
  unfold cutStep
  dsimp only
  have hp := absSlope_ok ht junk ip jp t.sigma
  set p := absSlope n s gj junk ip jp t.sigma with hpd
  by_cases hz : (forRange 0 n true fun j b => b && decide (|p j| < eps1)) = true
  · rw [if_pos hz]
    exact ⟨_, rfl, h.box, fun _ => Or.inl ⟨t.gt, t.sigma, p, h.approx, h.sigma, hp, (allLoop n fun j => |p j| < eps1).1 hz⟩⟩
  · rw [if_neg hz, subLoop]
    set c := Function.update t.c k (t.gt 0 - ∑ j ∈ Finset.range n, p j * t.d j) with hc
    set C := forRange 0 n t.C fun j C => Function.update C (k * n + j) (p j) with hC
    have hCk : ∀ j < n, C (k * n + j) = p j := fun j hj => (assign_off n (k * n) t.C p _).1 j hj rfl
    have hCi : ∀ i < k, ∀ j < n, C (i * n + j) = t.C (i * n + j) := fun i hi j hj => (assign_off n (k * n) t.C p _).2 (Or.inl (by
      calc i * n + j < i * n + n := by omega
        _ = (i + 1) * n := by ring
        _ ≤ k * n := Nat.mul_le_mul_right _ (by omega)))
    have hfd : t.gt 0 = f t.d := by
      obtain ⟨gt', h1, h2⟩ := hf t.d
      rw [← h2]
      exact isApprox_unique ht (fun _ _ => rfl) h.approx h1 0 (by omega)
    have hck : ∀ y : ℕ → ℝ, c k + ∑ j ∈ Finset.range n, C (k * n + j) * y j = f t.d + ∑ j ∈ Finset.range n, p j * (y j - t.d j) := by
      intro y
      rw [hc, Function.update_self, hfd]
      have e1 : ∑ j ∈ Finset.range n, C (k * n + j) * y j = ∑ j ∈ Finset.range n, p j * y j :=
        Finset.sum_congr rfl fun j hj => by rw [hCk j (Finset.mem_range.1 hj)]
      have e2 : ∑ j ∈ Finset.range n, p j * (y j - t.d j) = ∑ j ∈ Finset.range n, p j * y j - ∑ j ∈ Finset.range n, p j * t.d j := by
        rw [← Finset.sum_sub_distrib]
        exact Finset.sum_congr rfl fun j _ => by ring
      rw [e1, e2]
      ring
    have hci : ∀ i < k, ∀ y : ℕ → ℝ, c i + ∑ j ∈ Finset.range n, C (i * n + j) * y j = t.c i + ∑ j ∈ Finset.range n, t.C (i * n + j) * y j := by
      intro i hi y
      rw [hc, Function.update_of_ne (by omega)]
      congr 1
      exact Finset.sum_congr rfl fun j hj => by rw [hCi i hi j (Finset.mem_range.1 hj)]
    have hpl : Minorants n s g gj bound f → ∀ i < k + 1, ∀ y, c i + ∑ j ∈ Finset.range n, C (i * n + j) * y j ≤ f y := by
      intro hM i hi y
      by_cases e : i = k
      · subst e
        rw [hck]
        exact hM t.d t.gt t.sigma p h.box h.approx h.sigma hp y
      · rw [hci i (by omega)]
        exact h.planes hM i (by omega) y
    obtain ⟨ok, x, hlpx, hsol⟩ := hlp (k + 1) (cutA n (k + 1) C c junk).1 (cutA n (k + 1) C c junk).2 (cutC n junk) (cutD n bound)
    rw [hlpx, Option.bind_some]
    dsimp only
    cases ok with
    | false =>
      rw [if_neg (by simp)]
      exact ⟨_, rfl, h.box, fun h => by cases h⟩
    | true =>
      rw [if_pos rfl]
      obtain ⟨hfe, hmin⟩ := hsol rfl
      rw [cut_feasible] at hfe
      obtain ⟨hpx, hbx⟩ := hfe
      set new := forRange 0 n junk fun j v => Function.update v j (x j) with hnew
      have hnx : ∀ j < n, new j = x j := fun j hj => forRange_assign (α := ℝ) junk x _ (fun _ _ _ => rfl) hj
      have hbn : InBox n bound new := fun j hj => by rw [hnx j hj]; exact hbx j hj
      obtain ⟨gnew, e1, e2⟩ := (absEval_ok n 1 s g gj new junk).1 ht
      rw [e1, Option.bind_some]
      by_cases hd : (forRange 0 n (0 : ℝ) fun j a => max a |t.d j - x j|) < eps0
      · rw [if_pos hd]
        refine ⟨_, rfl, hbn, fun _ => Or.inr ⟨t.d, t.gt, t.sigma, p, h.box, fun j hj => ?_, h.approx, h.sigma, hp, fun hM y hy => ?_⟩⟩
        · rw [hnx j hj]; exact ((maxLoop n _ eps0).1 hd).2 j hj
        · -- the value of the cutting plane problem is not greater than f y
          have h1 : x n ≤ f y := by
            have := hmin (Function.update y n (f y)) ((cut_feasible ..).2 ⟨fun i hi => ?_, fun j hj => ?_⟩)
            · rw [cutC_ok, cutC_ok, Function.update_self] at this
              exact this
            · rw [Function.update_self]
              have e : ∑ j ∈ Finset.range n, C (i * n + j) * Function.update y n (f y) j = ∑ j ∈ Finset.range n, C (i * n + j) * y j :=
                Finset.sum_congr rfl fun j hj => by
                  have := Finset.mem_range.1 hj
                  rw [Function.update_of_ne (by omega)]
              rw [e]
              exact hpl hM i hi y
            · rw [Function.update_of_ne (by omega)]; exact hy j hj
          have h2 := hpx k (by omega)
          rw [hck] at h2
          have e : ∑ j ∈ Finset.range n, p j * (new j - t.d j) = ∑ j ∈ Finset.range n, p j * (x j - t.d j) :=
            Finset.sum_congr rfl fun j hj => by rw [hnx j (Finset.mem_range.1 hj)]
          rw [e]
          linarith
      · rw [if_neg hd]
        exact ⟨_, rfl, ⟨hbn, e2, sigmaOf_ok s gnew t.sigma, hpl⟩⟩

theorem cutLoop_ok {n s : ℕ} {g gj bound : ℕ → ℝ} (ht : IsTri n 1 s gj) {f : (ℕ → ℝ) → ℝ} (hf : IsTilde n s g gj f)
    (eps0 eps1 : ℝ) {lp : LpSolver} (hlp : LpOk (n + 1) lp) (junk : ℕ → ℝ) (ip jp : ℕ → ℕ) (r : ℕ) : ∀ (k : ℕ) (t : Cut),
    CutInv n s g gj bound f (Minorants n s g gj bound f) k t →
    ∃ ok d, cutLoop n s g gj bound eps0 eps1 lp junk ip jp r k t = some (ok, d) ∧ InBox n bound d ∧ (ok = true → NearMin n s g gj bound f eps0 eps1 d) := by
  induction r with
  | zero => exact fun k t h => ⟨false, t.d, rfl, h.box, fun h => by cases h⟩
  | succ r ih =>
    intro k t h
    obtain ⟨u, e, hu⟩ := cutStep_ok ht hf eps0 eps1 hlp junk ip jp h
    unfold cutLoop
    rw [e, Option.bind_some]
    cases u with
    | stop ok d => exact ⟨ok, d, rfl, hu⟩
    | next t => exact ih (k + 1) t hu

/-- **C59.** `abs_min_linear` does not fail when there is an absolute value; its result is in the trust region; and when it returns true the
result is an approximate minimizer in the sense of the convergence criteria. -/
theorem absMinLinear_near {n s : ℕ} (hs : 0 < s) {g gj bound : ℕ → ℝ} (ht : IsTri n 1 s gj) (hb : ∀ j < n, 0 ≤ bound j) {f : (ℕ → ℝ) → ℝ}
    (hf : IsTilde n s g gj f) (eps0 eps1 : ℝ) {lp : LpSolver} (hlp : LpOk (n + 1) lp) (maxitr : ℕ) (junk : ℕ → ℝ) (ip jp : ℕ → ℕ) (dx : ℕ → ℝ) :
    ∃ ok d, absMinLinear lp n s g gj bound eps0 eps1 maxitr junk ip jp dx = some (ok, d) ∧ InBox n bound d ∧
      (ok = true → NearMin n s g gj bound f eps0 eps1 d) := by
  unfold absMinLinear
  dsimp only
  set d0 := forRange 0 n dx fun j v => Function.update v j 0 with hd0
  have h0 : ∀ j < n, d0 j = 0 := fun j hj => forRange_assign (α := ℝ) dx (fun _ => 0) _ (fun _ _ _ => rfl) hj
  obtain ⟨gt, e1, e2⟩ := (absEval_ok n 1 s g gj d0 junk).1 ht
  rw [e1, Option.bind_some, if_neg (by omega)]
  exact cutLoop_ok ht hf eps0 eps1 hlp junk ip jp maxitr 0 _ ⟨fun j hj => by change |d0 j| ≤ bound j; rw [h0 j hj, abs_zero]; exact hb j hj, e2, sigmaOf_ok s gt junk, by intros; omega⟩

/-- at points of the trust region an absolute value with argument zero is not in the argument of an absolute value -/
theorem minorants_of_convex {n s : ℕ} {g gj bound : ℕ → ℝ} (ht : IsTri n 1 s gj) {f : (ℕ → ℝ) → ℝ} (hf : IsTilde n s g gj f)
    (hcv : ConvexOn ℝ Set.univ f) (hnn : ∀ d gt, InBox n bound d → IsApprox n 1 s g gj d gt → NotNested n s gj gt) :
    Minorants n s g gj bound f :=
  fun d gt _ _ hd hgt hsg hp y => slope_minor ht hf hcv hgt hsg (hnn d gt hd hgt) hp y

theorem nearMin_le {n s : ℕ} {g gj bound : ℕ → ℝ} {f : (ℕ → ℝ) → ℝ} {eps0 eps1 : ℝ} {d : ℕ → ℝ} (hM : Minorants n s g gj bound f)
    (hd : InBox n bound d) (h : NearMin n s g gj bound f eps0 eps1 d) {K : ℝ} (hK : 0 ≤ K)
    (hL : ∀ a b, |f a - f b| ≤ K * ∑ j ∈ Finset.range n, |a j - b j|) (y : ℕ → ℝ) (hy : InBox n bound y) :
    f d ≤ f y + max (eps1 * ∑ j ∈ Finset.range n, |y j - d j|) (2 * K * n * eps0) := by
  rcases h with ⟨gt, sigma, p, h1, h2, h3, h4⟩ | ⟨d', gt, sigma, p, hb, hne, h1, h2, h3, h4⟩
  · have h5 := hM d gt sigma p hd h1 h2 h3 y
    have h6 : -(eps1 * ∑ j ∈ Finset.range n, |y j - d j|) ≤ ∑ j ∈ Finset.range n, p j * (y j - d j) := by
      rw [Finset.mul_sum, ← Finset.sum_neg_distrib]
      refine Finset.sum_le_sum fun j hj => ?_
      have h7 := neg_abs_le (p j * (y j - d j))
      rw [abs_mul] at h7
      have h8 := mul_le_mul_of_nonneg_right (h4 j (Finset.mem_range.1 hj)).le (abs_nonneg (y j - d j))
      linarith
    have := le_max_left (eps1 * ∑ j ∈ Finset.range n, |y j - d j|) (2 * K * n * eps0)
    linarith
  · have h5 := h4 hM y hy
    have hpK : ∀ j < n, |p j| ≤ K := by
      intro j hj
      have hsum : ∀ e : ℝ, ∑ i ∈ Finset.range n, p i * (Function.update d' j (d' j + e) i - d' i) = p j * e := by
        intro e
        rw [Finset.sum_eq_single j]
        · rw [Function.update_self]; ring
        · intro i _ hi
          rw [Function.update_of_ne hi]; ring
        · intro h; exact absurd (Finset.mem_range.2 hj) h
      have hdist : ∀ e : ℝ, ∑ i ∈ Finset.range n, |Function.update d' j (d' j + e) i - d' i| = |e| := by
        intro e
        rw [Finset.sum_eq_single j]
        · rw [Function.update_self]; congr 1; ring
        · intro i _ hi
          rw [Function.update_of_ne hi, sub_self, abs_zero]
        · intro h; exact absurd (Finset.mem_range.2 hj) h
      have key : ∀ e : ℝ, p j * e ≤ K * |e| := by
        intro e
        have k1 := hM d' gt sigma p hb h1 h2 h3 (Function.update d' j (d' j + e))
        have k2 := hL (Function.update d' j (d' j + e)) d'
        rw [hsum] at k1
        rw [hdist] at k2
        have := le_abs_self (f (Function.update d' j (d' j + e)) - f d')
        linarith
      have k1 := key 1
      have k2 := key (-1)
      rw [abs_neg] at k2
      rw [abs_one] at k1 k2
      exact abs_le.2 ⟨by linarith, by linarith⟩
    have hS : ∑ j ∈ Finset.range n, |d j - d' j| ≤ n * eps0 := by
      calc ∑ j ∈ Finset.range n, |d j - d' j| ≤ ∑ _j ∈ Finset.range n, eps0 :=
            Finset.sum_le_sum fun j hj => by rw [abs_sub_comm]; exact (hne j (Finset.mem_range.1 hj)).le
        _ = n * eps0 := by rw [Finset.sum_const, Finset.card_range, nsmul_eq_mul]
    have h6 : -(K * ∑ j ∈ Finset.range n, |d j - d' j|) ≤ ∑ j ∈ Finset.range n, p j * (d j - d' j) := by
      rw [Finset.mul_sum, ← Finset.sum_neg_distrib]
      refine Finset.sum_le_sum fun j hj => ?_
      have h7 := neg_abs_le (p j * (d j - d' j))
      rw [abs_mul] at h7
      have h8 := mul_le_mul_of_nonneg_right (hpK j (Finset.mem_range.1 hj)) (abs_nonneg (d j - d' j))
      linarith
    have h7 := hL d d'
    have h8 := le_abs_self (f d - f d')
    have h9 := mul_le_mul_of_nonneg_left hS hK
    have := le_max_right (eps1 * ∑ j ∈ Finset.range n, |y j - d j|) (2 * K * n * eps0)
    have e : 2 * K * n * eps0 = K * (n * eps0) + K * (n * eps0) := by ring
    linarith

/-- **C59.** `abs_min_linear` with the linear program solver of the library: its result is in the trust region, and when it returns true and the
approximation `f` is convex with Lipschitz constant `K`, the value of `f` is almost minimal in the trust region. -/
theorem absMinLinear_ok_partial {n s : ℕ} (hs : 0 < s) {g gj bound : ℕ → ℝ} (ht : IsTri n 1 s gj) (hb : ∀ j < n, 0 ≤ bound j) {f : (ℕ → ℝ) → ℝ}
    (hf : IsTilde n s g gj f) (eps0 eps1 : ℝ) (maxitr maxitr1 : ℕ) (nan : ℝ) (junk : ℕ → ℝ) (ip jp : ℕ → ℕ) (dx : ℕ → ℝ) :
    ∃ ok d, absMinLinear (boxSolver n maxitr1 nan junk) n s g gj bound eps0 eps1 maxitr junk ip jp dx = some (ok, d) ∧ InBox n bound d ∧
      (ok = true → ConvexOn ℝ Set.univ f → (∀ d gt, InBox n bound d → IsApprox n 1 s g gj d gt → NotNested n s gj gt) →
        ∀ K, 0 ≤ K → (∀ a b, |f a - f b| ≤ K * ∑ j ∈ Finset.range n, |a j - b j|) →
        ∀ y, InBox n bound y → f d ≤ f y + max (eps1 * ∑ j ∈ Finset.range n, |y j - d j|) (2 * K * n * eps0)) := by
  obtain ⟨ok, d, h1, h2, h3⟩ := absMinLinear_near hs ht hb hf eps0 eps1 (boxSolver_ok n maxitr1 nan junk) maxitr junk ip jp dx
  exact ⟨ok, d, h1, h2, fun hok hcv hnn K hK hL y hy => nearMin_le (minorants_of_convex ht hf hcv hnn) h2 (h3 hok) hK hL y hy⟩

/-- **C59, no absolute values.** With `s = 0`, `abs_min_linear` calls `LuSolve` with a matrix that has no elements, which divides by zero
(lu_invert.hpp:190). -/
theorem absMinLinear_none (lp : LpSolver) (n : ℕ) (g gj bound : ℕ → ℝ) (eps0 eps1 : ℝ) (maxitr : ℕ) (junk : ℕ → ℝ) (ip jp : ℕ → ℕ) (dx : ℕ → ℝ) :
    absMinLinear lp n 0 g gj bound eps0 eps1 (maxitr + 1) junk ip jp dx = none := by
  unfold absMinLinear
  dsimp only
  obtain ⟨gt, e1, _⟩ := (absEval_ok n 1 0 g gj (forRange 0 n dx fun j v => Function.update v j 0) junk).1 (by intro i hi; omega)
  rw [e1, Option.bind_some, if_pos ⟨rfl, by omega⟩]

end CppAD.AbsOpt
