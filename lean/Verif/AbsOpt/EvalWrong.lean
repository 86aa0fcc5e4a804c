import Verif.AbsOpt.Nso

/-!
# Where `abs_min_linear` and `min_nso_linear` do not do what their documentation says
-/

namespace CppAD.AbsOpt

open CppAD.AtomEx (forRange_assign)

/-- *Specification*: a solver of linear programs that finds a solution whenever there is one -/
def LpPerfect (N : ℕ) (lp : LpSolver) : Prop := LpOk N lp ∧ ∀ k A b c d, (∃ x, SolvesBox k N A b c d x) → ∃ x, lp k A b c d = some (true, x)

/-- there is such a solver -/
example (N : ℕ) : ∃ lp, LpPerfect N lp := by
  classical
  refine ⟨fun k A b c d => if h : ∃ x, SolvesBox k N A b c d x then some (true, h.choose) else some (false, 0), fun k A b c d => ?_, fun k A b c d h => ?_⟩
  · by_cases h : ∃ x, SolvesBox k N A b c d x
    · exact ⟨true, h.choose, by simp only [dif_pos h], fun _ => h.choose_spec⟩
    · exact ⟨false, 0, by simp only [dif_neg h], fun h => by cases h⟩
  · exact ⟨h.choose, by simp only [dif_pos h]⟩

/-- one iteration when the slope is not small, with one variable -/
theorem cutStep_next {s : ℕ} {g gj bound : ℕ → ℝ} (ht : IsTri 1 1 s gj) {eps0 eps1 : ℝ} {lp : LpSolver} (hlp : LpPerfect 2 lp)
    (junk : ℕ → ℝ) (ip jp : ℕ → ℕ) (k : ℕ) (t : Cut) (p : ℝ) (hp : ∀ q, IsSlope 1 s gj t.sigma q → q 0 = p) (hbig : eps1 ≤ |p|)
    (c C : ℕ → ℝ) (hc : ∀ i < k, t.c i = c i ∧ t.C i = C i) (hck : c k = t.gt 0 - p * t.d 0 ∧ C k = p)
    (x0 w0 : ℝ) (hfe : |x0| ≤ bound 0 ∧ ∀ i < k + 1, c i + C i * x0 ≤ w0)
    (hmin : ∀ x w, |x| ≤ bound 0 → (∀ i < k + 1, c i + C i * x ≤ w) → w0 ≤ w ∧ (w = w0 → x = x0)) :
    ∃ u : Cut, cutStep 1 s g gj bound eps0 eps1 lp junk ip jp k t = some (if |t.d 0 - x0| < eps0 ∧ 0 < eps0 then .stop true u.d else .next u) ∧
      u.d 0 = x0 ∧ IsApprox 1 1 s g gj u.d u.gt ∧ (∀ i < s, u.sigma i = sgn (u.gt (1 + i))) ∧ ∀ i < k + 1, u.c i = c i ∧ u.C i = C i := by
  unfold cutStep
  dsimp only
  have hpp := hp _ (absSlope_ok ht junk ip jp t.sigma)
  set q := absSlope 1 s gj junk ip jp t.sigma with hq
  have hz : ¬ (forRange 0 1 true fun j b => b && decide (|q j| < eps1)) = true := by
    rw [allLoop]
    intro h
    have := h 0 (by omega)
    rw [hpp] at this
    linarith
  rw [if_neg hz, subLoop]
  set cc := Function.update t.c k (t.gt 0 - ∑ j ∈ Finset.range 1, q j * t.d j) with hcc
  set CC := forRange 0 1 t.C fun j C => Function.update C (k * 1 + j) (q j) with hCC
  have e1 : ∀ i < k + 1, cc i = c i ∧ CC (i * 1 + 0) = C i := by
    intro i hi
    by_cases e : i = k
    · subst e
      refine ⟨?_, ?_⟩
      · rw [hcc, Function.update_self, Finset.sum_range_one, hpp, hck.1]
      · rw [hck.2, ← hpp]
        exact (assign_off 1 (i * 1) t.C q _).1 0 (by omega) rfl
    · refine ⟨?_, ?_⟩
      · rw [hcc, Function.update_of_ne e]; exact (hc i (by omega)).1
      · rw [show CC (i * 1 + 0) = t.C (i * 1 + 0) from (assign_off 1 (k * 1) t.C q _).2 (Or.inl (by omega))]
        rw [mul_one, add_zero]; exact (hc i (by omega)).2
  have fe : ∀ x, FeasibleBox (k + 1) 2 (cutA 1 (k + 1) CC cc junk).1 (cutA 1 (k + 1) CC cc junk).2 (cutD 1 bound) x ↔
      (∀ i < k + 1, c i + C i * x 0 ≤ x 1) ∧ |x 0| ≤ bound 0 := by
    intro x
    rw [show (2 : ℕ) = 1 + 1 from rfl, cut_feasible]
    refine and_congr ⟨fun h i hi => ?_, fun h i hi => ?_⟩ ⟨fun h => h 0 (by omega), fun h j hj => ?_⟩
    · have := h i hi
      rwa [Finset.sum_range_one, (e1 i hi).1, (e1 i hi).2] at this
    · rw [Finset.sum_range_one, (e1 i hi).1, (e1 i hi).2]; exact h i hi
    · obtain rfl : j = 0 := by omega
      exact h
  have sol : SolvesBox (k + 1) 2 (cutA 1 (k + 1) CC cc junk).1 (cutA 1 (k + 1) CC cc junk).2 (cutC 1 junk) (cutD 1 bound)
      (fun j => if j = 0 then x0 else w0) := by
    refine ⟨(fe _).2 ⟨fun i hi => by simpa using hfe.2 i hi, by simpa using hfe.1⟩, fun y hy => ?_⟩
    rw [show (2 : ℕ) = 1 + 1 from rfl, cutC_ok, cutC_ok]
    obtain ⟨y1, y2⟩ := (fe y).1 hy
    simpa using (hmin (y 0) (y 1) y2 y1).1
  obtain ⟨x, hx⟩ := hlp.2 _ _ _ _ _ ⟨_, sol⟩
  have hsx : SolvesBox (k + 1) 2 (cutA 1 (k + 1) CC cc junk).1 (cutA 1 (k + 1) CC cc junk).2 (cutC 1 junk) (cutD 1 bound) x := by
    obtain ⟨ok, x', a1, a2⟩ := hlp.1 (k + 1) (cutA 1 (k + 1) CC cc junk).1 (cutA 1 (k + 1) CC cc junk).2 (cutC 1 junk) (cutD 1 bound)
    rw [hx, Option.some_inj, Prod.mk.injEq] at a1
    obtain ⟨rfl, rfl⟩ := a1
    exact a2 rfl
  have hx0 : x 0 = x0 := by
    obtain ⟨y1, y2⟩ := (fe x).1 hsx.1
    have h1 := hsx.2 _ sol.1
    rw [show (2 : ℕ) = 1 + 1 from rfl, cutC_ok, cutC_ok] at h1
    obtain ⟨a1, a2⟩ := hmin (x 0) (x 1) y2 y1
    refine a2 (le_antisymm ?_ a1)
    simpa using h1
  rw [hx, Option.bind_some]
  dsimp only
  rw [if_pos rfl]
  set new := forRange 0 1 junk fun j v => Function.update v j (x j) with hnew
  have hnx : new 0 = x0 := by
    rw [← hx0]
    exact forRange_assign (α := ℝ) junk x _ (fun _ _ _ => rfl) (by omega : 0 < 1)
  obtain ⟨gnew, a1, a2⟩ := (absEval_ok 1 1 s g gj new junk).1 ht
  rw [a1, Option.bind_some]
  refine ⟨⟨new, gnew, sigmaOf s gnew t.sigma, CC, cc⟩, ?_, hnx, a2, sigmaOf_ok s gnew t.sigma, fun i hi => ⟨(e1 i hi).1, by simpa using (e1 i hi).2⟩⟩
  have hmx : (forRange 0 1 (0 : ℝ) fun j a => max a |t.d j - x j|) < eps0 ↔ |t.d 0 - x0| < eps0 ∧ 0 < eps0 := by
    rw [maxLoop 1 (fun j => t.d j - x j), and_comm]
    refine and_congr ⟨fun h => by have := h 0 (by omega); rwa [hx0] at this, fun h j hj => ?_⟩ Iff.rfl
    obtain rfl : j = 0 := by omega
    rw [hx0]; exact h
  by_cases hd : |t.d 0 - x0| < eps0 ∧ 0 < eps0
  · rw [if_pos (hmx.2 hd), if_pos hd]
  · rw [if_neg (fun h => hd (hmx.1 h)), if_neg hd]

theorem cutLoop_next {n s : ℕ} {g gj bound : ℕ → ℝ} {eps0 eps1 : ℝ} {lp : LpSolver} {junk : ℕ → ℝ} {ip jp : ℕ → ℕ} (r : ℕ) {k : ℕ} {t u : Cut}
    (h : cutStep n s g gj bound eps0 eps1 lp junk ip jp k t = some (.next u)) :
    cutLoop n s g gj bound eps0 eps1 lp junk ip jp (r + 1) k t = cutLoop n s g gj bound eps0 eps1 lp junk ip jp r (k + 1) u := by
  rw [cutLoop, h]; rfl

theorem cutLoop_stop {n s : ℕ} {g gj bound : ℕ → ℝ} {eps0 eps1 : ℝ} {lp : LpSolver} {junk : ℕ → ℝ} {ip jp : ℕ → ℕ} (r : ℕ) {k : ℕ} {t : Cut}
    {ok : Bool} {d : ℕ → ℝ} (h : cutStep n s g gj bound eps0 eps1 lp junk ip jp k t = some (.stop ok d)) :
    cutLoop n s g gj bound eps0 eps1 lp junk ip jp (r + 1) k t = some (ok, d) := by
  rw [cutLoop, h]; rfl

/-! ### nested absolute values -/

/-- the Jacobian of `y = -x/2 - u_0 + u_1`, `z_0 = x`, `z_1 = x + u_0`: the function is `-x/2 - |x| + |x + |x||`, which is equal to `x / 2` -/
noncomputable def nestJ (i : ℕ) : ℝ := if i = 0 then -1 / 2 else if i = 1 then -1 else if i = 2 then 1 else if i = 3 then 1 else if i = 6 then 1 else if i = 7 then 1 else 0

theorem nest_tri : IsTri 1 1 2 nestJ := by
  intro i hi j hj hij
  have : (i = 0 ∧ j = 0) ∨ (i = 0 ∧ j = 1) ∨ (i = 1 ∧ j = 1) := by omega
  rcases this with ⟨rfl, rfl⟩ | ⟨rfl, rfl⟩ | ⟨rfl, rfl⟩ <;> norm_num [nestJ]

theorem nest_value {d gt : ℕ → ℝ} (h : IsApprox 1 1 2 0 nestJ d gt) : gt 1 = d 0 ∧ gt 2 = d 0 + |d 0| ∧ gt 0 = d 0 / 2 := by
  have h1 := h 1 (by omega)
  have h2 := h 2 (by omega)
  have h0 := h 0 (by omega)
  simp [lin, nestJ, Finset.sum_range_succ] at h0 h1 h2
  rw [h1] at h2 h0
  refine ⟨h1, h2, ?_⟩
  rw [h0, h2]
  have e : abs (d 0 + abs (d 0)) = d 0 + abs (d 0) := abs_of_nonneg (by have := neg_abs_le (d 0); linarith)
  rw [e]
  ring

theorem nest_tilde : IsTilde 1 2 0 nestJ fun d => d 0 / 2 := by
  intro d
  obtain ⟨gt, _, h⟩ := (absEval_ok 1 1 2 0 nestJ d 0).1 nest_tri
  exact ⟨gt, h, (nest_value h).2.2⟩

theorem nest_slope {sigma p : ℕ → ℝ} (h : IsSlope 1 2 nestJ sigma p) : p 0 = -1 / 2 - sigma 0 + sigma 1 * (1 + sigma 0) := by
  obtain ⟨X, h1, h2⟩ := h
  have a0 := h1 0 (by omega) 0 (by omega)
  have a1 := h1 1 (by omega) 0 (by omega)
  have a2 := h2 0 (by omega)
  simp [nestJ, Finset.sum_range_succ] at a0 a1 a2
  rw [a0] at a1
  rw [a2, a1, a0]
  ring

theorem sgn_pos {x : ℝ} (h : 0 < x) : sgn x = 1 := by unfold sgn; rw [if_pos h]

theorem sgn_zero : sgn 0 = 0 := by simp [sgn]

theorem sgn_neg {x : ℝ} (h : x < 0) : sgn x = -1 := by unfold sgn; rw [if_neg (by linarith), if_neg (by linarith)]

/-- **C59 is false with nested absolute values.**  The approximation is the function `x / 2`, which is convex, and in the trust region `|x| ≤ b` it
is minimal at `- b`.  With any correct solver for the linear programs, `abs_min_linear` returns true with `delta_x = 0`. -/
theorem absMinLinear_nested_wrong {lp : LpSolver} (hlp : LpPerfect 2 lp) (b eps0 eps1 : ℝ) (h0 : 0 < eps0) (hb : eps0 ≤ b) (h1 : eps1 ≤ 1 / 2) (m : ℕ)
    (junk : ℕ → ℝ) (ip jp : ℕ → ℕ) (dx : ℕ → ℝ) :
    IsTilde 1 2 0 nestJ (fun d => d 0 / 2) ∧
    ∃ d, absMinLinear lp 1 2 0 nestJ (fun _ => b) eps0 eps1 (m + 3) junk ip jp dx = some (true, d) ∧ d 0 = 0 := by
  refine ⟨nest_tilde, ?_⟩
  have hbp : 0 < b := by linarith
  unfold absMinLinear
  dsimp only
  set d0 := forRange 0 1 dx fun j v => Function.update v j 0 with hd0
  have hz : d0 0 = 0 := forRange_assign (α := ℝ) dx (fun _ => 0) _ (fun _ _ _ => rfl) (by omega : 0 < 1)
  obtain ⟨gt, e1, e2⟩ := (absEval_ok 1 1 2 0 nestJ d0 junk).1 nest_tri
  rw [e1, Option.bind_some, if_neg (by omega)]
  have slope : ∀ (t : Cut), IsApprox 1 1 2 0 nestJ t.d t.gt → (∀ i < 2, t.sigma i = sgn (t.gt (1 + i))) →
      ∀ q, IsSlope 1 2 nestJ t.sigma q → q 0 = -1 / 2 - sgn (t.d 0) + sgn (t.d 0 + |t.d 0|) * (1 + sgn (t.d 0)) := by
    intro t ha hs q hq
    obtain ⟨v1, v2, _⟩ := nest_value ha
    rw [nest_slope hq, hs 0 (by omega), hs 1 (by omega)]
    show _ - sgn (t.gt 1) + sgn (t.gt 2) * (1 + sgn (t.gt 1)) = _
    rw [v1, v2]
  -- the planes
  let c : ℕ → ℝ := fun _ => 0
  let C : ℕ → ℝ := fun i => if i = 1 then 1 / 2 else -1 / 2
  have habs : |(-1 / 2 : ℝ)| = 1 / 2 := by rw [show (-1 / 2 : ℝ) = -(1 / 2) by ring, abs_neg, abs_of_pos (by norm_num)]
  have s0 : IsApprox 1 1 2 0 nestJ d0 gt := e2
  obtain ⟨u, k1, k2, k3, k4, k5⟩ := cutStep_next nest_tri (g := 0) (bound := fun _ => b) (eps0 := eps0) (eps1 := eps1) hlp junk ip jp 0 ⟨d0, gt, sigmaOf 2 gt junk, junk, junk⟩
    (-1 / 2) (fun q hq => by rw [slope ⟨d0, gt, sigmaOf 2 gt junk, junk, junk⟩ s0 (sigmaOf_ok 2 gt junk) q hq]; dsimp only; rw [hz]; simp [sgn_zero]) (by rw [habs]; exact h1)
    c C (by intros; omega) ⟨by dsimp only [c]; rw [(nest_value s0).2.2, hz]; ring, by simp [C]⟩ b (-1 / 2 * b)
    ⟨by rw [abs_of_pos hbp], fun i hi => by
      have : i = 0 := by omega
      subst this
      simp [c, C]⟩
    (fun x w hx hw => by
      have a := hw 0 (by omega)
      simp [c, C] at a
      have a2 := (abs_le.1 hx).2
      exact ⟨by linarith, fun e => by linarith⟩)
  rw [if_neg (by dsimp only; rw [hz, zero_sub, abs_neg, abs_of_pos hbp]; intro h; linarith [h.1])] at k1
  rw [cutLoop_next (m + 2) k1]
  obtain ⟨v, l1, l2, l3, l4, l5⟩ := cutStep_next nest_tri (g := 0) (bound := fun _ => b) (eps0 := eps0) (eps1 := eps1) hlp junk ip jp 1 u
    (1 / 2) (fun q hq => by rw [slope u k3 k4 q hq, k2, sgn_pos hbp, sgn_pos (by positivity)]; norm_num) (by rw [abs_of_pos (by norm_num)]; exact h1)
    c C k5 ⟨by dsimp only [c]; rw [(nest_value k3).2.2, k2]; ring, by simp [C]⟩ 0 0
    ⟨by simpa using hbp.le, fun i hi => by simp [c]⟩
    (fun x w hx hw => by
      have a := hw 0 (by omega)
      have a' := hw 1 (by omega)
      simp [c, C] at a a'
      exact ⟨by linarith, fun e => by linarith⟩)
  by_cases hq : |u.d 0 - 0| < eps0 ∧ 0 < eps0
  · rw [if_pos hq] at l1
    exact ⟨v.d, cutLoop_stop (m + 1) l1, l2⟩
  · rw [if_neg hq] at l1
    rw [cutLoop_next (m + 1) l1]
    obtain ⟨w, m1, m2, m3, m4, m5⟩ := cutStep_next nest_tri (g := 0) (bound := fun _ => b) (eps0 := eps0) (eps1 := eps1) hlp junk ip jp 2 v
      (-1 / 2) (fun q hq => by rw [slope v l3 l4 q hq, l2]; simp [sgn_zero]) (by rw [habs]; exact h1)
      c C l5 ⟨by dsimp only [c]; rw [(nest_value l3).2.2, l2]; ring, by simp [C]⟩ 0 0
      ⟨by simpa using hbp.le, fun i hi => by simp [c]⟩
      (fun x w hx hw => by
        have a := hw 0 (by omega)
        have a' := hw 1 (by omega)
        simp [c, C] at a a'
        exact ⟨by linarith, fun e => by linarith⟩)
    rw [if_pos ⟨by rw [l2]; simpa using h0, h0⟩] at m1
    exact ⟨w.d, cutLoop_stop m m1, m2⟩

/-! ### the assertion of `min_nso_linear` -/

/-- the Jacobian of `y = - 19/40 x + 21/40 u`, `z = x - 1/100` -/
noncomputable def kinkJ (i : ℕ) : ℝ := if i = 0 then -19 / 40 else if i = 1 then 21 / 40 else if i = 2 then 1 else 0

/-- `a(x) = |x - 1/100|` -/
noncomputable def kinkA (x : ℕ → ℝ) : ℕ → ℝ := fun _ => |x 0 - 1 / 100|

/-- the values of `y` and `z` -/
noncomputable def kinkG (xu : ℕ → ℝ) : ℕ → ℝ := fun i => if i = 0 then -19 / 40 * xu 0 + 21 / 40 * xu 1 else xu 0 - 1 / 100

theorem kink_obj : IsObj 1 1 kinkA kinkG fun x => -19 / 40 * x 0 + 21 / 40 * |x 0 - 1 / 100| := by
  intro x xu ⟨h1, h2⟩
  have a1 := h1 0 (by omega)
  have a2 := h2 0 (by omega)
  simp only [add_zero] at a2
  simp only [kinkG, if_true, a1, a2, kinkA]

theorem kink_tri : IsTri 1 1 1 kinkJ := by
  intro i hi j hj hij
  obtain rfl : i = 0 := by omega
  obtain rfl : j = 0 := by omega
  norm_num [kinkJ]

theorem kink_value {g d gt : ℕ → ℝ} (hg : g 1 = -1 / 100) (h : IsApprox 1 1 1 g kinkJ d gt) :
    gt 1 = d 0 - 1 / 100 ∧ gt 0 = g 0 + (-19 / 40) * d 0 + 21 / 40 * (|d 0 - 1 / 100| - 1 / 100) := by
  have h1 := h 1 (by omega)
  have h0 := h 0 (by omega)
  have e : |g 1| = 1 / 100 := by rw [hg, show (-1 / 100 : ℝ) = -(1 / 100) by ring, abs_neg, abs_of_pos (by norm_num)]
  have k0 : kinkJ 0 = -19 / 40 := by norm_num [kinkJ]
  have k1 : kinkJ 1 = 21 / 40 := by norm_num [kinkJ]
  have k2 : kinkJ 2 = 1 := by norm_num [kinkJ]
  have k3 : kinkJ 3 = 0 := by norm_num [kinkJ]
  simp only [lin, Finset.sum_range_one, Nat.reduceAdd, Nat.reduceMul, zero_mul, add_zero, zero_add, k0, k1, k2, k3, e, one_mul, mul_one] at h0 h1
  have h1' : gt 1 = d 0 - 1 / 100 := by rw [h1, hg]; ring
  refine ⟨h1', ?_⟩
  rw [h0, h1']

theorem kink_slope {sigma p : ℕ → ℝ} (h : IsSlope 1 1 kinkJ sigma p) : p 0 = -19 / 40 + 21 / 40 * sigma 0 := by
  obtain ⟨X, h1, h2⟩ := h
  have a0 := h1 0 (by omega) 0 (by omega)
  have a2 := h2 0 (by omega)
  have k0 : kinkJ 0 = -19 / 40 := by norm_num [kinkJ]
  have k1 : kinkJ 1 = 21 / 40 := by norm_num [kinkJ]
  have k2 : kinkJ 2 = 1 := by norm_num [kinkJ]
  have k3 : kinkJ 3 = 0 := by norm_num [kinkJ]
  simp only [Finset.sum_range_one, Nat.reduceAdd, Nat.reduceMul, zero_mul, add_zero, zero_add, k0, k1, k2, k3, mul_one] at a0 a2
  rw [a2, a0]
  ring

/-- what `abs_min_linear` returns for this function at zero -/
theorem kink_sub {lp : LpSolver} (hlp : LpPerfect 2 lp) {g bound : ℕ → ℝ} (hg : g 1 = -1 / 100) (hb : bound 0 = 1) (m : ℕ)
    (junk : ℕ → ℝ) (ip jp : ℕ → ℕ) (dx : ℕ → ℝ) :
    ∃ d, absMinLinear lp 1 1 g kinkJ bound (1 / 20) (1 / 10) (m + 2) junk ip jp dx = some (true, d) ∧ d 0 = 1 := by
  unfold absMinLinear
  dsimp only
  set d0 := forRange 0 1 dx fun j v => Function.update v j 0 with hd0
  have hz : d0 0 = 0 := forRange_assign (α := ℝ) dx (fun _ => 0) _ (fun _ _ _ => rfl) (by omega : 0 < 1)
  obtain ⟨gt, e1, e2⟩ := (absEval_ok 1 1 1 g kinkJ d0 junk).1 kink_tri
  rw [e1, Option.bind_some, if_neg (by omega)]
  obtain ⟨v1, v0⟩ := kink_value hg e2
  obtain ⟨u, k1, k2, k3, k4, k5⟩ := cutStep_next kink_tri (g := g) (bound := bound) (eps0 := 1 / 20) (eps1 := 1 / 10) hlp junk ip jp 0 ⟨d0, gt, sigmaOf 1 gt junk, junk, junk⟩
    (-1) (fun q hq => by
      rw [kink_slope hq]
      dsimp only
      rw [sigmaOf_ok 1 gt junk 0 (by omega), show 1 + 0 = 1 from rfl, v1, hz, sgn_neg (by norm_num)]
      norm_num) (by norm_num)
    (fun _ => gt 0) (fun _ => -1) (by intros; omega) ⟨by dsimp only; rw [hz]; ring, rfl⟩ 1 (gt 0 - 1)
    ⟨by rw [hb]; norm_num, fun i hi => by linarith⟩
    (fun x w hx hw => by
      have a := hw 0 (by omega)
      rw [hb] at hx
      have a2 := (abs_le.1 hx).2
      exact ⟨by linarith, fun e => by linarith⟩)
  rw [if_neg (by dsimp only; rw [hz]; norm_num)] at k1
  rw [cutLoop_next (m + 1) k1]
  refine ⟨u.d, cutLoop_stop m ?_, k2⟩
  unfold cutStep
  dsimp only
  rw [if_pos]
  rw [allLoop]
  intro j hj
  obtain rfl : j = 0 := by omega
  rw [kink_slope (absSlope_ok kink_tri junk ip jp u.sigma), k4 0 (by omega), show 1 + 0 = 1 from rfl, (kink_value hg k3).1, k2, sgn_pos (by norm_num)]
  norm_num

/-- **C59, the assertion of `min_nso_linear`.**  The objective `- 19/40 x + 21/40 |x - 1/100|` is convex and piecewise linear; with
`epsilon = (1/2, 1)`, `b_in = 1`, starting at zero, and any correct solver for the linear programs, `min_nso_linear` fails with
`CPPAD_ASSERT_UNKNOWN( derivative <= 0. )` (min_nso_linear.hpp:308). -/
theorem minNso_assert_wrong {lp : LpSolver} (hlp : LpPerfect 2 lp) (m maxitr : ℕ) (junk : ℕ → ℝ) (ip jp : ℕ → ℕ) :
    IsObj 1 1 kinkA kinkG (fun x => -19 / 40 * x 0 + 21 / 40 * |x 0 - 1 / 100|) ∧
    minNso 1 1 kinkA kinkG (fun _ => kinkJ)
      (fun g gj b e0 e1 => absMinLinear lp 1 1 g gj (forRange 0 1 junk fun j v => Function.update v j b) e0 e1 (m + 2) junk ip jp junk)
      (1 / 2) 1 (maxitr + 1) 1 junk 0 = none := by
  refine ⟨kink_obj, ?_⟩
  unfold minNso
  rw [if_pos (by norm_num)]
  dsimp only
  rw [nsoLoop.eq_def]
  dsimp only
  obtain ⟨j1, j2⟩ := nsoJoin_ok 1 1 0 (kinkA 0) junk
  set xu := nsoJoin 1 1 0 (kinkA 0) junk with hxu
  have hg : kinkG xu 1 = -1 / 100 := by
    have := j1 0 (by omega)
    simp only [kinkG, this]
    norm_num
  obtain ⟨d, e1, e2⟩ := kink_sub hlp hg (bound := forRange 0 1 junk fun j v => Function.update v j 1)
    (forRange_assign (α := ℝ) junk (fun _ => 1) _ (fun _ _ _ => rfl) (by omega : 0 < 1)) m junk ip jp junk
  rw [show (1 / 2 / 10 : ℝ) = 1 / 20 by norm_num, e1, Option.bind_some, if_pos rfl]
  dsimp only
  obtain ⟨_, s2, s3, s4⟩ := stepLoop 1 0 d junk
  set u := forRange 0 1 (junk, (0 : ℝ)) fun j u => (Function.update u.1 j ((0 : ℕ → ℝ) j + d j), max u.2 |d j|) with hu
  have hu2 : u.2 = 1 := by
    refine le_antisymm (s4 1 (by norm_num) fun j hj => ?_) ?_
    · obtain rfl : j = 0 := by omega
      rw [e2]; norm_num
    · have := s2 0 (by omega)
      rw [e2] at this
      simpa using this
  rw [hu2, if_neg (by norm_num)]
  obtain ⟨gt, a1, a2⟩ := (absEval_ok 1 1 1 (kinkG xu) kinkJ d junk).1 kink_tri
  rw [a1, Option.bind_some]
  obtain ⟨_, b0⟩ := kink_value hg a2
  rw [if_neg]
  rw [b0, e2, not_le, show |(1 : ℝ) - 1 / 100| = 99 / 100 by rw [abs_of_pos (by norm_num)]; norm_num]
  have : kinkG xu 0 + -19 / 40 * 1 + 21 / 40 * (99 / 100 - 1 / 100) - kinkG xu 0 = -19 / 40 + 21 / 40 * (98 / 100) := by ring
  rw [this]
  norm_num

/-! ### the hypotheses of the theorems are met -/

/-- the approximation of the second example is convex, its absolute values are not nested and it has a Lipschitz constant -/
example (g : ℕ → ℝ) (hg : g 1 = -1 / 100) :
    ∃ f, IsTilde 1 1 g kinkJ f ∧ ConvexOn ℝ Set.univ f ∧ (∀ d gt, InBox 1 (fun _ => 1) d → IsApprox 1 1 1 g kinkJ d gt → NotNested 1 1 kinkJ gt) ∧
      ∀ a b, |f a - f b| ≤ 1 * ∑ j ∈ Finset.range 1, |a j - b j| := by
  refine ⟨fun d => g 0 + (-19 / 40) * d 0 + 21 / 40 * (|d 0 - 1 / 100| - 1 / 100), fun d => ?_, ⟨convex_univ, fun x _ y _ a b ha hb hab => ?_⟩, fun d gt _ _ k hk _ i hi => ?_, fun a b => ?_⟩
  · obtain ⟨gt, _, h⟩ := (absEval_ok 1 1 1 g kinkJ d 0).1 kink_tri
    exact ⟨gt, h, (kink_value hg h).2⟩
  · simp only [Pi.add_apply, Pi.smul_apply, smul_eq_mul]
    have e : a * x 0 + b * y 0 - 1 / 100 = a * (x 0 - 1 / 100) + b * (y 0 - 1 / 100) := by
      have : b = 1 - a := by linarith
      rw [this]; ring
    have h1 := abs_add_le (a * (x 0 - 1 / 100)) (b * (y 0 - 1 / 100))
    rw [abs_mul, abs_mul, abs_of_nonneg ha, abs_of_nonneg hb] at h1
    rw [e]
    have h2 : g 0 = a * g 0 + b * g 0 := by rw [← add_mul, hab, one_mul]
    have h3 : (1 : ℝ) / 100 = a * (1 / 100) + b * (1 / 100) := by rw [← add_mul, hab, one_mul]
    nlinarith
  · exact kink_tri i hi k hk (by omega)
  · dsimp only
    rw [Finset.sum_range_one, one_mul]
    have h1 := abs_le.1 (abs_abs_sub_abs_le_abs_sub (a 0 - 1 / 100) (b 0 - 1 / 100))
    rw [show a 0 - 1 / 100 - (b 0 - 1 / 100) = a 0 - b 0 by ring] at h1
    obtain ⟨h2, h3⟩ := h1
    have h4 := neg_abs_le (a 0 - b 0)
    have h5 := le_abs_self (a 0 - b 0)
    rw [abs_le]
    constructor <;> linarith

end CppAD.AbsOpt
