import Verif.AbsOpt.QpSpec
import Verif.AtomEx.MatFwd
import Verif.AtomEx.VecSparse
import Mathlib.Algebra.Order.Floor.Semifield

/-!
# Quadratic programs: `qp_interior`
-/

namespace CppAD.AbsOpt

open CppAD.AtomEx (forRange_assign forRange_additive idx_inj)

theorem maxAbs_le (N : ℕ) (v : ℕ → ℝ) (a e : ℝ) : maxAbs N v a ≤ e ↔ a ≤ e ∧ ∀ j < N, |v j| ≤ e := by
  unfold maxAbs
  refine forRange_ind (s := a) (f := fun j a => max a |v j|) (Nat.zero_le N) (fun K t => t ≤ e ↔ a ≤ e ∧ ∀ j < K, |v j| ≤ e) (by simp) ?_
  intro k t _ _ ih
  rw [max_le_iff, ih]
  constructor
  · rintro ⟨⟨h1, h2⟩, h3⟩
    refine ⟨h1, fun j hj => ?_⟩
    by_cases e : j = k
    · rw [e]; exact h3
    · exact h2 j (by omega)
  · rintro ⟨h1, h2⟩
    exact ⟨⟨h1, fun j hj => h2 j (by omega)⟩, h2 k (by omega)⟩

/-- assignments with an offset -/
theorem assign_off (N p : ℕ) (v f : ℕ → ℝ) (c : ℕ) :
    (∀ i < N, c = p + i → forRange 0 N v (fun i v => Function.update v (p + i) (f i)) c = f i) ∧
    ((c < p ∨ p + N ≤ c) → forRange 0 N v (fun i v => Function.update v (p + i) (f i)) c = v c) := by
  refine forRange_ind (s := v) (f := fun i v => Function.update v (p + i) (f i)) (Nat.zero_le N)
    (fun K t => (∀ i < K, c = p + i → t c = f i) ∧ ((c < p ∨ p + K ≤ c) → t c = v c)) ⟨by intro i hi; omega, fun _ => rfl⟩ ?_
  intro k t _ _ ih
  refine ⟨fun i hi hc => ?_, fun hc => ?_⟩
  · by_cases e : i = k
    · subst e; rw [hc, Function.update_self]
    · rw [Function.update_of_ne (by omega)]; exact ih.1 i (by omega) hc
  · rw [Function.update_of_ne (by omega)]; exact ih.2 (by omega)

theorem qpJoin_ok (n m : ℕ) (v vx vy vs : ℕ → ℝ) :
    (∀ i < n, qpJoin n m v vx vy vs i = vx i) ∧ (∀ i < m, qpJoin n m v vx vy vs (n + i) = vy i) ∧
    ∀ i < m, qpJoin n m v vx vy vs (n + m + i) = vs i := by
  unfold qpJoin
  set v1 := forRange 0 n v fun i v => Function.update v i (vx i) with hv1
  set v2 := forRange 0 m v1 fun i v => Function.update v (n + i) (vy i) with hv2
  refine ⟨fun i hi => ?_, fun i hi => ?_, fun i hi => ?_⟩
  · rw [(assign_off m (n + m) v2 vs i).2 (by omega), hv2, (assign_off m n v1 vy i).2 (by omega), hv1]
    exact forRange_assign v vx _ (fun _ _ _ => rfl) hi
  · rw [(assign_off m (n + m) v2 vs (n + i)).2 (by omega), hv2, (assign_off m n v1 vy (n + i)).1 i hi rfl]
  · rw [(assign_off m (n + m) v2 vs (n + m + i)).1 i hi rfl]

theorem qpSplit_ok (n m : ℕ) (v vx vy vs : ℕ → ℝ) :
    (∀ i < n, (qpSplit n m v vx vy vs).1 i = v i) ∧ ∀ i < m, (qpSplit n m v vx vy vs).2.1 i = v (n + i) ∧
      (qpSplit n m v vx vy vs).2.2 i = v (n + m + i) := by
  unfold qpSplit
  dsimp only
  refine ⟨fun i hi => forRange_assign vx v _ (fun _ _ _ => rfl) hi, ?_⟩
  refine forRange_ind (s := (vy, vs)) (Nat.zero_le m)
    (fun K (r : (ℕ → ℝ) × (ℕ → ℝ)) => ∀ i < K, r.1 i = v (n + i) ∧ r.2 i = v (n + m + i)) (by intro i hi; omega) ?_
  intro k r _ _ ih i hi
  dsimp only
  by_cases e : i = k
  · subst e; rw [Function.update_self, Function.update_self]; exact ⟨rfl, rfl⟩
  · rw [Function.update_of_ne e, Function.update_of_ne e]; exact ih i (by omega)

/-- accumulation in one element -/
theorem accum (N j : ℕ) (r : ℕ → ℝ) (f : ℕ → ℝ) :
    forRange 0 N r (fun i r => Function.update r j (r j + f i)) = Function.update r j (r j + ∑ i ∈ Finset.range N, f i) := by
  induction N with
  | zero => rw [forRange_of_le le_rfl]; simp
  | succ N ih =>
    rw [forRange_succ (Nat.zero_le N), ih, Function.update_idem, Function.update_self, Finset.sum_range_succ, add_assoc]

theorem sumLoop (N : ℕ) (a : ℝ) (f : ℕ → ℝ) : forRange 0 N a (fun i t => t + f i) = a + ∑ i ∈ Finset.range N, f i := by
  induction N with
  | zero => rw [forRange_of_le le_rfl]; simp
  | succ N ih => rw [forRange_succ (Nat.zero_le N), ih, Finset.sum_range_succ, add_assoc]

theorem qpF0_ok (n m : ℕ) (c C g G junk x y s : ℕ → ℝ) :
    (∀ j < n, qpF0 n m c C g G junk x y s j = g j + ∑ i ∈ Finset.range n, G (j * n + i) * x i + ∑ i ∈ Finset.range m, y i * C (i * n + j)) ∧
    (∀ i < m, qpF0 n m c C g G junk x y s (n + i) = rowVal n C c x i + s i) ∧
    ∀ i < m, qpF0 n m c C g G junk x y s (n + m + i) = s i * y i := by
  unfold qpF0
  dsimp only
  obtain ⟨h1, h2, h3⟩ := qpJoin_ok n m junk
    (forRange 0 n junk fun j r => forRange 0 m (forRange 0 n (Function.update r j (g j)) fun i r => Function.update r j (r j + G (j * n + i) * x i))
      fun i r => Function.update r j (r j + y i * C (i * n + j)))
    (forRange 0 m junk fun i r => forRange 0 n (Function.update r i (c i + s i)) fun j r => Function.update r i (r i + C (i * n + j) * x j))
    (forRange 0 m junk fun i r => Function.update r i (s i * y i))
  refine ⟨fun j hj => ?_, fun i hi => ?_, fun i hi => ?_⟩
  · rw [h1 j hj]
    refine forRange_assign junk (fun j => g j + ∑ i ∈ Finset.range n, G (j * n + i) * x i + ∑ i ∈ Finset.range m, y i * C (i * n + j)) _ ?_ hj
    intro j t _
    rw [accum n j _ (fun i => G (j * n + i) * x i), accum m j _ (fun i => y i * C (i * n + j))]
    simp
  · rw [h2 i hi]
    refine forRange_assign junk (fun i => rowVal n C c x i + s i) _ ?_ hi
    intro i t _
    rw [accum n i _ (fun j => C (i * n + j) * x j)]
    simp only [Function.update_idem, Function.update_self]
    congr 1
    unfold rowVal
    ring
  · rw [h3 i hi]
    exact forRange_assign junk (fun i => s i * y i) _ (fun _ _ _ => rfl) hi

theorem qpFmu_ok (n m : ℕ) (mu : ℝ) (F : ℕ → ℝ) :
    (∀ i < n + m, qpFmu n m mu F i = F i) ∧ ∀ i < m, qpFmu n m mu F (n + m + i) = F (n + m + i) - mu := by
  have h := forRange_ind (s := F) (f := fun i F => Function.update F (n + m + i) (F (n + m + i) - mu)) (Nat.zero_le m)
    (fun K t => ∀ c, t c = if n + m ≤ c ∧ c < n + m + K then F c - mu else F c) (by intro c; rw [if_neg (by omega)]) (by
      intro k t _ _ ih c
      by_cases e : c = n + m + k
      · subst e
        rw [Function.update_self, ih, if_neg (by omega), if_pos (by omega)]
      · rw [Function.update_of_ne e, ih]
        by_cases h : n + m ≤ c ∧ c < n + m + k
        · rw [if_pos h, if_pos (by omega)]
        · rw [if_neg h, if_neg (by omega)])
  unfold qpFmu
  exact ⟨fun i hi => by rw [h, if_neg (by omega)], fun i hi => by rw [h, if_pos (by omega)]⟩

/-- a point that the line search accepts is positive -/
theorem searchStep_pos (n m : ℕ) (c C g G junk : ℕ → ℝ) (mu : ℝ) (Fmu d x0 y0 s0 : ℕ → ℝ) (r : Search)
    (h : (searchStep n m c C g G junk mu Fmu d x0 y0 s0 r).ok = true) :
    ∀ i < m, 0 < (searchStep n m c C g G junk mu Fmu d x0 y0 s0 r).y i ∧ 0 < (searchStep n m c C g G junk mu Fmu d x0 y0 s0 r).s i := by
  unfold searchStep at h ⊢
  dsimp only at h ⊢
  have key := forRange_ind (s := (true, r.y, r.s)) (f := fun i (t : Bool × (ℕ → ℝ) × (ℕ → ℝ)) =>
      (t.1 && decide (Function.update t.2.2 i (s0 i + r.lam / 2 * d (n + m + i)) i > 0 ∧ Function.update t.2.1 i (y0 i + r.lam / 2 * d (n + i)) i > 0),
        Function.update t.2.1 i (y0 i + r.lam / 2 * d (n + i)), Function.update t.2.2 i (s0 i + r.lam / 2 * d (n + m + i)))) (Nat.zero_le m)
    (fun K t => t.1 = true → ∀ i < K, 0 < t.2.1 i ∧ 0 < t.2.2 i) (by intro _ i hi; omega) (by
      intro k t _ _ ih ht i hi
      dsimp only at ht ⊢
      rw [Bool.and_eq_true, decide_eq_true_eq] at ht
      by_cases e : i = k
      · subst e; exact ⟨ht.2.2, ht.2.1⟩
      · rw [Function.update_of_ne e, Function.update_of_ne e]; exact ih ht.1 i (by omega))
  refine key ?_
  split at h
  · assumption
  · cases h

theorem search_ok (n m : ℕ) (c C g G junk : ℕ → ℝ) (mu : ℝ) (Fmu d x0 y0 s0 : ℕ → ℝ)
    (h : (search n m c C g G junk mu Fmu d x0 y0 s0).ok = true) :
    ∀ i < m, 0 < (search n m c C g G junk mu Fmu d x0 y0 s0).y i ∧ 0 < (search n m c C g G junk mu Fmu d x0 y0 s0).s i := by
  unfold search at h ⊢
  refine (whileLoop_rule (c := fun r => !r.ok && decide (r.lam > 1e-5)) (b := searchStep n m c C g G junk mu Fmu d x0 y0 s0)
    (fun r => r.ok = true → ∀ i < m, 0 < r.y i ∧ 0 < r.s i) (fun r => ⌊r.lam * 1e5⌋₊) ?_ (by intro hc; cases hc)).1 h
  intro r _ hc
  refine ⟨searchStep_pos n m c C g G junk mu Fmu d x0 y0 s0 r, ?_⟩
  rw [Bool.and_eq_true, decide_eq_true_eq] at hc
  have h1 : (1 : ℝ) ≤ r.lam * 1e5 := by
    have := hc.2
    norm_num at this ⊢
    linarith
  change ⌊r.lam / 2 * 1e5⌋₊ < ⌊r.lam * 1e5⌋₊
  have h2 : 1 ≤ ⌊r.lam * 1e5⌋₊ := Nat.le_floor (by exact_mod_cast h1)
  rw [show r.lam / 2 * 1e5 = r.lam * 1e5 / (2 : ℕ) by push_cast; ring, Nat.floor_div_natCast]
  omega

theorem qpLoop_ok (n m : ℕ) (c C g G junk : ℕ → ℝ) (ip jp : ℕ → ℕ) (eps : ℝ) (k : ℕ) (mu : ℝ) (x y s F : ℕ → ℝ) (Fmax : ℝ)
    (hF : F = qpF0 n m c C g G junk x y s) (hmax : Fmax = maxAbs (n + m + m) F 0) (hpos : ∀ i < m, 0 < y i ∧ 0 < s i)
    (hok : (qpLoop n m c C g G junk ip jp eps k mu x y s F Fmax).1 = true) :
    Kkt n m c C g G eps (qpLoop n m c C g G junk ip jp eps k mu x y s F Fmax).2.1
      (qpLoop n m c C g G junk ip jp eps k mu x y s F Fmax).2.2.1 (qpLoop n m c C g G junk ip jp eps k mu x y s F Fmax).2.2.2 := by
  induction k generalizing mu x y s F Fmax with
  | zero =>
    unfold qpLoop at hok ⊢
    by_cases h : Fmax ≤ eps
    · rw [if_pos h]
      rw [hmax, maxAbs_le, hF] at h
      obtain ⟨f1, f2, f3⟩ := qpF0_ok n m c C g G junk x y s
      refine ⟨fun i hi => (hpos i hi).1, fun i hi => (hpos i hi).2, fun j hj => ?_, fun i hi => ?_, fun i hi => ?_⟩
      · rw [← f1 j hj]; exact h.2 j (by omega)
      · rw [← f2 i hi]; exact h.2 _ (by omega)
      · rw [← f3 i hi]; exact h.2 _ (by omega)
    · rw [if_neg h] at hok; cases hok
  | succ k ih =>
    unfold qpLoop at hok ⊢
    by_cases h : Fmax ≤ eps
    · rw [if_pos h]
      rw [hmax, maxAbs_le, hF] at h
      obtain ⟨f1, f2, f3⟩ := qpF0_ok n m c C g G junk x y s
      refine ⟨fun i hi => (hpos i hi).1, fun i hi => (hpos i hi).2, fun j hj => ?_, fun i hi => ?_, fun i hi => ?_⟩
      · rw [← f1 j hj]; exact h.2 j (by omega)
      · rw [← f2 i hi]; exact h.2 _ (by omega)
      · rw [← f3 i hi]; exact h.2 _ (by omega)
    · rw [if_neg h] at hok ⊢
      dsimp only at hok ⊢
      set r := search n m c C g G junk mu (qpFmu n m mu F) (qpStep n m C G junk ip jp (qpFmu n m mu F) y s) x y s with hr
      by_cases hro : r.ok = true
      · rw [if_pos hro] at hok ⊢
        exact ih _ _ _ _ _ _ rfl rfl (search_ok n m c C g G junk mu _ _ x y s hro) hok
      · rw [if_neg hro] at hok; cases hok

theorem qpInit_ok (n m : ℕ) (c C : ℕ → ℝ) {mu : ℝ} (hmu : 0 < mu) (x y s : ℕ → ℝ) (h : (qpInit n m c C mu x y s).1 = true) :
    ∀ i < m, 0 < (qpInit n m c C mu x y s).2.1 i ∧ 0 < (qpInit n m c C mu x y s).2.2 i := by
  unfold qpInit at h ⊢
  refine forRange_ind (s := (true, y, s)) (Nat.zero_le m)
    (fun K (t : Bool × (ℕ → ℝ) × (ℕ → ℝ)) => t.1 = true → ∀ i < K, 0 < t.2.1 i ∧ 0 < t.2.2 i) (by intro _ i hi; omega) ?_ h
  intro k t _ _ ih ht i hi
  by_cases h1 : t.1 = true
  · rw [if_pos h1] at ht ⊢
    by_cases h2 : forRange 0 n (c k) (fun j sum => sum + C (k * n + j) * x j) > 0
    · rw [if_pos h2] at ht; cases ht
    · rw [if_neg h2]
      dsimp only
      by_cases e : i = k
      · subst e; rw [Function.update_self, Function.update_self]; exact ⟨Real.sqrt_pos.2 hmu, Real.sqrt_pos.2 hmu⟩
      · rw [Function.update_of_ne e, Function.update_of_ne e]; exact ih h1 i (by omega)
  · rw [if_neg h1] at ht; exact absurd ht h1

theorem maxAbs_nonneg (N : ℕ) (v : ℕ → ℝ) {a : ℝ} (h : 0 ≤ a) : 0 ≤ maxAbs N v a :=
  h.trans ((maxAbs_le N v a _).1 le_rfl).1

/-- **C58.** When `qp_interior` returns true, its results satisfy the KKT conditions with error at most `epsilon`. -/
theorem qpInterior_kkt (n m : ℕ) (c C g G : ℕ → ℝ) (eps : ℝ) (maxitr : ℕ) (junk : ℕ → ℝ) (ip jp : ℕ → ℕ) (xin xout yout sout : ℕ → ℝ)
    (hok : (qpInterior n m c C g G eps maxitr junk ip jp xin xout yout sout).1 = true) :
    Kkt n m c C g G eps (qpInterior n m c C g G eps maxitr junk ip jp xin xout yout sout).2.1
      (qpInterior n m c C g G eps maxitr junk ip jp xin xout yout sout).2.2.1
      (qpInterior n m c C g G eps maxitr junk ip jp xin xout yout sout).2.2.2 := by
  unfold qpInterior at hok ⊢
  dsimp only at hok ⊢
  set M := maxAbs n g (maxAbs (n * n) G (maxAbs m c (maxAbs (m * n) C 0))) with hM
  have hM0 : 0 ≤ M := maxAbs_nonneg _ _ (maxAbs_nonneg _ _ (maxAbs_nonneg _ _ (maxAbs_nonneg _ _ le_rfl)))
  by_cases h0 : M = 0
  · rw [if_pos h0] at hok; cases hok
  · rw [if_neg h0] at hok ⊢
    have hmu : 0 < 1e-1 * M := by
      have : 0 < M := lt_of_le_of_ne hM0 (Ne.symm h0)
      positivity
    by_cases h1 : (qpInit n m c C (1e-1 * M) xin yout sout).1 = true
    · rw [if_pos h1] at hok ⊢
      exact qpLoop_ok n m c C g G junk ip jp eps maxitr _ xin _ _ _ _ rfl rfl (qpInit_ok n m c C hmu xin yout sout h1) hok
    · rw [if_neg h1] at hok; cases hok

/-- the bilinear form of a matrix -/
def bil (n : ℕ) (G x z : ℕ → ℝ) : ℝ := ∑ i ∈ Finset.range n, ∑ j ∈ Finset.range n, x i * G (i * n + j) * z j

theorem bil_symm {n : ℕ} {G : ℕ → ℝ} (h : IsSymm n G) (x z : ℕ → ℝ) : bil n G x z = bil n G z x := by
  unfold bil
  rw [Finset.sum_comm]
  refine Finset.sum_congr rfl fun i hi => Finset.sum_congr rfl fun j hj => ?_
  rw [h j (Finset.mem_range.1 hj) i (Finset.mem_range.1 hi)]; ring

theorem quad_sub {n : ℕ} {G : ℕ → ℝ} (h : IsSymm n G) (x z : ℕ → ℝ) :
    quad n G (fun i => z i - x i) = quad n G z - 2 * bil n G (fun i => z i - x i) x - quad n G x := by
  have e : quad n G (fun i => z i - x i) = quad n G z - bil n G z x - bil n G x z + quad n G x := by
    unfold quad bil
    rw [← Finset.sum_sub_distrib, ← Finset.sum_sub_distrib, ← Finset.sum_add_distrib]
    refine Finset.sum_congr rfl fun i _ => ?_
    rw [← Finset.sum_sub_distrib, ← Finset.sum_sub_distrib, ← Finset.sum_add_distrib]
    exact Finset.sum_congr rfl fun j _ => by ring
  have e2 : bil n G (fun i => z i - x i) x = bil n G z x - quad n G x := by
    unfold quad bil
    rw [← Finset.sum_sub_distrib]
    refine Finset.sum_congr rfl fun i _ => ?_
    rw [← Finset.sum_sub_distrib]
    exact Finset.sum_congr rfl fun j _ => by ring
  rw [e, e2, bil_symm h x z]; ring

/-- **C58.** A point that satisfies the KKT conditions with error at most `eps` almost satisfies the constraints, and its cost is almost
minimal, for a convex problem. -/
theorem kkt_near {n m : ℕ} {c C g G : ℕ → ℝ} {eps : ℝ} {x y s : ℕ → ℝ} (h : Kkt n m c C g G eps x y s) :
    (∀ i < m, rowVal n C c x i < eps) ∧
    (IsSymm n G → IsPsd n G → ∀ z, (∀ i < m, rowVal n C c z i ≤ 0) →
      qpCost n g G x ≤ qpCost n g G z + eps * (∑ j ∈ Finset.range n, |z j - x j| + ∑ i ∈ Finset.range m, y i + m)) := by
  refine ⟨fun i hi => ?_, fun hs hp z hz => ?_⟩
  · have := (abs_le.1 (h.constraint i hi)).2
    have := h.s_pos i hi
    linarith
  · have h1 := hp (fun i => z i - x i)
    rw [quad_sub hs] at h1
    -- the gradient in the direction z - x
    set rx : ℕ → ℝ := fun j => g j + ∑ i ∈ Finset.range n, G (j * n + i) * x i + ∑ i ∈ Finset.range m, y i * C (i * n + j) with hrx
    have e1 : bil n G (fun i => z i - x i) x + (cost n g z - cost n g x) =
        ∑ j ∈ Finset.range n, rx j * (z j - x j) - ∑ i ∈ Finset.range m, y i * (rowVal n C c z i - rowVal n C c x i) := by
      have e2 : ∑ i ∈ Finset.range m, y i * (rowVal n C c z i - rowVal n C c x i) =
          ∑ j ∈ Finset.range n, (∑ i ∈ Finset.range m, y i * C (i * n + j)) * (z j - x j) := by
        simp only [Finset.sum_mul]
        rw [Finset.sum_comm]
        refine Finset.sum_congr rfl fun i _ => ?_
        unfold rowVal
        rw [show ∀ a b d : ℝ, a + d - (b + d) = a - b by intros; ring, ← Finset.sum_sub_distrib, Finset.mul_sum]
        exact Finset.sum_congr rfl fun j _ => by ring
      rw [e2]
      unfold bil cost
      rw [← Finset.sum_sub_distrib, ← Finset.sum_sub_distrib, ← Finset.sum_add_distrib]
      refine Finset.sum_congr rfl fun j _ => ?_
      have : ∑ i ∈ Finset.range n, (z j - x j) * G (j * n + i) * x i = (z j - x j) * ∑ i ∈ Finset.range n, G (j * n + i) * x i := by
        rw [Finset.mul_sum]
        exact Finset.sum_congr rfl fun i _ => by ring
      rw [this, hrx]
      ring
    have h2 : - (eps * ∑ j ∈ Finset.range n, |z j - x j|) ≤ ∑ j ∈ Finset.range n, rx j * (z j - x j) := by
      rw [Finset.mul_sum, ← Finset.sum_neg_distrib]
      refine Finset.sum_le_sum fun j hj => ?_
      have hr := h.gradient j (Finset.mem_range.1 hj)
      have : |rx j * (z j - x j)| ≤ eps * |z j - x j| := by
        rw [abs_mul]; exact mul_le_mul_of_nonneg_right hr (abs_nonneg _)
      exact (abs_le.1 this).1
    have h3 : ∑ i ∈ Finset.range m, y i * (rowVal n C c z i - rowVal n C c x i) ≤ eps * ∑ i ∈ Finset.range m, y i + eps * m := by
      rw [Finset.mul_sum, show eps * (m : ℝ) = ∑ i ∈ Finset.range m, eps by rw [Finset.sum_const, Finset.card_range, nsmul_eq_mul]; ring,
        ← Finset.sum_add_distrib]
      refine Finset.sum_le_sum fun i hi => ?_
      have hi := Finset.mem_range.1 hi
      have a1 := hz i hi
      have a2 := (abs_le.1 (h.constraint i hi)).1
      have a3 := (abs_le.1 (h.slack i hi)).2
      have a4 := h.y_pos i hi
      have : rowVal n C c z i - rowVal n C c x i ≤ s i + eps := by linarith
      have := mul_le_mul_of_nonneg_left this a4.le
      linarith
    unfold qpCost
    nlinarith

/-- **C58.** When `qp_interior` returns true for a convex problem, `xout` almost satisfies the constraints and its cost is almost minimal. -/
theorem qpInterior_ok (n m : ℕ) (c C g G : ℕ → ℝ) (eps : ℝ) (maxitr : ℕ) (junk : ℕ → ℝ) (ip jp : ℕ → ℕ) (xin xout yout sout x y s : ℕ → ℝ)
    (hok : qpInterior n m c C g G eps maxitr junk ip jp xin xout yout sout = (true, x, y, s)) :
    Kkt n m c C g G eps x y s ∧ (∀ i < m, rowVal n C c x i < eps) ∧
    (IsSymm n G → IsPsd n G → ∀ z, (∀ i < m, rowVal n C c z i ≤ 0) →
      qpCost n g G x ≤ qpCost n g G z + eps * (∑ j ∈ Finset.range n, |z j - x j| + ∑ i ∈ Finset.range m, y i + m)) := by
  have h := qpInterior_kkt n m c C g G eps maxitr junk ip jp xin xout yout sout (by rw [hok])
  rw [hok] at h
  exact ⟨h, kkt_near h⟩

end CppAD.AbsOpt
