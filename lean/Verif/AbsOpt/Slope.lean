import Verif.AbsOpt.EvalThm
import Verif.AtomEx.MatFwd
import Verif.AtomEx.VecSparse
import Mathlib.LinearAlgebra.Matrix.Block

/-!
# The cutting planes of `abs_min_linear`
-/

namespace CppAD.AbsOpt

open CppAD.AtomEx (forRange_assign forRange_additive idx_inj fill_mat)
open scoped Topology

theorem absSlope_ok {n s : ℕ} {gj : ℕ → ℝ} (ht : IsTri n 1 s gj) (junk : ℕ → ℝ) (ip jp : ℕ → ℕ) (sigma : ℕ → ℝ) :
    IsSlope n s gj sigma (absSlope n s gj junk ip jp sigma) := by
  unfold absSlope
  dsimp only
  have h1 : ∀ j < n, (forRange 0 n junk fun j v => Function.update v j (gj j)) j = gj j :=
    fun j hj => forRange_assign junk gj _ (fun _ _ _ => rfl) hj
  have h2 : ∀ j < s, (forRange 0 s junk fun j v => Function.update v j (gj (n + j))) j = gj (n + j) :=
    fun j hj => forRange_assign junk (fun j => gj (n + j)) _ (fun _ _ _ => rfl) hj
  have h3 := (fill_mat (n := s) (m := n) junk (fun i j => gj ((n + s) * (i + 1) + j)) (fun i j => i * n + j)
    (fun i j v => Function.update v (i * n + j) (gj ((n + s) * (i + 1) + j))) (fun _ _ _ _ _ => rfl)
    (fun i j i' j' _ hj _ hj' h => idx_inj hj hj' h)).1
  have h4 := (fill_mat (n := s) (m := s) junk (fun i j => gj ((n + s) * (i + 1) + n + j)) (fun i j => i * s + j)
    (fun i j v => Function.update v (i * s + j) (gj ((n + s) * (i + 1) + n + j))) (fun _ _ _ _ _ => rfl)
    (fun i j i' j' _ hj _ hj' h => idx_inj hj hj' h)).1
  set pypx := forRange 0 n junk fun j v => Function.update v j (gj j) with hpypx
  set pypu := forRange 0 s junk fun j v => Function.update v j (gj (n + j)) with hpypu
  set pzpx := forRange 0 s junk fun i v => forRange 0 n v fun j v => Function.update v (i * n + j) (gj ((n + s) * (i + 1) + j)) with hpzpx
  set pzpu := forRange 0 s junk fun i v => forRange 0 s v fun j v => Function.update v (i * s + j) (gj ((n + s) * (i + 1) + n + j)) with hpzpu
  -- the matrix
  have h5 : ∀ i < s, ∀ j < s, (forRange 0 s junk fun i v => Function.update (forRange 0 s v fun j v => Function.update v (i * s + j) (- pzpu (i * s + j) * sigma j)) (i * s + i)
      ((forRange 0 s v fun j v => Function.update v (i * s + j) (- pzpu (i * s + j) * sigma j)) (i * s + i) + 1)) (i * s + j) =
      (if i = j then 1 else 0) - gj ((1 + i) * (n + s) + n + j) * sigma j := by
    refine forRange_ind (s := junk) (Nat.zero_le s) (fun K t => ∀ i < K, ∀ j < s, t (i * s + j) = (if i = j then 1 else 0) - gj ((1 + i) * (n + s) + n + j) * sigma j)
      (by intros; omega) ?_
    intro k t _ hk ih i hi j hj
    have hrow := assign_off s (k * s) t (fun j => - pzpu (k * s + j) * sigma j)
    have hval : ∀ j < s, - pzpu (k * s + j) * sigma j = - (gj ((1 + k) * (n + s) + n + j) * sigma j) := by
      intro j hj
      rw [h4 k hk j hj, Nat.mul_comm (n + s), Nat.add_comm k 1]
      ring
    by_cases e : i = k
    · subst e
      by_cases e2 : i = j
      · subst e2
        rw [Function.update_self, (hrow _).1 i hj rfl, hval i hj, if_pos rfl]
        ring
      · rw [Function.update_of_ne (by omega), (hrow _).1 j hj rfl, hval j hj, if_neg e2]
        ring
    · have hlt : i * s + j < k * s := by
        calc i * s + j < i * s + s := by omega
          _ = (i + 1) * s := by ring
          _ ≤ k * s := Nat.mul_le_mul_right s (by omega)
      rw [Function.update_of_ne (by omega), (hrow _).2 (Or.inl hlt)]
      exact ih i (by omega) j hj
  set ss := forRange 0 s junk fun i v => Function.update (forRange 0 s v fun j v => Function.update v (i * s + j) (- pzpu (i * s + j) * sigma j)) (i * s + i)
      ((forRange 0 s v fun j v => Function.update v (i * s + j) (- pzpu (i * s + j) * sigma j)) (i * s + i) + 1) with hss
  have hent : ∀ i j : Fin s, Lu.mat s s ss i j = (if (i : ℕ) = j then 1 else 0) - gj ((1 + i) * (n + s) + n + j) * sigma j := fun i j => h5 i i.2 j j.2
  have hdet : (Lu.mat s s ss).det = 1 := by
    rw [Matrix.det_of_lowerTriangular]
    · refine Finset.prod_eq_one fun i _ => ?_
      rw [hent, if_pos rfl, ht i i.2 i i.2 le_rfl, zero_mul, sub_zero]
    · intro i j hij
      have hij' : (i : ℕ) < j := hij
      rw [hent, if_neg (by omega), ht i i.2 j j.2 (by omega), zero_mul, sub_zero]
  have hsol := ((Lu.luSolve_real s n ip jp junk ss pzpx).2 (by rw [hdet]; exact one_ne_zero)).2.2
  set sn := (Lu.luSolve Lu.absGeq Lu.leqZero Real.log s n ip jp junk ss pzpx).1 with hsn
  have hX : ∀ k < s, ∀ j < n, sn (k * n + j) = gj ((1 + k) * (n + s) + j) + ∑ l ∈ Finset.range s, gj ((1 + k) * (n + s) + n + l) * (sigma l * sn (l * n + j)) := by
    intro k hk j hj
    have h6 := congrFun (congrFun hsol ⟨k, hk⟩) ⟨j, hj⟩
    rw [Matrix.mul_apply] at h6
    have h7 : Lu.mat s n pzpx ⟨k, hk⟩ ⟨j, hj⟩ = gj ((1 + k) * (n + s) + j) := by
      rw [Nat.mul_comm, Nat.add_comm 1 k]; exact h3 k hk j hj
    rw [h7] at h6
    have h8 : ∀ l : Fin s, Lu.mat s n sn l ⟨j, hj⟩ = sn (l * n + j) := fun l => rfl
    simp only [hent, h8, sub_mul, Finset.sum_sub_distrib] at h6
    have h9 : ∑ l : Fin s, (if k = (l : ℕ) then (1 : ℝ) else 0) * sn (l * n + j) = sn (k * n + j) := by
      rw [Finset.sum_eq_single ⟨k, hk⟩]
      · rw [if_pos rfl, one_mul]
      · intro l _ hl
        rw [if_neg (fun h => hl (Fin.ext h.symm)), zero_mul]
      · intro h; exact absurd (Finset.mem_univ _) h
    rw [h9] at h6
    rw [Finset.sum_range, ← h6]
    simp only [mul_assoc]
    ring
  -- multiply by sigma
  have h10 : ∀ k < s, ∀ j < n, (forRange 0 s sn fun i v => forRange 0 n v fun j v => Function.update v (i * n + j) (v (i * n + j) * sigma i)) (k * n + j) =
      sn (k * n + j) * sigma k := by
    have := forRange_ind (s := sn) (f := fun i v => forRange 0 n v fun j v => Function.update v (i * n + j) (v (i * n + j) * sigma i)) (Nat.zero_le s)
      (fun K t => (∀ k < K, ∀ j < n, t (k * n + j) = sn (k * n + j) * sigma k) ∧ ∀ c, K * n ≤ c → t c = sn c) ⟨by intros; omega, fun _ _ => rfl⟩ ?_
    · exact this.1
    rintro k t _ hk ⟨i1, i2⟩
    have hrow : (∀ j < n, (forRange 0 n t fun j v => Function.update v (k * n + j) (v (k * n + j) * sigma k)) (k * n + j) = t (k * n + j) * sigma k) ∧
        ∀ c, (c < k * n ∨ k * n + n ≤ c) → (forRange 0 n t fun j v => Function.update v (k * n + j) (v (k * n + j) * sigma k)) c = t c := by
      have := forRange_ind (s := t) (f := fun j v => Function.update v (k * n + j) (v (k * n + j) * sigma k)) (Nat.zero_le n)
        (fun J u => (∀ j < J, u (k * n + j) = t (k * n + j) * sigma k) ∧ ∀ c, (c < k * n ∨ k * n + J ≤ c) → u c = t c) ⟨by intros; omega, fun _ _ => rfl⟩ ?_
      · exact this
      rintro j u _ hj ⟨j1, j2⟩
      refine ⟨fun j' hj' => ?_, fun c hc => ?_⟩
      · by_cases e : j' = j
        · subst e; rw [Function.update_self, j2 _ (by omega)]
        · rw [Function.update_of_ne (by omega)]; exact j1 j' (by omega)
      · rw [Function.update_of_ne (by omega)]; exact j2 c (by omega)
    have hkn : (k + 1) * n = k * n + n := by ring
    refine ⟨fun k' hk' j hj => ?_, fun c hc => ?_⟩
    · by_cases e : k' = k
      · subst e; rw [hrow.1 j hj, i2 _ (by omega)]
      · have hlt : k' * n + j < k * n := by
          calc k' * n + j < k' * n + n := by omega
            _ = (k' + 1) * n := by ring
            _ ≤ k * n := Nat.mul_le_mul_right n (by omega)
        rw [hrow.2 _ (Or.inl hlt)]
        exact i1 k' (by omega) j hj
    · rw [hrow.2 _ (Or.inr (by omega))]
      exact i2 c (by omega)
  set sn2 := forRange 0 s sn fun i v => forRange 0 n v fun j v => Function.update v (i * n + j) (v (i * n + j) * sigma i) with hsn2
  refine ⟨fun k j => sn (k * n + j), hX, fun j hj => ?_⟩
  have h11 : ∀ (j : ℕ) (t : ℕ → ℝ), j < n → (forRange 0 s (Function.update t j (pypx j)) fun k v => Function.update v j (v j + pypu k * sn2 (k * n + j))) =
      Function.update t j (pypx j + ∑ k ∈ Finset.range s, pypu k * sn2 (k * n + j)) := by
    intro j t _
    rw [accum, Function.update_idem, Function.update_self]
  have h12 := forRange_assign (α := ℝ) junk (fun j => pypx j + ∑ k ∈ Finset.range s, pypu k * sn2 (k * n + j))
    (fun j t => forRange 0 s (Function.update t j (pypx j)) fun k v => Function.update v j (v j + pypu k * sn2 (k * n + j))) h11 hj
  refine h12.trans ?_
  rw [h1 j hj]
  congr 1
  refine Finset.sum_congr rfl fun k hk => ?_
  have := Finset.mem_range.1 hk
  rw [h2 k this, h10 k this j hj]
  ring

/-- the sign of a number that is not zero does not change near the number -/
theorem abs_near {z : ℝ} (hz : z ≠ 0) (q : ℝ) : ∀ᶠ t in 𝓝 (0 : ℝ), |z + t * q| = |z| + t * (sgn z * q) := by
  have hc : Filter.Tendsto (fun t : ℝ => z + t * q) (𝓝 0) (𝓝 z) := by
    have : Continuous fun t : ℝ => z + t * q := by fun_prop
    simpa using this.tendsto 0
  rcases lt_or_gt_of_ne hz with h | h
  · filter_upwards [hc.eventually (gt_mem_nhds h)] with t ht
    unfold sgn
    rw [abs_of_neg ht, abs_of_neg h, if_neg (by linarith), if_neg hz]
    ring
  · filter_upwards [hc.eventually (lt_mem_nhds h)] with t ht
    unfold sgn
    rw [abs_of_pos ht, abs_of_pos h, if_pos h]
    ring

/-- **C59.** The cutting planes are below a convex approximation, at points where an absolute value with argument zero is not nested. -/
theorem slope_minor {n s : ℕ} {g gj : ℕ → ℝ} (ht : IsTri n 1 s gj) {f : (ℕ → ℝ) → ℝ} (hf : IsTilde n s g gj f) (hcv : ConvexOn ℝ Set.univ f)
    {d gt sigma p : ℕ → ℝ} (hgt : IsApprox n 1 s g gj d gt) (hsg : ∀ k < s, sigma k = sgn (gt (1 + k))) (hnn : NotNested n s gj gt)
    (hp : IsSlope n s gj sigma p) (y : ℕ → ℝ) : f d + ∑ j ∈ Finset.range n, p j * (y j - d j) ≤ f y := by
  obtain ⟨X, hX, hp⟩ := hp
  set v : ℕ → ℝ := fun j => y j - d j with hv
  set q : ℕ → ℝ := fun k => ∑ j ∈ Finset.range n, X k j * v j with hq
  have hqe : ∀ k < s, q k = ∑ j ∈ Finset.range n, gj ((1 + k) * (n + s) + j) * v j +
      ∑ l ∈ Finset.range s, gj ((1 + k) * (n + s) + n + l) * (sigma l * q l) := by
    intro k hk
    have e1 : q k = ∑ j ∈ Finset.range n, (gj ((1 + k) * (n + s) + j) * v j + ∑ l ∈ Finset.range s, gj ((1 + k) * (n + s) + n + l) * (sigma l * (X l j * v j))) := by
      rw [hq]
      refine Finset.sum_congr rfl fun j hj => ?_
      rw [hX k hk j (Finset.mem_range.1 hj), add_mul, Finset.sum_mul]
      congr 1
      refine Finset.sum_congr rfl fun l _ => ?_
      ring
    rw [e1, Finset.sum_add_distrib]
    congr 1
    rw [Finset.sum_comm]
    refine Finset.sum_congr rfl fun l _ => ?_
    rw [hq, Finset.mul_sum, Finset.mul_sum]
  have hpv : ∑ j ∈ Finset.range n, p j * v j = ∑ j ∈ Finset.range n, gj j * v j + ∑ k ∈ Finset.range s, gj (n + k) * (sigma k * q k) := by
    have e1 : ∑ j ∈ Finset.range n, p j * v j = ∑ j ∈ Finset.range n, (gj j * v j + ∑ k ∈ Finset.range s, gj (n + k) * (sigma k * (X k j * v j))) := by
      refine Finset.sum_congr rfl fun j hj => ?_
      rw [hp j (Finset.mem_range.1 hj), add_mul, Finset.sum_mul]
      congr 1
      refine Finset.sum_congr rfl fun l _ => ?_
      ring
    rw [e1, Finset.sum_add_distrib]
    congr 1
    rw [Finset.sum_comm]
    refine Finset.sum_congr rfl fun l _ => ?_
    rw [hq, Finset.mul_sum, Finset.mul_sum]
  set P := ∑ j ∈ Finset.range n, p j * v j with hP
  set E := ∑ k ∈ Finset.range s, gj (n + k) * (if gt (1 + k) = 0 then |q k| else 0) with hE
  -- values along the line
  have hfd : gt 0 = f d := by
    obtain ⟨gt', h1, h2⟩ := hf d
    rw [← h2]
    exact isApprox_unique ht (fun _ _ => rfl) hgt h1 0 (by omega)
  have hline : ∀ᶠ t in 𝓝 (0 : ℝ), f (fun j => d j + t * v j) = f d + t * P + |t| * E := by
    have h1 : ∀ᶠ t in 𝓝 (0 : ℝ), ∀ k ∈ Finset.range s, gt (1 + k) ≠ 0 → |gt (1 + k) + t * q k| = |gt (1 + k)| + t * (sigma k * q k) := by
      rw [Filter.eventually_all_finset]
      intro k hk
      by_cases hz : gt (1 + k) = 0
      · exact Filter.Eventually.of_forall fun t h => absurd hz h
      · filter_upwards [abs_near hz (q k)] with t h _
        rw [h, hsg k (Finset.mem_range.1 hk)]
    filter_upwards [h1] with t h1
    set gt' : ℕ → ℝ := fun i => if i = 0 then f d + t * P + |t| * E else gt i + t * q (i - 1) with hgt'
    have hz' : ∀ k, gt' (1 + k) = gt (1 + k) + t * q k := by
      intro k
      rw [hgt']
      dsimp only
      rw [if_neg (by omega), Nat.add_sub_cancel_left]
    have habs : ∀ k < s, |gt' (1 + k)| = |gt (1 + k)| + t * (sigma k * q k) + |t| * (if gt (1 + k) = 0 then |q k| else 0) := by
      intro k hk
      rw [hz']
      by_cases h : gt (1 + k) = 0
      · rw [if_pos h, hsg k hk, h]
        unfold sgn
        rw [if_neg (by simp), if_pos rfl, abs_zero, zero_add, abs_mul]
        ring
      · rw [if_neg h, h1 k (Finset.mem_range.2 hk) h]
        ring
    have happ : IsApprox n 1 s g gj (fun j => d j + t * v j) gt' := by
      intro i hi
      have hsumx : ∀ i, ∑ j ∈ Finset.range n, gj (i * (n + s) + j) * (d j + t * v j) =
          ∑ j ∈ Finset.range n, gj (i * (n + s) + j) * d j + t * ∑ j ∈ Finset.range n, gj (i * (n + s) + j) * v j := by
        intro i
        rw [Finset.mul_sum, ← Finset.sum_add_distrib]
        exact Finset.sum_congr rfl fun j _ => by ring
      have hsumu : ∀ i, ∑ k ∈ Finset.range s, gj (i * (n + s) + n + k) * (|gt' (1 + k)| - |g (1 + k)|) =
          ∑ k ∈ Finset.range s, gj (i * (n + s) + n + k) * (|gt (1 + k)| - |g (1 + k)|) +
          t * ∑ k ∈ Finset.range s, gj (i * (n + s) + n + k) * (sigma k * q k) +
          |t| * ∑ k ∈ Finset.range s, gj (i * (n + s) + n + k) * (if gt (1 + k) = 0 then |q k| else 0) := by
        intro i
        rw [Finset.mul_sum, Finset.mul_sum, ← Finset.sum_add_distrib, ← Finset.sum_add_distrib]
        refine Finset.sum_congr rfl fun k hk => ?_
        rw [habs k (Finset.mem_range.1 hk)]
        ring
      have hl := hgt i hi
      unfold lin at hl ⊢
      rw [hsumx, hsumu]
      by_cases h0 : i = 0
      · subst h0
        have : gt' 0 = f d + t * P + |t| * E := by rw [hgt']; dsimp only; rw [if_pos rfl]
        rw [this, ← hfd, hl, hpv, hE]
        simp only [zero_mul, zero_add]
        ring
      · obtain ⟨k, rfl⟩ : ∃ k, i = 1 + k := ⟨i - 1, by omega⟩
        have hzero : ∑ l ∈ Finset.range s, gj ((1 + k) * (n + s) + n + l) * (if gt (1 + l) = 0 then |q l| else 0) = 0 := by
          refine Finset.sum_eq_zero fun l hl => ?_
          by_cases h : gt (1 + l) = 0
          · rw [hnn l (Finset.mem_range.1 hl) h k (by omega), zero_mul]
          · rw [if_neg h, mul_zero]
        rw [hz', hzero, hl, hqe k (by omega)]
        ring
    obtain ⟨gt'', h2, h3⟩ := hf (fun j => d j + t * v j)
    rw [← h3, ← isApprox_unique ht (fun _ _ => rfl) happ h2 0 (by omega), hgt']
    dsimp only
    rw [if_pos rfl]
  obtain ⟨ε, hε, hb⟩ := Metric.eventually_nhds_iff.1 hline
  set t := min 1 (ε / 2) with htd
  have ht0 : 0 < t := lt_min one_pos (by positivity)
  have ht1 : t ≤ 1 := min_le_left _ _
  have ht2 : t < ε := lt_of_le_of_lt (min_le_right _ _) (by linarith)
  have hp1 : f (fun j => d j + t * v j) = f d + t * P + |t| * E := hb (by rw [Real.dist_eq, sub_zero, abs_of_pos ht0]; exact ht2)
  have hm1 : f (fun j => d j + -t * v j) = f d + -t * P + |-t| * E := hb (by rw [Real.dist_eq, sub_zero, abs_neg, abs_of_pos ht0]; exact ht2)
  rw [abs_neg] at hm1
  rw [abs_of_pos ht0] at hp1 hm1
  have c1 := hcv.2 (Set.mem_univ (fun j => d j + t * v j)) (Set.mem_univ (fun j => d j + -t * v j)) (show (0 : ℝ) ≤ 1 / 2 by norm_num) (show (0 : ℝ) ≤ 1 / 2 by norm_num) (by norm_num)
  have e1 : ((1 : ℝ) / 2) • (fun j => d j + t * v j) + ((1 : ℝ) / 2) • (fun j => d j + -t * v j) = d := by
    funext j
    simp only [Pi.add_apply, Pi.smul_apply, smul_eq_mul]
    ring
  rw [e1, hp1, hm1, smul_eq_mul, smul_eq_mul] at c1
  have hE0 : 0 ≤ t * E := by linarith
  have c2 := hcv.2 (Set.mem_univ d) (Set.mem_univ y) (show (0 : ℝ) ≤ 1 - t by linarith) ht0.le (by ring)
  have e2 : (1 - t) • d + t • y = fun j => d j + t * v j := by
    funext j
    simp only [Pi.add_apply, Pi.smul_apply, smul_eq_mul, hv]
    ring
  rw [e2, hp1, smul_eq_mul, smul_eq_mul] at c2
  have c3 : t * (f d + P) ≤ t * f y := by linarith
  exact le_of_mul_le_mul_left c3 ht0

end CppAD.AbsOpt
