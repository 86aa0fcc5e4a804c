import Verif.Ode.RosTab
import Verif.Ode.RosSeries

/-! # The order conditions of `Rosen34` (property C68) -/

namespace CppAD.Rk

open Filter Topology Asymptotics
open scoped ContDiff

/-- the weights of the location of an evaluation -/
def bR (k l : ℕ) : ℚ := rosB ((k - 1) * 2 + l)

/-- the weights of the previous solutions on the right side -/
def cR (k l : ℕ) : ℚ := rosCg ((k - 1) * 3 + l)

/-- the coefficients of the solutions of the linear equations; the last one uses the previous evaluation -/
def uf (s : Fin 17 → ℚ) : ℕ → ℕ → Fin 17 → ℚ
  | 0 => fun _ => 0
  | k + 1 => Function.update (uf s k) k (solve s fun i =>
      next (fun i => s i + ∑ l ∈ Finset.range (min k 2), bR (min k 2) l * uf s k l i) i +
        ∑ l ∈ Finset.range k, cR k l * uf s k l i)

set_option maxHeartbeats 4000000 in
/-- the weights `d4` advance the series of the exact solution by one step -/
theorem order4R (m : ℚ) : ∀ i, deg i ≤ 3 →
    after m i + ∑ k ∈ Finset.range 4, rosD4 k * uf (after m) 4 k i = after (m + 1) i := by
  intro i hi
  fin_cases i <;> first
    | exact absurd hi (by decide)
    | (simp [Finset.sum_range_succ, uf, solve, bR, cR, rosB, rosCg, rosD4, next, after, exact, deg, Function.update]; ring)

set_option maxHeartbeats 4000000 in
/-- the two sets of weights agree up to the third order -/
theorem order3R (m : ℚ) : ∀ i, deg i ≤ 2 →
    ∑ k ∈ Finset.range 4, (rosD4 k - rosD3 k) * uf (after m) 4 k i = 0 := by
  intro i hi
  fin_cases i <;> first
    | exact absurd hi (by decide)
    | (simp [Finset.sum_range_succ, uf, solve, bR, cR, rosB, rosCg, rosD4, rosD3, next, after, exact, deg, Function.update]; ring)
    | (simp [Finset.sum_range_succ, uf, solve, bR, cR, rosB, rosCg, rosD4, rosD3, next, after, exact, deg, Function.update]; norm_num)

set_option synthInstance.maxHeartbeats 400000
set_option maxSynthPendingDepth 4

variable {W : Type} [NormedAddCommGroup W] [NormedSpace ℝ W]

/-- the series of the solutions of the linear equations -/
theorem solves {G : W → W} (hG : ContDiff ℝ ∞ G) {z0 : W} {z : ℝ → W} {s : Fin 17 → ℚ} {u : ℕ → ℝ → W}
    (hz : Ord 5 fun h => z h - (z0 + h • ser G z0 s h))
    (hu : ∀ k < 4, ∀ᶠ h in 𝓝 (0 : ℝ), u k h - (h / 2) • G1 G (z h) (u k h) =
      G (z h + h • ∑ l ∈ Finset.range (min k 2), (bR (min k 2) l : ℝ) • u l h) +
        ∑ l ∈ Finset.range k, (cR k l : ℝ) • u l h) (k : ℕ) (hk : k ≤ 4) :
    ∀ l < k, Ord 4 fun h => u l h - ser G z0 (uf s k l) h := by
  induction k with
  | zero => intro l hl; omega
  | succ k ih =>
    have ih := ih (by omega)
    intro l hl
    by_cases e : l = k
    · subst e
      have h1 := comb (w := bR (min l 2)) (J := min l 2) hz (fun q hq => ih q (by omega))
      have h2 := (expand z0 hG (by omega : 1 ≤ 5) le_rfl _ h1).mono (by omega : 4 ≤ 5)
      have h3 : Ord 4 fun h => ∑ q ∈ Finset.range l, (cR l q : ℝ) • (u q h - ser G z0 (uf s l q) h) :=
        Ord.sum _ fun q hq => (ih q (Finset.mem_range.1 hq)).smul _
      rw [uf, Function.update_self]
      refine solve_series hG hz ?_ (hu l (by omega))
      refine (h2.add h3).congr fun h => ?_
      rw [ser_comb]
      simp only [smul_sub, Finset.sum_sub_distrib]
      abel
    · rw [uf, Function.update_of_ne e]
      exact ih l (by omega)

end CppAD.Rk
