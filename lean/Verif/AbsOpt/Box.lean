import Verif.AbsOpt.Init
import Verif.AtomEx.MatFwd

/-!
# Linear programs with box constraints
-/

namespace CppAD.AbsOpt

open CppAD.AtomEx (idx_inj idx_lt exists_row_col)

/-- one when there is a limit for the variable -/
noncomputable def lim (d : ℕ → Option ℝ) (j : ℕ) : ℝ := if (d j).isSome then 1 else 0

theorem lim_pos {d : ℕ → Option ℝ} {j : ℕ} : lim d j > 0 ↔ (d j).isSome := by
  unfold lim
  by_cases h : (d j).isSome
  · simp [h]
  · simp [h]

theorem nLimit_eq (n : ℕ) (d : ℕ → Option ℝ) : (forRange 0 n 0 fun j k => if (d j).isSome then k + 1 else k) = numAux n (lim d) := by
  unfold numAux
  refine forRange_congr _ fun j k _ _ => ?_
  by_cases h : (d j).isSome
  · rw [if_pos h, if_pos (lim_pos.2 h)]
  · rw [if_neg h, if_neg (fun hc => h (lim_pos.1 hc))]

theorem sum_pairs (n : ℕ) (f : ℕ → ℝ) : ∑ q ∈ Finset.range (2 * n), f q = ∑ j ∈ Finset.range n, (f (2 * j) + f (2 * j + 1)) := by
  induction n with
  | zero => simp
  | succ n ih =>
    rw [show 2 * (n + 1) = 2 * n + 1 + 1 by ring, Finset.sum_range_succ, Finset.sum_range_succ, ih, Finset.sum_range_succ]; ring

theorem zeros_ok (N : ℕ) (junk : ℕ → ℝ) : ∀ i < N, forRange 0 N junk (fun i a => Function.update a i 0) i = 0 := by
  refine forRange_ind (s := junk) (f := fun i a => Function.update a i 0) (Nat.zero_le N) (fun K a => ∀ i < K, a i = 0) (by intro i hi; omega) ?_
  intro k a _ _ ih i hi
  by_cases e : i = k
  · subst e; rw [Function.update_self]
  · rw [Function.update_of_ne e]; exact ih i (by omega)

/-- two assignments for each index -/
theorem pairs_ok (n p : ℕ) (f g : ℕ → ℝ) (a : ℕ → ℝ) (k : ℕ) :
    (∀ j < n, forRange 0 n a (fun j a => Function.update (Function.update a (p + 2 * j) (f j)) (p + 2 * j + 1) (g j)) (p + 2 * j) = f j ∧
      forRange 0 n a (fun j a => Function.update (Function.update a (p + 2 * j) (f j)) (p + 2 * j + 1) (g j)) (p + 2 * j + 1) = g j) ∧
    ((k < p ∨ p + 2 * n ≤ k) → forRange 0 n a (fun j a => Function.update (Function.update a (p + 2 * j) (f j)) (p + 2 * j + 1) (g j)) k = a k) := by
  refine forRange_ind (s := a) (f := fun j a => Function.update (Function.update a (p + 2 * j) (f j)) (p + 2 * j + 1) (g j)) (Nat.zero_le n)
    (fun K t => (∀ j < K, t (p + 2 * j) = f j ∧ t (p + 2 * j + 1) = g j) ∧ ((k < p ∨ p + 2 * K ≤ k) → t k = a k))
    ⟨by intro j hj; omega, fun _ => rfl⟩ ?_
  intro m t _ _ ih
  refine ⟨fun j hj => ?_, fun h => ?_⟩
  · by_cases e : j = m
    · subst e
      rw [Function.update_of_ne (by omega), Function.update_self, Function.update_self]
      exact ⟨rfl, rfl⟩
    · rw [Function.update_of_ne (by omega), Function.update_of_ne (by omega), Function.update_of_ne (by omega), Function.update_of_ne (by omega)]
      exact ih.1 j (by omega)
  · rw [Function.update_of_ne (by omega), Function.update_of_ne (by omega)]
    exact ih.2 (by omega)

theorem rows_ok (m n N : ℕ) (A b : ℕ → ℝ) (a bS : ℕ → ℝ) (h0 : ∀ i < N * (2 * n), a i = 0) (hm : m ≤ N) :
    ∃ a' b', forRange 0 m (a, bS) (fun i s => (forRange 0 n s.1 fun j a =>
        Function.update (Function.update a (i * (2 * n) + 2 * j) (A (i * n + j))) (i * (2 * n) + 2 * j + 1) (- A (i * n + j)),
        Function.update s.2 i (b i))) = (a', b') ∧
      (∀ i < m, b' i = b i ∧ ∀ j < n, a' (i * (2 * n) + 2 * j) = A (i * n + j) ∧ a' (i * (2 * n) + 2 * j + 1) = - A (i * n + j)) ∧
      ∀ i < N, m ≤ i → ∀ q < 2 * n, a' (i * (2 * n) + q) = 0 := by
  refine forRange_ind (s := (a, bS)) (Nat.zero_le m) (fun K (s : (ℕ → ℝ) × (ℕ → ℝ)) => ∃ a' b', s = (a', b') ∧
      (∀ i < K, b' i = b i ∧ ∀ j < n, a' (i * (2 * n) + 2 * j) = A (i * n + j) ∧ a' (i * (2 * n) + 2 * j + 1) = - A (i * n + j)) ∧
      ∀ i < N, K ≤ i → ∀ q < 2 * n, a' (i * (2 * n) + q) = 0)
    ⟨a, bS, rfl, by intro i hi; omega, fun i hi _ q hq => h0 _ (idx_lt hi hq)⟩ ?_
  rintro i _ _ hi ⟨a', b', rfl, g1, g2⟩
  refine ⟨_, _, rfl, fun i' hi' => ⟨?_, fun j hj => ?_⟩, fun i' hi' hle q hq => ?_⟩
  · by_cases e : i' = i
    · subst e; rw [Function.update_self]
    · rw [Function.update_of_ne e]; exact (g1 i' (by omega)).1
  · by_cases e : i' = i
    · subst e
      exact (pairs_ok n (i' * (2 * n)) (fun j => A (i' * n + j)) (fun j => - A (i' * n + j)) a' 0).1 j hj
    · have hle : (i' + 1) * (2 * n) ≤ i * (2 * n) := Nat.mul_le_mul_right _ (by omega)
      rw [Nat.add_mul, Nat.one_mul] at hle
      have h1 := (pairs_ok n (i * (2 * n)) (fun j => A (i * n + j)) (fun j => - A (i * n + j)) a' (i' * (2 * n) + 2 * j)).2 (by omega)
      have h2 := (pairs_ok n (i * (2 * n)) (fun j => A (i * n + j)) (fun j => - A (i * n + j)) a' (i' * (2 * n) + 2 * j + 1)).2 (by omega)
      have := (g1 i' (by omega)).2 j hj
      exact ⟨h1.trans this.1, h2.trans this.2⟩
  · have hle : (i + 1) * (2 * n) ≤ i' * (2 * n) := Nat.mul_le_mul_right _ (by omega)
    rw [Nat.add_mul, Nat.one_mul] at hle
    have h1 := (pairs_ok n (i * (2 * n)) (fun j => A (i * n + j)) (fun j => - A (i * n + j)) a' (i' * (2 * n) + q)).2 (by omega)
    exact h1.trans (g2 i' hi' (by omega) q hq)

theorem limits_ok (m n N : ℕ) (d : ℕ → Option ℝ) (a bS : ℕ → ℝ) (h0 : ∀ i < N, m ≤ i → ∀ q < 2 * n, a (i * (2 * n) + q) = 0)
    (hN : N = m + 2 * numAux n (lim d)) :
    ∃ k a' b', forRange 0 n (0, a, bS) (boxLimit m n d) = (k, a', b') ∧
      (∀ i < m, b' i = bS i ∧ ∀ q < 2 * n, a' (i * (2 * n) + q) = a (i * (2 * n) + q)) ∧
      ∀ j < n, ∀ dj, d j = some dj → b' (m + 2 * numAux j (lim d)) = - dj ∧ b' (m + 2 * numAux j (lim d) + 1) = - dj ∧
        (∀ q < 2 * n, a' ((m + 2 * numAux j (lim d)) * (2 * n) + q) = if q = 2 * j then 1 else 0) ∧
        ∀ q < 2 * n, a' ((m + 2 * numAux j (lim d) + 1) * (2 * n) + q) = if q = 2 * j + 1 then 1 else 0 := by
  obtain ⟨k, a', b', e, _, h1, h2, _⟩ := forRange_ind (s := (0, a, bS)) (f := boxLimit m n d) (Nat.zero_le n) (fun K (s : ℕ × (ℕ → ℝ) × (ℕ → ℝ)) => ∃ k a' b', s = (k, a', b') ∧ k = numAux K (lim d) ∧
      (∀ i < m, b' i = bS i ∧ ∀ q < 2 * n, a' (i * (2 * n) + q) = a (i * (2 * n) + q)) ∧
      (∀ j < K, ∀ dj, d j = some dj → b' (m + 2 * numAux j (lim d)) = - dj ∧ b' (m + 2 * numAux j (lim d) + 1) = - dj ∧
        (∀ q < 2 * n, a' ((m + 2 * numAux j (lim d)) * (2 * n) + q) = if q = 2 * j then 1 else 0) ∧
        ∀ q < 2 * n, a' ((m + 2 * numAux j (lim d) + 1) * (2 * n) + q) = if q = 2 * j + 1 then 1 else 0) ∧
      ∀ i < N, m + 2 * k ≤ i → ∀ q < 2 * n, a' (i * (2 * n) + q) = 0)
    ⟨0, a, bS, rfl, by unfold numAux; rw [forRange_of_le le_rfl], fun i hi => ⟨rfl, fun q hq => rfl⟩, by intro j hj; omega,
      fun i hi hm q hq => h0 i hi (by omega) q hq⟩ (by
    rintro j _ _ hj ⟨k, a', b', rfl, hk, g1, g2, g3⟩
    unfold boxLimit
    cases hd : d j with
    | none =>
      refine ⟨k, a', b', rfl, ?_, g1, fun j' hj' dj' hdj' => ?_, g3⟩
      · rw [numAux_succ, if_neg (fun hc => by have := lim_pos.1 hc; rw [hd] at this; cases this), hk]
      · by_cases e : j' = j
        · rw [e, hd] at hdj'; cases hdj'
        · exact g2 j' (by omega) dj' hdj'
    | some dj =>
      have hl : lim d j > 0 := lim_pos.2 (by rw [hd]; rfl)
      have hlt : k < numAux n (lim d) := hk ▸ numAux_lt hj hl
      dsimp only
      -- the entries that do not change
      have hkeep : ∀ i q, q < 2 * n → (i ≠ m + 2 * k ∨ q ≠ 2 * j) → (i ≠ m + 2 * k + 1 ∨ q ≠ 2 * j + 1) →
          (Function.update (Function.update a' ((m + 2 * k) * (2 * n) + 2 * j) 1) ((m + 2 * k + 1) * (2 * n) + 2 * j + 1) 1)
            (i * (2 * n) + q) = a' (i * (2 * n) + q) := by
        intro i q hq hc1 hc2
        rw [Function.update_of_ne, Function.update_of_ne]
        · intro hc
          have := idx_inj hq (by omega) hc
          omega
        · intro hc
          rw [Nat.add_assoc _ (2 * j)] at hc
          have := idx_inj hq (by omega) hc
          omega
      have hset1 : (Function.update (Function.update a' ((m + 2 * k) * (2 * n) + 2 * j) 1) ((m + 2 * k + 1) * (2 * n) + 2 * j + 1) 1)
            ((m + 2 * k) * (2 * n) + 2 * j) = 1 := by
        rw [Function.update_of_ne, Function.update_self]
        intro hc
        rw [Nat.add_assoc _ (2 * j)] at hc
        have := idx_inj (by omega) (by omega) hc
        omega
      have hset2 : (Function.update (Function.update a' ((m + 2 * k) * (2 * n) + 2 * j) 1) ((m + 2 * k + 1) * (2 * n) + 2 * j + 1) 1)
            ((m + 2 * k + 1) * (2 * n) + (2 * j + 1)) = 1 := by
        rw [← Nat.add_assoc, Function.update_self]
      refine ⟨k + 1, _, _, rfl, by rw [numAux_succ, if_pos hl, hk], fun i hi => ⟨?_, fun q hq => ?_⟩, fun j' hj' dj' hdj' => ?_, fun i hi hle q hq => ?_⟩
      · rw [Function.update_of_ne (by omega), Function.update_of_ne (by omega)]; exact (g1 i hi).1
      · rw [hkeep i q hq (by omega) (by omega)]; exact (g1 i hi).2 q hq
      · by_cases e : j' = j
        · subst e
          rw [hd] at hdj'
          cases hdj'
          rw [← hk]
          refine ⟨by rw [Function.update_of_ne (by omega), Function.update_self], Function.update_self .., fun q hq => ?_, fun q hq => ?_⟩
          · by_cases eq : q = 2 * j'
            · rw [if_pos eq, eq, hset1]
            · rw [if_neg eq, hkeep _ q hq (by omega) (by omega)]
              exact g3 _ (by omega) (by omega) q hq
          · by_cases eq : q = 2 * j' + 1
            · rw [if_pos eq, eq, hset2]
            · rw [if_neg eq, hkeep _ q hq (by omega) (by omega)]
              exact g3 _ (by omega) (by omega) q hq
        · have hl' : lim d j' > 0 := lim_pos.2 (by rw [hdj']; rfl)
          have hlt' : numAux j' (lim d) < k := hk ▸ numAux_lt (show j' < j by omega) hl'
          obtain ⟨c1, c2, c3, c4⟩ := g2 j' (by omega) dj' hdj'
          refine ⟨?_, ?_, fun q hq => ?_, fun q hq => ?_⟩
          · rw [Function.update_of_ne (by omega), Function.update_of_ne (by omega), c1]
          · rw [Function.update_of_ne (by omega), Function.update_of_ne (by omega), c2]
          · rw [hkeep _ q hq (by omega) (by omega), c3 q hq]
          · rw [hkeep _ q hq (by omega) (by omega), c4 q hq]
      · rw [hkeep _ q hq (by omega) (by omega)]
        exact g3 i hi (by omega) q hq)
  exact ⟨k, a', b', e, h1, h2⟩

theorem out_ok (n : ℕ) (z xout : ℕ → ℝ) : ∀ j < n,
    forRange 0 n xout (fun j x => Function.update x j (z (2 * j) - z (2 * j + 1))) j = z (2 * j) - z (2 * j + 1) := by
  refine forRange_ind (s := xout) (f := fun j x => Function.update x j (z (2 * j) - z (2 * j + 1))) (Nat.zero_le n)
    (fun K x => ∀ j < K, x j = z (2 * j) - z (2 * j + 1)) (by intro j hj; omega) ?_
  intro k a _ _ ih i hi
  by_cases e : i = k
  · subst e; rw [Function.update_self]
  · rw [Function.update_of_ne e]; exact ih i (by omega)

/-- **C57.** `lp_box` never fails an assertion, and when it returns true the point is a solution of the linear program with box constraints. -/
theorem lpBox_ok (m n : ℕ) (A b c : ℕ → ℝ) (d : ℕ → Option ℝ) (maxitr : ℕ) (nan : ℝ) (junkA junkB junkC junkX xout : ℕ → ℝ) :
    ∃ ok x, lpBox m n A b c d maxitr nan junkA junkB junkC junkX xout = some (ok, x) ∧ (ok = true → SolvesBox m n A b c d x) := by
  unfold lpBox
  dsimp only
  rw [nLimit_eq]
  set L := numAux n (lim d) with hL
  obtain ⟨a1, b1, e1, f1, f2⟩ := rows_ok m n (m + 2 * L) A b _ junkB (zeros_ok ((m + 2 * L) * (2 * n)) junkA) (by omega)
  rw [e1]
  obtain ⟨k, a2, b2, e2, g1, g2⟩ := limits_ok m n (m + 2 * L) d a1 b1 f2 rfl
  rw [e2]
  dsimp only
  set cS := forRange 0 n junkC fun j v => Function.update (Function.update v (2 * j) (c j)) (2 * j + 1) (- c j) with hcS
  have hc : ∀ j < n, cS (2 * j) = c j ∧ cS (2 * j + 1) = - c j := by
    intro j hj
    have := (pairs_ok n 0 c (fun j => - c j) junkC 0).1 j hj
    simp only [Nat.zero_add] at this
    exact this
  obtain ⟨ok, z, hz, hok⟩ := simplexMethod_ok (m + 2 * L) (2 * n) a2 b2 cS maxitr nan junkX
  rw [hz, Option.bind_some]
  refine ⟨ok, _, rfl, fun h => ?_⟩
  obtain ⟨⟨hz0, hzr⟩, hzo⟩ := hok h
  have hx := out_ok n z xout
  set x := forRange 0 n xout (fun j x => Function.update x j (z (2 * j) - z (2 * j + 1))) with hxd
  -- the constraints and the objective
  have hrow : ∀ (u : ℕ → ℝ) (y : ℕ → ℝ), (∀ j < n, y j = u (2 * j) - u (2 * j + 1)) → ∀ i < m,
      rowVal (2 * n) a2 b2 u i = rowVal n A b y i := by
    intro u y hy i hi
    unfold rowVal
    rw [(g1 i hi).1, (f1 i hi).1, sum_pairs]
    congr 1
    refine Finset.sum_congr rfl fun j hj => ?_
    have hj := Finset.mem_range.1 hj
    rw [(g1 i hi).2 (2 * j) (by omega), (g1 i hi).2 (2 * j + 1) (by omega), ((f1 i hi).2 j hj).1, ← Nat.add_assoc, ((f1 i hi).2 j hj).2, hy j hj]; ring
  have hcost : ∀ (u : ℕ → ℝ) (y : ℕ → ℝ), (∀ j < n, y j = u (2 * j) - u (2 * j + 1)) → cost (2 * n) cS u = cost n c y := by
    intro u y hy
    unfold cost
    rw [sum_pairs]
    refine Finset.sum_congr rfl fun j hj => ?_
    have hj := Finset.mem_range.1 hj
    rw [(hc j hj).1, (hc j hj).2, hy j hj]; ring
  have hlim : ∀ (u : ℕ → ℝ), ∀ j < n, ∀ dj, d j = some dj →
      rowVal (2 * n) a2 b2 u (m + 2 * numAux j (lim d)) = u (2 * j) - dj ∧
      rowVal (2 * n) a2 b2 u (m + 2 * numAux j (lim d) + 1) = u (2 * j + 1) - dj := by
    intro u j hj dj hd
    obtain ⟨c1, c2, c3, c4⟩ := g2 j hj dj hd
    unfold rowVal
    rw [c1, c2, Finset.sum_eq_single (2 * j), Finset.sum_eq_single (2 * j + 1), c3 _ (by omega), c4 _ (by omega), if_pos rfl, if_pos rfl]
    · constructor <;> ring
    · intro q hq hne
      rw [c4 q (Finset.mem_range.1 hq), if_neg hne, zero_mul]
    · intro hc; exact absurd (Finset.mem_range.2 (by omega)) hc
    · intro q hq hne
      rw [c3 q (Finset.mem_range.1 hq), if_neg hne, zero_mul]
    · intro hc; exact absurd (Finset.mem_range.2 (by omega)) hc
  have hidx : ∀ j < n, ∀ dj, d j = some dj → numAux j (lim d) < L := fun j hj dj hd => numAux_lt hj (lim_pos.2 (by rw [hd]; rfl))
  refine ⟨⟨fun i hi => ?_, fun j hj dj hd => ?_⟩, fun y hy => ?_⟩
  · rw [← hrow z x hx i hi]; exact hzr i (by omega)
  · have hk := hidx j hj dj hd
    have h1 := hzr (m + 2 * numAux j (lim d)) (by omega)
    have h2 := hzr (m + 2 * numAux j (lim d) + 1) (by omega)
    rw [(hlim z j hj dj hd).1] at h1
    rw [(hlim z j hj dj hd).2] at h2
    have h3 := hz0 (2 * j) (by omega)
    have h4 := hz0 (2 * j + 1) (by omega)
    rw [hx j hj]
    constructor <;> linarith
  · set u : ℕ → ℝ := fun q => if q % 2 = 0 then max (y (q / 2)) 0 else max (- y (q / 2)) 0 with hu
    have hu0 : ∀ j, u (2 * j) = max (y j) 0 := by
      intro j
      rw [hu]; dsimp only
      rw [if_pos (by omega), show 2 * j / 2 = j by omega]
    have hu1 : ∀ j, u (2 * j + 1) = max (- y j) 0 := by
      intro j
      rw [hu]; dsimp only
      rw [if_neg (by omega), show (2 * j + 1) / 2 = j by omega]
    have hy' : ∀ j < n, y j = u (2 * j) - u (2 * j + 1) := by
      intro j _
      rw [hu0, hu1]
      rcases le_total 0 (y j) with h | h
      · rw [max_eq_left h, max_eq_right (by linarith)]; ring
      · rw [max_eq_right h, max_eq_left (by linarith)]; ring
    rw [← hcost z x hx, ← hcost u y hy']
    refine hzo u ⟨fun q _ => ?_, fun i hi => ?_⟩
    · rw [hu]; dsimp only
      split
      · exact le_max_right _ _
      · exact le_max_right _ _
    · by_cases him : i < m
      · rw [hrow u y hy' i him]; exact hy.1 i him
      · obtain ⟨k', hk', ht⟩ : ∃ k' < L, i = m + 2 * k' ∨ i = m + 2 * k' + 1 := ⟨(i - m) / 2, by omega, by omega⟩
        obtain ⟨j, hj, hl, rfl⟩ := numAux_surj hk'
        obtain ⟨dj, hd⟩ := Option.isSome_iff_exists.1 (lim_pos.1 hl)
        have hb := hy.2 j hj dj hd
        rcases ht with rfl | rfl
        · rw [(hlim u j hj dj hd).1, hu0]
          have : max (y j) 0 ≤ dj := max_le hb.2 (by linarith)
          linarith
        · rw [(hlim u j hj dj hd).2, hu1]
          have : max (- y j) 0 ≤ dj := max_le (by linarith) (by linarith)
          linarith

end CppAD.AbsOpt
