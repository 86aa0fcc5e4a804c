import Verif.AbsOpt.QpThm
import Verif.AbsOpt.Box

/-!
# Quadratic programs with box constraints
-/

namespace CppAD.AbsOpt

open CppAD.AtomEx (forRange_assign idx_inj idx_lt exists_row_col)

/-- *Specification*: the KKT conditions of the problem with box constraints, with error at most `eps` -/
structure BoxKkt (n m : ℕ) (a b : ℕ → Option ℝ) (c C g G : ℕ → ℝ) (eps : ℝ) (x ya sa yb sb yc sc : ℕ → ℝ) : Prop where
  ya_none : ∀ j < n, a j = none → ya j = 0
  yb_none : ∀ j < n, b j = none → yb j = 0
  lower : ∀ j < n, ∀ aj, a j = some aj → 0 < ya j ∧ 0 < sa j ∧ |aj + sa j - x j| ≤ eps ∧ |sa j * ya j| ≤ eps
  upper : ∀ j < n, ∀ bj, b j = some bj → 0 < yb j ∧ 0 < sb j ∧ |x j + sb j - bj| ≤ eps ∧ |sb j * yb j| ≤ eps
  constraint : ∀ i < m, 0 < yc i ∧ 0 < sc i ∧ |rowVal n C c x i + sc i| ≤ eps ∧ |sc i * yc i| ≤ eps
  gradient : ∀ j < n, |g j + ∑ i ∈ Finset.range n, G (j * n + i) * x i - ya j + yb j + ∑ i ∈ Finset.range m, yc i * C (i * n + j)| ≤ eps

/-- *Specification*: `x` satisfies the constraints -/
def QpFeasible (n m : ℕ) (a b : ℕ → Option ℝ) (c C x : ℕ → ℝ) : Prop :=
  (∀ i < m, rowVal n C c x i ≤ 0) ∧ ∀ j < n, (∀ aj, a j = some aj → aj ≤ x j) ∧ ∀ bj, b j = some bj → x j ≤ bj

/-- **C58.** A point that satisfies the KKT conditions with error at most `eps` almost satisfies the constraints, and its cost is almost minimal. -/
theorem boxKkt_near {n m : ℕ} {a b : ℕ → Option ℝ} {c C g G : ℕ → ℝ} {eps : ℝ} {x ya sa yb sb yc sc : ℕ → ℝ}
    (h : BoxKkt n m a b c C g G eps x ya sa yb sb yc sc) :
    (∀ i < m, rowVal n C c x i < eps) ∧ (∀ j < n, ∀ aj, a j = some aj → aj - eps < x j) ∧ (∀ j < n, ∀ bj, b j = some bj → x j < bj + eps) ∧
    (IsSymm n G → IsPsd n G → ∀ z, QpFeasible n m a b c C z →
      qpCost n g G x ≤ qpCost n g G z + eps * (∑ j ∈ Finset.range n, (|z j - x j| + ya j + yb j + 2) + ∑ i ∈ Finset.range m, (yc i + 1))) := by
  refine ⟨fun i hi => ?_, fun j hj aj ha => ?_, fun j hj bj hb => ?_, fun hs hp z hz => ?_⟩
  · obtain ⟨_, h2, h3, _⟩ := h.constraint i hi
    have := (abs_le.1 h3).2
    linarith
  · obtain ⟨_, h2, h3, _⟩ := h.lower j hj aj ha
    have := (abs_le.1 h3).2
    linarith
  · obtain ⟨_, h2, h3, _⟩ := h.upper j hj bj hb
    have := (abs_le.1 h3).2
    linarith
  · have h1 := hp (fun i => z i - x i)
    rw [quad_sub hs] at h1
    set R : ℕ → ℝ := fun j => g j + ∑ i ∈ Finset.range n, G (j * n + i) * x i - ya j + yb j + ∑ i ∈ Finset.range m, yc i * C (i * n + j) with hR
    have e1 : bil n G (fun i => z i - x i) x + (cost n g z - cost n g x) =
        ∑ j ∈ Finset.range n, (R j * (z j - x j) + ya j * (z j - x j) - yb j * (z j - x j)) -
          ∑ i ∈ Finset.range m, yc i * (rowVal n C c z i - rowVal n C c x i) := by
      have e2 : ∑ i ∈ Finset.range m, yc i * (rowVal n C c z i - rowVal n C c x i) =
          ∑ j ∈ Finset.range n, (∑ i ∈ Finset.range m, yc i * C (i * n + j)) * (z j - x j) := by
        simp only [Finset.sum_mul]
        rw [Finset.sum_comm]
        refine Finset.sum_congr rfl fun i _ => ?_
        unfold rowVal
        rw [show ∀ a b d : ℝ, a + d - (b + d) = a - b by intros; ring, ← Finset.sum_sub_distrib, Finset.mul_sum]
        exact Finset.sum_congr rfl fun j _ => by ring
      rw [e2]
      unfold bil cost
      rw [← Finset.sum_sub_distrib, ← Finset.sum_sub_distrib, ← Finset.sum_add_distrib]
      refine Finset.sum_congr rfl fun j _ => ?_
      have : ∑ i ∈ Finset.range n, (z j - x j) * G (j * n + i) * x i = (z j - x j) * ∑ i ∈ Finset.range n, G (j * n + i) * x i := by
        rw [Finset.mul_sum]
        exact Finset.sum_congr rfl fun i _ => by ring
      rw [this, hR]
      ring
    have h2 : - (eps * ∑ j ∈ Finset.range n, (|z j - x j| + ya j + yb j + 2)) ≤
        ∑ j ∈ Finset.range n, (R j * (z j - x j) + ya j * (z j - x j) - yb j * (z j - x j)) := by
      rw [Finset.mul_sum, ← Finset.sum_neg_distrib]
      refine Finset.sum_le_sum fun j hj => ?_
      have hj := Finset.mem_range.1 hj
      have hr := h.gradient j hj
      have heps : 0 ≤ eps := (abs_nonneg _).trans hr
      have t1 : |R j * (z j - x j)| ≤ eps * |z j - x j| := by
        rw [abs_mul]; exact mul_le_mul_of_nonneg_right hr (abs_nonneg _)
      have t1 := (abs_le.1 t1).1
      have t2 : - (eps * ya j + eps) ≤ ya j * (z j - x j) := by
        cases ha : a j with
        | none => rw [h.ya_none j hj ha]; nlinarith
        | some aj =>
          obtain ⟨b1, b2, b3, b4⟩ := h.lower j hj aj ha
          have b5 := (hz.2 j hj).1 aj ha
          have b3 := (abs_le.1 b3).1
          have b4 := (abs_le.1 b4).2
          have : - sa j - eps ≤ z j - x j := by linarith
          have := mul_le_mul_of_nonneg_left this b1.le
          linarith
      have t3 : - (eps * yb j + eps) ≤ - (yb j * (z j - x j)) := by
        cases hb : b j with
        | none => rw [h.yb_none j hj hb]; nlinarith
        | some bj =>
          obtain ⟨b1, b2, b3, b4⟩ := h.upper j hj bj hb
          have b5 := (hz.2 j hj).2 bj hb
          have b3 := (abs_le.1 b3).1
          have b4 := (abs_le.1 b4).2
          have : z j - x j ≤ sb j + eps := by linarith
          have := mul_le_mul_of_nonneg_left this b1.le
          linarith
      linarith
    have h3 : ∑ i ∈ Finset.range m, yc i * (rowVal n C c z i - rowVal n C c x i) ≤ eps * ∑ i ∈ Finset.range m, (yc i + 1) := by
      rw [Finset.mul_sum]
      refine Finset.sum_le_sum fun i hi => ?_
      have hi := Finset.mem_range.1 hi
      obtain ⟨b1, b2, b3, b4⟩ := h.constraint i hi
      have a1 := hz.1 i hi
      have b3 := (abs_le.1 b3).1
      have b4 := (abs_le.1 b4).2
      have : rowVal n C c z i - rowVal n C c x i ≤ sc i + eps := by linarith
      have := mul_le_mul_of_nonneg_left this b1.le
      linarith
    unfold qpCost
    nlinarith

/-- the constraints -/
theorem qpRows_ok (m n N : ℕ) (C c : ℕ → ℝ) (v w : ℕ → ℝ) (h0 : ∀ i < N * n, v i = 0) (hm : m ≤ N) :
    ∃ v' w', forRange 0 m (v, w) (fun i t => (forRange 0 n t.1 fun j v => Function.update v (i * n + j) (C (i * n + j)), Function.update t.2 i (c i))) =
        (v', w') ∧ (∀ i < m, w' i = c i ∧ ∀ j < n, v' (i * n + j) = C (i * n + j)) ∧ ∀ i < N, m ≤ i → ∀ j < n, v' (i * n + j) = 0 := by
  refine forRange_ind (s := (v, w)) (Nat.zero_le m) (fun K (t : (ℕ → ℝ) × (ℕ → ℝ)) => ∃ v' w', t = (v', w') ∧
      (∀ i < K, w' i = c i ∧ ∀ j < n, v' (i * n + j) = C (i * n + j)) ∧ ∀ i < N, K ≤ i → ∀ j < n, v' (i * n + j) = 0)
    ⟨v, w, rfl, by intro i hi; omega, fun i hi _ j hj => h0 _ (idx_lt hi hj)⟩ ?_
  rintro i _ _ hi ⟨v', w', rfl, g1, g2⟩
  refine ⟨_, _, rfl, fun i' hi' => ⟨?_, fun j hj => ?_⟩, fun i' hi' hle j hj => ?_⟩
  · by_cases e : i' = i
    · subst e; rw [Function.update_self]
    · rw [Function.update_of_ne e]; exact (g1 i' (by omega)).1
  · by_cases e : i' = i
    · subst e
      exact (assign_off n (i' * n) v' (fun j => C (i' * n + j)) (i' * n + j)).1 j hj rfl
    · have hle : (i' + 1) * n ≤ i * n := Nat.mul_le_mul_right _ (by omega)
      rw [Nat.add_mul, Nat.one_mul] at hle
      have := (assign_off n (i * n) v' (fun j => C (i * n + j)) (i' * n + j)).2 (by omega)
      exact this.trans ((g1 i' (by omega)).2 j hj)
  · have hle : (i + 1) * n ≤ i' * n := Nat.mul_le_mul_right _ (by omega)
    rw [Nat.add_mul, Nat.one_mul] at hle
    have := (assign_off n (i * n) v' (fun j => C (i * n + j)) (i' * n + j)).2 (by omega)
    exact this.trans (g2 i' hi' (by omega) j hj)

/-- the limits -/
theorem qpLimit_ok (n m N k0 : ℕ) (b : ℕ → Option ℝ) (sign : ℝ) (v w : ℕ → ℝ) (h0 : ∀ i < N, m + k0 ≤ i → ∀ j < n, v (i * n + j) = 0)
    (hN : m + k0 + numAux n (lim b) ≤ N) :
    ∃ v' w', forRange 0 n (k0, v, w) (qpLimit n m b sign) = (k0 + numAux n (lim b), v', w') ∧
      (∀ i < m + k0, w' i = w i ∧ ∀ j < n, v' (i * n + j) = v (i * n + j)) ∧
      (∀ j < n, ∀ bj, b j = some bj → w' (m + k0 + numAux j (lim b)) = - sign * bj ∧
        ∀ q < n, v' ((m + k0 + numAux j (lim b)) * n + q) = if q = j then sign else 0) ∧
      ∀ i < N, m + k0 + numAux n (lim b) ≤ i → ∀ j < n, v' (i * n + j) = 0 := by
  refine forRange_ind (s := (k0, v, w)) (f := qpLimit n m b sign) (Nat.zero_le n) (fun K (t : ℕ × (ℕ → ℝ) × (ℕ → ℝ)) => ∃ v' w',
      t = (k0 + numAux K (lim b), v', w') ∧
      (∀ i < m + k0, w' i = w i ∧ ∀ j < n, v' (i * n + j) = v (i * n + j)) ∧
      (∀ j < K, ∀ bj, b j = some bj → w' (m + k0 + numAux j (lim b)) = - sign * bj ∧
        ∀ q < n, v' ((m + k0 + numAux j (lim b)) * n + q) = if q = j then sign else 0) ∧
      ∀ i < N, m + k0 + numAux K (lim b) ≤ i → ∀ j < n, v' (i * n + j) = 0)
    ⟨v, w, by rw [show numAux 0 (lim b) = 0 by unfold numAux; rw [forRange_of_le le_rfl]]; rfl, fun i hi => ⟨rfl, fun q hq => rfl⟩, by intro j hj; omega,
      fun i hi hm q hq => h0 i hi (by omega) q hq⟩ ?_
  rintro j _ _ hj ⟨v', w', rfl, g1, g2, g3⟩
  unfold qpLimit
  cases hb : b j with
  | none =>
    have hk : numAux (j + 1) (lim b) = numAux j (lim b) := by
      rw [numAux_succ, if_neg (fun hc => by have := lim_pos.1 hc; rw [hb] at this; cases this)]
    refine ⟨v', w', by rw [hk], g1, fun j' hj' bj' hbj' => ?_, by rw [hk]; exact g3⟩
    by_cases e : j' = j
    · rw [e, hb] at hbj'; cases hbj'
    · exact g2 j' (by omega) bj' hbj'
  | some bj =>
    have hl : lim b j > 0 := lim_pos.2 (by rw [hb]; rfl)
    have hk : numAux (j + 1) (lim b) = numAux j (lim b) + 1 := by rw [numAux_succ, if_pos hl]
    have hlt := numAux_lt hj hl
    dsimp only
    have hkeep : ∀ i q, q < n → (i ≠ m + (k0 + numAux j (lim b)) ∨ q ≠ j) →
        Function.update v' ((m + (k0 + numAux j (lim b))) * n + j) sign (i * n + q) = v' (i * n + q) := by
      intro i q hq hc
      rw [Function.update_of_ne]
      intro he
      have := idx_inj hq hj he
      omega
    refine ⟨_, _, by rw [hk]; rfl, fun i hi => ⟨?_, fun q hq => ?_⟩, fun j' hj' bj' hbj' => ?_, fun i hi hle q hq => ?_⟩
    · rw [Function.update_of_ne (by omega)]; exact (g1 i hi).1
    · rw [hkeep i q hq (by omega)]; exact (g1 i hi).2 q hq
    · by_cases e : j' = j
      · subst e
        rw [hb] at hbj'
        cases hbj'
        rw [Nat.add_assoc m k0]
        refine ⟨Function.update_self .., fun q hq => ?_⟩
        by_cases eq : q = j'
        · rw [if_pos eq, eq, Function.update_self]
        · rw [if_neg eq, hkeep _ q hq (by omega)]
          exact g3 _ (by omega) (by omega) q hq
      · have hlt' : numAux j' (lim b) < numAux j (lim b) := numAux_lt (show j' < j by omega) (lim_pos.2 (by rw [hbj']; rfl))
        obtain ⟨c1, c2⟩ := g2 j' (by omega) bj' hbj'
        refine ⟨?_, fun q hq => ?_⟩
        · rw [Function.update_of_ne (by omega), c1]
        · rw [hkeep _ q hq (by omega), c2 q hq]
    · rw [hkeep _ q hq (by omega)]
      exact g3 i hi (by omega) q hq

theorem nLimit2_eq (n : ℕ) (a b : ℕ → Option ℝ) :
    (forRange 0 n 0 fun j k => if (b j).isSome then (if (a j).isSome then k + 1 else k) + 1 else (if (a j).isSome then k + 1 else k)) =
      numAux n (lim b) + numAux n (lim a) := by
  induction n with
  | zero => unfold numAux; rw [forRange_of_le le_rfl, forRange_of_le le_rfl, forRange_of_le le_rfl]
  | succ n ih =>
    rw [forRange_succ (Nat.zero_le n), ih, numAux_succ, numAux_succ]
    simp only [lim_pos]
    split <;> split <;> omega

/-- **C58.** When `qp_box` returns true, there are multipliers such that the KKT conditions are satisfied with error at most `epsilon`; hence
`xout` almost satisfies the constraints and, for a convex problem, its cost is almost minimal. -/
theorem qpBox_ok (n m : ℕ) (a b : ℕ → Option ℝ) (c C g G : ℕ → ℝ) (eps : ℝ) (maxitr : ℕ) (junk : ℕ → ℝ) (ip jp : ℕ → ℕ) (xin xout x y s : ℕ → ℝ)
    (hok : qpBox n m a b c C g G eps maxitr junk ip jp xin xout = (true, x, y, s)) :
    ∃ ya sa yb sb yc sc, BoxKkt n m a b c C g G eps x ya sa yb sb yc sc ∧
    (∀ i < m, rowVal n C c x i < eps) ∧ (∀ j < n, ∀ aj, a j = some aj → aj - eps < x j) ∧ (∀ j < n, ∀ bj, b j = some bj → x j < bj + eps) ∧
    (IsSymm n G → IsPsd n G → ∀ z, QpFeasible n m a b c C z →
      qpCost n g G x ≤ qpCost n g G z + eps * (∑ j ∈ Finset.range n, (|z j - x j| + ya j + yb j + 2) + ∑ i ∈ Finset.range m, (yc i + 1))) := by
  suffices hs : ∃ ya sa yb sb yc sc, BoxKkt n m a b c C g G eps x ya sa yb sb yc sc by
    obtain ⟨ya, sa, yb, sb, yc, sc, h⟩ := hs
    exact ⟨ya, sa, yb, sb, yc, sc, h, boxKkt_near h⟩
  unfold qpBox at hok
  dsimp only at hok
  rw [nLimit2_eq] at hok
  set Lb := numAux n (lim b) with hLb
  set La := numAux n (lim a) with hLa
  obtain ⟨v1, w1, e1, r1, r2⟩ := qpRows_ok m n (m + (Lb + La)) C c _ junk (zeros_ok ((m + (Lb + La)) * n) junk) (by omega)
  rw [e1] at hok
  obtain ⟨v2, w2, e2, b1, b2, b3⟩ := qpLimit_ok n m (m + (Lb + La)) 0 b 1 v1 w1 (fun i hi hm => r2 i hi (by omega)) (by omega)
  rw [e2] at hok
  obtain ⟨v3, w3, e3, a1, a2, a3⟩ := qpLimit_ok n m (m + (Lb + La)) (0 + Lb) a (-1) v2 w2 (fun i hi hm => b3 i hi (by omega)) (by omega)
  rw [e3] at hok
  dsimp only at hok
  simp only [Nat.zero_add, Nat.add_zero] at b1 b2 b3 a1 a2 a3
  have hK := (qpInterior_ok n (m + (Lb + La)) w3 v3 g G eps maxitr junk ip jp xin xout junk junk x y s hok).1
  have hkb : ∀ j < n, ∀ bj, b j = some bj → numAux j (lim b) < Lb := fun j hj bj hd => numAux_lt hj (lim_pos.2 (by rw [hd]; rfl))
  have hka : ∀ j < n, ∀ aj, a j = some aj → numAux j (lim a) < La := fun j hj aj hd => numAux_lt hj (lim_pos.2 (by rw [hd]; rfl))
  -- rows of the extended system
  have rowC : ∀ i < m, w3 i = c i ∧ ∀ j < n, v3 (i * n + j) = C (i * n + j) := by
    intro i hi
    refine ⟨by rw [(a1 i (by omega)).1, (b1 i hi).1, (r1 i hi).1], fun j hj => ?_⟩
    rw [(a1 i (by omega)).2 j hj, (b1 i hi).2 j hj, (r1 i hi).2 j hj]
  have rowB : ∀ j < n, ∀ bj, b j = some bj → w3 (m + numAux j (lim b)) = - bj ∧ ∀ q < n, v3 ((m + numAux j (lim b)) * n + q) = if q = j then 1 else 0 := by
    intro j hj bj hb
    have hlt := hkb j hj bj hb
    obtain ⟨c1, c2⟩ := b2 j hj bj hb
    refine ⟨by rw [(a1 _ (by omega)).1, c1]; ring, fun q hq => by rw [(a1 _ (by omega)).2 q hq, c2 q hq]⟩
  have rowA : ∀ j < n, ∀ aj, a j = some aj → w3 (m + Lb + numAux j (lim a)) = aj ∧
      ∀ q < n, v3 ((m + Lb + numAux j (lim a)) * n + q) = if q = j then -1 else 0 := by
    intro j hj aj ha
    obtain ⟨c1, c2⟩ := a2 j hj aj ha
    exact ⟨by rw [c1]; ring, c2⟩
  have valB : ∀ j < n, ∀ bj, b j = some bj → rowVal n v3 w3 x (m + numAux j (lim b)) = x j - bj := by
    intro j hj bj hb
    unfold rowVal
    rw [(rowB j hj bj hb).1, Finset.sum_eq_single j, (rowB j hj bj hb).2 j hj, if_pos rfl]
    · ring
    · intro q hq hne
      rw [(rowB j hj bj hb).2 q (Finset.mem_range.1 hq), if_neg hne, zero_mul]
    · intro hc; exact absurd (Finset.mem_range.2 hj) hc
  have valA : ∀ j < n, ∀ aj, a j = some aj → rowVal n v3 w3 x (m + Lb + numAux j (lim a)) = aj - x j := by
    intro j hj aj ha
    unfold rowVal
    rw [(rowA j hj aj ha).1, Finset.sum_eq_single j, (rowA j hj aj ha).2 j hj, if_pos rfl]
    · ring
    · intro q hq hne
      rw [(rowA j hj aj ha).2 q (Finset.mem_range.1 hq), if_neg hne, zero_mul]
    · intro hc; exact absurd (Finset.mem_range.2 hj) hc
  refine ⟨fun j => if (a j).isSome then y (m + Lb + numAux j (lim a)) else 0, fun j => s (m + Lb + numAux j (lim a)),
    fun j => if (b j).isSome then y (m + numAux j (lim b)) else 0, fun j => s (m + numAux j (lim b)), y, s, ?_⟩
  refine ⟨fun j hj h => by simp [h], fun j hj h => by simp [h], fun j hj aj h => ?_, fun j hj bj h => ?_, fun i hi => ?_, fun j hj => ?_⟩
  · have hlt := hka j hj aj h
    have hi : m + Lb + numAux j (lim a) < m + (Lb + La) := by omega
    simp only [h, Option.isSome_some, if_true]
    refine ⟨hK.y_pos _ hi, hK.s_pos _ hi, ?_, hK.slack _ hi⟩
    have := hK.constraint _ hi
    rw [valA j hj aj h] at this
    rwa [show aj + s (m + Lb + numAux j (lim a)) - x j = aj - x j + s (m + Lb + numAux j (lim a)) by ring]
  · have hlt := hkb j hj bj h
    have hi : m + numAux j (lim b) < m + (Lb + La) := by omega
    simp only [h, Option.isSome_some, if_true]
    refine ⟨hK.y_pos _ hi, hK.s_pos _ hi, ?_, hK.slack _ hi⟩
    have := hK.constraint _ hi
    rw [valB j hj bj h] at this
    rwa [show x j + s (m + numAux j (lim b)) - bj = x j - bj + s (m + numAux j (lim b)) by ring]
  · have hi' : i < m + (Lb + La) := by omega
    refine ⟨hK.y_pos _ hi', hK.s_pos _ hi', ?_, hK.slack _ hi'⟩
    have := hK.constraint _ hi'
    have e : rowVal n v3 w3 x i = rowVal n C c x i := by
      unfold rowVal
      rw [(rowC i hi).1]
      congr 1
      exact Finset.sum_congr rfl fun j hj => by rw [(rowC i hi).2 j (Finset.mem_range.1 hj)]
    rwa [e] at this
  · have := hK.gradient j hj
    have e : ∑ i ∈ Finset.range (m + (Lb + La)), y i * v3 (i * n + j) = ∑ i ∈ Finset.range m, y i * C (i * n + j) +
        ((if (b j).isSome then y (m + numAux j (lim b)) else 0) - if (a j).isSome then y (m + Lb + numAux j (lim a)) else 0) := by
      rw [Finset.sum_range_add, Finset.sum_range_add]
      have s1 : ∑ i ∈ Finset.range m, y i * v3 (i * n + j) = ∑ i ∈ Finset.range m, y i * C (i * n + j) :=
        Finset.sum_congr rfl fun i hi => by rw [(rowC i (Finset.mem_range.1 hi)).2 j hj]
      have s2 : ∑ k ∈ Finset.range Lb, y (m + k) * v3 ((m + k) * n + j) = if (b j).isSome then y (m + numAux j (lim b)) else 0 := by
        cases hb : b j with
        | none =>
          rw [if_neg (by simp), Finset.sum_eq_zero]
          intro k hk
          obtain ⟨j', hj', hl, rfl⟩ := numAux_surj (Finset.mem_range.1 hk)
          obtain ⟨bj, hd⟩ := Option.isSome_iff_exists.1 (lim_pos.1 hl)
          rw [(rowB j' hj' bj hd).2 j hj, if_neg (by rintro rfl; rw [hb] at hd; cases hd), mul_zero]
        | some bj =>
          rw [if_pos (by simp), Finset.sum_eq_single (numAux j (lim b))]
          · rw [(rowB j hj bj hb).2 j hj, if_pos rfl, mul_one]
          · intro k hk hne
            obtain ⟨j', hj', hl, rfl⟩ := numAux_surj (Finset.mem_range.1 hk)
            obtain ⟨bj, hd⟩ := Option.isSome_iff_exists.1 (lim_pos.1 hl)
            rw [(rowB j' hj' bj hd).2 j hj, if_neg (by rintro rfl; exact hne rfl), mul_zero]
          · intro hc; exact absurd (Finset.mem_range.2 (hkb j hj bj hb)) hc
      have s3 : ∑ k ∈ Finset.range La, y (m + (Lb + k)) * v3 ((m + (Lb + k)) * n + j) =
          - if (a j).isSome then y (m + Lb + numAux j (lim a)) else 0 := by
        cases ha : a j with
        | none =>
          rw [if_neg (by simp), neg_zero, Finset.sum_eq_zero]
          intro k hk
          obtain ⟨j', hj', hl, rfl⟩ := numAux_surj (Finset.mem_range.1 hk)
          obtain ⟨aj, hd⟩ := Option.isSome_iff_exists.1 (lim_pos.1 hl)
          rw [← Nat.add_assoc, (rowA j' hj' aj hd).2 j hj, if_neg (by rintro rfl; rw [ha] at hd; cases hd), mul_zero]
        | some aj =>
          rw [if_pos (by simp), Finset.sum_eq_single (numAux j (lim a))]
          · rw [← Nat.add_assoc, (rowA j hj aj ha).2 j hj, if_pos rfl]; ring
          · intro k hk hne
            obtain ⟨j', hj', hl, rfl⟩ := numAux_surj (Finset.mem_range.1 hk)
            obtain ⟨aj, hd⟩ := Option.isSome_iff_exists.1 (lim_pos.1 hl)
            rw [← Nat.add_assoc, (rowA j' hj' aj hd).2 j hj, if_neg (by rintro rfl; exact hne rfl), mul_zero]
          · intro hc; exact absurd (Finset.mem_range.2 (hka j hj aj ha)) hc
      rw [s1, s2, s3]; ring
    rw [e] at this
    refine le_trans (le_of_eq ?_) this
    congr 1
    ring

end CppAD.AbsOpt
