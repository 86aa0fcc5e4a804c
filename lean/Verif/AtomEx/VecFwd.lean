import Verif.AtomEx.VecModel

/-! # Atomic vector operations: forward mode -/

open scoped ContDiff Topology
open PowerSeries

namespace CppAD.AtomEx

variable {m : ℕ}

theorem forwardMul_eq (m p q : ℕ) (tx ty : ℕ → ℝ) : forwardMul m p q tx ty =
    forRange 0 m ty fun i ty => forRange p q ty fun k ty => vset ty (i * q + k)
      (∑ d ∈ Finset.Ico 0 (k + 1), tx (i * q + (k - d)) * tx ((m + i) * q + d)) := by
  unfold forwardMul
  refine forRange_congr _ fun i s _ _ => forRange_congr _ fun k s _ _ => ?_
  rw [forRange_acc (v := vset s (i * q + k) 0) (c := i * q + k)
    (g := fun d _ => tx (i * q + (k - d)) * tx ((m + i) * q + d)) (fun _ _ _ _ _ _ => rfl)]
  funext c
  by_cases e : c = i * q + k <;> simp [vset, e]

theorem forwardDiv_eq (m p q : ℕ) (tx ty : ℕ → ℝ) : forwardDiv m p q tx ty =
    forRange 0 m ty fun i ty => forRange p q ty fun k ty => vset ty (i * q + k)
      ((tx (i * q + k) - ∑ d ∈ Finset.Ico 1 (k + 1), ty (i * q + (k - d)) * tx ((i + m) * q + d))
        / tx ((i + m) * q + 0)) := by
  unfold forwardDiv
  refine forRange_congr _ fun i s _ _ => forRange_congr _ fun k s _ _ => ?_
  have h := forRange_acc (lo := 1) (hi := k + 1) (v := vset s (i * q + k) (tx (i * q + k))) (c := i * q + k)
    (g := fun d ty => -(ty (i * q + (k - d)) * tx ((i + m) * q + d)))
    (fun d h1 h2 s s' hs => by rw [hs _ (by omega)])
  simp only [← sub_eq_add_neg] at h
  simp only [h]
  have e : ∑ d ∈ Finset.Ico 1 (k + 1), -(vset s (i * q + k) (tx (i * q + k)) (i * q + (k - d)) * tx ((i + m) * q + d))
      = -∑ d ∈ Finset.Ico 1 (k + 1), s (i * q + (k - d)) * tx ((i + m) * q + d) := by
    rw [← Finset.sum_neg_distrib]
    refine Finset.sum_congr rfl fun d hd => ?_
    rw [Finset.mem_Ico] at hd
    rw [vset_ne _ _ (by omega)]
  rw [e]
  funext c
  by_cases e : c = i * q + k <;> simp [vset, e, sub_eq_add_neg]

/-- **C54** (values) for every operator the callback `forward` computes function values at every point -/
theorem vecForward_zero (op : VOpE) (m : ℕ) : ForwardZero (op.n m) m (op.fn m) (vecForward op m) := by
  intro sel q tx ty i hi _
  have h1 : op.isUnary = false → i < op.n m ∧ m + i < op.n m := by
    intro h; simp only [VOpE.n, h]; simp; omega
  have h2 : op.isUnary = true → i < op.n m := by
    intro h; simp only [VOpE.n, h]; simpa using hi
  cases op with
  | add =>
    obtain ⟨a, b⟩ := h1 rfl
    have := fill_outer (m := m) (p := 0) (q := q + 1) (by omega) ty
      (fun i k => tx (i * (q + 1) + k) + tx ((m + i) * (q + 1) + k)) hi (Nat.zero_le 0) (by omega)
    simp only [vecForward, forwardAdd, VOpE.fn, ev_of_lt _ a, ev_of_lt _ b]
    simpa using this
  | sub =>
    obtain ⟨a, b⟩ := h1 rfl
    have := fill_outer (m := m) (p := 0) (q := q + 1) (by omega) ty
      (fun i k => tx (i * (q + 1) + k) - tx ((m + i) * (q + 1) + k)) hi (Nat.zero_le 0) (by omega)
    simp only [vecForward, forwardSub, VOpE.fn, ev_of_lt _ a, ev_of_lt _ b]
    simpa using this
  | neg =>
    have a := h2 rfl
    have := fill_outer (m := m) (p := 0) (q := q + 1) (by omega) ty
      (fun i k => - tx (i * (q + 1) + k)) hi (Nat.zero_le 0) (by omega)
    simp only [vecForward, forwardNeg, VOpE.fn, ev_of_lt _ a]
    simpa using this
  | mul =>
    obtain ⟨a, b⟩ := h1 rfl
    have := fill_inner (m := m) (p := 0) (q := q + 1) (by omega) ty
      (fun i k _ => ∑ d ∈ Finset.Ico 0 (k + 1), tx (i * (q + 1) + (k - d)) * tx ((m + i) * (q + 1) + d))
      (fun i k v => k = 0 → v = tx (i * (q + 1)) * tx ((m + i) * (q + 1))) (by intros; omega)
      (by intro i _ k _ _ s _ hk; subst hk; simp) hi (k := 0) (by omega) rfl
    simp only [vecForward, forwardMul_eq, VOpE.fn, ev_of_lt _ a, ev_of_lt _ b]
    simpa using this
  | div =>
    obtain ⟨a, b⟩ := h1 rfl
    have := fill_inner (m := m) (p := 0) (q := q + 1) (by omega) ty
      (fun i k ty => (tx (i * (q + 1) + k) - ∑ d ∈ Finset.Ico 1 (k + 1), ty (i * (q + 1) + (k - d)) * tx ((i + m) * (q + 1) + d))
        / tx ((i + m) * (q + 1) + 0))
      (fun i k v => k = 0 → v = tx (i * (q + 1)) / tx ((m + i) * (q + 1))) (by intros; omega)
      (by intro i _ k _ _ s _ hk; subst hk; simp [Nat.add_comm m]) hi (k := 0) (by omega) rfl
    simp only [vecForward, forwardDiv_eq, VOpE.fn, ev_of_lt _ a, ev_of_lt _ b]
    simpa using this

/-- the quotient of two smooth functions -/
theorem T_div_mul {f g : ℝ → ℝ} (hf : Sm f) (hg : Sm g) (h0 : g 0 ≠ 0) :
    T (fun t => f t / g t) * T g = T f := by
  have hq : Sm (fun t => f t / g t) := ContDiffAt.div hf hg h0
  rw [← T_mul hq hg]
  refine T_congr ?_
  have : ∀ᶠ t in 𝓝 (0 : ℝ), g t ≠ 0 := hg.continuousAt'.eventually_ne h0
  filter_upwards [this] with t ht
  field_simp

/-- **C54** (Taylor coefficients) for every operator the callback `forward` computes the requested Taylor coefficients -/
theorem vecForward_ok (op : VOpE) (m : ℕ) : ForwardOk (op.n m) m (op.fn m) (op.dom m) (vecForward op m) := by
  intro sel p q X tx ty hpq hX hD htx hty i hi _ k hpk hkq
  have htx' : ∀ j < op.n m, ∀ k ≤ q, tx (j * (q + 1) + k) = tc (fun t => ev (X t) j) k := by
    intro j hj k hk
    rw [htx ⟨j, hj⟩ k hk]
    simp only [ev_of_lt _ hj]
  have hS : ∀ j, Sm (fun t => ev (X t) j) := ev_sm hX
  have h1 : op.isUnary = false → ∀ i < m, i < op.n m ∧ m + i < op.n m := by
    intro h i hi; simp only [VOpE.n, h]; simp; omega
  have h2 : op.isUnary = true → ∀ i < m, i < op.n m := by
    intro h i hi; simp only [VOpE.n, h]; simpa using hi
  cases op with
  | add =>
    obtain ⟨a, b⟩ := h1 rfl i hi
    have := fill_outer (m := m) (p := p) (q := q + 1) (by omega) ty
      (fun i k => tx (i * (q + 1) + k) + tx ((m + i) * (q + 1) + k)) hi hpk (by omega)
    simp only [vecForward, forwardAdd, VOpE.fn]
    rw [this, htx' _ a _ hkq, htx' _ b _ hkq, tc_eq, tc_eq, tc_eq, T_add (hS _) (hS _), map_add]
  | sub =>
    obtain ⟨a, b⟩ := h1 rfl i hi
    have := fill_outer (m := m) (p := p) (q := q + 1) (by omega) ty
      (fun i k => tx (i * (q + 1) + k) - tx ((m + i) * (q + 1) + k)) hi hpk (by omega)
    simp only [vecForward, forwardSub, VOpE.fn]
    rw [this, htx' _ a _ hkq, htx' _ b _ hkq, tc_eq, tc_eq, tc_eq, T_sub (hS _) (hS _), map_sub]
  | neg =>
    have a := h2 rfl i hi
    have := fill_outer (m := m) (p := p) (q := q + 1) (by omega) ty
      (fun i k => - tx (i * (q + 1) + k)) hi hpk (by omega)
    simp only [vecForward, forwardNeg, VOpE.fn]
    rw [this, htx' _ a _ hkq, tc_eq, tc_eq, T_neg, map_neg]
  | mul =>
    simp only [vecForward, forwardMul_eq]
    refine fill_inner (m := m) (p := p) (q := q + 1) (by omega) ty
      (fun i k _ => ∑ d ∈ Finset.Ico 0 (k + 1), tx (i * (q + 1) + (k - d)) * tx ((m + i) * (q + 1) + d))
      (fun i k v => v = tc (fun t => VOpE.mul.fn m (X t) i) k) hty ?_ hi (by omega)
    intro i hi k _ hk s _
    obtain ⟨a, b⟩ := h1 rfl i hi
    simp only [VOpE.fn]
    rw [tc_eq, T_mul (hS _) (hS _), mulG_T]
    refine Finset.sum_congr rfl fun d hd => ?_
    rw [Finset.mem_Ico] at hd
    rw [htx' _ a _ (by omega), htx' _ b _ (by omega), coeff_T, coeff_T]
  | div =>
    simp only [vecForward, forwardDiv_eq]
    refine fill_inner (m := m) (p := p) (q := q + 1) (by omega) ty
      (fun i k ty => (tx (i * (q + 1) + k) - ∑ d ∈ Finset.Ico 1 (k + 1), ty (i * (q + 1) + (k - d)) * tx ((i + m) * (q + 1) + d))
        / tx ((i + m) * (q + 1) + 0))
      (fun i k v => v = tc (fun t => VOpE.div.fn m (X t) i) k) hty ?_ hi (by omega)
    intro i hi k _ hk s hs
    obtain ⟨a, b⟩ := h1 rfl i hi
    have h0 : ev (X 0) (m + i) ≠ 0 := hD i hi
    have hc := div_coeff (T_div_mul (hS i) (hS (m + i)) h0) k (by rw [coeff_T, tc_zero]; exact h0)
    rw [coeff_T] at hc
    simp only [VOpE.fn]
    rw [hc]
    unfold divG
    rw [Nat.add_comm i m, htx' _ a _ (by omega), htx' _ b _ (by omega)]
    simp only [coeff_T]
    congr 2
    refine Finset.sum_congr rfl fun d hd => ?_
    rw [Finset.mem_Ico] at hd
    rw [hs _ (by omega), htx' _ b _ (by omega)]
    rfl

end CppAD.AtomEx
