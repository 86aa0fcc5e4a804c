import Verif.Taylor.Unary

/-! # Tools for reverse mode loops -/

open scoped ContDiff Topology PowerSeries

namespace CppAD

/-- `R` is obtained from `P` by changing active cells only, and this adds `x` to the pairing. -/
def Ext (N : ℕ) (A : ℕ → ℕ) (δ P R : Tay) (x : ℝ) : Prop :=
  (∀ v k, ¬ (v < N ∧ k < A v) → R v k = P v k) ∧ Phi N A δ R = Phi N A δ P + x

namespace Ext
variable {N : ℕ} {A : ℕ → ℕ} {δ : Tay}

theorem refl (P : Tay) : Ext N A δ P P 0 := ⟨fun _ _ _ => rfl, by simp⟩

theorem trans {P Q R : Tay} {x y : ℝ} (h1 : Ext N A δ P Q x) (h2 : Ext N A δ Q R y) :
    Ext N A δ P R (x + y) :=
  ⟨fun v k h => by rw [h2.1 v k h, h1.1 v k h], by rw [h2.2, h1.2]; ring⟩

theorem add (P : Tay) {v k : ℕ} (a : ℝ) (hv : v < N) (hk : k < A v) :
    Ext N A δ P (P.add v k a) (a * δ v k) :=
  ⟨fun v' k' h => by
    rw [Tay.add_apply, if_neg]; rintro ⟨rfl, rfl⟩; exact h ⟨hv, hk⟩, Phi_add _ _ _ _ _ hv hk⟩

theorem add_to {P Q : Tay} {x : ℝ} (h : Ext N A δ P Q x) {v k : ℕ} (a : ℝ) (hv : v < N) (hk : k < A v) :
    Ext N A δ P (Q.add v k a) (x + a * δ v k) := h.trans (add Q a hv hk)

theorem val {x y : ℝ} {P R : Tay} (h : Ext N A δ P R x) (e : x = y) : Ext N A δ P R y := e ▸ h

/-- A loop each step of which adds `x k`; the values of inactive cells are constant. -/
theorem loop {lo hi : ℕ} {P : Tay} {body : ℕ → Tay → Tay} (x : ℕ → ℝ)
    (h : ∀ k Q, lo ≤ k → k < hi → (∀ v k, ¬ (v < N ∧ k < A v) → Q v k = P v k) →
      Ext N A δ Q (body k Q) (x k)) :
    Ext N A δ P (forRange lo hi P body) (∑ k ∈ Finset.Ico lo hi, x k) := by
  rcases le_total hi lo with hh | hh
  · rw [forRange_of_le hh, Finset.Ico_eq_empty_of_le hh, Finset.sum_empty]; exact refl P
  · refine forRange_ind (P := fun m R => Ext N A δ P R (∑ k ∈ Finset.Ico lo m, x k)) hh
      (by simpa using refl P) ?_
    intro k Q h1 h2 hQ
    rw [Finset.sum_Ico_succ_top h1]
    exact hQ.trans (h k Q h1 h2 hQ.1)

end Ext

/-- setting inactive cells does not matter -/
theorem Ext.phi_set {N : ℕ} {A : ℕ → ℕ} {δ P R : Tay} {v k : ℕ} {y x : ℝ}
    (h : Ext N A δ (P.set v k y) R x) (hv : ¬ (v < N ∧ k < A v)) :
    Phi N A δ R = Phi N A δ P + x := by
  rw [h.2, Phi_set_out _ _ _ _ _ hv]

/-- active orders when reverse mode is about to process order `j` of the results -/
abbrev Act (nv n j : ℕ) : ℕ → ℕ := act nv (n + 1) (fun _ => j)

theorem Act_arg {nv n j v k : ℕ} (hv : v < nv) (hk : k ≤ n) : k < Act nv n j v := by
  simp [act, hv]; omega

theorem Act_res {nv n j v k : ℕ} (hv : nv ≤ v) (hk : k < j) : k < Act nv n j v := by
  unfold Act act; rw [if_neg (by omega)]; exact hk

theorem Act_out {nv n j v N : ℕ} (hv : nv ≤ v) : ¬ (v < N ∧ j < Act nv n j v) := by
  unfold Act act; rw [if_neg (by omega)]; simp

/-- Drop order `j` of all results. -/
theorem Phi_drop_all (nv n m j : ℕ) (δ P : Tay) :
    Phi (nv + m) (Act nv n (j + 1)) δ P
      = Phi (nv + m) (Act nv n j) δ P + ∑ r ∈ Finset.range m, P (nv + r) j * δ (nv + r) j := by
  unfold Phi
  rw [Finset.sum_range_add, Finset.sum_range_add, add_assoc, ← Finset.sum_add_distrib]
  congr 1
  · refine Finset.sum_congr rfl fun v hv => ?_
    have := Finset.mem_range.mp hv
    simp [act, this]
  · refine Finset.sum_congr rfl fun r _ => ?_
    simp [act, Finset.sum_range_succ]

/-- Main lemma: a reverse mode loop over the orders `n, ..., 0` is correct if the body at order `j`
moves the contribution of order `j` of the results to active cells. -/
theorem rev_loop {nv n m : ℕ} (δ P : Tay) (body : ℕ → Tay → Tay)
    (h : ∀ j Q, j ≤ n → Phi (nv + m) (Act nv n j) δ (body j Q)
      = Phi (nv + m) (Act nv n j) δ Q + ∑ r ∈ Finset.range m, Q (nv + r) j * δ (nv + r) j) :
    Phi nv (fun _ => n + 1) δ (forDown0 (n + 1) P body) = Phi (nv + m) (fun _ => n + 1) δ P := by
  have key := forDown0_ind (n := n + 1) (s := P) (f := body)
    (fun j Q => j ≤ n + 1 ∧ Phi (nv + m) (Act nv n j) δ Q = Phi (nv + m) (fun _ => n + 1) δ P)
    ⟨le_rfl, Phi_congr_A _ _ _ fun v _ => by simp [act]⟩ ?_
  · rw [← key.2]
    exact (Phi_shrink nv m (n + 1) _ _ _ (fun v hv _ => by simp [act, hv])
      (fun v hv => by simp [act, hv])).symm
  · rintro j Q hj ⟨_, hQ⟩
    exact ⟨by omega, by rw [h j Q (by omega), ← hQ, Phi_drop_all]⟩

theorem forDown_eq_forDown0 {σ : Type*} (n : ℕ) (s : σ) (b0 : σ → σ) (b : ℕ → σ → σ) :
    b0 (forDown n s b) = forDown0 (n + 1) s (fun j => if j = 0 then b0 else b j) := by
  induction n generalizing s with
  | zero => simp [forDown, forDown0]
  | succ n ih => rw [forDown, ih]; conv_rhs => rw [forDown0]
                 simp

/-- `rev_loop` when the order zero is treated after the loop -/
theorem rev_loop' {nv n m : ℕ} (δ P : Tay) (b0 : Tay → Tay) (body : ℕ → Tay → Tay)
    (h : ∀ j Q, 1 ≤ j → j ≤ n → Phi (nv + m) (Act nv n j) δ (body j Q)
      = Phi (nv + m) (Act nv n j) δ Q + ∑ r ∈ Finset.range m, Q (nv + r) j * δ (nv + r) j)
    (h0 : ∀ Q, Phi (nv + m) (Act nv n 0) δ (b0 Q)
      = Phi (nv + m) (Act nv n 0) δ Q + ∑ r ∈ Finset.range m, Q (nv + r) 0 * δ (nv + r) 0) :
    Phi nv (fun _ => n + 1) δ (b0 (forDown n P body)) = Phi (nv + m) (fun _ => n + 1) δ P := by
  rw [forDown_eq_forDown0 n P b0 body]
  refine rev_loop _ _ _ fun j Q hj => ?_
  by_cases hj0 : j = 0
  · subst hj0; rw [if_pos rfl]; exact h0 Q
  · rw [if_neg hj0]; exact h j Q (by omega) hj

/-- reverse mode that only changes arguments -/
theorem rev_once {nv n m : ℕ} {δ P R : Tay}
    (h : Ext (nv + m) (Act nv n 0) δ P R
      (∑ r ∈ Finset.range m, ∑ k ∈ Finset.Ico 0 (n + 1), P (nv + r) k * δ (nv + r) k)) :
    Phi nv (fun _ => n + 1) δ R = Phi (nv + m) (fun _ => n + 1) δ P := by
  have e1 : Phi (nv + m) (Act nv n 0) δ R = Phi nv (fun _ => n + 1) δ R :=
    Phi_shrink nv m (n + 1) _ _ _ (fun v hv _ => by simp [act, hv]) (fun v hv => by simp [act, hv])
  have e2 : Phi (nv + m) (Act nv n 0) δ P = Phi nv (fun _ => n + 1) δ P :=
    Phi_shrink nv m (n + 1) _ _ _ (fun v hv _ => by simp [act, hv]) (fun v hv => by simp [act, hv])
  rw [← e1, h.2, e2]
  unfold Phi
  rw [Finset.sum_range_add]
  simp only [Finset.range_eq_Ico]

/-- reverse mode that skips because all the partials are zero -/
theorem rev_skip {nv n m : ℕ} (δ P : Tay) (h : ∀ r < m, ∀ k ≤ n, P (nv + r) k = 0) :
    Phi nv (fun _ => n + 1) δ P = Phi (nv + m) (fun _ => n + 1) δ P := by
  unfold Phi
  rw [Finset.sum_range_add]
  have : ∑ x ∈ Finset.range m, ∑ k ∈ Finset.range (n + 1), P (nv + x) k * δ (nv + x) k = 0 :=
    Finset.sum_eq_zero fun x hx => Finset.sum_eq_zero fun k hk => by
      rw [h x (Finset.mem_range.mp hx) k (by have := Finset.mem_range.mp hk; omega), zero_mul]
  rw [this, add_zero]

/-! ## frame lemmas -/

theorem forRange_row {lo hi v : ℕ} {s : Tay} {f : ℕ → Tay → Tay} (h : ∀ k s, f k s v = s v) :
    forRange lo hi s f v = s v :=
  forRange_inv (P := fun t : Tay => t v = s v) rfl fun k t _ _ ht => by rw [h, ht]

theorem forDown_row {n v : ℕ} {s : Tay} {f : ℕ → Tay → Tay} (h : ∀ k s, f k s v = s v) :
    forDown n s f v = s v :=
  forDown_ind (P := fun _ (t : Tay) => t v = s v) rfl fun j t _ ht => by rw [h, ht]

theorem forDown0_row {n v : ℕ} {s : Tay} {f : ℕ → Tay → Tay} (h : ∀ k s, f k s v = s v) :
    forDown0 n s f v = s v :=
  forDown0_ind (P := fun _ (t : Tay) => t v = s v) rfl fun j t _ ht => by rw [h, ht]

theorem set_row {s : Tay} {i k v : ℕ} {x : ℝ} (h : v ≠ i) : s.set i k x v = s v := by
  funext k'; exact Tay.set_ne_row _ _ _ _ h

theorem add_row {s : Tay} {i k v : ℕ} {x : ℝ} (h : v ≠ i) : s.add i k x v = s v := by
  funext k'; exact Tay.add_ne_row _ _ _ _ h

/-! ## coefficients of products with the Euler operator -/

open PowerSeries in
/-- `j`-th coefficient of `(t a') b` -/
theorem coeff_θ_mul (F G : ℝ⟦X⟧) (j : ℕ) :
    coeff j (θ F * G) = ∑ k ∈ Finset.Ico 1 (j + 1), (k : ℝ) * coeff k F * coeff (j - k) G := by
  rw [coeff_mul_range, Finset.range_eq_Ico, Finset.sum_eq_sum_Ico_succ_bot (by omega)]
  simp

theorem coeff_θ_mul_T (f g : ℝ → ℝ) (j : ℕ) :
    PowerSeries.coeff j (θ (T f) * T g) = ksum (tc f) (tc g) 1 (j + 1) j := by
  rw [coeff_θ_mul]; simp [ksum]

/-- Build a certificate for an operator with one argument and one result. -/
noncomputable def mkUnary1 (ix : ℕ) (f : ℝ → ℝ) (D : Set ℝ) (hD : IsOpen D)
    (hf : ∀ y ∈ D, ContDiffAt ℝ ∞ f y)
    (fwd dir : ℕ → ℕ → ℕ → Tay → Tay) (rev : ℕ → ℕ → Tay → Tay → Tay)
    (G : (ℕ → ℝ) → (ℕ → ℝ) → ℕ → ℝ)
    (hG : ∀ x x' z z' j, (∀ k ≤ j, x k = x' k) → (∀ k < j, z k = z' k) → G x z j = G x' z' j)
    (fwd_eq : ∀ p q iz s, ix ≠ iz → p ≤ q → fwd p q iz s
      = forRange p (q + 1) s (fun j s => s.set iz j (G (s ix) (s iz) j)))
    (dir_eq : ∀ q r iz s, ix ≠ iz → 1 ≤ q → dir q r iz s
      = forRange 0 r s (fun ell s => s.set iz ((q - 1) * r + 1 + ell)
          (G (view r ell s ix) (view r ell s iz) q)))
    (taylor : ∀ x, UCurve 1 (fun _ => f) D x → ∀ j,
      tc (fun t => f (x t)) j = G (tc x) (tc (fun t => f (x t))) j)
    (rev_ok : ∀ nv x dx n s P δ, ix < nv → UCurve 1 (fun _ => f) D x → Sm dx →
      (∀ k ≤ n, s ix k = tc x k) →
      (∀ k ≤ n, s nv k = tc (fun t => f (x t)) k) →
      (∀ k, δ ix k = tc dx k) →
      (∀ k, δ nv k = tc (fun t => deriv f (x t) * dx t) k) →
      Phi nv (fun _ => n + 1) δ (rev n nv s P) = Phi (nv + 1) (fun _ => n + 1) δ P)
    (rev_frame : ∀ nv n s P v, v < nv → v ≠ ix → rev n nv s P v = P v) :
    OpCert 1 [ix] (fun e _ => f (e ix)) (fun e => e ix ∈ D) fwd dir rev :=
  mkUnary 1 ix one_pos (fun _ => f) D hD (fun _ _ => hf) fwd dir rev
    (fun x z j => z 0 j = G x (z 0) j)
    (fun x x' z z' j hx hz h => by
      rw [← hz 0 one_pos j le_rfl, h]
      exact hG _ _ _ _ _ hx fun k hk => hz 0 one_pos k (le_of_lt hk))
    (fun x x' z z' j hx hz h h' r hr => by
      obtain rfl : r = 0 := by omega
      rw [h, h']; exact hG _ _ _ _ _ hx (hz 0 one_pos))
    (fun nv p q s hpq hix => by
      have h := fwd_single (p := p) (q := q) (z := nv) hpq s (fun j s => G (s ix) (s nv) j)
        (fun j s s' h => hG _ _ _ _ _ (fun k _ => h ix k (Or.inl (by omega)))
          (fun k hk => h nv k (Or.inr hk)))
      simp only [Nat.add_sub_cancel, fwd_eq p q nv s (by omega) hpq, add_zero]
      refine ⟨h.1, fun v k hvk => h.2 v k ?_⟩
      rintro ⟨rfl, a, b⟩; exact hvk ⟨⟨le_rfl, by omega⟩, a, b⟩)
    (fun nv q r s hq hix => by
      have h := dir_single (q := q) (r := r) (z := nv) s
        (fun ell s => G (view r ell s ix) (view r ell s nv) q)
        (fun ell s s' hl h => hG _ _ _ _ _ (fun k _ => h ix _ (Or.inl (by omega)))
          (fun k hk => h nv _ (Or.inr (dirIdx_lt hk hl))))
      simp only [Nat.add_sub_cancel, dir_eq q r nv s (by omega) hq, add_zero]
      refine ⟨fun ell hl => ?_, fun v k hvk => h.2 v k ?_⟩
      · rw [view_apply, dirIdx_top hq]; exact h.1 ell hl
      · rintro ⟨rfl, a, b⟩; exact hvk ⟨⟨le_rfl, by omega⟩, a, b⟩)
    taylor
    (fun nv x dx n s P δ hix hc hd h1 h2 h3 h4 _ => 
      rev_ok nv x dx n s P δ hix hc hd h1 (h2 0 one_pos) h3 (h4 0 one_pos))
    (fun nv n s P v => rev_frame nv n s P v)

end CppAD
