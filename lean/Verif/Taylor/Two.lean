import Verif.Taylor.Rev
import Verif.Taylor.Arith

/-! # Certificates for operators with one argument and two results

The auxiliary result is row `nv`, the primary result is row `nv + 1`. -/

open scoped ContDiff Topology PowerSeries

namespace CppAD

/-- set order `j` of the rows `a` and `b` -/
def Tay.set2 (s : Tay) (a b j : ℕ) (u v : ℝ) : Tay := (s.set a j u).set b j v

namespace Tay
variable {a b j : ℕ} {s : Tay} {u v w : ℝ}

theorem set2_apply (h : a ≠ b) (i k : ℕ) : s.set2 a b j u v i k
    = if k = j then (if i = a then u else if i = b then v else s i k) else s i k := by
  simp only [set2, set_apply]
  split_ifs <;> simp_all

theorem set_set2 (h : a ≠ b) : (s.set a j u).set b j v = s.set2 a b j u v := rfl
theorem set2_set_a (h : a ≠ b) : (s.set2 a b j u v).set a j w = s.set2 a b j w v := by
  funext i k; simp only [set_apply, set2_apply h]; split_ifs <;> simp_all
theorem set2_set_b (h : a ≠ b) : (s.set2 a b j u v).set b j w = s.set2 a b j u w := by
  funext i k; simp only [set_apply, set2_apply h]; split_ifs <;> simp_all
theorem set2_a (h : a ≠ b) : s.set2 a b j u v a j = u := by simp [set2_apply h]
theorem set2_b (h : a ≠ b) : s.set2 a b j u v b j = v := by simp [set2_apply h, h.symm]
theorem set2_row (h : a ≠ b) {i k : ℕ} (ha : i ≠ a) (hb : i ≠ b) : s.set2 a b j u v i k = s i k := by
  simp [set2_apply h, ha, hb]
theorem set2_ord (h : a ≠ b) {i k : ℕ} (hk : k ≠ j) : s.set2 a b j u v i k = s i k := by
  simp [set2_apply h, hk]
theorem set2_set2 (h : a ≠ b) {u' v' : ℝ} : (s.set2 a b j u v).set2 a b j u' v' = s.set2 a b j u' v' := by
  funext i k; simp only [set2_apply h]; split_ifs <;> simp_all
theorem set2_swap (h : a ≠ b) : s.set2 b a j v u = s.set2 a b j u v := by
  funext i k; simp only [set2_apply h, set2_apply h.symm]; split_ifs <;> simp_all
theorem set2_add_a (h : a ≠ b) : (s.set2 a b j u v).add a j w = s.set2 a b j (u + w) v := by
  rw [add, set2_set_a h, set2_a h]
theorem set2_add_b (h : a ≠ b) : (s.set2 a b j u v).add b j w = s.set2 a b j u (v + w) := by
  rw [add, set2_set_b h, set2_b h]

end Tay

/-- a loop that accumulates in two cells -/
theorem forRange_accum2 {lo hi : ℕ} (s : Tay) {a b j : ℕ} (hab : a ≠ b) (u v : ℝ) (g h : ℕ → Tay → ℝ)
    (hg : ∀ k u v, lo ≤ k → k < hi → g k (s.set2 a b j u v) = g k s)
    (hh : ∀ k u v, lo ≤ k → k < hi → h k (s.set2 a b j u v) = h k s) :
    forRange lo hi (s.set2 a b j u v) (fun k s => (s.add a j (g k s)).add b j (h k (s.add a j (g k s))))
      = s.set2 a b j (u + ∑ k ∈ Finset.Ico lo hi, g k s) (v + ∑ k ∈ Finset.Ico lo hi, h k s) := by
  rcases le_total hi lo with hl | hl
  · rw [forRange_of_le hl, Finset.Ico_eq_empty_of_le hl]; simp
  · refine forRange_ind (P := fun m t => t = s.set2 a b j (u + ∑ k ∈ Finset.Ico lo m, g k s)
      (v + ∑ k ∈ Finset.Ico lo m, h k s)) hl (by simp) ?_
    intro k t h1 h2 ht
    subst ht
    rw [hg k _ _ h1 h2, Tay.set2_add_a hab, hh k _ _ h1 h2, Tay.set2_add_b hab,
      Finset.sum_Ico_succ_top h1, Finset.sum_Ico_succ_top h1, add_assoc, add_assoc]

/-- The idiom of multiple direction forward functions with several results. -/
theorem dir_rows {m r : ℕ} (s : Tay) (f : ℕ → Tay → Tay) (R : ℕ → Prop) (Q : ℕ → Tay → Prop)
    (hf : ∀ ell s, ell < r → ∀ v k, ¬ (R v ∧ k = m + ell) → f ell s v k = s v k)
    (hQ : ∀ ell s, ell < r → Q ell (f ell s))
    (hloc : ∀ ell s s', ell < r → (∀ v k, (¬ R v ∨ k < m ∨ k = m + ell) → s v k = s' v k) →
      Q ell s → Q ell s') :
    (∀ ell < r, Q ell (forRange 0 r s f)) ∧
    (∀ v k, ¬ (R v ∧ m ≤ k ∧ k < m + r) → forRange 0 r s f v k = s v k) := by
  have key := forRange_ind (lo := 0) (hi := r) (Nat.zero_le r) (s := s) (f := f)
    (P := fun i t => (∀ ell < i, Q ell t) ∧
      (∀ v k, ¬ (R v ∧ m ≤ k ∧ k < m + i) → t v k = s v k))
    ⟨by simp, fun v i _ => rfl⟩ ?_
  · exact key
  · rintro i t - hi ⟨h1, h2⟩
    refine ⟨fun ell hl => ?_, fun v k hvk => ?_⟩
    · rcases Nat.lt_succ_iff_lt_or_eq.mp hl with h | h
      · refine hloc ell t _ (by omega) (fun v k hvk => ?_) (h1 ell h)
        rw [hf i t hi]
        rintro ⟨hR, hk⟩
        rcases hvk with h' | h' | h'
        · exact h' hR
        · omega
        · omega
      · subst h; exact hQ _ _ hi
    · rw [hf i t hi, h2]
      · rintro ⟨a, b, c⟩; exact hvk ⟨a, b, by omega⟩
      · rintro ⟨a, b⟩; exact hvk ⟨a, by omega, by omega⟩

/-- Build a certificate for an operator with one argument and two results. The result in row
`nv + a` is computed first, the other one may depend on it. -/
noncomputable def mkUnary2 (ix a b : ℕ) (hab : a + b = 1) (f : ℕ → ℝ → ℝ) (D : Set ℝ) (hD : IsOpen D)
    (hf : ∀ r < 2, ∀ y ∈ D, ContDiffAt ℝ ∞ (f r) y)
    (fwd dir : ℕ → ℕ → ℕ → Tay → Tay) (rev : ℕ → ℕ → Tay → Tay → Tay)
    (Ga : (ℕ → ℝ) → (ℕ → ℕ → ℝ) → ℕ → ℝ) (Gb : (ℕ → ℝ) → (ℕ → ℕ → ℝ) → ℝ → ℕ → ℝ)
    (hGa : ∀ x x' z z' j, (∀ k ≤ j, x k = x' k) → (∀ r < 2, ∀ k < j, z r k = z' r k) →
      Ga x z j = Ga x' z' j)
    (hGb : ∀ x x' z z' u j, (∀ k ≤ j, x k = x' k) → (∀ r < 2, ∀ k < j, z r k = z' r k) →
      Gb x z u j = Gb x' z' u j)
    (fwd_eq : ∀ nv p q s, ix < nv → p ≤ q → fwd p q (nv + 1) s
      = forRange p (q + 1) s (fun j s => s.set2 (nv + a) (nv + b) j (Ga (s ix) (fun r => s (nv + r)) j)
          (Gb (s ix) (fun r => s (nv + r)) (Ga (s ix) (fun r => s (nv + r)) j) j)))
    (dir_eq : ∀ nv q r s, ix < nv → 1 ≤ q → dir q r (nv + 1) s
      = forRange 0 r s (fun ell s => s.set2 (nv + a) (nv + b) ((q - 1) * r + 1 + ell)
          (Ga (view r ell s ix) (fun i => view r ell s (nv + i)) q)
          (Gb (view r ell s ix) (fun i => view r ell s (nv + i))
            (Ga (view r ell s ix) (fun i => view r ell s (nv + i)) q) q)))
    (taylor : ∀ x, UCurve 2 f D x → ∀ j,
      tc (fun t => f a (x t)) j = Ga (tc x) (fun r => tc (fun t => f r (x t))) j ∧
      tc (fun t => f b (x t)) j = Gb (tc x) (fun r => tc (fun t => f r (x t)))
        (tc (fun t => f a (x t)) j) j)
    (rev_ok : ∀ nv x dx n s P δ, ix < nv → UCurve 2 f D x → Sm dx →
      (∀ k ≤ n, s ix k = tc x k) →
      (∀ k ≤ n, s nv k = tc (fun t => f 0 (x t)) k) →
      (∀ k ≤ n, s (nv + 1) k = tc (fun t => f 1 (x t)) k) →
      (∀ k, δ ix k = tc dx k) →
      (∀ k, δ nv k = tc (fun t => deriv (f 0) (x t) * dx t) k) →
      (∀ k, δ (nv + 1) k = tc (fun t => deriv (f 1) (x t) * dx t) k) →
      (∀ k ≤ n, P nv k = 0) →
      Phi nv (fun _ => n + 1) δ (rev n (nv + 1) s P) = Phi (nv + 2) (fun _ => n + 1) δ P)
    (rev_frame : ∀ nv n s P v, v < nv → v ≠ ix → rev n (nv + 1) s P v = P v) :
    OpCert 2 [ix] (fun e r => f r (e ix)) (fun e => e ix ∈ D) fwd dir rev :=
  have ha2 : a < 2 := by omega
  have hb2 : b < 2 := by omega
  have hne : a ≠ b := by omega
  have hcase : ∀ r < 2, r = a ∨ r = b := fun r hr => by omega
  have hRec_loc : ∀ (x x' : ℕ → ℝ) (z z' : ℕ → ℕ → ℝ) (j : ℕ), (∀ k ≤ j, x k = x' k) →
      (∀ r < 2, ∀ k ≤ j, z r k = z' r k) →
      (z a j = Ga x z j ∧ z b j = Gb x z (z a j) j) → (z' a j = Ga x' z' j ∧ z' b j = Gb x' z' (z' a j) j) :=
    fun x x' z z' j hx hz h => by
      rw [← hz a ha2 j le_rfl, ← hz b hb2 j le_rfl, h.1, h.2, h.1]
      exact ⟨hGa _ _ _ _ _ hx fun r hr k hk => hz r hr k (le_of_lt hk),
        hGb _ _ _ _ _ _ hx fun r hr k hk => hz r hr k (le_of_lt hk)⟩
  mkUnary 2 ix two_pos f D hD hf fwd dir rev
    (fun x z j => z a j = Ga x z j ∧ z b j = Gb x z (z a j) j)
    hRec_loc
    (fun x x' z z' j hx hz h h' r hr => by
      have e1 : z a j = z' a j := by rw [h.1, h'.1]; exact hGa _ _ _ _ _ hx hz
      rcases hcase r hr with rfl | rfl
      · exact e1
      · rw [h.2, h'.2, e1]; exact hGb _ _ _ _ _ _ hx hz)
    (fun nv p q s hpq hix => by
      have hnab : nv + a ≠ nv + b := by omega
      have h := forRange_rows (p := p) (hi := q + 1) (by omega) s
        (fun j s => s.set2 (nv + a) (nv + b) j (Ga (s ix) (fun r => s (nv + r)) j)
          (Gb (s ix) (fun r => s (nv + r)) (Ga (s ix) (fun r => s (nv + r)) j) j))
        (fun v => nv ≤ v ∧ v < nv + 2)
        (fun j s => s (nv + a) j = Ga (s ix) (fun r => s (nv + r)) j ∧
          s (nv + b) j = Gb (s ix) (fun r => s (nv + r)) (s (nv + a) j) j)
        (fun j s _ _ v k h => by
          rw [Tay.set2_apply hnab]
          split_ifs with h1 h2 h3
          · exact absurd ⟨by omega, h1⟩ h
          · exact absurd ⟨by omega, h1⟩ h
          · rfl
          · rfl)
        (fun j s _ _ => by
          rw [Tay.set2_a hnab, Tay.set2_b hnab]
          have hx : ∀ k ≤ j, ∀ u v, s ix k = s.set2 (nv + a) (nv + b) j u v ix k := fun k _ u v => by
            rw [Tay.set2_row hnab (by omega) (by omega)]
          have hz : ∀ r < 2, ∀ k < j, ∀ u v, s (nv + r) k = s.set2 (nv + a) (nv + b) j u v (nv + r) k :=
            fun r _ k hk u v => by rw [Tay.set2_ord hnab (by omega)]
          exact ⟨hGa _ _ _ _ _ (fun k hk => hx k hk _ _) (fun r hr k hk => hz r hr k hk _ _),
            hGb _ _ _ _ _ _ (fun k hk => hx k hk _ _) (fun r hr k hk => hz r hr k hk _ _)⟩)
        (fun j s s' _ _ h hQ => hRec_loc _ _ _ _ j (fun k _ => h ix k (Or.inl (by omega)))
          (fun r _ k hk => h (nv + r) k (Or.inr hk)) hQ)
      rw [show nv + 2 - 1 = nv + 1 by omega, fwd_eq nv p q s hix hpq]
      exact ⟨fun j h1 h2 => h.1 j h1 (by omega), fun v k hvk => h.2 v k
        (by rintro ⟨a, b, c⟩; exact hvk ⟨a, b, by omega⟩)⟩)
    (fun nv q r s hq hix => by
      have hnab : nv + a ≠ nv + b := by omega
      have h := dir_rows (m := (q - 1) * r + 1) (r := r) s
        (fun ell s => s.set2 (nv + a) (nv + b) ((q - 1) * r + 1 + ell)
          (Ga (view r ell s ix) (fun i => view r ell s (nv + i)) q)
          (Gb (view r ell s ix) (fun i => view r ell s (nv + i))
            (Ga (view r ell s ix) (fun i => view r ell s (nv + i)) q) q))
        (fun v => nv ≤ v ∧ v < nv + 2)
        (fun ell s => view r ell s (nv + a) q = Ga (view r ell s ix) (fun i => view r ell s (nv + i)) q ∧
          view r ell s (nv + b) q = Gb (view r ell s ix) (fun i => view r ell s (nv + i))
            (view r ell s (nv + a) q) q)
        (fun ell s _ v k h => by
          rw [Tay.set2_apply hnab]
          split_ifs with h1 h2 h3
          · exact absurd ⟨by omega, h1⟩ h
          · exact absurd ⟨by omega, h1⟩ h
          · rfl
          · rfl)
        (fun ell s hl => by
          simp only [view_apply _ _ (Tay.set2 _ _ _ _ _ _) (nv + a), view_apply _ _ (Tay.set2 _ _ _ _ _ _) (nv + b)]
          rw [dirIdx_top hq, Tay.set2_a hnab, Tay.set2_b hnab]
          have hx : ∀ k ≤ q, ∀ u v, view r ell s ix k
              = view r ell (s.set2 (nv + a) (nv + b) ((q - 1) * r + 1 + ell) u v) ix k := fun k _ u v => by
            rw [view_apply, view_apply, Tay.set2_row hnab (by omega) (by omega)]
          have hz : ∀ i < 2, ∀ k < q, ∀ u v, view r ell s (nv + i) k
              = view r ell (s.set2 (nv + a) (nv + b) ((q - 1) * r + 1 + ell) u v) (nv + i) k :=
            fun i _ k hk u v => by
              have := dirIdx_lt hk hl
              rw [view_apply, view_apply, Tay.set2_ord hnab (by omega)]
          exact ⟨hGa _ _ _ _ _ (fun k hk => hx k hk _ _) (fun r hr k hk => hz r hr k hk _ _),
            hGb _ _ _ _ _ _ (fun k hk => hx k hk _ _) (fun r hr k hk => hz r hr k hk _ _)⟩)
        (fun ell s s' hl h hQ => hRec_loc (view r ell s ix) (view r ell s' ix)
          (fun i => view r ell s (nv + i)) (fun i => view r ell s' (nv + i)) q
          (fun k _ => h ix _ (Or.inl (by omega)))
          (fun i _ k hk => h (nv + i) _ (by
            right
            rcases lt_or_eq_of_le hk with h' | h'
            · left; exact dirIdx_lt h' hl
            · right; rw [h', dirIdx_top hq])) hQ)
      rw [show nv + 2 - 1 = nv + 1 by omega, dir_eq nv q r s hix hq]
      exact ⟨fun ell hl => h.1 ell hl, h.2⟩)
    taylor
    (fun nv x dx n s P δ hix hc hd h1 h2 h3 h4 h5 =>
      rev_ok nv x dx n s P δ hix hc hd h1 (h2 0 two_pos) (h2 1 one_lt_two) h3 (h4 0 two_pos)
        (h4 1 one_lt_two) (h5 0 (by omega)))
    (fun nv n s P v => rev_frame nv n s P v)

end CppAD
