import Verif.Taylor.Cert
import Verif.Taylor.ModelExp
import Mathlib.Analysis.Calculus.ContDiff.Comp
import Mathlib.Analysis.Calculus.Deriv.Comp

/-! # Certificates for operators with one variable argument -/

open scoped ContDiff Topology PowerSeries

namespace CppAD

/-- `x` is a smooth curve that starts in the open set where the `f r` are smooth. -/
structure UCurve (nres : ℕ) (f : ℕ → ℝ → ℝ) (D : Set ℝ) (x : ℝ → ℝ) : Prop where
  hD : IsOpen D
  hf : ∀ r < nres, ∀ y ∈ D, ContDiffAt ℝ ∞ (f r) y
  sx : Sm x
  h0 : x 0 ∈ D

theorem contDiffAt_deriv {f : ℝ → ℝ} {y : ℝ} (h : ContDiffAt ℝ ∞ f y) :
    ContDiffAt ℝ ∞ (deriv f) y := by
  have : ContDiffAt ℝ ∞ (fun t => fderiv ℝ f t 1) y :=
    (h.fderiv_right (m := ∞) (by simp)).clm_apply contDiffAt_const
  simpa using this

theorem cd_hasDerivAt {f : ℝ → ℝ} {y : ℝ} (h : ContDiffAt ℝ ∞ f y) :
    HasDerivAt f (deriv f y) y :=
  (h.differentiableAt (by simp)).hasDerivAt

namespace UCurve
variable {nres : ℕ} {f : ℕ → ℝ → ℝ} {D : Set ℝ} {x : ℝ → ℝ}

theorem ev (h : UCurve nres f D x) : ∀ᶠ t in 𝓝 (0 : ℝ), x t ∈ D :=
  h.sx.continuousAt' (h.hD.mem_nhds h.h0)

theorem sz (h : UCurve nres f D x) {r : ℕ} (hr : r < nres) : Sm (fun t => f r (x t)) :=
  ContDiffAt.comp (0 : ℝ) (h.hf r hr _ h.h0) h.sx

theorem sg (h : UCurve nres f D x) {r : ℕ} (hr : r < nres) : Sm (fun t => deriv (f r) (x t)) :=
  ContDiffAt.comp (0 : ℝ) (contDiffAt_deriv (h.hf r hr _ h.h0)) h.sx

/-- `t z' = g (t x')` -/
theorem theta (h : UCurve nres f D x) {r : ℕ} (hr : r < nres) :
    θ (T (fun t => f r (x t))) = T (fun t => deriv (f r) (x t)) * θ (T x) :=
  θ_unary h.sx (h.sg hr) (h.ev.mono fun _ ht => cd_hasDerivAt (h.hf r hr _ ht))

/-- `δz = g δx` -/
theorem delta (h : UCurve nres f D x) {r : ℕ} (hr : r < nres) {dx : ℝ → ℝ} (hd : Sm dx) :
    T (fun t => deriv (f r) (x t) * dx t) = T (fun t => deriv (f r) (x t)) * T dx :=
  T_mul (h.sg hr) hd

/-- identify the series of the derivative -/
theorem T_deriv_eq (h : UCurve nres f D x) {r : ℕ} {g : ℝ → ℝ} (hg : ∀ y ∈ D, deriv (f r) y = g y) :
    T (fun t => deriv (f r) (x t)) = T (fun t => g (x t)) :=
  T_congr (h.ev.mono fun _ ht => hg _ ht)

end UCurve

/-- Build a certificate for an operator with argument `ix` and results `f r (x)`. -/
noncomputable def mkUnary (nres ix : ℕ) (hn : 0 < nres) (f : ℕ → ℝ → ℝ) (D : Set ℝ) (hD : IsOpen D)
    (hf : ∀ r < nres, ∀ y ∈ D, ContDiffAt ℝ ∞ (f r) y)
    (fwd dir : ℕ → ℕ → ℕ → Tay → Tay) (rev : ℕ → ℕ → Tay → Tay → Tay)
    (Rec : (ℕ → ℝ) → (ℕ → ℕ → ℝ) → ℕ → Prop)
    (rec_loc : ∀ x x' z z' j, (∀ k ≤ j, x k = x' k) → (∀ r < nres, ∀ k ≤ j, z r k = z' r k) →
      Rec x z j → Rec x' z' j)
    (rec_unique : ∀ x x' z z' j, (∀ k ≤ j, x k = x' k) → (∀ r < nres, ∀ k < j, z r k = z' r k) →
      Rec x z j → Rec x' z' j → ∀ r < nres, z r j = z' r j)
    (fwd_ok : ∀ nv p q s, p ≤ q → ix < nv →
      (∀ j, p ≤ j → j ≤ q → Rec (fwd p q (nv + nres - 1) s ix)
        (fun r => fwd p q (nv + nres - 1) s (nv + r)) j) ∧
      (∀ v k, ¬ ((nv ≤ v ∧ v < nv + nres) ∧ p ≤ k ∧ k ≤ q) →
        fwd p q (nv + nres - 1) s v k = s v k))
    (dir_ok : ∀ nv q r s, 1 ≤ q → ix < nv →
      (∀ ell < r, Rec (view r ell (dir q r (nv + nres - 1) s) ix)
        (fun i => view r ell (dir q r (nv + nres - 1) s) (nv + i)) q) ∧
      (∀ v m, ¬ ((nv ≤ v ∧ v < nv + nres) ∧ (q - 1) * r + 1 ≤ m ∧ m < (q - 1) * r + 1 + r) →
        dir q r (nv + nres - 1) s v m = s v m))
    (taylor : ∀ x, UCurve nres f D x → ∀ j, Rec (tc x) (fun r => tc (fun t => f r (x t))) j)
    (rev_ok : ∀ nv x dx n s P δ, ix < nv → UCurve nres f D x → Sm dx →
      (∀ k ≤ n, s ix k = tc x k) →
      (∀ r < nres, ∀ k ≤ n, s (nv + r) k = tc (fun t => f r (x t)) k) →
      (∀ k, δ ix k = tc dx k) →
      (∀ r < nres, ∀ k, δ (nv + r) k = tc (fun t => deriv (f r) (x t) * dx t) k) →
      (∀ r, r + 1 < nres → ∀ k ≤ n, P (nv + r) k = 0) →
      Phi nv (fun _ => n + 1) δ (rev n (nv + nres - 1) s P) = Phi (nv + nres) (fun _ => n + 1) δ P)
    (rev_frame : ∀ nv n s P v, v < nv → v ≠ ix → rev n (nv + nres - 1) s P v = P v) :
    OpCert nres [ix] (fun e r => f r (e ix)) (fun e => e ix ∈ D) fwd dir rev where
  lin e d r := deriv (f r) (e ix) * d ix
  Rec nv s j := Rec (s ix) (fun r => s (nv + r)) j
  nres_pos := hn
  val_congr e e' h r := by rw [h ix (by simp)]
  dom_congr e e' h := by rw [h ix (by simp)]; exact id
  lin_congr e e' d d' h r := by rw [(h ix (by simp)).1, (h ix (by simp)).2]
  smooth env x h hd r hr := (hf r hr _ hd).comp x (h ix (by simp))
  lin_smooth env d h h' hd r hr :=
    (ContDiffAt.comp (0 : ℝ) (contDiffAt_deriv (hf r hr _ hd)) (h ix (by simp))).mul (h' ix (by simp))
  dom_open env x h hd := (h ix (by simp)) (hD.mem_nhds hd)
  hasDeriv env d t h hd r hr := (cd_hasDerivAt (hf r hr _ hd)).comp t (h ix (by simp))
  rec_loc nv s s' j ha h := rec_loc _ _ _ _ j (fun k hk => h ix (by have := ha ix (by simp); omega) k hk)
    (fun r hr k hk => h (nv + r) (by omega) k hk)
  rec_unique nv s s' j ha h h' := rec_unique _ _ _ _ j (fun k hk => h ix (ha ix (by simp)) k hk) h'
  fwd_ok nv p q s hpq ha := fwd_ok nv p q s hpq (ha ix (by simp))
  dir_ok nv q r s hq ha := dir_ok nv q r s hq (ha ix (by simp))
  taylor nv env ha hs hr hd j := by
    have hx : ix < nv := ha ix (by simp)
    have := taylor (fun t => env t ix) ⟨hD, hf, hs ix (by omega), hd⟩ j
    refine rec_loc _ _ _ _ j (fun k _ => rfl) (fun r hr' k _ => ?_) this
    have : (fun t => env t (nv + r)) = fun t => f r (env t ix) := by funext t; exact hr t r hr'
    simp only [this]
  rev_ok nv env d n s P ha hs hds hr hdr hd hsv hP := by
    have hx : ix < nv := ha ix (by simp)
    refine rev_ok nv (fun t => env t ix) (fun t => d t ix) n s P _ hx ⟨hD, hf, hs ix (by omega), hd⟩
      (hds ix (by omega)) (fun k hk => hsv ix (by omega) k hk) (fun r hr' k hk => ?_) (fun k => rfl)
      (fun r hr' k => ?_) hP
    · rw [hsv (nv + r) (by omega) k hk]
      have : (fun t => env t (nv + r)) = fun t => f r (env t ix) := by funext t; exact hr t r hr'
      rw [this]
    · have : (fun t => d t (nv + r)) = fun t => deriv (f r) (env t ix) * d t ix := by
        funext t; exact hdr t r hr'
      rw [this]
  rev_frame nv n s P v hv hva := rev_frame nv n s P v hv (by simpa using hva)

/-! ## Helpers for operators with one result -/

/-- The idiom of all forward functions with one result: at order `j` one cell is set. -/
theorem fwd_single {p q z : ℕ} (hpq : p ≤ q) (s : Tay) (g : ℕ → Tay → ℝ)
    (hg : ∀ j s s', (∀ v k, (v ≠ z ∨ k < j) → s v k = s' v k) → g j s = g j s') :
    (∀ j, p ≤ j → j ≤ q → forRange p (q + 1) s (fun j s => s.set z j (g j s)) z j
        = g j (forRange p (q + 1) s (fun j s => s.set z j (g j s)))) ∧
    (∀ v k, ¬ (v = z ∧ p ≤ k ∧ k ≤ q) →
      forRange p (q + 1) s (fun j s => s.set z j (g j s)) v k = s v k) := by
  have := forRange_rows (p := p) (hi := q + 1) (by omega) s (fun j s => s.set z j (g j s))
    (fun v => v = z) (fun j s => s z j = g j s)
    (fun j s _ _ v k h => by rw [Tay.set_apply, if_neg h])
    (fun j s _ _ => by
      rw [Tay.set_self]
      exact hg j _ _ fun v k h => by
        rw [Tay.set_apply, if_neg]; rintro ⟨rfl, rfl⟩; rcases h with h | h <;> simp at h)
    (fun j s s' _ _ h hQ => by
      rw [← h z j (Or.inr le_rfl), hQ]
      exact hg j _ _ fun v k hvk => h v k (hvk.imp id le_of_lt))
  refine ⟨fun j h1 h2 => this.1 j h1 (by omega), fun v k h => this.2 v k (by
    rintro ⟨a, b, c⟩; exact h ⟨a, b, by omega⟩)⟩

/-- The idiom of multiple direction forward functions with one result. -/
theorem dir_single {q r z : ℕ} (s : Tay) (g : ℕ → Tay → ℝ)
    (hg : ∀ ell s s', ell < r →
      (∀ v k, (v ≠ z ∨ k < (q - 1) * r + 1) → s v k = s' v k) → g ell s = g ell s') :
    (∀ ell < r, forRange 0 r s (fun ell s => s.set z ((q - 1) * r + 1 + ell) (g ell s)) z
        ((q - 1) * r + 1 + ell)
        = g ell (forRange 0 r s (fun ell s => s.set z ((q - 1) * r + 1 + ell) (g ell s)))) ∧
    (∀ v m, ¬ (v = z ∧ (q - 1) * r + 1 ≤ m ∧ m < (q - 1) * r + 1 + r) →
      forRange 0 r s (fun ell s => s.set z ((q - 1) * r + 1 + ell) (g ell s)) v m = s v m) := by
  have key := forRange_ind (lo := 0) (hi := r) (Nat.zero_le r) (s := s)
    (f := fun ell s => s.set z ((q - 1) * r + 1 + ell) (g ell s))
    (P := fun m t => (∀ ell < m, t z ((q - 1) * r + 1 + ell) = g ell t) ∧
      (∀ v i, ¬ (v = z ∧ (q - 1) * r + 1 ≤ i ∧ i < (q - 1) * r + 1 + m) → t v i = s v i))
    ⟨by simp, fun v i _ => rfl⟩ ?_
  · exact key
  · rintro m t - hm ⟨h1, h2⟩
    have hgt : ∀ ell < r, g ell (t.set z ((q - 1) * r + 1 + m) (g m t)) = g ell t := fun ell hl =>
      hg ell _ _ hl fun v k hvk => by
        rw [Tay.set_apply, if_neg]; rintro ⟨rfl, rfl⟩
        rcases hvk with h | h
        · exact h rfl
        · omega
    refine ⟨fun ell hl => ?_, fun v i hvi => ?_⟩
    · rw [hgt ell (by omega)]
      rcases Nat.lt_succ_iff_lt_or_eq.mp hl with h | h
      · rw [Tay.set_ne_ord _ _ _ _ (by omega)]; exact h1 ell h
      · subst h; rw [Tay.set_self]
    · rw [Tay.set_apply, if_neg, h2]
      · rintro ⟨a, b, c⟩; exact hvi ⟨a, b, by omega⟩
      · rintro ⟨rfl, rfl⟩; exact hvi ⟨rfl, by omega, by omega⟩

theorem dirIdx_top {q r ell : ℕ} (hq : 1 ≤ q) : dirIdx r ell q = (q - 1) * r + 1 + ell := by
  unfold dirIdx; rw [if_neg (by omega)]; omega

@[simp] theorem azmul_eq (x y : ℝ) : azmul x y = x * y := by
  unfold azmul; split <;> simp_all

/-- `∑_{k=lo}^{hi-1} k a_k b_{j-k}` -/
noncomputable def ksum (a b : ℕ → ℝ) (lo hi j : ℕ) : ℝ :=
  ∑ k ∈ Finset.Ico lo hi, (k : ℝ) * a k * b (j - k)

theorem ksum_congr {a a' b b' : ℕ → ℝ} {lo hi j : ℕ}
    (h : ∀ k, lo ≤ k → k < hi → a k = a' k ∧ b (j - k) = b' (j - k)) :
    ksum a b lo hi j = ksum a' b' lo hi j := by
  refine Finset.sum_congr rfl fun k hk => ?_
  rw [Finset.mem_Ico] at hk
  rw [(h k hk.1 hk.2).1, (h k hk.1 hk.2).2]

theorem ksum_head {a b : ℕ → ℝ} {lo hi j : ℕ} (h : lo < hi) :
    ksum a b lo hi j = lo * a lo * b (j - lo) + ksum a b (lo + 1) hi j := by
  unfold ksum; rw [Finset.sum_eq_sum_Ico_succ_bot h]

theorem ksum_last {a b : ℕ → ℝ} {lo hi j : ℕ} (h : lo ≤ hi) :
    ksum a b lo (hi + 1) j = ksum a b lo hi j + hi * a hi * b (j - hi) := by
  unfold ksum; rw [Finset.sum_Ico_succ_top h]

/-- accumulate loop, row form -/
theorem forRange_ksum {lo hi : ℕ} (s : Tay) (x z j : ℕ) (hx : x ≠ z) (hlo : 1 ≤ lo) (hhi : hi ≤ j + 1) :
    forRange lo hi s (fun k s => s.add z j ((k : ℝ) * s x k * s z (j - k)))
      = s.set z j (s z j + ksum (s x) (s z) lo hi j) := by
  rw [forRange_accum s z j]
  · rfl
  · intro k v h1 h2
    rw [Tay.set_ne_row _ _ _ _ hx, Tay.set_ne_ord _ _ _ _ (by omega)]

theorem Tay.set_set (s : Tay) (i k : ℕ) (v w : ℝ) : (s.set i k v).set i k w = s.set i k w := by
  funext a b; simp only [Tay.set_apply]; split <;> simp_all

@[simp] theorem dirIdx_zero (r ell : ℕ) : dirIdx r ell 0 = 0 := rfl

theorem dirIdx_pos {r ell k : ℕ} (hk : 1 ≤ k) : dirIdx r ell k = (k - 1) * r + ell + 1 := by
  unfold dirIdx; rw [if_neg (by omega)]

theorem dirIdx_lt {q r ell k : ℕ} (hk : k < q) (hl : ell < r) :
    dirIdx r ell k < (q - 1) * r + 1 := by
  unfold dirIdx
  split
  · omega
  · have : (k - 1 + 1) * r ≤ (q - 1) * r := Nat.mul_le_mul_right r (by omega)
    rw [Nat.add_mul] at this; omega

theorem view_apply (r ell : ℕ) (s : Tay) (v k : ℕ) : view r ell s v k = s v (dirIdx r ell k) := rfl

/-- accumulate loop for multiple directions, row form -/
theorem dir_ksum {q r ell lo : ℕ} (s : Tay) (x z : ℕ) (hx : x ≠ z) (hlo : 1 ≤ lo) (hl : ell < r) :
    forRange lo q s (fun k s => s.add z ((q - 1) * r + 1 + ell)
        ((k : ℝ) * s x ((k - 1) * r + ell + 1) * s z ((q - k - 1) * r + ell + 1)))
      = s.set z ((q - 1) * r + 1 + ell) (s z ((q - 1) * r + 1 + ell) +
          ksum (view r ell s x) (view r ell s z) lo q q) := by
  rw [forRange_accum s z]
  · congr 2
    refine Finset.sum_congr rfl fun k hk => ?_
    rw [Finset.mem_Ico] at hk
    rw [view_apply, view_apply, dirIdx_pos (by omega), dirIdx_pos (by omega)]
  · intro k v h1 h2
    have := dirIdx_lt (q := q) (k := q - k) (by omega) hl
    rw [dirIdx_pos (by omega)] at this
    rw [Tay.set_ne_row _ _ _ _ hx, Tay.set_ne_ord _ _ _ _ (by omega)]

/-- accumulate loop, starting value `w`, general rows -/
theorem acc_add {lo hi : ℕ} (s : Tay) (a b z j : ℕ) (w : ℝ) (hlo : 1 ≤ lo) (hhi : hi ≤ j + 1)
    (ha : a ≠ z ∨ hi ≤ j) :
    forRange lo hi (s.set z j w) (fun k s => s.add z j ((k : ℝ) * s a k * s b (j - k)))
      = s.set z j (w + ksum (s a) (s b) lo hi j) := by
  have e : ∀ k v, lo ≤ k → k < hi → (s.set z j v) a k = s a k ∧ (s.set z j v) b (j - k) = s b (j - k) := by
    intro k v h1 h2
    refine ⟨?_, Tay.set_ne_ord _ _ _ _ (by omega)⟩
    rcases ha with ha | ha
    · exact Tay.set_ne_row _ _ _ _ ha
    · exact Tay.set_ne_ord _ _ _ _ (by omega)
  rw [forRange_accum]
  · rw [Tay.set_set, Tay.set_self]
    congr 2
    refine Finset.sum_congr rfl fun k hk => ?_
    rw [Finset.mem_Ico] at hk
    rw [(e k w hk.1 hk.2).1, (e k w hk.1 hk.2).2]
  · intro k v h1 h2
    rw [Tay.set_set, (e k v h1 h2).1, (e k v h1 h2).2, (e k w h1 h2).1, (e k w h1 h2).2]

theorem acc_sub {lo hi : ℕ} (s : Tay) (a b z j : ℕ) (w : ℝ) (hlo : 1 ≤ lo) (hhi : hi ≤ j + 1)
    (ha : a ≠ z ∨ hi ≤ j) :
    forRange lo hi (s.set z j w) (fun k s => s.add z j (-((k : ℝ) * s a k * s b (j - k))))
      = s.set z j (w - ksum (s a) (s b) lo hi j) := by
  have e : ∀ k v, lo ≤ k → k < hi → (s.set z j v) a k = s a k ∧ (s.set z j v) b (j - k) = s b (j - k) := by
    intro k v h1 h2
    refine ⟨?_, Tay.set_ne_ord _ _ _ _ (by omega)⟩
    rcases ha with ha | ha
    · exact Tay.set_ne_row _ _ _ _ ha
    · exact Tay.set_ne_ord _ _ _ _ (by omega)
  rw [forRange_accum]
  · rw [Tay.set_set, Tay.set_self, sub_eq_add_neg, ksum, ← Finset.sum_neg_distrib]
    congr 2
    refine Finset.sum_congr rfl fun k hk => ?_
    rw [Finset.mem_Ico] at hk
    rw [(e k w hk.1 hk.2).1, (e k w hk.1 hk.2).2]
  · intro k v h1 h2
    rw [Tay.set_set, (e k v h1 h2).1, (e k v h1 h2).2, (e k w h1 h2).1, (e k w h1 h2).2]

/-- accumulate loop for multiple directions, general rows and index expressions -/
theorem dir_acc_add {q r ell lo : ℕ} (s : Tay) (a b z : ℕ) (w : ℝ) (f g : ℕ → ℕ) (hlo : 1 ≤ lo)
    (hl : ell < r) (hf : ∀ k, 1 ≤ k → k < q → f k = dirIdx r ell k)
    (hg : ∀ k, 1 ≤ k → k < q → g k = dirIdx r ell (q - k)) :
    forRange lo q (s.set z ((q - 1) * r + 1 + ell) w) (fun k s => s.add z ((q - 1) * r + 1 + ell)
        ((k : ℝ) * s a (f k) * s b (g k)))
      = s.set z ((q - 1) * r + 1 + ell) (w + ksum (view r ell s a) (view r ell s b) lo q q) := by
  have e : ∀ k v, lo ≤ k → k < q →
      (s.set z ((q - 1) * r + 1 + ell) v) a (f k) = view r ell s a k ∧
      (s.set z ((q - 1) * r + 1 + ell) v) b (g k) = view r ell s b (q - k) := by
    intro k v h1 h2
    have i1 := dirIdx_lt (q := q) (k := q - k) (by omega) hl
    have i2 := dirIdx_lt (q := q) (k := k) (by omega) hl
    rw [hf k (by omega) h2, hg k (by omega) h2]
    exact ⟨Tay.set_ne_ord _ _ _ _ (by omega), Tay.set_ne_ord _ _ _ _ (by omega)⟩
  rw [forRange_accum]
  · rw [Tay.set_set, Tay.set_self]
    congr 2
    refine Finset.sum_congr rfl fun k hk => ?_
    rw [Finset.mem_Ico] at hk
    rw [(e k w hk.1 hk.2).1, (e k w hk.1 hk.2).2]
  · intro k v h1 h2
    rw [Tay.set_set, (e k v h1 h2).1, (e k v h1 h2).2, (e k w h1 h2).1, (e k w h1 h2).2]

theorem dir_acc_sub {q r ell lo : ℕ} (s : Tay) (a b z : ℕ) (w : ℝ) (f g : ℕ → ℕ) (hlo : 1 ≤ lo)
    (hl : ell < r) (hf : ∀ k, 1 ≤ k → k < q → f k = dirIdx r ell k)
    (hg : ∀ k, 1 ≤ k → k < q → g k = dirIdx r ell (q - k)) :
    forRange lo q (s.set z ((q - 1) * r + 1 + ell) w) (fun k s => s.add z ((q - 1) * r + 1 + ell)
        (-((k : ℝ) * s a (f k) * s b (g k))))
      = s.set z ((q - 1) * r + 1 + ell) (w - ksum (view r ell s a) (view r ell s b) lo q q) := by
  have e : ∀ k v, lo ≤ k → k < q →
      (s.set z ((q - 1) * r + 1 + ell) v) a (f k) = view r ell s a k ∧
      (s.set z ((q - 1) * r + 1 + ell) v) b (g k) = view r ell s b (q - k) := by
    intro k v h1 h2
    have i1 := dirIdx_lt (q := q) (k := q - k) (by omega) hl
    have i2 := dirIdx_lt (q := q) (k := k) (by omega) hl
    rw [hf k (by omega) h2, hg k (by omega) h2]
    exact ⟨Tay.set_ne_ord _ _ _ _ (by omega), Tay.set_ne_ord _ _ _ _ (by omega)⟩
  rw [forRange_accum]
  · rw [Tay.set_set, Tay.set_self, sub_eq_add_neg, ksum, ← Finset.sum_neg_distrib]
    congr 2
    refine Finset.sum_congr rfl fun k hk => ?_
    rw [Finset.mem_Ico] at hk
    rw [(e k w hk.1 hk.2).1, (e k w hk.1 hk.2).2]
  · intro k v h1 h2
    rw [Tay.set_set, (e k v h1 h2).1, (e k v h1 h2).2, (e k w h1 h2).1, (e k w h1 h2).2]

theorem dirIdx_a {r ell k : ℕ} (hk : 1 ≤ k) : (k - 1) * r + 1 + ell = dirIdx r ell k := by
  rw [dirIdx_pos hk]; omega

theorem dirIdx_b {r ell k q : ℕ} (hk : k < q) : (q - k - 1) * r + 1 + ell = dirIdx r ell (q - k) := by
  rw [dirIdx_pos (by omega)]; omega

theorem Tay.set_add (s : Tay) (i k : ℕ) (v w : ℝ) : (s.set i k v).add i k w = s.set i k (v + w) := by
  rw [Tay.add, Tay.set_set, Tay.set_self]

/-- the idiom that treats the orders zero and one before the loop -/
theorem forRange_peel2 {σ : Type*} {p q : ℕ} (h : p ≤ q) (s : σ) (f : ℕ → σ → σ) :
    (let s0 := if p = 0 then f 0 s else s
     let p0 := if p = 0 then 1 else p
     if p = 0 ∧ q = 0 then s0 else
     let s1 := if p0 = 1 then f 1 s0 else s0
     let p1 := if p0 = 1 then 2 else p0
     forRange p1 (q + 1) s1 f) = forRange p (q + 1) s f := by
  have one : ∀ (s : σ) (q : ℕ), 1 ≤ q → forRange 2 (q + 1) (f 1 s) f = forRange 1 (q + 1) s f := by
    intro s q hq
    induction q, hq using Nat.le_induction with
    | base => rw [forRange_of_le le_rfl, forRange_succ le_rfl, forRange_of_le le_rfl]
    | succ n hn ih => rw [forRange_succ (lo := 2) (hi := n + 1) (by omega), ih, forRange_succ (lo := 1) (hi := n + 1) (by omega)]
  simp only
  split
  · rename_i h'
    obtain ⟨rfl, rfl⟩ := h'
    rw [forRange_succ le_rfl, forRange_of_le le_rfl]; rfl
  · rename_i h'
    rw [← forRange_peel (by omega : p < q + 1) s f]
    by_cases hp0 : p = 0
    · subst hp0
      simp only [if_true]
      exact one _ _ (by omega)
    · simp only [hp0, if_false]
      by_cases hp1 : p = 1
      · subst hp1; simp only [if_true]; exact one _ _ h
      · simp [hp1]

end CppAD
