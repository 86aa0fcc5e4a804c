import Verif.Taylor.Rev

/-! # Certificates for operators with two variable arguments -/

open scoped ContDiff Topology PowerSeries

namespace CppAD

/-- `x`, `y` are smooth curves that start in the open set `D`. -/
structure BCurve (D : Set (ℝ × ℝ)) (x y : ℝ → ℝ) : Prop where
  hD : IsOpen D
  sx : Sm x
  sy : Sm y
  h0 : (x 0, y 0) ∈ D

theorem BCurve.ev {D : Set (ℝ × ℝ)} {x y : ℝ → ℝ} (h : BCurve D x y) :
    ∀ᶠ t in 𝓝 (0 : ℝ), (x t, y t) ∈ D :=
  (h.sx.continuousAt'.prodMk h.sy.continuousAt') (h.hD.mem_nhds h.h0)

/-- functions of two variables with their partial derivatives, smooth on `D` -/
structure BFun (nres : ℕ) (f fx fy : ℕ → ℝ → ℝ → ℝ) (D : Set (ℝ × ℝ)) : Prop where
  hD : IsOpen D
  hf : ∀ r < nres, ∀ y ∈ D, ContDiffAt ℝ ∞ (fun u : ℝ × ℝ => f r u.1 u.2) y
  hfx : ∀ r < nres, ∀ y ∈ D, ContDiffAt ℝ ∞ (fun u : ℝ × ℝ => fx r u.1 u.2) y
  hfy : ∀ r < nres, ∀ y ∈ D, ContDiffAt ℝ ∞ (fun u : ℝ × ℝ => fy r u.1 u.2) y
  hd : ∀ r < nres, ∀ (x y : ℝ → ℝ) (dx dy t : ℝ), HasDerivAt x dx t → HasDerivAt y dy t →
    (x t, y t) ∈ D →
    HasDerivAt (fun u => f r (x u) (y u)) (fx r (x t) (y t) * dx + fy r (x t) (y t) * dy) t

/-- Build a certificate for an operator with arguments `ix`, `iy` and results `f r (x, y)`. -/
noncomputable def mkBinary (nres ix iy : ℕ) (hn : 0 < nres) (f fx fy : ℕ → ℝ → ℝ → ℝ)
    (D : Set (ℝ × ℝ)) (hF : BFun nres f fx fy D)
    (fwd dir : ℕ → ℕ → ℕ → Tay → Tay) (rev : ℕ → ℕ → Tay → Tay → Tay)
    (Rec : (ℕ → ℝ) → (ℕ → ℝ) → (ℕ → ℕ → ℝ) → ℕ → Prop)
    (rec_loc : ∀ x x' y y' z z' j, (∀ k ≤ j, x k = x' k) → (∀ k ≤ j, y k = y' k) →
      (∀ r < nres, ∀ k ≤ j, z r k = z' r k) → Rec x y z j → Rec x' y' z' j)
    (rec_unique : ∀ x x' y y' z z' j, (∀ k ≤ j, x k = x' k) → (∀ k ≤ j, y k = y' k) →
      (∀ r < nres, ∀ k < j, z r k = z' r k) →
      Rec x y z j → Rec x' y' z' j → ∀ r < nres, z r j = z' r j)
    (fwd_ok : ∀ nv p q s, p ≤ q → ix < nv → iy < nv →
      (∀ j, p ≤ j → j ≤ q → Rec (fwd p q (nv + nres - 1) s ix) (fwd p q (nv + nres - 1) s iy)
        (fun r => fwd p q (nv + nres - 1) s (nv + r)) j) ∧
      (∀ v k, ¬ ((nv ≤ v ∧ v < nv + nres) ∧ p ≤ k ∧ k ≤ q) →
        fwd p q (nv + nres - 1) s v k = s v k))
    (dir_ok : ∀ nv q r s, 1 ≤ q → ix < nv → iy < nv →
      (∀ ell < r, Rec (view r ell (dir q r (nv + nres - 1) s) ix)
        (view r ell (dir q r (nv + nres - 1) s) iy)
        (fun i => view r ell (dir q r (nv + nres - 1) s) (nv + i)) q) ∧
      (∀ v m, ¬ ((nv ≤ v ∧ v < nv + nres) ∧ (q - 1) * r + 1 ≤ m ∧ m < (q - 1) * r + 1 + r) →
        dir q r (nv + nres - 1) s v m = s v m))
    (taylor : ∀ x y, BCurve D x y → (∀ r < nres, Sm (fun t => f r (x t) (y t))) →
      ∀ j, Rec (tc x) (tc y) (fun r => tc (fun t => f r (x t) (y t))) j)
    (rev_ok : ∀ nv x y dx dy n s P δ, ix < nv → iy < nv → BCurve D x y → Sm dx → Sm dy →
      (∀ r < nres, Sm (fun t => f r (x t) (y t))) →
      (∀ k ≤ n, s ix k = tc x k) → (∀ k ≤ n, s iy k = tc y k) →
      (∀ r < nres, ∀ k ≤ n, s (nv + r) k = tc (fun t => f r (x t) (y t)) k) →
      (∀ k, δ ix k = tc dx k) → (∀ k, δ iy k = tc dy k) →
      (∀ r < nres, ∀ k, δ (nv + r) k
        = tc (fun t => fx r (x t) (y t) * dx t + fy r (x t) (y t) * dy t) k) →
      (∀ r, r + 1 < nres → ∀ k ≤ n, P (nv + r) k = 0) →
      Phi nv (fun _ => n + 1) δ (rev n (nv + nres - 1) s P) = Phi (nv + nres) (fun _ => n + 1) δ P)
    (rev_frame : ∀ nv n s P v, v < nv → v ≠ ix → v ≠ iy → rev n (nv + nres - 1) s P v = P v) :
    OpCert nres [ix, iy] (fun e r => f r (e ix) (e iy)) (fun e => (e ix, e iy) ∈ D) fwd dir rev where
  lin e d r := fx r (e ix) (e iy) * d ix + fy r (e ix) (e iy) * d iy
  Rec nv s j := Rec (s ix) (s iy) (fun r => s (nv + r)) j
  nres_pos := hn
  val_congr e e' h r := by rw [h ix (by simp), h iy (by simp)]
  dom_congr e e' h := by rw [h ix (by simp), h iy (by simp)]; exact id
  lin_congr e e' d d' h r := by
    rw [(h ix (by simp)).1, (h ix (by simp)).2, (h iy (by simp)).1, (h iy (by simp)).2]
  smooth env x h hd r hr :=
    ContDiffAt.comp x (g := fun u : ℝ × ℝ => f r u.1 u.2) (hF.hf r hr _ hd)
      ((h ix (by simp)).prodMk (h iy (by simp)))
  lin_smooth env d h h' hd r hr :=
    ((ContDiffAt.comp (0 : ℝ) (hF.hfx r hr _ hd) ((h ix (by simp)).prodMk (h iy (by simp)))).mul
      (h' ix (by simp))).add
    ((ContDiffAt.comp (0 : ℝ) (hF.hfy r hr _ hd) ((h ix (by simp)).prodMk (h iy (by simp)))).mul
      (h' iy (by simp)))
  dom_open env x h hd :=
    ((h ix (by simp)).prodMk (h iy (by simp))) (hF.hD.mem_nhds hd)
  hasDeriv env d t h hd r hr := hF.hd r hr _ _ _ _ t (h ix (by simp)) (h iy (by simp)) hd
  rec_loc nv s s' j ha h := rec_loc _ _ _ _ _ _ j
    (fun k hk => h ix (by have := ha ix (by simp); omega) k hk)
    (fun k hk => h iy (by have := ha iy (by simp); omega) k hk)
    (fun r hr k hk => h (nv + r) (by omega) k hk)
  rec_unique nv s s' j ha h h' := rec_unique _ _ _ _ _ _ j (fun k hk => h ix (ha ix (by simp)) k hk)
    (fun k hk => h iy (ha iy (by simp)) k hk) h'
  fwd_ok nv p q s hpq ha := fwd_ok nv p q s hpq (ha ix (by simp)) (ha iy (by simp))
  dir_ok nv q r s hq ha := dir_ok nv q r s hq (ha ix (by simp)) (ha iy (by simp))
  taylor nv env ha hs hr hd j := by
    have hx : ix < nv := ha ix (by simp)
    have hy : iy < nv := ha iy (by simp)
    have e : ∀ r < nres, (fun t => env t (nv + r)) = fun t => f r (env t ix) (env t iy) :=
      fun r hr' => by funext t; exact hr t r hr'
    have := taylor (fun t => env t ix) (fun t => env t iy)
      ⟨hF.hD, hs ix (by omega), hs iy (by omega), hd⟩
      (fun r hr' => by rw [← e r hr']; exact hs (nv + r) (by omega)) j
    exact rec_loc _ _ _ _ _ _ j (fun k _ => rfl) (fun k _ => rfl)
      (fun r hr' k _ => by simp only [e r hr']) this
  rev_ok nv env d n s P ha hs hds hr hdr hd hsv hP := by
    have hx : ix < nv := ha ix (by simp)
    have hy : iy < nv := ha iy (by simp)
    have e : ∀ r < nres, (fun t => env t (nv + r)) = fun t => f r (env t ix) (env t iy) :=
      fun r hr' => by funext t; exact hr t r hr'
    refine rev_ok nv (fun t => env t ix) (fun t => env t iy) (fun t => d t ix) (fun t => d t iy) n s P _
      hx hy ⟨hF.hD, hs ix (by omega), hs iy (by omega), hd⟩
      (hds ix (by omega)) (hds iy (by omega))
      (fun r hr' => by rw [← e r hr']; exact hs (nv + r) (by omega))
      (fun k hk => hsv ix (by omega) k hk) (fun k hk => hsv iy (by omega) k hk)
      (fun r hr' k hk => ?_) (fun k => rfl) (fun k => rfl)
      (fun r hr' k => ?_) hP
    · rw [hsv (nv + r) (by omega) k hk, e r hr']
    · have : (fun t => d t (nv + r)) = fun t => fx r (env t ix) (env t iy) * d t ix
        + fy r (env t ix) (env t iy) * d t iy := by
        funext t; exact hdr t r hr'
      rw [this]
  rev_frame nv n s P v hv hva := rev_frame nv n s P v hv
    (fun h => hva (by simp [h])) (fun h => hva (by simp [h]))

/-- one result -/
noncomputable def mkBinary1 (ix iy : ℕ) (f fx fy : ℝ → ℝ → ℝ)
    (D : Set (ℝ × ℝ)) (hF : BFun 1 (fun _ => f) (fun _ => fx) (fun _ => fy) D)
    (fwd dir : ℕ → ℕ → ℕ → Tay → Tay) (rev : ℕ → ℕ → Tay → Tay → Tay)
    (G : (ℕ → ℝ) → (ℕ → ℝ) → (ℕ → ℝ) → ℕ → ℝ)
    (hG : ∀ x x' y y' z z' j, (∀ k ≤ j, x k = x' k) → (∀ k ≤ j, y k = y' k) →
      (∀ k < j, z k = z' k) → G x y z j = G x' y' z' j)
    (fwd_eq : ∀ p q iz s, ix ≠ iz → iy ≠ iz → p ≤ q → fwd p q iz s
      = forRange p (q + 1) s (fun j s => s.set iz j (G (s ix) (s iy) (s iz) j)))
    (dir_eq : ∀ q r iz s, ix ≠ iz → iy ≠ iz → 1 ≤ q → dir q r iz s
      = forRange 0 r s (fun ell s => s.set iz ((q - 1) * r + 1 + ell)
          (G (view r ell s ix) (view r ell s iy) (view r ell s iz) q)))
    (taylor : ∀ x y, BCurve D x y → Sm (fun t => f (x t) (y t)) → ∀ j,
      tc (fun t => f (x t) (y t)) j = G (tc x) (tc y) (tc (fun t => f (x t) (y t))) j)
    (rev_ok : ∀ nv x y dx dy n s P δ, ix < nv → iy < nv → BCurve D x y → Sm dx → Sm dy →
      Sm (fun t => f (x t) (y t)) →
      (∀ k ≤ n, s ix k = tc x k) → (∀ k ≤ n, s iy k = tc y k) →
      (∀ k ≤ n, s nv k = tc (fun t => f (x t) (y t)) k) →
      (∀ k, δ ix k = tc dx k) → (∀ k, δ iy k = tc dy k) →
      (∀ k, δ nv k = tc (fun t => fx (x t) (y t) * dx t + fy (x t) (y t) * dy t) k) →
      Phi nv (fun _ => n + 1) δ (rev n nv s P) = Phi (nv + 1) (fun _ => n + 1) δ P)
    (rev_frame : ∀ nv n s P v, v < nv → v ≠ ix → v ≠ iy → rev n nv s P v = P v) :
    OpCert 1 [ix, iy] (fun e _ => f (e ix) (e iy)) (fun e => (e ix, e iy) ∈ D) fwd dir rev :=
  mkBinary 1 ix iy one_pos (fun _ => f) (fun _ => fx) (fun _ => fy) D hF fwd dir rev
    (fun x y z j => z 0 j = G x y (z 0) j)
    (fun x x' y y' z z' j hx hy hz h => by
      rw [← hz 0 one_pos j le_rfl, h]
      exact hG _ _ _ _ _ _ _ hx hy fun k hk => hz 0 one_pos k (le_of_lt hk))
    (fun x x' y y' z z' j hx hy hz h h' r hr => by
      obtain rfl : r = 0 := by omega
      rw [h, h']; exact hG _ _ _ _ _ _ _ hx hy (hz 0 one_pos))
    (fun nv p q s hpq hix hiy => by
      have h := fwd_single (p := p) (q := q) (z := nv) hpq s (fun j s => G (s ix) (s iy) (s nv) j)
        (fun j s s' h => hG _ _ _ _ _ _ _ (fun k _ => h ix k (Or.inl (by omega)))
          (fun k _ => h iy k (Or.inl (by omega)))
          (fun k hk => h nv k (Or.inr hk)))
      simp only [Nat.add_sub_cancel, fwd_eq p q nv s (by omega) (by omega) hpq, add_zero]
      refine ⟨h.1, fun v k hvk => h.2 v k ?_⟩
      rintro ⟨rfl, a, b⟩; exact hvk ⟨⟨le_rfl, by omega⟩, a, b⟩)
    (fun nv q r s hq hix hiy => by
      have h := dir_single (q := q) (r := r) (z := nv) s
        (fun ell s => G (view r ell s ix) (view r ell s iy) (view r ell s nv) q)
        (fun ell s s' hl h => hG _ _ _ _ _ _ _ (fun k _ => h ix _ (Or.inl (by omega)))
          (fun k _ => h iy _ (Or.inl (by omega)))
          (fun k hk => h nv _ (Or.inr (dirIdx_lt hk hl))))
      simp only [Nat.add_sub_cancel, dir_eq q r nv s (by omega) (by omega) hq, add_zero]
      refine ⟨fun ell hl => ?_, fun v k hvk => h.2 v k ?_⟩
      · rw [view_apply, dirIdx_top hq]; exact h.1 ell hl
      · rintro ⟨rfl, a, b⟩; exact hvk ⟨⟨le_rfl, by omega⟩, a, b⟩)
    (fun x y hc hs => taylor x y hc (hs 0 one_pos))
    (fun nv x y dx dy n s P δ hix hiy hc hd hd' hs h1 h1' h2 h3 h3' h4 _ =>
      rev_ok nv x y dx dy n s P δ hix hiy hc hd hd' (hs 0 one_pos) h1 h1' (h2 0 one_pos) h3 h3'
        (h4 0 one_pos))
    (fun nv n s P v => rev_frame nv n s P v)

end CppAD
