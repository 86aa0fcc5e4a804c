import Verif.Taylor.TapeRev
import Verif.Taylor.Mixed
import Verif.Color.Calc

/-!
# Which arguments an operator depends on, to first and second order

Facts about the mathematical functions of the operators (the specification `Op.val`), used to prove
that the sparsity sweeps are conservative.
-/

open scoped ContDiff Topology

namespace CppAD.Sparsity

/-- *Specification*: arguments with respect to which the primary result can have a non-zero derivative
(atomic functions: see `jacSet`) -/
def jacArgs : Op → List ℕ
  | .cexp _ _ _ t f => t.vars ++ f.vars
  | .dis _ _ => []
  | .sign _ => []
  | op => op.args

/-- *Specification*: pairs of arguments with respect to which the primary result can have a non-zero
second derivative (atomic functions: see `hesSet`) -/
def hesPairs : Op → List (ℕ × ℕ)
  | .abs _ | .addpv _ _ | .addvv _ _ | .cexp _ _ _ _ _ | .csum _ _ _ _ _ | .dis _ _ | .divvp _ _
  | .mulpv _ _ | .neg _ | .par _ | .sign _ | .atom _ | .subpv _ _ | .subvp _ _ | .subvv _ _ | .zmulpv _ _ | .zmulvp _ _ => []
  | .mulvv ix iy | .zmulvv ix iy => [(ix, iy), (iy, ix)]
  | .divvv ix iy => [(ix, iy), (iy, ix), (iy, iy)]
  | .powvv ix iy => [(ix, ix), (ix, iy), (iy, ix), (iy, iy)]
  | .acos ix | .acosh ix | .asin ix | .asinh ix | .atan ix | .atanh ix | .cos ix | .cosh ix | .erf ix | .erfc ix
  | .exp ix | .expm1 ix | .log ix | .log1p ix | .sin ix | .sinh ix | .sqrt ix | .tan ix | .tanh ix
  | .powvp ix _ | .powpv _ ix | .divpv _ ix => [(ix, ix)]

theorem jacArgs_sub (op : Op) : ∀ a ∈ jacArgs op, a ∈ op.args := by
  cases op <;> intro a ha <;> first | exact ha | skip
  · simp only [jacArgs, List.mem_append] at ha
    simp only [Op.args, cexpArgs, List.mem_append]
    tauto
  · simp [jacArgs] at ha
  · simp [jacArgs] at ha

section one

variable {E : Type} [NormedAddCommGroup E] [NormedSpace ℝ E]

/-- value of the primary result -/
noncomputable def prim (op : Op) (e : ℕ → ℝ) : ℝ := op.val e (op.nres - 1)

theorem sign_loc {y : ℝ} (h : y ≠ 0) : ∀ᶠ z in 𝓝 y, Real.sign z = Real.sign y := by
  rcases lt_or_gt_of_ne h with h | h
  · filter_upwards [gt_mem_nhds h] with z hz
    rw [Real.sign_of_neg hz, Real.sign_of_neg h]
  · filter_upwards [lt_mem_nhds h] with z hz
    rw [Real.sign_of_pos hz, Real.sign_of_pos h]

theorem lin_zero (op : Op) (e : ℕ → ℝ) (hd : op.dom e) (d : ℕ → ℝ) (h : ∀ a ∈ op.args, d a = 0) :
    ∀ r < op.nres, op.cert.lin e d r = 0 := by
  intro r hr
  have h1 := op.cert.hasDeriv (fun _ => e) d 0 (fun a ha => by rw [h a ha]; exact hasDerivAt_const _ _) hd r hr
  exact h1.unique (hasDerivAt_const _ _)

/-- first order -/
theorem jac_zero_elem (op : Op) (hna : ∀ c, op ≠ .atom c) (env : ℝ → ℕ → ℝ) (d : ℕ → ℝ) (hs : ∀ a ∈ op.args, HasDerivAt (fun t => env t a) (d a) 0)
    (hd : op.dom (env 0)) (h : ∀ a ∈ jacArgs op, d a = 0) : HasDerivAt (fun t => prim op (env t)) 0 0 := by
  have key : (∀ a ∈ op.args, d a = 0) → HasDerivAt (fun t => prim op (env t)) 0 0 := by
    intro h
    have h1 := op.cert.hasDeriv env d 0 hs hd (op.nres - 1) (by have := op.nres_pos; omega)
    rwa [lin_zero op (env 0) hd d h _ (by have := op.nres_pos; omega)] at h1
  cases op with
  | cexp c l r t f =>
    have hc := cexp_open c l r env 0 (fun a ha => (hs a (by simp [Op.args, cexpArgs, ha])).continuousAt)
      (fun a ha => (hs a (by simp [Op.args, cexpArgs, ha])).continuousAt) hd
    have ho : ∀ o : Opd, (∀ a ∈ o.vars, HasDerivAt (fun t => env t a) (d a) 0) → (∀ a ∈ o.vars, d a = 0) →
        HasDerivAt (fun t => o.val (env t)) 0 0 := by
      intro o h1 h2
      cases o with
      | par c => exact hasDerivAt_const _ _
      | var v =>
        have := h1 v (by simp [Opd.vars])
        rw [h2 v (by simp [Opd.vars])] at this
        exact this
    by_cases hh : c.holds (l.val (env 0)) (r.val (env 0))
    · refine HasDerivAt.congr_of_eventuallyEq (ho t (fun a ha => hs a (by simp [Op.args, cexpArgs, ha]))
        fun a ha => h a (by simp [jacArgs, ha])) ?_
      filter_upwards [hc] with e he
      simp only [prim, Op.val, condExp]
      rw [if_pos (he.2.2 hh)]
    · refine HasDerivAt.congr_of_eventuallyEq (ho f (fun a ha => hs a (by simp [Op.args, cexpArgs, ha]))
        fun a ha => h a (by simp [jacArgs, ha])) ?_
      filter_upwards [hc] with e he
      simp only [prim, Op.val, condExp]
      rw [if_neg (fun x => hh (he.2.1 x))]
  | dis fn ix =>
    refine HasDerivAt.congr_of_eventuallyEq (hasDerivAt_const 0 (fn (env 0 ix))) ?_
    have hd' : ∀ᶠ y in 𝓝 (env 0 ix), fn y = fn (env 0 ix) := hd
    exact (hs ix (by simp [Op.args])).continuousAt.eventually hd'
  | sign ix =>
    refine HasDerivAt.congr_of_eventuallyEq (hasDerivAt_const 0 (Real.sign (env 0 ix))) ?_
    exact (hs ix (by simp [Op.args])).continuousAt.eventually (sign_loc hd)
  | atom c => exact absurd rfl (hna c)
  | _ => exact key h

end one

/-! ## second order -/

section two

variable {G H : ℝ × ℝ → ℝ}

/-- mixed second derivative at the origin -/
noncomputable def m12 (G : ℝ × ℝ → ℝ) : ℝ := De (Dt G) 0

theorem m12_congr (h : G =ᶠ[𝓝 0] H) : m12 G = m12 H := by
  unfold m12
  exact (De_congr (Dt_congr h)).self_of_nhds

theorem m12_const (c : ℝ) : m12 (fun _ => c) = 0 := by
  have : Dt (fun _ : ℝ × ℝ => c) = fun _ => 0 := by funext p; simp [Dt]
  unfold m12
  rw [this]
  simp [De]

theorem ev_dif1 {g : ℝ → ℝ} {y : ℝ} (hg : ContDiffAt ℝ ∞ g y) : ∀ᶠ z in 𝓝 y, DifferentiableAt ℝ g z := by
  have h1 : ContDiffAt ℝ 1 g y := hg.of_le (by exact_mod_cast le_top)
  filter_upwards [h1.eventually (by simp)] with p hp using hp.differentiableAt (by simp)

theorem fd_comp {g : ℝ → ℝ} {p : ℝ × ℝ} (hG : DifferentiableAt ℝ G p) (hg : DifferentiableAt ℝ g (G p)) (u : ℝ × ℝ) :
    fderiv ℝ (fun q => g (G q)) p u = deriv g (G p) * fderiv ℝ G p u := by
  rw [show (fun q => g (G q)) = g ∘ G from rfl, fderiv_comp p hg hG]
  simp [mul_comm]

theorem fd_mul {p : ℝ × ℝ} (hG : DifferentiableAt ℝ G p) (hH : DifferentiableAt ℝ H p) (u : ℝ × ℝ) :
    fderiv ℝ (fun q => G q * H q) p u = G p * fderiv ℝ H p u + H p * fderiv ℝ G p u := by
  rw [fderiv_fun_mul hG hH]; simp

theorem fd_add {p : ℝ × ℝ} (hG : DifferentiableAt ℝ G p) (hH : DifferentiableAt ℝ H p) (u : ℝ × ℝ) :
    fderiv ℝ (fun q => G q + H q) p u = fderiv ℝ G p u + fderiv ℝ H p u := by
  rw [fderiv_fun_add hG hH]; simp

theorem sd {G : ℝ × ℝ → ℝ} (h : ContDiffAt ℝ ∞ G 0) : DifferentiableAt ℝ G 0 := h.differentiableAt (by simp)

theorem m12_mul (hG : ContDiffAt ℝ ∞ G 0) (hH : ContDiffAt ℝ ∞ H 0) :
    m12 (fun p => G p * H p) = G 0 * m12 H + H 0 * m12 G + (De G 0 * Dt H 0 + De H 0 * Dt G 0) := by
  have h1 : Dt (fun p => G p * H p) =ᶠ[𝓝 0] fun p => G p * Dt H p + H p * Dt G p := by
    filter_upwards [ev_diff hG, ev_diff hH] with p h1 h2
    exact fd_mul h1 h2 _
  have hdG : ContDiffAt ℝ ∞ (Dt G) 0 := smooth_dir hG _
  have hdH : ContDiffAt ℝ ∞ (Dt H) 0 := smooth_dir hH _
  unfold m12
  rw [(De_congr h1).self_of_nhds]
  unfold De
  rw [fd_add (sd (hG.mul hdH)) (sd (hH.mul hdG)), fd_mul (sd hG) (sd hdH), fd_mul (sd hH) (sd hdG)]
  ring

theorem m12_add (hG : ContDiffAt ℝ ∞ G 0) (hH : ContDiffAt ℝ ∞ H 0) :
    m12 (fun p => G p + H p) = m12 G + m12 H := by
  have h1 : Dt (fun p => G p + H p) =ᶠ[𝓝 0] fun p => Dt G p + Dt H p := by
    filter_upwards [ev_diff hG, ev_diff hH] with p h1 h2
    exact fd_add h1 h2 _
  unfold m12
  rw [(De_congr h1).self_of_nhds]
  unfold De
  exact fd_add (sd (smooth_dir hG _)) (sd (smooth_dir hH _)) _

theorem m12_cmul (c : ℝ) (hG : ContDiffAt ℝ ∞ G 0) : m12 (fun p => c * G p) = c * m12 G := by
  rw [m12_mul contDiffAt_const hG, m12_const]
  simp [De, Dt]

theorem m12_comp {g : ℝ → ℝ} (hG : ContDiffAt ℝ ∞ G 0) (hg : ContDiffAt ℝ ∞ g (G 0)) :
    m12 (fun p => g (G p)) = deriv g (G 0) * m12 G + deriv (deriv g) (G 0) * (De G 0 * Dt G 0) := by
  have h1 : Dt (fun p => g (G p)) =ᶠ[𝓝 0] fun p => deriv g (G p) * Dt G p := by
    filter_upwards [ev_diff hG, hG.continuousAt.eventually (ev_dif1 hg)] with p h1 h2
    exact fd_comp h1 h2 _
  have hg' : ContDiffAt ℝ ∞ (deriv g) (G 0) := by
    have := (hg.fderiv_right (m := ∞) (by simp)).clm_apply (contDiffAt_const (c := (1 : ℝ)))
    exact this
  have hdG : ContDiffAt ℝ ∞ (Dt G) 0 := smooth_dir hG _
  unfold m12
  rw [(De_congr h1).self_of_nhds]
  unfold De
  have hc : ContDiffAt ℝ ∞ (fun p => deriv g (G p)) 0 := hg'.comp (0 : ℝ × ℝ) hG
  rw [fd_mul (sd hc) (sd hdG), fd_comp (sd hG) (hg'.differentiableAt (by simp))]
  ring

/-- "no mixed second derivative" -/
theorem m12_comp_zero {g : ℝ → ℝ} (hG : ContDiffAt ℝ ∞ G 0) (hg : ContDiffAt ℝ ∞ g (G 0)) (h : m12 G = 0)
    (h' : De G 0 * Dt G 0 = 0) : m12 (fun p => g (G p)) = 0 := by
  rw [m12_comp hG hg, h, h']; ring

theorem m12_mul_zero (hG : ContDiffAt ℝ ∞ G 0) (hH : ContDiffAt ℝ ∞ H 0) (h1 : m12 G = 0) (h2 : m12 H = 0)
    (h3 : De G 0 * Dt H 0 = 0) (h4 : De H 0 * Dt G 0 = 0) : m12 (fun p => G p * H p) = 0 := by
  rw [m12_mul hG hH, h1, h2, h3, h4]; ring

theorem m12_add_zero (hG : ContDiffAt ℝ ∞ G 0) (hH : ContDiffAt ℝ ∞ H 0) (h1 : m12 G = 0) (h2 : m12 H = 0) :
    m12 (fun p => G p + H p) = 0 := by
  rw [m12_add hG hH, h1, h2]; ring

theorem m12_cmul_zero (c : ℝ) (hG : ContDiffAt ℝ ∞ G 0) (h1 : m12 G = 0) : m12 (fun p => c * G p) = 0 := by
  rw [m12_cmul c hG, h1]; ring

theorem m12_list (env : ℝ × ℝ → ℕ → ℝ) (l : List ℕ) (hs : ∀ a ∈ l, ContDiffAt ℝ ∞ (fun p => env p a) 0)
    (h : ∀ a ∈ l, m12 (fun p => env p a) = 0) :
    ContDiffAt ℝ ∞ (fun p => (l.map (env p)).sum) 0 ∧ m12 (fun p => (l.map (env p)).sum) = 0 := by
  induction l with
  | nil => simp only [List.map_nil, List.sum_nil]; exact ⟨contDiffAt_const, m12_const 0⟩
  | cons a l ih =>
    obtain ⟨i1, i2⟩ := ih (fun b hb => hs b (by simp [hb])) (fun b hb => h b (by simp [hb]))
    simp only [List.map_cons, List.sum_cons]
    exact ⟨(hs a (by simp)).add i1, m12_add_zero (hs a (by simp)) i1 (h a (by simp)) i2⟩

/-- the case of one argument -/
theorem hes_unary (op : Op) (ix : ℕ) (hop : op.args = [ix])
    (env : ℝ × ℝ → ℕ → ℝ) (hs : ∀ a ∈ op.args, ContDiffAt ℝ ∞ (fun p => env p a) 0) (hd : op.dom (env 0))
    (h1 : m12 (fun p => env p ix) = 0) (h2 : De (fun p => env p ix) 0 * Dt (fun p => env p ix) 0 = 0) :
    m12 (fun p => prim op (env p)) = 0 := by
  have hg : ∀ e, prim op e = (fun y => prim op (fun _ => y)) (e ix) := fun e => op.cert.val_congr _ _ (fun a ha => by
    rw [hop, List.mem_singleton] at ha; subst ha; rfl) _
  rw [show (fun p => prim op (env p)) = fun p => (fun y => prim op (fun _ => y)) (env p ix) from funext fun p => hg _]
  refine m12_comp_zero (g := fun y => prim op (fun _ => y)) (hs ix (by simp [hop])) ?_ h1 h2
  have hd' : op.dom (fun _ => env 0 ix) := op.cert.dom_congr _ _ (fun a ha => by
    rw [hop, List.mem_singleton] at ha; subst ha; rfl) hd
  have := op.cert.smooth (fun (u : ℝ) (_ : ℕ) => u) (env 0 ix) (fun a _ => contDiffAt_id) hd' (op.nres - 1)
    (by have := op.nres_pos; omega)
  exact this

/-- second order -/
theorem hes_zero_elem (op : Op) (hna : ∀ c, op ≠ .atom c) (env : ℝ × ℝ → ℕ → ℝ) (hs : ∀ a ∈ op.args, ContDiffAt ℝ ∞ (fun p => env p a) 0)
    (hd : op.dom (env 0)) (h1 : ∀ a ∈ jacArgs op, m12 (fun p => env p a) = 0)
    (h2 : ∀ q ∈ hesPairs op, De (fun p => env p q.1) 0 * Dt (fun p => env p q.2) 0 = 0) :
    m12 (fun p => prim op (env p)) = 0 := by
  cases op with
  | cexp c l r t f =>
    have hc := cexp_open c l r env 0 (fun a ha => (hs a (by simp [Op.args, cexpArgs, ha])).continuousAt)
      (fun a ha => (hs a (by simp [Op.args, cexpArgs, ha])).continuousAt) hd
    have ho : ∀ o : Opd, (∀ a ∈ o.vars, m12 (fun p => env p a) = 0) → m12 (fun p => o.val (env p)) = 0 := by
      intro o h2
      cases o with
      | par c => exact m12_const c
      | var v => exact h2 v (by simp [Opd.vars])
    by_cases hh : c.holds (l.val (env 0)) (r.val (env 0))
    · rw [← ho t fun a ha => h1 a (by simp [jacArgs, ha])]
      refine m12_congr ?_
      filter_upwards [hc] with e he
      simp only [prim, Op.val, condExp]
      rw [if_pos (he.2.2 hh)]
    · rw [← ho f fun a ha => h1 a (by simp [jacArgs, ha])]
      refine m12_congr ?_
      filter_upwards [hc] with e he
      simp only [prim, Op.val, condExp]
      rw [if_neg (fun x => hh (he.2.1 x))]
  | dis fn ix =>
    rw [← m12_const (fn (env 0 ix))]
    have hd' : ∀ᶠ y in 𝓝 (env 0 ix), fn y = fn (env 0 ix) := hd
    exact m12_congr ((hs ix (by simp [Op.args])).continuousAt.eventually hd')
  | sign ix =>
    rw [← m12_const (Real.sign (env 0 ix))]
    exact m12_congr ((hs ix (by simp [Op.args])).continuousAt.eventually (sign_loc hd))
  | abs ix =>
    have hx := hs ix (by simp [Op.args])
    have hm := h1 ix (by simp [jacArgs, Op.args])
    have hd : env 0 ix ≠ 0 := hd
    rcases lt_or_gt_of_ne hd with h | h
    · rw [← m12_cmul_zero (-1) hx hm]
      refine m12_congr ?_
      filter_upwards [hx.continuousAt.eventually (gt_mem_nhds h)] with p hp
      show |env p ix| = _
      rw [abs_of_neg hp]; ring
    · rw [← hm]
      refine m12_congr ?_
      filter_upwards [hx.continuousAt.eventually (lt_mem_nhds h)] with p hp
      exact abs_of_pos hp
  | par c => exact m12_const c
  | addpv x iy => exact m12_add_zero contDiffAt_const (hs iy (by simp [Op.args])) (m12_const x) (h1 iy (by simp [jacArgs, Op.args]))
  | addvv ix iy =>
    exact m12_add_zero (hs ix (by simp [Op.args])) (hs iy (by simp [Op.args])) (h1 ix (by simp [jacArgs, Op.args]))
      (h1 iy (by simp [jacArgs, Op.args]))
  | subpv x iy =>
    have hy := hs iy (by simp [Op.args])
    rw [← m12_add_zero contDiffAt_const (contDiffAt_const.mul hy) (m12_const x) (m12_cmul_zero (-1) hy (h1 iy (by simp [jacArgs, Op.args])))]
    congr 1; funext p
    show x - env p iy = _
    ring
  | subvp ix y =>
    have hx := hs ix (by simp [Op.args])
    rw [← m12_add_zero hx contDiffAt_const (h1 ix (by simp [jacArgs, Op.args])) (m12_const (-y))]
    congr 1
  | subvv ix iy =>
    have hx := hs ix (by simp [Op.args])
    have hy := hs iy (by simp [Op.args])
    rw [← m12_add_zero hx (contDiffAt_const.mul hy) (h1 ix (by simp [jacArgs, Op.args])) (m12_cmul_zero (-1) hy (h1 iy (by simp [jacArgs, Op.args])))]
    congr 1; funext p
    show env p ix - env p iy = _
    ring
  | neg ix =>
    have hx := hs ix (by simp [Op.args])
    rw [← m12_cmul_zero (-1) hx (h1 ix (by simp [jacArgs, Op.args]))]
    congr 1; funext p
    show - env p ix = _
    ring
  | mulpv x iy => exact m12_cmul_zero x (hs iy (by simp [Op.args])) (h1 iy (by simp [jacArgs, Op.args]))
  | zmulpv x iy => exact m12_cmul_zero x (hs iy (by simp [Op.args])) (h1 iy (by simp [jacArgs, Op.args]))
  | zmulvp ix y =>
    rw [← m12_cmul_zero y (hs ix (by simp [Op.args])) (h1 ix (by simp [jacArgs, Op.args]))]
    congr 1; funext p
    show env p ix * y = _
    ring
  | divvp ix y =>
    rw [← m12_cmul_zero y⁻¹ (hs ix (by simp [Op.args])) (h1 ix (by simp [jacArgs, Op.args]))]
    congr 1; funext p
    show env p ix / y = _
    ring
  | mulvv ix iy =>
    exact m12_mul_zero (hs ix (by simp [Op.args])) (hs iy (by simp [Op.args])) (h1 ix (by simp [jacArgs, Op.args]))
      (h1 iy (by simp [jacArgs, Op.args])) (h2 (ix, iy) (by simp [hesPairs])) (h2 (iy, ix) (by simp [hesPairs]))
  | zmulvv ix iy =>
    exact m12_mul_zero (hs ix (by simp [Op.args])) (hs iy (by simp [Op.args])) (h1 ix (by simp [jacArgs, Op.args]))
      (h1 iy (by simp [jacArgs, Op.args])) (h2 (ix, iy) (by simp [hesPairs])) (h2 (iy, ix) (by simp [hesPairs]))
  | csum c addv subv addp subp =>
    obtain ⟨a1, a2⟩ := m12_list env addv (fun a ha => hs a (by simp [Op.args, ha])) (fun a ha => h1 a (by simp [jacArgs, Op.args, ha]))
    obtain ⟨b1, b2⟩ := m12_list env subv (fun a ha => hs a (by simp [Op.args, ha])) (fun a ha => h1 a (by simp [jacArgs, Op.args, ha]))
    rw [← m12_add_zero (contDiffAt_const.add a1) (contDiffAt_const.mul b1)
      (m12_add_zero contDiffAt_const a1 (m12_const (c + addp.sum - subp.sum)) a2) (m12_cmul_zero (-1) b1 b2)]
    congr 1; funext p
    show c + addp.sum - subp.sum + (addv.map (env p)).sum - (subv.map (env p)).sum = _
    ring
  | divvv ix iy =>
    have hx := hs ix (by simp [Op.args])
    have hy := hs iy (by simp [Op.args])
    have hd : env 0 iy ≠ 0 := hd
    have hi : ContDiffAt ℝ ∞ (fun y : ℝ => y⁻¹) (env 0 iy) := contDiffAt_id.inv hd
    have hG : ContDiffAt ℝ ∞ (fun p => (env p iy)⁻¹) 0 := hy.inv hd
    have e1 := fd_comp (sd hy) (hi.differentiableAt (by simp)) (1, 0)
    have e2 := fd_comp (sd hy) (hi.differentiableAt (by simp)) (0, 1)
    have q1 := h2 (ix, iy) (by simp [hesPairs])
    have q2 := h2 (iy, ix) (by simp [hesPairs])
    have := m12_mul_zero hx hG (h1 ix (by simp [jacArgs, Op.args]))
      (m12_comp_zero hy hi (h1 iy (by simp [jacArgs, Op.args])) (h2 (iy, iy) (by simp [hesPairs])))
      (by
        have : Dt (fun p => (env p iy)⁻¹) 0 = deriv (fun y => y⁻¹) (env 0 iy) * Dt (fun p => env p iy) 0 := e2
        rw [this]; dsimp only at q1; linear_combination deriv (fun y => y⁻¹) (env 0 iy) * q1)
      (by
        have : De (fun p => (env p iy)⁻¹) 0 = deriv (fun y => y⁻¹) (env 0 iy) * De (fun p => env p iy) 0 := e1
        rw [this]; dsimp only at q2; linear_combination deriv (fun y => y⁻¹) (env 0 iy) * q2)
    rw [← this]
    congr 1
  | powvv ix iy =>
    have hx := hs ix (by simp [Op.args])
    have hy := hs iy (by simp [Op.args])
    have hd : 0 < env 0 ix := hd
    have hi : ContDiffAt ℝ ∞ Real.log (env 0 ix) := Real.contDiffAt_log.2 hd.ne'
    have hG : ContDiffAt ℝ ∞ (fun p => Real.log (env p ix)) 0 := hx.log hd.ne'
    have e1 := fd_comp (sd hx) (hi.differentiableAt (by simp)) (1, 0)
    have e2 := fd_comp (sd hx) (hi.differentiableAt (by simp)) (0, 1)
    have e1 : De (fun p => Real.log (env p ix)) 0 = deriv Real.log (env 0 ix) * De (fun p => env p ix) 0 := e1
    have e2 : Dt (fun p => Real.log (env p ix)) 0 = deriv Real.log (env 0 ix) * Dt (fun p => env p ix) 0 := e2
    have q1 := h2 (ix, iy) (by simp [hesPairs])
    have q2 := h2 (iy, ix) (by simp [hesPairs])
    have q3 := h2 (ix, ix) (by simp [hesPairs])
    have q4 := h2 (iy, iy) (by simp [hesPairs])
    dsimp only at q1 q2 q3 q4
    have hm := m12_mul_zero hG hy (m12_comp_zero hx hi (h1 ix (by simp [jacArgs, Op.args])) q3)
      (h1 iy (by simp [jacArgs, Op.args]))
      (by rw [e1]; linear_combination deriv Real.log (env 0 ix) * q1)
      (by rw [e2]; linear_combination deriv Real.log (env 0 ix) * q2)
    have hP := hG.mul hy
    have f1 : De (fun p => Real.log (env p ix) * env p iy) 0 = _ := fd_mul (sd hG) (sd hy) (1, 0)
    have f2 : Dt (fun p => Real.log (env p ix) * env p iy) 0 = _ := fd_mul (sd hG) (sd hy) (0, 1)
    have := m12_comp_zero hP Real.contDiff_exp.contDiffAt hm (by
      rw [f1, f2]
      change (Real.log (env 0 ix) * De (fun p => env p iy) 0 + env 0 iy * De (fun p => Real.log (env p ix)) 0) *
        (Real.log (env 0 ix) * Dt (fun p => env p iy) 0 + env 0 iy * Dt (fun p => Real.log (env p ix)) 0) = 0
      rw [e1, e2]
      linear_combination Real.log (env 0 ix) ^ 2 * q4 + env 0 iy ^ 2 * deriv Real.log (env 0 ix) ^ 2 * q3 +
        Real.log (env 0 ix) * env 0 iy * deriv Real.log (env 0 ix) * (q1 + q2))
    rw [← this]
    refine m12_congr ?_
    filter_upwards [hx.continuousAt.eventually (lt_mem_nhds hd)] with p hp
    show env p ix ^ env p iy = _
    rw [Real.rpow_def_of_pos hp]
  | atom c => exact absurd rfl (hna c)
  | divpv x ix => exact hes_unary (.divpv x ix) ix rfl env hs hd (h1 ix (by simp [jacArgs, Op.args])) (h2 (ix, ix) (by simp [hesPairs]))
  | powvp ix y => exact hes_unary (.powvp ix y) ix rfl env hs hd (h1 ix (by simp [jacArgs, Op.args])) (h2 (ix, ix) (by simp [hesPairs]))
  | powpv x ix => exact hes_unary (.powpv x ix) ix rfl env hs hd (h1 ix (by simp [jacArgs, Op.args])) (h2 (ix, ix) (by simp [hesPairs]))
  | _ ix => exact hes_unary _ ix rfl env hs hd (h1 ix (by simp [jacArgs, Op.args])) (h2 (ix, ix) (by simp [hesPairs]))

end two

end CppAD.Sparsity
