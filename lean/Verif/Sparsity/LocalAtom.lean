import Verif.Sparsity.Local

/-!
# Which arguments a result depends on, to first and second order; all operators

The sets of arguments for an atomic function call are defined by the derivatives of the function, at the points where the
arguments that are parameters have their value.
-/

open scoped ContDiff Topology

namespace CppAD

namespace AtomCall

variable (c : AtomCall)

/-- points where the arguments that are parameters have the value of the parameter -/
def Pt (X : Fin c.A.n → ℝ) : Prop := ∀ (j : Fin c.A.n) v, c.x j = .par v → X j = v

/-- *Specification*: arguments with respect to which result `r` has a non-zero derivative at some point -/
def jacSet (r : ℕ) : Set ℕ := {a | ∃ j : Fin c.A.n, c.x j = .var a ∧ ∃ X, c.Pt X ∧ X ∈ c.A.dom ∧
  fderiv ℝ (fun x => c.A.fn x (c.comp r)) X (Pi.single j 1) ≠ 0}

/-- *Specification*: arguments on which result `r` depends -/
def depSet (r : ℕ) : Set ℕ := {a | ∃ j : Fin c.A.n, c.x j = .var a ∧ ∃ X v, c.Pt X ∧
  c.A.fn (Function.update X j v) (c.comp r) ≠ c.A.fn X (c.comp r)}

/-- *Specification*: pairs of arguments with respect to which result `r` has a non-zero second derivative at some point -/
def hesSet (r : ℕ) : Set (ℕ × ℕ) := {q | ∃ j k : Fin c.A.n, c.x j = .var q.1 ∧ c.x k = .var q.2 ∧ ∃ X, c.Pt X ∧ X ∈ c.A.dom ∧
  fderiv ℝ (fun x => fderiv ℝ (fun x => c.A.fn x (c.comp r)) x (Pi.single k 1)) X (Pi.single j 1) ≠ 0}

theorem xv_pt (e : ℕ → ℝ) : c.Pt (c.xv e) := by
  intro j v h
  unfold xv
  rw [h]; rfl

theorem Pt.update {c : AtomCall} {X : Fin c.A.n → ℝ} (h : c.Pt X) {j : Fin c.A.n} {a : ℕ} (hj : c.x j = .var a) (v : ℝ) :
    c.Pt (Function.update X j v) := by
  intro k w hk
  by_cases hkj : k = j
  · subst hkj; rw [hj] at hk; cases hk
  · rw [Function.update_of_ne hkj]; exact h k w hk

theorem Pt.ident {c : AtomCall} {X : Fin c.A.n → ℝ} (h : c.Pt X) (k : Fin c.A.n) (hk : c.ident k = true) : X k = 0 :=
  h k 0 (c.ident_ok k hk)

theorem ident_var {j a : ℕ} (hj : c.x j = .var a) : c.ident j = false := by
  cases h : c.ident j with
  | false => rfl
  | true => rw [c.ident_ok j h] at hj; cases hj

theorem update_line {n : ℕ} (X : Fin n → ℝ) (j : Fin n) (t : ℝ) :
    Function.update X j (X j + t) = X + t • (Pi.single j 1 : Fin n → ℝ) := by
  funext k
  by_cases h : k = j
  · subst h; simp
  · simp [h]

/-- derivative along a coordinate -/
theorem coord_deriv {n : ℕ} {f : (Fin n → ℝ) → ℝ} {X : Fin n → ℝ} (hf : DifferentiableAt ℝ f X) (j : Fin n) :
    HasDerivAt (fun t : ℝ => f (Function.update X j (X j + t))) (fderiv ℝ f X (Pi.single j 1)) 0 := by
  simp only [update_line]
  have h1 : HasDerivAt (fun t : ℝ => X + t • (Pi.single j 1 : Fin n → ℝ)) (Pi.single j 1) 0 := by
    have := ((hasDerivAt_id (0 : ℝ)).smul_const (Pi.single j 1 : Fin n → ℝ)).const_add X
    simpa using this
  have h2 : HasFDerivAt f (fderiv ℝ f X) (X + (0 : ℝ) • (Pi.single j 1 : Fin n → ℝ)) := by
    simpa using hf.hasFDerivAt
  exact h2.comp_hasDerivAt (0 : ℝ) h1

theorem jac_sub_depSet {r : ℕ} (hr : r < c.nres) : c.jacSet r ⊆ c.depSet r := by
  rintro a ⟨j, hj, X, hX, hd, hne⟩
  by_contra hno
  apply hne
  have hc : ∀ v, c.A.fn (Function.update X j v) (c.comp r) = c.A.fn X (c.comp r) := by
    intro v
    by_contra hv
    exact hno ⟨j, hj, X, v, hX, hv⟩
  have h1 := coord_deriv (c.fn_diff hd (c.comp_spec hr).1) j
  simp only [hc] at h1
  exact h1.unique (hasDerivAt_const _ _)

theorem depSet_sub (r : ℕ) : ∀ a ∈ c.depSet r, a ∈ c.args := by
  rintro a ⟨j, hj, _⟩
  exact c.var_mem hj

theorem jacSet_sub (r : ℕ) : ∀ a ∈ c.jacSet r, a ∈ c.args := by
  rintro a ⟨j, hj, _⟩
  exact c.var_mem hj

/-- partial derivatives of a smooth function are smooth -/
theorem smooth_part {n : ℕ} {f : (Fin n → ℝ) → ℝ} {X : Fin n → ℝ} (hf : ContDiffAt ℝ ∞ f X) (u : Fin n → ℝ) :
    ContDiffAt ℝ ∞ (fun x => fderiv ℝ f x u) X :=
  (hf.fderiv_right (m := ∞) (by simp)).clm_apply contDiffAt_const

theorem snd_of_hes {r : ℕ} (hr : r < c.nres) {j k : Fin c.A.n} {a b : ℕ} (hj : c.x j = .var a) (hk : c.x k = .var b)
    {X : Fin c.A.n → ℝ} (hX : c.Pt X) (hd : X ∈ c.A.dom)
    (hne : fderiv ℝ (fun x => fderiv ℝ (fun x => c.A.fn x (c.comp r)) x (Pi.single k 1)) X (Pi.single j 1) ≠ 0) :
    b ∈ c.jacSet r := by
  by_contra hno
  apply hne
  have hs := c.A.smooth X hd _ (c.comp_spec hr).1
  have h1 := coord_deriv ((smooth_part hs (Pi.single k 1)).differentiableAt (by simp)) j
  refine h1.unique (HasDerivAt.congr_of_eventuallyEq (hasDerivAt_const 0 0) ?_)
  have hcont : ContinuousAt (fun t : ℝ => Function.update X j (X j + t)) 0 := by
    simp only [update_line]; fun_prop
  have h0 : (fun t : ℝ => Function.update X j (X j + t)) 0 = X := by simp
  have hn : c.A.dom ∈ 𝓝 ((fun t : ℝ => Function.update X j (X j + t)) 0) := by
    rw [h0]; exact c.A.dom_open.mem_nhds hd
  filter_upwards [hcont.eventually hn] with t ht
  by_contra hz
  exact hno ⟨k, hk, _, hX.update hj _, ht, hz⟩

/-- second partial derivatives commute -/
theorem second_symm {n : ℕ} {f : (Fin n → ℝ) → ℝ} {X : Fin n → ℝ} (hf : ContDiffAt ℝ ∞ f X) (u v : Fin n → ℝ) :
    fderiv ℝ (fun x => fderiv ℝ f x u) X v = fderiv ℝ (fun x => fderiv ℝ f x v) X u := by
  have hd : DifferentiableAt ℝ (fderiv ℝ f) X := (hf.fderiv_right (m := ∞) (by simp)).differentiableAt (by simp)
  have e : ∀ u v : Fin n → ℝ, fderiv ℝ (fun x => fderiv ℝ f x u) X v = fderiv ℝ (fderiv ℝ f) X v u := by
    intro u v
    rw [fderiv_clm_apply hd (differentiableAt_const u)]
    simp
  rw [e, e]
  have := (hf.of_le (m := 2) (WithTop.coe_le_coe.2 (le_top : (2 : ℕ∞) ≤ ⊤))).isSymmSndFDerivAt (by simp)
  exact this v u

theorem hesSet_sub {r : ℕ} (hr : r < c.nres) : ∀ q ∈ c.hesSet r, q.1 ∈ c.jacSet r ∧ q.2 ∈ c.jacSet r := by
  rintro q ⟨j, k, hj, hk, X, hX, hd, hne⟩
  refine ⟨?_, c.snd_of_hes hr hj hk hX hd hne⟩
  rw [second_symm (c.A.smooth X hd _ (c.comp_spec hr).1)] at hne
  exact c.snd_of_hes hr hk hj hX hd hne

/-- the value depends only on the arguments in `depSet` -/
theorem val_dep {r : ℕ} {e e' : ℕ → ℝ} (h : ∀ a ∈ c.depSet r, e a = e' a) : c.val e r = c.val e' r := by
  unfold val
  -- change the first `q` arguments
  have key : ∀ q ≤ c.A.n, c.A.fn (fun j => if (j : ℕ) < q then c.xv e' j else c.xv e j) (c.comp r) = c.A.fn (c.xv e) (c.comp r) := by
    intro q
    induction q with
    | zero => intro _; simp
    | succ q ih =>
      intro hq
      rw [← ih (by omega)]
      set X : Fin c.A.n → ℝ := fun j => if (j : ℕ) < q then c.xv e' j else c.xv e j with hXd
      have hX : c.Pt X := by
        intro j v hj
        simp only [hXd]
        split_ifs
        · exact c.xv_pt e' j v hj
        · exact c.xv_pt e j v hj
      have hu : (fun j : Fin c.A.n => if (j : ℕ) < q + 1 then c.xv e' j else c.xv e j)
          = Function.update X ⟨q, by omega⟩ (c.xv e' ⟨q, by omega⟩) := by
        funext j
        by_cases hj : j = ⟨q, by omega⟩
        · subst hj; simp
        · rw [Function.update_of_ne hj]
          have : (j : ℕ) ≠ q := fun h => hj (Fin.ext h)
          simp only [hXd]
          by_cases h1 : (j : ℕ) < q
          · rw [if_pos (by omega), if_pos h1]
          · rw [if_neg (by omega), if_neg h1]
      rw [hu]
      have hXq : X ⟨q, by omega⟩ = c.xv e ⟨q, by omega⟩ := by simp [hXd]
      cases hx : c.x q with
      | par v =>
        have : c.xv e' ⟨q, by omega⟩ = X ⟨q, by omega⟩ := by
          rw [hXq, c.xv_pt e' _ v hx, c.xv_pt e _ v hx]
        rw [this, Function.update_eq_self]
      | var a =>
        by_contra hne
        have ha : a ∈ c.depSet r := ⟨⟨q, by omega⟩, hx, X, _, hX, hne⟩
        apply hne
        have : c.xv e' ⟨q, by omega⟩ = X ⟨q, by omega⟩ := by
          rw [hXq]
          unfold xv
          simp only [hx, Opd.val]
          exact (h a ha).symm
        rw [this, Function.update_eq_self]
  rw [← key c.A.n le_rfl]
  congr 1
  funext j
  rw [if_pos j.2]

/-- a linear map is determined by the coordinates -/
theorem lin_coord {n : ℕ} (L : (Fin n → ℝ) →L[ℝ] ℝ) (d : Fin n → ℝ) : L d = ∑ j, d j * L (Pi.single j 1) := by
  conv_lhs => rw [← Finset.univ_sum_single d]
  rw [map_sum]
  refine Finset.sum_congr rfl fun j _ => ?_
  have : (Pi.single j (d j) : Fin n → ℝ) = d j • Pi.single j 1 := by
    rw [← Pi.single_smul]; simp
  rw [this, map_smul]; rfl

theorem jac_zero {r : ℕ} (hr : r < c.nres) (env : ℝ → ℕ → ℝ) (d : ℕ → ℝ)
    (hs : ∀ a ∈ c.args, HasDerivAt (fun t => env t a) (d a) 0) (hd : c.dom (env 0)) (h : ∀ a ∈ c.jacSet r, d a = 0) :
    HasDerivAt (fun t => c.val (env t) r) 0 0 := by
  have h1 := c.xv_deriv env d 0 hs
  have h2 := (c.fn_diff hd (c.comp_spec hr).1).hasFDerivAt.comp_hasDerivAt (0 : ℝ) h1
  have h3 : fderiv ℝ (fun x => c.A.fn x (c.comp r)) (c.xv (env 0)) (c.dv d) = 0 := by
    rw [lin_coord]
    refine Finset.sum_eq_zero fun j _ => ?_
    unfold dv
    cases hx : c.x j with
    | par v => simp
    | var a =>
      simp only
      by_cases ha : a ∈ c.jacSet r
      · rw [h a ha, zero_mul]
      · by_contra hne
        exact ha ⟨j, hx, _, c.xv_pt _, hd, (mul_ne_zero_iff.1 hne).2⟩
  rw [h3] at h2
  exact h2

/-- chain rule for a function of several variables -/
theorem fd_multi {n : ℕ} {f : (Fin n → ℝ) → ℝ} {X : ℝ × ℝ → Fin n → ℝ} {p : ℝ × ℝ} (hf : DifferentiableAt ℝ f (X p))
    (hX : DifferentiableAt ℝ X p) (u : ℝ × ℝ) :
    fderiv ℝ (fun q => f (X q)) p u = ∑ j, fderiv ℝ (fun q => X q j) p u * fderiv ℝ f (X p) (Pi.single j 1) := by
  rw [show (fun q => f (X q)) = f ∘ X from rfl, fderiv_comp p hf hX]
  rw [ContinuousLinearMap.comp_apply, lin_coord]
  refine Finset.sum_congr rfl fun j _ => ?_
  congr 1
  rw [fderiv_apply hX j]
  rfl

end AtomCall

end CppAD

namespace CppAD.Sparsity

theorem fd_sum {n : ℕ} {F : Fin n → ℝ × ℝ → ℝ} {p : ℝ × ℝ} (h : ∀ j, DifferentiableAt ℝ (F j) p) (u : ℝ × ℝ) :
    fderiv ℝ (fun q => ∑ j, F j q) p u = ∑ j, fderiv ℝ (F j) p u := by
  have := fderiv_fun_sum (u := Finset.univ) (A := F) (x := p) (fun j _ => h j)
  rw [this]
  simp

/-- mixed derivative of a composition -/
theorem m12_multi {n : ℕ} {f : (Fin n → ℝ) → ℝ} {X : ℝ × ℝ → Fin n → ℝ} (hX : ContDiffAt ℝ ∞ X 0)
    (hf : ContDiffAt ℝ ∞ f (X 0)) : m12 (fun p => f (X p))
      = ∑ k, (m12 (fun p => X p k) * fderiv ℝ f (X 0) (Pi.single k 1) + Dt (fun p => X p k) 0 *
        ∑ j, De (fun p => X p j) 0 * fderiv ℝ (fun x => fderiv ℝ f x (Pi.single k 1)) (X 0) (Pi.single j 1)) := by
  have hXk : ∀ k, ContDiffAt ℝ ∞ (fun p => X p k) 0 := fun k => contDiffAt_pi.1 hX k
  have hfk : ∀ k, ContDiffAt ℝ ∞ (fun x => fderiv ℝ f x (Pi.single k 1)) (X 0) := fun k => AtomCall.smooth_part hf _
  have hev : ∀ᶠ x in 𝓝 (X 0), DifferentiableAt ℝ f x := by
    have h1 : ContDiffAt ℝ 1 f (X 0) := hf.of_le (by exact_mod_cast le_top)
    filter_upwards [h1.eventually (by simp)] with p hp using hp.differentiableAt (by simp)
  have hev' : ∀ᶠ p in 𝓝 (0 : ℝ × ℝ), DifferentiableAt ℝ X p := by
    have h1 : ContDiffAt ℝ 1 X 0 := hX.of_le (by exact_mod_cast le_top)
    filter_upwards [h1.eventually (by simp)] with p hp using hp.differentiableAt (by simp)
  have h1 : Dt (fun p => f (X p)) =ᶠ[𝓝 0] fun p => ∑ k, Dt (fun p => X p k) p * fderiv ℝ f (X p) (Pi.single k 1) := by
    filter_upwards [hX.continuousAt.eventually hev, hev'] with p a b
    exact AtomCall.fd_multi a b _
  have hDt : ∀ k, ContDiffAt ℝ ∞ (Dt fun p => X p k) 0 := fun k => smooth_dir (hXk k) _
  have hc : ∀ k, ContDiffAt ℝ ∞ (fun p => fderiv ℝ f (X p) (Pi.single k 1)) 0 := fun k =>
    ContDiffAt.comp (g := fun x => fderiv ℝ f x (Pi.single k 1)) (0 : ℝ × ℝ) (hfk k) hX
  unfold m12
  rw [(De_congr h1).self_of_nhds]
  unfold De
  rw [fd_sum fun k => sd ((hDt k).mul (hc k))]
  refine Finset.sum_congr rfl fun k _ => ?_
  rw [fd_mul (sd (hDt k)) (sd (hc k)), AtomCall.fd_multi (f := fun x => fderiv ℝ f x (Pi.single k 1))
    ((hfk k).differentiableAt (by simp)) (hX.differentiableAt (by simp))]
  ring

end CppAD.Sparsity

namespace CppAD.AtomCall

open Sparsity

theorem hes_zero (c : AtomCall) {r : ℕ} (hr : r < c.nres) (env : ℝ × ℝ → ℕ → ℝ)
    (hs : ∀ a ∈ c.args, ContDiffAt ℝ ∞ (fun p => env p a) 0) (hd : c.dom (env 0))
    (h1 : ∀ a ∈ c.jacSet r, m12 (fun p => env p a) = 0)
    (h2 : ∀ q ∈ c.hesSet r, De (fun p => env p q.1) 0 * Dt (fun p => env p q.2) 0 = 0) :
    m12 (fun p => c.val (env p) r) = 0 := by
  have hX := c.xv_smooth env 0 hs
  have hm := m12_multi hX (c.A.smooth _ hd _ (c.comp_spec hr).1)
  refine hm.trans (Finset.sum_eq_zero fun k _ => ?_)
  cases hk : c.x k with
  | par v =>
    have e : (fun p => c.xv (env p) k) = fun _ => v := by
      funext p; exact c.xv_pt _ k v hk
    have e2 : Dt (fun p => c.xv (env p) k) 0 = 0 := by rw [e]; simp [Dt]
    rw [e2, zero_mul, add_zero, e, m12_const, zero_mul]
  | var b =>
    have e : (fun p => c.xv (env p) k) = fun p => env p b := by
      funext p; unfold xv; rw [hk]; rfl
    rw [e]
    have t1 : m12 (fun p => env p b) * fderiv ℝ (fun x => c.A.fn x (c.comp r)) (c.xv (env 0)) (Pi.single k 1) = 0 := by
      by_cases hb : b ∈ c.jacSet r
      · rw [h1 b hb, zero_mul]
      · by_contra hne
        exact hb ⟨k, hk, _, c.xv_pt _, hd, (mul_ne_zero_iff.1 hne).2⟩
    rw [t1, zero_add, Finset.mul_sum]
    refine Finset.sum_eq_zero fun j _ => ?_
    cases hj : c.x j with
    | par v =>
      have e : (fun p => c.xv (env p) j) = fun _ => v := by
        funext p; exact c.xv_pt _ j v hj
      rw [e]; simp [De]
    | var a =>
      have e : (fun p => c.xv (env p) j) = fun p => env p a := by
        funext p; unfold xv; rw [hj]; rfl
      rw [e]
      by_contra hne
      have hz := (mul_ne_zero_iff.1 hne).2
      have := h2 (a, b) ⟨j, k, hj, hk, _, c.xv_pt _, hd, (mul_ne_zero_iff.1 hz).2⟩
      dsimp only at this
      exact hne (by linear_combination (fderiv ℝ (fun x => fderiv ℝ (fun x => c.A.fn x (c.comp r)) x (Pi.single k 1)) (c.xv (env 0)) (Pi.single j 1)) * this)

end CppAD.AtomCall

namespace CppAD.Sparsity

/-- *Specification*: arguments with respect to which result `r` can have a non-zero derivative -/
def jacSet : Op → ℕ → Set ℕ
  | .atom c, r => c.jacSet r
  | op, _ => {a | a ∈ jacArgs op}

/-- *Specification*: arguments on which result `r` can depend -/
def depSet : Op → ℕ → Set ℕ
  | .atom c, r => c.depSet r
  | op, _ => {a | a ∈ op.args}

/-- *Specification*: pairs of arguments with respect to which result `r` can have a non-zero second derivative -/
def hesSet : Op → ℕ → Set (ℕ × ℕ)
  | .atom c, r => c.hesSet r
  | op, _ => {q | q ∈ hesPairs op}

theorem jacSet_elem {op : Op} (h : ∀ c, op ≠ .atom c) (r : ℕ) : jacSet op r = {a | a ∈ jacArgs op} := by
  unfold jacSet; split
  · exact absurd rfl (h _)
  · rfl

theorem depSet_elem {op : Op} (h : ∀ c, op ≠ .atom c) (r : ℕ) : depSet op r = {a | a ∈ op.args} := by
  unfold depSet; split
  · exact absurd rfl (h _)
  · rfl

theorem hesSet_elem {op : Op} (h : ∀ c, op ≠ .atom c) (r : ℕ) : hesSet op r = {a | a ∈ hesPairs op} := by
  unfold hesSet; split
  · exact absurd rfl (h _)
  · rfl

theorem naux_elem {op : Op} (h : ∀ c, op ≠ .atom c) : op.naux = op.nres - 1 := by
  unfold Op.naux; split
  · exact absurd rfl (h _)
  · rfl

theorem last_elem {op : Op} (h : ∀ c, op ≠ .atom c) {r : ℕ} (h1 : op.naux ≤ r) (h2 : r < op.nres) : r = op.nres - 1 := by
  rw [naux_elem h] at h1; omega

theorem atom_or (op : Op) : (∃ c, op = .atom c) ∨ ∀ c, op ≠ .atom c := by
  by_cases h : ∃ c, op = .atom c
  · exact Or.inl h
  · exact Or.inr fun c hc => h ⟨c, hc⟩

theorem hesPairs_sub (op : Op) : ∀ q ∈ hesPairs op, q.1 ∈ jacArgs op ∧ q.2 ∈ jacArgs op := by
  intro q hq
  cases op <;> simp only [hesPairs, List.mem_cons, List.not_mem_nil, or_false] at hq <;>
    (try exact hq.elim) <;> (try (rcases hq with rfl | rfl | rfl | rfl <;> simp [jacArgs, Op.args])) <;>
    (try (rcases hq with rfl | rfl | rfl <;> simp [jacArgs, Op.args])) <;>
    (try (rcases hq with rfl | rfl <;> simp [jacArgs, Op.args])) <;>
    (try (subst hq; simp [jacArgs, Op.args]))

theorem jac_sub_depSet (op : Op) {r : ℕ} (hr : r < op.nres) : ∀ a ∈ jacSet op r, a ∈ depSet op r := by
  rcases atom_or op with ⟨c, rfl⟩ | h
  · exact c.jac_sub_depSet hr
  · rw [jacSet_elem h, depSet_elem h]; exact jacArgs_sub op

theorem depSet_sub (op : Op) (r : ℕ) : ∀ a ∈ depSet op r, a ∈ op.args := by
  rcases atom_or op with ⟨c, rfl⟩ | h
  · exact c.depSet_sub r
  · rw [depSet_elem h]; exact fun a h => h

theorem jacSet_sub (op : Op) (r : ℕ) : ∀ a ∈ jacSet op r, a ∈ op.args := by
  rcases atom_or op with ⟨c, rfl⟩ | h
  · exact c.jacSet_sub r
  · rw [jacSet_elem h]; exact jacArgs_sub op

theorem hesSet_sub (op : Op) {r : ℕ} (hr : r < op.nres) : ∀ q ∈ hesSet op r, q.1 ∈ jacSet op r ∧ q.2 ∈ jacSet op r := by
  rcases atom_or op with ⟨c, rfl⟩ | h
  · exact c.hesSet_sub hr
  · rw [hesSet_elem h, jacSet_elem h]; exact hesPairs_sub op

/-- dependence -/
theorem val_dep (op : Op) {r : ℕ} {e e' : ℕ → ℝ} (h : ∀ a ∈ depSet op r, e a = e' a) : op.val e r = op.val e' r := by
  rcases atom_or op with ⟨c, rfl⟩ | hn
  · exact c.val_dep h
  · rw [depSet_elem hn] at h
    exact op.cert.val_congr _ _ h _

/-- first order -/
theorem jac_zero (op : Op) {r : ℕ} (h1 : op.naux ≤ r) (h2 : r < op.nres) (env : ℝ → ℕ → ℝ) (d : ℕ → ℝ)
    (hs : ∀ a ∈ op.args, HasDerivAt (fun t => env t a) (d a) 0)
    (hd : op.dom (env 0)) (h : ∀ a ∈ jacSet op r, d a = 0) : HasDerivAt (fun t => op.val (env t) r) 0 0 := by
  rcases atom_or op with ⟨c, rfl⟩ | hn
  · exact c.jac_zero h2 env d hs hd h
  · rw [jacSet_elem hn] at h
    rw [last_elem hn h1 h2]
    exact jac_zero_elem op hn env d hs hd h

/-- second order -/
theorem hes_zero (op : Op) {r : ℕ} (hr1 : op.naux ≤ r) (hr2 : r < op.nres) (env : ℝ × ℝ → ℕ → ℝ)
    (hs : ∀ a ∈ op.args, ContDiffAt ℝ ∞ (fun p => env p a) 0)
    (hd : op.dom (env 0)) (h1 : ∀ a ∈ jacSet op r, m12 (fun p => env p a) = 0)
    (h2 : ∀ q ∈ hesSet op r, De (fun p => env p q.1) 0 * Dt (fun p => env p q.2) 0 = 0) :
    m12 (fun p => op.val (env p) r) = 0 := by
  rcases atom_or op with ⟨c, rfl⟩ | hn
  · exact c.hes_zero hr2 env hs hd h1 h2
  · rw [jacSet_elem hn] at h1
    rw [hesSet_elem hn] at h2
    rw [last_elem hn hr1 hr2]
    exact hes_zero_elem op hn env hs hd h1 h2

end CppAD.Sparsity
