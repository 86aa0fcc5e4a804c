import Verif.Taylor.DriversTwo

/-!
# Directional derivatives as sums of partial derivatives

Facts about the recorded function that are used for `sparse_jac` and `sparse_hes`.
-/

open scoped ContDiff Topology

namespace CppAD

variable {T : Tape} {x : ℕ → ℝ} {w : List ℝ}

/-- sum of the unit vectors in `s` -/
def indic (s : Finset ℕ) : ℕ → ℝ := fun j => if j ∈ s then 1 else 0

theorem wsum_smooth2 (hT : T.WF) (hD : T.Dom x) (w : List ℝ) (d e : ℕ → ℝ) :
    ContDiffAt ℝ ∞ (fun p : ℝ × ℝ => wsum T w (fun j => x j + p.1 * d j + p.2 * e j)) 0 := by
  unfold wsum
  refine ContDiffAt.sum fun i hi => ?_
  exact contDiffAt_const.mul (eval_smooth2 hT hD (Finset.mem_range.mp hi) d e)

theorem isPartial_unique {g : (ℕ → ℝ) → ℝ} {j : ℕ} {a b : ℝ} (ha : IsPartial g x j a)
    (hb : IsPartial g x j b) : a = b := HasDerivAt.unique ha hb

theorem wsum_partial (hT : T.WF) (hD : T.Dom x) (w : List ℝ) (j : ℕ) :
    ∃ d, IsPartial (wsum T w) x j d := by
  have hG := wsum_smooth2 hT hD w (un j) (un j)
  have h1 := hasDeriv_e (p := (0, 0)) (hG.differentiableAt (by simp))
  refine ⟨De (fun p : ℝ × ℝ => wsum T w (fun l => x l + p.1 * un j l + p.2 * un j l)) (0, 0), ?_⟩
  unfold IsPartial
  simp only [upd_un]
  simpa using h1

theorem dir_sum (hT : T.WF) (hD : T.Dom x) (w : List ℝ) (p : ℕ → ℝ) (s : Finset ℕ)
    (hp : ∀ j ∈ s, IsPartial (wsum T w) x j (p j)) :
    HasDerivAt (fun t => wsum T w (fun j => x j + t * indic s j)) (∑ j ∈ s, p j) 0 := by
  classical
  induction s using Finset.induction_on with
  | empty => simpa [indic] using hasDerivAt_const (0 : ℝ) (wsum T w x)
  | insert a s ha ih =>
    have ih := ih fun j hj => hp j (Finset.mem_insert_of_mem hj)
    have hG := (wsum_smooth2 hT hD w (un a) (indic s)).differentiableAt (by simp)
    have h0 := hasDeriv_diag (p := 0) hG
    have h1 := hasDeriv_e (p := (0, 0)) hG
    have h2 := hasDeriv_t (p := (0, 0)) hG
    have e1 : De (fun p : ℝ × ℝ => wsum T w (fun j => x j + p.1 * un a j + p.2 * indic s j)) (0, 0) = p a := by
      refine HasDerivAt.unique h1 ?_
      have := hp a (Finset.mem_insert_self _ _)
      unfold IsPartial at this
      simp only [upd_un] at this
      simpa using this
    have e2 : Dt (fun p : ℝ × ℝ => wsum T w (fun j => x j + p.1 * un a j + p.2 * indic s j)) (0, 0)
        = ∑ j ∈ s, p j := by
      refine HasDerivAt.unique h2 ?_
      simpa using ih
    rw [e1, e2] at h0
    rw [Finset.sum_insert ha]
    have e3 : ∀ t : ℝ, (fun j => x j + t * indic (insert a s) j)
        = fun j => x j + t * un a j + t * indic s j := by
      intro t; funext j
      unfold indic un
      by_cases hj : j = a
      · subst hj; simp [ha]
      · simp [hj]
    simp only [e3]
    exact h0

/-! ## second partial derivatives -/

theorem isPartial2_unique {g : (ℕ → ℝ) → ℝ} {k j : ℕ} {a b : ℝ} (ha : IsPartial2 g x k j a)
    (hb : IsPartial2 g x k j b) : a = b := by
  obtain ⟨f1, h1, h2⟩ := ha
  obtain ⟨f2, h3, h4⟩ := hb
  refine HasDerivAt.unique h2 (HasDerivAt.congr_of_eventuallyEq h4 ?_)
  filter_upwards [h1, h3] with ε e1 e2
  exact isPartial_unique e1 e2

theorem wsum_mixed (hT : T.WF) (hD : T.Dom x) (w : List ℝ) (k j : ℕ) :
    ∃ d, IsPartial2 (wsum T w) x k j d ∧ IsPartial2 (wsum T w) x j k d := by
  set H : ℝ × ℝ → ℝ := fun p => wsum T w (fun l => x l + p.1 * un k l + p.2 * un j l) with hH
  have hG : ContDiffAt ℝ ∞ H 0 := wsum_smooth2 hT hD w (un k) (un j)
  have hE : ContDiffAt ℝ ∞ (De H) 0 := smooth_dir hG _
  have hT' : ContDiffAt ℝ ∞ (Dt H) 0 := smooth_dir hG _
  refine ⟨De (Dt H) 0, ⟨fun y => deriv (fun t => wsum T w (Function.update y j (y j + t))) 0, ?_, ?_⟩, ?_⟩
  · filter_upwards [ev_line (ev_diff hG) (γ := fun t => (t, 0)) (by fun_prop) rfl] with ε hε
    have := hasDeriv_t (p := (ε, 0)) hε
    simp only [hH] at this
    unfold IsPartial
    simp only [upd_un]
    rw [this.deriv]; exact this
  · unfold IsPartial
    have h1 := hasDeriv_e (p := (0, 0)) (hT'.differentiableAt (by simp))
    refine HasDerivAt.congr_of_eventuallyEq h1 ?_
    filter_upwards [ev_line (ev_diff hG) (γ := fun t => (t, 0)) (by fun_prop) rfl] with ε hε
    have := hasDeriv_t (p := (ε, 0)) hε
    simp only [hH] at this
    simp only [upd_un]
    rw [this.deriv]
  · have s : De (Dt H) 0 = Dt (De H) 0 := (symm_et hG).eq_of_nhds
    rw [s]
    have e : ∀ ε t : ℝ, (fun l => x l + ε * un j l + t * un k l)
        = fun l => x l + t * un k l + ε * un j l := by
      intro ε t; funext l; ring
    refine ⟨fun y => deriv (fun t => wsum T w (Function.update y k (y k + t))) 0, ?_, ?_⟩
    · filter_upwards [ev_line (ev_diff hG) (γ := fun t => (0, t)) (by fun_prop) rfl] with ε hε
      have := hasDeriv_e (p := (0, ε)) hε
      simp only [hH] at this
      unfold IsPartial
      simp only [upd_un, e]
      rw [this.deriv]; exact this
    · unfold IsPartial
      have h1 := hasDeriv_t (p := (0, 0)) (hE.differentiableAt (by simp))
      refine HasDerivAt.congr_of_eventuallyEq h1 ?_
      filter_upwards [ev_line (ev_diff hG) (γ := fun t => (0, t)) (by fun_prop) rfl] with ε hε
      have := hasDeriv_e (p := (0, ε)) hε
      simp only [hH] at this
      simp only [upd_un, e]
      rw [this.deriv]

theorem isPartial2_symm (hT : T.WF) (hD : T.Dom x) {k j : ℕ} {d : ℝ}
    (h : IsPartial2 (wsum T w) x k j d) : IsPartial2 (wsum T w) x j k d := by
  obtain ⟨d', h1, h2⟩ := wsum_mixed hT hD w k j
  rw [isPartial2_unique h h1]; exact h2

/-- the partial derivative of a directional derivative is a sum of second partials -/
theorem dir_sum2 (hT : T.WF) (hD : T.Dom x) {k : ℕ} {dg : (ℕ → ℝ) → ℝ} {v : ℝ} (p : ℕ → ℝ) (s : Finset ℕ)
    (hdg : ∀ y, T.Dom y → HasDerivAt (fun t => wsum T w (fun j => y j + t * indic s j)) (dg y) 0)
    (hv : IsPartial dg x k v) (hp : ∀ j ∈ s, IsPartial2 (wsum T w) x k j (p j)) : v = ∑ j ∈ s, p j := by
  classical
  choose! f h1 h2 using hp
  have hsum : HasDerivAt (fun ε => ∑ j ∈ s, f j (Function.update x k (x k + ε))) (∑ j ∈ s, p j) 0 :=
    HasDerivAt.fun_sum fun j hj => h2 j hj
  refine HasDerivAt.unique hv (HasDerivAt.congr_of_eventuallyEq hsum ?_)
  have hall : ∀ᶠ ε in 𝓝 (0 : ℝ), ∀ j ∈ s, IsPartial (wsum T w) (Function.update x k (x k + ε)) j
      (f j (Function.update x k (x k + ε))) := by
    rw [Filter.eventually_all_finset]
    exact h1
  filter_upwards [Dom_update_ev hT hD k, hall] with ε hε ha
  exact HasDerivAt.unique (hdg _ hε) (dir_sum hT hε w (fun j => f j (Function.update x k (x k + ε))) s ha)

end CppAD
