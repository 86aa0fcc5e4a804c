import Verif.Ipopt.Inv

/-!
# The callback object of `ipopt::solve`: every evaluation
-/

open scoped Topology
open CppAD.AtomEx (ev ev_of_lt)

namespace CppAD.Ipopt

open Sparsity Legacy IndexSort SparseJac SparseHes

section transfer

variable {n : ℕ} {x : Fin n → ℝ} {g : (ℕ → ℝ) → ℝ} {φ : (Fin n → ℝ) → ℝ}

theorem partial_at (hg : ∀ᶠ x' in 𝓝 x, g (ev x') = φ x') (j : Fin n) {d : ℝ} (h : IsPartial g (ev x) j d) : PartialAt φ x j d := by
  unfold IsPartial at h
  simp only [OptVal.ev_line] at h
  exact h.congr_of_eventuallyEq (((OptVal.line_tendsto x _).eventually hg).mono fun ε h => h.symm)

theorem partial2_at (hg : ∀ᶠ x' in 𝓝 x, g (ev x') = φ x') (k j : Fin n) {d : ℝ} (h : IsPartial2 g (ev x) k j d) :
    Partial2At φ x k j d := by
  obtain ⟨dg, h1, h2⟩ := h
  refine ⟨fun y => dg (ev y), ?_, ?_⟩
  · simp only [OptVal.ev_line] at h1
    filter_upwards [h1, (OptVal.line_tendsto x (Pi.single k 1)).eventually (eventually_eventually_nhds.2 hg)] with ε a b
    exact partial_at b j a
  · exact partial_at (Filter.Eventually.of_forall fun _ => rfl) k h2

end transfer

/-- the weights of the objective and of the constraints -/
theorem weights (nf ng : ℕ) (junk : ℕ → ℝ) (a : ℝ) (l : ℕ → ℝ) (F : ℕ → ℝ) (pos : ℕ → ℕ) (hpos : ∀ i, pos i = nf + i) :
    ∑ i ∈ Finset.range (nf + ng), at' (vec (nf + ng) (forRange 0 ng (forRange 0 nf junk fun i w => Function.update w i a)
      fun i w => Function.update w (pos i) (l i))) i * F i
      = a * ∑ i ∈ Finset.range nf, F i + ∑ i ∈ Finset.range ng, l i * F (nf + i) := by
  obtain rfl : pos = fun i => nf + i := funext hpos
  have hw := write_ok ng (fun i => nf + i) (fun a _ b _ h => Nat.add_left_cancel h) l (forRange 0 nf junk fun i w => Function.update w i a)
  rw [Finset.sum_range_add, Finset.mul_sum]
  congr 1
  · refine Finset.sum_congr rfl fun i hi => ?_
    have hi := Finset.mem_range.1 hi
    rw [at_vec _ (by omega), hw.2 i (fun l _ => by omega), AtomEx.forRange_assign junk (fun _ => a) _ (fun _ _ _ => rfl) hi]
  · refine Finset.sum_congr rfl fun i hi => ?_
    have hi := Finset.mem_range.1 hi
    rw [at_vec _ (by omega), hw.1 i hi]

section evals

variable {A : Arg} {E : Env} {o : Obj} {x : Fin A.nx → ℝ} {fg : (Fin A.nx → ℝ) → ℕ → ℝ}

theorem wsum_fg (hP : Problem A) (hfg : Records A fg x) (w : List ℝ) : ∀ᶠ x' in 𝓝 x,
    wsum (A.tape (List.ofFn x)) w (ev x') = ∑ i ∈ Finset.range (A.nf + A.ng), at' w i * fg x' i := by
  filter_upwards [hfg.2] with x' h
  unfold wsum
  rw [hP.range _ (by simp)]
  exact Finset.sum_congr rfl fun i hi => by rw [h i (Finset.mem_range.1 hi)]

theorem At.val (h : At A o x) (hfg : Records A fg x) {i : ℕ} (hi : i < A.nf + A.ng) : at' o.fg0 i = fg x i := by
  rw [h.fg0 i hi]
  exact hfg.2.self_of_nhds i hi

theorem gradF_inv (hP : Problem A) (h : Inv A E o (some x)) (J : Junk) (w : List ℝ) (hw : w.length = A.nf + A.ng) :
    Inv A E { o with f := (o.f.reverse J.zero 1 w).1 } (some x) :=
  h.updateF hP _ (rev1_ok (hP.wf _ (by simp)) (h.cur x rfl).ready J.zero w (by rw [hP.range _ (by simp)]; exact hw)).1

theorem inside_jac (h : Inv A E o (some x)) (hs : A.sparse = true) : Legacy.Inside (A.nf + A.ng) A.nx o.rowJac.length (fun k => o.rowJac.getD k 0)
    (fun k => o.colJac.getD k 0) (SetVec.Has false (A.nf + A.ng) A.nx (.bools o.patJac)) := by
  intro k hk
  obtain ⟨_, h2, h3, h4⟩ := h.static.jac.mem k hk
  exact ⟨h2, h3, h2, h3, h4 hs⟩

theorem inside_hes (h : Inv A E o (some x)) (hs : A.sparse = true) : Legacy.Inside A.nx A.nx o.rowHes.length (fun k => o.rowHes.getD k 0)
    (fun k => o.colHes.getD k 0) (SetVec.Has false A.nx A.nx (.bools o.patHes)) := by
  intro k hk
  obtain ⟨h2, h3, h4⟩ := h.static.hes.mem k hk
  have h3 : o.colHes.getD k 0 < A.nx := by omega
  exact ⟨h2, h3, h2, h3, h4 hs⟩

theorem works_none {wJ : Option Work} {wH : Option HWork} (h : Works A o)
    (h1 : A.sparseForward = true → ∀ w, wJ = some w → Legacy.GoodFor A.nx o.rowJac.length (fun k => o.rowJac.getD k 0)
      (fun k => o.colJac.getD k 0) (user2internal true A.nx (A.nf + A.ng) (.bools o.patJac)) w)
    (h2 : A.sparseForward = false → ∀ w, wJ = some w → Legacy.GoodRev (A.nf + A.ng) o.rowJac.length (fun k => o.rowJac.getD k 0)
      (fun k => o.colJac.getD k 0) (user2internal false (A.nf + A.ng) A.nx (.bools o.patJac)) w)
    (h3 : ∀ w, wH = some w → Legacy.GoodHes A.nx o.rowHes.length (fun k => o.rowHes.getD k 0)
      (fun k => o.colHes.getD k 0) (user2internal false A.nx A.nx (.bools o.patHes)) .symmetric w) :
    Works A { o with workJac := wJ, workHes := wH } := ⟨h1, h2, h3⟩

/-- the calculations of `eval_jac_g` after `new_x` has been processed -/
theorem jac_body (hP : Problem A) (hE : E.Ok) (h : Inv A E o (some x)) (J : Junk) (y : ℕ → ℝ) (values : ℕ → ℝ) :
    Inv A E (o.evalJacG A E J y false values).1 (some x) ∧
    ((A.tape (List.ofFn x)).Dom (ev x) → ∀ k < o.rowJac.length,
      IsPartial (fun y => (A.tape (List.ofFn x)).eval y (o.rowJac.getD k 0)) (ev x) (o.colJac.getD k 0)
        ((o.evalJacG A E J y false values).2 k)) := by
  have hl : (List.ofFn x).length = A.nx := by simp
  have hT := hP.wf _ hl
  have hn := hP.dom _ hl
  have hd := hP.range _ hl
  have hat := h.cur x rfl
  have hst : o.start A E J y false = o := by simp [Obj.start]
  unfold Obj.evalJacG
  rw [hst]
  dsimp only
  by_cases hk0 : o.rowJac.length = 0
  · rw [if_pos hk0]
    exact ⟨h, fun _ k hk => by omega⟩
  rw [if_neg hk0]
  obtain ⟨S, hr, _, _⟩ := id hat.ready
  have hx0 : o.x0.length = (A.tape (List.ofFn x)).n := by rw [hat.x0, hl, hn]
  have hax : at' o.x0 = ev x := by rw [hat.x0, OptVal.at_ofFn]
  have hcov : A.sparse = true → (A.tape (List.ofFn x)).Dom (ev x) → Covers (A.tape (List.ofFn x)) o.rowJac.length (fun k => o.rowJac.getD k 0)
      (fun k => o.colJac.getD k 0) (SetVec.Has false (A.tape (List.ofFn x)).dep.length (A.tape (List.ofFn x)).n (.bools o.patJac)) (ev x) := by
    intro hs hD i hi j hj _ _ hno
    have e : (fun y => (A.tape (List.ofFn x)).eval y i) = wsum (A.tape (List.ofFn x)) (unitVec (A.tape (List.ofFn x)).dep.length i) := by
      funext y; rw [wsum_unit hi]
    obtain ⟨d, hp⟩ := wsum_partial hT hD (unitVec (A.tape (List.ofFn x)).dep.length i) j
    rw [← e] at hp
    by_contra hz
    have hne : d ≠ 0 := by rintro rfl; exact hz hp
    apply hno
    refine ⟨hi, hj, ?_⟩
    have := h.static.patJac hs i (hd ▸ hi) j (hn ▸ hj) (ev x) (by rw [← sparse_tape hP hs]; exact hD) d
      (by rw [← sparse_tape hP hs]; exact hp) hne
    show o.patJac (i * (A.tape (List.ofFn x)).n + j) = true
    rw [hn]; exact this
  by_cases hf : A.sparseForward = true
  · rw [if_pos hf]
    have hs : A.sparse = true := by simp [Arg.sparse, hf]
    have hin := inside_jac h hs
    have hwf := h.works.fwd hf
    rw [← hn, ← hd] at hin hwf
    have hkeep := sparseJacobianForward_keep hT hr hE.sort J.zero J.fwd J.flag E.nan hE.maxR o.x0 hx0 (.bools o.patJac) trivial hk0
      (fun k => o.rowJac.getD k 0) (fun k => o.colJac.getD k 0) J.out hin o.workJac hwf
    rw [hax] at hkeep
    refine ⟨h.update hP _ _ o.workHes hkeep.1 (works_none h.works (fun _ => by have := hkeep.2; rw [hd, hn] at this; exact this)
      (fun hc => by rw [hf] at hc; cases hc) h.works.hes), fun hD k hk => ?_⟩
    dsimp only
    rw [AtomEx.forRange_assign values _ _ (fun _ _ _ => rfl) hk]
    have := (sparse_jacobian_forward_ok hT hr hE.sort J.zero J.fwd J.flag E.nan hE.maxR o.x0 hx0 (by rw [hax]; exact hD) (.bools o.patJac) trivial
      o.rowJac.length (fun k => o.rowJac.getD k 0) (fun k => o.colJac.getD k 0) J.out hin (by rw [hax]; exact hcov hs hD) o.workJac hwf).1 k hk
    rw [hax] at this
    exact this
  rw [if_neg hf]
  by_cases hv : A.sparseReverse = true
  · rw [if_pos hv]
    have hs : A.sparse = true := by simp [Arg.sparse, hv]
    have hin := inside_jac h hs
    have hwf := h.works.rev (by simpa using hf)
    rw [← hn, ← hd] at hin hwf
    have hkeep := sparseJacobianReverse_keep hT hr hE.sort J.zero J.back J.flag E.nan o.x0 hx0 (.bools o.patJac) trivial hk0
      (fun k => o.rowJac.getD k 0) (fun k => o.colJac.getD k 0) J.out hin o.workJac hwf
    rw [hax] at hkeep
    refine ⟨h.update hP _ _ o.workHes hkeep.1 (works_none h.works (fun hc => absurd hc hf)
      (fun _ => by have := hkeep.2; rw [hd, hn] at this; exact this) h.works.hes), fun hD k hk => ?_⟩
    dsimp only
    rw [AtomEx.forRange_assign values _ _ (fun _ _ _ => rfl) hk]
    have := (sparse_jacobian_reverse_ok hT hr hE.sort J.zero J.back J.flag E.nan o.x0 hx0 (by rw [hax]; exact hD) (.bools o.patJac) trivial
      o.rowJac.length (fun k => o.rowJac.getD k 0) (fun k => o.colJac.getD k 0) J.out hin (by rw [hax]; exact hcov hs hD) o.workJac hwf).1 k hk
    rw [hax] at this
    exact this
  rw [if_neg hv]
  have hS : ∀ i j, (A.nf ≤ i ∧ i < A.nf + A.ng ∧ j < A.nx ∧ (A.sparse = true → o.patJac (i * A.nx + j) = true)) →
    A.nf ≤ i ∧ i < A.nf + A.ng ∧ j < A.nx := fun i j h => ⟨h.1, h.2.1, h.2.2.1⟩
  split_ifs with hlt
  · have := jacDenseFor_ok hT A hE J o hn hd hat.ready h.static.jac h.static.order hS values
    exact ⟨h.updateF hP _ this.1, this.2⟩
  · have := jacDenseRev_ok hT A J o hn hd hat.ready h.static.jac hS values
    exact ⟨h.updateF hP _ this.1, this.2⟩

/-- the weights of the Lagrangian, solve_callback.hpp:989-993 -/
noncomputable def lagWeights (A : Arg) (J : Junk) (objFactor : ℝ) (lambda : ℕ → ℝ) : List ℝ :=
  vec (A.nf + A.ng) (forRange 0 A.ng (forRange 0 A.nf J.out fun i w => Function.update w i objFactor)
    fun i w => Function.update w (i + A.nf) (lambda i))

/-- the calculations of `eval_h` after `new_x` has been processed -/
theorem hes_body (hP : Problem A) (hE : E.Ok) (h : Inv A E o (some x)) (J : Junk) (y : ℕ → ℝ) (objFactor : ℝ) (lambda values : ℕ → ℝ) :
    Inv A E (o.evalH A E J y false objFactor lambda values).1 (some x) ∧
    ((A.tape (List.ofFn x)).Dom (ev x) → ∀ k < o.rowHes.length,
      IsPartial2 (wsum (A.tape (List.ofFn x)) (lagWeights A J objFactor lambda)) (ev x) (o.rowHes.getD k 0) (o.colHes.getD k 0)
        ((o.evalH A E J y false objFactor lambda values).2 k)) := by
  have hl : (List.ofFn x).length = A.nx := by simp
  have hT := hP.wf _ hl
  have hn := hP.dom _ hl
  have hd := hP.range _ hl
  have hat := h.cur x rfl
  have hst : o.start A E J y false = o := by simp [Obj.start]
  unfold Obj.evalH
  rw [hst]
  dsimp only
  by_cases hk0 : o.rowHes.length = 0
  · rw [if_pos hk0]
    exact ⟨h, fun _ k hk => by omega⟩
  rw [if_neg hk0]
  obtain ⟨S, hr, _, _⟩ := id hat.ready
  have hx0 : o.x0.length = (A.tape (List.ofFn x)).n := by rw [hat.x0, hl, hn]
  have hax : at' o.x0 = ev x := by rw [hat.x0, OptVal.at_ofFn]
  have hwt : (lagWeights A J objFactor lambda).length = (A.tape (List.ofFn x)).dep.length := by rw [hd]; exact vec_length _ _
  change Inv A E (if (A.sparseForward || A.sparseReverse) = true then _ else _ : Obj × (ℕ → ℝ)).1 (some x) ∧ _
  generalize hwl : vec (A.nf + A.ng) (forRange 0 A.ng (forRange 0 A.nf J.out fun i w => Function.update w i objFactor)
    fun i w => Function.update w (i + A.nf) (lambda i)) = wl
  have hwl' : lagWeights A J objFactor lambda = wl := hwl
  rw [hwl'] at hwt ⊢
  by_cases hs : (A.sparseForward || A.sparseReverse) = true
  · rw [if_pos hs]
    have hin := inside_hes h hs
    have hwf := h.works.hes
    rw [← hn] at hin hwf
    have hsym : Coloring.symmetric = .symmetric → ∀ i j, SetVec.Has false (A.tape (List.ofFn x)).n (A.tape (List.ofFn x)).n (.bools o.patHes) i j →
        SetVec.Has false (A.tape (List.ofFn x)).n (A.tape (List.ofFn x)).n (.bools o.patHes) j i := by
      rintro _ i j ⟨h1, h2, h3⟩
      refine ⟨h2, h1, ?_⟩
      have h3 : o.patHes (i * (A.tape (List.ofFn x)).n + j) = true := h3
      show o.patHes (j * (A.tape (List.ofFn x)).n + i) = true
      rw [hn] at h1 h2 h3 ⊢
      exact h.static.symm hs i h1 j h2 h3
    have hcov : (A.tape (List.ofFn x)).Dom (ev x) → Covers2 (A.tape (List.ofFn x)) wl o.rowHes.length
        (fun k => o.rowHes.getD k 0) (fun k => o.colHes.getD k 0)
        (SetVec.Has false (A.tape (List.ofFn x)).n (A.tape (List.ofFn x)).n (.bools o.patHes)) .symmetric (ev x) := by
      intro hD i hi j hj _ hno
      choose H hH hH2 using wsum_mixed hT hD wl
      by_contra hz
      have hne : H i j ≠ 0 := by
        intro e
        first | exact hz (e ▸ hH i j) | exact hz (e ▸ hH2 i j)
      apply hno
      refine ⟨hi, hj, ?_⟩
      have := h.static.patHes hs i (hn ▸ hi) j (hn ▸ hj) (ev x) (by rw [← sparse_tape hP hs]; exact hD) wl (H i j)
        (by rw [← sparse_tape hP hs]; first | exact hH i j | exact hH2 i j) hne
      show o.patHes (i * (A.tape (List.ofFn x)).n + j) = true
      rw [hn]; exact this
    have hkeep := sparseHessianWork_keep hT hr hE.sort J.zero J.fwd J.back J.flag E.nan o.x0 wl hx0 hwt (.bools o.patHes) trivial hk0
      (fun k => o.rowHes.getD k 0) (fun k => o.colHes.getD k 0) J.out hin .symmetric hsym o.workHes hwf
    rw [hax] at hkeep
    refine ⟨h.update hP _ o.workJac _ hkeep.1 (works_none h.works h.works.fwd h.works.rev
      (by have := hkeep.2; rw [hn] at this; exact this)), fun hD k hk => ?_⟩
    dsimp only
    rw [AtomEx.forRange_assign values _ _ (fun _ _ _ => rfl) hk]
    have := (sparse_hessian_work_ok hT hr hE.sort J.zero J.fwd J.back J.flag E.nan o.x0 wl hx0 hwt (by rw [hax]; exact hD) (.bools o.patHes) trivial
      o.rowHes.length (fun k => o.rowHes.getD k 0) (fun k => o.colHes.getD k 0) J.out hin .symmetric (by rw [hax]; exact hcov hD)
      hsym o.workHes hwf).1 k hk
    rw [hax] at this
    exact this
  · rw [if_neg hs]
    have hkeep := hessian_keep hT hr J.zero J.fwd J.back E.nan J.out o.x0 wl hx0 hwt
    rw [hax] at hkeep
    refine ⟨h.updateF hP _ hkeep, fun hD k hk => ?_⟩
    dsimp only
    rw [AtomEx.forRange_assign values _ _ (fun _ _ _ => rfl) hk]
    obtain ⟨h2, h3, _⟩ := h.static.hes.mem k hk
    have := hessian_ok hT hr J.zero J.fwd J.back E.nan J.out o.x0 wl hx0 hwt (by rw [hax]; exact hD) (o.rowHes.getD k 0) (by omega)
      (o.colHes.getD k 0) (by omega)
    rw [hax, hn] at this
    exact this

end evals

end CppAD.Ipopt
