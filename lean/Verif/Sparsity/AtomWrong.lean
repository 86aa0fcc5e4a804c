import Verif.Sparsity.Apply

/-!
# Hessian sparsity and atomic functions: a defect

A call to an atomic function excludes the arguments with an empty forward Jacobian set from the reverse
propagation, core/atomic/four/devel/hes_sparsity.hpp:296-304 and 352-357.  This loses second derivatives with respect to
independent variables that are not in the pattern given to `for_jac_sparsity`.
-/

open scoped ContDiff Topology

namespace CppAD.Sparsity

open PowerSeries in
theorem tc_add {f g : ℝ → ℝ} (hf : Sm f) (hg : Sm g) (k : ℕ) : tc (fun t => f t + g t) k = tc f k + tc g k := by
  have := congrArg (coeff k) (T_add hf hg)
  rwa [map_add, coeff_T, coeff_T, coeff_T] at this

/-- the atomic function `y_0 = x_0` -/
noncomputable def idAtom : Atom where
  n := 1
  m := 1
  forward _ _ _ tx _ := tx
  reverse _ _ _ _ py := py
  fn x _ := x 0
  dom := Set.univ
  dom_open := isOpen_univ
  smooth x _ i _ := by fun_prop
  forward_zero := by
    intro sel q tx ty i hi _
    have : i = 0 := by omega
    subst this
    simp
  forward_ok := by
    intro sel p q X tx ty _ _ _ h _ i hi _ k _ hk
    have : i = 0 := by omega
    subst this
    have := h 0 k hk
    simpa using this
  reverse_ok := by
    intro sel q X tx ty py hX _ _ _ j _ k hk
    have : j = 0 := Subsingleton.elim _ _
    subst this
    have hm : ∀ h : ℝ, Sm (fun t => h * t ^ k) := fun h => by unfold Sm; fun_prop
    have e : ∀ h l, tc (fun t => Function.update (X t) 0 (X t 0 + h * t ^ k) 0) l
        = tc (fun t => X t 0) l + if l = k then h else 0 := by
      intro h l
      simp only [Function.update_self]
      rw [tc_add (hX 0) (hm h), tc_mono]
    simp only [e, Finset.sum_range_one, Fin.val_zero, zero_mul, zero_add, mul_add, Finset.sum_add_distrib]
    have e2 : ∀ h : ℝ, ∑ l ∈ Finset.range (q + 1), py l * (if l = k then h else 0) = py k * h := by
      intro h
      rw [Finset.sum_eq_single k]
      · rw [if_pos rfl]
      · intro l _ hl; rw [if_neg hl, mul_zero]
      · intro h'; exact absurd (Finset.mem_range.2 (by omega)) h'
    simp only [e2]
    have h3 := ((hasDerivAt_id (0 : ℝ)).const_mul (py k)).const_add (∑ l ∈ Finset.range (q + 1), py l * tc (fun t => X t 0) l)
    simpa using h3
  jac _ _ sx sy := if sx 0 && sy 0 then [(0, 0)] else []
  jac_sel := by
    intro id dep sx sy e he
    split_ifs at he with h
    · rw [List.mem_singleton] at he; subst he
      simp only [Bool.and_eq_true] at h
      exact ⟨⟨by omega, h.2⟩, by omega, h.1⟩
    · simp at he
  jac_zero := by
    intro id sx sy i hi hs j hx _ hno
    have h1 : i = 0 := by omega
    have h2 : j = 0 := Subsingleton.elim _ _
    subst h1 h2
    exact absurd (by simp only [Fin.val_zero] at hx; simp [hs, hx]) hno
  jac_dep := by
    intro id sx sy i hi hs j hx _ hno
    have h1 : i = 0 := by omega
    have h2 : j = 0 := Subsingleton.elim _ _
    subst h1 h2
    exact absurd (by simp only [Fin.val_zero] at hx; simp [hs, hx]) hno
  hes _ _ _ := []
  hes_sel := by intro id sx sy e he; simp at he
  hes_zero := by
    intro id sx sy i _ _ j k _ _ _ _ _ _ x _ _
    have : (fun x : Fin 1 → ℝ => fderiv ℝ (fun x : Fin 1 → ℝ => x 0) x (Pi.single k 1)) = fun _ => (Pi.single k 1 : Fin 1 → ℝ) 0 := by
      funext x
      rw [show (fun x : Fin 1 → ℝ => x 0) = ⇑(ContinuousLinearMap.proj (R := ℝ) (φ := fun _ : Fin 1 => ℝ) 0) from rfl,
        ContinuousLinearMap.fderiv]
      rfl
    rw [this]
    simp

/-- one call with variable `a` as argument -/
noncomputable def idCall (a : ℕ) : AtomCall where
  A := idAtom
  x _ := .var a
  y _ := none
  some_var := ⟨0, Nat.one_pos, rfl⟩
  par_res := by intro e i _ c h; cases h
  ident _ := false
  ident_ok := by intro j h; cases h

theorem idCall_nres (a : ℕ) : (idCall a).nres = 1 := rfl

theorem idCall_val (a : ℕ) (e : ℕ → ℝ) (r : ℕ) : (idCall a).val e r = e a := rfl

theorem idCall_jac (a : ℕ) (id : ℕ → Bool) (dep : Bool) (sx sy : ℕ → Bool) :
    (idCall a).A.jac id dep sx sy = if sx 0 && sy 0 then [(0, 0)] else [] := rfl

/-- `f(x) = atom(x_0) * x_1` -/
noncomputable def atomTape : Tape := ⟨2, [.atom (idCall 1), .mulvv 3 2], [4]⟩

theorem atomTape_WF : atomTape.WF := by
  refine ⟨by decide, ?_, ?_⟩
  · refine ⟨fun a ha => ?_, fun a ha => ?_, trivial⟩
    · have : a ∈ (idCall 1).args := ha
      rw [AtomCall.mem_args] at this
      obtain ⟨j, _, h⟩ := this
      cases h
      exact ⟨le_rfl, by decide⟩
    · have ha : a ∈ [3, 2] := ha
      simp only [List.mem_cons, List.not_mem_nil, or_false] at ha
      rcases ha with rfl | rfl
      · exact Or.inl ⟨by decide, by decide⟩
      · exact Or.inr ⟨by decide, by decide⟩
  · intro d hd
    simp only [atomTape, List.mem_singleton] at hd
    subst hd
    exact Or.inl ⟨by decide, by decide⟩

theorem atomTape_eval (y : ℕ → ℝ) : atomTape.eval y 0 = y 0 * y 1 := by
  simp [Tape.eval, atomTape, evalOps, stepEnv, idCall_nres, Op.val, Op.nres, idCall_val, indEnv]

theorem atomTape_Dom (x : ℕ → ℝ) : atomTape.Dom x := ⟨trivial, trivial, trivial⟩

/-- the pattern with the entry `(1, 0)` -/
def entry10 : Pattern := ⟨1, fun _ => 1, fun _ => 0⟩

/-- The full statement of **C17** is false of `rev_hes_sparsity` when there is a call to an atomic function and some row
of the pattern given to `for_jac_sparsity` is empty.  Here `f(x) = atom(x_0) * x_1`, `R` is the column `(0, 1)`, and the
derivative of `f'(x) R = x_0` with respect to `x_0` is 1, but the pattern has no entry `(0, 0)`. -/
theorem rev_hes_sparsity_wrong_atom : ∃ (T : Tape) (R : ℕ → ℕ → ℝ) (pat : Pattern) (x : ℕ → ℝ), T.WF ∧ T.Dom x ∧
    (∀ k < T.n, ∀ j < 1, R k j ≠ 0 → Has false pat k j) ∧ T.dep.length = 1 ∧
    IsMixed (wsum T [1]) x (un 0) (fun k => R k 0) 1 ∧
    ¬ Has false (revHesSparsity T 1 (forJacSparsity T 1 pat false false).2 (fun _ => true) false) 0 0 := by
  refine ⟨atomTape, fun k _ => un 1 k, entry10, fun _ => 0, atomTape_WF, atomTape_Dom _, ?_, rfl, ?_, ?_⟩
  · intro k _ j hj h
    refine ⟨0, Nat.one_pos, ?_⟩
    simp only [Bool.false_eq_true, if_false, entry10]
    have h1 : k = 1 := by
      by_contra hk; exact h (by simp [un, hk])
    omega
  · have e : wsum atomTape [1] = fun y => y 0 * y 1 := by
      funext y
      have := atomTape_eval y
      simp [wsum, atomTape, at'] at this ⊢
      exact this
    rw [e]
    refine ⟨fun ε => ε, Filter.Eventually.of_forall fun ε => ?_, hasDerivAt_id _⟩
    have := (hasDerivAt_id (0 : ℝ)).const_mul ε
    simpa [un] using this
  · have hn : (Op.atom (idCall 1)).nres = 1 := rfl
    have hJ : ∀ v, (forJacSparsity atomTape 1 entry10 false false).2 v = if v = 2 ∨ v = 4 then {0} else ∅ := by
      intro v
      have e0 : setInternalPattern false (fun j => j + 1) (fun _ => ∅) entry10 = fun v => if v = 2 then {0} else ∅ := by
        funext v
        simp [setInternalPattern, entry10, forRange, Sp.addElement, Function.update_apply]
      have e1 : atomForJac false (idCall 1) 3 (fun v => if v = 2 then {0} else ∅) = fun v => if v = 2 then {0} else ∅ := by
        unfold atomForJac
        have : (idCall 1).A.jac (idCall 1).ident false
            (fun j => decide (xIdx (idCall 1) j ≠ 0 ∧ (fun v => if v = 2 then {0} else ∅ : Sp) (xIdx (idCall 1) j) ≠ ∅))
            (fun i => decide (yIdx (idCall 1) (3 + 1 - (idCall 1).nres) i ≠ 0)) = [] := by
          rw [idCall_jac]
          simp [xIdx, idCall]
        dsimp only at this ⊢
        rw [this]
        simp [processPost, show (idCall 1).A.m = 1 from rfl, Function.update_eq_self]
      show forJac false atomTape.ops 3 (setInternalPattern false (fun j => j + 1) (fun _ => ∅) entry10) v = _
      rw [e0]
      show twoVarForJac 4 3 2 (atomForJac false (idCall 1) 3 _) v = _
      rw [e1]
      simp only [twoVarForJac, bu_apply]
      by_cases h : v = 4
      · simp [h]
      · simp [h]
    rintro ⟨k, hk, -⟩
    revert hk
    unfold revHesSparsity
    set J := (forJacSparsity atomTape 1 entry10 false false).2 with hJd
    clear_value J
    have hJ1 : J 1 = ∅ := by rw [hJ]; simp
    have e2 : ∀ s : RH, atomRevHes J (idCall 1) 3 s = s := by
      intro s
      unfold atomRevHes
      have : (idCall 1).A.jac (idCall 1).ident false (fun j => decide (J (xIdx (idCall 1) j) ≠ ∅))
          (fun i => s.1 (yIdx (idCall 1) (3 + 1 - (idCall 1).nres) i)) = [] := by
        rw [idCall_jac]
        simp [xIdx, idCall, hJ1]
      dsimp only at this ⊢
      rw [this]
      rfl
    have e3 : ∀ s : RH, revHes J atomTape.ops (atomTape.n + 1) s = twoVarRevHes 4 3 2 true true false J s := fun s => e2 _
    dsimp only
    rw [e3]
    simp [getInternalPattern, Pattern.ofList, atomTape, forRange, twoVarRevHes, bu_apply, hJ,
      List.range_succ]

end CppAD.Sparsity
