import Verif.Chkpoint.Inline

/-! # Checkpoint functions: a case that meets the hypotheses, and a defect -/

open scoped ContDiff Topology

namespace CppAD.Chkpoint

open CppAD.Sparsity

/-- the object just after the recording -/
noncomputable def start (T : Tape) : State T :=
  ⟨T.initial fun _ => 0, ⟨0, 0, fun _ _ _ => 0⟩, Reach.start _ _, fun _ => 0, fun _ => 0, 0⟩

theorem exVar (a : ℕ → ℕ) (dyn : ℕ → Bool) (useHes : Bool) :
    ∃ i < exTape.dep.length, forType (ctorJac exTape useHes).1 (typeX (fun j => .var (a j)) dyn) i = variableEnum := by
  refine ⟨0, by decide, ?_⟩
  rcases for_type_attained exTape useHes (typeX (fun j => .var (a j)) dyn) 0 with h | ⟨j, _, h⟩
  · exfalso
    have := for_type_ok exTape_WF useHes (typeX (fun j => .var (a j)) dyn) (i := 0) (by decide) (fun _ => 0)
      (fun j => if j = 0 then Real.pi / 2 else 1) (fun j _ hle => by rw [h] at hle; exact absurd hle (by decide : ¬ 3 ≤ 1))
    rw [exTape_eval, exTape_eval] at this
    simp at this
  · exact h

/-- the call `sin(v_3 * v_1)` -/
noncomputable def exCall : AtomCall :=
  call exTape_WF true (fun _ h => absurd h (by decide)) (fun _ _ _ => start exTape) (start exTape)
    (fun j => .var (if j = 0 then 3 else 1)) (fun _ => false) (fun _ => 0) (exVar _ _ true)

theorem exCall_nres : exCall.nres = 1 := by
  have h1 := exCall.nres_pos
  have h2 : exCall.nres ≤ 1 := by
    show ((List.range 1).filter _).length ≤ 1
    exact (List.length_filter_le _ _)
  omega

/-- the outer function `g(x) = sin(x_0 * x_1 * x_0) + x_1` with a call of the checkpoint function `sin(u_0 * u_1)` -/
noncomputable def exOuter : Tape := ⟨2, [.mulvv 1 2] ++ .atom exCall :: [.addvv 4 2], [5]⟩

theorem exOuter_WF : exOuter.WF := by
  refine ⟨by decide, ?_, ?_⟩
  · refine ⟨?_, ?_, ?_, trivial⟩
    · intro a ha
      simp only [Op.args, List.mem_cons, List.not_mem_nil, or_false] at ha
      rcases ha with rfl | rfl <;> exact ⟨by decide, by decide⟩
    · intro a ha
      obtain ⟨j, _, h⟩ := exCall.mem_args.1 ha
      have h : Opd.var (if j = 0 then 3 else 1) = .var a := h
      cases h
      split_ifs
      · exact Or.inl ⟨by decide, by decide⟩
      · exact Or.inr ⟨by decide, by decide⟩
    · intro a ha
      simp only [Op.args, List.mem_cons, List.not_mem_nil, or_false] at ha
      rcases ha with rfl | rfl
      · refine Or.inl ⟨?_, ?_⟩
        · show 2 + 1 + 1 + 0 ≤ 4; decide
        · show 4 < 2 + 1 + 1 + exCall.nres
          rw [exCall_nres]; decide
      · exact Or.inr (Or.inr ⟨by decide, by decide⟩)
  · intro d hd
    have hd : d ∈ [5] := hd
    rw [List.mem_singleton] at hd
    subst hd
    refine Or.inl ⟨?_, ?_⟩
    · show 2 + 1 + 1 + exCall.nres + 0 ≤ 5
      rw [exCall_nres]
    · show 5 < 2 + 1 + 1 + exCall.nres + 1
      rw [exCall_nres]; decide

/-- all the hypotheses of `inlined_ok` hold here; the inlined recording is well formed and evaluates to the same function -/
example : (inlined exTape exCall (fun j => if j = 0 then 3 else 1) 2 [.mulvv 1 2] [.addvv 4 2] [5]).WF ∧
    ∀ x, (inlined exTape exCall (fun j => if j = 0 then 3 else 1) 2 [.mulvv 1 2] [.addvv 4 2] [5]).eval x 0 = exOuter.eval x 0 := by
  have := inlined_ok exTape_WF true (fun _ h => absurd h (by decide)) (fun _ _ _ => start exTape) (start exTape)
    (fun j => if j = 0 then 3 else 1) (fun _ => false) (fun _ => 0) (exVar _ _ true) 2 [.mulvv 1 2] [.addvv 4 2] [5] exOuter_WF
  exact ⟨this.1, fun x => this.2.2 x 0 (by decide)⟩

/-- the value of the outer function -/
theorem exOuter_eval (x : ℕ → ℝ) : exOuter.eval x 0 = Real.sin (x 0 * x 1 * x 0) + x 1 := by
  have h0 : exCall.y 0 = none := by
    obtain ⟨i, hi, h⟩ := exCall.some_var
    have : i = 0 := by
      have hi : i < 1 := hi
      omega
    rw [← this]; exact h
  have hv := fun e' => call_value exTape_WF true (fun _ h => absurd h (by decide)) (fun _ _ _ => start exTape) (start exTape)
    (fun j => .var (if j = 0 then 3 else 1)) (fun _ => false) (fun _ => 0) (exVar _ _ true) (i := 0) (by decide) h0 e'
  have hv : ∀ e' : ℕ → ℝ, (Op.atom exCall).val e' 0 = Real.sin (e' 3 * e' 1) := by
    intro e'
    have := hv e'
    refine this.trans ?_
    rw [exTape_eval]
    rfl
  have e5 : exOuter.dep.getD 0 0 = 5 := rfl
  unfold Tape.eval
  rw [e5]
  show evalOps [.mulvv 1 2, .atom exCall, .addvv 4 2] 3 (indEnv x) 5 = _
  have hv' : ∀ e' : ℕ → ℝ, exCall.val e' 0 = Real.sin (e' 3 * e' 1) := hv
  simp [evalOps, stepEnv, exCall_nres, hv', Op.nres, Op.val, indEnv]

/-- **C42** The full claim is false for Hessian sparsity: with `use_hes_sparsity` the constructor uses `for_hes_sparsity` when
`n ≤ m`, and then a second derivative can be missing in `hes_sparsity_` (a conditional expression in the inner function). -/
theorem checkpoint_hes_wrong : ∃ (T : Tape) (x : ℕ → ℝ), T.WF ∧ T.Dom x ∧ IsPartial2 (fun y => T.eval y 0) x 0 0 2 ∧
    ¬ Has false (ctorHes T) 0 0 := by
  refine ⟨cexpTape, fun _ => 0, cexpTape_WF, ?_, ?_, ?_⟩
  · simp [Tape.Dom, cexpTape, domOps, Op.dom, cexpDom, Opd.val, indEnv]
  · have : (fun y => cexpTape.eval y 0) = fun y => y 0 * y 0 := by
      funext y
      simp [Tape.eval, cexpTape, evalOps, stepEnv, Op.nres, Op.val, indEnv, condExp_same, Opd.val]
    rw [this]; exact square_partial2 _
  · have e : ctorHes cexpTape = forHesSparsity cexpTape (fun _ => true) (fun _ => true) := by
      unfold ctorHes; rw [if_pos (by decide)]
    rw [e]
    rintro ⟨k, hk, -⟩
    revert hk
    simp [forHesSparsity, getInternalPattern, Pattern.ofList, cexpTape, forHes, forHesOps, forHesOp, forHesElem, forHesInv, forRange,
      revJac, revJacOp, twoVarForHes, unionLoop, twoVarRevJac, cexpRevJac, revOpd, Op.nres, bu_apply, Sp.addElement,
      Function.update_apply]

end CppAD.Chkpoint
