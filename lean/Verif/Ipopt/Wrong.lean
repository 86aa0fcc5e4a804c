import Verif.Ipopt.Main
import Verif.Sparsity.AtomWrong

/-!
# The callback object of `ipopt::solve`: a defect

The Hessian pattern is determined for `vectorBool::bit_per_unit()` columns at a time, solve_callback.hpp:371-398.  When there is
a call to an atomic function, `RevSparseHes` does not propagate to arguments that do not depend on the selected columns.
Hence second derivatives between variables in different groups of columns are lost.
-/

open scoped Topology
open CppAD.AtomEx (ev ev_of_lt)

namespace CppAD.Ipopt

open Sparsity Legacy IndexSort SparseJac SparseHes

/-- `f(x) = x_0 * atom(x_b)` -/
noncomputable def wT (b : ℕ) : Tape := ⟨b + 1, [.atom (idCall (b + 1)), .mulvv 1 (b + 2)], [b + 3]⟩

theorem wT_wf (b : ℕ) : (wT b).WF := by
  have hn : (Op.atom (idCall (b + 1))).nres = 1 := rfl
  refine ⟨Nat.succ_pos _, ?_, ?_⟩
  · refine ⟨fun a ha => ?_, fun a ha => ?_, trivial⟩
    · have : a ∈ (idCall (b + 1)).args := ha
      rw [AtomCall.mem_args] at this
      obtain ⟨j, _, h⟩ := this
      cases h
      exact ⟨Nat.succ_pos _, le_rfl⟩
    · have ha : a ∈ [1, b + 2] := ha
      simp only [List.mem_cons, List.not_mem_nil, or_false] at ha
      rcases ha with rfl | rfl
      · exact Or.inr ⟨le_rfl, Nat.succ_pos _⟩
      · exact Or.inl ⟨le_rfl, Nat.lt_succ_self _⟩
  · intro d hd
    simp only [wT, List.mem_singleton] at hd
    subst hd
    exact Or.inl ⟨le_rfl, Nat.lt_succ_self _⟩

theorem wT_dom (b : ℕ) (x : ℕ → ℝ) : (wT b).Dom x := ⟨trivial, trivial, trivial⟩

theorem wT_eval (b : ℕ) (y : ℕ → ℝ) : (wT b).eval y 0 = y 0 * y b := by
  simp [Tape.eval, wT, evalOps, stepEnv, idCall_nres, Op.val, Op.nres, idCall_val, indEnv]

theorem wT_pattern {b : ℕ} (hb : 0 < b) (J : Junk) : hesPattern (wT b) b 1 (b + 1) J (b * (b + 1) + 0) = false := by
  have h := hesPattern_apply (T := wT b) hb J (i := b) (j := 0) (Nat.lt_succ_self b) (Nat.succ_pos b)
  have h' := revSparseHes_has (T := wT b) (J.flags (0 / b)) b
    (forSparseJac (wT b) (J.flags (0 / b)) b (.bools (pick (b + 1) b (0 / b * b) J.flag)) false false).2
    (.bools (forRange 0 1 J.flag fun i s => Function.update s i true)) rfl (i := b) (j := 0 % b) (Nat.lt_succ_self b) (Nat.mod_lt _ hb)
  change hesPattern (wT b) b 1 (b + 1) J (b * (b + 1) + 0) = _ at h
  rw [h, Bool.eq_false_iff]
  refine fun hc => absurd (h'.1 hc) ?_
  clear h h' hc
  set J' := (forSparseJac (wT b) (J.flags (0 / b)) b (.bools (pick (b + 1) b (0 / b * b) J.flag)) false false).2 with hJ
  have hJ1 : J' (b + 1) = ∅ := by
    rw [hJ]
    unfold forSparseJac
    dsimp only
    rw [(forJac_closed false (wT b).ops ((wT b).n + 1) (wT b).ind _ (by omega) ind_ne ind_lt (wT_wf b).ops).1 (b + 1) (Nat.lt_succ_self _)]
    change post false (b + 1) b (fun j => j + 1) (SetVec.bools (pick (b + 1) b (0 / b * b) J.flag)) (b + 1) = ∅
    rw [Finset.eq_empty_iff_forall_notMem]
    intro c hc
    rw [mem_post false (b + 1) b (fun j => j + 1) (.bools (pick (b + 1) b (0 / b * b) J.flag)) trivial] at hc
    obtain ⟨i, e, h1, h2, h3⟩ := hc
    have e : i = b := by simpa using e
    subst e
    have h3 : pick (i + 1) i (0 / i * i) J.flag (i * i + c) = true := h3
    rw [pick_apply _ _ _ _ h1 h2] at h3
    simp at h3
    omega
  clear_value J'
  have e2 : ∀ s : RH, atomRevHes J' (idCall (b + 1)) (b + 2) s = s := by
    intro s
    unfold atomRevHes
    have : (idCall (b + 1)).A.jac (idCall (b + 1)).ident false (fun j => decide (J' (xIdx (idCall (b + 1)) j) ≠ ∅))
        (fun i => s.1 (yIdx (idCall (b + 1)) (b + 2 + 1 - (idCall (b + 1)).nres) i)) = [] := by
      rw [idCall_jac]
      simp [xIdx, idCall, hJ1]
    dsimp only at this ⊢
    rw [this]
    rfl
  have e3 : ∀ s : RH, revHes J' (wT b).ops ((wT b).n + 1) s = twoVarRevHes (b + 3) 1 (b + 2) true true false J' s := fun s => e2 _
  rw [e3]
  unfold twoVarRevHes
  have n0 : b ≠ 0 := by omega
  by_cases hz : (revFlags (wT b) (SetVec.bools (forRange 0 1 J.flag fun i s => Function.update s i true))) (b + 3) = true
  · simp [hz, bu_apply, n0]
  · simp [hz]

/-- the problem: minimise `x_0 * atom(x_b)`, sparse forward mode, no constraints -/
noncomputable def wA (b : ℕ) : Arg :=
  ⟨1, b + 1, 0, fun _ => 1, fun _ => 0, fun _ => 5, fun _ => 0, fun _ => 0, false, true, false, fun _ => wT b, id⟩

/-- Without the condition that no atomic function is called, the statement about the structure of the Hessian is false: for
every number of bits per unit (64 in practice) there is a problem such that the second derivative of the objective is one
at a position that is not in the structure. -/
theorem hesStructure_wrong (E : Env) (hE : E.Ok) : ∃ A : Arg, ∃ fg : (Fin A.nx → ℝ) → ℕ → ℝ, ∃ i j : Fin A.nx,
    (∀ x, x.length = A.nx → (A.tape x).WF ∧ (A.tape x).n = A.nx ∧ (A.tape x).dep.length = A.nf + A.ng) ∧
    A.retape = false ∧ A.sparseForward = true ∧ A.sparseReverse = false ∧ j ≤ i ∧
    ∀ (J : Junk) (x : Fin A.nx → ℝ), Records A fg x ∧ Partial2At (lagrangian A fg 1 fun _ => 0) x i j 1 ∧
      ∀ iRow jCol, ∀ k < nnzHes A (Obj.init A E J),
        ¬ (((Obj.init A E J).hesStructure iRow jCol).1 k = i ∧ ((Obj.init A E J).hesStructure iRow jCol).2 k = j) := by
  have hb := hE.bits
  generalize hbe : E.bits = b at hb
  have hne : (Fin.last b) ≠ (0 : Fin (b + 1)) := by
    rw [Ne, Fin.ext_iff]; simp; omega
  refine ⟨wA b, fun x _ => x (0 : Fin (b + 1)) * x (Fin.last b), Fin.last b, (0 : Fin (b + 1)), fun x _ => ⟨wT_wf b, rfl, rfl⟩, rfl, rfl, rfl,
    Fin.zero_le _, fun J x => ⟨⟨wT_dom b _, Filter.Eventually.of_forall fun x' i hi => ?_⟩, ?_, fun iRow jCol k hk hc => ?_⟩⟩
  · have hi : i = 0 := by have : i < 1 := hi; omega
    subst hi
    show (wT b).eval (ev x') 0 = _
    rw [wT_eval, ev_of_lt x' (show 0 < b + 1 by omega), ev_of_lt x' (show b < b + 1 by omega)]
    rfl
  · have e : lagrangian (wA b) (fun x _ => x (0 : Fin (b + 1)) * x (Fin.last b)) 1 (fun _ => 0)
        = fun x : Fin (b + 1) → ℝ => x (0 : Fin (b + 1)) * x (Fin.last b) := by
      funext y
      show 1 * ∑ i ∈ Finset.range 1, _ + ∑ i ∈ Finset.range 0, _ = _
      simp
    change Fin (b + 1) → ℝ at x
    have goal : Partial2At (n := b + 1) (fun x : Fin (b + 1) → ℝ => x 0 * x (Fin.last b)) x (Fin.last b) 0 1 := by
      refine ⟨fun y => y (Fin.last b), Filter.Eventually.of_forall fun ε => ?_, ?_⟩
      · unfold PartialAt
        have := ((hasDerivAt_id (0 : ℝ)).const_add (x 0)).mul_const (x (Fin.last b) + ε)
        simpa [hne, hne.symm] using this
      · unfold PartialAt
        have := (hasDerivAt_id (0 : ℝ)).const_add (x (Fin.last b))
        simpa using this
    exact e ▸ goal
  · have hn : nnzHes (wA b) (Obj.init (wA b) E J) = (Obj.init (wA b) E J).rowHes.length := rfl
    obtain ⟨h1, h2⟩ := hesStructure_eq (Obj.init (wA b) E J) iRow jCol (hn ▸ hk)
    rw [h1, h2] at hc
    have hrow : (Obj.init (wA b) E J).rowHes = (hesIdxSparse (b + 1) (hesPattern (wT b) b 1 (b + 1) J)).1 := by
      rw [← hbe]; rfl
    have hcol : (Obj.init (wA b) E J).colHes = (hesIdxSparse (b + 1) (hesPattern (wT b) b 1 (b + 1) J)).2 := by
      rw [← hbe]; rfl
    rw [hn, hrow] at hk
    rw [hrow, hcol] at hc
    rw [hesIdxSparse_eq] at hk hc
    have hm := (lists_pairs (lo := 0) (hi := b + 1) (C := fun i => (List.range (b + 1)).filter fun j =>
      hesPattern (wT b) b 1 (b + 1) J (i * (b + 1) + j) && decide (j ≤ i)) fun i => List.nodup_range.filter _).mem k hk
    rw [hc.1, hc.2] at hm
    have := hm.2.2
    rw [List.mem_filter, Bool.and_eq_true] at this
    have h3 := this.2.1
    have h4 : hesPattern (wT b) b 1 (b + 1) J (b * (b + 1) + 0) = true := h3
    rw [wT_pattern hb J] at h4
    cases h4

end CppAD.Ipopt
