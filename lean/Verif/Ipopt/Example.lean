import Verif.Ipopt.Main

/-!
# The callback object of `ipopt::solve`: an example
-/

open scoped Topology
open CppAD.AtomEx (ev ev_of_lt)

namespace CppAD.Ipopt

open Sparsity Legacy IndexSort SparseJac SparseHes

/-- objective `x₀ x₁`, constraint `x₁²` -/
def exT : Tape := ⟨2, [.mulvv 1 2, .mulvv 2 2], [3, 4]⟩

/-- the problem; `retape`, `sparse forward` and `sparse reverse` can be chosen -/
noncomputable def exA (retape fwd rev : Bool) : Arg :=
  ⟨1, 2, 1, fun _ => 1, fun _ => 0, fun _ => 5, fun _ => 0, fun _ => 3, retape, fwd, rev, fun _ => exT, id⟩

theorem exT_wf : exT.WF := by
  refine ⟨by decide, ?_, ?_⟩
  · simp [exT, WFOps, Tape.ind, Op.args, Op.nres, addRes, Op.naux]
  · intro d hd
    simp only [exT, List.mem_cons, List.not_mem_nil, or_false] at hd
    rcases hd with rfl | rfl <;> simp [exT, usable, Tape.ind, Op.nres, addRes, Op.naux]

theorem exA_tape (r f v : Bool) (x : List ℝ) : (exA r f v).tape x = exT := by
  unfold Arg.tape; split <;> rfl

theorem exA_problem (r f v : Bool) (h : (f || v) = true → r = false) : Problem (exA r f v) := by
  refine ⟨fun x _ => ?_, fun x _ => ?_, fun x _ => ?_, h, fun _ x _ op hop c => ?_⟩
  · rw [exA_tape]; exact exT_wf
  · rw [exA_tape]; rfl
  · rw [exA_tape]; rfl
  · rw [exA_tape] at hop
    simp only [exT, List.mem_cons, List.not_mem_nil, or_false] at hop
    rcases hop with rfl | rfl <;> exact fun h => by cases h

/-- the user's function -/
def exfg (x : Fin 2 → ℝ) (i : ℕ) : ℝ := if i = 0 then x 0 * x 1 else x 1 * x 1

theorem exA_records (r f v : Bool) (x : Fin 2 → ℝ) : Records (exA r f v) exfg x := by
  refine ⟨?_, Filter.Eventually.of_forall fun x' i hi => ?_⟩
  · rw [exA_tape]; simp [Tape.Dom, exT, domOps, Op.dom]
  · rw [exA_tape]
    have hi : i < 2 := hi
    interval_cases i
    · simp [Tape.eval, exT, evalOps, stepEnv, Op.nres, Op.val, indEnv, exfg, ev, addRes, Op.naux]; rfl
    · simp [Tape.eval, exT, evalOps, stepEnv, Op.nres, Op.val, indEnv, exfg, ev, addRes, Op.naux]; rfl

/-- the hypotheses of the theorems are met in the dense and in both sparse cases: after `eval_f` at `x`, `eval_h` with
`new_x` false gives the Hessian of the Lagrangian at `x` -/
example (r f v : Bool) (h : (f || v) = true → r = false) (E : Env) (hE : E.Ok) (J J' J'' : Junk) (x : Fin 2 → ℝ) (s : ℝ)
    (lambda values : ℕ → ℝ) :
    let o := (Obj.init (exA r f v) E J).call (exA r f v) E J' (.f x true)
    (o.evalF (exA r f v) E J'' (ev x) false).2 = x 0 * x 1 ∧
    ∀ k < nnzHes (exA r f v) o, ∀ i j : Fin 2, (i : ℕ) = (o.hesStructure (fun _ => 0) fun _ => 0).1 k →
      (j : ℕ) = (o.hesStructure (fun _ => 0) fun _ => 0).2 k →
      Partial2At (n := 2) (fun y => s * (y 0 * y 1) + lambda 0 * (y 1 * y 1)) x i j
        ((o.evalH (exA r f v) E J'' (ev x) false s lambda values).2 k) := by
  intro o
  have hP := exA_problem r f v h
  have hH : Hist (exA r f v) E o (some x) := Hist.call (A := exA r f v) J' (.f x true) (Hist.init J) (Or.inl rfl)
  refine ⟨?_, fun k hk i j hi hj => ?_⟩
  · have := evalF_ok hP hE hH J'' x false (Or.inr rfl) (exA_records r f v x)
    refine this.trans ?_
    show ∑ i ∈ Finset.range 1, exfg x i = _
    simp [exfg]
  · have := evalH_ok_partial hP hE hH J'' x false (Or.inr rfl) (exA_records r f v x) s lambda values _ _ k hk i j hi hj
    have e : lagrangian (exA r f v) exfg s lambda = fun y : Fin 2 → ℝ => s * (y 0 * y 1) + lambda 0 * (y 1 * y 1) := by
      funext y
      show s * ∑ i ∈ Finset.range 1, exfg y i + ∑ i ∈ Finset.range 1, lambda i * exfg y (1 + i) = _
      simp [exfg]
    exact e ▸ this

end CppAD.Ipopt
