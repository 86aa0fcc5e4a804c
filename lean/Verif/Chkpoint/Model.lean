import Verif.Sparsity.AtomWrong

/-! # Model of `chkpoint_two`: an atomic function defined by an `ADFun` object

Only the versions with `Base` arguments are modelled (not `base2ad`). When `use_in_parallel` is true, `member_[thread]->g_` takes the
place of `g_`: it is a copy, so it is also an object reached by some history of calls. -/

open scoped ContDiff Topology

namespace CppAD.Chkpoint

open CppAD.Sparsity

/-- ad_type_enum, core/ad_type.hpp -/
def constantEnum : ℕ := 1
/-- ad_type_enum, core/ad_type.hpp -/
def dynamicEnum : ℕ := 2
/-- ad_type_enum, core/ad_type.hpp -/
def variableEnum : ℕ := 3

/-- `jac_sparsity_` and the forward Jacobian sparsity that stays in `g_`, chkpoint_two/ctor.hpp:152-183 -/
def ctorJac (T : Tape) (useHes : Bool) : Pattern × Sp :=
  if T.n ≤ T.dep.length ∨ useHes = true then forJacSparsity T T.n (identityPattern T.n) false true
  else (revJacSparsity T T.dep.length (identityPattern T.dep.length) false true, fun _ => ∅)

/-- `hes_sparsity_`, chkpoint_two/ctor.hpp:185-203 (`use_hes_sparsity` is true) -/
def ctorHes (T : Tape) : Pattern :=
  if T.n ≤ T.dep.length then forHesSparsity T (fun _ => true) (fun _ => true)
  else revHesSparsity T T.n (ctorJac T true).2 (fun _ => true) false

/-- the entries of a pattern that are selected; loops in chkpoint_two/jac_sparsity.hpp:47-75 and hes_sparsity.hpp:45-75 -/
def selectPattern (pat : Pattern) (selRow selCol : ℕ → Bool) : List (ℕ × ℕ) :=
  forRange 0 pat.nnz [] fun k out =>
    let i := pat.row k
    let j := pat.col k
    if selCol j && selRow i then out ++ [(i, j)] else out

/-- `chkpoint_two::forward`, chkpoint_two/forward.hpp:38-64; `f` is `g_` before the call -/
noncomputable def forward (f : ADFun) (junk : ℕ → ℝ) (nan : ℝ) (q : ℕ) (tx : ℕ → ℝ) : ADFun × (ℕ → ℝ) :=
  let r := f.forward junk nan q (tab f.n (q + 1) fun j k => tx (j * (q + 1) + k))
  (r.1, at' r.2)

/-- `chkpoint_two::reverse`, chkpoint_two/reverse.hpp:38-74; `f` is `g_` before the call -/
noncomputable def reverse (f : ADFun) (junk junk' : ℕ → ℝ) (nan : ℝ) (q : ℕ) (tx py : ℕ → ℝ) : ADFun × (ℕ → ℝ) :=
  let r := forward f junk nan q tx
  let b := r.1.reverse junk' (q + 1) (tab r.1.dep.length (q + 1) fun i k => py (i * (q + 1) + k))
  (b.1, at' b.2)

/-- `chkpoint_two::for_type`, chkpoint_two/for_type.hpp:28-52; `pat` is `jac_sparsity_` -/
def forType (pat : Pattern) (typeX : ℕ → ℕ) : ℕ → ℕ :=
  forRange 0 pat.nnz (fun _ => constantEnum) fun k typeY =>
    let i := pat.row k
    let j := pat.col k
    Function.update typeY i (max (typeY i) (typeX j))

/-- `chkpoint_two::rev_depend`, chkpoint_two/rev_depend.hpp:29-55; `pat` is `jac_sparsity_` -/
def revDepend (pat : Pattern) (dependY : ℕ → Bool) : ℕ → Bool :=
  forRange 0 pat.nnz (fun _ => false) fun k dependX =>
    let i := pat.row k
    let j := pat.col k
    if dependY i then Function.update dependX j true else dependX

end CppAD.Chkpoint
