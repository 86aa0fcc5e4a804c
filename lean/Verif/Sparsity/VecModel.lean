import Verif.Sparsity.HesFor
import Verif.Sparsity.Apply
import Verif.Record.Session

/-!
# The sparsity sweeps for recordings that contain VecAD vectors

Recorded operators (`Record.ROp`) are the ones of module Record: comparisons and the VecAD load and store operators are included.
`s.1` are the sets of the variables and `s.2` the sets of the VecAD vectors (`vecad_sparsity`); set `k` is the one of
the `k`-th vector (`vecad_ind`, which maps the offset of a vector to `k`, is not needed because recorded operators contain `k`).
The parameter values `par` and the discrete functions `disc` are only used to convert recorded operators to the
operators of module Taylor: no sweep depends on them.
-/

namespace CppAD.Sparsity.Vec

open CppAD.Record

/-- the sets of the variables, the sets of the VecAD vectors -/
abbrev VS := Sp × Sp

/-- load_for_jac, var_op/load_op.hpp:530-563 (LdpOp, LdvOp); store_for_jac, var_op/store_op.hpp:302-352;
all other operators: sweep/for_jac.hpp:162-396 -/
noncomputable def forJacOp (disc : ℕ → ℝ → ℝ) (par : ℕ → ℝ) (dependency : Bool) (op : ROp) (iz : ℕ) (s : VS) : VS :=
  match op with
  | .ldp k _ => (Function.update s.1 iz (s.2 k), s.2)
  | .ldv k ix =>
    let a : Sp := Function.update s.1 iz (s.2 k)
    (if dependency then a.binaryUnion iz iz ix a else a, s.2)
  | .stpp _ _ _ => s
  | .stpv k _ iy => (s.1, s.2.binaryUnion k k iy s.1)
  | .stvp k ix _ => (s.1, if dependency then s.2.binaryUnion k k ix s.1 else s.2)
  | .stvv k ix iy =>
    let v := if dependency then s.2.binaryUnion k k ix s.1 else s.2
    (s.1, v.binaryUnion k k iy s.1)
  | op => match op.toOp disc par with
    | some o => (Sparsity.forJacOp dependency o iz s.1, s.2)
    | none => s

/-- sweep/for_jac.hpp:82-428 -/
noncomputable def forJac (disc : ℕ → ℝ → ℝ) (par : ℕ → ℝ) (dependency : Bool) : List ROp → ℕ → VS → VS
  | [], _, s => s
  | op :: ops, nv, s => forJac disc par dependency ops (nv + op.nres) (forJacOp disc par dependency op (nv + op.nres - 1) s)

/-- load_rev_jac, var_op/load_op.hpp:630-658; store_rev_jac, var_op/store_op.hpp:417-467;
all other operators: sweep/rev_jac.hpp:196-426 -/
noncomputable def revJacOp (disc : ℕ → ℝ → ℝ) (par : ℕ → ℝ) (dependency : Bool) (op : ROp) (iz : ℕ) (s : VS) : VS :=
  match op with
  | .ldp k _ => (s.1, s.2.binaryUnion k k iz s.1)
  | .ldv k ix => (if dependency then s.1.binaryUnion ix ix iz s.1 else s.1, s.2.binaryUnion k k iz s.1)
  | .stpp _ _ _ => s
  | .stpv k _ iy => (s.1.binaryUnion iy iy k s.2, s.2)
  | .stvp k ix _ => (if dependency then s.1.binaryUnion ix ix k s.2 else s.1, s.2)
  | .stvv k ix iy =>
    let a := if dependency then s.1.binaryUnion ix ix k s.2 else s.1
    (a.binaryUnion iy iy k s.2, s.2)
  | op => match op.toOp disc par with
    | some o => (Sparsity.revJacOp dependency o iz s.1, s.2)
    | none => s

/-- sweep/rev_jac.hpp:101-466; the last operator is processed first -/
noncomputable def revJac (disc : ℕ → ℝ → ℝ) (par : ℕ → ℝ) (dependency : Bool) : List ROp → ℕ → VS → VS
  | [], _, s => s
  | op :: ops, nv, s => revJacOp disc par dependency op (nv + op.nres - 1) (revJac disc par dependency ops (nv + op.nres) s)

/-- `ADFun::for_jac_sparsity`, for_jac_sparsity.hpp:213-303 -/
noncomputable def forJacSparsity (disc : ℕ → ℝ → ℝ) (f : Fun) (ell : ℕ) (pat : Pattern) (transpose dependency : Bool) : Pattern × Sp :=
  let s := setInternalPattern transpose (fun j => j + 1) (fun _ => ∅) pat
  let s := (forJac disc f.par dependency f.ops (f.n + 1) (s, fun _ => ∅)).1
  (getInternalPattern transpose f.dep.length ell (fun i => f.dep.getD i 0) s, s)

/-- `ADFun::rev_jac_sparsity`, rev_jac_sparsity.hpp:163-255 -/
noncomputable def revJacSparsity (disc : ℕ → ℝ → ℝ) (f : Fun) (ell : ℕ) (pat : Pattern) (transpose dependency : Bool) : Pattern :=
  let s := setInternalPattern (!transpose) (fun i => f.dep.getD i 0) (fun _ => ∅) pat
  let s := (revJac disc f.par dependency f.ops (f.n + 1) (s, fun _ => ∅)).1
  getInternalPattern (!transpose) f.n ell (fun j => j + 1) s

/-- the state of the reverse Hessian sweep: `RevJac`, `rev_hes_sparse`, `vecad_jac`, `vecad_sparse` -/
structure VRH where
  jac : ℕ → Bool
  hes : Sp
  vjac : ℕ → Bool
  vhes : Sp

/-- load_rev_hes, var_op/load_op.hpp:729-759; store_rev_hes, var_op/store_op.hpp:538-581;
all other operators: sweep/rev_hes.hpp:188-435 -/
noncomputable def revHesOp (disc : ℕ → ℝ → ℝ) (par : ℕ → ℝ) (J : Sp) (op : ROp) (iz : ℕ) (s : VRH) : VRH :=
  match op with
  | .ldp k _ | .ldv k _ =>
    { s with vhes := s.vhes.binaryUnion k k iz s.hes, vjac := Function.update s.vjac k (s.vjac k || s.jac iz) }
  | .stpp _ _ _ | .stvp _ _ _ => s
  | .stpv k _ iy | .stvv k _ iy =>
    { s with hes := s.hes.binaryUnion iy iy k s.vhes, jac := Function.update s.jac iy (s.jac iy || s.vjac k) }
  | op => match op.toOp disc par with
    | some o => let d := Sparsity.revHesOp J o iz (s.jac, s.hes); { s with jac := d.1, hes := d.2 }
    | none => s

/-- sweep/rev_hes.hpp:95-483; the last operator is processed first -/
noncomputable def revHes (disc : ℕ → ℝ → ℝ) (par : ℕ → ℝ) (J : Sp) : List ROp → ℕ → VRH → VRH
  | [], _, s => s
  | op :: ops, nv, s => revHesOp disc par J op (nv + op.nres - 1) (revHes disc par J ops (nv + op.nres) s)

/-- `ADFun::rev_hes_sparsity`, rev_hes_sparsity.hpp:165-249; `J` is the result of the previous call to
`for_jac_sparsity`, with `ell` columns -/
noncomputable def revHesSparsity (disc : ℕ → ℝ → ℝ) (f : Fun) (ell : ℕ) (J : Sp) (selRange : ℕ → Bool) (transpose : Bool) : Pattern :=
  let rj := forRange 0 f.dep.length (fun _ => false) fun i rj => Function.update rj (f.dep.getD i 0) (selRange i)
  let s := revHes disc f.par J f.ops (f.n + 1) ⟨rj, fun _ => ∅, fun _ => false, fun _ => ∅⟩
  getInternalPattern transpose f.n ell (fun j => j + 1) s.hes

/-- load_for_hes, var_op/load_op.hpp:822-853 (only executed when the result is included, for_hes.hpp:241-243);
store_for_hes, var_op/store_op.hpp:652-699 (always included, for_hes.hpp:255-261);
all other operators: sweep/for_hes.hpp:237-508 -/
noncomputable def forHesOp (disc : ℕ → ℝ → ℝ) (par : ℕ → ℝ) (np1 : ℕ) (R : Sp) (op : ROp) (iz : ℕ) (s : VS) : VS :=
  match op with
  | .ldp k _ | .ldv k _ => if 0 ∈ R iz then (Function.update s.1 (np1 + iz) (s.2 k), s.2) else s
  | .stpp _ _ _ | .stvp _ _ _ => s
  | .stpv k _ iy | .stvv k _ iy => (s.1, s.2.binaryUnion k k (np1 + iy) s.1)
  | op => match op.toOp disc par with
    | some o => (Sparsity.forHesOp np1 R o iz s.1, s.2)
    | none => s

/-- sweep/for_hes.hpp:231-568, operators after the independent variables -/
noncomputable def forHesOps (disc : ℕ → ℝ → ℝ) (par : ℕ → ℝ) (np1 : ℕ) (R : Sp) : List ROp → ℕ → VS → VS
  | [], _, s => s
  | op :: ops, nv, s => forHesOps disc par np1 R ops (nv + op.nres) (forHesOp disc par np1 R op (nv + op.nres - 1) s)

/-- sweep/for_hes.hpp:121-572 -/
noncomputable def forHes (disc : ℕ → ℝ → ℝ) (par : ℕ → ℝ) (n : ℕ) (ops : List ROp) (sel : ℕ → Bool) (R : Sp) (s : VS) : VS :=
  forHesOps disc par (n + 1) R ops (n + 1) (forHesInv n sel R s.1, s.2)

/-- `ADFun::for_hes_sparsity`, for_hes_sparsity.hpp:160-285 -/
noncomputable def forHesSparsity (disc : ℕ → ℝ → ℝ) (f : Fun) (selDomain selRange : ℕ → Bool) : Pattern :=
  let r : Sp := forRange 0 f.dep.length (fun _ => ∅) fun i s =>
    if selRange i then s.addElement (f.dep.getD i 0) 0 else s
  let r := (revJac disc f.par false f.ops (f.n + 1) (r, fun _ => ∅)).1
  let h := (forHes disc f.par f.n f.ops selDomain r (fun _ => ∅, fun _ => ∅)).1
  let p := getInternalPattern false f.n (f.n + 1) (fun j => j + 1) h
  ⟨p.nnz, p.row, fun k => p.col k - 1⟩

end CppAD.Sparsity.Vec
