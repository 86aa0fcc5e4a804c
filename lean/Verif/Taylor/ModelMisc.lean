import Verif.Taylor.ModelExp
import Mathlib.Data.Real.Sign

/-! # Models of the operators abs, sign, CExp, CSum, Par, Dis -/

open scoped Classical

namespace CppAD

/-- abs_op.hpp:13-39; `sign` is CppAD::sign, cppad/base_require: `1`, `0` or `-1` -/
noncomputable def absForward (ix p q iz : ℕ) (s : Tay) : Tay :=
  forRange p (q + 1) s fun j s => s.set iz j (Real.sign (s ix 0) * s ix j)

/-- abs_op.hpp:43-71 -/
noncomputable def absDir (ix q r iz : ℕ) (s : Tay) : Tay :=
  let m := (q - 1) * r + 1
  forRange 0 r s fun ell s => s.set iz (m + ell) (Real.sign (s ix 0) * s ix (m + ell))

/-- abs_op.hpp:100-130 (`n_order = d + 1`) -/
noncomputable def absReverse (ix d iz : ℕ) (s P : Tay) : Tay :=
  forRange 0 (d + 1) P fun j P => P.add ix j (Real.sign (s ix 0) * P iz j)

/-- sign_op.hpp:13-43 -/
noncomputable def signForward (ix p q iz : ℕ) (s : Tay) : Tay :=
  let s0 := if p = 0 then s.set iz 0 (Real.sign (s ix 0)) else s
  let p0 := if p = 0 then 1 else p
  forRange p0 (q + 1) s0 fun j s => s.set iz j 0

/-- sign_op.hpp:46-70 -/
noncomputable def signDir (_ix q r iz : ℕ) (s : Tay) : Tay :=
  let m := (q - 1) * r + 1
  forRange 0 r s fun ell s => s.set iz (m + ell) 0

/-- sign_op.hpp:99-115 -/
def signReverse (_ix _d _iz : ℕ) (_s P : Tay) : Tay := P

/-- an operand that is either a parameter or a variable (bits of `arg[1]` in cexp_op.hpp) -/
inductive Opd | par (c : ℝ) | var (v : ℕ)

/-- value of an operand: cexp_op.hpp:165-180 (order zero) -/
def Opd.at0 (s : Tay) : Opd → ℝ
  | .par c => c
  | .var v => s v 0

/-- coefficient of an operand at a nonzero order: cexp_op.hpp:208-219 -/
def Opd.atk (s : Tay) (k : ℕ) : Opd → ℝ
  | .par _ => 0
  | .var v => s v k

/-- comparison operators; cppad/local/declare_ad.hpp enum CompareOp -/
inductive CompareOp | lt | le | eq | ge | gt | ne

/-- meaning of the comparison operators -/
def CompareOp.holds : CompareOp → ℝ → ℝ → Prop
  | .lt, a, b => a < b
  | .le, a, b => a ≤ b
  | .eq, a, b => a = b
  | .ge, a, b => a ≥ b
  | .gt, a, b => a > b
  | .ne, a, b => a ≠ b

/-- cppad/core/cond_exp.hpp CondExpTemplate: returns `exp_if_true` or `exp_if_false` -/
noncomputable def condExp (cop : CompareOp) (left right t f : ℝ) : ℝ :=
  if cop.holds left right then t else f

/-- cexp_op.hpp:143-229 -/
noncomputable def cexpForward (cop : CompareOp) (l r t f : Opd) (p q iz : ℕ) (s : Tay) : Tay :=
  let y0 := l.at0 s
  let y1 := r.at0 s
  let s0 := if p = 0 then s.set iz 0 (condExp cop y0 y1 (t.at0 s) (f.at0 s)) else s
  let p0 := if p = 0 then 1 else p
  forRange p0 (q + 1) s0 fun d s => s.set iz d (condExp cop y0 y1 (t.atk s d) (f.atk s d))

/-- cexp_op.hpp:341-404 -/
noncomputable def cexpDir (cop : CompareOp) (l r t f : Opd) (q nr iz : ℕ) (s : Tay) : Tay :=
  let y0 := l.at0 s
  let y1 := r.at0 s
  let m := (q - 1) * nr + 1
  forRange 0 nr s fun ell s =>
    s.set iz (m + ell) (condExp cop y0 y1 (t.atk s (m + ell)) (f.atk s (m + ell)))

/-- the loop `j = d + 1; while(j--) py[j] += ...` when the operand is a variable;
cexp_op.hpp:720-733, 734-747 -/
def opdAdd (o : Opd) (d : ℕ) (g : ℕ → Tay → ℝ) (P : Tay) : Tay :=
  match o with
  | .par _ => P
  | .var v => forDown0 (d + 1) P fun j P => P.add v j (g j P)

/-- cexp_op.hpp:679-749 -/
noncomputable def cexpReverse (cop : CompareOp) (l r t f : Opd) (d iz : ℕ) (s P : Tay) : Tay :=
  let y0 := l.at0 s
  let y1 := r.at0 s
  let P := opdAdd t d (fun j P => condExp cop y0 y1 (P iz j) 0) P
  opdAdd f d (fun j P => condExp cop y0 y1 0 (P iz j)) P

/-- csum_op.hpp:168-219; `c` is `parameter[arg[0]]`, `addv`, `subv` are the variables in positions
`5..arg[1]` and `arg[1]..arg[2]`, `addp`, `subp` the (dynamic) parameters in positions
`arg[2]..arg[3]` and `arg[3]..arg[4]` -/
noncomputable def csumForward (c : ℝ) (addv subv : List ℕ) (addp subp : List ℝ) (p q iz : ℕ)
    (s : Tay) : Tay :=
  let s := forRange p (q + 1) s fun k s => s.set iz k 0
  let s := if p = 0 then
    let s := s.set iz 0 c
    let s := addp.foldl (fun s a => s.add iz 0 a) s
    subp.foldl (fun s a => s.add iz 0 (-a)) s
    else s
  let s := addv.foldl (fun s x => forRange p (q + 1) s fun k s => s.add iz k (s x k)) s
  subv.foldl (fun s x => forRange p (q + 1) s fun k s => s.add iz k (- s x k)) s

/-- csum_op.hpp:265-312 -/
noncomputable def csumDir (addv subv : List ℕ) (q r iz : ℕ) (s : Tay) : Tay :=
  let m := (q - 1) * r + 1
  let s := forRange 0 r s fun ell s => s.set iz (m + ell) 0
  let s := addv.foldl (fun s x => forRange 0 r s fun ell s => s.add iz (m + ell) (s x (m + ell))) s
  subv.foldl (fun s x => forRange 0 r s fun ell s => s.add iz (m + ell) (- s x (m + ell))) s

/-- csum_op.hpp:353-387 -/
noncomputable def csumReverse (addv subv : List ℕ) (d iz : ℕ) (_s P : Tay) : Tay :=
  let P := addv.foldl (fun P x => forDown0 (d + 1) P fun k P => P.add x k (P iz k)) P
  subv.foldl (fun P x => forDown0 (d + 1) P fun k P => P.add x k (- P iz k)) P

/-- par_op.hpp:148-173 -/
noncomputable def parForward (c : ℝ) (p q iz : ℕ) (s : Tay) : Tay :=
  let s0 := if p = 0 then s.set iz 0 c else s
  let p0 := if p = 0 then 1 else p
  forRange p0 (q + 1) s0 fun j s => s.set iz j 0

/-- par_op.hpp:216-246 -/
noncomputable def parDir (q r iz : ℕ) (s : Tay) : Tay :=
  let m := (q - 1) * r + 1
  forRange 0 r s fun ell s => s.set iz (m + ell) 0

/-- local/sweep/reverse.hpp:520-521 -/
def parReverse (_d _iz : ℕ) (_s P : Tay) : Tay := P

/-- dis_op.hpp:152-184 with one direction (local/sweep/forward_any.hpp); `fn` is the discrete
function `discrete<RecBase>::eval(arg[0], .)`; position `(k-1) * 1 + 1 + 0 = k` -/
noncomputable def disForward (fn : ℝ → ℝ) (ix p q iz : ℕ) (s : Tay) : Tay :=
  let s0 := if p = 0 then s.set iz 0 (fn (s ix 0)) else s
  let p0 := if p = 0 then 1 else p
  forRange 0 1 s0 fun ell s => forRange p0 (q + 1) s fun k s => s.set iz ((k - 1) * 1 + 1 + ell) 0

/-- dis_op.hpp:152-184 with `p = q`, `r` directions (local/sweep/forward_dir.hpp) -/
noncomputable def disDir (_ix q r iz : ℕ) (s : Tay) : Tay :=
  forRange 0 r s fun ell s => forRange q (q + 1) s fun k s => s.set iz ((k - 1) * r + 1 + ell) 0

/-- local/sweep/reverse.hpp:397-400 -/
def disReverse (_ix _d _iz : ℕ) (_s P : Tay) : Tay := P

end CppAD
