import Verif.Taylor.Arith
import Verif.Taylor.Div
import Verif.Taylor.Exp
import Verif.Taylor.Log
import Verif.Taylor.Trig
import Verif.Taylor.Tan
import Verif.Taylor.Atan
import Verif.Taylor.Misc
import Verif.Taylor.Pow
import Verif.Taylor.Pow2
import Verif.Taylor.Erf
import Verif.Taylor.AtomCert

/-! # The operators of a recording and the dispatch of the sweeps

One constructor per operator code of cppad/local/op_code_var.hpp:194-268 that has a result and is not
a VecAD, comparison or conditional skip operator, and one for a complete call of an atomic function.
Parameters are resolved to their values (a real number); variables are indices. -/

open scoped ContDiff Topology Classical

namespace CppAD

/-- Elementary operators with one primary result and atomic function calls, cppad/local/op_code_var.hpp:194-268. -/
inductive Op
  | abs (ix : ℕ)
  | acos (ix : ℕ)
  | acosh (ix : ℕ)
  | addpv (x : ℝ) (iy : ℕ)
  | addvv (ix iy : ℕ)
  | asin (ix : ℕ)
  | asinh (ix : ℕ)
  | atan (ix : ℕ)
  | atanh (ix : ℕ)
  | atom (c : AtomCall)
  | cexp (cop : CompareOp) (l r t f : Opd)
  | cos (ix : ℕ)
  | cosh (ix : ℕ)
  | csum (c : ℝ) (addv subv : List ℕ) (addp subp : List ℝ)
  | dis (fn : ℝ → ℝ) (ix : ℕ)
  | divpv (x : ℝ) (iy : ℕ)
  | divvp (ix : ℕ) (y : ℝ)
  | divvv (ix iy : ℕ)
  | erf (ix : ℕ)
  | erfc (ix : ℕ)
  | exp (ix : ℕ)
  | expm1 (ix : ℕ)
  | log (ix : ℕ)
  | log1p (ix : ℕ)
  | mulpv (x : ℝ) (iy : ℕ)
  | mulvv (ix iy : ℕ)
  | neg (ix : ℕ)
  | par (c : ℝ)
  | powpv (x : ℝ) (iy : ℕ)
  | powvp (ix : ℕ) (y : ℝ)
  | powvv (ix iy : ℕ)
  | sign (ix : ℕ)
  | sin (ix : ℕ)
  | sinh (ix : ℕ)
  | sqrt (ix : ℕ)
  | subpv (x : ℝ) (iy : ℕ)
  | subvp (ix : ℕ) (y : ℝ)
  | subvv (ix iy : ℕ)
  | tan (ix : ℕ)
  | tanh (ix : ℕ)
  | zmulpv (x : ℝ) (iy : ℕ)
  | zmulvp (ix : ℕ) (y : ℝ)
  | zmulvv (ix iy : ℕ)

/-- number of results, op_code_var.hpp:420-520 (NumRes) -/
def Op.nres : Op → ℕ
  | .abs _ => 1
  | .acos _ => 2
  | .acosh _ => 2
  | .addpv _ _ => 1
  | .addvv _ _ => 1
  | .asin _ => 2
  | .asinh _ => 2
  | .atan _ => 2
  | .atanh _ => 2
  | .atom c => c.nres
  | .cexp _ _ _ _ _ => 1
  | .cos _ => 2
  | .cosh _ => 2
  | .csum _ _ _ _ _ => 1
  | .dis _ _ => 1
  | .divpv _ _ => 1
  | .divvp _ _ => 1
  | .divvv _ _ => 1
  | .erf _ => 5
  | .erfc _ => 5
  | .exp _ => 1
  | .expm1 _ => 1
  | .log _ => 1
  | .log1p _ => 1
  | .mulpv _ _ => 1
  | .mulvv _ _ => 1
  | .neg _ => 1
  | .par _ => 1
  | .powpv _ _ => 3
  | .powvp _ _ => 1
  | .powvv _ _ => 3
  | .sign _ => 1
  | .sin _ => 2
  | .sinh _ => 2
  | .sqrt _ => 1
  | .subpv _ _ => 1
  | .subvp _ _ => 1
  | .subvv _ _ => 1
  | .tan _ => 2
  | .tanh _ => 2
  | .zmulpv _ _ => 1
  | .zmulvp _ _ => 1
  | .zmulvv _ _ => 1

/-- indices of the arguments that are variables, op_code_var.hpp:28-190 -/
def Op.args : Op → List ℕ
  | .abs ix => [ix]
  | .acos ix => [ix]
  | .acosh ix => [ix]
  | .addpv _ iy => [iy]
  | .addvv ix iy => [ix, iy]
  | .asin ix => [ix]
  | .asinh ix => [ix]
  | .atan ix => [ix]
  | .atanh ix => [ix]
  | .atom c => c.args
  | .cexp _ l r t f => cexpArgs l r t f
  | .cos ix => [ix]
  | .cosh ix => [ix]
  | .csum _ addv subv _ _ => addv ++ subv
  | .dis _ ix => [ix]
  | .divpv _ iy => [iy]
  | .divvp ix _ => [ix]
  | .divvv ix iy => [ix, iy]
  | .erf ix => [ix]
  | .erfc ix => [ix]
  | .exp ix => [ix]
  | .expm1 ix => [ix]
  | .log ix => [ix]
  | .log1p ix => [ix]
  | .mulpv _ iy => [iy]
  | .mulvv ix iy => [ix, iy]
  | .neg ix => [ix]
  | .par _ => []
  | .powpv _ iy => [iy]
  | .powvp ix _ => [ix]
  | .powvv ix iy => [ix, iy]
  | .sign ix => [ix]
  | .sin ix => [ix]
  | .sinh ix => [ix]
  | .sqrt ix => [ix]
  | .subpv _ iy => [iy]
  | .subvp ix _ => [ix]
  | .subvv ix iy => [ix, iy]
  | .tan ix => [ix]
  | .tanh ix => [ix]
  | .zmulpv _ iy => [iy]
  | .zmulvp ix _ => [ix]
  | .zmulvv ix iy => [ix, iy]

/-- *Specification*: the mathematical value of result `r` at the values `e` of the variables.
The primary result is the one with the largest `r`; the others are auxiliary. -/
noncomputable def Op.val : Op → (ℕ → ℝ) → ℕ → ℝ
  | .abs ix => fun e _ => |e ix|
  | .acos ix => fun e r => (if r = 0 then fun y => Real.sqrt (1 - y * y) else Real.arccos) (e ix)
  | .acosh ix => fun e r => (if r = 0 then fun y => Real.sqrt (y * y - 1) else Real.arcosh) (e ix)
  | .addpv x iy => fun e _ => x + e iy
  | .addvv ix iy => fun e _ => e ix + e iy
  | .asin ix => fun e r => (if r = 0 then fun y => Real.sqrt (1 - y * y) else Real.arcsin) (e ix)
  | .asinh ix => fun e r => (if r = 0 then fun y => Real.sqrt (1 + y * y) else Real.arsinh) (e ix)
  | .atan ix => fun e r => (if r = 0 then fun y => 1 + 1 * (y * y) else Real.arctan) (e ix)
  | .atanh ix => fun e r => (if r = 0 then fun y => 1 + -1 * (y * y) else Real.artanh) (e ix)
  | .atom c => c.val
  | .cexp cop l r t f => fun e _ => condExp cop (l.val e) (r.val e) (t.val e) (f.val e)
  | .cos ix => fun e r => (if r = 0 then Real.sin else Real.cos) (e ix)
  | .cosh ix => fun e r => (if r = 0 then Real.sinh else Real.cosh) (e ix)
  | .csum c addv subv addp subp => fun e _ => c + addp.sum - subp.sum + (addv.map e).sum - (subv.map e).sum
  | .dis fn ix => fun e _ => fn (e ix)
  | .divpv x iy => fun e _ => x / e iy
  | .divvp ix y => fun e _ => e ix / y
  | .divvv ix iy => fun e _ => e ix / e iy
  | .erf ix => fun e r => erfVal CppAD.erf (2 / Real.sqrt Real.pi) r (e ix)
  | .erfc ix => fun e r => erfVal CppAD.erfc (2 / Real.sqrt Real.pi) r (e ix)
  | .exp ix => fun e _ => Real.exp (e ix)
  | .expm1 ix => fun e _ => Real.exp (e ix) - 1
  | .log ix => fun e _ => Real.log (e ix)
  | .log1p ix => fun e _ => Real.log (1 + e ix)
  | .mulpv x iy => fun e _ => x * e iy
  | .mulvv ix iy => fun e _ => e ix * e iy
  | .neg ix => fun e _ => - e ix
  | .par c => fun _ _ => c
  | .powpv x iy => fun e r => if r = 0 then Real.log x else if r = 1 then Real.log x * e iy else x ^ e iy
  | .powvp ix y => fun e _ => e ix ^ y
  | .powvv ix iy => fun e r => if r = 0 then Real.log (e ix) else if r = 1 then Real.log (e ix) * e iy else e ix ^ e iy
  | .sign ix => fun e _ => Real.sign (e ix)
  | .sin ix => fun e r => (if r = 0 then Real.cos else Real.sin) (e ix)
  | .sinh ix => fun e r => (if r = 0 then Real.cosh else Real.sinh) (e ix)
  | .sqrt ix => fun e _ => Real.sqrt (e ix)
  | .subpv x iy => fun e _ => x - e iy
  | .subvp ix y => fun e _ => e ix - y
  | .subvv ix iy => fun e _ => e ix - e iy
  | .tan ix => fun e r => (if r = 0 then fun y => Real.tan y * Real.tan y else Real.tan) (e ix)
  | .tanh ix => fun e r => (if r = 0 then fun y => Real.tanh y * Real.tanh y else Real.tanh) (e ix)
  | .zmulpv x iy => fun e _ => x * e iy
  | .zmulvp ix y => fun e _ => e ix * y
  | .zmulvv ix iy => fun e _ => e ix * e iy

/-- *Specification*: points where the operation is smooth -/
noncomputable def Op.dom : Op → (ℕ → ℝ) → Prop
  | .abs ix => fun e => e ix ≠ 0
  | .acos ix => fun e => e ix ∈ Set.Ioo (-1 : ℝ) 1
  | .acosh ix => fun e => e ix ∈ Set.Ioi (1 : ℝ)
  | .addpv _ iy => fun e => e iy ∈ Set.univ
  | .addvv ix iy => fun e => (e ix, e iy) ∈ Set.univ
  | .asin ix => fun e => e ix ∈ Set.Ioo (-1 : ℝ) 1
  | .asinh ix => fun e => e ix ∈ Set.univ
  | .atan ix => fun e => e ix ∈ Set.univ
  | .atanh ix => fun e => e ix ∈ Set.Ioo (-1 : ℝ) 1
  | .atom c => c.dom
  | .cexp _ l r _ _ => cexpDom l r
  | .cos ix => fun e => e ix ∈ Set.univ
  | .cosh ix => fun e => e ix ∈ Set.univ
  | .csum _ _ _ _ _ => fun _ => True
  | .dis fn ix => fun e => ∀ᶠ y in 𝓝 (e ix), fn y = fn (e ix)
  | .divpv _ iy => fun e => e iy ∈ {y : ℝ | y ≠ 0}
  | .divvp ix _ => fun e => e ix ∈ Set.univ
  | .divvv ix iy => fun e => (e ix, e iy) ∈ {u : ℝ × ℝ | u.2 ≠ 0}
  | .erf ix => fun e => e ix ∈ Set.univ
  | .erfc ix => fun e => e ix ∈ Set.univ
  | .exp ix => fun e => e ix ∈ Set.univ
  | .expm1 ix => fun e => e ix ∈ Set.univ
  | .log ix => fun e => e ix ∈ {x : ℝ | 0 < x}
  | .log1p ix => fun e => e ix ∈ {x : ℝ | -1 < x}
  | .mulpv _ iy => fun e => e iy ∈ Set.univ
  | .mulvv ix iy => fun e => (e ix, e iy) ∈ Set.univ
  | .neg ix => fun e => e ix ∈ Set.univ
  | .par _ => fun _ => True
  | .powpv x iy => fun e => e iy ∈ {_y : ℝ | 0 < x}
  | .powvp ix _ => fun e => e ix ∈ {x : ℝ | x ≠ 0}
  | .powvv ix iy => fun e => (e ix, e iy) ∈ {u : ℝ × ℝ | 0 < u.1}
  | .sign ix => fun e => e ix ≠ 0
  | .sin ix => fun e => e ix ∈ Set.univ
  | .sinh ix => fun e => e ix ∈ Set.univ
  | .sqrt ix => fun e => e ix ∈ {x : ℝ | 0 < x}
  | .subpv _ iy => fun e => e iy ∈ Set.univ
  | .subvp ix _ => fun e => e ix ∈ Set.univ
  | .subvv ix iy => fun e => (e ix, e iy) ∈ Set.univ
  | .tan ix => fun e => e ix ∈ {y : ℝ | Real.cos y ≠ 0}
  | .tanh ix => fun e => e ix ∈ Set.univ
  | .zmulpv _ iy => fun e => e iy ∈ Set.univ
  | .zmulvp ix _ => fun e => e ix ∈ Set.univ
  | .zmulvv ix iy => fun e => (e ix, e iy) ∈ Set.univ

/-- erf_op.hpp:218-268 -/
noncomputable def erfForward0 (f : ℝ → ℝ) (c : ℝ) (ix iz : ℕ) (s : Tay) : Tay :=
  let iz := iz - 4
  let s := s.set (iz + 0) 0 (s ix 0 * s ix 0)
  let s := s.set (iz + 1) 0 (0 - s iz 0)
  let s := s.set (iz + 2) 0 (Real.exp (s (iz + 1) 0))
  let s := s.set (iz + 3) 0 (c * s (iz + 2) 0)
  s.set (iz + 4) 0 (f (s ix 0))

/-- dispatch of forward_0, cppad/local/sweep/forward_0.hpp:177-542, with the `*_forward_0` function of each operator:
abs_op.hpp:75-96 acos_op.hpp:114-136 acosh_op.hpp:115-137 add_op.hpp:78-96,202-222 asin_op.hpp:114-136
asinh_op.hpp:115-137 atan_op.hpp:101-123 atanh_op.hpp:102-124 cexp_op.hpp:495-552 cos_op.hpp:107-129
cosh_op.hpp:107-129 csum_op.hpp:168-219 dis_op.hpp:152-184 div_op.hpp:91-109,244-264,389-409 exp_op.hpp:91-111
expm1_op.hpp:91-111 log_op.hpp:98-119 log1p_op.hpp:96-117 mul_op.hpp:83-101,215-235 neg_op.hpp:75-95 par_op.hpp:87-105
pow_op.hpp:141-167,384-417,621-641 sign_op.hpp:74-95 sin_op.hpp:108-130 sinh_op.hpp:108-130 sqrt_op.hpp:94-114
sub_op.hpp:75-93,198-218,322-342 tan_op.hpp:103-125 tanh_op.hpp:102-124 zmul_op.hpp:83-101,212-232,336-356 -/
noncomputable def Op.fwd0 : Op → ℕ → Tay → Tay
  | .abs ix => fun iz s => s.set iz 0 (|s ix 0|)
  | .acos ix => fun iz s => let s := s.set iz 0 (Real.arccos (s ix 0)); s.set (iz - 1) 0 (Real.sqrt (1 - s ix 0 * s ix 0))
  | .acosh ix => fun iz s => let s := s.set iz 0 (Real.arcosh (s ix 0)); s.set (iz - 1) 0 (Real.sqrt (s ix 0 * s ix 0 - 1))
  | .addpv x iy => fun iz s => s.set iz 0 (x + s iy 0)
  | .addvv ix iy => fun iz s => s.set iz 0 (s ix 0 + s iy 0)
  | .asin ix => fun iz s => let s := s.set iz 0 (Real.arcsin (s ix 0)); s.set (iz - 1) 0 (Real.sqrt (1 - s ix 0 * s ix 0))
  | .asinh ix => fun iz s => let s := s.set iz 0 (Real.arsinh (s ix 0)); s.set (iz - 1) 0 (Real.sqrt (1 + s ix 0 * s ix 0))
  | .atan ix => fun iz s => let s := s.set iz 0 (Real.arctan (s ix 0)); s.set (iz - 1) 0 (1 + s ix 0 * s ix 0)
  | .atanh ix => fun iz s => let s := s.set iz 0 (Real.artanh (s ix 0)); s.set (iz - 1) 0 (1 - s ix 0 * s ix 0)
  | .atom c => atomForward c 0 0
  | .cexp cop l r t f => fun iz s => s.set iz 0 (condExp cop (l.at0 s) (r.at0 s) (t.at0 s) (f.at0 s))
  | .cos ix => fun iz s => let s := s.set iz 0 (Real.cos (s ix 0)); s.set (iz - 1) 0 (Real.sin (s ix 0))
  | .cosh ix => fun iz s => let s := s.set iz 0 (Real.cosh (s ix 0)); s.set (iz - 1) 0 (Real.sinh (s ix 0))
  | .csum c addv subv addp subp => csumForward c addv subv addp subp 0 0
  | .dis fn ix => disForward fn ix 0 0
  | .divpv x iy => fun iz s => s.set iz 0 (x / s iy 0)
  | .divvp ix y => fun iz s => s.set iz 0 (s ix 0 / y)
  | .divvv ix iy => fun iz s => s.set iz 0 (s ix 0 / s iy 0)
  | .erf ix => erfForward0 CppAD.erf (2 / Real.sqrt Real.pi) ix
  | .erfc ix => erfForward0 CppAD.erfc (2 / Real.sqrt Real.pi) ix
  | .exp ix => fun iz s => s.set iz 0 (Real.exp (s ix 0))
  | .expm1 ix => fun iz s => s.set iz 0 (Real.exp (s ix 0) - 1)
  | .log ix => fun iz s => s.set iz 0 (Real.log (s ix 0))
  | .log1p ix => fun iz s => s.set iz 0 (Real.log (1 + s ix 0))
  | .mulpv x iy => fun iz s => s.set iz 0 (x * s iy 0)
  | .mulvv ix iy => fun iz s => s.set iz 0 (s ix 0 * s iy 0)
  | .neg ix => fun iz s => s.set iz 0 (- s ix 0)
  | .par c => fun iz s => s.set iz 0 c
  | .powpv x iy => fun iz s => let s := s.set (iz - 2) 0 (Real.log x); let s := s.set (iz - 2 + 1) 0 (s (iz - 2) 0 * s iy 0); s.set (iz - 2 + 2) 0 (x ^ s iy 0)
  | .powvp ix y => fun iz s => s.set iz 0 (s ix 0 ^ y)
  | .powvv ix iy => fun iz s => let s := s.set (iz - 2) 0 (Real.log (s ix 0)); let s := s.set (iz - 2 + 1) 0 (s (iz - 2) 0 * s iy 0); s.set (iz - 2 + 2) 0 (s ix 0 ^ s iy 0)
  | .sign ix => fun iz s => s.set iz 0 (Real.sign (s ix 0))
  | .sin ix => fun iz s => let s := s.set iz 0 (Real.sin (s ix 0)); s.set (iz - 1) 0 (Real.cos (s ix 0))
  | .sinh ix => fun iz s => let s := s.set iz 0 (Real.sinh (s ix 0)); s.set (iz - 1) 0 (Real.cosh (s ix 0))
  | .sqrt ix => fun iz s => s.set iz 0 (Real.sqrt (s ix 0))
  | .subpv x iy => fun iz s => s.set iz 0 (x - s iy 0)
  | .subvp ix y => fun iz s => s.set iz 0 (s ix 0 - y)
  | .subvv ix iy => fun iz s => s.set iz 0 (s ix 0 - s iy 0)
  | .tan ix => fun iz s => let s := s.set iz 0 (Real.tan (s ix 0)); s.set (iz - 1) 0 (s iz 0 * s iz 0)
  | .tanh ix => fun iz s => let s := s.set iz 0 (Real.tanh (s ix 0)); s.set (iz - 1) 0 (s iz 0 * s iz 0)
  | .zmulpv x iy => fun iz s => s.set iz 0 (azmul x (s iy 0))
  | .zmulvp ix y => fun iz s => s.set iz 0 (azmul (s ix 0) y)
  | .zmulvv ix iy => fun iz s => s.set iz 0 (azmul (s ix 0) (s iy 0))

/-- dispatch of forward_any, cppad/local/sweep/forward_any.hpp:187-652; arguments `p q i_z taylor` -/
noncomputable def Op.fwd : Op → ℕ → ℕ → ℕ → Tay → Tay
  | .abs ix => absForward ix
  | .acos ix => acosForward ix
  | .acosh ix => acoshForward ix
  | .addpv x iy => addpvForward x iy
  | .addvv ix iy => addvvForward ix iy
  | .asin ix => asinForward ix
  | .asinh ix => asinhForward ix
  | .atan ix => atanForward ix
  | .atanh ix => atanhForward ix
  | .atom c => atomForward c
  | .cexp cop l r t f => cexpForward cop l r t f
  | .cos ix => cosForward ix
  | .cosh ix => coshForward ix
  | .csum c addv subv addp subp => csumForward c addv subv addp subp
  | .dis fn ix => disForward fn ix
  | .divpv x iy => divpvForward x iy
  | .divvp ix y => divvpForward ix y
  | .divvv ix iy => divvvForward ix iy
  | .erf ix => erfForward CppAD.erf 1 (2 / Real.sqrt Real.pi) ix
  | .erfc ix => erfForward CppAD.erfc (-1) (2 / Real.sqrt Real.pi) ix
  | .exp ix => expForward ix
  | .expm1 ix => expm1Forward ix
  | .log ix => logForward ix
  | .log1p ix => log1pForward ix
  | .mulpv x iy => mulpvForward x iy
  | .mulvv ix iy => mulvvForward ix iy
  | .neg ix => negForward ix
  | .par c => parForward c
  | .powpv x iy => powpvForward x iy
  | .powvp ix y => powvpForward ix y
  | .powvv ix iy => powvvForward ix iy
  | .sign ix => signForward ix
  | .sin ix => sinForward ix
  | .sinh ix => sinhForward ix
  | .sqrt ix => sqrtForward ix
  | .subpv x iy => subpvForward x iy
  | .subvp ix y => subvpForward ix y
  | .subvv ix iy => subvvForward ix iy
  | .tan ix => tanForward ix
  | .tanh ix => tanhForward ix
  | .zmulpv x iy => zmulpvForward x iy
  | .zmulvp ix y => zmulvpForward ix y
  | .zmulvv ix iy => zmulvvForward ix iy

/-- dispatch of forward_dir, cppad/local/sweep/forward_dir.hpp:137-550; arguments `q r i_z taylor` -/
noncomputable def Op.dir : Op → ℕ → ℕ → ℕ → Tay → Tay
  | .abs ix => absDir ix
  | .acos ix => acosDir ix
  | .acosh ix => acoshDir ix
  | .addpv x iy => addpvDir x iy
  | .addvv ix iy => addvvDir ix iy
  | .asin ix => asinDir ix
  | .asinh ix => asinhDir ix
  | .atan ix => atanDir ix
  | .atanh ix => atanhDir ix
  | .atom c => atomDir c
  | .cexp cop l r t f => cexpDir cop l r t f
  | .cos ix => cosDir ix
  | .cosh ix => coshDir ix
  | .csum _ addv subv _ _ => csumDir addv subv
  | .dis _ ix => disDir ix
  | .divpv x iy => divpvDir x iy
  | .divvp ix y => divvpDir ix y
  | .divvv ix iy => divvvDir ix iy
  | .erf ix => erfDir 1 (2 / Real.sqrt Real.pi) ix
  | .erfc ix => erfDir (-1) (2 / Real.sqrt Real.pi) ix
  | .exp ix => expDir ix
  | .expm1 ix => expm1Dir ix
  | .log ix => logDir ix
  | .log1p ix => log1pDir ix
  | .mulpv x iy => mulpvDir x iy
  | .mulvv ix iy => mulvvDir ix iy
  | .neg ix => negDir ix
  | .par _ => parDir
  | .powpv _ iy => powpvDir iy
  | .powvp ix y => powvpDir ix y
  | .powvv ix iy => powvvDir ix iy
  | .sign ix => signDir ix
  | .sin ix => sinDir ix
  | .sinh ix => sinhDir ix
  | .sqrt ix => sqrtDir ix
  | .subpv x iy => subpvDir x iy
  | .subvp ix y => subvpDir ix y
  | .subvv ix iy => subvvDir ix iy
  | .tan ix => tanDir ix
  | .tanh ix => tanhDir ix
  | .zmulpv x iy => zmulpvDir x iy
  | .zmulvp ix y => zmulvpDir ix y
  | .zmulvv ix iy => zmulvvDir ix iy

/-- dispatch of reverse, cppad/local/sweep/reverse.hpp:268-685; arguments `d i_z taylor partial` -/
noncomputable def Op.rev : Op → ℕ → ℕ → Tay → Tay → Tay
  | .abs ix => absReverse ix
  | .acos ix => acosReverse ix
  | .acosh ix => acoshReverse ix
  | .addpv x iy => addpvReverse x iy
  | .addvv ix iy => addvvReverse ix iy
  | .asin ix => asinReverse ix
  | .asinh ix => asinhReverse ix
  | .atan ix => atanReverse ix
  | .atanh ix => atanhReverse ix
  | .atom c => atomReverse c
  | .cexp cop l r t f => cexpReverse cop l r t f
  | .cos ix => cosReverse ix
  | .cosh ix => coshReverse ix
  | .csum _ addv subv _ _ => csumReverse addv subv
  | .dis _ ix => disReverse ix
  | .divpv x iy => divpvReverse x iy
  | .divvp ix y => divvpReverse ix y
  | .divvv ix iy => divvvReverse ix iy
  | .erf ix => erfReverse 1 (2 / Real.sqrt Real.pi) ix
  | .erfc ix => erfReverse (-1) (2 / Real.sqrt Real.pi) ix
  | .exp ix => expReverse ix
  | .expm1 ix => expm1Reverse ix
  | .log ix => logReverse ix
  | .log1p ix => log1pReverse ix
  | .mulpv x iy => mulpvReverse x iy
  | .mulvv ix iy => mulvvReverse ix iy
  | .neg ix => negReverse ix
  | .par _ => parReverse
  | .powpv _ iy => powpvReverse iy
  | .powvp ix y => powvpReverse ix y
  | .powvv ix iy => powvvReverse ix iy
  | .sign ix => signReverse ix
  | .sin ix => sinReverse ix
  | .sinh ix => sinhReverse ix
  | .sqrt ix => sqrtReverse ix
  | .subpv x iy => subpvReverse x iy
  | .subvp ix y => subvpReverse ix y
  | .subvv ix iy => subvvReverse ix iy
  | .tan ix => tanReverse ix
  | .tanh ix => tanhReverse ix
  | .zmulpv x iy => zmulpvReverse x iy
  | .zmulvp ix y => zmulvpReverse ix y
  | .zmulvv ix iy => zmulvvReverse ix iy

/-- results that can be operands are the ones with index `naux` or more: the last one for the elementary operators,
all of them for an atomic function call -/
def Op.naux : Op → ℕ
  | .atom _ => 0
  | op => op.nres - 1

/-- every operator is certified -/
noncomputable def Op.cert : (op : Op) → OpSpec op.nres op.naux op.args op.val op.dom op.fwd op.dir op.rev
  | .abs ix => (absCert ix).spec
  | .acos ix => (acosCert ix).spec
  | .acosh ix => (acoshCert ix).spec
  | .addpv x iy => (addpvCert x iy).spec
  | .addvv ix iy => (addvvCert ix iy).spec
  | .asin ix => (asinCert ix).spec
  | .asinh ix => (asinhCert ix).spec
  | .atan ix => (atanCert ix).spec
  | .atanh ix => (atanhCert ix).spec
  | .atom c => atomSpec c
  | .cexp cop l r t f => (cexpCert cop l r t f).spec
  | .cos ix => (cosCert ix).spec
  | .cosh ix => (coshCert ix).spec
  | .csum c addv subv addp subp => (csumCert c addv subv addp subp).spec
  | .dis fn ix => (disCert fn ix).spec
  | .divpv x iy => (divpvCert x iy).spec
  | .divvp ix y => (divvpCert ix y).spec
  | .divvv ix iy => (divvvCert ix iy).spec
  | .erf ix => (erfCert ix).spec
  | .erfc ix => (erfcCert ix).spec
  | .exp ix => (expCert ix).spec
  | .expm1 ix => (expm1Cert ix).spec
  | .log ix => (logCert ix).spec
  | .log1p ix => (log1pCert ix).spec
  | .mulpv x iy => (mulpvCert x iy).spec
  | .mulvv ix iy => (mulvvCert ix iy).spec
  | .neg ix => (negCert ix).spec
  | .par c => (parCert c).spec
  | .powpv x iy => (powpvCert x iy).spec
  | .powvp ix y => (powvpCert ix y).spec
  | .powvv ix iy => (powvvCert ix iy).spec
  | .sign ix => (signCert ix).spec
  | .sin ix => (sinCert ix).spec
  | .sinh ix => (sinhCert ix).spec
  | .sqrt ix => (sqrtCert ix).spec
  | .subpv x iy => (subpvCert x iy).spec
  | .subvp ix y => (subvpCert ix y).spec
  | .subvv ix iy => (subvvCert ix iy).spec
  | .tan ix => (tanCert ix).spec
  | .tanh ix => (tanhCert ix).spec
  | .zmulpv x iy => (zmulpvCert x iy).spec
  | .zmulvp ix y => (zmulvpCert ix y).spec
  | .zmulvv ix iy => (zmulvvCert ix iy).spec

/-- The zero order functions compute the values (everywhere, not only where the operation is smooth)
and change nothing else. -/
theorem Op.fwd0_ok (op : Op) (nv : ℕ) (s : Tay) (ha : ∀ a ∈ op.args, a < nv) :
    (∀ r < op.nres, op.fwd0 (nv + op.nres - 1) s (nv + r) 0 = op.val (fun v => s v 0) r) ∧
    (∀ v k, ¬ ((nv ≤ v ∧ v < nv + op.nres) ∧ k = 0) → op.fwd0 (nv + op.nres - 1) s v k = s v k) := by
  have key : op.dom (fun v => s v 0) → op.fwd0 = op.fwd 0 0 → _ := fun hd h0 => by
    have h := op.cert.fwd_frame nv 0 0 s le_rfl ha
    rw [← h0] at h
    have hf : ∀ v k, ¬ ((nv ≤ v ∧ v < nv + op.nres) ∧ k = 0) → op.fwd0 (nv + op.nres - 1) s v k = s v k :=
      fun v k hv => h v k (by rintro ⟨h1, h2, h3⟩; exact hv ⟨h1, by omega⟩)
    refine (⟨fun r hr => ?_, hf⟩ :
      (∀ r < op.nres, op.fwd0 (nv + op.nres - 1) s (nv + r) 0 = op.val (fun v => s v 0) r) ∧
      (∀ v k, ¬ ((nv ≤ v ∧ v < nv + op.nres) ∧ k = 0) → op.fwd0 (nv + op.nres - 1) s v k = s v k))
    have hc : ∀ a ∈ op.args, (if a < nv then s a 0 else op.val (fun v => s v 0) (a - nv)) = s a 0 :=
      fun a h => by rw [if_pos (ha a h)]
    have hu := op.cert.fwd_tc nv 0 0
      (fun _ v => if v < nv then s v 0 else op.val (fun v => s v 0) (v - nv)) s le_rfl ha
      (fun _ _ => contDiffAt_const)
      (fun _ r _ => by
        rw [if_neg (by omega), Nat.add_sub_cancel_left]
        exact op.cert.val_congr _ _ (fun a h => (hc a h).symm) r)
      (op.cert.dom_congr _ _ (fun a h => (hc a h).symm) hd)
      (fun v hv k hk => by
        obtain rfl : k = 0 := by omega
        rw [tc_zero, if_pos hv]) (fun r _ k hk => by omega) r hr 0 le_rfl le_rfl
    rw [tc_zero, ← h0] at hu
    rw [hu, if_neg (by omega), Nat.add_sub_cancel_left]
  cases op with
  | csum c addv subv addp subp => exact key trivial rfl
  | atom c => exact ⟨atomForward_val c s, fun v k h => atomForward_frame c s v k (by
      rintro ⟨h1, h2, h3⟩; exact h ⟨h1, by omega⟩)⟩
  | cexp cop l r t f =>
    refine ⟨fun r' hr => ?_, fun v k h => ?_⟩
    · obtain rfl : r' = 0 := by simp [Op.nres] at hr; omega
      simp only [Op.fwd0, Op.nres, Op.val, Nat.add_sub_cancel, add_zero, Tay.set_self]
      cases l <;> cases r <;> cases t <;> cases f <;> rfl
    · simp only [Op.nres] at h
      simp only [Op.fwd0, Op.nres, Tay.set_apply]
      rw [if_neg (by omega)]
  | _ =>
    clear key
    simp only [Op.args, Op.nres, Op.fwd0, Op.val, List.mem_cons, List.not_mem_nil, or_false, forall_eq_or_imp,
      forall_eq] at ha ⊢
    refine ⟨fun r hr => ?_, fun v k h => ?_⟩
    · interval_cases r <;> simp (disch := omega) [Tay.set_apply, if_pos, if_neg, erfForward0, disForward, forRange, erfVal, azmul]
      <;> first
        | (intro h; exact Or.inl h)
        | ring1
    · simp (disch := omega) [Tay.set_apply, if_neg, erfForward0, disForward, forRange]
      try omega

end CppAD
