# generates Verif/Taylor/Op.lean
R=[] # name, params decl, call params, nres, args, val, dom, fwd, dir, rev, cert, cite
def one(n, val, dom, cite, nres=1, cert=None, pars="(ix : ℕ)", call="ix", args="[ix]"):
    R.append(dict(n=n,pars=pars,call=call,nres=nres,args=args,val=val,dom=dom,
      fwd=f"{n}Forward {call}",dir=f"{n}Dir {call}",rev=f"{n}Reverse {call}",cert=f"{n}Cert {call}",cite=cite))
U="fun e => e ix ∈ Set.univ"
one("abs","fun e _ => |e ix|","fun e => e ix ≠ 0","absolute value")
def two(n,aux,f,dom,c): one(n,f"fun e r => (if r = 0 then {aux} else {f}) (e ix)",dom,c,2)
two("acos","fun y => Real.sqrt (1 - y * y)","Real.arccos","fun e => e ix ∈ Set.Ioo (-1 : ℝ) 1","")
two("acosh","fun y => Real.sqrt (y * y - 1)","Real.arcosh","fun e => e ix ∈ Set.Ioi (1 : ℝ)","")
def pv(n,val,dom,c,nres=1): one(n,val,dom,c,nres,pars="(x : ℝ) (iy : ℕ)",call="x iy",args="[iy]")
def vp(n,val,dom,c): one(n,val,dom,c,pars="(ix : ℕ) (y : ℝ)",call="ix y",args="[ix]")
def vv(n,val,dom,c,nres=1): one(n,val,dom,c,nres,pars="(ix iy : ℕ)",call="ix iy",args="[ix, iy]")
UY="fun e => e iy ∈ Set.univ"
UU="fun e => (e ix, e iy) ∈ Set.univ"
pv("addpv","fun e _ => x + e iy",UY,"")
vv("addvv","fun e _ => e ix + e iy",UU,"")
two("asin","fun y => Real.sqrt (1 - y * y)","Real.arcsin","fun e => e ix ∈ Set.Ioo (-1 : ℝ) 1","")
two("asinh","fun y => Real.sqrt (1 + y * y)","Real.arsinh",U,"")
two("atan","fun y => 1 + 1 * (y * y)","Real.arctan",U,"")
two("atanh","fun y => 1 + -1 * (y * y)","Real.artanh","fun e => e ix ∈ Set.Ioo (-1 : ℝ) 1","")
one("cexp","fun e _ => condExp cop (l.val e) (r.val e) (t.val e) (f.val e)","cexpDom l r","",pars="(cop : CompareOp) (l r t f : Opd)",call="cop l r t f",args="cexpArgs l r t f")
two("cos","Real.sin","Real.cos",U,"")
two("cosh","Real.sinh","Real.cosh",U,"")
R.append(dict(n="csum",pars="(c : ℝ) (addv subv : List ℕ) (addp subp : List ℝ)",call="c addv subv addp subp",nres=1,args="addv ++ subv",
  val="fun e _ => c + addp.sum - subp.sum + (addv.map e).sum - (subv.map e).sum",dom="fun _ => True",
  fwd="csumForward c addv subv addp subp",dir="csumDir addv subv",rev="csumReverse addv subv",cert="csumCert c addv subv addp subp",cite=""))
one("dis","fun e _ => fn (e ix)","fun e => ∀ᶠ y in 𝓝 (e ix), fn y = fn (e ix)","",pars="(fn : ℝ → ℝ) (ix : ℕ)",call="fn ix",args="[ix]")
R[-1]["dir"]="disDir ix"; R[-1]["rev"]="disReverse ix"
pv("divpv","fun e _ => x / e iy","fun e => e iy ∈ {y : ℝ | y ≠ 0}","")
vp("divvp","fun e _ => e ix / y",U,"")
vv("divvv","fun e _ => e ix / e iy","fun e => (e ix, e iy) ∈ {u : ℝ × ℝ | u.2 ≠ 0}","")
for n,s in (("erf","1"),("erfc","(-1)")):
    one(n,f"fun e r => erfVal CppAD.{n} (2 / Real.sqrt Real.pi) r (e ix)",U,"",5)
    R[-1].update(fwd=f"erfForward CppAD.{n} {s} (2 / Real.sqrt Real.pi) ix",dir=f"erfDir {s} (2 / Real.sqrt Real.pi) ix",rev=f"erfReverse {s} (2 / Real.sqrt Real.pi) ix")
one("exp","fun e _ => Real.exp (e ix)",U,"")
one("expm1","fun e _ => Real.exp (e ix) - 1",U,"")
one("log","fun e _ => Real.log (e ix)","fun e => e ix ∈ {x : ℝ | 0 < x}","")
one("log1p","fun e _ => Real.log (1 + e ix)","fun e => e ix ∈ {x : ℝ | -1 < x}","")
pv("mulpv","fun e _ => x * e iy",UY,"")
vv("mulvv","fun e _ => e ix * e iy",UU,"")
one("neg","fun e _ => - e ix",U,"")
one("par","fun _ _ => c","fun _ => True","",pars="(c : ℝ)",call="c",args="[]")
R[-1]["dir"]="parDir"; R[-1]["rev"]="parReverse"
pv("powpv","fun e r => if r = 0 then Real.log x else if r = 1 then Real.log x * e iy else x ^ e iy","fun e => e iy ∈ {_y : ℝ | 0 < x}","",3)
R[-1]["dir"]="powpvDir iy"; R[-1]["rev"]="powpvReverse iy"
vp("powvp","fun e _ => e ix ^ y","fun e => e ix ∈ {x : ℝ | x ≠ 0}","")
vv("powvv","fun e r => if r = 0 then Real.log (e ix) else if r = 1 then Real.log (e ix) * e iy else e ix ^ e iy","fun e => (e ix, e iy) ∈ {u : ℝ × ℝ | 0 < u.1}","",3)
one("sign","fun e _ => Real.sign (e ix)","fun e => e ix ≠ 0","")
two("sin","Real.cos","Real.sin",U,"")
two("sinh","Real.cosh","Real.sinh",U,"")
one("sqrt","fun e _ => Real.sqrt (e ix)","fun e => e ix ∈ {x : ℝ | 0 < x}","")
pv("subpv","fun e _ => x - e iy",UY,"")
vp("subvp","fun e _ => e ix - y",U,"")
vv("subvv","fun e _ => e ix - e iy",UU,"")
two("tan","fun y => Real.tan y * Real.tan y","Real.tan","fun e => e ix ∈ {y : ℝ | Real.cos y ≠ 0}","")
two("tanh","fun y => Real.tanh y * Real.tanh y","Real.tanh",U,"")
pv("zmulpv","fun e _ => x * e iy",UY,"")
vp("zmulvp","fun e _ => e ix * y",U,"")
vv("zmulvv","fun e _ => e ix * e iy",UU,"")

F0={}
def s1(n,v): F0[n]=f"fun iz s => s.set iz 0 ({v})"
def s2(n,v,a): F0[n]=f"fun iz s => let s := s.set iz 0 ({v}); s.set (iz - 1) 0 ({a})"
X="(s ix 0)"; Y="(s iy 0)"
s1("abs","|s ix 0|"); s2("acos","Real.arccos (s ix 0)","Real.sqrt (1 - s ix 0 * s ix 0)")
s2("acosh","Real.arcosh (s ix 0)","Real.sqrt (s ix 0 * s ix 0 - 1)")
s1("addpv","x + s iy 0"); s1("addvv","s ix 0 + s iy 0")
s2("asin","Real.arcsin (s ix 0)","Real.sqrt (1 - s ix 0 * s ix 0)")
s2("asinh","Real.arsinh (s ix 0)","Real.sqrt (1 + s ix 0 * s ix 0)")
s2("atan","Real.arctan (s ix 0)","1 + s ix 0 * s ix 0"); s2("atanh","Real.artanh (s ix 0)","1 - s ix 0 * s ix 0")
s1("cexp","condExp cop (l.at0 s) (r.at0 s) (t.at0 s) (f.at0 s)")
s2("cos","Real.cos (s ix 0)","Real.sin (s ix 0)"); s2("cosh","Real.cosh (s ix 0)","Real.sinh (s ix 0)")
F0["csum"]="csumForward c addv subv addp subp 0 0"
F0["dis"]="disForward fn ix 0 0"
s1("divpv","x / s iy 0"); s1("divvp","s ix 0 / y"); s1("divvv","s ix 0 / s iy 0")
for n in ("erf","erfc"):
    F0[n]=f"erfForward0 CppAD.{n} (2 / Real.sqrt Real.pi) ix"
s1("exp","Real.exp (s ix 0)"); s1("expm1","Real.exp (s ix 0) - 1"); s1("log","Real.log (s ix 0)"); s1("log1p","Real.log (1 + s ix 0)")
s1("mulpv","x * s iy 0"); s1("mulvv","s ix 0 * s iy 0"); s1("neg","- s ix 0"); F0["par"]="fun iz s => s.set iz 0 c"
F0["powvv"]="fun iz s => let s := s.set (iz - 2) 0 (Real.log (s ix 0)); let s := s.set (iz - 2 + 1) 0 (s (iz - 2) 0 * s iy 0); s.set (iz - 2 + 2) 0 (s ix 0 ^ s iy 0)"
F0["powpv"]="fun iz s => let s := s.set (iz - 2) 0 (Real.log x); let s := s.set (iz - 2 + 1) 0 (s (iz - 2) 0 * s iy 0); s.set (iz - 2 + 2) 0 (x ^ s iy 0)"
s1("powvp","s ix 0 ^ y"); s1("sign","Real.sign (s ix 0)"); s2("sin","Real.sin (s ix 0)","Real.cos (s ix 0)"); s2("sinh","Real.sinh (s ix 0)","Real.cosh (s ix 0)")
s1("sqrt","Real.sqrt (s ix 0)"); s1("subpv","x - s iy 0"); s1("subvp","s ix 0 - y"); s1("subvv","s ix 0 - s iy 0")
F0["tan"]="fun iz s => let s := s.set iz 0 (Real.tan (s ix 0)); s.set (iz - 1) 0 (s iz 0 * s iz 0)"
F0["tanh"]="fun iz s => let s := s.set iz 0 (Real.tanh (s ix 0)); s.set (iz - 1) 0 (s iz 0 * s iz 0)"
s1("zmulpv","azmul x (s iy 0)"); s1("zmulvp","azmul (s ix 0) y"); s1("zmulvv","azmul (s ix 0) (s iy 0)")
for r in R: r["f0"]=F0[r["n"]]
o=[]
w=o.append
w("""import Verif.Taylor.Arith
import Verif.Taylor.Div
import Verif.Taylor.Exp
import Verif.Taylor.Log
import Verif.Taylor.Trig
import Verif.Taylor.Tan
import Verif.Taylor.Atan
import Verif.Taylor.Misc
import Verif.Taylor.Pow
import Verif.Taylor.Pow2
import Verif.Taylor.Erf

/-! # The elementary operators of a recording and the dispatch of the sweeps

One constructor per operator code of cppad/local/op_code_var.hpp:194-268 that has a result and is not
a VecAD, atomic, comparison or conditional skip operator.  Parameters are resolved to their values (a
real number); variables are indices. -/

open scoped ContDiff Topology Classical

namespace CppAD
""")
w("/-- Elementary operators with one primary result, cppad/local/op_code_var.hpp:194-268. -/\ninductive Op")
for r in R: w(f"  | {r['n']} {r['pars']}")
w("")
def binders(r):
    return r['call']
import re
def used(call, body):
    out=[]
    for t in call.split():
        out.append(t if re.search(r"(?<![\w.'])"+re.escape(t)+r"(?![\w'])",body) else "_")
    return " ".join(out)
def disp(name, ty, key, doc, nc=True):
    w(f"/-- {doc} -/")
    w(("noncomputable " if nc else "")+f"def Op.{name} : Op → {ty}")
    for r in R: w(f"  | .{r['n']} {used(r['call'],str(r[key]))} => {r[key]}")
    w("")
disp("nres","ℕ","nres","number of results, op_code_var.hpp:420-520 (NumRes)",False)
disp("args","List ℕ","args","indices of the arguments that are variables, op_code_var.hpp:28-190",False)
disp("val","(ℕ → ℝ) → ℕ → ℝ","val","*Specification*: the mathematical value of result `r` at the values `e` of the variables.\nThe primary result is the one with the largest `r`; the others are auxiliary.")
disp("dom","(ℕ → ℝ) → Prop","dom","*Specification*: points where the operation is smooth")
w("""/-- erf_op.hpp:218-268 -/
noncomputable def erfForward0 (f : ℝ → ℝ) (c : ℝ) (ix iz : ℕ) (s : Tay) : Tay :=
  let iz := iz - 4
  let s := s.set (iz + 0) 0 (s ix 0 * s ix 0)
  let s := s.set (iz + 1) 0 (0 - s iz 0)
  let s := s.set (iz + 2) 0 (Real.exp (s (iz + 1) 0))
  let s := s.set (iz + 3) 0 (c * s (iz + 2) 0)
  s.set (iz + 4) 0 (f (s ix 0))
""")
disp("fwd0","ℕ → Tay → Tay","f0","dispatch of forward_0, cppad/local/sweep/forward_0.hpp:177-542, with the `*_forward_0` function of each operator:\nabs_op.hpp:75-96 acos_op.hpp:114-136 acosh_op.hpp:115-137 add_op.hpp:78-96,202-222 asin_op.hpp:114-136\nasinh_op.hpp:115-137 atan_op.hpp:101-123 atanh_op.hpp:102-124 cexp_op.hpp:495-552 cos_op.hpp:107-129\ncosh_op.hpp:107-129 csum_op.hpp:168-219 dis_op.hpp:152-184 div_op.hpp:91-109,244-264,389-409 exp_op.hpp:91-111\nexpm1_op.hpp:91-111 log_op.hpp:98-119 log1p_op.hpp:96-117 mul_op.hpp:83-101,215-235 neg_op.hpp:75-95 par_op.hpp:87-105\npow_op.hpp:141-167,384-417,621-641 sign_op.hpp:74-95 sin_op.hpp:108-130 sinh_op.hpp:108-130 sqrt_op.hpp:94-114\nsub_op.hpp:75-93,198-218,322-342 tan_op.hpp:103-125 tanh_op.hpp:102-124 zmul_op.hpp:83-101,212-232,336-356")
disp("fwd","ℕ → ℕ → ℕ → Tay → Tay","fwd","dispatch of forward_any, cppad/local/sweep/forward_any.hpp:187-652; arguments `p q i_z taylor`")
disp("dir","ℕ → ℕ → ℕ → Tay → Tay","dir","dispatch of forward_dir, cppad/local/sweep/forward_dir.hpp:137-550; arguments `q r i_z taylor`")
disp("rev","ℕ → ℕ → Tay → Tay → Tay","rev","dispatch of reverse, cppad/local/sweep/reverse.hpp:268-685; arguments `d i_z taylor partial`")
w("/-- every operator is certified -/")
w("noncomputable def Op.cert : (op : Op) → OpCert op.nres op.args op.val op.dom op.fwd op.dir op.rev")
for r in R: w(f"  | .{r['n']} {used(r['call'],r['cert'])} => {r['cert']}")
w("""
/-- The zero order functions compute the values (everywhere, not only where the operation is smooth)
and change nothing else. -/
theorem Op.fwd0_ok (op : Op) (nv : ℕ) (s : Tay) (ha : ∀ a ∈ op.args, a < nv) :
    (∀ r < op.nres, op.fwd0 (nv + op.nres - 1) s (nv + r) 0 = op.val (fun v => s v 0) r) ∧
    (∀ v k, ¬ ((nv ≤ v ∧ v < nv + op.nres) ∧ k = 0) → op.fwd0 (nv + op.nres - 1) s v k = s v k) := by
  have key : op.dom (fun v => s v 0) → op.fwd0 = op.fwd 0 0 → _ := fun hd h0 => by
    have h := op.cert.fwd_ok nv 0 0 s le_rfl ha
    rw [← h0] at h
    have hf : ∀ v k, ¬ ((nv ≤ v ∧ v < nv + op.nres) ∧ k = 0) → op.fwd0 (nv + op.nres - 1) s v k = s v k :=
      fun v k hv => h.2 v k (by rintro ⟨h1, h2, h3⟩; exact hv ⟨h1, by omega⟩)
    refine (⟨fun r hr => ?_, hf⟩ :
      (∀ r < op.nres, op.fwd0 (nv + op.nres - 1) s (nv + r) 0 = op.val (fun v => s v 0) r) ∧
      (∀ v k, ¬ ((nv ≤ v ∧ v < nv + op.nres) ∧ k = 0) → op.fwd0 (nv + op.nres - 1) s v k = s v k))
    have hc : ∀ a ∈ op.args, (if a < nv then s a 0 else op.val (fun v => s v 0) (a - nv)) = s a 0 :=
      fun a h => by rw [if_pos (ha a h)]
    have ht := op.cert.taylor nv
      (fun _ v => if v < nv then s v 0 else op.val (fun v => s v 0) (v - nv)) ha
      (fun _ _ => contDiffAt_const)
      (fun _ r _ => by
        rw [if_neg (by omega), Nat.add_sub_cancel_left]
        exact op.cert.val_congr _ _ (fun a h => (hc a h).symm) r)
      (op.cert.dom_congr _ _ (fun a h => (hc a h).symm) hd) 0
    have hu := op.cert.rec_unique nv _ _ 0 ha
      (fun v hv k hk => by
        obtain rfl : k = 0 := by omega
        rw [tc_zero, hf v 0 (by omega), if_pos hv]) (fun r _ k hk => by omega)
      (h.1 0 le_rfl le_rfl) ht r hr
    rw [tc_zero] at hu
    rw [hu, if_neg (by omega), Nat.add_sub_cancel_left]
  cases op with
  | csum c addv subv addp subp => exact key trivial rfl
  | cexp cop l r t f =>
    refine ⟨fun r' hr => ?_, fun v k h => ?_⟩
    · obtain rfl : r' = 0 := by simp [Op.nres] at hr; omega
      simp only [Op.fwd0, Op.nres, Op.val, Nat.add_sub_cancel, add_zero, Tay.set_self]
      cases l <;> cases r <;> cases t <;> cases f <;> rfl
    · simp only [Op.nres] at h
      simp only [Op.fwd0, Op.nres, Tay.set_apply]
      rw [if_neg (by omega)]
  | _ =>
    clear key
    simp only [Op.args, Op.nres, Op.fwd0, Op.val, List.mem_cons, List.not_mem_nil, or_false, forall_eq_or_imp,
      forall_eq] at ha ⊢
    refine ⟨fun r hr => ?_, fun v k h => ?_⟩
    · interval_cases r <;> simp (disch := omega) [Tay.set_apply, if_pos, if_neg, erfForward0, disForward, forRange, erfVal, azmul]
      <;> first
        | (intro h; exact Or.inl h)
        | ring1
    · simp (disch := omega) [Tay.set_apply, if_neg, erfForward0, disForward, forRange]
      try omega

end CppAD""")
open("/verif/lean/Verif/Taylor/Op.lean","w").write("\n".join(o)+"\n")
