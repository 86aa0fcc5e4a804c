import Verif.Optimize.Run
import Verif.Play.Model

/-! # `number_skip` (property C70)

`include/cppad/core/num_skip.hpp`, for the operation sequences of `Verif.Optimize.Model`. -/

open scoped Classical

namespace CppAD.Optim

open CppAD CppAD.Record

/-- `NumRes(op)`, the number of variables that are the results of an operator (cppad/local/op_code_var.hpp:420-520);
for the functions it is the number of Taylor coefficient vectors that the operators of C01 compute -/
def VOp.nres : VOp → ℕ
  | .un f v => (f.op v).nres
  | .pv .pow p v => (Op.powpv p v).nres
  | .vv .pow v u => (Op.powvv v u).nres
  | .cmp .. | .cskip .. | .stpp .. | .stpv .. | .stvp .. | .stvv .. | .afun .. | .frp .. => 0
  | _ => 1

/-- the loop of `number_skip` (num_skip.hpp:64-112) from operator `i` on; `n` is `num_var_skip`.  All the operators of a
call of an atomic function are counted when the first AFunOp is skipped (`VOp.home`); BeginOp, where the loop in the code
starts, is never skipped. -/
def numSkip (skip : ℕ → Bool) : List VOp → ℕ → ℕ → ℕ
  | [], _, n => n
  | op :: ops, i, n => numSkip skip ops (i + 1) (if skip (op.home i) then n + op.nres else n)

/-- `new_dynamic(ind)` and `Forward(0, x)`: the state after the sweep (`OTape.eval` is the dependent variables) -/
noncomputable def OTape.fwd (disc : ℕ → ℝ → ℝ) (T : OTape) (ind : List ℝ) (x junk : ℕ → ℝ) : FSt :=
  sweepOps disc (at' (parVals disc ind T.dyn)) true T.ops 0 (T.start x junk)

/-- `f.number_skip()` after `f.new_dynamic(ind)` and `f.Forward(0, x)` (num_skip.hpp:64-112) -/
noncomputable def OTape.numberSkip (disc : ℕ → ℝ → ℝ) (T : OTape) (ind : List ℝ) (x junk : ℕ → ℝ) : ℕ :=
  numSkip (T.fwd disc ind x junk).skip T.ops 0 0

/-- *Specification*: the operators that the sweep executes, from operator `i` on -/
noncomputable def executed (disc : ℕ → ℝ → ℝ) (par : ℕ → ℝ) : List VOp → ℕ → FSt → List (ℕ × VOp)
  | [], _, _ => []
  | op :: ops, i, s =>
    if s.skip (op.home i) then executed disc par ops (i + 1) s
    else (i, op) :: executed disc par ops (i + 1) (op.step disc par i s)

/-- *Specification*: the operators that `Forward(0, x)` executes -/
noncomputable def OTape.executed (disc : ℕ → ℝ → ℝ) (T : OTape) (ind : List ℝ) (x junk : ℕ → ℝ) : List (ℕ × VOp) :=
  Optim.executed disc (at' (parVals disc ind T.dyn)) T.ops 0 (T.start x junk)

/-- *Specification*: the number of variables that the executed operators compute -/
noncomputable def OTape.numComputed (disc : ℕ → ℝ → ℝ) (T : OTape) (ind : List ℝ) (x junk : ℕ → ℝ) : ℕ :=
  ((T.executed disc ind x junk).map fun a => a.2.nres).sum

/-- *Specification*: `size_var()`, the number of variables in the operation sequence -/
def OTape.sizeVar (T : OTape) : ℕ := (T.ops.map VOp.nres).sum

/-- *Specification*: a conditional skip comes before the operators that it skips -/
def OTape.SkipLater (T : OTape) : Prop := ∀ (p q : ℕ) (op : VOp) (cop : CompareOp) (l r : Arg) (tr fa : List ℕ), p ≤ q → T.ops[p]? = some op →
  T.ops[q]? = some (VOp.cskip cop l r tr fa) → op.home p ∉ tr ∧ op.home p ∉ fa

/-- *Specification*: the operator codes (cppad/local/op_code_var.hpp:194-268) -/
def VOp.code : VOp → Play.Code
  | .begin => .begin_
  | .inv => .inv
  | .un .abs _ => .abs
  | .un .acos _ => .acos
  | .un .acosh _ => .acosh
  | .un .asin _ => .asin
  | .un .asinh _ => .asinh
  | .un .atan _ => .atan
  | .un .atanh _ => .atanh
  | .un .cos _ => .cos
  | .un .cosh _ => .cosh
  | .un .erf _ => .erf
  | .un .erfc _ => .erfc
  | .un .exp _ => .exp
  | .un .expm1 _ => .expm1
  | .un .log _ => .log
  | .un .log1p _ => .log1p
  | .un .neg _ => .neg
  | .un .sign _ => .sign
  | .un .sin _ => .sin
  | .un .sinh _ => .sinh
  | .un .sqrt _ => .sqrt
  | .un .tan _ => .tan
  | .un .tanh _ => .tanh
  | .pv .add _ _ => .addpv
  | .pv .sub _ _ => .subpv
  | .pv .mul _ _ => .mulpv
  | .pv .div _ _ => .divpv
  | .pv .azmul _ _ => .zmulpv
  | .pv .pow _ _ => .powpv
  | .vp .add _ _ => .addpv
  | .vp .sub _ _ => .subvp
  | .vp .mul _ _ => .mulpv
  | .vp .div _ _ => .divvp
  | .vp .azmul _ _ => .zmulvp
  | .vp .pow _ _ => .powvp
  | .vv .add _ _ => .addvv
  | .vv .sub _ _ => .subvv
  | .vv .mul _ _ => .mulvv
  | .vv .div _ _ => .divvv
  | .vv .azmul _ _ => .zmulvv
  | .vv .pow _ _ => .powvv
  | .dis _ _ => .dis
  | .par _ => .par
  | .cexp .. => .cexp
  | .cmp .eq _ _ => .eqvv
  | .cmp .le _ _ => .levv
  | .cmp .lt _ _ => .ltvv
  | .cmp .ne _ _ => .nevv
  | .csum .. => .csum
  | .cskip .. => .cskip
  | .ldp .. => .ldp
  | .ldv .. => .ldv
  | .stpp .. => .stpp
  | .stpv .. => .stpv
  | .stvp .. => .stvp
  | .stvv .. => .stvv
  | .afun .. => .afun
  | .frv .. => .funrv
  | .frp .. => .funrp

/-- the number of results is the one in the table of the operator codes (C46) -/
theorem nres_code (op : VOp) : op.nres = Play.numRes op.code := by
  cases op with
  | un f v => cases f <;> rfl
  | pv f p v => cases f <;> rfl
  | vp f v p => cases f <;> rfl
  | vv f v u => cases f <;> rfl
  | cmp c a b => cases c <;> rfl
  | _ => rfl

variable {disc : ℕ → ℝ → ℝ} {par : ℕ → ℝ}

theorem numSkip_acc (skip : ℕ → Bool) : ∀ (ops : List VOp) (i n : ℕ), numSkip skip ops i n = n + numSkip skip ops i 0 := by
  intro ops
  induction ops with
  | nil => intro i n; rfl
  | cons op ops ih =>
    intro i n
    simp only [numSkip]
    rw [ih, ih (i + 1) (if skip (op.home i) = true then 0 + op.nres else 0)]
    split_ifs <;> omega

theorem step_skip_mono (op : VOp) (i : ℕ) (s : FSt) {k : ℕ} (h : s.skip k = true) :
    (op.step disc par i s).skip k = true := by
  by_cases hc : op.isCskip = true
  · cases op <;> first | (simp [VOp.isCskip] at hc; done) | simp [VOp.step, h]
  · rw [step_skip (Bool.eq_false_iff.2 hc)]; exact h

theorem sweep_skip_mono : ∀ (ops : List VOp) (i : ℕ) (s : FSt) {k : ℕ}, s.skip k = true →
    (sweepOps disc par true ops i s).skip k = true := by
  intro ops
  induction ops with
  | nil => intro i s k h; exact h
  | cons op ops ih =>
    intro i s k h
    simp only [sweepOps]
    split_ifs
    · exact ih _ _ h
    · exact ih _ _ (step_skip_mono op i s h)

theorem sweep_skip_frame : ∀ (ops : List VOp) (i : ℕ) (s : FSt) {k : ℕ},
    (∀ cop l r tr fa, VOp.cskip cop l r tr fa ∈ ops → k ∉ tr ∧ k ∉ fa) →
    (sweepOps disc par true ops i s).skip k = s.skip k := by
  intro ops
  induction ops with
  | nil => intro i s k _; rfl
  | cons op ops ih =>
    intro i s k h
    have ht := fun cop l r tr fa hm => h cop l r tr fa (List.mem_cons_of_mem _ hm)
    simp only [sweepOps]
    split_ifs
    · exact ih _ _ ht
    · rw [ih _ _ ht]
      by_cases hc : op.isCskip = true
      · cases op with
        | cskip cop l r tr fa =>
          have := h cop l r tr fa List.mem_cons_self
          simp [VOp.step, this.1, this.2]
        | _ => simp [VOp.isCskip] at hc
      · rw [step_skip (Bool.eq_false_iff.2 hc)]

theorem numSkip_ge (fin : FSt) : ∀ (ops : List VOp) (i : ℕ) (s : FSt), fin = sweepOps disc par true ops i s →
    (ops.map VOp.nres).sum ≤ numSkip fin.skip ops i 0 + ((executed disc par ops i s).map fun a => a.2.nres).sum := by
  intro ops
  induction ops with
  | nil => intro i s _; simp [numSkip, executed]
  | cons op ops ih =>
    intro i s hf
    simp only [sweepOps, Bool.true_and] at hf
    simp only [numSkip, executed, List.map_cons, List.sum_cons]
    rw [numSkip_acc]
    by_cases h : s.skip (op.home i) = true
    · rw [if_pos h] at hf
      have h2 : fin.skip (op.home i) = true := by rw [hf]; exact sweep_skip_mono _ _ _ h
      rw [if_pos h, if_pos h2]
      have := ih _ _ hf
      omega
    · rw [if_neg h] at hf
      rw [if_neg h]
      have := ih _ _ hf
      simp only [List.map_cons, List.sum_cons]
      omega

theorem numSkip_eq (fin : FSt) : ∀ (ops : List VOp) (i : ℕ) (s : FSt), fin = sweepOps disc par true ops i s →
    (∀ (p q : ℕ) (op : VOp) (cop : CompareOp) (l r : Arg) (tr fa : List ℕ), p ≤ q → ops[p]? = some op → ops[q]? = some (VOp.cskip cop l r tr fa) →
      op.home (i + p) ∉ tr ∧ op.home (i + p) ∉ fa) →
    numSkip fin.skip ops i 0 + ((executed disc par ops i s).map fun a => a.2.nres).sum = (ops.map VOp.nres).sum := by
  intro ops
  induction ops with
  | nil => intro i s _ _; simp [numSkip, executed]
  | cons op ops ih =>
    intro i s hf hl
    have hfr : fin.skip (op.home i) = s.skip (op.home i) := by
      rw [hf]
      refine sweep_skip_frame _ _ _ fun cop l r tr fa hm => ?_
      obtain ⟨q, hq⟩ := List.mem_iff_getElem?.1 hm
      exact hl 0 q op cop l r tr fa (Nat.zero_le _) rfl hq
    have ht : ∀ (p q : ℕ) (op : VOp) (cop : CompareOp) (l r : Arg) (tr fa : List ℕ), p ≤ q → ops[p]? = some op → ops[q]? = some (VOp.cskip cop l r tr fa) →
        op.home (i + 1 + p) ∉ tr ∧ op.home (i + 1 + p) ∉ fa := by
      intro p q op' cop l r tr fa hpq hp hq
      have := hl (p + 1) (q + 1) op' cop l r tr fa (by omega) (by simpa using hp) (by simpa using hq)
      rwa [show i + (p + 1) = i + 1 + p by omega] at this
    simp only [sweepOps, Bool.true_and] at hf
    simp only [numSkip, executed, List.map_cons, List.sum_cons]
    rw [numSkip_acc, hfr]
    by_cases h : s.skip (op.home i) = true
    · rw [if_pos h] at hf
      rw [if_pos h, if_pos h]
      have := ih _ _ hf ht
      omega
    · rw [if_neg h] at hf
      rw [if_neg h, if_neg h]
      have := ih _ _ hf ht
      simp only [List.map_cons, List.sum_cons]
      omega

/-- **C70** if conditional skips come before what they skip, `number_skip()` is the number of variables that the last
zero order forward sweep has not computed -/
theorem numberSkip_ok {T : OTape} (h : T.SkipLater) (disc : ℕ → ℝ → ℝ) (ind : List ℝ) (x junk : ℕ → ℝ) :
    T.numberSkip disc ind x junk + T.numComputed disc ind x junk = T.sizeVar :=
  numSkip_eq _ T.ops 0 _ rfl fun p q op cop l r tr fa hpq hp hq => by
    rw [Nat.zero_add]; exact h p q op cop l r tr fa hpq hp hq

/-- **C70** in general at least the variables that have not been computed are counted -/
theorem numberSkip_ge (T : OTape) (disc : ℕ → ℝ → ℝ) (ind : List ℝ) (x junk : ℕ → ℝ) :
    T.sizeVar ≤ T.numberSkip disc ind x junk + T.numComputed disc ind x junk :=
  numSkip_ge _ T.ops 0 _ rfl

theorem sweep_keep : ∀ (ops : List VOp) (i : ℕ) (s : FSt) (k : ℕ), (∀ op, (k, op) ∉ executed disc par ops i s) →
    (sweepOps disc par true ops i s).val k = s.val k := by
  intro ops
  induction ops with
  | nil => intro i s k _; rfl
  | cons op ops ih =>
    intro i s k h
    simp only [executed] at h
    simp only [sweepOps, Bool.true_and]
    by_cases hs : s.skip (op.home i) = true
    · rw [if_pos hs] at h ⊢
      exact ih _ _ _ h
    · rw [if_neg hs] at h ⊢
      rw [ih _ _ _ fun op' hm => h op' (List.mem_cons_of_mem _ hm)]
      refine step_val _ _ _ _ _ (Or.inl ?_)
      rintro rfl
      exact h op List.mem_cons_self

/-- **C70** a variable whose operator is not executed is what was in memory before -/
theorem executed_ok (T : OTape) (disc : ℕ → ℝ → ℝ) (ind : List ℝ) (x junk : ℕ → ℝ) {k : ℕ}
    (h : ∀ op, (k, op) ∉ T.executed disc ind x junk) : (T.fwd disc ind x junk).val k = (T.start x junk).val k :=
  sweep_keep T.ops 0 _ k h

/-- without conditional skips nothing is counted -/
theorem numberSkip_none {T : OTape} (h : ∀ op ∈ T.ops, op.isCskip = false) (disc : ℕ → ℝ → ℝ) (ind : List ℝ)
    (x junk : ℕ → ℝ) : T.numberSkip disc ind x junk = 0 := by
  have hs : ∀ k, (T.fwd disc ind x junk).skip k = false := fun k =>
    sweep_skip_frame T.ops 0 _ fun cop l r tr fa hm => absurd (h _ hm) (by simp [VOp.isCskip])
  have : ∀ (ops : List VOp) (i : ℕ), numSkip (T.fwd disc ind x junk).skip ops i 0 = 0 := by
    intro ops
    induction ops with
    | nil => intro i; rfl
    | cons op ops ih => intro i; simp [numSkip, hs, ih]
  exact this _ _

/-- y = CondExpLt(x0, x1, sin(x0), exp(x1)) after optimize with conditional skip -/
noncomputable def exS : OTape where
  dyn := ⟨[0], [false], [], fun _ => 0⟩
  nInd := 0
  n := 2
  ops := [.begin, .inv, .inv, .cskip .lt (.var 1) (.var 2) [5] [4], .un .sin 1, .un .exp 2,
    .cexp .lt (.var 1) (.var 2) (.var 4) (.var 5)]
  dep := [6]
  vecs := []

theorem exS_later : exS.SkipLater := by
  intro p q op cop l r tr fa hpq hp hq
  have hq7 : q < 7 := (List.getElem?_eq_some_iff.1 hq).1
  interval_cases q <;> simp [exS] at hq
  obtain ⟨-, -, -, rfl, rfl⟩ := hq
  interval_cases p <;> simp [exS] at hp <;> subst hp <;> simp [VOp.home]

/-- the hypothesis can be met: the number depends on the independent variables -/
example (disc : ℕ → ℝ → ℝ) (junk : ℕ → ℝ) : exS.SkipLater ∧ exS.sizeVar = 7 ∧
    exS.numberSkip disc [] (fun i => i) junk = 1 ∧ exS.numberSkip disc [] (fun _ => 0) junk = 2 := by
  refine ⟨exS_later, rfl, ?_, ?_⟩ <;>
  simp [OTape.numberSkip, OTape.fwd, exS, sweepOps, numSkip, VOp.home, VOp.step, FSt.set, OTape.start, Arg.val,
    CompareOp.holds, VOp.nres, UnF.op, Op.nres]

/-- the hypothesis `SkipLater` is necessary: an operator that has been executed before the conditional skip is counted -/
theorem numberSkip_order (disc : ℕ → ℝ → ℝ) (junk : ℕ → ℝ) :
    let T : OTape := { exS with ops := [.begin, .inv, .inv, .un .exp 2, .un .neg 1, .cskip .lt (.var 4) (.var 2) [3] [],
      .cexp .lt (.var 4) (.var 2) (.var 1) (.var 3)] }
    T.numberSkip disc [] (fun _ => 1) junk = 1 ∧ T.numComputed disc [] (fun _ => 1) junk = T.sizeVar := by
  have h1 : (-1 : ℝ) < 1 := by norm_num
  constructor <;>
  simp [OTape.numberSkip, OTape.numComputed, OTape.executed, Optim.executed, OTape.sizeVar, OTape.fwd, exS, sweepOps, numSkip, VOp.home, VOp.step, FSt.set,
    OTape.start, Arg.val, CompareOp.holds, VOp.nres, UnF.op, Op.nres, UnF.fn, h1]

end CppAD.Optim
