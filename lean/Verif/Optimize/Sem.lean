import Verif.Optimize.Model
import Verif.Record.Par

/-! # Values computed by the zero order forward sweep of a recording -/

open scoped Classical

namespace CppAD.Optim

open CppAD CppAD.Record

/-- does this operator have a result -/
def VOp.hasRes : VOp → Bool
  | .cmp .. | .cskip .. | .stpp .. | .stpv .. | .stvp .. | .stvv .. | .frp .. => false
  | _ => true

/-- is this an operator of a call of an atomic function -/
def VOp.isAtom : VOp → Bool
  | .afun .. | .frv .. | .frp .. => true
  | _ => false

/-- is this BeginOp or InvOp -/
def VOp.isInd : VOp → Bool
  | .begin | .inv => true
  | _ => false

/-- variable of an argument -/
def Arg.vars : Arg → List ℕ
  | .par _ => []
  | .var v => [v]

/-- parameter of an argument -/
def Arg.pars : Arg → List ℕ
  | .par p => [p]
  | .var _ => []

/-- the variable arguments -/
def VOp.vars : VOp → List ℕ
  | .begin | .inv | .par _ | .ldp .. | .stpp .. => []
  | .un _ v | .dis _ v | .pv _ _ v | .vp _ v _ | .ldv _ v | .stpv _ _ v | .stvp _ v _ => [v]
  | .vv _ v u | .stvv _ v u => [v, u]
  | .cexp _ l r t f => l.vars ++ r.vars ++ t.vars ++ f.vars
  | .cmp _ a b => a.vars ++ b.vars
  | .csum _ av sv _ _ => av ++ sv
  | .cskip _ l r _ _ => l.vars ++ r.vars
  | .afun _ args _ => args.flatMap Arg.vars
  | .frv _ args g _ => g :: args.flatMap Arg.vars
  | .frp g _ => [g]

/-- the parameter arguments -/
def VOp.pars : VOp → List ℕ
  | .begin | .inv | .un .. | .vv .. | .dis .. | .ldv .. | .stvv .. => []
  | .pv _ p _ | .vp _ _ p | .par p | .ldp _ p | .stpv _ p _ | .stvp _ _ p => [p]
  | .stpp _ p q => [p, q]
  | .cexp _ l r t f => l.pars ++ r.pars ++ t.pars ++ f.pars
  | .cmp _ a b => a.pars ++ b.pars
  | .csum c _ _ ad sd => c :: (ad ++ sd)
  | .cskip _ l r _ _ => l.pars ++ r.pars
  | .afun _ args _ | .frv _ args _ _ => args.flatMap Arg.pars
  | .frp _ p => [p]

/-- the VecAD vector argument -/
def VOp.vec : VOp → Option ℕ
  | .ldp w _ | .ldv w _ | .stpp w _ _ | .stpv w _ _ | .stvp w _ _ | .stvv w _ _ => some w
  | _ => none

/-- value of the result -/
noncomputable def VOp.res (disc : ℕ → ℝ → ℝ) (par : ℕ → ℝ) (s : FSt) : VOp → ℝ
  | .un f v => f.fn (s.val v)
  | .pv f p v => f.fn (par p) (s.val v)
  | .vp f v p => f.fn (s.val v) (par p)
  | .vv f v u => f.fn (s.val v) (s.val u)
  | .dis k v => disc k (s.val v)
  | .par p => par p
  | .cexp cop l r t f => condExp cop (l.val par s.val) (r.val par s.val) (t.val par s.val) (f.val par s.val)
  | .csum c av sv ad sd => par c + sumOver par ad - sumOver par sd + sumOver s.val av - sumOver s.val sv
  | .ldp w p => s.load par w (par p)
  | .ldv w v => s.load par w (s.val v)
  | .frv A args _ r => A.fn (args.map fun a => a.val par s.val) r
  | _ => 0

theorem step_res (disc : ℕ → ℝ → ℝ) (par : ℕ → ℝ) (i : ℕ) (op : VOp) (s : FSt) (h : op.hasRes = true) (h' : op.isInd = false) :
    op.step disc par i s = s.set i (op.res disc par s) := by
  cases op <;> simp_all [VOp.hasRes, VOp.isInd, VOp.step, VOp.res]

theorem step_ind (disc : ℕ → ℝ → ℝ) (par : ℕ → ℝ) (i : ℕ) (op : VOp) (s : FSt) (h' : op.isInd = true) :
    op.step disc par i s = s := by
  cases op <;> simp_all [VOp.isInd, VOp.step]

/-- only the result of an operator is changed -/
theorem step_val (disc : ℕ → ℝ → ℝ) (par : ℕ → ℝ) (i : ℕ) (op : VOp) (s : FSt) {j : ℕ} (h : j ≠ i ∨ op.hasRes = false ∨ op.isInd = true) :
    (op.step disc par i s).val j = s.val j := by
  cases op <;> simp_all [VOp.step, FSt.set, FSt.store, VOp.hasRes, VOp.isInd, Function.update_of_ne]

/-- `cskip_op` only matters to the sweep that obeys it -/
theorem step_mem (disc : ℕ → ℝ → ℝ) (par : ℕ → ℝ) (i : ℕ) (op : VOp) (s : FSt) (h : op.hasRes = true ∨ op.vec = none) :
    (op.step disc par i s).mem = s.mem := by
  cases op <;> simp_all [VOp.step, FSt.set, VOp.hasRes, VOp.vec]

theorem sweepOps_append (disc : ℕ → ℝ → ℝ) (par : ℕ → ℝ) (b : Bool) (l l' : List VOp) : ∀ (i : ℕ) (s : FSt),
    sweepOps disc par b (l ++ l') i s = sweepOps disc par b l' (i + l.length) (sweepOps disc par b l i s) := by
  induction l with
  | nil => intro i s; rfl
  | cons op l ih => intro i s; simp only [List.cons_append, sweepOps, ih, List.length_cons]; congr 1; omega

/-- state of the sweep that ignores `cskip_op` before operator `k` -/
noncomputable def refAt (disc : ℕ → ℝ → ℝ) (par : ℕ → ℝ) (ops : List VOp) (s : FSt) (k : ℕ) : FSt :=
  sweepOps disc par false (ops.take k) 0 s

variable {disc : ℕ → ℝ → ℝ} {par : ℕ → ℝ} {ops : List VOp} {s : FSt}

theorem refAt_zero : refAt disc par ops s 0 = s := by simp [refAt, sweepOps]

theorem sweep_snoc (disc : ℕ → ℝ → ℝ) (par : ℕ → ℝ) (ops : List VOp) (op : VOp) (s : FSt) :
    sweepOps disc par false (ops ++ [op]) 0 s = op.step disc par ops.length (sweepOps disc par false ops 0 s) := by
  rw [sweepOps_append]; simp [sweepOps]

theorem refAt_succ {k : ℕ} (h : k < ops.length) :
    refAt disc par ops s (k + 1) = (ops.getD k .begin).step disc par k (refAt disc par ops s k) := by
  unfold refAt
  rw [List.take_succ_eq_append_getElem h, sweep_snoc, List.getD_eq_getElem _ _ h, List.length_take, min_eq_left h.le]

theorem refAt_of_le {k : ℕ} (h : ops.length ≤ k) :
    refAt disc par ops s k = sweepOps disc par false ops 0 s := by
  rw [refAt, List.take_of_length_le h]

/-- a value does not change after it has been computed -/
theorem refAt_val_stable {j k : ℕ} (hj : j < k) (hk : k ≤ ops.length) :
    (refAt disc par ops s k).val j = (refAt disc par ops s (j + 1)).val j := by
  induction k with
  | zero => omega
  | succ n ih =>
    by_cases h : j = n
    · rw [h]
    · rw [refAt_succ (by omega), step_val _ _ _ _ _ (Or.inl h), ih (by omega) (by omega)]

/-- before it is computed a value is what was there at the start -/
theorem refAt_val_start {j k : ℕ} (hj : k ≤ j) (hk : k ≤ ops.length) : (refAt disc par ops s k).val j = s.val j := by
  induction k with
  | zero => rw [refAt_zero]
  | succ n ih => rw [refAt_succ (by omega), step_val _ _ _ _ _ (Or.inl (by omega)), ih (by omega) (by omega)]

/-- final value of a variable -/
noncomputable def finalVal (disc : ℕ → ℝ → ℝ) (par : ℕ → ℝ) (ops : List VOp) (s : FSt) (j : ℕ) : ℝ :=
  (sweepOps disc par false ops 0 s).val j

theorem finalVal_eq {j k : ℕ} (hj : j < k) (hk : k ≤ ops.length) :
    (refAt disc par ops s k).val j = finalVal disc par ops s j := by
  rw [refAt_val_stable hj hk, finalVal, ← refAt_of_le (le_refl _), refAt_val_stable (by omega) (le_refl _)]

/-- the value computed by an operator -/
theorem finalVal_res {i : ℕ} (hi : i < ops.length) (hr : (ops.getD i .begin).hasRes = true)
    (hi' : (ops.getD i .begin).isInd = false) :
    finalVal disc par ops s i = (ops.getD i .begin).res disc par (refAt disc par ops s i) := by
  rw [← finalVal_eq (Nat.lt_succ_self i) (show i + 1 ≤ ops.length from hi), refAt_succ hi, step_res _ _ _ _ _ hr hi']
  simp [FSt.set]

theorem finalVal_ind {i : ℕ} (hi : i < ops.length) (hi' : (ops.getD i .begin).isInd = true) :
    finalVal disc par ops s i = s.val i := by
  rw [← finalVal_eq (Nat.lt_succ_self i) (show i + 1 ≤ ops.length from hi), refAt_succ hi, step_ind _ _ _ _ _ hi',
    refAt_val_start (le_refl i) hi.le]

theorem sumOver_congr {g g' : ℕ → ℝ} {l : List ℕ} (h : ∀ a ∈ l, g a = g' a) : sumOver g l = sumOver g' l := by
  unfold sumOver; congr 1; exact List.map_congr_left h

theorem sumOver_map (g : ℕ → ℝ) (h : ℕ → ℕ) (l : List ℕ) : sumOver g (l.map h) = sumOver (fun a => g (h a)) l := by
  unfold sumOver; rw [List.map_map]; rfl

theorem Arg.val_congr {par par' env env' : ℕ → ℝ} (a : Arg) (hp : ∀ p ∈ a.pars, par p = par' p)
    (hv : ∀ v ∈ a.vars, env v = env' v) : a.val par env = a.val par' env' := by
  cases a <;> simp_all [Arg.val, Arg.pars, Arg.vars]

theorem Arg.val_map {par par' env env' : ℕ → ℝ} (a : Arg) {gp gv : ℕ → ℕ} (hp : ∀ p ∈ a.pars, par' (gp p) = par p)
    (hv : ∀ v ∈ a.vars, env' (gv v) = env v) : (a.map gp gv).val par' env' = a.val par env := by
  cases a <;> simp_all [Arg.val, Arg.pars, Arg.vars, Arg.map]

/-- an operator with changed indices computes the same value -/
theorem res_map {par' : ℕ → ℝ} {s' : FSt} (op : VOp) {gp gv gw : ℕ → ℕ} (hp : ∀ p ∈ op.pars, par' (gp p) = par p)
    (hv : ∀ v ∈ op.vars, s'.val (gv v) = s.val v)
    (hm : ∀ w, op.vec = some w → ∀ k, (s'.mem (gw w) k).val par' s'.val = (s.mem w k).val par s.val) :
    (op.map gp gv gw).res disc par' s' = op.res disc par s := by
  cases op with
  | cexp cop l r t f =>
    simp only [VOp.pars, VOp.vars, List.mem_append] at hp hv
    simp only [VOp.map, VOp.res]
    rw [Arg.val_map l (fun p h => hp p (by simp [h])) (fun p h => hv p (by simp [h])),
      Arg.val_map r (fun p h => hp p (by simp [h])) (fun p h => hv p (by simp [h])),
      Arg.val_map t (fun p h => hp p (by simp [h])) (fun p h => hv p (by simp [h])),
      Arg.val_map f (fun p h => hp p (by simp [h])) (fun p h => hv p (by simp [h]))]
  | csum c av sv ad sd =>
    simp only [VOp.pars, VOp.vars, List.mem_append, List.mem_cons] at hp hv
    simp only [VOp.map, VOp.res, sumOver_map]
    rw [hp c (Or.inl rfl), sumOver_congr (fun a h => hp a (Or.inr (Or.inl h))), sumOver_congr (fun a h => hp a (Or.inr (Or.inr h))),
      sumOver_congr (fun a h => hv a (Or.inl h)), sumOver_congr (fun a h => hv a (Or.inr h))]
  | ldp w p =>
    simp only [VOp.map, VOp.res, FSt.load]
    rw [hp p (by simp [VOp.pars]), hm w rfl]
  | ldv w v =>
    simp only [VOp.map, VOp.res, FSt.load]
    rw [hv v (by simp [VOp.vars]), hm w rfl]
  | frv A args g r =>
    simp only [VOp.map, VOp.res, List.map_map]
    congr 1
    refine List.map_congr_left fun a ha => ?_
    simp only [VOp.pars, VOp.vars, List.mem_cons, List.mem_flatMap] at hp hv
    exact Arg.val_map a (fun p h => hp p ⟨a, ha, h⟩) (fun v h => hv v (Or.inr ⟨a, ha, h⟩))
  | _ => simp_all [VOp.map, VOp.res, VOp.pars, VOp.vars]

theorem list_map_id' (l : List ℕ) : l.map id = l := List.map_id l

theorem Arg.map_id (a : Arg) : a.map id id = a := by cases a <;> rfl

theorem VOp.map_id (op : VOp) : op.map id id id = op := by
  have h : ∀ l : List Arg, l.map (Arg.map id id) = l := fun l => by
    induction l with
    | nil => rfl
    | cons a l ih => simp [Arg.map_id, ih]
  cases op <;> simp [VOp.map, Arg.map_id, h]

theorem res_congr {par' : ℕ → ℝ} {s' : FSt} (op : VOp) (hp : ∀ p ∈ op.pars, par' p = par p)
    (hv : ∀ v ∈ op.vars, s'.val v = s.val v)
    (hm : ∀ w, op.vec = some w → ∀ k, (s'.mem w k).val par' s'.val = (s.mem w k).val par s.val) :
    op.res disc par' s' = op.res disc par s := by
  have := res_map (disc := disc) (gp := id) (gv := id) (gw := id) op hp hv hm
  rwa [VOp.map_id] at this

end CppAD.Optim
