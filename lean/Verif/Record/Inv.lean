import Verif.Record.Par

/-! # What the recorder and the AD objects mean at other argument values -/

open scoped Classical

namespace CppAD.Record

open CppAD

/-- arguments at which the recording is replayed: dynamic parameters `p`, independent variables `x`, and the independent
variables `z` that select the elements of VecAD vectors.  (The sweeps select the elements when order zero is
computed; the function of `x` that is differentiated has these elements fixed.) -/
structure World where
  p : List ℝ
  x : List ℝ
  z : List ℝ

/-- the arguments at which the elements are selected -/
def World.sel (w : World) : World := ⟨w.p, w.z, w.z⟩

/-- independent variables as a set of variable indices -/
def indSet (n : ℕ) : Set ℕ := {v | 1 ≤ v ∧ v ≤ n}

/-- the parameter index in an argument of a call of an atomic function -/
def FunArg.pars : FunArg → List ℕ
  | .con p | .dyn p => [p]
  | .var _ => []

/-- parameter indices among the arguments of an operator -/
def ROp.parArgs : ROp → List ℕ
  | .un .. | .addvv .. | .subvv .. | .mulvv .. | .divvv .. | .zmulvv .. | .powvv .. | .dis .. => []
  | .eqvv .. | .levv .. | .ltvv .. | .nevv .. => []
  | .addpv p _ | .subpv p _ | .mulpv p _ | .divpv p _ | .zmulpv p _ | .powpv p _ => [p]
  | .subvp _ p | .divvp _ p | .zmulvp _ p | .powvp _ p => [p]
  | .par p => [p]
  | .cexp _ flag l r t f => (if flag.testBit 0 then [] else [l]) ++ (if flag.testBit 1 then [] else [r]) ++
      (if flag.testBit 2 then [] else [t]) ++ (if flag.testBit 3 then [] else [f])
  | .eqpp p q | .lepp p q | .ltpp p q | .nepp p q => [p, q]
  | .eqpv p _ | .lepv p _ | .ltpv p _ | .nepv p _ => [p]
  | .levp _ p | .ltvp _ p => [p]
  | .ldp _ p | .stpv _ p _ => [p]
  | .ldv .. | .stvv .. => []
  | .stvp _ _ q => [q]
  | .stpp _ p q => [p, q]
  | .atom _ xs ys => xs.flatMap FunArg.pars ++ ys.flatMap Option.toList
  | .pri flag np _ v _ => (if flag.testBit 0 then [] else [np]) ++ (if flag.testBit 1 then [] else [v])

/-- the VecAD vectors used by an operator -/
def ROp.vecArgs : ROp → List ℕ
  | .ldp k _ | .ldv k _ | .stpp k _ _ | .stpv k _ _ | .stvp k _ _ | .stvv k _ _ => [k]
  | _ => []

theorem atomX_congr {xs : List FunArg} {par par' : ℕ → ℝ} (h : ∀ a ∈ xs.flatMap FunArg.pars, par a = par' a) :
    atomX xs par = atomX xs par' ∧ atomIdent xs par = atomIdent xs par' := by
  have key : ∀ (j : ℕ) (a : FunArg), xs[j]? = some a → ∀ p ∈ a.pars, par p = par' p := by
    intro j a hj p hp
    exact h p (List.mem_flatMap.2 ⟨a, List.mem_of_getElem? hj, hp⟩)
  constructor <;> funext j <;> simp only [atomX, atomIdent] <;> cases hj : xs[j]? with
  | none => rfl
  | some a =>
    cases a with
    | con p => simp only [key j _ hj p (by simp [FunArg.pars])]
    | dyn p => first | rfl | simp only [key j _ hj p (by simp [FunArg.pars])]
    | var v => rfl

theorem atomY_congr {ys : List (Option ℕ)} {par par' : ℕ → ℝ} (h : ∀ a ∈ ys.flatMap Option.toList, par a = par' a) :
    atomY ys par = atomY ys par' := by
  funext i
  simp only [atomY]
  cases hi : ys[i]? with
  | none => rfl
  | some y =>
    cases y with
    | none => rfl
    | some q => simp only [h q (List.mem_flatMap.2 ⟨_, List.mem_of_getElem? hi, by simp⟩)]

theorem atomOp_congr (A : Atom) {xs : List FunArg} {ys : List (Option ℕ)} {par par' : ℕ → ℝ}
    (h : ∀ a ∈ xs.flatMap FunArg.pars ++ ys.flatMap Option.toList, par a = par' a) : atomOp A xs ys par = atomOp A xs ys par' := by
  have h1 := atomX_congr (xs := xs) (fun a ha => h a (List.mem_append_left _ ha))
  have h2 := atomY_congr (ys := ys) (fun a ha => h a (List.mem_append_right _ ha))
  unfold atomOp
  simp only [h1.1, h1.2, h2]

theorem atomY_none (ys : List (Option ℕ)) (par : ℕ → ℝ) (i : ℕ) : atomY ys par i = none ↔ resVar ys i = true := by
  unfold atomY resVar
  split <;> simp

theorem atomOp_none {A : Atom} {xs : List FunArg} {ys : List (Option ℕ)} {par : ℕ → ℝ}
    (h : ((List.range A.m).filter fun i => resVar ys i).length = 0) : atomOp A xs ys par = none := by
  rw [List.length_eq_zero_iff, List.filter_eq_nil_iff] at h
  unfold atomOp
  rw [dif_neg]
  rintro ⟨i, hi, hy⟩
  exact h i (List.mem_range.2 hi) ((atomY_none _ _ _).1 hy)

theorem atomOp_some {A : Atom} {xs : List FunArg} {ys : List (Option ℕ)} {par : ℕ → ℝ}
    (h : ((List.range A.m).filter fun i => resVar ys i).length ≠ 0) : ∃ c : AtomCall, atomOp A xs ys par = some (.atom c) ∧
      c.nres = ((List.range A.m).filter fun i => resVar ys i).length := by
  have h0 : ∃ i < A.m, atomY ys par i = none := by
    by_contra hc
    push Not at hc
    refine h (List.length_eq_zero_iff.2 (List.filter_eq_nil_iff.2 fun i hi hr => ?_))
    exact hc i (List.mem_range.1 hi) ((atomY_none _ _ _).2 hr)
  unfold atomOp
  rw [dif_pos h0]
  refine ⟨_, rfl, ?_⟩
  split_ifs
  · unfold AtomCall.nres AtomCall.pos
    congr 2
    funext i
    simp only [AtomCall.selY]
    rw [Bool.eq_iff_iff, Option.isNone_iff_eq_none, atomY_none]
  · unfold AtomCall.nres AtomCall.pos
    congr 2
    funext i
    simp only [AtomCall.selY]
    rw [Bool.eq_iff_iff, Option.isNone_iff_eq_none, Option.map_eq_none_iff, atomY_none]

theorem ROp.toOp_congr (disc : ℕ → ℝ → ℝ) (par par' : ℕ → ℝ) (op : ROp) (h : ∀ a ∈ op.parArgs, par a = par' a) :
    op.toOp disc par = op.toOp disc par' := by
  cases op
  case cexp cop flag l r t f =>
    simp only [ROp.toOp, Option.some.injEq, Op.cexp.injEq, true_and]
    simp only [ROp.parArgs, List.mem_append] at h
    refine ⟨?_, ?_, ?_, ?_⟩ <;> unfold cexpArg <;> split_ifs with h' <;>
      first
      | rfl
      | (congr 1; apply h; simp [h'])
  case atom A xs ys => exact atomOp_congr A h
  all_goals simp_all [ROp.toOp, ROp.parArgs]

/-- comparison operators (they have no result and are only used by compare_change) -/
def ROp.isCmp : ROp → Bool
  | .eqpp .. | .eqpv .. | .eqvv .. | .lepp .. | .lepv .. | .levp .. | .levv .. | .ltpp .. | .ltpv .. | .ltvp .. | .ltvv ..
  | .nepp .. | .nepv .. | .nevv .. => true
  | _ => false

/-- operators that have no result and do not change the vectors: comparisons and PriOp -/
def ROp.quiet : ROp → Bool
  | .pri .. => true
  | op => op.isCmp

/-- the offsets in the text vector -/
def ROp.txtArgs : ROp → List ℕ
  | .pri _ _ b _ a => [b, a]
  | _ => []

theorem ROp.quiet_of_cmp {op : ROp} (h : op.isCmp = true) : op.quiet = true := by
  cases op <;> first | rfl | exact h

/-- variables whose order zero value is used by a comparison operator, by PriOp, or as the index by a load or store operator -/
def ROp.cmpVars : ROp → List ℕ
  | .eqvv v w | .levv v w | .ltvv v w | .nevv v w => [v, w]
  | .eqpv _ v | .lepv _ v | .ltpv _ v | .nepv _ v => [v]
  | .levp v _ | .ltvp v _ => [v]
  | .ldv _ v | .stvp _ v _ | .stvv _ v _ => [v]
  | .pri flag np _ v _ => (if flag.testBit 0 then [np] else []) ++ (if flag.testBit 1 then [v] else [])
  | _ => []

/-- the variable that a store operator places in a vector -/
def ROp.cellVars : ROp → List ℕ
  | .stpv _ _ w | .stvv _ _ w => [w]
  | _ => []

theorem ROp.cellVars_of_nres {op : ROp} (h : op.nres ≠ 0) : op.cellVars = [] := by
  cases op <;> first | rfl | simp [ROp.nres] at h

theorem ROp.cellVars_of_cmp {op : ROp} (h : op.quiet = true) : op.cellVars = [] := by
  cases op <;> first | rfl | simp [ROp.quiet, ROp.isCmp] at h

section Resolve

variable {disc : ℕ → ℝ → ℝ} {par par' e e' : ℕ → ℝ} {vecs vecs' : List (List ℕ)} {mem mem' : Mem}

theorem vecLoad_nres (k : ℕ) (x : ℝ) : (vecLoad par vecs mem k x).nres = 1 := by
  unfold vecLoad
  split
  · split <;> rfl
  · rfl

theorem ROp.toOpM_none {op : ROp} (h : op.nres = 0) : op.toOpM disc par vecs e mem = none := by
  cases op
  case un f ix => cases f <;> simp [ROp.nres, UnF.op, Op.nres] at h
  case atom A xs ys => exact atomOp_none h
  all_goals first | rfl | simp [ROp.nres] at h

theorem ROp.toOpM_some {op : ROp} (h : op.nres ≠ 0) : ∃ o, op.toOpM disc par vecs e mem = some o ∧ o.nres = op.nres := by
  cases op
  case un f ix => exact ⟨_, rfl, by cases f <;> rfl⟩
  case ldp k p => exact ⟨_, rfl, vecLoad_nres _ _⟩
  case ldv k p => exact ⟨_, rfl, vecLoad_nres _ _⟩
  case atom A xs ys =>
    obtain ⟨a, h1, h2⟩ := atomOp_some (par := par) (xs := xs) h
    exact ⟨_, h1, h2⟩
  all_goals first | exact ⟨_, rfl, rfl⟩ | simp [ROp.nres] at h

theorem vecLoad_naux (k : ℕ) (x : ℝ) : (vecLoad par vecs mem k x).naux = (vecLoad par vecs mem k x).nres - 1 := by
  unfold vecLoad
  repeat' split
  all_goals rfl

/-- number of results that cannot be used as operands: all the results of an atomic function call can be used, only the last result
of the other operators -/
def ROp.naux : ROp → ℕ
  | .atom .. => 0
  | op => op.nres - 1

theorem ROp.naux_le (op : ROp) : op.naux ≤ op.nres - 1 := by
  cases op <;> first | exact le_rfl | exact Nat.zero_le _

theorem atomOp_eq {A : Atom} {xs : List FunArg} {ys : List (Option ℕ)} {o : Op} (h : atomOp A xs ys par = some o) : ∃ c, o = .atom c := by
  unfold atomOp at h
  by_cases h0 : ∃ i < A.m, atomY ys par i = none
  · rw [dif_pos h0, Option.some.injEq] at h
    exact ⟨_, h.symm⟩
  · rw [dif_neg h0] at h
    simp at h

theorem ROp.toOpM_naux {op : ROp} {o : Op} (h : op.toOpM disc par vecs e mem = some o) : o.naux = op.naux := by
  cases op
  case un f ix =>
    simp only [ROp.toOpM, ROp.toOp, Option.some.injEq] at h
    subst h
    cases f <;> rfl
  case atom A xs ys =>
    obtain ⟨c, rfl⟩ := atomOp_eq h
    rfl
  case ldp k p =>
    simp only [ROp.toOpM, Option.some.injEq] at h
    subst h
    rw [vecLoad_naux, vecLoad_nres]; rfl
  case ldv k p =>
    simp only [ROp.toOpM, Option.some.injEq] at h
    subst h
    rw [vecLoad_naux, vecLoad_nres]; rfl
  all_goals first
    | (simp only [ROp.toOpM, ROp.toOp, Option.some.injEq] at h; subst h; rfl)
    | simp [ROp.toOpM, ROp.toOp] at h

theorem ROp.nres_some {op : ROp} {o : Op} (h : op.toOpM disc par vecs e mem = some o) : op.nres ≠ 0 ∧ o.nres = op.nres := by
  by_cases h0 : op.nres = 0
  · rw [ROp.toOpM_none h0] at h; simp at h
  · obtain ⟨o', h1, h2⟩ := ROp.toOpM_some (disc := disc) (par := par) (vecs := vecs) (e := e) (mem := mem) h0
    rw [h1] at h
    simp only [Option.some.injEq] at h
    subst h
    exact ⟨h0, h2⟩

/-- `U` and the results of the operator that can be used as operands -/
def ROp.addRes (op : ROp) (nv : ℕ) (U : Set ℕ) : Set ℕ := {v | nv + op.naux ≤ v ∧ v < nv + op.nres} ∪ U

theorem ROp.addRes_eq {op : ROp} {o : Op} (h : op.toOpM disc par vecs e mem = some o) (nv : ℕ) (U : Set ℕ) :
    CppAD.addRes o nv U = op.addRes nv U := by
  unfold CppAD.addRes ROp.addRes
  rw [ROp.toOpM_naux h, (ROp.nres_some h).2]

/-- only the last result of an operator, that is not an atomic function call, can be used -/
theorem ROp.addRes_elem {op : ROp} (ha : ∀ A xs ys, op ≠ .atom A xs ys) (h : op.nres ≠ 0) (nv : ℕ) (U : Set ℕ) :
    op.addRes nv U = insert (nv + op.nres - 1) U := by
  have hn : op.naux = op.nres - 1 := by
    cases op <;> first | rfl | exact absurd rfl (ha _ _ _)
  ext v
  simp only [ROp.addRes, Set.mem_union, Set.mem_setOf_eq, Set.mem_insert_iff]
  refine or_congr ?_ Iff.rfl
  rw [hn]
  omega

theorem ROp.subset_addRes (op : ROp) (nv : ℕ) (U : Set ℕ) : U ⊆ op.addRes nv U := fun _ h => Or.inr h

theorem ROp.toOpM_of_toOp {op : ROp} {o : Op} (h : op.toOp disc par = some o) : op.toOpM disc par vecs e mem = some o := by
  cases op <;> first | exact h | simp [ROp.toOp] at h

theorem ROp.memM_of_nres {op : ROp} (h : op.nres ≠ 0) : op.memM par vecs e mem = mem := by
  cases op <;> first | rfl | simp [ROp.nres] at h

theorem ROp.nres_cmp {op : ROp} (h : op.quiet = true) : op.nres = 0 := by
  cases op <;> simp_all [ROp.quiet, ROp.isCmp, ROp.nres]

theorem ROp.memM_cmp {op : ROp} (h : op.quiet = true) : op.memM par vecs e mem = mem := by
  cases op <;> first | rfl | simp [ROp.quiet, ROp.isCmp] at h

theorem ROp.isCmp_of_nres {op : ROp} (h : op.nres ≠ 0) : op.isCmp = false := by
  by_contra hc
  exact h (ROp.nres_cmp (ROp.quiet_of_cmp (by simpa using hc)))

theorem ROp.change_congr {op : ROp} (h : op.isCmp = true) (hp : ∀ a ∈ op.parArgs, par a = par' a)
    (he : ∀ a ∈ op.cmpVars, e a = e' a) : op.change par e = op.change par' e' := by
  cases op <;> simp_all [ROp.isCmp, ROp.change, ROp.parArgs, ROp.cmpVars]

/-- the two sets of parameter values agree on the parameters in the vectors -/
def CellAgree (par par' : ℕ → ℝ) (vecs : List (List ℕ)) (K : ℕ) (mem : Mem) : Prop :=
  ∀ k < K, ∀ i < (vecs.getD k []).length, ∀ p, mem k i = .par p → par p = par' p

theorem vecLoad_congr {K k : ℕ} (hk : k < K) (hv : vecs.getD k [] = vecs'.getD k []) (hm : ∀ i, mem k i = mem' k i)
    (hc : CellAgree par par' vecs K mem) (x : ℝ) : vecLoad par vecs mem k x = vecLoad par' vecs' mem' k x := by
  unfold vecLoad
  rw [← hv]
  cases h : vecIndex (vecs.getD k []).length x with
  | none => rfl
  | some i =>
    have hi : i < (vecs.getD k []).length := by
      unfold vecIndex at h
      split_ifs at h with h'
      simp only [Option.some.injEq] at h
      omega
    simp only
    rw [← hm i]
    cases hp : mem k i with
    | var v => rfl
    | par p =>
      simp only
      rw [hc k hk i hi p hp]

theorem ROp.toOpM_congr {op : ROp} {K : ℕ} (hp : ∀ a ∈ op.parArgs, par a = par' a) (hx : ∀ a ∈ op.cmpVars, e a = e' a)
    (hv : ∀ k ∈ op.vecArgs, k < K ∧ vecs.getD k [] = vecs'.getD k [])
    (hm : ∀ k < K, ∀ i, mem k i = mem' k i) (hc : CellAgree par par' vecs K mem) :
    op.toOpM disc par vecs e mem = op.toOpM disc par' vecs' e' mem' := by
  cases op
  case ldp k p =>
    obtain ⟨h1, h2⟩ := hv k (by simp [ROp.vecArgs])
    simp only [ROp.toOpM]
    rw [hp p (by simp [ROp.parArgs]), vecLoad_congr h1 h2 (hm k h1) hc]
  case ldv k v =>
    obtain ⟨h1, h2⟩ := hv k (by simp [ROp.vecArgs])
    simp only [ROp.toOpM]
    rw [hx v (by simp [ROp.cmpVars]), vecLoad_congr h1 h2 (hm k h1) hc]
  all_goals exact ROp.toOp_congr disc _ _ _ hp

/-- a store or nothing -/
theorem ROp.memM_cases (op : ROp) : (∀ (par : ℕ → ℝ) (vecs : List (List ℕ)) (e : ℕ → ℝ) (mem : Mem), op.memM par vecs e mem = mem) ∨
    ∃ k a, op.vecArgs = [k] ∧ (∀ q, a = Cell.par q → q ∈ op.parArgs) ∧ (∀ v, a = Cell.var v → v ∈ op.cellVars) ∧
      ((∃ p, p ∈ op.parArgs ∧ ∀ (par : ℕ → ℝ) (vecs : List (List ℕ)) (e : ℕ → ℝ) (mem : Mem), op.memM par vecs e mem = vecStore vecs mem k (par p) a) ∨
       ∃ v, v ∈ op.cmpVars ∧ ∀ (par : ℕ → ℝ) (vecs : List (List ℕ)) (e : ℕ → ℝ) (mem : Mem), op.memM par vecs e mem = vecStore vecs mem k (e v) a) := by
  cases op
  case stpp k p q => exact Or.inr ⟨k, .par q, rfl, by simp [ROp.parArgs], by simp, Or.inl ⟨p, by simp [ROp.parArgs], fun _ _ _ _ => rfl⟩⟩
  case stpv k p w => exact Or.inr ⟨k, .var w, rfl, by simp, by simp [ROp.cellVars], Or.inl ⟨p, by simp [ROp.parArgs], fun _ _ _ _ => rfl⟩⟩
  case stvp k v q => exact Or.inr ⟨k, .par q, rfl, by simp [ROp.parArgs], by simp, Or.inr ⟨v, by simp [ROp.cmpVars], fun _ _ _ _ => rfl⟩⟩
  case stvv k v w => exact Or.inr ⟨k, .var w, rfl, by simp, by simp [ROp.cellVars], Or.inr ⟨v, by simp [ROp.cmpVars], fun _ _ _ _ => rfl⟩⟩
  all_goals exact Or.inl fun _ _ _ _ => rfl

/-- every element of a vector after a store was there before or is the stored one -/
theorem vecStore_cell (k : ℕ) (x : ℝ) (a : Cell) (j i : ℕ) :
    vecStore vecs mem k x a j i = mem j i ∨ (j = k ∧ vecStore vecs mem k x a j i = a) := by
  unfold vecStore
  cases vecIndex (vecs.getD k []).length x with
  | none => exact Or.inl rfl
  | some i' =>
    simp only
    by_cases hj : j = k
    · subst hj
      rw [Function.update_self]
      by_cases hi : i = i'
      · subst hi; rw [Function.update_self]; exact Or.inr ⟨rfl, rfl⟩
      · rw [Function.update_of_ne hi]; exact Or.inl rfl
    · rw [Function.update_of_ne hj]; exact Or.inl rfl

theorem vecStore_congr {k : ℕ} (hv : vecs.getD k [] = vecs'.getD k []) (x : ℝ) (a : Cell) {j : ℕ} (hm : ∀ i, mem j i = mem' j i) (i : ℕ) :
    vecStore vecs mem k x a j i = vecStore vecs' mem' k x a j i := by
  unfold vecStore
  rw [← hv]
  cases vecIndex (vecs.getD k []).length x with
  | none => exact hm i
  | some i' =>
    simp only
    by_cases hj : j = k
    · subst hj
      rw [Function.update_self, Function.update_self]
      by_cases hi : i = i'
      · subst hi; rw [Function.update_self, Function.update_self]
      · rw [Function.update_of_ne hi, Function.update_of_ne hi]; exact hm i
    · rw [Function.update_of_ne hj, Function.update_of_ne hj]; exact hm i

theorem ROp.memM_congr {op : ROp} {K : ℕ} (hp : ∀ a ∈ op.parArgs, par a = par' a) (hx : ∀ a ∈ op.cmpVars, e a = e' a)
    (hv : ∀ k ∈ op.vecArgs, k < K ∧ vecs.getD k [] = vecs'.getD k []) (hm : ∀ k < K, ∀ i, mem k i = mem' k i) :
    ∀ k < K, ∀ i, op.memM par vecs e mem k i = op.memM par' vecs' e' mem' k i := by
  intro k hk i
  rcases op.memM_cases with h | ⟨j, a, h1, -, -, ⟨p, h3, h4⟩ | ⟨v, h3, h4⟩⟩
  · rw [h, h]; exact hm k hk i
  · rw [h4, h4, hp p h3]
    exact vecStore_congr (hv j (by simp [h1])).2 _ _ (hm k hk) i
  · rw [h4, h4, hx v h3]
    exact vecStore_congr (hv j (by simp [h1])).2 _ _ (hm k hk) i

theorem ROp.memM_agree {op : ROp} {K : ℕ} (hp : ∀ a ∈ op.parArgs, par a = par' a) (hc : CellAgree par par' vecs K mem) :
    CellAgree par par' vecs K (op.memM par vecs e mem) := by
  intro k hk i hi p hcell
  rcases op.memM_cases with h | ⟨j, a, h1, h2, -, ⟨q, h3, h4⟩ | ⟨v, h3, h4⟩⟩
  · rw [h] at hcell; exact hc k hk i hi p hcell
  · rw [h4] at hcell
    rcases vecStore_cell (vecs := vecs) (mem := mem) j (par q) a k i with h | ⟨-, h⟩
    · rw [h] at hcell; exact hc k hk i hi p hcell
    · rw [h] at hcell; exact hp p (h2 p hcell)
  · rw [h4] at hcell
    rcases vecStore_cell (vecs := vecs) (mem := mem) j (e v) a k i with h | ⟨-, h⟩
    · rw [h] at hcell; exact hc k hk i hi p hcell
    · rw [h] at hcell; exact hp p (h2 p hcell)

theorem resolve_congr {K : ℕ} : ∀ (ops : List ROp) (nv : ℕ) (e : ℕ → ℝ) (mem mem' : Mem),
    (∀ op ∈ ops, (∀ a ∈ op.parArgs, par a = par' a) ∧ ∀ k ∈ op.vecArgs, k < K ∧ vecs.getD k [] = vecs'.getD k []) →
    (∀ k < K, ∀ i, mem k i = mem' k i) → CellAgree par par' vecs K mem →
    (resolve disc par vecs ops nv e mem).1 = (resolve disc par' vecs' ops nv e mem').1 ∧
    ∀ k < K, ∀ i, (resolve disc par vecs ops nv e mem).2 k i = (resolve disc par' vecs' ops nv e mem').2 k i
  | [], _, _, _, _, _, hm, _ => ⟨rfl, hm⟩
  | op :: ops, nv, e, mem, mem', ho, hm, hc => by
    obtain ⟨h1, h2⟩ := ho op List.mem_cons_self
    have ho' := fun o ho' => ho o (List.mem_cons_of_mem _ ho')
    have hM := ROp.toOpM_congr (disc := disc) (e := e) (e' := e) h1 (fun _ _ => rfl) h2 hm hc
    unfold resolve
    rw [← hM]
    cases hop : op.toOpM disc par vecs e mem with
    | some o =>
      simp only
      obtain ⟨k1, k2⟩ := resolve_congr ops (nv + o.nres) (stepEnv o nv e) mem mem' ho' hm hc
      exact ⟨by rw [k1], k2⟩
    | none =>
      simp only
      exact resolve_congr ops nv e _ _ ho' (ROp.memM_congr h1 (fun _ _ => rfl) h2 hm) (ROp.memM_agree h1 hc)

/-- a vector that is not used by the operators is not changed -/
theorem resolve_unused {k : ℕ} : ∀ (ops : List ROp) (nv : ℕ) (e : ℕ → ℝ) (mem : Mem),
    (∀ op ∈ ops, k ∉ op.vecArgs) → ∀ i, (resolve disc par vecs ops nv e mem).2 k i = mem k i
  | [], _, _, _, _, _ => rfl
  | op :: ops, nv, e, mem, h, i => by
    have h' := fun o ho => h o (List.mem_cons_of_mem _ ho)
    unfold resolve
    cases op.toOpM disc par vecs e mem with
    | some o => exact resolve_unused ops _ _ _ h' i
    | none =>
      refine (resolve_unused ops _ _ _ h' i).trans ?_
      have hk := h op List.mem_cons_self
      rcases op.memM_cases with h1 | ⟨j, a, h1, -, -, ⟨q, h3, h4⟩ | ⟨v, h3, h4⟩⟩
      · rw [h1]
      · rw [h4]
        rcases vecStore_cell (vecs := vecs) (mem := mem) j (par q) a k i with h | ⟨h, -⟩
        · exact h
        · rw [h1] at hk; simp [h] at hk
      · rw [h4]
        rcases vecStore_cell (vecs := vecs) (mem := mem) j (e v) a k i with h | ⟨h, -⟩
        · exact h
        · rw [h1] at hk; simp [h] at hk

theorem resolve_snoc (op : ROp) : ∀ (ops : List ROp) (nv : ℕ) (e : ℕ → ℝ) (mem : Mem),
    resolve disc par vecs (ops ++ [op]) nv e mem =
      match op.toOpM disc par vecs (evalOps (resolve disc par vecs ops nv e mem).1 nv e) (resolve disc par vecs ops nv e mem).2 with
      | some o => ((resolve disc par vecs ops nv e mem).1 ++ [o], (resolve disc par vecs ops nv e mem).2)
      | none => ((resolve disc par vecs ops nv e mem).1,
          op.memM par vecs (evalOps (resolve disc par vecs ops nv e mem).1 nv e) (resolve disc par vecs ops nv e mem).2)
  | [], nv, e, mem => by
    simp only [List.nil_append, resolve, evalOps]
    cases op.toOpM disc par vecs e mem <;> rfl
  | a :: ops, nv, e, mem => by
    rw [List.cons_append]
    unfold resolve
    cases h : a.toOpM disc par vecs e mem with
    | none =>
      simp only
      exact resolve_snoc op ops _ _ _
    | some o =>
      simp only
      rw [resolve_snoc op ops (nv + o.nres) (stepEnv o nv e) mem]
      simp only [evalOps]
      split <;> rfl

end Resolve

/-- the operands of the comparisons, the indices in the loads and stores, and the variables that are stored are usable variables at
the time they are executed -/
def CmpWF : List ROp → ℕ → Set ℕ → Prop
  | [], _, _ => True
  | op :: ops, nv, U => (∀ a ∈ op.cmpVars ++ op.cellVars, a ∈ U) ∧
    if op.nres = 0 then CmpWF ops nv U else CmpWF ops (nv + op.nres) (op.addRes nv U)

/-- the comparison operators in `ops`, with their operator index, and whether they are changed -/
noncomputable def cmpList (par e : ℕ → ℝ) : List ROp → ℕ → List (ℕ × Bool)
  | [], _ => []
  | op :: ops, iop =>
    if op.isCmp then (iop, op.change par e) :: cmpList par e ops (iop + op.width) else cmpList par e ops (iop + op.width)

theorem cmpList_congr {par par' e e' : ℕ → ℝ} : ∀ (ops : List ROp) (iop : ℕ),
    (∀ op ∈ ops, op.isCmp = true → op.change par e = op.change par' e') → cmpList par e ops iop = cmpList par' e' ops iop
  | [], _, _ => rfl
  | op :: ops, iop, h => by
    have ih := cmpList_congr ops (iop + op.width) fun o ho => h o (List.mem_cons_of_mem _ ho)
    unfold cmpList
    rw [ih]
    split_ifs with hc
    · rw [h op List.mem_cons_self hc]
    · rfl

theorem cmpList_snoc {par e : ℕ → ℝ} (op : ROp) : ∀ (ops : List ROp) (iop : ℕ),
    cmpList par e (ops ++ [op]) iop = cmpList par e ops iop ++ (if op.isCmp then [(iop + opCount ops, op.change par e)] else [])
  | [], iop => by simp [cmpList, opCount]
  | a :: ops, iop => by
    rw [List.cons_append, cmpList, cmpList, cmpList_snoc op ops (iop + a.width),
      show iop + a.width + opCount ops = iop + opCount (a :: ops) by simp [opCount]; omega]
    split_ifs <;> simp

/-- what PriOp prints depends on the variables, parameters and text it uses -/
theorem ROp.print_congr {op : ROp} {text text' : List Char} {par par' e e' : ℕ → ℝ} (ht : ∀ a ∈ op.txtArgs, readTxt text a = readTxt text' a)
    (hp : ∀ a ∈ op.parArgs, par a = par' a) (he : ∀ a ∈ op.cmpVars, e a = e' a) : op.print text par e = op.print text' par' e' := by
  cases op with
  | pri flag np b v a =>
    have hpos : (if flag.testBit 0 then e np else par np) = if flag.testBit 0 then e' np else par' np := by
      split_ifs with h
      · exact he np (by simp [ROp.cmpVars, h])
      · exact hp np (by simp [ROp.parArgs, h])
    have hval : (if flag.testBit 1 then e v else par v) = if flag.testBit 1 then e' v else par' v := by
      split_ifs with h
      · exact he v (by simp [ROp.cmpVars, h])
      · exact hp v (by simp [ROp.parArgs, h])
    simp only [ROp.print]
    rw [hpos, hval, ht b (by simp [ROp.txtArgs]), ht a (by simp [ROp.txtArgs])]
  | _ => rfl

/-- what the operators in `ops` print -/
noncomputable def priList (text : List Char) (par e : ℕ → ℝ) (ops : List ROp) : List Printed := ops.flatMap fun op => op.print text par e

theorem priList_congr {text text' : List Char} {par par' e e' : ℕ → ℝ} {ops : List ROp}
    (ht : ∀ op ∈ ops, ∀ a ∈ op.txtArgs, readTxt text a = readTxt text' a)
    (hp : ∀ op ∈ ops, ∀ a ∈ op.parArgs, par a = par' a) (he : ∀ op ∈ ops, ∀ a ∈ op.cmpVars, e a = e' a) :
    priList text par e ops = priList text' par' e' ops := by
  unfold priList
  rw [List.flatMap_def, List.flatMap_def, List.map_congr_left]
  exact fun op hop => ROp.print_congr (ht op hop) (hp op hop) (he op hop)

theorem ROp.print_nil {op : ROp} (h : op.txtArgs = []) (text : List Char) (par e : ℕ → ℝ) : op.print text par e = [] := by
  cases op <;> first | rfl | simp [ROp.txtArgs] at h

theorem priList_snoc {text : List Char} {par e : ℕ → ℝ} {ops : List ROp} {op : ROp} :
    priList text par e (ops ++ [op]) = priList text par e ops ++ op.print text par e := by
  simp [priList]

theorem ROp.txtArgs_of_nres {op : ROp} (h : op.nres ≠ 0) : op.txtArgs = [] := by
  cases op <;> first | rfl | simp [ROp.nres] at h

theorem ROp.txtArgs_of_cmp {op : ROp} (h : op.isCmp = true) : op.txtArgs = [] := by
  cases op <;> first | rfl | simp [ROp.isCmp] at h

theorem ROp.isCmp_of_loud {op : ROp} (h : op.quiet = false) : op.isCmp = false := by
  cases op <;> first | rfl | exact h

theorem ROp.txtArgs_of_loud {op : ROp} (h : op.quiet = false) : op.txtArgs = [] := by
  cases op <;> first | rfl | simp [ROp.quiet] at h

theorem usable_mono (ops : List Op) : ∀ nv U, U ⊆ usable ops nv U := by
  induction ops with
  | nil => intro nv U; exact subset_rfl
  | cons o ops ih => intro nv U; exact fun _ h => ih _ _ (Or.inr h)

theorem CmpWF.mem {disc : ℕ → ℝ → ℝ} {par : ℕ → ℝ} {vecs : List (List ℕ)} : ∀ {ops : List ROp} {nv : ℕ} {U : Set ℕ} (e : ℕ → ℝ) (mem : Mem),
    CmpWF ops nv U →
    ∀ op ∈ ops, ∀ a ∈ op.cmpVars, a ∈ usable (resolve disc par vecs ops nv e mem).1 nv U
  | [], _, _, _, _, _ => by simp
  | o :: ops, nv, U, e, mem, h => by
    intro op hop a ha
    unfold CmpWF at h
    unfold resolve
    by_cases hoc : o.nres = 0
    · rw [if_pos hoc] at h
      rw [ROp.toOpM_none hoc]
      simp only
      rcases List.mem_cons.1 hop with rfl | hop
      · exact usable_mono _ _ _ (h.1 a (List.mem_append_left _ ha))
      · exact CmpWF.mem _ _ h.2 op hop a ha
    · rw [if_neg hoc] at h
      obtain ⟨o', h1, h2⟩ := ROp.toOpM_some (disc := disc) (par := par) (vecs := vecs) (e := e) (mem := mem) hoc
      rw [h1]
      simp only
      rw [usable, ROp.addRes_eq h1, h2]
      rcases List.mem_cons.1 hop with rfl | hop
      · exact usable_mono _ _ _ (ROp.subset_addRes _ _ _ (h.1 a (List.mem_append_left _ ha)))
      · exact CmpWF.mem _ _ h.2 op hop a ha

theorem CmpWF_snoc {disc : ℕ → ℝ → ℝ} {par : ℕ → ℝ} {vecs : List (List ℕ)} (op : ROp) : ∀ {ops : List ROp} {nv : ℕ} {U : Set ℕ}
    (e : ℕ → ℝ) (mem : Mem), CmpWF ops nv U →
    (∀ a ∈ op.cmpVars ++ op.cellVars, a ∈ usable (resolve disc par vecs ops nv e mem).1 nv U) → CmpWF (ops ++ [op]) nv U
  | [], nv, U, _, _, _, h => by
    unfold CmpWF
    rw [List.nil_append]
    refine ⟨h, ?_⟩
    split_ifs <;> trivial
  | o :: ops, nv, U, e, mem, hw, h => by
    rw [List.cons_append]
    unfold CmpWF at hw ⊢
    unfold resolve at h
    refine ⟨hw.1, ?_⟩
    by_cases hoc : o.nres = 0
    · rw [if_pos hoc] at hw ⊢
      rw [ROp.toOpM_none hoc] at h
      exact CmpWF_snoc op _ _ hw.2 h
    · rw [if_neg hoc] at hw ⊢
      obtain ⟨o', h1, h2⟩ := ROp.toOpM_some (disc := disc) (par := par) (vecs := vecs) (e := e) (mem := mem) hoc
      rw [h1] at h
      simp only at h
      rw [usable, ROp.addRes_eq h1, h2] at h
      exact CmpWF_snoc op _ _ hw.2 h

variable (c : Cfg)

/-- the values of the parameters when the dynamic parameters are `w.p` -/
noncomputable def Rec.parList (r : Rec) (w : World) : List ℝ :=
  dynamicSweep c.disc w.p r.parIsDyn r.dynOps r.parAll

/-- see `parList` -/
noncomputable def Rec.parAt (r : Rec) (w : World) : ℕ → ℝ := at' (r.parList c w)

/-- the operations executed at the arguments `w`, and the elements of the VecAD vectors at the end -/
noncomputable def Rec.resAt (r : Rec) (w : World) : List Op × Mem :=
  resolve c.disc (r.parAt c w) r.vecs r.ops (r.n + 1) (indEnv (at' w.z)) (initMem r.vecs)

/-- the operations executed at the arguments `w` -/
noncomputable def Rec.opsAt (r : Rec) (w : World) : List Op := (r.resAt c w).1

/-- the elements of the VecAD vectors after these operations -/
noncomputable def Rec.memAt (r : Rec) (w : World) : Mem := (r.resAt c w).2

/-- the values of the variables -/
noncomputable def Rec.env (r : Rec) (w : World) : ℕ → ℝ := evalOps (r.opsAt c w) (r.n + 1) (indEnv (at' w.x))

/-- the recorded comparisons (operator index, whether the outcome is different), and what is printed -/
noncomputable def Rec.cmps (r : Rec) (w : World) : List (ℕ × Bool) × List Printed :=
  (cmpList (r.parAt c w) (r.env c w) r.ops (r.n + 1), priList r.text (r.parAt c w) (r.env c w) r.ops)

/-- variables that can be operands -/
noncomputable def Rec.use (r : Rec) (w : World) : Set ℕ := usable (r.opsAt c w) (r.n + 1) (indSet r.n)

/-- an element of a vector is a parameter or a variable that can be an operand -/
def Rec.CellOk (r : Rec) (w : World) : Cell → Prop
  | .par p => p < r.parAll.length
  | .var v => v ∈ r.use c w

/-- the value of an element of a vector -/
noncomputable def Rec.cellVal (r : Rec) (w : World) : Cell → ℝ
  | .par p => r.parAt c w p
  | .var v => r.env c w v

/-- number of elements of a vector in the recording -/
def Rec.vlen (r : Rec) (k : ℕ) : ℕ := (r.vecs.getD k []).length

/-- invariant of the recorder; `w0` are the arguments used while recording -/
structure RInv (w0 : World) (r : Rec) : Prop where
  dyn : DynWf r.parIsDyn r.dynOps
  len : r.parAll.length = r.parIsDyn.length
  pos : 0 < r.parAll.length
  vals : r.parAll = r.parList c w0
  wf : ∀ w, WFOps (r.opsAt c w) (r.n + 1) (indSet r.n)
  nv : ∀ w, r.numVar = numVar (r.opsAt c w) (r.n + 1)
  par : ∀ op ∈ r.ops, ∀ a ∈ op.parArgs, a < r.parAll.length
  id : 0 < r.id
  cmp : CmpWF r.ops (r.n + 1) (indSet r.n)
  vec : ∀ op ∈ r.ops, ∀ k ∈ op.vecArgs, k < r.vecs.length
  vpar : ∀ l ∈ r.vecs, ∀ a ∈ l, a < r.parAll.length
  cell : ∀ w, ∀ k < r.vecs.length, ∀ i < r.vlen k, r.CellOk c w (r.memAt c w k i)
  txt : ∀ op ∈ r.ops, ∀ a ∈ op.txtArgs, '\x00' ∈ r.text.drop a

/-- the object `a` represents the function `d` of the arguments -/
def Den (w0 : World) (r : Rec) (a : AD) (d : World → ℝ) : Prop :=
  a.value = d w0 ∧
  if a.tapeId = r.id then
    if a.adType = .dynamic then a.taddr < r.parAll.length ∧ ∀ w, r.parAt c w a.taddr = d w
    else a.adType = .variable ∧ ∀ w, a.taddr ∈ r.use c w ∧ r.env c w a.taddr = d w
  else ∀ w, d w = a.value

/-- the recorder `s` extends `r`, possibly with comparisons, loads and stores -/
structure Ext0 (r s : Rec) : Prop where
  id : s.id = r.id
  n : s.n = r.n
  cmp : s.recordCompare = r.recordCompare
  len : r.parAll.length ≤ s.parAll.length
  par : ∀ w, ∀ i < r.parAll.length, s.parAt c w i = r.parAt c w i
  env : ∀ w, ∀ v ∈ r.use c w, v ∈ s.use c w ∧ s.env c w v = r.env c w v
  lenv : r.vecs.length ≤ s.vecs.length
  vecs : ∀ k < r.vecs.length, s.vecs.getD k [] = r.vecs.getD k []

/-- the recorder `s` extends `r`, possibly with comparisons and loads -/
structure Keep (r s : Rec) : Prop extends Ext0 c r s where
  mem : ∀ w, ∀ k < r.vecs.length, ∀ i, s.memAt c w k i = r.memAt c w k i

/-- the recorder `s` extends `r` without comparisons, loads and stores -/
structure Ext (r s : Rec) : Prop extends Keep c r s where
  cmps : ∀ w, s.cmps c w = r.cmps c w

variable {c}

theorem Ext.refl (r : Rec) : Ext c r r :=
  ⟨⟨⟨rfl, rfl, rfl, le_rfl, fun _ _ _ => rfl, fun _ _ h => ⟨h, rfl⟩, le_rfl, fun _ _ => rfl⟩, fun _ _ _ _ => rfl⟩, fun _ => rfl⟩

theorem Ext0.trans {r s t : Rec} (h : Ext0 c r s) (h' : Ext0 c s t) : Ext0 c r t :=
  ⟨h'.id.trans h.id, h'.n.trans h.n, h'.cmp.trans h.cmp, h.len.trans h'.len,
   fun w i hi => (h'.par w i (lt_of_lt_of_le hi h.len)).trans (h.par w i hi),
   fun w v hv => ⟨(h'.env w v (h.env w v hv).1).1, (h'.env w v (h.env w v hv).1).2.trans (h.env w v hv).2⟩,
   h.lenv.trans h'.lenv, fun k hk => (h'.vecs k (lt_of_lt_of_le hk h.lenv)).trans (h.vecs k hk)⟩

theorem Keep.trans {r s t : Rec} (h : Keep c r s) (h' : Keep c s t) : Keep c r t :=
  ⟨h.toExt0.trans h'.toExt0, fun w k hk i => (h'.mem w k (lt_of_lt_of_le hk h.lenv) i).trans (h.mem w k hk i)⟩

theorem Ext.trans {r s t : Rec} (h : Ext c r s) (h' : Ext c s t) : Ext c r t :=
  ⟨h.toKeep.trans h'.toKeep, fun w => (h'.cmps w).trans (h.cmps w)⟩

theorem parAt_eq (r : Rec) {w w' : World} (h : w.p = w'.p) : r.parAt c w = r.parAt c w' := by
  unfold Rec.parAt Rec.parList; rw [h]

theorem Den.mono0 {w0 : World} {r s : Rec} {a : AD} {d : World → ℝ} (h : Den c w0 r a d) (e : Ext0 c r s) :
    Den c w0 s a d := by
  unfold Den at h ⊢
  rw [e.id]
  refine ⟨h.1, ?_⟩
  have h2 := h.2
  split_ifs at h2 ⊢ with h1 h3
  · exact ⟨lt_of_lt_of_le h2.1 e.len, fun w => (e.par w _ h2.1).trans (h2.2 w)⟩
  · exact ⟨h2.1, fun w => ⟨(e.env w _ (h2.2 w).1).1, (e.env w _ (h2.2 w).1).2.trans (h2.2 w).2⟩⟩
  · exact h2

theorem Den.mono {w0 : World} {r s : Rec} {a : AD} {d : World → ℝ} (h : Den c w0 r a d) (e : Ext c r s) :
    Den c w0 s a d := h.mono0 e.toExt0

theorem Den.con {w0 : World} {r : Rec} (hr : RInv c w0 r) {d : World → ℝ} {v : ℝ} (h : ∀ w, d w = v) (a : AD)
    (ha : a.tapeId ≠ r.id) (hv : a.value = v) : Den c w0 r a d :=
  ⟨by rw [h, hv], by rw [if_neg ha]; intro w; rw [h, hv]⟩

/-! ## Appending an operation -/

theorem numVar_snoc (ops : List Op) (o : Op) : ∀ nv, numVar (ops ++ [o]) nv = numVar ops nv + o.nres := by
  induction ops with
  | nil => intro nv; rfl
  | cons a l ih => intro nv; exact ih _

theorem usable_snoc (ops : List Op) (o : Op) : ∀ nv U,
    usable (ops ++ [o]) nv U = addRes o (numVar ops nv) (usable ops nv U) := by
  induction ops with
  | nil => intro nv U; rfl
  | cons a l ih => intro nv U; exact ih _ _

theorem WFOps_snoc (ops : List Op) (o : Op) : ∀ nv U, WFOps (ops ++ [o]) nv U ↔
    WFOps ops nv U ∧ ∀ a ∈ o.args, a ∈ usable ops nv U := by
  induction ops with
  | nil => intro nv U; simp [WFOps, usable]
  | cons a l ih => intro nv U; simp only [List.cons_append, WFOps, usable, ih]; tauto

theorem evalOps_snoc (ops : List Op) (o : Op) : ∀ nv e,
    evalOps (ops ++ [o]) nv e = stepEnv o (numVar ops nv) (evalOps ops nv e) := by
  induction ops with
  | nil => intro nv e; rfl
  | cons a l ih => intro nv e; exact ih _ _

theorem indSet_lt (n : ℕ) : ∀ a ∈ indSet n, a < n + 1 := fun a h => by have := h.2; omega

theorem RInv.use_lt {w0 : World} {r : Rec} (h : RInv c w0 r) {w : World} {v : ℕ} (hv : v ∈ r.use c w) : v < r.numVar := by
  rw [h.nv w]; exact usable_lt _ _ _ (indSet_lt _) _ hv

/-! ## Adding parameters -/

/-- the parameters in the vectors are old ones -/
theorem RInv.cellAgree {w0 : World} {r : Rec} (hr : RInv c w0 r) {par par' : ℕ → ℝ}
    (h : ∀ i < r.parAll.length, par i = par' i) : CellAgree par par' r.vecs r.vecs.length (initMem r.vecs) := by
  intro k hk i hi p hp
  unfold initMem at hp
  simp only [Cell.par.injEq] at hp
  subst hp
  rw [List.getD_eq_getElem _ _ hi]
  refine h _ (hr.vpar (r.vecs.getD k []) ?_ _ (List.getElem_mem hi))
  rw [List.getD_eq_getElem _ _ hk]
  exact List.getElem_mem hk

/-- adding a parameter at the end of the table -/
theorem addPar {w0 : World} {r s : Rec} (hr : RInv c w0 r) {v : World → ℝ} (hid : s.id = r.id) (hn : s.n = r.n)
    (hc : s.recordCompare = r.recordCompare) (ho : s.ops = r.ops) (hnv : s.numVar = r.numVar) (hvs : s.vecs = r.vecs)
    (ht : s.text = r.text)
    (hdyn : DynWf s.parIsDyn s.dynOps) (hlen : s.parAll.length = s.parIsDyn.length)
    (hall : s.parAll = r.parAll ++ [v w0]) (hpar : ∀ w, s.parList c w = r.parList c w ++ [v w]) :
    RInv c w0 s ∧ Ext c r s ∧ ∀ w, s.parAt c w r.parAll.length = v w := by
  have hl : ∀ w, (r.parList c w).length = r.parAll.length := fun w => dynamicSweep_length _ _ _ _ _
  have hat : ∀ w, ∀ i < r.parAll.length, s.parAt c w i = r.parAt c w i := by
    intro w i hi
    unfold Rec.parAt
    rw [hpar, at'_append (by rw [hl]; exact hi)]
  have hres : ∀ w, s.opsAt c w = r.opsAt c w ∧ ∀ k < r.vecs.length, ∀ i, s.memAt c w k i = r.memAt c w k i := by
    intro w
    unfold Rec.opsAt Rec.memAt Rec.resAt
    rw [ho, hvs, hn]
    exact resolve_congr r.ops _ _ _ _
      (fun op hop => ⟨fun a ha => hat w a (hr.par op hop a ha), fun k hk => ⟨hr.vec op hop k hk, rfl⟩⟩)
      (fun _ _ _ => rfl) (hr.cellAgree (hat w))
  have hops : ∀ w, s.opsAt c w = r.opsAt c w := fun w => (hres w).1
  have henv : ∀ w, s.env c w = r.env c w := by
    intro w; unfold Rec.env; rw [hops, hn]
  have huse : ∀ w, s.use c w = r.use c w := by
    intro w; unfold Rec.use; rw [hops, hn]
  have hle : r.parAll.length ≤ s.parAll.length := by rw [hall]; simp
  refine ⟨⟨hdyn, hlen, lt_of_lt_of_le hr.pos hle, ?_, ?_, ?_, ?_, by rw [hid]; exact hr.id, by rw [ho, hn]; exact hr.cmp, ?_, ?_, ?_, by rw [ho, ht]; exact hr.txt⟩,
    ⟨⟨⟨hid, hn, hc, hle, hat, ?_, by rw [hvs], fun k _ => by rw [hvs]⟩, fun w => (hres w).2⟩, ?_⟩, ?_⟩
  · rw [hall, hpar, ← hr.vals]
  · intro w; rw [hops, hn]; exact hr.wf w
  · intro w; rw [hops, hn, hnv]; exact hr.nv w
  · intro op hop a ha
    rw [ho] at hop
    exact lt_of_lt_of_le (hr.par op hop a ha) hle
  · rw [ho, hvs]; exact hr.vec
  · rw [hvs]; exact fun l hl' a ha => lt_of_lt_of_le (hr.vpar l hl' a ha) hle
  · intro w k hk i hi
    unfold Rec.vlen at hi
    rw [hvs] at hk hi
    rw [(hres w).2 k hk i]
    have := hr.cell w k hk i hi
    cases hm : r.memAt c w k i with
    | par p => rw [hm] at this; exact lt_of_lt_of_le this hle
    | var v => rw [hm] at this; show v ∈ s.use c w; rw [huse]; exact this
  · intro w u hu
    rw [huse, henv]
    exact ⟨hu, rfl⟩
  · intro w
    unfold Rec.cmps
    rw [ho, hn, henv]
    refine Prod.ext ?_ ?_
    · exact cmpList_congr _ _ fun op hop hcmp => ROp.change_congr hcmp (fun a ha => hat w a (hr.par op hop a ha)) fun _ _ => rfl
    · exact priList_congr (fun op hop a ha => by rw [ht]) (fun op hop a ha => hat w a (hr.par op hop a ha)) fun _ _ _ _ => rfl
  · intro w
    unfold Rec.parAt
    rw [hpar, ← hl w, at'_append_length]

theorem putCon_ok {w0 : World} {r : Rec} (hr : RInv c w0 r) (v : ℝ) :
    RInv c w0 (r.putCon c v).1 ∧ Ext c r (r.putCon c v).1 ∧ (r.putCon c v).2 < (r.putCon c v).1.parAll.length ∧
    (∀ w, (r.putCon c v).1.parAt c w (r.putCon c v).2 = v) ∧ (r.putCon c v).1.ops = r.ops ∧
    (r.putCon c v).1.numVar = r.numVar := by
  rcases putConPar_cases c.hash (fun a b => decide (a = b)) r.toDynRec v with ⟨h, hp, v', hc, hd, he⟩ | ⟨h, h1, h2, h3⟩
  · have e : (r.putCon c v).1 = r := by
      unfold Rec.putCon; dsimp only; rw [h]
    have e2 : (r.putCon c v).2 = (r.toDynRec.putConPar c.hash (fun a b => decide (a = b)) v).2 := rfl
    rw [e, e2]
    have hlt : (r.toDynRec.putConPar c.hash (fun a b => decide (a = b)) v).2 < r.parAll.length := by
      by_contra hcon
      rw [List.getElem?_eq_none (by omega)] at hc
      simp at hc
    refine ⟨hr, Ext.refl r, hlt, fun w => ?_, rfl, rfl⟩
    unfold Rec.parAt Rec.parList
    rw [sweep_con_eq _ _ hr.dyn _ hr.len _ ?_]
    · unfold at'
      rw [List.getD_eq_getElem?_getD, hc]
      simpa using he
    · rw [List.getD_eq_getElem _ _ (by rw [← hr.len]; exact hlt)] at hd ⊢
      exact hd
  · have e := addPar (s := (r.putCon c v).1) hr (v := fun _ => v) rfl rfl rfl rfl rfl rfl rfl ?_ ?_ h1 ?_
    · refine ⟨e.1, e.2.1, ?_, ?_, rfl, rfl⟩
      · show (r.toDynRec.putConPar c.hash (fun a b => decide (a = b)) v).2
          < (r.toDynRec.putConPar c.hash (fun a b => decide (a = b)) v).1.parAll.length
        rw [h, h1]; simp
      · intro w
        have := e.2.2 w
        show (r.putCon c v).1.parAt c w (r.toDynRec.putConPar c.hash (fun a b => decide (a = b)) v).2 = v
        rw [h]; exact this
    · show DynWf (r.toDynRec.putConPar c.hash (fun a b => decide (a = b)) v).1.parIsDyn
        (r.toDynRec.putConPar c.hash (fun a b => decide (a = b)) v).1.dynOps
      rw [h2, h3]; exact .con hr.dyn
    · show (r.toDynRec.putConPar c.hash (fun a b => decide (a = b)) v).1.parAll.length
        = (r.toDynRec.putConPar c.hash (fun a b => decide (a = b)) v).1.parIsDyn.length
      rw [h1, h2]; simp [hr.len]
    · intro w
      show dynamicSweep c.disc w.p (r.toDynRec.putConPar c.hash (fun a b => decide (a = b)) v).1.parIsDyn
        (r.toDynRec.putConPar c.hash (fun a b => decide (a = b)) v).1.dynOps
        (r.toDynRec.putConPar c.hash (fun a b => decide (a = b)) v).1.parAll = _
      rw [h1, h2, h3, sweep_con _ _ hr.dyn _ _ hr.len]; rfl

/-- result of an operation: the recorder is extended and the returned object represents `d` -/
structure Step (c : Cfg) (w0 : World) (r : Rec) (res : Rec × AD) (d : World → ℝ) : Prop where
  inv : RInv c w0 res.1
  ext : Ext c r res.1
  den : Den c w0 res.1 res.2 d

theorem Step.after {w0 : World} {r s : Rec} {res : Rec × AD} {d : World → ℝ} (e : Ext c r s) (h : Step c w0 s res d) :
    Step c w0 r res d := ⟨h.inv, e.trans h.ext, h.den⟩

theorem putDyn_ok {w0 : World} {r : Rec} (hr : RInv c w0 r) (op : DynOp) {d : World → ℝ} {v : ℝ}
    (ha : ∀ a ∈ op.args, a < r.parAll.length)
    (hd : ∀ w, op.eval c.disc w.p r.dynOps.length (r.parList c w) = d w) (hv : v = d w0) :
    Step c w0 r (r.putDyn op v) d := by
  have hl : ∀ a ∈ op.args, a < r.parIsDyn.length := by rw [← hr.len]; exact ha
  have e := addPar (s := (r.putDyn op v).1) hr (v := d) rfl rfl rfl rfl rfl rfl rfl ?_ ?_ ?_ ?_
  · refine ⟨e.1, e.2.1, hv, ?_⟩
    show if r.id = r.id then _ else _
    rw [if_pos rfl]
    show if AdType.dynamic = .dynamic then _ else _
    rw [if_pos rfl]
    refine ⟨?_, e.2.2⟩
    simp [Rec.putDyn, DynRec.putDynPar]
  · exact .dyn hr.dyn hl
  · simp [Rec.putDyn, DynRec.putDynPar, hr.len]
  · simp [Rec.putDyn, DynRec.putDynPar, hv]
  · intro w
    show dynamicSweep c.disc w.p (r.parIsDyn ++ [true]) (r.dynOps ++ [op]) (r.parAll ++ [v]) = _
    rw [sweep_dyn _ _ hr.dyn _ _ hr.len _ hl, ← hd w]; rfl

/-- appending an operator with results; the operation `o w` may depend on the elements of the vectors -/
theorem putOpM_ok {w0 : World} {r : Rec} (hr : RInv c w0 r) (op : ROp) (o : World → Op)
    (ho : ∀ w, op.toOpM c.disc (r.parAt c w) r.vecs (r.env c w.sel) (r.memAt c w) = some (o w))
    (hp : ∀ a ∈ op.parArgs, a < r.parAll.length) (ha : ∀ w, ∀ a ∈ (o w).args, a ∈ r.use c w)
    (hx : ∀ a ∈ op.cmpVars, a ∈ r.use c w0) (hk : ∀ k ∈ op.vecArgs, k < r.vecs.length) :
    RInv c w0 (r.putOp op).1 ∧ Keep c r (r.putOp op).1 ∧ (∀ w, (r.putOp op).1.cmps c w = r.cmps c w) ∧
    ∀ w, ∀ k, op.naux ≤ k → k < op.nres → r.numVar + k ∈ (r.putOp op).1.use c w ∧
      (r.putOp op).1.env c w (r.numVar + k) = (o w).val (r.env c w) k := by
  obtain ⟨hn0, -⟩ := ROp.nres_some (ho w0)
  have hn : ∀ w, (o w).nres = op.nres := fun w => (ROp.nres_some (ho w)).2
  have hres : ∀ w, (r.putOp op).1.resAt c w = (r.opsAt c w ++ [o w], r.memAt c w) := by
    intro w
    show resolve c.disc (r.parAt c w) r.vecs (r.ops ++ [op]) (r.n + 1) (indEnv (at' w.z)) (initMem r.vecs) = _
    rw [resolve_snoc]
    have := ho w
    change op.toOpM c.disc (r.parAt c w) r.vecs
      (evalOps (resolve c.disc (r.parAt c w) r.vecs r.ops (r.n + 1) (indEnv (at' w.z)) (initMem r.vecs)).1 (r.n + 1) (indEnv (at' w.z)))
      (resolve c.disc (r.parAt c w) r.vecs r.ops (r.n + 1) (indEnv (at' w.z)) (initMem r.vecs)).2 = some (o w) at this
    rw [this]; rfl
  have hops : ∀ w, (r.putOp op).1.opsAt c w = r.opsAt c w ++ [o w] := fun w => by
    unfold Rec.opsAt; rw [hres]; rfl
  have hmem : ∀ w, (r.putOp op).1.memAt c w = r.memAt c w := fun w => by
    unfold Rec.memAt; rw [hres]; rfl
  have huse : ∀ w, (r.putOp op).1.use c w = op.addRes r.numVar (r.use c w) := by
    intro w
    show usable ((r.putOp op).1.opsAt c w) (r.n + 1) (indSet r.n) = _
    rw [hops, usable_snoc, ← hr.nv w, ROp.addRes_eq (ho w)]; rfl
  have henv : ∀ w, (r.putOp op).1.env c w = stepEnv (o w) r.numVar (r.env c w) := by
    intro w
    show evalOps ((r.putOp op).1.opsAt c w) (r.n + 1) _ = _
    rw [hops, evalOps_snoc, ← hr.nv w]; rfl
  have hnc := ROp.isCmp_of_nres hn0
  refine ⟨⟨hr.dyn, hr.len, hr.pos, hr.vals, ?_, ?_, ?_, hr.id, ?_, ?_, hr.vpar, ?_, ?_⟩,
    ⟨⟨rfl, rfl, rfl, le_rfl, fun _ _ _ => rfl, ?_, le_rfl, fun _ _ => rfl⟩, fun w k _ i => by rw [hmem]⟩, ?_, ?_⟩
  · intro w
    show WFOps ((r.putOp op).1.opsAt c w) (r.n + 1) (indSet r.n)
    rw [hops, WFOps_snoc]
    exact ⟨hr.wf w, ha w⟩
  · intro w
    show r.numVar + op.nres = numVar ((r.putOp op).1.opsAt c w) (r.n + 1)
    rw [hops, numVar_snoc, ← hr.nv w, hn]
  · intro op' hop a h
    have hop' : op' ∈ r.ops ++ [op] := hop
    rw [List.mem_append, List.mem_singleton] at hop'
    rcases hop' with h' | rfl
    · exact hr.par op' h' a h
    · exact hp a h
  · exact CmpWF_snoc (disc := c.disc) (par := r.parAt c w0) (vecs := r.vecs) op (indEnv (at' w0.z)) (initMem r.vecs) hr.cmp
      (by rw [ROp.cellVars_of_nres hn0, List.append_nil]; exact hx)
  · intro op' hop a h
    have hop' : op' ∈ r.ops ++ [op] := hop
    rw [List.mem_append, List.mem_singleton] at hop'
    rcases hop' with h' | rfl
    · exact hr.vec op' h' a h
    · exact hk a h
  · intro w k hk i hi
    rw [hmem]
    have := hr.cell w k hk i hi
    cases hm : r.memAt c w k i with
    | par p => rw [hm] at this; exact this
    | var v => rw [hm] at this; show v ∈ (r.putOp op).1.use c w; rw [huse]; exact ROp.subset_addRes _ _ _ this
  · intro op' hop a h
    have hop' : op' ∈ r.ops ++ [op] := hop
    rw [List.mem_append, List.mem_singleton] at hop'
    rcases hop' with h' | rfl
    · exact hr.txt op' h' a h
    · rw [ROp.txtArgs_of_nres hn0] at h; simp at h
  · intro w v hv
    rw [huse, henv]
    exact ⟨ROp.subset_addRes _ _ _ hv, stepEnv_lt _ (hr.use_lt hv)⟩
  · intro w
    unfold Rec.cmps
    refine Prod.ext ?_ ?_
    · show cmpList (r.parAt c w) ((r.putOp op).1.env c w) (r.ops ++ [op]) (r.n + 1) = _
      rw [cmpList_snoc, hnc, henv]
      simp only [Bool.false_eq_true, if_false, List.append_nil]
      refine cmpList_congr _ _ fun op hop hcmp => ROp.change_congr hcmp (fun _ _ => rfl) fun a ha => ?_
      exact stepEnv_lt _ (hr.use_lt (w := w) (hr.cmp.mem _ _ op hop a ha))
    · show priList r.text (r.parAt c w) ((r.putOp op).1.env c w) (r.ops ++ [op]) = _
      rw [priList_snoc, ROp.print_nil (ROp.txtArgs_of_nres hn0), List.append_nil, henv]
      refine priList_congr (fun _ _ _ _ => rfl) (fun _ _ _ _ => rfl) fun op hop a ha => ?_
      exact stepEnv_lt _ (hr.use_lt (w := w) (hr.cmp.mem _ _ op hop a ha))
  · intro w k hk1 hk2
    rw [huse, henv]
    refine ⟨Or.inl ⟨by omega, by omega⟩, ?_⟩
    exact stepEnv_res _ (by rw [hn w]; exact hk2)

theorem ROp.plain_of_toOp {disc : ℕ → ℝ → ℝ} {par : ℕ → ℝ} {op : ROp} {o : Op} (h : op.toOp disc par = some o) :
    op.cmpVars = [] ∧ op.vecArgs = [] := by
  cases op <;> first | exact ⟨rfl, rfl⟩ | simp [ROp.toOp] at h

theorem putOps_ok {w0 : World} {r : Rec} (hr : RInv c w0 r) (op : ROp) (o : World → Op)
    (ho : ∀ w, op.toOp c.disc (r.parAt c w) = some (o w))
    (hp : ∀ a ∈ op.parArgs, a < r.parAll.length) (ha : ∀ w, ∀ a ∈ (o w).args, a ∈ r.use c w) :
    RInv c w0 (r.putOp op).1 ∧ Ext c r (r.putOp op).1 ∧
    ∀ w, ∀ k, op.naux ≤ k → k < op.nres → r.numVar + k ∈ (r.putOp op).1.use c w ∧
      (r.putOp op).1.env c w (r.numVar + k) = (o w).val (r.env c w) k := by
  obtain ⟨hx, hk⟩ := ROp.plain_of_toOp (ho w0)
  obtain ⟨h1, h2, h3, h5⟩ := putOpM_ok hr op o (fun w => ROp.toOpM_of_toOp (ho w)) hp ha (by simp [hx]) (by simp [hk])
  exact ⟨h1, ⟨h2, h3⟩, h5⟩

theorem putOp_ok {w0 : World} {r : Rec} (hr : RInv c w0 r) (op : ROp) (o : World → Op)
    (ho : ∀ w, op.toOp c.disc (r.parAt c w) = some (o w)) (hn : ∀ w, (o w).nres = op.nres)
    (hp : ∀ a ∈ op.parArgs, a < r.parAll.length) (ha : ∀ w, ∀ a ∈ (o w).args, a ∈ r.use c w) :
    RInv c w0 (r.putOp op).1 ∧ Ext c r (r.putOp op).1 ∧
    ∀ w, (r.putOp op).2 ∈ (r.putOp op).1.use c w ∧
      (r.putOp op).1.env c w (r.putOp op).2 = (o w).val (r.env c w) (op.nres - 1) := by
  obtain ⟨h1, h2, h3⟩ := putOps_ok hr op o ho hp ha
  have hpos := (o w0).nres_pos
  rw [hn] at hpos
  refine ⟨h1, h2, fun w => ?_⟩
  have := h3 w (op.nres - 1) ?_ (by omega)
  · rwa [show r.numVar + (op.nres - 1) = (r.putOp op).2 by show _ = r.numVar + op.nres - 1; omega] at this
  · cases op <;> first | exact le_rfl | exact Nat.zero_le _

theorem putVar_ok {w0 : World} {r : Rec} (hr : RInv c w0 r) (op : ROp) (o : World → Op) {d : World → ℝ} {v : ℝ}
    (ho : ∀ w, op.toOp c.disc (r.parAt c w) = some (o w)) (hn : ∀ w, (o w).nres = op.nres)
    (hp : ∀ a ∈ op.parArgs, a < r.parAll.length) (ha : ∀ w, ∀ a ∈ (o w).args, a ∈ r.use c w)
    (hd : ∀ w, (o w).val (r.env c w) (op.nres - 1) = d w) (hv : v = d w0) :
    Step c w0 r (r.putVar op v) d := by
  obtain ⟨h1, h2, h3⟩ := putOp_ok hr op o ho hn hp ha
  refine ⟨h1, h2, hv, ?_⟩
  show if r.id = r.id then _ else _
  rw [if_pos rfl]
  show if AdType.variable = .dynamic then _ else _
  rw [if_neg (by simp)]
  refine ⟨rfl, fun w => ?_⟩
  rw [← hd w]
  exact h3 w

/-! ## Operands -/

theorem Den.of_var {w0 : World} {r : Rec} {a : AD} {d : World → ℝ} (h : Den c w0 r a d) (hv : r.var a = true) :
    ∀ w, a.taddr ∈ r.use c w ∧ r.env c w a.taddr = d w := by
  simp only [Rec.var, Bool.and_eq_true, decide_eq_true_eq, Bool.not_eq_eq_eq_not, Bool.not_true, decide_eq_false_iff_not] at hv
  have := h.2
  rw [if_pos hv.1, if_neg hv.2] at this
  exact this.2

theorem Den.of_dyn {w0 : World} {r : Rec} {a : AD} {d : World → ℝ} (h : Den c w0 r a d) (hv : r.dyn a = true) :
    a.taddr < r.parAll.length ∧ ∀ w, r.parAt c w a.taddr = d w := by
  simp only [Rec.dyn, Bool.and_eq_true, decide_eq_true_eq] at hv
  have := h.2
  rwa [if_pos hv.1, if_pos hv.2] at this

theorem tapeId_ne {r : Rec} {a : AD} (hv : ¬ r.var a = true) (hd : r.dyn a = false) : a.tapeId ≠ r.id := by
  intro e
  simp only [Rec.var, Rec.dyn, e, decide_true, Bool.true_and] at hv hd
  rw [hd] at hv; simp at hv

theorem Den.of_con {w0 : World} {r : Rec} {a : AD} {d : World → ℝ} (h : Den c w0 r a d) (hv : ¬ r.var a = true)
    (hd : r.dyn a = false) : ∀ w, d w = a.value := by
  have := h.2
  rwa [if_neg (tapeId_ne hv hd)] at this

theorem parAddr_ok {w0 : World} {r : Rec} (hr : RInv c w0 r) {a : AD} {d : World → ℝ} (h : Den c w0 r a d)
    (hv : ¬ r.var a = true) :
    RInv c w0 (r.parAddr c a).1 ∧ Ext c r (r.parAddr c a).1 ∧ (r.parAddr c a).2 < (r.parAddr c a).1.parAll.length ∧
    (∀ w, (r.parAddr c a).1.parAt c w (r.parAddr c a).2 = d w) ∧ (r.parAddr c a).1.ops = r.ops ∧
    (r.parAddr c a).1.numVar = r.numVar := by
  unfold Rec.parAddr
  by_cases hd : r.dyn a = true
  · rw [if_pos hd]
    obtain ⟨h1, h2⟩ := h.of_dyn hd
    exact ⟨hr, Ext.refl r, h1, h2, rfl, rfl⟩
  · rw [if_neg hd]
    have hd' : r.dyn a = false := by simpa using hd
    obtain ⟨h1, h2, h3, h4, h5⟩ := putCon_ok (c := c) hr a.value
    exact ⟨h1, h2, h3, fun w => by rw [h4, h.of_con hv hd'], h5⟩

theorem Den.likeVar {w0 : World} {r : Rec} {a : AD} {d d' : World → ℝ} (h : Den c w0 r a d) (hv : r.var a = true)
    (hd : ∀ w, d' w = d w) {v : ℝ} (hv' : v = d' w0) : Den c w0 r (a.likeVar v) d' := by
  have hw := h.of_var hv
  simp only [Rec.var, Bool.and_eq_true, decide_eq_true_eq] at hv
  refine ⟨hv', ?_⟩
  show if a.tapeId = r.id then _ else _
  rw [if_pos hv.1]
  show if AdType.variable = .dynamic then _ else _
  rw [if_neg (by simp)]
  refine ⟨rfl, fun w => ?_⟩
  rw [hd]; exact hw w

theorem Den.likeDyn {w0 : World} {r : Rec} {a : AD} {d d' : World → ℝ} (h : Den c w0 r a d) (hv : r.dyn a = true)
    (hd : ∀ w, d' w = d w) {v : ℝ} (hv' : v = d' w0) : Den c w0 r (a.likeDyn v) d' := by
  have hw := h.of_dyn hv
  simp only [Rec.dyn, Bool.and_eq_true, decide_eq_true_eq] at hv
  refine ⟨hv', ?_⟩
  show if a.tapeId = r.id then _ else _
  rw [if_pos hv.1]
  show if AdType.dynamic = .dynamic then _ else _
  rw [if_pos rfl]
  exact ⟨hw.1, fun w => by rw [hd]; exact hw.2 w⟩

theorem Den.same {w0 : World} {r : Rec} {a : AD} {d d' : World → ℝ} (h : Den c w0 r a d)
    (hd : ∀ w, d' w = d w) {v : ℝ} (hv' : v = d' w0) : Den c w0 r { a with value := v } d' := by
  refine ⟨hv', ?_⟩
  have h2 := h.2
  show if a.tapeId = r.id then (if a.adType = .dynamic then _ else _) else _
  split_ifs at h2 ⊢ with h1 h3
  · exact ⟨h2.1, fun w => by rw [hd]; exact h2.2 w⟩
  · exact ⟨h2.1, fun w => by rw [hd]; exact h2.2 w⟩
  · intro w
    show d' w = v
    rw [hv', hd, hd, h2, h2]

/-- a function that does not depend on the arguments -/
theorem Den.const {w0 : World} {r : Rec} (a : AD) (ha : a.tapeId ≠ r.id) {d : World → ℝ}
    (hd : ∀ w, d w = a.value) : Den c w0 r a d := ⟨(hd w0).symm, by rw [if_neg ha]; exact hd⟩

/-- as `Den.const` for an object whose value is changed -/
theorem Den.keep {w0 : World} {r : Rec} {a : AD} (ha : a.tapeId ≠ r.id) {v : ℝ} {d : World → ℝ}
    (hd : ∀ w, d w = v) : Den c w0 r { a with value := v } d :=
  Den.const { a with value := v } (show a.tapeId ≠ r.id from ha) hd

theorem step_vv {w0 : World} {r : Rec} (hr : RInv c w0 r) {x y : AD} {dx dy d : World → ℝ} (hx : Den c w0 r x dx)
    (hy : Den c w0 r y dy) (vx : r.var x = true) (vy : r.var y = true) (op : ROp) (o : Op) (F : ℝ → ℝ → ℝ) {v : ℝ}
    (ho : ∀ par, op.toOp c.disc par = some o) (hn : o.nres = op.nres) (hp : op.parArgs = [])
    (ha : o.args = [x.taddr, y.taddr]) (hF : ∀ e, o.val e (op.nres - 1) = F (e x.taddr) (e y.taddr))
    (hd : ∀ w, d w = F (dx w) (dy w)) (hv : v = d w0) : Step c w0 r (r.putVar op v) d := by
  have h1 := hx.of_var vx
  have h2 := hy.of_var vy
  refine putVar_ok hr op (fun _ => o) (fun w => ho _) (fun _ => hn) (by simp [hp]) ?_ ?_ hv
  · intro w a h
    rw [ha] at h
    simp only [List.mem_cons, List.not_mem_nil, or_false] at h
    rcases h with rfl | rfl
    · exact (h1 w).1
    · exact (h2 w).1
  · intro w; rw [hF, (h1 w).2, (h2 w).2, hd]

/-- `x` is a parameter and `y` a variable -/
theorem step_pv {w0 : World} {r : Rec} (hr : RInv c w0 r) {x y : AD} {dx dy d : World → ℝ} (hx : Den c w0 r x dx)
    (hy : Den c w0 r y dy) (vx : ¬ r.var x = true) (vy : r.var y = true) (op : ℕ → ROp) (o : ℝ → Op) (F : ℝ → ℝ → ℝ) {v : ℝ}
    (ho : ∀ par p, (op p).toOp c.disc par = some (o (par p))) (hn : ∀ a p, (o a).nres = (op p).nres)
    (hp : ∀ p, (op p).parArgs = [p])
    (ha : ∀ a, (o a).args = [y.taddr]) (hF : ∀ a p e, (o a).val e ((op p).nres - 1) = F a (e y.taddr))
    (hd : ∀ w, d w = F (dx w) (dy w)) (hv : v = d w0) :
    Step c w0 r ((r.parAddr c x).1.putVar (op (r.parAddr c x).2) v) d := by
  obtain ⟨h1, h2, h3, h4, -⟩ := parAddr_ok hr hx vx
  have hy' := hy.of_var vy
  refine Step.after h2 (putVar_ok h1 _ (fun w => o (dx w)) (fun w => by rw [ho, h4]) (fun w => hn _ _) ?_ ?_ ?_ hv)
  · rw [hp]; simpa using h3
  · intro w a h
    rw [ha, List.mem_singleton] at h
    subst h
    exact (h2.env w _ (hy' w).1).1
  · intro w; rw [hF, (h2.env w _ (hy' w).1).2, (hy' w).2, hd]

theorem step_dynBin {w0 : World} {r : Rec} (hr : RInv c w0 r) {x y : AD} {dx dy d : World → ℝ} (hx : Den c w0 r x dx)
    (hy : Den c w0 r y dy) (vx : ¬ r.var x = true) (vy : ¬ r.var y = true) (f : BinF) {v : ℝ}
    (hd : ∀ w, d w = f.fn (dx w) (dy w)) (hv : v = d w0) :
    Step c w0 r (r.putDynBin c f x y v) d := by
  obtain ⟨h1, h2, h3, h4, -⟩ := parAddr_ok hr hx vx
  have hy' := hy.mono h2
  have vy' : ¬ (r.parAddr c x).1.var y = true := by
    unfold Rec.var at vy ⊢; rw [h2.id]; exact vy
  obtain ⟨k1, k2, k3, k4, -⟩ := parAddr_ok h1 hy' vy'
  refine Step.after h2 (Step.after k2 (putDyn_ok k1 _ ?_ ?_ hv))
  · intro a h
    simp only [DynOp.args, List.mem_cons, List.not_mem_nil, or_false] at h
    rcases h with rfl | rfl
    · exact lt_of_lt_of_le h3 k2.len
    · exact k3
  · intro w
    show f.fn (at' ((((r.parAddr c x).1.parAddr c y).1).parList c w) _) (at' ((((r.parAddr c x).1.parAddr c y).1).parList c w) _) = _
    have e1 := k2.par w _ h3
    have e2 := k4 w
    unfold Rec.parAt at e1 e2 h4
    rw [e1, e2, h4, hd]

end CppAD.Record
