/-
`fun2val`: the value graph has the values of the operation sequence.
-/
import Verif.ValGraph.Clean

namespace CppAD.ValGraph
open CppAD CppAD.Record CppAD.Optim CppAD.Graph Classical

/-! ### the operators -/

theorem swapLast_map {α β : Type} (f : α → β) (l : List α) : swapLast (l.map f) = (swapLast l).map f := by
  match l with
  | [] => rfl
  | [_] => rfl
  | [_, _] => rfl
  | [_, _, _] => rfl
  | [_, _, _, _] => rfl
  | _ :: _ :: _ :: _ :: _ :: _ => rfl

theorem swapLast_perm {α : Type} (l : List α) : (swapLast l).length = l.length ∧ ∀ a, a ∈ swapLast l ↔ a ∈ l := by
  match l with
  | [] => simp [swapLast]
  | [_] => simp [swapLast]
  | [_, _] => simp [swapLast]
  | [_, _, _] => simp [swapLast]
  | [_, _, _, _] => simp only [swapLast, List.mem_cons, List.not_mem_nil, or_false]; refine ⟨rfl, fun a => ?_⟩; tauto
  | _ :: _ :: _ :: _ :: _ :: _ => simp [swapLast]

/-- the operand list after the swap -/
def Todo.order {α : Type} (d : Todo) (l : List α) : List α := if d.swap = true then swapLast l else l

theorem Todo.order_map {α β : Type} (d : Todo) (f : α → β) (l : List α) : d.order (l.map f) = (d.order l).map f := by
  unfold Todo.order; split_ifs
  · exact swapLast_map f l
  · rfl

theorem Todo.order_perm {α : Type} (d : Todo) (l : List α) : (d.order l).length = l.length ∧ ∀ a, a ∈ d.order l ↔ a ∈ l := by
  unfold Todo.order; split_ifs
  · exact swapLast_perm l
  · simp

/-- what is recorded for an operator: it is simple, has one result, which is `r` -/
structure Todo.Ok (disc : ℕ → ℝ → ℝ) (P F : ℕ → ℝ) (d : Todo) (r : ℝ) : Prop where
  simple : d.kind.simple = true
  arity : d.kind.arityOk d.args.length
  one : d.kind.nres = 1
  comp : ∀ c, d.kind ≠ .comp c
  val : rd (d.kind.out (realPrim disc) (d.order (d.args.map fun a => some (a.val P F)))) 0 = some r

theorem holds_some (c : CompareOp) (a b : ℝ) (t f : V) :
    cexpVal (cexpCmp c).1 (some a) (some b) t f = if (cexpCmp c).2 = true then (if c.holds a b then f else t) else if c.holds a b then t else f := by
  have flip : ∀ (p q : Prop), (q ↔ ¬ p) → (if p then t else f) = if q then f else t := by
    intro p q h
    by_cases hp : p
    · rw [if_pos hp, if_neg fun hq => h.1 hq hp]
    · rw [if_neg hp, if_pos (h.2 hp)]
  cases c
  · exact (if_neg Bool.false_ne_true).symm
  · exact (if_neg Bool.false_ne_true).symm
  · exact (if_neg Bool.false_ne_true).symm
  · exact (flip (a < b) (a ≥ b) not_lt.symm).trans (if_pos rfl).symm
  · exact (flip (a ≤ b) (a > b) not_le.symm).trans (if_pos rfl).symm
  · exact (flip (a = b) (a ≠ b) Iff.rfl).trans (if_pos rfl).symm

variable {disc : ℕ → ℝ → ℝ} {P F : ℕ → ℝ}

theorem cexpTodo_ok (cop : CompareOp) (l r t f : Arg) :
    (cexpTodo cop l r t f).Ok disc P F (condExp cop (l.val P F) (r.val P F) (t.val P F) (f.val P F)) where
  simple := by cases cop <;> rfl
  arity := rfl
  one := rfl
  comp := by intro c; simp [cexpTodo]
  val := by
    have key : ∀ x : List V, x.length = 4 → rd ((cexpTodo cop l r t f).kind.out (realPrim disc) x) 0 = cexpVal (cexpCmp cop).1 (rd x 0) (rd x 1) (rd x 2) (rd x 3) := by
      intro x _; rfl
    rw [key _ (by rw [((cexpTodo cop l r t f).order_perm _).1]; rfl)]
    unfold Todo.order
    simp only [cexpTodo, List.map_cons, List.map_nil]
    by_cases h : (cexpCmp cop).2 = true
    · rw [if_pos h]
      simp only [swapLast, rd, List.getD_cons_zero, List.getD_cons_succ]
      rw [holds_some, if_pos h]
      unfold condExp
      split_ifs <;> rfl
    · rw [if_neg h]
      simp only [rd, List.getD_cons_zero, List.getD_cons_succ]
      rw [holds_some, if_neg h]
      unfold condExp
      split_ifs <;> rfl

theorem unKind_val (f : UnF) (x : ℝ) : rd ((unKind f).out (realPrim disc) [some x]) 0 = some (f.fn x) := by
  cases f <;> simp [unKind, Kind.out, realPrim, rd, Un.spec, vneg, UnF.fn]

theorem unKind_ok (f : UnF) : (unKind f).simple = true ∧ (unKind f).arityOk 1 ∧ (unKind f).nres = 1 ∧ ∀ c, unKind f ≠ .comp c := by
  cases f <;> simp [unKind, Kind.simple, Kind.arityOk, Kind.nres]

theorem binKind_val {f : BinF} {k : Kind} (h : binKind f = some k) (x y : ℝ) : rd (k.out (realPrim disc) [some x, some y]) 0 = some (f.fn x y) := by
  cases f <;> simp only [binKind, Option.some.injEq, reduceCtorEq] at h <;> subst h <;>
    simp [Kind.out, realPrim, rd, vadd, vsub, vmul, BinF.fn]

theorem binKind_ok {f : BinF} {k : Kind} (h : binKind f = some k) : k.simple = true ∧ k.arityOk 2 ∧ k.nres = 1 ∧ ∀ c, k ≠ .comp c := by
  cases f <;> simp only [binKind, Option.some.injEq, reduceCtorEq] at h <;> subst h <;> simp [Kind.simple, Kind.arityOk, Kind.nres]

theorem binTodo_ok {f : BinF} {k : Kind} (h : binKind f = some k) (a b : Arg) :
    (⟨k, [a, b], false⟩ : Todo).Ok disc P F (f.fn (a.val P F) (b.val P F)) := by
  obtain ⟨h1, h2, h3, h4⟩ := binKind_ok h
  exact ⟨h1, h2, h3, h4, binKind_val h _ _⟩

theorem foldl_some_add (l : List ℝ) (r : ℝ) : (l.map some).foldl vadd (some r) = some (r + l.sum) := by
  induction l generalizing r with
  | nil => simp
  | cons a l ih => simp only [List.map_cons, List.foldl_cons, vadd, List.sum_cons]; rw [ih, add_assoc]

theorem foldl_some_sub (l : List ℝ) (r : ℝ) : (l.map some).foldl vsub (some r) = some (r - l.sum) := by
  induction l generalizing r with
  | nil => simp
  | cons a l ih => simp only [List.map_cons, List.foldl_cons, vsub, List.sum_cons]; rw [ih]; congr 1; ring

theorem map_val_var (l : List ℕ) : (l.map Arg.var).map (fun a => a.val P F) = l.map F := by rw [List.map_map]; rfl

theorem map_val_par (l : List ℕ) : (l.map Arg.par).map (fun a => a.val P F) = l.map P := by rw [List.map_map]; rfl

/-- a variable operator -/
theorem varTodo_ok {op : VOp} {d : Todo} (h : varTodo op = some d) : d.Ok disc P F (op.res disc P (finSt F)) ∧
    (∀ a ∈ d.args, (∀ p ∈ a.pars, p ∈ op.pars) ∧ ∀ v ∈ a.vars, v ∈ op.vars) ∧ op.hasRes = true ∧ op.isInd = false := by
  cases op with
  | un f v =>
    simp only [varTodo, Option.some.injEq] at h; subst h
    obtain ⟨h1, h2, h3, h4⟩ := unKind_ok f
    exact ⟨⟨h1, h2, h3, h4, unKind_val f _⟩, by simp [Arg.pars, Arg.vars, VOp.vars], rfl, rfl⟩
  | pv f p v =>
    simp only [varTodo, Option.map_eq_some_iff] at h
    obtain ⟨k, hk, rfl⟩ := h
    exact ⟨binTodo_ok hk _ _, by simp [Arg.pars, Arg.vars, VOp.vars, VOp.pars], rfl, rfl⟩
  | vp f v p =>
    simp only [varTodo, Option.map_eq_some_iff] at h
    obtain ⟨k, hk, rfl⟩ := h
    exact ⟨binTodo_ok hk _ _, by simp [Arg.pars, Arg.vars, VOp.vars, VOp.pars], rfl, rfl⟩
  | vv f v u =>
    simp only [varTodo, Option.map_eq_some_iff] at h
    obtain ⟨k, hk, rfl⟩ := h
    exact ⟨binTodo_ok hk _ _, by simp [Arg.pars, Arg.vars, VOp.vars, VOp.pars], rfl, rfl⟩
  | dis k v =>
    simp only [varTodo, Option.some.injEq] at h; subst h
    exact ⟨⟨rfl, rfl, rfl, by simp, by simp [Todo.order, Kind.out, realPrim, rd, Arg.val, VOp.res, finSt]⟩,
      by simp [Arg.pars, Arg.vars, VOp.vars], rfl, rfl⟩
  | cexp cop l r t f =>
    simp only [varTodo, Option.some.injEq] at h; subst h
    refine ⟨cexpTodo_ok cop l r t f, ?_, rfl, rfl⟩
    intro a ha
    simp only [cexpTodo, List.mem_cons, List.not_mem_nil, or_false] at ha
    simp only [VOp.pars, VOp.vars, List.mem_append]
    rcases ha with rfl | rfl | rfl | rfl <;> exact ⟨fun p hp => by simp [hp], fun p hp => by simp [hp]⟩
  | csum c av sv ad sd =>
    simp only [varTodo, Option.some.injEq] at h; subst h
    refine ⟨⟨rfl, ?_, rfl, by simp, ?_⟩, ?_, rfl, rfl⟩
    · simp only [Kind.arityOk, List.length_cons, List.length_append, List.length_map]; omega
    · simp only [Todo.order, Bool.false_eq_true, if_false, Kind.out, rd_cons_zero]
      have e : (Arg.par c :: (av.map .var ++ (ad.map .par ++ (sv.map .var ++ sd.map .par)))).map (fun a => (some (a.val P F) : V)) =
          (P c :: (av.map F ++ ad.map P)).map some ++ (sv.map F ++ sd.map P).map some := by
        simp only [List.map_cons, List.map_append, List.map_map, List.append_assoc, List.cons_append]
        rfl
      rw [e, List.take_left' (by simp; omega), List.drop_left' (by simp; omega), foldl_some_add, foldl_some_sub]
      simp only [VOp.res, finSt, sumOver, List.sum_cons, List.sum_append]
      congr 1; ring
    · intro a ha
      simp only [List.mem_cons, List.mem_append, List.mem_map] at ha
      simp only [VOp.pars, VOp.vars, List.mem_append, List.mem_cons]
      rcases ha with rfl | ⟨v, hv, rfl⟩ | ⟨v, hv, rfl⟩ | ⟨v, hv, rfl⟩ | ⟨v, hv, rfl⟩ <;> simp [Arg.pars, Arg.vars, *]
  | _ => simp [varTodo] at h

/-- an operator for a dynamic parameter -/
theorem dynTodo_ok {op : DynOp} {d : Todo} (h : dynTodo op = some d) (ind : List ℝ) (k : ℕ) (Pl : List ℝ) :
    d.Ok disc (at' Pl) F (op.eval disc ind k Pl) ∧ (∀ a ∈ d.args, ∃ p ∈ op.args, a = .par p) := by
  cases op with
  | ind => simp [dynTodo] at h
  | atom A sel i args => simp [dynTodo] at h
  | un f a =>
    cases f <;> simp only [dynTodo, Option.some.injEq, reduceCtorEq] at h
    subst h
    exact ⟨⟨rfl, rfl, rfl, by simp, by simp [Todo.order, Kind.out, rd, Arg.val, vneg, DynOp.eval, UnF.fn]⟩, by simp [DynOp.args]⟩
  | bin f a b =>
    cases f <;> simp only [dynTodo, Option.some.injEq, reduceCtorEq] at h
    · subst h; exact ⟨binTodo_ok (f := .add) rfl _ _, by simp [DynOp.args]⟩
    · subst h; exact ⟨binTodo_ok (f := .sub) rfl _ _, by simp [DynOp.args]⟩
  | dis k a =>
    simp only [dynTodo, Option.some.injEq] at h; subst h
    exact ⟨⟨rfl, rfl, rfl, by simp, by simp [Todo.order, Kind.out, realPrim, rd, Arg.val, DynOp.eval]⟩, by simp [DynOp.args]⟩
  | cexp cop l r t f =>
    simp only [dynTodo, Option.some.injEq] at h; subst h
    refine ⟨cexpTodo_ok cop _ _ _ _, ?_⟩
    intro a ha
    simp only [cexpTodo, List.mem_cons, List.not_mem_nil, or_false] at ha
    rcases ha with rfl | rfl | rfl | rfl <;> simp [DynOp.args]

/-! ### the state -/

/-- invariant of `fun2val`: `okd` are the dynamic parameters that have been put on the tape, `c` is the number of comparisons
on the tape that are false -/
structure F2VI (disc : ℕ → ℝ → ℝ) (T : OTape) (xv : List V) (P F : ℕ → ℝ) (okd : ℕ → Prop) (c : ℕ) (s : F2V) : Prop where
  wf : s.T.WF
  clean : s.T.Clean
  nInd : s.T.nInd = T.nInd + T.n
  set : ∀ p, okd p → ∃ a, s.p2v p = some a
  par : ∀ p a, s.p2v p = some a → a < s.T.nVal ∧ a ≠ s.T.nInd
  var : ∀ v a, s.v2v v = some a → a < s.T.nVal ∧ a ≠ s.T.nInd
  sol : ∀ w, Sol s.T (realPrim disc) xv w → (∀ p a, s.p2v p = some a → w a = some (P p)) ∧
    (∀ v a, s.v2v v = some a → w a = some (F v)) ∧ s.T.nodes.countP (fun nd => decide (FalseAt w nd)) = c

/-- `s'` is a later state, `k` more values -/
structure Later (disc : ℕ → ℝ → ℝ) (xv : List V) (s s' : VTape) : Prop where
  nVal : s.nVal ≤ s'.nVal
  nInd : s'.nInd = s.nInd
  sol : ∀ w, Sol s' (realPrim disc) xv w → Sol s (realPrim disc) xv w

theorem Later.refl (xv : List V) (s : VTape) : Later disc xv s s := ⟨le_rfl, rfl, fun _ h => h⟩

theorem Later.trans {xv : List V} {s s' s'' : VTape} (h : Later disc xv s s') (h' : Later disc xv s' s'') : Later disc xv s s'' :=
  ⟨h.nVal.trans h'.nVal, h'.nInd.trans h.nInd, fun w hw => h.sol w (h'.sol w hw)⟩

variable {T : OTape} {xv : List V} {okd : ℕ → Prop} {c : ℕ}

theorem tail_append {l : List Node} {nd : Node} (h : ∃ t, l = ⟨.con none, []⟩ :: t) : (l ++ [nd]).tail = l.tail ++ [nd] := by
  obtain ⟨t, rfl⟩ := h; rfl

theorem push_clean {S : VTape} (hw : S.WF) (hc : S.Clean) {nd : Node} (h : nd.Clean S.nInd) : (S.push nd).1.Clean := by
  refine ⟨?_, hc.dep⟩
  show ∀ m ∈ (S.nodes ++ [nd]).tail, m.Clean S.nInd
  rw [tail_append hw.head]
  intro m hm
  rcases List.mem_append.1 hm with h' | h'
  · exact hc.nodes m h'
  · rw [List.mem_singleton] at h'; rw [h']; exact h

theorem push_later {S : VTape} (nd : Node) : Later disc xv S (S.push nd).1 :=
  ⟨by rw [push_nVal]; omega, rfl, fun _ h => (push_sol h).1⟩

/-- an operator with one result -/
theorem put_one {s : F2V} (h : F2VI disc T xv P F okd c s) {nd : Node} (hn : nd.Clean s.T.nInd) (ha : ∀ a ∈ nd.args, a < s.T.nVal)
    (hk : nd.kind.arityOk nd.args.length) (h1 : nd.kind.nres = 1) (hc : ∀ c, nd.kind ≠ .comp c) :
    F2VI disc T xv P F okd c ⟨(s.T.push nd).1, s.p2v, s.v2v⟩ ∧ (s.T.push nd).2 < (s.T.push nd).1.nVal ∧ (s.T.push nd).2 ≠ s.T.nInd ∧
      ∀ w, Sol (s.T.push nd).1 (realPrim disc) xv w → w (s.T.push nd).2 = rd (nd.kind.out (realPrim disc) (nd.args.map w)) 0 := by
  have hv : (s.T.push nd).1.nVal = s.T.nVal + 1 := by rw [push_nVal]; simp [Node.nres, h1]
  refine ⟨⟨push_wf h.wf ha hk, push_clean h.wf h.clean hn, h.nInd, h.set, fun p a hp => ?_, fun p a hp => ?_, fun w hw => ?_⟩, ?_, ?_, ?_⟩
  · obtain ⟨q1, q2⟩ := h.par p a hp; exact ⟨by rw [hv]; omega, q2⟩
  · obtain ⟨q1, q2⟩ := h.var p a hp; exact ⟨by rw [hv]; omega, q2⟩
  · obtain ⟨q1, q2, q3⟩ := h.sol w (push_sol hw).1
    refine ⟨q1, q2, ?_⟩
    rw [push_countP, q3]
    have : ¬ FalseAt w nd := by
      unfold FalseAt; split
      · rename_i c' hk'; exact absurd hk' (hc c')
      · simp
    rw [if_neg this, Nat.add_zero]
  · rw [hv, push_snd]; omega
  · have := nVal_pos h.wf; rw [push_snd]; omega
  · intro w hw
    have := (push_sol hw).2 0 (by simp [Node.nres, h1])
    rw [push_snd]; exact this

/-- setting the index of a dynamic parameter -/
theorem F2VI.setPar {s : F2V} (h : F2VI disc T xv P F okd c s) {p a : ℕ} (h1 : a < s.T.nVal) (h2 : a ≠ s.T.nInd)
    (h3 : ∀ w, Sol s.T (realPrim disc) xv w → w a = some (P p)) :
    F2VI disc T xv P F (fun q => okd q ∨ q = p) c ⟨s.T, Function.update s.p2v p (some a), s.v2v⟩ where
  wf := h.wf
  clean := h.clean
  nInd := h.nInd
  set q hq := by
    by_cases e : q = p
    · subst e; exact ⟨_, Function.update_self ..⟩
    · simp only [Function.update_of_ne e]; exact h.set q (hq.resolve_right e)
  par q b hb := by
    by_cases e : q = p
    · subst e; simp only [Function.update_self, Option.some.injEq] at hb; subst hb; exact ⟨h1, h2⟩
    · simp only [Function.update_of_ne e] at hb; exact h.par q b hb
  var := h.var
  sol w hw := by
    obtain ⟨w1, w2, w3⟩ := h.sol w hw
    refine ⟨fun q b hb => ?_, w2, w3⟩
    by_cases e : q = p
    · subst e; simp only [Function.update_self, Option.some.injEq] at hb; subst hb; exact h3 w hw
    · simp only [Function.update_of_ne e] at hb; exact w1 q b hb

theorem F2VI.mono {okd' : ℕ → Prop} {s : F2V} (h : F2VI disc T xv P F okd c s) (h' : ∀ p, okd' p → okd p) : F2VI disc T xv P F okd' c s :=
  ⟨h.wf, h.clean, h.nInd, fun p hp => h.set p (h' p hp), h.par, h.var, h.sol⟩

/-- the parameter can be recorded: it is a constant or it was recorded -/
def ParOk (T : OTape) (okd : ℕ → Prop) (p : ℕ) : Prop :=
  1 ≤ p ∧ p < T.dyn.parAll.length ∧ (T.dyn.parIsDyn.getD p false = false ∨ okd p)

theorem ensure_ok {s : F2V} (h : F2VI disc T xv P F okd c s) {p : ℕ} (hp : ParOk T okd p)
    (hP : T.dyn.parIsDyn.getD p false = false → P p = at' T.dyn.parAll p) :
    F2VI disc T xv P F okd c (s.ensure T p).1 ∧ Later disc xv s.T (s.ensure T p).1.T ∧ (s.ensure T p).1.v2v = s.v2v ∧
      (s.ensure T p).2 < (s.ensure T p).1.T.nVal ∧ (s.ensure T p).2 ≠ s.T.nInd ∧
      ∀ w, Sol (s.ensure T p).1.T (realPrim disc) xv w → w (s.ensure T p).2 = some (P p) := by
  unfold F2V.ensure
  cases hs : s.p2v p with
  | some a =>
    obtain ⟨h1, h2⟩ := h.par p a hs
    exact ⟨h, Later.refl _ _, rfl, h1, h2, fun w hw => (h.sol w hw).1 p a hs⟩
  | none =>
    have hcon : T.dyn.parIsDyn.getD p false = false := by
      rcases hp.2.2 with h' | h'
      · exact h'
      · obtain ⟨a, ha⟩ := h.set p h'; rw [hs] at ha; cases ha
    have e : parV T p = some (at' T.dyn.parAll p) := by unfold parV; rw [if_neg (by have := hp.1; omega)]
    have e2 : s.T.recordCon (parV T p) = s.T.push ⟨.con (some (at' T.dyn.parAll p)), []⟩ := by
      unfold VTape.recordCon; rw [e, if_neg (by simp)]
    dsimp only
    rw [e2]
    obtain ⟨q1, q2, q3, q4⟩ := put_one h (nd := ⟨.con (some (at' T.dyn.parAll p)), []⟩) ⟨rfl, by simp⟩ (by simp) rfl rfl (by simp)
    have q5 : ∀ w, Sol (s.T.push ⟨.con (some (at' T.dyn.parAll p)), []⟩).1 (realPrim disc) xv w →
        w (s.T.push ⟨.con (some (at' T.dyn.parAll p)), []⟩).2 = some (P p) := by
      intro w hw; rw [q4 w hw, hP hcon]; simp [Kind.out, rd]
    exact ⟨(q1.setPar q2 q3 q5).mono fun _ h => Or.inl h, push_later _, rfl, q2, q3, q5⟩

/-- the operands of an operator -/
theorem args_ok (hP : ∀ p, p < T.dyn.parAll.length → T.dyn.parIsDyn.getD p false = false → P p = at' T.dyn.parAll p) :
    ∀ (l : List Arg) {s : F2V}, F2VI disc T xv P F okd c s → (∀ a ∈ l, ∀ p ∈ a.pars, ParOk T okd p) → ∀ {q}, F2V.args T l s = some q →
    F2VI disc T xv P F okd c q.1 ∧ Later disc xv s.T q.1.T ∧ q.1.v2v = s.v2v ∧ q.2.length = l.length ∧
      (∀ a ∈ q.2, a < q.1.T.nVal ∧ a ≠ s.T.nInd) ∧
      ∀ w, Sol q.1.T (realPrim disc) xv w → q.2.map w = l.map fun a => some (a.val P F) := by
  intro l
  induction l with
  | nil =>
    intro s h _ q hq
    simp only [F2V.args, Option.some.injEq] at hq; subst hq
    exact ⟨h, Later.refl _ _, rfl, rfl, by simp, fun _ _ => rfl⟩
  | cons a l ih =>
    intro s h ha q hq
    simp only [F2V.args, Option.bind_eq_some_iff, Option.map_eq_some_iff] at hq
    obtain ⟨r, hr, q', hq', rfl⟩ := hq
    have key : F2VI disc T xv P F okd c r.1 ∧ Later disc xv s.T r.1.T ∧ r.1.v2v = s.v2v ∧ r.2 < r.1.T.nVal ∧ r.2 ≠ s.T.nInd ∧
        ∀ w, Sol r.1.T (realPrim disc) xv w → w r.2 = some (a.val P F) := by
      cases a with
      | par p =>
        simp only [F2V.arg, Option.some.injEq] at hr; subst hr
        have hp := ha (.par p) List.mem_cons_self p (by simp [Arg.pars])
        exact ensure_ok h hp (hP p hp.2.1)
      | var v =>
        simp only [F2V.arg, Option.map_eq_some_iff] at hr
        obtain ⟨b, hb, rfl⟩ := hr
        obtain ⟨h1, h2⟩ := h.var v b hb
        exact ⟨h, Later.refl _ _, rfl, h1, h2, fun w hw => (h.sol w hw).2.1 v b hb⟩
    obtain ⟨k1, k2, k3, k4, k5, k6⟩ := key
    obtain ⟨i1, i2, i3, i4, i5, i6⟩ := ih k1 (fun a h => ha a (List.mem_cons_of_mem _ h)) hq'
    refine ⟨i1, k2.trans i2, i3.trans k3, by simp [i4], ?_, ?_⟩
    · intro b hb
      rcases List.mem_cons.1 hb with rfl | hb
      · exact ⟨lt_of_lt_of_le k4 i2.nVal, k5⟩
      · obtain ⟨j1, j2⟩ := i5 b hb; exact ⟨j1, by rw [← k2.nInd]; exact j2⟩
    · intro w hw
      simp only [List.map_cons]
      rw [k6 w (i2.sol w hw), i6 w hw]

/-- one operator with a result -/
theorem put_ok (hP : ∀ p, p < T.dyn.parAll.length → T.dyn.parIsDyn.getD p false = false → P p = at' T.dyn.parAll p)
    {d : Todo} {r : ℝ} (hd : d.Ok disc P F r) {s : F2V} (h : F2VI disc T xv P F okd c s)
    (ha : ∀ a ∈ d.args, ∀ p ∈ a.pars, ParOk T okd p) {q} (hq : s.put T d = some q) :
    F2VI disc T xv P F okd c q.1 ∧ q.2 < q.1.T.nVal ∧ q.2 ≠ q.1.T.nInd ∧
      ∀ w, Sol q.1.T (realPrim disc) xv w → w q.2 = some r := by
  simp only [F2V.put, Option.map_eq_some_iff] at hq
  obtain ⟨u, hu, rfl⟩ := hq
  obtain ⟨i1, i2, i3, i4, i5, i6⟩ := args_ok hP d.args h ha hu
  obtain ⟨p1, p2⟩ := d.order_perm u.2
  have e : (if d.swap = true then swapLast u.2 else u.2) = d.order u.2 := rfl
  rw [e]
  obtain ⟨o1, o2, o3, o4⟩ := put_one i1 (nd := ⟨d.kind, d.order u.2⟩) ⟨hd.simple, fun a h' => by rw [i2.nInd]; exact (i5 a ((p2 a).1 h')).2⟩
    (fun a h' => (i5 a ((p2 a).1 h')).1) (by show d.kind.arityOk _; rw [p1, i4]; exact hd.arity) hd.one hd.comp
  refine ⟨o1, o2, o3, fun w hw => ?_⟩
  rw [o4 w hw, ← hd.val]
  dsimp only
  rw [← d.order_map, i6 w ((push_sol hw).1)]

/-- setting the index of a variable -/
theorem F2VI.setVar {s : F2V} (h : F2VI disc T xv P F okd c s) {p a : ℕ} (h1 : a < s.T.nVal) (h2 : a ≠ s.T.nInd)
    (h3 : ∀ w, Sol s.T (realPrim disc) xv w → w a = some (F p)) :
    F2VI disc T xv P F okd c ⟨s.T, s.p2v, Function.update s.v2v p (some a)⟩ where
  wf := h.wf
  clean := h.clean
  nInd := h.nInd
  set := h.set
  par := h.par
  var q b hb := by
    by_cases e : q = p
    · subst e; simp only [Function.update_self, Option.some.injEq] at hb; subst hb; exact ⟨h1, h2⟩
    · simp only [Function.update_of_ne e] at hb; exact h.var q b hb
  sol w hw := by
    obtain ⟨w1, w2, w3⟩ := h.sol w hw
    refine ⟨w1, fun q b hb => ?_, w3⟩
    by_cases e : q = p
    · subst e; simp only [Function.update_self, Option.some.injEq] at hb; subst hb; exact h3 w hw
    · simp only [Function.update_of_ne e] at hb; exact w2 q b hb

theorem cmpKind_holds (k : CmpF) (a b : ℝ) : (cmpKind k).holds (some a) (some b) ↔ CmpF.holds k a b := by
  cases k <;> rfl

theorem look_ok {s : F2V} (h : F2VI disc T xv P F okd c s) {a : Arg} {b : ℕ} (hb : s.look a = some b) :
    b < s.T.nVal ∧ b ≠ s.T.nInd ∧ ∀ w, Sol s.T (realPrim disc) xv w → w b = some (a.val P F) := by
  cases a with
  | par p => exact ⟨(h.par p b hb).1, (h.par p b hb).2, fun w hw => (h.sol w hw).1 p b hb⟩
  | var p => exact ⟨(h.var p b hb).1, (h.var p b hb).2, fun w hw => (h.sol w hw).2.1 p b hb⟩

/-- one variable operator -/
theorem f2vVar_ok (hP : ∀ p, p < T.dyn.parAll.length → T.dyn.parIsDyn.getD p false = false → P p = at' T.dyn.parAll p)
    {i : ℕ} {s s' : F2V} (h : F2VI disc T xv P F okd c s) (hs : f2vVar T i s = some s')
    (hp : ∀ p ∈ (T.op i).pars, ParOk T okd p)
    (hF : (T.op i).hasRes = true → (T.op i).isInd = false → F i = (T.op i).res disc P (finSt F)) :
    F2VI disc T xv P F okd (c + opFail P F (T.op i)) s' := by
  have gen : ∀ op, T.op i = op → ((varTodo op).bind fun d => (s.put T d).map fun r =>
      (⟨r.1.T, r.1.p2v, Function.update r.1.v2v i (some r.2)⟩ : F2V)) = some s' → F2VI disc T xv P F okd (c + opFail P F (T.op i)) s' := by
    intro op hop he
    simp only [Option.bind_eq_some_iff, Option.map_eq_some_iff] at he
    obtain ⟨d, hd, q, hq, rfl⟩ := he
    obtain ⟨t1, t2, t3, t4⟩ := varTodo_ok (disc := disc) (P := P) (F := F) hd
    obtain ⟨p1, p2, p3, p4⟩ := put_ok hP t1 h (fun a ha p hp' => hp p (by rw [hop]; exact (t2 a ha).1 p hp')) hq
    have e : opFail P F (T.op i) = 0 := by
      rw [hop]; cases op <;> first | rfl | simp [VOp.hasRes] at t3
    rw [e, Nat.add_zero]
    refine p1.setVar p2 p3 fun w hw => ?_
    rw [p4 w hw, hF (by rw [hop]; exact t3) (by rw [hop]; exact t4), hop]
  unfold f2vVar at hs
  cases hop : T.op i with
  | begin =>
    rw [hop] at hs
    simp only [Option.some.injEq] at hs; subst hs
    exact h
  | inv =>
    rw [hop] at hs
    simp only [Option.some.injEq] at hs; subst hs
    exact h
  | par p =>
    rw [hop] at hs hp hF
    simp only [Option.some.injEq] at hs; subst hs
    have hp' := hp p (by simp [VOp.pars])
    obtain ⟨e1, e2, e3, e4, e5, e6⟩ := ensure_ok h hp' (hP p hp'.2.1)
    refine e1.setVar e4 (by rw [e2.nInd]; exact e5) fun w hw => ?_
    rw [e6 w hw, hF rfl rfl]; rfl
  | cmp k a b =>
    rw [hop] at hs
    simp only [Option.bind_eq_some_iff, Option.map_eq_some_iff] at hs
    obtain ⟨l, hl, r, hr, rfl⟩ := hs
    obtain ⟨l1, l2, l3⟩ := look_ok h hl
    obtain ⟨r1, r2, r3⟩ := look_ok h hr
    have hv : (s.T.push ⟨.comp (cmpKind k), [l, r]⟩).1.nVal = s.T.nVal := by rw [push_nVal]; rfl
    refine ⟨push_wf h.wf (by simp [l1, r1]) rfl, push_clean h.wf h.clean ⟨by cases k <;> rfl, by simp [l2, r2]⟩, h.nInd, h.set,
      fun p a hp => by rw [hv]; exact h.par p a hp, fun p a hp => by rw [hv]; exact h.var p a hp, fun w hw => ?_⟩
    obtain ⟨w1, w2, w3⟩ := h.sol w (push_sol hw).1
    refine ⟨w1, w2, ?_⟩
    rw [push_countP, w3]
    congr 1
    have e : FalseAt w ⟨.comp (cmpKind k), [l, r]⟩ ↔ ¬ CmpF.holds k (a.val P F) (b.val P F) := by
      simp only [FalseAt, List.getD_cons_zero, List.getD_cons_succ]
      rw [l3 w (push_sol hw).1, r3 w (push_sol hw).1, cmpKind_holds]
    simp only [opFail]
    by_cases h' : CmpF.holds k (a.val P F) (b.val P F)
    · rw [if_pos h', if_neg (fun h'' => e.1 h'' h')]
    · rw [if_neg h', if_pos (e.2 h')]
  | _ =>
    rw [hop] at hs
    have := gen _ hop hs
    rw [hop] at this
    exact this

end CppAD.ValGraph
