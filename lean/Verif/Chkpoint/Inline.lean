import Verif.Chkpoint.Thm

/-! # Replacing a call of a checkpoint function by the operations of the inner function

This is what recording the outer algorithm without `chkpoint_two` puts on the tape.  The two recordings evaluate to the same
function and are smooth at the same points. -/

open scoped ContDiff Topology

namespace CppAD

/-- *Specification*: the operand with another variable -/
def Opd.rename (s : ℕ → ℕ) : Opd → Opd
  | .par c => .par c
  | .var v => .var (s v)

theorem Opd.rename_val (s : ℕ → ℕ) (o : Opd) (e : ℕ → ℝ) : (o.rename s).val e = o.val (fun v => e (s v)) := by
  cases o <;> rfl

/-- *Specification*: the call with other variables as arguments -/
def AtomCall.rename (s : ℕ → ℕ) (c : AtomCall) : AtomCall where
  A := c.A
  x j := (c.x j).rename s
  y := c.y
  some_var := c.some_var
  par_res := by
    intro e i hi p h
    have := c.par_res (fun v => e (s v)) i hi p h
    convert this using 3 with j
    cases c.x j <;> rfl
  ident := c.ident
  ident_ok := by intro j h; rw [c.ident_ok j h]; rfl

/-- *Specification*: the operator with other variables as arguments -/
noncomputable def Op.rename (s : ℕ → ℕ) : Op → Op
  | .abs ix => .abs (s ix)
  | .acos ix => .acos (s ix)
  | .acosh ix => .acosh (s ix)
  | .asin ix => .asin (s ix)
  | .asinh ix => .asinh (s ix)
  | .atan ix => .atan (s ix)
  | .atanh ix => .atanh (s ix)
  | .cos ix => .cos (s ix)
  | .cosh ix => .cosh (s ix)
  | .erf ix => .erf (s ix)
  | .erfc ix => .erfc (s ix)
  | .exp ix => .exp (s ix)
  | .expm1 ix => .expm1 (s ix)
  | .log ix => .log (s ix)
  | .log1p ix => .log1p (s ix)
  | .neg ix => .neg (s ix)
  | .sign ix => .sign (s ix)
  | .sin ix => .sin (s ix)
  | .sinh ix => .sinh (s ix)
  | .sqrt ix => .sqrt (s ix)
  | .tan ix => .tan (s ix)
  | .tanh ix => .tanh (s ix)
  | .addpv x iy => .addpv x (s iy)
  | .divpv x iy => .divpv x (s iy)
  | .mulpv x iy => .mulpv x (s iy)
  | .powpv x iy => .powpv x (s iy)
  | .subpv x iy => .subpv x (s iy)
  | .zmulpv x iy => .zmulpv x (s iy)
  | .divvp ix y => .divvp (s ix) y
  | .powvp ix y => .powvp (s ix) y
  | .subvp ix y => .subvp (s ix) y
  | .zmulvp ix y => .zmulvp (s ix) y
  | .addvv ix iy => .addvv (s ix) (s iy)
  | .divvv ix iy => .divvv (s ix) (s iy)
  | .mulvv ix iy => .mulvv (s ix) (s iy)
  | .powvv ix iy => .powvv (s ix) (s iy)
  | .subvv ix iy => .subvv (s ix) (s iy)
  | .zmulvv ix iy => .zmulvv (s ix) (s iy)
  | .atom c => .atom (c.rename s)
  | .cexp o l r t f => .cexp o (l.rename s) (r.rename s) (t.rename s) (f.rename s)
  | .csum c av sv ap sp => .csum c (av.map s) (sv.map s) ap sp
  | .dis fn ix => .dis fn (s ix)
  | .par c => .par c

theorem Op.rename_nres (s : ℕ → ℕ) (op : Op) : (op.rename s).nres = op.nres := by cases op <;> rfl

theorem Op.rename_naux (s : ℕ → ℕ) (op : Op) : (op.rename s).naux = op.naux := by cases op <;> rfl

theorem AtomCall.rename_args (s : ℕ → ℕ) (c : AtomCall) (a : ℕ) : a ∈ (c.rename s).args ↔ ∃ b ∈ c.args, s b = a := by
  rw [AtomCall.mem_args]
  constructor
  · rintro ⟨j, hj, h⟩
    have h : (c.x j).rename s = .var a := h
    cases hx : c.x j with
    | par p => rw [hx] at h; cases h
    | var v =>
      rw [hx] at h
      cases h
      exact ⟨v, c.mem_args.mpr ⟨j, hj, hx⟩, rfl⟩
  · rintro ⟨b, hb, rfl⟩
    obtain ⟨j, hj, h⟩ := c.mem_args.mp hb
    exact ⟨j, hj, by show (c.x j).rename s = _; rw [h]; rfl⟩

theorem Opd.rename_vars (s : ℕ → ℕ) (o : Opd) : (o.rename s).vars = o.vars.map s := by cases o <;> rfl

theorem Op.rename_args (s : ℕ → ℕ) (op : Op) (a : ℕ) : a ∈ (op.rename s).args ↔ ∃ b ∈ op.args, s b = a := by
  cases op with
  | atom c => exact AtomCall.rename_args s c a
  | _ => simp [Op.rename, Op.args, cexpArgs, Opd.rename_vars, eq_comm, or_and_right, exists_or]

theorem Op.rename_val (s : ℕ → ℕ) (op : Op) (e : ℕ → ℝ) (r : ℕ) : (op.rename s).val e r = op.val (fun v => e (s v)) r := by
  cases op with
  | atom c =>
    show (c.rename s).A.fn ((c.rename s).xv e) ((c.rename s).comp r) = c.A.fn (c.xv _) (c.comp r)
    have : (c.rename s).xv e = c.xv (fun v => e (s v)) := by
      funext j; exact Opd.rename_val s (c.x j) e
    rw [this]
    rfl
  | _ => simp [Op.rename, Op.val, Opd.rename_val, Function.comp_def]

theorem Op.rename_dom (s : ℕ → ℕ) (op : Op) (e : ℕ → ℝ) : (op.rename s).dom e ↔ op.dom (fun v => e (s v)) := by
  cases op with
  | atom c =>
    show (c.rename s).xv e ∈ c.A.dom ↔ c.xv _ ∈ c.A.dom
    have : (c.rename s).xv e = c.xv (fun v => e (s v)) := by
      funext j; exact Opd.rename_val s (c.x j) e
    rw [this]
    exact Iff.rfl
  | cexp o l r t f =>
    have hp : ∀ o : Opd, (o.rename s).isPar ↔ o.isPar := by intro o; cases o <;> exact Iff.rfl
    simp [Op.rename, Op.dom, cexpDom, Opd.rename_val, hp]
  | _ => rfl

/-- operations with renamed variables: values, domain and well formedness -/
theorem rename_sim (s : ℕ → ℕ) (ops : List Op) : ∀ (nv nv' : ℕ) (U U' : Set ℕ) (e e' : ℕ → ℝ), (∀ a ∈ U, a < nv) → (∀ a ∈ U', a < nv') →
    WFOps ops nv U → (∀ v ∈ U, s v ∈ U') → (∀ v ∈ U, e' (s v) = e v) → (∀ k, s (nv + k) = nv' + k) →
    WFOps (ops.map (Op.rename s)) nv' U' ∧ (domOps (ops.map (Op.rename s)) nv' e' ↔ domOps ops nv e) ∧
    (∀ v ∈ usable ops nv U, s v ∈ usable (ops.map (Op.rename s)) nv' U' ∧
      evalOps (ops.map (Op.rename s)) nv' e' (s v) = evalOps ops nv e v) ∧
    numVar (ops.map (Op.rename s)) nv' + nv = numVar ops nv + nv' := by
  induction ops with
  | nil =>
    intro nv nv' U U' e e' _ _ _ h1 h2 _
    exact ⟨trivial, Iff.rfl, fun v hv => ⟨h1 v hv, h2 v hv⟩, by simp [numVar]; omega⟩
  | cons op ops ih =>
    intro nv nv' U U' e e' hU hU' hw h1 h2 h3
    have hn := Op.rename_nres s op
    have hval : ∀ r, (op.rename s).val e' r = op.val e r := by
      intro r
      rw [Op.rename_val]
      exact op.cert.val_congr _ _ (fun a ha => h2 a (hw.1 a ha)) r
    have hdom : (op.rename s).dom e' ↔ op.dom e := by
      rw [Op.rename_dom]
      exact ⟨op.cert.dom_congr _ _ (fun a ha => h2 a (hw.1 a ha)), op.cert.dom_congr _ _ (fun a ha => (h2 a (hw.1 a ha)).symm)⟩
    have hstep := ih (nv + op.nres) (nv' + op.nres) (addRes op nv U) (addRes (op.rename s) nv' U') (stepEnv op nv e)
      (stepEnv (op.rename s) nv' e') (U_insert op hU) (by rw [← hn]; exact U_insert (op.rename s) hU') hw.2 ?_ ?_ ?_
    · obtain ⟨a1, a2, a3, a4⟩ := hstep
      refine ⟨⟨?_, ?_⟩, ?_, ?_, ?_⟩
      · intro a ha
        obtain ⟨b, hb, rfl⟩ := (Op.rename_args s op a).1 ha
        exact h1 b (hw.1 b hb)
      · rw [hn]; exact a1
      · show (op.rename s).dom e' ∧ _ ↔ op.dom e ∧ _
        rw [hdom, hn]
        exact and_congr_right fun _ => a2
      · intro v hv
        show _ ∈ usable (ops.map _) (nv' + (op.rename s).nres) _ ∧ evalOps (ops.map _) (nv' + (op.rename s).nres) _ _ = _
        rw [hn]
        exact a3 v hv
      · show numVar (ops.map _) (nv' + (op.rename s).nres) + nv = numVar ops (nv + op.nres) + nv'
        rw [hn]
        omega
    · rintro v (⟨hv1, hv2⟩ | hv)
      · refine Or.inl ?_
        have := h3 (v - nv)
        rw [Nat.add_sub_cancel' (by omega)] at this
        rw [Set.mem_ofPred_eq, this, Op.rename_naux, hn]
        omega
      · exact Or.inr (h1 v hv)
    · rintro v (⟨hv1, hv2⟩ | hv)
      · have := h3 (v - nv)
        rw [Nat.add_sub_cancel' (by omega)] at this
        unfold stepEnv
        rw [if_pos (by rw [this, hn]; omega), if_pos (by omega), this, hval]
        congr 1
        omega
      · have := hU v hv
        have := hU' _ (h1 v hv)
        unfold stepEnv
        rw [if_neg (by omega), if_neg (by omega)]
        exact h2 v hv
    · intro k
      rw [Nat.add_assoc, h3, Nat.add_assoc]

namespace Chkpoint

theorem evalOps_append (a b : List Op) : ∀ nv e, evalOps (a ++ b) nv e = evalOps b (numVar a nv) (evalOps a nv e) := by
  induction a with
  | nil => intro nv e; rfl
  | cons op a ih => intro nv e; exact ih _ _

theorem domOps_append (a b : List Op) : ∀ nv e, domOps (a ++ b) nv e ↔ domOps a nv e ∧ domOps b (numVar a nv) (evalOps a nv e) := by
  induction a with
  | nil => intro nv e; exact ⟨fun h => ⟨trivial, h⟩, fun h => h.2⟩
  | cons op a ih =>
    intro nv e
    show op.dom e ∧ domOps (a ++ b) (nv + op.nres) (stepEnv op nv e) ↔ (_ ∧ _) ∧ _
    rw [ih, and_assoc]
    rfl

theorem numVar_append (a b : List Op) : ∀ nv, numVar (a ++ b) nv = numVar b (numVar a nv) := by
  induction a with
  | nil => intro nv; rfl
  | cons op a ih => intro nv; exact ih _

theorem usable_append (a b : List Op) : ∀ nv U, usable (a ++ b) nv U = usable b (numVar a nv) (usable a nv U) := by
  induction a with
  | nil => intro nv U; rfl
  | cons op a ih => intro nv U; exact ih _ _

theorem WFOps_append (a b : List Op) : ∀ nv U, WFOps (a ++ b) nv U ↔ WFOps a nv U ∧ WFOps b (numVar a nv) (usable a nv U) := by
  induction a with
  | nil => intro nv U; exact ⟨fun h => ⟨trivial, h⟩, fun h => h.2⟩
  | cons op a ih =>
    intro nv U
    show (∀ x ∈ op.args, x ∈ U) ∧ WFOps (a ++ b) (nv + op.nres) (addRes op nv U) ↔ (_ ∧ _) ∧ _
    rw [ih, and_assoc]
    rfl

/-- *Specification*: new index of a variable of the inner function when its arguments are the variables `a 0, a 1, ...` and its
first new variable has index `nv` -/
def sigma (T : Tape) (nv : ℕ) (a : ℕ → ℕ) (v : ℕ) : ℕ :=
  if v ≤ T.n then (if v = 0 then 0 else a (v - 1)) else nv + (v - (T.n + 1))

/-- *Specification*: new index of a variable of the outer function; the results of the call become results of the inner operations -/
def tau (T : Tape) (c : AtomCall) (nv : ℕ) (a : ℕ → ℕ) (v : ℕ) : ℕ :=
  if v < nv then v
  else if v < nv + c.nres then sigma T nv a (T.dep.getD (c.comp (v - nv)) 0)
  else v - c.nres + (numVar T.ops (T.n + 1) - (T.n + 1))

/-- *Specification*: the outer function with the call (after the operations `pre`) replaced by the operations of the inner function -/
noncomputable def inlined (T : Tape) (c : AtomCall) (a : ℕ → ℕ) (n : ℕ) (pre post : List Op) (dep : List ℕ) : Tape :=
  let nv := numVar pre (n + 1)
  ⟨n, pre ++ (T.ops.map (Op.rename (sigma T nv a)) ++ post.map (Op.rename (tau T c nv a))), dep.map (tau T c nv a)⟩

theorem numVar_le (ops : List Op) : ∀ nv, nv ≤ numVar ops nv := by
  induction ops with
  | nil => intro nv; exact le_rfl
  | cons op ops ih => intro nv; exact (Nat.le_add_right _ _).trans (ih _)

set_option maxHeartbeats 1000000 in
/-- **C42**: the recording with a call of the checkpoint function and the recording of all the operations evaluate to the same function
and are smooth at the same points. -/
theorem inlined_ok {T : Tape} (hT : T.WF) (useHes : Bool) (hsup) (st : ℕ → (ℕ → ℝ) → (ℕ → ℝ) → State T) (s : State T)
    (a : ℕ → ℕ) (dyn : ℕ → Bool) (e : ℕ → ℝ) (hvar) (n : ℕ) (pre post : List Op) (dep : List ℕ)
    (hO : (⟨n, pre ++ .atom (call hT useHes hsup st s (fun j => .var (a j)) dyn e hvar) :: post, dep⟩ : Tape).WF) :
    let c := call hT useHes hsup st s (fun j => .var (a j)) dyn e hvar
    let O : Tape := ⟨n, pre ++ .atom c :: post, dep⟩
    let D := inlined T c a n pre post dep
    D.WF ∧ (∀ x, D.Dom x ↔ O.Dom x) ∧ ∀ x, ∀ i < dep.length, D.eval x i = O.eval x i := by
  intro c O D
  set nv := numVar pre (n + 1) with hnv
  set U0 : Set ℕ := {v | 1 ≤ v ∧ v ≤ n} with hU0
  set U1 := usable pre (n + 1) U0 with hU1
  have hO' : O.WF := hO
  have hw := (WFOps_append pre (.atom c :: post) (n + 1) U0).1 hO'.ops
  have hU0lt : ∀ v ∈ U0, v < n + 1 := fun v hv => by have := hv.2; omega
  have hU1lt : ∀ v ∈ U1, v < nv := usable_lt pre _ _ hU0lt
  have hargs : ∀ j < T.n, a j ∈ U1 := fun j hj => hw.2.1 (a j) (c.mem_args.mpr ⟨j, hj, rfl⟩)
  have hTn := hT.n_pos
  set K := numVar T.ops (T.n + 1) - (T.n + 1) with hK
  have hKle := numVar_le T.ops (T.n + 1)
  have key : ∀ x : ℕ → ℝ,
      let e1 := evalOps pre (n + 1) (indEnv x)
      D.WF ∧ (D.Dom x ↔ O.Dom x) ∧ ∀ i < dep.length, D.eval x i = O.eval x i := by
    intro x e1
    set y : Fin T.n → ℝ := fun j => e1 (a j) with hy
    have hin := rename_sim (sigma T nv a) T.ops (T.n + 1) nv T.ind U1 (indEnv (ext y)) e1 T.ind_lt hU1lt hT.ops
      (by
        intro v hv
        obtain ⟨h1, h2⟩ := hv
        unfold sigma
        rw [if_pos h2, if_neg (by omega)]
        exact hargs _ (by omega))
      (by
        intro v hv
        obtain ⟨h1, h2⟩ := hv
        unfold sigma indEnv
        rw [if_pos h2, if_neg (by omega), if_neg (by omega)]
        have := ext_fin y ⟨v - 1, by omega⟩
        exact this.symm)
      (by
        intro k
        unfold sigma
        rw [if_neg (by omega)]
        omega)
    obtain ⟨i1, i2, i3, i4⟩ := hin
    set U2 := usable (T.ops.map (Op.rename (sigma T nv a))) nv U1 with hU2
    set e2 := evalOps (T.ops.map (Op.rename (sigma T nv a))) nv e1 with he2
    have hn2 : numVar (T.ops.map (Op.rename (sigma T nv a))) nv = nv + K := by omega
    have hU2lt : ∀ v ∈ U2, v < nv + K := by
      intro v hv
      have := usable_lt _ _ _ hU1lt v hv
      omega
    have hres : ∀ r < c.nres, c.val e1 r = T.eval (ext y) (c.comp r) := fun r _ => rfl
    have hdepmem : ∀ i < T.dep.length, T.dep.getD i 0 ∈ usable T.ops (T.n + 1) T.ind := by
      intro i hi
      rw [List.getD_eq_getElem _ _ hi]
      exact hT.dep _ (List.getElem_mem hi)
    have hout := rename_sim (tau T c nv a) post (nv + c.nres) (nv + K) (addRes (.atom c) nv U1) U2 (stepEnv (.atom c) nv e1) e2
      (U_insert (.atom c) hU1lt) hU2lt hw.2.2
      (by
        intro v hv
        rcases hv with ⟨h1, h2⟩ | hv
        · have h1 : nv ≤ v := h1
          have h2 : v < nv + c.nres := h2
          unfold tau
          rw [if_neg (by omega), if_pos h2]
          exact (i3 _ (hdepmem _ (c.comp_spec (r := v - nv) (by omega)).1)).1
        · have := hU1lt v hv
          unfold tau
          rw [if_pos this]
          exact usable_mono _ _ _ hv)
      (by
        intro v hv
        rcases hv with ⟨h1, h2⟩ | hv
        · have h1 : nv ≤ v := h1
          have h2 : v < nv + c.nres := h2
          unfold tau
          rw [if_neg (by omega), if_pos h2, (i3 _ (hdepmem _ (c.comp_spec (r := v - nv) (by omega)).1)).2]
          unfold stepEnv
          rw [if_pos ⟨h1, h2⟩]
          exact (hres _ (by omega)).symm
        · have h1 := hU1lt v hv
          unfold tau
          rw [if_pos h1, he2, evalOps_lt _ _ _ _ h1]
          unfold stepEnv
          rw [if_neg (by omega)])
      (by
        intro k
        unfold tau
        rw [if_neg (by omega), if_neg (by omega)]
        omega)
    obtain ⟨o1, o2, o3, -⟩ := hout
    have husO : usable O.ops (n + 1) U0 = usable post (nv + c.nres) (addRes (.atom c) nv U1) := usable_append _ _ _ _
    have husD : usable D.ops (n + 1) U0 = usable (post.map (Op.rename (tau T c nv a))) (nv + K) U2 := by
      show usable (pre ++ (_ ++ _)) _ _ = _
      rw [usable_append, usable_append, ← hnv, ← hU1, ← hU2, hn2]
    have hdO : ∀ i < dep.length, dep.getD i 0 ∈ usable post (nv + c.nres) (addRes (.atom c) nv U1) := by
      intro i hi
      rw [← husO, List.getD_eq_getElem _ _ hi]
      exact hO'.dep _ (List.getElem_mem hi)
    refine ⟨⟨hO'.n_pos, ?_, ?_⟩, ?_, ?_⟩
    · show WFOps (pre ++ (_ ++ _)) (n + 1) U0
      rw [WFOps_append, WFOps_append, ← hnv, ← hU1, ← hU2, hn2]
      exact ⟨hw.1, i1, o1⟩
    · intro d hd
      show d ∈ usable D.ops (n + 1) U0
      rw [husD]
      obtain ⟨v, hv, rfl⟩ := List.mem_map.1 hd
      exact (o3 v (by rw [← husO]; exact hO'.dep v hv)).1
    · show domOps (pre ++ (_ ++ _)) (n + 1) (indEnv x) ↔ domOps (pre ++ (.atom c :: post)) (n + 1) (indEnv x)
      rw [domOps_append, domOps_append, domOps_append, ← hnv, ← he2, hn2]
      refine and_congr_right fun _ => ?_
      show _ ↔ (Op.atom c).dom e1 ∧ domOps post (nv + c.nres) (stepEnv (.atom c) nv e1)
      refine and_congr ?_ o2
      exact i2
    · intro i hi
      show evalOps (pre ++ (_ ++ _)) (n + 1) (indEnv x) _ = evalOps (pre ++ (.atom c :: post)) (n + 1) (indEnv x) _
      rw [evalOps_append, evalOps_append, evalOps_append, ← hnv, ← he2, hn2]
      have : D.dep.getD i 0 = tau T c nv a (dep.getD i 0) := by
        show (dep.map (tau T c nv a)).getD i 0 = _
        rw [List.getD_eq_getElem _ _ (by simpa using hi), List.getD_eq_getElem _ _ hi, List.getElem_map]
      rw [this]
      exact (o3 _ (hdO i hi)).2
  exact ⟨(key fun _ => 0).1, fun x => (key x).2.1, fun x => (key x).2.2⟩

/-- **C42** A checkpoint function is transparent for forward mode: the function recorded with a call of the checkpoint function and the
function recorded without it return the same Taylor coefficients, for every order, every argument, any states of the
two function objects and any sequence of states of the inner object. -/
theorem checkpoint_forward {T : Tape} (hT : T.WF) (useHes : Bool) (hsup) (st : ℕ → (ℕ → ℝ) → (ℕ → ℝ) → State T) (s : State T)
    (a : ℕ → ℕ) (dyn : ℕ → Bool) (e : ℕ → ℝ) (hvar) (n : ℕ) (pre post : List Op) (dep : List ℕ)
    (hO : (⟨n, pre ++ .atom (call hT useHes hsup st s (fun j => .var (a j)) dyn e hvar) :: post, dep⟩ : Tape).WF)
    {f g : ADFun} {S R : St}
    (hf : Reach ⟨n, pre ++ .atom (call hT useHes hsup st s (fun j => .var (a j)) dyn e hvar) :: post, dep⟩ f S)
    (hg : Reach (inlined T (call hT useHes hsup st s (fun j => .var (a j)) dyn e hvar) a n pre post dep) g R)
    (junk junk' : ℕ → ℝ) (nan nan' : ℝ) (q : ℕ) (xq : List ℝ) (hl : xq.length = n * (q + 1))
    (hdom : q = 0 ∨ (inlined T (call hT useHes hsup st s (fun j => .var (a j)) dyn e hvar) a n pre post dep).Dom
      fun j => at' xq ((q + 1) * j)) :
    (f.forward junk nan q xq).2 = (g.forward junk' nan' q xq).2 := by
  obtain ⟨h1, h2, h3⟩ := inlined_ok hT useHes hsup st s a dyn e hvar n pre post dep hO
  refine forward_same_function hO h1 rfl (by simp [inlined]) (fun x i hi => ?_) hf hg junk junk' nan nan' q xq hl
    (hdom.imp_right fun h => ⟨(h2 _).1 h, h⟩)
  exact (h3 x i (by simpa [inlined] using hi)).symm

/-- **C42** A checkpoint function is transparent for reverse mode. -/
theorem checkpoint_reverse {T : Tape} (hT : T.WF) (useHes : Bool) (hsup) (st : ℕ → (ℕ → ℝ) → (ℕ → ℝ) → State T) (s : State T)
    (a : ℕ → ℕ) (dyn : ℕ → Bool) (e : ℕ → ℝ) (hvar) (n : ℕ) (pre post : List Op) (dep : List ℕ)
    (hO : (⟨n, pre ++ .atom (call hT useHes hsup st s (fun j => .var (a j)) dyn e hvar) :: post, dep⟩ : Tape).WF)
    {f g : ADFun} {S R : St}
    (hf : Reach ⟨n, pre ++ .atom (call hT useHes hsup st s (fun j => .var (a j)) dyn e hvar) :: post, dep⟩ f S)
    (hg : Reach (inlined T (call hT useHes hsup st s (fun j => .var (a j)) dyn e hvar) a n pre post dep) g R)
    (junk junk' : ℕ → ℝ) (q : ℕ) (w : List ℝ) (hl : w.length = dep.length * q) (hq : 0 < q)
    (hS : q ≤ S.num) (hR : q ≤ R.num) (hSd : q = 1 ∨ S.ndir = 1) (hRd : q = 1 ∨ R.ndir = 1) (hx : S.x 0 = R.x 0)
    (hdom : (inlined T (call hT useHes hsup st s (fun j => .var (a j)) dyn e hvar) a n pre post dep).Dom fun j => S.x 0 j 0) :
    (f.reverse junk q w).2 = (g.reverse junk' q w).2 := by
  obtain ⟨h1, h2, h3⟩ := inlined_ok hT useHes hsup st s a dyn e hvar n pre post dep hO
  refine reverse_same_function hO h1 rfl (by simp [inlined]) (fun x i hi => ?_) hf hg junk junk' q w hl hq hS hR hSd hRd hx
    ((h2 _).1 hdom) (by rw [← hx]; exact hdom)
  exact (h3 x i (by simpa [inlined] using hi)).symm

end Chkpoint

end CppAD
