import Verif.AbsNormal.Model

/-! # The abs-normal representation of a recorded function -/

open scoped ContDiff Topology

namespace CppAD.AbsNormal

/-! ## Specification -/

/-- *Specification*: the operation is an absolute value -/
def IsAbs : Op → Prop
  | .abs _ => True
  | _ => False

noncomputable instance : DecidablePred IsAbs := fun _ => Classical.dec _

/-- *Specification*: the values of all the variables when the result of absolute value number `k`, `k + 1`, ... in the sequence is
replaced by `u k`, `u (k + 1)`, ... -/
noncomputable def evalU (u : ℕ → ℝ) : List Op → ℕ → ℕ → (ℕ → ℝ) → ℕ → ℝ
  | [], _, _, e => e
  | op :: ops, nv, k, e =>
    if IsAbs op then evalU u ops (nv + 1) (k + 1) (Function.update e nv (u k)) else evalU u ops (nv + op.nres) k (stepEnv op nv e)

/-- *Specification*: in that evaluation all the operations other than the absolute values are at points where they are smooth -/
def domU (u : ℕ → ℝ) : List Op → ℕ → ℕ → (ℕ → ℝ) → Prop
  | [], _, _, _ => True
  | op :: ops, nv, k, e =>
    (IsAbs op → domU u ops (nv + 1) (k + 1) (Function.update e nv (u k))) ∧
    (¬ IsAbs op → op.dom e ∧ domU u ops (nv + op.nres) k (stepEnv op nv e))

/-- *Specification*: at `x`, all the operations other than the absolute values are at points where they are smooth -/
def SmoothBut (ops : List Op) (nv : ℕ) (e : ℕ → ℝ) : Prop :=
  match ops with
  | [] => True
  | op :: ops => (¬ IsAbs op → op.dom e) ∧ SmoothBut ops (nv + op.nres) (stepEnv op nv e)

/-- *Specification*: argument and result of the absolute values, in the order of the operations -/
noncomputable def absTerms : List Op → ℕ → List (ℕ × ℕ)
  | [], _ => []
  | .abs v :: ops, nv => (v, nv) :: absTerms ops (nv + 1)
  | op :: ops, nv => absTerms ops (nv + op.nres)

/-- *Specification*: the vector `(x, u)` where `x` has `n` components -/
def pair (n : ℕ) (x u : ℕ → ℝ) : ℕ → ℝ := fun j => if j < n then x j else u (j - n)

/-- codes for which the arguments are copied completely -/
def Code.copied : Code → Prop
  | .erf => False
  | .erfc => False
  | _ => True

/-! ## Lemmas -/

theorem isAbs_iff (disc : ℕ → ℝ → ℝ) (par : ℕ → ℝ) (c : Code) (a : List ℕ) (op : Op) (h : toOp disc par c a = some op) :
    IsAbs op ↔ c = .abs := by
  cases c with
  | un u => cases h; cases u <;> simp [IsAbs, Un.op]
  | vp b => cases h; cases b <;> simp [IsAbs, Vp.op]
  | pv b => cases h; cases b <;> simp [IsAbs, Bin.pv]
  | vv b => cases h; cases b <;> simp [IsAbs, Bin.vv]
  | cmpPv | cmpVp | cmpVv => cases h
  | _ => cases h; simp [IsAbs]

theorem nres_toOp (disc : ℕ → ℝ → ℝ) (par : ℕ → ℝ) (c : Code) (a : List ℕ) (op : Op) (h : toOp disc par c a = some op) :
    op.nres = c.nres := by
  cases c with
  | un u => cases h; cases u <;> rfl
  | vp b => cases h; cases b <;> rfl
  | pv b => cases h; cases b <;> rfl
  | vv b => cases h; cases b <;> rfl
  | cmpPv | cmpVp | cmpVv => cases h
  | _ => cases h; rfl

theorem naux_toOp (disc : ℕ → ℝ → ℝ) (par : ℕ → ℝ) (c : Code) (a : List ℕ) (op : Op) (h : toOp disc par c a = some op) :
    op.naux + 1 = op.nres := by
  cases c with
  | un u => cases h; cases u <;> rfl
  | vp b => cases h; cases b <;> rfl
  | pv b => cases h; cases b <;> rfl
  | vv b => cases h; cases b <;> rfl
  | cmpPv | cmpVp | cmpVv => cases h
  | _ => cases h; rfl

theorem nres_none (disc : ℕ → ℝ → ℝ) (par : ℕ → ℝ) (c : Code) (a : List ℕ) (h : toOp disc par c a = none) : c.nres = 0 := by
  cases c <;> first | rfl | cases h

theorem newArgs_length (s : ℕ → ℕ) (c : Code) (a : List ℕ) (hc : c.copied) (ha : c ≠ .abs) : (newArgs s c a).length = c.narg := by
  cases c <;> first | rfl | exact hc.elim | exact absurd rfl ha

theorem opdOf_rename (s : ℕ → ℕ) (par : ℕ → ℝ) (b : Bool) (a : ℕ) :
    (opdOf par b a).rename s = opdOf par b (if b then s a else a) := by
  cases b <;> rfl

theorem toOp_newArgs (disc : ℕ → ℝ → ℝ) (par : ℕ → ℝ) (s : ℕ → ℕ) (c : Code) (a r : List ℕ) (hc : c.copied) (ha : c ≠ .abs) :
    toOp disc par c (newArgs s c a ++ r) = (toOp disc par c a).map (Op.rename s) := by
  cases c with
  | abs => exact absurd rfl ha
  | erf | erfc => exact hc.elim
  | un u => cases u <;> rfl
  | vp b => cases b <;> rfl
  | pv b => cases b <;> rfl
  | vv b => cases b <;> rfl
  | cexp => simp [toOp, newArgs, Op.rename, opdOf_rename]
  | _ => rfl

theorem decode_cons (disc : ℕ → ℝ → ℝ) (par : ℕ → ℝ) (c : Code) (cs : List Code) (a : List ℕ) :
    decode disc par (c :: cs) a = (toOp disc par c a).toList ++ decode disc par cs (a.drop c.narg) := rfl

theorem scan_cons {c : Code} (hc : c ≠ .abs) (cs : List Code) (a : List ℕ) (nv : ℕ) :
    scan (c :: cs) a nv = scan cs (a.drop c.narg) (nv + c.nres) := by
  cases c <;> first | rfl | exact absurd rfl hc

theorem emit_cons {c : Code} (hc : c ≠ .abs) (cs : List Code) (a : List ℕ) (nv nvg : ℕ) (s : ℕ → ℕ) :
    emit (c :: cs) a nv nvg s =
      (c :: (emit cs (a.drop c.narg) (nv + c.nres) (nvg + c.nres)
          (if c.nres = 0 then s else Function.update s (nv + c.nres - 1) (nvg + c.nres - 1))).1,
        newArgs s c a ++ (emit cs (a.drop c.narg) (nv + c.nres) (nvg + c.nres)
          (if c.nres = 0 then s else Function.update s (nv + c.nres - 1) (nvg + c.nres - 1))).2.1,
        (emit cs (a.drop c.narg) (nv + c.nres) (nvg + c.nres)
          (if c.nres = 0 then s else Function.update s (nv + c.nres - 1) (nvg + c.nres - 1))).2.2) := by
  cases c <;> first | rfl | exact absurd rfl hc

theorem scan_ge (cs : List Code) : ∀ (a : List ℕ) (nv : ℕ), ∀ p ∈ scan cs a nv, nv ≤ p.2 := by
  induction cs with
  | nil => intro a nv p hp; cases hp
  | cons c cs ih =>
    intro a nv p hp
    by_cases hc : c = .abs
    · subst hc
      rcases List.mem_cons.1 hp with rfl | hp
      · exact le_refl _
      · exact (Nat.le_succ _).trans (ih _ _ p hp)
    · rw [scan_cons hc] at hp
      exact (Nat.le_add_right _ _).trans (ih _ _ p hp)

theorem evalU_cons (u : ℕ → ℝ) (op : Op) (ops : List Op) (nv k : ℕ) (e : ℕ → ℝ) (h : ¬ IsAbs op) :
    evalU u (op :: ops) nv k e = evalU u ops (nv + op.nres) k (stepEnv op nv e) := by
  rw [evalU, if_neg h]

theorem evalU_abs (u : ℕ → ℝ) (v : ℕ) (ops : List Op) (nv k : ℕ) (e : ℕ → ℝ) :
    evalU u (.abs v :: ops) nv k e = evalU u ops (nv + 1) (k + 1) (Function.update e nv (u k)) := by
  have h : IsAbs (.abs v) := trivial
  rw [evalU, if_pos h]

theorem domU_cons (u : ℕ → ℝ) (op : Op) (ops : List Op) (nv k : ℕ) (e : ℕ → ℝ) (h : ¬ IsAbs op) :
    domU u (op :: ops) nv k e ↔ op.dom e ∧ domU u ops (nv + op.nres) k (stepEnv op nv e) := by
  rw [domU]
  exact ⟨fun h' => h'.2 h, fun h' => ⟨fun h'' => absurd h'' h, fun _ => h'⟩⟩

theorem domU_abs (u : ℕ → ℝ) (v : ℕ) (ops : List Op) (nv k : ℕ) (e : ℕ → ℝ) :
    domU u (.abs v :: ops) nv k e ↔ domU u ops (nv + 1) (k + 1) (Function.update e nv (u k)) := by
  rw [domU]
  exact ⟨fun h' => h'.1 trivial, fun h' => ⟨fun _ => h', fun h'' => absurd trivial h''⟩⟩

theorem evalU_lt (u : ℕ → ℝ) (ops : List Op) : ∀ (nv k : ℕ) (e : ℕ → ℝ) (v : ℕ), v < nv → evalU u ops nv k e v = e v := by
  induction ops with
  | nil => intro nv k e v _; rfl
  | cons op ops ih =>
    intro nv k e v hv
    by_cases h : IsAbs op
    · rw [evalU, if_pos h, ih _ _ _ _ (by omega), Function.update_of_ne (by omega)]
    · rw [evalU_cons _ _ _ _ _ _ h, ih _ _ _ _ (by omega)]
      unfold stepEnv
      rw [if_neg (by omega)]

/-- the new recording evaluates the specification for all values of `u` -/
theorem emit_sim (disc : ℕ → ℝ → ℝ) (par : ℕ → ℝ) (u : ℕ → ℝ) (b : ℕ) (cs : List Code) :
    ∀ (a : List ℕ) (nv nvg k : ℕ) (s : ℕ → ℕ) (U U' : Set ℕ) (e e' : ℕ → ℝ),
    (∀ c ∈ cs, c.copied) → (∀ v ∈ U, v < nv) → (∀ v ∈ U', v < nvg) → WFOps (decode disc par cs a) nv U →
    (∀ v ∈ U, s v ∈ U') → (∀ v ∈ U, e' (s v) = e v) →
    (∀ j (hj : j < (scan cs a nv).length), s ((scan cs a nv)[j]).2 = b + (k + j) ∧ b + (k + j) ∈ U' ∧ e' (b + (k + j)) = u (k + j)) →
    WFOps (decode disc par (emit cs a nv nvg s).1 (emit cs a nv nvg s).2.1) nvg U' ∧
    (domOps (decode disc par (emit cs a nv nvg s).1 (emit cs a nv nvg s).2.1) nvg e' ↔ domU u (decode disc par cs a) nv k e) ∧
    (∀ v ∈ usable (decode disc par cs a) nv U,
      (emit cs a nv nvg s).2.2 v ∈ usable (decode disc par (emit cs a nv nvg s).1 (emit cs a nv nvg s).2.1) nvg U' ∧
      evalOps (decode disc par (emit cs a nv nvg s).1 (emit cs a nv nvg s).2.1) nvg e' ((emit cs a nv nvg s).2.2 v) =
        evalU u (decode disc par cs a) nv k e v) := by
  induction cs with
  | nil =>
    intro a nv nvg k s U U' e e' _ _ _ _ h1 h2 _
    exact ⟨trivial, Iff.rfl, fun v hv => ⟨h1 v hv, h2 v hv⟩⟩
  | cons c cs ih =>
    intro a nv nvg k s U U' e e' hc hU hU' hw h1 h2 h3
    have hcs : ∀ c ∈ cs, c.copied := fun c' h => hc c' (List.mem_cons_of_mem _ h)
    by_cases habs : c = .abs
    · subst habs
      have h30 := h3 0 (by simp [scan])
      have hr : scan (.abs :: cs) a nv = (a.getD 0 0, nv) :: scan cs (a.drop 1) (nv + 1) := rfl
      have h30' : s nv = b + k ∧ b + k ∈ U' ∧ e' (b + k) = u k := by simpa [hr] using h30
      have hw' : WFOps (decode disc par cs (a.drop 1)) (nv + 1) (addRes (.abs (a.getD 0 0)) nv U) := hw.2
      have hadd : ∀ v ∈ addRes (.abs (a.getD 0 0)) nv U, v = nv ∨ v ∈ U := by
        rintro v (⟨hv1, hv2⟩ | hv)
        · left
          simp only [Op.nres, Op.naux] at hv1 hv2
          omega
        · exact Or.inr hv
      have := ih (a.drop 1) (nv + 1) nvg (k + 1) s (addRes (.abs (a.getD 0 0)) nv U) U' (Function.update e nv (u k)) e' hcs ?_ hU' hw' ?_ ?_ ?_
      · obtain ⟨a1, a2, a3⟩ := this
        refine ⟨a1, ?_, ?_⟩
        · exact a2.trans (domU_abs u (a.getD 0 0) _ nv k e).symm
        · intro v hv
          have hv' := a3 v hv
          refine ⟨hv'.1, hv'.2.trans ?_⟩
          exact (congrFun (evalU_abs u (a.getD 0 0) (decode disc par cs (a.drop 1)) nv k e) v).symm
      · intro v hv
        rcases hadd v hv with rfl | hv
        · omega
        · have := hU v hv; omega
      · intro v hv
        rcases hadd v hv with rfl | hv
        · rw [h30'.1]; exact h30'.2.1
        · exact h1 v hv
      · intro v hv
        rcases hadd v hv with rfl | hv
        · rw [h30'.1, h30'.2.2, Function.update_self]
        · rw [Function.update_of_ne (by have := hU v hv; omega)]; exact h2 v hv
      · intro j hj
        have := h3 (j + 1) (by rw [hr]; simpa using hj)
        simpa [hr, Nat.add_assoc, Nat.add_comm 1] using this
    · have hcop := hc c List.mem_cons_self
      have hlen := newArgs_length s c a hcop habs
      rw [emit_cons habs]
      set s' := (if c.nres = 0 then s else Function.update s (nv + c.nres - 1) (nvg + c.nres - 1)) with hs'
      simp only [decode_cons]
      rw [toOp_newArgs disc par s c a _ hcop habs, ← hlen, List.drop_left]
      rw [scan_cons habs] at h3
      rw [decode_cons] at hw
      cases hop : toOp disc par c a with
      | none =>
        have hn := nres_none disc par c a hop
        rw [hop] at hw
        have hs0 : s' = s := by rw [hs', if_pos hn]
        rw [hn, Nat.add_zero] at h3
        simp only [Option.map_none, Option.toList_none, List.nil_append, hn, Nat.add_zero, hs0, hlen]
        exact ih _ nv nvg k s U U' e e' hcs hU hU' hw h1 h2 h3
      | some op =>
        have hn := nres_toOp disc par c a op hop
        have hna := naux_toOp disc par c a op hop
        have hab : ¬ IsAbs op := fun h => habs ((isAbs_iff disc par c a op hop).1 h)
        rw [hop] at hw
        simp only [Option.map_some, Option.toList_some, List.singleton_append, hlen]
        have hw : (∀ v ∈ op.args, v ∈ U) ∧ WFOps (decode disc par cs (a.drop c.narg)) (nv + op.nres) (addRes op nv U) := hw
        rw [← hn] at h3 hs' ⊢
        have hs1 : s' = Function.update s (nv + op.nres - 1) (nvg + op.nres - 1) := by rw [hs', if_neg (by omega)]
        clear_value s'
        subst hs1
        have hrn := Op.rename_nres s op
        have hrna := Op.rename_naux s op
        have hval : ∀ r, (op.rename s).val e' r = op.val e r := by
          intro r
          rw [Op.rename_val]
          exact op.cert.val_congr _ _ (fun a ha => h2 a (hw.1 a ha)) r
        have hdom : (op.rename s).dom e' ↔ op.dom e := by
          rw [Op.rename_dom]
          exact ⟨op.cert.dom_congr _ _ (fun a ha => h2 a (hw.1 a ha)), op.cert.dom_congr _ _ (fun a ha => (h2 a (hw.1 a ha)).symm)⟩
        have hadd : ∀ v ∈ addRes op nv U, v = nv + op.nres - 1 ∨ v ∈ U := by
          rintro v (⟨hv1, hv2⟩ | hv)
          · left; omega
          · exact Or.inr hv
        have hstep := ih (a.drop c.narg) (nv + op.nres) (nvg + op.nres) k (Function.update s (nv + op.nres - 1) (nvg + op.nres - 1))
          (addRes op nv U) (addRes (op.rename s) nvg U') (stepEnv op nv e) (stepEnv (op.rename s) nvg e') hcs (U_insert op hU)
          (by rw [← hrn]; exact U_insert (op.rename s) hU') hw.2 ?_ ?_ ?_
        · obtain ⟨a1, a2, a3⟩ := hstep
          refine ⟨⟨?_, ?_⟩, ?_, ?_⟩
          · intro v hv
            obtain ⟨w, hw', rfl⟩ := (Op.rename_args s op v).1 hv
            exact h1 w (hw.1 w hw')
          · rw [hrn]; exact a1
          · rw [domU_cons _ _ _ _ _ _ hab]
            show (op.rename s).dom e' ∧ _ ↔ _
            rw [hdom, hrn]
            exact and_congr_right fun _ => a2
          · intro v hv
            rw [evalU_cons _ _ _ _ _ _ hab]
            show _ ∈ usable _ (nvg + (op.rename s).nres) _ ∧ evalOps _ (nvg + (op.rename s).nres) _ _ = _
            rw [hrn]
            exact a3 v hv
        · intro v hv
          rcases hadd v hv with rfl | hv
          · rw [Function.update_self]
            left
            rw [Set.mem_ofPred_eq, hrna, hrn]
            omega
          · rw [Function.update_of_ne (by have := hU v hv; omega)]
            exact Or.inr (h1 v hv)
        · intro v hv
          rcases hadd v hv with rfl | hv
          · rw [Function.update_self]
            unfold stepEnv
            rw [if_pos (by rw [hrn]; omega), if_pos (by omega), hval]
            congr 1
            omega
          · have hvU := hU v hv
            have := hU' _ (h1 v hv)
            rw [Function.update_of_ne (by omega)]
            unfold stepEnv
            rw [if_neg (by omega), if_neg (by omega)]
            exact h2 v hv
        · intro j hj
          have h := h3 j hj
          have hge := scan_ge cs _ _ _ (List.getElem_mem hj)
          have := hU' _ h.2.1
          refine ⟨?_, Or.inr h.2.1, ?_⟩
          · rw [Function.update_of_ne (by omega)]
            exact h.1
          · unfold stepEnv
            rw [if_neg (by omega)]
            exact h.2.2

/-! ## The absolute value terms -/

theorem absTerms_cons (op : Op) (ops : List Op) (nv : ℕ) (h : ¬ IsAbs op) :
    absTerms (op :: ops) nv = absTerms ops (nv + op.nres) := by
  cases op <;> first | rfl | exact absurd trivial h

theorem scan_decode (disc : ℕ → ℝ → ℝ) (par : ℕ → ℝ) (cs : List Code) : ∀ (a : List ℕ) (nv : ℕ),
    scan cs a nv = absTerms (decode disc par cs a) nv := by
  induction cs with
  | nil => intro a nv; rfl
  | cons c cs ih =>
    intro a nv
    by_cases hc : c = .abs
    · subst hc
      show (_, _) :: scan cs _ _ = (_, _) :: absTerms (decode disc par cs _) _
      rw [ih]
      rfl
    · rw [scan_cons hc, decode_cons, ih]
      cases hop : toOp disc par c a with
      | none => rw [nres_none disc par c a hop]; rfl
      | some op =>
        rw [Option.toList_some, List.singleton_append,
          absTerms_cons _ _ _ (fun h => hc ((isAbs_iff disc par c a op hop).1 h)), nres_toOp disc par c a op hop]

theorem absTerms_length (ops : List Op) : ∀ nv, (absTerms ops nv).length = ops.countP (fun op => decide (IsAbs op)) := by
  induction ops with
  | nil => intro nv; rfl
  | cons op ops ih =>
    intro nv
    by_cases h : IsAbs op
    · cases op with
      | abs v =>
        rw [List.countP_cons_of_pos (by simpa using h), ← ih (nv + 1)]
        rfl
      | _ => exact h.elim
    · rw [absTerms_cons _ _ _ h, List.countP_cons_of_neg (by simpa using h), ih]

theorem absTerms_mem (ops : List Op) : ∀ (nv : ℕ) (U : Set ℕ), (∀ v ∈ U, v < nv) → WFOps ops nv U → ∀ p ∈ absTerms ops nv,
    p.1 ∈ usable ops nv U ∧ p.2 ∈ usable ops nv U ∧ nv ≤ p.2 ∧ p.1 < p.2 := by
  induction ops with
  | nil => intro nv U _ _ p hp; cases hp
  | cons op ops ih =>
    intro nv U hU hw p hp
    have hup : ∀ v, v ∈ addRes op nv U → v ∈ usable (op :: ops) nv U := fun v hv => usable_mono ops _ _ hv
    by_cases h : IsAbs op
    · cases op with
      | abs v =>
        rcases List.mem_cons.1 hp with rfl | hp
        · have hv : v ∈ U := hw.1 v (by simp [Op.args])
          exact ⟨hup _ (Or.inr hv), hup _ (Or.inl (by simp [Op.naux, Op.nres])), le_refl _, hU v hv⟩
        · have := ih (nv + 1) _ (U_insert (.abs v) hU) hw.2 p hp
          exact ⟨this.1, this.2.1, by omega, this.2.2.2⟩
      | _ => exact h.elim
    · rw [absTerms_cons _ _ _ h] at hp
      have := ih (nv + op.nres) _ (U_insert op hU) hw.2 p hp
      exact ⟨this.1, this.2.1, by omega, this.2.2.2⟩

theorem absTerms_sorted (ops : List Op) : ∀ nv, (absTerms ops nv).Pairwise (fun p q => p.2 < q.2) ∧ ∀ p ∈ absTerms ops nv, nv ≤ p.2 := by
  induction ops with
  | nil => intro nv; exact ⟨List.Pairwise.nil, fun p hp => by cases hp⟩
  | cons op ops ih =>
    intro nv
    by_cases h : IsAbs op
    · cases op with
      | abs v =>
        have := ih (nv + 1)
        refine ⟨List.pairwise_cons.2 ⟨fun q hq => ?_, this.1⟩, fun p hp => ?_⟩
        · have := this.2 q hq; exact this
        · rcases List.mem_cons.1 hp with rfl | hp
          · exact le_refl _
          · have := this.2 p hp; omega
      | _ => exact h.elim
    · rw [absTerms_cons _ _ _ h]
      have := ih (nv + op.nres)
      exact ⟨this.1, fun p hp => by have := this.2 p hp; omega⟩

/-- the value of an absolute value term is the absolute value of its argument -/
theorem absTerms_val (ops : List Op) : ∀ (nv : ℕ) (U : Set ℕ) (e : ℕ → ℝ), (∀ v ∈ U, v < nv) → WFOps ops nv U → ∀ p ∈ absTerms ops nv,
    evalOps ops nv e p.2 = |evalOps ops nv e p.1| := by
  induction ops with
  | nil => intro nv U e _ _ p hp; cases hp
  | cons op ops ih =>
    intro nv U e hU hw p hp
    by_cases h : IsAbs op
    · cases op with
      | abs v =>
        rcases List.mem_cons.1 hp with rfl | hp
        · have hv : v < nv := hU v (hw.1 v (by simp [Op.args]))
          show evalOps ops (nv + 1) (stepEnv (.abs v) nv e) nv = |evalOps ops (nv + 1) (stepEnv (.abs v) nv e) v|
          rw [evalOps_lt ops _ _ _ (by omega), evalOps_lt ops _ _ _ (by omega)]
          unfold stepEnv
          rw [if_pos (by simp [Op.nres]), if_neg (by omega)]
          rfl
        · exact ih (nv + 1) _ _ (U_insert (.abs v) hU) hw.2 p hp
      | _ => exact h.elim
    · rw [absTerms_cons _ _ _ h] at hp
      exact ih (nv + op.nres) _ _ (U_insert op hU) hw.2 p hp

/-- with `u` equal to the absolute values, the replaced evaluation is the evaluation -/
theorem evalU_eq (u : ℕ → ℝ) (ops : List Op) : ∀ (nv k : ℕ) (e : ℕ → ℝ),
    (∀ j (hj : j < (absTerms ops nv).length), evalOps ops nv e ((absTerms ops nv)[j]).2 = u (k + j)) →
    evalU u ops nv k e = evalOps ops nv e ∧ (SmoothBut ops nv e ↔ domU u ops nv k e) := by
  induction ops with
  | nil => intro nv k e _; exact ⟨rfl, Iff.rfl⟩
  | cons op ops ih =>
    intro nv k e hj
    by_cases h : IsAbs op
    · cases op with
      | abs v =>
        have h0 : evalOps ops (nv + 1) (stepEnv (.abs v) nv e) nv = u k := hj 0 (by simp [absTerms])
        rw [evalOps_lt ops _ _ _ (by omega)] at h0
        have hst : stepEnv (.abs v) nv e = Function.update e nv (u k) := by
          funext w
          by_cases hwn : w = nv
          · subst hwn
            rw [h0, Function.update_self]
          · rw [Function.update_of_ne hwn]
            unfold stepEnv
            rw [if_neg (by simp only [Op.nres]; omega)]
        have := ih (nv + 1) (k + 1) (stepEnv (.abs v) nv e) (fun j hj' => by
          have := hj (j + 1) (by simpa [absTerms] using hj')
          rw [Nat.add_assoc, Nat.add_comm 1]
          exact this)
        rw [evalU_abs, domU_abs, ← hst]
        refine ⟨this.1, ⟨fun h' => this.2.1 h'.2, fun h' => ⟨fun h'' => absurd trivial h'', this.2.2 h'⟩⟩⟩
      | _ => exact h.elim
    · rw [evalU_cons _ _ _ _ _ _ h, domU_cons _ _ _ _ _ _ h]
      rw [absTerms_cons _ _ _ h] at hj
      have := ih (nv + op.nres) k (stepEnv op nv e) hj
      refine ⟨this.1, ⟨fun h' => ⟨h'.1 h, this.2.1 h'.2⟩, fun h' => ⟨fun _ => h'.1, this.2.2 h'.2⟩⟩⟩

/-- the argument of term `i` does not depend on the values of term `i` and later terms -/
theorem evalU_tri (u u' : ℕ → ℝ) (ops : List Op) : ∀ (nv k : ℕ) (U : Set ℕ) (e : ℕ → ℝ), (∀ v ∈ U, v < nv) → WFOps ops nv U →
    ∀ i (hi : i < (absTerms ops nv).length), (∀ j, j < k + i → u j = u' j) →
    evalU u ops nv k e ((absTerms ops nv)[i]).1 = evalU u' ops nv k e ((absTerms ops nv)[i]).1 := by
  induction ops with
  | nil => intro nv k U e _ _ i hi; simp [absTerms] at hi
  | cons op ops ih =>
    intro nv k U e hU hw i hi hu
    by_cases h : IsAbs op
    · cases op with
      | abs v =>
        rw [evalU_abs, evalU_abs]
        cases i with
        | zero =>
          have hv : v < nv := hU v (hw.1 v (by simp [Op.args]))
          show evalU u ops _ _ _ v = evalU u' ops _ _ _ v
          rw [evalU_lt _ _ _ _ _ _ (by omega), evalU_lt _ _ _ _ _ _ (by omega), Function.update_of_ne (by omega),
            Function.update_of_ne (by omega)]
        | succ i =>
          rw [hu k (by omega)]
          exact ih (nv + 1) (k + 1) _ _ (U_insert (.abs v) hU) hw.2 i (by simpa [absTerms] using hi) (fun j hj => hu j (by omega))
      | _ => exact h.elim
    · rw [evalU_cons _ _ _ _ _ _ h, evalU_cons _ _ _ _ _ _ h]
      simp only [absTerms_cons _ _ _ h] at hi ⊢
      exact ih (nv + op.nres) k _ _ (U_insert op hU) hw.2 i hi hu

/-! ## The initial map of the variables -/

theorem start_ind (N n : ℕ) (res : List ℕ) (hr : ∀ r ∈ res, n < r) (v : ℕ) (hv : v ≤ n) : start N n res v = v := by
  unfold start
  apply forRange_ind (Nat.zero_le res.length) (fun (_ : ℕ) (s : ℕ → ℕ) => s v = v)
  · have := forRange_ind (Nat.zero_le (n + 1)) (s := fun _ : ℕ => N) (f := fun v f2g => Function.update f2g v v)
      (fun (k : ℕ) (s : ℕ → ℕ) => ∀ v < k, s v = v) (fun v hv => by omega) ?_
    · exact this v (by omega)
    · intro k s _ _ ih w hw
      by_cases h : w = k
      · subst h; rw [Function.update_self]
      · rw [Function.update_of_ne h]; exact ih w (by omega)
  · intro j s _ hj ih
    rw [Function.update_of_ne]
    · exact ih
    · have := hr _ (List.getElem_mem hj)
      rw [List.getD_eq_getElem _ _ hj]
      omega

theorem start_res (N n : ℕ) (res : List ℕ) (hr : res.Nodup) (j : ℕ) (hj : j < res.length) : start N n res res[j] = n + 1 + j := by
  unfold start
  have := forRange_ind (Nat.zero_le res.length) (s := forRange 0 (n + 1) (fun _ => N) fun v f2g => Function.update f2g v v)
    (f := fun j f2g => Function.update f2g (res.getD j 0) (n + 1 + j))
    (fun (k : ℕ) (s : ℕ → ℕ) => ∀ j (hj : j < res.length), j < k → s res[j] = n + 1 + j) (fun j _ hj => by omega) ?_
  · exact this j hj hj
  · intro k s _ hk ih i hi hik
    rw [List.getD_eq_getElem _ _ hk]
    by_cases h : i = k
    · subst h; rw [Function.update_self]
    · rw [Function.update_of_ne (fun h' => h ((List.Nodup.getElem_inj_iff hr).1 h'))]
      exact ih i hi (by omega)

/-! ## The theorem -/

theorem emit_abs (cs : List Code) : ∀ (a : List ℕ) (nv nvg : ℕ) (s : ℕ → ℕ),
    Code.abs ∉ (emit cs a nv nvg s).1 ∧ nvg + ((emit cs a nv nvg s).1.map Code.nres).sum + (scan cs a nv).length = nvg + (cs.map Code.nres).sum := by
  induction cs with
  | nil => intro a nv nvg s; exact ⟨by simp [emit], rfl⟩
  | cons c cs ih =>
    intro a nv nvg s
    by_cases hc : c = .abs
    · subst hc
      have := ih (a.drop 1) (nv + 1) nvg s
      refine ⟨this.1, ?_⟩
      have h2 := this.2
      show _ + ((emit cs (a.drop 1) (nv + 1) nvg s).1.map Code.nres).sum + ((_, _) :: scan cs (a.drop 1) (nv + 1)).length = _
      simp only [List.length_cons, List.map_cons, List.sum_cons, Code.nres]
      omega
    · rw [emit_cons hc, scan_cons hc]
      have := ih (a.drop c.narg) (nv + c.nres) (nvg + c.nres)
        (if c.nres = 0 then s else Function.update s (nv + c.nres - 1) (nvg + c.nres - 1))
      refine ⟨fun h => ?_, ?_⟩
      · rcases List.mem_cons.1 h with h | h
        · exact hc h.symm
        · exact this.1 h
      · have h2 := this.2
        simp only [List.map_cons, List.sum_cons]
        omega

theorem decode_isAbs (disc : ℕ → ℝ → ℝ) (par : ℕ → ℝ) (cs : List Code) : ∀ a, Code.abs ∉ cs → ∀ op ∈ decode disc par cs a, ¬ IsAbs op := by
  induction cs with
  | nil => intro a _ op hop; cases hop
  | cons c cs ih =>
    intro a hc op hop
    rw [decode_cons, List.mem_append] at hop
    rcases hop with h | h
    · intro hab
      rw [Option.mem_toList] at h
      exact hc (List.mem_cons.2 (Or.inl ((isAbs_iff disc par c a op h).1 hab).symm))
    · exact ih _ (fun h' => hc (List.mem_cons_of_mem _ h')) op h

section
variable (f : Raw) (disc : ℕ → ℝ → ℝ)

/-- number of absolute value operations -/
noncomputable def numAbs (ops : List Op) : ℕ := ops.countP (fun op => decide (IsAbs op))

theorem scan_length : (scan f.codes f.args (f.n + 1)).length = numAbs (f.tape disc).ops := by
  rw [scan_decode disc f.par, absTerms_length]; rfl

theorem ind_lt (f : Tape) : ∀ v ∈ f.ind, v < f.n + 1 := fun _ hv => Nat.lt_succ_of_le hv.2

/-- everything about `g` for all values of `u` -/
theorem absNormal_sim (hw : (f.tape disc).WF) (hc : ∀ c ∈ f.codes, c.copied) (x u : ℕ → ℝ) :
    WFOps ((absNormal f).1.tape disc).ops (f.n + numAbs (f.tape disc).ops + 1) ((absNormal f).1.tape disc).ind ∧
    (((absNormal f).1.tape disc).Dom (pair f.n x u) ↔ domU u (f.tape disc).ops (f.n + 1) 0 (indEnv x)) ∧
    (∀ v ∈ usable (f.tape disc).ops (f.n + 1) (f.tape disc).ind,
      (emit f.codes f.args (f.n + 1) (f.n + (scan f.codes f.args (f.n + 1)).length + 1)
        (start f.numVar f.n ((scan f.codes f.args (f.n + 1)).map Prod.snd))).2.2 v ∈
        usable ((absNormal f).1.tape disc).ops (f.n + numAbs (f.tape disc).ops + 1) ((absNormal f).1.tape disc).ind ∧
      evalOps ((absNormal f).1.tape disc).ops (f.n + numAbs (f.tape disc).ops + 1) (indEnv (pair f.n x u))
        ((emit f.codes f.args (f.n + 1) (f.n + (scan f.codes f.args (f.n + 1)).length + 1)
        (start f.numVar f.n ((scan f.codes f.args (f.n + 1)).map Prod.snd))).2.2 v) =
        evalU u (f.tape disc).ops (f.n + 1) 0 (indEnv x) v) := by
  rw [← scan_length f disc]
  have hsort := absTerms_sorted (f.tape disc).ops (f.n + 1)
  have hsc : scan f.codes f.args (f.n + 1) = absTerms (f.tape disc).ops (f.n + 1) := scan_decode disc f.par _ _ _
  rw [← hsc] at hsort
  have hnd : ((scan f.codes f.args (f.n + 1)).map Prod.snd).Nodup := by
    rw [List.nodup_iff_pairwise_ne, List.pairwise_map]
    exact hsort.1.imp (fun h => Nat.ne_of_lt h)
  have hgt : ∀ r ∈ (scan f.codes f.args (f.n + 1)).map Prod.snd, f.n < r := by
    intro r hr
    obtain ⟨p, hp, rfl⟩ := List.mem_map.1 hr
    exact hsort.2 p hp
  refine emit_sim disc f.par u (f.n + 1) f.codes f.args (f.n + 1) (f.n + (scan f.codes f.args (f.n + 1)).length + 1) 0
    (start f.numVar f.n ((scan f.codes f.args (f.n + 1)).map Prod.snd)) (f.tape disc).ind ((absNormal f).1.tape disc).ind (indEnv x)
    (indEnv (pair f.n x u)) hc (ind_lt _) (ind_lt _) hw.ops ?_ ?_ ?_
  · intro v hv
    have h1 : 1 ≤ v := hv.1
    have h2 : v ≤ f.n := hv.2
    rw [start_ind _ _ _ hgt v h2]
    exact ⟨h1, le_trans h2 (Nat.le_add_right _ _)⟩
  · intro v hv
    have h1 : 1 ≤ v := hv.1
    have h2 : v ≤ f.n := hv.2
    rw [start_ind _ _ _ hgt v h2]
    unfold indEnv pair
    rw [if_neg (by omega), if_pos (by omega), if_neg (by omega)]
  · intro j hj
    refine ⟨?_, ?_, ?_⟩
    · have := start_res f.numVar f.n _ hnd j (by simpa using hj)
      rw [List.getElem_map] at this
      rw [this, Nat.zero_add]
    · refine ⟨by omega, ?_⟩
      show _ ≤ f.n + (scan f.codes f.args (f.n + 1)).length
      omega
    · unfold indEnv pair
      rw [if_neg (by omega), if_neg (by omega)]
      congr 1
      omega

theorem getD_map_append (l l' : List ℕ) (s : ℕ → ℕ) (i : ℕ) (hi : i < l.length) :
    (l.map s ++ l').getD i 0 = s (l.getD i 0) := by
  rw [List.getD_eq_getElem _ _ (by simp; omega), List.getElem_append_left (by simpa using hi), List.getElem_map, List.getD_eq_getElem _ _ hi]

theorem getD_append_map (l l' : List ℕ) (s : ℕ → ℕ) (i : ℕ) (hi : i < l'.length) :
    (l.map s ++ l'.map s).getD (l.length + i) 0 = s l'[i] := by
  rw [List.getD_eq_getElem _ _ (by simp; omega), List.getElem_append_right (by simp), List.getElem_map]
  congr 2
  simp

/-- **C44.** `abs_normal_fun(g, a)` with an operation sequence without erf and erfc. With `s` the number of absolute value
operations, `m` the number of dependent variables and `zeta_i`, `r_i` the argument and the result of absolute value `i`:
the sizes, `g` has no absolute value, `g(x, u)` is the evaluation of `f` where absolute value `i` is replaced by `u_i` together with
the arguments of the absolute values, and `a(x)` are the absolute values. -/
theorem abs_normal_partial (hw : (f.tape disc).WF) (hc : ∀ c ∈ f.codes, c.copied) :
    let F := f.tape disc
    let s := numAbs F.ops
    let m := F.dep.length
    let g := (absNormal f).1.tape disc
    let a := (absNormal f).2.tape disc
    let terms := absTerms F.ops (F.n + 1)
    (terms.length = s ∧ g.n = F.n + s ∧ g.dep.length = m + s ∧ a.n = F.n ∧ a.dep.length = s) ∧
    (g.WF ∧ a.WF ∧ (∀ op ∈ g.ops, ¬ IsAbs op) ∧ (absNormal f).1.numVar = f.numVar) ∧
    (∀ x u : ℕ → ℝ,
      (∀ i < m, g.eval (pair F.n x u) i = evalU u F.ops (F.n + 1) 0 (indEnv x) (F.dep.getD i 0)) ∧
      (∀ i (hi : i < terms.length), g.eval (pair F.n x u) (m + i) = evalU u F.ops (F.n + 1) 0 (indEnv x) terms[i].1) ∧
      (g.Dom (pair F.n x u) ↔ domU u F.ops (F.n + 1) 0 (indEnv x))) ∧
    (∀ x : ℕ → ℝ, ∀ i (hi : i < terms.length), a.eval x i = evalOps F.ops (F.n + 1) (indEnv x) terms[i].2) := by
  intro F s m g a terms
  have hterms : scan f.codes f.args (f.n + 1) = terms := scan_decode disc f.par _ _ _
  have hlen : terms.length = s := absTerms_length _ _
  have hlen' : (scan f.codes f.args (f.n + 1)).length = s := scan_length f disc
  have hmem := absTerms_mem F.ops (F.n + 1) F.ind (ind_lt _) hw.ops
  have hgdep : g.dep = f.dep.map (emit f.codes f.args (f.n + 1) (f.n + (scan f.codes f.args (f.n + 1)).length + 1)
        (start f.numVar f.n ((scan f.codes f.args (f.n + 1)).map Prod.snd))).2.2 ++
      ((scan f.codes f.args (f.n + 1)).map Prod.fst).map (emit f.codes f.args (f.n + 1) (f.n + (scan f.codes f.args (f.n + 1)).length + 1)
        (start f.numVar f.n ((scan f.codes f.args (f.n + 1)).map Prod.snd))).2.2 := rfl
  have hgn : g.n = F.n + s := by show f.n + _ = _; rw [hlen']; rfl
  have hem := emit_abs f.codes f.args (f.n + 1) (f.n + (scan f.codes f.args (f.n + 1)).length + 1)
        (start f.numVar f.n ((scan f.codes f.args (f.n + 1)).map Prod.snd))
  refine ⟨⟨hlen, hgn, ?_, rfl, ?_⟩, ⟨⟨?_, ?_, ?_⟩, ⟨hw.n_pos, hw.ops, ?_⟩, ?_, ?_⟩, ?_, ?_⟩
  · rw [hgdep]
    simp only [List.length_append, List.length_map, hlen']
    rfl
  · show ((scan f.codes f.args (f.n + 1)).map Prod.snd).length = s
    rw [List.length_map, hlen']
  · have := hw.n_pos
    rw [hgn]
    exact Nat.lt_of_lt_of_le this (Nat.le_add_right _ _)
  · rw [hgn]
    exact (absNormal_sim f disc hw hc (fun _ => 0) (fun _ => 0)).1
  · have h3 := (absNormal_sim f disc hw hc (fun _ => 0) (fun _ => 0)).2.2
    intro d hd
    rw [hgn]
    rw [hgdep] at hd
    rcases List.mem_append.1 hd with h | h
    · obtain ⟨d', hd', rfl⟩ := List.mem_map.1 h
      exact (h3 d' (hw.dep d' hd')).1
    · obtain ⟨d', hd', rfl⟩ := List.mem_map.1 h
      obtain ⟨p, hp, rfl⟩ := List.mem_map.1 hd'
      rw [hterms] at hp
      exact (h3 p.1 (hmem p hp).1).1
  · intro d hd
    obtain ⟨p, hp, rfl⟩ := List.mem_map.1 (show d ∈ (scan f.codes f.args (f.n + 1)).map Prod.snd from hd)
    rw [hterms] at hp
    exact (hmem p hp).2.1
  · exact decode_isAbs disc f.par _ _ hem.1
  · have h2 := hem.2
    show f.n + (scan f.codes f.args (f.n + 1)).length + 1 + ((emit f.codes f.args (f.n + 1) (f.n + (scan f.codes f.args (f.n + 1)).length + 1)
        (start f.numVar f.n ((scan f.codes f.args (f.n + 1)).map Prod.snd))).1.map Code.nres).sum = f.n + 1 + (f.codes.map Code.nres).sum
    omega
  · intro x u
    obtain ⟨_, h2, h3⟩ := absNormal_sim f disc hw hc x u
    refine ⟨?_, ?_, h2⟩
    · intro i hi
      replace hi : i < f.dep.length := hi
      have hd : f.dep.getD i 0 ∈ usable F.ops (F.n + 1) F.ind := by
        rw [List.getD_eq_getElem _ _ hi]; exact hw.dep _ (List.getElem_mem hi)
      unfold Tape.eval
      rw [hgn, hgdep, getD_map_append _ _ _ _ hi]
      exact (h3 _ hd).2
    · intro i hi
      have hi' : i < ((scan f.codes f.args (f.n + 1)).map Prod.fst).length := by rw [List.length_map, hterms]; exact hi
      have hd : ((scan f.codes f.args (f.n + 1)).map Prod.fst)[i] = terms[i].1 := by
        rw [List.getElem_map]
        congr 1
        simp only [hterms]
      unfold Tape.eval
      rw [hgn, hgdep]
      show evalOps g.ops _ _ ((f.dep.map _ ++ _).getD (f.dep.length + i) 0) = _
      rw [getD_append_map f.dep _ _ i hi', hd]
      exact (h3 _ (hmem _ (List.getElem_mem hi)).1).2
  · intro x i hi
    unfold Tape.eval
    show evalOps F.ops _ _ (((scan f.codes f.args (f.n + 1)).map Prod.snd).getD i 0) = _
    rw [hterms, List.getD_eq_getElem _ _ (by simpa using hi), List.getElem_map]
    rfl

/-- **C44.** The relations between `f`, `g` and `a` in the documentation: `y(x, a(x)) = f(x)`, `a_i(x) = |z_i(x, a(x))|`,
`z_i(x, u)` does not depend on `u_j` for `j >= i`, and `g` is at a point where all its operations are smooth when all the
operations of `f` other than the absolute values are. -/
theorem abs_normal_relations_partial (hw : (f.tape disc).WF) (hc : ∀ c ∈ f.codes, c.copied) :
    let F := f.tape disc
    let s := numAbs F.ops
    let m := F.dep.length
    let g := (absNormal f).1.tape disc
    let a := (absNormal f).2.tape disc
    (∀ x : ℕ → ℝ, ∀ i < m, g.eval (pair F.n x (a.eval x)) i = F.eval x i) ∧
    (∀ x : ℕ → ℝ, ∀ i < s, a.eval x i = |g.eval (pair F.n x (a.eval x)) (m + i)|) ∧
    (∀ x u u' : ℕ → ℝ, ∀ i < s, (∀ j < i, u j = u' j) → g.eval (pair F.n x u) (m + i) = g.eval (pair F.n x u') (m + i)) ∧
    (∀ x : ℕ → ℝ, SmoothBut F.ops (F.n + 1) (indEnv x) ↔ g.Dom (pair F.n x (a.eval x))) := by
  intro F s m g a
  obtain ⟨⟨hlen, _⟩, _, hg, ha⟩ := abs_normal_partial f disc hw hc
  have heq : ∀ x : ℕ → ℝ, evalU (a.eval x) F.ops (F.n + 1) 0 (indEnv x) = evalOps F.ops (F.n + 1) (indEnv x) ∧
      (SmoothBut F.ops (F.n + 1) (indEnv x) ↔ domU (a.eval x) F.ops (F.n + 1) 0 (indEnv x)) := by
    intro x
    apply evalU_eq
    intro j hj
    rw [Nat.zero_add]
    exact (ha x j hj).symm
  refine ⟨?_, ?_, ?_, ?_⟩
  · intro x i hi
    rw [(hg x _).1 i hi, (heq x).1]
    rfl
  · intro x i hi
    have hi' : i < (absTerms F.ops (F.n + 1)).length := by rw [hlen]; exact hi
    rw [(hg x _).2.1 i hi', (heq x).1, ha x i hi']
    exact absTerms_val F.ops (F.n + 1) F.ind (indEnv x) (ind_lt _) hw.ops _ (List.getElem_mem hi')
  · intro x u u' i hi hu
    have hi' : i < (absTerms F.ops (F.n + 1)).length := by rw [hlen]; exact hi
    rw [(hg x _).2.1 i hi', (hg x _).2.1 i hi']
    exact evalU_tri u u' F.ops (F.n + 1) 0 F.ind (indEnv x) (ind_lt _) hw.ops i hi' (fun j hj => hu j (by omega))
  · intro x
    rw [(heq x).2]
    exact (hg x _).2.2.symm

end

/-! ## A function that meets the hypotheses, and functions for which the claim fails -/

/-- `f(x) = (| x0 * |x0 - x1| | + sin x1, 3)` -/
def exRaw : Raw where
  n := 2
  codes := [.vv .sub, .abs, .cmpVv 0, .vv .mul, .abs, .un .sin, .vv .add, .par]
  args := [1, 2, 3, 1, 2, 1, 4, 5, 2, 6, 8, 1]
  par := fun i => if i = 1 then 3 else 0
  dep := [9, 10]
  depPar := [false, true]

theorem exRaw_tape (disc : ℕ → ℝ → ℝ) : exRaw.tape disc =
    ⟨2, [.subvv 1 2, .abs 3, .mulvv 1 4, .abs 5, .sin 2, .addvv 6 8, .par 3], [9, 10]⟩ := by
  simp [Raw.tape, exRaw, decode, toOp, Code.narg, Bin.vv, Un.op]

example (disc : ℕ → ℝ → ℝ) : (exRaw.tape disc).WF ∧ (∀ c ∈ exRaw.codes, c.copied) ∧ numAbs (exRaw.tape disc).ops = 2 ∧
    (absNormal exRaw).1.codes = [.vv .sub, .cmpVv 0, .vv .mul, .un .sin, .vv .add, .par] ∧
    (absNormal exRaw).1.args = [1, 2, 1, 2, 1, 3, 2, 4, 8, 1] ∧
    (absNormal exRaw).1.dep = [9, 10, 5, 6] ∧ (absNormal exRaw).2.dep = [4, 6] := by
  refine ⟨⟨?_, ?_, ?_⟩, ?_, ?_, rfl, rfl, rfl, rfl⟩
  · rw [exRaw_tape]; exact Nat.succ_pos _
  · rw [exRaw_tape]
    simp [WFOps, addRes, Op.args, Op.nres, Op.naux, Tape.ind]
  · rw [exRaw_tape]
    simp [usable, addRes, Op.nres, Op.naux, Tape.ind]
  · simp [exRaw, Code.copied]
  · rw [exRaw_tape]
    rw [numAbs, ← absTerms_length _ 0]
    rfl

/-- `f(x) = erf(x1)` with `n = 2`, where the parameters of the operator (0 and `2 / sqrt(pi)`) have index 1 and 2 -/
noncomputable def exErf : Raw where
  n := 2
  codes := [.erf]
  args := [2, 1, 2]
  par := fun i => if i = 2 then 2 / Real.sqrt Real.pi else 0
  dep := [7]
  depPar := [false]

theorem erf_one_pos : 0 < erf 1 := by
  unfold erf
  apply mul_pos (by positivity)
  apply intervalIntegral.intervalIntegral_pos_of_pos
  · exact Continuous.intervalIntegrable (by fun_prop) _ _
  · intro x; exact Real.exp_pos _
  · exact one_pos

/-- **C44, false for erf.** The first argument of ErfOp is not put in the recording of `g` (abs_normal_fun.hpp:569-579):
for `f(x) = erf(x1)`, which has no absolute value, `g(x)` is `erf(x0)`. -/
theorem abs_normal_wrong_erf (disc : ℕ → ℝ → ℝ) : (exErf.tape disc).WF ∧ numAbs (exErf.tape disc).ops = 0 ∧
    (∀ x, (exErf.tape disc).eval x 0 = erf (x 1)) ∧ (∀ x, ((absNormal exErf).1.tape disc).eval x 0 = erf (x 0)) ∧
    ∃ x, ((absNormal exErf).1.tape disc).eval (pair 2 x (((absNormal exErf).2.tape disc).eval x)) 0 ≠ (exErf.tape disc).eval x 0 := by
  have ht : exErf.tape disc = ⟨2, [.erf 2], [7]⟩ := by
    simp [Raw.tape, exErf, decode, toOp]
  have hg : (absNormal exErf).1.tape disc = ⟨2, [.erf 1], [7]⟩ := by
    simp [Raw.tape, absNormal, exErf, decode, toOp, scan, emit, newArgs, start, Code.nres, forRange]
  have h1 : ∀ x, (exErf.tape disc).eval x 0 = erf (x 1) := by
    intro x
    rw [ht]
    simp [Tape.eval, evalOps, stepEnv, Op.nres, Op.val, erfVal, indEnv]
  have h2 : ∀ x, ((absNormal exErf).1.tape disc).eval x 0 = erf (x 0) := by
    intro x
    rw [hg]
    simp [Tape.eval, evalOps, stepEnv, Op.nres, Op.val, erfVal, indEnv]
  refine ⟨⟨?_, ?_, ?_⟩, ?_, h1, h2, ?_⟩
  · rw [ht]; exact Nat.succ_pos _
  · rw [ht]; simp [WFOps, Op.args, Tape.ind]
  · rw [ht]; simp [usable, addRes, Op.nres, Op.naux, Tape.ind]
  · rw [ht, numAbs, ← absTerms_length _ 0]; rfl
  · refine ⟨fun j => if j = 0 then 1 else 0, ?_⟩
    rw [h1, h2]
    have : pair 2 (fun j => if j = 0 then (1 : ℝ) else 0) (((absNormal exErf).2.tape disc).eval fun j => if j = 0 then 1 else 0) 0 = 1 := by
      simp [pair]
    rw [this]
    have h0 : erf 0 = 0 := by simp [erf]
    have := erf_one_pos
    simp only [one_ne_zero, if_false, h0]
    exact this.ne'

/-- `f(x) = (3, |x|)` -/
def exPar : Raw where
  n := 1
  codes := [.abs, .par]
  args := [1, 1]
  par := fun i => if i = 1 then 3 else 0
  dep := [3, 2]
  depPar := [true, false]

/-- **C44, `a.Parameter(i)`.** The flags of the dependent variables of `f` stay in `a`: for `f(x) = (3, |x|)`,
`a.Parameter(0)` is true although `a_0(x) = |x|`. -/
theorem abs_normal_wrong_parameter (disc : ℕ → ℝ → ℝ) : (exPar.tape disc).WF ∧ (∀ x, (exPar.tape disc).eval x 0 = 3) ∧
    (∀ x, ((absNormal exPar).2.tape disc).eval x 0 = |x 0|) ∧ (absNormal exPar).2.parameter 0 = true := by
  have ht : exPar.tape disc = ⟨1, [.abs 1, .par 3], [3, 2]⟩ := by
    simp [Raw.tape, exPar, decode, toOp, Code.narg]
  have ha : (absNormal exPar).2.tape disc = ⟨1, [.abs 1, .par 3], [2]⟩ := by
    simp [Raw.tape, absNormal, exPar, decode, toOp, Code.narg, scan]
  refine ⟨⟨?_, ?_, ?_⟩, ?_, ?_, rfl⟩
  · rw [ht]; exact Nat.succ_pos _
  · rw [ht]; simp [WFOps, Op.args, Tape.ind]
  · rw [ht]; simp [usable, addRes, Op.nres, Op.naux, Tape.ind]
  · intro x; rw [ht]; simp [Tape.eval, evalOps, stepEnv, Op.nres, Op.val]
  · intro x; rw [ha]; simp [Tape.eval, evalOps, stepEnv, Op.nres, Op.val, indEnv]

end CppAD.AbsNormal
