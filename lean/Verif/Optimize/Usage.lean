import Verif.Optimize.Sem

/-! # What get_op_usage guarantees -/

open scoped Classical

namespace CppAD.Optim

open CppAD CppAD.Record

/-- is parameter `p` dynamic -/
def OTape.isDyn (T : OTape) (p : ℕ) : Bool := T.dyn.parIsDyn.getD p false

/-- does this operator store a parameter in a VecAD vector -/
def VOp.storesPar : VOp → Bool
  | .stpp .. | .stvp .. => true
  | _ => false

/-- Recordings that a program can produce (see `CppAD.Record` for the recording of a program): the independent
variables come first, arguments refer to previous results, dependent variables refer to results,
CSumOp has a constant as first argument, the results of a call of an atomic function follow the call.  Beyond that: there are no stores of parameters, and the dynamic
parameters of a CSumOp are independent; see `Verif.Optimize.Wrong` for why these are needed.
`atom`: the results of a call of an atomic function that are dynamic parameters follow each other (put_dyn_atomic.hpp:144-175).
`adep`: the contract of `rev_depend` for such a call, the same as `AtomF.depend_ok`. -/
structure OTape.WF (T : OTape) : Prop where
  len : T.n < T.ops.length
  ind : ∀ i < T.ops.length, (T.op i).isInd = true ↔ i ≤ T.n
  vars : ∀ i < T.ops.length, ∀ v ∈ (T.op i).vars, 1 ≤ v ∧ v < i ∧ (T.op v).hasRes = true
  pars : ∀ i < T.ops.length, ∀ p ∈ (T.op i).pars, p < T.dyn.parAll.length
  csum : ∀ i < T.ops.length, ∀ c av sv ad sd, T.op i = .csum c av sv ad sd →
    T.isDyn c = false ∧ ∀ p ∈ ad ++ sd, T.isDyn p = true ∧ p ≤ T.nInd
  vec : ∀ i < T.ops.length, ∀ w, (T.op i).vec = some w → w < T.vecs.length
  vecs : ∀ l ∈ T.vecs, ∀ p ∈ l, p < T.dyn.parAll.length
  stores : ∀ i < T.ops.length, (T.op i).storesPar = false
  call : ∀ i < T.ops.length, ∀ A args g r, T.op i = .frv A args g r → ∃ m, T.op g = .afun A args m ∧ i = g + 1 + r ∧ r < m
  dep : ∀ d ∈ T.dep, 1 ≤ d ∧ d < T.ops.length ∧ (T.op d).hasRes = true
  dyn : DynWf T.dyn.parIsDyn T.dyn.dynOps
  plen : T.dyn.parAll.length = T.dyn.parIsDyn.length
  par0 : 0 < T.dyn.parAll.length ∧ T.isDyn 0 = false
  nind : T.nInd ≤ T.dyn.dynOps.length ∧ ∀ k < T.dyn.dynOps.length, T.dyn.dynOps.getD k .ind = .ind ↔ k < T.nInd
  atom : ∀ k < T.dyn.dynOps.length, ∀ A sel i args, T.dyn.dynOps.getD k .ind = .atom A sel i args →
    sel.length = A.m ∧ sel.getD i false = true ∧ selRank sel i ≤ k ∧
    ∀ r < A.m, sel.getD r false = true → k - selRank sel i + selRank sel r < T.dyn.dynOps.length ∧
      T.dyn.dynOps.getD (k - selRank sel i + selRank sel r) .ind = .atom A sel r args
  adep : ∀ A sel i args, .atom A sel i args ∈ T.dyn.dynOps → ∀ (tx : List (AdType × Option ℝ)) (dy : ℕ → Bool) (x x' : List ℝ),
    x.length = tx.length → x'.length = tx.length →
    (∀ (j : ℕ) (v : ℝ), tx[j]? = some (AdType.constant, some v) → x[j]? = some v) →
    (∀ j < tx.length, T.adep A tx dy j = true → x[j]? = x'[j]?) → ∀ r, dy r = true → sel.getD r false = true →
    A.forward (fun k => sel.getD k false) 0 0 (fun j => (x[j]?).getD 0) (fun _ => 0) r =
      A.forward (fun k => sel.getD k false) 0 0 (fun j => (x'[j]?).getD 0) (fun _ => 0) r
  d2p : ∀ k < T.nInd, (dyn2par T.dyn.parIsDyn).getD k 0 = k + 1

/-- a recording without atomic functions of dynamic parameters: field `atom` of `OTape.WF` -/
theorem OTape.noAtom {T : OTape} (h : ∀ op ∈ T.dyn.dynOps, op.elem) (k : ℕ) (hk : k < T.dyn.dynOps.length) {A : Atom} {sel : List Bool} {i : ℕ}
    {args : List ℕ} (he : T.dyn.dynOps.getD k .ind = .atom A sel i args) : False := by
  rw [List.getD_eq_getElem _ _ hk] at he
  have := h _ (List.getElem_mem hk)
  rw [he] at this
  exact this

/-- no < csum < yes -/
def Usage.le (a b : Usage) : Prop := a = .no ∨ b = .yes ∨ a = b

theorem Usage.le_refl (a : Usage) : a.le a := Or.inr (Or.inr rfl)

theorem Usage.le_yes (a : Usage) : a.le .yes := Or.inr (Or.inl rfl)

theorem Usage.le_trans {a b c : Usage} (h : a.le b) (h' : b.le c) : a.le c := by
  cases a <;> cases b <;> cases c <;> simp_all [Usage.le]

theorem Usage.ne_no {a b : Usage} (h : a.le b) (h' : a ≠ .no) : b ≠ .no := by
  cases a <;> cases b <;> simp_all [Usage.le]

theorem Usage.yes_le {b : Usage} (h : Usage.yes.le b) : b = .yes := by
  cases b <;> simp_all [Usage.le]

variable {o : Options} {tx : ℕ → AdType × ℝ} {op : ℕ → VOp} {nset : Bool}

/-! ## One argument -/

/-- effect of a sequence of steps on the state of get_op_usage while processing operator `i`; the
arguments that have been processed are `l` -/
structure Eff (op : ℕ → VOp) (l : List ℕ) (s s' : UseSt) : Prop where
  usage : ∀ j, j ∉ l → s'.usage j = s.usage j
  cset : ∀ j, j ∉ l → s'.cset j = s.cset j
  mono : ∀ j, (s.usage j).le (s'.usage j)
  used : ∀ j ∈ l, s'.usage j ≠ .no
  csum : ∀ j, s'.usage j = .csum → s.usage j = .csum ∨ (s.usage j = .no ∧ (op j).addOrSub = true)
  shrink : ∀ j, s.usage j ≠ .no → s'.cset j ⊆ s.cset j

theorem Eff.refl (s : UseSt) : Eff op [] s s :=
  ⟨fun _ _ => rfl, fun _ _ => rfl, fun _ => Usage.le_refl _, by simp, fun _ h => Or.inl h, fun _ _ => subset_rfl⟩

theorem Eff.trans {l l' : List ℕ} {s s' s'' : UseSt} (h : Eff op l s s') (h' : Eff op l' s' s'') : Eff op (l ++ l') s s'' where
  usage j hj := by
    rw [List.mem_append, not_or] at hj
    rw [h'.usage j hj.2, h.usage j hj.1]
  cset j hj := by
    rw [List.mem_append, not_or] at hj
    rw [h'.cset j hj.2, h.cset j hj.1]
  mono j := Usage.le_trans (h.mono j) (h'.mono j)
  used j hj := by
    by_cases h1 : j ∈ l'
    · exact h'.used j h1
    · rcases List.mem_append.1 hj with h2 | h2
      · exact Usage.ne_no (h'.mono j) (h.used j h2)
      · exact absurd h2 h1
  csum j hj := by
    rcases h'.csum j hj with h1 | ⟨h1, h2⟩
    · exact h.csum j h1
    · by_cases h3 : s.usage j = .no
      · exact Or.inr ⟨h3, h2⟩
      · exact absurd h1 (Usage.ne_no (h.mono j) h3)
  shrink j hj := (h'.shrink j (Usage.ne_no (h.mono j) hj)).trans (h.shrink j hj)

theorem incArg_eff (check : Bool) (i j : ℕ) (s : UseSt) : Eff op [j] s (incArg op nset check i j s) where
  usage k hk := by simp only [List.mem_singleton] at hk; simp [incArg, Function.update_of_ne hk]
  cset k hk := by
    simp only [List.mem_singleton] at hk
    cases nset <;> simp [incArg, Function.update_of_ne hk]
  mono k := by
    by_cases hk : k = j
    · subst hk
      simp only [incArg, Function.update_self]
      split_ifs with h
      · simp only [Bool.and_eq_true, decide_eq_true_eq] at h
        rw [h.1.2]; exact Or.inl rfl
      · exact Usage.le_yes _
    · simp only [incArg, Function.update_of_ne hk]; exact Usage.le_refl _
  used k hk := by
    simp only [List.mem_singleton] at hk
    subst hk
    simp only [incArg, Function.update_self]
    split_ifs <;> simp
  csum k hk := by
    by_cases hkj : k = j
    · subst hkj
      simp only [incArg, Function.update_self] at hk
      split_ifs at hk with h
      simp only [Bool.and_eq_true, decide_eq_true_eq] at h
      exact Or.inr ⟨h.1.2, h.2⟩
    · simp only [incArg, Function.update_of_ne hkj] at hk; exact Or.inl hk
  shrink k hk := by
    by_cases hkj : k = j
    · subst hkj
      cases nset
      · simp [incArg]
      · simp [incArg, hk]
    · cases nset <;> simp [incArg, Function.update_of_ne hkj]

/-- without the check for cumulative sums the argument has yes usage -/
theorem incArg_yes (i j : ℕ) (s : UseSt) : (incArg op nset false i j s).usage j = .yes := by simp [incArg]

theorem incArg_csum {check : Bool} {i j : ℕ} {s : UseSt} (h : (incArg op nset check i j s).usage j = .csum) : check = true := by
  simp only [incArg, Function.update_self] at h
  split_ifs at h with h1
  simp only [Bool.and_eq_true, decide_eq_true_eq] at h1
  exact h1.1.1

theorem incOpd_eff (i : ℕ) (a : Arg) (s : UseSt) : Eff op a.vars s (incOpd op nset i a s) := by
  cases a
  · exact Eff.refl s
  · exact incArg_eff _ _ _ _

theorem incOpd_yes (i : ℕ) (a : Arg) (s : UseSt) : ∀ v ∈ a.vars, (incOpd op nset i a s).usage v = .yes := by
  cases a
  · simp [Arg.vars]
  · simp only [Arg.vars, List.mem_singleton]; rintro v rfl; exact incArg_yes _ _ _

theorem incCase_eff (same : Bool) (i : ℕ) (b : Bool) (a : Arg) (s : UseSt) :
    Eff op a.vars s (incCase o op nset same i b a s) := by
  cases a with
  | par p => exact Eff.refl s
  | var j =>
    have h := incArg_eff (op := op) (nset := nset) false i j s
    simp only [incCase, Arg.vars]
    split_ifs with hc
    · simp only [Bool.and_eq_true, decide_eq_true_eq] at hc
      refine ⟨?_, ?_, ?_, ?_, ?_, ?_⟩
      · intro k hk
        have hk' := hk
        simp only [List.mem_singleton] at hk'
        simp only [Function.update_of_ne hk']; exact h.usage k hk
      · intro k hk
        have hk' := hk
        simp only [List.mem_singleton] at hk'
        simp only [Function.update_of_ne hk']; exact h.cset k hk
      · intro k
        by_cases hk : k = j
        · subst hk; simp only [Function.update_self]; exact Usage.le_yes _
        · simp only [Function.update_of_ne hk]; exact h.mono k
      · intro k hk
        simp only [List.mem_singleton] at hk
        subst hk; simp
      · intro k hk
        by_cases hkj : k = j
        · subst hkj; simp at hk
        · simp only [Function.update_of_ne hkj] at hk; exact h.csum k hk
      · intro k hk
        by_cases hkj : k = j
        · subst hkj; exact absurd hc.2 hk
        · simp only [Function.update_of_ne hkj]; exact h.shrink k hk
    · exact h

theorem incCase_yes (same : Bool) (i : ℕ) (b : Bool) (a : Arg) (s : UseSt) :
    ∀ v ∈ a.vars, (incCase o op nset same i b a s).usage v = .yes := by
  cases a with
  | par p => simp [Arg.vars]
  | var j =>
    simp only [Arg.vars, List.mem_singleton]
    rintro v rfl
    simp only [incCase]
    split_ifs
    · simp
    · exact incArg_yes _ _ _

theorem mark_eff (s : UseSt) (j : ℕ) : Eff op [j] s (s.mark j) where
  usage k hk := by simp only [List.mem_singleton] at hk; simp [UseSt.mark, Function.update_of_ne hk]
  cset _ _ := rfl
  mono k := by
    by_cases hk : k = j
    · subst hk; simp only [UseSt.mark, Function.update_self]; exact Usage.le_yes _
    · simp only [UseSt.mark, Function.update_of_ne hk]; exact Usage.le_refl _
  used k hk := by simp only [List.mem_singleton] at hk; subst hk; simp [UseSt.mark]
  csum k hk := by
    by_cases hkj : k = j
    · subst hkj; simp [UseSt.mark] at hk
    · simp only [UseSt.mark, Function.update_of_ne hkj] at hk; exact Or.inl hk
  shrink _ _ := subset_rfl

theorem mark_self (s : UseSt) (j : ℕ) : (s.mark j).usage j = .yes := by simp [UseSt.mark]

theorem vused_eff (s : UseSt) (f : ℕ → Bool) : Eff op [] s { s with vused := f } :=
  ⟨fun _ _ => rfl, fun _ _ => rfl, fun _ => Usage.le_refl _, by simp, fun _ h => Or.inl h, fun _ _ => subset_rfl⟩

theorem foldl_eff (i : ℕ) : ∀ (l : List ℕ) (s : UseSt), Eff op l s (l.foldl (fun s j => incArg op nset false i j s) s)
  | [], s => Eff.refl s
  | j :: l, s => by
    have := (incArg_eff (op := op) (nset := nset) false i j s).trans (foldl_eff i l (incArg op nset false i j s))
    simpa using this

theorem foldl_yes (i : ℕ) : ∀ (l : List ℕ) (s : UseSt),
    ∀ v ∈ l, (l.foldl (fun s j => incArg op nset false i j s) s).usage v = .yes
  | [], s => by simp
  | j :: l, s => by
    intro v hv
    rw [List.foldl_cons]
    have h := foldl_eff (op := op) (nset := nset) i l (incArg op nset false i j s)
    rcases List.mem_cons.1 hv with rfl | h1
    · have h2 := h.mono v
      rw [incArg_yes] at h2
      exact Usage.yes_le h2
    · exact foldl_yes i l _ v h1

theorem foldlA_eff (i : ℕ) : ∀ (l : List Arg) (s : UseSt), Eff op (l.flatMap Arg.vars) s (l.foldl (fun s a => incOpd op nset i a s) s)
  | [], s => Eff.refl s
  | a :: l, s => by
    have := (incOpd_eff (op := op) (nset := nset) i a s).trans (foldlA_eff i l (incOpd op nset i a s))
    simpa using this

theorem foldlA_yes (i : ℕ) : ∀ (l : List Arg) (s : UseSt),
    ∀ v ∈ l.flatMap Arg.vars, (l.foldl (fun s a => incOpd op nset i a s) s).usage v = .yes
  | [], s => by simp
  | a :: l, s => by
    intro v hv
    rw [List.foldl_cons]
    have h := foldlA_eff (op := op) (nset := nset) i l (incOpd op nset i a s)
    rw [List.flatMap_cons, List.mem_append] at hv
    rcases hv with h1 | h1
    · have h2 := h.mono v
      rw [incOpd_yes _ _ _ v h1] at h2
      exact Usage.yes_le h2
    · exact foldlA_yes i l _ v h1

/-- the arguments that the used results depend on are arguments -/
theorem depArgs_mem {u : ℕ → Usage} {i m : ℕ} {A : AtomF} {args : List Arg} {a : Arg} (h : a ∈ depArgs tx u i A args m) : a ∈ args := by
  simp only [depArgs, List.mem_map, List.mem_filter, List.mem_range] at h
  obtain ⟨j, ⟨hj, _⟩, rfl⟩ := h
  rw [List.getD_eq_getElem _ _ hj]; exact List.getElem_mem _

/-- variable arguments that are used when the operator is used; `u` is the usage of the operators -/
def VOp.need (tx : ℕ → AdType × ℝ) (u : ℕ → Usage) (i : ℕ) : VOp → List ℕ
  | .afun A args m => (depArgs tx u i A args m).flatMap Arg.vars
  | .frv _ _ g _ => [g]
  | .frp .. => []
  | op => op.vars

theorem need_eq {u : ℕ → Usage} {i : ℕ} {op : VOp} (h : op.isAtom = false) : op.need tx u i = op.vars := by
  cases op <;> first | rfl | cases h

theorem need_vars {u : ℕ → Usage} {i v : ℕ} {op : VOp} (h : v ∈ op.need tx u i) : v ∈ op.vars := by
  cases op with
  | afun A args m =>
    simp only [VOp.need, VOp.vars, List.mem_flatMap] at h ⊢
    obtain ⟨a, ha, hv⟩ := h
    exact ⟨a, depArgs_mem ha, hv⟩
  | frv A args g r => exact List.mem_cons.2 (Or.inl (List.mem_singleton.1 h))
  | frp => cases h
  | _ => exact h

/-- only the usage of the results matters -/
theorem need_congr {u u' : ℕ → Usage} {i : ℕ} (op : VOp) (h : ∀ j, i < j → u j = u' j) : op.need tx u i = op.need tx u' i := by
  cases op with
  | afun A args m =>
    have : dependX tx u i A args m = dependX tx u' i A args m := by
      unfold dependX; congr 1; funext r; rw [h _ (by omega)]
    simp only [VOp.need, depArgs, this]
  | _ => rfl

/-! ## One operator -/

/-- arguments of an operator that are changed when it is processed -/
theorem useStep_eff (i : ℕ) (s : UseSt) :
    ∃ l, (∀ j ∈ l, j ∈ (op i).vars ∨ j = i) ∧ Eff op l s (useStep o tx op nset i s) := by
  unfold useStep
  cases hop : op i with
  | begin => exact ⟨[i], by simp, mark_eff s i⟩
  | inv => exact ⟨[i], by simp, mark_eff s i⟩
  | un f v =>
    dsimp only
    split_ifs
    · exact ⟨[v], by simp [VOp.vars], incArg_eff _ _ _ _⟩
    · exact ⟨[], by simp, Eff.refl s⟩
  | pv f p v =>
    dsimp only
    split_ifs
    · exact ⟨[v], by simp [VOp.vars], incArg_eff _ _ _ _⟩
    · exact ⟨[], by simp, Eff.refl s⟩
  | vp f v p =>
    dsimp only
    split_ifs
    · exact ⟨[v], by simp [VOp.vars], incArg_eff _ _ _ _⟩
    · exact ⟨[], by simp, Eff.refl s⟩
  | vv f v u =>
    dsimp only
    split_ifs
    · exact ⟨[v] ++ [u], by simp +contextual [VOp.vars], (incArg_eff _ _ _ _).trans (incArg_eff _ _ _ _)⟩
    · exact ⟨[], by simp, Eff.refl s⟩
  | dis k v =>
    dsimp only
    split_ifs
    · exact ⟨[v], by simp [VOp.vars], incArg_eff _ _ _ _⟩
    · exact ⟨[], by simp, Eff.refl s⟩
  | par p => exact ⟨[], by simp, Eff.refl s⟩
  | cexp cop l r t f =>
    dsimp only
    split_ifs
    · exact ⟨_, fun j hj => Or.inl hj, (((incOpd_eff i l s).trans (incOpd_eff i r _)).trans (incCase_eff _ i false t _)).trans
        (incCase_eff _ i true f _)⟩
    · exact ⟨[], by simp, Eff.refl s⟩
  | cmp c a b =>
    dsimp only
    split_ifs
    · exact ⟨_, fun j hj => by simp only [List.mem_append, List.mem_singleton] at hj
                               simp only [VOp.vars, List.mem_append]; tauto,
        ((mark_eff s i).trans (incOpd_eff i a _)).trans (incOpd_eff i b _)⟩
    · exact ⟨[], by simp, Eff.refl s⟩
  | csum c av sv ad sd => exact ⟨_, fun j hj => Or.inl hj, foldl_eff i (av ++ sv) s⟩
  | cskip => exact ⟨[], by simp, Eff.refl s⟩
  | ldp w p =>
    dsimp only
    split_ifs
    · exact ⟨[], by simp, vused_eff s _⟩
    · exact ⟨[], by simp, Eff.refl s⟩
  | ldv w v =>
    dsimp only
    split_ifs
    · exact ⟨[] ++ [v], by simp [VOp.vars], (vused_eff s _).trans (mark_eff _ v)⟩
    · exact ⟨[], by simp, Eff.refl s⟩
  | stpp => exact ⟨[], by simp, Eff.refl s⟩
  | stvp => exact ⟨[], by simp, Eff.refl s⟩
  | stpv w p v =>
    dsimp only
    split_ifs
    · exact ⟨[i] ++ [v], by simp [VOp.vars], (mark_eff s i).trans (mark_eff _ v)⟩
    · exact ⟨[], by simp, Eff.refl s⟩
  | stvv w v u =>
    dsimp only
    split_ifs
    · exact ⟨[i] ++ [v] ++ [u], by simp [VOp.vars], ((mark_eff s i).trans (mark_eff _ v)).trans (mark_eff _ u)⟩
    · exact ⟨[], by simp, Eff.refl s⟩
  | afun A args m =>
    dsimp only
    split_ifs
    · exact ⟨_, fun j hj => Or.inl (need_vars (tx := tx) (u := s.usage) (i := i) (op := .afun A args m) hj), foldlA_eff i _ s⟩
    · exact ⟨[], by simp, Eff.refl s⟩
  | frv A args g r =>
    dsimp only
    split_ifs
    · exact ⟨[g], by simp [VOp.vars], incArg_eff _ _ _ _⟩
    · exact ⟨[], by simp, Eff.refl s⟩
  | frp => exact ⟨[], by simp, Eff.refl s⟩

/-- the operator itself -/
theorem useStep_self (i : ℕ) (s : UseSt) :
    (useStep o tx op nset i s).usage i = s.usage i ∨ (useStep o tx op nset i s).usage i = .yes := by
  obtain ⟨l, hl, h⟩ := useStep_eff (o := o) (tx := tx) (op := op) (nset := nset) i s
  cases hu : (useStep o tx op nset i s).usage i with
  | yes => exact Or.inr rfl
  | no => left; have := h.mono i; rw [hu] at this; cases hs : s.usage i <;> simp_all [Usage.le]
  | csum =>
    left
    rcases h.csum i hu with h1 | ⟨h1, h2⟩
    · exact h1.symm
    · exfalso
      unfold useStep at hu
      cases hop : op i <;> simp only [hop, VOp.addOrSub] at h2 hu <;> simp_all

/-- all the arguments of a used operator are used, and only arguments of additions and subtractions have csum usage -/
theorem useStep_args (i : ℕ) (s : UseSt) (hstore : (op i).storesPar = false)
    (hno : (op i).hasRes = false → s.usage i = .no)
    (hu : (useStep o tx op nset i s).usage i ≠ .no) :
    ∀ v ∈ (op i).need tx s.usage i, (useStep o tx op nset i s).usage v ≠ .no ∧
      ((useStep o tx op nset i s).usage v = .csum → (op i).addOrSub = true ∧ (op v).addOrSub = true ∧ s.usage v = .no) := by
  have key : ∀ l : List ℕ, ∀ s' : UseSt, Eff op l s s' → (∀ v ∈ l, s'.usage v = .yes) →
      ∀ v ∈ l, s'.usage v ≠ .no ∧ (s'.usage v = .csum → (op i).addOrSub = true ∧ (op v).addOrSub = true ∧ s.usage v = .no) := by
    intro l s' h hy v hv
    refine ⟨h.used v hv, fun hc => ?_⟩
    rw [hy v hv] at hc; cases hc
  have key2 : ∀ (check : Bool) (v : ℕ), (check = true → (op i).addOrSub = true) → (incArg op nset check i v s).usage v ≠ .no ∧
      ((incArg op nset check i v s).usage v = .csum → (op i).addOrSub = true ∧ (op v).addOrSub = true ∧ s.usage v = .no) := by
    intro check v hc
    refine ⟨(incArg_eff check i v s).used v (by simp), fun h => ?_⟩
    have h1 := incArg_csum h
    refine ⟨hc h1, ?_⟩
    simp only [incArg, Function.update_self] at h
    split_ifs at h with h2
    simp only [Bool.and_eq_true, decide_eq_true_eq] at h2
    exact ⟨h2.2, h2.1.2⟩
  unfold useStep at hu ⊢
  cases hop : op i with
  | begin => simp [VOp.need, VOp.vars]
  | inv => simp [VOp.need, VOp.vars]
  | un f v =>
    simp only [hop] at hu ⊢
    split_ifs at hu ⊢ with h
    · have := key [v] _ (incArg_eff (nset := nset) false i v s) (by simp [incArg_yes])
      simpa [VOp.need, VOp.vars, hop] using this
    · exact absurd hu h
  | dis f v =>
    simp only [hop] at hu ⊢
    split_ifs at hu ⊢ with h
    · have := key [v] _ (incArg_eff (nset := nset) false i v s) (by simp [incArg_yes])
      simpa [VOp.need, VOp.vars, hop] using this
    · exact absurd hu h
  | pv f p v =>
    simp only [hop] at hu ⊢
    split_ifs at hu ⊢ with h
    · have := key2 (o.csum && (VOp.pv f 0 v).addOrSub) v (by rw [hop]; cases f <;> simp [VOp.addOrSub])
      simpa [VOp.need, VOp.vars, hop] using this
    · exact absurd hu h
  | vp f v p =>
    simp only [hop] at hu ⊢
    split_ifs at hu ⊢ with h
    · have := key2 (o.csum && (VOp.vp f v 0).addOrSub) v (by rw [hop]; cases f <;> simp [VOp.addOrSub])
      simpa [VOp.need, VOp.vars, hop] using this
    · exact absurd hu h
  | vv f v u =>
    simp only [hop] at hu ⊢
    split_ifs at hu ⊢ with h
    · have e := (incArg_eff (op := op) (nset := nset) (o.csum && (VOp.vv f v u).addOrSub) i v s).trans
        (incArg_eff (op := op) (nset := nset) (o.csum && (VOp.vv f v u).addOrSub) i u _)
      have e1 := incArg_eff (op := op) (nset := nset) (o.csum && (VOp.vv f v u).addOrSub) i v s
      have e2 := incArg_eff (op := op) (nset := nset) (o.csum && (VOp.vv f v u).addOrSub) i u
        (incArg op nset (o.csum && (VOp.vv f v u).addOrSub) i v s)
      intro w hw
      simp only [VOp.need, VOp.vars] at hw
      refine ⟨e.used w hw, fun hc => ?_⟩
      have hck : (o.csum && (VOp.vv f v u).addOrSub) = true := by
        by_cases hwu : w = u
        · subst hwu; exact incArg_csum hc
        · have hwv : w = v := by simp at hw; tauto
          subst hwv
          rw [e2.usage w (by simpa using hwu)] at hc
          exact incArg_csum hc
      simp only [Bool.and_eq_true] at hck
      refine ⟨hck.2, ?_⟩
      rcases e.csum w hc with h1 | ⟨h1, h2⟩
      · exfalso
        by_cases hwv : w = v
        · subst hwv
          have h3 : (incArg op nset (o.csum && (VOp.vv f w u).addOrSub) i w s).usage w = .yes := by
            simp [incArg, h1]
          have h4 := e2.mono w
          rw [h3] at h4
          rw [Usage.yes_le h4] at hc; cases hc
        · have hwu : w = u := by simp at hw; tauto
          subst hwu
          have h3 : (incArg op nset (o.csum && (VOp.vv f v w).addOrSub) i v s).usage w = .csum := by
            rw [e1.usage w (by simpa using hwv), h1]
          simp [incArg, Function.update_of_ne hwv, h1] at hc
      · exact ⟨h2, h1⟩
    · exact absurd hu h
  | par p => simp [VOp.need, VOp.vars]
  | cexp cop l r t f =>
    simp only [hop] at hu ⊢
    split_ifs at hu ⊢ with h
    · have e1 := incOpd_eff (op := op) (nset := nset) i l s
      have e2 := incOpd_eff (op := op) (nset := nset) i r (incOpd op nset i l s)
      have e3 := incCase_eff (o := o) (op := op) (nset := nset) (sameVar t f) i false t (incOpd op nset i r (incOpd op nset i l s))
      have e4 := incCase_eff (o := o) (op := op) (nset := nset) (sameVar t f) i true f
        (incCase o op nset (sameVar t f) i false t (incOpd op nset i r (incOpd op nset i l s)))
      have := key _ _ (((e1.trans e2).trans e3).trans e4) (by
        intro v hv
        simp only [List.mem_append] at hv
        rcases hv with ((hv | hv) | hv) | hv
        · have := ((e2.trans e3).trans e4).mono v
          rw [incOpd_yes i l s v hv] at this
          exact Usage.yes_le this
        · have := (e3.trans e4).mono v
          rw [incOpd_yes i r _ v hv] at this
          exact Usage.yes_le this
        · have := e4.mono v
          rw [incCase_yes _ i false t _ v hv] at this
          exact Usage.yes_le this
        · exact incCase_yes _ i true f _ v hv)
      simpa only [VOp.need, VOp.vars, hop] using this
    · exact absurd hu h
  | cmp c a b =>
    simp only [hop] at hu ⊢
    split_ifs at hu ⊢ with h
    · have e1 := mark_eff (op := op) s i
      have e2 := incOpd_eff (op := op) (nset := nset) i a (s.mark i)
      have e3 := incOpd_eff (op := op) (nset := nset) i b (incOpd op nset i a (s.mark i))
      intro v hv
      simp only [VOp.need, VOp.vars, List.mem_append] at hv
      have hy : (incOpd op nset i b (incOpd op nset i a (s.mark i))).usage v = .yes := by
        rcases hv with hv | hv
        · have := e3.mono v
          rw [incOpd_yes i a _ v hv] at this
          exact Usage.yes_le this
        · exact incOpd_yes i b _ v hv
      rw [hy]; simp
    · exact absurd (hno (by rw [hop]; rfl)) hu
  | csum c av sv ad sd =>
    have := key _ _ (foldl_eff (nset := nset) i (av ++ sv) s) (foldl_yes i (av ++ sv) s)
    simpa [VOp.need, VOp.vars, hop] using this
  | cskip cop l r tr fa =>
    simp only [hop] at hu
    exact absurd (hno (by rw [hop]; rfl)) hu
  | ldp w p => simp [VOp.need, VOp.vars]
  | ldv w v =>
    simp only [hop] at hu ⊢
    split_ifs at hu ⊢ with h
    · simp [VOp.need, VOp.vars, mark_self]
    · exact absurd hu h
  | stpp w p q => rw [hop] at hstore; simp [VOp.storesPar] at hstore
  | stvp w p q => rw [hop] at hstore; simp [VOp.storesPar] at hstore
  | stpv w p v =>
    simp only [hop] at hu ⊢
    split_ifs at hu ⊢ with h
    · simp [VOp.need, VOp.vars, mark_self]
    · exact absurd (hno (by rw [hop]; rfl)) hu
  | stvv w v u =>
    simp only [hop] at hu ⊢
    split_ifs at hu ⊢ with h
    · intro k hk
      have hy : (((s.mark i).mark v).mark u).usage k = .yes := by
        by_cases h1 : k = u
        · subst h1; simp [UseSt.mark]
        · have : k = v := by simp [VOp.need, VOp.vars] at hk; tauto
          subst this; simp [UseSt.mark, Function.update_of_ne h1]
      rw [hy]; simp
    · exact absurd (hno (by rw [hop]; rfl)) hu
  | afun A args m =>
    simp only [hop] at hu ⊢
    split_ifs at hu ⊢ with h
    · have := key _ _ (foldlA_eff (nset := nset) i (depArgs tx s.usage i A args m) s) (foldlA_yes i _ s)
      rw [hop] at this
      exact this
    · exact absurd hu h
  | frv A args g r =>
    simp only [hop] at hu ⊢
    split_ifs at hu ⊢ with h
    · have := key [g] _ (incArg_eff (nset := nset) false i g s) (by simp [incArg_yes])
      simpa [VOp.need, VOp.vars, hop] using this
    · exact absurd hu h
  | frp => simp [VOp.need]

end CppAD.Optim
