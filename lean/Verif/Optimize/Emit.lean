import Verif.Optimize.Csum

/-! # The operators of the optimized recording -/

open scoped Classical

namespace CppAD.Optim

open CppAD CppAD.Record

/-- a CSkipOp before its arguments are known -/
def ph : VOp := .cskip .lt (.par 0) (.par 0) [] []

/-- is this a CSumOp -/
def VOp.isCsum : VOp → Bool
  | .csum .. => true
  | _ => false

/-- is this a CSkipOp -/
def VOp.isCskip : VOp → Bool
  | .cskip .. => true
  | _ => false

/-- is this a FunrpOp -/
def VOp.isFrp : VOp → Bool
  | .frp .. => true
  | _ => false

/-- is this a result of a call of an atomic function -/
def VOp.isRes : VOp → Bool
  | .frv .. | .frp .. => true
  | _ => false

variable {hashR : ℝ → ℕ} {P : Plan}

theorem insertSkip_spec (P : Plan) (i : ℕ) (s : RecSt) : ∃ a, (insertSkip P i s).ops = s.ops ++ a ∧ (a = [] ∨ a = [ph]) ∧
    ((P.op i).isInd = true → a = []) ∧ (insertSkip P i s).pars = s.pars ∧ (insertSkip P i s).newVar = s.newVar ∧
    (insertSkip P i s).newOp = s.newOp ∧ (insertSkip P i s).left = s.left ∧ (insertSkip P i s).right = s.right ∧
    (∀ k q, (insertSkip P i s).skipAt k = some q → s.skipAt k = some q ∨
      (q = s.ops.length ∧ a = [ph] ∧ (P.op k).maxLR < i ∧ P.cskip = true)) := by
  have triv : ∃ a, s.ops = s.ops ++ a ∧ (a = [] ∨ a = [ph]) ∧
      ((P.op i).isInd = true → a = []) ∧ s.pars = s.pars ∧ s.newVar = s.newVar ∧
      s.newOp = s.newOp ∧ s.left = s.left ∧ s.right = s.right ∧
      (∀ k q, s.skipAt k = some q → s.skipAt k = some q ∨ (q = s.ops.length ∧ a = [ph] ∧ (P.op k).maxLR < i ∧ P.cskip = true)) :=
    ⟨[], by simp, Or.inl rfl, fun _ => rfl, rfl, rfl, rfl, rfl, rfl, fun _ _ h => Or.inl h⟩
  by_cases hind : (P.op i).isInd = true ∨ (P.op i).isRes = true
  · have : insertSkip P i s = s := by
      unfold insertSkip
      cases hop : P.op i <;> simp_all [VOp.isInd, VOp.isRes]
    rw [this]; exact triv
  · have : insertSkip P i s = match s.order with
      | [] => s
      | j :: rest =>
        if P.cskip && decide ((P.op j).maxLR < i) then
          let s := { s with order := rest }
          if 0 < (P.use.skipOps P.op P.numOp j true).length ∨ 0 < (P.use.skipOps P.op P.numOp j false).length then
            { s with ops := s.ops ++ [ph], skipAt := Function.update s.skipAt j (some s.ops.length) }
          else s
        else s := by
      unfold insertSkip
      cases hop : P.op i <;> first | rfl | simp_all [VOp.isInd, VOp.isRes]
    rw [this]
    clear this
    split
    · exact triv
    · rename_i j rest _
      dsimp only
      split_ifs with h1 h2
      · refine ⟨[ph], rfl, Or.inr rfl, fun h => absurd (Or.inl h) hind, rfl, rfl, rfl, rfl, rfl, fun k q hq => ?_⟩
        dsimp only at hq
        by_cases hk : k = j
        · subst hk
          simp only [Function.update_self, Option.some.injEq] at hq
          simp only [Bool.and_eq_true, decide_eq_true_eq] at h1
          exact Or.inr ⟨hq.symm, rfl, h1.2, h1.1⟩
        · rw [Function.update_of_ne hk] at hq; exact Or.inl hq
      · exact ⟨[], by simp, Or.inl rfl, fun _ => rfl, rfl, rfl, rfl, rfl, rfl, fun _ _ h => Or.inl h⟩
      · exact triv

/-- the new indices of variables when the arguments of operator `i` are set -/
def RecSt.varsAt (s : RecSt) (P : Plan) (i : ℕ) : ℕ → ℕ :=
  Function.update s.newVar i (if P.use.use.usage i = .yes then s.newVar (P.use.prev i) else 0)

/-- the cumulative sum recorded for operator `i` -/
noncomputable def csumFor (hashR : ℝ → ℕ) (P : Plan) (i : ℕ) (s : RecSt) : VOp :=
  let c := csumRun P.op P.use.use.usage P.isDyn P.par i
  .csum (putCon hashR s.pars c.sum).2 (c.addV.map (s.varsAt P i)) (c.subV.map (s.varsAt P i)) (c.addD.map P.newPar) (c.subD.map P.newPar)

/-- the effect of recStep: `a` is the CSkipOp (if any), `b` the new operator (if any) -/
structure StepSpec (hashR : ℝ → ℕ) (P : Plan) (i : ℕ) (s s' : RecSt) (a b : List VOp) : Prop where
  ops : s'.ops = s.ops ++ a ++ b
  skip : a = [] ∨ a = [ph]
  skipInd : (P.op i).isInd = true → a = []
  newVar : ∀ j, j ≠ i → s'.newVar j = s.newVar j
  newOp : ∀ j, j ≠ i → s'.newOp j = s.newOp j
  left : ∀ j, j ≠ i → s'.left j = s.left j ∧ s'.right j = s.right j
  skipAt : ∀ k q, s'.skipAt k = some q → s.skipAt k = some q ∨ (q = s.ops.length ∧ a = [ph] ∧ (P.op k).maxLR < i ∧ P.cskip = true)
  unused : P.use.use.usage i ≠ .yes → (b = [] ∨ ∃ g p, b = [.frp g p]) ∧ s'.pars = s.pars
  prev : P.use.use.usage i = .yes → P.use.prev i ≠ 0 → (P.op i).matchable = true → P.top (P.op i) = false →
    b = [] ∧ s'.pars = s.pars ∧ s'.newVar i = s.newVar (P.use.prev i)
  put : P.use.use.usage i = .yes → P.use.prev i = 0 → P.top (P.op i) = false → (P.op i).isCsum = false → (P.op i).isCskip = false → (P.op i).isFrp = false →
    b = [(P.op i).emit P.zero P.parUsed P.newPar (s.varsAt P i) P.newVec] ∧ s'.pars = s.pars ∧ s'.newOp i = s.ops.length + a.length ∧
      ((P.op i).hasRes = true → s'.newVar i = s.ops.length + a.length)
  csum : P.use.use.usage i = .yes → P.top (P.op i) = true ∨ (P.op i).isCsum = true →
    b = [csumFor hashR P i s] ∧ s'.pars = (putCon hashR s.pars (csumRun P.op P.use.use.usage P.isDyn P.par i).sum).1 ∧
      s'.newOp i = s.ops.length + a.length ∧ s'.newVar i = s.ops.length + a.length
  cexp : ∀ cop l r t f, P.op i = .cexp cop l r t f → P.use.use.usage i = .yes → P.cskip = true →
    s'.left i = l.map P.newPar (s.varsAt P i) ∧ s'.right i = r.map P.newPar (s.varsAt P i)

theorem top_addOrSub {P : Plan} {op : VOp} (h : P.top op = true) : op.addOrSub = true := by
  simp only [Plan.top, Bool.and_eq_true] at h; exact h.1

theorem recStep_spec (hashR : ℝ → ℕ) (P : Plan) (i : ℕ) (s : RecSt) : ∃ a b, StepSpec hashR P i s (recStep hashR P i s) a b := by
  set s0 : RecSt := { s with newOp := Function.update s.newOp i 0, newVar := s.varsAt P i } with hs0
  obtain ⟨a, a1, a2, a3, a4, a5, a6, a7, a8, a9⟩ := insertSkip_spec P i s0
  set s1 := insertSkip P i s0 with hs1
  have hrec : recStep hashR P i s = if P.use.use.usage i ≠ .yes then (match (P.op i).dead P s1.newVar with
      | some op => s1.putOp i op
      | none => s1) else
      let new := (P.op i).emit P.zero P.parUsed P.newPar s1.newVar P.newVec
      match P.op i with
      | .begin | .inv | .par _ | .ldp .. | .ldv .. | .afun .. | .frv .. => s1.putVar i new
      | .un .. | .dis .. => if P.use.prev i = 0 then s1.putVar i new else s1
      | .pv .. | .vp .. | .vv .. =>
        if P.top (P.op i) then recordCsum hashR P i s1
        else if P.use.prev i = 0 then s1.putVar i new else s1
      | .cexp _ l r _ _ =>
        let s' := s1.putVar i new
        if P.cskip then
          { s' with left := Function.update s'.left i (l.map P.newPar s1.newVar),
                    right := Function.update s'.right i (r.map P.newPar s1.newVar) }
        else s'
      | .cmp .. => if P.use.prev i = 0 then s1.putOp i new else s1
      | .stpp .. | .stpv .. | .stvp .. | .stvv .. => s1.putOp i new
      | .csum .. => recordCsum hashR P i s1
      | .cskip .. => s1
      | .frp .. => s1 := rfl
  rw [hrec]
  clear hrec
  have e1 : s1.newVar = s.varsAt P i := a5
  have e2 : s1.newOp = Function.update s.newOp i 0 := a6
  have eops : s1.ops = s.ops ++ a := a1
  have fv : ∀ j, j ≠ i → s1.newVar j = s.newVar j := fun j hj => by rw [e1]; exact Function.update_of_ne hj _ _
  have fo : ∀ j, j ≠ i → s1.newOp j = s.newOp j := fun j hj => by rw [e2]; exact Function.update_of_ne hj _ _
  have fs : ∀ k q, s1.skipAt k = some q → s.skipAt k = some q ∨ (q = s.ops.length ∧ a = [ph] ∧ (P.op k).maxLR < i ∧ P.cskip = true) := a9
  have fl : s1.left = s.left := a7
  have fr : s1.right = s.right := a8
  have fp : s1.pars = s.pars := a4
  have flen : s1.ops.length = s.ops.length + a.length := by rw [eops]; simp
  have hi1 : P.use.use.usage i = .yes → s1.newVar i = s.newVar (P.use.prev i) := fun h => by
    rw [e1]; simp [RecSt.varsAt, h]
  -- nothing recorded
  have none : (P.use.use.usage i = .yes → P.use.prev i = 0 → P.top (P.op i) = false → (P.op i).isCsum = false → (P.op i).isCskip = true ∨ (P.op i).isFrp = true) →
      (P.use.use.usage i = .yes → P.top (P.op i) = true ∨ (P.op i).isCsum = true → False) →
      (P.use.use.usage i = .yes → (P.op i).isCexp = false) →
      StepSpec hashR P i s s1 a [] := fun h1 h2 h3 =>
    { ops := by rw [eops]; simp
      skip := a2, skipInd := a3, newVar := fv, newOp := fo, left := fun j _ => ⟨by rw [fl], by rw [fr]⟩, skipAt := fs
      unused := fun _ => ⟨Or.inl rfl, fp⟩
      prev := fun hu _ _ _ => ⟨rfl, fp, hi1 hu⟩
      put := fun x1 x2 x3 x4 x5 x6 => by
        rcases h1 x1 x2 x3 x4 with h | h
        · rw [h] at x5; cases x5
        · rw [h] at x6; cases x6
      csum := fun x1 x2 => (h2 x1 x2).elim
      cexp := fun cop l r t f hop hu _ => by have := h3 hu; rw [hop] at this; cases this }
  -- an operator with a result
  have putV : P.use.use.usage i = .yes → (P.use.prev i ≠ 0 → (P.op i).matchable = false) → P.top (P.op i) = false → (P.op i).isCsum = false →
      (P.op i).isCexp = false →
      StepSpec hashR P i s (s1.putVar i ((P.op i).emit P.zero P.parUsed P.newPar s1.newVar P.newVec)) a [(P.op i).emit P.zero P.parUsed P.newPar (s.varsAt P i) P.newVec] :=
    fun h1 h2 h3 h4 h5 =>
    { ops := by simp only [RecSt.putVar]; rw [eops, e1]
      skip := a2, skipInd := a3
      newVar := fun j hj => by simp only [RecSt.putVar, Function.update_of_ne hj]; exact fv j hj
      newOp := fun j hj => by simp only [RecSt.putVar, Function.update_of_ne hj]; exact fo j hj
      left := fun j _ => ⟨by simp only [RecSt.putVar]; rw [fl], by simp only [RecSt.putVar]; rw [fr]⟩
      skipAt := fs
      unused := fun hu => absurd h1 hu
      prev := fun _ x2 x3 _ => by rw [h2 x2] at x3; cases x3
      put := fun _ _ _ _ _ _ => ⟨rfl, fp, by simp [RecSt.putVar, flen], fun _ => by simp [RecSt.putVar, flen]⟩
      csum := fun _ x2 => by rw [h3, h4] at x2; simp at x2
      cexp := fun cop l r t f hop hu _ => by rw [hop] at h5; cases h5 }
  have putO : P.use.use.usage i = .yes → (P.use.prev i ≠ 0 → (P.op i).matchable = false) → P.top (P.op i) = false → (P.op i).isCsum = false →
      (P.op i).isCexp = false → (P.op i).hasRes = false →
      StepSpec hashR P i s (s1.putOp i ((P.op i).emit P.zero P.parUsed P.newPar s1.newVar P.newVec)) a [(P.op i).emit P.zero P.parUsed P.newPar (s.varsAt P i) P.newVec] :=
    fun h1 h2 h3 h4 h5 h6 =>
    { ops := by simp only [RecSt.putOp]; rw [eops, e1]
      skip := a2, skipInd := a3
      newVar := fun j hj => by simp only [RecSt.putOp]; exact fv j hj
      newOp := fun j hj => by simp only [RecSt.putOp, Function.update_of_ne hj]; exact fo j hj
      left := fun j _ => ⟨by simp only [RecSt.putOp]; rw [fl], by simp only [RecSt.putOp]; rw [fr]⟩
      skipAt := fs
      unused := fun hu => absurd h1 hu
      prev := fun _ x2 x3 _ => by rw [h2 x2] at x3; cases x3
      put := fun _ _ _ _ _ _ => ⟨rfl, fp, by simp [RecSt.putOp, flen], fun h => by rw [h6] at h; cases h⟩
      csum := fun _ x2 => by rw [h3, h4] at x2; simp at x2
      cexp := fun cop l r t f hop hu _ => by rw [hop] at h5; cases h5 }
  have putC : P.use.use.usage i = .yes → (P.top (P.op i) = true ∨ (P.op i).isCsum = true) → ((P.op i).isCsum = true → (P.op i).matchable = false) →
      (P.op i).isCexp = false → StepSpec hashR P i s (recordCsum hashR P i s1) a [csumFor hashR P i s] := fun h1 h2 h3 h5 =>
    { ops := by simp only [recordCsum, RecSt.putVar]; rw [eops, e1, fp]; rfl
      skip := a2, skipInd := a3
      newVar := fun j hj => by simp only [recordCsum, RecSt.putVar, Function.update_of_ne hj]; exact fv j hj
      newOp := fun j hj => by simp only [recordCsum, RecSt.putVar, Function.update_of_ne hj]; exact fo j hj
      left := fun j _ => ⟨by simp only [recordCsum, RecSt.putVar]; rw [fl], by simp only [recordCsum, RecSt.putVar]; rw [fr]⟩
      skipAt := fs
      unused := fun hu => absurd h1 hu
      prev := fun _ _ x3 x4 => by
        rcases h2 with h2 | h2
        · rw [h2] at x4; cases x4
        · rw [h3 h2] at x3; cases x3
      put := fun _ _ x3 x4 _ _ => by rcases h2 with h2 | h2 <;> simp_all
      csum := fun _ _ => ⟨rfl, by simp only [recordCsum, RecSt.putVar]; rw [fp], by simp [recordCsum, RecSt.putVar, flen], by simp [recordCsum, RecSt.putVar, flen]⟩
      cexp := fun cop l r t f hop hu _ => by rw [hop] at h5; cases h5 }
  by_cases hu : P.use.use.usage i ≠ .yes
  · rw [if_pos hu]
    cases hd : (P.op i).dead P s1.newVar with
    | none => exact ⟨a, [], none (fun h => absurd h hu) (fun h => absurd h hu) (fun h => absurd h hu)⟩
    | some op' =>
      obtain ⟨g, p, rfl⟩ : ∃ g p, op' = .frp g p := by
        unfold VOp.dead at hd
        split at hd
        · split_ifs at hd; exact ⟨_, _, (Option.some.inj hd).symm⟩
        · split_ifs at hd <;> exact ⟨_, _, (Option.some.inj hd).symm⟩
        · cases hd
      exact ⟨a, [.frp g p],
        { ops := by simp only [RecSt.putOp]; rw [eops]
          skip := a2, skipInd := a3
          newVar := fun j hj => by simp only [RecSt.putOp]; exact fv j hj
          newOp := fun j hj => by simp only [RecSt.putOp, Function.update_of_ne hj]; exact fo j hj
          left := fun j _ => ⟨by simp only [RecSt.putOp]; rw [fl], by simp only [RecSt.putOp]; rw [fr]⟩
          skipAt := fs
          unused := fun _ => ⟨Or.inr ⟨g, p, rfl⟩, fp⟩
          prev := fun h => absurd h hu
          put := fun h => absurd h hu
          csum := fun h => absurd h hu
          cexp := fun _ _ _ _ _ _ h => absurd h hu }⟩
  · rw [if_neg hu]
    have hu : P.use.use.usage i = .yes := by simpa using hu
    have topF : (P.op i).addOrSub = false → P.top (P.op i) = false := fun h => by
      by_contra hc; rw [top_addOrSub (by simpa using hc)] at h; cases h
    dsimp only
    cases hop : P.op i with
    | begin => rw [hop] at putV topF; exact ⟨a, _, putV hu (fun _ => rfl) (topF rfl) rfl rfl⟩
    | inv => rw [hop] at putV topF; exact ⟨a, _, putV hu (fun _ => rfl) (topF rfl) rfl rfl⟩
    | par p => rw [hop] at putV topF; exact ⟨a, _, putV hu (fun _ => rfl) (topF rfl) rfl rfl⟩
    | ldp w p => rw [hop] at putV topF; exact ⟨a, _, putV hu (fun _ => rfl) (topF rfl) rfl rfl⟩
    | ldv w p => rw [hop] at putV topF; exact ⟨a, _, putV hu (fun _ => rfl) (topF rfl) rfl rfl⟩
    | afun A args m => rw [hop] at putV topF; exact ⟨a, _, putV hu (fun _ => rfl) (topF rfl) rfl rfl⟩
    | frv A args g r => rw [hop] at putV topF; exact ⟨a, _, putV hu (fun _ => rfl) (topF rfl) rfl rfl⟩
    | frp g p =>
      rw [hop] at none topF
      exact ⟨a, _, none (fun _ _ _ _ => Or.inr rfl) (fun _ h => by rw [topF rfl] at h; simp [VOp.isCsum] at h) (fun _ => rfl)⟩
    | un f v =>
      rw [hop] at putV topF none
      dsimp only
      split_ifs with hp
      · exact ⟨a, _, putV hu (fun h => absurd hp h) (topF rfl) rfl rfl⟩
      · exact ⟨a, _, none (fun _ h => absurd h hp) (fun _ h => by rw [topF rfl] at h; simp [VOp.isCsum] at h) (fun _ => rfl)⟩
    | dis f v =>
      rw [hop] at putV topF none
      dsimp only
      split_ifs with hp
      · exact ⟨a, _, putV hu (fun h => absurd hp h) (topF rfl) rfl rfl⟩
      · exact ⟨a, _, none (fun _ h => absurd h hp) (fun _ h => by rw [topF rfl] at h; simp [VOp.isCsum] at h) (fun _ => rfl)⟩
    | pv f p v =>
      rw [hop] at putV putC topF none
      dsimp only
      split_ifs with ht hp
      · exact ⟨a, _, putC hu (Or.inl ht) (by simp [VOp.isCsum]) rfl⟩
      · exact ⟨a, _, putV hu (fun h => absurd hp h) (by simpa using ht) rfl rfl⟩
      · exact ⟨a, _, none (fun _ h => absurd h hp) (fun _ h => by simp [VOp.isCsum, ht] at h) (fun _ => rfl)⟩
    | vp f p v =>
      rw [hop] at putV putC topF none
      dsimp only
      split_ifs with ht hp
      · exact ⟨a, _, putC hu (Or.inl ht) (by simp [VOp.isCsum]) rfl⟩
      · exact ⟨a, _, putV hu (fun h => absurd hp h) (by simpa using ht) rfl rfl⟩
      · exact ⟨a, _, none (fun _ h => absurd h hp) (fun _ h => by simp [VOp.isCsum, ht] at h) (fun _ => rfl)⟩
    | vv f p v =>
      rw [hop] at putV putC topF none
      dsimp only
      split_ifs with ht hp
      · exact ⟨a, _, putC hu (Or.inl ht) (by simp [VOp.isCsum]) rfl⟩
      · exact ⟨a, _, putV hu (fun h => absurd hp h) (by simpa using ht) rfl rfl⟩
      · exact ⟨a, _, none (fun _ h => absurd h hp) (fun _ h => by simp [VOp.isCsum, ht] at h) (fun _ => rfl)⟩
    | csum c av sv ad sd =>
      rw [hop] at putC
      exact ⟨a, _, putC hu (Or.inr rfl) (fun _ => rfl) rfl⟩
    | cskip cop l r tr fa =>
      rw [hop] at none topF
      exact ⟨a, _, none (fun _ _ _ _ => Or.inl rfl) (fun _ h => by rw [topF rfl] at h; simp [VOp.isCsum] at h) (fun _ => rfl)⟩
    | cmp c x y =>
      rw [hop] at putO topF none
      dsimp only
      split_ifs with hp
      · exact ⟨a, _, putO hu (fun h => absurd hp h) (topF rfl) rfl rfl rfl⟩
      · exact ⟨a, _, none (fun _ h => absurd h hp) (fun _ h => by rw [topF rfl] at h; simp [VOp.isCsum] at h) (fun _ => rfl)⟩
    | stpp w x y => rw [hop] at putO topF; exact ⟨a, _, putO hu (fun _ => rfl) (topF rfl) rfl rfl rfl⟩
    | stpv w x y => rw [hop] at putO topF; exact ⟨a, _, putO hu (fun _ => rfl) (topF rfl) rfl rfl rfl⟩
    | stvp w x y => rw [hop] at putO topF; exact ⟨a, _, putO hu (fun _ => rfl) (topF rfl) rfl rfl rfl⟩
    | stvv w x y => rw [hop] at putO topF; exact ⟨a, _, putO hu (fun _ => rfl) (topF rfl) rfl rfl rfl⟩
    | cexp cop l r t f =>
      rw [hop] at topF
      dsimp only
      refine ⟨a, [(P.op i).emit P.zero P.parUsed P.newPar (s.varsAt P i) P.newVec], ?_⟩
      have htop := topF rfl
      have base : ∀ s2 : RecSt, s2.ops = s1.ops ++ [(P.op i).emit P.zero P.parUsed P.newPar (s.varsAt P i) P.newVec] → s2.pars = s1.pars →
          s2.newVar = Function.update s1.newVar i s1.ops.length → s2.newOp = Function.update s1.newOp i s1.ops.length →
          s2.skipAt = s1.skipAt → (∀ j, j ≠ i → s2.left j = s1.left j ∧ s2.right j = s1.right j) →
          (P.cskip = true → s2.left i = l.map P.newPar (s.varsAt P i) ∧ s2.right i = r.map P.newPar (s.varsAt P i)) →
          StepSpec hashR P i s s2 a [(P.op i).emit P.zero P.parUsed P.newPar (s.varsAt P i) P.newVec] := fun s2 h1 h2 h3 h4 h5 h6 h7 =>
        { ops := by rw [h1, eops]
          skip := a2, skipInd := a3
          newVar := fun j hj => by rw [h3, Function.update_of_ne hj]; exact fv j hj
          newOp := fun j hj => by rw [h4, Function.update_of_ne hj]; exact fo j hj
          left := fun j hj => ⟨by rw [(h6 j hj).1, fl], by rw [(h6 j hj).2, fr]⟩
          skipAt := by rw [h5]; exact fs
          unused := fun h => absurd hu h
          prev := fun _ _ x3 _ => by rw [hop] at x3; cases x3
          put := fun _ _ _ _ _ _ => ⟨rfl, by rw [h2, fp], by rw [h4, Function.update_self, flen], fun _ => by rw [h3, Function.update_self, flen]⟩
          csum := fun _ x2 => by rw [hop, htop] at x2; simp [VOp.isCsum] at x2
          cexp := fun cop' l' r' t' f' hop' _ hc => by
            rw [hop] at hop'; cases hop'; exact h7 hc }
      split_ifs with hc
      · refine base _ (by simp only [RecSt.putVar]; rw [e1, hop]) rfl rfl rfl rfl ?_ ?_
        · intro j hj; simp [RecSt.putVar, Function.update_of_ne hj]
        · intro _; simp [e1]
      · refine base _ (by simp only [RecSt.putVar]; rw [e1, hop]) rfl rfl rfl rfl (fun _ _ => ⟨rfl, rfl⟩) (fun h => absurd h hc)

end CppAD.Optim
