import Verif.Graph.To

/-! # to_graph: the theorem -/

open scoped Classical

namespace CppAD.Graph

open CppAD CppAD.Record CppAD.Optim

variable {fn : Txt → ℝ → ℝ} {disc : ℕ → ℝ → ℝ} {names : ℕ → Txt} {T : OTape} {ind x : List ℝ} {junk : ℕ → ℝ}

/-! ## Recordings without CSkipOp and VecAD operators -/

theorem step_skip {par : ℕ → ℝ} {i : ℕ} {op : VOp} {s : FSt} (h : op.supported = true) : (op.step disc par i s).skip = s.skip := by
  cases op <;> simp_all [VOp.step, FSt.set, VOp.supported]

theorem sweep_obey {par : ℕ → ℝ} (b : Bool) (ops : List VOp) (h : ∀ op ∈ ops, op.supported = true) :
    ∀ (i : ℕ) (s : FSt), (∀ k, s.skip k = false) → sweepOps disc par b ops i s = sweepOps disc par false ops i s := by
  induction ops with
  | nil => intro i s _; rfl
  | cons op ops ih =>
    intro i s hs
    simp only [sweepOps, hs, Bool.and_false, Bool.false_eq_true, if_false, Bool.and_self]
    exact ih (fun o ho => h o (List.mem_cons_of_mem _ ho)) _ _ fun k => by rw [step_skip (h op List.mem_cons_self)]; exact hs k

theorem op_mem {ops : List VOp} {i : ℕ} (h : i < ops.length) : ops.getD i .begin ∈ ops := getD_mem_or _ h

theorem supported_all (w : ∀ i < T.ops.length, (T.op i).supported = true) : ∀ op ∈ T.ops, op.supported = true := by
  intro op hop
  obtain ⟨i, hi, rfl⟩ := List.getElem_of_mem hop
  have := w i hi
  unfold OTape.op at this
  rwa [List.getD_eq_getElem _ _ hi] at this

/-- the comparisons that fail among the first `i` operators -/
noncomputable def failUpTo (P F : ℕ → ℝ) (T : OTape) (i : ℕ) : ℕ := ((List.range i).map fun k => opFail P F (T.op k)).sum

theorem failUpTo_succ (P F : ℕ → ℝ) (T : OTape) (i : ℕ) : failUpTo P F T (i + 1) = failUpTo P F T i + opFail P F (T.op i) := by
  unfold failUpTo; rw [List.range_succ, List.map_append, List.sum_append]; simp

theorem refAt_skip {par : ℕ → ℝ} {s : FSt} (w : ∀ i < T.ops.length, (T.op i).supported = true) (hs : ∀ k, s.skip k = false) :
    ∀ i ≤ T.ops.length, ∀ k, (refAt disc par T.ops s i).skip k = false := by
  intro i
  induction i with
  | zero => intro _ k; rw [refAt_zero]; exact hs k
  | succ n ih => intro h k; rw [refAt_succ (by omega)]; exact (congrFun (step_skip (w n (by omega))) k).trans (ih (by omega) k)

theorem countOps_cons {par : ℕ → ℝ} (op : VOp) (ops : List VOp) (i : ℕ) (s : FSt) :
    countOps disc par (op :: ops) i s = if s.skip i then countOps disc par ops (i + 1) s
      else opFail par s.val op + countOps disc par ops (i + 1) (op.step disc par i s) := by
  cases op <;> rfl

theorem countOps_eq {par : ℕ → ℝ} {s : FSt} (w : ∀ i < T.ops.length, (T.op i).supported = true)
    (hv : ∀ i < T.ops.length, ∀ v ∈ (T.op i).vars, v < i) (hs : ∀ k, s.skip k = false) :
    countOps disc par T.ops 0 s = failUpTo par (finalVal disc par T.ops s) T T.ops.length := by
  have key : ∀ m k, k + m = T.ops.length → countOps disc par (T.ops.drop k) k (refAt disc par T.ops s k) + failUpTo par (finalVal disc par T.ops s) T k =
      failUpTo par (finalVal disc par T.ops s) T T.ops.length := by
    intro m
    induction m with
    | zero =>
      intro k hk
      rw [show k = T.ops.length by omega, List.drop_length]; simp [countOps]
    | succ m ih =>
      intro k hk
      have hlt : k < T.ops.length := by omega
      have h1 := ih (k + 1) (by omega)
      rw [List.drop_eq_getElem_cons hlt, countOps_cons, refAt_skip w hs k hlt.le k]
      simp only [Bool.false_eq_true, if_false]
      have e : T.ops[k] = T.op k := by unfold OTape.op; rw [List.getD_eq_getElem _ _ hlt]
      rw [refAt_succ hlt] at h1
      have e2 : T.ops.getD k .begin = T.op k := rfl
      rw [e2] at h1
      rw [e, ← h1, failUpTo_succ]
      have hval : ∀ a : Arg, (∀ v ∈ a.vars, v ∈ (T.op k).vars) → a.val par (refAt disc par T.ops s k).val = a.val par (finalVal disc par T.ops s) := by
        intro a ha
        exact Arg.val_congr a (fun _ _ => rfl) fun v hv' => finalVal_eq (hv k hlt v (ha v hv')) hlt.le
      have e3 : opFail par (refAt disc par T.ops s k).val (T.op k) = opFail par (finalVal disc par T.ops s) (T.op k) := by
        cases hop : T.op k with
        | cmp c a b =>
          rw [hop] at hval
          simp only [opFail]
          rw [hval a (fun v h => by simp [VOp.vars, h]), hval b (fun v h => by simp [VOp.vars, h])]
        | _ => rfl
      have aux : ∀ m o c f : ℕ, m = o → m + c + f = c + (f + o) := by intros; omega
      exact aux _ _ _ _ e3
  have := key T.ops.length 0 (by omega)
  rw [List.drop_zero, refAt_zero] at this
  simpa [failUpTo] using this

theorem finalVal_fin {par : ℕ → ℝ} {s : FSt} {i : ℕ} (hi : i < T.ops.length) (w : (T.op i).supported = true)
    (hv : ∀ v ∈ (T.op i).vars, v < i) (hr : (T.op i).hasRes = true) (hI : (T.op i).isInd = false) :
    finalVal disc par T.ops s i = (T.op i).res disc par (finSt (finalVal disc par T.ops s)) := by
  rw [finalVal_res hi hr hI]
  refine res_congr _ (fun _ _ => rfl) (fun v h => ?_) fun w' h => ?_
  · show (refAt disc par T.ops s i).val v = finalVal disc par T.ops s v
    exact finalVal_eq (hv v h) hi.le
  · exfalso
    have h' : (T.op i).vec = some w' := h
    revert h' w
    cases T.op i <;> simp [VOp.supported, VOp.vec]

/-! ## The constants -/

/-- the state in the loop over the constants -/
structure CI (fname : Txt) (T : OTape) (ind x : List ℝ) (i : ℕ) (s : ToSt) : Prop where
  ex : ∃ cs : List ℝ, s.g = ⟨fname, T.nInd, T.n, [], [], [], cs, [], [], []⟩ ∧ s.prev = T.nInd + T.n + cs.length ∧
    ∀ p, 1 ≤ p → p < i → T.dyn.parIsDyn.getD p false = false → T.nInd + T.n < s.p2n p ∧ s.p2n p ≤ s.prev ∧
      at' (0 :: (ind ++ x ++ cs)) (s.p2n p) = at' T.dyn.parAll p
  v2n : s.v2n = fun i => if 1 ≤ i ∧ i ≤ T.n then T.nInd + i else 0
  dyn : ∀ p, 1 ≤ p → p ≤ T.nInd → s.p2n p = p

theorem toInit_ci (w : TapeOk T) (hi : ind.length = T.nInd) (hx : x.length = T.n) (fname : Txt) :
    CI fname T ind x T.dyn.parAll.length (toInit fname T) := by
  unfold toInit
  dsimp only
  refine forRange_ind (show 1 ≤ T.dyn.parAll.length from w.par0.1) (fun i s => CI fname T ind x i s) ?_ ?_
  · refine ⟨⟨[], rfl, rfl, fun p h1 h2 => by omega⟩, rfl, fun p h1 h2 => ?_⟩
    simp only; rw [if_pos ⟨h1, h2⟩]
  · rintro k s hk1 hk2 ⟨⟨cs, hg, hp, hc⟩, hv, hd⟩
    by_cases hdyn : T.dyn.parIsDyn.getD k false = true
    · rw [if_pos hdyn]
      refine ⟨⟨cs, hg, hp, fun p h1 h2 h3 => hc p h1 ?_ h3⟩, hv, hd⟩
      rcases Nat.lt_or_ge p k with h | h
      · exact h
      · rw [show p = k by omega, hdyn] at h3; cases h3
    · rw [if_neg hdyn]
      have hnd : ∀ p, 1 ≤ p → p ≤ T.nInd → p ≠ k := by
        rintro p h1 h2 rfl
        have h3 := w.d2p (p - 1) (by omega)
        have h4 := d2p_isDyn (b := T.dyn.parIsDyn) (k := p - 1) (by rw [w.dyn.length]; have := w.nind.1; omega)
        rw [h3, show p - 1 + 1 = p by omega] at h4
        exact hdyn h4
      refine ⟨⟨cs ++ [at' T.dyn.parAll k], ?_, ?_, fun p h1 h2 h3 => ?_⟩, hv, fun p h1 h2 => ?_⟩
      · simp only [hg]
      · simp only [hp, List.length_append, List.length_singleton]; omega
      · have e : (0 : ℝ) :: (ind ++ x ++ (cs ++ [at' T.dyn.parAll k])) = (0 :: (ind ++ x ++ cs)) ++ [at' T.dyn.parAll k] := by simp
        have hl : (0 :: (ind ++ x ++ cs)).length = s.prev + 1 := by simp [hi, hx, hp]; omega
        simp only
        by_cases hpk : p = k
        · subst hpk
          rw [Function.update_self, e, ← hl, at'_append_length]
          exact ⟨by omega, by omega, rfl⟩
        · rw [Function.update_of_ne hpk]
          obtain ⟨q1, q2, q3⟩ := hc p h1 (by omega) h3
          rw [e, at'_append (by omega)]
          exact ⟨q1, by omega, q3⟩
      · simp only
        rw [Function.update_of_ne (hnd p h1 h2)]; exact hd p h1 h2

/-- the values of the parameters -/
noncomputable abbrev PV (disc : ℕ → ℝ → ℝ) (ind : List ℝ) (T : OTape) : ℕ → ℝ := at' (parVals disc ind T.dyn)

/-- the values of the variables -/
noncomputable abbrev FV (disc : ℕ → ℝ → ℝ) (ind : List ℝ) (T : OTape) (x : List ℝ) (junk : ℕ → ℝ) : ℕ → ℝ :=
  finalVal disc (PV disc ind T) T.ops (T.start (at' x) junk)

theorem PV_con (w : TapeOk T) {p : ℕ} (hp : p < T.dyn.parAll.length) (h : T.dyn.parIsDyn.getD p false = false) :
    PV disc ind T p = at' T.dyn.parAll p := by
  refine sweep_con_eq disc ind w.dyn _ w.plen p ?_
  have := w.plen
  rw [List.getD_eq_getElem _ _ (by omega)] at h ⊢; exact h

theorem PV_ind (w : TapeOk T) {p : ℕ} (h1 : 1 ≤ p) (h2 : p ≤ T.nInd) : PV disc ind T p = at' ind (p - 1) := by
  have hk : p - 1 < T.dyn.dynOps.length := by have := w.nind.1; omega
  obtain ⟨h, -, -⟩ := sweep_fix (disc := disc) (ind := ind) w.dyn _ w.plen (p - 1) hk
  rw [w.d2p (p - 1) (by omega), (w.nind.2 (p - 1) hk).2 (by omega), show p - 1 + 1 = p by omega] at h
  exact h

theorem FV_ind (w : TapeOk T) {v : ℕ} (h1 : 1 ≤ v) (h2 : v ≤ T.n) : FV disc ind T x junk v = at' x (v - 1) := by
  have hlt : v < T.ops.length := by have := w.len; omega
  have : FV disc ind T x junk v = (T.start (at' x) junk).val v := finalVal_ind hlt ((w.ind v hlt).2 h2)
  rw [this]; simp only [OTape.start]; rw [if_pos ⟨h1, h2⟩]

/-- after the constants -/
theorem toInit_ok (w : TapeOk T) (hi : ind.length = T.nInd) (hx : x.length = T.n) (fname : Txt) :
    ∃ cs, TI fn T (PV disc ind T) (FV disc ind T x junk) (0 :: (ind ++ x ++ cs))
      (fun p => (1 ≤ p ∧ p ≤ T.nInd) ∨ (1 ≤ p ∧ p < T.dyn.parAll.length ∧ T.dyn.parIsDyn.getD p false = false))
      (fun v => 1 ≤ v ∧ v ≤ T.n) 0 (toInit fname T) ∧ (toInit fname T).g.constants = cs := by
  obtain ⟨⟨cs, hg, hp, hc⟩, hv, hd⟩ := toInit_ci w hi hx fname
  have hl : (0 :: (ind ++ x ++ cs)).length = (toInit fname T).prev + 1 := by simp [hi, hx, hp]; omega
  refine ⟨cs, ⟨by rw [hg]; exact ⟨rfl, rfl⟩, ⟨[], _, ⟨?_, trivial, rfl, by simp, ?_⟩, ⟨hl.symm, fun p h => ?_, fun v h => ?_⟩, rfl⟩,
    ⟨ind ++ x, by simp [hi, hx], by rw [hg]⟩⟩, by rw [hg]⟩
  · rw [hg]; exact ⟨rfl, rfl⟩
  · rw [hg]; exact List.nodup_nil
  · show _ ∧ _ < (0 :: (ind ++ x ++ cs)).length ∧ at' (0 :: (ind ++ x ++ cs)) _ = _
    rcases h with ⟨h1, h2⟩ | ⟨h1, h2, h3⟩
    · rw [hd p h1 h2, PV_ind w h1 h2]
      refine ⟨h1, by simp; omega, ?_⟩
      obtain ⟨q, rfl⟩ : ∃ q, p = q + 1 := ⟨p - 1, by omega⟩
      rw [List.append_assoc]
      show at' (ind ++ (x ++ cs)) q = at' ind q
      exact at'_append (by omega)
    · obtain ⟨q1, q2, q3⟩ := hc p h1 h2 h3
      rw [PV_con w h2 h3]
      exact ⟨by omega, by omega, q3⟩
  · show _ ∧ _ < (0 :: (ind ++ x ++ cs)).length ∧ at' (0 :: (ind ++ x ++ cs)) _ = _
    rw [hv, FV_ind w h.1 h.2]
    simp only
    rw [if_pos h]
    refine ⟨by omega, by simp; omega, ?_⟩
    obtain ⟨q, rfl⟩ : ∃ q, v = q + 1 := ⟨v - 1, by omega⟩
    show at' (ind ++ x ++ cs) (T.nInd + q) = at' x q
    rw [at'_append (by simp; omega), ← hi]
    unfold at'
    rw [List.getD_append_right _ _ _ _ (by omega), Nat.add_sub_cancel_left]

/-- the names that to_graph stores identify the discrete functions that the recording uses -/
structure NameOk (fn : Txt → ℝ → ℝ) (disc : ℕ → ℝ → ℝ) (names : ℕ → Txt) (T : OTape) : Prop where
  var : ∀ i < T.ops.length, ∀ k, (T.op i).disIdx = some k → fn (names k) = disc k
  dyn : ∀ op ∈ T.dyn.dynOps, ∀ k, dynDisIdx op = some k → fn (names k) = disc k

theorem TI.mono {P F : ℕ → ℝ} {st : List ℝ} {okp okv okp' okv' : ℕ → Prop} {c : ℕ} {s : ToSt} (h : TI fn T P F st okp okv c s)
    (hp : ∀ p, okp' p → okp p) (hv : ∀ p, okv' p → okv p) : TI fn T P F st okp' okv' c s := by
  obtain ⟨hd, ⟨l, V, hG, hM, hc⟩, hcs⟩ := h
  exact ⟨hd, ⟨l, V, hG, hM.mono hp hv, hc⟩, hcs⟩

theorem d2p_lt_of {b : List Bool} {j k : ℕ} (hj : j < (dyn2par b).length) (hk : k < (dyn2par b).length)
    (h : (dyn2par b).getD j 0 < (dyn2par b).getD k 0) : j < k := by
  by_contra hc
  have hs : (dyn2par b).Pairwise (· < ·) := by unfold dyn2par; exact List.Pairwise.filter _ List.pairwise_lt_range
  rw [List.getD_eq_getElem _ _ hj, List.getD_eq_getElem _ _ hk] at h
  rcases Nat.lt_or_ge k j with h' | h'
  · have := List.pairwise_iff_getElem.1 hs k j hk hj h'; omega
  · have : j = k := by omega
    subst this; omega

/-- a parameter is a constant or the result of a dynamic parameter operator -/
theorem par_cases (w : TapeOk T) {p : ℕ} (h2 : p < T.dyn.parAll.length) :
    T.dyn.parIsDyn.getD p false = false ∨ ∃ j < T.dyn.dynOps.length, (dyn2par T.dyn.parIsDyn).getD j 0 = p := by
  cases h : T.dyn.parIsDyn.getD p false with
  | false => exact Or.inl rfl
  | true =>
    right
    exact ⟨(dyn2par T.dyn.parIsDyn).idxOf p, by rw [← w.dyn.length]; exact List.idxOf_lt_length_of_mem (d2p_mem h), d2p_idxOf h⟩

theorem toDyns_ok (w : TapeOk T) (hn : NameOk fn disc names T) (hi : ind.length = T.nInd) (hx : x.length = T.n) (fname : Txt) :
    ∃ cs, TI fn T (PV disc ind T) (FV disc ind T x junk) (0 :: (ind ++ x ++ cs))
      (fun p => 1 ≤ p ∧ p < T.dyn.parAll.length) (fun v => 1 ≤ v ∧ v ≤ T.n) 0
      (forRange T.nInd T.dyn.dynOps.length (toInit fname T) (toDyn names T)) ∧
      (forRange T.nInd T.dyn.dynOps.length (toInit fname T) (toDyn names T)).g.constants = cs := by
  obtain ⟨cs, h, hcs⟩ := toInit_ok (fn := fn) (disc := disc) (junk := junk) w hi hx fname
  have key := forRange_ind w.nind.1 (s := toInit fname T) (f := toDyn names T)
    (fun k s => TI fn T (PV disc ind T) (FV disc ind T x junk) (0 :: (ind ++ x ++ cs))
      (fun p => 1 ≤ p ∧ p < T.dyn.parAll.length ∧ (T.dyn.parIsDyn.getD p false = false ∨ ∃ j < k, (dyn2par T.dyn.parIsDyn).getD j 0 = p))
      (fun v => 1 ≤ v ∧ v ≤ T.n) 0 s) ?_ ?_
  · refine ⟨cs, key.mono (fun p hp => ⟨hp.1, hp.2, par_cases w hp.2⟩) fun _ h => h, ?_⟩
    obtain ⟨d, hd1, hd2⟩ := key.cs
    have hl : (ind ++ x).length = d.length := by simp [hi, hx, hd1]
    simp only [List.cons.injEq, true_and] at hd2
    exact (List.append_inj_right hd2 hl).symm
  · refine h.mono ?_ fun _ h => h
    rintro p ⟨h1, h2, h3 | ⟨j, hj, rfl⟩⟩
    · exact Or.inr ⟨h1, h2, h3⟩
    · rw [w.d2p j hj]; left; omega
  · intro k s hk1 hk2 hs
    obtain ⟨e1, e2, e3⟩ := sweep_fix (disc := disc) (ind := ind) w.dyn _ w.plen k hk2
    have hlen := w.dyn.length
    have hop : T.dyn.dynOps.getD k .ind ∈ T.dyn.dynOps := getD_mem_or _ hk2
    refine (toDyn_ok (disc := disc) (ind := ind) (names := names) hs ?_ (w.dargs _ hop).1 ?_ e1 ?_).mono ?_ fun _ h => h
    · intro h'
      have := (w.nind.2 k hk2).1 h'; omega
    · intro a ha
      have h1 := (w.dargs _ hop).2 a ha
      have h2 := e2 a ha
      have h3 : a < T.dyn.parAll.length := by rw [w.plen]; omega
      refine ⟨⟨h1, h3, ?_⟩, by omega⟩
      rcases par_cases w h3 with h4 | ⟨j, hj, h4⟩
      · exact Or.inl h4
      · refine Or.inr ⟨j, d2p_lt_of (by omega) (by omega : k < (dyn2par T.dyn.parIsDyn).length) (by omega), h4⟩
    · exact fun j hj => hn.dyn _ hop j hj
    · rintro p ⟨h1, h2, h3 | ⟨j, hj, h3⟩⟩
      · exact Or.inl ⟨h1, h2, Or.inl h3⟩
      · rcases Nat.lt_or_ge j k with h4 | h4
        · exact Or.inl ⟨h1, h2, Or.inr ⟨j, h4, h3⟩⟩
        · rw [show j = k by omega] at h3; exact Or.inr h3.symm

theorem toVars_ok (w : TapeOk T) (hn : NameOk fn disc names T) (hi : ind.length = T.nInd) (hx : x.length = T.n) (fname : Txt) :
    ∃ s : ToSt, toGraph names fname T = { s.g with deps := T.dep.map s.v2n } ∧
      TI fn T (PV disc ind T) (FV disc ind T x junk) (0 :: (ind ++ x ++ s.g.constants))
      (fun p => 1 ≤ p ∧ p < T.dyn.parAll.length) (fun v => (1 ≤ v ∧ v < T.ops.length ∧ (T.op v).hasRes = true))
      (failUpTo (PV disc ind T) (FV disc ind T x junk) T T.ops.length) s := by
  obtain ⟨cs, h, hcs⟩ := toDyns_ok (junk := junk) w hn hi hx fname
  refine ⟨_, rfl, ?_⟩
  have key := forRange_ind (Nat.zero_le T.ops.length) (s := forRange T.nInd T.dyn.dynOps.length (toInit fname T) (toDyn names T)) (f := toVar names T)
    (fun i s => TI fn T (PV disc ind T) (FV disc ind T x junk) (0 :: (ind ++ x ++ cs))
      (fun p => 1 ≤ p ∧ p < T.dyn.parAll.length) (fun v => (1 ≤ v ∧ v ≤ T.n) ∨ (1 ≤ v ∧ v < i ∧ (T.op v).hasRes = true))
      (failUpTo (PV disc ind T) (FV disc ind T x junk) T i) s) ?_ ?_
  · have hcs' : cs = (forRange 0 T.ops.length (forRange T.nInd T.dyn.dynOps.length (toInit fname T) (toDyn names T)) (toVar names T)).g.constants := by
      obtain ⟨d, hd1, hd2⟩ := key.cs
      have hl : (ind ++ x).length = d.length := by simp [hi, hx, hd1]
      simp only [List.cons.injEq, true_and] at hd2
      exact (List.append_inj_right hd2 hl)
    rw [← hcs']
    exact key.mono (fun _ h => h) fun v hv => Or.inr hv
  · exact h.mono (fun _ h => h) (by rintro v (h | ⟨-, h, -⟩); exacts [h, by omega])
  · intro i s _ hi2 hs
    rw [failUpTo_succ]
    refine (toVar_ok (disc := disc) (names := names) hs (w.supported i hi2) ?_ (w.pars i hi2) ?_ ?_ (hn.var i hi2)).mono (fun _ h => h) ?_
    · rcases Nat.lt_or_ge T.n i with h' | h'
      · left; rintro (⟨-, h2⟩ | ⟨-, h2, -⟩) <;> omega
      · right; exact (w.ind i hi2).2 h'
    · intro v hv; exact Or.inr (w.vars i hi2 v hv)
    · exact fun h1 h2 => finalVal_fin hi2 (w.supported i hi2) (fun v hv => (w.vars i hi2 v hv).2.1) h1 h2
    · rintro v (h' | ⟨h1, h2, h3⟩)
      · exact Or.inl (Or.inl h')
      · rcases Nat.lt_or_ge v i with h4 | h4
        · exact Or.inl (Or.inr ⟨h1, h4, h3⟩)
        · have : v = i := by omega
          subst this
          cases h5 : (T.op v).isInd with
          | true => exact Or.inl (Or.inl ⟨h1, (w.ind v hi2).1 h5⟩)
          | false => exact Or.inr ⟨rfl, h3, rfl⟩

/-- The graph that to_graph creates has the values of the recorded function, for all values of the dynamic parameters
and of the independent variables.  The number of comparisons that do not hold is also the same. -/
theorem toGraph_ok (w : TapeOk T) (hn : NameOk fn disc names T) (hi : ind.length = T.nInd) (hx : x.length = T.n) (fname : Txt) (b : Bool) :
    (toGraph names fname T).eval fn ind x = T.eval disc b ind (at' x) junk ∧
    (toGraph names fname T).failed fn ind x = compareChange disc T ind (at' x) junk ∧
    (toGraph names fname T).nDyn = T.nInd ∧ (toGraph names fname T).nVar = T.n ∧ (toGraph names fname T).WF := by
  obtain ⟨s, hs, ⟨hd, ⟨l, V, hG, hM, hc⟩, hcs⟩⟩ := toVars_ok (junk := junk) w hn hi hx fname
  have hnodes : (toGraph names fname T).nodes = l := by rw [hs]; exact Enc.nodes (g := { s.g with deps := _ }) hG.enc
  have hnames : (toGraph names fname T).discreteNames = s.g.discreteNames := by rw [hs]
  have hstart : (toGraph names fname T).start ind x = 0 :: (ind ++ x ++ s.g.constants) := by rw [hs]; rfl
  have hcon : (toGraph names fname T).constants = s.g.constants := by rw [hs]
  have hV : evalNodes fn (toGraph names fname T).discreteNames (toGraph names fname T).nodes ((toGraph names fname T).start ind x) = V := by
    rw [hnodes, hnames, hstart]; exact hG.val
  have hnd : (toGraph names fname T).nDyn = T.nInd := by rw [hs]; exact hd.1
  have hnv : (toGraph names fname T).nVar = T.n := by rw [hs]; exact hd.2
  have hstl : (0 :: (ind ++ x ++ s.g.constants)).length = 1 + T.nInd + T.n + s.g.constants.length := by simp [hi, hx]; omega
  have hdeps : (toGraph names fname T).deps = T.dep.map s.v2n := by rw [hs]
  refine ⟨?_, ?_, hnd, hnv, ⟨?_, ?_, ?_, ?_⟩⟩
  · unfold CppGraph.eval OTape.eval
    dsimp only
    rw [hV, hdeps, List.map_map, sweep_obey b T.ops (supported_all w.supported) 0 _ fun _ => rfl]
    refine List.map_congr_left fun d hd' => ?_
    exact (hM.var d (w.dep d hd')).2.2
  · unfold CppGraph.failed compareChange
    rw [hV, hnodes, countOps_eq w.supported (fun i hi v hv => (w.vars i hi v hv).2.1) fun _ => rfl]
    exact hc
  · rw [hnodes, hnames, hnd, hnv, hcon, ← hstl]; exact hG.ok
  · intro d hd'
    rw [hdeps] at hd'
    obtain ⟨v, hv, rfl⟩ := List.mem_map.1 hd'
    obtain ⟨h1, h2, -⟩ := hM.var v (w.dep v hv)
    refine ⟨h1, ?_⟩
    unfold CppGraph.numNodes
    rw [hnodes, hnd, hnv, hcon]
    rw [hG.len, hstl] at h2
    exact h2
  · rw [hnodes]; exact hG.noAtom
  · rw [hnames]; exact hG.names

end CppAD.Graph
