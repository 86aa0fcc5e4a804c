/-
`fun2val`: the theorem.
-/
import Verif.ValGraph.Fun2Val

namespace CppAD.ValGraph
open CppAD CppAD.Record CppAD.Optim CppAD.Graph Classical

variable {disc : ℕ → ℝ → ℝ} {T : OTape} {ind x : List ℝ} {junk : ℕ → ℝ}

/-- a loop that can fail -/
theorem forRange_opt {σ : Type} {lo hi : ℕ} (h : lo ≤ hi) {f : ℕ → σ → Option σ} {s s' : σ} (I : ℕ → σ → Prop) (h0 : I lo s)
    (hs : ∀ k s s', lo ≤ k → k < hi → I k s → f k s = some s' → I (k + 1) s')
    (he : forRange lo hi (some s) (fun k s => s.bind (f k)) = some s') : I hi s' := by
  have key := forRange_ind h (s := some s) (f := fun k s => s.bind (f k)) (fun k (o : Option σ) => ∀ t, o = some t → I k t)
    (by intro t ht; cases ht; exact h0) (by
      intro k o h1 h2 ho t ht
      obtain ⟨u, hu, hf⟩ := Option.bind_eq_some_iff.1 ht
      exact hs k u t h1 h2 (ho u hu) hf)
  exact key s' he

/-- the values of the independents -/
theorem rd_map_some (l : List ℝ) {a : ℕ} (h : a < l.length) : rd (l.map some) a = some (at' l a) := by
  unfold rd at'
  rw [List.getD_eq_getElem _ _ (by simpa using h), List.getD_eq_getElem _ _ h, List.getElem_map]

theorem f2vInit_ok (w : TapeOk T) (hi : ind.length = T.nInd) (hx : x.length = T.n) :
    F2VI disc T ((ind ++ x).map some) (PV disc ind T) (FV disc ind T x junk) (fun p => 1 ≤ p ∧ p ≤ T.nInd) 0 (f2vInit T) where
  wf := setInd_wf _ _ _
  clean := ⟨by simp [f2vInit, setInd], by simp [f2vInit, setInd]⟩
  nInd := rfl
  set p hp := by
    refine ⟨p - 1, ?_⟩
    show (if 1 ≤ p ∧ p ≤ T.nInd then some (p - 1) else none) = _
    rw [if_pos hp]
  par p a ha := by
    have ha' : (if 1 ≤ p ∧ p ≤ T.nInd then some (p - 1) else none) = some a := ha
    show a < (setInd (T.nInd + T.n) true true).nVal ∧ a ≠ T.nInd + T.n
    rw [setInd_nVal]
    split_ifs at ha' with h
    simp only [Option.some.injEq] at ha'; omega
  var p a ha := by
    have ha' : (if 1 ≤ p ∧ p ≤ T.n then some (T.nInd + (p - 1)) else none) = some a := ha
    show a < (setInd (T.nInd + T.n) true true).nVal ∧ a ≠ T.nInd + T.n
    rw [setInd_nVal]
    split_ifs at ha' with h
    simp only [Option.some.injEq] at ha'; omega
  sol v hv := by
    refine ⟨fun p a ha => ?_, fun p a ha => ?_, ?_⟩
    · have ha' : (if 1 ≤ p ∧ p ≤ T.nInd then some (p - 1) else none) = some a := ha
      split_ifs at ha' with h
      simp only [Option.some.injEq] at ha'; subst ha'
      rw [hv.1 (p - 1) (by show p - 1 < T.nInd + T.n; omega), rd_map_some _ (by simp; omega), PV_ind w h.1 h.2, at'_append (by omega)]
    · have ha' : (if 1 ≤ p ∧ p ≤ T.n then some (T.nInd + (p - 1)) else none) = some a := ha
      split_ifs at ha' with h
      simp only [Option.some.injEq] at ha'; subst ha'
      rw [hv.1 _ (by show _ < T.nInd + T.n; omega), rd_map_some _ (by simp; omega), FV_ind w h.1 h.2]
      unfold at'
      rw [← hi, List.getD_append_right _ _ _ _ (by omega), Nat.add_sub_cancel_left]
    · simp [f2vInit, setInd, FalseAt]

theorem f2vDeps_ok {s : F2V} {P F : ℕ → ℝ} {okd : ℕ → Prop} {c : ℕ} {xv : List V} (h : F2VI disc T xv P F okd c s) :
    ∀ (l : List ℕ) {d : List ℕ}, f2vDep s l = some d → (∀ a ∈ d, a < s.T.nVal ∧ a ≠ s.T.nInd) ∧
      ∀ w, Sol s.T (realPrim disc) xv w → d.map w = (l.map F).map some := by
  intro l
  induction l with
  | nil => intro d hd; simp only [f2vDep, Option.some.injEq] at hd; subst hd; simp
  | cons v l ih =>
    intro d hd
    simp only [f2vDep, Option.bind_eq_some_iff, Option.map_eq_some_iff] at hd
    obtain ⟨a, ha, r, hr, rfl⟩ := hd
    obtain ⟨i1, i2⟩ := ih hr
    refine ⟨?_, fun w hw => ?_⟩
    · intro b hb
      rcases List.mem_cons.1 hb with rfl | hb
      · exact h.var v b ha
      · exact i1 b hb
    · simp only [List.map_cons]; rw [i2 w hw, (h.sol w hw).2.1 v a ha]

/-- the state after the operators -/
theorem fun2val_inv (w : TapeOk T) (hi : ind.length = T.nInd) (hx : x.length = T.n) {VT : VTape} (h : fun2val T = some VT) :
    ∃ s d, VT = { s.T with dep := d } ∧ f2vDep s T.dep = some d ∧
      F2VI disc T ((ind ++ x).map some) (PV disc ind T) (FV disc ind T x junk) (fun p => ∃ j < T.dyn.dynOps.length, (dyn2par T.dyn.parIsDyn).getD j 0 = p)
        (failUpTo (PV disc ind T) (FV disc ind T x junk) T T.ops.length) s := by
  unfold fun2val at h
  simp only [Option.bind_eq_some_iff, Option.map_eq_some_iff] at h
  obtain ⟨s1, h1, s, h2, d, h3, rfl⟩ := h
  refine ⟨s, d, rfl, h3, ?_⟩
  have hP : ∀ p, p < T.dyn.parAll.length → T.dyn.parIsDyn.getD p false = false → PV disc ind T p = at' T.dyn.parAll p := fun p hp hc => PV_con w hp hc
  have k1 := forRange_opt w.nind.1 (fun k s => F2VI disc T ((ind ++ x).map some) (PV disc ind T) (FV disc ind T x junk)
      (fun p => ∃ j < k, (dyn2par T.dyn.parIsDyn).getD j 0 = p) 0 s) ?_ ?_ h1
  · have k2 := forRange_opt (Nat.zero_le T.ops.length) (fun i s => F2VI disc T ((ind ++ x).map some) (PV disc ind T) (FV disc ind T x junk)
      (fun p => ∃ j < T.dyn.dynOps.length, (dyn2par T.dyn.parIsDyn).getD j 0 = p) (failUpTo (PV disc ind T) (FV disc ind T x junk) T i) s) ?_ ?_ h2
    · exact k2
    · exact k1
    · intro i s s' _ hlt hs he
      rw [failUpTo_succ]
      refine f2vVar_ok hP hs he (fun p hp => ?_) fun a b => finalVal_fin hlt (w.supported i hlt) (fun v hv => (w.vars i hlt v hv).2.1) a b
      obtain ⟨q1, q2⟩ := w.pars i hlt p hp
      exact ⟨q1, q2, par_cases w q2⟩
  · refine (f2vInit_ok w hi hx).mono ?_
    rintro p ⟨j, hj, rfl⟩
    rw [w.d2p j hj]; omega
  · intro k s s' hk1 hk2 hs he
    simp only [f2vDyn, Option.bind_eq_some_iff, Option.map_eq_some_iff] at he
    obtain ⟨d, hd, q, hq, rfl⟩ := he
    obtain ⟨e1, e2, e3⟩ := sweep_fix (disc := disc) (ind := ind) w.dyn _ w.plen k hk2
    obtain ⟨t1, t2⟩ := dynTodo_ok (disc := disc) (F := FV disc ind T x junk) hd ind k (parVals disc ind T.dyn)
    have hlen := w.dyn.length
    have hop : T.dyn.dynOps.getD k .ind ∈ T.dyn.dynOps := getD_mem_or _ hk2
    obtain ⟨p1, p2, p3, p4⟩ := put_ok hP t1 hs (fun a ha p hp => by
      obtain ⟨r, hr, rfl⟩ := t2 a ha
      simp only [Arg.pars, List.mem_singleton] at hp; subst hp
      have h1 := (w.dargs _ hop).2 p hr
      have h2 := e2 p hr
      have h3 : p < T.dyn.parAll.length := by rw [w.plen]; omega
      refine ⟨h1, h3, ?_⟩
      rcases par_cases w h3 with h4 | ⟨j, hj, h4⟩
      · exact Or.inl h4
      · exact Or.inr ⟨j, d2p_lt_of (by omega) (by omega : k < (dyn2par T.dyn.parIsDyn).length) (by omega), h4⟩) hq
    refine (p1.setPar (p := (dyn2par T.dyn.parIsDyn).getD k 0) p2 p3 fun v hv => ?_).mono ?_
    · rw [p4 v hv]; exact congrArg some e1.symm
    · rintro p ⟨j, hj, rfl⟩
      rcases Nat.lt_or_ge j k with h4 | h4
      · exact Or.inl ⟨j, h4, rfl⟩
      · rw [show j = k by omega]; exact Or.inr rfl

/-- The value graph that `fun2val` creates has the values of the operation sequence: for all values of the dynamic parameters
and of the independent variables, its dependents are the dependents of the function and the number of
comparisons that are false is `compare_change_number()`. -/
theorem fun2val_ok (w : TapeOk T) {VT : VTape} (h : fun2val T = some VT) :
    VT.WF ∧ VT.Clean ∧ VT.nInd = T.nInd + T.n ∧
    ∀ (disc : ℕ → ℝ → ℝ) (b : Bool) (ind x : List ℝ) (junk : ℕ → ℝ), ind.length = T.nInd → x.length = T.n →
      VT.eval (realPrim disc) ((ind ++ x).map some) = (T.eval disc b ind (at' x) junk).map some ∧
      VT.compareFalse (realPrim disc) ((ind ++ x).map some) = compareChange disc T ind (at' x) junk := by
  have wfc : VT.WF ∧ VT.Clean ∧ VT.nInd = T.nInd + T.n := by
    obtain ⟨s, d, rfl, hd, hs⟩ := fun2val_inv (disc := fun _ r => r) (ind := List.replicate T.nInd 0) (x := List.replicate T.n 0) (junk := fun _ => 0) w
      (by simp) (by simp) h
    obtain ⟨q1, q2⟩ := f2vDeps_ok hs T.dep hd
    exact ⟨⟨hs.wf.head, hs.wf.args, hs.wf.arity, fun a ha => (q1 a ha).1⟩, ⟨hs.clean.nodes, fun a ha => (q1 a ha).2⟩, hs.nInd⟩
  refine ⟨wfc.1, wfc.2.1, wfc.2.2, ?_⟩
  intro disc b ind x junk hi hx
  obtain ⟨s, d, hVT, hd, hs⟩ := fun2val_inv (disc := disc) (junk := junk) w hi hx h
  obtain ⟨q1, q2⟩ := f2vDeps_ok hs T.dep hd
  have hp := clean_plain wfc.1 wfc.2.1
  have hl : ((ind ++ x).map (some : ℝ → V)).length = VT.nInd := by rw [wfc.2.2]; simp [hi, hx]
  have hsol := run_sol (P := realPrim disc) hp wfc.1 hl
  have hsol' : Sol s.T (realPrim disc) ((ind ++ x).map some) (rd (VT.run (realPrim disc) ((ind ++ x).map some)).val) := by
    rw [hVT] at hsol ⊢; exact hsol
  refine ⟨?_, ?_⟩
  · rw [eval_eq hp wfc.1 hl hsol]
    have e : VT.dep = d := by rw [hVT]
    rw [e, q2 _ hsol']
    unfold OTape.eval
    dsimp only
    rw [sweep_obey b T.ops (supported_all w.supported) 0 _ fun _ => rfl]
    rfl
  · rw [(run_cf_out hp wfc.1 hl hsol).1]
    have e : VT.nodes = s.T.nodes := by rw [hVT]
    rw [e, (hs.sol _ hsol').2.2]
    unfold compareChange
    rw [countOps_eq w.supported (fun i hi v hv => (w.vars i hi v hv).2.1) fun _ => rfl]

end CppAD.ValGraph
