import Verif.Record.OpsOk
import Verif.Record.Prog
import Verif.Taylor.AtomCert

/-! # Recording the call of an atomic function -/

open scoped Classical

namespace CppAD.Record

open CppAD AtomEx

variable {c : Cfg} {w0 : World} {r : Rec}

/-- the objects represent the functions, by position -/
def DenAll (c : Cfg) (w0 : World) (r : Rec) (ax : List AD) (dx : ℕ → World → ℝ) : Prop :=
  ∀ j (h : j < ax.length), Den c w0 r ax[j] (dx j)

theorem atomType_eq {s : Rec} (h : s.id = r.id) (a : AD) : s.atomType a = r.atomType a := by
  unfold Rec.atomType; rw [h]

theorem atomType_con {a : AD} (h : (r.atomType a).rank ≤ 1) : a.tapeId ≠ r.id := by
  intro e
  unfold Rec.atomType at h
  rw [if_neg (by simpa using e)] at h
  split_ifs at h <;> simp [AdT.rank] at h

theorem Den.at_con {a : AD} {d : World → ℝ} (h : Den c w0 r a d) (ht : (r.atomType a).rank ≤ 1) : ∀ w, d w = a.value := by
  have := h.2
  rwa [if_neg (atomType_con ht)] at this

theorem Den.at_zero {a : AD} {d : World → ℝ} (h : Den c w0 r a d) (ht : r.atomType a = .identicalZero) : ∀ w, d w = 0 := by
  intro w
  rw [h.at_con (by rw [ht]; simp [AdT.rank])]
  unfold Rec.atomType at ht
  split_ifs at ht with h1 h2
  exact h2

theorem Den.at_dyn {a : AD} {d : World → ℝ} (h : Den c w0 r a d) (ht : r.atomType a = .dynamic) :
    a.taddr < r.parAll.length ∧ ∀ w, r.parAt c w a.taddr = d w := by
  unfold Rec.atomType at ht
  split_ifs at ht with h1 h2 h3
  have := h.2
  rwa [if_pos (by simpa using h1), if_pos h3] at this

theorem Den.at_var {a : AD} {d : World → ℝ} (h : Den c w0 r a d) (ht : r.atomType a = .var) :
    ∀ w, a.taddr ∈ r.use c w ∧ r.env c w a.taddr = d w := by
  unfold Rec.atomType at ht
  split_ifs at ht with h1 h2 h3
  have := h.2
  rw [if_pos (by simpa using h1), if_neg h3] at this
  exact this.2

/-- the arguments of a call whose results contain dynamic parameters -/
theorem dynAtomArgs_ok : ∀ (ax : List AD) (dx : ℕ → World → ℝ) {r : Rec}, RInv c w0 r → DenAll c w0 r ax dx →
    RInv c w0 (r.dynAtomArgs c ax).1 ∧ Ext c r (r.dynAtomArgs c ax).1 ∧ (r.dynAtomArgs c ax).2.length = ax.length ∧
    (∀ p ∈ (r.dynAtomArgs c ax).2, p < (r.dynAtomArgs c ax).1.parAll.length) ∧
    ∀ j (h : j < ax.length), r.atomType ax[j] ≠ .var → ∃ p, (r.dynAtomArgs c ax).2[j]? = some p ∧
      ∀ w, (r.dynAtomArgs c ax).1.parAt c w p = dx j w
  | [], _, r, hr, _ => ⟨hr, Ext.refl r, rfl, by simp [Rec.dynAtomArgs], by simp⟩
  | a :: l, dx, r, hr, h => by
    have ha : Den c w0 r a (dx 0) := h 0 (by simp)
    set d : Rec × ℕ := match r.atomType a with
      | .identicalZero | .constant => r.putCon c a.value
      | .dynamic => (r, a.taddr)
      | .var => (r, 0) with hd
    have step : RInv c w0 d.1 ∧ Ext c r d.1 ∧ d.2 < d.1.parAll.length ∧ (r.atomType a ≠ .var → ∀ w, d.1.parAt c w d.2 = dx 0 w) := by
      rw [hd]
      cases ht : r.atomType a with
      | identicalZero =>
        obtain ⟨h1, h2, h3, h4, -⟩ := putCon_ok (c := c) hr a.value
        exact ⟨h1, h2, h3, fun _ w => by rw [h4, ha.at_con (by rw [ht]; simp [AdT.rank])]⟩
      | constant =>
        obtain ⟨h1, h2, h3, h4, -⟩ := putCon_ok (c := c) hr a.value
        exact ⟨h1, h2, h3, fun _ w => by rw [h4, ha.at_con (by rw [ht]; simp [AdT.rank])]⟩
      | dynamic => exact ⟨hr, Ext.refl r, (ha.at_dyn ht).1, fun _ => (ha.at_dyn ht).2⟩
      | var => exact ⟨hr, Ext.refl r, hr.pos, fun h => absurd rfl h⟩
    obtain ⟨h1, h2, h3, h4⟩ := step
    have hrec : DenAll c w0 d.1 l (fun j => dx (j + 1)) := fun j hj => (h (j + 1) (by simpa using hj)).mono h2
    obtain ⟨k1, k2, k3, k4, k5⟩ := dynAtomArgs_ok l (fun j => dx (j + 1)) h1 hrec
    have e : r.dynAtomArgs c (a :: l) = ((d.1.dynAtomArgs c l).1, d.2 :: (d.1.dynAtomArgs c l).2) := rfl
    rw [e]
    refine ⟨k1, h2.trans k2, by simp [k3], ?_, ?_⟩
    · intro p hp
      rcases List.mem_cons.1 hp with rfl | hp
      · exact lt_of_lt_of_le h3 k2.len
      · exact k4 p hp
    · intro j hj ht
      cases j with
      | zero => exact ⟨d.2, rfl, fun w => (k2.par w _ h3).trans (h4 ht w)⟩
      | succ j =>
        have := k5 j (by simpa using hj) (by rw [atomType_eq h2.id]; exact ht)
        simpa using this

/-- the results of a call that are dynamic parameters or constants -/
theorem dynAtomRes_ok {op : ℕ → DynOp} {ty : ℕ → AdT} {val : ℕ → ℝ} {dy : ℕ → World → ℝ} : ∀ (is : List ℕ) {r : Rec}, RInv c w0 r → (∀ i ∈ is, val i = dy i w0) →
    (∀ i ∈ is, ty i = .dynamic → (∀ a ∈ (op i).args, a < r.parAll.length) ∧
      ∀ (s : Rec), Ext c r s → ∀ w, (op i).eval c.disc w.p s.dynOps.length (s.parList c w) = dy i w) →
    (∀ i ∈ is, (ty i).rank ≤ 1 → ∀ w, dy i w = val i) →
    RInv c w0 (r.dynAtomRes op ty val is).1 ∧ Ext c r (r.dynAtomRes op ty val is).1 ∧ (r.dynAtomRes op ty val is).2.length = is.length ∧
    ∀ j (h : j < is.length), ∃ a, (r.dynAtomRes op ty val is).2[j]? = some a ∧ a.value = val is[j] ∧
      (ty is[j] ≠ .var → Den c w0 (r.dynAtomRes op ty val is).1 a (dy is[j])) ∧
      (ty is[j] = .dynamic → (r.dynAtomRes op ty val is).1.atomType a = .dynamic)
  | [], r, hr, _, _, _ => ⟨hr, Ext.refl r, rfl, by simp⟩
  | i :: is, r, hr, hv, h, hc => by
    set d : Rec × AD := if ty i = .dynamic then r.putDyn (op i) (val i) else (r, AD.con (val i)) with hd
    have step : RInv c w0 d.1 ∧ Ext c r d.1 ∧ d.2.value = val i ∧ (ty i ≠ .var → Den c w0 d.1 d.2 (dy i)) ∧ (ty i = .dynamic → d.1.atomType d.2 = .dynamic) := by
      rw [hd]
      by_cases ht : ty i = .dynamic
      · rw [if_pos ht]
        obtain ⟨a1, a2⟩ := h i List.mem_cons_self ht
        have := putDyn_ok hr (op i) (d := dy i) (v := val i) a1 (a2 r (Ext.refl r)) (hv i List.mem_cons_self)
        refine ⟨this.inv, this.ext, rfl, fun _ => this.den, fun _ => ?_⟩
        simp [Rec.atomType, Rec.putDyn]
      · rw [if_neg ht]
        refine ⟨hr, Ext.refl r, rfl, fun hn => ?_, fun h => absurd h ht⟩
        refine Den.const _ (con_ne hr _) (hc i List.mem_cons_self ?_)
        clear hd
        revert hn ht
        generalize ty i = t
        intro ht hn
        cases t <;> simp [AdT.rank] at ht hn ⊢
    obtain ⟨h1, h2, h3, h4, h5⟩ := step
    obtain ⟨k1, k2, k3, k4⟩ := dynAtomRes_ok is (r := d.1) h1 (fun i' hi' => hv i' (List.mem_cons_of_mem _ hi')) (fun i' hi' ht => by
      obtain ⟨a1, a2⟩ := h i' (List.mem_cons_of_mem _ hi') ht
      exact ⟨fun a ha => lt_of_lt_of_le (a1 a ha) h2.len, fun s hs => a2 s (h2.trans hs)⟩)
      (fun i' hi' => hc i' (List.mem_cons_of_mem _ hi'))
    have e : r.dynAtomRes op ty val (i :: is) = ((d.1.dynAtomRes op ty val is).1, d.2 :: (d.1.dynAtomRes op ty val is).2) := rfl
    rw [e]
    refine ⟨k1, h2.trans k2, by simp [k3], ?_⟩
    intro j hj
    cases j with
    | zero => exact ⟨d.2, rfl, h3, fun hn => (h4 hn).mono k2, fun ht => by rw [atomType_eq k2.id]; exact h5 ht⟩
    | succ j =>
      have := k4 j (by simpa using hj)
      simpa using this

/-- the arguments of a call whose results contain variables -/
theorem varAtomArgs_ok : ∀ (ax : List AD) (dx : ℕ → World → ℝ) {r : Rec}, RInv c w0 r → DenAll c w0 r ax dx →
    RInv c w0 (r.varAtomArgs c ax).1 ∧ Ext c r (r.varAtomArgs c ax).1 ∧ (r.varAtomArgs c ax).2.length = ax.length ∧
    (∀ p ∈ (r.varAtomArgs c ax).2.flatMap FunArg.pars, p < (r.varAtomArgs c ax).1.parAll.length) ∧
    ∀ j (h : j < ax.length), ∃ b, (r.varAtomArgs c ax).2[j]? = some b ∧
      match b with
      | .con p => (r.atomType ax[j]).rank ≤ 1 ∧ ∀ w, (r.varAtomArgs c ax).1.parAt c w p = dx j w
      | .dyn p => r.atomType ax[j] = .dynamic ∧ ∀ w, (r.varAtomArgs c ax).1.parAt c w p = dx j w
      | .var v => r.atomType ax[j] = .var ∧ ∀ w, v ∈ (r.varAtomArgs c ax).1.use c w ∧ (r.varAtomArgs c ax).1.env c w v = dx j w
  | [], _, r, hr, _ => ⟨hr, Ext.refl r, rfl, by simp [Rec.varAtomArgs], by simp⟩
  | a :: l, dx, r, hr, h => by
    have ha : Den c w0 r a (dx 0) := h 0 (by simp)
    set d : Rec × FunArg := match r.atomType a with
      | .var => (r, .var a.taddr)
      | .dynamic => (r, .dyn a.taddr)
      | _ => let p := r.putCon c a.value; (p.1, .con p.2) with hd
    have step : RInv c w0 d.1 ∧ Ext c r d.1 ∧ (∀ p ∈ d.2.pars, p < d.1.parAll.length) ∧
        match d.2 with
        | .con p => (r.atomType a).rank ≤ 1 ∧ ∀ w, d.1.parAt c w p = dx 0 w
        | .dyn p => r.atomType a = .dynamic ∧ ∀ w, d.1.parAt c w p = dx 0 w
        | .var v => r.atomType a = .var ∧ ∀ w, v ∈ d.1.use c w ∧ d.1.env c w v = dx 0 w := by
      rw [hd]
      cases ht : r.atomType a with
      | identicalZero =>
        obtain ⟨h1, h2, h3, h4, -⟩ := putCon_ok (c := c) hr a.value
        exact ⟨h1, h2, by simpa [FunArg.pars] using h3, by simp [AdT.rank], fun w => by rw [h4, ha.at_con (by rw [ht]; simp [AdT.rank])]⟩
      | constant =>
        obtain ⟨h1, h2, h3, h4, -⟩ := putCon_ok (c := c) hr a.value
        exact ⟨h1, h2, by simpa [FunArg.pars] using h3, by simp [AdT.rank], fun w => by rw [h4, ha.at_con (by rw [ht]; simp [AdT.rank])]⟩
      | dynamic => exact ⟨hr, Ext.refl r, by simpa [FunArg.pars] using (ha.at_dyn ht).1, rfl, (ha.at_dyn ht).2⟩
      | var => exact ⟨hr, Ext.refl r, by simp [FunArg.pars], rfl, ha.at_var ht⟩
    obtain ⟨h1, h2, h3, h4⟩ := step
    have hrec : DenAll c w0 d.1 l (fun j => dx (j + 1)) := fun j hj => (h (j + 1) (by simpa using hj)).mono h2
    obtain ⟨k1, k2, k3, k4, k5⟩ := varAtomArgs_ok l (fun j => dx (j + 1)) h1 hrec
    have e : r.varAtomArgs c (a :: l) = ((d.1.varAtomArgs c l).1, d.2 :: (d.1.varAtomArgs c l).2) := rfl
    rw [e]
    refine ⟨k1, h2.trans k2, by simp [k3], ?_, ?_⟩
    · intro p hp
      rw [List.flatMap_cons, List.mem_append] at hp
      rcases hp with hp | hp
      · exact lt_of_lt_of_le (h3 p hp) k2.len
      · exact k4 p hp
    · intro j hj
      cases j with
      | zero =>
        refine ⟨d.2, rfl, ?_⟩
        clear_value d
        obtain ⟨d1, d2⟩ := d
        cases d2 with
        | con p => exact ⟨h4.1, fun w => (k2.par w _ (h3 p (by simp [FunArg.pars]))).trans (h4.2 w)⟩
        | dyn p => exact ⟨h4.1, fun w => (k2.par w _ (h3 p (by simp [FunArg.pars]))).trans (h4.2 w)⟩
        | var v => exact ⟨h4.1, fun w => ⟨(k2.env w _ (h4.2 w).1).1, (k2.env w _ (h4.2 w).1).2.trans (h4.2 w).2⟩⟩
      | succ j =>
        obtain ⟨b, hb, hm⟩ := k5 j (by simpa using hj)
        refine ⟨b, by simpa using hb, ?_⟩
        simp only [atomType_eq h2.id] at hm
        exact hm

/-- the results of a call that are parameters -/
theorem varAtomRes_ok {ty : ℕ → AdT} {dy : ℕ → World → ℝ} : ∀ (ay : List AD) (i : ℕ) {r : Rec}, RInv c w0 r →
    (∀ j (h : j < ay.length), (ty (i + j) = .dynamic → r.atomType ay[j] = .dynamic ∧ Den c w0 r ay[j] (dy (i + j))) ∧
      ((ty (i + j)).rank ≤ 1 → ∀ w, dy (i + j) w = ay[j].value)) →
    RInv c w0 (r.varAtomRes c ty i ay).1 ∧ Ext c r (r.varAtomRes c ty i ay).1 ∧ (r.varAtomRes c ty i ay).2.length = ay.length ∧
    (∀ p ∈ (r.varAtomRes c ty i ay).2.flatMap Option.toList, p < (r.varAtomRes c ty i ay).1.parAll.length) ∧
    ∀ j, j < ay.length → ∃ b, (r.varAtomRes c ty i ay).2[j]? = some b ∧ (b = none ↔ ty (i + j) = .var) ∧
      ∀ q, b = some q → ∀ w, (r.varAtomRes c ty i ay).1.parAt c w q = dy (i + j) w
  | [], _, r, hr, _ => ⟨hr, Ext.refl r, rfl, by simp [Rec.varAtomRes], by simp⟩
  | a :: l, i, r, hr, h => by
    have ha := h 0 (by simp)
    set d : Rec × Option ℕ := match ty i with
      | .var => (r, none)
      | .dynamic => (r, some a.taddr)
      | _ => let p := r.putCon c a.value; (p.1, some p.2) with hd
    have step : RInv c w0 d.1 ∧ Ext c r d.1 ∧ (∀ p ∈ d.2.toList, p < d.1.parAll.length) ∧ (d.2 = none ↔ ty i = .var) ∧
        ∀ q, d.2 = some q → ∀ w, d.1.parAt c w q = dy i w := by
      rw [hd]
      cases ht : ty i with
      | identicalZero =>
        obtain ⟨h1, h2, h3, h4, -⟩ := putCon_ok (c := c) hr a.value
        refine ⟨h1, h2, by simpa using h3, by simp, fun q hq w => ?_⟩
        simp only [Option.some.injEq] at hq
        subst hq
        rw [h4]; exact (ha.2 (by simp [ht, AdT.rank]) w).symm
      | constant =>
        obtain ⟨h1, h2, h3, h4, -⟩ := putCon_ok (c := c) hr a.value
        refine ⟨h1, h2, by simpa using h3, by simp, fun q hq w => ?_⟩
        simp only [Option.some.injEq] at hq
        subst hq
        rw [h4]; exact (ha.2 (by simp [ht, AdT.rank]) w).symm
      | dynamic =>
        obtain ⟨b1, b2⟩ := ha.1 (by simpa using ht)
        refine ⟨hr, Ext.refl r, by simpa using (b2.at_dyn b1).1, by simp, fun q hq w => ?_⟩
        simp only [Option.some.injEq] at hq
        subst hq
        exact (b2.at_dyn b1).2 w
      | var => exact ⟨hr, Ext.refl r, by simp, by simp, by simp⟩
    obtain ⟨h1, h2, h3, h4, h5⟩ := step
    obtain ⟨k1, k2, k3, k4, k5⟩ := varAtomRes_ok (dy := dy) l (i + 1) h1 (fun j hj => by
      have := h (j + 1) (by simpa using hj)
      rw [show i + (j + 1) = i + 1 + j by omega] at this
      refine ⟨fun ht => ?_, this.2⟩
      have h' := this.1 ht
      rw [atomType_eq h2.id]
      exact ⟨h'.1, h'.2.mono h2⟩)
    have e : r.varAtomRes c ty i (a :: l) = ((d.1.varAtomRes c ty (i + 1) l).1, d.2 :: (d.1.varAtomRes c ty (i + 1) l).2) := rfl
    rw [e]
    refine ⟨k1, h2.trans k2, by simp [k3], ?_, ?_⟩
    · intro p hp
      rw [List.flatMap_cons, List.mem_append] at hp
      rcases hp with hp | hp
      · exact lt_of_lt_of_le (h3 p hp) k2.len
      · exact k4 p hp
    · intro j hj
      cases j with
      | zero => exact ⟨d.2, rfl, h4, fun q hq w => (k2.par w _ (h3 q (by simp [hq]))).trans (h5 q hq w)⟩
      | succ j =>
        rw [show i + (j + 1) = i + 1 + j by omega]
        simpa using k5 j (by simpa using hj)

theorem atomVars_length (id : ℕ) (ty : ℕ → AdT) : ∀ (ay : List AD) (nv i : ℕ), (atomVars id nv ty i ay).length = ay.length
  | [], _, _ => rfl
  | a :: l, nv, i => by
    unfold atomVars
    split_ifs <;> simp [atomVars_length id ty l]

theorem atomVars_get (id : ℕ) (ty : ℕ → AdT) : ∀ (ay : List AD) (nv i j : ℕ) (h : j < ay.length),
    (atomVars id nv ty i ay)[j]? = some (if ty (i + j) = .var
      then ⟨ay[j].value, id, nv + ((List.range j).filter fun k => ty (i + k) = .var).length, .variable⟩ else ay[j])
  | [], _, _, _, h => by simp at h
  | a :: l, nv, i, 0, _ => by
    unfold atomVars
    split_ifs with h1 h2 h2
    · simp
    · simp at h2; exact absurd h1 h2
    · simp at h2; exact absurd h2 h1
    · simp
  | a :: l, nv, i, j + 1, h => by
    have hj : j < l.length := by simpa using h
    have hf : ((List.range (j + 1)).filter fun k => ty (i + k) = .var).length
        = (if ty i = .var then 1 else 0) + ((List.range j).filter fun k => ty (i + 1 + k) = .var).length := by
      rw [List.range_succ_eq_map, List.filter_cons, List.filter_map]
      have : ((fun k => decide (ty (i + k) = AdT.var)) ∘ Nat.succ) = fun k => decide (ty (i + 1 + k) = AdT.var) := by
        funext k; simp only [Function.comp]; rw [show i + k.succ = i + 1 + k by omega]
      rw [this]
      by_cases hi : ty i = .var
      · simp [hi]; omega
      · simp [hi]
    unfold atomVars
    split_ifs with h1 h2 h2
    · rw [List.getElem?_cons_succ, atomVars_get id ty l _ _ _ hj]
      rw [show i + (j + 1) = i + 1 + j by omega] at h2
      rw [if_pos h2, hf, if_pos h1]
      simp only [List.getElem_cons_succ]
      congr 2; omega
    · rw [List.getElem?_cons_succ, atomVars_get id ty l _ _ _ hj]
      rw [show i + (j + 1) = i + 1 + j by omega] at h2
      rw [if_neg h2]
      simp
    · rw [List.getElem?_cons_succ, atomVars_get id ty l _ _ _ hj]
      rw [show i + (j + 1) = i + 1 + j by omega] at h2
      rw [if_pos h2, hf, if_neg h1]
      simp
    · rw [List.getElem?_cons_succ, atomVars_get id ty l _ _ _ hj]
      rw [show i + (j + 1) = i + 1 + j by omega] at h2
      rw [if_neg h2]
      simp

theorem rank_le_one {t : AdT} (h1 : t ≠ .var) (h2 : t ≠ .dynamic) : t.rank ≤ 1 := by
  cases t <;> simp [AdT.rank] at h1 h2 ⊢

set_option maxHeartbeats 1000000 in
/-- **the call of an atomic function**: every result represents the component of the function -/
theorem atomAD_ok (hr : RInv c w0 r) (F : RAtom) {ax : List AD} (hl : ax.length = F.A.n) {dx : ℕ → World → ℝ} (hx : DenAll c w0 r ax dx) :
    RInv c w0 (atomAD c r F ax).1 ∧ Ext c r (atomAD c r F ax).1 ∧ (atomAD c r F ax).2.length = F.A.m ∧
    ∀ i < F.A.m, ∃ a, (atomAD c r F ax).2[i]? = some a ∧ Den c w0 (atomAD c r F ax).1 a (fun w => F.A.fn (fun j => dx j w) i) := by
  obtain ⟨ty, hty⟩ : ∃ ty, ty = F.forType (r.atomTypes ax) := ⟨_, rfl⟩
  obtain ⟨val, hval⟩ : ∃ val, val = F.A.forward (fun _ => true) 0 0 (fun j => (ax.getD j (AD.con 0)).value) (fun _ => 0) := ⟨_, rfl⟩
  obtain ⟨dy, hdy⟩ : ∃ dy : ℕ → World → ℝ, dy = fun i w => F.A.fn (fun j => dx j w) i := ⟨_, rfl⟩
  have htx : ∀ j (h : j < ax.length), r.atomTypes ax j = r.atomType ax[j] := by
    intro j h
    unfold Rec.atomTypes
    rw [List.getElem?_eq_getElem h]
  have hz : ∀ (j : Fin F.A.n), r.atomTypes ax j = .identicalZero → ∀ w, dx j w = 0 := by
    intro j h w
    have hj : (j : ℕ) < ax.length := by rw [hl]; exact j.2
    rw [htx j hj] at h
    exact (hx j hj).at_zero h w
  have hv : ∀ i < F.A.m, val i = dy i w0 := by
    intro i hi
    have := F.A.forward_zero (fun _ => true) 0 (fun j => (ax.getD j (AD.con 0)).value) (fun _ => 0) i hi rfl
    rw [hval, hdy]
    simp only [Nat.zero_add, Nat.mul_one] at this
    rw [this]
    show F.A.fn _ i = F.A.fn _ i
    congr 1
    funext j
    have hj : (j : ℕ) < ax.length := by rw [hl]; exact j.2
    rw [List.getD_eq_getElem _ _ hj]
    exact (hx j hj).1
  have htype : ∀ i < F.A.m, ∀ (x : Fin F.A.n → ℝ) (w : World), (∀ j : Fin F.A.n, (r.atomTypes ax j).rank ≤ (ty i).rank → x j = dx j w) →
      (∀ j : Fin F.A.n, r.atomTypes ax j = .identicalZero → x j = 0) → F.A.fn x i = dy i w := by
    intro i hi x w h1 h2
    rw [hdy]
    rw [hty] at h1
    exact (F.type_ok (r.atomTypes ax) x (fun j => dx j w) i hi (fun j hj => ⟨h2 j hj, hz j hj w⟩)).2 h1
  have hcon : ∀ i < F.A.m, (ty i).rank ≤ 1 → ∀ w, dy i w = val i := by
    intro i hi ht w
    rw [hv i hi]
    have : F.A.fn (fun j => dx j w) i = dy i w0 := by
      refine htype i hi _ w0 (fun j hj => ?_) fun j hj => hz j hj w
      have hj' : (j : ℕ) < ax.length := by rw [hl]; exact j.2
      rw [htx j hj'] at hj
      rw [(hx j hj').at_con (hj.trans ht), (hx j hj').at_con (hj.trans ht)]
    rw [← this, hdy]
  -- dynamic parameters
  obtain ⟨d, hd⟩ : ∃ d : Rec × List AD, d = if (List.range F.A.m).any fun i => ty i = .dynamic then
      (r.dynAtomArgs c ax).1.dynAtomRes
        (fun i => .atom F.A ((List.range F.A.m).map fun k => decide (ty k = .dynamic)) i (r.dynAtomArgs c ax).2) ty val (List.range F.A.m)
    else (r, (List.range F.A.m).map fun i => AD.con (val i)) := ⟨_, rfl⟩
  have hD : RInv c w0 d.1 ∧ Ext c r d.1 ∧ d.2.length = F.A.m ∧ ∀ i < F.A.m, ∃ a, d.2[i]? = some a ∧ a.value = val i ∧
      (ty i ≠ .var → Den c w0 d.1 a (dy i)) ∧ (ty i = .dynamic → d.1.atomType a = .dynamic) := by
    rw [hd]
    by_cases hany : ((List.range F.A.m).any fun i => ty i = .dynamic) = true
    · rw [if_pos hany]
      obtain ⟨a1, a2, a3, a4, a5⟩ := dynAtomArgs_ok ax dx hr hx
      have hdynop : ∀ i ∈ List.range F.A.m, ty i = .dynamic →
          (∀ a ∈ (DynOp.atom F.A ((List.range F.A.m).map fun k => decide (ty k = .dynamic)) i (r.dynAtomArgs c ax).2).args,
            a < (r.dynAtomArgs c ax).1.parAll.length) ∧
          ∀ (s : Rec), Ext c (r.dynAtomArgs c ax).1 s → ∀ w,
            (DynOp.atom F.A ((List.range F.A.m).map fun k => decide (ty k = .dynamic)) i (r.dynAtomArgs c ax).2).eval c.disc w.p
              s.dynOps.length (s.parList c w) = dy i w := by
        intro i hi ht
        refine ⟨a4, fun s hs w => ?_⟩
        have hi' := List.mem_range.1 hi
        show F.A.forward (fun k => ((List.range F.A.m).map fun k => decide (ty k = .dynamic)).getD k false) 0 0
          (fun j => (((r.dynAtomArgs c ax).2)[j]?.map (at' (s.parList c w))).getD 0) (fun _ => 0) i = dy i w
        have := F.A.forward_zero (fun k => ((List.range F.A.m).map fun k => decide (ty k = .dynamic)).getD k false) 0
          (fun j => (((r.dynAtomArgs c ax).2)[j]?.map (at' (s.parList c w))).getD 0) (fun _ => 0) i hi'
          (by simp [List.getD_eq_getElem?_getD, hi', ht])
        simp only [Nat.zero_add, Nat.mul_one] at this
        rw [this]
        have key : ∀ j : Fin F.A.n, r.atomTypes ax j ≠ .var → ((r.dynAtomArgs c ax).2[(j : ℕ)]?.map (at' (s.parList c w))).getD 0 = dx j w := by
          intro j hj
          have hj' : (j : ℕ) < ax.length := by rw [hl]; exact j.2
          rw [htx j hj'] at hj
          obtain ⟨p, p1, p2⟩ := a5 j hj' hj
          rw [p1]
          refine Eq.trans ?_ (p2 w)
          exact hs.par w p (a4 p (List.mem_of_getElem? p1))
        refine htype i hi' _ w (fun j hj => key j ?_) (fun j hj => ?_)
        · intro h; rw [h, ht] at hj; simp [AdT.rank] at hj
        · rw [key j (by rw [hj]; simp)]
          exact hz j hj w
      obtain ⟨b1, b2, b3, b4⟩ := dynAtomRes_ok (c := c) (w0 := w0)
        (op := fun i => .atom F.A ((List.range F.A.m).map fun k => decide (ty k = .dynamic)) i (r.dynAtomArgs c ax).2)
        (ty := ty) (val := val) (dy := dy) (List.range F.A.m) a1 (fun i hi => hv i (List.mem_range.1 hi)) hdynop
        (fun i hi => hcon i (List.mem_range.1 hi))
      refine ⟨b1, a2.trans b2, by rw [b3, List.length_range], fun i hi => ?_⟩
      have := b4 i (by simpa using hi)
      simpa using this
    · rw [if_neg hany]
      refine ⟨hr, Ext.refl r, by simp, fun i hi => ⟨AD.con (val i), by simp [hi], rfl, fun hn => ?_, fun ht => ?_⟩⟩
      · refine Den.const _ (con_ne hr _) (hcon i hi (rank_le_one hn fun ht => hany ?_))
        simp only [List.any_eq_true, decide_eq_true_eq]
        exact ⟨i, List.mem_range.2 hi, ht⟩
      · exact absurd (List.any_eq_true.2 ⟨i, List.mem_range.2 hi, by simpa using ht⟩) hany
  obtain ⟨d1, d2, d3, d4⟩ := hD
  have e : atomAD c r F ax = if (List.range F.A.m).any fun i => ty i = .var then
      ((((d.1.varAtomArgs c ax).1.varAtomRes c ty 0 d.2).1.putOp (.atom F.A (d.1.varAtomArgs c ax).2 ((d.1.varAtomArgs c ax).1.varAtomRes c ty 0 d.2).2)).1,
        atomVars r.id ((d.1.varAtomArgs c ax).1.varAtomRes c ty 0 d.2).1.numVar ty 0 d.2) else d := by
    rw [hd, hty, hval]; rfl
  rw [e]
  by_cases hany : ((List.range F.A.m).any fun i => ty i = .var) = true
  swap
  · rw [if_neg hany]
    refine ⟨d1, d2, d3, fun i hi => ?_⟩
    obtain ⟨a, a1, -, a3, -⟩ := d4 i hi
    refine ⟨a, a1, ?_⟩
    have := a3 fun ht => hany (List.any_eq_true.2 ⟨i, List.mem_range.2 hi, by simpa using ht⟩)
    rw [hdy] at this
    exact this
  · rw [if_pos hany]
    obtain ⟨a1, a2, a3, a4, a5⟩ := varAtomArgs_ok ax dx d1 (fun j hj => (hx j hj).mono d2)
    obtain ⟨ys, hys⟩ : ∃ ys, ys = ((d.1.varAtomArgs c ax).1.varAtomRes c ty 0 d.2).2 := ⟨_, rfl⟩
    obtain ⟨xs, hxs⟩ : ∃ xs, xs = (d.1.varAtomArgs c ax).2 := ⟨_, rfl⟩
    obtain ⟨s, hs⟩ : ∃ s, s = ((d.1.varAtomArgs c ax).1.varAtomRes c ty 0 d.2).1 := ⟨_, rfl⟩
    obtain ⟨b1, b2, b3, b4, b5⟩ := varAtomRes_ok (c := c) (w0 := w0) (ty := ty) (dy := dy) d.2 0 (r := (d.1.varAtomArgs c ax).1) a1 (by
      intro j hj
      obtain ⟨a, h1, h2, h3, h4⟩ := d4 j (by rw [← d3]; exact hj)
      have ej : d.2[j] = a := by
        rw [List.getElem?_eq_getElem hj, Option.some.injEq] at h1; exact h1
      rw [Nat.zero_add, ej]
      refine ⟨fun ht => ⟨by rw [atomType_eq a2.id]; exact h4 ht, (h3 (by rw [ht]; simp)).mono a2⟩, fun ht w => ?_⟩
      rw [h2]
      exact hcon j (by rw [← d3]; exact hj) ht w)
    rw [← hys, ← hxs, ← hs]
    rw [← hs] at b1 b2 b4 b5
    rw [← hys] at b3 b4 b5
    rw [← hxs] at a3 a4 a5
    have hxt : ∀ j : Fin F.A.n, ∃ b, xs[(j : ℕ)]? = some b ∧
        match b with
        | .con p => (r.atomTypes ax j).rank ≤ 1 ∧ ∀ w, s.parAt c w p = dx j w
        | .dyn p => r.atomTypes ax j = .dynamic ∧ ∀ w, s.parAt c w p = dx j w
        | .var v => r.atomTypes ax j = .var ∧ ∀ w, v ∈ s.use c w ∧ s.env c w v = dx j w := by
      intro j
      have hj : (j : ℕ) < ax.length := by rw [hl]; exact j.2
      obtain ⟨b, hb, hm⟩ := a5 j hj
      refine ⟨b, hb, ?_⟩
      rw [htx j hj, ← atomType_eq d2.id]
      cases b with
      | con p => exact ⟨hm.1, fun w => (b2.par w p (a4 p (List.mem_flatMap.2 ⟨_, List.mem_of_getElem? hb, by simp [FunArg.pars]⟩))).trans (hm.2 w)⟩
      | dyn p => exact ⟨hm.1, fun w => (b2.par w p (a4 p (List.mem_flatMap.2 ⟨_, List.mem_of_getElem? hb, by simp [FunArg.pars]⟩))).trans (hm.2 w)⟩
      | var v => exact ⟨hm.1, fun w => ⟨(b2.env w v (hm.2 w).1).1, (b2.env w v (hm.2 w).1).2.trans (hm.2 w).2⟩⟩
    have hres : ∀ i < F.A.m, resVar ys i = decide (ty i = .var) := by
      intro i hi
      obtain ⟨b, h1, h2, -⟩ := b5 i (by rw [d3]; exact hi)
      rw [Nat.zero_add] at h2
      unfold resVar
      rw [h1]
      cases b with
      | none => simp [h2.1 rfl]
      | some q =>
        have : ty i ≠ .var := fun h => by have := h2.2 h; simp at this
        simp [this]
    have h0 : ∀ par : ℕ → ℝ, ∃ i < F.A.m, atomY ys par i = none := by
      intro par
      obtain ⟨i, hi, ht⟩ := List.any_eq_true.1 hany
      refine ⟨i, List.mem_range.1 hi, ?_⟩
      rw [atomY_none, hres i (List.mem_range.1 hi)]
      exact ht
    have hpar : ∀ w, ∀ (e : ℕ → ℝ), ∀ i < F.A.m, ∀ q, atomY ys (s.parAt c w) i = some q →
        F.A.fn (fun j => match atomX xs (s.parAt c w) j with | .par c => c | .var v => e v) i = q := by
      intro w e i hi q hq
      obtain ⟨b, h1, h2, h3⟩ := b5 i (by rw [d3]; exact hi)
      rw [Nat.zero_add] at h2 h3
      unfold atomY at hq
      rw [h1] at hq
      cases b with
      | none => simp at hq
      | some p =>
        simp only [Option.some.injEq] at hq
        rw [← hq, h3 p rfl w]
        have hne : ty i ≠ .var := fun h => by have := h2.2 h; simp at this
        have hrk : (ty i).rank ≤ 2 := by
          revert hne; generalize ty i = t; intro hne; cases t <;> simp [AdT.rank] at hne ⊢
        have key : ∀ j : Fin F.A.n, r.atomTypes ax j ≠ .var → (match atomX xs (s.parAt c w) j with | .par c => c | .var v => e v) = dx j w := by
          intro j hj
          obtain ⟨b, hb, hm⟩ := hxt j
          unfold atomX
          rw [hb]
          cases b with
          | con p => exact hm.2 w
          | dyn p => exact hm.2 w
          | var v => exact absurd hm.1 hj
        refine htype i hi _ w (fun j hj => key j fun h => ?_) (fun j hj => ?_)
        · rw [h] at hj
          have := hj.trans hrk
          simp [AdT.rank] at this
        · rw [key j (by rw [hj]; simp)]; exact hz j hj w
    let call : World → AtomCall := fun w =>
      ⟨F.A, atomX xs (s.parAt c w), atomY ys (s.parAt c w), h0 _, hpar w, atomIdent xs (s.parAt c w), atomIdent_ok xs (s.parAt c w)⟩
    have hop : ∀ w, (ROp.atom F.A xs ys).toOp c.disc (s.parAt c w) = some (.atom (call w)) := by
      intro w
      show atomOp F.A xs ys (s.parAt c w) = _
      unfold atomOp
      exact (dif_pos (h0 _)).trans (congrArg (fun c => some (Op.atom c)) (dif_pos (hpar w)))
    have hargs : ∀ w, ∀ a ∈ (Op.atom (call w)).args, a ∈ s.use c w := by
      intro w a ha
      obtain ⟨j, hj, hxj⟩ := (call w).mem_args.1 ha
      obtain ⟨b, hb, hm⟩ := hxt ⟨j, hj⟩
      have hxj' : atomX xs (s.parAt c w) j = .var a := hxj
      unfold atomX at hxj'
      rw [show xs[j]? = some b from hb] at hxj'
      cases b with
      | con p => simp at hxj'
      | dyn p => simp at hxj'
      | var v =>
        simp only [Opd.var.injEq] at hxj'
        subst hxj'
        exact (hm.2 w).1
    obtain ⟨q1, q2, q3⟩ := putOps_ok b1 (.atom F.A xs ys) (fun w => .atom (call w)) hop (by
      intro p hp
      rcases List.mem_append.1 hp with hp | hp
      · exact lt_of_lt_of_le (a4 p hp) b2.len
      · exact b4 p hp) hargs
    refine ⟨q1, d2.trans (a2.trans (b2.trans q2)), by rw [atomVars_length, d3], fun i hi => ?_⟩
    obtain ⟨a, a1', a2', a3', -⟩ := d4 i hi
    have hi' : i < d.2.length := by rw [d3]; exact hi
    have ei : d.2[i] = a := by
      rw [List.getElem?_eq_getElem hi', Option.some.injEq] at a1'; exact a1'
    rw [atomVars_get r.id ty d.2 _ 0 i hi', Nat.zero_add, ei]
    refine ⟨_, rfl, ?_⟩
    rw [← show dy i = fun w => F.A.fn (fun j => dx j w) i by rw [hdy]]
    by_cases ht : ty i = .var
    swap
    · rw [if_neg ht]
      exact (a3' ht).mono (a2.trans (b2.trans q2))
    · rw [if_pos ht]
      have hsel : ∀ w, ∀ k < F.A.m, (call w).selY k = decide (ty k = .var) := by
        intro w k hk
        rw [← hres k hk]
        show (atomY ys (s.parAt c w) k).isNone = _
        rw [Bool.eq_iff_iff, Option.isNone_iff_eq_none, atomY_none]
      have hpos : ∀ w, (call w).pos i = ((List.range i).filter fun k => ty (0 + k) = .var).length := by
        intro w
        unfold AtomCall.pos
        congr 1
        refine List.filter_congr fun k hk => ?_
        rw [Nat.zero_add]
        exact hsel w k (by have := List.mem_range.1 hk; omega)
      have hnres : ∀ w, (call w).nres = (ROp.atom F.A xs ys).nres := by
        intro w
        show (Op.atom (call w)).nres = _
        exact (ROp.nres_some (ROp.toOpM_of_toOp (vecs := []) (e := fun _ => 0) (mem := initMem []) (hop w))).2
      have hlt : ((List.range i).filter fun k => ty (0 + k) = .var).length < (ROp.atom F.A xs ys).nres := by
        rw [← hpos w0, ← hnres w0]
        exact (call w0).pos_lt_nres hi (by rw [hsel w0 i hi]; simpa using ht)
      refine ⟨by rw [a2']; exact hv i hi, ?_⟩
      have hid : (s.putOp (.atom F.A xs ys)).1.id = r.id := (d2.trans (a2.trans (b2.trans q2))).id
      show if r.id = (s.putOp (.atom F.A xs ys)).1.id then (if AdType.variable = .dynamic then _ else _) else _
      rw [if_pos hid.symm, if_neg (by simp)]
      refine ⟨rfl, fun w => ?_⟩
      obtain ⟨u1, u2⟩ := q3 w _ (Nat.zero_le _) hlt
      refine ⟨u1, u2.trans ?_⟩
      rw [← hpos w]
      show F.A.fn ((call w).xv (s.env c w)) ((call w).comp ((call w).pos i)) = dy i w
      rw [(call w).comp_pos hi (by rw [hsel w i hi]; simpa using ht), hdy]
      show F.A.fn _ i = F.A.fn _ i
      congr 1
      funext j
      obtain ⟨b, hb, hm⟩ := hxt j
      show (atomX xs (s.parAt c w) j).val (s.env c w) = dx j w
      unfold atomX
      rw [hb]
      cases b with
      | con p => exact hm.2 w
      | dyn p => exact hm.2 w
      | var v => exact (hm.2 w).2

end CppAD.Record
