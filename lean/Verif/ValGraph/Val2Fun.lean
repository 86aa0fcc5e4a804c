/-
`val2fun`: the operators.
-/
import Verif.ValGraph.Fun2Val
import Verif.ValGraph.Summation
import Verif.Graph.From3

namespace CppAD.ValGraph
open CppAD CppAD.Record CppAD.Optim CppAD.Graph Classical

variable {c : FCfg} {ind : List ℝ} {st : ℕ → ℝ} {nV nI : ℕ} {s s' : FromSt} {F F' : ℕ → ℝ} {V : List ℝ}

/-- nothing that was recorded is a dynamic parameter -/
def NoDyn (s : FromSt) : Prop := ∀ t ∈ s.typ, t ≠ .dynamic

theorem NoDyn.ty (h : NoDyn s) (a : ℕ) : s.ty a ≠ .dynamic := by
  unfold FromSt.ty
  by_cases ha : a < s.typ.length
  · rw [List.getD_eq_getElem _ _ ha]; exact h _ (List.getElem_mem _)
  · rw [List.getD_eq_default _ _ (by omega)]; simp

theorem NoDyn.push {p : FromSt × ℕ} {t : AdType} (h : NoDyn s) (hp : p.1.typ = s.typ) (ht : t ≠ .dynamic) : NoDyn (FromSt.push p t) := by
  intro t' ht'
  simp only [FromSt.push, hp, List.mem_append, List.mem_singleton] at ht'
  rcases ht' with h' | rfl
  · exact h t' h'
  · exact ht

theorem v2fUn_ok (h : FI c ind st nV nI s V F) (hm : Main nV nI s) {f : UnF} {a : ℕ} (h1 : 1 ≤ a) (h2 : a < V.length) (hs : v2fUn c s f a = some s') :
    Out c ind st nV nI s F V s' [f.fn (at' V a)] [false] 0 ∧ (NoDyn s → NoDyn s') := by
  unfold v2fUn at hs
  cases ht : s.ty a with
  | «variable» =>
    simp only [ht, Option.some.injEq] at hs; subst hs
    obtain ⟨k1, k2⟩ := h.varN h1 h2 ht
    refine ⟨var_push h hm _ (by simpa [VOp.vars] using k1) (by simp [VOp.pars]) rfl rfl rfl ?_, fun hn => hn.push rfl (by simp)⟩
    simp only [VOp.res, finSt, k2]
  | dynamic =>
    simp only [ht] at hs
    split_ifs at hs
    simp only [Option.some.injEq] at hs; subst hs
    obtain ⟨k1, k2⟩ := h.parN h1 h2 (by rw [ht]; simp)
    refine ⟨dyn_push h hm _ (by simpa [DynOp.args] using k1) (by simp) ?_, fun hn => absurd ht (hn.ty a)⟩
    show f.fn (s.P c ind (s.ix a)) = _
    rw [k2]
  | constant => simp [ht] at hs

theorem v2fBin_ok (h : FI c ind st nV nI s V F) (hm : Main nV nI s) {f : BinF} {a b : ℕ} (ha : 1 ≤ a ∧ a < V.length) (hb : 1 ≤ b ∧ b < V.length)
    (hs : v2fBin c s f a b = some s') : Out c ind st nV nI s F V s' [f.fn (at' V a) (at' V b)] [false] 0 ∧ (NoDyn s → NoDyn s') := by
  unfold v2fBin at hs
  split_ifs at hs with hc
  simp only [Option.some.injEq] at hs; subst hs
  have := bin_ok h hm f ha hb
  have e : (isCon (s.ty a) && isCon (s.ty b)) = false := by
    rw [Bool.eq_false_iff]
    intro h'
    rw [Bool.and_eq_true, isCon, isCon, decide_eq_true_eq, decide_eq_true_eq] at h'
    exact hc h'
  rw [e] at this
  refine ⟨this, fun hn => ?_⟩
  have da := hn.ty a
  have db := hn.ty b
  unfold FromSt.bin
  split_ifs with g1 g2 g3 g4 g5
  · exact hn.push rfl (by simp)
  · exact hn.push rfl (by simp)
  · exact hn.push rfl (by simp)
  · exact hn.push rfl (by simp)
  · rcases g5 with g | g
    · exact absurd g da
    · exact absurd g db
  · exact hn.push rfl (by simp)

theorem v2fDis_ok (h : FI c ind st nV nI s V F) (hm : Main nV nI s) {k : ℕ} {a : ℕ} (h1 : 1 ≤ a) (h2 : a < V.length) (hs : v2fDis c s k a = some s') :
    Out c ind st nV nI s F V s' [c.disc k (at' V a)] [false] 0 ∧ (NoDyn s → NoDyn s') := by
  unfold v2fDis at hs
  split_ifs at hs with hc
  simp only [Option.some.injEq] at hs; subst hs
  have := dis_ok h hm k h1 h2
  rw [show isCon (s.ty a) = false by rw [isCon, decide_eq_false_iff_not]; exact hc] at this
  refine ⟨this, fun hn => ?_⟩
  unfold FromSt.dis
  cases ht : s.ty a with
  | «variable» => exact hn.push rfl (by simp)
  | dynamic => exact absurd ht (hn.ty a)
  | constant => exact absurd ht hc

/-- what the comparison operators of conditional expressions stand for -/
theorem cmpCop_cexp {k : Cmp} {g : GCmp} (h : cmpCop k = some g) (l r t f : ℝ) :
    cexpVal k (some l) (some r) (some t) (some f) = some (condExp g.cop l r t f) := by
  have key : ∀ k g, cmpCop k = some g → (k.holds (some l) (some r) ↔ g.cop.holds l r) ∧
      cexpVal k (some l) (some r) (some t) (some f) = if k.holds (some l) (some r) then some t else some f := by
    intro k g h
    cases k <;> simp only [cmpCop, Option.some.injEq, reduceCtorEq] at h <;> subst h <;> exact ⟨Iff.rfl, rfl⟩
  obtain ⟨h1, h2⟩ := key k g h
  rw [h2, condExp]
  by_cases hh : g.cop.holds l r
  · rw [if_pos hh, if_pos (h1.2 hh)]
  · rw [if_neg hh, if_neg fun h' => hh (h1.1 h')]

theorem v2fCexp_ok (h : FI c ind st nV nI s V F) (hm : Main nV nI s) {k : Cmp} {l r t f : ℕ} (hl : 1 ≤ l ∧ l < V.length) (hr : 1 ≤ r ∧ r < V.length)
    (ht : 1 ≤ t ∧ t < V.length) (hf : 1 ≤ f ∧ f < V.length) (hs : v2fCexp c s k l r t f = some s') :
    (∃ y, Out c ind st nV nI s F V s' [y] [false] 0 ∧
      cexpVal k (some (at' V l)) (some (at' V r)) (some (at' V t)) (some (at' V f)) = some y) ∧ (NoDyn s → NoDyn s') := by
  unfold v2fCexp at hs
  split_ifs at hs with hc
  obtain ⟨g, hg, rfl⟩ := Option.map_eq_some_iff.1 hs
  have := cexp_ok h hm g hl hr ht hf
  rw [all_con, show (!s.anyVar [l, r, t, f] && !s.anyDyn [l, r, t, f]) = false by
    cases h1 : s.anyVar [l, r, t, f] <;> cases h2 : s.anyDyn [l, r, t, f] <;> simp_all] at this
  refine ⟨⟨_, this, cmpCop_cexp hg _ _ _ _⟩, fun hn => ?_⟩
  unfold FromSt.cexp
  split_ifs with h1 h2
  · exact hn.push rfl (by simp)
  · exfalso
    unfold FromSt.anyDyn at h2
    rw [List.any_eq_true] at h2
    obtain ⟨a, _, ha⟩ := h2
    exact hn.ty a (of_decide_eq_true ha)
  · exact hn.push rfl (by simp)

/-! ### comparisons -/

theorem FI.withOut (h : FI c ind st nV nI s V F) (g : ℕ → ℝ) : FI { c with out := g } ind st nV nI s V F := by
  obtain ⟨⟨a1, a2, a3, a4, a5, a6, a7, a8, a9, a10, a11⟩, b, d, e⟩ := h
  exact ⟨⟨a1, a2, a3, a4, a5, a6, a7, a8, a9, a10, a11⟩, b, d, e⟩

theorem FI.noOut {g : ℕ → ℝ} (h : FI { c with out := g } ind st nV nI s V F) : FI c ind st nV nI s V F := by
  obtain ⟨⟨a1, a2, a3, a4, a5, a6, a7, a8, a9, a10, a11⟩, b, d, e⟩ := h
  exact ⟨⟨a1, a2, a3, a4, a5, a6, a7, a8, a9, a10, a11⟩, b, d, e⟩

theorem Out.noOut {g : ℕ → ℝ} {R : List ℝ} {con : List Bool} {e : ℕ} (h : Out { c with out := g } ind st nV nI s F V s' R con e) :
    Out c ind st nV nI s F V s' R con e := by
  obtain ⟨F', f1, f2, f3, f4, f5, f6⟩ := h
  exact ⟨F', FI.noOut f1, f2, f3, f4, f5, f6⟩

theorem cmpPar_val (h : FI c ind st nV nI s V F) (j : ℕ) {a : ℕ} (h1 : 1 ≤ a) (h2 : a < V.length) (hv : s.ty a ≠ .variable)
    (hc : s.ty a = .constant → c.out j = at' V a) :
    RI c ind st nV nI (s.cmpPar c j a).1 F ∧ Graph.Ext c ind s (s.cmpPar c j a).1 F F 0 ∧ 1 ≤ (s.cmpPar c j a).2 ∧
    (s.cmpPar c j a).2 < (s.cmpPar c j a).1.r.parAll.length ∧ (s.cmpPar c j a).1.P c ind (s.cmpPar c j a).2 = at' V a := by
  unfold FromSt.cmpPar
  by_cases hd : s.ty a = .dynamic
  · rw [if_pos hd]
    obtain ⟨k1, k2⟩ := h.parN h1 h2 hv
    exact ⟨h.rc, .refl _ _, k1.1, k1.2, k2⟩
  · rw [if_neg hd]
    obtain ⟨q1, q2, q3, q4, q5, q6⟩ := con_step h.rc (c.out j)
    exact ⟨q1, q2, q3, q4, by rw [q5]; exact hc (by cases e : s.ty a <;> simp_all)⟩

/-- a comparison where the value of a constant operand is known -/
theorem comp_val (h : FI c ind st nV nI s V F) (hm : Main nV nI s) (k : CmpF) {a b : ℕ} (ha : 1 ≤ a ∧ a < V.length) (hb : 1 ≤ b ∧ b < V.length)
    (hca : s.ty a = .constant → c.out 0 = at' V a) (hcb : s.ty b = .constant → c.out 1 = at' V b) :
    ∃ e, Out c ind st nV nI s F V (s.comp c k a b) [] [] e ∧
      (¬ (s.ty a = .constant ∧ s.ty b = .constant) → e = if CmpF.holds k (at' V a) (at' V b) then 0 else 1) := by
  unfold FromSt.comp
  by_cases va : s.ty a = .variable
  · obtain ⟨k1, k2⟩ := h.varN ha.1 ha.2 va
    rw [if_pos va]
    by_cases vb : s.ty b = .variable
    · obtain ⟨j1, j2⟩ := h.varN hb.1 hb.2 vb
      rw [if_pos vb]
      refine ⟨_, cmp_step h hm h.rc (.refl _ _) _ _ _ ?_ (by simp [Arg.pars]), fun _ => ?_⟩
      · simp only [Arg.vars, List.cons_append, List.nil_append, List.mem_cons, List.not_mem_nil, or_false, forall_eq_or_imp, forall_eq]; exact ⟨k1, j1⟩
      · refine ite_iff ?_; simp only [Arg.val, k2, j2]
    · rw [if_neg vb]
      obtain ⟨q1, q2, q3, q4, q5⟩ := cmpPar_val h 1 hb.1 hb.2 vb hcb
      obtain ⟨k1, k2⟩ := (h.ext q1 q2).varN ha.1 ha.2 (by rw [q2.ty]; exact va)
      rw [q2.ix] at k1 k2
      by_cases hk : k = .eq ∨ k = .ne
      · rw [if_pos hk]
        refine ⟨_, cmp_step h hm q1 q2 _ _ _ (by simpa [Arg.vars] using k1) (by simpa [Arg.pars] using ⟨q3, q4⟩), fun _ => ?_⟩
        refine ite_iff ?_
        simp only [Arg.val, k2, q5]
        exact holds_symm hk _ _
      · rw [if_neg hk]
        refine ⟨_, cmp_step h hm q1 q2 _ _ _ (by simpa [Arg.vars] using k1) (by simpa [Arg.pars] using ⟨q3, q4⟩), fun _ => ?_⟩
        refine ite_iff ?_; simp only [Arg.val, k2, q5]
  · rw [if_neg va]
    by_cases vb : s.ty b = .variable
    · rw [if_pos vb]
      obtain ⟨q1, q2, q3, q4, q5⟩ := cmpPar_val h 0 ha.1 ha.2 va hca
      obtain ⟨k1, k2⟩ := (h.ext q1 q2).varN hb.1 hb.2 (by rw [q2.ty]; exact vb)
      rw [q2.ix] at k1 k2
      refine ⟨_, cmp_step h hm q1 q2 _ _ _ (by simpa [Arg.vars] using k1) (by simpa [Arg.pars] using ⟨q3, q4⟩), fun _ => ?_⟩
      refine ite_iff ?_; simp only [Arg.val, k2, q5]
    · rw [if_neg vb]
      by_cases hd : s.ty a = .dynamic ∨ s.ty b = .dynamic
      · rw [if_pos hd]
        obtain ⟨q1, q2, q3, q4, q5⟩ := cmpPar_val h 0 ha.1 ha.2 va hca
        obtain ⟨p1, p2, p3, p4, p5⟩ := cmpPar_val (h.ext q1 q2) 1 hb.1 hb.2 (by rw [q2.ty]; exact vb) (by rw [q2.ty]; exact hcb)
        refine ⟨_, cmp_step h hm p1 (q2.trans p2) _ _ _ (by simp [Arg.vars]) ?_, fun _ => ?_⟩
        · simp only [Arg.pars, List.cons_append, List.nil_append, List.mem_cons, List.not_mem_nil, or_false, forall_eq_or_imp, forall_eq]
          exact ⟨⟨q3, lt_of_lt_of_le q4 p2.grows.1⟩, p3, p4⟩
        · refine ite_iff ?_
          simp only [Arg.val]
          rw [p2.P q4, q5, p5]
      · rw [if_neg hd]
        refine ⟨0, Out.nil h hm h.rc (.refl _ _), fun hc => ?_⟩
        exfalso
        push Not at hd
        refine hc ⟨?_, ?_⟩
        · cases e : s.ty a <;> simp_all
        · cases e : s.ty b <;> simp_all

theorem cmpPar_typ (c : FCfg) (s : FromSt) (j a : ℕ) : (s.cmpPar c j a).1.typ = s.typ := by
  unfold FromSt.cmpPar; split_ifs <;> rfl

theorem comp_typ (c : FCfg) (s : FromSt) (k : CmpF) (a b : ℕ) : (s.comp c k a b).typ = s.typ := by
  unfold FromSt.comp
  split_ifs <;> simp only [FromSt.op, cmpPar_typ]

theorem cmpFun_holds {k : Cmp} {g : CmpF} (h : cmpFun k = some g) (x y : ℝ) : k.holds (some x) (some y) ↔ CmpF.holds g x y := by
  cases k <;> simp only [cmpFun, Option.some.injEq, reduceCtorEq] at h <;> subst h <;> simp [Cmp.holds, CmpF.holds]

theorem v2fComp_ok (h : FI c ind st nV nI s V F) (hm : Main nV nI s) (k : Cmp) {a b : ℕ} (ha : 1 ≤ a ∧ a < V.length) (hb : 1 ≤ b ∧ b < V.length)
    {va vb : ℝ} (hca : s.ty a = .constant → va = at' V a) (hcb : s.ty b = .constant → vb = at' V b) :
    (∃ e, Out c ind st nV nI s F V (v2fComp c s k a b va vb) [] [] e ∧
      ((k ≠ .no → ¬ (s.ty a = .constant ∧ s.ty b = .constant)) → e = if k.holds (some (at' V a)) (some (at' V b)) then 0 else 1)) ∧
    (NoDyn s → NoDyn (v2fComp c s k a b va vb)) := by
  unfold v2fComp
  cases hk : cmpFun k with
  | none =>
    have : k = .no := by cases k <;> simp_all [cmpFun]
    subst this
    refine ⟨⟨0, Out.nil h hm h.rc (.refl _ _), fun _ => ?_⟩, id⟩
    rw [if_pos (by simp [Cmp.holds])]
  | some g =>
    have hne : k ≠ .no := by rintro rfl; simp [cmpFun] at hk
    obtain ⟨e, e1, e2⟩ := comp_val (FI.withOut h fun j => if j = 0 then va else vb) hm g ha hb (by simpa using hca) (by simpa using hcb)
    refine ⟨⟨e, Out.noOut e1, fun hc => ?_⟩, fun hn => ?_⟩
    · rw [e2 (hc hne)]; exact ite_iff (cmpFun_holds hk _ _).symm
    · unfold NoDyn; rw [comp_typ]; exact hn

/-! ### cumulative summation -/

theorem v2f_sum_split (h : FI c ind st nV nI s V F) (ix : ℕ → ℕ) (con : ℕ → ℝ) (l : List ℕ) (hl : ∀ a ∈ l, 1 ≤ ix a ∧ ix a < V.length)
    (hc : ∀ a ∈ l, s.ty (ix a) = .constant → con a = at' V (ix a)) :
    sumOver (fun a => at' V (ix a)) l = sumOver con (l.filter fun a => decide (s.ty (ix a) = .constant)) +
      sumOver (s.P c ind) (s.sel .dynamic (l.map ix)) + sumOver F (s.sel .variable (l.map ix)) := by
  induction l with
  | nil => simp [FromSt.sel, sumOver]
  | cons a l ih =>
    have ha := hl a (by simp)
    rw [sumOver_cons, ih (fun b hb => hl b (by simp [hb])) fun b hb => hc b (by simp [hb])]
    rw [List.map_cons]
    simp only [sel_cons, List.filter_cons]
    cases ht : s.ty (ix a) with
    | «variable» =>
      simp only [reduceCtorEq, decide_false, Bool.false_eq_true, if_false, if_true, List.nil_append, List.singleton_append, sumOver_cons]
      rw [(h.varN ha.1 ha.2 ht).2]; ring
    | dynamic =>
      simp only [reduceCtorEq, decide_false, Bool.false_eq_true, if_false, if_true, List.nil_append, List.singleton_append, sumOver_cons]
      rw [(h.parN ha.1 ha.2 (by rw [ht]; simp)).2]; ring
    | constant =>
      simp only [reduceCtorEq, decide_true, if_false, if_true, List.nil_append, sumOver_cons]
      rw [hc a (by simp) ht]; ring

theorem v2fSum_ok (h : FI c ind st nV nI s V F) (hm : Main nV nI s) (ix : ℕ → ℕ) (con : ℕ → ℝ) (add sub : List ℕ) (hl : ∀ a ∈ add ++ sub, 1 ≤ ix a ∧ ix a < V.length)
    (hc : ∀ a ∈ add ++ sub, s.ty (ix a) = .constant → con a = at' V (ix a)) (hn : NoDyn s) (hs : v2fSum c s con ix add sub = some s') :
    Out c ind st nV nI s F V s' [sumOver (fun a => at' V (ix a)) add - sumOver (fun a => at' V (ix a)) sub] [false] 0 ∧ NoDyn s' := by
  unfold v2fSum at hs
  dsimp only at hs
  obtain ⟨q1, q2, q3, q4, q5, q6⟩ := con_step h.rc (v2fSumCon s con ix add sub)
  split_ifs at hs with h1 h2
  · simp only [Option.some.injEq] at hs
    subst hs
    refine ⟨?_, hn.push rfl (by simp)⟩
    have hlm : ∀ b ∈ (add ++ sub).map ix, 1 ≤ b ∧ b < V.length := by
      intro b hb
      obtain ⟨a, ha, rfl⟩ := List.mem_map.1 hb
      exact hl a ha
    have hsel : ∀ t l, (∀ b ∈ l, b ∈ (add ++ sub).map ix) → ∀ p ∈ s.sel t l, ∃ b, (1 ≤ b ∧ b < V.length) ∧ s.ty b = t ∧ s.ix b = p := by
      intro t l hl' p hp
      obtain ⟨b, hb, h1, h2⟩ := mem_sel hp
      exact ⟨b, hlm b (hl' b hb), h1, h2⟩
    have m1 : ∀ b ∈ add.map ix, b ∈ (add ++ sub).map ix := fun b hb => by rw [List.map_append]; exact List.mem_append_left _ hb
    have m2 : ∀ b ∈ sub.map ix, b ∈ (add ++ sub).map ix := fun b hb => by rw [List.map_append]; exact List.mem_append_right _ hb
    have hdyn : ∀ l, (∀ b ∈ l, b ∈ (add ++ sub).map ix) → ∀ p ∈ s.sel .dynamic l, 1 ≤ p ∧ p < s.r.parAll.length := by
      intro l hl' p hp
      obtain ⟨b, hb, ht, rfl⟩ := hsel _ l hl' p hp
      exact (h.parN hb.1 hb.2 (by rw [ht]; simp)).1
    have hvar : ∀ l, (∀ b ∈ l, b ∈ (add ++ sub).map ix) → ∀ p ∈ s.sel .variable l, 1 ≤ p ∧ p < s.ops.length ∧ (s.ops.getD p .begin).hasRes = true := by
      intro l hl' p hp
      obtain ⟨b, hb, ht, rfl⟩ := hsel _ l hl' p hp
      exact (h.varN hb.1 hb.2 ht).1
    have eops : (s.con c (v2fSumCon s con ix add sub)).1.ops = s.ops := rfl
    obtain ⟨F', r1, r2, r3⟩ := var_step q1 (hm.ext q2)
      (.csum (s.con c (v2fSumCon s con ix add sub)).2 (s.sel .variable (add.map ix)) (s.sel .variable (sub.map ix)) (s.sel .dynamic (add.map ix)) (s.sel .dynamic (sub.map ix)))
      (by
        intro v hv
        simp only [VOp.vars, List.mem_append] at hv
        rw [eops]
        rcases hv with hv | hv
        · exact hvar _ m1 v hv
        · exact hvar _ m2 v hv)
      (by
        intro p hp
        simp only [VOp.pars, List.mem_cons, List.mem_append] at hp
        rcases hp with rfl | hp | hp
        · exact ⟨q3, q4⟩
        · exact ⟨(hdyn _ m1 p hp).1, lt_of_lt_of_le (hdyn _ m1 p hp).2 q2.grows.1⟩
        · exact ⟨(hdyn _ m2 p hp).1, lt_of_lt_of_le (hdyn _ m2 p hp).2 q2.grows.1⟩) rfl rfl rfl
    have e : (VOp.csum (s.con c (v2fSumCon s con ix add sub)).2 (s.sel .variable (add.map ix)) (s.sel .variable (sub.map ix)) (s.sel .dynamic (add.map ix))
        (s.sel .dynamic (sub.map ix))).res c.disc ((s.con c (v2fSumCon s con ix add sub)).1.P c ind) (finSt F)
        = sumOver (fun a => at' V (ix a)) add - sumOver (fun a => at' V (ix a)) sub := by
      simp only [VOp.res, finSt, q5]
      rw [sumOver_congr fun p hp => q2.P (hdyn _ m1 p hp).2, sumOver_congr (l := s.sel .dynamic (sub.map ix)) fun p hp => q2.P (hdyn _ m2 p hp).2]
      rw [v2f_sum_split h ix con add (fun a ha => hl a (List.mem_append_left _ ha)) fun a ha => hc a (List.mem_append_left _ ha),
        v2f_sum_split h ix con sub (fun a ha => hl a (List.mem_append_right _ ha)) fun a ha => hc a (List.mem_append_right _ ha), v2fSumCon]
      ring
    rw [e] at r3
    exact Out.mk' h hm r1 (q2.trans r2) r3
  · exfalso
    unfold FromSt.anyDyn at h2
    rw [List.any_eq_true] at h2
    obtain ⟨a, _, ha⟩ := h2
    exact hn.ty a (of_decide_eq_true ha)

end CppAD.ValGraph
