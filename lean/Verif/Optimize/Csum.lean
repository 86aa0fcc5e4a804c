import Verif.Optimize.Prev
import Verif.Optimize.Pars

/-! # Cumulative sums -/

open scoped Classical

namespace CppAD.Optim

open CppAD CppAD.Record

variable {disc : ℕ → ℝ → ℝ} {V E : ℕ → ℝ} {T : OTape} {o : Options}

/-- a term with its sign -/
noncomputable def sgn (b : Bool) (x : ℝ) : ℝ := if b then x else -x

theorem sgn_not (b : Bool) (x : ℝ) : sgn (!b) x = -sgn b x := by cases b <;> simp [sgn]

theorem sgn_add (b : Bool) (x y : ℝ) : sgn b (x + y) = sgn b x + sgn b y := by cases b <;> simp [sgn]; ring

theorem sgn_sub (b : Bool) (x y : ℝ) : sgn b (x - y) = sgn b x - sgn b y := by cases b <;> simp [sgn]; ring

/-- value of an operator when variables have the values `E` and parameters the values `V` -/
noncomputable def resE (disc : ℕ → ℝ → ℝ) (V E : ℕ → ℝ) (op : VOp) : ℝ := op.res disc V ⟨E, fun _ _ => .par 0, fun _ => false⟩

/-- the sum represented by a state of record_csum -/
noncomputable def CsumSt.value (disc : ℕ → ℝ → ℝ) (V E : ℕ → ℝ) (s : CsumSt) : ℝ :=
  s.sum + sumOver E s.addV - sumOver E s.subV + sumOver V s.addD - sumOver V s.subD
    + (s.stack.map fun e => sgn e.2 (resE disc V E e.1)).sum

theorem sumOver_cons (g : ℕ → ℝ) (a : ℕ) (l : List ℕ) : sumOver g (a :: l) = g a + sumOver g l := by simp [sumOver]

theorem sumOver_nil (g : ℕ → ℝ) : sumOver g [] = 0 := rfl

theorem var_value {op : ℕ → VOp} {usage : ℕ → Usage} {s : CsumSt} {add : Bool} {v : ℕ}
    (h : usage v = .csum → E v = resE disc V E (op v)) :
    (s.var op usage add v).value disc V E = s.value disc V E + sgn add (E v) := by
  unfold CsumSt.var CsumSt.value
  split_ifs with h1 h2
  · simp only [List.map_cons, List.sum_cons, h h1]; ring
  · subst h2; simp only [sumOver_cons, sgn, if_true]; ring
  · simp only [sumOver_cons, sgn, h2, if_false]; simp only [Bool.false_eq_true, if_false]; ring

theorem par_value {isDyn : ℕ → Bool} {par : ℕ → ℝ} {s : CsumSt} {add : Bool} {p : ℕ} (h : isDyn p = false → par p = V p) :
    (s.par isDyn par add p).value disc V E = s.value disc V E + sgn add (V p) := by
  unfold CsumSt.par CsumSt.value
  cases hd : isDyn p
  · cases add <;> simp [sgn, h hd] <;> ring
  · cases add <;> simp [sgn, sumOver_cons] <;> ring

/-- the terms of the sum -/
structure Terms (T : OTape) (o : Options) (K : ℕ → Prop) (pu : ℕ → Bool) (i : ℕ) (s : CsumSt) : Prop where
  stack : ∀ e ∈ s.stack, ∃ v, e.1 = T.op v ∧ v ≤ i ∧ (T.use o).usage v ≠ .no ∧ K v ∧
    ((T.op v).addOrSub = true ∨ ∃ c av sv ad sd, T.op v = .csum c av sv ad sd)
  var : ∀ v ∈ s.addV ++ s.subV, (T.use o).usage v = .yes ∧ v < i ∧ K v
  dyn : ∀ p ∈ s.addD ++ s.subD, p < T.dyn.parAll.length ∧ pu p = true

/-- a step of the loop only looks at the terms: adding an argument of an operator -/
theorem Terms.addVar {K : ℕ → Prop} {pu : ℕ → Bool} {i : ℕ} {s : CsumSt} (h : Terms T o K pu i s) {add : Bool} {v : ℕ}
    (hu : (T.use o).usage v ≠ .no) (hv : v < i) (hK : K v) (hc : (T.use o).usage v = .csum → (T.op v).addOrSub = true) :
    Terms T o K pu i (s.var T.op (T.use o).usage add v) := by
  unfold CsumSt.var
  split_ifs with h1 h2
  · refine ⟨fun e he => ?_, h.var, h.dyn⟩
    rcases List.mem_cons.1 he with rfl | he
    · exact ⟨v, rfl, hv.le, hu, hK, Or.inl (hc h1)⟩
    · exact h.stack e he
  · refine ⟨h.stack, fun w hw => ?_, h.dyn⟩
    simp only [List.cons_append, List.mem_cons] at hw
    rcases hw with rfl | hw
    · refine ⟨?_, hv, hK⟩
      cases hq : (T.use o).usage w <;> simp_all
    · exact h.var w hw
  · refine ⟨h.stack, fun w hw => ?_, h.dyn⟩
    simp only [List.mem_append, List.mem_cons] at hw
    rcases hw with hw | rfl | hw
    · exact h.var w (List.mem_append_left _ hw)
    · refine ⟨?_, hv, hK⟩
      cases hq : (T.use o).usage w <;> simp_all
    · exact h.var w (List.mem_append_right _ hw)

theorem Terms.addPar {K : ℕ → Prop} {pu : ℕ → Bool} {i : ℕ} {s : CsumSt} (h : Terms T o K pu i s) {isDyn : ℕ → Bool} {par : ℕ → ℝ}
    {add : Bool} {p : ℕ} (hp : p < T.dyn.parAll.length) (hd : isDyn p = true → pu p = true) :
    Terms T o K pu i (s.par isDyn par add p) := by
  unfold CsumSt.par
  split_ifs with h1 h2
  · refine ⟨h.stack, h.var, fun q hq => ?_⟩
    simp only [List.cons_append, List.mem_cons] at hq
    rcases hq with rfl | hq
    · exact ⟨hp, hd h1⟩
    · exact h.dyn q hq
  · refine ⟨h.stack, h.var, fun q hq => ?_⟩
    simp only [List.mem_append, List.mem_cons] at hq
    rcases hq with hq | rfl | hq
    · exact h.dyn q (List.mem_append_left _ hq)
    · exact ⟨hp, hd h1⟩
    · exact h.dyn q (List.mem_append_right _ hq)
  · exact ⟨h.stack, h.var, h.dyn⟩
  · exact ⟨h.stack, h.var, h.dyn⟩

/-- weight of an operator on the stack -/
def wt (op : VOp) : ℕ := 3 ^ (op.vars.foldr max 0 + 1)

theorem wt_pos (op : VOp) : 0 < wt op := Nat.pow_pos (by omega)

theorem foldr_max_lt {l : List ℕ} {b : ℕ} (h : ∀ v ∈ l, v < b) (hb : 0 < b) : l.foldr max 0 < b := by
  induction l with
  | nil => exact hb
  | cons a l ih =>
    rw [List.foldr_cons, max_lt_iff]
    exact ⟨h a (by simp), ih fun v hv => h v (by simp [hv])⟩

theorem wt_le (w : T.WF) {v : ℕ} (hv : v < T.ops.length) (h1 : 1 ≤ v) : wt (T.op v) ≤ 3 ^ v := by
  unfold wt
  refine Nat.pow_le_pow_right (by omega) ?_
  have := foldr_max_lt (fun u hu => (w.vars v hv u hu).2.1) h1
  omega

/-- weight of the stack -/
def CsumSt.wt (s : CsumSt) : ℕ := (s.stack.map fun e => Optim.wt e.1).sum

theorem var_wt {op : ℕ → VOp} {usage : ℕ → Usage} {s : CsumSt} {add : Bool} {v : ℕ} :
    (s.var op usage add v).wt ≤ s.wt + Optim.wt (op v) := by
  unfold CsumSt.var CsumSt.wt
  split_ifs <;> simp; omega

theorem par_wt {isDyn : ℕ → Bool} {par : ℕ → ℝ} {s : CsumSt} {add : Bool} {p : ℕ} : (s.par isDyn par add p).wt = s.wt := by
  unfold CsumSt.par CsumSt.wt
  split_ifs <;> rfl

theorem foldl_varC {op : ℕ → VOp} {usage : ℕ → Usage} {add addVar : Bool} : ∀ (l : List ℕ) (s : CsumSt), (∀ v ∈ l, usage v ≠ .csum) →
    (l.foldl (CsumSt.varC op usage add addVar) s).value disc V E = s.value disc V E + sgn addVar (sumOver E l) ∧
    (l.foldl (CsumSt.varC op usage add addVar) s).stack = s.stack ∧ (l.foldl (CsumSt.varC op usage add addVar) s).addD = s.addD ∧
    (l.foldl (CsumSt.varC op usage add addVar) s).subD = s.subD ∧
    ∀ v ∈ (l.foldl (CsumSt.varC op usage add addVar) s).addV ++ (l.foldl (CsumSt.varC op usage add addVar) s).subV, v ∈ l ∨ v ∈ s.addV ++ s.subV
  | [], s, _ => by simp [sumOver_nil, sgn]
  | a :: l, s, h => by
    obtain ⟨h1, h2, h3, h4, h5⟩ := foldl_varC (op := op) (add := add) (addVar := addVar) l (CsumSt.varC op usage add addVar s a) fun v hv => h v (by simp [hv])
    have ha := h a (by simp)
    rw [List.foldl_cons]
    have e : (CsumSt.varC op usage add addVar s a).value disc V E = s.value disc V E + sgn addVar (E a) ∧
      (CsumSt.varC op usage add addVar s a).stack = s.stack ∧ (CsumSt.varC op usage add addVar s a).addD = s.addD ∧
      (CsumSt.varC op usage add addVar s a).subD = s.subD ∧
      ∀ v ∈ (CsumSt.varC op usage add addVar s a).addV ++ (CsumSt.varC op usage add addVar s a).subV, v = a ∨ v ∈ s.addV ++ s.subV := by
      unfold CsumSt.varC CsumSt.value
      rw [if_neg ha]
      cases addVar
      · simp only [Bool.false_eq_true, if_false, sumOver_cons, sgn, and_self, true_and, and_true]
        refine ⟨by ring, fun v hv => ?_⟩
        simp only [List.mem_append, List.mem_cons] at hv ⊢; tauto
      · simp only [if_true, sumOver_cons, sgn, true_and]
        refine ⟨by ring, fun v hv => ?_⟩
        simp only [List.mem_append, List.mem_cons] at hv ⊢; tauto
    refine ⟨?_, h2.trans e.2.1, h3.trans e.2.2.1, h4.trans e.2.2.2.1, fun v hv => ?_⟩
    · rw [h1, e.1, sumOver_cons, sgn_add]; ring
    · rcases h5 v hv with h | h
      · left; simp [h]
      · rcases e.2.2.2.2 v h with h | h
        · left; simp [h]
        · exact Or.inr h

theorem foldl_dyn {b : Bool} : ∀ (l : List ℕ) (s : CsumSt),
    (l.foldl (fun s p => if b then { s with addD := p :: s.addD } else { s with subD := p :: s.subD }) s).value disc V E
      = s.value disc V E + sgn b (sumOver V l) ∧
    (l.foldl (fun s p => if b then { s with addD := p :: s.addD } else { s with subD := p :: s.subD }) s).stack = s.stack ∧
    (l.foldl (fun s p => if b then { s with addD := p :: s.addD } else { s with subD := p :: s.subD }) s).addV = s.addV ∧
    (l.foldl (fun s p => if b then { s with addD := p :: s.addD } else { s with subD := p :: s.subD }) s).subV = s.subV ∧
    ∀ v ∈ (l.foldl (fun s p => if b then { s with addD := p :: s.addD } else { s with subD := p :: s.subD }) s).addD ++
      (l.foldl (fun s p => if b then { s with addD := p :: s.addD } else { s with subD := p :: s.subD }) s).subD, v ∈ l ∨ v ∈ s.addD ++ s.subD
  | [], s => by simp [sumOver_nil, sgn]
  | a :: l, s => by
    obtain ⟨h1, h2, h3, h4, h5⟩ := foldl_dyn (b := b) l
      (if b then { s with addD := a :: s.addD } else { s with subD := a :: s.subD })
    rw [List.foldl_cons]
    have e : (if b then { s with addD := a :: s.addD } else { s with subD := a :: s.subD } : CsumSt).value disc V E
        = s.value disc V E + sgn b (V a) := by
      unfold CsumSt.value
      cases b <;> simp only [Bool.false_eq_true, if_false, if_true, sumOver_cons, sgn] <;> ring
    refine ⟨?_, h2.trans (by split_ifs <;> rfl), h3.trans (by split_ifs <;> rfl), h4.trans (by split_ifs <;> rfl), fun v hv => ?_⟩
    · rw [h1, e, sumOver_cons, sgn_add]; ring
    · rcases h5 v hv with h | h
      · left; simp [h]
      · cases b
        · simp only [Bool.false_eq_true, if_false, List.mem_append, List.mem_cons] at h ⊢; tauto
        · simp only [if_true, List.mem_append, List.mem_cons] at h ⊢; tauto

/-- hypotheses about values and usage under which record_csum is used -/
structure CsumHyp (disc : ℕ → ℝ → ℝ) (V E : ℕ → ℝ) (T : OTape) (o : Options) (K : ℕ → Prop) (pu : ℕ → Bool) : Prop where
  wf : T.WF
  con : ∀ p < T.dyn.parAll.length, T.isDyn p = false → V p = at' T.dyn.parAll p
  val : ∀ v < T.ops.length, (T.op v).addOrSub = true → E v = resE disc V E (T.op v)
  key : ∀ k < T.ops.length, (T.use o).usage k ≠ .no → (T.op k).isAtom = false → (T.op k).isCexp = false → K k → ∀ v ∈ (T.op k).vars, K v
  dyn : ∀ k < T.ops.length, (T.use o).usage k ≠ .no → (T.op k).addOrSub = true → ∀ p ∈ (T.op k).pars, T.isDyn p = true → pu p = true
  ind : ∀ p ≤ T.nInd, pu p = true

theorem csumStep_ok {K : ℕ → Prop} {pu : ℕ → Bool} (H : CsumHyp disc V E T o K pu) {i : ℕ} (hi : i < T.ops.length) {s : CsumSt}
    (h : Terms T o K pu i s) (hs : s.stack ≠ []) :
    (csumStep T.op (T.use o).usage (fun i => T.dyn.parIsDyn.getD i false) (at' T.dyn.parAll) s).value disc V E = s.value disc V E ∧
    Terms T o K pu i (csumStep T.op (T.use o).usage (fun i => T.dyn.parIsDyn.getD i false) (at' T.dyn.parAll) s) ∧
    (csumStep T.op (T.use o).usage (fun i => T.dyn.parIsDyn.getD i false) (at' T.dyn.parAll) s).wt < s.wt := by
  obtain ⟨⟨op, add⟩, rest, hst⟩ := List.exists_cons_of_ne_nil hs
  obtain ⟨k, hk, hki, hku, hKk, hkind⟩ := h.stack (op, add) (by rw [hst]; simp)
  simp only at hk
  have hkl : k < T.ops.length := by omega
  set s1 : CsumSt := { s with stack := rest } with hs1
  have ht1 : Terms T o K pu i s1 := ⟨fun e he => h.stack e (by rw [hst]; simp [show e ∈ rest from he]), h.var, h.dyn⟩
  have hval1 : s.value disc V E = s1.value disc V E + sgn add (resE disc V E op) := by
    simp only [CsumSt.value, hst, List.map_cons, List.sum_cons, hs1]; ring
  have hwt1 : s.wt = Optim.wt op + s1.wt := by
    simp only [CsumSt.wt, hst, List.map_cons, List.sum_cons, hs1]
  have hatom : (T.op k).isAtom = false := by
    rcases hkind with h | ⟨c, av, sv, ad, sd, h⟩
    · cases hop : T.op k <;> simp_all [VOp.addOrSub, VOp.isAtom]
    · rw [h]; rfl
  have hargs := use_args (o := o) H.wf hkl hku
  rw [need_eq hatom] at hargs
  have hvars := H.wf.vars k hkl
  have hvE : ∀ v ∈ (T.op k).vars, (T.use o).usage v = .csum → E v = resE disc V E (T.op v) := fun v hv hc =>
    H.val v (by have := (hvars v hv).2.1; omega) ((hargs v hv).2 hc).2
  have hwt : ∀ v ∈ (T.op k).vars, Optim.wt (T.op v) ≤ 3 ^ v := fun v hv => wt_le H.wf (by have := (hvars v hv).2.1; omega) (hvars v hv).1
  have hKv : ∀ v ∈ (T.op k).vars, K v := fun v hv => by
    refine H.key k hkl hku hatom ?_ hKk v hv
    rcases hkind with h | ⟨c, av, sv, ad, sd, h⟩
    · cases hop : T.op k <;> simp_all [VOp.addOrSub, VOp.isCexp]
    · rw [h]; rfl
  have hconv : ∀ p ∈ (T.op k).pars, (fun i => T.dyn.parIsDyn.getD i false) p = false → at' T.dyn.parAll p = V p := fun p hp hd =>
    (H.con p (H.wf.pars k hkl p hp) hd).symm
  unfold csumStep
  rw [hst]
  dsimp only
  rw [← hs1, hval1, hwt1]
  subst hk
  have addVar : ∀ (s' : CsumSt) (b : Bool) (v : ℕ), v ∈ (T.op k).vars → Terms T o K pu i s' →
      Terms T o K pu i (s'.var T.op (T.use o).usage b v) := fun s' b v hv ht =>
    ht.addVar (hargs v hv).1 (by have := (hvars v hv).2.1; omega) (hKv v hv) (fun hc => ((hargs v hv).2 hc).2)
  rcases hkind with hkind | ⟨c, av, sv, ad, sd, hop⟩
  · have hdyn := H.dyn k hkl hku hkind
    cases hop : T.op k with
    | pv f p v =>
      have hv : v ∈ (T.op k).vars := by simp [hop, VOp.vars]
      have hp : p ∈ (T.op k).pars := by simp [hop, VOp.pars]
      refine ⟨?_, ?_, ?_⟩
      · rw [var_value (hvE v hv), par_value (hconv p hp)]
        rw [hop] at hkind
        cases f <;> simp [VOp.addOrSub] at hkind
        · simp only [resE, VOp.res, BinF.fn, reduceCtorEq, if_false, sgn_add]; ring
        · simp only [resE, VOp.res, BinF.fn, if_true, sgn_not, sgn_sub]; ring
      · exact addVar _ _ _ hv (ht1.addPar (H.wf.pars k hkl p hp) (hdyn p hp))
      · refine lt_of_le_of_lt var_wt ?_
        rw [par_wt]
        have := hwt v hv
        have e : Optim.wt (VOp.pv f p v) = 3 * 3 ^ v := by simp [Optim.wt, VOp.vars, pow_succ, mul_comm]
        have := Nat.pow_pos (n := v) (show 0 < 3 by omega)
        omega
    | vp f v p =>
      have hv : v ∈ (T.op k).vars := by simp [hop, VOp.vars]
      have hp : p ∈ (T.op k).pars := by simp [hop, VOp.pars]
      refine ⟨?_, ?_, ?_⟩
      · rw [par_value (hconv p hp), var_value (hvE v hv)]
        rw [hop] at hkind
        cases f <;> simp [VOp.addOrSub] at hkind
        simp only [resE, VOp.res, BinF.fn, if_true, sgn_not, sgn_sub]; ring
      · exact (addVar _ _ _ hv ht1).addPar (H.wf.pars k hkl p hp) (hdyn p hp)
      · rw [par_wt]
        refine lt_of_le_of_lt var_wt ?_
        have := hwt v hv
        have e : Optim.wt (VOp.vp f v p) = 3 * 3 ^ v := by simp [Optim.wt, VOp.vars, pow_succ, mul_comm]
        have := Nat.pow_pos (n := v) (show 0 < 3 by omega)
        omega
    | vv f v u =>
      have hv : v ∈ (T.op k).vars := by simp [hop, VOp.vars]
      have hu : u ∈ (T.op k).vars := by simp [hop, VOp.vars]
      refine ⟨?_, ?_, ?_⟩
      · rw [var_value (hvE u hu), var_value (hvE v hv)]
        rw [hop] at hkind
        cases f <;> simp [VOp.addOrSub] at hkind
        · simp only [resE, VOp.res, BinF.fn, reduceCtorEq, if_false, sgn_add]; ring
        · simp only [resE, VOp.res, BinF.fn, if_true, sgn_not, sgn_sub]; ring
      · exact addVar _ _ _ hu (addVar _ _ _ hv ht1)
      · refine lt_of_le_of_lt var_wt ?_
        have h1 := var_wt (op := T.op) (usage := (T.use o).usage) (s := s1) (add := add) (v := v)
        have h2 := hwt v hv
        have h3 := hwt u hu
        have e : Optim.wt (VOp.vv f v u) = 3 * 3 ^ max v u := by
          simp [Optim.wt, VOp.vars, pow_succ, mul_comm]
        have h4 := Nat.pow_le_pow_right (n := 3) (by omega) (le_max_left v u)
        have h5 := Nat.pow_le_pow_right (n := 3) (by omega) (le_max_right v u)
        have := Nat.pow_pos (n := max v u) (show 0 < 3 by omega)
        omega
    | _ => rw [hop] at hkind; simp [VOp.addOrSub] at hkind
  · rw [hop]
    dsimp only
    have hnc : ∀ v ∈ (T.op k).vars, (T.use o).usage v ≠ .csum := fun v hv hc => by
      have := ((hargs v hv).2 hc).1; rw [hop] at this; simp [VOp.addOrSub] at this
    have hcs := H.wf.csum k hkl c av sv ad sd hop
    have hcp : c ∈ (T.op k).pars := by simp [hop, VOp.pars]
    have hvav : ∀ v ∈ av, v ∈ (T.op k).vars := fun v hv => by simp [hop, VOp.vars, hv]
    have hvsv : ∀ v ∈ sv, v ∈ (T.op k).vars := fun v hv => by simp [hop, VOp.vars, hv]
    set s2 : CsumSt := { s1 with sum := if add then s1.sum + at' T.dyn.parAll c else s1.sum - at' T.dyn.parAll c } with hs2
    have e2 : s2.value disc V E = s1.value disc V E + sgn add (V c) := by
      have := H.con c (H.wf.pars k hkl c hcp) hcs.1
      simp only [hs2, CsumSt.value, sgn, this]; split_ifs <;> ring
    obtain ⟨a1, a2, a3, a4, a5⟩ := foldl_varC (E := E) (V := V) (disc := disc) (op := T.op) (add := add) (addVar := add) av s2
      (fun v hv => hnc v (hvav v hv))
    set s3 := av.foldl (CsumSt.varC T.op (T.use o).usage add add) s2 with hs3
    obtain ⟨b1, b2, b3, b4, b5⟩ := foldl_varC (E := E) (V := V) (disc := disc) (op := T.op) (add := add) (addVar := !add) sv s3
      (fun v hv => hnc v (hvsv v hv))
    set s4 := sv.foldl (CsumSt.varC T.op (T.use o).usage add !add) s3 with hs4
    obtain ⟨c1, c2, c3, c4, c5⟩ := foldl_dyn (E := E) (V := V) (disc := disc) (b := add) ad s4
    set s5 := ad.foldl (fun (s : CsumSt) p => if add then { s with addD := p :: s.addD } else { s with subD := p :: s.subD }) s4 with hs5
    obtain ⟨d1, d2, d3, d4, d5⟩ := foldl_dyn (E := E) (V := V) (disc := disc) (b := !add) sd s5
    set s6 := sd.foldl (fun (s : CsumSt) p => if !add then { s with addD := p :: s.addD } else { s with subD := p :: s.subD }) s5 with hs6
    have hstack : s6.stack = s1.stack := by rw [d2, c2, b2, a2]
    refine ⟨?_, ⟨?_, ?_, ?_⟩, ?_⟩
    · rw [d1, c1, b1, a1, e2]
      simp only [resE, VOp.res, sgn_not, sgn_sub, sgn_add]; ring
    · rw [hstack]; exact ht1.stack
    · rw [d3, d4, c3, c4]
      intro v hv
      rcases b5 v hv with h1 | h1
      · have := hvsv v h1
        refine ⟨?_, by have := (hvars v this).2.1; omega, hKv v this⟩
        have h2 := (hargs v this).1
        have h3 := hnc v this
        cases hq : (T.use o).usage v <;> simp_all
      · rcases a5 v h1 with h1 | h1
        · have := hvav v h1
          refine ⟨?_, by have := (hvars v this).2.1; omega, hKv v this⟩
          have h2 := (hargs v this).1
          have h3 := hnc v this
          cases hq : (T.use o).usage v <;> simp_all
        · exact ht1.var v h1
    · intro p hp
      have hmem : ∀ q ∈ ad ++ sd, q < T.dyn.parAll.length ∧ pu q = true := fun q hq =>
        ⟨H.wf.pars k hkl q (by simp only [hop, VOp.pars, List.mem_cons]; exact Or.inr hq), H.ind q (hcs.2 q hq).2⟩
      rcases d5 p hp with h1 | h1
      · exact hmem p (List.mem_append_right _ h1)
      · rcases c5 p h1 with h1 | h1
        · exact hmem p (List.mem_append_left _ h1)
        · rw [b3, b4, a3, a4] at h1; exact ht1.dyn p h1
    · have : s6.wt = s1.wt := by unfold CsumSt.wt; rw [hstack]
      rw [this]
      have := wt_pos (VOp.csum c av sv ad sd)
      omega

/-- record_csum computes the value of its top operator, from variables that have yes usage and dynamic parameters
that are used -/
theorem csumRun_ok {K : ℕ → Prop} {pu : ℕ → Bool} (H : CsumHyp disc V E T o K pu) {i : ℕ} (hi : i < T.ops.length)
    (hu : (T.use o).usage i ≠ .no) (hK : K i)
    (hop : (T.op i).addOrSub = true ∨ ∃ c av sv ad sd, T.op i = .csum c av sv ad sd) :
    let c := csumRun T.op (T.use o).usage (fun i => T.dyn.parIsDyn.getD i false) (at' T.dyn.parAll) i
    c.sum + sumOver V c.addD - sumOver V c.subD + sumOver E c.addV - sumOver E c.subV = resE disc V E (T.op i) ∧
    (∀ v ∈ c.addV ++ c.subV, (T.use o).usage v = .yes ∧ v < i ∧ K v) ∧ ∀ p ∈ c.addD ++ c.subD, p < T.dyn.parAll.length ∧ pu p = true := by
  intro c
  have key := whileLoop_rule (c := fun s : CsumSt => !s.stack.isEmpty)
    (b := csumStep T.op (T.use o).usage (fun i => T.dyn.parIsDyn.getD i false) (at' T.dyn.parAll))
    (fun s => s.value disc V E = resE disc V E (T.op i) ∧ Terms T o K pu i s) CsumSt.wt
    (by
      rintro s ⟨h1, h2⟩ hs
      have hs' : s.stack ≠ [] := by simpa using hs
      obtain ⟨a, b, c⟩ := csumStep_ok H hi h2 hs'
      exact ⟨⟨a.trans h1, b⟩, c⟩)
    (s := ⟨[(T.op i, true)], 0, [], [], [], []⟩)
    ⟨by simp [CsumSt.value, sumOver, sgn], ⟨by
      intro e he
      simp only [List.mem_singleton] at he
      subst he
      exact ⟨i, rfl, le_refl _, hu, hK, hop⟩, by simp, by simp⟩⟩
  change (c.value disc V E = _ ∧ Terms T o K pu i c) ∧ (!c.stack.isEmpty) = false at key
  obtain ⟨⟨k1, k2⟩, k3⟩ := key
  have k3 : c.stack = [] := by simpa using k3
  refine ⟨?_, k2.var, k2.dyn⟩
  rw [← k1, CsumSt.value, k3]
  simp; ring

end CppAD.Optim
