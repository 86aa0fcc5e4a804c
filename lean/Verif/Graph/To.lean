import Verif.Graph.Itr

/-! # to_graph: the graph has the same values as the operation sequence -/

open scoped Classical

namespace CppAD.Graph

open CppAD CppAD.Record CppAD.Optim

variable {fn : Txt → ℝ → ℝ} {disc : ℕ → ℝ → ℝ} {names : ℕ → Txt} {T : OTape} {ind x : List ℝ} {junk : ℕ → ℝ}

/-- comparison operator that is not true -/
noncomputable def opFail (P F : ℕ → ℝ) : VOp → ℕ
  | .cmp k a b => if CmpF.holds k (a.val P F) (b.val P F) then 0 else 1
  | _ => 0

/-- values in the graph: `V` are the values of the nodes so far -/
structure MI (P F : ℕ → ℝ) (okp okv : ℕ → Prop) (s : ToSt) (V : List ℝ) : Prop where
  prev : s.prev + 1 = V.length
  par : ∀ p, okp p → 1 ≤ s.p2n p ∧ s.p2n p < V.length ∧ at' V (s.p2n p) = P p
  var : ∀ v, okv v → 1 ≤ s.v2n v ∧ s.v2n v < V.length ∧ at' V (s.v2n v) = F v

variable {P F : ℕ → ℝ} {okp okv : ℕ → Prop}

theorem MI.arg {s : ToSt} {V : List ℝ} (h : MI P F okp okv s V) (a : Arg) (hp : ∀ p ∈ a.pars, okp p) (hv : ∀ v ∈ a.vars, okv v) :
    1 ≤ s.arg a ∧ s.arg a < V.length ∧ at' V (s.arg a) = a.val P F := by
  cases a with
  | par p => exact h.par p (hp p (by simp [Arg.pars]))
  | var v => exact h.var v (hv v (by simp [Arg.vars]))

theorem at'_snoc_old {V : List ℝ} {r : ℝ} {k : ℕ} (h : k < V.length) : at' (V ++ [r]) k = at' V k := at'_append h

/-- one more node, for a variable -/
theorem MI.nextVar {s : ToSt} {V : List ℝ} (h : MI P F okp okv s V) {i : ℕ} {r : ℝ} (hr : r = F i) (g : CppGraph) :
    MI P F okp (fun v => okv v ∨ v = i) { s with prev := s.prev + 1, v2n := Function.update s.v2n i (s.prev + 1), g := g } (V ++ [r]) where
  prev := by have := h.prev; simp; omega
  par p hp := by
    obtain ⟨h1, h2, h3⟩ := h.par p hp
    exact ⟨h1, by simp; omega, by rw [at'_snoc_old h2, h3]⟩
  var v hv := by
    by_cases e : v = i
    · subst e
      simp only [Function.update_self]
      have := h.prev
      exact ⟨by omega, by simp; omega, by rw [this, at'_append_length, hr]⟩
    · simp only [Function.update_of_ne e]
      rcases hv with hv | hv
      · obtain ⟨h1, h2, h3⟩ := h.var v hv
        exact ⟨h1, by simp; omega, by rw [at'_snoc_old h2, h3]⟩
      · exact absurd hv e

/-- one more node, for a parameter -/
theorem MI.nextPar {s : ToSt} {V : List ℝ} (h : MI P F okp okv s V) {i : ℕ} {r : ℝ} (hr : r = P i) (g : CppGraph) :
    MI P F (fun v => okp v ∨ v = i) okv { s with prev := s.prev + 1, p2n := Function.update s.p2n i (s.prev + 1), g := g } (V ++ [r]) where
  prev := by have := h.prev; simp; omega
  var p hp := by
    obtain ⟨h1, h2, h3⟩ := h.var p hp
    exact ⟨h1, by simp; omega, by rw [at'_snoc_old h2, h3]⟩
  par v hv := by
    by_cases e : v = i
    · subst e
      simp only [Function.update_self]
      have := h.prev
      exact ⟨by omega, by simp; omega, by rw [this, at'_append_length, hr]⟩
    · simp only [Function.update_of_ne e]
      rcases hv with hv | hv
      · obtain ⟨h1, h2, h3⟩ := h.par v hv
        exact ⟨h1, by simp; omega, by rw [at'_snoc_old h2, h3]⟩
      · exact absurd hv e

theorem MI.mono {s : ToSt} {V : List ℝ} (h : MI P F okp okv s V) {okp' okv' : ℕ → Prop} (hp : ∀ p, okp' p → okp p) (hv : ∀ p, okv' p → okv p) :
    MI P F okp' okv' s V := ⟨h.prev, fun p h' => h.par p (hp p h'), fun p h' => h.var p (hv p h')⟩

/-- swapping the branches for Ge, Gt and Ne -/
theorem cexpNode_results (D : List Txt) (V : ℕ → ℝ) (cop : CompareOp) (l r t f : ℕ) :
    (cexpNode cop l r t f).results fn D V = [condExp cop (V l) (V r) (V t) (V f)] := by
  have neg : ∀ {a b : CompareOp} {p q u v : ℝ}, (a.holds p q ↔ ¬ b.holds p q) → condExp a p q u v = condExp b p q v u := by
    intro a b p q u v h
    unfold condExp
    by_cases hb : b.holds p q
    · rw [if_pos hb, if_neg (fun ha => h.1 ha hb)]
    · rw [if_neg hb, if_pos (h.2 hb)]
  cases cop <;> simp only [cexpNode, GNode.results, GCmp.cop, List.cons.injEq, and_true] <;> refine neg ?_ <;> simp [CompareOp.holds]

theorem cexpNode_args {cop : CompareOp} {l r t f : ℕ} {Q : ℕ → Prop} (h1 : Q l) (h2 : Q r) (h3 : Q t) (h4 : Q f) :
    ∀ a ∈ (cexpNode cop l r t f).argNodes, Q a := by
  cases cop <;> simp [cexpNode, GNode.argNodes, h1, h2, h3, h4]

theorem cexpNode_isAtom (cop : CompareOp) (l r t f : ℕ) : (cexpNode cop l r t f).isAtom = false ∧ (∀ D, (cexpNode cop l r t f).nameOk D) ∧
    ∀ V, (cexpNode cop l r t f).failed V = 0 := by
  cases cop <;> exact ⟨rfl, fun _ => trivial, fun _ => rfl⟩

/-- sum of the comparisons that fail -/
noncomputable def failSum (l : List GNode) (V : List ℝ) : ℕ := (l.map (GNode.failed (at' V))).sum

theorem failSum_mono {st V : List ℝ} {g : CppGraph} {l : List GNode} (h : GI fn st g l V) (W : List ℝ) :
    failSum l (V ++ W) = failSum l V := by
  have key : ∀ (l : List GNode) (k : ℕ), NodesOk g.discreteNames l k → ∀ V : List ℝ, V.length = k + (l.map GNode.nres).sum →
      failSum l (V ++ W) = failSum l V := by
    intro l
    induction l with
    | nil => intro _ _ _ _; rfl
    | cons n l ih =>
      intro k hk V hV
      simp only [List.map_cons, List.sum_cons] at hV
      have h1 := ih _ hk.2.2 V (by omega)
      unfold failSum at h1 ⊢
      rw [List.map_cons, List.map_cons, List.sum_cons, List.sum_cons, h1]
      congr 1
      exact failed_congr fun a ha => at'_append (by have := (hk.1 a ha).2; omega)
  exact key l _ h.ok V h.len

theorem failSum_snoc {st V : List ℝ} {g : CppGraph} {l : List GNode} (h : GI fn st g l V) {n : GNode} (W : List ℝ)
    (ha : ∀ a ∈ n.argNodes, 1 ≤ a ∧ a < V.length) : failSum (l ++ [n]) (V ++ W) = failSum l V + n.failed (at' V) := by
  have h1 := failSum_mono h W
  unfold failSum at h1 ⊢
  rw [List.map_append, List.sum_append, h1]
  simp only [List.map_cons, List.map_nil, List.sum_cons, List.sum_nil, Nat.add_zero]
  congr 1
  exact failed_congr fun a h' => at'_append (ha a h').2

/-- everything about the state of to_graph -/
structure TI (fn : Txt → ℝ → ℝ) (T : OTape) (P F : ℕ → ℝ) (st : List ℝ) (okp okv : ℕ → Prop) (c : ℕ) (s : ToSt) : Prop where
  hd : s.g.nDyn = T.nInd ∧ s.g.nVar = T.n
  ex : ∃ l V, GI fn st s.g l V ∧ MI P F okp okv s V ∧ failSum l V = c
  cs : ∃ d : List ℝ, d.length = T.nInd + T.n ∧ st = 0 :: (d ++ s.g.constants)

variable {st : List ℝ} {c : ℕ}

theorem TI.mk1 {s' : ToSt} {l : List GNode} {V : List ℝ} {g0 : CppGraph} {n : GNode} {r : ℝ} (hG : GI fn st g0 l V)
    (hM : MI P F okp okv s' (V ++ [r])) (hg : s'.g = g0.push n) (ha : ∀ a ∈ n.argNodes, 1 ≤ a ∧ a < V.length)
    (hn : n.nameOk g0.discreteNames) (hA : n.isAtom = false) (hr : n.results fn g0.discreteNames (at' V) = [r])
    (hf : n.failed (at' V) = 0) (hc : failSum l V = c) (hd : g0.nDyn = T.nInd ∧ g0.nVar = T.n)
    (hcs : ∃ d : List ℝ, d.length = T.nInd + T.n ∧ st = 0 :: (d ++ g0.constants)) : TI fn T P F st okp okv c s' where
  hd := by rw [hg]; exact hd
  ex := by
    refine ⟨l ++ [n], V ++ [r], ?_, hM, ?_⟩
    · rw [hg, ← hr]; exact hG.push n ha hn hA
    · rw [failSum_snoc hG _ ha, hf, hc, Nat.add_zero]
  cs := by rw [hg]; exact hcs

theorem discreteName_hd (g : CppGraph) (nm : Txt) : (g.discreteName nm).1.nDyn = g.nDyn ∧ (g.discreteName nm).1.nVar = g.nVar ∧
    (g.discreteName nm).1.constants = g.constants := by
  obtain ⟨⟨E, hE, -⟩, -⟩ := discreteName_ok g nm
  rw [hE]; exact ⟨rfl, rfl, rfl⟩

/-- one dynamic parameter -/
theorem toDyn_ok {s : ToSt} {k : ℕ} {Pl : List ℝ} (h : TI fn T (at' Pl) F st okp okv c s)
    (hne : T.dyn.dynOps.getD k .ind ≠ .ind) (hel : (T.dyn.dynOps.getD k .ind).elem)
    (ha : ∀ a ∈ (T.dyn.dynOps.getD k .ind).args, okp a ∧ a ≠ (dyn2par T.dyn.parIsDyn).getD k 0)
    (hv : at' Pl ((dyn2par T.dyn.parIsDyn).getD k 0) = (T.dyn.dynOps.getD k .ind).eval disc ind k Pl)
    (hfn : ∀ j, dynDisIdx (T.dyn.dynOps.getD k .ind) = some j → fn (names j) = disc j) :
    TI fn T (at' Pl) F st (fun p => okp p ∨ p = (dyn2par T.dyn.parIsDyn).getD k 0) okv c (toDyn names T k s) := by
  obtain ⟨hd, ⟨l, V, hG, hM, hc⟩, hcs⟩ := h
  unfold toDyn
  dsimp only
  generalize (dyn2par T.dyn.parIsDyn).getD k 0 = ip at *
  cases hop : T.dyn.dynOps.getD k .ind with
  | ind => exact absurd hop hne
  | atom A sel i args => rw [hop] at hel; exact absurd hel id
  | un f a =>
    rw [hop] at ha hv
    obtain ⟨h1, h2⟩ := ha a (by simp [DynOp.args])
    obtain ⟨h3, h4, h5⟩ := hM.par a h1
    have e : Function.update s.p2n ip (s.prev + 1) a = s.p2n a := Function.update_of_ne h2 _ _
    refine TI.mk1 hG (hM.nextPar hv.symm _) rfl ?_ trivial rfl ?_ rfl hc hd hcs
    · simp only [GNode.argNodes, List.mem_singleton, forall_eq, e]; exact ⟨h3, h4⟩
    · simp only [GNode.results, e, h5, DynOp.eval]
  | bin f a b =>
    rw [hop] at ha hv
    obtain ⟨h1, h2⟩ := ha a (by simp [DynOp.args])
    obtain ⟨h3, h4, h5⟩ := hM.par a h1
    obtain ⟨h1', h2'⟩ := ha b (by simp [DynOp.args])
    obtain ⟨h3', h4', h5'⟩ := hM.par b h1'
    have e : Function.update s.p2n ip (s.prev + 1) a = s.p2n a := Function.update_of_ne h2 _ _
    have e' : Function.update s.p2n ip (s.prev + 1) b = s.p2n b := Function.update_of_ne h2' _ _
    refine TI.mk1 hG (hM.nextPar hv.symm _) rfl ?_ trivial rfl ?_ rfl hc hd hcs
    · simp only [GNode.argNodes, List.mem_cons, List.not_mem_nil, or_false, forall_eq_or_imp, forall_eq, e, e']; exact ⟨⟨h3, h4⟩, h3', h4'⟩
    · simp only [GNode.results, e, e', h5, h5', DynOp.eval]
  | dis j a =>
    rw [hop] at ha hv
    obtain ⟨h1, h2⟩ := ha a (by simp [DynOp.args])
    obtain ⟨h3, h4, h5⟩ := hM.par a h1
    have e : Function.update s.p2n ip (s.prev + 1) a = s.p2n a := Function.update_of_ne h2 _ _
    obtain ⟨-, hd1, hd2⟩ := discreteName_ok s.g (names j)
    obtain ⟨hh1, hh2, hh3⟩ := discreteName_hd s.g (names j)
    refine TI.mk1 (hG.name (names j)) (hM.nextPar hv.symm _) rfl ?_ hd1 rfl ?_ rfl hc (by rw [hh1, hh2]; exact hd) (by rw [hh3]; exact hcs)
    · simp only [GNode.argNodes, List.mem_singleton, forall_eq, e]; exact ⟨h3, h4⟩
    · simp only [GNode.results, e, h5, DynOp.eval]
      rw [hd2, hfn j (by rw [hop]; rfl)]
  | cexp cop a1 a2 a3 a4 =>
    rw [hop] at ha hv
    have key : ∀ a ∈ (DynOp.cexp cop a1 a2 a3 a4).args, Function.update s.p2n ip (s.prev + 1) a = s.p2n a ∧
        (1 ≤ s.p2n a ∧ s.p2n a < V.length) ∧ at' V (s.p2n a) = at' Pl a := by
      intro a h'
      obtain ⟨h1, h2⟩ := ha a h'
      obtain ⟨h3, h4, h5⟩ := hM.par a h1
      exact ⟨Function.update_of_ne h2 _ _, ⟨h3, h4⟩, h5⟩
    obtain ⟨e1, f1, g1⟩ := key a1 (by simp [DynOp.args])
    obtain ⟨e2, f2, g2⟩ := key a2 (by simp [DynOp.args])
    obtain ⟨e3, f3, g3⟩ := key a3 (by simp [DynOp.args])
    obtain ⟨e4, f4, g4⟩ := key a4 (by simp [DynOp.args])
    obtain ⟨n1, n2, n3⟩ := cexpNode_isAtom cop (s.p2n a1) (s.p2n a2) (s.p2n a3) (s.p2n a4)
    simp only [e1, e2, e3, e4]
    refine TI.mk1 hG (hM.nextPar hv.symm _) rfl (cexpNode_args f1 f2 f3 f4) (n2 _) n1 ?_ (n3 _) hc hd hcs
    rw [cexpNode_results]; simp only [g1, g2, g3, g4, DynOp.eval]

/-- state with the final values of the variables -/
def finSt (F : ℕ → ℝ) : FSt := ⟨F, fun _ _ => .par 0, fun _ => false⟩

theorem sumOver_cons (g : ℕ → ℝ) (a : ℕ) (l : List ℕ) : sumOver g (a :: l) = g a + sumOver g l := by simp [sumOver]

theorem sumOver_append (g : ℕ → ℝ) (l l' : List ℕ) : sumOver g (l ++ l') = sumOver g l + sumOver g l' := by simp [sumOver]

set_option maxHeartbeats 1000000 in
/-- one variable operator -/
theorem toVar_ok {s : ToSt} {i : ℕ} (h : TI fn T P F st okp okv c s)
    (hs : (T.op i).supported = true) (hi : ¬ okv i ∨ (T.op i).isInd = true)
    (hp : ∀ p ∈ (T.op i).pars, okp p) (hv : ∀ v ∈ (T.op i).vars, okv v)
    (hF : (T.op i).hasRes = true → (T.op i).isInd = false → F i = (T.op i).res disc P (finSt F))
    (hfn : ∀ j, (T.op i).disIdx = some j → fn (names j) = disc j) :
    TI fn T P F st okp (fun v => okv v ∨ (v = i ∧ (T.op i).hasRes = true ∧ (T.op i).isInd = false)) (c + opFail P F (T.op i)) (toVar names T i s) := by
  obtain ⟨hd, ⟨l, V, hG, hM, hc⟩, hcs⟩ := h
  unfold toVar
  have keyv : ∀ v, (T.op i).isInd = false → okv v → Function.update s.v2n i (s.prev + 1) v = s.v2n v := by
    intro v hI h'
    refine Function.update_of_ne ?_ _ _
    rintro rfl
    rcases hi with hi | hi
    · exact hi h'
    · rw [hI] at hi; exact absurd hi (by simp)
  have fin : ∀ {okv' : ℕ → Prop} {s' : ToSt} {c' : ℕ}, TI fn T P F st okp okv' c' s' →
      (∀ v, (okv v ∨ (v = i ∧ (T.op i).hasRes = true ∧ (T.op i).isInd = false)) → okv' v) → c' = c + opFail P F (T.op i) →
      TI fn T P F st okp (fun v => okv v ∨ (v = i ∧ (T.op i).hasRes = true ∧ (T.op i).isInd = false)) (c + opFail P F (T.op i)) s' := by
    rintro okv' s' c' ⟨hd, ⟨l, V, hG, hM, hc⟩, hcs⟩ h' rfl
    exact ⟨hd, ⟨l, V, hG, hM.mono (fun p h => h) h', hc⟩, hcs⟩
  cases hop : T.op i with
  | begin =>
    rw [hop] at fin
    exact fin ⟨hd, ⟨l, V, hG, hM, hc⟩, hcs⟩ (by rintro v (h' | ⟨-, -, h'⟩); exacts [h', absurd h' (by simp [VOp.isInd])]) rfl
  | inv =>
    rw [hop] at fin
    exact fin ⟨hd, ⟨l, V, hG, hM, hc⟩, hcs⟩ (by rintro v (h' | ⟨-, -, h'⟩); exacts [h', absurd h' (by simp [VOp.isInd])]) rfl
  | un f v =>
    rw [hop] at fin hv hF keyv
    have e := keyv v rfl (hv v (by simp [VOp.vars]))
    obtain ⟨h3, h4, h5⟩ := hM.var v (hv v (by simp [VOp.vars]))
    refine fin (okv' := fun v => okv v ∨ v = i) (TI.mk1 hG (hM.nextVar (hF rfl rfl).symm _) rfl ?_ trivial rfl ?_ rfl hc hd hcs)
      (fun v h' => h'.imp id And.left) rfl
    · simp only [GNode.argNodes, List.mem_singleton, forall_eq, ToSt.next, e]; exact ⟨h3, h4⟩
    · simp only [GNode.results, ToSt.next, e, h5, VOp.res, finSt]
  | pv f p v =>
    rw [hop] at fin hv hF keyv hp
    have e := keyv v rfl (hv v (by simp [VOp.vars]))
    obtain ⟨h3, h4, h5⟩ := hM.var v (hv v (by simp [VOp.vars]))
    obtain ⟨h3', h4', h5'⟩ := hM.par p (hp p (by simp [VOp.pars]))
    refine fin (okv' := fun v => okv v ∨ v = i) (TI.mk1 hG (hM.nextVar (hF rfl rfl).symm _) rfl ?_ trivial rfl ?_ rfl hc hd hcs)
      (fun v h' => h'.imp id And.left) rfl
    · simp only [GNode.argNodes, List.mem_cons, List.not_mem_nil, or_false, forall_eq_or_imp, forall_eq, ToSt.next, e]
      exact ⟨⟨h3', h4'⟩, h3, h4⟩
    · simp only [GNode.results, ToSt.next, e, h5, h5', VOp.res, finSt]
  | vp f v p =>
    rw [hop] at fin hv hF keyv hp
    have e := keyv v rfl (hv v (by simp [VOp.vars]))
    obtain ⟨h3, h4, h5⟩ := hM.var v (hv v (by simp [VOp.vars]))
    obtain ⟨h3', h4', h5'⟩ := hM.par p (hp p (by simp [VOp.pars]))
    refine fin (okv' := fun v => okv v ∨ v = i) (TI.mk1 hG (hM.nextVar (hF rfl rfl).symm _) rfl ?_ trivial rfl ?_ rfl hc hd hcs)
      (fun v h' => h'.imp id And.left) rfl
    · simp only [GNode.argNodes, List.mem_cons, List.not_mem_nil, or_false, forall_eq_or_imp, forall_eq, ToSt.next, e]
      exact ⟨⟨h3, h4⟩, h3', h4'⟩
    · simp only [GNode.results, ToSt.next, e, h5, h5', VOp.res, finSt]
  | vv f v u =>
    rw [hop] at fin hv hF keyv
    have e := keyv v rfl (hv v (by simp [VOp.vars]))
    obtain ⟨h3, h4, h5⟩ := hM.var v (hv v (by simp [VOp.vars]))
    have e' := keyv u rfl (hv u (by simp [VOp.vars]))
    obtain ⟨h3', h4', h5'⟩ := hM.var u (hv u (by simp [VOp.vars]))
    refine fin (okv' := fun v => okv v ∨ v = i) (TI.mk1 hG (hM.nextVar (hF rfl rfl).symm _) rfl ?_ trivial rfl ?_ rfl hc hd hcs)
      (fun v h' => h'.imp id And.left) rfl
    · simp only [GNode.argNodes, List.mem_cons, List.not_mem_nil, or_false, forall_eq_or_imp, forall_eq, ToSt.next, e, e']
      exact ⟨⟨h3, h4⟩, h3', h4'⟩
    · simp only [GNode.results, ToSt.next, e, e', h5, h5', VOp.res, finSt]
  | dis k v =>
    rw [hop] at fin hv hF hfn
    obtain ⟨h3, h4, h5⟩ := hM.var v (hv v (by simp [VOp.vars]))
    obtain ⟨-, hd1, hd2⟩ := discreteName_ok s.g (names k)
    obtain ⟨hh1, hh2, hh3⟩ := discreteName_hd s.g (names k)
    refine fin (okv' := fun v => okv v ∨ v = i) (TI.mk1 (hG.name (names k)) (hM.nextVar (hF rfl rfl).symm _) rfl ?_ hd1 rfl ?_ rfl hc
      (by rw [hh1, hh2]; exact hd) (by rw [hh3]; exact hcs)) (fun v h' => h'.imp id And.left) rfl
    · simp only [GNode.argNodes, List.mem_singleton, forall_eq]; exact ⟨h3, h4⟩
    · simp only [GNode.results, h5, VOp.res, finSt]
      rw [hd2, hfn k rfl]
  | par p =>
    rw [hop] at fin hF hp
    obtain ⟨h3, h4, h5⟩ := hM.par p (hp p (by simp [VOp.pars]))
    refine fin (okv' := fun v => okv v ∨ v = i) ⟨hd, ⟨l, V, hG, ⟨hM.prev, hM.par, fun v hv' => ?_⟩, hc⟩, hcs⟩ (fun v h' => h'.imp id And.left) rfl
    by_cases e : v = i
    · subst e
      simp only [Function.update_self]
      exact ⟨h3, h4, by rw [h5, hF rfl rfl]; rfl⟩
    · simp only [Function.update_of_ne e]
      exact hM.var v (hv'.resolve_right e)
  | cexp cop a1 a2 a3 a4 =>
    rw [hop] at fin hv hF hp
    simp only [VOp.vars, VOp.pars, List.mem_append] at hv hp
    obtain ⟨f1, f1', g1⟩ := hM.arg a1 (fun p h => hp p (by simp [h])) (fun p h => hv p (by simp [h]))
    obtain ⟨f2, f2', g2⟩ := hM.arg a2 (fun p h => hp p (by simp [h])) (fun p h => hv p (by simp [h]))
    obtain ⟨f3, f3', g3⟩ := hM.arg a3 (fun p h => hp p (by simp [h])) (fun p h => hv p (by simp [h]))
    obtain ⟨f4, f4', g4⟩ := hM.arg a4 (fun p h => hp p (by simp [h])) (fun p h => hv p (by simp [h]))
    obtain ⟨n1, n2, n3⟩ := cexpNode_isAtom cop (s.arg a1) (s.arg a2) (s.arg a3) (s.arg a4)
    refine fin (okv' := fun v => okv v ∨ v = i) (TI.mk1 hG (hM.nextVar (hF rfl rfl).symm _) rfl
      (cexpNode_args ⟨f1, f1'⟩ ⟨f2, f2'⟩ ⟨f3, f3'⟩ ⟨f4, f4'⟩) (n2 _) n1 ?_ (n3 _) hc hd hcs)
      (fun v h' => h'.imp id And.left) rfl
    rw [cexpNode_results]; simp only [g1, g2, g3, g4, VOp.res, finSt]
  | cmp k a b =>
    rw [hop] at fin hv hp
    simp only [VOp.vars, VOp.pars, List.mem_append] at hv hp
    obtain ⟨f1, f1', g1⟩ := hM.arg a (fun p h => hp p (by simp [h])) (fun p h => hv p (by simp [h]))
    obtain ⟨f2, f2', g2⟩ := hM.arg b (fun p h => hp p (by simp [h])) (fun p h => hv p (by simp [h]))
    have ha : ∀ n ∈ (GNode.comp k (s.arg a) (s.arg b)).argNodes, 1 ≤ n ∧ n < V.length := by
      simp only [GNode.argNodes, List.mem_cons, List.not_mem_nil, or_false, forall_eq_or_imp, forall_eq]
      exact ⟨⟨f1, f1'⟩, f2, f2'⟩
    have hG' := hG.push (.comp k (s.arg a) (s.arg b)) ha trivial rfl
    have hf := failSum_snoc hG [] ha
    simp only [GNode.results, List.append_nil] at hG' hf
    refine fin (okv' := okv) ⟨hd, ⟨_, V, hG', ⟨hM.prev, hM.par, hM.var⟩, rfl⟩, hcs⟩ ?_ ?_
    · rintro v (h' | ⟨-, h', -⟩)
      · exact h'
      · exact absurd h' (by simp [VOp.hasRes])
    · rw [hf, hc]; simp only [GNode.failed, opFail, g1, g2]
  | csum c0 av sv ad sd =>
    rw [hop] at fin hv hF hp keyv
    simp only [VOp.vars, VOp.pars, List.mem_append, List.mem_cons] at hv hp
    have upd : ∀ (m : ℕ) (q : List ℕ), (∀ v ∈ q, okv v) → q.map (Function.update s.v2n i m) = q.map s.v2n := by
      intro m q hq
      refine List.map_congr_left fun v hv' => Function.update_of_ne ?_ _ _
      rintro rfl
      rcases hi with hi | hi
      · exact hi (hq v hv')
      · rw [hop] at hi; exact absurd hi (by simp [VOp.isInd])
    have rngv : ∀ q : List ℕ, (∀ v ∈ q, okv v) → (∀ a ∈ q.map s.v2n, 1 ≤ a ∧ a < V.length) ∧ sumOver (at' V) (q.map s.v2n) = sumOver F q := by
      intro q hq
      refine ⟨?_, ?_⟩
      · intro a ha
        obtain ⟨v, hv', rfl⟩ := List.mem_map.1 ha
        obtain ⟨h1, h2, -⟩ := hM.var v (hq v hv'); exact ⟨h1, h2⟩
      · rw [sumOver_map]; exact sumOver_congr fun a ha => (hM.var a (hq a ha)).2.2
    have rngp : ∀ q : List ℕ, (∀ v ∈ q, okp v) → (∀ a ∈ q.map s.p2n, 1 ≤ a ∧ a < V.length) ∧ sumOver (at' V) (q.map s.p2n) = sumOver P q := by
      intro q hq
      refine ⟨?_, ?_⟩
      · intro a ha
        obtain ⟨v, hv', rfl⟩ := List.mem_map.1 ha
        obtain ⟨h1, h2, -⟩ := hM.par v (hq v hv'); exact ⟨h1, h2⟩
      · rw [sumOver_map]; exact sumOver_congr fun a ha => (hM.par a (hq a ha)).2.2
    obtain ⟨c1, c2, c3⟩ := hM.par c0 (hp c0 (Or.inl rfl))
    obtain ⟨av1, av2⟩ := rngv av (fun v h => hv v (Or.inl h))
    obtain ⟨sv1, sv2⟩ := rngv sv (fun v h => hv v (Or.inr h))
    obtain ⟨ad1, ad2⟩ := rngp ad (fun v h => hp v (Or.inr (Or.inl h)))
    obtain ⟨sd1, sd2⟩ := rngp sd (fun v h => hp v (Or.inr (Or.inr h)))
    have hval := hF rfl rfl
    simp only [VOp.res, finSt] at hval
    have ha1 : ∀ a ∈ (GNode.sum (s.p2n c0 :: (av.map s.v2n ++ ad.map s.p2n))).argNodes, 1 ≤ a ∧ a < V.length := by
      simp only [GNode.argNodes, List.mem_cons, List.mem_append]
      rintro a (rfl | h' | h')
      · exact ⟨c1, c2⟩
      · exact av1 a h'
      · exact ad1 a h'
    have hr1 : (GNode.sum (s.p2n c0 :: (av.map s.v2n ++ ad.map s.p2n))).results fn s.g.discreteNames (at' V) = [P c0 + (sumOver F av + sumOver P ad)] := by
      simp only [GNode.results, sumOver_cons, sumOver_append, c3, av2, ad2]
    cases hb : (!sv.isEmpty || !sd.isEmpty) with
    | false =>
      simp only [Bool.or_eq_false_iff, Bool.not_eq_false', List.isEmpty_iff] at hb
      obtain ⟨rfl, rfl⟩ := hb
      simp only [Bool.false_eq_true, if_false]
      rw [upd _ av fun v h => hv v (Or.inl h)]
      refine fin (okv' := fun v => okv v ∨ v = i) (TI.mk1 (r := P c0 + (sumOver F av + sumOver P ad)) hG (hM.nextVar ?_ _) rfl ha1 trivial rfl hr1 rfl hc hd hcs)
        (fun v h' => h'.imp id And.left) rfl
      rw [hval]; simp [sumOver]; ring
    | true =>
      simp only [hb, if_true]
      rw [upd _ av fun v h => hv v (Or.inl h), upd _ sv fun v h => hv v (Or.inr h)]
      have hG1 := hG.push _ ha1 trivial rfl
      have hf1 := failSum_snoc hG [P c0 + (sumOver F av + sumOver P ad)] ha1
      rw [hr1] at hG1
      have hV1 : (V ++ [P c0 + (sumOver F av + sumOver P ad)]).length = V.length + 1 := by simp
      have ha2 : ∀ a ∈ (GNode.sum (sv.map s.v2n ++ sd.map s.p2n)).argNodes, 1 ≤ a ∧ a < (V ++ [P c0 + (sumOver F av + sumOver P ad)]).length := by
        rw [hV1]
        simp only [GNode.argNodes, List.mem_append]
        rintro a (h' | h')
        · have := sv1 a h'; omega
        · have := sd1 a h'; omega
      have hr2 : (GNode.sum (sv.map s.v2n ++ sd.map s.p2n)).results fn s.g.discreteNames (at' (V ++ [P c0 + (sumOver F av + sumOver P ad)])) =
          [sumOver F sv + sumOver P sd] := by
        simp only [GNode.results, sumOver_append]
        rw [sumOver_congr (l := sv.map s.v2n) (fun a h => at'_append (sv1 a h).2), sumOver_congr (l := sd.map s.p2n) (fun a h => at'_append (sd1 a h).2), sv2, sd2]
      have hG2 := hG1.push _ ha2 trivial rfl
      have hf2 := failSum_snoc hG1 [sumOver F sv + sumOver P sd] ha2
      have hD1 : (s.g.push (GNode.sum (s.p2n c0 :: (av.map s.v2n ++ ad.map s.p2n)))).discreteNames = s.g.discreteNames := rfl
      rw [hD1, hr2] at hG2
      have hprev := hM.prev
      have hV2 : (V ++ [P c0 + (sumOver F av + sumOver P ad)] ++ [sumOver F sv + sumOver P sd]).length = V.length + 2 := by simp
      have v1 : at' (V ++ [P c0 + (sumOver F av + sumOver P ad)] ++ [sumOver F sv + sumOver P sd]) (s.prev + 1) = P c0 + (sumOver F av + sumOver P ad) := by
        rw [at'_append (by rw [hV1]; omega), hprev, at'_append_length]
      have v2 : at' (V ++ [P c0 + (sumOver F av + sumOver P ad)] ++ [sumOver F sv + sumOver P sd]) (s.prev + 2) = sumOver F sv + sumOver P sd := by
        rw [show s.prev + 2 = (V ++ [P c0 + (sumOver F av + sumOver P ad)]).length by rw [hV1]; omega, at'_append_length]
      have hfin : F i = P c0 + (sumOver F av + sumOver P ad) - (sumOver F sv + sumOver P sd) := by rw [hval]; ring
      refine fin (okv' := fun v => okv v ∨ v = i) (TI.mk1 (r := F i) (n := .bin .sub (s.prev + 1) (s.prev + 2)) hG2 ⟨?_, fun p h' => ?_, fun v h' => ?_⟩ rfl ?_ trivial rfl ?_ rfl ?_ hd hcs)
        (fun v h' => h'.imp id And.left) rfl
      · simp; omega
      · obtain ⟨q1, q2, q3⟩ := hM.par p h'
        dsimp only
        refine ⟨q1, by simp only [List.length_append, hV2, List.length_singleton]; omega, ?_⟩
        rw [at'_append (by rw [hV2]; omega), at'_append (by rw [hV1]; omega), at'_append q2, q3]
      · by_cases e : v = i
        · subst e
          simp only [Function.update_self]
          refine ⟨by omega, by simp only [List.length_append, List.length_singleton]; omega, ?_⟩
          rw [show s.prev + 3 = (V ++ [P c0 + (sumOver F av + sumOver P ad)] ++ [sumOver F sv + sumOver P sd]).length by rw [hV2]; omega, at'_append_length]
        · simp only [Function.update_of_ne e]
          obtain ⟨q1, q2, q3⟩ := hM.var v (h'.resolve_right e)
          refine ⟨q1, by simp only [List.length_append, hV2, List.length_singleton]; omega, ?_⟩
          rw [at'_append (by rw [hV2]; omega), at'_append (by rw [hV1]; omega), at'_append q2, q3]
      · simp only [GNode.argNodes, List.mem_cons, List.not_mem_nil, or_false, forall_eq_or_imp, forall_eq, hV2]; omega
      · simp only [GNode.results, v1, v2, hfin, BinF.fn]
      · rw [hf2, hf1, hc]; rfl
  | _ => rw [hop] at hs; simp [VOp.supported] at hs

end CppAD.Graph
