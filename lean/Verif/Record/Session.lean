import Verif.Record.Replay

/-! # Sessions: the state after Independent, the function object, and the zero order sweep -/

open scoped Classical

namespace CppAD.Record

open CppAD

/-- the first `n` elements of `l`, zero where `l` is shorter -/
def pad (n : ℕ) (l : List ℝ) : List ℝ := (List.range n).map (at' l)

theorem pad_length (n : ℕ) (l : List ℝ) : (pad n l).length = n := by simp [pad]

theorem pad_self (l : List ℝ) : pad l.length l = l := by
  refine List.ext_getElem (by simp [pad]) fun i h1 h2 => ?_
  simp [pad, at', h2]

theorem at'_pad {n i : ℕ} (h : i < n) (l : List ℝ) : at' (pad n l) i = at' l i := by
  simp [pad, at', List.getD_eq_getElem?_getD, h]

theorem at'_map_range {n i : ℕ} (h : i < n) (f : ℕ → ℝ) : at' ((List.range n).map f) i = f i := by
  simp [at', List.getD_eq_getElem?_getD, h]

/-! ## Independent -/

theorem indep_dyn (disc : ℕ → ℝ → ℝ) (nan : ℝ) (q : List ℝ) (p : List ℝ) :
    DynWf (false :: p.map fun _ => true) (p.map fun _ => DynOp.ind) ∧
    dynamicSweep disc q (false :: p.map fun _ => true) (p.map fun _ => DynOp.ind) (nan :: p) = nan :: pad p.length q := by
  induction p using List.reverseRecOn with
  | nil => exact ⟨DynWf.con (b := []) .nil, rfl⟩
  | append_singleton p v ih =>
    obtain ⟨h1, h2⟩ := ih
    rw [List.map_append, List.map_append, ← List.cons_append, ← List.cons_append, List.map_singleton, List.map_singleton]
    refine ⟨.dyn h1 (by simp [DynOp.args]), ?_⟩
    rw [sweep_dyn disc q h1 (nan :: p) v (by simp) .ind (by simp [DynOp.args]), h2]
    simp [DynOp.eval, pad, List.range_succ]

variable {s : Session} {P : Prog}

/-- recorder after Independent -/
noncomputable def Session.rec0 (s : Session) : Rec := (independent s.nan (s.cfg.hash s.nan) s.id s.recordCompare s.x s.p).1

/-- store of AD objects after Independent -/
noncomputable def Session.store0 (s : Session) : Objs where
  m := s.old ++ (independent s.nan (s.cfg.hash s.nan) s.id s.recordCompare s.x s.p).2.1 ++
    (independent s.nan (s.cfg.hash s.nan) s.id s.recordCompare s.x s.p).2.2
  vs := s.oldVecs

/-- arguments used while recording -/
def Session.w0 (s : Session) : World := ⟨s.p, s.x, s.x⟩

/-- store of real numbers at a world -/
def Session.D (s : Session) (w : World) : Vals := s.store (pad s.x.length w.x) (pad s.p.length w.p)

theorem Session.D_eq (s : Session) {x p : List ℝ} (hx : x.length = s.x.length) (hp : p.length = s.p.length) (z : List ℝ) :
    s.D ⟨p, x, z⟩ = s.store x p := by
  unfold Session.D; rw [← hx, ← hp, pad_self, pad_self]

theorem rec0_inv (hs : s.Ok) : RInv s.cfg s.w0 s.rec0 where
  dyn := (indep_dyn s.cfg.disc s.nan [] s.p).1
  len := by simp [Session.rec0, independent]
  pos := by simp [Session.rec0, independent]
  vals := by
    refine ((indep_dyn s.cfg.disc s.nan s.p s.p).2.trans ?_).symm
    rw [pad_self]; rfl
  wf := fun w => trivial
  nv := fun w => rfl
  par := by simp [Session.rec0, independent]
  id := hs.id_pos
  cmp := trivial
  vec := by simp [Session.rec0, independent]
  vpar := by simp [Session.rec0, independent]
  cell := by simp [Session.rec0, independent]
  txt := by simp [Session.rec0, independent]

theorem rec0_parAt (w : World) {j : ℕ} (hj : j < s.p.length) : s.rec0.parAt s.cfg w (j + 1) = at' w.p j := by
  unfold Rec.parAt
  have : s.rec0.parList s.cfg w = s.nan :: pad s.p.length w.p := (indep_dyn s.cfg.disc s.nan w.p s.p).2
  rw [this]
  show at' (pad s.p.length w.p) j = _
  exact at'_pad hj _

theorem rec0_store (hs : s.Ok) : Store s.cfg s.w0 s.rec0 s.store0.m fun w => (s.D w).m := by
  have hid : s.rec0.id = s.id := rfl
  refine ⟨fun w => by simp [Session.D, Session.store, Session.store0, independent, pad_length], fun i => ?_⟩
  by_cases h1 : i < s.old.length
  · have e1 : reg s.store0.m i = s.old[i] := by
      unfold reg Session.store0
      rw [List.append_assoc, List.getD_append _ _ _ _ h1, List.getD_eq_getElem _ _ h1]
    rw [e1]
    refine Den.const _ (hs.old_id _ (List.getElem_mem h1)) fun w => ?_
    unfold at' Session.D Session.store
    rw [List.append_assoc, List.getD_append _ _ _ _ (by simpa using h1), List.getD_eq_getElem _ _ (by simpa using h1),
      List.getElem_map]
  · obtain ⟨j, rfl⟩ := Nat.exists_eq_add_of_le (not_lt.1 h1)
    have e1 : reg s.store0.m (s.old.length + j) =
        ((independent s.nan (s.cfg.hash s.nan) s.id s.recordCompare s.x s.p).2.1 ++
          (independent s.nan (s.cfg.hash s.nan) s.id s.recordCompare s.x s.p).2.2).getD j (AD.con 0) := by
      unfold reg Session.store0
      rw [List.append_assoc, List.getD_append_right _ _ _ _ (by omega)]
      congr 1; omega
    have e2 : ∀ w, at' (s.D w).m (s.old.length + j) = at' (pad s.x.length w.x ++ pad s.p.length w.p) j := by
      intro w
      unfold at' Session.D Session.store
      rw [List.append_assoc, List.getD_append_right _ _ _ _ (by simp)]
      congr 1; simp
    simp only [e1, e2]
    by_cases h2 : j < s.x.length
    · have e3 : ((independent s.nan (s.cfg.hash s.nan) s.id s.recordCompare s.x s.p).2.1 ++
          (independent s.nan (s.cfg.hash s.nan) s.id s.recordCompare s.x s.p).2.2).getD j (AD.con 0)
          = ⟨s.x[j], s.id, j + 1, .variable⟩ := by
        rw [List.getD_append _ _ _ _ (by simpa [independent] using h2), List.getD_eq_getElem _ _ (by simpa [independent] using h2)]
        simp [independent]
      have e4 : ∀ w : World, at' (pad s.x.length w.x ++ pad s.p.length w.p) j = at' w.x j := fun w => by
        rw [at'_append (by rw [pad_length]; exact h2), at'_pad h2]
      simp only [e3, e4]
      refine ⟨?_, ?_⟩
      · show s.x[j] = at' s.x j
        rw [at', List.getD_eq_getElem _ _ h2]
      · rw [if_pos hid.symm, if_neg (by simp)]
        refine ⟨rfl, fun w => ⟨?_, ?_⟩⟩
        · show 1 ≤ j + 1 ∧ j + 1 ≤ s.x.length
          omega
        · show indEnv (at' w.x) (j + 1) = _
          simp [indEnv]
    · obtain ⟨l, rfl⟩ := Nat.exists_eq_add_of_le (not_lt.1 h2)
      have e4 : ∀ w : World, at' (pad s.x.length w.x ++ pad s.p.length w.p) (s.x.length + l) = at' (pad s.p.length w.p) l := by
        intro w
        unfold at'
        rw [List.getD_append_right _ _ _ _ (by rw [pad_length]; omega), pad_length]
        congr 1; omega
      have e3 : ((independent s.nan (s.cfg.hash s.nan) s.id s.recordCompare s.x s.p).2.1 ++
          (independent s.nan (s.cfg.hash s.nan) s.id s.recordCompare s.x s.p).2.2).getD (s.x.length + l) (AD.con 0)
          = (s.p.mapIdx fun j v => (⟨v, s.id, j + 1, .dynamic⟩ : AD)).getD l (AD.con 0) := by
        rw [List.getD_append_right _ _ _ _ (by simp [independent])]
        simp only [independent, List.length_mapIdx]
        congr 1; omega
      simp only [e3, e4]
      by_cases h3 : l < s.p.length
      · rw [List.getD_eq_getElem _ _ (by simpa using h3), List.getElem_mapIdx]
        refine ⟨?_, ?_⟩
        · show s.p[l] = at' (pad s.p.length s.p) l
          rw [pad_self, at', List.getD_eq_getElem _ _ h3]
        · rw [if_pos hid.symm, if_pos rfl]
          refine ⟨?_, fun w => ?_⟩
          · show l + 1 < (s.nan :: s.p).length
            simp; exact h3
          · show _ = at' (pad s.p.length w.p) l
            rw [at'_pad h3]
            exact rec0_parAt w h3
      · rw [List.getD_eq_default _ _ (by simpa using h3)]
        refine Den.const _ (con_ne (rec0_inv hs) _) fun w => ?_
        unfold at'
        rw [List.getD_eq_default _ _ (by rw [pad_length]; omega)]; rfl

theorem rec0_vecs (hs : s.Ok) : VStore s.cfg s.w0 s.rec0 s.oldVecs fun w => (s.D w).vs := by
  have hc : ∀ k, s.rec0.varVec (vreg s.oldVecs k) = false := by
    intro k
    by_cases hk : k < s.oldVecs.length
    · have e : vreg s.oldVecs k = s.oldVecs[k] := by unfold vreg; rw [List.getD_eq_getElem _ _ hk]
      rw [e]
      have := hs.oldVecs_id _ (List.getElem_mem hk)
      unfold Rec.varVec
      rw [show decide (s.oldVecs[k].tapeId = s.rec0.id) = false from decide_eq_false this]; rfl
    · have e : vreg s.oldVecs k = VecAD.con [] := by unfold vreg; rw [List.getD_eq_default _ _ (not_lt.1 hk)]
      rw [e, con_varVec (rec0_inv hs)]
  refine ⟨fun w => by simp [Session.D, Session.store], fun k => ?_, fun i j _ hi _ => ?_⟩
  · refine VDen.con (rec0_inv hs) (hc k) fun w => ?_
    show (s.oldVecs.map VecAD.data).getD k [] = (vreg s.oldVecs k).data
    unfold vreg
    by_cases hk : k < s.oldVecs.length
    · rw [List.getD_eq_getElem _ _ hk, List.getD_eq_getElem _ _ (by simpa using hk), List.getElem_map]
    · rw [List.getD_eq_default _ _ (not_lt.1 hk), List.getD_eq_default _ _ (by simpa using hk)]; rfl
  · rw [hc i] at hi; simp at hi

/-- everything known about the recording of an algorithm -/
theorem recorded_all (hs : s.Ok) (hf : s.Faithful P) : RecOk s.cfg s.w0 P s.rec0 s.D (s.recorded P) :=
  P.record_ok rfl (rec0_inv hs) ⟨rec0_store hs, rec0_vecs hs⟩ hf

theorem recorded_ok (hs : s.Ok) (hf : s.Faithful P) :
    let R := s.recorded P
    RInv s.cfg s.w0 R.r ∧ R.r.n = s.x.length ∧ R.marks.length = R.outcomes.length ∧
    R.outcomes = P.outcomes s.cfg.disc R.outcomes (s.D s.w0) (s.D s.w0) ∧
    (∀ w, (∀ d ∈ R.dep, d ∈ R.r.use s.cfg w) ∧
      R.dep.map (R.r.env s.cfg w) = P.follow s.cfg.disc R.outcomes (s.D w.sel) (s.D w)) ∧
    (∀ w, (R.r.cmps s.cfg w).1 = cmpPairs R.marks R.outcomes (P.outcomes s.cfg.disc R.outcomes (s.D w.sel) (s.D w))) ∧
    (s.recordCompare = true → ∀ w, ∀ k : ℕ, R.marks[k]? = some none →
      (P.outcomes s.cfg.disc R.outcomes (s.D w.sel) (s.D w))[k]? = R.outcomes[k]?) := by
  have h := recorded_all hs hf
  exact ⟨h.inv, h.ext.n, h.len, h.out, h.dep, fun w => (congrArg Prod.fst (h.cmps w)).trans (List.nil_append _), h.marks⟩

/-- the output of the recorded PriOp operators -/
theorem recorded_prints (hs : s.Ok) (hf : s.Faithful P) (w : World) :
    ((s.recorded P).r.cmps s.cfg w).2 = P.prints s.cfg.disc (s.recorded P).outcomes (s.D w.sel) (s.D w) :=
  (congrArg Prod.snd ((recorded_all hs hf).cmps w)).trans (List.nil_append _)

/-! ## The function object -/

/-- the function object when the dynamic parameters are `p` -/
noncomputable def Session.funAt (s : Session) (P : Prog) (p : List ℝ) : Fun :=
  { s.fun_ P with parAll := (s.recorded P).r.parList s.cfg ⟨p, [], []⟩ }

theorem fun_eq (hs : s.Ok) (hf : s.Faithful P) : s.fun_ P = s.funAt P s.p := by
  have := (recorded_ok hs hf).1.vals
  unfold Session.funAt Session.fun_ Rec.toFun
  simp only [Fun.mk.injEq, and_true, true_and]
  exact this

/-- new values of the dynamic parameters replace the old ones -/
theorem newDynamic_eq (hs : s.Ok) (hf : s.Faithful P) (p q : List ℝ) :
    (s.funAt P p).newDynamic s.cfg.disc q = s.funAt P q := by
  have hr := (recorded_ok hs hf).1
  have : dynamicSweep s.cfg.disc q (s.recorded P).r.parIsDyn (s.recorded P).r.dynOps ((s.recorded P).r.parList s.cfg ⟨p, [], []⟩)
      = dynamicSweep s.cfg.disc q (s.recorded P).r.parIsDyn (s.recorded P).r.dynOps (s.recorded P).r.parAll := by
    refine sweep_congr _ _ hr.dyn _ _ ?_ hr.len fun i hi => ?_
    · rw [← hr.len]; exact dynamicSweep_length _ _ _ _ _
    · exact sweep_con_eq _ _ hr.dyn _ hr.len i hi
  unfold Fun.newDynamic Session.funAt
  simp only [Fun.mk.injEq, and_true, true_and]
  exact this

theorem funAt_par (p : List ℝ) (w : World) (hw : w.p = p) : (s.funAt P p).par = (s.recorded P).r.parAt s.cfg w := by
  subst hw; rfl

theorem funAt_ops (p x z : List ℝ) :
    ((s.funAt P p).tape s.cfg.disc z).ops = (s.recorded P).r.opsAt s.cfg ⟨p, x, z⟩ := rfl

theorem funAt_wf (hs : s.Ok) (hf : s.Faithful P) (p z : List ℝ) : ((s.funAt P p).tape s.cfg.disc z).WF := by
  obtain ⟨h1, h2, h3, h4, h5, -⟩ := recorded_ok hs hf
  refine ⟨?_, ?_, ?_⟩
  · show 0 < (s.recorded P).r.n
    rw [h2]; exact List.length_pos_iff.2 hs.x_pos
  · exact h1.wf ⟨p, z, z⟩
  · exact (h5 ⟨p, z, z⟩).1

theorem funAt_n (hs : s.Ok) (hf : s.Faithful P) (p z : List ℝ) : ((s.funAt P p).tape s.cfg.disc z).n = s.x.length :=
  (recorded_ok hs hf).2.1

/-- the operations found at `z`, evaluated at `x` -/
theorem funAt_eval (hs : s.Ok) (hf : s.Faithful P) {p : List ℝ} (hp : p.length = s.p.length) {z : List ℝ} (hz : z.length = s.x.length)
    (x : ℕ → ℝ) {i : ℕ} (hi : i < (s.recorded P).dep.length) :
    ((s.funAt P p).tape s.cfg.disc z).eval x i =
      at' (P.follow s.cfg.disc (s.recorded P).outcomes (s.store z p) (s.store ((List.range s.x.length).map x) p)) i := by
  obtain ⟨h1, h2, h3, h4, h5, -⟩ := recorded_ok hs hf
  have h := (h5 ⟨p, (List.range s.x.length).map x, z⟩).2
  have hsel : s.D (World.sel ⟨p, (List.range s.x.length).map x, z⟩) = s.store z p := s.D_eq hz hp z
  rw [s.D_eq (by simp) hp, hsel] at h
  rw [← h]
  have e1 : ((s.funAt P p).tape s.cfg.disc z).eval x i
      = ((s.funAt P p).tape s.cfg.disc z).eval (at' ((List.range s.x.length).map x)) i := by
    refine Tape.eval_congr (funAt_wf hs hf p _) (fun j hj => ?_) hi
    rw [funAt_n hs hf] at hj
    rw [at'_map_range hj]
  rw [e1]
  show (s.recorded P).r.env s.cfg ⟨p, _, z⟩ ((s.recorded P).dep.getD i 0) = _
  simp [at', List.getD_eq_getElem?_getD, hi]

theorem range_map_at' {n : ℕ} {x : List ℝ} (hx : x.length = n) : (List.range n).map (at' x) = x := by
  subst hx; exact pad_self x

theorem dep_length (hs : s.Ok) (hf : s.Faithful P) (z m : Vals) :
    (s.recorded P).dep.length = (P.follow s.cfg.disc (s.recorded P).outcomes z m).length := by
  obtain ⟨h1, h2, h3, h4, h5, -⟩ := recorded_ok hs hf
  have h := congrArg List.length (h5 s.w0).2
  rw [List.length_map] at h
  rw [h]
  have key : ∀ (Q : Prog) (bs : List Bool) (z m z' m' : Vals), (Q.follow s.cfg.disc bs z m).length = (Q.follow s.cfg.disc bs z' m').length := by
    intro Q
    induction Q with
    | ret ys => intro bs z m z' m'; simp [Prog.follow]
    | instr i k ih => intro bs z m z' m'; exact ih _ _ _ _ _
    | branch cop i j yes no ihy ihn =>
      intro bs z m z' m'
      simp only [Prog.follow]
      split_ifs
      · exact ihy _ _ _ _ _
      · exact ihn _ _ _ _ _
  exact key _ _ _ _ _ _

/-! ## The zero order sweep with its comparisons -/

/-- all the comparisons are counted in order -/
def countList (count : ℕ) (l : List (ℕ × Bool)) (k : CmpCount) : CmpCount := l.foldl (fun k q => k.add count q.1 q.2) k

theorem ROp.toOpM_env {disc : ℕ → ℝ → ℝ} {par : ℕ → ℝ} {vecs : List (List ℕ)} {mem : Mem} {e e' : ℕ → ℝ} {op : ROp}
    (h : ∀ a ∈ op.cmpVars, e a = e' a) : op.toOpM disc par vecs e mem = op.toOpM disc par vecs e' mem := by
  cases op <;> simp_all [ROp.toOpM, ROp.cmpVars]

theorem ROp.memM_env {par : ℕ → ℝ} {vecs : List (List ℕ)} {mem : Mem} {e e' : ℕ → ℝ} {op : ROp}
    (h : ∀ a ∈ op.cmpVars, e a = e' a) : op.memM par vecs e mem = op.memM par vecs e' mem := by
  cases op <;> simp_all [ROp.memM, ROp.cmpVars]

theorem ROp.change_env {par : ℕ → ℝ} {e e' : ℕ → ℝ} {op : ROp}
    (h : ∀ a ∈ op.cmpVars, e a = e' a) : op.change par e = op.change par e' := by
  cases op <;> simp_all [ROp.change, ROp.cmpVars]

theorem ROp.change_not {par : ℕ → ℝ} {e : ℕ → ℝ} {op : ROp} (h : op.isCmp = false) : op.change par e = false := by
  cases op <;> simp_all [ROp.change, ROp.isCmp]

theorem ROp.isCmp_nres {op : ROp} (h : op.isCmp = true) : op.nres = 0 := by
  cases op <;> simp_all [ROp.nres, ROp.isCmp]

theorem step0_agree {o : Op} {nv : ℕ} {U : Set ℕ} {t : Tay} {e : ℕ → ℝ} (hU : ∀ a ∈ U, a < nv) (hw : ∀ a ∈ o.args, a ∈ U)
    (he : ∀ v ∈ U, t v 0 = e v) : ∀ v ∈ addRes o nv U, o.fwd0 (nv + o.nres - 1) t v 0 = stepEnv o nv e v := by
  have ha : ∀ a ∈ o.args, a < nv := fun a h => hU a (hw a h)
  have h0 := o.fwd0_ok nv t ha
  have hpos := o.nres_pos
  intro v hv
  rcases hv with hv | hv
  · obtain ⟨r, rfl⟩ := Nat.exists_eq_add_of_le (show nv ≤ v by have := hv.1; omega)
    have hr : r < o.nres := by have := hv.2; omega
    rw [stepEnv_res _ hr, h0.1 r hr]
    refine o.cert.val_congr (e := fun v => t v 0) (e' := e) ?_ _
    intro a ha'
    exact he a (hw a ha')
  · have hlt := hU v hv
    rw [stepEnv_lt _ hlt, h0.2 v 0 (by omega), he v hv]

/-- The zero order sweep finds the operations while it computes: it executes the operations `resolve` for the order zero
coefficients `e` of the independent variables, and it counts the comparisons. -/
theorem sweep0_ok (disc : ℕ → ℝ → ℝ) (par : ℕ → ℝ) (vecs : List (List ℕ)) (count : ℕ) : ∀ (ops : List ROp) (iop nv : ℕ) (U : Set ℕ) (t : Tay)
    (mem : Mem) (k : CmpCount) (e : ℕ → ℝ), (∀ a ∈ U, a < nv) → WFOps (resolve disc par vecs ops nv e mem).1 nv U → CmpWF ops nv U →
    (∀ v ∈ U, t v 0 = e v) →
    sweep0 disc par vecs count ops iop nv t mem k
      = (forward0 (resolve disc par vecs ops nv e mem).1 nv t,
        countList count (cmpList par (evalOps (resolve disc par vecs ops nv e mem).1 nv e) ops iop) k)
  | [], _, _, _, _, _, _, _, _, _, _, _ => rfl
  | op :: ops, iop, nv, U, t, mem, k, e, hU, hw, hc, he => by
    rw [sweep0]
    unfold CmpWF at hc
    have hag : ∀ a ∈ op.cmpVars, (fun v => t v 0) a = e a := fun a ha => he a (hc.1 a (List.mem_append_left _ ha))
    rw [ROp.toOpM_env hag]
    unfold resolve at hw ⊢
    by_cases hoc : op.nres = 0
    · rw [if_pos hoc] at hc
      have h := ROp.toOpM_none (disc := disc) (par := par) (vecs := vecs) (e := e) (mem := mem) hoc
      rw [h] at hw ⊢
      simp only at hw ⊢
      rw [ROp.memM_env hag, sweep0_ok disc par vecs count ops _ _ U _ _ _ e hU hw hc.2 he]
      congr 1
      have hch : op.change par (fun v => t v 0) = op.change par
          (evalOps (resolve disc par vecs ops nv e (op.memM par vecs e mem)).1 nv e) := by
        refine ROp.change_env fun a ha => ?_
        rw [evalOps_lt _ _ _ _ (hU a (hc.1 a (List.mem_append_left _ ha)))]
        exact hag a ha
      rw [cmpList, hch]
      cases hoc' : op.isCmp with
      | true => simp [countList]
      | false =>
        rw [ROp.change_not hoc']
        simp [countList, CmpCount.add]
    · rw [if_neg hoc] at hc
      obtain ⟨o, h, hn⟩ := ROp.toOpM_some (disc := disc) (par := par) (vecs := vecs) (e := e) (mem := mem) hoc
      have hoc' : op.isCmp = false := by
        cases hh : op.isCmp with
        | true => exact absurd (ROp.isCmp_nres hh) hoc
        | false => rfl
      rw [h] at hw ⊢
      simp only [cmpList, hoc', Bool.false_eq_true, if_false] at hw ⊢
      rw [evalOps, forward0]
      refine sweep0_ok disc par vecs count ops _ _ (addRes o nv U) _ _ _ _ (U_insert o hU) hw.2
        (by rw [ROp.addRes_eq h, hn]; exact hc.2) ?_
      exact step0_agree hU hw.1 he

theorem sweepAny0_ok (disc : ℕ → ℝ → ℝ) (par : ℕ → ℝ) (vecs : List (List ℕ)) (q : ℕ) : ∀ (ops : List ROp) (nv : ℕ) (U : Set ℕ) (t : Tay)
    (mem : Mem) (e : ℕ → ℝ), (∀ a ∈ U, a < nv) → WFOps (resolve disc par vecs ops nv e mem).1 nv U → CmpWF ops nv U →
    (∀ v ∈ U, t v 0 = e v) →
    sweepAny0 disc par vecs q ops nv t mem = forwardAny 0 q (resolve disc par vecs ops nv e mem).1 nv t
  | [], _, _, _, _, _, _, _, _, _ => rfl
  | op :: ops, nv, U, t, mem, e, hU, hw, hc, he => by
    rw [sweepAny0]
    unfold CmpWF at hc
    have hag : ∀ a ∈ op.cmpVars, (fun v => t v 0) a = e a := fun a ha => he a (hc.1 a (List.mem_append_left _ ha))
    rw [ROp.toOpM_env hag]
    unfold resolve at hw ⊢
    by_cases hoc : op.nres = 0
    · rw [if_pos hoc] at hc
      have h := ROp.toOpM_none (disc := disc) (par := par) (vecs := vecs) (e := e) (mem := mem) hoc
      rw [h] at hw ⊢
      simp only at hw ⊢
      rw [ROp.memM_env hag, sweepAny0_ok disc par vecs q ops _ U _ _ e hU hw hc.2 he]
    · rw [if_neg hoc] at hc
      obtain ⟨o, h, hn⟩ := ROp.toOpM_some (disc := disc) (par := par) (vecs := vecs) (e := e) (mem := mem) hoc
      rw [h] at hw ⊢
      simp only at hw ⊢
      rw [forwardAny]
      have ha : ∀ a ∈ o.args, a < nv := fun a h => hU a (hw.1 a h)
      refine sweepAny0_ok disc par vecs q ops _ (addRes o nv U) _ _ _ (U_insert o hU) hw.2
        (by rw [ROp.addRes_eq h, hn]; exact hc.2) ?_
      intro v hv
      rw [o.fwd_zero nv q t ha v (U_insert o hU v hv)]
      exact step0_agree hU hw.1 he v hv

/-- what is printed by the zero order sweep and by the sweep that computes orders `0` to `q` -/
theorem sweepPri_ok (disc : ℕ → ℝ → ℝ) (par : ℕ → ℝ) (vecs : List (List ℕ)) (text : List Char) (q : ℕ) : ∀ (ops : List ROp) (nv : ℕ)
    (U : Set ℕ) (t : Tay) (mem : Mem) (e : ℕ → ℝ), (∀ a ∈ U, a < nv) → WFOps (resolve disc par vecs ops nv e mem).1 nv U → CmpWF ops nv U →
    (∀ v ∈ U, t v 0 = e v) →
    sweepPri disc par vecs text q ops nv t mem = priList text par (evalOps (resolve disc par vecs ops nv e mem).1 nv e) ops
  | [], _, _, _, _, _, _, _, _, _ => rfl
  | op :: ops, nv, U, t, mem, e, hU, hw, hc, he => by
    rw [sweepPri]
    unfold CmpWF at hc
    have hag : ∀ a ∈ op.cmpVars, (fun v => t v 0) a = e a := fun a ha => he a (hc.1 a (List.mem_append_left _ ha))
    rw [ROp.toOpM_env hag]
    unfold resolve at hw ⊢
    by_cases hoc : op.nres = 0
    · rw [if_pos hoc] at hc
      have h := ROp.toOpM_none (disc := disc) (par := par) (vecs := vecs) (e := e) (mem := mem) hoc
      rw [h] at hw ⊢
      simp only at hw ⊢
      rw [ROp.memM_env hag, sweepPri_ok disc par vecs text q ops _ U _ _ e hU hw hc.2 he]
      unfold priList
      rw [List.flatMap_cons]
      congr 1
      refine ROp.print_congr (fun _ _ => rfl) (fun _ _ => rfl) fun a ha => ?_
      rw [evalOps_lt _ _ _ _ (hU a (hc.1 a (List.mem_append_left _ ha)))]
      exact hag a ha
    · rw [if_neg hoc] at hc
      obtain ⟨o, h, hn⟩ := ROp.toOpM_some (disc := disc) (par := par) (vecs := vecs) (e := e) (mem := mem) hoc
      rw [h] at hw ⊢
      simp only at hw ⊢
      have ha : ∀ a ∈ o.args, a < nv := fun a h => hU a (hw.1 a h)
      rw [sweepPri_ok disc par vecs text q ops _ (addRes o nv U) _ _ (stepEnv o nv e) (U_insert o hU) hw.2
        (by rw [ROp.addRes_eq h, hn]; exact hc.2) ?_]
      · unfold priList
        rw [List.flatMap_cons, ROp.print_nil (ROp.txtArgs_of_nres hoc), List.nil_append, evalOps]
      · intro v hv
        split_ifs
        · exact step0_agree hU hw.1 he v hv
        · rw [o.fwd_zero nv q t ha v (U_insert o hU v hv)]
          exact step0_agree hU hw.1 he v hv

/-- the operations found for a load are those of load_op.hpp: the higher orders and reverse mode of a load -/
theorem loadForward_ok (par : ℕ → ℝ) (vecs : List (List ℕ)) (mem : Mem) (k : ℕ) (x : ℝ) (p q iz : ℕ) (hp : 0 < p) (s : Tay)
    (hm : ∀ i v, mem k i = .var v → 0 < v) :
    (vecLoad par vecs mem k x).fwd p q iz s = loadForward (loadVar (vecLoad par vecs mem k x)) p q iz s := by
  have hpar : ∀ c, (Op.par c).fwd p q iz s = loadForward (loadVar (.par c)) p q iz s := by
    intro c
    simp [Op.fwd, parForward, loadForward, loadVar, show p ≠ 0 by omega]
  unfold vecLoad
  split
  · split
    · exact hpar _
    · rename_i i _ v h
      have := hm _ v h
      simp [Op.fwd, addpvForward, loadForward, loadVar, show p ≠ 0 by omega, this]
  · exact hpar _

theorem loadReverse_ok (par : ℕ → ℝ) (vecs : List (List ℕ)) (mem : Mem) (k : ℕ) (x : ℝ) (d iz : ℕ) (s Q : Tay)
    (hm : ∀ i v, mem k i = .var v → 0 < v) :
    (vecLoad par vecs mem k x).rev d iz s Q = loadReverse (loadVar (vecLoad par vecs mem k x)) d iz Q := by
  have hpar : ∀ c, (Op.par c).rev d iz s Q = loadReverse (loadVar (.par c)) d iz Q := by
    intro c
    simp [Op.rev, parReverse, loadReverse, loadVar]
  unfold vecLoad
  split
  · split
    · exact hpar _
    · rename_i i _ v h
      have := hm _ v h
      simp [Op.rev, addpvReverse, loadReverse, loadVar, this]
  · exact hpar _

end CppAD.Record
