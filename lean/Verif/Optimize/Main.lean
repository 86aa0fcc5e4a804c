import Verif.Optimize.Preserve

/-! # The optimized recording computes the same function -/

open scoped Classical

namespace CppAD.Optim

open CppAD CppAD.Record

/-- vectors that are used have different new positions -/
theorem newVec_lt {f : ℕ → Bool} {u v : ℕ} (hu : f u = true) (h : u < v) : newVec f u < newVec f v := by
  unfold newVec
  obtain ⟨d, rfl⟩ := Nat.exists_eq_add_of_le (show u + 1 ≤ v from h)
  rw [List.range_add, List.filter_append, List.range_succ, List.filter_append]
  simp [hu]

theorem newVec_inj {f : ℕ → Bool} {u v : ℕ} (hu : f u = true) (hv : f v = true) (h : newVec f u = newVec f v) : u = v := by
  rcases lt_trichotomy u v with hl | hl | hl
  · have := newVec_lt hu hl; omega
  · exact hl
  · have := newVec_lt hv hl; omega

theorem newVec_getD {α : Type} (f : ℕ → Bool) (g : ℕ → α) (d : α) {n u : ℕ} (hu : f u = true) :
    (((List.range n).filter f).map g).getD (newVec f u) d = if u < n then g u else d := by
  split_ifs with h
  · obtain ⟨e, rfl⟩ := Nat.exists_eq_add_of_le (show u + 1 ≤ n from h)
    rw [List.range_add, List.filter_append, List.range_succ, List.filter_append, List.map_append, List.map_append]
    simp only [List.filter_cons, hu, if_true, List.filter_nil, List.map_cons, List.map_nil]
    rw [List.append_assoc]
    simp only [newVec, List.getD_eq_getElem?_getD]
    rw [List.getElem?_append_right (by simp)]
    simp
  · rw [List.getD_eq_default]
    rw [List.length_map]
    unfold newVec
    obtain ⟨e, rfl⟩ := Nat.exists_eq_add_of_le (show n ≤ u by omega)
    rw [List.range_add, List.filter_append, List.length_append]
    omega

theorem store_cases {op : VOp} {v : ℕ} (h : op.vec = some v) (hr : op.hasRes = false) (hs : op.storesPar = false) :
    (∃ p u, op = .stpv v p u) ∨ ∃ y u, op = .stvv v y u := by
  cases op <;> simp_all [VOp.vec, VOp.hasRes, VOp.storesPar]

namespace Ctx

variable {c : Ctx}

/-- before the sweep -/
theorem inv_zero (w : c.T.WF) : c.Inv 0 (c.S (c.L 0)) := by
  have hS : c.S (c.L 0) = c.T'.start c.x c.junk' := by
    rw [show c.L 0 = 0 from L_zero]; exact swAt_zero
  rw [hS]
  refine ⟨fun j _ h => absurd h (Nat.not_lt_zero _), fun _ p hp => by simp [OTape.start] at hp, fun _ v hv k => ?_⟩
  have href : c.ref 0 = c.T.start c.x c.junk := refAt_zero
  rw [href]
  have hvu : c.Q.use.vused v = true := by rw [(Qinv w).vused]; exact hv
  have hvec : c.T'.vecs.getD (newVec c.Q.use.vused v) [] = (c.T.vecs.getD v []).map c.np := by
    refine (newVec_getD c.Q.use.vused (fun w => (c.T.vecs.getD w []).map c.np) [] hvu).trans ?_
    split_ifs with hl
    · rfl
    · rw [List.getD_eq_default (l := c.T.vecs) (n := v) (d := []) (by omega)]; rfl
  left
  simp only [OTape.start]
  refine ⟨(c.T.vecs.getD v []).getD k 0, ?_, ?_, rfl, ?_⟩
  · by_cases hk : k < (c.T.vecs.getD v []).length
    · by_cases hl : v < c.T.vecs.length
      · refine w.vecs (c.T.vecs.getD v []) ?_ _ ?_
        · rw [List.getD_eq_getElem _ _ hl]; exact List.getElem_mem _
        · rw [List.getD_eq_getElem _ _ hk]; exact List.getElem_mem _
      · rw [List.getD_eq_default (l := c.T.vecs) (n := v) (d := []) (by omega)] at hk
        simp at hk
    · rw [List.getD_eq_default _ _ (by omega)]; exact w.par0.1
  · by_cases hk : k < (c.T.vecs.getD v []).length
    · by_cases hl : v < c.T.vecs.length
      · refine parUsage_ops _ _ _ (Or.inr (Or.inl ⟨v, hl, hvu, ?_⟩))
        rw [List.getD_eq_getElem _ _ hk]; exact List.getElem_mem _
      · rw [List.getD_eq_default (l := c.T.vecs) (n := v) (d := []) (by omega)] at hk
        simp at hk
    · rw [List.getD_eq_default _ _ (by omega)]; exact parUsage_ops _ _ _ (Or.inl (Nat.zero_le _))
  · rw [hvec]
    congr 1
    by_cases hk : k < (c.T.vecs.getD v []).length
    · rw [List.getD_eq_getElem _ _ (by simpa using hk), List.getD_eq_getElem _ _ hk, List.getElem_map]
    · rw [List.getD_eq_default _ _ (by simpa using hk), List.getD_eq_default _ _ (by omega)]
      exact (newPars_ok (disc := c.disc) (ind := c.ind) w c.h.real c.h.dyn _ _).zero.symm

/-- is a live, kept operator executed? -/
theorem not_skipped (w : c.T.WF) {i : ℕ} (hi : i < c.T.ops.length) {s : FSt} (I : c.Inv i s) (hu : c.u i = .yes) (hp : c.Q.prev i = 0)
    (hl : c.Live i) {q : ℕ} (hq : c.no i = q) : (c.b && s.skip q) = false := by
  by_contra hc
  rw [Bool.not_eq_false, Bool.and_eq_true] at hc
  obtain ⟨j, hj, ju, jp, jn, jl⟩ := I.skip hc.1 q hc.2
  have := no_inj w hi hj ju jp hu hp (jn.trans hq.symm)
  rw [this] at jl
  exact jl hl

/-- is a live operator that is copied executed? -/
theorem not_skipped_home (w : c.T.WF) (hb : c.b = false ∨ SkipOk c.o c.T) {i : ℕ} (hi : i < c.T.ops.length) {s : FSt} (I : c.Inv i s)
    (hu : c.u i = .yes) (hp : c.Q.prev i = 0) (hl : c.Live i) {q : ℕ} (hq : c.no i = q) : (c.b && s.skip ((c.new i).home q)) = false := by
  by_cases hr : (c.T.op i).isRes = true
  · obtain ⟨A, args, g, r, hop⟩ : ∃ A args g r, c.T.op i = .frv A args g r := by
      cases hop : c.T.op i <;> simp_all [VOp.isRes]
      have := use_skip (o := c.o) w hi (Or.inr (Or.inr (by rw [hop]; rfl)))
      unfold u at hu
      rw [this] at hu; cases hu
    obtain ⟨m, hog, hir, hrm⟩ := w.call i hi A args g r hop
    have hgi : g < i := by omega
    have hg : g < c.T.ops.length := by omega
    have hug : c.u g = .yes := args_yes (h := c.h) (o := c.o) w hi (by change c.u i ≠ .no; rw [hu]; simp)
      (by rw [top_eq w, hop]; rfl) g (by rw [hop]; simp [VOp.need])
    have hpg : c.Q.prev g = 0 := prev_zero w (by rw [hog]; rfl)
    have hlg : c.Live g := by
      have := live_plain w hb hi (by rw [hu]; simp) hp hl g (by rw [hop]; simp [VOp.plain, VOp.need])
      simpa [PrevSt.pi, hpg] using this
    have hng : c.no g = c.nv g := by
      obtain ⟨a, b, S⟩ := spec_of c g
      cases step_cases w hg S with
      | none h => exact absurd hug h
      | prev _ h => exact absurd hpg h
      | put _ _ _ _ _ _ _ hno hnv => rw [hno, hnv (by rw [hog]; rfl)]
      | csum _ _ _ _ hno hnv => rw [hno, hnv]
    have hhome : (c.new i).home q = c.nv g := by
      unfold new
      rw [hop]
      simp only [VOp.emit, VOp.home]
      exact varsAt_eq hgi
    rw [hhome]
    by_contra hc
    rw [Bool.not_eq_false, Bool.and_eq_true] at hc
    obtain ⟨j, hj, ju, jp, jn, jl⟩ := I.skip hc.1 _ hc.2
    have := no_inj w hg hj ju jp hug hpg (jn.trans hng.symm)
    rw [this] at jl
    exact jl hlg
  · have hhome : (c.new i).home q = q := by
      unfold new
      cases hop : c.T.op i <;> simp_all [VOp.isRes, VOp.emit, VOp.map, VOp.home]
    rw [hhome]
    exact not_skipped w hi I hu hp hl hq

set_option maxHeartbeats 1000000 in
/-- one operator -/
theorem inv_succ (w : c.T.WF) (hb : c.b = false ∨ SkipOk c.o c.T) {i : ℕ} (hi : i < c.T.ops.length) (I : c.Inv i (c.S (c.L i))) :
    c.Inv (i + 1) (c.S (c.L (i + 1))) := by
  obtain ⟨a, b, S⟩ := spec_of c i
  have I := inv_skip w hb hi I S
  have hL := L_succ S
  have hLn : c.L (i + 1) ≤ c.T'.ops.length := by rw [T'_len]; exact L_le (show i + 1 ≤ c.T.ops.length from hi)
  set q := c.L i + a.length with hq
  have old : ∀ s' : FSt, (∀ j < c.L i, s'.val j = (c.S q).val j) → ∀ j, 1 ≤ j → j < i → c.u j = .yes → (c.T.op j).hasRes = true → c.Live (c.Q.pi j) →
      c.nv j < c.L (i + 1) ∧ s'.val (c.nv j) = c.E j := by
    intro s' hs' j h1 h2 h3 h4 h5
    obtain ⟨e1, e2⟩ := I.val j h1 h2 h3 h4 h5
    exact ⟨by omega, by rw [hs' _ e1, e2]⟩
  cases step_cases w hi S with
  | none hu hbn =>
    have hkeep : ∀ s' : FSt, s'.val = (c.S q).val → s'.skip = (c.S q).skip → s'.mem = (c.S q).mem → c.Inv (i + 1) s' := by
      intro s' h1 h2 h3
      refine ⟨fun j j1 j2 j3 j4 j5 => ?_, fun hbt p hp => I.skip hbt p (by rw [← h2]; exact hp), ?_⟩
      · have : j ≠ i := fun h => hu (by rw [← h]; exact j3)
        exact old s' (fun k _ => by rw [h1]) j j1 (by omega) j3 j4 j5
      · refine mem_next hi I (fun v hv hr => ?_) h3
        by_contra hc
        have hc : (c.T.useFrom c.o (i + 1)).vused v = true := by simpa using hc
        refine hu (use_store w hi (w := v) ?_ hc)
        have := w.stores i hi
        cases hop : c.T.op i <;> simp_all [VOp.vec, VOp.hasRes, VOp.storesPar]
    rcases hbn with hbn | ⟨g, p, hbn⟩
    · have hLq : c.L (i + 1) = q := by rw [hL, hbn]; rfl
      rw [hLq]
      exact hkeep _ rfl rfl rfl
    · have hLq : c.L (i + 1) = q + 1 := by rw [hL, hbn]; rfl
      rw [hLq]
      have hop : c.T'.ops[q]? = some (.frp g p) := by
        refine optimize_op (show i + 1 ≤ c.T.ops.length from hi) ?_ (by simp [ph])
        rw [S.ops, hbn]
        refine (List.getElem?_append_right (by simp [hq, L, OTape.L])).trans ?_
        simp [hq, L, OTape.L]
      have e : c.S (q + 1) = if c.b && (c.S q).skip (VOp.home q (.frp g p)) then c.S q else VOp.step c.disc c.V' q (.frp g p) (c.S q) :=
        swAt_succ hop
      rw [e]
      split_ifs
      · exact hkeep _ rfl rfl rfl
      · exact hkeep _ rfl rfl rfl
  | prev hu hp hbn hnv =>
    have hLq : c.L (i + 1) = q := by rw [hL, hbn]; rfl
    rw [hLq]
    obtain ⟨p1, p2, p3, p4, p5, p6, p7⟩ := (Qinv w).prev i hp
    refine ⟨fun j h1 h2 h3 h4 h5 => ?_, I.skip, ?_⟩
    · by_cases hj : j = i
      · subst hj
        have hpi : c.Q.pi j = c.Q.prev j := by simp [PrevSt.pi, hp]
        have hpp : c.Q.pi (c.Q.prev j) = c.Q.prev j := by simp [PrevSt.pi, p4]
        obtain ⟨e1, e2⟩ := I.val (c.Q.prev j) (by omega) p1 p3 (by rw [p7.hasRes]; exact h4) (by rw [hpp, ← hpi]; exact h5)
        have hE : c.E (c.Q.pi j) = c.E j := pi_val w (Qinv w) (le_refl _) j h4
        rw [hnv]
        exact ⟨by omega, by rw [e2, ← hE, hpi]⟩
      · exact old (c.S q) (fun _ _ => rfl) j h1 (by omega) h3 h4 h5
    · refine mem_next hi I (fun v hv hr => ?_) rfl
      rw [matchable_vec p5] at hv; cases hv
  | put hu hp ht hc hs hf hbn hno hnv =>
    have hLq : c.L (i + 1) = q + 1 := by rw [hL, hbn]; rfl
    rw [hLq]
    have hqn : q < c.T'.ops.length := by omega
    have hop : c.T'.ops[q]? = some (c.new i) := by
      refine optimize_op (show i + 1 ≤ c.T.ops.length from hi) ?_ (emit_ne_ph hs)
      rw [S.ops, hbn]
      refine (List.getElem?_append_right (by simp [hq, L, OTape.L])).trans ?_
      simp [hq, L, OTape.L]
    have e : c.S (q + 1) = if c.b && (c.S q).skip ((c.new i).home q) then c.S q else
        (c.new i).step c.disc c.V' q (c.S q) :=
      swAt_succ hop
    have hpi : c.Q.pi i = i := by simp [PrevSt.pi, hp]
    refine ⟨fun j h1 h2 h3 h4 h5 => ?_, fun hbt p hpp => I.skip hbt p ?_, ?_⟩
    · by_cases hj : j = i
      · subst hj
        rw [hnv h4]
        refine ⟨by omega, ?_⟩
        rw [hpi] at h5
        rw [e, not_skipped_home w hb hi I hu hp h5 hno]
        simp only [Bool.false_eq_true, if_false]
        by_cases hn : (c.T.op j).isInd = true
        · rw [step_val _ _ _ _ _ (Or.inr (Or.inr (show (c.new j).isInd = _ from (emit_isInd ..).trans hn)))]
          have hjn : j ≤ c.T.n := (w.ind j hi).1 hn
          have ha : a = [] := S.skipInd hn
          have hqj : q = j := by rw [hq, ha, L_ind w j (by omega)]; rfl
          have h1' : (c.S q).val q = (c.T'.start c.x c.junk').val q := swAt_val_start (le_refl _) (by omega)
          have hE : c.E j = (c.T.start c.x c.junk).val j := finalVal_ind hi hn
          rw [h1', hE, hqj]
          have hn' : c.T'.n = c.T.n := rfl
          simp only [OTape.start, hn']
          rw [if_pos ⟨h1, hjn⟩, if_pos ⟨h1, hjn⟩]
        · have hn : (c.T.op j).isInd = false := by simpa using hn
          rw [step_set_val (show (c.new j).hasRes = _ from (emit_hasRes ..).trans h4) (show (c.new j).isInd = _ from (emit_isInd ..).trans hn)]
          exact put_val w hb hi I hu hp ht hc hs h5 h4 hn
      · exact old (c.S (q + 1)) (fun k hk => val_keep hqn (by omega)) j h1 (by omega) h3 h4 h5
    · rw [e] at hpp
      split_ifs at hpp
      · exact hpp
      · rw [step_skip] at hpp
        · exact hpp
        · exact (emit_isCskip ..).trans hs
    · by_cases hst : (c.T.op i).hasRes = true ∨ (c.T.op i).vec = none
      · refine mem_next hi I (fun v hv hr => ?_) ?_
        · rcases hst with h | h
          · rw [hr] at h; cases h
          · rw [hv] at h; cases h
        · rw [e]
          split_ifs
          · rfl
          · refine step_mem _ _ _ _ _ ?_
            rcases hst with h | h
            · left; exact (emit_hasRes ..).trans h
            · right; exact emit_vec _ _ _ _ _ _ h
      · push Not at hst
        have hr : (c.T.op i).hasRes = false := by simpa using hst.1
        obtain ⟨v0, hv0⟩ := Option.ne_none_iff_exists'.1 hst.2
        have hstore := w.stores i hi
        have hat : (c.T.op i).isAtom = false := by cases hop : c.T.op i <;> simp_all [VOp.vec, VOp.isAtom]
        have hall := live_vec w hb hi hv0
        have hused := use_store_iff (o := c.o) w hi hv0 hr (by change c.u i ≠ .no; rw [hu]; simp)
        intro _ v hv k
        rw [e, not_skipped_home w hb hi I hu hp (hall i) hno]
        simp only [Bool.false_eq_true, if_false]
        have hyes := args_yes (h := c.h) (o := c.o) w hi (by change c.u i ≠ .no; rw [hu]; simp) ht
        rw [need_eq hat] at hyes
        have hpk := pars_used (h := c.h) (o := c.o) w hi hu ht hc hs hat
        have hnew : c.new i = (c.T.op i).map c.np ((c.T.newOps c.h c.o c.order i).varsAt (c.T.plan c.h c.o).1 i) (newVec c.Q.use.vused) := emit_eq hat
        rw [hnew]
        have hpars := w.pars i hi
        have hvars := w.vars i hi
        have hvu : ∀ v, (c.T.useFrom c.o (i + 1)).vused v = true → c.Q.use.vused v = true := fun v hv => by
          rw [(Qinv w).vused]; exact useFrom_vused (Nat.zero_le _) hv
        have hvi : v ≠ v0 → newVec c.Q.use.vused v ≠ newVec c.Q.use.vused v0 := fun hne he =>
          hne (newVec_inj (hvu v hv) (hvu v0 hused) he)
        have hI := (I.mem hall v (useFrom_vused (Nat.le_succ i) hv) k).mono (Nat.le_succ i)
        have gv : ∀ z ∈ (c.T.op i).vars, (c.T.newOps c.h c.o c.order i).varsAt (c.T.plan c.h c.o).1 i z = c.nv z ∧
            (c.S q).val (c.nv z) = (c.ref i).val z ∧ c.Rel (i + 1) (.var z) (.var (c.nv z)) := fun z hz =>
          ⟨varsAt_eq (hvars z hz).2.1, by
            rw [E_eq (hvars z hz).2.1 hi.le]
            exact (I.val z (hvars z hz).1 (hvars z hz).2.1 (hyes z hz) (hvars z hz).2.2 (hall _)).2,
            Or.inr ⟨z, (hvars z hz).1, by have := (hvars z hz).2.1; omega, hyes z hz, (hvars z hz).2.2, rfl, rfl⟩⟩
        have gp : ∀ p ∈ (c.T.op i).pars, c.V' (c.np p) = c.V p := fun p hp => par_val w (hpars p hp) (hpk p hp)
        rw [ref_succ hi]
        rcases store_cases hv0 hr hstore with ⟨p, u, hopi⟩ | ⟨y, u, hopi⟩
        · rw [hopi] at gv gp ⊢
          obtain ⟨g1, g2, g3⟩ := gv u (by simp [VOp.vars])
          have g4 := gp p (by simp [VOp.pars])
          simp only [VOp.step, VOp.map, FSt.store, g1, g4]
          by_cases hz : v = v0
          · subst hz
            rw [Function.update_self, Function.update_self]
            by_cases hk : k = ⌊c.V p⌋₊
            · subst hk; rw [Function.update_self, Function.update_self]; exact g3
            · rw [Function.update_of_ne hk, Function.update_of_ne hk]; exact hI
          · rw [Function.update_of_ne hz, Function.update_of_ne (hvi hz)]; exact hI
        · rw [hopi] at gv gp ⊢
          obtain ⟨g1, g2, g3⟩ := gv u (by simp [VOp.vars])
          obtain ⟨f1, f2, f3⟩ := gv y (by simp [VOp.vars])
          simp only [VOp.step, VOp.map, FSt.store, g1, f1, f2]
          by_cases hz : v = v0
          · subst hz
            rw [Function.update_self, Function.update_self]
            by_cases hk : k = ⌊(c.ref i).val y⌋₊
            · subst hk; rw [Function.update_self, Function.update_self]; exact g3
            · rw [Function.update_of_ne hk, Function.update_of_ne hk]; exact hI
          · rw [Function.update_of_ne hz, Function.update_of_ne (hvi hz)]; exact hI
  | csum hu hp ht hbn hno hnv =>
    have hLq : c.L (i + 1) = q + 1 := by rw [hL, hbn]; rfl
    rw [hLq]
    have hqn : q < c.T'.ops.length := by omega
    have hop : c.T'.ops[q]? = some (csumFor c.h.real (c.T.plan c.h c.o).1 i (c.T.newOps c.h c.o c.order i)) := by
      refine optimize_op (show i + 1 ≤ c.T.ops.length from hi) ?_ (by simp [csumFor, ph])
      rw [S.ops, hbn]
      refine (List.getElem?_append_right (by simp [hq, L, OTape.L])).trans ?_
      simp [hq, L, OTape.L]
    have e : c.S (q + 1) = if c.b && (c.S q).skip q then c.S q else
        (csumFor c.h.real (c.T.plan c.h c.o).1 i (c.T.newOps c.h c.o c.order i)).step c.disc c.V' q (c.S q) := swAt_succ hop
    have hpi : c.Q.pi i = i := by simp [PrevSt.pi, hp]
    have hsum : (c.T.op i).addOrSub = true ∨ (c.T.op i).isCsum = true := ht.imp top_addOrSub id
    refine ⟨fun j h1 h2 h3 h4 h5 => ?_, fun hbt p hpp => I.skip hbt p ?_, ?_⟩
    · by_cases hj : j = i
      · subst hj
        rw [hnv]
        refine ⟨by omega, ?_⟩
        rw [hpi] at h5
        rw [e, not_skipped w hi I hu hp h5 hno]
        simp only [Bool.false_eq_true, if_false]
        rw [step_set_val rfl rfl]
        exact csum_val w hb hi I hu ht h5 S
      · exact old (c.S (q + 1)) (fun k hk => val_keep hqn (by omega)) j h1 (by omega) h3 h4 h5
    · rw [e] at hpp
      split_ifs at hpp
      · exact hpp
      · rw [step_skip rfl] at hpp
        exact hpp
    · refine mem_next hi I (fun v hv hr => ?_) ?_
      · rw [(sum_res hsum).1] at hr; cases hr
      · rw [e]
        split_ifs
        · rfl
        · exact step_mem _ _ _ _ _ (Or.inl rfl)

/-- after the sweep -/
theorem inv_all (w : c.T.WF) (hb : c.b = false ∨ SkipOk c.o c.T) : ∀ i ≤ c.T.ops.length, c.Inv i (c.S (c.L i)) := by
  intro i
  induction i with
  | zero => intro _; exact inv_zero w
  | succ n ih => intro hn; exact inv_succ w hb hn (ih (by omega))

/-- the dependent variables -/
theorem eval_eq (w : c.T.WF) (hb : c.b = false ∨ SkipOk c.o c.T) :
    c.T'.eval c.disc c.b c.ind c.x c.junk' = c.T.eval c.disc false c.ind c.x c.junk := by
  have I := inv_all w hb c.T.ops.length (le_refl _)
  have hS : c.S (c.L c.T.ops.length) = sweepOps c.disc c.V' c.b c.T'.ops 0 (c.T'.start c.x c.junk') := by
    unfold S swAt; rw [← T'_len, List.take_length]
  rw [hS] at I
  unfold OTape.eval
  change (c.T.dep.map _).map _ = c.T.dep.map _
  rw [List.map_map]
  refine List.map_congr_left fun d hd => ?_
  obtain ⟨d1, d2, d3⟩ := w.dep d hd
  refine Eq.trans ?_ (I.val d d1 d2 (use_dep hd) d3 (Or.inr fun k hk => ?_)).2
  · simp only [Function.comp]
    rw [newVar_final d2]; rfl
  · have := (Qinv w).pi_sub d hk
    rw [cset_dep hd] at this
    simp at this

end Ctx

end CppAD.Optim
