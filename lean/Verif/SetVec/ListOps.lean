import Verif.SetVec.ListInv

/-! # The primitive steps on the heap -/

namespace CppAD.SetVec.LV

variable {s : LV} {start : ℕ → ℕ} {X : List ℕ} {own : ℕ → Own} {V PV : ℕ → List ℕ}

/-- the posts of set `i` become free cells -/
theorem Inv.free_post (h : Inv s start X own V PV) {i : ℕ} (hi : i < s.nSet) {a : ℕ} {l : List ℕ}
    (hc : Chain s.nxt (s.post i) (a :: l)) (hnd : (a :: l).Nodup)
    (hmem : ∀ c, c ∈ a :: l ↔ own c = .post i) :
    Inv { (s.setPost i 0).release a ((a :: l).getLast (by simp)) with
          numNotUsed := s.numNotUsed + (a :: l).length } start X
      (fun c => if own c = .post i then .free else own c) V (Function.update PV i []) := by
  set z := (a :: l).getLast (by simp) with hz
  have hzo : own z = .post i := (hmem z).mp (List.getLast_mem _)
  have hnx : ∀ c, own c ≠ .post i → Function.update s.nxt z s.dataNotUsed c = s.nxt c := by
    intro c hc
    exact Function.update_of_ne (by rintro rfl; exact hc hzo) _ _
  have hc' : Chain s.nxt a (a :: l) := by
    have h1 : s.post i = a := hc.1
    rwa [h1] at hc
  refine ⟨?_, ?_, ?_, ?_, ?_, ?_, ?_, ?_⟩
  · intro h0
    obtain ⟨z1, z2, z3⟩ := h.zero h0
    refine ⟨z1, ?_, z3⟩
    show Function.update s.nxt z s.dataNotUsed 0 = 0
    rw [hnx 0 (by rw [h.own_zero]; simp), z2]
  · intro c
    have := h.no c
    by_cases hco : own c = .post i
    · rw [if_pos hco]; rw [hco] at this
      exact ⟨fun e => (by cases e), fun e => absurd (this.mpr e) (by simp)⟩
    · rw [if_neg hco]; exact this
  · obtain ⟨F, f1, f2, f3, f4⟩ := h.free_chain hc' hnd (o := .post i) (by simp) hmem
    exact ⟨F, f1, f2, f3, f4⟩
  · intro j hj
    by_cases hji : j = i
    · subst hji
      refine ⟨[], ?_, List.nodup_nil, ?_, by simp⟩
      · show Function.update s.post j 0 j = 0
        simp
      · intro c
        by_cases hco : own c = .post j
        · simp [hco]
        · simp [hco]
    · obtain ⟨L, l1, l2, l3, l4⟩ := h.post j hj
      refine ⟨L, ?_, l2, ?_, ?_⟩
      · show Chain (Function.update s.nxt z s.dataNotUsed) (Function.update s.post i 0 j) L
        rw [Function.update_of_ne hji]
        exact l1.frame (fun c hcL => hnx c (by rw [(l3 c).mp hcL]; simp [hji]))
      · intro c
        rw [l3 c]
        by_cases hco : own c = .post i
        · rw [if_pos hco, hco]
          constructor
          · intro e; injection e with e; exact absurd e.symm hji
          · intro e; cases e
        · rw [if_neg hco]
      · rw [Function.update_of_ne hji]; exact l4
  · intro st hst
    obtain ⟨L, l1, l2, l3, l4, l5⟩ := h.blk st hst
    refine ⟨L, ?_, l2, ?_, l4, l5⟩
    · show Chain (Function.update s.nxt z s.dataNotUsed) (Function.update s.nxt z s.dataNotUsed st) L
      rw [hnx st (by rw [h.blk_own hst]; simp)]
      exact l1.frame (fun c hcL => hnx c (by rw [(l3 c).mp (by simp [hcL])]; simp))
    · intro c
      rw [l3 c]
      by_cases hco : own c = .post i
      · rw [if_pos hco, hco]
        exact ⟨fun e => (by cases e), fun e => (by cases e)⟩
      · rw [if_neg hco]
  · exact h.ref
  · intro c j hcj
    by_cases hco : own c = .post i
    · rw [if_pos hco] at hcj; cases hcj
    · rw [if_neg hco] at hcj; exact h.ownPost c j hcj
  · intro c st hcj
    by_cases hco : own c = .post i
    · rw [if_pos hco] at hcj; cases hcj
    · rw [if_neg hco] at hcj; exact h.ownBlk c st hcj

/-- the list with header `st` loses its last reference and becomes free -/
theorem Inv.free_blk (h : Inv s start X own V PV) {start' : ℕ → ℕ} {X' : List ℕ} {st : ℕ}
    (hst : Live s.nSet start X st)
    (hdead : refs s.nSet start' X' st = 0)
    (hother : ∀ k, k ≠ st → k ≠ 0 → refs s.nSet start' X' k = refs s.nSet start X k)
    {l : List ℕ} (hc : Chain s.nxt (s.nxt st) l) (hnd : (st :: l).Nodup)
    (hmem : ∀ c, c ∈ st :: l ↔ own c = .blk st) (v : ℕ) (f : ℕ → ℕ) :
    Inv { ((s.setVal st v).release st ((st :: l).getLast (by simp))) with
          start := f, numNotUsed := s.numNotUsed + (st :: l).length } start' X'
      (fun c => if own c = .blk st then .free else own c) V PV := by
  set z := (st :: l).getLast (by simp) with hz
  have hzo : own z = .blk st := (hmem z).mp (List.getLast_mem _)
  have hsto := h.blk_own hst
  have hnx : ∀ c, own c ≠ .blk st → Function.update s.nxt z s.dataNotUsed c = s.nxt c := by
    intro c hc
    exact Function.update_of_ne (by rintro rfl; exact hc hzo) _ _
  have hvx : ∀ c, own c ≠ .blk st → Function.update s.val st v c = s.val c := by
    intro c hc
    exact Function.update_of_ne (by rintro rfl; exact hc hsto) _ _
  have hlive : ∀ k, Live s.nSet start' X' k → k ≠ st ∧ Live s.nSet start X k := by
    intro k hk
    have hne : k ≠ st := by rintro rfl; have := hk.2; omega
    exact ⟨hne, hk.1, by rw [← hother k hne hk.1]; exact hk.2⟩
  have hc' : Chain s.nxt st (st :: l) := ⟨rfl, hst.1, hc⟩
  refine ⟨?_, ?_, ?_, ?_, ?_, ?_, ?_, ?_⟩
  · intro h0
    obtain ⟨z1, z2, z3⟩ := h.zero h0
    refine ⟨?_, ?_, z3⟩
    · show Function.update s.val st v 0 = s.last
      rw [hvx 0 (by rw [h.own_zero]; simp), z1]
    · show Function.update s.nxt z s.dataNotUsed 0 = 0
      rw [hnx 0 (by rw [h.own_zero]; simp), z2]
  · intro c
    have := h.no c
    by_cases hco : own c = .blk st
    · rw [if_pos hco]; rw [hco] at this
      exact ⟨fun e => (by cases e), fun e => absurd (this.mpr e) (by simp)⟩
    · rw [if_neg hco]; exact this
  · obtain ⟨F, f1, f2, f3, f4⟩ := h.free_chain hc' hnd (o := .blk st) (by simp) hmem
    exact ⟨F, f1, f2, f3, f4⟩
  · intro j hj
    obtain ⟨L, l1, l2, l3, l4⟩ := h.post j hj
    have hno : ∀ c ∈ L, own c ≠ .blk st := fun c hcL => by rw [(l3 c).mp hcL]; simp
    refine ⟨L, l1.frame (fun c hcL => hnx c (hno c hcL)), l2, ?_, ?_⟩
    · intro c
      rw [l3 c]
      by_cases hco : own c = .blk st
      · rw [if_pos hco, hco]
        exact ⟨fun e => (by cases e), fun e => (by cases e)⟩
      · rw [if_neg hco]
    · rw [← l4]; exact List.map_congr_left (fun c hcL => hvx c (hno c hcL))
  · intro k hk
    obtain ⟨hne, hk'⟩ := hlive k hk
    obtain ⟨L, l1, l2, l3, l4, l5⟩ := h.blk k hk'
    have hno : ∀ c ∈ k :: L, own c ≠ .blk st := fun c hcL => by
      rw [(l3 c).mp hcL]; simp [hne]
    refine ⟨L, ?_, l2, ?_, ?_, l5⟩
    · show Chain (Function.update s.nxt z s.dataNotUsed) (Function.update s.nxt z s.dataNotUsed k) L
      rw [hnx k (hno k (by simp))]
      exact l1.frame (fun c hcL => hnx c (hno c (by simp [hcL])))
    · intro c
      rw [l3 c]
      by_cases hco : own c = .blk st
      · rw [if_pos hco, hco]
        constructor
        · intro e; injection e with e; exact absurd e.symm hne
        · intro e; cases e
      · rw [if_neg hco]
    · rw [← l4]; exact List.map_congr_left (fun c hcL => hvx c (hno c (by simp [hcL])))
  · intro k hk
    obtain ⟨hne, hk'⟩ := hlive k hk
    show Function.update s.val st v k = refs s.nSet start' X' k
    rw [Function.update_of_ne hne, hother k hne hk.1]
    exact h.ref k hk'
  · intro c j hcj
    by_cases hco : own c = .blk st
    · rw [if_pos hco] at hcj; cases hcj
    · rw [if_neg hco] at hcj; exact h.ownPost c j hcj
  · intro c k hcj
    by_cases hco : own c = .blk st
    · rw [if_pos hco] at hcj; cases hcj
    · rw [if_neg hco] at hcj
      have hk := h.ownBlk c k hcj
      have hne : k ≠ st := by rintro rfl; exact hco hcj
      exact ⟨hk.1, (hother k hne hk.1).symm ▸ hk.2⟩

/-- change of the reference count of one list that stays in use -/
theorem Inv.recount (h : Inv s start X own V PV) {start' : ℕ → ℕ} {X' : List ℕ} {st : ℕ}
    (hst : Live s.nSet start X st) (hpos : 0 < refs s.nSet start' X' st)
    (hother : ∀ k, k ≠ st → k ≠ 0 → refs s.nSet start' X' k = refs s.nSet start X k) (f : ℕ → ℕ) :
    Inv { s.setVal st (refs s.nSet start' X' st) with start := f } start' X' own V PV := by
  have hsto := h.blk_own hst
  have hlive : ∀ k, Live s.nSet start' X' k → Live s.nSet start X k := by
    intro k hk
    by_cases hne : k = st
    · subst hne; exact hst
    · exact ⟨hk.1, by rw [← hother k hne hk.1]; exact hk.2⟩
  have hlive' : ∀ k, Live s.nSet start X k → Live s.nSet start' X' k := by
    intro k hk
    by_cases hne : k = st
    · subst hne; exact ⟨hk.1, hpos⟩
    · exact ⟨hk.1, by rw [hother k hne hk.1]; exact hk.2⟩
  have hst0 : st ≠ 0 := hst.1
  refine ⟨?_, h.no, h.free, ?_, ?_, ?_, h.ownPost, ?_⟩
  · intro h0
    obtain ⟨z1, z2, z3⟩ := h.zero h0
    exact ⟨(Function.update_of_ne hst0.symm _ _).trans z1, z2, z3⟩
  · intro j hj
    obtain ⟨L, l1, l2, l3, l4⟩ := h.post j hj
    refine ⟨L, l1, l2, l3, ?_⟩
    rw [← l4]
    refine List.map_congr_left (fun c hcL => Function.update_of_ne ?_ _ _)
    rintro rfl; have := (l3 _).mp hcL; rw [hsto] at this; cases this
  · intro k hk
    obtain ⟨L, l1, l2, l3, l4, l5⟩ := h.blk k (hlive k hk)
    refine ⟨L, l1, l2, l3, ?_, l5⟩
    rw [← l4]
    refine List.map_congr_left (fun c hcL => Function.update_of_ne ?_ _ _)
    rintro rfl
    have := (l3 c).mp (by simp [hcL])
    rw [hsto] at this
    injection this with this
    subst this
    exact (List.nodup_cons.mp l2).1 hcL
  · intro k hk
    show Function.update s.val st (refs s.nSet start' X' st) k = refs s.nSet start' X' k
    by_cases hne : k = st
    · subst hne; simp
    · rw [Function.update_of_ne hne, hother k hne hk.1]; exact h.ref k (hlive k hk)
  · intro c k hck
    exact hlive' k (h.ownBlk c k hck)

/-- references may be moved between `start` and `X` -/
theorem Inv.congr_refs (h : Inv s start X own V PV) {start' : ℕ → ℕ} {X' : List ℕ}
    (hr : ∀ k, k ≠ 0 → refs s.nSet start' X' k = refs s.nSet start X k) (f : ℕ → ℕ) :
    Inv { s with start := f } start' X' own V PV := by
  have hl : ∀ k, Live s.nSet start' X' k ↔ Live s.nSet start X k := by
    intro k; unfold Live
    by_cases hk : k = 0
    · simp [hk]
    · rw [hr k hk]
  exact ⟨h.zero, h.no, h.free, h.post, fun k hk => h.blk k ((hl k).mp hk),
    fun k hk => by rw [hr k hk.1]; exact h.ref k ((hl k).mp hk), h.ownPost,
    fun c k hc => (hl k).mpr (h.ownBlk c k hc)⟩

/-- a list built from cells that are not linked is put in use with one reference -/
theorem Inv.publish (h : Inv s start X own V PV) {st : ℕ} {l : List ℕ} (hst0 : st ≠ 0)
    (hval : s.val st = 1) (hc : Chain s.nxt (s.nxt st) l) (hnd : (st :: l).Nodup) (hl : l ≠ [])
    (hmem : ∀ c ∈ st :: l, own c = .tmp) :
    Inv s start (st :: X) (fun c => if c ∈ st :: l then .blk st else own c)
      (Function.update V st (l.map s.val)) PV := by
  have hsto : own st = .tmp := hmem st (by simp)
  have hdead : refs s.nSet start X st = 0 := by
    by_contra hne
    have := h.blk_own (st := st) ⟨hst0, Nat.pos_of_ne_zero hne⟩
    rw [hsto] at this; cases this
  have hr : ∀ k, k ≠ st → refs s.nSet start (st :: X) k = refs s.nSet start X k := by
    intro k hk; rw [refs_cons, if_neg (fun e => hk e.symm), Nat.add_zero]
  have hr' : refs s.nSet start (st :: X) st = 1 := by rw [refs_cons, hdead, if_pos rfl]
  refine ⟨h.zero, ?_, ?_, ?_, ?_, ?_, ?_, ?_⟩
  · intro c
    have := h.no c
    by_cases hco : c ∈ st :: l
    · rw [if_pos hco]; rw [hmem c hco] at this
      exact ⟨fun e => (by cases e), fun e => absurd (this.mpr e) (by simp)⟩
    · rw [if_neg hco]; exact this
  · obtain ⟨F, f1, f2, f3, f4⟩ := h.free
    refine ⟨F, f1, f2, ?_, f4⟩
    intro c
    rw [f3 c]
    by_cases hco : c ∈ st :: l
    · rw [if_pos hco, hmem c hco]; exact ⟨fun e => (by cases e), fun e => (by cases e)⟩
    · rw [if_neg hco]
  · intro j hj
    obtain ⟨L, l1, l2, l3, l4⟩ := h.post j hj
    refine ⟨L, l1, l2, ?_, l4⟩
    intro c
    rw [l3 c]
    by_cases hco : c ∈ st :: l
    · rw [if_pos hco, hmem c hco]; exact ⟨fun e => (by cases e), fun e => (by cases e)⟩
    · rw [if_neg hco]
  · intro k hk
    by_cases hne : k = st
    · subst hne
      refine ⟨l, hc, hnd, ?_, by simp, hl⟩
      intro c
      by_cases hco : c ∈ k :: l
      · rw [if_pos hco]; simp only [hco]
      · rw [if_neg hco]
        refine ⟨fun e => absurd e hco, fun e => ?_⟩
        have := (h.ownBlk c k e).2
        omega
    · have hk' : Live s.nSet start X k := ⟨hk.1, by rw [← hr k hne]; exact hk.2⟩
      obtain ⟨L, l1, l2, l3, l4, l5⟩ := h.blk k hk'
      refine ⟨L, l1, l2, ?_, ?_, l5⟩
      · intro c
        rw [l3 c]
        by_cases hco : c ∈ st :: l
        · rw [if_pos hco, hmem c hco]
          refine ⟨fun e => (by cases e), fun e => ?_⟩
          injection e with e; exact absurd e.symm hne
        · rw [if_neg hco]
      · rw [Function.update_of_ne hne]; exact l4
  · intro k hk
    by_cases hne : k = st
    · subst hne; rw [hr', hval]
    · have hk' : Live s.nSet start X k := ⟨hk.1, by rw [← hr k hne]; exact hk.2⟩
      rw [hr k hne]; exact h.ref k hk'
  · intro c j hcj
    by_cases hco : c ∈ st :: l
    · rw [if_pos hco] at hcj; cases hcj
    · rw [if_neg hco] at hcj; exact h.ownPost c j hcj
  · intro c k hck
    by_cases hco : c ∈ st :: l
    · rw [if_pos hco] at hck; injection hck with e; subst e
      exact ⟨hst0, by omega⟩
    · rw [if_neg hco] at hck
      have := h.ownBlk c k hck
      refine ⟨this.1, ?_⟩
      rw [refs_cons]; have := this.2; omega

/-- `post_element` -/
theorem Inv.postElement (h : Inv s start X own V PV) {i : ℕ} (hi : i < s.nSet) (x : ℕ) :
    ∃ own', Inv (s.postElement i x) start X own' V (Function.update PV i (x :: PV i)) ∧
      (∀ c, own' c = .tmp → own c = .tmp) := by
  obtain ⟨g1, g2, g3⟩ := h.getIdx (by omega)
  have hsame := getIdx_same s
  unfold LV.postElement
  dsimp only
  revert g1 g2 g3 hsame
  generalize s.getIdx = g
  obtain ⟨c, s1⟩ := g
  intro g1 g2 g3 hsame
  simp only at g1 g2 g3 hsame ⊢
  have hn1 : s1.nSet = s.nSet := hsame.nSet
  set own1 := Function.update own c Own.tmp with ho1
  have hc1 : own1 c = .tmp := by simp [ho1]
  obtain ⟨L0, a1, a2, a3, a4⟩ := g3.post i (hn1 ▸ hi)
  refine ⟨Function.update own1 c (.post i), ?_, ?_⟩
  swap
  · intro k hk
    by_cases hkc : k = c
    · subst hkc; simp at hk
    · rw [Function.update_of_ne hkc, ho1, Function.update_of_ne hkc] at hk; exact hk
  have hcne : ∀ (o : Own), o ≠ .tmp → ∀ k, own1 k = o → k ≠ c := by
    rintro o ho k hk rfl; rw [hc1] at hk; exact ho hk.symm
  have hiff : ∀ (o : Own), o ≠ .tmp → o ≠ .post i → ∀ k,
      (own1 k = o ↔ Function.update own1 c (.post i) k = o) := by
    intro o h1 h2 k
    by_cases hk : k = c
    · subst hk; rw [hc1, Function.update_self]
      exact ⟨fun e => absurd e.symm h1, fun e => absurd e.symm h2⟩
    · rw [Function.update_of_ne hk]
  have hnx : ∀ k, k ≠ c → Function.update s1.nxt c (s.post i) k = s1.nxt k :=
    fun k hk => Function.update_of_ne hk _ _
  have hvx : ∀ k, k ≠ c → Function.update s1.val c x k = s1.val k :=
    fun k hk => Function.update_of_ne hk _ _
  refine ⟨?_, ?_, ?_, ?_, ?_, ?_, ?_, ?_⟩
  · intro h0
    obtain ⟨z1, z2, z3⟩ := g3.zero h0
    exact ⟨(hvx 0 (Ne.symm g2)).trans z1, (hnx 0 (Ne.symm g2)).trans z2, z3⟩
  · intro k
    rw [← hiff .no (by simp) (by simp) k]; exact g3.no k
  · obtain ⟨F, f1, f2, f3, f4⟩ := g3.free
    refine ⟨F, f1.frame (fun k hk => hnx k (hcne .free (by simp) k ((f3 k).mp hk))), f2, ?_, f4⟩
    intro k; rw [f3 k]; exact hiff .free (by simp) (by simp) k
  · intro j hj
    by_cases hji : j = i
    · subst hji
      have hcL : c ∉ L0 := fun hh => hcne (.post j) (by simp) c ((a3 c).mp hh) rfl
      refine ⟨c :: L0, ⟨?_, g2, ?_⟩, List.nodup_cons.mpr ⟨hcL, a2⟩, ?_, ?_⟩
      · show Function.update s1.post j c j = c
        simp
      · show Chain (Function.update s1.nxt c (s.post j)) (Function.update s1.nxt c (s.post j) c) L0
        rw [Function.update_self, ← hsame.post]
        exact a1.frame (fun k hk => Function.update_of_ne (by rintro rfl; exact hcL hk) _ _)
      · intro k
        by_cases hk : k = c
        · subst hk; simp
        · rw [Function.update_of_ne hk, ← a3 k]; simp [hk]
      · show (c :: L0).map (Function.update s1.val c x) = _
        rw [List.map_cons, Function.update_self, Function.update_self, ← a4]
        congr 1
        exact List.map_congr_left (fun k hk => hvx k (by rintro rfl; exact hcL hk))
    · obtain ⟨L, l1, l2, l3, l4⟩ := g3.post j hj
      have hk : ∀ k ∈ L, k ≠ c := fun k hk => hcne (.post j) (by simp) k ((l3 k).mp hk)
      refine ⟨L, ?_, l2, ?_, ?_⟩
      · show Chain (Function.update s1.nxt c (s.post i)) (Function.update s1.post i c j) L
        rw [Function.update_of_ne hji]
        exact l1.frame (fun k hk' => hnx k (hk k hk'))
      · intro k; rw [l3 k]; exact hiff (.post j) (by simp) (by simp [hji]) k
      · rw [Function.update_of_ne hji, ← l4]
        exact List.map_congr_left (fun k hk' => hvx k (hk k hk'))
  · intro st hst
    obtain ⟨L, l1, l2, l3, l4, l5⟩ := g3.blk st hst
    have hk : ∀ k ∈ st :: L, k ≠ c := fun k hk => hcne (.blk st) (by simp) k ((l3 k).mp hk)
    refine ⟨L, ?_, l2, ?_, ?_, l5⟩
    · show Chain (Function.update s1.nxt c (s.post i)) (Function.update s1.nxt c (s.post i) st) L
      rw [hnx st (hk st (by simp))]
      exact l1.frame (fun k hk' => hnx k (hk k (by simp [hk'])))
    · intro k; rw [l3 k]; exact hiff (.blk st) (by simp) (by simp) k
    · rw [← l4]
      exact List.map_congr_left (fun k hk' => hvx k (hk k (by simp [hk'])))
  · intro st hst
    have hne : st ≠ c := hcne (.blk st) (by simp) st (g3.blk_own hst)
    exact (hvx st hne).trans (g3.ref st hst)
  · intro k j hkj
    by_cases hk : k = c
    · subst hk; rw [Function.update_self] at hkj; injection hkj with e; subst e
      show i < s1.nSet
      omega
    · rw [Function.update_of_ne hk] at hkj; exact g3.ownPost k j hkj
  · intro k st hks
    exact g3.ownBlk k st ((hiff (.blk st) (by simp) (by simp) k).mpr hks)

/-- a cell that is not linked is inserted after the cells `st :: l1` of a list
with header `st` -/
theorem Inv.insert (h : Inv s start X own V PV) {st : ℕ} (hst : Live s.nSet start X st)
    {l1 l2 : List ℕ} (hl : Chain s.nxt (s.nxt st) (l1 ++ l2)) (hnd : (st :: (l1 ++ l2)).Nodup)
    (hmem : ∀ c, c ∈ st :: (l1 ++ l2) ↔ own c = .blk st) {c x p n : ℕ} (hc : own c = .tmp)
    (hc0 : c ≠ 0)
    (hp : p = (st :: l1).getLast (by simp)) (hn : n = l2.headD 0) :
    Inv (((s.setNxt c n).setVal c x).setNxt p c) start X (Function.update own c (.blk st))
      (Function.update V st (l1.map s.val ++ x :: l2.map s.val)) PV := by
  have hpo : own p = .blk st := (hmem p).mp (by
    have : p ∈ st :: l1 := hp ▸ List.getLast_mem _
    rcases List.mem_cons.mp this with rfl | h1
    · simp
    · simp [h1])
  have hpc : p ≠ c := by rintro rfl; rw [hc] at hpo; cases hpo
  have hcne : ∀ (o : Own), o ≠ .tmp → ∀ k, own k = o → k ≠ c := by
    rintro o ho k hk rfl; rw [hc] at hk; exact ho hk.symm
  have hiff : ∀ (o : Own), o ≠ .tmp → o ≠ .blk st → ∀ k,
      (own k = o ↔ Function.update own c (.blk st) k = o) := by
    intro o h1 h2 k
    by_cases hk : k = c
    · subst hk; rw [hc, Function.update_self]
      exact ⟨fun e => absurd e.symm h1, fun e => absurd e.symm h2⟩
    · rw [Function.update_of_ne hk]
  have hnx : ∀ k, own k ≠ .tmp → own k ≠ .blk st →
      Function.update (Function.update s.nxt c n) p c k = s.nxt k := by
    intro k h1 h2
    rw [Function.update_of_ne (by rintro rfl; exact h2 hpo),
      Function.update_of_ne (by rintro rfl; exact h1 hc)]
  have hvx : ∀ k, k ≠ c → Function.update s.val c x k = s.val k :=
    fun k hk => Function.update_of_ne hk _ _
  have hsto := h.blk_own hst
  refine ⟨?_, ?_, ?_, ?_, ?_, ?_, ?_, ?_⟩
  · intro h0
    obtain ⟨z1, z2, z3⟩ := h.zero h0
    exact ⟨(hvx 0 (Ne.symm hc0)).trans z1,
      (hnx 0 (by rw [h.own_zero]; simp) (by rw [h.own_zero]; simp)).trans z2, z3⟩
  · intro k; rw [← hiff .no (by simp) (by simp) k]; exact h.no k
  · obtain ⟨F, f1, f2, f3, f4⟩ := h.free
    refine ⟨F, f1.frame (fun k hk => hnx k ?_ ?_), f2, ?_, f4⟩
    · rw [(f3 k).mp hk]; simp
    · rw [(f3 k).mp hk]; simp
    · intro k; rw [f3 k]; exact hiff .free (by simp) (by simp) k
  · intro j hj
    obtain ⟨L, l1, l2, l3, l4⟩ := h.post j hj
    refine ⟨L, l1.frame (fun k hk => hnx k ?_ ?_), l2, ?_, ?_⟩
    · rw [(l3 k).mp hk]; simp
    · rw [(l3 k).mp hk]; simp
    · intro k; rw [l3 k]; exact hiff (.post j) (by simp) (by simp) k
    · rw [← l4]
      exact List.map_congr_left (fun k hk => hvx k (hcne (.post j) (by simp) k ((l3 k).mp hk)))
  · intro k hk
    by_cases hks : k = st
    · subst hks
      have hcl : c ∉ k :: (l1 ++ l2) := fun hh => hcne (.blk k) (by simp) c ((hmem c).mp hh) rfl
      refine ⟨l1 ++ c :: l2, ?_, ?_, ?_, ?_, by simp⟩
      · show Chain (Function.update (Function.update s.nxt c n) p c)
          (Function.update (Function.update s.nxt c n) p c k) (l1 ++ c :: l2)
        -- the new chain after the insertion point
        have tail : ∀ {a : ℕ} (l1 : List ℕ) (_ : Chain s.nxt (s.nxt a) (l1 ++ l2))
            (_ : (a :: (l1 ++ l2)).Nodup) (_ : c ∉ a :: (l1 ++ l2)),
            Chain (Function.update (Function.update s.nxt c n) ((a :: l1).getLast (by simp)) c)
              (Function.update (Function.update s.nxt c n) ((a :: l1).getLast (by simp)) c a)
              (l1 ++ c :: l2) := by
          intro a l1
          induction l1 generalizing a with
          | nil =>
            intro h1 h2 h3
            simp only [List.nil_append] at h1 h2 h3 ⊢
            simp only [List.getLast_singleton, Function.update_self]
            refine ⟨rfl, hc0, ?_⟩
            have hac : c ≠ a := fun e => h3 (by simp [e])
            rw [Function.update_of_ne hac, Function.update_self]
            have hnn : s.nxt a = n := by
              rw [hn]
              cases l2 with
              | nil => exact h1
              | cons b l2 => exact h1.1
            rw [← hnn]
            refine h1.frame (fun k' hk' => ?_)
            rw [Function.update_of_ne (by
              rintro rfl; exact (List.nodup_cons.mp h2).1 hk'), Function.update_of_ne (by
              rintro rfl; exact h3 (by simp [hk']))]
          | cons b l1 ih =>
            intro h1 h2 h3
            have hlast : (a :: b :: l1).getLast (by simp) = (b :: l1).getLast (by simp) := by simp
            rw [hlast]
            obtain ⟨e1, e2, e3⟩ := h1
            have hnd2 := List.nodup_cons.mp h2
            have hane : a ≠ (b :: l1).getLast (by simp) := by
              intro e
              apply hnd2.1
              have hm : (b :: l1).getLast (by simp) ∈ b :: l1 := List.getLast_mem _
              rw [← e] at hm
              simp only [List.cons_append, List.mem_cons, List.mem_append] at hm ⊢
              tauto
            have hac : a ≠ c := fun e => h3 (by simp [e])
            rw [Function.update_of_ne hane, Function.update_of_ne hac, e1]
            refine ⟨rfl, e2, ?_⟩
            exact ih (a := b) e3 hnd2.2 (fun hh => h3 (by
              simp only [List.cons_append, List.mem_cons, List.mem_append] at hh ⊢; tauto))
        rw [hp]
        exact tail l1 hl hnd hcl
      · have : (k :: (l1 ++ c :: l2)).Perm (c :: k :: (l1 ++ l2)) := by
          refine List.Perm.trans ?_ (List.Perm.swap c k _).symm.symm
          exact List.Perm.cons k List.perm_middle
        rw [this.nodup_iff]
        exact List.nodup_cons.mpr ⟨hcl, hnd⟩
      · intro m
        by_cases hm : m = c
        · subst hm; simp
        · rw [Function.update_of_ne hm, ← hmem m]; simp [hm]
      · show (l1 ++ c :: l2).map (Function.update s.val c x) = _
        rw [Function.update_self, List.map_append, List.map_cons, Function.update_self]
        congr 1
        · exact List.map_congr_left (fun m hm => hvx m (by rintro rfl; exact hcl (by simp [hm])))
        · congr 1
          exact List.map_congr_left (fun m hm => hvx m (by rintro rfl; exact hcl (by simp [hm])))
    · obtain ⟨L, l1, l2, l3, l4, l5⟩ := h.blk k hk
      have hks' : ∀ m ∈ k :: L, own m ≠ .tmp ∧ own m ≠ .blk st := by
        intro m hm; rw [(l3 m).mp hm]; simp [hks]
      refine ⟨L, ?_, l2, ?_, ?_, l5⟩
      · show Chain (Function.update (Function.update s.nxt c n) p c)
          (Function.update (Function.update s.nxt c n) p c k) L
        rw [hnx k (hks' k (by simp)).1 (hks' k (by simp)).2]
        exact l1.frame (fun m hm => hnx m (hks' m (by simp [hm])).1 (hks' m (by simp [hm])).2)
      · intro m; rw [l3 m]; exact hiff (.blk k) (by simp) (by simp [hks]) m
      · rw [Function.update_of_ne hks, ← l4]
        exact List.map_congr_left (fun m hm => hvx m
          (hcne (.blk k) (by simp) m ((l3 m).mp (by simp [hm]))))
  · intro k hk
    have hne : k ≠ c := hcne (.blk k) (by simp) k (h.blk_own hk)
    exact (hvx k hne).trans (h.ref k hk)
  · intro k j hkj
    exact h.ownPost k j ((hiff (.post j) (by simp) (by simp) k).mpr hkj)
  · intro k m hkm
    by_cases hk : k = c
    · subst hk; rw [Function.update_self] at hkm; injection hkm with e; subst e; exact hst
    · rw [Function.update_of_ne hk] at hkm; exact h.ownBlk k m hkm

end CppAD.SetVec.LV
