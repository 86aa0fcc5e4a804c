import Verif.SetVec.ListOps

/-! # Dropping lists and building lists -/

namespace CppAD.SetVec.LV

variable {s : LV} {start : ℕ → ℕ} {X : List ℕ} {own : ℕ → Own} {V PV : ℕ → List ℕ}

/-- `start_` is not part of the invariant -/
theorem Inv.withStart (h : Inv s start X own V PV) (f : ℕ → ℕ) :
    Inv { s with start := f } start X own V PV :=
  h.congr_refs (fun _ _ => rfl) f

/-- store a held reference in `start_[i]`, which was zero -/
theorem Inv.link (h : Inv s start (b :: X) own V PV) {i : ℕ} (hi : i < s.nSet)
    (h0 : start i = 0) (f : ℕ → ℕ) :
    Inv { s with start := f } (Function.update start i b) X own V PV := by
  refine h.congr_refs (fun k hk => ?_) f
  have := refs_update hi start X b k
  rw [h0, if_neg (fun e => hk e.symm)] at this
  rw [refs_cons]; omega

theorem nodup_refs {i : ℕ} (hi : i < s.nSet) (k : ℕ) (hk : k ≠ 0) (hne : k ≠ start i) :
    refs s.nSet (Function.update start i 0) X k = refs s.nSet start X k := by
  have := refs_update hi start X 0 k
  rw [if_neg (fun e => hne e.symm), if_neg (fun e => hk e.symm)] at this
  omega

theorem refs_drop {i : ℕ} (hi : i < s.nSet) (h0 : start i ≠ 0) :
    refs s.nSet (Function.update start i 0) X (start i) + 1 = refs s.nSet start X (start i) := by
  have := refs_update hi start X 0 (start i)
  rw [if_pos rfl, if_neg (fun e => h0 e.symm)] at this
  omega

/-- `drop(i)` and adding its result to `number_not_used_` -/
theorem Inv.dropAdd (h : Inv s s.start X own V PV) {i : ℕ} (hi : i < s.nSet) :
    (∃ own', Inv (s.dropAdd i) (Function.update s.start i 0) X own' V (Function.update PV i []) ∧
      (∀ c, own' c = .tmp ↔ own c = .tmp)) ∧
    (s.dropAdd i).start = Function.update s.start i 0 ∧
    (s.dropAdd i).last = s.last ∧ (s.dropAdd i).nSet = s.nSet := by
  -- first the posts
  have step1 : ∃ own1, Inv { (s.dropPost i).2 with
        numNotUsed := (s.dropPost i).2.numNotUsed + (s.dropPost i).1 } s.start X own1 V
        (Function.update PV i []) ∧ (∀ c, own1 c = .tmp ↔ own c = .tmp) ∧
      (s.dropPost i).2.start = s.start ∧ (s.dropPost i).2.last = s.last ∧
      (s.dropPost i).2.nSet = s.nSet := by
    obtain ⟨L, l1, l2, l3, l4⟩ := h.post i hi
    unfold dropPost
    by_cases hp : s.post i = 0
    · rw [if_pos hp]
      rw [hp] at l1
      have hL := l1.eq_nil
      subst hL
      refine ⟨own, ?_, fun _ => Iff.rfl, rfl, rfl, rfl⟩
      have : Function.update PV i [] = PV := by
        funext j
        by_cases hj : j = i
        · subst hj; rw [Function.update_self, ← l4]; rfl
        · rw [Function.update_of_ne hj]
      rw [this]; exact h
    · rw [if_neg hp]
      obtain ⟨L', rfl, l5⟩ := l1.eq_cons hp
      have hw : (s.setPost i 0).walk (s.post i)
          = ((s.post i :: L').getLast (by simp), (s.post i :: L').length) :=
        walk_eq _ (by exact l5)
      dsimp only
      rw [hw]
      refine ⟨_, h.free_post hi l1 l2 l3, ?_, rfl, rfl, rfl⟩
      intro c
      by_cases hco : own c = .post i
      · rw [if_pos hco, hco]; exact ⟨fun e => (by cases e), fun e => (by cases e)⟩
      · rw [if_neg hco]
  unfold LV.dropAdd drop
  dsimp only
  revert step1
  generalize s.dropPost i = p
  obtain ⟨n1, s1⟩ := p
  rintro ⟨own1, h1, ht1, e1, e2, e3⟩
  simp only at h1 e1 e2 e3 ⊢
  have hi1 : i < s1.nSet := e3 ▸ hi
  unfold dropStart
  by_cases h0 : s1.start i = 0
  · rw [if_pos h0]
    refine ⟨⟨own1, ?_, ht1⟩, ?_, e2, e3⟩
    · have hup : Function.update s.start i 0 = s.start := by
        rw [← e1]
        funext j
        by_cases hj : j = i
        · subst hj; rw [Function.update_self, h0]
        · rw [Function.update_of_ne hj]
      rw [hup]; exact h1
    · show s1.start = _
      rw [e1]
      funext j
      by_cases hj : j = i
      · subst hj; rw [Function.update_self, ← e1, h0]
      · rw [Function.update_of_ne hj]
  · rw [if_neg h0]
    have hlive : Live s1.nSet s.start X (s1.start i) := by
      rw [e1]; rw [e1] at h0; exact live_start (e3 ▸ hi) X h0
    have hval : s1.val (s1.start i) = refs s1.nSet s.start X (s1.start i) := h1.ref _ hlive
    have hdrop : refs s1.nSet (Function.update s.start i 0) X (s1.start i) + 1
        = refs s1.nSet s.start X (s1.start i) := by
      rw [e1]; rw [e1] at h0; exact refs_drop (s := s1) hi1 h0
    have hother : ∀ k, k ≠ s1.start i → k ≠ 0 →
        refs s1.nSet (Function.update s.start i 0) X k = refs s1.nSet s.start X k := by
      intro k hk hk0
      exact nodup_refs (s := s1) hi1 k hk0 (by rw [← e1]; exact hk)
    have hv : s1.val (s1.start i) - 1
        = refs s1.nSet (Function.update s.start i 0) X (s1.start i) := by omega
    dsimp only
    have hvv : (((s1.setVal (s1.start i) (s1.val (s1.start i) - 1)).setStart i 0).val (s1.start i))
        = s1.val (s1.start i) - 1 := Function.update_self _ _ _
    rw [hvv]
    by_cases hpos : 0 < s1.val (s1.start i) - 1
    · rw [if_pos hpos]
      refine ⟨⟨own1, ?_, ht1⟩, ?_, e2, e3⟩
      · rw [hv] at hpos ⊢
        have := h1.recount (start' := Function.update s.start i 0) (X' := X) hlive hpos hother
          (Function.update s1.start i 0)
        exact this
      · show Function.update s1.start i 0 = _
        rw [e1]
    · rw [if_neg hpos]
      obtain ⟨L, l1, l2, l3, l4, l5⟩ := h1.blk _ hlive
      have hw : ((s1.setVal (s1.start i) (s1.val (s1.start i) - 1)).setStart i 0).walk (s1.start i)
          = ((s1.start i :: L).getLast (by simp), (s1.start i :: L).length) :=
        walk_eq _ (by exact l1)
      rw [hw]
      have := h1.free_blk (start' := Function.update s.start i 0) (X' := X) hlive
        (by show refs s1.nSet (Function.update s.start i 0) X (s1.start i) = 0; omega) hother
        l1 l2 l3 (s1.val (s1.start i) - 1) (Function.update s1.start i 0)
      refine ⟨⟨fun c => if own1 c = .blk (s1.start i) then Own.free else own1 c, ?_, ?_⟩, ?_, e2, e3⟩
      rotate_left
      · have h2 : (fun c => if own1 c = .blk (s1.start i) then Own.free else own1 c)
            = (fun c => if own1 c = .blk (s1.start i) then Own.free else own1 c) := rfl
        exact fun c => (by
          rw [← ht1 c]
          show (fun c => if own1 c = .blk (s1.start i) then Own.free else own1 c) c = .tmp ↔ _
          by_cases hco : own1 c = .blk (s1.start i)
          · simp only [if_pos hco, hco]; exact ⟨fun e => (by cases e), fun e => (by cases e)⟩
          · simp only [if_neg hco])
      · show Function.update s1.start i 0 = _
        rw [e1]
      · have e : s1.numNotUsed + n1 + (s1.start i :: L).length
            = s1.numNotUsed + (n1 + (s1.start i :: L).length) := by omega
        simp only at this
        rw [e] at this
        exact this

/-! ## building a list -/

/-- consecutive cells are linked -/
def Seg (nxt : ℕ → ℕ) : ℕ → List ℕ → Prop
  | _, [] => True
  | a, b :: l => nxt a = b ∧ Seg nxt b l

theorem Seg.frame {nxt nxt' : ℕ → ℕ} {a : ℕ} {l : List ℕ} (h : Seg nxt a l)
    (he : ∀ c ∈ a :: l, nxt' c = nxt c) : Seg nxt' a l := by
  induction l generalizing a with
  | nil => trivial
  | cons b l ih =>
    obtain ⟨h1, h2⟩ := h
    refine ⟨by rw [he a (by simp), h1], ih h2 (fun c hc => he c ?_)⟩
    simp only [List.mem_cons] at hc ⊢; tauto

theorem Seg.snoc {nxt : ℕ → ℕ} {a c : ℕ} {l : List ℕ} (h : Seg nxt a l) (hnd : (a :: l).Nodup) :
    Seg (Function.update nxt ((a :: l).getLast (by simp)) c) a (l ++ [c]) := by
  induction l generalizing a with
  | nil => simp [Seg]
  | cons b l ih =>
    obtain ⟨h1, h2⟩ := h
    have hnd2 := List.nodup_cons.mp hnd
    have hlast : (a :: b :: l).getLast (by simp) = (b :: l).getLast (by simp) := by simp
    rw [hlast]
    refine ⟨?_, ih h2 hnd2.2⟩
    rw [Function.update_of_ne]
    · exact h1
    · intro e; exact hnd2.1 (e ▸ List.getLast_mem _)

theorem Seg.close {nxt : ℕ → ℕ} {a : ℕ} {l : List ℕ} (h : Seg nxt a l) (hnd : (a :: l).Nodup)
    (hnz : ∀ c ∈ l, c ≠ 0) :
    Chain (Function.update nxt ((a :: l).getLast (by simp)) 0)
      (Function.update nxt ((a :: l).getLast (by simp)) 0 a) l := by
  induction l generalizing a with
  | nil => simp [Chain]
  | cons b l ih =>
    obtain ⟨h1, h2⟩ := h
    have hnd2 := List.nodup_cons.mp hnd
    have hlast : (a :: b :: l).getLast (by simp) = (b :: l).getLast (by simp) := by simp
    rw [hlast]
    have hne : a ≠ (b :: l).getLast (by simp) := fun e => hnd2.1 (e ▸ List.getLast_mem _)
    rw [Function.update_of_ne hne]
    exact ⟨h1, hnz b (by simp), ih h2 hnd2.2 (fun c hc => hnz c (by simp [hc]))⟩

/-- the cells `st :: l`, and no others, are taken; they are linked, `st` is a
header with one reference, and the values in `l` are `vs` -/
structure Building (s : LV) (own : ℕ → Own) (st : ℕ) (l vs : List ℕ) : Prop where
  tmp : ∀ c, own c = .tmp ↔ c ∈ st :: l
  nodup : (st :: l).Nodup
  seg : Seg s.nxt st l
  vals : l.map s.val = vs
  one : s.val st = 1
  nz : ∀ c ∈ st :: l, c ≠ 0

/-- the cell is linked (or is cell zero) -/
def Linked (own : ℕ → Own) (k : ℕ) : Prop := (∃ i, own k = .post i) ∨ (∃ st, own k = .blk st) ∨ k = 0

/-- nothing that is linked has changed -/
structure Ext (s : LV) (own : ℕ → Own) (s' : LV) (own' : ℕ → Own) : Prop where
  nSet : s'.nSet = s.nSet
  last : s'.last = s.last
  start : s'.start = s.start
  post : s'.post = s.post
  linked : ∀ k, Linked own k → own' k = own k ∧ s'.val k = s.val k ∧ s'.nxt k = s.nxt k

theorem Ext.refl (s : LV) (own : ℕ → Own) : Ext s own s own :=
  ⟨rfl, rfl, rfl, rfl, fun _ _ => ⟨rfl, rfl, rfl⟩⟩

theorem Linked.of_eq {own own' : ℕ → Own} {k : ℕ} (h : Linked own k) (e : own' k = own k) :
    Linked own' k := by
  unfold Linked; rw [e]; exact h

theorem Ext.trans {s₁ s₂ s₃ : LV} {o₁ o₂ o₃ : ℕ → Own} (h : Ext s₁ o₁ s₂ o₂) (h' : Ext s₂ o₂ s₃ o₃) :
    Ext s₁ o₁ s₃ o₃ := by
  refine ⟨h'.nSet.trans h.nSet, h'.last.trans h.last, h'.start.trans h.start,
    h'.post.trans h.post, fun k hk => ?_⟩
  obtain ⟨a1, a2, a3⟩ := h.linked k hk
  obtain ⟨b1, b2, b3⟩ := h'.linked k (hk.of_eq a1)
  exact ⟨b1.trans a1, b2.trans a2, b3.trans a3⟩

theorem Ext.chain {s s' : LV} {own own' : ℕ → Own} (h : Ext s own s' own') {p : ℕ} {L : List ℕ}
    (hc : Chain s.nxt p L) (hl : ∀ c ∈ L, Linked own c) : Chain s'.nxt p L :=
  hc.frame (fun c hc' => (h.linked c (hl c hc')).2.2)

theorem Inv.not_linked_free (h : Inv s start X own V PV) {c : ℕ}
    (hc : own c = .free ∨ own c = .no) (hc0 : c ≠ 0) {k : ℕ} (hk : Linked own k) : k ≠ c := by
  rintro rfl
  rcases hk with ⟨i, hk⟩ | ⟨i, hk⟩ | hk
  · rcases hc with hc | hc <;> rw [hc] at hk <;> cases hk
  · rcases hc with hc | hc <;> rw [hc] at hk <;> cases hk
  · exact hc0 hk

theorem Inv.not_linked_tmp (h : Inv s start X own V PV) {c : ℕ} (hc : own c = .tmp) {k : ℕ}
    (hk : Linked own k) : k ≠ c := by
  rintro rfl
  rcases hk with ⟨i, hk⟩ | ⟨i, hk⟩ | hk
  · rw [hc] at hk; cases hk
  · rw [hc] at hk; cases hk
  · rw [hk, h.own_zero] at hc; cases hc

/-- taking the header cell -/
theorem Inv.begin_build (h : Inv s start X own V PV) (hn : 0 < s.nSet) (ht : ∀ c, own c ≠ .tmp)
    (f : ℕ → ℕ) :
    Inv ({ s.getIdx.2 with start := f }.setVal s.getIdx.1 1) start X
        (Function.update own s.getIdx.1 .tmp) V PV ∧
      Building ({ s.getIdx.2 with start := f }.setVal s.getIdx.1 1)
        (Function.update own s.getIdx.1 .tmp) s.getIdx.1 [] [] ∧
      Ext { s with start := f } own ({ s.getIdx.2 with start := f }.setVal s.getIdx.1 1)
        (Function.update own s.getIdx.1 .tmp) := by
  obtain ⟨g1, g2, g3⟩ := h.getIdx hn
  have hsame := getIdx_same s
  revert g1 g2 g3 hsame
  generalize s.getIdx = g
  obtain ⟨c, s1⟩ := g
  intro g1 g2 g3 hsame
  simp only at g1 g2 g3 hsame ⊢
  refine ⟨(g3.withStart f).setVal_tmp (by simp) 1, ⟨?_, by simp, trivial, rfl, ?_, ?_⟩, ?_⟩
  · intro k
    by_cases hk : k = c
    · subst hk; simp
    · rw [Function.update_of_ne hk]
      exact ⟨fun e => absurd e (ht k), fun e => by simp at e; exact absurd e hk⟩
  · exact Function.update_self _ _ _
  · intro k hk; simp at hk; subst hk; exact g2
  · refine ⟨hsame.nSet, hsame.last, rfl, hsame.post, fun k hk => ?_⟩
    have hne := h.not_linked_free g1 g2 hk
    refine ⟨Function.update_of_ne hne _ _, ?_, ?_⟩
    · show Function.update s1.val c 1 k = s.val k
      rw [Function.update_of_ne hne, hsame.val]
    · show s1.nxt k = s.nxt k
      rw [hsame.nxt]

/-- appending a cell -/
theorem Inv.append (h : Inv s start X own V PV) (hn : 0 < s.nSet) {st : ℕ} {l vs : List ℕ}
    (hb : Building s own st l vs) (v : ℕ) :
    ∃ c own', (append ((st :: l).getLast (by simp), s) v).1 = c ∧
      c = (st :: (l ++ [c])).getLast (by simp) ∧
      Inv (append ((st :: l).getLast (by simp), s) v).2 start X own' V PV ∧
      Building (append ((st :: l).getLast (by simp), s) v).2 own' st (l ++ [c]) (vs ++ [v]) ∧
      Ext s own (append ((st :: l).getLast (by simp), s) v).2 own' := by
  obtain ⟨g1, g2, g3⟩ := h.getIdx hn
  have hsame := getIdx_same s
  unfold LV.append
  dsimp only
  revert g1 g2 g3 hsame
  generalize s.getIdx = g
  obtain ⟨c, s1⟩ := g
  intro g1 g2 g3 hsame
  simp only at g1 g2 g3 hsame ⊢
  set p := (st :: l).getLast (by simp) with hp
  have hpm : p ∈ st :: l := List.getLast_mem _
  have hcl : c ∉ st :: l := by
    intro hh
    have := (hb.tmp c).mpr hh
    rcases g1 with g1 | g1 <;> rw [g1] at this <;> cases this
  have hpc : p ≠ c := fun e => hcl (e ▸ hpm)
  have hpt : Function.update own c Own.tmp p = .tmp := by
    rw [Function.update_of_ne hpc]; exact (hb.tmp p).mpr hpm
  refine ⟨c, Function.update own c .tmp, rfl, by simp, ?_, ?_, ?_⟩
  · exact (g3.setNxt_tmp hpt c).setVal_tmp (by simp) v
  · have hv : ∀ k ∈ st :: l, Function.update s1.val c v k = s.val k := by
      intro k hk
      rw [Function.update_of_ne (by rintro rfl; exact hcl hk), hsame.val]
    refine ⟨?_, ?_, ?_, ?_, ?_, ?_⟩
    · intro k
      by_cases hk : k = c
      · subst hk; simp
      · rw [Function.update_of_ne hk, hb.tmp k]; simp [hk]
    · have : (st :: (l ++ [c])) = (st :: l) ++ [c] := by simp
      rw [this, List.nodup_append]
      refine ⟨hb.nodup, by simp, ?_⟩
      rintro x hx y hy rfl
      simp at hy; subst hy; exact hcl hx
    · show Seg (Function.update s1.nxt p c) st (l ++ [c])
      rw [hsame.nxt]; exact hb.seg.snoc hb.nodup
    · show (l ++ [c]).map (Function.update s1.val c v) = _
      rw [List.map_append, List.map_congr_left (fun k hk => hv k (by simp [hk])), hb.vals]
      simp
    · exact (hv st (by simp)).trans hb.one
    · intro k hk
      have : k ∈ st :: l ∨ k = c := by
        simp only [List.mem_cons, List.mem_append, List.not_mem_nil, or_false] at hk ⊢
        tauto
      rcases this with h1 | rfl
      · exact hb.nz k h1
      · exact g2
  · refine ⟨hsame.nSet, hsame.last, hsame.start, hsame.post, fun k hk => ?_⟩
    have hne := h.not_linked_free g1 g2 hk
    have hnp : k ≠ p := h.not_linked_tmp ((hb.tmp p).mpr hpm) hk
    refine ⟨Function.update_of_ne hne _ _, ?_, ?_⟩
    · show Function.update s1.val c v k = s.val k
      rw [Function.update_of_ne hne, hsame.val]
    · show Function.update s1.nxt p c k = s.nxt k
      rw [Function.update_of_ne hnp, hsame.nxt]

/-- ending the list and putting it in use -/
theorem Inv.finish (h : Inv s start X own V PV) {st : ℕ} {l vs : List ℕ}
    (hb : Building s own st l vs) (hvs : vs ≠ []) :
    ∃ own', Inv (s.setNxt ((st :: l).getLast (by simp)) 0) start (st :: X) own'
        (Function.update V st vs) PV ∧ (∀ c, own' c ≠ .tmp) ∧ ¬ Live s.nSet start X st := by
  set p := (st :: l).getLast (by simp) with hp
  have hpm : p ∈ st :: l := List.getLast_mem _
  have h1 := h.setNxt_tmp ((hb.tmp p).mpr hpm) 0
  have hl : l ≠ [] := by rintro rfl; exact hvs hb.vals.symm
  have h2 := h1.publish (st := st) (l := l) (hb.nz st (by simp)) hb.one
    (hb.seg.close hb.nodup (fun c hc => hb.nz c (by simp [hc]))) hb.nodup hl
    (fun c hc => (hb.tmp c).mpr hc)
  refine ⟨fun c => if c ∈ st :: l then Own.blk st else own c, ?_, ?_, ?_⟩
  · have e : l.map (s.setNxt p 0).val = vs := hb.vals
    rw [e] at h2; exact h2
  · intro c
    show (if c ∈ st :: l then Own.blk st else own c) ≠ .tmp
    by_cases hc : c ∈ st :: l
    · rw [if_pos hc]; simp
    · rw [if_neg hc]; exact fun e => hc ((hb.tmp c).mp e)
  · intro hlive
    have := h.blk_own hlive
    rw [(hb.tmp st).mpr (by simp)] at this; cases this

/-- the loop that appends a vector of values -/
theorem Inv.appendAll (vs' : List ℕ) (h : Inv s start X own V PV) (hn : 0 < s.nSet) {st : ℕ}
    {l vs : List ℕ} (hb : Building s own st l vs) :
    ∃ l' own', (vs'.foldl LV.append ((st :: l).getLast (by simp), s)).1
        = (st :: l').getLast (by simp) ∧
      Inv (vs'.foldl LV.append ((st :: l).getLast (by simp), s)).2 start X own' V PV ∧
      Building (vs'.foldl LV.append ((st :: l).getLast (by simp), s)).2 own' st l' (vs ++ vs') ∧
      Ext s own (vs'.foldl LV.append ((st :: l).getLast (by simp), s)).2 own' := by
  induction vs' generalizing s own l vs with
  | nil => exact ⟨l, own, rfl, h, by simpa using hb, Ext.refl _ _⟩
  | cons v vs' ih =>
    obtain ⟨c, own1, a1, a2, a3, a4, a5⟩ := h.append hn hb v
    rw [List.foldl_cons]
    have e : LV.append ((st :: l).getLast (by simp), s) v
        = ((st :: (l ++ [c])).getLast (by simp), (LV.append ((st :: l).getLast (by simp), s) v).2) := by
      rw [← a2, ← a1]
    rw [e]
    obtain ⟨l', own', b1, b2, b3, b4⟩ := ih a3 (by rw [a5.nSet]; exact hn) a4
    refine ⟨l', own', b1, b2, ?_, a5.trans b4⟩
    simpa using b3

/-- `build`: a new list for set `i`, whose old list has been dropped -/
theorem Inv.build (h : Inv s start X own V PV) {i : ℕ} (hi : i < s.nSet)
    (ht : ∀ c, own c ≠ .tmp) (h0 : start i = 0) {vs : List ℕ} (hvs : vs ≠ []) :
    ∃ st own', st ≠ 0 ∧ ¬ Live s.nSet start X st ∧
      Inv (s.build i vs) (Function.update start i st) X own' (Function.update V st vs) PV ∧
      (∀ c, own' c ≠ .tmp) ∧
      (s.build i vs).start = Function.update s.start i st ∧
      (s.build i vs).last = s.last ∧ (s.build i vs).nSet = s.nSet := by
  obtain ⟨b1, b2, b3⟩ := h.begin_build (by omega) ht (Function.update s.start i s.getIdx.1)
  have hsame := getIdx_same s
  unfold LV.build
  dsimp only
  have e : s.getIdx.2.setStart i s.getIdx.1
      = { s.getIdx.2 with start := Function.update s.start i s.getIdx.1 } := by
    unfold setStart; rw [hsame.start]
  rw [e]
  obtain ⟨l', own', c1, c2, c3, c4⟩ := b1.appendAll vs (by rw [b3.nSet]; show 0 < s.nSet; omega) b2
  simp only [List.getLast_singleton] at c1 c2 c3 c4
  rw [List.nil_append] at c3
  obtain ⟨own2, d1, d2, d3⟩ := c2.finish c3 hvs
  have hext := b3.trans c4
  have hnz := c3.nz s.getIdx.1 (by simp)
  revert c1 c2 c3 c4 d1 d2 d3 hext
  generalize List.foldl LV.append _ vs = r
  intro c1 c2 c3 c4 d1 d2 d3 hext
  obtain ⟨p, s2⟩ := r
  simp only at c1 c2 c3 c4 d1 d2 d3 hext ⊢
  subst c1
  refine ⟨s.getIdx.1, own2, hnz, ?_, ?_, d2, hext.start, hext.last, hext.nSet⟩
  · have e2 : s2.nSet = s.nSet := hext.nSet
    rw [e2] at d3; exact d3
  · have hlk := d1.link (i := i) (by show i < s2.nSet; rw [hext.nSet]; exact hi) h0 s2.start
    exact hlk

end CppAD.SetVec.LV
