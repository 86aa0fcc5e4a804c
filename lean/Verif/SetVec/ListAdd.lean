import Verif.SetVec.ListHas

/-! # `add_element` and the copy of a list of another object -/

namespace CppAD.SetVec.LV

variable {s : LV} {start : ℕ → ℕ} {X : List ℕ} {own : ℕ → Own} {V PV : ℕ → List ℕ}
variable {L P : ℕ → List ℕ}

theorem setVal_self (s : LV) (c : ℕ) : s.setVal c (s.val c) = s := by
  unfold setVal; rw [Function.update_eq_self]

theorem getIdx_setVal (s : LV) (c v : ℕ) :
    (s.setVal c v).getIdx = (s.getIdx.1, s.getIdx.2.setVal c v) := by
  unfold getIdx setVal; split <;> rfl

/-- changing the value of the last cell -/
theorem Building.setLast {st : ℕ} {l vs : List ℕ} {c j : ℕ} (h : Building s own st (l ++ [c]) (vs ++ [j]))
    (v : ℕ) : Building (s.setVal c v) own st (l ++ [c]) (vs ++ [v]) := by
  have hnd := h.nodup
  have hcl : c ∉ st :: l := by
    intro hh
    have e : st :: (l ++ [c]) = (st :: l) ++ [c] := by simp
    rw [e, List.nodup_append] at hnd
    exact hnd.2.2 c hh c (by simp) rfl
  refine ⟨h.tmp, h.nodup, h.seg, ?_, ?_, h.nz⟩
  · have hv := h.vals
    rw [List.map_append] at hv ⊢
    have h1 := List.append_inj_left' hv (by simp)
    show l.map (Function.update s.val c v) ++ [c].map (Function.update s.val c v) = _
    rw [← h1]
    congr 1
    · exact List.map_congr_left (fun k hk => Function.update_of_ne (by
        rintro rfl; exact hcl (by simp [hk])) _ _)
    · simp
  · exact (Function.update_of_ne (by rintro rfl; exact hcl (by simp)) _ _).trans h.one

theorem Ext.setVal_tmp (h : Inv s start X own V PV) {c : ℕ} (hc : own c = .tmp) (v : ℕ) :
    Ext s own (s.setVal c v) own :=
  ⟨rfl, rfl, rfl, rfl, fun k hk => ⟨rfl, Function.update_of_ne (h.not_linked_tmp hc hk) _ _, rfl⟩⟩

/-- the loop at 1271-1282 -/
theorem copy_loop {o : LV} (w : List ℕ) (hw : w ≠ []) : ∀ {s : LV} {own : ℕ → Own} {k st cur j : ℕ}
    {l vs : List ℕ}, Reads o k w → Inv s start X own V PV → 0 < s.nSet →
    Building s own st (l ++ [cur]) (vs ++ [j]) →
    ∃ s' own' l', (whileLoop (σ := ℕ × ℕ × LV) (fun q => q.2.1 != 0)
      (fun q =>
        let s := q.2.2.setVal q.1 (o.val q.2.1)
        let next := o.nxt q.2.1
        if next = 0 then (q.1, next, s.setNxt q.1 0)
        else
          let g := s.getIdx
          (g.1, next, g.2.setNxt q.1 g.1)) (cur, k, s)).2.2
        = s'.setNxt ((st :: l').getLast (by simp)) 0 ∧
      Inv s' start X own' V PV ∧ Building s' own' st l' (vs ++ w) ∧ Ext s own s' own' := by
  induction w with
  | nil => exact absurd rfl hw
  | cons a w ih =>
    intro s own k st cur j l vs hr h hn hb
    obtain ⟨r1, r2, r3⟩ := hr
    have hcur : own cur = .tmp := (hb.tmp cur).mpr (by simp)
    have h1 := h.setVal_tmp hcur a
    have hb1 := hb.setLast a
    have he1 := Ext.setVal_tmp h hcur a
    rw [whileLoop_true (by simpa using r1)]
    dsimp only
    rw [r2]
    cases w with
    | nil =>
      have r4 : o.nxt k = 0 := r3
      rw [if_pos r4, r4, whileLoop_false (by simp)]
      exact ⟨s.setVal cur a, own, l ++ [cur], by simp, h1, hb1, he1⟩
    | cons b w =>
      have r4 : o.nxt k ≠ 0 := r3.1
      rw [if_neg r4]
      set s1 := s.setVal cur a with hs1
      obtain ⟨c, own2, a1, a2, a3, a4, a5⟩ := h1.append (by exact hn) hb1 ((s1.getIdx.2.setNxt cur s1.getIdx.1).val s1.getIdx.1)
      have hlast : (st :: (l ++ [cur])).getLast (by simp) = cur := by simp
      rw [hlast] at a1 a3 a4 a5
      have hap : LV.append (cur, s1) ((s1.getIdx.2.setNxt cur s1.getIdx.1).val s1.getIdx.1)
          = (s1.getIdx.1, s1.getIdx.2.setNxt cur s1.getIdx.1) := by
        unfold LV.append
        dsimp only
        rw [setVal_self]
      rw [hap] at a1 a3 a4 a5
      simp only at a1 a3 a4 a5
      rw [a1] at a3 a4 a5 ⊢
      obtain ⟨s', own', l', b1, b2, b3, b4⟩ := ih (by simp) r3 a3 (by rw [a5.nSet]; exact hn) a4
      refine ⟨s', own', l', b1, b2, ?_, he1.trans (a5.trans b4)⟩
      simpa using b3

/-- the copy of a list of another object, 1265-1283 -/
theorem Inv.copyList (h : Inv s start X own V PV) (hn : 0 < s.nSet) (ht : ∀ c, own c ≠ .tmp)
    {o : LV} {os : ℕ} {w : List ℕ} (hr : Reads o (o.nxt os) w) (hw : w ≠ []) :
    ∃ st own', (s.copyList o os).1 = st ∧ st ≠ 0 ∧ ¬ Live s.nSet start X st ∧
      Inv (s.copyList o os).2 start (st :: X) own' (Function.update V st w) PV ∧
      (∀ c, own' c ≠ .tmp) ∧ (s.copyList o os).2.start = s.start ∧
      (s.copyList o os).2.last = s.last ∧ (s.copyList o os).2.nSet = s.nSet := by
  obtain ⟨b1, b2, b3⟩ := h.begin_build hn ht s.start
  have hsame := getIdx_same s
  have e1 : ({ s.getIdx.2 with start := s.start } : LV) = s.getIdx.2 := by
    rw [← hsame.start]
  have e2 : ({ s with start := s.start } : LV) = s := rfl
  rw [e1] at b1 b2 b3
  rw [e2] at b3
  set g1 := s.getIdx with hg1
  set s1 := g1.2.setVal g1.1 1 with hs1
  have hs1n : s1.getIdx = (g1.2.getIdx.1, g1.2.getIdx.2.setVal g1.1 1) := getIdx_setVal _ _ _
  obtain ⟨c, own2, a1, a2, a3, a4, a5⟩ := b1.append (by rw [b3.nSet]; exact hn) b2
    ((s1.getIdx.2.setNxt g1.1 s1.getIdx.1).val s1.getIdx.1)
  have hlast : ([g1.1] : List ℕ).getLast (by simp) = g1.1 := rfl
  have hap : LV.append (g1.1, s1) ((s1.getIdx.2.setNxt g1.1 s1.getIdx.1).val s1.getIdx.1)
      = (s1.getIdx.1, s1.getIdx.2.setNxt g1.1 s1.getIdx.1) := by
    unfold LV.append
    dsimp only
    rw [setVal_self]
  rw [hlast, hap] at a1 a3 a4 a5
  simp only at a1 a3 a4 a5
  have hext := b3.trans a5
  rw [hs1n] at a1 a3 a4 a5 hext
  simp only at a1 a3 a4 a5 hext
  rw [List.nil_append, ← List.nil_append [c]] at a4
  obtain ⟨s', own', l', c1, c2, c3, c4⟩ := copy_loop w hw hr a3 (by rw [hext.nSet]; exact hn) a4
  rw [a1] at c1
  unfold LV.copyList
  dsimp only
  rw [← hg1, a1, c1]
  rw [List.nil_append] at c3
  obtain ⟨own3, d1, d2, d3⟩ := c2.finish c3 hw
  have hx := hext.trans c4
  refine ⟨g1.1, own3, rfl, c3.nz _ (by simp), ?_, d1, d2, hx.start, hx.last, hx.nSet⟩
  rw [← hx.nSet]; exact d3

/-- `assignment` from another object -/
theorem Has.assign' (h : Has s L P) {o : LV} {L' P' : ℕ → List ℕ} (h' : Has o L' P') {t v : ℕ}
    (ht : t < s.nSet) (hv : v < o.nSet) :
    Has (s.assignment t v (some o)) (Function.update L t (L' v)) (Function.update P t []) ∧
    (s.assignment t v (some o)).last = s.last ∧ (s.assignment t v (some o)).nSet = s.nSet := by
  have hempty := h'.empty_iff hv
  have hreads := h'.reads hv
  obtain ⟨own, V, PV, h, htmp, h1, h2⟩ := h
  unfold LV.assignment
  dsimp only
  by_cases h0 : o.start v = 0
  · rw [if_pos h0]
    dsimp only
    obtain ⟨⟨own', d1, d2⟩, d3, d4, d5⟩ := h.dropAdd ht
    refine ⟨⟨own', V, Function.update PV t [], ?_, fun c e => htmp c ((d2 c).mp e), ?_, ?_⟩, d4, d5⟩
    · have e : ((s.dropAdd t).setStart t 0).start = Function.update s.start t 0 := by
        show Function.update (s.dropAdd t).start t 0 = _
        rw [d3]; simp
      rw [e]; exact d1.withStart _
    · intro j hj
      replace hj : j < s.nSet := d5 ▸ hj
      show elems (Function.update (s.dropAdd t).start t 0) V j = _
      rw [elems_start, update_apply', d3, elems_start, h1 j hj, hempty.mp h0]
      split <;> simp
    · intro j hj
      replace hj : j < s.nSet := d5 ▸ hj
      rw [update_apply', update_apply', h2 j hj]
  · rw [if_neg h0]
    have hne : L' v ≠ [] := fun e => h0 (hempty.mpr e)
    obtain ⟨st, own1, c1, c2, c3, c4, c5, c6, c7, c8⟩ := h.copyList (by omega) htmp (hreads h0) hne
    set r := s.copyList o (o.start v) with hr
    rw [c1]
    rw [← c6] at c4
    obtain ⟨⟨own', d1, d2⟩, d3, d4, d5⟩ := c4.dropAdd (i := t) (by rw [c8]; exact ht)
    have hlk := d1.link (i := t) (by rw [d5, c8]; exact ht) (by simp)
      (Function.update (r.2.dropAdd t).start t st)
    refine ⟨⟨own', Function.update V st (L' v), Function.update PV t [], ?_,
      fun c e => c5 c ((d2 c).mp e), ?_, ?_⟩, d4.trans c7, d5.trans c8⟩
    · have e : ((r.2.dropAdd t).setStart t st).start
          = Function.update (Function.update r.2.start t 0) t st := by
        show Function.update (r.2.dropAdd t).start t st = _
        rw [d3]
      rw [e]; exact hlk
    · intro j hj
      replace hj : j < s.nSet := c8 ▸ (d5 ▸ hj)
      show elems (Function.update (r.2.dropAdd t).start t st) _ j = _
      rw [elems_start, update_apply' L, if_neg c2, Function.update_self]
      by_cases hjt : j = t
      · rw [if_pos hjt, if_pos hjt]
      · rw [if_neg hjt, if_neg hjt, d3, c6, elems_start, if_neg hjt,
          elems_update c3 V _ hj, h1 j hj]
    · intro j hj
      replace hj : j < s.nSet := c8 ▸ (d5 ▸ hj)
      rw [update_apply', update_apply', h2 j hj]

/-! ## `add_element` -/

/-- the loop at 926-938 -/
theorem add_loop1 {sB : LV} {ownB : ℕ → Own} (z : Zero sB) {e : ℕ} (he : e ≤ sB.last)
    (c : List ℕ) : ∀ {s : LV} {own : ℕ → Own} {p st : ℕ} {l vs : List ℕ},
    Chain sB.nxt p c → (∀ k ∈ c, Linked ownB k) → Inv s start X own V PV → 0 < s.nSet →
    Building s own st l vs → Ext sB ownB s own →
    ∃ c2 l' own' s', whileLoop (σ := ℕ × ℕ × LV) (fun q => decide (q.2.2.val q.1 < e))
        (fun q =>
          let value := q.2.2.val q.1
          let p := append q.2 value
          (p.2.nxt q.1, p)) (p, (st :: l).getLast (by simp), s)
        = (c2.headD 0, (st :: l').getLast (by simp), s') ∧
      Inv s' start X own' V PV ∧ 
      Building s' own' st l' (vs ++ (c.map sB.val).takeWhile (· < e)) ∧ Ext sB ownB s' own' ∧
      Chain sB.nxt (c2.headD 0) c2 ∧ (∀ k ∈ c2, k ∈ c) ∧
      c2.map sB.val = (c.map sB.val).dropWhile (· < e) := by
  induction c with
  | nil =>
    intro s own p st l vs hc hl h hn hb hx
    have hp : p = 0 := hc
    subst hp
    have hv := (hx.linked 0 (Or.inr (Or.inr rfl))).2.1
    rw [whileLoop_false (by simp [hv, z.val, he])]
    exact ⟨[], l, own, s, rfl, h, by simpa using hb, hx, rfl, by simp, rfl⟩
  | cons a c ih =>
    intro s own p st l vs hc hl h hn hb hx
    have hc' := hc
    obtain ⟨rfl, h2, h3⟩ := hc
    have hlp := hl p (by simp)
    have hv := (hx.linked p hlp).2.1
    by_cases hlt : sB.val p < e
    · rw [whileLoop_true (by simpa [hv] using hlt)]
      dsimp only
      obtain ⟨k, own1, a1, a2, a3, a4, a5⟩ := h.append hn hb (s.val p)
      have hx1 := hx.trans a5
      have hnx := (hx1.linked p hlp).2.2
      rw [hnx]
      have e1 : LV.append ((st :: l).getLast (by simp), s) (s.val p)
          = ((st :: (l ++ [k])).getLast (by simp),
            (LV.append ((st :: l).getLast (by simp), s) (s.val p)).2) := by
        rw [← a2, ← a1]
      rw [e1]
      obtain ⟨c2, l', own', s', b1, b2, b3, b4, b5, b6, b7⟩ := ih h3
        (fun k hk => hl k (by simp [hk])) a3 (by rw [a5.nSet]; exact hn) a4 hx1
      refine ⟨c2, l', own', s', b1, b2, ?_, b4, b5, fun k hk => by simp [b6 k hk], ?_⟩
      · rw [List.map_cons, List.takeWhile_cons_of_pos (by simpa using hlt), ← hv]
        simpa using b3
      · rw [List.map_cons, List.dropWhile_cons_of_pos (by simpa using hlt), b7]
    · rw [whileLoop_false (by simpa [hv] using hlt)]
      refine ⟨p :: c, l, own, s, rfl, h, ?_, hx, hc', fun k hk => hk, ?_⟩
      · rw [List.map_cons, List.takeWhile_cons_of_neg (by simpa using hlt)]; simpa using hb
      · rw [List.map_cons, List.dropWhile_cons_of_neg (by simpa using hlt)]

/-- the loop at 948-961 -/
theorem add_loop2 {sB : LV} {ownB : ℕ → Own} (z : Zero sB) 
    (c : List ℕ) : ∀ {s : LV} {own : ℕ → Own} {p st : ℕ} {l vs : List ℕ},
    Chain sB.nxt p c → (∀ k ∈ c, Linked ownB k) → (∀ x ∈ c.map sB.val, x < sB.last) →
    Inv s start X own V PV → 0 < s.nSet →
    Building s own st l vs → Ext sB ownB s own →
    ∃ l' own' s', (whileLoop (σ := ℕ × ℕ × ℕ × LV) (fun q => decide (q.1 < sB.last))
        (fun q =>
          let p := append q.2.2 q.1
          let next := p.2.nxt q.2.1
          (p.2.val next, next, p)) (sB.val p, p, (st :: l).getLast (by simp), s)).2.2
        = ((st :: l').getLast (by simp), s') ∧
      Inv s' start X own' V PV ∧
      Building s' own' st l' (vs ++ c.map sB.val) ∧ Ext sB ownB s' own' := by
  induction c with
  | nil =>
    intro s own p st l vs hc hl _ h hn hb hx
    have hp : p = 0 := hc
    subst hp
    rw [whileLoop_false (by simp [z.val])]
    exact ⟨l, own, s, rfl, h, by simpa using hb, hx⟩
  | cons a c ih =>
    intro s own p st l vs hc hl hlt h hn hb hx
    obtain ⟨rfl, h2, h3⟩ := hc
    have hlp := hl p (by simp)
    have hpl := hlt (sB.val p) (by simp)
    rw [whileLoop_true (by simpa using hpl)]
    dsimp only
    obtain ⟨k, own1, a1, a2, a3, a4, a5⟩ := h.append hn hb (sB.val p)
    have hx1 := hx.trans a5
    have hnx := (hx1.linked p hlp).2.2
    rw [hnx]
    have hlk : Linked ownB (sB.nxt p) := by
      cases c with
      | nil => exact Or.inr (Or.inr h3)
      | cons b c => rw [show sB.nxt p = b from h3.1]; exact hl b (by simp)
    rw [(hx1.linked _ hlk).2.1]
    have e1 : LV.append ((st :: l).getLast (by simp), s) (sB.val p)
        = ((st :: (l ++ [k])).getLast (by simp),
          (LV.append ((st :: l).getLast (by simp), s) (sB.val p)).2) := by
      rw [← a2, ← a1]
    rw [e1]
    obtain ⟨l', own', s', b1, b2, b3, b4⟩ := ih h3
      (fun k hk => hl k (by simp [hk])) (fun x hx => hlt x (by rw [List.map_cons]; simp [hx])) a3
      (by rw [a5.nSet]; exact hn) a4 hx1
    refine ⟨l', own', s', b1, b2, ?_, b4⟩
    rw [List.map_cons]
    simpa using b3

/-- the list after an element has been added -/
def addTo (x : ℕ) (l : List ℕ) : List ℕ :=
  if x ∈ l then l else l.takeWhile (· < x) ++ x :: l.dropWhile (· < x)

theorem refs_one {n : ℕ} {st : ℕ} {i j : ℕ} (hi : i < n) (hj : j < n)
    (h : refs n start [] st = 1) (hsi : start i = st) (hsj : start j = st) : j = i := by
  by_contra hne
  unfold refs at h
  have hsub : ({i, j} : Finset ℕ) ⊆ (Finset.range n).filter (fun k => start k = st) := by
    intro k hk
    simp only [Finset.mem_insert, Finset.mem_singleton] at hk
    rcases hk with rfl | rfl <;> simp [*]
  have := Finset.card_le_card hsub
  rw [Finset.card_pair (fun e => hne e.symm)] at this
  simp at h; omega

/-- `add_element` -/
theorem Has.add (h : Has s L P) {i x : ℕ} (hi : i < s.nSet) (hx : x < s.last)
    (hs : (L i).Pairwise (· < ·)) (hlt : ∀ y ∈ L i, y < s.last) :
    Has (s.add i x) (Function.update L i (addTo x (L i))) P ∧
    (s.add i x).last = s.last ∧ (s.add i x).nSet = s.nSet := by
  have hh := h
  have hz := h.zero (by omega)
  have hempty := h.empty_iff hi
  obtain ⟨own, V, PV, h, htmp, h1, h2⟩ := h
  unfold LV.add
  dsimp only
  by_cases h0 : s.start i = 0
  · rw [if_pos h0]
    obtain ⟨st, own', b1, b2, b3, b4, b5, b6, b7⟩ := h.build hi htmp h0 (vs := [x]) (by simp)
    show Has (s.build i [x]) _ _ ∧ (s.build i [x]).last = _ ∧ (s.build i [x]).nSet = _
    refine ⟨⟨own', Function.update V st [x], PV, by rw [b5]; exact b3, b4, ?_, ?_⟩, b6, b7⟩
    · intro j hj
      rw [b7] at hj
      rw [b5, elems_start, update_apply' L]
      by_cases hji : j = i
      · rw [if_pos hji, if_pos hji, if_neg b1, Function.update_self, hempty.mp h0]
        simp [addTo]
      · rw [if_neg hji, if_neg hji, elems_update b2 V _ hj, h1 j hj]
    · intro j hj; rw [b7] at hj; exact h2 j hj
  · rw [if_neg h0]
    set st := s.start i with hst
    have hlive : Live s.nSet s.start [] st := live_start hi [] h0
    obtain ⟨c, c1, c2, c3, c4, c5⟩ := h.blk st hlive
    have hLi : L i = V st := by rw [← h1 i hi]; unfold elems; rw [if_neg h0]
    obtain ⟨k1, k2, e1, e2, e3, e4⟩ := c1.locate hz (e := x) (by omega) (prev := st)
    have hloc : s.locate st x = ((st :: k1).getLast (by simp), k2.headD 0) := e2
    have hvl : s.val (k2.headD 0) = ((L i).dropWhile (· < x)).headD s.last := by
      rw [hLi, ← c4, ← e4]
      cases k2 with
      | nil => simp [hz.val]
      | cons a k2 => simp
    have hmem : x ∈ L i ↔ s.val (k2.headD 0) = x := by
      rw [hvl]; exact mem_iff_dropWhile hs hx
    rw [hloc]
    dsimp only
    by_cases hin : s.val (k2.headD 0) = x
    · rw [if_pos hin]
      have : addTo x (L i) = L i := by unfold addTo; rw [if_pos (hmem.mpr hin)]
      rw [this, Function.update_eq_self]
      exact ⟨hh, rfl, rfl⟩
    · rw [if_neg hin]
      have hadd : addTo x (L i) = (L i).takeWhile (· < x) ++ x :: (L i).dropWhile (· < x) := by
        unfold addTo; rw [if_neg (fun e => hin (hmem.mp e))]
      have hval := h.ref st hlive
      by_cases hone : s.val st = 1
      · rw [if_pos hone]
        obtain ⟨g1, g2, g3⟩ := h.getIdx (by omega)
        have hsame := getIdx_same s
        revert g1 g2 g3 hsame
        generalize s.getIdx = g
        obtain ⟨cc, s1⟩ := g
        intro g1 g2 g3 hsame
        simp only at g1 g2 g3 hsame ⊢
        have hown : ∀ k, k ∈ st :: c ↔ Function.update own cc Own.tmp k = .blk st := by
          intro k
          by_cases hk : k = cc
          · subst hk
            rw [Function.update_self]
            refine ⟨fun hm => ?_, fun e => by cases e⟩
            have := (c3 k).mp hm
            rcases g1 with g1 | g1 <;> rw [g1] at this <;> cases this
          · rw [Function.update_of_ne hk]; exact c3 k
        have hins := g3.insert (st := st) (by rw [hsame.nSet]; exact hlive) (l1 := k1) (l2 := k2)
          (by rw [hsame.nxt, ← e1]; exact c1) (by rw [← e1]; exact c2)
          (by rw [← e1]; exact hown) (c := cc) (x := x) (p := (st :: k1).getLast (by simp))
          (n := k2.headD 0) (by simp) g2 rfl rfl
        rw [hsame.val, e3, e4, c4, ← hLi, ← hadd] at hins
        refine ⟨⟨Function.update (Function.update own cc .tmp) cc (.blk st),
          Function.update V st (addTo x (L i)), PV, ?_, ?_, ?_, ?_⟩, hsame.last, hsame.nSet⟩
        · have e : (((s1.setNxt cc (k2.headD 0)).setVal cc x).setNxt
              ((st :: k1).getLast (by simp)) cc).start = s.start := hsame.start
          rw [e]; exact hins
        · intro k
          by_cases hk : k = cc
          · subst hk; simp
          · rw [Function.update_of_ne hk, Function.update_of_ne hk]; exact htmp k
        · intro j hj
          replace hj : j < s.nSet := hsame.nSet ▸ hj
          show elems s1.start _ j = _
          rw [hsame.start, update_apply']
          unfold elems
          by_cases hji : j = i
          · subst hji; rw [if_neg h0, if_pos rfl, Function.update_self]
          · rw [if_neg hji, ← h1 j hj]
            unfold elems
            by_cases hj0 : s.start j = 0
            · rw [if_pos hj0, if_pos hj0]
            · rw [if_neg hj0, if_neg hj0, Function.update_of_ne]
              intro e
              exact hji (refs_one (start := s.start) hi hj (by rw [← hval]; exact hone) rfl e)
        · intro j hj
          replace hj : j < s.nSet := hsame.nSet ▸ hj
          exact h2 j hj
      · rw [if_neg hone]
        have hdrop : refs s.nSet (Function.update s.start i 0) [] st + 1 = refs s.nSet s.start [] st :=
          refs_drop (s := s) hi h0
        have hother : ∀ k, k ≠ st → k ≠ 0 →
            refs s.nSet (Function.update s.start i 0) [] k = refs s.nSet s.start [] k :=
          fun k hk hk0 => nodup_refs (s := s) hi k hk0 hk
        have hpos : 0 < refs s.nSet (Function.update s.start i 0) [] st := by
          have := hlive.2; omega
        have hrec := h.recount (start' := Function.update s.start i 0) (X' := []) hlive hpos hother s.start
        have ev : refs s.nSet (Function.update s.start i 0) [] st = s.val st - 1 := by omega
        rw [ev] at hrec
        replace hrec : Inv (s.setVal st (s.val st - 1)) (Function.update s.start i 0) [] own V PV := hrec
        set s0 := s.setVal st (s.val st - 1) with hs0
        have hz0 : Zero s0 := hrec.zeroOf (by show 0 < s.nSet; omega)
        have hlive0 : Live s0.nSet (Function.update s.start i 0) [] st := ⟨h0, hpos⟩
        obtain ⟨d, d1, d2, d3, d4, d5⟩ := hrec.blk st hlive0
        obtain ⟨b1, b2, b3⟩ := hrec.begin_build (by show 0 < s.nSet; omega) htmp s0.start
        have hsame := getIdx_same s0
        have e1' : ({ s0.getIdx.2 with start := s0.start } : LV) = s0.getIdx.2 := by
          rw [← hsame.start]
        have e2' : ({ s0 with start := s0.start } : LV) = s0 := rfl
        rw [e1'] at b1 b2 b3
        rw [e2'] at b3
        revert b1 b2 b3
        generalize s0.getIdx = g
        obtain ⟨sn, s1⟩ := g
        intro b1 b2 b3
        simp only at b1 b2 b3 ⊢
        set s2 := s1.setVal sn 1 with hs2
        have hlst : Linked own st := Or.inr (Or.inl ⟨st, (d3 st).mp (by simp)⟩)
        have hld : ∀ k ∈ d, Linked own k := fun k hk => Or.inr (Or.inl ⟨st, (d3 k).mp (by simp [hk])⟩)
        rw [(b3.linked st hlst).2.2]
        obtain ⟨m2, l1, own1, t1, f1, f2, f3, f4, f5, f6, f7⟩ :=
          add_loop1 hz0 (e := x) (by show x ≤ s.last; omega) d d1 hld b1
            (by rw [b3.nSet]; show 0 < s.nSet; omega) b2 b3
        simp only [List.getLast_singleton] at f1
        rw [f1]
        dsimp only
        rw [List.nil_append] at f3
        obtain ⟨k, own2, a1, a2, a3, a4, a5⟩ := f2.append
          (by rw [f4.nSet]; show 0 < s.nSet; omega) f3 x
        have hx1 := f4.trans a5
        have ea : LV.append ((sn :: l1).getLast (by simp), t1) x
            = ((sn :: (l1 ++ [k])).getLast (by simp),
              (LV.append ((sn :: l1).getLast (by simp), t1) x).2) := by
          rw [← a2, ← a1]
        have hlm : Linked own (m2.headD 0) := by
          cases m2 with
          | nil => exact Or.inr (Or.inr rfl)
          | cons b m2 => exact hld b (f6 b (by simp))
        rw [ea, (f4.linked _ hlm).2.1]
        have hlast2 : s2.last = s0.last := b3.last
        rw [hlast2]
        obtain ⟨l2, own3, t2, i1, i2, i3, i4⟩ := add_loop2 hz0 m2 f5
          (fun k hk => hld k (f6 k hk)) (by
            intro y hy
            rw [f7, d4, ← hLi] at hy
            exact hlt y (List.dropWhile_sublist _ |>.subset hy)) a3
          (by rw [hx1.nSet]; show 0 < s.nSet; omega) a4 hx1
        rw [i1]
        dsimp only
        obtain ⟨own4, j1, j2, j3⟩ := i2.finish i3 (by simp)
        have hnew : (d.map s0.val).takeWhile (· < x) ++ [x] ++ m2.map s0.val = addTo x (L i) := by
          rw [f7, d4, ← hLi, hadd]; simp
        rw [hnew] at j1
        have hlk := j1.link (i := i) (by show i < t2.nSet; rw [i4.nSet]; exact hi) (by simp)
          (Function.update t2.start i sn)
        have hstart : t2.start = s.start := i4.start
        refine ⟨⟨own4, Function.update V sn (addTo x (L i)), PV, ?_, j2, ?_, ?_⟩, i4.last, i4.nSet⟩
        · have e : ((t2.setNxt ((sn :: l2).getLast (by simp)) 0).setStart i sn).start
              = Function.update (Function.update s.start i 0) i sn := by
            show Function.update t2.start i sn = _
            rw [hstart]; simp
          rw [e]; exact hlk
        · intro j hj
          replace hj : j < s.nSet := by have := i4.nSet; exact this ▸ hj
          show elems (Function.update t2.start i sn) _ j = _
          have hsn0 : sn ≠ 0 := i3.nz sn (by simp)
          rw [elems_start, update_apply' L, if_neg hsn0, Function.update_self]
          by_cases hji : j = i
          · rw [if_pos hji, if_pos hji]
          · rw [if_neg hji, if_neg hji, hstart, ← h1 j hj]
            unfold elems
            by_cases hj0 : s.start j = 0
            · rw [if_pos hj0, if_pos hj0]
            · rw [if_neg hj0, if_neg hj0, Function.update_of_ne]
              intro e
              apply j3
              rw [show t2.nSet = s.nSet from i4.nSet, ← e]
              have hl := live_start (start := Function.update s.start i 0) (i := j) hj [] (by
                rw [Function.update_of_ne hji]; exact hj0)
              rw [Function.update_of_ne hji] at hl; exact hl
        · intro j hj
          replace hj : j < s.nSet := by have := i4.nSet; exact this ▸ hj
          exact h2 j hj

end CppAD.SetVec.LV
