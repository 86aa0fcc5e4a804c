import Verif.SetVec.SvecMerge

/-! # `clear`, `assignment`, `binary_union` and `binary_intersection` of `svec_setvec` -/

namespace CppAD.SetVec.SV

variable {s : SV} {L P : ℕ → List ℕ} {own : ℕ → Own}

/-- result of an operation that gives set `t` the list `l` and forgets its posts -/
structure Done (s s' : SV) (L P : ℕ → List ℕ) (t : ℕ) (l : List ℕ) : Prop where
  inv : ∃ own', Inv s' s'.start (Function.update L t l) (Function.update P t []) own'
  quiet : Quiet s'
  nSet : s'.nSet = s.nSet
  last : s'.last = s.last

theorem Done.of_lost {s' : SV} {t n : ℕ} {l : List ℕ}
    (h : ∃ own', Inv s' s'.start (Function.update L t l) (Function.update P t []) own')
    (hn : s'.nSet = s.nSet) (hl : s'.last = s.last) (hP : ∀ j < s.nSet, j ≠ t → P j = []) :
    Done s (s'.lost n) L P t l := by
  obtain ⟨own', h⟩ := h
  obtain ⟨z1, z2, z3, z4⟩ := h.lost n (by
    rw [hn]
    intro j hj
    by_cases hjt : j = t
    · subst hjt; simp
    · rw [Function.update_of_ne hjt]; exact hP j hj hjt)
  exact ⟨z1, z2, z3.trans hn, z4.trans hl⟩

theorem Inv.clear (h : Inv s s.start L P own) {t : ℕ} (ht : t < s.nSet)
    (hP : ∀ j < s.nSet, j ≠ t → P j = []) : Done s (s.clear t) L P t [] := by
  have hd := h.drop ht
  have hsame := drop_same s t
  unfold SV.clear
  revert hd hsame
  generalize s.drop t = d
  obtain ⟨n, s1⟩ := d
  intro hd hsame
  simp only at hd hsame ⊢
  have hst : Function.update s.start t 0 = Function.update s1.start t 0 := by rw [hsame.start]
  by_cases hp : (s1.setStart t 0).post t ≠ 0
  · rw [if_pos hp]
    refine Done.of_lost ⟨own, ?_⟩ hsame.nSet hsame.last hP
    have := (hd.withStart (Function.update s1.start t 0) s1.notUsed).forget t
    rw [hst] at this; exact this
  · rw [if_neg hp]
    have hp0 : s1.post t = 0 := not_not.mp hp
    have hPt : P t = [] := (hd.pnil t (by rw [hsame.nSet]; exact ht)).mp hp0
    refine Done.of_lost ⟨own, ?_⟩ hsame.nSet hsame.last hP
    rw [show Function.update P t [] = P by rw [← hPt]; exact Function.update_eq_self t P]
    have := hd.withStart (Function.update s1.start t 0) s1.notUsed
    rw [hst] at this; exact this

/-- drop the old version and the posts of the target -/
theorem Inv.dropBoth (h : Inv s s.start L P own) {t : ℕ} (ht : t < s.nSet) :
    Inv ((s.drop t).2.dropPost t).2 (Function.update s.start t 0) (Function.update L t []) (Function.update P t []) own ∧
    ((s.drop t).2.dropPost t).2.last = s.last ∧ ((s.drop t).2.dropPost t).2.nSet = s.nSet ∧
    ((s.drop t).2.dropPost t).2.start = s.start ∧ ((s.drop t).2.dropPost t).2.size = s.size ∧
    ∀ j < s.nSet, s.start j ≠ 0 → ((s.drop t).2.dropPost t).2.val (s.start j + 1) = (L j).length ∧
      Reads ((s.drop t).2.dropPost t).2.val s.last (s.start j + 2) (L j) := by
  have hsame := drop_same s t
  have hd := (h.drop ht).dropPost (i := t) (by rw [hsame.nSet]; exact ht)
  obtain ⟨d1, d2, d3, d4, d5, _⟩ := dropPost_same (s.drop t).2 t
  refine ⟨hd, d1.trans hsame.last, d2.trans hsame.nSet, d3.trans hsame.start, d5.trans hsame.size, fun j hj h0 => ?_⟩
  rw [d4]; exact h.drop_reads ht hj h0

theorem Inv.assign (h : Inv s s.start L P own) (hq : Quiet s) {t v : ℕ} (ht : t < s.nSet) (hv : v < s.nSet)
    (hPv : P v = []) (hP : ∀ j < s.nSet, j ≠ t → P j = []) :
    Done s (s.assignment t v none) L P t (L v) := by
  unfold SV.assignment
  by_cases htv : t = v
  · subst htv
    rw [if_pos ⟨rfl, rfl⟩]
    refine ⟨⟨own, ?_⟩, hq, rfl, rfl⟩
    rw [Function.update_eq_self, show Function.update P t [] = P by rw [← hPv]; exact Function.update_eq_self t P]
    exact h
  · rw [if_neg (fun e => htv e.2)]
    obtain ⟨hd, d1, d2, d3, d4, d5⟩ := h.dropBoth ht
    dsimp only [Option.getD_none]
    revert hd d1 d2 d3 d4 d5
    generalize ((s.drop t).2.dropPost t) = p
    intro hd d1 d2 d3 d4 d5
    have hvt : v ≠ t := fun e => htv e.symm
    rw [d3]
    by_cases h0 : s.start v = 0
    · rw [h0, if_neg (by simp)]
      refine Done.of_lost ⟨own, ?_⟩ d2 d1 hP
      rw [(h.nil v hv).mp h0]
      have := hd.withStart (Function.update p.2.start t 0) p.2.notUsed
      rw [d3] at this
      show Inv _ (Function.update p.2.start t 0) _ _ _
      rw [d3]
      unfold setStart
      rw [d3]
      exact this
    · rw [if_pos h0]
      refine Done.of_lost ⟨own, ?_⟩ d2 d1 hP
      show Inv _ (Function.update p.2.start t (s.start v)) _ _ _
      rw [d3]
      have hd' := hd.withStart (Function.update p.2.start t (s.start v)) p.2.notUsed
      have hv' : v < p.2.nSet := by rw [d2]; exact hv
      have hsv : Function.update s.start t 0 v = s.start v := Function.update_of_ne hvt _ _
      have href := hd.ref v hv' (by rw [hsv]; exact h0)
      rw [hsv] at href
      obtain ⟨_, _, _, b4⟩ := hd.blk v hv' (by rw [hsv]; exact h0)
      rw [hsv] at b4
      have ht' : t < p.2.nSet := by rw [d2]; exact ht
      have hu := LV.refs_update ht' (Function.update s.start t 0) [] (s.start v)
      rw [Function.update_idem, Function.update_self] at hu
      have hL : ∀ j, Function.update L t (L v) j = if j = t then L v else L j := fun j => by
        by_cases hj : j = t
        · subst hj; simp
        · simp [hj]
      refine hd'.count (start' := Function.update s.start t (s.start v)) (L' := Function.update L t (L v))
        (b4 _ le_rfl (by omega)) ?_ ?_ ?_ ?_ ?_
      · intro j hj hj0
        by_cases hjt : j = t
        · subst hjt
          refine ⟨v, hv', ?_, ?_⟩
          · rw [hsv, Function.update_self]
          · rw [Function.update_of_ne hvt, Function.update_self]
        · exact ⟨j, hj, by simp [hjt], by simp [hjt]⟩
      · intro j hj
        have hj : j < p.2.nSet := hj
        by_cases hjt : j = t
        · subst hjt
          rw [Function.update_self, Function.update_self]; exact h.nil v hv
        · rw [Function.update_of_ne hjt, Function.update_of_ne hjt]; exact h.nil j (by rw [← d2]; exact hj)
      · intro j hj
        have hj : j < p.2.nSet := hj
        show _ ∧ ∀ x ∈ _, x < p.2.last
        rw [d1]
        by_cases hjt : j = t
        · subst hjt
          rw [Function.update_self]; exact h.lst v hv
        · rw [Function.update_of_ne hjt]; exact h.lst j (by rw [← d2]; exact hj)
      · intro j hj _ _
        have := hu (s.start v)
        rw [if_neg (fun e => h0 e.symm), if_pos rfl] at this
        show p.2.val (s.start v) + 1 = LV.refs p.2.nSet _ [] _
        rw [href]; omega
      · intro k hk hk0
        have := hu k
        rw [if_neg (fun e => hk0 e.symm), if_neg (fun e => hk e.symm)] at this
        show LV.refs p.2.nSet _ [] _ = LV.refs p.2.nSet _ [] _
        omega

theorem forRange_push (f : ℕ → ℕ) (s : SV) (n : ℕ) :
    forRange 0 n s (fun j s => s.push (f j)) = s.pushAll ((List.range n).map f) := by
  refine forRange_ind (Nat.zero_le n) (P := fun k (u : SV) => u = s.pushAll ((List.range k).map f)) rfl ?_
  intro k u _ _ hu
  rw [hu, List.range_succ, List.map_append, List.map_singleton, pushAll_snoc]

theorem Reads.map_range {f : ℕ → ℕ} {e c : ℕ} {l : List ℕ} (h : Reads f e c l) :
    (List.range l.length).map (fun j => f (c + j)) = l := by
  refine List.ext_getElem (by simp) fun j h1 h2 => ?_
  rw [List.getElem_map, List.getElem_range]; exact h.get j h2

/-- The end of the operations that make a new block for the target: `s0` is
the object after the drops. -/
theorem Inv.finish {s0 : SV} {start0 : ℕ → ℕ} {t n : ℕ}
    (h : Inv s0 (Function.update start0 t 0) (Function.update L t []) (Function.update P t []) own)
    (hst : s0.start = start0) (ht : t < s0.nSet) (hn : s0.nSet = s.nSet) (hl : s0.last = s.last)
    (hP : ∀ j < s.nSet, j ≠ t → P j = []) {l : List ℕ} (hne : l ≠ []) (hsort : l.Pairwise (· < ·))
    (hlt : ∀ x ∈ l, x < s.last) {s' : SV} (h1 : s'.val (s0.size + 1) = l.length)
    (h2 : ∀ c, c ≠ s0.size + 1 → s'.val c = ((s0.header t).pushAll (l ++ [s.last])).val c)
    (h3 : s'.size = ((s0.header t).pushAll (l ++ [s.last])).size)
    (h4 : s'.start = ((s0.header t).pushAll (l ++ [s.last])).start)
    (h5 : s'.post = ((s0.header t).pushAll (l ++ [s.last])).post)
    (h6 : s'.nSet = ((s0.header t).pushAll (l ++ [s.last])).nSet)
    (h7 : s'.last = ((s0.header t).pushAll (l ++ [s.last])).last) :
    Done s (s'.lost n) L P t l := by
  obtain ⟨q1, q2, q3, q4, q5, q6, q7⟩ := pushAll_same (l ++ [s.last]) (s0.header t)
  have hz : (s0.header t).size = s0.size + 2 := rfl
  rw [hz] at q1 q7
  refine Done.of_lost ?_ (by rw [h6, q3]; exact hn) (by rw [h7, q2]; exact hl) hP
  have := h.build (t := t) (s' := s') ht (Function.update_self _ _ _) (by rw [h6, q3]; rfl) (by rw [h7, q2]; rfl)
    (by rw [h5, q5]; rfl) (by rw [h4, q4, Function.update_idem, ← hst]; rfl) hne hsort (by rw [hl]; exact hlt)
    (by rw [h3, q1, List.length_append]; simp only [List.length_singleton]; omega)
    (fun c hc => by
      rw [h2 c (by omega), q7 c (by omega)]
      simp only [header, setVal, setStart, extend]
      rw [Function.update_of_ne (by omega)])
    (by
      rw [h2 _ (by omega), q7 _ (by omega)]
      simp only [header, setVal, setStart, extend]
      rw [Function.update_self])
    h1
    (by
      rw [h7, q2]
      have hr := pushAll_reads l s.last (s0.header t)
      rw [hz] at hr
      have hl' : (s0.header t).last = s.last := hl
      rw [hl']
      exact hr.congr fun k hk _ => h2 k (by omega))
  rw [Function.update_idem] at this
  exact this

theorem Inv.assign' (h : Inv s s.start L P own) {o : SV} {L' P' : ℕ → List ℕ} {own' : ℕ → Own}
    (h' : Inv o o.start L' P' own') (hl : s.last = o.last) {t v : ℕ} (ht : t < s.nSet) (hv : v < o.nSet)
    (hP : ∀ j < s.nSet, j ≠ t → P j = []) :
    Done s (s.assignment t v (some o)) L P t (L' v) := by
  unfold SV.assignment
  rw [if_neg (by simp)]
  obtain ⟨hd, d1, d2, d3, d4, d5⟩ := h.dropBoth ht
  dsimp only [Option.getD_some]
  revert hd d1 d2 d3 d4 d5
  generalize ((s.drop t).2.dropPost t) = p
  intro hd d1 d2 d3 d4 d5
  by_cases h0 : o.start v = 0
  · rw [if_pos h0]
    refine Done.of_lost ⟨own, ?_⟩ d2 d1 hP
    rw [(h'.nil v hv).mp h0]
    have := hd.withStart (Function.update p.2.start t 0) p.2.notUsed
    rw [d3] at this
    show Inv _ (Function.update p.2.start t 0) _ _ _
    rw [d3]
    unfold setStart
    rw [d3]
    exact this
  · rw [if_neg h0]
    obtain ⟨b1, b2, _, _⟩ := h'.blk v hv h0
    rw [forRange_push (fun j => o.val (o.start v + 2 + j)), b1, b2.map_range]
    set s1 : SV := (((p.2.extend 2).setStart t p.2.size).setVal p.2.size 1).setVal (p.2.size + 1) (L' v).length with hs1
    obtain ⟨q1, q2, q3, q4, q5, q6, q7⟩ := pushAll_same (L' v) s1
    have hlast : (s1.pushAll (L' v)).last = s.last := q2.trans d1
    rw [hlast, ← pushAll_snoc]
    -- writing the length first or last is the same
    have hval : ∀ (l : List ℕ) (u : SV) (a b : ℕ), b < u.size →
        (u.setVal b a).pushAll l = (u.pushAll l).setVal b a := by
      intro l
      induction l with
      | nil => intro u a b _; rfl
      | cons x l ih =>
        intro u a b hb
        show ((u.setVal b a).push x).pushAll l = ((u.push x).pushAll l).setVal b a
        rw [← ih (u.push x) a b (by show b < u.size + 1; omega)]
        congr 1
        simp only [push, setVal, extend]
        congr 1
        exact Function.update_comm (by omega) _ _ _
    have hs1' : s1.pushAll (L' v ++ [s.last]) = ((p.2.header t).pushAll (L' v ++ [s.last])).setVal (p.2.size + 1) (L' v).length :=
      hval _ _ _ _ (by show p.2.size + 1 < p.2.size + 2; omega)
    rw [hs1']
    refine hd.finish (s := s) d3 (by rw [d2]; exact ht) d2 d1 hP (fun e => h0 ((h'.nil v hv).mpr e)) (h'.lst v hv).1
      (by rw [hl]; exact (h'.lst v hv).2) (Function.update_self _ _ _) (fun c hc => Function.update_of_ne hc _ _) rfl rfl rfl rfl rfl

/-- the two operands of a binary operation -/
structure Opd (s : SV) (other : Option SV) (t l r : ℕ) (A B : List ℕ) (L P : ℕ → List ℕ) (own : ℕ → Own) : Prop where
  inv : Inv s s.start L P own
  quiet : Quiet s
  ht : t < s.nSet
  hl : l < s.nSet
  hP : ∀ j < s.nSet, j ≠ t → P j = []
  hPl : P l = []
  hA : A = L l
  rnone : other = none → r < s.nSet ∧ P r = [] ∧ B = L r
  rsome : ∀ o, other = some o → s.last = o.last ∧ r < o.nSet ∧ ∃ L' P' own', Inv o o.start L' P' own' ∧ B = L' r

section
variable {other : Option SV} {t l r : ℕ} {A B : List ℕ}

theorem Opd.left (h : Opd s other t l r A B L P own) : Done s (s.assignment t l none) L P t A := by
  rw [h.hA]; exact h.inv.assign h.quiet h.ht h.hl h.hPl h.hP

theorem Opd.right (h : Opd s other t l r A B L P own) : Done s (s.assignment t r other) L P t B := by
  cases ho : other with
  | none =>
    obtain ⟨h1, h2, h3⟩ := h.rnone ho
    rw [h3]; exact h.inv.assign h.quiet h.ht h1 h2 h.hP
  | some o =>
    obtain ⟨h1, h2, L', P', own', h3, h4⟩ := h.rsome o ho
    rw [h4]; exact h.inv.assign' h3 h1 h.ht h2 h.hP

theorem Opd.Asort (h : Opd s other t l r A B L P own) : A.Pairwise (· < ·) ∧ ∀ x ∈ A, x < s.last := by
  rw [h.hA]; exact h.inv.lst l h.hl

theorem Opd.Bsort (h : Opd s other t l r A B L P own) : B.Pairwise (· < ·) ∧ ∀ x ∈ B, x < s.last := by
  cases ho : other with
  | none =>
    obtain ⟨h1, h2, h3⟩ := h.rnone ho
    rw [h3]; exact h.inv.lst r h1
  | some o =>
    obtain ⟨h1, h2, L', P', own', h3, h4⟩ := h.rsome o ho
    rw [h4, h1]; exact h3.lst r h2

theorem Opd.Anil (h : Opd s other t l r A B L P own) : s.start l = 0 ↔ A = [] := by
  rw [h.hA]; exact h.inv.nil l h.hl

theorem Opd.Bnil (h : Opd s other t l r A B L P own) : (other.getD s).start r = 0 ↔ B = [] := by
  cases ho : other with
  | none =>
    obtain ⟨h1, h2, h3⟩ := h.rnone ho
    rw [h3]; exact h.inv.nil r h1
  | some o =>
    obtain ⟨h1, h2, L', P', own', h3, h4⟩ := h.rsome o ho
    rw [h4]; exact h3.nil r h2

theorem Opd.subset (h : Opd s other t l r A B L P own) :
    ((s.isSubset l r (other.getD s) = 1 ∨ s.isSubset l r (other.getD s) = 3) ↔ ∀ x ∈ A, x ∈ B) ∧
    ((s.isSubset l r (other.getD s) = 2 ∨ s.isSubset l r (other.getD s) = 3) ↔ ∀ x ∈ B, x ∈ A) := by
  refine isSubset_ok h.Asort.1 h.Bsort.1 h.Asort.2 h.Bsort.2 h.Anil.mp (fun h0 => ⟨fun e => h0 (h.Anil.mpr e), ?_⟩)
    h.Bnil.mp (fun h0 => ⟨fun e => h0 (h.Bnil.mpr e), ?_⟩)
  · rw [h.hA]; exact (h.inv.blk l h.hl h0).2.1
  · cases ho : other with
    | none =>
      obtain ⟨h1, h2, h3⟩ := h.rnone ho
      rw [ho] at h0
      rw [h3]; exact (h.inv.blk r h1 h0).2.1
    | some o =>
      obtain ⟨h1, h2, L', P', own', h3, h4⟩ := h.rsome o ho
      rw [ho] at h0
      rw [h4, h1]; exact (h3.blk r h2 h0).2.1

/-- what the merge loops read, after the drops -/
theorem Opd.reads (h : Opd s other t l r A B L P own) (hA : A ≠ []) (hB : B ≠ []) :
    Reads ((s.drop t).2.dropPost t).2.val s.last (s.start l + 2) A ∧ s.start l + 2 + A.length < s.size ∧
    Reads (other.getD ((s.drop t).2.dropPost t).2).val s.last ((other.getD s).start r + 2) B ∧
    (other = none → (other.getD s).start r + 2 + B.length < s.size) := by
  have ha0 : s.start l ≠ 0 := fun e => hA (h.Anil.mp e)
  have hb0 : (other.getD s).start r ≠ 0 := fun e => hB (h.Bnil.mp e)
  obtain ⟨_, _, _, _, _, d5⟩ := h.inv.dropBoth h.ht
  refine ⟨by rw [h.hA]; exact (d5 l h.hl ha0).2, ?_, ?_, ?_⟩
  · have := (h.inv.blk l h.hl ha0).2.2.1
    rw [h.hA]; omega
  · cases ho : other with
    | none =>
      obtain ⟨h1, h2, h3⟩ := h.rnone ho
      rw [ho] at hb0
      rw [h3]; exact (d5 r h1 hb0).2
    | some o =>
      obtain ⟨h1, h2, L', P', own', h3, h4⟩ := h.rsome o ho
      rw [ho] at hb0
      rw [h4, h1]; exact (h3.blk r h2 hb0).2.1
  · intro ho
    obtain ⟨h1, h2, h3⟩ := h.rnone ho
    rw [ho] at hb0 ⊢
    have := (h.inv.blk r h1 hb0).2.2.1
    rw [h3]
    simp only [Option.getD_none]; omega

theorem Opd.union (h : Opd s other t l r A B L P own) :
    ∃ m, Done s (s.union t l r other) L P t m ∧ ∀ x, x ∈ m ↔ x ∈ A ∨ x ∈ B := by
  obtain ⟨hs1, hs2⟩ := h.subset
  unfold SV.union
  dsimp only
  by_cases c1 : s.isSubset l r (other.getD s) = 2 ∨ s.isSubset l r (other.getD s) = 3
  · rw [if_pos c1]
    have := hs2.mp c1
    exact ⟨A, h.left, fun x => ⟨Or.inl, fun e => e.elim id (this x)⟩⟩
  · rw [if_neg c1]
    by_cases c2 : s.isSubset l r (other.getD s) = 1
    · rw [if_pos c2]
      have := hs1.mp (Or.inl c2)
      exact ⟨B, h.right, fun x => ⟨Or.inr, fun e => e.elim (this x) id⟩⟩
    · rw [if_neg c2]
      have hA : A ≠ [] := by
        rintro rfl
        have := hs1.mpr (by simp)
        omega
      have hB : B ≠ [] := by
        rintro rfl
        exact c1 (hs2.mpr (by simp))
      obtain ⟨ra, sa, rb, sb⟩ := h.reads hA hB
      obtain ⟨hd, d1, d2, d3, d4, _⟩ := h.inv.dropBoth h.ht
      revert hd d1 d2 d3 d4 ra rb
      generalize ((s.drop t).2.dropPost t) = p
      intro ra rb hd d1 d2 d3 d4
      -- the object with the header of the new block
      have hlow : ∀ c < p.2.size, (p.2.header t).val c = p.2.val c := by
        intro c hc
        simp only [header, setVal, setStart, extend]
        rw [Function.update_of_ne (by omega)]
      have hhead : (((p.2.extend 2).setStart t p.2.size).setVal p.2.size 1) = p.2.header t := rfl
      rw [hhead]
      have hlast : (p.2.header t).last = s.last := d1
      rw [hlast]
      have ra' : Reads (p.2.header t).val s.last (s.start l + 2) A :=
        ra.congr fun k _ hk => hlow k (by omega)
      have rb' : Reads (other.getD (p.2.header t)).val s.last ((other.getD s).start r + 2) B := by
        refine rb.congr fun k _ hk => getD_push hlow (fun e => ?_)
        have := sb e; omega
      obtain ⟨out, o1, o2, o3⟩ := unionLoop_ok ra' rb' (by show _ < p.2.size + 2; omega)
        (fun e => by have := sb e; show _ < p.2.size + 2; omega) h.Asort.1 h.Bsort.1 h.Asort.2 h.Bsort.2 p.2.size
      rw [o1, ← pushAll_snoc]
      have hsz : ((p.2.header t).pushAll (out ++ [s.last])).size = p.2.size + 2 + (out.length + 1) := by
        rw [(pushAll_same _ _).1, List.length_append]; rfl
      refine ⟨out, ?_, o3⟩
      refine hd.finish (s := s) d3 (by rw [d2]; exact h.ht) d2 d1 h.hP ?_ o2 ?_ ?_ (fun c hc => Function.update_of_ne hc _ _)
        rfl rfl rfl rfl rfl
      · rintro rfl
        cases A with
        | nil => exact hA rfl
        | cons x A => exact absurd ((o3 x).mpr (by simp)) (by simp)
      · intro x hx
        exact ((o3 x).mp hx).elim (h.Asort.2 x) (h.Bsort.2 x)
      · refine (Function.update_self _ _ _).trans ?_
        rw [hsz]; omega

theorem Opd.inter (h : Opd s other t l r A B L P own) :
    ∃ m, Done s (s.inter t l r other) L P t m ∧ ∀ x, x ∈ m ↔ x ∈ A ∧ x ∈ B := by
  obtain ⟨hs1, hs2⟩ := h.subset
  unfold SV.inter
  dsimp only
  by_cases c1 : s.isSubset l r (other.getD s) = 1 ∨ s.isSubset l r (other.getD s) = 3
  · rw [if_pos c1]
    have := hs1.mp c1
    exact ⟨A, h.left, fun x => ⟨fun e => ⟨e, this x e⟩, fun e => e.1⟩⟩
  · rw [if_neg c1]
    by_cases c2 : s.isSubset l r (other.getD s) = 2
    · rw [if_pos c2]
      have := hs2.mp (Or.inl c2)
      exact ⟨B, h.right, fun x => ⟨fun e => ⟨this x e, e⟩, fun e => e.2⟩⟩
    · rw [if_neg c2]
      have hA : A ≠ [] := by
        rintro rfl
        exact c1 (hs1.mpr (by simp))
      have hB : B ≠ [] := by
        rintro rfl
        have := hs2.mpr (by simp)
        omega
      obtain ⟨ra, sa, rb, sb⟩ := h.reads hA hB
      obtain ⟨hd, d1, d2, d3, d4, _⟩ := h.inv.dropBoth h.ht
      revert hd d1 d2 d3 d4 ra rb
      generalize ((s.drop t).2.dropPost t) = p
      intro ra rb hd d1 d2 d3 d4
      have hd0 : Inv (p.2.setStart t 0) (Function.update s.start t 0) (Function.update L t []) (Function.update P t []) own :=
        hd.withStart (Function.update p.2.start t 0) p.2.notUsed
      set s0 := p.2.setStart t 0 with hs0
      have hlast : s0.last = s.last := d1
      rw [hlast]
      have ra' : Reads s0.val s.last (s.start l + 2) A := ra
      have rb' : Reads (other.getD s0).val s.last ((other.getD s).start r + 2) B := by
        cases ho : other with
        | none => rw [ho] at rb; exact rb
        | some o => rw [ho] at rb; exact rb
      have hsz0 : s0.size = s.size := d4
      obtain ⟨out, o1, o2, o3, o4⟩ := interLoop_ok (t := t) ra' rb' (by omega) (fun e => by have := sb e; omega)
        h.Asort.1 h.Bsort.1 h.Asort.2 h.Bsort.2
      refine ⟨out, ?_, o1⟩
      by_cases ho : out = []
      · obtain ⟨e1, e2⟩ := o3 ho
        rw [if_neg (by rw [e1]; simp), e2, ho]
        refine Done.of_lost ⟨own, ?_⟩ d2 d1 h.hP
        show Inv s0 (Function.update p.2.start t 0) _ _ _
        rw [d3]; exact hd0
      · obtain ⟨e1, e2⟩ := o4 ho
        have hp : 0 < s.size := h.inv.pos (by have := h.ht; omega)
        rw [if_pos (by rw [e1]; omega), e1, e2, ← pushAll_snoc]
        have hsz : ((s0.header t).pushAll (out ++ [s.last])).size = s0.size + 2 + (out.length + 1) := by
          rw [(pushAll_same _ _).1, List.length_append]; rfl
        have hd1 : Inv s0 (Function.update s0.start t 0) (Function.update L t []) (Function.update P t []) own := by
          have : Function.update s0.start t 0 = Function.update s.start t 0 := by
            rw [hs0]; show Function.update (Function.update p.2.start t 0) t 0 = _
            rw [Function.update_idem, d3]
          rw [this]; exact hd0
        refine hd1.finish (s := s) rfl (by show t < p.2.nSet; rw [d2]; exact h.ht) d2 d1 h.hP ho o2 ?_ ?_
          (fun c hc => Function.update_of_ne hc _ _) rfl rfl rfl rfl rfl
        · intro x hx
          exact h.Asort.2 x ((o1 x).mp hx).1
        · refine (Function.update_self _ _ _).trans ?_
          rw [hsz]; omega

end

end CppAD.SetVec.SV
