import Verif.SetVec.SvecGc

/-! # The operations of `svec_setvec`, up to the merge loops -/

namespace CppAD.SetVec.SV

variable {s : SV} {L P : ℕ → List ℕ} {own : ℕ → Own}

/-- push the elements of a list -/
def pushAll (s : SV) (l : List ℕ) : SV := l.foldl push s

theorem push_val_lt (s : SV) (v : ℕ) {c : ℕ} (hc : c < s.size) : (s.push v).val c = s.val c :=
  Function.update_of_ne (by omega) _ _

theorem push_val (s : SV) (v : ℕ) : (s.push v).val s.size = v := Function.update_self _ _ _

theorem pushAll_append (s : SV) (a b : List ℕ) : s.pushAll (a ++ b) = (s.pushAll a).pushAll b :=
  List.foldl_append ..

theorem pushAll_snoc (s : SV) (a : List ℕ) (x : ℕ) : s.pushAll (a ++ [x]) = (s.pushAll a).push x := by
  rw [pushAll_append]; rfl

theorem pushAll_same (l : List ℕ) : ∀ s : SV, (s.pushAll l).size = s.size + l.length ∧
    (s.pushAll l).last = s.last ∧ (s.pushAll l).nSet = s.nSet ∧ (s.pushAll l).start = s.start ∧
    (s.pushAll l).post = s.post ∧ (s.pushAll l).notUsed = s.notUsed ∧
    ∀ c < s.size, (s.pushAll l).val c = s.val c := by
  induction l with
  | nil => intro s; exact ⟨rfl, rfl, rfl, rfl, rfl, rfl, fun _ _ => rfl⟩
  | cons x l ih =>
    intro s
    obtain ⟨h1, h2, h3, h4, h5, h6, h7⟩ := ih (s.push x)
    refine ⟨?_, h2, h3, h4, h5, h6, fun c hc => ?_⟩
    · show ((s.push x).pushAll l).size = _
      rw [h1, List.length_cons]; show s.size + 1 + _ = _; omega
    · exact (h7 c (by show c < s.size + 1; omega)).trans (push_val_lt s x hc)

theorem pushAll_reads (l : List ℕ) (e : ℕ) : ∀ s : SV,
    Reads (s.pushAll (l ++ [e])).val e s.size l := by
  induction l with
  | nil => intro s; exact push_val s e
  | cons x l ih =>
    intro s
    refine ⟨?_, ih (s.push x)⟩
    show ((s.push x).pushAll (l ++ [e])).val s.size = x
    rw [(pushAll_same (l ++ [e]) (s.push x)).2.2.2.2.2.2 s.size (by show s.size < s.size + 1; omega)]
    exact push_val s x

/-- The tail of every operation that makes a new block: `s0` is the object
after the old version was dropped (`start t = 0`), and `s'` has the new block. -/
theorem Inv.build {s0 : SV} {start : ℕ → ℕ} (h : Inv s0 start L P own) {t : ℕ} (ht : t < s0.nSet)
    (h0 : start t = 0) {s' : SV} (hn : s'.nSet = s0.nSet) (hl : s'.last = s0.last)
    (hp : s'.post = s0.post) (hst : s'.start = Function.update start t s0.size)
    {l : List ℕ} (hne : l ≠ []) (hsort : l.Pairwise (· < ·)) (hlt : ∀ x ∈ l, x < s0.last)
    (hs : s'.size = s0.size + 3 + l.length) (hv : ∀ c < s0.size, s'.val c = s0.val c)
    (h1 : s'.val s0.size = 1) (h2 : s'.val (s0.size + 1) = l.length)
    (h3 : Reads s'.val s'.last (s0.size + 2) l) :
    ∃ own', Inv s' s'.start (Function.update L t l) P own' := by
  rw [hst]
  exact ⟨_, h.newBlock ht h0 hn hl hp hne hsort hlt hs hv h1 h2 h3⟩

theorem isElement_iff (h : Inv s s.start L P own) {i : ℕ} (hi : i < s.nSet) (x : ℕ) :
    s.isElement i x = true ↔ x ∈ L i := by
  unfold isElement
  dsimp only
  by_cases h0 : s.start i = 0
  · rw [if_pos h0, (h.nil i hi).mp h0]; simp
  · rw [if_neg h0]
    obtain ⟨b1, b2, _, _⟩ := h.blk i hi h0
    rw [b1, List.any_eq_true]
    constructor
    · rintro ⟨j, hj, he⟩
      have hj : j < (L i).length := by simpa using hj
      have he : s.val (s.start i + 2 + j) = x := by simpa using he
      rw [b2.get j hj] at he
      rw [← he]; exact List.getElem_mem hj
    · intro hx
      obtain ⟨j, hj, he⟩ := List.getElem_of_mem hx
      exact ⟨j, by simpa using hj, by rw [b2.get j hj]; simpa using he⟩

/-- the loops of `add_element`: push elements while they are below `b` -/
theorem add_loop (start last b : ℕ) (hb : b ≤ last) : ∀ (l : List ℕ) (k : ℕ) (s : SV),
    Reads s.val last (start + 2 + k) l → start + 2 + k + l.length < s.size → l.Pairwise (· < ·) →
    whileLoop (σ := ℕ × SV) (fun q => decide (q.2.val (start + 2 + q.1) < b))
        (fun q => (q.1 + 1, q.2.push (q.2.val (start + 2 + q.1)))) (k, s)
      = (k + (l.takeWhile (· < b)).length, s.pushAll (l.takeWhile (· < b))) := by
  intro l
  induction l with
  | nil =>
    intro k s h _ _
    have h' : s.val (start + 2 + k) = last := h
    rw [whileLoop_false (by simp [h']; omega)]
    rfl
  | cons x l ih =>
    intro k s h hs hp
    have hx : s.val (start + 2 + k) = x := h.1
    by_cases hxb : x < b
    · rw [whileLoop_true (by simpa [hx] using hxb)]
      simp only [List.length_cons] at hs
      rw [ih (k + 1) (s.push (s.val (start + 2 + k)))]
      · rw [List.takeWhile_cons, if_pos (by simpa using hxb), hx]
        simp only [List.length_cons]
        refine Prod.ext (by simp only; omega) rfl
      · exact h.2.congr fun c h1 h2 => push_val_lt s _ (by omega)
      · show _ < s.size + 1; omega
      · exact (List.pairwise_cons.mp hp).2
    · rw [whileLoop_false (by simpa [hx] using hxb)]
      rw [List.takeWhile_cons, if_neg (by simpa using hxb)]
      rfl

theorem Reads.drop {f : ℕ → ℕ} {e : ℕ} {l : List ℕ} : ∀ {c : ℕ}, Reads f e c l → ∀ k, k ≤ l.length →
    Reads f e (c + k) (l.drop k) := by
  induction l with
  | nil => intro c h k hk; simp at hk; subst hk; simpa using h
  | cons x l ih =>
    intro c h k hk
    cases k with
    | zero => simpa using h
    | succ k =>
      have := ih h.2 k (by simpa using hk)
      rw [show c + (k + 1) = c + 1 + k by omega]; simpa using this

theorem drop_takeWhile (l : List ℕ) (p : ℕ → Bool) :
    l.drop (l.takeWhile p).length = l.dropWhile p := by
  induction l with
  | nil => rfl
  | cons x l ih =>
    by_cases hx : p x = true
    · rw [List.takeWhile_cons, if_pos hx, List.dropWhile_cons, if_pos hx]; simpa using ih
    · rw [List.takeWhile_cons, if_neg hx, List.dropWhile_cons, if_neg hx]; rfl

theorem takeWhile_all {l : List ℕ} {b : ℕ} (h : ∀ x ∈ l, x < b) : l.takeWhile (· < b) = l := by
  induction l with
  | nil => rfl
  | cons a l ih =>
    rw [List.takeWhile_cons, if_pos (by simpa using h a (by simp)), ih fun x hx => h x (by simp [hx])]

theorem mem_takeWhile_lt {l : List ℕ} {b y : ℕ} (h : y ∈ l.takeWhile (· < b)) : y < b := by
  induction l with
  | nil => simp at h
  | cons a l ih =>
    rw [List.takeWhile_cons] at h
    split at h
    · rename_i ha
      rcases List.mem_cons.mp h with rfl | h
      · simpa using ha
      · exact ih h
    · simp at h

/-- the list with `x` inserted at its place -/
def ins (x : ℕ) (l : List ℕ) : List ℕ := l.takeWhile (· < x) ++ x :: l.dropWhile (· < x)

theorem mem_ins {x y : ℕ} {l : List ℕ} : y ∈ ins x l ↔ y = x ∨ y ∈ l := by
  unfold ins
  conv_rhs => rw [← List.takeWhile_append_dropWhile (p := (· < x)) (l := l)]
  simp only [List.mem_append, List.mem_cons]
  tauto

theorem dropWhile_ge {x : ℕ} {l : List ℕ} (hs : l.Pairwise (· < ·)) : ∀ y ∈ l.dropWhile (· < x), x ≤ y := by
  induction l with
  | nil => simp
  | cons a l ih =>
    rw [List.dropWhile_cons]
    rw [List.pairwise_cons] at hs
    split
    · exact ih hs.2
    · rename_i h
      have h : x ≤ a := by simpa using h
      intro y hy
      rcases List.mem_cons.mp hy with rfl | hy
      · exact h
      · have := hs.1 y hy; omega

theorem ins_sorted {x : ℕ} {l : List ℕ} (hs : l.Pairwise (· < ·)) (hx : x ∉ l) :
    (ins x l).Pairwise (· < ·) := by
  unfold ins
  have h1 := hs
  rw [← List.takeWhile_append_dropWhile (p := (· < x)) (l := l), List.pairwise_append] at h1
  obtain ⟨a1, a2, a3⟩ := h1
  have hlow : ∀ y ∈ l.takeWhile (· < x), y < x := fun y hy => mem_takeWhile_lt hy
  have hhigh : ∀ y ∈ l.dropWhile (· < x), x < y := by
    intro y hy
    have h2 := dropWhile_ge hs y hy
    have h3 : y ∈ l := (List.dropWhile_sublist _).mem hy
    rcases Nat.lt_or_ge x y with h4 | h4
    · exact h4
    · exact absurd (by omega : y = x) (fun e => hx (e ▸ h3))
  rw [List.pairwise_append]
  refine ⟨a1, List.pairwise_cons.mpr ⟨hhigh, a2⟩, ?_⟩
  intro a ha b hb
  rcases List.mem_cons.mp hb with rfl | hb
  · exact hlow a ha
  · exact a3 a ha b hb

theorem length_ins (x : ℕ) (l : List ℕ) : (ins x l).length = l.length + 1 := by
  unfold ins
  have := congrArg List.length (List.takeWhile_append_dropWhile (p := fun y => decide (y < x)) (l := l))
  rw [List.length_append] at this
  simp only [List.length_append, List.length_cons]; omega

/-- `add_element` -/
theorem Inv.add (h : Inv s s.start L P own) (hq : Quiet s) {i x : ℕ} (hi : i < s.nSet) (hx : x < s.last)
    (hP : ∀ j < s.nSet, P j = []) :
    ∃ l, (∃ own', Inv (s.add i x) (s.add i x).start (Function.update L i l) P own') ∧ Quiet (s.add i x) ∧
      (s.add i x).nSet = s.nSet ∧ (s.add i x).last = s.last ∧ ∀ y, y ∈ l ↔ y = x ∨ y ∈ L i := by
  unfold SV.add
  by_cases hel : s.isElement i x = true
  · rw [if_pos hel]
    have hm := (isElement_iff h hi x).mp hel
    refine ⟨L i, ⟨own, by rw [Function.update_eq_self]; exact h⟩, hq, rfl, rfl, fun y => ?_⟩
    constructor
    · exact Or.inr
    · rintro (rfl | h1)
      · exact hm
      · exact h1
  · rw [if_neg hel]
    have hm : x ∉ L i := fun e => hel ((isElement_iff h hi x).mpr e)
    dsimp only
    by_cases h0 : s.start i = 0
    · rw [if_pos h0]
      have hLi := (h.nil i hi).mp h0
      refine ⟨[x], ?_, ?_, rfl, rfl, fun y => by rw [hLi]; simp⟩
      · refine h.build (l := [x]) hi h0 ?_ ?_ ?_ ?_ (by simp) (by simp) (by simpa using hx) ?_ ?_ ?_ ?_ ?_
        · rfl
        · rfl
        · rfl
        · rfl
        · rfl
        · intro c hc
          simp only [setVal, setStart, extend]
          rw [Function.update_of_ne (by omega), Function.update_of_ne (by omega),
            Function.update_of_ne (by omega), Function.update_of_ne (by omega)]
        · simp only [setVal, setStart, extend]
          rw [Function.update_of_ne (by omega), Function.update_of_ne (by omega),
            Function.update_of_ne (by omega), Function.update_self]
        · simp only [setVal, setStart, extend]
          rw [Function.update_of_ne (by omega), Function.update_of_ne (by omega), Function.update_self]
          rfl
        · refine ⟨?_, ?_⟩
          · simp only [setVal, setStart, extend]
            rw [Function.update_of_ne (by omega), Function.update_self]
          · show Function.update _ _ _ _ = _
            rw [Function.update_self]; rfl
      · show s.notUsed < (s.size + 4) / 2 + 100
        have : s.notUsed < s.size / 2 + 100 := hq
        omega
    · rw [if_neg h0]
      have hd := h.drop hi
      obtain ⟨r1, r2⟩ := h.drop_reads hi hi h0
      have hsame := drop_same s i
      obtain ⟨_, _, b3, _⟩ := h.blk i hi h0
      obtain ⟨l1, l2⟩ := h.lst i hi
      revert hd r1 r2 hsame
      generalize s.drop i = d
      obtain ⟨n, s1⟩ := d
      intro hd r1 r2 hsame
      simp only at hd r1 r2 hsame ⊢
      have e1 := hsame.size
      have e2 := hsame.last
      -- the object before the first loop
      set s2 : SV := ((s1.extend 2).setVal s1.size 1).setVal (s1.size + 1) (s1.val (s.start i + 1) + 1) with hs2
      have hs2size : s2.size = s1.size + 2 := rfl
      have hs2low : ∀ c < s1.size, s2.val c = s1.val c := by
        intro c hc
        simp only [hs2, setVal, extend]
        rw [Function.update_of_ne (by omega), Function.update_of_ne (by omega)]
      have hr2 : Reads s2.val s.last (s.start i + 2 + 0) (L i) :=
        r2.congr fun c _ hc => hs2low c (by omega)
      rw [add_loop (s.start i) s.last x hx.le (L i) 0 s2 hr2 (by omega) l1]
      dsimp only
      set A := (L i).takeWhile (· < x) with hA
      have hAlen : A.length ≤ (L i).length := (List.takeWhile_prefix _).length_le
      have hdrop : ((L i).dropWhile (· < x)).length + A.length = (L i).length := by
        have h1 := congrArg List.length (List.takeWhile_append_dropWhile (p := fun y => decide (y < x)) (l := L i))
        rw [List.length_append, ← hA] at h1; omega
      rw [← pushAll_snoc]
      obtain ⟨p1, p2, p3, p4, p5, p6, p7⟩ := pushAll_same (A ++ [x]) s2
      have hr3 : Reads (s2.pushAll (A ++ [x])).val s.last (s.start i + 2 + (0 + A.length)) ((L i).dropWhile (· < x)) := by
        have := hr2.drop A.length hAlen
        rw [hA, drop_takeWhile] at this
        rw [show s.start i + 2 + (0 + A.length) = s.start i + 2 + 0 + A.length by omega]
        refine Reads.congr this fun c _ hc => p7 c ?_
        omega
      have hl2 : s2.last = s.last := e2
      rw [hl2, add_loop (s.start i) s.last s.last le_rfl ((L i).dropWhile (· < x)) (0 + A.length) _ hr3
        (by rw [p1, hs2size]; omega) (l1.sublist (List.dropWhile_sublist _)),
        takeWhile_all (fun y hy => l2 y ((List.dropWhile_sublist _).mem hy))]
      dsimp only
      rw [← pushAll_append, List.append_assoc, List.singleton_append, ← pushAll_snoc]
      have hins : A ++ x :: (L i).dropWhile (· < x) = ins x (L i) := rfl
      rw [hins]
      obtain ⟨q1, q2, q3, q4, q5, q6, q7⟩ := pushAll_same (ins x (L i) ++ [s.last]) s2
      have hbuilt : ∃ own', Inv ((s2.pushAll (ins x (L i) ++ [s.last])).setStart i s1.size)
          ((s2.pushAll (ins x (L i) ++ [s.last])).setStart i s1.size).start
          (Function.update (Function.update L i []) i (ins x (L i))) P own' := by
        refine hd.build (by rw [hsame.nSet]; exact hi) (Function.update_self _ _ _) ?_ ?_ ?_ ?_ ?_
          (ins_sorted l1 hm) ?_ ?_ ?_ ?_ ?_ ?_
        · exact q3
        · exact q2
        · exact q5
        · show Function.update (s2.pushAll (ins x (L i) ++ [s.last])).start i s1.size = _
          rw [q4]
          show Function.update s1.start i s1.size = _
          rw [Function.update_idem, hsame.start]
        · intro e; have := length_ins x (L i); rw [e] at this; simp at this
        · intro y hy
          rw [e2]
          rcases mem_ins.mp hy with rfl | hy
          · exact hx
          · exact l2 y hy
        · show (s2.pushAll (ins x (L i) ++ [s.last])).size = _
          rw [q1, hs2size, List.length_append]; simp only [List.length_singleton]; omega
        · intro c hc
          exact (q7 c (by omega)).trans (hs2low c hc)
        · refine (q7 _ (by omega)).trans ?_
          simp only [hs2, setVal, extend]
          rw [Function.update_of_ne (by omega), Function.update_self]
        · refine (q7 _ (by omega)).trans ?_
          simp only [hs2, setVal, extend]
          rw [Function.update_self, r1, length_ins]
        · show Reads (s2.pushAll (ins x (L i) ++ [s.last])).val (s2.pushAll (ins x (L i) ++ [s.last])).last _ _
          rw [q2, hl2]
          exact pushAll_reads (ins x (L i)) s.last s2
      obtain ⟨own', hb⟩ := hbuilt
      rw [Function.update_idem] at hb
      have hns : ((s2.pushAll (ins x (L i) ++ [s.last])).setStart i s1.size).nSet = s.nSet := q3.trans hsame.nSet
      have hls : ((s2.pushAll (ins x (L i) ++ [s.last])).setStart i s1.size).last = s.last := q2.trans hl2
      obtain ⟨z1, z2, z3, z4⟩ := hb.lost n (by rw [hns]; exact hP)
      exact ⟨ins x (L i), z1, z2, z3.trans hns, z4.trans hls, fun y => mem_ins⟩

end CppAD.SetVec.SV
