import Verif.SetVec.SvecPost
import Verif.SetVec.ListThm

/-! # `svec_setvec` is a vector of sets, in the histories its posts allow -/

namespace CppAD.SetVec

/-! ## specification: which histories -/

/-- `n o i` is the number of calls `post_element(i, ·)` on object `o` since
the posts of that set were last processed or dropped. -/
def Cmd.pending (n : ℕ → ℕ → ℕ) : Cmd → (ℕ → ℕ → ℕ)
  | .resize o _ _ => Function.update n o fun _ => 0
  | .add _ _ _ => n
  | .post o i _ => Function.update n o (Function.update (n o) i (n o i + 1))
  | .process o i => Function.update n o (Function.update (n o) i 0)
  | .clear o i => Function.update n o (Function.update (n o) i 0)
  | .assignment o t _ _ => Function.update n o (Function.update (n o) t 0)
  | .union o t _ _ _ => Function.update n o (Function.update (n o) t 0)
  | .inter o t _ _ _ => Function.update n o (Function.update (n o) t 0)
  | .copy o p => Function.update n o (n p)
  | .swap o p => Function.update (Function.update n o (n p)) p (n o)

/-- The calls for which the theorem below is proved: at most ten elements are
posted to a set before they are processed, and while a set is changed nothing
is waiting to be processed in another set of the same object. -/
def Cmd.PostSafe (a : ℕ → Abs) (n : ℕ → ℕ → ℕ) : Cmd → Prop
  | .post o i _ => n o i < 10
  | .add o _ _ => ∀ j < (a o).nSet, n o j = 0
  | .process o t => ∀ j < (a o).nSet, j ≠ t → n o j = 0
  | .clear o t => ∀ j < (a o).nSet, j ≠ t → n o j = 0
  | .assignment o t _ _ => ∀ j < (a o).nSet, j ≠ t → n o j = 0
  | .union o t _ _ _ => ∀ j < (a o).nSet, j ≠ t → n o j = 0
  | .inter o t _ _ _ => ∀ j < (a o).nSet, j ≠ t → n o j = 0
  | _ => True

/-- every call of the history is `PostSafe` when it is made -/
def PostSafe : (ℕ → Abs) → (ℕ → ℕ → ℕ) → List Cmd → Prop
  | _, _, [] => True
  | a, n, c :: cs => c.PostSafe a n ∧ PostSafe (c.run a) (c.pending n) cs

namespace SV

/-- the representation relation -/
structure Rel (s : SV) (a : Abs) (n : ℕ → ℕ) : Prop where
  nSet : s.nSet = a.nSet
  last : s.last = a.last
  quiet : Quiet s
  has : ∃ L P own, Inv s s.start L P own ∧ ∀ i < a.nSet, (∀ x, x ∈ L i ↔ x ∈ a.sets i) ∧
    (∀ x, x ∈ P i ↔ x ∈ a.posts i) ∧ (P i).length = n i

variable {s : SV} {a : Abs} {n : ℕ → ℕ}

/-- an operation that gives set `t` the members of `S` -/
theorem Rel.put {t : ℕ} {s' : SV} {L P : ℕ → List ℕ} (h1 : s.nSet = a.nSet) (h2 : s.last = a.last)
    (hL : ∀ i < a.nSet, (∀ x, x ∈ L i ↔ x ∈ a.sets i) ∧ (∀ x, x ∈ P i ↔ x ∈ a.posts i) ∧ (P i).length = n i)
    {l : List ℕ} {S : Finset ℕ} (hd : Done s s' L P t l) (hm : ∀ x, x ∈ l ↔ x ∈ S) :
    Rel s' (a.put t S) (Function.update n t 0) where
  nSet := hd.nSet.trans h1
  last := hd.last.trans h2
  quiet := hd.quiet
  has := by
    obtain ⟨own', hi⟩ := hd.inv
    refine ⟨_, _, own', hi, fun i hi => ?_⟩
    by_cases hit : i = t
    · subst hit
      simp only [Abs.put, Function.update_self]
      exact ⟨hm, by simp, rfl⟩
    · simp only [Abs.put, Function.update_of_ne hit]
      exact hL i hi

theorem Rel.nils {L P : ℕ → List ℕ} {t : ℕ} (h1 : s.nSet = a.nSet)
    (hL : ∀ i < a.nSet, (∀ x, x ∈ L i ↔ x ∈ a.sets i) ∧ (∀ x, x ∈ P i ↔ x ∈ a.posts i) ∧ (P i).length = n i)
    (hn : ∀ j < a.nSet, j ≠ t → n j = 0) : ∀ j < s.nSet, j ≠ t → P j = [] := by
  intro j hj hjt
  rw [h1] at hj
  have := (hL j hj).2.2
  rw [hn j hj hjt] at this
  exact List.eq_nil_of_length_eq_zero this

theorem rel_fresh : Rel fresh Abs.fresh fun _ => 0 where
  nSet := rfl
  last := rfl
  quiet := by show 0 < 0 / 2 + 100; omega
  has := by
    refine ⟨fun _ => [], fun _ => [], fun _ => .no, ⟨?_, ?_, ?_, ?_, ?_, ?_, ?_, ?_⟩, ?_⟩
    · intro h; cases h
    all_goals intro i hi; cases hi

theorem rel_resize (s : SV) (m e : ℕ) (hm : m = 0 → e = 0) :
    Rel (s.resize m e) ⟨m, e, fun _ => ∅, fun _ => ∅⟩ fun _ => 0 := by
  by_cases h0 : m = 0
  · subst h0
    unfold resize
    rw [if_pos rfl, hm rfl]
    refine ⟨rfl, rfl, by show 0 < 0 / 2 + 100; omega, fun _ => [], fun _ => [], fun _ => .no, ⟨?_, ?_, ?_, ?_, ?_, ?_, ?_, ?_⟩, ?_⟩
    · intro h; cases h
    all_goals intro i hi; cases hi
  · have key : (s.resize m e).nSet = m ∧ (s.resize m e).last = e ∧ (s.resize m e).size = 1 ∧ (s.resize m e).notUsed = 1 ∧
        ∀ i < m, (s.resize m e).start i = 0 ∧ (s.resize m e).post i = 0 := by
      unfold resize
      rw [if_neg h0]
      dsimp only
      have := forRange_ind (Nat.zero_le m) (s := { s with last := e, nSet := m })
        (f := fun i (s : SV) => (s.setStart i 0).setPost i 0)
        (P := fun k (u : SV) => u.nSet = m ∧ u.last = e ∧ ∀ i < k, u.start i = 0 ∧ u.post i = 0)
        ⟨rfl, rfl, fun i hi => by omega⟩ (by
          rintro k u _ _ ⟨u1, u2, u3⟩
          refine ⟨u1, u2, fun i hi => ?_⟩
          show Function.update u.start k 0 i = 0 ∧ Function.update u.post k 0 i = 0
          by_cases hik : i = k
          · subst hik; simp
          · rw [Function.update_of_ne hik, Function.update_of_ne hik]; exact u3 i (by omega))
      exact ⟨this.1, this.2.1, rfl, rfl, this.2.2⟩
    obtain ⟨k1, k2, k3, k4, k5⟩ := key
    refine ⟨k1, k2, ?_, fun _ => [], fun _ => [], fun _ => .no, ⟨?_, ?_, ?_, ?_, ?_, ?_, ?_, ?_⟩, ?_⟩
    · unfold Quiet; rw [k3, k4]; omega
    · rw [k3]; simp
    · rw [k1]; intro i hi; simp [(k5 i hi).1]
    · rw [k1]; intro i hi h; exact absurd (k5 i hi).1 h
    · rw [k1]; intro i hi h; exact absurd (k5 i hi).1 h
    · intro i hi; simp
    · rw [k1]; intro i hi; simp [(k5 i hi).2]
    · rw [k1]; intro i hi h; exact absurd (k5 i hi).2 h
    · intro i hi; simp
    · intro i hi; simp

theorem rel_add (h : Rel s a n) {i x : ℕ} (hi : i < a.nSet) (hx : x < a.last) (hn : ∀ j < a.nSet, n j = 0) :
    Rel (s.add i x) { a with sets := Function.update a.sets i (insert x (a.sets i)) } n := by
  obtain ⟨h1, h2, hq, L, P, own, hinv, hL⟩ := h
  have hP : ∀ j < s.nSet, P j = [] := fun j hj =>
    Rel.nils (t := j + 1) h1 hL (fun j hj _ => hn j hj) j hj (by omega)
  obtain ⟨l, ⟨own', r1⟩, r2, r3, r4, r5⟩ := hinv.add hq (by rw [h1]; exact hi) (by rw [h2]; exact hx) hP
  refine ⟨r3.trans h1, r4.trans h2, r2, _, _, own', r1, fun j hj => ?_⟩
  by_cases hji : j = i
  · subst hji
    simp only [Function.update_self]
    exact ⟨fun y => by rw [r5 y, Finset.mem_insert, (hL j hj).1 y], (hL j hj).2⟩
  · simp only [Function.update_of_ne hji]; exact hL j hj

theorem rel_post (h : Rel s a n) {i x : ℕ} (hi : i < a.nSet) (hx : x < a.last) (hn : n i < 10) :
    Rel (s.postElement i x) { a with posts := Function.update a.posts i (insert x (a.posts i)) }
      (Function.update n i (n i + 1)) := by
  obtain ⟨h1, h2, hq, L, P, own, hinv, hL⟩ := h
  obtain ⟨⟨own', r1⟩, r2, r3, r4⟩ := hinv.postElement hq (i := i) (x := x) (by rw [h1]; exact hi) (by rw [h2]; exact hx)
    (by rw [(hL i hi).2.2]; exact hn)
  refine ⟨r3.trans h1, r4.trans h2, r2, _, _, own', r1, fun j hj => ?_⟩
  by_cases hji : j = i
  · subst hji
    simp only [Function.update_self]
    refine ⟨(hL j hj).1, fun y => ?_, ?_⟩
    · rw [List.mem_append, (hL j hj).2.1 y, Finset.mem_insert]
      simp [or_comm]
    · rw [List.length_append, (hL j hj).2.2]; rfl
  · simp only [Function.update_of_ne hji]; exact hL j hj

theorem rel_process (h : Rel s a n) {i : ℕ} (hi : i < a.nSet) (hn : ∀ j < a.nSet, j ≠ i → n j = 0) :
    Rel (s.process i) (a.put i (a.sets i ∪ a.posts i)) (Function.update n i 0) := by
  obtain ⟨h1, h2, hq, L, P, own, hinv, hL⟩ := h
  obtain ⟨m, hd, hm⟩ := hinv.process hq (i := i) (by rw [h1]; exact hi) (Rel.nils h1 hL hn)
  exact Rel.put h1 h2 hL hd fun x => by rw [hm x, Finset.mem_union, (hL i hi).1 x, (hL i hi).2.1 x]

theorem rel_clear (h : Rel s a n) {i : ℕ} (hi : i < a.nSet) (hn : ∀ j < a.nSet, j ≠ i → n j = 0) :
    Rel (s.clear i) (a.put i ∅) (Function.update n i 0) := by
  obtain ⟨h1, h2, hq, L, P, own, hinv, hL⟩ := h
  exact Rel.put h1 h2 hL (hinv.clear (t := i) (by rw [h1]; exact hi) (Rel.nils h1 hL hn)) fun x => by simp

theorem rel_assign (h : Rel s a n) {t v : ℕ} (ht : t < a.nSet) (hv : v < a.nSet) (hpv : a.posts v = ∅)
    (hn : ∀ j < a.nSet, j ≠ t → n j = 0) :
    Rel (s.assignment t v none) (a.put t (a.sets v)) (Function.update n t 0) := by
  obtain ⟨h1, h2, hq, L, P, own, hinv, hL⟩ := h
  have hPv : P v = [] := LV.nil_of_mem fun x => by rw [(hL v hv).2.1 x, hpv]
  exact Rel.put h1 h2 hL (hinv.assign hq (t := t) (v := v) (by rw [h1]; exact ht) (by rw [h1]; exact hv) hPv
    (Rel.nils h1 hL hn)) (hL v hv).1

theorem rel_assign' (h : Rel s a n) {s' : SV} {a' : Abs} {n' : ℕ → ℕ} (h' : Rel s' a' n') {t v : ℕ}
    (ht : t < a.nSet) (hv : v < a'.nSet) (hl : a.last = a'.last) (hn : ∀ j < a.nSet, j ≠ t → n j = 0) :
    Rel (s.assignment t v (some s')) (a.put t (a'.sets v)) (Function.update n t 0) := by
  obtain ⟨h1, h2, hq, L, P, own, hinv, hL⟩ := h
  obtain ⟨h1', h2', hq', L', P', own', hinv', hL'⟩ := h'
  exact Rel.put h1 h2 hL (hinv.assign' hinv' (by rw [h2, h2', hl]) (t := t) (v := v) (by rw [h1]; exact ht)
    (by rw [h1']; exact hv) (Rel.nils h1 hL hn)) (hL' v hv).1

/-- the operands of a binary operation with the object itself -/
theorem Rel.opd (h : Rel s a n) {t l r : ℕ} (ht : t < a.nSet) (hl : l < a.nSet) (hr : r < a.nSet)
    (hpl : a.posts l = ∅) (hpr : a.posts r = ∅) (hn : ∀ j < a.nSet, j ≠ t → n j = 0) :
    ∃ A B L P own, Opd s none t l r A B L P own ∧ (∀ x, x ∈ A ↔ x ∈ a.sets l) ∧ (∀ x, x ∈ B ↔ x ∈ a.sets r) ∧
      ∀ i < a.nSet, (∀ x, x ∈ L i ↔ x ∈ a.sets i) ∧ (∀ x, x ∈ P i ↔ x ∈ a.posts i) ∧ (P i).length = n i := by
  obtain ⟨h1, h2, hq, L, P, own, hinv, hL⟩ := h
  have hP : ∀ v < a.nSet, a.posts v = ∅ → P v = [] := fun v hv e => LV.nil_of_mem fun x => by rw [(hL v hv).2.1 x, e]
  refine ⟨L l, L r, L, P, own, ⟨hinv, hq, by rw [h1]; exact ht, by rw [h1]; exact hl, Rel.nils h1 hL hn, hP l hl hpl, rfl,
    fun _ => ⟨by rw [h1]; exact hr, hP r hr hpr, rfl⟩, fun o ho => by cases ho⟩, (hL l hl).1, (hL r hr).1, hL⟩

/-- the operands of a binary operation with another object -/
theorem Rel.opd' (h : Rel s a n) {s' : SV} {a' : Abs} {n' : ℕ → ℕ} (h' : Rel s' a' n') {t l r : ℕ}
    (ht : t < a.nSet) (hl : l < a.nSet) (hr : r < a'.nSet) (hlast : a.last = a'.last)
    (hpl : a.posts l = ∅) (hn : ∀ j < a.nSet, j ≠ t → n j = 0) :
    ∃ A B L P own, Opd s (some s') t l r A B L P own ∧ (∀ x, x ∈ A ↔ x ∈ a.sets l) ∧ (∀ x, x ∈ B ↔ x ∈ a'.sets r) ∧
      ∀ i < a.nSet, (∀ x, x ∈ L i ↔ x ∈ a.sets i) ∧ (∀ x, x ∈ P i ↔ x ∈ a.posts i) ∧ (P i).length = n i := by
  obtain ⟨h1, h2, hq, L, P, own, hinv, hL⟩ := h
  obtain ⟨h1', h2', hq', L', P', own', hinv', hL'⟩ := h'
  have hP : ∀ v < a.nSet, a.posts v = ∅ → P v = [] := fun v hv e => LV.nil_of_mem fun x => by rw [(hL v hv).2.1 x, e]
  refine ⟨L l, L' r, L, P, own, ⟨hinv, hq, by rw [h1]; exact ht, by rw [h1]; exact hl, Rel.nils h1 hL hn, hP l hl hpl, rfl,
    (fun ho => by cases ho), fun o ho => ?_⟩, (hL l hl).1, (hL' r hr).1, hL⟩
  cases ho
  exact ⟨by rw [h2, h2', hlast], by rw [h1']; exact hr, L', P', own', hinv', rfl⟩

theorem rel_upd {w : ℕ → SV} {a : ℕ → Abs} {n : ℕ → ℕ → ℕ} (h : ∀ o, Rel (w o) (a o) (n o)) (o : ℕ)
    {s : SV} {b : Abs} {m : ℕ → ℕ} (hs : Rel s b m) (o' : ℕ) :
    Rel (Function.update w o s o') (Function.update a o b o') (Function.update n o m o') := by
  by_cases ho : o' = o
  · subst ho; simpa using hs
  · rw [Function.update_of_ne ho, Function.update_of_ne ho, Function.update_of_ne ho]; exact h o'

theorem rel_step {w : ℕ → SV} {a : ℕ → Abs} {n : ℕ → ℕ → ℕ} (h : ∀ o, Rel (w o) (a o) (n o)) (c : Cmd)
    (hpre : c.Pre a) (hsafe : c.PostSafe a n) (o : ℕ) : Rel (impl.run w c o) (c.run a o) (c.pending n o) := by
  cases c with
  | resize q m e => exact rel_upd h q (rel_resize (w q) m e hpre) o
  | add q i x =>
    have h1 := rel_upd h q (rel_add (h q) hpre.1 hpre.2 hsafe) o
    rw [Function.update_eq_self] at h1
    exact h1
  | post q i x => exact rel_upd h q (rel_post (h q) hpre.1 hpre.2 hsafe) o
  | process q i => exact rel_upd h q (rel_process (h q) hpre hsafe) o
  | clear q i => exact rel_upd h q (rel_clear (h q) hpre hsafe) o
  | assignment q t v p =>
    obtain ⟨h1, h2, h3, h4⟩ := hpre
    refine rel_upd h q ?_ o
    by_cases hop : q = p
    · subst hop; simp only [otherOf, if_true]; exact rel_assign (h q) h1 h2 h4 hsafe
    · simp only [otherOf, if_neg hop]
      exact rel_assign' (h q) (h p) h1 h2 h3 hsafe
  | union q t l r p =>
    obtain ⟨h1, h2, h3, h4, h5, h6⟩ := hpre
    refine rel_upd h q ?_ o
    by_cases hop : q = p
    · subst hop; simp only [otherOf, if_true]
      obtain ⟨A, B, L, P, own, ho, hA, hB, hL⟩ := (h q).opd h1 h2 h3 h5 h6 hsafe
      obtain ⟨m, hd, hm⟩ := ho.union
      exact Rel.put (h q).nSet (h q).last hL hd fun x => by rw [hm x, hA x, hB x, Finset.mem_union]
    · simp only [otherOf, if_neg hop]
      obtain ⟨A, B, L, P, own, ho, hA, hB, hL⟩ := (h q).opd' (h p) h1 h2 h3 h4 h5 hsafe
      obtain ⟨m, hd, hm⟩ := ho.union
      exact Rel.put (h q).nSet (h q).last hL hd fun x => by rw [hm x, hA x, hB x, Finset.mem_union]
  | inter q t l r p =>
    obtain ⟨h1, h2, h3, h4, h5, h6⟩ := hpre
    refine rel_upd h q ?_ o
    by_cases hop : q = p
    · subst hop; simp only [otherOf, if_true]
      obtain ⟨A, B, L, P, own, ho, hA, hB, hL⟩ := (h q).opd h1 h2 h3 h5 h6 hsafe
      obtain ⟨m, hd, hm⟩ := ho.inter
      exact Rel.put (h q).nSet (h q).last hL hd fun x => by rw [hm x, hA x, hB x, Finset.mem_inter]
    · simp only [otherOf, if_neg hop]
      obtain ⟨A, B, L, P, own, ho, hA, hB, hL⟩ := (h q).opd' (h p) h1 h2 h3 h4 h5 hsafe
      obtain ⟨m, hd, hm⟩ := ho.inter
      exact Rel.put (h q).nSet (h q).last hL hd fun x => by rw [hm x, hA x, hB x, Finset.mem_inter]
  | copy q p => exact rel_upd h q (h p) o
  | swap q p => exact rel_upd (rel_upd h q (h p)) p (h q) o

theorem rel_all (cs : List Cmd) : ∀ (w : ℕ → SV) (a : ℕ → Abs) (n : ℕ → ℕ → ℕ), (∀ o, Rel (w o) (a o) (n o)) →
    Legal a cs → PostSafe a n cs → ∀ o, ∃ m, Rel (impl.runAll w cs o) (SetVec.runAll a cs o) m := by
  induction cs with
  | nil => intro w a n h _ _ o; exact ⟨_, h o⟩
  | cons c cs ih =>
    intro w a n h hl hp
    exact ih _ _ _ (fun o => rel_step h c hl.1 hp.1 o) hl.2 hp.2

/-! ## queries -/

theorem iterate_reads (s : SV) (k : ℕ) : ∀ (t : ℕ) (l : List ℕ), (∀ x ∈ l, x < s.last) →
    (t = 0 ∧ l = [] ∨ t ≠ 0 ∧ l ≠ [] ∧ Reads s.val s.last t l) →
    s.deref (s.next^[k] t) = l.getD k s.last := by
  induction k with
  | zero =>
    rintro t l hl (⟨rfl, rfl⟩ | ⟨h0, hne, hr⟩)
    · rfl
    · rw [Function.iterate_zero_apply]
      unfold deref
      rw [if_neg h0, hr.head]
      cases l with
      | nil => exact absurd rfl hne
      | cons x l => rfl
  | succ k ih =>
    rintro t l hl (⟨rfl, rfl⟩ | ⟨h0, hne, hr⟩)
    · rw [Function.iterate_succ_apply]
      exact (ih 0 [] (by simp) (Or.inl ⟨rfl, rfl⟩)).trans (by simp)
    · rw [Function.iterate_succ_apply]
      cases l with
      | nil => exact absurd rfl hne
      | cons x l =>
        have hr1 := hr.2
        have hv : s.val (t + 1) = l.headD s.last := hr1.head
        cases l with
        | nil =>
          have : s.next t = 0 := by unfold next; rw [if_pos h0]; exact if_pos hv
          rw [this]
          exact (ih 0 [] (by simp) (Or.inl ⟨rfl, rfl⟩)).trans (by simp)
        | cons y l =>
          have hy := hl y (by simp)
          have : s.next t = t + 1 := by
            unfold next
            rw [if_pos h0, if_neg]
            rw [hv]; show y ≠ s.last; omega
          rw [this, ih (t + 1) (y :: l) (fun z hz => hl z (by simp only [List.mem_cons] at hz ⊢; exact Or.inr hz))
            (Or.inr ⟨by omega, by simp, hr1⟩)]
          simp

theorem agrees (h : Rel s a n) : impl.Agrees s a where
  nSet := h.nSet
  last := h.last
  isElement := by
    intro i hi _ x _
    obtain ⟨h1, h2, hq, L, P, own, hinv, hL⟩ := h
    rw [← (hL i hi).1 x]
    exact isElement_iff hinv (by rw [h1]; exact hi) x
  item := by
    intro i hi _ k
    obtain ⟨h1, h2, hq, L, P, own, hinv, hL⟩ := h
    have his : i < s.nSet := by rw [h1]; exact hi
    obtain ⟨l1, l2⟩ := hinv.lst i his
    rw [← LV.sort_unique l1 (hL i hi).1, ← h2]
    refine iterate_reads s k (s.begin i) (L i) l2 ?_
    unfold begin
    dsimp only
    by_cases h0 : s.start i = 0
    · rw [if_pos h0]; exact Or.inl ⟨rfl, (hinv.nil i his).mp h0⟩
    · rw [if_neg h0]
      exact Or.inr ⟨by omega, fun e => h0 ((hinv.nil i his).mpr e), (hinv.blk i his h0).2.1⟩

theorem number_agrees (h : Rel s a n) : impl.NumberAgrees s a := by
  intro i hi _
  obtain ⟨h1, h2, hq, L, P, own, hinv, hL⟩ := h
  have his : i < s.nSet := by rw [h1]; exact hi
  have hcard : (a.sets i).card = (L i).length := by
    rw [LV.sort_unique (hinv.lst i his).1 (hL i hi).1, Finset.length_sort]
  rw [hcard]
  show s.number i = _
  unfold number
  dsimp only
  by_cases h0 : s.start i = 0
  · rw [if_pos h0, (hinv.nil i his).mp h0]; rfl
  · rw [if_neg h0, (hinv.blk i his h0).1]

/-- **The contiguous implementation is a vector of sets**, after every history
of legal calls on any number of objects in which at most ten elements are
posted to a set before they are processed and nothing is waiting in one set
of an object while another set of that object is changed: membership, the
number of elements, and iteration in increasing order without repetition,
ending with `end`, are those of the vector of mathematical sets.  Sharing,
copy on write, and compaction of the data are included.  What is missing is
the restriction on posts: `svec_setvec_wrong_growth` and
`svec_setvec_wrong_compaction` show that without it the claim is false. -/
theorem svec_setvec_history_partial (cs : List Cmd) (hl : Legal (fun _ => Abs.fresh) cs)
    (hp : PostSafe (fun _ => Abs.fresh) (fun _ _ => 0) cs) (o : ℕ) :
    impl.Agrees (impl.runAll (fun _ => fresh) cs o) (SetVec.runAll (fun _ => Abs.fresh) cs o) ∧
    impl.NumberAgrees (impl.runAll (fun _ => fresh) cs o)
      (SetVec.runAll (fun _ => Abs.fresh) cs o) := by
  obtain ⟨m, h⟩ := rel_all cs (fun _ => fresh) (fun _ => Abs.fresh) (fun _ _ => 0) (fun _ => rel_fresh) hl hp o
  exact ⟨agrees h, number_agrees h⟩

/-- a history with sharing, self assignment, copy on write, posts and two objects -/
example : Legal (fun _ => Abs.fresh) LV.sample ∧ PostSafe (fun _ => Abs.fresh) (fun _ _ => 0) LV.sample := by
  constructor
  · simp [LV.sample, Legal, Cmd.Pre, Cmd.run, Abs.fresh, Abs.put]
  · simp [LV.sample, PostSafe, Cmd.PostSafe, Cmd.pending, Cmd.run, Abs.fresh, Abs.put]
    intro j _ hj; simp [Function.update, hj]

/-- a history with enough garbage for a compaction: a hundred times an element is added and the set cleared -/
example : Legal (fun _ => Abs.fresh) (.resize 0 2 9 :: (List.replicate 100 [Cmd.add 0 0 5, .add 0 1 3, .clear 0 0]).flatten) ∧
    PostSafe (fun _ => Abs.fresh) (fun _ _ => 0)
      (.resize 0 2 9 :: (List.replicate 100 [Cmd.add 0 0 5, .add 0 1 3, .clear 0 0]).flatten) := by
  have key : ∀ (m : ℕ) (a : ℕ → Abs) (n : ℕ → ℕ → ℕ), (a 0).nSet = 2 → (a 0).last = 9 → (∀ i, n 0 i = 0) →
      Legal a (List.replicate m [Cmd.add 0 0 5, .add 0 1 3, .clear 0 0]).flatten ∧
      PostSafe a n (List.replicate m [Cmd.add 0 0 5, .add 0 1 3, .clear 0 0]).flatten := by
    intro m
    induction m with
    | zero => intro a n _ _ _; exact ⟨trivial, trivial⟩
    | succ m ih =>
      intro a n h1 h2 h3
      have hnext := ih (Cmd.run (Cmd.run (Cmd.run a (.add 0 0 5)) (.add 0 1 3)) (.clear 0 0))
        (Cmd.pending n (.clear 0 0)) (by simp [Cmd.run, Abs.put, h1]) (by simp [Cmd.run, Abs.put, h2])
        (fun i => by by_cases hi : i = 0 <;> simp [Cmd.pending, h3, Function.update, hi])
      rw [List.replicate_succ, List.flatten_cons]
      refine ⟨⟨by simp [Cmd.Pre, h1, h2], by simp [Cmd.Pre, Cmd.run, h1, h2], by simp [Cmd.Pre, Cmd.run, h1], hnext.1⟩,
        fun j _ => h3 j, fun j _ => h3 j, fun j _ _ => h3 j, hnext.2⟩
  have := key 100 (Cmd.run (fun _ => Abs.fresh) (.resize 0 2 9)) (Cmd.pending (fun _ _ => 0) (.resize 0 2 9))
    (by simp [Cmd.run]) (by simp [Cmd.run]) (fun i => by simp [Cmd.pending])
  exact ⟨⟨by simp [Cmd.Pre], this.1⟩, trivial, this.2⟩

/-! ## sparsity patterns given by the user -/

/-- svec_setvec.hpp:1452-1496 `sparsity_user2internal`; `user[i]` is a
`std::set<size_t>`, which is iterated in increasing order -/
def ofUser (s : SV) (user : ℕ → Finset ℕ) (nSet last : ℕ) (transpose : Bool) : SV :=
  let s := s.resize nSet last
  if transpose then
    forRange 0 last s fun j s => ((user j).sort (· ≤ ·)).foldl (fun s i => s.add i j) s
  else
    forRange 0 nSet s fun i s => ((user i).sort (· ≤ ·)).foldl (fun s j => s.add i j) s

theorem rel_add_col (l : List ℕ) (j : ℕ) : ∀ {s : SV} {a : Abs}, Rel s a (fun _ => 0) → (∀ i ∈ l, i < a.nSet) →
    j < a.last → Rel (l.foldl (fun s i => s.add i j) s)
      { a with sets := fun i => if i ∈ l then insert j (a.sets i) else a.sets i } (fun _ => 0) := by
  induction l with
  | nil => intro s a h _ _; simpa using h
  | cons i l ih =>
    intro s a h hl hj
    have h1 := ih (rel_add h (hl i (by simp)) hj fun _ _ => rfl) (fun k hk => hl k (by simp [hk])) hj
    rw [List.foldl_cons]
    convert h1 using 2
    funext k
    by_cases hk : k = i
    · subst hk; simp
    · simp [hk]

theorem rel_add_row (l : List ℕ) (i : ℕ) : ∀ {s : SV} {a : Abs}, Rel s a (fun _ => 0) → i < a.nSet →
    (∀ j ∈ l, j < a.last) → Rel (l.foldl (fun s j => s.add i j) s)
      { a with sets := Function.update a.sets i (a.sets i ∪ l.toFinset) } (fun _ => 0) := by
  induction l with
  | nil => intro s a h _ _; simpa using h
  | cons j l ih =>
    intro s a h hi hl
    have h1 := ih (rel_add h hi (hl j (by simp)) fun _ _ => rfl) hi (fun k hk => hl k (by simp [hk]))
    rw [List.foldl_cons]
    convert h1 using 2
    funext k
    by_cases hk : k = i
    · subst hk; simp
    · simp [hk]

/-- **A sparsity pattern given by the user as a vector of sets becomes exactly
that vector of sets**, or its transpose, whatever the object held before. -/
theorem svec_setvec_ofUser (s : SV) (user : ℕ → Finset ℕ) (nSet last : ℕ)
    (hn : nSet = 0 → last = 0) (transpose : Bool)
    (huser : if transpose then ∀ j < last, ∀ i ∈ user j, i < nSet
      else ∀ i < nSet, ∀ j ∈ user i, j < last) :
    impl.Agrees (s.ofUser user nSet last transpose)
      ⟨nSet, last, fun i => if i < nSet then (if transpose then
          (Finset.range last).filter (fun j => i ∈ user j) else user i) else ∅, fun _ => ∅⟩ := by
  have h0 := rel_resize s nSet last hn
  cases transpose
  · simp only [Bool.false_eq_true, if_false] at huser ⊢
    unfold ofUser
    dsimp only
    rw [if_neg (by simp)]
    have := forRange_ind (Nat.zero_le nSet) (s := s.resize nSet last)
      (f := fun i s => ((user i).sort (· ≤ ·)).foldl (fun s j => s.add i j) s)
      (P := fun k (u : SV) => Rel u ⟨nSet, last, fun i => if i < k then user i else ∅, fun _ => ∅⟩ fun _ => 0)
      (by simpa using h0) (by
        intro k u _ hk hu
        have h1 := rel_add_row ((user k).sort (· ≤ ·)) k hu hk (fun j hj => huser k hk j (by simpa using hj))
        convert h1 using 2
        funext i
        by_cases hik : i = k
        · subst hik; simp
        · rw [Function.update_of_ne hik]
          have : i < k + 1 ↔ i < k := by omega
          simp only [this])
    exact agrees this
  · simp only [if_true] at huser ⊢
    unfold ofUser
    dsimp only
    rw [if_pos rfl]
    have h1 := forRange_ind (Nat.zero_le last) (s := s.resize nSet last)
      (f := fun j s => ((user j).sort (· ≤ ·)).foldl (fun s i => s.add i j) s)
      (P := fun k (u : SV) => Rel u ⟨nSet, last, fun i => (Finset.range k).filter (fun j => i ∈ user j), fun _ => ∅⟩ fun _ => 0)
      (by simpa using h0) (by
        intro k u _ hk hu
        have h1 := rel_add_col ((user k).sort (· ≤ ·)) k hu (fun i hi => huser k hk i (by simpa using hi)) hk
        convert h1 using 2
        funext i
        rw [Finset.range_add_one, Finset.filter_insert]
        simp)
    have h2 := agrees h1
    refine ⟨h2.nSet, h2.last, fun i hi hp x hx => ?_, fun i hi hp k => ?_⟩
    · rw [h2.isElement i hi rfl x hx]
      have hi' : i < nSet := hi
      simp only [hi', if_true]
    · rw [h2.item i hi rfl k]
      have hi' : i < nSet := hi
      simp only [hi', if_true]

example : impl.Agrees (fresh.ofUser (fun i => if i = 0 then {1, 3} else {0}) 2 4 false)
    ⟨2, 4, fun i => if i < 2 then (if i = 0 then {1, 3} else {0}) else ∅, fun _ => ∅⟩ :=
  svec_setvec_ofUser fresh (fun i => if i = 0 then {1, 3} else {0}) 2 4 (by simp) false (by
    intro i hi j hj
    by_cases h : i = 0
    · simp [h] at hj; omega
    · simp [h] at hj; omega)

end SV
end CppAD.SetVec
