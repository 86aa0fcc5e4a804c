import Verif.SetVec.SvecOps

/-! # The reading and merging loops of `svec_setvec` -/

namespace CppAD.SetVec.SV

/-- `a` is what remains of the sorted list `A` when everything smaller than
the elements of `a` and `b` has been passed -/
structure Rem (A a b : List ℕ) : Prop where
  sub : ∀ x ∈ a, x ∈ A
  sorted : a.Pairwise (· < ·)
  passed : ∀ x ∈ A, x ∈ a ∨ ∀ y ∈ a ++ b, x < y

theorem Rem.init {A : List ℕ} (h : A.Pairwise (· < ·)) (b : List ℕ) : Rem A A b :=
  ⟨fun _ h => h, h, fun _ h => Or.inl h⟩

theorem Rem.weaken {A a b b' : List ℕ} (h : Rem A a b) (hb : ∀ x ∈ b', x ∈ b) : Rem A a b' :=
  ⟨h.sub, h.sorted, fun x hx => (h.passed x hx).imp id fun h1 y hy => h1 y (by
    rcases List.mem_append.mp hy with h2 | h2
    · simp [h2]
    · simp [hb y h2])⟩

theorem Rem.next {A a b b' : List ℕ} {x : ℕ} (h : Rem A (x :: a) b) (hb : ∀ y ∈ b', y ∈ b)
    (hx : ∀ y ∈ b', x < y) : Rem A a b' := by
  have hs := List.pairwise_cons.mp h.sorted
  refine ⟨fun y hy => h.sub y (by simp [hy]), hs.2, fun z hz => ?_⟩
  rcases h.passed z hz with h1 | h1
  · rcases List.mem_cons.mp h1 with rfl | h1
    · refine Or.inr fun y hy => ?_
      rcases List.mem_append.mp hy with h2 | h2
      · exact hs.1 y h2
      · exact hx y h2
    · exact Or.inl h1
  · refine Or.inr fun y hy => h1 y ?_
    rcases List.mem_append.mp hy with h2 | h2
    · simp [h2]
    · simp [hb y h2]

/-- `x` is smaller than the head, so smaller than everything -/
theorem lt_all {b : List ℕ} {x e : ℕ} (hs : b.Pairwise (· < ·)) (h : x < b.headD e) : ∀ y ∈ b, x < y := by
  cases b with
  | nil => simp
  | cons z b =>
    have h : x < z := h
    intro y hy
    rcases List.mem_cons.mp hy with rfl | hy
    · exact h
    · have := (List.pairwise_cons.mp hs).1 y hy; omega

theorem headD_cons_of_lt {a : List ℕ} {e : ℕ} (h : a.headD e < e) : ∃ x a', a = x :: a' ∧ a.headD e = x := by
  cases a with
  | nil => exact absurd h (lt_irrefl _)
  | cons x a => exact ⟨x, a, rfl, rfl⟩

theorem headD_le {a : List ℕ} {e : ℕ} (h : ∀ x ∈ a, x < e) : a.headD e ≤ e := by
  cases a with
  | nil => exact le_rfl
  | cons x a => exact (h x (by simp)).le

/-- invariant of the loop of `is_subset` -/
structure SubInv (f g : ℕ → ℕ) (e : ℕ) (A B : List ℕ) (ea eb : ℕ) (q : Sub) (a b : List ℕ) : Prop where
  ra : Reads f e q.one a
  rb : Reads g e q.two b
  la : q.one + a.length = ea
  lb : q.two + b.length = eb
  rema : Rem A a b
  remb : Rem B b a
  oneT : q.oneSub = true → ∀ x ∈ A, x ∈ a ∨ x ∈ B
  oneF : q.oneSub = false → ∃ x ∈ A, x ∉ B
  twoT : q.twoSub = true → ∀ x ∈ B, x ∈ b ∨ x ∈ A
  twoF : q.twoSub = false → ∃ x ∈ B, x ∉ A

theorem not_mem_of_rem {B b a : List ℕ} {x e : ℕ} (h : Rem B b a) (hx : x ∈ a) (hb : x < b.headD e) : x ∉ B := by
  intro hB
  rcases h.passed x hB with h1 | h1
  · exact absurd (lt_all h.sorted hb x h1) (lt_irrefl _)
  · exact absurd (h1 x (by simp [hx])) (lt_irrefl _)

theorem isSubset_ok {s o : SV} {one two : ℕ} {A B : List ℕ} (hA : A.Pairwise (· < ·)) (hB : B.Pairwise (· < ·))
    (hAe : ∀ x ∈ A, x < s.last) (hBe : ∀ x ∈ B, x < s.last)
    (h1 : s.start one = 0 → A = []) (h1' : s.start one ≠ 0 → A ≠ [] ∧ Reads s.val s.last (s.start one + 2) A)
    (h2 : o.start two = 0 → B = []) (h2' : o.start two ≠ 0 → B ≠ [] ∧ Reads o.val s.last (o.start two + 2) B) :
    ((s.isSubset one two o = 1 ∨ s.isSubset one two o = 3) ↔ ∀ x ∈ A, x ∈ B) ∧
    ((s.isSubset one two o = 2 ∨ s.isSubset one two o = 3) ↔ ∀ x ∈ B, x ∈ A) := by
  have key : ∀ l : List ℕ, l ≠ [] → ¬ ∀ x ∈ l, x ∈ ([] : List ℕ) := by
    intro l hl h
    cases l with
    | nil => exact hl rfl
    | cons x l => exact absurd (h x (by simp)) (by simp)
  unfold isSubset
  dsimp only
  by_cases ha0 : s.start one = 0
  · rw [if_pos ha0, h1 ha0]
    by_cases hb0 : o.start two = 0
    · rw [if_pos hb0, h2 hb0]; simp
    · rw [if_neg hb0]
      have := key B (h2' hb0).1
      exact ⟨⟨fun _ x hx => absurd hx (by simp), fun _ => Or.inl rfl⟩,
        ⟨fun h => by simp at h, fun h => absurd h this⟩⟩
  · rw [if_neg ha0]
    by_cases hb0 : o.start two = 0
    · rw [if_pos hb0, h2 hb0]
      have := key A (h1' ha0).1
      constructor
      · constructor
        · intro h; omega
        · intro h; exact absurd h this
      · simp
    · rw [if_neg hb0]
      obtain ⟨_, ra⟩ := h1' ha0
      obtain ⟨_, rb⟩ := h2' hb0
      obtain ⟨hI, hc⟩ := whileLoop_rule (σ := Sub)
        (c := fun q => (q.oneSub || q.twoSub) && decide (min (s.val q.one) (o.val q.two) < s.last))
        (b := fun q =>
          let valueOne := s.val q.one
          let valueTwo := o.val q.two
          let valueUnion := min valueOne valueTwo
          let q := if valueUnion < valueOne then { q with twoSub := false } else { q with one := q.one + 1 }
          if valueUnion < valueTwo then { q with oneSub := false } else { q with two := q.two + 1 })
        (fun q => ∃ a b, SubInv s.val o.val s.last A B (s.start one + 2 + A.length) (o.start two + 2 + B.length) q a b)
        (fun q => (s.start one + 2 + A.length - q.one) + (o.start two + 2 + B.length - q.two))
        (by
          rintro q ⟨a, b, h⟩ hc
          simp only [Bool.and_eq_true, decide_eq_true_eq] at hc
          obtain ⟨_, hc⟩ := hc
          have va := h.ra.head
          have vb := h.rb.head
          have la := h.la
          have lb := h.lb
          dsimp only
          rcases Nat.lt_trichotomy (s.val q.one) (o.val q.two) with hlt | heq | hgt
          · rw [min_eq_left hlt.le, if_neg (lt_irrefl _)]
            simp only [if_pos hlt]
            rw [min_eq_left hlt.le, va] at hc
            obtain ⟨x, a', rfl, hx⟩ := headD_cons_of_lt hc
            rw [hx] at va
            rw [va, vb] at hlt
            have hall := lt_all h.remb.sorted hlt
            have hnB := not_mem_of_rem h.remb (by simp) hlt
            have hxA := h.rema.sub x (by simp)
            refine ⟨⟨a', b, h.ra.2, h.rb, ?_, lb, h.rema.next (fun _ h => h) hall,
              h.remb.weaken (fun y hy => by simp [hy]), fun e => (by cases e), fun _ => ⟨x, hxA, hnB⟩, h.twoT, h.twoF⟩, ?_⟩
            · simp only [List.length_cons] at la; show q.one + 1 + _ = _; omega
            · simp only [List.length_cons] at la; omega
          · rw [heq, min_self, if_neg (lt_irrefl _)]
            simp only [if_neg (lt_irrefl (o.val q.two))]
            rw [heq, min_self, vb] at hc
            obtain ⟨x, b', rfl, hx⟩ := headD_cons_of_lt hc
            rw [hx] at vb hc
            have hc' : a.headD s.last < s.last := by rw [← va, heq, vb]; exact hc
            obtain ⟨y, a', rfl, hy⟩ := headD_cons_of_lt hc'
            have hxy : y = x := by rw [← hy, ← va, heq, vb]
            subst hxy
            have hba := List.pairwise_cons.mp h.remb.sorted
            have hab := List.pairwise_cons.mp h.rema.sorted
            refine ⟨⟨a', b', h.ra.2, h.rb.2, ?_, ?_, h.rema.next (fun z hz => by simp [hz]) hba.1,
              h.remb.next (fun z hz => by simp [hz]) hab.1, fun e z hz => ?_, h.oneF, fun e z hz => ?_, h.twoF⟩, ?_⟩
            · simp only [List.length_cons] at la; show q.one + 1 + _ = _; omega
            · simp only [List.length_cons] at lb; show q.two + 1 + _ = _; omega
            · rcases h.oneT e z hz with h1 | h1
              · rcases List.mem_cons.mp h1 with rfl | h1
                · exact Or.inr (h.remb.sub z (by simp))
                · exact Or.inl h1
              · exact Or.inr h1
            · rcases h.twoT e z hz with h1 | h1
              · rcases List.mem_cons.mp h1 with rfl | h1
                · exact Or.inr (h.rema.sub z (by simp))
                · exact Or.inl h1
              · exact Or.inr h1
            · simp only [List.length_cons] at la lb; omega
          · rw [min_eq_right hgt.le, if_pos hgt]
            simp only [if_neg (lt_irrefl (o.val q.two))]
            rw [min_eq_right hgt.le, vb] at hc
            obtain ⟨x, b', rfl, hx⟩ := headD_cons_of_lt hc
            rw [hx] at vb
            rw [va, vb] at hgt
            have hall := lt_all h.rema.sorted hgt
            have hnA := not_mem_of_rem h.rema (by simp) hgt
            have hxB := h.remb.sub x (by simp)
            refine ⟨⟨a, b', h.ra, h.rb.2, la, ?_, h.rema.weaken (fun y hy => by simp [hy]),
              h.remb.next (fun _ h => h) hall, h.oneT, h.oneF, fun e => (by cases e), fun _ => ⟨x, hxB, hnA⟩⟩, ?_⟩
            · simp only [List.length_cons] at lb; show q.two + 1 + _ = _; omega
            · simp only [List.length_cons] at lb; omega)
        (s := ⟨s.start one + 2, o.start two + 2, true, true⟩)
        ⟨A, B, ra, rb, rfl, rfl, Rem.init hA B, Rem.init hB A, fun _ x hx => Or.inl hx, fun e => (by cases e),
          fun _ x hx => Or.inl hx, fun e => (by cases e)⟩
      revert hI hc
      generalize whileLoop (σ := Sub) _ _ _ = q
      rintro ⟨a, b, h⟩ hc
      -- a flag that is still true is right
      have hone : q.oneSub = true → ∀ x ∈ A, x ∈ B := by
        intro e
        rw [e] at hc
        simp only [Bool.true_or, Bool.true_and, decide_eq_false_iff_not, not_lt, le_min_iff] at hc
        have : a = [] := by
          cases ha : a with
          | nil => rfl
          | cons x a' =>
            have := h.ra.head
            rw [ha] at this
            have hx : s.val q.one = x := this
            have := hAe x (h.rema.sub x (by rw [ha]; simp))
            omega
        intro x hx
        rcases h.oneT e x hx with h1 | h1
        · rw [this] at h1; simp at h1
        · exact h1
      have htwo : q.twoSub = true → ∀ x ∈ B, x ∈ A := by
        intro e
        rw [e] at hc
        simp only [Bool.or_true, Bool.true_and, decide_eq_false_iff_not, not_lt, le_min_iff] at hc
        have : b = [] := by
          cases hb : b with
          | nil => rfl
          | cons x b' =>
            have := h.rb.head
            rw [hb] at this
            have hx : o.val q.two = x := this
            have := hBe x (h.remb.sub x (by rw [hb]; simp))
            omega
        intro x hx
        rcases h.twoT e x hx with h1 | h1
        · rw [this] at h1; simp at h1
        · exact h1
      have hone' : q.oneSub = false → ¬ ∀ x ∈ A, x ∈ B := fun e hf => by
        obtain ⟨x, hx, hnx⟩ := h.oneF e; exact hnx (hf x hx)
      have htwo' : q.twoSub = false → ¬ ∀ x ∈ B, x ∈ A := fun e hf => by
        obtain ⟨x, hx, hnx⟩ := h.twoF e; exact hnx (hf x hx)
      cases e1 : q.oneSub <;> cases e2 : q.twoSub
      · simp only [Bool.false_eq_true, if_false]
        exact ⟨⟨fun h => by simp at h, fun h => absurd h (hone' e1)⟩, ⟨fun h => by simp at h, fun h => absurd h (htwo' e2)⟩⟩
      · simp only [Bool.false_eq_true, if_false, if_true]
        exact ⟨⟨fun h => by simp at h, fun h => absurd h (hone' e1)⟩, ⟨fun _ => htwo e2, fun _ => by simp⟩⟩
      · simp only [Bool.false_eq_true, if_false, if_true]
        exact ⟨⟨fun _ => hone e1, fun _ => by simp⟩, ⟨fun h => by simp at h, fun h => absurd h (htwo' e2)⟩⟩
      · simp only [if_true]
        exact ⟨⟨fun _ => hone e1, fun _ => by simp⟩, ⟨fun _ => htwo e2, fun _ => by simp⟩⟩

/-- invariant of the merge loop of `binary_union` -/
structure UInv (s0 : SV) (other : Option SV) (e : ℕ) (A B : List ℕ) (ea eb : ℕ) (q : Merge)
    (a b out : List ℕ) : Prop where
  self : q.self = s0.pushAll out
  ra : Reads s0.val e q.left a
  rb : Reads (other.getD s0).val e q.right b
  la : q.left + a.length = ea
  lb : q.right + b.length = eb
  asorted : a.Pairwise (· < ·)
  bsorted : b.Pairwise (· < ·)
  aw : ∀ x ∈ a, x < e
  bw : ∀ x ∈ b, x < e
  osorted : out.Pairwise (· < ·)
  before : ∀ x ∈ out, ∀ y ∈ a ++ b, x < y
  mem : ∀ x, (x ∈ out ∨ x ∈ a ∨ x ∈ b) ↔ (x ∈ A ∨ x ∈ B)

theorem getD_push {s0 self : SV} {other : Option SV} (h : ∀ c < s0.size, self.val c = s0.val c) {c : ℕ}
    (hc : other = none → c < s0.size) : (other.getD self).val c = (other.getD s0).val c := by
  cases other with
  | none => exact h c (hc rfl)
  | some o => rfl

theorem sorted_snoc {out : List ℕ} {x : ℕ} (h : out.Pairwise (· < ·)) (hx : ∀ y ∈ out, y < x) :
    (out ++ [x]).Pairwise (· < ·) := by
  rw [List.pairwise_append]
  exact ⟨h, List.pairwise_singleton _ _, fun a ha b hb => by rw [List.mem_singleton.mp hb]; exact hx a ha⟩

theorem unionLoop_ok {s0 : SV} {other : Option SV} {e : ℕ} {A B : List ℕ} {left right : ℕ}
    (ra : Reads s0.val e left A) (rb : Reads (other.getD s0).val e right B)
    (ha : left + A.length < s0.size) (hb : other = none → right + B.length < s0.size)
    (hA : A.Pairwise (· < ·)) (hB : B.Pairwise (· < ·)) (hAe : ∀ x ∈ A, x < e) (hBe : ∀ x ∈ B, x < e) (st : ℕ) :
    ∃ out, (unionLoop e other ⟨left, right, st, s0⟩).self = s0.pushAll out ∧ out.Pairwise (· < ·) ∧
      ∀ x, x ∈ out ↔ x ∈ A ∨ x ∈ B := by
  unfold unionLoop
  obtain ⟨hI, hc⟩ := whileLoop_rule (σ := Merge)
    (c := fun q => decide (q.self.val q.left < e) || decide ((other.getD q.self).val q.right < e))
    (b := fun q =>
      let valueLeft := q.self.val q.left
      let q := if valueLeft = (other.getD q.self).val q.right then
        { q with right := q.right + 1 } else q
      let valueRight := (other.getD q.self).val q.right
      if valueLeft < valueRight then
        { q with self := q.self.push valueLeft, left := q.left + 1 }
      else
        { q with self := q.self.push valueRight, right := q.right + 1 })
    (fun q => ∃ a b out, UInv s0 other e A B (left + A.length) (right + B.length) q a b out)
    (fun q => (left + A.length - q.left) + (right + B.length - q.right))
    (by
      rintro q ⟨a, b, out, h⟩ hc
      have hlow : ∀ c < s0.size, q.self.val c = s0.val c := by
        rw [h.self]; exact (pushAll_same out s0).2.2.2.2.2.2
      have la := h.la
      have lb := h.lb
      have va : q.self.val q.left = a.headD e := (hlow _ (by omega)).trans h.ra.head
      have vb : (other.getD q.self).val q.right = b.headD e :=
        (getD_push hlow (fun e => by have := hb e; omega)).trans h.rb.head
      simp only [va, vb, Bool.or_eq_true, decide_eq_true_eq] at hc ⊢
      have hae := headD_le h.aw
      have hbe := headD_le h.bw
      rcases Nat.lt_trichotomy (a.headD e) (b.headD e) with hlt | heq | hgt
      · rw [if_neg hlt.ne]
        simp only [vb, if_pos hlt]
        obtain ⟨x, a', rfl, hx⟩ := headD_cons_of_lt (a := a) (e := e) (by omega)
        rw [hx] at hlt ⊢
        have hall := lt_all h.bsorted hlt
        have hsa := List.pairwise_cons.mp h.asorted
        simp only [List.length_cons] at la
        refine ⟨⟨a', b, out ++ [x], ?_, h.ra.2, h.rb, by show q.left + 1 + _ = _; omega, lb, hsa.2, h.bsorted,
          fun y hy => h.aw y (by simp [hy]), h.bw, sorted_snoc h.osorted (fun y hy => h.before y hy x (by simp)), ?_, ?_⟩, by omega⟩
        · rw [pushAll_snoc, ← h.self]
        · intro y hy z hz
          rcases List.mem_append.mp hy with hy | hy
          · exact h.before y hy z (by simpa using Or.inr (by simpa using hz))
          · rw [List.mem_singleton.mp hy]
            rcases List.mem_append.mp hz with hz | hz
            · exact hsa.1 z hz
            · exact hall z hz
        · intro y; rw [← h.mem y]; simp only [List.mem_append, List.mem_singleton, List.mem_cons]; tauto
      · rw [if_pos heq]
        obtain ⟨x, a', rfl, hx⟩ := headD_cons_of_lt (a := a) (e := e) (by omega)
        obtain ⟨y, b', rfl, hy⟩ := headD_cons_of_lt (a := b) (e := e) (by omega)
        have hxy : y = x := by rw [← hy, ← hx, heq]
        subst hxy
        simp only [List.length_cons] at la lb
        have hsa := List.pairwise_cons.mp h.asorted
        have hsb := List.pairwise_cons.mp h.bsorted
        have vb' : (other.getD q.self).val (q.right + 1) = b'.headD e :=
          (getD_push hlow (fun e => by have := hb e; omega)).trans h.rb.2.head
        have hlt : y < b'.headD e := by
          cases b' with
          | nil => exact h.bw y (by simp)
          | cons z b' => exact hsb.1 z (by simp)
        simp only [vb', hx, if_pos hlt]
        refine ⟨⟨a', b', out ++ [y], ?_, h.ra.2, h.rb.2, by show q.left + 1 + _ = _; omega, by show q.right + 1 + _ = _; omega,
          hsa.2, hsb.2, fun z hz => h.aw z (by simp [hz]), fun z hz => h.bw z (by simp [hz]),
          sorted_snoc h.osorted (fun z hz => h.before z hz y (by simp)), ?_, ?_⟩, by omega⟩
        · rw [pushAll_snoc, ← h.self]
        · intro w hw z hz
          rcases List.mem_append.mp hw with hw | hw
          · refine h.before w hw z ?_
            rcases List.mem_append.mp hz with hz | hz <;> simp [hz]
          · rw [List.mem_singleton.mp hw]
            rcases List.mem_append.mp hz with hz | hz
            · exact hsa.1 z hz
            · exact hsb.1 z hz
        · intro z; rw [← h.mem z]; simp only [List.mem_append, List.mem_singleton, List.mem_cons]; tauto
      · rw [if_neg hgt.ne']
        simp only [vb, if_neg (not_lt.mpr hgt.le)]
        obtain ⟨x, b', rfl, hx⟩ := headD_cons_of_lt (a := b) (e := e) (by omega)
        rw [hx] at hgt ⊢
        have hall := lt_all h.asorted hgt
        have hsb := List.pairwise_cons.mp h.bsorted
        simp only [List.length_cons] at lb
        refine ⟨⟨a, b', out ++ [x], ?_, h.ra, h.rb.2, la, by show q.right + 1 + _ = _; omega, h.asorted, hsb.2,
          h.aw, fun y hy => h.bw y (by simp [hy]), sorted_snoc h.osorted (fun y hy => h.before y hy x (by simp)), ?_, ?_⟩, by omega⟩
        · rw [pushAll_snoc, ← h.self]
        · intro y hy z hz
          rcases List.mem_append.mp hy with hy | hy
          · refine h.before y hy z ?_
            rcases List.mem_append.mp hz with hz | hz <;> simp [hz]
          · rw [List.mem_singleton.mp hy]
            rcases List.mem_append.mp hz with hz | hz
            · exact hall z hz
            · exact hsb.1 z hz
        · intro y; rw [← h.mem y]; simp only [List.mem_append, List.mem_singleton, List.mem_cons]; tauto)
    (s := ⟨left, right, st, s0⟩)
    ⟨A, B, [], rfl, ra, rb, rfl, rfl, hA, hB, hAe, hBe, by simp, by simp, by simp⟩
  revert hI hc
  generalize whileLoop (σ := Merge) _ _ _ = q
  rintro ⟨a, b, out, h⟩ hc
  refine ⟨out, h.self, h.osorted, fun x => ?_⟩
  have hlow : ∀ c < s0.size, q.self.val c = s0.val c := by
    rw [h.self]; exact (pushAll_same out s0).2.2.2.2.2.2
  have la := h.la
  have lb := h.lb
  have va : q.self.val q.left = a.headD e := (hlow _ (by omega)).trans h.ra.head
  have vb : (other.getD q.self).val q.right = b.headD e :=
    (getD_push hlow (fun e => by have := hb e; omega)).trans h.rb.head
  simp only [va, vb, Bool.or_eq_false_iff, decide_eq_false_iff_not, not_lt] at hc
  have ha' : a = [] := by
    cases a with
    | nil => rfl
    | cons z a => have h1 := h.aw z (by simp); have h2 : e ≤ z := hc.1; omega
  have hb' : b = [] := by
    cases b with
    | nil => rfl
    | cons z b => have h1 := h.bw z (by simp); have h2 : e ≤ z := hc.2; omega
  rw [← h.mem x, ha', hb']; simp

/-- the object with the header of a new block that has no length yet -/
def header (s : SV) (t : ℕ) : SV := ((s.extend 2).setStart t s.size).setVal s.size 1

/-- invariant of the loop of `binary_intersection` -/
structure IInv (s0 : SV) (t : ℕ) (other : Option SV) (e : ℕ) (A B : List ℕ) (ea eb : ℕ) (q : Merge)
    (a b out : List ℕ) : Prop where
  emp : out = [] → q.start = 0 ∧ q.self = s0
  fil : out ≠ [] → q.start = s0.size ∧ q.self = (s0.header t).pushAll out
  ra : Reads s0.val e q.left a
  rb : Reads (other.getD s0).val e q.right b
  la : q.left + a.length = ea
  lb : q.right + b.length = eb
  asorted : a.Pairwise (· < ·)
  bsorted : b.Pairwise (· < ·)
  aw : ∀ x ∈ a, x < e
  bw : ∀ x ∈ b, x < e
  osorted : out.Pairwise (· < ·)
  before : ∀ x ∈ out, ∀ y ∈ a, x < y
  mem : ∀ x, (x ∈ out ∨ (x ∈ a ∧ x ∈ b)) ↔ (x ∈ A ∧ x ∈ B)

theorem header_low (s0 : SV) (t : ℕ) (out : List ℕ) : ∀ c < s0.size, ((s0.header t).pushAll out).val c = s0.val c := by
  intro c hc
  rw [(pushAll_same out (s0.header t)).2.2.2.2.2.2 c (by show c < s0.size + 2; omega)]
  simp only [header, setVal, setStart, extend]
  rw [Function.update_of_ne (by omega)]

section
variable {s0 : SV} {t : ℕ} {other : Option SV} {e : ℕ} {A B : List ℕ} {ea eb : ℕ} {q : Merge} {a b out : List ℕ}

theorem IInv.low (h : IInv s0 t other e A B ea eb q a b out) : ∀ c < s0.size, q.self.val c = s0.val c := by
  by_cases ho : out = []
  · rw [(h.emp ho).2]; exact fun _ _ => rfl
  · rw [(h.fil ho).2]; exact header_low s0 t out

theorem IInv.va (h : IInv s0 t other e A B ea eb q a b out) (ha : ea < s0.size) : q.self.val q.left = a.headD e :=
  (h.low _ (by have := h.la; omega)).trans h.ra.head

theorem IInv.vb (h : IInv s0 t other e A B ea eb q a b out) (hb : other = none → eb < s0.size) :
    (other.getD q.self).val q.right = b.headD e :=
  (getD_push h.low (fun e => by have := hb e; have := h.lb; omega)).trans h.rb.head

/-- svec_setvec.hpp:1285-1298 -/
def interStep1 (t : ℕ) (other : Option SV) (q : Merge) : Merge :=
  if q.self.val q.left = (other.getD q.self).val q.right then
    let valueLeft := q.self.val q.left
    let q := if q.start = 0 then { q with start := q.self.size, self := q.self.header t } else q
    { q with self := q.self.push valueLeft, left := q.left + 1 }
  else q

/-- svec_setvec.hpp:1299-1303 -/
def interStep2 (other : Option SV) (q : Merge) : Merge :=
  if (other.getD q.self).val q.right < q.self.val q.left then { q with right := q.right + 1 } else q

/-- svec_setvec.hpp:1304-1308 -/
def interStep3 (other : Option SV) (q : Merge) : Merge :=
  if q.self.val q.left < (other.getD q.self).val q.right then { q with left := q.left + 1 } else q

theorem IInv.step1 (h : IInv s0 t other e A B ea eb q a b out) (ha : ea < s0.size)
    (hb : other = none → eb < s0.size) (hpos : 0 < s0.size) (hlt : a.headD e < e) :
    ∃ a' out', IInv s0 t other e A B ea eb (interStep1 t other q) a' b out' ∧
      (interStep1 t other q).right = q.right ∧
      (if a.headD e = b.headD e then (interStep1 t other q).left = q.left + 1 else interStep1 t other q = q ∧ a' = a) := by
  unfold interStep1
  rw [h.va ha, h.vb hb]
  by_cases heq : a.headD e = b.headD e
  · rw [if_pos heq]
    simp only [if_pos heq]
    obtain ⟨x, a', rfl, hx⟩ := headD_cons_of_lt hlt
    obtain ⟨y, b', rfl, hy⟩ := headD_cons_of_lt (a := b) (e := e) (by omega)
    have hxy : y = x := by rw [← hy, ← hx, heq]
    subst hxy
    have hsa := List.pairwise_cons.mp h.asorted
    have la := h.la
    simp only [List.length_cons] at la
    simp only [hx]
    refine ⟨a', out ++ [y], ⟨fun e => absurd e (by simp), fun _ => ?_, ?_, ?_, ?_, ?_, hsa.2, h.bsorted,
      fun z hz => h.aw z (by simp [hz]), h.bw, sorted_snoc h.osorted (fun z hz => h.before z hz y (by simp)), ?_, ?_⟩, ?_, ?_⟩
    · by_cases ho : out = []
      · obtain ⟨e1, e2⟩ := h.emp ho
        rw [if_pos e1, ho, List.nil_append]
        simp only [e2]
        exact ⟨trivial, rfl⟩
      · obtain ⟨e1, e2⟩ := h.fil ho
        rw [if_neg (by omega)]
        exact ⟨e1, by rw [pushAll_snoc, ← e2]⟩
    · split <;> exact h.ra.2
    · split <;> exact h.rb
    · split <;> (show q.left + 1 + _ = _; omega)
    · split <;> exact h.lb
    · intro z hz w hw
      rcases List.mem_append.mp hz with hz | hz
      · exact h.before z hz w (by simp [hw])
      · rw [List.mem_singleton.mp hz]; exact hsa.1 w hw
    · intro z
      rw [← h.mem z, List.mem_append, List.mem_singleton, List.mem_cons, List.mem_cons]
      constructor
      · rintro ((h1 | rfl) | h1)
        · exact Or.inl h1
        · exact Or.inr ⟨Or.inl rfl, Or.inl rfl⟩
        · exact Or.inr ⟨Or.inr h1.1, h1.2⟩
      · rintro (h1 | ⟨rfl | h1, h2⟩)
        · exact Or.inl (Or.inl h1)
        · exact Or.inl (Or.inr rfl)
        · exact Or.inr ⟨h1, h2⟩
    · split <;> rfl
    · split <;> rfl
  · rw [if_neg heq]
    simp only [if_neg heq]
    exact ⟨a, out, h, trivial, trivial, rfl⟩

theorem IInv.step2 (h : IInv s0 t other e A B ea eb q a b out) (ha : ea < s0.size)
    (hb : other = none → eb < s0.size) :
    ∃ b', IInv s0 t other e A B ea eb (interStep2 other q) a b' out ∧
      (interStep2 other q).left = q.left ∧ q.right ≤ (interStep2 other q).right ∧
      (b.headD e < a.headD e → (interStep2 other q).right = q.right + 1) ∧
      (¬ b.headD e < a.headD e → interStep2 other q = q ∧ b' = b) := by
  unfold interStep2
  rw [h.va ha, h.vb hb]
  by_cases hlt : b.headD e < a.headD e
  · rw [if_pos hlt]
    obtain ⟨x, b', rfl, hx⟩ := headD_cons_of_lt (a := b) (e := e) (by have := headD_le h.aw; omega)
    rw [hx] at hlt
    have hall := lt_all h.asorted hlt
    have lb := h.lb
    simp only [List.length_cons] at lb
    refine ⟨b', ⟨h.emp, h.fil, h.ra, h.rb.2, h.la, by show q.right + 1 + _ = _; omega, h.asorted,
      (List.pairwise_cons.mp h.bsorted).2, h.aw, fun z hz => h.bw z (by simp [hz]), h.osorted, h.before, fun z => ?_⟩,
      rfl, by show q.right ≤ q.right + 1; omega, fun _ => rfl, fun hn => absurd hlt (by simpa using hn)⟩
    rw [← h.mem z]
    refine or_congr Iff.rfl (and_congr_right fun hz => ?_)
    rw [List.mem_cons]
    constructor
    · exact Or.inr
    · rintro (rfl | h1)
      · exact absurd (hall z hz) (lt_irrefl _)
      · exact h1
  · rw [if_neg hlt]
    exact ⟨b, h, rfl, le_rfl, fun hn => absurd hn hlt, fun _ => ⟨rfl, rfl⟩⟩

theorem IInv.step3 (h : IInv s0 t other e A B ea eb q a b out) (ha : ea < s0.size)
    (hb : other = none → eb < s0.size) :
    ∃ a', IInv s0 t other e A B ea eb (interStep3 other q) a' b out ∧
      (interStep3 other q).right = q.right ∧ q.left ≤ (interStep3 other q).left ∧
      (a.headD e < b.headD e → (interStep3 other q).left = q.left + 1) := by
  unfold interStep3
  rw [h.va ha, h.vb hb]
  by_cases hlt : a.headD e < b.headD e
  · rw [if_pos hlt]
    obtain ⟨x, a', rfl, hx⟩ := headD_cons_of_lt (a := a) (e := e) (by have := headD_le h.bw; omega)
    rw [hx] at hlt
    have hall := lt_all h.bsorted hlt
    have la := h.la
    simp only [List.length_cons] at la
    refine ⟨a', ⟨h.emp, h.fil, h.ra.2, h.rb, by show q.left + 1 + _ = _; omega, h.lb,
      (List.pairwise_cons.mp h.asorted).2, h.bsorted, fun z hz => h.aw z (by simp [hz]), h.bw, h.osorted,
      fun z hz w hw => h.before z hz w (by simp [hw]), fun z => ?_⟩,
      rfl, by show q.left ≤ q.left + 1; omega, fun _ => rfl⟩
    rw [← h.mem z]
    refine or_congr Iff.rfl (and_congr_left fun hz => ?_)
    rw [List.mem_cons]
    constructor
    · exact Or.inr
    · rintro (rfl | h1)
      · exact absurd (hall z hz) (lt_irrefl _)
      · exact h1
  · rw [if_neg hlt]
    exact ⟨a, h, rfl, le_rfl, fun hn => absurd hn hlt⟩

theorem interLoop_eq (q : Merge) : interLoop t e other q = whileLoop (σ := Merge)
    (fun q => decide (q.self.val q.left < e) && decide ((other.getD q.self).val q.right < e))
    (fun q => interStep3 other (interStep2 other (interStep1 t other q))) q := rfl

theorem interLoop_ok {left right : ℕ}
    (ra : Reads s0.val e left A) (rb : Reads (other.getD s0).val e right B)
    (ha : left + A.length < s0.size) (hb : other = none → right + B.length < s0.size)
    (hA : A.Pairwise (· < ·)) (hB : B.Pairwise (· < ·)) (hAe : ∀ x ∈ A, x < e) (hBe : ∀ x ∈ B, x < e) :
    ∃ out, (∀ x, x ∈ out ↔ x ∈ A ∧ x ∈ B) ∧ out.Pairwise (· < ·) ∧
      (out = [] → (interLoop t e other ⟨left, right, 0, s0⟩).start = 0 ∧
        (interLoop t e other ⟨left, right, 0, s0⟩).self = s0) ∧
      (out ≠ [] → (interLoop t e other ⟨left, right, 0, s0⟩).start = s0.size ∧
        (interLoop t e other ⟨left, right, 0, s0⟩).self = (s0.header t).pushAll out) := by
  rw [interLoop_eq]
  obtain ⟨hI, hc⟩ := whileLoop_rule (σ := Merge)
    (c := fun q => decide (q.self.val q.left < e) && decide ((other.getD q.self).val q.right < e))
    (b := fun q => interStep3 other (interStep2 other (interStep1 t other q)))
    (fun q => ∃ a b out, IInv s0 t other e A B (left + A.length) (right + B.length) q a b out)
    (fun q => (left + A.length - q.left) + (right + B.length - q.right))
    (by
      rintro q ⟨a, b, out, h⟩ hc
      have va := h.va ha
      have vb := h.vb hb
      simp only [va, vb, Bool.and_eq_true, decide_eq_true_eq] at hc
      obtain ⟨a1, out1, h1, r1, d1⟩ := h.step1 ha hb (by omega) hc.1
      obtain ⟨b2, h2, l2, r2, d2, e2⟩ := h1.step2 ha hb
      obtain ⟨a3, h3, r3, l3, d3⟩ := h2.step3 ha hb
      refine ⟨⟨a3, b2, out1, h3⟩, ?_⟩
      have la1 := h1.la
      have la2 := h2.la
      have la3 := h3.la
      have lb1 := h1.lb
      have lb2 := h2.lb
      have lb3 := h3.lb
      have la := h.la
      have lb := h.lb
      have hdec : q.left + q.right < (interStep3 other (interStep2 other (interStep1 t other q))).left +
          (interStep3 other (interStep2 other (interStep1 t other q))).right := by
        by_cases heq : a.headD e = b.headD e
        · rw [if_pos heq] at d1; omega
        · rw [if_neg heq] at d1
          obtain ⟨d1, rfl⟩ := d1
          rcases Nat.lt_or_gt_of_ne heq with hlt | hgt
          · obtain ⟨_, rfl⟩ := e2 (by omega)
            have h3 := d3 hlt
            rw [d1] at l2 r2
            omega
          · have h3 := d2 hgt
            rw [d1] at l2 h3
            omega
      omega)
    (s := ⟨left, right, 0, s0⟩)
    ⟨A, B, [], fun _ => ⟨rfl, rfl⟩, fun h => absurd rfl h, ra, rb, rfl, rfl, hA, hB, hAe, hBe, by simp, by simp, by simp⟩
  revert hI hc
  generalize whileLoop (σ := Merge) _ _ _ = q
  rintro ⟨a, b, out, h⟩ hc
  refine ⟨out, fun x => ?_, h.osorted, h.emp, h.fil⟩
  have va := h.va ha
  have vb := h.vb hb
  simp only [va, vb, Bool.and_eq_false_iff, decide_eq_false_iff_not, not_lt] at hc
  rw [← h.mem x]
  refine ⟨Or.inl, ?_⟩
  rintro (h1 | ⟨h1, h2⟩)
  · exact h1
  · exfalso
    rcases hc with hc | hc
    · cases a with
      | nil => simp at h1
      | cons z a => have h1 := h.aw z (by simp); have h2 : e ≤ z := hc; omega
    · cases b with
      | nil => simp at h2
      | cons z b => have h1 := h.bw z (by simp); have h2 : e ≤ z := hc; omega

end

end CppAD.SetVec.SV
