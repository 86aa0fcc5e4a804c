import Verif.SetVec.ListBuild

/-! # Loops that only read lists -/

namespace CppAD.SetVec.LV

/-- the cells reached from `p` contain the values in the list -/
def Reads (s : LV) : ℕ → List ℕ → Prop
  | p, [] => p = 0
  | p, v :: l => p ≠ 0 ∧ s.val p = v ∧ Reads s (s.nxt p) l

theorem Reads.of_chain {s : LV} {p : ℕ} {c : List ℕ} (h : Chain s.nxt p c) :
    Reads s p (c.map s.val) := by
  induction c generalizing p with
  | nil => exact h
  | cons a c ih => obtain ⟨rfl, h2, h3⟩ := h; exact ⟨h2, rfl, ih h3⟩

/-- cell zero terminates every list: size_setvec.hpp:681-685 -/
structure Zero (s : LV) : Prop where
  val : s.val 0 = s.last
  nxt : s.nxt 0 = 0

theorem Reads.val {s : LV} (z : Zero s) {p : ℕ} {l : List ℕ} (h : Reads s p l) :
    s.val p = l.headD s.last := by
  cases l with
  | nil => rw [show p = 0 from h, z.val]; rfl
  | cons v l => exact h.2.1

theorem Reads.tail {s : LV} (z : Zero s) {p : ℕ} {l : List ℕ} (h : Reads s p l) :
    Reads s (s.nxt p) l.tail := by
  cases l with
  | nil => rw [show p = 0 from h, z.nxt]; rfl
  | cons v l => exact h.2.2

/-- `number_elements`, size_setvec.hpp:826-839 -/
theorem Reads.count {s : LV} {p : ℕ} {l : List ℕ} (h : Reads s p l) (n : ℕ) :
    (whileLoop (σ := ℕ × ℕ) (fun q => q.2 != 0) (fun q => (q.1 + 1, s.nxt q.2)) (n, p)).1
      = n + l.length := by
  induction l generalizing p n with
  | nil =>
    have hp : p = 0 := h
    subst hp
    rw [whileLoop_false (by simp)]; simp
  | cons v l ih =>
    obtain ⟨h1, h2, h3⟩ := h
    rw [whileLoop_true (by simpa using h1)]
    dsimp only
    rw [ih h3]; simp only [List.length_cons]; omega

/-- the cells before and after the place of `e` -/
theorem Chain.locate {s : LV} (z : Zero s) {e : ℕ} (he : e ≤ s.last) {c : List ℕ} {prev p : ℕ}
    (h : Chain s.nxt p c) :
    ∃ c1 c2, c = c1 ++ c2 ∧
      whileLoop (σ := ℕ × ℕ) (fun q => decide (s.val q.2 < e)) (fun q => (q.2, s.nxt q.2)) (prev, p)
        = ((prev :: c1).getLast (by simp), c2.headD 0) ∧
      c1.map s.val = (c.map s.val).takeWhile (· < e) ∧
      c2.map s.val = (c.map s.val).dropWhile (· < e) := by
  induction c generalizing p prev with
  | nil =>
    have hp : p = 0 := h
    subst hp
    refine ⟨[], [], rfl, ?_, rfl, rfl⟩
    rw [whileLoop_false (by simp [z.val, he])]; rfl
  | cons a c ih =>
    obtain ⟨rfl, h2, h3⟩ := h
    by_cases hv : s.val p < e
    · obtain ⟨c1, c2, e1, e2, e3, e4⟩ := ih (prev := p) h3
      refine ⟨p :: c1, c2, by rw [e1]; rfl, ?_, ?_, ?_⟩
      · rw [whileLoop_true (by simpa using hv)]
        dsimp only
        rw [e2, List.getLast_cons (a := prev) (by simp)]
      · rw [List.map_cons, List.map_cons, List.takeWhile_cons_of_pos (by simpa using hv), e3]
      · rw [List.map_cons, List.dropWhile_cons_of_pos (by simpa using hv), e4]
    · refine ⟨[], p :: c, rfl, ?_, ?_, ?_⟩
      · rw [whileLoop_false (by simpa using hv)]; rfl
      · rw [List.map_cons, List.takeWhile_cons_of_neg (by simpa using hv)]; rfl
      · rw [List.map_cons, List.dropWhile_cons_of_neg (by simpa using hv)]

/-- the loop of `is_element` -/
theorem Reads.find {s : LV} (z : Zero s) {e : ℕ} (he : e ≤ s.last) {l : List ℕ} {p : ℕ}
    (h : Reads s p l) :
    Reads s (whileLoop (σ := ℕ) (fun n => decide (s.val n < e)) (fun n => s.nxt n) p)
      (l.dropWhile (· < e)) := by
  induction l generalizing p with
  | nil =>
    have hp : p = 0 := h
    subst hp
    rw [whileLoop_false (by simp [z.val, he])]; rfl
  | cons v l ih =>
    obtain ⟨h1, h2, h3⟩ := h
    by_cases hv : v < e
    · rw [whileLoop_true (by simpa [h2] using hv), List.dropWhile_cons_of_pos (by simpa using hv)]
      exact ih h3
    · rw [whileLoop_false (by simpa [h2] using hv), List.dropWhile_cons_of_neg (by simpa using hv)]
      exact ⟨h1, h2, h3⟩

/-- in a sorted list, `e` is a member if and only if it is the first that is
not less than `e` -/
theorem mem_iff_dropWhile {l : List ℕ} (hs : l.Pairwise (· < ·)) {e d : ℕ} (hd : e < d) :
    e ∈ l ↔ (l.dropWhile (· < e)).headD d = e := by
  induction l with
  | nil => simp; omega
  | cons v l ih =>
    obtain ⟨h1, h2⟩ := List.pairwise_cons.mp hs
    by_cases hv : v < e
    · rw [List.dropWhile_cons_of_pos (by simpa using hv), ← ih h2]
      simp only [List.mem_cons]
      constructor
      · rintro (rfl | h)
        · omega
        · exact h
      · exact Or.inr
    · rw [List.dropWhile_cons_of_neg (by simpa using hv)]
      simp only [List.mem_cons, List.headD_cons]
      constructor
      · rintro (rfl | h)
        · rfl
        · have := h1 e h; omega
      · intro h; exact Or.inl h.symm

/-- the loop at 1098-1103 -/
theorem Reads.takeBelow {s : LV} (z : Zero s) {e : ℕ} (he : e ≤ s.last) {l : List ℕ}
    {q : PostState} (h : Reads s q.iNext l) :
    ∃ p', s.takeBelow e q
        = { q with out := q.out ++ l.takeWhile (· < e), iNext := p' } ∧
      Reads s p' (l.dropWhile (· < e)) := by
  unfold LV.takeBelow
  induction l generalizing q with
  | nil =>
    have hp : q.iNext = 0 := h
    rw [whileLoop_false (by simp [hp, z.val, he])]
    exact ⟨q.iNext, by simp, h⟩
  | cons v l ih =>
    obtain ⟨h1, h2, h3⟩ := h
    by_cases hv : v < e
    · rw [whileLoop_true (by simpa [h2] using hv), List.dropWhile_cons_of_pos (by simpa using hv),
        List.takeWhile_cons_of_pos (by simpa using hv)]
      obtain ⟨p', e1, e2⟩ := ih (q := { q with out := q.out ++ [s.val q.iNext], iNext := s.nxt q.iNext }) h3
      refine ⟨p', ?_, e2⟩
      rw [e1, h2]; simp
    · rw [whileLoop_false (by simpa [h2] using hv), List.dropWhile_cons_of_neg (by simpa using hv),
        List.takeWhile_cons_of_neg (by simpa using hv)]
      exact ⟨q.iNext, by simp, h1, h2, h3⟩

/-- the loop at 1057-1069 -/
theorem Chain.collect {s : LV} {c : List ℕ} {prev p : ℕ} {out : List ℕ} (h : Chain s.nxt p c) :
    whileLoop (σ := ℕ × ℕ × List ℕ) (fun q => q.2.1 != 0)
      (fun q => (q.2.1, s.nxt q.2.1, q.2.2 ++ [s.val q.2.1])) (prev, p, out)
      = ((prev :: c).getLast (by simp), 0, out ++ c.map s.val) := by
  induction c generalizing p prev out with
  | nil =>
    have hp : p = 0 := h
    subst hp
    rw [whileLoop_false (by simp)]; simp
  | cons a c ih =>
    obtain ⟨rfl, h2, h3⟩ := h
    rw [whileLoop_true (by simpa using h2)]
    dsimp only
    rw [ih h3, List.getLast_cons (a := prev) (by simp)]
    simp

theorem collectPost_eq {s : LV} {a : ℕ} {c : List ℕ} (h : Chain s.nxt a (a :: c)) :
    s.collectPost a = ((a :: c).getLast (by simp), (a :: c).map s.val) := by
  unfold collectPost
  dsimp only
  rw [h.2.2.collect]
  simp

/-- the loop at 1410-1421 -/
theorem Reads.rest {s : LV} (z : Zero s) {l : List ℕ} (hl : ∀ x ∈ l, x < s.last) {p : ℕ}
    {out : List ℕ} (h : Reads s p l) : s.rest s.last p out = out ++ l := by
  unfold LV.rest
  induction l generalizing p out with
  | nil =>
    have hp : p = 0 := h
    subst hp
    rw [whileLoop_false (by simp [z.val])]; simp
  | cons v l ih =>
    obtain ⟨h1, h2, h3⟩ := h
    have hv := hl v (by simp)
    rw [whileLoop_true (by simpa [h2] using hv)]
    dsimp only
    rw [ih (fun x hx => hl x (by simp [hx])) h3, h2]; simp

/-- the result of the merge of `l` and `r` that started at `q` -/
structure Merged (s o : LV) (keep : Bool) (l r : List ℕ) (q q' : Merge) : Prop where
  ex : ∃ l' r' mid, Reads s q'.left l' ∧ Reads o q'.right r' ∧ (l' = [] ∨ r' = []) ∧
    q'.out = q.out ++ mid ∧ mid.Pairwise (· < ·) ∧
    l'.Pairwise (· < ·) ∧ r'.Pairwise (· < ·) ∧
    (∀ x ∈ l', x ∈ l) ∧ (∀ x ∈ r', x ∈ r) ∧
    (∀ x ∈ mid, (x ∈ l ∨ x ∈ r) ∧ (∀ y ∈ l', x < y) ∧ (∀ y ∈ r', x < y)) ∧
    (if keep then (∀ x, (x ∈ mid ∨ x ∈ l' ∨ x ∈ r') ↔ (x ∈ l ∨ x ∈ r))
      else (∀ x, x ∈ mid ↔ (x ∈ l ∧ x ∈ r))) ∧
    (q'.leftSub = true → q.leftSub = true ∧ ∀ x ∈ l, x ∈ r ∨ x ∈ l') ∧
    (q'.rightSub = true → q.rightSub = true ∧ ∀ x ∈ r, x ∈ l ∨ x ∈ r')

set_option maxHeartbeats 800000 in
/-- the merge loop, 1365-1397 and 1507-1537 -/
theorem merge_ok {s o : LV} (z : Zero s) (z' : Zero o) (hlast : o.last = s.last) (keep : Bool)
    (n : ℕ) : ∀ (l r : List ℕ), l.length + r.length = n → l.Pairwise (· < ·) →
    r.Pairwise (· < ·) → (∀ x ∈ l, x < s.last) → (∀ x ∈ r, x < s.last) → ∀ q : Merge,
    Reads s q.left l → Reads o q.right r → Merged s o keep l r q (s.merge o s.last keep q) := by
  induction n using Nat.strong_induction_on with
  | _ n ih =>
    intro l r hn hl hr hbl hbr q h1 h2
    unfold merge
    cases l with
    | nil =>
      have hp : q.left = 0 := h1
      rw [whileLoop_false (by simp [hp, z.val])]
      refine ⟨[], r, [], h1, h2, Or.inl rfl, by simp, by simp, by simp, hr, by simp, fun x h => h, by simp, ?_,
        fun h => ⟨h, by simp⟩, fun h => ⟨h, fun x hx => Or.inr hx⟩⟩
      split <;> simp
    | cons a l =>
      cases r with
      | nil =>
        have hp : q.right = 0 := h2
        rw [whileLoop_false (by simp [hp, z'.val, hlast])]
        refine ⟨a :: l, [], [], h1, h2, Or.inr rfl, by simp, by simp, hl, by simp, fun x h => h, by simp,
          by simp, ?_, fun h => ⟨h, fun x hx => Or.inr hx⟩, fun h => ⟨h, by simp⟩⟩
        split <;> simp
      | cons b r =>
        obtain ⟨l1, l2, l3⟩ := h1
        obtain ⟨r1, r2, r3⟩ := h2
        have ha := hbl a (by simp)
        have hb := hbr b (by simp)
        obtain ⟨hl1, hl2⟩ := List.pairwise_cons.mp hl
        obtain ⟨hr1, hr2⟩ := List.pairwise_cons.mp hr
        rw [whileLoop_true (by simp [l2, r2, ha, hb])]
        dsimp only
        rw [l2, r2]
        have hbl' : ∀ x ∈ l, x < s.last := fun x hx => hbl x (by simp [hx])
        have hbr' : ∀ x ∈ r, x < s.last := fun x hx => hbr x (by simp [hx])
        by_cases hab : a = b
        · subst hab
          rw [if_pos rfl]
          obtain ⟨l', r', mid, m1, m2, m3, m4, m5, m5', m5'', m6, m7, m8, m9, m10, m11⟩ :=
            (ih _ (by simp only [List.length_cons] at hn; omega) l r rfl hl2 hr2 hbl' hbr'
              { q with out := q.out ++ [a], left := s.nxt q.left, right := o.nxt q.right } l3 r3).ex
          refine ⟨l', r', a :: mid, m1, m2, m3, ?_, ?_, m5', m5'', fun x hx => by simp [m6 x hx],
            fun x hx => by simp [m7 x hx], ?_, ?_, ?_, ?_⟩
          · rw [merge] at m4; rw [m4]; simp
          · rw [List.pairwise_cons]
            refine ⟨fun x hx => ?_, m5⟩
            rcases (m8 x hx).1 with h | h
            · exact hl1 x h
            · exact hr1 x h
          · intro x hx
            rcases List.mem_cons.mp hx with rfl | hx
            · exact ⟨by simp, fun y hy => hl1 y (m6 y hy), fun y hy => hr1 y (m7 y hy)⟩
            · have := m8 x hx
              exact ⟨this.1.imp (List.mem_cons_of_mem _) (List.mem_cons_of_mem _), this.2⟩
          · split at m9
            · rename_i hk; rw [if_pos hk]
              intro x; simp only [List.mem_cons]; have := m9 x; (clear * - this; tauto)
            · rename_i hk; rw [if_neg hk]
              intro x; simp only [List.mem_cons]; rw [m9 x]
              have n1 : a ∉ l := fun h => absurd (hl1 a h) (by omega)
              have n2 : a ∉ r := fun h => absurd (hr1 a h) (by omega)
              by_cases hx : x = a
              · subst hx; simp
              · simp [hx]
          · intro h; obtain ⟨h1, h2⟩ := m10 h
            refine ⟨h1, fun x hx => ?_⟩
            rcases List.mem_cons.mp hx with rfl | hx
            · simp
            · have := h2 x hx; simp; (clear * - this; tauto)
          · intro h; obtain ⟨h1, h2⟩ := m11 h
            refine ⟨h1, fun x hx => ?_⟩
            rcases List.mem_cons.mp hx with rfl | hx
            · simp
            · have := h2 x hx; simp; (clear * - this; tauto)
        · rw [if_neg hab]
          by_cases hlt : a < b
          · rw [if_pos hlt]
            obtain ⟨l', r', mid, m1, m2, m3, m4, m5, m5', m5'', m6, m7, m8, m9, m10, m11⟩ :=
              (ih _ (by simp only [List.length_cons] at hn ⊢; omega) l (b :: r) rfl hl2 hr hbl' hbr
                { q with leftSub := false, out := if keep then q.out ++ [a] else q.out,
                         left := s.nxt q.left } l3 ⟨r1, r2, r3⟩).ex
            have hnr : ∀ y ∈ b :: r, a < y := by
              intro y hy
              rcases List.mem_cons.mp hy with rfl | hy
              · exact hlt
              · have := hr1 y hy; omega
            refine ⟨l', r', if keep then a :: mid else mid, m1, m2, m3, ?_, ?_, m5', m5'',
              fun x hx => by simp [m6 x hx], m7, ?_, ?_, fun h => ?_, ?_⟩
            · rw [merge] at m4; rw [m4]; split <;> simp
            · split
              · rw [List.pairwise_cons]
                refine ⟨fun x hx => ?_, m5⟩
                rcases (m8 x hx).1 with h | h
                · exact hl1 x h
                · exact hnr x h
              · exact m5
            · have hmid : ∀ x ∈ mid, (x ∈ a :: l ∨ x ∈ b :: r) ∧ (∀ y ∈ l', x < y) ∧
                  (∀ y ∈ r', x < y) := by
                intro x hx
                have := m8 x hx
                refine ⟨?_, this.2⟩
                have := this.1
                simp only [List.mem_cons] at this ⊢; (clear * - this; tauto)
              split
              · intro x hx
                rcases List.mem_cons.mp hx with rfl | hx
                · exact ⟨by simp, fun y hy => hl1 y (m6 y hy), fun y hy => hnr y (m7 y hy)⟩
                · exact hmid x hx
              · exact hmid
            · split at m9
              · rename_i hk; rw [if_pos hk, if_pos hk]
                intro x; have := m9 x; simp only [List.mem_cons] at this ⊢; (clear * - this; tauto)
              · rename_i hk; rw [if_neg hk, if_neg hk]
                intro x; rw [m9 x]
                constructor
                · rintro ⟨h1, h2⟩; exact ⟨by simp [h1], h2⟩
                · rintro ⟨h1, h2⟩
                  rcases List.mem_cons.mp h1 with rfl | h1
                  · have := hnr x h2; omega
                  · exact ⟨h1, h2⟩
            · have := (m10 h).1; simp at this
            · intro h; obtain ⟨h1, h2⟩ := m11 h
              exact ⟨h1, fun x hx => by have := h2 x hx; simp only [List.mem_cons]; (clear * - this; tauto)⟩
          · rw [if_neg hlt]
            obtain ⟨l', r', mid, m1, m2, m3, m4, m5, m5', m5'', m6, m7, m8, m9, m10, m11⟩ :=
              (ih _ (by simp only [List.length_cons] at hn ⊢; omega) (a :: l) r rfl hl hr2 hbl hbr'
                { q with rightSub := false, out := if keep then q.out ++ [b] else q.out,
                         right := o.nxt q.right } ⟨l1, l2, l3⟩ r3).ex
            have hnl : ∀ y ∈ a :: l, b < y := by
              intro y hy
              rcases List.mem_cons.mp hy with rfl | hy
              · omega
              · have := hl1 y hy; omega
            refine ⟨l', r', if keep then b :: mid else mid, m1, m2, m3, ?_, ?_, m5', m5'',
              m6, fun x hx => by simp [m7 x hx], ?_, ?_, ?_, fun h => ?_⟩
            · rw [merge] at m4; rw [m4]; split <;> simp
            · split
              · rw [List.pairwise_cons]
                refine ⟨fun x hx => ?_, m5⟩
                rcases (m8 x hx).1 with h | h
                · exact hnl x h
                · exact hr1 x h
              · exact m5
            · have hmid : ∀ x ∈ mid, (x ∈ a :: l ∨ x ∈ b :: r) ∧ (∀ y ∈ l', x < y) ∧
                  (∀ y ∈ r', x < y) := by
                intro x hx
                have := m8 x hx
                refine ⟨?_, this.2⟩
                have := this.1
                simp only [List.mem_cons] at this ⊢; (clear * - this; tauto)
              split
              · intro x hx
                rcases List.mem_cons.mp hx with rfl | hx
                · exact ⟨by simp, fun y hy => hnl y (m6 y hy), fun y hy => hr1 y (m7 y hy)⟩
                · exact hmid x hx
              · exact hmid
            · split at m9
              · rename_i hk; rw [if_pos hk, if_pos hk]
                intro x; have := m9 x; simp only [List.mem_cons] at this ⊢; (clear * - this; tauto)
              · rename_i hk; rw [if_neg hk, if_neg hk]
                intro x; rw [m9 x]
                constructor
                · rintro ⟨h1, h2⟩; exact ⟨h1, by simp [h2]⟩
                · rintro ⟨h1, h2⟩
                  rcases List.mem_cons.mp h2 with rfl | h2
                  · have := hnl x h1; omega
                  · exact ⟨h1, h2⟩
            · intro h; obtain ⟨h1, h2⟩ := m10 h
              exact ⟨h1, fun x hx => by have := h2 x hx; simp only [List.mem_cons]; (clear * - this; tauto)⟩
            · have := (m11 h).1; simp at this

end CppAD.SetVec.LV
