import Verif.SetVec.ListRead

/-! # The member functions in terms of lists of values -/

namespace CppAD.SetVec.LV

variable {s : LV} {start : ℕ → ℕ} {X : List ℕ} {own : ℕ → Own} {V PV : ℕ → List ℕ}

/-- the values in the list for set `i` -/
def elems (start : ℕ → ℕ) (V : ℕ → List ℕ) (i : ℕ) : List ℕ :=
  if start i = 0 then [] else V (start i)

/-- the object is well formed, set `i` is represented by `L i`, and `P i` is
posted to it -/
def Has (s : LV) (L P : ℕ → List ℕ) : Prop :=
  ∃ own V PV, Inv s s.start [] own V PV ∧ (∀ c, own c ≠ .tmp) ∧
    (∀ i < s.nSet, elems s.start V i = L i) ∧ (∀ i < s.nSet, PV i = P i)

variable {L P : ℕ → List ℕ}

theorem Inv.zeroOf (h : Inv s start X own V PV) (hn : 0 < s.nSet) : Zero s :=
  ⟨(h.zero hn).1, (h.zero hn).2.1⟩

theorem Has.zero (h : Has s L P) (hn : 0 < s.nSet) : Zero s := by
  obtain ⟨own, V, PV, h, _⟩ := h; exact h.zeroOf hn

theorem Has.empty_iff (h : Has s L P) {i : ℕ} (hi : i < s.nSet) : s.start i = 0 ↔ L i = [] := by
  obtain ⟨own, V, PV, h, ht, h1, h2⟩ := h
  rw [← h1 i hi]
  unfold elems
  by_cases h0 : s.start i = 0
  · simp [h0]
  · rw [if_neg h0]
    obtain ⟨c, _, _, _, c4, c5⟩ := h.blk _ (live_start hi [] h0)
    simp only [h0, false_iff]
    rw [← c4]; simpa using c5

theorem Has.reads (h : Has s L P) {i : ℕ} (hi : i < s.nSet) (h0 : s.start i ≠ 0) :
    Reads s (s.nxt (s.start i)) (L i) := by
  obtain ⟨own, V, PV, h, ht, h1, h2⟩ := h
  rw [← h1 i hi]
  unfold elems
  rw [if_neg h0]
  obtain ⟨c, c1, _, _, c4, c5⟩ := h.blk _ (live_start hi [] h0)
  rw [← c4]; exact Reads.of_chain c1

/-- changing the lists that are not in use does not matter -/
theorem elems_update {n : ℕ} {start : ℕ → ℕ} {st : ℕ} (hd : ¬ Live n start [] st) (V : ℕ → List ℕ)
    (vs : List ℕ) {j : ℕ} (hj : j < n) :
    elems start (Function.update V st vs) j = elems start V j := by
  unfold elems
  by_cases h0 : start j = 0
  · rw [if_pos h0, if_pos h0]
  · rw [if_neg h0, if_neg h0, Function.update_of_ne]
    rintro e
    exact hd (e ▸ live_start hj [] h0)

theorem elems_start (start : ℕ → ℕ) (V : ℕ → List ℕ) (i st j : ℕ) :
    elems (Function.update start i st) V j
      = if j = i then (if st = 0 then [] else V st) else elems start V j := by
  unfold elems
  by_cases hj : j = i
  · subst hj; simp
  · simp [hj]

theorem update_apply' {α : Type} (f : ℕ → α) (i : ℕ) (v : α) (j : ℕ) :
    Function.update f i v j = if j = i then v else f j := by
  by_cases h : j = i
  · subst h; simp
  · simp [h]

/-- `clear` -/
theorem Has.clear (h : Has s L P) {i : ℕ} (hi : i < s.nSet) :
    Has (s.dropAdd i) (Function.update L i []) (Function.update P i []) ∧
    (s.dropAdd i).last = s.last ∧ (s.dropAdd i).nSet = s.nSet := by
  obtain ⟨own, V, PV, h, ht, h1, h2⟩ := h
  obtain ⟨⟨own', d1, d2⟩, d3, d4, d5⟩ := h.dropAdd hi
  refine ⟨⟨own', V, _, d3 ▸ d1, fun c e => ht c ((d2 c).mp e), ?_, ?_⟩, d4, d5⟩
  · intro j hj
    rw [d5] at hj
    rw [d3, elems_start, update_apply', h1 j hj]; simp
  · intro j hj
    rw [d5] at hj
    rw [update_apply', update_apply', h2 j hj]

/-- `drop` and `build` -/
theorem Has.rebuild (h : Has s L P) {i : ℕ} (hi : i < s.nSet) {vs : List ℕ} (hvs : vs ≠ []) :
    Has ((s.dropAdd i).build i vs) (Function.update L i vs) (Function.update P i []) ∧
    ((s.dropAdd i).build i vs).last = s.last ∧ ((s.dropAdd i).build i vs).nSet = s.nSet := by
  obtain ⟨own, V, PV, h, ht, h1, h2⟩ := h
  obtain ⟨⟨own', d1, d2⟩, d3, d4, d5⟩ := h.dropAdd hi
  obtain ⟨st, own2, b1, b2, b3, b4, b5, b6, b7⟩ := d1.build (i := i) (by rw [d5]; exact hi)
    (fun c e => ht c ((d2 c).mp e)) (by simp) hvs
  refine ⟨⟨own2, Function.update V st vs, Function.update PV i [], ?_, b4, ?_, ?_⟩, b6.trans d4, b7.trans d5⟩
  · rw [b5, d3]; exact b3
  · intro j hj
    rw [b7, d5] at hj
    rw [b5, elems_start]
    by_cases hji : j = i
    · subst hji; simp [b1]
    · rw [if_neg hji, d3, Function.update_of_ne hji, elems_update (n := s.nSet) (by rw [d5] at b2; exact b2) V vs hj,
        elems_start, if_neg hji, h1 j hj]
  · intro j hj
    rw [b7, d5] at hj
    rw [update_apply', update_apply', h2 j hj]

/-- `assignment` in the same object -/
theorem Has.assign (h : Has s L P) {t v : ℕ} (ht : t < s.nSet) (hv : v < s.nSet) (hne : t ≠ v) :
    Has (s.assignment t v none) (Function.update L t (L v)) (Function.update P t []) ∧
    (s.assignment t v none).last = s.last ∧ (s.assignment t v none).nSet = s.nSet := by
  obtain ⟨own, V, PV, h, htmp, h1, h2⟩ := h
  unfold LV.assignment
  dsimp only
  rw [if_neg hne]
  by_cases h0 : s.start v = 0
  · rw [if_neg (by simpa using h0)]
    obtain ⟨⟨own', d1, d2⟩, d3, d4, d5⟩ := h.dropAdd ht
    refine ⟨⟨own', V, Function.update PV t [], ?_, fun c e => htmp c ((d2 c).mp e), ?_, ?_⟩, d4, d5⟩
    · have e : ((s.dropAdd t).setStart t (s.start v)).start = Function.update s.start t 0 := by
        show Function.update (s.dropAdd t).start t (s.start v) = _
        rw [d3, h0]; simp
      rw [e]; exact d1.withStart _
    · intro j hj
      replace hj : j < s.nSet := d5 ▸ hj
      show elems (Function.update (s.dropAdd t).start t (s.start v)) V j = _
      rw [elems_start, update_apply', d3, elems_start, h1 j hj, ← h1 v hv]
      split
      · unfold elems; rw [if_pos h0]
      · rfl
    · intro j hj
      replace hj : j < s.nSet := d5 ▸ hj
      rw [update_apply', update_apply', h2 j hj]
  · rw [if_pos h0]
    have hlive := live_start hv [] h0
    have hval := h.ref _ hlive
    have hrc : refs s.nSet s.start [s.start v] (s.start v) = s.val (s.start v) + 1 := by
      rw [refs_cons, if_pos rfl, hval]
    have hrec := h.recount (start' := s.start) (X' := [s.start v]) hlive (by omega)
      (fun k hk _ => by rw [refs_cons, if_neg (fun e => hk e.symm), Nat.add_zero]) s.start
    rw [hrc] at hrec
    replace hrec : Inv (s.setVal (s.start v) (s.val (s.start v) + 1)) s.start [s.start v] own V PV := hrec
    obtain ⟨⟨own', d1, d2⟩, d3, d4, d5⟩ := hrec.dropAdd (i := t) ht
    have hlk := d1.link (i := t) (by rw [d5]; exact ht) (by simp [setVal])
      (Function.update ((s.setVal (s.start v) (s.val (s.start v) + 1)).dropAdd t).start t (s.start v))
    refine ⟨⟨own', V, Function.update PV t [], ?_, fun c e => htmp c ((d2 c).mp e), ?_, ?_⟩, d4, d5⟩
    · have e : (((s.setVal (s.start v) (s.val (s.start v) + 1)).dropAdd t).setStart t (s.start v)).start
          = Function.update (Function.update s.start t 0) t (s.start v) := by
        show Function.update ((s.setVal (s.start v) (s.val (s.start v) + 1)).dropAdd t).start t (s.start v) = _
        rw [d3]; rfl
      rw [e]; exact hlk
    · intro j hj
      replace hj : j < s.nSet := d5 ▸ hj
      show elems (Function.update ((s.setVal (s.start v) (s.val (s.start v) + 1)).dropAdd t).start t (s.start v)) V j = _
      rw [elems_start, update_apply', d3]
      show (if j = t then _ else elems (Function.update s.start t 0) V j) = _
      rw [elems_start, h1 j hj, ← h1 v hv]
      split
      · unfold elems; rw [if_neg h0]
      · rfl
    · intro j hj
      replace hj : j < s.nSet := d5 ▸ hj
      rw [update_apply', update_apply', h2 j hj]

end CppAD.SetVec.LV
