import Verif.SetVec.SvecInv

/-! # `collect_garbage` of `svec_setvec` -/

namespace CppAD.SetVec.SV

theorem gcCopy_loop (data : ℕ → ℕ) (last start : ℕ) : ∀ (l : List ℕ) (j n : ℕ) (tmp : ℕ → ℕ),
    Reads data last (start + j) l → (∀ x ∈ l, x < last) →
    let r := whileLoop (σ := ℕ × ℕ × (ℕ → ℕ)) (fun q => data (start + q.1) != last)
      (fun q => (q.1 + 1, q.2.1 + 1, Function.update q.2.2 q.2.1 (data (start + q.1)))) (j, n, tmp)
    r.2.1 = n + l.length ∧ (∀ c < n, r.2.2 c = tmp c) ∧ Reads (Function.update r.2.2 r.2.1 last) last n l := by
  intro l
  induction l with
  | nil =>
    intro j n tmp h _
    have h' : data (start + j) = last := h
    rw [whileLoop_false (by simpa using h')]
    exact ⟨rfl, fun _ _ => rfl, Function.update_self _ _ _⟩
  | cons x l ih =>
    intro j n tmp h hlt
    have hx : data (start + j) ≠ last := by rw [h.1]; exact (hlt x (by simp)).ne
    rw [whileLoop_true (by simpa using hx)]
    obtain ⟨h1, h2, h3⟩ := ih (j + 1) (n + 1) (Function.update tmp n (data (start + j))) h.2
      (fun y hy => hlt y (by simp [hy]))
    refine ⟨by rw [h1, List.length_cons]; omega, fun c hc => ?_, ?_, h3⟩
    · rw [h2 c (by omega), Function.update_of_ne (by omega)]
    · rw [Function.update_of_ne (by rw [h1]; omega), h2 n (by omega), Function.update_self]; exact h.1

theorem gcCopy_ok {data : ℕ → ℕ} {last start : ℕ} {l : List ℕ} (h : Reads data last (start + 2) l)
    (hlt : ∀ x ∈ l, x < last) (n : ℕ) (tmp : ℕ → ℕ) :
    (gcCopy data last start n tmp).1 = n + l.length + 1 ∧
    (∀ c < n, (gcCopy data last start n tmp).2 c = tmp c) ∧
    Reads (gcCopy data last start n tmp).2 last n l := by
  obtain ⟨h1, h2, h3⟩ := gcCopy_loop data last start l 2 n tmp h hlt
  unfold gcCopy
  dsimp only
  refine ⟨by rw [h1], fun c hc => ?_, h3⟩
  rw [Function.update_of_ne (by rw [h1]; omega)]; exact h2 c hc

/-- invariant of the copy loop: the first `k` sets have been copied -/
structure GcInv (s : SV) (L : ℕ → List ℕ) (own : ℕ → Own) (k : ℕ) (g : Gc) (own' : ℕ → Own) : Prop where
  pos : 0 < g.tmpSize
  zero : ∀ i < k, s.start i = 0 → g.tmpStart i = 0
  blk : ∀ i < k, s.start i ≠ 0 → g.tmpStart i ≠ 0 ∧ g.tmp (g.tmpStart i) = s.val (s.start i) ∧
    g.tmp (g.tmpStart i + 1) = (L i).length ∧ Reads g.tmp s.last (g.tmpStart i + 2) (L i) ∧
    g.tmpStart i + 3 + (L i).length ≤ g.tmpSize ∧
    ∀ c, g.tmpStart i ≤ c → c < g.tmpStart i + 3 + (L i).length → own' c = .set (g.tmpStart i)
  mark : ∀ i < k, s.start i ≠ 0 → g.data (s.start i) = 0 ∧ g.data (s.start i + 1) = g.tmpStart i
  keep : ∀ i < s.nSet, s.start i ≠ 0 → (∀ j < k, s.start j ≠ s.start i) →
    ∀ c, s.start i ≤ c → c < s.start i + 3 + (L i).length → g.data c = s.val c
  inj : ∀ i < k, ∀ j < k, s.start i ≠ 0 → s.start j ≠ 0 →
    (g.tmpStart i = g.tmpStart j ↔ s.start i = s.start j)

variable {s : SV} {L P : ℕ → List ℕ} {own own' : ℕ → Own}

theorem Inv.sameList (h : Inv s s.start L P own) {i j : ℕ} (hi : i < s.nSet) (hj : j < s.nSet)
    (e : s.start i = s.start j) : L i = L j := by
  by_cases h0 : s.start i = 0
  · rw [(h.nil i hi).mp h0, (h.nil j hj).mp (e ▸ h0)]
  · obtain ⟨a1, a2, _, _⟩ := h.blk i hi h0
    obtain ⟨b1, b2, _, _⟩ := h.blk j hj (e ▸ h0)
    rw [e] at a1 a2
    refine List.ext_getElem (by rw [← a1, b1]) fun k h1 h2 => ?_
    rw [← a2.get k h1, ← b2.get k h2]

theorem GcInv.step (h : Inv s s.start L P own) {k : ℕ} (hk : k < s.nSet) {g : Gc}
    (hg : GcInv s L own k g own') : ∃ own'', GcInv s L own (k + 1) (gcBody s.last s.start k g) own'' := by
  unfold gcBody
  dsimp only
  by_cases h0 : s.start k = 0
  · rw [if_pos h0]
    refine ⟨own', ⟨hg.pos, ?_, ?_, ?_, ?_, ?_⟩⟩
    · intro i hi hi0
      by_cases hik : i = k
      · subst hik; simp
      · simp only [Function.update_of_ne hik]; exact hg.zero i (by omega) hi0
    · intro i hi hi0
      have hik : i ≠ k := by rintro rfl; exact hi0 h0
      simp only [Function.update_of_ne hik]; exact hg.blk i (by omega) hi0
    · intro i hi hi0
      have hik : i ≠ k := by rintro rfl; exact hi0 h0
      simp only [Function.update_of_ne hik]; exact hg.mark i (by omega) hi0
    · intro i hi hi0 hj
      exact hg.keep i hi hi0 fun j hjk => hj j (by omega)
    · intro i hi j hj hi0 hj0
      have hik : i ≠ k := by rintro rfl; exact hi0 h0
      have hjk : j ≠ k := by rintro rfl; exact hj0 h0
      simp only [Function.update_of_ne hik, Function.update_of_ne hjk]
      exact hg.inj i (by omega) j (by omega) hi0 hj0
  · rw [if_neg h0]
    by_cases hv : ∃ j < k, s.start j = s.start k
    · obtain ⟨j, hj, hjk⟩ := hv
      obtain ⟨m1, m2⟩ := hg.mark j hj (hjk ▸ h0)
      rw [hjk] at m1 m2
      rw [if_pos m1, m2]
      have hL : L k = L j := h.sameList hk (by omega) hjk.symm
      refine ⟨own', ⟨hg.pos, ?_, ?_, ?_, ?_, ?_⟩⟩
      · intro i hi hi0
        have hik : i ≠ k := by rintro rfl; exact h0 hi0
        simp only [Function.update_of_ne hik]; exact hg.zero i (by omega) hi0
      · intro i hi hi0
        by_cases hik : i = k
        · subst hik
          simp only [Function.update_self]
          have := hg.blk j hj (hjk ▸ h0)
          rw [← hL, hjk] at this
          exact this
        · simp only [Function.update_of_ne hik]; exact hg.blk i (by omega) hi0
      · intro i hi hi0
        by_cases hik : i = k
        · subst hik; simp only [Function.update_self]; exact ⟨m1, m2⟩
        · simp only [Function.update_of_ne hik]; exact hg.mark i (by omega) hi0
      · intro i hi hi0 hjj
        exact hg.keep i hi hi0 fun j hjk => hjj j (by omega)
      · intro a ha b hb ha0 hb0
        by_cases hak : a = k
        · by_cases hbk : b = k
          · subst hak; subst hbk; simp
          · subst hak
            simp only [Function.update_self, Function.update_of_ne hbk]
            rw [hg.inj j hj b (by omega) (hjk ▸ h0) hb0, hjk]
        · by_cases hbk : b = k
          · subst hbk
            simp only [Function.update_self, Function.update_of_ne hak]
            rw [hg.inj a (by omega) j hj ha0 (hjk ▸ h0), hjk]
          · simp only [Function.update_of_ne hak, Function.update_of_ne hbk]
            exact hg.inj a (by omega) b (by omega) ha0 hb0
    · have hv : ∀ j < k, s.start j ≠ s.start k := fun j hj e => hv ⟨j, hj, e⟩
      have hkeep := hg.keep k hk h0 hv
      obtain ⟨b1, b2, b3, b4⟩ := h.blk k hk h0
      have hd0 : g.data (s.start k) = s.val (s.start k) := hkeep _ le_rfl (by omega)
      have hd1 : g.data (s.start k + 1) = (L k).length := (hkeep _ (by omega) (by omega)).trans b1
      have hrd : Reads g.data s.last (s.start k + 2) (L k) :=
        b2.congr fun c h1 h2 => hkeep c (by omega) (by omega)
      have hpos : 0 < s.val (s.start k) := by rw [h.ref k hk h0]; exact refs_pos hk
      rw [if_neg (by omega)]
      obtain ⟨c1, c2, c3⟩ := gcCopy_ok hrd (h.lst k hk).2 (g.tmpSize + 2)
        (Function.update (Function.update g.tmp g.tmpSize (g.data (s.start k))) (g.tmpSize + 1)
          (g.data (s.start k + 1)))
      revert c1 c2 c3
      generalize gcCopy g.data s.last (s.start k) (g.tmpSize + 2) (Function.update (Function.update g.tmp g.tmpSize (g.data (s.start k))) (g.tmpSize + 1)
          (g.data (s.start k + 1))) = C
      intro c1 c2 c3
      have hlow : ∀ c < g.tmpSize, C.2 c = g.tmp c := by
        intro c hc
        rw [c2 c (by omega), Function.update_of_ne (by omega), Function.update_of_ne (by omega)]
      have ht : ∀ i < k, s.start i ≠ 0 → g.tmpStart i < g.tmpSize := by
        intro i hi hi0
        have := (hg.blk i hi hi0).2.2.2.2.1; omega
      -- cells of the block of another set are not changed
      have hsep : ∀ i < s.nSet, s.start i ≠ 0 → s.start i ≠ s.start k →
          ∀ c, s.start i ≤ c → c < s.start i + 3 + (L i).length → c ≠ s.start k ∧ c ≠ s.start k + 1 := by
        intro i hi hi0 hne c e1 e2
        obtain ⟨_, _, _, a4⟩ := h.blk i hi hi0
        have ho := a4 c e1 e2
        constructor
        · rintro rfl
          have := ho.symm.trans (b4 _ le_rfl (by omega))
          injection this with this; exact hne this
        · rintro rfl
          have := ho.symm.trans (b4 _ (by omega) (by omega))
          injection this with this; exact hne this
      refine ⟨fun c => if g.tmpSize ≤ c then .set g.tmpSize else own' c, ⟨by simp only [c1]; omega, ?_, ?_, ?_, ?_, ?_⟩⟩
      · intro i hi hi0
        have hik : i ≠ k := by rintro rfl; exact h0 hi0
        simp only [Function.update_of_ne hik]; exact hg.zero i (by omega) hi0
      · intro i hi hi0
        by_cases hik : i = k
        · subst hik
          simp only [Function.update_self]
          refine ⟨by have := hg.pos; omega, ?_, ?_, c3, by omega, fun c e1 _ => by rw [if_pos e1]⟩
          · rw [c2 _ (by omega), Function.update_of_ne (by omega), Function.update_self, hd0]
          · rw [c2 _ (by omega), Function.update_self, hd1]
        · simp only [Function.update_of_ne hik]
          obtain ⟨a1, a2, a3, a4, a5, a6⟩ := hg.blk i (by omega) hi0
          refine ⟨a1, by rw [hlow _ (by omega)]; exact a2, by rw [hlow _ (by omega)]; exact a3,
            a4.congr fun c _ e2 => hlow c (by omega), by omega, fun c e1 e2 => ?_⟩
          rw [if_neg (by omega)]; exact a6 c e1 e2
      · intro i hi hi0
        by_cases hik : i = k
        · subst hik
          simp only [Function.update_self]
          exact ⟨by rw [Function.update_of_ne (by omega), Function.update_self], trivial⟩
        · simp only [Function.update_of_ne hik]
          obtain ⟨m1, m2⟩ := hg.mark i (by omega) hi0
          have hne := hsep i (by omega) hi0 (hv i (by omega))
          obtain ⟨p1, p2⟩ := hne (s.start i) le_rfl (by omega)
          obtain ⟨q1, q2⟩ := hne (s.start i + 1) (by omega) (by omega)
          rw [Function.update_of_ne p2, Function.update_of_ne p1, Function.update_of_ne q2,
            Function.update_of_ne q1]
          exact ⟨m1, m2⟩
      · intro i hi hi0 hj c e1 e2
        obtain ⟨p1, p2⟩ := hsep i hi hi0 (fun e => hj k (by omega) e.symm) c e1 e2
        simp only
        rw [Function.update_of_ne p2, Function.update_of_ne p1]
        exact hg.keep i hi hi0 (fun j hjk => hj j (by omega)) c e1 e2
      · intro a ha b hb ha0 hb0
        by_cases hak : a = k
        · by_cases hbk : b = k
          · subst hak; subst hbk; simp
          · subst hak
            simp only [Function.update_self, Function.update_of_ne hbk]
            have := ht b (by omega) hb0
            have := hv b (by omega)
            constructor
            · intro e; omega
            · intro e; exact absurd e.symm this
        · by_cases hbk : b = k
          · subst hbk
            simp only [Function.update_self, Function.update_of_ne hak]
            have := ht a (by omega) ha0
            have := hv a (by omega)
            constructor
            · intro e; omega
            · intro e; exact absurd e this
          · simp only [Function.update_of_ne hak, Function.update_of_ne hbk]
            exact hg.inj a (by omega) b (by omega) ha0 hb0

/-- the object has just been checked for garbage -/
def Quiet (s : SV) : Prop := s.notUsed < s.size / 2 + 100

theorem collect_quiet (hq : Quiet s) : s.collect = s := if_pos hq

/-- compaction keeps every set, when no elements are posted -/
theorem Inv.collect (h : Inv s s.start L P own) (hP : ¬ Quiet s → ∀ i < s.nSet, P i = []) :
    (∃ own', Inv s.collect s.collect.start L P own') ∧ Quiet s.collect ∧
      s.collect.nSet = s.nSet ∧ s.collect.last = s.last := by
  by_cases hq : Quiet s
  · rw [collect_quiet hq]; exact ⟨⟨own, h⟩, hq, rfl, rfl⟩
  · have hP := hP hq
    unfold SV.collect
    rw [if_neg (show ¬ (s.notUsed < s.size / 2 + 100) from hq)]
    dsimp only
    refine ⟨?_, ?_, rfl, rfl⟩
    swap
    · show 1 < _ / 2 + 100; omega
    have hloop := forRange_ind (Nat.zero_le s.nSet) (s := (⟨s.val, 1, s.val, s.start⟩ : Gc))
      (f := gcBody s.last s.start) (P := fun k (g : Gc) => ∃ o, GcInv s L own k g o)
      ⟨fun _ => .no, ⟨Nat.one_pos, fun i hi => by omega, fun i hi => by omega, fun i hi => by omega,
        fun _ _ _ _ _ _ _ => rfl, fun i hi => by omega⟩⟩
      (fun k g _ hk hg => by obtain ⟨o, hg⟩ := hg; exact hg.step h hk)
    revert hloop
    generalize forRange 0 s.nSet _ _ = g
    rintro ⟨own', hg⟩
    refine ⟨own', ?_⟩
    have hz : ∀ i < s.nSet, (g.tmpStart i = 0 ↔ s.start i = 0) := by
      intro i hi
      constructor
      · intro e; by_contra h0; exact (hg.blk i hi h0).1 e
      · exact hg.zero i hi
    refine ⟨fun _ => hg.pos, ?_, ?_, ?_, h.lst, h.pnil, ?_, h.plt⟩
    · intro i hi; exact (hz i hi).trans (h.nil i hi)
    · intro i hi hi0
      obtain ⟨a1, a2, a3, a4, a5, a6⟩ := hg.blk i hi (fun e => hi0 ((hz i hi).mpr e))
      exact ⟨a3, a4, a5, a6⟩
    · intro i hi hi0
      have h0 : s.start i ≠ 0 := fun e => hi0 ((hz i hi).mpr e)
      obtain ⟨a1, a2, a3, a4, a5, a6⟩ := hg.blk i hi h0
      show g.tmp (g.tmpStart i) = LV.refs s.nSet g.tmpStart [] (g.tmpStart i)
      rw [a2, h.ref i hi h0]
      unfold LV.refs
      rw [List.count_nil, List.count_nil]
      congr 2
      refine Finset.filter_congr fun j hj => ?_
      have hj : j < s.nSet := by simpa using hj
      by_cases hj0 : s.start j = 0
      · rw [hg.zero j hj hj0, hj0]
        exact ⟨fun e => absurd e.symm h0, fun e => absurd e.symm a1⟩
      · exact (hg.inj j hj i hi hj0 h0).symm
    · intro i hi hi0
      exact absurd ((h.pnil i hi).mpr (hP i hi)) hi0

/-- `data_not_used_ += n; collect_garbage();` -/
theorem Inv.lost (h : Inv s s.start L P own) (n : ℕ) (hP : ∀ i < s.nSet, P i = []) :
    (∃ own', Inv (s.lost n) (s.lost n).start L P own') ∧ Quiet (s.lost n) ∧
      (s.lost n).nSet = s.nSet ∧ (s.lost n).last = s.last :=
  (h.withStart s.start (s.notUsed + n)).collect (fun _ => hP)

end CppAD.SetVec.SV
