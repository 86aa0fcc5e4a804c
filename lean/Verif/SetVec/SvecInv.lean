import Verif.SetVec.Svec
import Verif.SetVec.ListInv

/-! # The invariant of `svec_setvec` -/

namespace CppAD.SetVec.SV

/-- owner of a cell of `data_`: the set whose block begins at an address, or the posts of a set -/
inductive Own
  | no
  | set (st : ℕ)
  | post (i : ℕ)

/-- the cells from `c` on contain the list followed by the end marker -/
def Reads (f : ℕ → ℕ) (e : ℕ) : ℕ → List ℕ → Prop
  | c, [] => f c = e
  | c, x :: l => f c = x ∧ Reads f e (c + 1) l

theorem Reads.head {f : ℕ → ℕ} {e c : ℕ} {l : List ℕ} (h : Reads f e c l) : f c = l.headD e := by
  cases l with
  | nil => exact h
  | cons x l => exact h.1

theorem Reads.congr {f g : ℕ → ℕ} {e : ℕ} {l : List ℕ} : ∀ {c : ℕ}, Reads f e c l →
    (∀ k, c ≤ k → k ≤ c + l.length → g k = f k) → Reads g e c l := by
  induction l with
  | nil => intro c h hg; exact (hg c le_rfl (by simp)).trans h
  | cons x l ih =>
    intro c h hg
    refine ⟨(hg c le_rfl (by simp)).trans h.1, ih h.2 fun k h1 h2 => hg k (by omega) ?_⟩
    simp only [List.length_cons]; omega

theorem Reads.get {f : ℕ → ℕ} {e : ℕ} {l : List ℕ} : ∀ {c : ℕ}, Reads f e c l →
    ∀ j (h : j < l.length), f (c + j) = l[j] := by
  induction l with
  | nil => intro c _ j h; simp at h
  | cons x l ih =>
    intro c h j hj
    cases j with
    | zero => exact h.1
    | succ j =>
      have := ih h.2 j (by simpa using hj)
      rw [show c + (j + 1) = c + 1 + j by omega, this]; rfl

theorem Reads.stop {f : ℕ → ℕ} {e : ℕ} {l : List ℕ} : ∀ {c : ℕ}, Reads f e c l →
    f (c + l.length) = e := by
  induction l with
  | nil => intro c h; exact h
  | cons x l ih =>
    intro c h
    have := ih h.2
    rw [List.length_cons, show c + (l.length + 1) = c + 1 + l.length by omega, this]

structure Inv (s : SV) (start : ℕ → ℕ) (L P : ℕ → List ℕ) (own : ℕ → Own) : Prop where
  pos : 0 < s.nSet → 0 < s.size
  nil : ∀ i < s.nSet, (start i = 0 ↔ L i = [])
  blk : ∀ i < s.nSet, start i ≠ 0 → s.val (start i + 1) = (L i).length ∧
    Reads s.val s.last (start i + 2) (L i) ∧ start i + 3 + (L i).length ≤ s.size ∧
    ∀ c, start i ≤ c → c < start i + 3 + (L i).length → own c = .set (start i)
  ref : ∀ i < s.nSet, start i ≠ 0 → s.val (start i) = LV.refs s.nSet start [] (start i)
  lst : ∀ i < s.nSet, (L i).Pairwise (· < ·) ∧ ∀ x ∈ L i, x < s.last
  pnil : ∀ i < s.nSet, (s.post i = 0 ↔ P i = [])
  pblk : ∀ i < s.nSet, s.post i ≠ 0 → s.val (s.post i) = (P i).length ∧ (P i).length ≤ 10 ∧
    s.val (s.post i + 1) = 10 ∧ (∀ j (h : j < (P i).length), s.val (s.post i + 2 + j) = (P i)[j]) ∧
    s.post i + 12 ≤ s.size ∧ ∀ c, s.post i ≤ c → c < s.post i + 12 → own c = .post i
  plt : ∀ i < s.nSet, ∀ x ∈ P i, x < s.last

variable {s : SV} {start : ℕ → ℕ} {L P : ℕ → List ℕ} {own : ℕ → Own}

/-- cells beyond the end are not part of the invariant -/
theorem Inv.agree (h : Inv s start L P own) {s' : SV} (hn : s'.nSet = s.nSet) (hl : s'.last = s.last)
    (hp : s'.post = s.post) (hs : s.size ≤ s'.size) (hv : ∀ c < s.size, s'.val c = s.val c) :
    Inv s' start L P own where
  pos := by rw [hn]; intro h0; have := h.pos h0; omega
  nil := by rw [hn]; exact h.nil
  blk := by
    rw [hn, hl]
    intro i hi h0
    obtain ⟨h1, h2, h3, h4⟩ := h.blk i hi h0
    exact ⟨by rw [hv _ (by omega)]; exact h1, h2.congr (fun k _ hk => hv k (by omega)), by omega, h4⟩
  ref := by
    rw [hn]
    intro i hi h0
    obtain ⟨_, _, h3, _⟩ := h.blk i hi h0
    rw [hv _ (by omega)]; exact h.ref i hi h0
  lst := by rw [hn, hl]; exact h.lst
  pnil := by rw [hn, hp]; exact h.pnil
  pblk := by
    rw [hn, hp]
    intro i hi h0
    obtain ⟨h1, h2, h3, h4, h5, h6⟩ := h.pblk i hi h0
    refine ⟨by rw [hv _ (by omega)]; exact h1, h2, by rw [hv _ (by omega)]; exact h3,
      fun j hj => ?_, by omega, h6⟩
    rw [hv _ (by omega)]; exact h4 j hj
  plt := by rw [hn, hl]; exact h.plt

/-- a reference count is changed -/
theorem Inv.count (h : Inv s start L P own) {st v : ℕ} {start' : ℕ → ℕ} {L' : ℕ → List ℕ}
    (hst : own st = .set st) (hmem : ∀ i < s.nSet, start' i ≠ 0 → ∃ j < s.nSet, start j = start' i ∧ L j = L' i)
    (hnil : ∀ i < s.nSet, (start' i = 0 ↔ L' i = []))
    (hlst : ∀ i < s.nSet, (L' i).Pairwise (· < ·) ∧ ∀ x ∈ L' i, x < s.last)
    (hv : ∀ i < s.nSet, start' i = st → st ≠ 0 → v = LV.refs s.nSet start' [] st)
    (hother : ∀ k, k ≠ st → k ≠ 0 → LV.refs s.nSet start' [] k = LV.refs s.nSet start [] k) :
    Inv (s.setVal st v) start' L' P own where
  pos := h.pos
  nil := hnil
  blk := by
    intro i hi h0
    have hi : i < s.nSet := hi
    obtain ⟨j, hj, e1, e2⟩ := hmem i hi h0
    obtain ⟨h1, h2, h3, h4⟩ := h.blk j hj (e1 ▸ h0)
    rw [e1, e2] at h1 h2 h3 h4
    have hne : ∀ k, start' i < k → k < start' i + 3 + (L' i).length → k ≠ st := by
      rintro k hk1 hk2 rfl
      have := (h4 k hk1.le hk2).symm.trans hst
      injection this with this; omega
    refine ⟨?_, h2.congr fun k hk1 hk2 => Function.update_of_ne (hne k (by omega) (by omega)) _ _, h3, h4⟩
    show Function.update s.val st v _ = _
    rw [Function.update_of_ne (hne _ (by omega) (by omega))]; exact h1
  ref := by
    intro i hi h0
    have hi : i < s.nSet := hi
    show Function.update s.val st v _ = LV.refs s.nSet start' [] (start' i)
    by_cases he : start' i = st
    · rw [he, Function.update_self]; exact hv i hi he (he ▸ h0)
    · rw [Function.update_of_ne he, hother _ he h0]
      obtain ⟨j, hj, e1, _⟩ := hmem i hi h0
      rw [← e1]; exact h.ref j hj (e1 ▸ h0)
  lst := hlst
  pnil := h.pnil
  pblk := by
    intro i hi h0
    obtain ⟨h1, h2, h3, h4, h5, h6⟩ := h.pblk i hi h0
    have hne : ∀ k, s.post i ≤ k → k < s.post i + 12 → k ≠ st := by
      rintro k hk1 hk2 rfl
      have := (h6 k hk1 hk2).symm.trans hst
      cases this
    have hu : ∀ k, s.post i ≤ k → k < s.post i + 12 → (s.setVal st v).val k = s.val k :=
      fun k a b => Function.update_of_ne (hne k a b) _ _
    refine ⟨(hu _ le_rfl (by show s.post i < _; omega)).trans h1, h2,
      (hu _ (by show s.post i ≤ s.post i + 1; omega) (by show s.post i + 1 < _; omega)).trans h3,
      fun j hj => ?_, h5, h6⟩
    exact (hu _ (by show s.post i ≤ s.post i + 2 + j; omega) (by show s.post i + 2 + j < _; omega)).trans (h4 j hj)
  plt := h.plt

theorem refs_pos {n i : ℕ} (hi : i < n) : 0 < LV.refs n start [] (start i) := by
  unfold LV.refs
  have : 0 < ((Finset.range n).filter (fun j => start j = start i)).card :=
    Finset.card_pos.mpr ⟨i, by simp [hi]⟩
  omega

/-- all the parts of the object other than `data_` are the same -/
structure Same (s s' : SV) : Prop where
  last : s'.last = s.last
  nSet : s'.nSet = s.nSet
  start : s'.start = s.start
  post : s'.post = s.post
  size : s'.size = s.size
  notUsed : s'.notUsed = s.notUsed

theorem drop_same (s : SV) (i : ℕ) : Same s (s.drop i).2 := by
  unfold drop
  dsimp only
  split
  · exact ⟨rfl, rfl, rfl, rfl, rfl, rfl⟩
  · split <;> exact ⟨rfl, rfl, rfl, rfl, rfl, rfl⟩

theorem drop_val (s : SV) (i : ℕ) {c : ℕ} (hc : c ≠ s.start i) : (s.drop i).2.val c = s.val c := by
  unfold drop
  dsimp only
  split
  · rfl
  · split <;> exact Function.update_of_ne hc _ _

theorem Inv.drop (h : Inv s s.start L P own) {i : ℕ} (hi : i < s.nSet) :
    Inv (s.drop i).2 (Function.update s.start i 0) (Function.update L i []) P own := by
  by_cases h0 : s.start i = 0
  · have e1 : Function.update s.start i 0 = s.start := by
      funext j; by_cases hj : j = i
      · subst hj; simp [h0]
      · simp [hj]
    have e2 : Function.update L i [] = L := by
      funext j; by_cases hj : j = i
      · subst hj; simp [(h.nil j hi).mp h0]
      · simp [hj]
    have e3 : (s.drop i).2 = s := by simp [SV.drop, refCount, h0]
    rw [e1, e2, e3]; exact h
  · have hr : s.refCount i = LV.refs s.nSet s.start [] (s.start i) := by
      simp only [refCount, if_neg h0]; exact h.ref i hi h0
    have hrp := refs_pos (start := s.start) hi
    have e3 : (s.drop i).2 = s.setVal (s.start i) (s.val (s.start i) - 1) := by
      unfold SV.drop
      dsimp only
      rw [if_neg (by omega)]
      split <;> rfl
    rw [e3]
    obtain ⟨b1, b2, b3, b4⟩ := h.blk i hi h0
    have hu := LV.refs_update hi s.start [] 0
    refine h.count (b4 _ le_rfl (by omega)) ?_ ?_ ?_ ?_ ?_
    · intro j hj hj0
      by_cases hji : j = i
      · subst hji; simp at hj0
      · exact ⟨j, hj, by simp [hji], by simp [hji]⟩
    · intro j hj
      by_cases hji : j = i
      · subst hji; simp
      · simp [hji, h.nil j hj]
    · intro j hj
      by_cases hji : j = i
      · subst hji; simp
      · simp only [Function.update_of_ne hji]; exact h.lst j hj
    · intro j hj _ _
      have := hu (s.start i)
      rw [if_pos rfl, if_neg (fun e => h0 e.symm)] at this
      rw [h.ref i hi h0]; omega
    · intro k hk hk0
      have := hu k
      rw [if_neg (fun e => hk e.symm), if_neg (fun e => hk0 e.symm)] at this
      omega

/-- what `drop` does not change: the elements of the sets -/
theorem Inv.drop_reads (h : Inv s s.start L P own) {i j : ℕ} (hi : i < s.nSet) (hj : j < s.nSet)
    (h0 : s.start j ≠ 0) : (s.drop i).2.val (s.start j + 1) = (L j).length ∧
      Reads (s.drop i).2.val s.last (s.start j + 2) (L j) := by
  obtain ⟨b1, b2, b3, b4⟩ := h.blk j hj h0
  have hne : ∀ k, s.start j < k → k < s.start j + 3 + (L j).length → (s.drop i).2.val k = s.val k := by
    intro k h1 h2
    by_cases hi0 : s.start i = 0
    · simp [SV.drop, refCount, hi0]
    · refine drop_val s i ?_
      rintro rfl
      obtain ⟨_, _, _, b4'⟩ := h.blk i hi hi0
      have := (b4 _ h1.le h2).symm.trans (b4' _ le_rfl (by omega))
      injection this with this; omega
  exact ⟨(hne _ (by omega) (by omega)).trans b1, b2.congr fun k h1 h2 => hne k (by omega) (by omega)⟩

/-- `post_[i] = 0` -/
theorem Inv.forget (h : Inv s start L P own) (i : ℕ) :
    Inv (s.setPost i 0) start L (Function.update P i []) own where
  pos := h.pos
  nil := h.nil
  blk := h.blk
  ref := h.ref
  lst := h.lst
  pnil := by
    intro j hj
    show Function.update s.post i 0 j = 0 ↔ _
    by_cases hji : j = i
    · subst hji; simp
    · simp only [Function.update_of_ne hji]; exact h.pnil j hj
  pblk := by
    intro j hj hj0
    have hj0 : Function.update s.post i 0 j ≠ 0 := hj0
    by_cases hji : j = i
    · subst hji; simp at hj0
    · show _ ∧ _ ∧ _ ∧ _
      rw [Function.update_of_ne hji] at hj0
      have hp : (s.setPost i 0).post j = s.post j := Function.update_of_ne hji _ _
      rw [hp, Function.update_of_ne hji]; exact h.pblk j hj hj0
  plt := by
    intro j hj
    by_cases hji : j = i
    · subst hji; simp
    · simp only [Function.update_of_ne hji]; exact h.plt j hj

theorem dropPost_same (s : SV) (i : ℕ) : (s.dropPost i).2.last = s.last ∧ (s.dropPost i).2.nSet = s.nSet ∧
    (s.dropPost i).2.start = s.start ∧ (s.dropPost i).2.val = s.val ∧ (s.dropPost i).2.size = s.size ∧
    (s.dropPost i).2.notUsed = s.notUsed := by
  unfold dropPost
  dsimp only
  split <;> exact ⟨rfl, rfl, rfl, rfl, rfl, rfl⟩

theorem Inv.dropPost (h : Inv s start L P own) {i : ℕ} (hi : i < s.nSet) :
    Inv (s.dropPost i).2 start L (Function.update P i []) own := by
  unfold SV.dropPost
  dsimp only
  split
  · exact h.forget i
  · have e2 : Function.update P i [] = P := by
      funext j; by_cases hj : j = i
      · subst hj; simp [(h.pnil j hi).mp (by omega)]
      · simp [hj]
    rw [e2]; exact h

/-- `start_` is not part of the invariant -/
theorem Inv.withStart (h : Inv s start L P own) (f : ℕ → ℕ) (n : ℕ) :
    Inv { s with start := f, notUsed := n } start L P own :=
  ⟨h.pos, h.nil, h.blk, h.ref, h.lst, h.pnil, h.pblk, h.plt⟩

/-- a new block for set `t`, which was empty, at the end of `data_` -/
theorem Inv.newBlock (h : Inv s start L P own) {t : ℕ} (ht : t < s.nSet) (h0 : start t = 0)
    {s' : SV} (hn : s'.nSet = s.nSet) (hl : s'.last = s.last) (hp : s'.post = s.post) {l : List ℕ}
    (hne : l ≠ []) (hsort : l.Pairwise (· < ·)) (hlt : ∀ x ∈ l, x < s.last)
    (hs : s'.size = s.size + 3 + l.length) (hv : ∀ c < s.size, s'.val c = s.val c)
    (h1 : s'.val s.size = 1) (h2 : s'.val (s.size + 1) = l.length)
    (h3 : Reads s'.val s'.last (s.size + 2) l) :
    Inv s' (Function.update start t s.size) (Function.update L t l) P
      (fun c => if s.size ≤ c then .set s.size else own c) := by
  have ha := h.agree hn hl hp (by omega) hv
  have hsz := h.pos (by omega)
  have hlow : ∀ i < s.nSet, start i < s.size := by
    intro i hi
    by_cases hi0 : start i = 0
    · omega
    · have := (h.blk i hi hi0).2.2.1; omega
  have hu := LV.refs_update ht start [] s.size
  constructor
  · exact ha.pos
  · intro i hi
    by_cases hit : i = t
    · subst hit; simp [hne]; omega
    · simp only [Function.update_of_ne hit]; exact ha.nil i hi
  · intro i hi hi0
    by_cases hit : i = t
    · subst hit
      simp only [Function.update_self]
      refine ⟨h2, h3, by omega, fun c hc _ => by rw [if_pos hc]⟩
    · simp only [Function.update_of_ne hit] at hi0 ⊢
      obtain ⟨b1, b2, b3, b4⟩ := h.blk i (by omega) hi0
      obtain ⟨c1, c2, c3, c4⟩ := ha.blk i hi hi0
      exact ⟨c1, c2, c3, fun c e1 e2 => by rw [if_neg (by omega)]; exact b4 c e1 e2⟩
  · intro i hi hi0
    by_cases hit : i = t
    · subst hit
      simp only [Function.update_self]
      have := hu s.size
      rw [if_pos rfl, h0, if_neg (by omega)] at this
      have hz : LV.refs s.nSet start [] s.size = 0 := by
        unfold LV.refs
        rw [List.count_nil, Nat.zero_add, Finset.card_eq_zero, Finset.filter_eq_empty_iff]
        intro j hj e
        have := hlow j (by simpa using hj); omega
      rw [h1, hn]; omega
    · simp only [Function.update_of_ne hit] at hi0 ⊢
      have hil := hlow i (by omega)
      have := hu (start i)
      rw [h0, if_neg (fun e => hi0 e.symm), if_neg (by omega)] at this
      rw [ha.ref i hi hi0, hn]; omega
  · intro i hi
    by_cases hit : i = t
    · subst hit; simp only [Function.update_self, hl]; exact ⟨hsort, hlt⟩
    · simp only [Function.update_of_ne hit]; exact ha.lst i hi
  · exact ha.pnil
  · intro i hi hi0
    obtain ⟨c1, c2, c3, c4, c5, c6⟩ := ha.pblk i hi hi0
    have := (h.pblk i (by omega) (by rw [← hp]; exact hi0)).2.2.2.2.1
    refine ⟨c1, c2, c3, c4, c5, fun c e1 e2 => ?_⟩
    rw [if_neg (by rw [hp] at e2; omega)]; exact c6 c e1 e2
  · exact ha.plt

end CppAD.SetVec.SV
