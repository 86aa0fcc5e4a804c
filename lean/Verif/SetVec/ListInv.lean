import Verif.SetVec.ListVec
import Verif.SetVec.SortLemmas

/-! # The heap invariant of `size_setvec` -/

namespace CppAD.SetVec.LV

/-- `l` is the list of cells reached from `p` by following `nxt` until zero -/
def Chain (nxt : ℕ → ℕ) : ℕ → List ℕ → Prop
  | p, [] => p = 0
  | p, a :: l => p = a ∧ a ≠ 0 ∧ Chain nxt (nxt a) l

theorem Chain.frame {nxt nxt' : ℕ → ℕ} {p : ℕ} {l : List ℕ} (h : Chain nxt p l)
    (he : ∀ c ∈ l, nxt' c = nxt c) : Chain nxt' p l := by
  induction l generalizing p with
  | nil => exact h
  | cons a l ih =>
    obtain ⟨h1, h2, h3⟩ := h
    refine ⟨h1, h2, ?_⟩
    rw [he a (by simp)]
    exact ih h3 (fun c hc => he c (by simp [hc]))

theorem Chain.nonzero {nxt : ℕ → ℕ} {p : ℕ} {l : List ℕ} (h : Chain nxt p l) : ∀ c ∈ l, c ≠ 0 := by
  induction l generalizing p with
  | nil => simp
  | cons a l ih =>
    obtain ⟨h1, h2, h3⟩ := h
    intro c hc
    rcases List.mem_cons.mp hc with rfl | hc
    · exact h2
    · exact ih h3 c hc

theorem Chain.eq_nil {nxt : ℕ → ℕ} {l : List ℕ} (h : Chain nxt 0 l) : l = [] := by
  cases l with
  | nil => rfl
  | cons a l => exact absurd h.1.symm h.2.1

theorem Chain.eq_cons {nxt : ℕ → ℕ} {p : ℕ} {l : List ℕ} (h : Chain nxt p l) (hp : p ≠ 0) :
    ∃ l', l = p :: l' ∧ Chain nxt (nxt p) l' := by
  cases l with
  | nil => exact absurd h hp
  | cons a l => obtain ⟨rfl, h2, h3⟩ := h; exact ⟨l, rfl, h3⟩

/-- splice: replace the end of a chain -/
theorem Chain.splice {nxt : ℕ → ℕ} {p f : ℕ} {a : ℕ} {l F : List ℕ}
    (h : Chain nxt p (a :: l)) (hnd : (a :: l).Nodup) (hF : Chain nxt f F)
    (hd : ∀ c ∈ F, c ∉ a :: l) :
    Chain (Function.update nxt ((a :: l).getLast (by simp)) f) p ((a :: l) ++ F) := by
  induction l generalizing p a with
  | nil =>
    obtain ⟨h1, h2, h3⟩ := h
    refine ⟨h1, h2, ?_⟩
    simp only [List.getLast_singleton, Function.update_self]
    exact hF.frame (fun c hc => Function.update_of_ne (by
      rintro rfl; exact hd _ hc (by simp)) _ _)
  | cons b l ih =>
    obtain ⟨h1, h2, h3⟩ := h
    have hnd' := (List.nodup_cons.mp hnd)
    have key := ih (p := nxt a) h3 hnd'.2 (fun c hc hc' => hd c hc (by simp only [List.mem_cons] at hc' ⊢; tauto))
    have hlast : (a :: b :: l).getLast (by simp) = (b :: l).getLast (by simp) := by simp
    rw [hlast]
    refine ⟨h1, h2, ?_⟩
    have hne : a ≠ (b :: l).getLast (by simp) := by
      intro he; exact hnd'.1 (he ▸ List.getLast_mem _)
    rw [Function.update_of_ne hne]
    exact key

/-- the owner of a cell: none (index zero or beyond the array), the free
list, the posts of a set, the list with the given header, or a cell that has been taken and
is not linked yet -/
inductive Own
  | no
  | free
  | post (i : ℕ)
  | blk (st : ℕ)
  | tmp
deriving DecidableEq

/-- number of references to the list with header `st` -/
def refs (n : ℕ) (start : ℕ → ℕ) (X : List ℕ) (st : ℕ) : ℕ :=
  X.count st + ((Finset.range n).filter (fun i => start i = st)).card

/-- `st` is the header of a list that is in use -/
def Live (n : ℕ) (start : ℕ → ℕ) (X : List ℕ) (st : ℕ) : Prop :=
  st ≠ 0 ∧ 0 < refs n start X st

theorem refs_update {n i : ℕ} (hi : i < n) (start : ℕ → ℕ) (X : List ℕ) (b st : ℕ) :
    refs n (Function.update start i b) X st + (if start i = st then 1 else 0)
      = refs n start X st + (if b = st then 1 else 0) := by
  unfold refs
  have h1 : ∀ f : ℕ → ℕ, ((Finset.range n).filter (fun j => f j = st)).card
      = (((Finset.range n).erase i).filter (fun j => f j = st)).card
        + (if f i = st then 1 else 0) := by
    intro f
    conv_lhs => rw [← Finset.insert_erase (Finset.mem_range.mpr hi)]
    rw [Finset.filter_insert]
    split
    · rw [Finset.card_insert_of_notMem (by simp)]
    · rfl
  rw [h1 start, h1 (Function.update start i b), Function.update_self]
  have : ((Finset.range n).erase i).filter (fun j => Function.update start i b j = st)
      = ((Finset.range n).erase i).filter (fun j => start j = st) := by
    apply Finset.filter_congr
    intro j hj
    rw [Function.update_of_ne (Finset.ne_of_mem_erase hj)]
  rw [this]; omega

theorem refs_cons (n : ℕ) (start : ℕ → ℕ) (X : List ℕ) (b st : ℕ) :
    refs n start (b :: X) st = refs n start X st + (if b = st then 1 else 0) := by
  unfold refs
  rw [List.count_cons]
  by_cases h : b = st <;> simp [h] <;> omega

theorem live_start {n i : ℕ} (hi : i < n) {start : ℕ → ℕ} (X : List ℕ) (h : start i ≠ 0) :
    Live n start X (start i) := by
  refine ⟨h, ?_⟩
  unfold refs
  have : 0 < ((Finset.range n).filter (fun j => start j = start i)).card :=
    Finset.card_pos.mpr ⟨i, by simp [hi]⟩
  omega

/-- The invariant.  `start` is the vector of headers (it differs from
`s.start` in the middle of some functions), `X` are references that are held
but not stored in `start`, `V st` are the values in the list with header
`st`, `PV i` the values posted to set `i`. -/
structure Inv (s : LV) (start : ℕ → ℕ) (X : List ℕ) (own : ℕ → Own) (V PV : ℕ → List ℕ) :
    Prop where
  zero : 0 < s.nSet → s.val 0 = s.last ∧ s.nxt 0 = 0 ∧ 0 < s.size
  no : ∀ c, own c = .no ↔ c = 0 ∨ s.size ≤ c
  free : ∃ F, Chain s.nxt s.dataNotUsed F ∧ F.Nodup ∧ (∀ c, c ∈ F ↔ own c = .free) ∧
    s.numNotUsed = F.length
  post : ∀ i < s.nSet, ∃ L, Chain s.nxt (s.post i) L ∧ L.Nodup ∧ (∀ c, c ∈ L ↔ own c = .post i) ∧
    L.map s.val = PV i
  blk : ∀ st, Live s.nSet start X st → ∃ L, Chain s.nxt (s.nxt st) L ∧ (st :: L).Nodup ∧
    (∀ c, c ∈ st :: L ↔ own c = .blk st) ∧ L.map s.val = V st ∧ L ≠ []
  ref : ∀ st, Live s.nSet start X st → s.val st = refs s.nSet start X st
  ownPost : ∀ c i, own c = .post i → i < s.nSet
  ownBlk : ∀ c st, own c = .blk st → Live s.nSet start X st

variable {s : LV} {start : ℕ → ℕ} {X : List ℕ} {own : ℕ → Own} {V PV : ℕ → List ℕ}

theorem Inv.own_zero (h : Inv s start X own V PV) : own 0 = .no := (h.no 0).mpr (Or.inl rfl)

theorem Inv.blk_own (h : Inv s start X own V PV) {st : ℕ} (hl : Live s.nSet start X st) :
    own st = .blk st := by
  obtain ⟨L, _, _, h3, _⟩ := h.blk st hl
  exact (h3 st).mp (by simp)

/-- changes that touch neither posts nor lists -/
theorem Inv.frame (h : Inv s start X own V PV) {s' : LV} {own' : ℕ → Own}
    (hn : s'.nSet = s.nSet) (hl : s'.last = s.last) (hp : s'.post = s.post)
    (hop : ∀ c i, own' c = .post i ↔ own c = .post i)
    (hob : ∀ c i, own' c = .blk i ↔ own c = .blk i)
    (hv : ∀ c, ((∃ i, own c = .post i) ∨ (∃ st, own c = .blk st) ∨ c = 0) →
      s'.val c = s.val c ∧ s'.nxt c = s.nxt c)
    (hsz : s.size ≤ s'.size)
    (hno : ∀ c, own' c = .no ↔ c = 0 ∨ s'.size ≤ c)
    (hfree : ∃ F, Chain s'.nxt s'.dataNotUsed F ∧ F.Nodup ∧ (∀ c, c ∈ F ↔ own' c = .free) ∧
      s'.numNotUsed = F.length) : Inv s' start X own' V PV where
  zero := fun h0 => by
    obtain ⟨z1, z2, z3⟩ := h.zero (hn ▸ h0)
    obtain ⟨v1, v2⟩ := hv 0 (Or.inr (Or.inr rfl))
    exact ⟨by rw [v1, z1, hl], by rw [v2, z2], by omega⟩
  no := hno
  free := hfree
  post := fun i hi => by
    obtain ⟨L, l1, l2, l3, l4⟩ := h.post i (hn ▸ hi)
    have hvL : ∀ c ∈ L, s'.val c = s.val c ∧ s'.nxt c = s.nxt c :=
      fun c hc => hv c (Or.inl ⟨i, (l3 c).mp hc⟩)
    refine ⟨L, ?_, l2, fun c => (l3 c).trans (hop c i).symm, ?_⟩
    · rw [hp]; exact l1.frame (fun c hc => (hvL c hc).2)
    · rw [← l4]; exact List.map_congr_left (fun c hc => (hvL c hc).1)
  blk := fun st hst => by
    rw [hn] at hst
    obtain ⟨L, l1, l2, l3, l4, l5⟩ := h.blk st hst
    have hvL : ∀ c ∈ st :: L, s'.val c = s.val c ∧ s'.nxt c = s.nxt c :=
      fun c hc => hv c (Or.inr (Or.inl ⟨st, (l3 c).mp hc⟩))
    refine ⟨L, ?_, l2, fun c => (l3 c).trans (hob c st).symm, ?_, l5⟩
    · rw [(hvL st (by simp)).2]; exact l1.frame (fun c hc => (hvL c (by simp [hc])).2)
    · rw [← l4]; exact List.map_congr_left (fun c hc => (hvL c (by simp [hc])).1)
  ref := fun st hst => by
    rw [hn] at hst ⊢
    rw [← h.ref st hst]
    exact (hv st (Or.inr (Or.inl ⟨st, h.blk_own hst⟩))).1
  ownPost := fun c i hc => by rw [hn]; exact h.ownPost c i ((hop c i).mp hc)
  ownBlk := fun c st hc => by rw [hn]; exact h.ownBlk c st ((hob c st).mp hc)

/-- writes to a cell that is not linked -/
theorem Inv.write_tmp (h : Inv s start X own V PV) {c : ℕ} (hc : own c = .tmp) {s' : LV}
    (hs : s' = { s with val := s'.val, nxt := s'.nxt })
    (hw : ∀ k, k ≠ c → s'.val k = s.val k ∧ s'.nxt k = s.nxt k) : Inv s' start X own V PV := by
  have e1 : s'.nSet = s.nSet := by rw [hs]
  have e2 : s'.last = s.last := by rw [hs]
  have e3 : s'.post = s.post := by rw [hs]
  have e4 : s'.size = s.size := by rw [hs]
  have e5 : s'.dataNotUsed = s.dataNotUsed := by rw [hs]
  have e6 : s'.numNotUsed = s.numNotUsed := by rw [hs]
  refine h.frame e1 e2 e3 (fun _ _ => Iff.rfl) (fun _ _ => Iff.rfl) ?_ e4.ge ?_ ?_
  · intro k hk
    refine hw k ?_
    rintro rfl
    rcases hk with ⟨i, hk⟩ | ⟨i, hk⟩ | rfl
    · rw [hc] at hk; cases hk
    · rw [hc] at hk; cases hk
    · rw [h.own_zero] at hc; cases hc
  · intro k; rw [e4]; exact h.no k
  · obtain ⟨F, f1, f2, f3, f4⟩ := h.free
    refine ⟨F, ?_, f2, f3, by rw [e6, f4]⟩
    rw [e5]
    refine f1.frame (fun k hk => (hw k ?_).2)
    rintro rfl
    have := (f3 _).mp hk
    rw [hc] at this; cases this

theorem Inv.setVal_tmp (h : Inv s start X own V PV) {c : ℕ} (hc : own c = .tmp) (v : ℕ) :
    Inv (s.setVal c v) start X own V PV :=
  h.write_tmp hc rfl (fun k hk => ⟨Function.update_of_ne hk _ _, rfl⟩)

theorem Inv.setNxt_tmp (h : Inv s start X own V PV) {c : ℕ} (hc : own c = .tmp) (v : ℕ) :
    Inv (s.setNxt c v) start X own V PV :=
  h.write_tmp hc rfl (fun k hk => ⟨rfl, Function.update_of_ne hk _ _⟩)

/-- `s'` differs from `s` at most in the bookkeeping of unused cells -/
structure SameData (s s' : LV) : Prop where
  val : s'.val = s.val
  nxt : s'.nxt = s.nxt
  last : s'.last = s.last
  nSet : s'.nSet = s.nSet
  start : s'.start = s.start
  post : s'.post = s.post

theorem getIdx_same (s : LV) : SameData s s.getIdx.2 := by
  unfold getIdx; split <;> exact ⟨rfl, rfl, rfl, rfl, rfl, rfl⟩

/-- `get_data_index` -/
theorem Inv.getIdx (h : Inv s start X own V PV) (hn : 0 < s.nSet) :
    (own s.getIdx.1 = .free ∨ own s.getIdx.1 = .no) ∧ s.getIdx.1 ≠ 0 ∧
    Inv s.getIdx.2 start X (Function.update own s.getIdx.1 .tmp) V PV := by
  obtain ⟨F, f1, f2, f3, f4⟩ := h.free
  have hz := (h.zero hn).2.2
  -- the common part
  have main : ∀ (c : ℕ) (s' : LV), (own c = .free ∨ own c = .no) → SameData s s' →
      s.size ≤ s'.size →
      (∀ k, Function.update own c Own.tmp k = .no ↔ k = 0 ∨ s'.size ≤ k) →
      (∃ F, Chain s'.nxt s'.dataNotUsed F ∧ F.Nodup ∧
        (∀ k, k ∈ F ↔ Function.update own c Own.tmp k = .free) ∧ s'.numNotUsed = F.length) →
      Inv s' start X (Function.update own c .tmp) V PV := by
    intro c s' hc hsame hsz hno hfr
    have hup : ∀ o : Own, o ≠ .tmp → o ≠ .free → o ≠ .no → ∀ k,
        (Function.update own c Own.tmp k = o ↔ own k = o) := by
      intro o h1 h2 h3 k
      by_cases hk : k = c
      · subst hk
        rw [Function.update_self]
        refine ⟨fun e => absurd e.symm h1, fun e => ?_⟩
        rcases hc with hc | hc <;> rw [hc] at e <;> exact absurd e.symm (by assumption)
      · rw [Function.update_of_ne hk]
    exact h.frame hsame.nSet hsame.last hsame.post
      (fun k i => hup _ (by simp) (by simp) (by simp) k)
      (fun k i => hup _ (by simp) (by simp) (by simp) k)
      (fun k _ => ⟨by rw [hsame.val], by rw [hsame.nxt]⟩) hsz hno hfr
  unfold LV.getIdx
  by_cases hd : 0 < s.dataNotUsed
  · rw [if_pos hd]
    obtain ⟨F', rfl, f5⟩ := f1.eq_cons (by omega)
    have hc : own s.dataNotUsed = .free := (f3 _).mp (by simp)
    refine ⟨Or.inl hc, by simp; omega, ?_⟩
    refine main _ _ (Or.inl hc) ⟨rfl, rfl, rfl, rfl, rfl, rfl⟩ le_rfl ?_ ?_
    · intro k
      by_cases hk : k = s.dataNotUsed
      · subst hk
        rw [Function.update_self]
        have := (h.no s.dataNotUsed).not
        rw [hc] at this
        exact ⟨fun e => (by cases e), fun e => absurd e (this.mp (by simp))⟩
      · rw [Function.update_of_ne hk]; exact h.no k
    · refine ⟨F', f5, (List.nodup_cons.mp f2).2, ?_, ?_⟩
      · intro k
        by_cases hk : k = s.dataNotUsed
        · subst hk
          rw [Function.update_self]
          exact ⟨fun e => absurd e (List.nodup_cons.mp f2).1, fun e => by cases e⟩
        · rw [Function.update_of_ne hk, ← f3 k]; simp [hk]
      · simp only [List.length_cons] at f4
        show s.numNotUsed - 1 = F'.length
        omega
  · rw [if_neg hd]
    have hd0 : s.dataNotUsed = 0 := by omega
    rw [hd0] at f1
    have hF := f1.eq_nil
    subst hF
    have hc : own s.size = .no := (h.no _).mpr (Or.inr le_rfl)
    refine ⟨Or.inr hc, by simp; omega, ?_⟩
    refine main _ _ (Or.inr hc) ⟨rfl, rfl, rfl, rfl, rfl, rfl⟩ (by simp) ?_ ?_
    · intro k
      by_cases hk : k = s.size
      · subst hk
        rw [Function.update_self]
        exact ⟨fun e => (by cases e), fun e => by simp only at e; omega⟩
      · rw [Function.update_of_ne hk, h.no k]; simp only; omega
    · refine ⟨[], by rw [hd0]; rfl, List.nodup_nil, ?_, f4⟩
      intro k
      by_cases hk : k = s.size
      · subst hk; rw [Function.update_self]; simp
      · rw [Function.update_of_ne hk]; exact f3 k

/-! ## walking -/

theorem walk_ok (nxt : ℕ → ℕ) {p prev n : ℕ} {l : List ℕ} (h : Chain nxt p l) :
    whileLoop (σ := ℕ × ℕ × ℕ) (fun q => q.2.1 != 0)
      (fun q => (q.2.1, nxt q.2.1, q.2.2 + 1)) (prev, p, n)
      = ((prev :: l).getLast (by simp), 0, n + l.length) := by
  induction l generalizing p prev n with
  | nil =>
    have hp : p = 0 := h
    subst hp
    rw [whileLoop_false (by simp)]; simp
  | cons a l ih =>
    obtain ⟨rfl, h2, h3⟩ := h
    rw [whileLoop_true (by simpa using h2)]
    dsimp only
    rw [ih h3]
    simp only [List.length_cons]
    rw [List.getLast_cons (a := prev) (by simp)]
    congr 2
    omega

theorem walk_eq (s : LV) {first : ℕ} {l : List ℕ} (h : Chain s.nxt (s.nxt first) l) :
    s.walk first = ((first :: l).getLast (by simp), (first :: l).length) := by
  unfold walk
  rw [walk_ok s.nxt h]
  simp [Nat.add_comm]

/-- linking a chain owned by `o` at the front of the free list -/
theorem Inv.free_chain {s : LV} {own : ℕ → Own} {a : ℕ} {l : List ℕ} (h : Inv s start X own V PV)
    (hc : Chain s.nxt a (a :: l)) (hnd : (a :: l).Nodup) {o : Own} (ho : o ≠ .free)
    (hmem : ∀ c, c ∈ a :: l ↔ own c = o) :
    ∃ F, Chain (Function.update s.nxt ((a :: l).getLast (by simp)) s.dataNotUsed) a F ∧ F.Nodup ∧
      (∀ c, c ∈ F ↔ (if own c = o then Own.free else own c) = .free) ∧
      s.numNotUsed + (a :: l).length = F.length := by
  obtain ⟨F, f1, f2, f3, f4⟩ := h.free
  have hdis : ∀ c ∈ F, c ∉ a :: l := by
    intro c hcF hcl
    have h1 := (f3 c).mp hcF
    have h2 := (hmem c).mp hcl
    rw [h1] at h2; exact ho h2.symm
  refine ⟨(a :: l) ++ F, hc.splice hnd f1 hdis, ?_, ?_, ?_⟩
  · rw [List.nodup_append]
    refine ⟨hnd, f2, ?_⟩
    rintro x hx y hy rfl
    exact hdis x hy hx
  · intro c
    rw [List.mem_append]
    by_cases hco : own c = o
    · rw [if_pos hco]; simp [(hmem c).mpr hco]
    · rw [if_neg hco, ← f3 c]
      have : c ∉ a :: l := fun hh => hco ((hmem c).mp hh)
      tauto
  · rw [List.length_append, f4]; omega

end CppAD.SetVec.LV
