import Verif.SetVec.ListProcess

/-! # `list_setvec` refines a vector of sets -/

namespace CppAD.SetVec.LV

/-- the representation relation -/
structure Rel (s : LV) (a : Abs) : Prop where
  nSet : s.nSet = a.nSet
  last : s.last = a.last
  has : ∃ L P, Has s L P ∧ ∀ i < a.nSet, (L i).Pairwise (· < ·) ∧ (∀ x, x ∈ L i ↔ x ∈ a.sets i) ∧
    (∀ x, x ∈ P i ↔ x ∈ a.posts i)
  bound : ∀ i < a.nSet, (∀ x ∈ a.sets i, x < a.last) ∧ (∀ x ∈ a.posts i, x < a.last)
  none : s.nSet = 0 → s.size = 0

variable {s : LV} {a : Abs}

theorem nil_of_mem {l : List ℕ} (h : ∀ x, x ∈ l ↔ x ∈ (∅ : Finset ℕ)) : l = [] := by
  rw [List.eq_nil_iff_forall_not_mem]
  intro x hx; have := (h x).mp hx; simp at this

/-- a function that changes set `t` to a list with the members of `S` -/
theorem Rel.put (h : Rel s a) {t : ℕ} (ht : t < a.nSet) {s' : LV} {L P : ℕ → List ℕ}
    (hL : ∀ i < a.nSet, (L i).Pairwise (· < ·) ∧ (∀ x, x ∈ L i ↔ x ∈ a.sets i) ∧
      (∀ x, x ∈ P i ↔ x ∈ a.posts i))
    {l : List ℕ} {S : Finset ℕ} (hh : Has s' (Function.update L t l) (Function.update P t []))
    (hl : s'.last = s.last) (hn : s'.nSet = s.nSet) (hs : l.Pairwise (· < ·))
    (hm : ∀ x, x ∈ l ↔ x ∈ S) (hb : ∀ x ∈ S, x < a.last) : Rel s' (a.put t S) where
  nSet := hn.trans h.nSet
  last := hl.trans h.last
  has := by
    refine ⟨_, _, hh, fun i hi => ?_⟩
    by_cases hit : i = t
    · subst hit
      simp only [Abs.put, Function.update_self]
      exact ⟨hs, hm, by simp⟩
    · simp only [Abs.put, Function.update_of_ne hit]
      exact hL i hi
  bound := by
    intro i hi
    by_cases hit : i = t
    · subst hit
      simp only [Abs.put, Function.update_self]
      exact ⟨hb, by simp⟩
    · simp only [Abs.put, Function.update_of_ne hit]
      exact h.bound i hi
  none := fun h0 => by
    have := h.nSet
    omega

theorem refs_zero (f : ℕ → ℕ) (st : ℕ) : refs 0 f [] st = 0 := by simp [refs]

theorem rel_fresh : Rel fresh Abs.fresh where
  nSet := rfl
  last := rfl
  has := by
    refine ⟨fun _ => [], fun _ => [], ⟨fun _ => .no, fun _ => [], fun _ => [], ?_, by simp, ?_, ?_⟩, ?_⟩
    · refine ⟨fun h => (by cases h), fun c => by simp [fresh], ⟨[], rfl, by simp, by simp, rfl⟩,
        fun i hi => (by cases hi), ?_, ?_, by simp, by simp⟩
      · rintro st ⟨_, h2⟩; rw [show fresh.nSet = 0 from rfl, refs_zero] at h2; omega
      · rintro st ⟨_, h2⟩; rw [show fresh.nSet = 0 from rfl, refs_zero] at h2; omega
    · intro i hi; cases hi
    · intro i hi; cases hi
    · intro i hi; cases hi
  bound := fun i hi => (by cases hi)
  none := fun _ => rfl

theorem rel_resize (s : LV) (n e : ℕ) (hn : n = 0 → e = 0) :
    Rel (s.resize n e) ⟨n, e, fun _ => ∅, fun _ => ∅⟩ := by
  unfold resize
  by_cases h0 : n = 0
  · subst h0
    rw [if_pos rfl]
    have he := hn rfl
    subst he
    refine ⟨rfl, rfl, ?_, fun i hi => (by cases hi), fun _ => rfl⟩
    refine ⟨fun _ => [], fun _ => [], ⟨fun _ => .no, fun _ => [], fun _ => [], ?_, by simp,
      fun i hi => (by cases hi), fun i hi => (by cases hi)⟩, fun i hi => (by cases hi)⟩
    refine ⟨fun h => (by cases h), fun c => by simp, ⟨[], rfl, by simp, by simp, rfl⟩,
      fun i hi => (by cases hi), ?_, ?_, by simp, by simp⟩
    · rintro st ⟨_, h2⟩; simp [refs] at h2
    · rintro st ⟨_, h2⟩; simp [refs] at h2
  · rw [if_neg h0]
    dsimp only
    have hloop : ∀ t : LV, (forRange 0 n t fun i t => (t.setStart i 0).setPost i 0).nSet = t.nSet ∧
        (forRange 0 n t fun i t => (t.setStart i 0).setPost i 0).last = t.last ∧
        ∀ i < n, (forRange 0 n t fun i t => (t.setStart i 0).setPost i 0).start i = 0 ∧
          (forRange 0 n t fun i t => (t.setStart i 0).setPost i 0).post i = 0 := by
      intro t
      refine forRange_ind (Nat.zero_le n) (P := fun k (u : LV) => u.nSet = t.nSet ∧ u.last = t.last ∧
        ∀ i < k, u.start i = 0 ∧ u.post i = 0) ⟨rfl, rfl, fun i hi => by omega⟩ ?_
      rintro k u _ hk ⟨h1, h2, h3⟩
      refine ⟨h1, h2, fun i hi => ?_⟩
      simp only [setStart, setPost]
      by_cases hik : i = k
      · subst hik; simp
      · rw [Function.update_of_ne hik, Function.update_of_ne hik]; exact h3 i (by omega)
    obtain ⟨l1, l2, l3⟩ := hloop { s with last := e, nSet := n }
    set u := forRange 0 n { s with last := e, nSet := n } fun i t => (t.setStart i 0).setPost i 0
    have hlive : ∀ st, ¬ Live n u.start [] st := by
      rintro st ⟨h1, h2⟩
      unfold refs at h2
      simp only [List.count_nil, Nat.zero_add] at h2
      obtain ⟨i, hi⟩ := Finset.card_pos.mp h2
      simp only [Finset.mem_filter, Finset.mem_range] at hi
      rw [(l3 i hi.1).1] at hi
      exact h1 hi.2.symm
    refine ⟨l1, l2, ?_, fun i hi => ⟨by simp, by simp⟩, fun h => absurd (l1.symm.trans h) h0⟩
    refine ⟨fun _ => [], fun _ => [], ⟨fun _ => .no, fun _ => [], fun _ => [], ?_, by simp, ?_, ?_⟩, ?_⟩
    · refine ⟨fun _ => ⟨?_, ?_, by show 0 < 1; omega⟩, ?_, ⟨[], rfl, by simp, by simp, rfl⟩, ?_, ?_, ?_,
        by simp, by simp⟩
      · show Function.update u.val 0 e 0 = u.last
        rw [Function.update_self, l2]
      · show Function.update u.nxt 0 0 0 = 0
        simp
      · intro c; simp only [true_iff]; show c = 0 ∨ 1 ≤ c; omega
      · intro i hi
        refine ⟨[], ?_, by simp, by simp, rfl⟩
        exact (l3 i (by rw [show n = u.nSet from l1.symm]; exact hi)).2
      · intro st hst
        have : Live u.nSet u.start [] st := hst
        rw [l1] at this; exact absurd this (hlive st)
      · intro st hst
        have : Live u.nSet u.start [] st := hst
        rw [l1] at this; exact absurd this (hlive st)
    · intro i hi
      have hi' : i < n := by rw [show n = u.nSet from l1.symm]; exact hi
      show elems u.start _ i = []
      unfold elems; rw [if_pos (l3 i hi').1]
    · intro i hi; rfl
    · intro i hi; simp

theorem Rel.lt (h : Rel s a) {i : ℕ} (hi : i < a.nSet) {l : List ℕ}
    (hl : ∀ x, x ∈ l ↔ x ∈ a.sets i) : ∀ x ∈ l, x < s.last := by
  intro x hx
  rw [h.last]; exact (h.bound i hi).1 x ((hl x).mp hx)

theorem rel_assign (h : Rel s a) {t v : ℕ} (ht : t < a.nSet) (hv : v < a.nSet) (hp : a.posts v = ∅) :
    Rel (s.assignment t v none) (a.put t (a.sets v)) := by
  obtain ⟨L, P, hh, hL⟩ := h.has
  obtain ⟨v1, v2, v3⟩ := hL v hv
  by_cases htv : t = v
  · subst htv
    have e : s.assignment t t none = s := by unfold LV.assignment; simp
    rw [e]
    rw [hp] at v3
    refine h.put ht hL (l := L t) ?_ rfl rfl v1 v2 (h.bound t ht).1
    rw [Function.update_eq_self, show Function.update P t [] = P from by
      rw [← nil_of_mem v3, Function.update_eq_self]]
    exact hh
  · obtain ⟨a1, a2, a3⟩ := hh.assign (t := t) (v := v) (by rw [h.nSet]; exact ht)
      (by rw [h.nSet]; exact hv) htv
    exact h.put ht hL a1 a2 a3 v1 v2 (h.bound v hv).1

theorem rel_assign' (h : Rel s a) {s' : LV} {a' : Abs} (h' : Rel s' a') (hlast : a.last = a'.last)
    {t v : ℕ} (ht : t < a.nSet) (hv : v < a'.nSet) :
    Rel (s.assignment t v (some s')) (a.put t (a'.sets v)) := by
  obtain ⟨L, P, hh, hL⟩ := h.has
  obtain ⟨L', P', hh', hL'⟩ := h'.has
  obtain ⟨v1, v2, v3⟩ := hL' v hv
  obtain ⟨a1, a2, a3⟩ := hh.assign' hh' (t := t) (v := v) (by rw [h.nSet]; exact ht)
      (by rw [h'.nSet]; exact hv)
  refine h.put ht hL a1 a2 a3 v1 v2 (fun x hx => ?_)
  rw [hlast]; exact (h'.bound v hv).1 x hx

theorem rel_clear (h : Rel s a) {t : ℕ} (ht : t < a.nSet) : Rel (s.clear t) (a.put t ∅) := by
  obtain ⟨L, P, hh, hL⟩ := h.has
  obtain ⟨a1, a2, a3⟩ := hh.clear (i := t) (by rw [h.nSet]; exact ht)
  exact h.put ht hL a1 a2 a3 (by simp) (by simp) (by simp)

theorem rel_add (h : Rel s a) {i x : ℕ} (hi : i < a.nSet) (hx : x < a.last) :
    Rel (s.add i x) { a with sets := Function.update a.sets i (insert x (a.sets i)) } := by
  obtain ⟨L, P, hh, hL⟩ := h.has
  obtain ⟨v1, v2, v3⟩ := hL i hi
  obtain ⟨a1, a2, a3⟩ := hh.add (i := i) (x := x) (by rw [h.nSet]; exact hi)
    (by rw [h.last]; exact hx) v1 (h.lt hi v2)
  refine ⟨a3.trans h.nSet, a2.trans h.last, ⟨_, _, a1, fun j hj => ?_⟩, fun j hj => ?_, fun h0 => ?_⟩
  · by_cases hji : j = i
    · subst hji
      simp only [Function.update_self]
      refine ⟨addTo_sorted v1, fun y => ?_, v3⟩
      rw [addTo_mem, Finset.mem_insert, v2 y]
    · simp only [Function.update_of_ne hji]; exact hL j hj
  · by_cases hji : j = i
    · subst hji
      simp only [Function.update_self]
      refine ⟨fun y hy => ?_, (h.bound j hj).2⟩
      rcases Finset.mem_insert.mp hy with rfl | hy
      · exact hx
      · exact (h.bound j hj).1 y hy
    · simp only [Function.update_of_ne hji]; exact h.bound j hj
  · rw [a3, h.nSet] at h0; omega

theorem rel_post (h : Rel s a) {i x : ℕ} (hi : i < a.nSet) (hx : x < a.last) :
    Rel (s.postElement i x) { a with posts := Function.update a.posts i (insert x (a.posts i)) } := by
  obtain ⟨L, P, hh, hL⟩ := h.has
  obtain ⟨v1, v2, v3⟩ := hL i hi
  obtain ⟨a1, a2, a3⟩ := hh.post (i := i) (by rw [h.nSet]; exact hi) x
  refine ⟨a3.trans h.nSet, a2.trans h.last, ⟨_, _, a1, fun j hj => ?_⟩, fun j hj => ?_, fun h0 => ?_⟩
  · by_cases hji : j = i
    · subst hji
      simp only [Function.update_self]
      refine ⟨v1, v2, fun y => ?_⟩
      rw [List.mem_cons, Finset.mem_insert, v3 y]
    · simp only [Function.update_of_ne hji]; exact hL j hj
  · by_cases hji : j = i
    · subst hji
      simp only [Function.update_self]
      refine ⟨(h.bound j hj).1, fun y hy => ?_⟩
      rcases Finset.mem_insert.mp hy with rfl | hy
      · exact hx
      · exact (h.bound j hj).2 y hy
    · simp only [Function.update_of_ne hji]; exact h.bound j hj
  · rw [a3, h.nSet] at h0; omega

theorem rel_process (h : Rel s a) {i : ℕ} (hi : i < a.nSet) :
    Rel (s.process i) (a.put i (a.sets i ∪ a.posts i)) := by
  obtain ⟨L, P, hh, hL⟩ := h.has
  obtain ⟨v1, v2, v3⟩ := hL i hi
  obtain ⟨l, a1, a2, a3, a4, a5⟩ := hh.process (i := i) (by rw [h.nSet]; exact hi) v1 (h.lt hi v2)
    (by intro y hy; rw [h.last]; exact (h.bound i hi).2 y ((v3 y).mp hy))
  refine h.put hi hL a1 a4 a5 a2 (fun x => ?_) (fun x hx => ?_)
  · rw [a3, Finset.mem_union, v2, v3]
  · rcases Finset.mem_union.mp hx with hx | hx
    · exact (h.bound i hi).1 x hx
    · exact (h.bound i hi).2 x hx

/-- the union, given what `assignment` from the right set does -/
theorem rel_union_aux (h : Rel s a) (other : Option LV) {o : LV} (ho : o = other.getD s)
    {a' : Abs} (h' : Rel o a') (hlast : a.last = a'.last)
    {t l r : ℕ} (ht : t < a.nSet) (hl : l < a.nSet) (hr : r < a'.nSet)
    (hpl : a.posts l = ∅)
    (hassign : Rel (s.assignment t r other) (a.put t (a'.sets r))) :
    Rel (s.union t l r other) (a.put t (a.sets l ∪ a'.sets r)) := by
  have hleft := rel_assign h ht hl hpl
  obtain ⟨L, P, hh, hL⟩ := h.has
  obtain ⟨L', P', hh', hL'⟩ := h'.has
  obtain ⟨v1, v2, v3⟩ := hL l hl
  obtain ⟨w1, w2, w3⟩ := hL' r hr
  have hls : l < s.nSet := by rw [h.nSet]; exact hl
  have hro : r < o.nSet := by rw [h'.nSet]; exact hr
  have hlo : o.last = s.last := by rw [h.last, h'.last, hlast]
  have hbu : ∀ x ∈ a.sets l ∪ a'.sets r, x < a.last := by
    intro x hx
    rcases Finset.mem_union.mp hx with hx | hx
    · exact (h.bound l hl).1 x hx
    · rw [hlast]; exact (h'.bound r hr).1 x hx
  unfold LV.union
  dsimp only
  rw [← ho]
  by_cases hr0 : o.start r = 0
  · rw [if_pos hr0]
    have hre : a'.sets r = ∅ := by
      ext x; rw [← w2 x, (hh'.empty_iff hro).mp hr0]; simp
    rw [hre, Finset.union_empty]; exact hleft
  · rw [if_neg hr0]
    by_cases hl0 : s.start l = 0
    · rw [if_pos hl0]
      have hle : a.sets l = ∅ := by
        ext x; rw [← v2 x, (hh.empty_iff hls).mp hl0]; simp
      rw [hle, Finset.empty_union]; exact hassign
    · rw [if_neg hl0]
      have z := hh.zero (by omega)
      have z' := hh'.zero (by omega)
      have hll := h.lt hl v2
      have hrl : ∀ x ∈ L' r, x < s.last := by
        rw [← hlo]; exact h'.lt hr w2
      obtain ⟨l', r', mid, m1, m2, m3, m4, m5, m5', m5'', m6, m7, m8, m9, m10, m11⟩ :=
        (merge_ok z z' hlo true _ (L l) (L' r) rfl v1 w1 hll hrl
          ⟨s.nxt (s.start l), o.nxt (o.start r), [], true, true⟩
          (hh.reads hls hl0) (hh'.reads hro hr0)).ex
      rw [if_pos rfl] at m9
      set q := s.merge o s.last true ⟨s.nxt (s.start l), o.nxt (o.start r), [], true, true⟩
      have hvr : o.val q.right = s.last → r' = [] := by
        intro e
        have := m2.val z'
        rw [e] at this
        cases r' with
        | nil => rfl
        | cons b r' => simp at this; have := hrl b (m7 b (by simp)); omega
      have hvl : s.val q.left = s.last → l' = [] := by
        intro e
        have := m1.val z
        rw [e] at this
        cases l' with
        | nil => rfl
        | cons b l' => simp at this; have := hll b (m6 b (by simp)); omega
      by_cases hrs : (q.rightSub && decide (o.val q.right = s.last)) = true
      · rw [if_pos hrs]
        simp only [Bool.and_eq_true, decide_eq_true_eq] at hrs
        have hsub := (m11 hrs.1).2
        rw [hvr hrs.2] at hsub
        have : a.sets l ∪ a'.sets r = a.sets l := by
          rw [Finset.union_eq_left]
          intro x hx
          have := hsub x ((w2 x).mpr hx)
          rcases this with h1 | h1
          · exact (v2 x).mp h1
          · simp at h1
        rw [this]; exact hleft
      · rw [if_neg hrs]
        by_cases hlsb : (q.leftSub && decide (s.val q.left = s.last)) = true
        · rw [if_pos hlsb]
          simp only [Bool.and_eq_true, decide_eq_true_eq] at hlsb
          have hsub := (m10 hlsb.1).2
          rw [hvl hlsb.2] at hsub
          have : a.sets l ∪ a'.sets r = a'.sets r := by
            rw [Finset.union_eq_right]
            intro x hx
            have := hsub x ((v2 x).mpr hx)
            rcases this with h1 | h1
            · exact (w2 x).mp h1
            · simp at h1
          rw [this]; exact hassign
        · rw [if_neg hlsb]
          have e1 : LV.rest s s.last q.left q.out = q.out ++ l' :=
            m1.rest z (fun x hx => hll x (m6 x hx))
          rw [e1]
          have e2 : LV.rest o s.last q.right (q.out ++ l') = q.out ++ l' ++ r' := by
            rw [← hlo]; exact m2.rest z' (fun x hx => by rw [hlo]; exact hrl x (m7 x hx))
          rw [e2, m4, List.nil_append]
          have hmem : ∀ x, x ∈ mid ++ l' ++ r' ↔ x ∈ a.sets l ∪ a'.sets r := by
            intro x
            rw [Finset.mem_union, ← v2 x, ← w2 x, ← m9 x]
            simp [or_assoc]
          have hne : mid ++ l' ++ r' ≠ [] := by
            intro e
            have hne : L l ≠ [] := fun e' => hl0 ((hh.empty_iff hls).mpr e')
            obtain ⟨x, hx⟩ := List.exists_mem_of_ne_nil _ hne
            have := (hmem x).mpr (Finset.mem_union_left _ ((v2 x).mp hx))
            rw [e] at this; simp at this
          obtain ⟨b1, b2, b3⟩ := hh.rebuild (i := t) (by rw [h.nSet]; exact ht) hne
          refine h.put ht hL b1 b2 b3 ?_ hmem hbu
          refine pairwise_append_lt (pairwise_append_lt m5 m5' (fun x hx y hy => (m8 x hx).2.1 y hy)) m5'' ?_
          intro x hx y hy
          rcases List.mem_append.mp hx with hx | hx
          · exact (m8 x hx).2.2 y hy
          · rcases m3 with e | e
            · rw [e] at hx; simp at hx
            · rw [e] at hy; simp at hy

/-- the intersection, given what `assignment` from the right set does -/
theorem rel_inter_aux (h : Rel s a) (other : Option LV) {o : LV} (ho : o = other.getD s)
    {a' : Abs} (h' : Rel o a') (hlast : a.last = a'.last)
    {t l r : ℕ} (ht : t < a.nSet) (hl : l < a.nSet) (hr : r < a'.nSet)
    (hpl : a.posts l = ∅)
    (hassign : Rel (s.assignment t r other) (a.put t (a'.sets r))) :
    Rel (s.inter t l r other) (a.put t (a.sets l ∩ a'.sets r)) := by
  have hleft := rel_assign h ht hl hpl
  have hclear := rel_clear h ht
  obtain ⟨L, P, hh, hL⟩ := h.has
  obtain ⟨L', P', hh', hL'⟩ := h'.has
  obtain ⟨v1, v2, v3⟩ := hL l hl
  obtain ⟨w1, w2, w3⟩ := hL' r hr
  have hls : l < s.nSet := by rw [h.nSet]; exact hl
  have hro : r < o.nSet := by rw [h'.nSet]; exact hr
  have hlo : o.last = s.last := by rw [h.last, h'.last, hlast]
  have hbu : ∀ x ∈ a.sets l ∩ a'.sets r, x < a.last := by
    intro x hx
    exact (h.bound l hl).1 x (Finset.mem_inter.mp hx).1
  unfold LV.inter
  dsimp only
  rw [← ho]
  by_cases h00 : s.start l = 0 ∨ o.start r = 0
  · rw [if_pos h00]
    have : a.sets l ∩ a'.sets r = ∅ := by
      rcases h00 with h0 | h0
      · have : a.sets l = ∅ := by ext x; rw [← v2 x, (hh.empty_iff hls).mp h0]; simp
        rw [this, Finset.empty_inter]
      · have : a'.sets r = ∅ := by ext x; rw [← w2 x, (hh'.empty_iff hro).mp h0]; simp
        rw [this, Finset.inter_empty]
    rw [this]; exact hclear
  · rw [if_neg h00]
    obtain ⟨hl0, hr0⟩ := not_or.mp h00
    have z := hh.zero (by omega)
    have z' := hh'.zero (by omega)
    have hll := h.lt hl v2
    have hrl : ∀ x ∈ L' r, x < s.last := by
      rw [← hlo]; exact h'.lt hr w2
    obtain ⟨l', r', mid, m1, m2, m3, m4, m5, m5', m5'', m6, m7, m8, m9, m10, m11⟩ :=
      (merge_ok z z' hlo false _ (L l) (L' r) rfl v1 w1 hll hrl
        ⟨s.nxt (s.start l), o.nxt (o.start r), [], true, true⟩
        (hh.reads hls hl0) (hh'.reads hro hr0)).ex
    rw [if_neg (by simp)] at m9
    set q := s.merge o s.last false ⟨s.nxt (s.start l), o.nxt (o.start r), [], true, true⟩
    have hvr : o.val q.right = s.last → r' = [] := by
      intro e
      have := m2.val z'
      rw [e] at this
      cases r' with
      | nil => rfl
      | cons b r' => simp at this; have := hrl b (m7 b (by simp)); omega
    have hvl : s.val q.left = s.last → l' = [] := by
      intro e
      have := m1.val z
      rw [e] at this
      cases l' with
      | nil => rfl
      | cons b l' => simp at this; have := hll b (m6 b (by simp)); omega
    by_cases hlsb : (q.leftSub && decide (s.val q.left = s.last)) = true
    · rw [if_pos hlsb]
      simp only [Bool.and_eq_true, decide_eq_true_eq] at hlsb
      have hsub := (m10 hlsb.1).2
      rw [hvl hlsb.2] at hsub
      have : a.sets l ∩ a'.sets r = a.sets l := by
        rw [Finset.inter_eq_left]
        intro x hx
        have := hsub x ((v2 x).mpr hx)
        rcases this with h1 | h1
        · exact (w2 x).mp h1
        · simp at h1
      rw [this]; exact hleft
    · rw [if_neg hlsb]
      by_cases hrs : (q.rightSub && decide (o.val q.right = s.last)) = true
      · rw [if_pos hrs]
        simp only [Bool.and_eq_true, decide_eq_true_eq] at hrs
        have hsub := (m11 hrs.1).2
        rw [hvr hrs.2] at hsub
        have : a.sets l ∩ a'.sets r = a'.sets r := by
          rw [Finset.inter_eq_right]
          intro x hx
          have := hsub x ((w2 x).mpr hx)
          rcases this with h1 | h1
          · exact (v2 x).mp h1
          · simp at h1
        rw [this]; exact hassign
      · rw [if_neg hrs]
        have hmem : ∀ x, x ∈ q.out ↔ x ∈ a.sets l ∩ a'.sets r := by
          intro x
          rw [m4, List.nil_append, m9 x, Finset.mem_inter, v2 x, w2 x]
        by_cases hout : q.out.length = 0
        · rw [if_pos hout]
          have : a.sets l ∩ a'.sets r = ∅ := by
            ext x; rw [← hmem x, List.length_eq_zero_iff.mp hout]; simp
          rw [this]; exact hclear
        · rw [if_neg hout]
          obtain ⟨b1, b2, b3⟩ := hh.rebuild (i := t) (by rw [h.nSet]; exact ht)
            (vs := q.out) (fun e => hout (by rw [e]; rfl))
          refine h.put ht hL b1 b2 b3 ?_ hmem hbu
          rw [m4, List.nil_append]; exact m5

theorem refines : impl.Refines Rel (fun _ _ => True) where
  resize := fun n e s a _ h0 _ => rel_resize s n e h0
  add := fun i x s a hi hx h => rel_add h hi hx
  post := fun i x s a hi hx h => rel_post h hi hx
  process := fun i s a hi h => rel_process h hi
  clear := fun i s a hi h => rel_clear h hi
  assign := fun t v s a ht hv hp h => rel_assign h ht hv hp
  assign' := fun t v s a s' a' ht hv hl hp h h' => rel_assign' h h' hl ht hv
  union := fun t l r s a ht hl hr hpl hpr h =>
    rel_union_aux h none rfl h rfl ht hl hr hpl (rel_assign h ht hr hpr)
  union' := fun t l r s a s' a' ht hl hr hlast hpl hpr h h' =>
    rel_union_aux h (some s') rfl h' hlast ht hl hr hpl (rel_assign' h h' hlast ht hr)
  inter := fun t l r s a ht hl hr hpl hpr h =>
    rel_inter_aux h none rfl h rfl ht hl hr hpl (rel_assign h ht hr hpr)
  inter' := fun t l r s a s' a' ht hl hr hlast hpl hpr h h' =>
    rel_inter_aux h (some s') rfl h' hlast ht hl hr hpl (rel_assign' h h' hlast ht hr)

/-! ## queries -/

theorem sort_unique {l : List ℕ} {S : Finset ℕ} (hs : l.Pairwise (· < ·)) (hm : ∀ x, x ∈ l ↔ x ∈ S) :
    l = S.sort (· ≤ ·) := by
  refine List.SortedLT.eq_of_mem_iff ?_ (Finset.sortedLT_sort S) ?_
  · exact List.sortedLT_iff_pairwise.mpr hs
  · intro x; rw [hm x]; simp

theorem iterate_reads (z : Zero s) (k : ℕ) : ∀ {t : It} {l : List ℕ},
    t.value = l.headD s.last → Reads s t.next l.tail →
    ((impl.next s)^[k] t).value = l.getD k s.last := by
  induction k with
  | zero =>
    intro t l hv hr
    rw [Function.iterate_zero_apply, hv]
    cases l <;> simp
  | succ k ih =>
    intro t l hv hr
    rw [Function.iterate_succ_apply]
    have := ih (t := impl.next s t) (l := l.tail) (hr.val z) (hr.tail z)
    rw [this]
    cases l <;> simp

theorem agrees (h : Rel s a) : impl.Agrees s a where
  nSet := h.nSet
  last := h.last
  isElement := by
    intro i hi _ x hx
    obtain ⟨L, P, hh, hL⟩ := h.has
    obtain ⟨v1, v2, v3⟩ := hL i hi
    have his : i < s.nSet := by rw [h.nSet]; exact hi
    have z := hh.zero (by omega)
    show s.isElement i x = true ↔ _
    unfold LV.isElement
    dsimp only
    rw [← v2 x]
    by_cases h0 : s.start i = 0
    · rw [if_pos h0, (hh.empty_iff his).mp h0]; simp
    · rw [if_neg h0]
      have hxl : x < s.last := by rw [h.last]; exact hx
      have hf := (hh.reads his h0).find z (e := x) hxl.le
      rw [decide_eq_true_eq, hf.val z, mem_iff_dropWhile v1 hxl]
      exact eq_comm
  item := by
    intro i hi _ k
    obtain ⟨L, P, hh, hL⟩ := h.has
    obtain ⟨v1, v2, v3⟩ := hL i hi
    have his : i < s.nSet := by rw [h.nSet]; exact hi
    have z := hh.zero (by omega)
    rw [← sort_unique v1 v2, ← h.last]
    show ((impl.next s)^[k] (s.begin i)).value = _
    unfold LV.begin
    dsimp only
    by_cases h0 : s.start i = 0
    · rw [if_pos h0, (hh.empty_iff his).mp h0]
      exact iterate_reads z k rfl rfl
    · rw [if_neg h0]
      have hr := hh.reads his h0
      exact iterate_reads z k (hr.val z) (hr.tail z)

theorem number_agrees (h : Rel s a) : impl.NumberAgrees s a := by
  intro i hi _
  obtain ⟨L, P, hh, hL⟩ := h.has
  obtain ⟨v1, v2, v3⟩ := hL i hi
  have his : i < s.nSet := by rw [h.nSet]; exact hi
  show s.number i = _
  have hcard : (a.sets i).card = (L i).length := by
    rw [sort_unique v1 v2, Finset.length_sort]
  rw [hcard]
  unfold LV.number
  dsimp only
  by_cases h0 : s.start i = 0
  · rw [if_pos h0, (hh.empty_iff his).mp h0]; rfl
  · rw [if_neg h0, (hh.reads his h0).count 0, Nat.zero_add]

/-- **The linked list implementation is a vector of sets.**  For every finite
number of objects, every history of legal calls of `resize`, `add_element`,
`post_element`, `process_post`, `clear`, `assignment`, `binary_union`,
`binary_intersection`, copy and swap, every query of every object returns what
the vector of mathematical sets would: membership, the number of elements, and
iteration in increasing order without repetition, ending with `end`. Sharing
of lists between sets and self assignment are included in the histories. -/
theorem list_setvec_history (cs : List Cmd) (hl : Legal (fun _ => Abs.fresh) cs) (o : ℕ) :
    impl.Agrees (impl.runAll (fun _ => fresh) cs o) (SetVec.runAll (fun _ => Abs.fresh) cs o) ∧
    impl.NumberAgrees (impl.runAll (fun _ => fresh) cs o)
      (SetVec.runAll (fun _ => Abs.fresh) cs o) := by
  have h := refines.all cs (fun c _ => by cases c <;> trivial) (fun _ => fresh)
    (fun _ => Abs.fresh) (fun _ => rel_fresh) hl o
  exact ⟨agrees h, number_agrees h⟩

/-- a legal history with sharing, self assignment, copy on write, posts and
two objects -/
def sample : List Cmd :=
  [.resize 0 3 8, .resize 1 2 8, .add 0 0 5, .add 0 0 2, .assignment 0 1 0 0, .add 0 1 7,
   .post 0 2 5, .post 0 2 5, .post 0 2 1, .process 0 2, .assignment 1 0 2 0,
   .union 0 0 0 1 0, .inter 0 2 2 0 1, .assignment 0 2 2 0, .clear 0 1, .copy 2 0, .swap 0 1]

example : Legal (fun _ => Abs.fresh) sample := by
  simp [sample, Legal, Cmd.Pre, Cmd.run, Abs.fresh, Abs.put]

/-! ## accounting -/

/-- the distinct headers of the lists in use -/
def headers (s : LV) : List ℕ := (((List.range s.nSet).map s.start).filter (· ≠ 0)).dedup

/-- every cell other than cell zero is in exactly one place: in the free list
(of which `number_not_used_` is the length), in the posts of one set, or
in the list of one header; and the header counts the sets that use the list -/
def Accounted (s : LV) : Prop :=
  ∃ (F : List ℕ) (post lists : ℕ → List ℕ),
    Chain s.nxt s.dataNotUsed F ∧ s.numNotUsed = F.length ∧
    (∀ i < s.nSet, Chain s.nxt (s.post i) (post i)) ∧
    (∀ st ∈ s.headers, Chain s.nxt st (lists st) ∧
      s.val st = ((List.range s.nSet).filter (fun i => s.start i = st)).length) ∧
    (F ++ (List.range s.nSet).flatMap post ++ s.headers.flatMap lists).Perm
      (List.range' 1 (s.size - 1))

theorem mem_headers {s : LV} {st : ℕ} : st ∈ s.headers ↔ st ≠ 0 ∧ ∃ i < s.nSet, s.start i = st := by
  unfold headers
  rw [List.mem_dedup, List.mem_filter, List.mem_map]
  simp only [List.mem_range, decide_eq_true_eq, ne_eq]
  constructor
  · rintro ⟨⟨i, h1, h2⟩, h3⟩; exact ⟨h3, i, h1, h2⟩
  · rintro ⟨h3, i, h1, h2⟩; exact ⟨⟨i, h1, h2⟩, h3⟩

theorem Has.accounted {L P : ℕ → List ℕ} (h : Has s L P) : Accounted s := by
  obtain ⟨own, V, PV, h, ht, h1, h2⟩ := h
  obtain ⟨F, f1, f2, f3, f4⟩ := h.free
  have hp : ∀ i, ∃ l, i < s.nSet → Chain s.nxt (s.post i) l ∧ l.Nodup ∧ (∀ c, c ∈ l ↔ own c = .post i) := by
    intro i
    by_cases hi : i < s.nSet
    · obtain ⟨l, l1, l2, l3, _⟩ := h.post i hi
      exact ⟨l, fun _ => ⟨l1, l2, l3⟩⟩
    · exact ⟨[], fun e => absurd e hi⟩
  choose post hpost using hp
  have hlv : ∀ st ∈ s.headers, Live s.nSet s.start [] st := by
    intro st hst
    obtain ⟨hne, i, hi, rfl⟩ := mem_headers.mp hst
    exact live_start hi [] hne
  have hb : ∀ st, ∃ l, st ∈ s.headers → Chain s.nxt st l ∧ l.Nodup ∧ (∀ c, c ∈ l ↔ own c = .blk st) := by
    intro st
    by_cases hst : st ∈ s.headers
    · obtain ⟨l, l1, l2, l3, _⟩ := h.blk st (hlv st hst)
      exact ⟨st :: l, fun _ => ⟨⟨rfl, (hlv st hst).1, l1⟩, l2, l3⟩⟩
    · exact ⟨[], fun e => absurd e hst⟩
  choose lists hlists using hb
  refine ⟨F, post, lists, f1, f4, fun i hi => (hpost i hi).1, fun st hst => ⟨(hlists st hst).1, ?_⟩, ?_⟩
  · rw [h.ref st (hlv st hst)]
    unfold refs
    rw [List.count_nil, Nat.zero_add]
    have hnd : ((List.range s.nSet).filter (fun i => s.start i = st)).Nodup :=
      List.nodup_range.filter _
    rw [← List.toFinset_card_of_nodup hnd]
    congr 1
    ext i; simp
  · rw [List.perm_ext_iff_of_nodup ?_ (List.nodup_range' (step := 1))]
    · intro c
      rw [List.mem_append, List.mem_append, List.mem_flatMap, List.mem_flatMap, List.mem_range'_1]
      have hno := h.no c
      constructor
      · intro hc
        have hne : own c ≠ .no := by
          rcases hc with (hc | ⟨i, hi, hc⟩) | ⟨st, hst, hc⟩
          · rw [(f3 c).mp hc]; simp
          · rw [((hpost i (List.mem_range.mp hi)).2.2 c).mp hc]; simp
          · rw [((hlists st hst).2.2 c).mp hc]; simp
        have := hno.not.mp hne
        omega
      · intro hc
        have hne : own c ≠ .no := fun e => by
          have := hno.mp e; omega
        cases ho : own c with
        | no => exact absurd ho hne
        | tmp => exact absurd ho (ht c)
        | free => exact Or.inl (Or.inl ((f3 c).mpr ho))
        | post i =>
          have hi := h.ownPost c i ho
          exact Or.inl (Or.inr ⟨i, List.mem_range.mpr hi, ((hpost i hi).2.2 c).mpr ho⟩)
        | blk st =>
          have hl := h.ownBlk c st ho
          have hst : st ∈ s.headers := by
            rw [mem_headers]
            refine ⟨hl.1, ?_⟩
            have := hl.2
            unfold refs at this
            rw [List.count_nil, Nat.zero_add] at this
            obtain ⟨i, hi⟩ := Finset.card_pos.mp this
            simp only [Finset.mem_filter, Finset.mem_range] at hi
            exact ⟨i, hi⟩
          exact Or.inr ⟨st, hst, ((hlists st hst).2.2 c).mpr ho⟩
    · rw [List.nodup_append, List.nodup_append]
      refine ⟨⟨f2, ?_, ?_⟩, ?_, ?_⟩
      · rw [List.nodup_flatMap]
        refine ⟨fun i hi => (hpost i (List.mem_range.mp hi)).2.1, ?_⟩
        refine List.Pairwise.imp_of_mem ?_ List.nodup_range
        intro i j hi hj hij c hci hcj
        have e1 := ((hpost i (List.mem_range.mp hi)).2.2 c).mp hci
        have e2 := ((hpost j (List.mem_range.mp hj)).2.2 c).mp hcj
        rw [e1] at e2; injection e2 with e2; exact hij e2
      · rintro x hx y hy rfl
        obtain ⟨i, hi, hc⟩ := List.mem_flatMap.mp hy
        have e1 := (f3 x).mp hx
        rw [((hpost i (List.mem_range.mp hi)).2.2 x).mp hc] at e1; cases e1
      · rw [List.nodup_flatMap]
        refine ⟨fun st hst => (hlists st hst).2.1, ?_⟩
        refine List.Pairwise.imp_of_mem ?_ (List.nodup_dedup _)
        intro i j hi hj hij c hci hcj
        have e1 := ((hlists i hi).2.2 c).mp hci
        have e2 := ((hlists j hj).2.2 c).mp hcj
        rw [e1] at e2; injection e2 with e2; exact hij e2
      · rintro x hx y hy rfl
        obtain ⟨st, hst, hc⟩ := List.mem_flatMap.mp hy
        have e1 := ((hlists st hst).2.2 x).mp hc
        rcases List.mem_append.mp hx with hx | hx
        · rw [(f3 x).mp hx] at e1; cases e1
        · obtain ⟨i, hi, hc'⟩ := List.mem_flatMap.mp hx
          rw [((hpost i (List.mem_range.mp hi)).2.2 x).mp hc'] at e1; cases e1

/-- **Every cell of the linked list implementation is accounted for**, after
every history of legal calls: none is leaked and none is in two places. -/
theorem list_setvec_accounted (cs : List Cmd) (hl : Legal (fun _ => Abs.fresh) cs) (o : ℕ) :
    Accounted (impl.runAll (fun _ => fresh) cs o) := by
  have h := refines.all cs (fun c _ => by cases c <;> trivial) (fun _ => fresh)
    (fun _ => Abs.fresh) (fun _ => rel_fresh) hl o
  obtain ⟨L, P, hh, _⟩ := h.has
  exact hh.accounted

/-! ## sparsity patterns given by the user -/

/-- list_setvec.hpp:96-142 `sparsity_user2internal`; `user[i]` is a
`std::set<size_t>`, which is iterated in increasing order -/
def ofUser (s : LV) (user : ℕ → Finset ℕ) (nSet last : ℕ) (transpose : Bool) : LV :=
  let s := s.resize nSet last
  if transpose then
    let s := forRange 0 last s fun j s =>
      ((user j).sort (· ≤ ·)).foldl (fun s i => s.postElement i j) s
    forRange 0 nSet s fun i s => s.process i
  else
    forRange 0 nSet s fun i s =>
      (((user i).sort (· ≤ ·)).foldl (fun s j => s.postElement i j) s).process i

theorem rel_post_col (l : List ℕ) (j : ℕ) : ∀ {s : LV} {a : Abs}, Rel s a → (∀ i ∈ l, i < a.nSet) →
    j < a.last → Rel (l.foldl (fun s i => s.postElement i j) s)
      { a with posts := fun i => if i ∈ l then insert j (a.posts i) else a.posts i } := by
  induction l with
  | nil => intro s a h _ _; simpa using h
  | cons i l ih =>
    intro s a h hl hj
    have h1 := ih (rel_post h (hl i (by simp)) hj) (fun k hk => hl k (by simp [hk])) hj
    rw [List.foldl_cons]
    convert h1 using 2
    funext k
    by_cases hk : k = i
    · subst hk; simp
    · simp [hk]

theorem rel_post_row (l : List ℕ) (i : ℕ) : ∀ {s : LV} {a : Abs}, Rel s a → i < a.nSet →
    (∀ j ∈ l, j < a.last) → Rel (l.foldl (fun s j => s.postElement i j) s)
      { a with posts := Function.update a.posts i (a.posts i ∪ l.toFinset) } := by
  induction l with
  | nil => intro s a h _ _; simpa using h
  | cons j l ih =>
    intro s a h hi hl
    have h1 := ih (rel_post h hi (hl j (by simp))) hi (fun k hk => hl k (by simp [hk]))
    rw [List.foldl_cons]
    convert h1 using 2
    funext k
    by_cases hk : k = i
    · subst hk; simp
    · simp [hk]

/-- **A sparsity pattern given by the user as a vector of sets becomes exactly
that vector of sets**, or its transpose, whatever the object held before. -/
theorem list_setvec_ofUser (s : LV) (user : ℕ → Finset ℕ) (nSet last : ℕ)
    (hn : nSet = 0 → last = 0) (transpose : Bool)
    (huser : if transpose then ∀ j < last, ∀ i ∈ user j, i < nSet
      else ∀ i < nSet, ∀ j ∈ user i, j < last) :
    impl.Agrees (s.ofUser user nSet last transpose)
      ⟨nSet, last, fun i => if i < nSet then (if transpose then
          (Finset.range last).filter (fun j => i ∈ user j) else user i) else ∅, fun _ => ∅⟩ := by
  apply agrees
  have h0 := rel_resize s nSet last hn
  cases transpose
  · simp only [Bool.false_eq_true, if_false] at huser ⊢
    unfold ofUser
    dsimp only
    rw [if_neg (by simp)]
    have := forRange_ind (Nat.zero_le nSet) (s := s.resize nSet last)
      (f := fun i s => (((user i).sort (· ≤ ·)).foldl (fun s j => s.postElement i j) s).process i)
      (P := fun k (u : LV) => Rel u ⟨nSet, last, fun i => if i < k then user i else ∅, fun _ => ∅⟩)
      (by simpa using h0) (by
        intro k u _ hk hu
        have h1 := rel_post_row ((user k).sort (· ≤ ·)) k hu hk (fun j hj => huser k hk j (by simpa using hj))
        have h2 := rel_process h1 hk
        convert h2 using 1
        simp only [Abs.put]
        congr 1
        · funext i
          by_cases hik : i = k
          · subst hik; simp
          · rw [Function.update_of_ne hik]
            have : i < k + 1 ↔ i < k := by omega
            simp only [this]
        · funext i
          by_cases hik : i = k
          · subst hik; simp
          · rw [Function.update_of_ne hik, Function.update_of_ne hik])
    exact this
  · simp only [if_true] at huser ⊢
    unfold ofUser
    dsimp only
    rw [if_pos rfl]
    have h1 := forRange_ind (Nat.zero_le last) (s := s.resize nSet last)
      (f := fun j s => ((user j).sort (· ≤ ·)).foldl (fun s i => s.postElement i j) s)
      (P := fun k (u : LV) => Rel u ⟨nSet, last, fun _ => ∅,
        fun i => (Finset.range k).filter (fun j => i ∈ user j)⟩)
      (by simpa using h0) (by
        intro k u _ hk hu
        have h1 := rel_post_col ((user k).sort (· ≤ ·)) k hu
          (fun i hi => huser k hk i (by simpa using hi)) hk
        convert h1 using 2
        funext i
        rw [Finset.range_add_one, Finset.filter_insert]
        simp)
    have h2 := forRange_ind (Nat.zero_le nSet) (f := fun i (s : LV) => s.process i)
      (P := fun k (u : LV) => Rel u ⟨nSet, last,
        fun i => if i < k then (Finset.range last).filter (fun j => i ∈ user j) else ∅,
        fun i => if i < k then ∅ else (Finset.range last).filter (fun j => i ∈ user j)⟩)
      (by simpa using h1) (by
        intro k u _ hk hu
        have h2 := rel_process hu hk
        convert h2 using 1
        simp only [Abs.put]
        congr 1
        · funext i
          by_cases hik : i = k
          · subst hik; simp
          · rw [Function.update_of_ne hik]
            have : i < k + 1 ↔ i < k := by omega
            simp only [this]
        · funext i
          by_cases hik : i = k
          · subst hik; simp
          · rw [Function.update_of_ne hik]
            have : i < k + 1 ↔ i < k := by omega
            simp only [this])
    obtain ⟨r1, r2, ⟨L, P, r3, r4⟩, r5, r6⟩ := h2
    refine ⟨r1, r2, ⟨L, P, r3, fun i hi => ?_⟩, fun i hi => ?_, r6⟩
    · obtain ⟨a1, a2, a3⟩ := r4 i hi
      have hi' : i < nSet := hi
      simp only [hi', if_true] at a3 ⊢
      simp only [hi', if_true] at a2
      exact ⟨a1, a2, a3⟩
    · have hi' : i < nSet := hi
      obtain ⟨a1, a2⟩ := r5 i hi
      simp only [hi', if_true] at a1 ⊢
      exact ⟨a1, by simp⟩

example : impl.Agrees (fresh.ofUser (fun i => if i = 0 then {1, 3} else {0}) 2 4 false)
    ⟨2, 4, fun i => if i < 2 then (if i = 0 then {1, 3} else {0}) else ∅, fun _ => ∅⟩ :=
  list_setvec_ofUser fresh (fun i => if i = 0 then {1, 3} else {0}) 2 4 (by simp) false (by
    intro i hi j hj
    by_cases h : i = 0
    · simp [h] at hj; omega
    · simp [h] at hj; omega)

end CppAD.SetVec.LV
