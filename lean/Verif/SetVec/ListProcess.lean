import Verif.SetVec.ListAdd

/-! # `process_post` -/

namespace CppAD.SetVec.LV

variable {s : LV} {L P : ℕ → List ℕ}

/-- `post_element` -/
theorem Has.post (h : Has s L P) {i : ℕ} (hi : i < s.nSet) (x : ℕ) :
    Has (s.postElement i x) L (Function.update P i (x :: P i)) ∧
    (s.postElement i x).last = s.last ∧ (s.postElement i x).nSet = s.nSet := by
  obtain ⟨own, V, PV, h, ht, h1, h2⟩ := h
  obtain ⟨own', p1, p2⟩ := h.postElement hi x
  have hsame := getIdx_same s
  have e1 : (s.postElement i x).nSet = s.nSet := hsame.nSet
  have e2 : (s.postElement i x).start = s.start := hsame.start
  refine ⟨⟨own', V, Function.update PV i (x :: PV i), by rw [e2]; exact p1,
    fun c e => ht c (p2 c e), ?_, ?_⟩, hsame.last, hsame.nSet⟩
  · intro j hj; rw [e1] at hj; rw [e2]; exact h1 j hj
  · intro j hj; rw [e1] at hj
    rw [update_apply', update_apply', h2 i hi, h2 j hj]

/-- no posts -/
theorem Has.post_zero (h : Has s L P) {i : ℕ} (hi : i < s.nSet) : s.post i = 0 ↔ P i = [] := by
  obtain ⟨own, V, PV, h, ht, h1, h2⟩ := h
  obtain ⟨c, c1, c2, c3, c4⟩ := h.post i hi
  rw [← h2 i hi, ← c4]
  constructor
  · intro e; rw [e] at c1; rw [c1.eq_nil]; rfl
  · intro e
    have : c = [] := by simpa using e
    subst this; exact c1

/-- the posts are released, 1044-1047 and 1071-1076 -/
theorem Has.release (h : Has s L P) {i : ℕ} (hi : i < s.nSet) (hp : s.post i ≠ 0) :
    ∃ c, Chain s.nxt (s.post i) (s.post i :: c) ∧ (s.post i :: c).map s.val = P i ∧
      Has { (s.setPost i 0).release (s.post i) ((s.post i :: c).getLast (by simp)) with
        numNotUsed := s.numNotUsed + (s.post i :: c).length } L (Function.update P i []) := by
  obtain ⟨own, V, PV, h, ht, h1, h2⟩ := h
  obtain ⟨c, c1, c2, c3, c4⟩ := h.post i hi
  obtain ⟨c', rfl, c5⟩ := c1.eq_cons hp
  refine ⟨c', c1, c4.trans (h2 i hi), _, V, _, h.free_post hi c1 c2 c3, ?_, h1, ?_⟩
  · intro k
    by_cases hk : own k = .post i
    · rw [if_pos hk]; simp
    · rw [if_neg hk]; exact ht k
  · intro j hj
    rw [update_apply', update_apply']
    split
    · rfl
    · exact h2 j hj

/-- invariant of the loop over the sorted posts; `D` are the posts already
treated, `L1` the elements of the set already treated, `L2` the rest -/
structure PInv (s : LV) (q : PostState) (D L1 L2 : List ℕ) : Prop where
  reads : Reads s q.iNext L2
  mem : ∀ x, x ∈ q.out ↔ x ∈ L1 ∨ x ∈ D
  sorted : q.out.Pairwise (· < ·)
  init : D = [] → q.out = [] ∧ q.previous = s.last
  prev : D ≠ [] → q.previous ∈ D ∧ (∀ x ∈ q.out, x ≤ q.previous) ∧ ∀ y ∈ L2, q.previous < y
  sub : q.subset = true → ∀ x ∈ D, x ∈ L1

theorem takeWhile_lt {l : List ℕ} {v : ℕ} : ∀ x ∈ l.takeWhile (· < v), x < v := by
  induction l with
  | nil => simp
  | cons a l ih =>
    by_cases ha : a < v
    · rw [List.takeWhile_cons_of_pos (by simpa using ha)]
      intro x hx
      rcases List.mem_cons.mp hx with rfl | hx
      · exact ha
      · exact ih x hx
    · rw [List.takeWhile_cons_of_neg (by simpa using ha)]; simp

theorem takeWhile_self {l : List ℕ} {v : ℕ} (h : ∀ x ∈ l, x < v) : l.takeWhile (· < v) = l := by
  induction l with
  | nil => rfl
  | cons a l ih =>
    rw [List.takeWhile_cons_of_pos (by simpa using h a (by simp)),
      ih (fun x hx => h x (by simp [hx]))]

theorem dropWhile_ge {l : List ℕ} (hl : l.Pairwise (· < ·)) {v : ℕ} :
    ∀ x ∈ l.dropWhile (· < v), v ≤ x := by
  induction l with
  | nil => simp
  | cons a l ih =>
    obtain ⟨h1, h2⟩ := List.pairwise_cons.mp hl
    by_cases ha : a < v
    · rw [List.dropWhile_cons_of_pos (by simpa using ha)]; exact ih h2
    · rw [List.dropWhile_cons_of_neg (by simpa using ha)]
      intro x hx
      rcases List.mem_cons.mp hx with rfl | hx
      · omega
      · have := h1 x hx; omega

theorem pairwise_append_lt {a b : List ℕ} (ha : a.Pairwise (· < ·)) (hb : b.Pairwise (· < ·))
    (h : ∀ x ∈ a, ∀ y ∈ b, x < y) : (a ++ b).Pairwise (· < ·) :=
  List.pairwise_append.mpr ⟨ha, hb, h⟩

theorem PInv.step (z : Zero s) {q : PostState} {D L1 L2 : List ℕ} (h : PInv s q D L1 L2)
    (hL2 : L2.Pairwise (· < ·)) {v : ℕ} (hv : v < s.last) (hD : ∀ x ∈ D, x ≤ v) :
    ∃ M L2', L2 = M ++ L2' ∧ PInv s (s.postBody q v) (D ++ [v]) (L1 ++ M) L2' := by
  obtain ⟨p', t1, t2⟩ := h.reads.takeBelow z (e := v) (by omega)
  have htk : ∀ x ∈ L2.takeWhile (· < v), x < v := takeWhile_lt
  have htd : L2.takeWhile (· < v) ++ L2.dropWhile (· < v) = L2 := List.takeWhile_append_dropWhile
  have hge : ∀ x ∈ L2.dropWhile (· < v), v ≤ x := dropWhile_ge hL2
  have htm : ∀ x ∈ L2.takeWhile (· < v), x ∈ L2 := fun x hx => (List.takeWhile_sublist _).subset hx
  have hdm : ∀ x ∈ L2.dropWhile (· < v), x ∈ L2 := fun x hx => (List.dropWhile_sublist _).subset hx
  have hpd : (L2.dropWhile (· < v)).Pairwise (· < ·) := hL2.sublist (List.dropWhile_sublist _)
  have hpt : (L2.takeWhile (· < v)).Pairwise (· < ·) := hL2.sublist (List.takeWhile_sublist _)
  unfold postBody
  rw [t1]
  dsimp only
  set T := L2.takeWhile (· < v)
  set R := L2.dropWhile (· < v)
  have hpv : s.val p' = R.headD s.last := t2.val z
  -- out after takeBelow
  have hout : (q.out ++ T).Pairwise (· < ·) := by
    by_cases hD0 : D = []
    · rw [(h.init hD0).1]; simpa using hpt
    · obtain ⟨_, a2, a3⟩ := h.prev hD0
      refine pairwise_append_lt h.sorted hpt (fun x hx y hy => ?_)
      have := a2 x hx; have := a3 y (htm y hy); omega
  have hole : ∀ x ∈ q.out ++ T, x ≤ v := by
    intro x hx
    rcases List.mem_append.mp hx with hx | hx
    · by_cases hD0 : D = []
      · rw [(h.init hD0).1] at hx; simp at hx
      · obtain ⟨a1, a2, a3⟩ := h.prev hD0
        have := a2 x hx; have := hD _ a1; omega
    · exact (htk x hx).le
  -- membership when v is new
  have hnew : q.previous ≠ v → ∀ x ∈ q.out ++ T, x < v := by
    intro hne x hx
    rcases List.mem_append.mp hx with hx | hx
    · by_cases hD0 : D = []
      · rw [(h.init hD0).1] at hx; simp at hx
      · obtain ⟨a1, a2, a3⟩ := h.prev hD0
        have := a2 x hx; have := hD _ a1; omega
    · exact htk x hx
  have hold : q.previous = v → v ∈ D := by
    intro he
    by_cases hD0 : D = []
    · have := (h.init hD0).2; omega
    · rw [← he]; exact (h.prev hD0).1
  -- the result for given parts
  have fin : ∀ (q' : PostState) (M L2' : List ℕ), q'.out = q.out ++ T → q'.previous = q.previous →
      (∀ x, x ∈ M → x ∈ T ∨ x = v) → (∀ x ∈ T, x ∈ M) → Reads s q'.iNext L2' →
      (∀ y ∈ L2', v < y) → (q'.subset = true → v ∈ M ∧ q.subset = true) →
      PInv s { (if q'.previous ≠ v then { q' with out := q'.out ++ [v] } else q') with previous := v }
        (D ++ [v]) (L1 ++ M) L2' := by
    intro q' M L2' ho hp hM hT hr hgt hsub
    have hq : (if q'.previous ≠ v then { q' with out := q'.out ++ [v] } else q')
        = { q' with out := if q.previous ≠ v then q.out ++ T ++ [v] else q.out ++ T } := by
      rw [← hp, ← ho]; split <;> rfl
    rw [hq]
    refine ⟨hr, ?_, ?_, by simp, fun _ => ⟨by simp, ?_, hgt⟩, ?_⟩
    · intro x
      have := h.mem x
      have hmx : x ∈ (if q.previous ≠ v then q.out ++ T ++ [v] else q.out ++ T)
          ↔ x ∈ q.out ∨ x ∈ T ∨ x = v := by
        by_cases hpv : q.previous = v
        · rw [if_neg (by simpa using hpv)]
          simp only [List.mem_append]
          constructor
          · tauto
          · rintro (h1 | h1 | rfl)
            · exact Or.inl h1
            · exact Or.inr h1
            · exact Or.inl ((h.mem x).mpr (Or.inr (hold hpv)))
        · rw [if_pos hpv]; simp [or_assoc]
      show x ∈ (if q.previous ≠ v then q.out ++ T ++ [v] else q.out ++ T) ↔ _
      rw [hmx, this]
      simp only [List.mem_append, List.mem_singleton]
      constructor
      · rintro ((h1 | h1) | h1 | h1)
        · exact Or.inl (Or.inl h1)
        · exact Or.inr (Or.inl h1)
        · exact Or.inl (Or.inr (hT x h1))
        · exact Or.inr (Or.inr h1)
      · rintro ((h1 | h1) | h1 | h1)
        · exact Or.inl (Or.inl h1)
        · exact Or.inr (hM x h1)
        · exact Or.inl (Or.inr h1)
        · exact Or.inr (Or.inr h1)
    · show (if q.previous ≠ v then q.out ++ T ++ [v] else q.out ++ T).Pairwise (· < ·)
      split
      · rename_i hne
        exact pairwise_append_lt hout (by simp) (fun x hx y hy => by
          simp at hy; subst hy; exact hnew hne x hx)
      · exact hout
    · show ∀ x ∈ (if q.previous ≠ v then q.out ++ T ++ [v] else q.out ++ T), x ≤ v
      split
      · intro x hx
        rcases List.mem_append.mp hx with hx | hx
        · exact hole x hx
        · simp at hx; omega
      · exact hole
    · intro hs x hx
      obtain ⟨b1, b2⟩ := hsub hs
      rcases List.mem_append.mp hx with hx | hx
      · exact List.mem_append_left _ (h.sub b2 x hx)
      · simp at hx; subst hx; exact List.mem_append_right _ b1
  by_cases hval : s.val p' = v
  · rw [if_pos hval]
    obtain ⟨R', hR⟩ : ∃ R', R = v :: R' := by
      cases hRc : R with
      | nil => rw [hpv, hRc] at hval; simp at hval; omega
      | cons a R' => rw [hpv, hRc] at hval; simp at hval; exact ⟨R', by rw [hval]⟩
    have t3 := t2.tail z
    rw [hR, List.tail_cons] at t3
    rw [hR, List.pairwise_cons] at hpd
    refine ⟨T ++ [v], R', by rw [← htd, hR]; simp, ?_⟩
    refine fin _ _ _ rfl rfl (by simp) (by intro x hx; simp [hx]) t3 hpd.1 (fun hs => ⟨by simp, hs⟩)
  · rw [if_neg hval]
    refine ⟨T, R, htd.symm, ?_⟩
    refine fin _ _ _ rfl rfl (fun x hx => Or.inl hx) (fun x hx => hx) t2 ?_ (by simp)
    intro y hy
    have h1 := hge y hy
    cases hRc : R with
    | nil => rw [hRc] at hy; simp at hy
    | cons a R' =>
      rw [hpv, hRc] at hval
      simp only [List.headD_cons] at hval
      rw [hRc, List.pairwise_cons] at hpd
      rw [hRc] at hy
      have h2 := hge a (by rw [hRc]; simp)
      rcases List.mem_cons.mp hy with rfl | hy
      · omega
      · have := hpd.1 y hy; omega

theorem PInv.all (z : Zero s) (ps : List ℕ) : ∀ {q : PostState} {D L1 L2 : List ℕ},
    PInv s q D L1 L2 → L2.Pairwise (· < ·) → (∀ v ∈ ps, v < s.last) → ps.Pairwise (· ≤ ·) →
    (∀ x ∈ D, ∀ v ∈ ps, x ≤ v) →
    ∃ M L2', L2 = M ++ L2' ∧ PInv s (ps.foldl s.postBody q) (D ++ ps) (L1 ++ M) L2' := by
  induction ps with
  | nil => intro q D L1 L2 h _ _ _ _; exact ⟨[], L2, rfl, by simpa using h⟩
  | cons v ps ih =>
    intro q D L1 L2 h hL2 hv hs hD
    obtain ⟨h1, h2⟩ := List.pairwise_cons.mp hs
    obtain ⟨M, L2', e1, k1⟩ := h.step z hL2 (hv v (by simp)) (fun x hx => hD x hx v (by simp))
    have hL2' : L2'.Pairwise (· < ·) := by
      rw [e1, List.pairwise_append] at hL2; exact hL2.2.1
    obtain ⟨M', L3, e2, k2⟩ := ih k1 hL2' (fun x hx => hv x (by simp [hx])) h2 (by
      intro x hx w hw
      rcases List.mem_append.mp hx with hx | hx
      · exact hD x hx w (by simp [hw])
      · simp at hx; subst hx; exact h1 w hw)
    refine ⟨M ++ M', L3, by rw [e1, e2]; simp, ?_⟩
    rw [List.foldl_cons]
    simpa using k2

theorem addTo_mem {x : ℕ} {l : List ℕ} (y : ℕ) : y ∈ addTo x l ↔ y = x ∨ y ∈ l := by
  unfold addTo
  split
  · rename_i h
    constructor
    · exact Or.inr
    · rintro (rfl | h')
      · exact h
      · exact h'
  · have hm : y ∈ l ↔ y ∈ l.takeWhile (· < x) ∨ y ∈ l.dropWhile (· < x) := by
      rw [← List.mem_append, List.takeWhile_append_dropWhile]
    rw [List.mem_append, List.mem_cons, hm]; tauto

theorem addTo_sorted {x : ℕ} {l : List ℕ} (hl : l.Pairwise (· < ·)) : (addTo x l).Pairwise (· < ·) := by
  unfold addTo
  split
  · exact hl
  · rename_i h
    refine pairwise_append_lt (hl.sublist (List.takeWhile_sublist _)) ?_ ?_
    · rw [List.pairwise_cons]
      refine ⟨fun y hy => ?_, hl.sublist (List.dropWhile_sublist _)⟩
      have h1 := dropWhile_ge hl y hy
      have h2 : y ≠ x := by
        rintro rfl; exact h ((List.dropWhile_sublist _).subset hy)
      omega
    · intro a ha b hb
      have h1 := takeWhile_lt a ha
      rcases List.mem_cons.mp hb with rfl | hb
      · exact h1
      · have := dropWhile_ge hl b hb; omega

/-- `process_post` -/
theorem Has.process (h : Has s L P) {i : ℕ} (hi : i < s.nSet)
    (hs : (L i).Pairwise (· < ·)) (hlt : ∀ y ∈ L i, y < s.last) (hp : ∀ y ∈ P i, y < s.last) :
    ∃ l, Has (s.process i) (Function.update L i l) (Function.update P i []) ∧
      l.Pairwise (· < ·) ∧ (∀ x, x ∈ l ↔ x ∈ L i ∨ x ∈ P i) ∧
      (s.process i).last = s.last ∧ (s.process i).nSet = s.nSet := by
  have hpz := h.post_zero hi
  have hz := h.zero (by omega)
  unfold LV.process
  dsimp only
  by_cases h0 : s.post i = 0
  · rw [if_pos h0]
    have hPi := hpz.mp h0
    refine ⟨L i, ?_, hs, by simp [hPi], rfl, rfl⟩
    rw [Function.update_eq_self, show Function.update P i [] = P from by
      rw [← hPi, Function.update_eq_self]]
    exact h
  · rw [if_neg h0]
    obtain ⟨c, c1, c2, c3⟩ := h.release hi h0
    by_cases hnx : s.nxt (s.post i) = 0
    · rw [if_pos hnx]
      have hc : c = [] := by
        have := c1.2.2
        rw [hnx] at this; exact this.eq_nil
      subst hc
      simp only [List.getLast_singleton] at c3
      have hv : P i = [s.val (s.post i)] := by rw [← c2]; rfl
      have hvl : s.val (s.post i) < s.last := hp _ (by rw [hv]; simp)
      obtain ⟨a1, a2, a3⟩ := c3.add (i := i) (x := s.val (s.post i)) hi hvl hs hlt
      refine ⟨_, a1, addTo_sorted hs, ?_, a2, a3⟩
      intro x; rw [addTo_mem, hv]; simp [or_comm]
    · rw [if_neg hnx]
      rw [collectPost_eq c1, c2]
      have hlen : (P i).length = (s.post i :: c).length := by rw [← c2, List.length_map]
      rw [hlen]
      set s1 : LV := { (s.setPost i 0).release (s.post i) ((s.post i :: c).getLast (by simp)) with
        numNotUsed := s.numNotUsed + (s.post i :: c).length } with hs1
      change ∃ l, Has (let sorted := (P i).insertionSort (· ≤ ·)
        let iNext := if 0 < s1.start i then s1.nxt (s1.start i) else 0
        let q := sorted.foldl s1.postBody ⟨iNext, [], true, s1.last⟩
        if q.subset then s1
        else
          let q := s1.takeBelow s1.last q
          (s1.dropAdd i).build i q.out) _ _ ∧ _ ∧ _ ∧
        (let sorted := (P i).insertionSort (· ≤ ·)
        let iNext := if 0 < s1.start i then s1.nxt (s1.start i) else 0
        let q := sorted.foldl s1.postBody ⟨iNext, [], true, s1.last⟩
        if q.subset then s1
        else
          let q := s1.takeBelow s1.last q
          (s1.dropAdd i).build i q.out).last = _ ∧
        (let sorted := (P i).insertionSort (· ≤ ·)
        let iNext := if 0 < s1.start i then s1.nxt (s1.start i) else 0
        let q := sorted.foldl s1.postBody ⟨iNext, [], true, s1.last⟩
        if q.subset then s1
        else
          let q := s1.takeBelow s1.last q
          (s1.dropAdd i).build i q.out).nSet = _
      dsimp only
      have hi1 : i < s1.nSet := hi
      have hz1 : Zero s1 := c3.zero (by omega)
      have hl1 : s1.last = s.last := rfl
      have hemp := c3.empty_iff hi1
      have hr0 : Reads s1 (if 0 < s1.start i then s1.nxt (s1.start i) else 0) (L i) := by
        by_cases hs0 : s1.start i = 0
        · rw [if_neg (by omega), hemp.mp hs0]; rfl
        · rw [if_pos (by omega)]; exact c3.reads hi1 hs0
      set sorted := (P i).insertionSort (· ≤ ·) with hsorted
      have hsm : ∀ x, x ∈ sorted ↔ x ∈ P i := fun x => (List.perm_insertionSort _ _).mem_iff
      have hsp : sorted.Pairwise (· ≤ ·) := List.pairwise_insertionSort _ _
      have hinit : PInv s1 ⟨if 0 < s1.start i then s1.nxt (s1.start i) else 0, [], true, s1.last⟩
          [] [] (L i) :=
        ⟨hr0, by simp, by simp, fun _ => ⟨rfl, rfl⟩, fun e => absurd rfl e, by simp⟩
      obtain ⟨M, L2, e1, hfin⟩ := hinit.all hz1 sorted hs
        (fun v hv => hp v ((hsm v).mp hv)) hsp (by simp)
      rw [List.nil_append, List.nil_append] at hfin
      set q := sorted.foldl s1.postBody ⟨if 0 < s1.start i then s1.nxt (s1.start i) else 0, [], true, s1.last⟩
        with hq
      have hps : Function.update P i [] i = [] := by simp
      by_cases hsub : q.subset = true
      · rw [if_pos hsub]
        refine ⟨L i, ?_, hs, ?_, rfl, rfl⟩
        · rw [Function.update_eq_self]; exact c3
        · intro x
          constructor
          · exact Or.inl
          · rintro (hx | hx)
            · exact hx
            · rw [e1]; exact List.mem_append_left _ (hfin.sub hsub x ((hsm x).mpr hx))
      · rw [if_neg hsub]
        obtain ⟨p', t1, t2⟩ := hfin.reads.takeBelow hz1 (e := s1.last) le_rfl
        have hL2m : ∀ x ∈ L2, x ∈ L i := fun x hx => by rw [e1]; simp [hx]
        have htake : L2.takeWhile (· < s1.last) = L2 :=
          takeWhile_self (fun x hx => hlt x (hL2m x hx))
        rw [t1, htake]
        dsimp only
        have hsne : sorted ≠ [] := by
          intro e
          have : P i = [] := by
            rw [List.eq_nil_iff_forall_not_mem]
            intro x hx
            have := (hsm x).mpr hx
            rw [e] at this; simp at this
          exact h0 (hpz.mpr this)
        obtain ⟨p1, p2, p3⟩ := hfin.prev hsne
        have hmemo : ∀ x, x ∈ q.out ++ L2 ↔ x ∈ L i ∨ x ∈ P i := by
          intro x
          rw [List.mem_append, hfin.mem x, hsm x, e1, List.mem_append]; tauto
        have hne : q.out ++ L2 ≠ [] := by
          intro e
          have := (hmemo q.previous).mpr (Or.inr ((hsm _).mp p1))
          rw [e] at this; simp at this
        obtain ⟨r1, r2, r3⟩ := c3.rebuild hi1 hne
        refine ⟨q.out ++ L2, ?_, ?_, hmemo, r2, r3⟩
        · rw [Function.update_idem] at r1; exact r1
        · refine pairwise_append_lt hfin.sorted ?_ ?_
          · rw [e1, List.pairwise_append] at hs; exact hs.2.1
          · intro x hx y hy
            have := p2 x hx; have := p3 y hy; omega

end CppAD.SetVec.LV
