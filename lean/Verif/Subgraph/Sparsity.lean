import Verif.Subgraph.Graph
import Verif.Taylor.History

/-! # C37: the subgraph sparsity pattern is the dependency relation -/

namespace CppAD.Subgraph

variable {T : Tape}

/-- operator `i` depends on a selected independent variable -/
def D (T : Tape) (sel : ℕ → Bool) (i : ℕ) : Prop := ∃ j, R T i j ∧ isInv T j ∧ sel (j - 1) = true

theorem D_of_edge {sel : ℕ → Bool} {i j : ℕ} (h : Edge T i j) (hj : D T sel j) : D T sel i := by
  obtain ⟨l, h1, h2⟩ := hj
  exact ⟨l, .head h h1, h2⟩

theorem D_of_R {sel : ℕ → Bool} {i j : ℕ} (h : R T i j) (hj : D T sel j) : D T sel i := by
  obtain ⟨l, h1, h2⟩ := hj
  exact ⟨l, h.trans h1, h2⟩

theorem not_edge_low {i j : ℕ} (h : i ≤ T.n) : ¬ Edge T i j := by
  intro hh
  have := hh.2.2.2
  rw [argVars_low h] at this; simp at this

theorem D_inv {sel : ℕ → Bool} {i : ℕ} (h : isInv T i) : D T sel i ↔ sel (i - 1) = true := by
  constructor
  · rintro ⟨j, h1, h2, h3⟩
    rcases Relation.ReflTransGen.cases_head h1 with rfl | ⟨l, h4, _⟩
    · exact h3
    · exact absurd h4 (not_edge_low h.2)
  · intro hs; exact ⟨i, .refl, h, hs⟩

theorem D_op {sel : ℕ → Bool} {i : ℕ} (h : ¬ isInv T i) : D T sel i ↔ ∃ j, Edge T i j ∧ D T sel j := by
  constructor
  · rintro ⟨j, h1, h2, h3⟩
    rcases Relation.ReflTransGen.cases_head h1 with rfl | ⟨l, h4, h5⟩
    · exact absurd h2 h
    · exact ⟨l, h4, j, h5, h2, h3⟩
  · rintro ⟨j, h1, h2⟩; exact D_of_edge h1 h2

/-- init_rev marks the operators that depend on the selected independent variables -/
theorem initRev_ok (hT : T.WF) {rnd : Rnd} (hr : Right T rnd) (info : Info) (sel : ℕ → Bool) :
    ∀ i < T.n + 1 + T.ops.length,
      (D T sel i → (initRev T rnd info sel).inSub i = T.dep.length) ∧
      (¬ D T sel i → (initRev T rnd info sel).inSub i = T.dep.length + 1) := by
  intro i hi
  have key := forRange_ind (Nat.zero_le (numOp T)) (s := info.inSub) (f := fun i ins =>
      let ins := Function.update ins i (T.dep.length + 1)
      if isInv T i then
        if sel (i - 1) then Function.update ins i T.dep.length else ins
      else if 0 < nres T i then
        (argVars T i).foldl (fun ins a =>
          if ins (rnd.var2op a) = T.dep.length then Function.update ins i T.dep.length else ins) ins
      else ins)
    (fun m ins => ∀ i < m, i < T.n + 1 + T.ops.length → (D T sel i → ins i = T.dep.length) ∧
      (¬ D T sel i → ins i = T.dep.length + 1)) (fun i h => absurd h (Nat.not_lt_zero _)) ?_
  · exact key i (by unfold numOp; omega) hi
  intro m ins _ hm h
  dsimp only
  by_cases hinv : isInv T m
  · rw [if_pos hinv]
    intro i him hi
    by_cases e : i = m
    · subst e
      rw [D_inv hinv]
      by_cases hs : sel (i - 1) = true
      · simp [hs]
      · simp [hs]
    · have := h i (by omega) hi
      split
      · rw [Function.update_of_ne e, Function.update_of_ne e]; exact this
      · rw [Function.update_of_ne e]; exact this
  · rw [if_neg hinv]
    by_cases hp : 0 < nres T m
    · rw [if_pos hp]
      -- scan of the arguments
      have hargs : ∀ a ∈ argVars T m, ∃ j, Edge T m j ∧ Res T j a := fun a ha => arg_edge hT ha
      have scan : ∀ (l : List ℕ) (ins' : ℕ → ℕ), (∀ a ∈ l, a ∈ argVars T m) → (∀ j, j ≠ m → ins' j = ins j) →
          let out := l.foldl (fun ins a =>
            if ins (rnd.var2op a) = T.dep.length then Function.update ins m T.dep.length else ins) ins'
          (∀ j, j ≠ m → out j = ins j) ∧
          ((∃ a ∈ l, ∃ j, Res T j a ∧ Edge T m j ∧ D T sel j) → out m = T.dep.length) ∧
          ((¬ ∃ a ∈ l, ∃ j, Res T j a ∧ Edge T m j ∧ D T sel j) → out m = ins' m) ∧
          (ins' m = T.dep.length → out m = T.dep.length) := by
        intro l
        induction l with
        | nil => intro ins' _ h'; exact ⟨h', by simp, fun _ => rfl, fun h => h⟩
        | cons a l ih =>
          intro ins' hl h'
          obtain ⟨j, hj, hja⟩ := hargs a (hl a (by simp))
          have hjm : j ≠ m := by have := hj.2.1; omega
          have hjL : j < T.n + 1 + T.ops.length := by have := hj.2.1; have := hj.2.2.1; omega
          have hv := (hr j hjL).2 a hja
          have hD : (ins' j = T.dep.length ↔ D T sel j) := by
            rw [h' j hjm]
            have := h j hj.2.1 hjL
            constructor
            · intro e
              by_contra hn
              have := this.2 hn; omega
            · exact this.1
          have huniq : ∀ j', Res T j' a → Edge T m j' → j' = j := fun j' he _ => Res_uniq he hja
          simp only [List.foldl_cons]
          rw [hv]
          by_cases hDj : D T sel j
          · rw [if_pos (hD.mpr hDj)]
            have := ih (Function.update ins' m T.dep.length) (fun a ha => hl a (by simp [ha]))
              (fun j hj => by rw [Function.update_of_ne hj]; exact h' j hj)
            refine ⟨this.1, fun _ => this.2.2.2 (Function.update_self ..), fun hn => absurd ⟨a, by simp, j, hja, hj, hDj⟩ hn,
              fun _ => this.2.2.2 (Function.update_self ..)⟩
          · rw [if_neg (fun e => hDj (hD.mp e))]
            have := ih ins' (fun a ha => hl a (by simp [ha])) h'
            refine ⟨this.1, ?_, ?_, this.2.2.2⟩
            · rintro ⟨a, ha, j', h1, h2, h3⟩
              rcases List.mem_cons.mp ha with rfl | ha
              · rw [huniq j' h1 h2] at h3; exact absurd h3 hDj
              · exact this.2.1 ⟨a, ha, j', h1, h2, h3⟩
            · intro hn
              refine this.2.2.1 fun ⟨a, ha, hh⟩ => hn ⟨a, by simp [ha], hh⟩
      have sc := scan (argVars T m) (Function.update ins m (T.dep.length + 1)) (fun _ h => h)
        (fun j hj => Function.update_of_ne hj _ _)
      intro i him hi
      by_cases e : i = m
      · subst e
        have hiff : D T sel i ↔ ∃ a ∈ argVars T i, ∃ j, Res T j a ∧ Edge T i j ∧ D T sel j := by
          rw [D_op hinv]
          constructor
          · rintro ⟨j, h1, h2⟩
            obtain ⟨a, ha, hja⟩ := h1.2.2.2
            exact ⟨a, ha, j, hja, h1, h2⟩
          · rintro ⟨_, _, j, _, h1, h2⟩; exact ⟨j, h1, h2⟩
        refine ⟨fun hd => sc.2.1 (hiff.mp hd), fun hd => ?_⟩
        rw [sc.2.2.1 (fun hh => hd (hiff.mpr hh)), Function.update_self]
      · rw [sc.1 i e]; exact h i (by omega) hi
    · rw [if_neg hp]
      intro i him hi
      have e : i ≠ m := by
        rintro rfl; exact hp (nres_pos hi)
      rw [Function.update_of_ne e]; exact h i (by omega) hi

/-- what holds between calls of get_rev -/
structure Ready (T : Tape) (sel : ℕ → Bool) (info : Info) (done : ℕ → Bool) : Prop where
  select : info.select = sel
  mark : ∀ i < T.n + 1 + T.ops.length, info.inSub i ≤ T.dep.length ↔ D T sel i
  fresh : ∀ i < T.n + 1 + T.ops.length, info.inSub i < T.dep.length → done (info.inSub i) = true
  process : ∀ ell < T.dep.length, info.process ell = done ell

theorem initRev_ready (hT : T.WF) {rnd : Rnd} (hr : Right T rnd) (info : Info) (sel : ℕ → Bool) :
    Ready T sel (initRev T rnd info sel) fun _ => false := by
  have h := initRev_ok hT hr info sel
  refine ⟨rfl, fun i hi => ?_, fun i hi hlt => ?_, fun _ _ => rfl⟩
  · by_cases hd : D T sel i
    · simp [hd, (h i hi).1 hd]
    · simp [hd, (h i hi).2 hd]
  · by_cases hd : D T sel i
    · rw [(h i hi).1 hd] at hlt; omega
    · rw [(h i hi).2 hd] at hlt; omega

/-- the loop of get_rev: what holds for the list `sub` and the marks `ins` -/
structure Scan (T : Tape) (sel : ℕ → Bool) (iDep i0 : ℕ) (ins0 : ℕ → ℕ) (s : List ℕ × (ℕ → ℕ)) : Prop where
  nodup : s.1.Nodup
  sound : ∀ i ∈ s.1, i < T.n + 1 + T.ops.length ∧ 1 ≤ i ∧ D T sel i ∧ R T i0 i
  mark : ∀ i < T.n + 1 + T.ops.length, s.2 i = iDep ↔ i ∈ s.1
  other : ∀ i < T.n + 1 + T.ops.length, i ∉ s.1 → s.2 i = ins0 i

theorem scanArgs_ok (hT : T.WF) {rnd : Rnd} (hr : Right T rnd) {info : Info} {sel done : ℕ → Bool} {iDep i0 : ℕ}
    (hI : Ready T sel info done) (hdep : iDep < T.dep.length) {i : ℕ} (hi : R T i0 i) :
    ∀ (args : List ℕ) (s : List ℕ × (ℕ → ℕ)), (∀ a ∈ args, a ∈ argVars T i) → Scan T sel iDep i0 info.inSub s →
    Scan T sel iDep i0 info.inSub (scanArgs T rnd info.select iDep args s) ∧
    (∃ more, (scanArgs T rnd info.select iDep args s).1 = s.1 ++ more) ∧
    (∀ a ∈ args, ∀ j, Res T j a → Edge T i j → D T sel j → j ∈ (scanArgs T rnd info.select iDep args s).1) := by
  intro args
  induction args with
  | nil => intro s _ hs; exact ⟨hs, ⟨[], by simp [scanArgs]⟩, fun a ha => by simp at ha⟩
  | cons a args ih =>
    intro s hargs hs
    obtain ⟨j, hj, hja⟩ := arg_edge hT (hargs a (by simp))
    have hjL : j < T.n + 1 + T.ops.length := by have := hj.2.1; have := hj.2.2.1; omega
    have hv := (hr j hjL).2 a hja
    have huniq : ∀ j', Res T j' a → Edge T i j' → j' = j := fun j' he _ => Res_uniq he hja
    -- the condition for adding
    have hadd : ∀ s' : List ℕ × (ℕ → ℕ), scanArgs T rnd info.select iDep (a :: args) s
        = scanArgs T rnd info.select iDep args
          (if (if isInv T j then (decide (s.2 j ≤ T.dep.length) && decide (s.2 j ≠ iDep)) && sel (a - 1)
            else (decide (s.2 j ≤ T.dep.length) && decide (s.2 j ≠ iDep))) = true
            then (s.1 ++ [j], Function.update s.2 j iDep) else s) := by
      intro _
      simp only [scanArgs, List.foldl_cons]
      rw [hv, hI.select]
    rw [hadd s]
    clear hadd
    have hle : s.2 j ≤ T.dep.length ↔ D T sel j := by
      by_cases hm : j ∈ s.1
      · have := (hs.mark j hjL).mpr hm
        have := (hs.sound j hm).2.2.1
        simp only [this, iff_true]; omega
      · rw [hs.other j hjL hm]; exact hI.mark j hjL
    have hcond : (if isInv T j then (decide (s.2 j ≤ T.dep.length) && decide (s.2 j ≠ iDep)) && sel (a - 1)
            else (decide (s.2 j ≤ T.dep.length) && decide (s.2 j ≠ iDep))) = true ↔ D T sel j ∧ j ∉ s.1 := by
      have h1 : (decide (s.2 j ≤ T.dep.length) && decide (s.2 j ≠ iDep)) = true ↔ D T sel j ∧ j ∉ s.1 := by
        rw [Bool.and_eq_true, decide_eq_true_eq, decide_eq_true_eq, hle, Ne, hs.mark j hjL]
      by_cases hinv : isInv T j
      · rw [if_pos hinv, Bool.and_eq_true, h1, (Res_low hinv.2).mp hja]
        constructor
        · exact fun h => h.1
        · intro h; exact ⟨h, (D_inv hinv).mp h.1⟩
      · rw [if_neg hinv, h1]
    by_cases hc : D T sel j ∧ j ∉ s.1
    · rw [if_pos (hcond.mpr hc)]
      have hs' : Scan T sel iDep i0 info.inSub (s.1 ++ [j], Function.update s.2 j iDep) := by
        refine ⟨?_, ?_, ?_, ?_⟩
        · rw [List.nodup_append]
          refine ⟨hs.nodup, by simp, ?_⟩
          intro a ha b hb
          simp only [List.mem_singleton] at hb
          rintro rfl; subst hb; exact hc.2 ha
        · intro l hl
          rcases List.mem_append.mp hl with h | h
          · exact hs.sound l h
          · simp only [List.mem_singleton] at h; subst h
            exact ⟨hjL, hj.1, hc.1, hi.tail hj⟩
        · intro l hl
          by_cases e : l = j
          · subst e; simp
          · dsimp only; rw [Function.update_of_ne e, hs.mark l hl]; simp [e]
        · intro l hl hn
          have e : l ≠ j := by rintro rfl; simp at hn
          dsimp only; rw [Function.update_of_ne e]
          exact hs.other l hl (fun h => hn (by simp [h]))
      obtain ⟨h1, ⟨more, h2⟩, h3⟩ := ih _ (fun a ha => hargs a (by simp [ha])) hs'
      refine ⟨h1, ⟨j :: more, by rw [h2]; simp⟩, ?_⟩
      intro a ha j' e hE hD
      rcases List.mem_cons.mp ha with rfl | ha
      · rw [huniq j' e hE, h2]; simp
      · exact h3 a ha j' e hE hD
    · rw [if_neg (fun h => hc (hcond.mp h))]
      obtain ⟨h1, ⟨more, h2⟩, h3⟩ := ih _ (fun a ha => hargs a (by simp [ha])) hs
      refine ⟨h1, ⟨more, h2⟩, ?_⟩
      intro a ha j' e hE hD
      rcases List.mem_cons.mp ha with rfl | ha
      · rw [huniq j' e hE] at hD ⊢
        have : j ∈ s.1 := by by_contra hn; exact hc ⟨hD, hn⟩
        rw [h2]; simp [this]
      · exact h3 a ha j' e hE hD

theorem nodup_lt {l : List ℕ} {N : ℕ} (h : l.Nodup) (hb : ∀ i ∈ l, i < N) : l.length ≤ N := by
  have := List.Subperm.length_le (List.subperm_of_subset h (l₂ := List.range N) (fun i hi => List.mem_range.mpr (hb i hi)))
  simpa using this

/-- get_rev returns the operators that the component depends on and that depend on the selected variables, each once -/
theorem getRev_ok (hT : T.WF) {rnd : Rnd} (hr : Right T rnd) {info : Info} {sel done : ℕ → Bool} {iDep : ℕ}
    (hI : Ready T sel info done) (hdep : iDep < T.dep.length) (hn : done iDep = false)
    {i0 : ℕ} (hi0 : i0 < T.n + 1 + T.ops.length) (hi1 : 1 ≤ i0) (hp : Res T i0 (T.dep.getD iDep 0)) :
    (getRev T rnd info iDep).2.Nodup ∧
    (∀ i, i ∈ (getRev T rnd info iDep).2 ↔ D T sel i ∧ R T i0 i) ∧
    (∀ i ∈ (getRev T rnd info iDep).2, 1 ≤ i ∧ i < T.n + 1 + T.ops.length) ∧
    Ready T sel (getRev T rnd info iDep).1 (Function.update done iDep true) := by
  have hv : rnd.var2op (T.dep.getD iDep 0) = i0 := (hr i0 hi0).2 _ hp
  have hne : ∀ i < T.n + 1 + T.ops.length, info.inSub i ≠ iDep := by
    intro i hi e
    have := hI.fresh i hi (by omega)
    rw [e, hn] at this; simp at this
  set s0 : List ℕ × (ℕ → ℕ) := if info.inSub i0 ≤ T.dep.length then ([i0], Function.update info.inSub i0 iDep)
    else ([], info.inSub) with hs0
  have hS0 : Scan T sel iDep i0 info.inSub s0 ∧ (D T sel i0 → i0 ∈ s0.1) := by
    rw [hs0]
    by_cases hc : info.inSub i0 ≤ T.dep.length
    · rw [if_pos hc]
      refine ⟨⟨by simp, ?_, ?_, ?_⟩, fun _ => by simp⟩
      · intro i hi; simp only [List.mem_singleton] at hi; subst hi
        exact ⟨hi0, hi1, (hI.mark _ hi0).mp hc, .refl⟩
      · intro i hi
        by_cases e : i = i0
        · subst e; simp
        · dsimp only; rw [Function.update_of_ne e]; simp [e, hne i hi]
      · intro i hi hn
        have e : i ≠ i0 := by simpa using hn
        dsimp only; rw [Function.update_of_ne e]
    · rw [if_neg hc]
      refine ⟨⟨by simp, by simp, fun i hi => by simp [hne i hi], fun _ _ _ => rfl⟩, fun hd => ?_⟩
      exact absurd ((hI.mark _ hi0).mpr hd) hc
  set body : ℕ × List ℕ × (ℕ → ℕ) → ℕ × List ℕ × (ℕ → ℕ) :=
    fun s => (s.1 + 1, scanArgs T rnd info.select iDep (argVars T (s.2.1.getD s.1 0)) s.2) with hbody
  have key := whileLoop_rule (σ := ℕ × List ℕ × (ℕ → ℕ)) (c := fun s => decide (s.1 < s.2.1.length)) (b := body)
    (fun s => s.1 ≤ s.2.1.length ∧ Scan T sel iDep i0 info.inSub s.2 ∧ (D T sel i0 → i0 ∈ s.2.1) ∧
      ∀ k < s.1, ∀ i, s.2.1[k]? = some i → ∀ j, Edge T i j → D T sel j → j ∈ s.2.1)
    (fun s => T.n + 1 + T.ops.length - s.1) ?_ (s := (0, s0)) ⟨Nat.zero_le _, hS0.1, hS0.2, fun k h => absurd h (Nat.not_lt_zero _)⟩
  · obtain ⟨⟨h1, h2, h3, h4⟩, h5⟩ := key
    have hget : getRev T rnd info iDep =
      (⟨(whileLoop (fun s => decide (s.1 < s.2.1.length)) body (0, s0)).2.2, info.select,
        Function.update info.process iDep true⟩, (whileLoop (fun s => decide (s.1 < s.2.1.length)) body (0, s0)).2.1) := by
      simp only [getRev, hv]; rfl
    rw [hget]
    set r := whileLoop (fun s => decide (s.1 < s.2.1.length)) body (0, s0) with hrdef
    have hlen : r.1 = r.2.1.length := by
      simp only [decide_eq_false_iff_not] at h5; omega
    have hclosed : ∀ i ∈ r.2.1, ∀ j, Edge T i j → D T sel j → j ∈ r.2.1 := by
      intro i hi
      obtain ⟨k, hk, hk'⟩ := List.mem_iff_getElem.mp hi
      exact h4 k (by omega) i (by rw [List.getElem?_eq_getElem hk, hk'])
    have hcompl : ∀ i, R T i0 i → D T sel i → i ∈ r.2.1 := by
      intro i hR
      induction hR with
      | refl => exact h3
      | tail hR hE ih => intro hD; exact hclosed _ (ih (D_of_edge hE hD)) _ hE hD
    refine ⟨h2.nodup, fun i => ⟨fun h => ⟨(h2.sound i h).2.2.1, (h2.sound i h).2.2.2⟩, fun h => hcompl i h.2 h.1⟩,
      fun i h => ⟨(h2.sound i h).2.1, (h2.sound i h).1⟩, ?_⟩
    refine ⟨hI.select, ?_, ?_, ?_⟩
    · intro i hi
      dsimp only
      by_cases hm : i ∈ r.2.1
      · have := (h2.mark i hi).mpr hm
        have := (h2.sound i hm).2.2.1
        simp only [this, iff_true]; omega
      · rw [h2.other i hi hm]; exact hI.mark i hi
    · intro i hi hlt
      dsimp only at hlt ⊢
      by_cases hm : i ∈ r.2.1
      · rw [(h2.mark i hi).mpr hm, Function.update_self]
      · rw [h2.other i hi hm] at hlt ⊢
        rw [Function.update_of_ne (hne i hi)]
        exact hI.fresh i hi hlt
    · intro ell hl
      dsimp only
      by_cases e : ell = iDep
      · subst e; simp
      · rw [Function.update_of_ne e, Function.update_of_ne e]; exact hI.process ell hl
  · rintro ⟨k, s⟩ ⟨h1, h2, h3, h4⟩ hc
    simp only [decide_eq_true_eq] at hc
    simp only at h1 h2 h3 h4
    have hk : s.1.getD k 0 = s.1[k] := List.getD_eq_getElem _ _ hc
    have hmem : s.1[k] ∈ s.1 := List.getElem_mem hc
    obtain ⟨g1, ⟨more, g2⟩, g3⟩ := scanArgs_ok hT hr hI hdep (h2.sound _ hmem).2.2.2 (argVars T (s.1[k])) s (fun _ h => h) h2
    have hkL : k < T.n + 1 + T.ops.length := by
      have := nodup_lt h2.nodup (fun i hi => (h2.sound i hi).1); omega
    refine ⟨⟨?_, ?_, ?_, ?_⟩, ?_⟩
    · simp only [hbody, hk]; rw [g2, List.length_append]; omega
    · simp only [hbody, hk]; exact g1
    · intro hd; simp only [hbody, hk]; rw [g2]; simp [h3 hd]
    · intro l hl i hi j hE hD
      simp only [hbody, hk] at hl hi ⊢
      by_cases e : l = k
      · subst e
        rw [g2, List.getElem?_append_left hc, List.getElem?_eq_getElem hc, Option.some.injEq] at hi
        subst hi
        obtain ⟨a, ha, hja⟩ := hE.2.2.2
        exact g3 a ha j hja hE hD
      · have hl' : l < s.1.length := by omega
        rw [g2, List.getElem?_append_left hl'] at hi
        have := h4 l (by omega) i hi j hE hD
        rw [g2]; simp [this]
    · simp only [hbody]; omega

theorem foldl_inv_pairs (i : ℕ) (l : List ℕ) : ∀ out : List (ℕ × ℕ),
    l.foldl (fun out iOp => if isInv T iOp then out ++ [(i, iOp - 1)] else out) out
      = out ++ (l.filter fun k => decide (isInv T k)).map fun k => (i, k - 1) := by
  induction l with
  | nil => intro out; simp
  | cons k l ih =>
    intro out
    rw [List.foldl_cons, ih]
    by_cases h : isInv T k
    · rw [if_pos h, List.filter_cons_of_pos (by simpa using h)]; simp
    · rw [if_neg h, List.filter_cons_of_neg (by simpa using h)]

/-- independent variables in the result of get_rev -/
theorem inv_reach (hT : T.WF) {sel : ℕ → Bool} {i0 j v : ℕ} (hi0 : i0 < T.n + 1 + T.ops.length) (hp : Res T i0 v)
    (hj : j < T.n) : (D T sel (j + 1) ∧ R T i0 (j + 1)) ↔ sel j = true ∧ Reaches T v (j + 1) := by
  have hinv : isInv T (j + 1) := ⟨by omega, by omega⟩
  rw [D_inv hinv, reaches_iff hT hi0 hp ⟨by omega, by omega⟩, Nat.add_sub_cancel]

theorem sparsityLoop_ok (hT : T.WF) {rnd : Rnd} (hr : Right T rnd) {sel range : ℕ → Bool} {info : Info}
    (hI : Ready T sel info fun _ => false) :
    (sparsityLoop T rnd range info).2.Nodup ∧
    ∀ i j, (i, j) ∈ (sparsityLoop T rnd range info).2 ↔
      (i < T.dep.length ∧ range i = true) ∧ j < T.n ∧ sel j = true ∧ Reaches T (T.dep.getD i 0) (j + 1) := by
  have := forRange_ind (Nat.zero_le T.dep.length) (s := ((info, []) : Info × List (ℕ × ℕ))) (f := fun i s =>
    if range i then
      let r := getRev T rnd s.1 i
      (r.1, r.2.foldl (fun out iOp => if isInv T iOp then out ++ [(i, iOp - 1)] else out) s.2)
    else s)
    (fun m s => (∃ done, Ready T sel s.1 done ∧ ∀ i, m ≤ i → done i = false) ∧ s.2.Nodup ∧
      ∀ i j, (i, j) ∈ s.2 ↔ (i < m ∧ range i = true) ∧ j < T.n ∧ sel j = true ∧ Reaches T (T.dep.getD i 0) (j + 1))
    ⟨⟨_, hI, fun _ _ => rfl⟩, by simp, by simp⟩ ?_
  · exact this.2
  · rintro m ⟨inf, out⟩ _ hm ⟨⟨done, h1, h2⟩, h3, h4⟩
    dsimp only at h1 h3 h4 ⊢
    by_cases hrm : range m = true
    · rw [if_pos hrm]
      obtain ⟨i0, g1, g2, g3⟩ := dep_pv hT hm
      obtain ⟨k1, k2, k3, k4⟩ := getRev_ok hT hr h1 hm (h2 m le_rfl) g2 g1 g3
      dsimp only
      rw [foldl_inv_pairs]
      refine ⟨⟨_, k4, fun i hi => ?_⟩, ?_, ?_⟩
      · rw [Function.update_of_ne (by omega)]; exact h2 i (by omega)
      · rw [List.nodup_append]
        refine ⟨h3, ?_, ?_⟩
        · refine List.Nodup.map_on ?_ (k1.filter _)
          intro a ha b hb e
          have ha := (List.mem_filter.mp ha).2
          have hb := (List.mem_filter.mp hb).2
          simp only [decide_eq_true_eq] at ha hb
          have := (Prod.mk.inj e).2
          have := ha.1; have := hb.1; omega
        · intro e he e' he' hee
          obtain ⟨k, _, rfl⟩ := List.mem_map.mp he'
          subst hee
          have := ((h4 _ _).mp he).1.1; omega
      · intro i j
        rw [List.mem_append, h4, List.mem_map]
        constructor
        · rintro (h | ⟨k, hk, hk'⟩)
          · exact ⟨⟨by omega, h.1.2⟩, h.2⟩
          · obtain ⟨h5, h6⟩ := List.mem_filter.mp hk
            simp only [decide_eq_true_eq] at h6
            obtain ⟨rfl, rfl⟩ := Prod.mk.inj hk'
            have hk1 : k - 1 + 1 = k := by have := h6.1; omega
            have := (inv_reach hT (sel := sel) g2 g3 (j := k - 1) (by have := h6.1; have := h6.2; omega)).mp (by rw [hk1]; exact (k2 k).mp h5)
            exact ⟨⟨by omega, hrm⟩, by have := h6.1; have := h6.2; omega, this⟩
        · rintro ⟨⟨h5, h6⟩, h7, h8⟩
          by_cases e : i = m
          · subst e
            right
            refine ⟨j + 1, List.mem_filter.mpr ⟨(k2 _).mpr ((inv_reach hT g2 g3 h7).mpr h8), ?_⟩, by simp⟩
            simp only [decide_eq_true_eq]; exact ⟨by omega, by omega⟩
          · left; exact ⟨⟨by omega, h6⟩, h7, h8⟩
    · rw [if_neg hrm]
      refine ⟨⟨done, h1, fun i hi => h2 i (by omega)⟩, h3, ?_⟩
      intro i j
      rw [h4]
      refine and_congr_left fun _ => and_congr_left fun h6 => ?_
      constructor
      · omega
      · intro h; rcases Nat.lt_succ_iff_lt_or_eq.mp h with h | rfl
        · exact h
        · exact absurd h6 hrm

/-- **C37**: for every recording, selection, and previous content of the subgraph data, `subgraph_sparsity` returns
each pair `(i, j)` at most once, and it returns it exactly when component `i` and independent variable `j` are selected and the
component depends on the variable in the operation graph.  The dimensions are those of the Jacobian (or of its transpose). -/
theorem subgraph_sparsity_exact (hT : T.WF) (junk : Rnd) (info : Info) (domain range : ℕ → Bool) (transpose : Bool) :
    let p := (sparsity T junk info domain range transpose).2
    p.1 = (if transpose then T.n else T.dep.length) ∧ p.2.1 = (if transpose then T.dep.length else T.n) ∧
    p.2.2.Nodup ∧
    ∀ i j, (if transpose then (j, i) else (i, j)) ∈ p.2.2 ↔
      i < T.dep.length ∧ range i = true ∧ j < T.n ∧ domain j = true ∧ Reaches T (T.dep.getD i 0) (j + 1) := by
  have hr : Right T (randomSetup T junk) := randomSetup_ok T junk
  have h := sparsityLoop_ok (range := range) hT hr (initRev_ready hT hr info domain)
  cases transpose
  · refine ⟨rfl, rfl, h.1, fun i j => ?_⟩
    have := h.2 i j
    simp only [sparsity]
    rw [and_assoc] at this
    simpa using this
  · refine ⟨rfl, rfl, ?_, fun i j => ?_⟩
    · exact List.Nodup.map (fun a b e => by
        obtain ⟨h1, h2⟩ := Prod.mk.inj e
        exact Prod.ext h2 h1) h.1
    · have := h.2 i j
      rw [and_assoc] at this
      rw [← this]
      simp only [sparsity, if_true, List.mem_map]
      constructor
      · rintro ⟨e, he, hee⟩
        obtain ⟨h1, h2⟩ := Prod.mk.inj hee
        rw [← h1, ← h2]; exact he
      · intro he; exact ⟨_, he, rfl⟩

/-- a recording with two components: `sin(x0 * x1)` and `x1` -/
def exTape2 : Tape := ⟨2, [.mulvv 1 2, .sin 3], [5, 2]⟩

theorem exTape2_WF : exTape2.WF := by
  refine ⟨by decide, ?_, ?_⟩
  · simp [exTape2, WFOps, Tape.ind, Op.args, Op.nres, addRes, Op.naux]
  · intro d hd
    simp only [exTape2, List.mem_cons, List.not_mem_nil, or_false] at hd
    rcases hd with rfl | rfl <;> simp [exTape2, usable, Tape.ind, Op.nres, addRes, Op.naux]

/-- component 0 of the example depends on `x0` through two operations -/
example : Reaches exTape2 5 1 :=
  .step (k := 1) (op := .sin 3) (a := 3) ⟨rfl, by decide, by decide⟩ (by simp [Op.args])
    (.step (k := 0) (op := .mulvv 1 2) ⟨rfl, by decide, by decide⟩ (by simp [Op.args]) (.refl 1))

/-- component 1 of the example is `x1`, it does not depend on `x0` -/
example : ¬ Reaches exTape2 2 1 := by
  rw [reaches_iff exTape2_WF (i := 2) (by decide) ((Res_low (by decide)).mpr rfl) (by decide)]
  intro h1
  rcases Relation.ReflTransGen.cases_head h1 with h | ⟨l, h4, _⟩
  · omega
  · exact not_edge_low (by decide) h4

end CppAD.Subgraph
