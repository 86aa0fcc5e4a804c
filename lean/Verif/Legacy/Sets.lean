import Verif.Legacy.Model

/-!
# Reading and writing the vectors of bool and vectors of sets
-/

namespace CppAD.Legacy

open Sparsity

/-- *Specification*: the `nr` by `nc` pattern represented by a vector contains `(i, j)`.  If `tr` is true, the vector
represents the transposed pattern.  For a vector of bool, entry `(i, j)` is element `i * nc + j`
(`j * nr + i` for the transposed pattern); for a vector of sets, the elements of set `i` are the column indices of row `i`. -/
def SetVec.Has (tr : Bool) (nr nc : ℕ) (v : SetVec) (i j : ℕ) : Prop :=
  i < nr ∧ j < nc ∧ match v with
    | .bools b => b (if tr then j * nr + i else i * nc + j) = true
    | .sets s => if tr then i ∈ s j else j ∈ s i

/-- *Specification*: the set elements are in range (the code asserts this) -/
def SetVec.Ok (tr : Bool) (nr nc : ℕ) : SetVec → Prop
  | .bools _ => True
  | .sets s => if tr then ∀ j < nc, ∀ i ∈ s j, i < nr else ∀ i < nr, ∀ j ∈ s i, j < nc

theorem mem_addElement (s : Sp) (a e v c : ℕ) : c ∈ s.addElement a e v ↔ c ∈ s v ∨ (v = a ∧ c = e) := by
  unfold Sp.addElement
  by_cases h : v = a
  · subst h
    rw [Function.update_self, Finset.mem_insert]
    constructor
    · rintro (h | h)
      · exact Or.inr ⟨rfl, h⟩
      · exact Or.inl h
    · rintro (h | h)
      · exact Or.inr h
      · exact Or.inl h.2
  · rw [Function.update_of_ne h]
    simp [h]

theorem forRange_mem {lo hi : ℕ} {f : ℕ → Sp → Sp} {Q : ℕ → ℕ → ℕ → Prop}
    (hf : ∀ k < hi, ∀ s v c, c ∈ f k s v ↔ c ∈ s v ∨ Q k v c) (h : lo ≤ hi) (s : Sp) (v c : ℕ) :
    c ∈ forRange lo hi s f v ↔ c ∈ s v ∨ ∃ k, lo ≤ k ∧ k < hi ∧ Q k v c := by
  have := forRange_ind h (s := s) (f := f) (P := fun q (t : Sp) => ∀ v c, c ∈ t v ↔ c ∈ s v ∨ ∃ k, lo ≤ k ∧ k < q ∧ Q k v c)
    (by intro v c
        constructor
        · exact Or.inl
        · rintro (h | ⟨k, h1, h2, _⟩)
          · exact h
          · omega)
    (by intro q t h1 h2 ih v c
        rw [hf q h2, ih]
        constructor
        · rintro ((h | ⟨k, a, b, d⟩) | h)
          · exact Or.inl h
          · exact Or.inr ⟨k, a, by omega, d⟩
          · exact Or.inr ⟨q, h1, by omega, h⟩
        · rintro (h | ⟨k, a, b, d⟩)
          · exact Or.inl (Or.inl h)
          · rcases Nat.lt_succ_iff_lt_or_eq.1 b with h' | rfl
            · exact Or.inl (Or.inr ⟨k, a, h', d⟩)
            · exact Or.inr d)
  exact this v c

theorem foldl_mem {l : List ℕ} {f : Sp → ℕ → Sp} {Q : ℕ → ℕ → ℕ → Prop}
    (hf : ∀ k s v c, c ∈ f s k v ↔ c ∈ s v ∨ Q k v c) (s : Sp) (v c : ℕ) :
    c ∈ l.foldl f s v ↔ c ∈ s v ∨ ∃ k ∈ l, Q k v c := by
  induction l generalizing s with
  | nil => simp
  | cons a l ih =>
    rw [List.foldl_cons, ih, hf]
    simp only [List.mem_cons, exists_eq_or_imp, or_assoc]

theorem if_mem (b : Bool) (s : Sp) (a e v c : ℕ) :
    c ∈ (if b = true then s.addElement a e else s) v ↔ c ∈ s v ∨ (b = true ∧ v = a ∧ c = e) := by
  cases b
  · simp
  · simp [mem_addElement]

theorem mem_user2internal (tr : Bool) (nr nc : ℕ) (p : SetVec) (hp : p.Ok tr nr nc) (i j : ℕ) :
    j ∈ user2internal tr nr nc p i ↔ p.Has tr nr nc i j := by
  cases p with
  | bools v =>
    unfold user2internal SetVec.Has
    cases tr
    · simp only [Bool.false_eq_true, if_false]
      rw [forRange_mem (Q := fun i' w c => ∃ j', 0 ≤ j' ∧ j' < nc ∧ (v (i' * nc + j') = true ∧ w = i' ∧ c = j'))
        (fun k _ s w c => forRange_mem (fun j' _ s w c => if_mem (v (k * nc + j')) s k j' w c) (Nat.zero_le _) s w c) (Nat.zero_le _)]
      constructor
      · rintro (h | ⟨i', _, h1, j', _, h2, h3, rfl, rfl⟩)
        · exact absurd h (Finset.notMem_empty _)
        · exact ⟨h1, h2, h3⟩
      · rintro ⟨h1, h2, h3⟩
        exact Or.inr ⟨i, by omega, h1, j, by omega, h2, h3, rfl, rfl⟩
    · simp only [if_true]
      rw [forRange_mem (Q := fun j' w c => ∃ i', 0 ≤ i' ∧ i' < nr ∧ (v (j' * nr + i') = true ∧ w = i' ∧ c = j'))
        (fun k _ s w c => forRange_mem (fun i' _ s w c => if_mem (v (k * nr + i')) s i' k w c) (Nat.zero_le _) s w c) (Nat.zero_le _)]
      constructor
      · rintro (h | ⟨i', _, h1, j', _, h2, h3, rfl, rfl⟩)
        · exact absurd h (Finset.notMem_empty _)
        · exact ⟨h2, h1, h3⟩
      · rintro ⟨h1, h2, h3⟩
        exact Or.inr ⟨j, by omega, h2, i, by omega, h1, h3, rfl, rfl⟩
  | sets v =>
    unfold user2internal SetVec.Has
    cases tr
    · simp only [SetVec.Ok, Bool.false_eq_true, if_false] at hp ⊢
      rw [forRange_mem (Q := fun i' w c => ∃ j' ∈ (v i').sort (· ≤ ·), w = i' ∧ c = j')
        (fun k _ s w c => foldl_mem (fun j' s w c => mem_addElement s k j' w c) s w c) (Nat.zero_le _)]
      simp only [Finset.mem_sort]
      constructor
      · rintro (h | ⟨i', _, h1, j', h2, rfl, rfl⟩)
        · exact absurd h (Finset.notMem_empty _)
        · exact ⟨h1, hp _ h1 _ h2, h2⟩
      · rintro ⟨h1, h2, h3⟩
        exact Or.inr ⟨i, by omega, h1, j, h3, rfl, rfl⟩
    · simp only [SetVec.Ok, if_true] at hp ⊢
      rw [forRange_mem (Q := fun j' w c => ∃ i' ∈ (v j').sort (· ≤ ·), w = i' ∧ c = j')
        (fun k _ s w c => foldl_mem (fun i' s w c => mem_addElement s i' k w c) s w c) (Nat.zero_le _)]
      simp only [Finset.mem_sort]
      constructor
      · rintro (h | ⟨i', _, h1, j', h2, rfl, rfl⟩)
        · exact absurd h (Finset.notMem_empty _)
        · exact ⟨hp _ h1 _ h2, h1, h2⟩
      · rintro ⟨h1, h2, h3⟩
        exact Or.inr ⟨j, by omega, h2, i, h3, rfl, rfl⟩

theorem mem_post (tr : Bool) (nr nc : ℕ) (idx : ℕ → ℕ) (r : SetVec) (hr : r.Ok tr nr nc) (v c : ℕ) :
    c ∈ post tr nr nc idx r v ↔ ∃ i, idx i = v ∧ r.Has tr nr nc i c := by
  unfold post
  rw [processPost_mem]
  have key : ∀ p : Sp, (∀ v c, c ∈ p v ↔ ∃ i, idx i = v ∧ r.Has tr nr nc i c) →
      ((c ∈ (fun _ => ∅ : Sp) v ∨ (v ∈ (List.range nr).map idx ∧ c ∈ p v)) ↔ ∃ i, idx i = v ∧ r.Has tr nr nc i c) := by
    intro p hp
    rw [hp]
    constructor
    · rintro (h | h)
      · exact absurd h (Finset.notMem_empty _)
      · exact h.2
    · rintro ⟨i, h1, h2⟩
      exact Or.inr ⟨List.mem_map.2 ⟨i, List.mem_range.2 h2.1, h1⟩, i, h1, h2⟩
  apply key
  clear key v c
  intro w c
  cases r with
  | bools v =>
    unfold SetVec.Has
    simp only
    rw [forRange_mem (Q := fun i w c => ∃ j', 0 ≤ j' ∧ j' < nc ∧ (v (boolIdx tr nr nc i j') = true ∧ w = idx i ∧ c = j'))
        (fun k _ s w c => forRange_mem (fun j' _ s w c => if_mem (v (boolIdx tr nr nc k j')) s (idx k) j' w c) (Nat.zero_le _) s w c) (Nat.zero_le _)]
    constructor
    · rintro (h | ⟨i', _, h1, j', _, h2, h3, rfl, rfl⟩)
      · exact absurd h (Finset.notMem_empty _)
      · exact ⟨i', rfl, h1, h2, h3⟩
    · rintro ⟨i, rfl, h1, h2, h3⟩
      exact Or.inr ⟨i, by omega, h1, c, by omega, h2, h3, rfl, rfl⟩
  | sets v =>
    unfold SetVec.Has
    cases tr
    · simp only [SetVec.Ok, Bool.false_eq_true, if_false] at hr ⊢
      rw [forRange_mem (Q := fun i' w c => ∃ j' ∈ (v i').sort (· ≤ ·), w = idx i' ∧ c = j')
        (fun k _ s w c => foldl_mem (fun j' s w c => mem_addElement s (idx k) j' w c) s w c) (Nat.zero_le _)]
      simp only [Finset.mem_sort]
      constructor
      · rintro (h | ⟨i', _, h1, j', h2, rfl, rfl⟩)
        · exact absurd h (Finset.notMem_empty _)
        · exact ⟨i', rfl, h1, hr _ h1 _ h2, h2⟩
      · rintro ⟨i, rfl, h1, h2, h3⟩
        exact Or.inr ⟨i, by omega, h1, c, h3, rfl, rfl⟩
    · simp only [SetVec.Ok, if_true] at hr ⊢
      rw [forRange_mem (Q := fun j' w c => ∃ i' ∈ (v j').sort (· ≤ ·), w = idx i' ∧ c = j')
        (fun k _ s w c => foldl_mem (fun i' s w c => mem_addElement s (idx i') k w c) s w c) (Nat.zero_le _)]
      simp only [Finset.mem_sort]
      constructor
      · rintro (h | ⟨j', _, h1, i', h2, rfl, rfl⟩)
        · exact absurd h (Finset.notMem_empty _)
        · exact ⟨i', rfl, hr _ h1 _ h2, h1, h2⟩
      · rintro ⟨i, rfl, h1, h2, h3⟩
        exact Or.inr ⟨c, by omega, h2, i, h3, rfl, rfl⟩

/-! ## results -/

theorem boolIdx_inj {tr : Bool} {nr nc i j i' j' : ℕ} (hi : i < nr) (hj : j < nc) (hi' : i' < nr) (hj' : j' < nc)
    (h : boolIdx tr nr nc i j = boolIdx tr nr nc i' j') : i = i' ∧ j = j' := by
  have key : ∀ {n a b a' b' : ℕ}, b < n → b' < n → a * n + b = a' * n + b' → a = a' ∧ b = b' := by
    intro n a b a' b' hb hb' h
    have h1 := congrArg (· / n) h
    have h2 := congrArg (· % n) h
    simp only [Nat.mul_comm _ n, Nat.mul_add_mod, Nat.mod_eq_of_lt hb, Nat.mod_eq_of_lt hb'] at h2
    simp only [Nat.mul_comm _ n, Nat.mul_add_div (by omega : n > 0), Nat.div_eq_of_lt hb, Nat.div_eq_of_lt hb'] at h1
    omega
  unfold boolIdx at h
  cases tr
  · exact key hj hj' h
  · exact (key hi hi' h).symm

theorem clearRow_eq {tr : Bool} {nr nc i : ℕ} (hi : i < nr) (v : ℕ → Bool) {i' j : ℕ} (hi' : i' < nr) (hj : j < nc) :
    clearRow tr nr nc i v (boolIdx tr nr nc i' j) = if i' = i then false else v (boolIdx tr nr nc i' j) := by
  unfold clearRow
  have := forRange_ind (Nat.zero_le nc) (s := v) (f := fun j v => Function.update v (boolIdx tr nr nc i j) false)
    (P := fun q (w : ℕ → Bool) => ∀ i' < nr, ∀ j < nc, w (boolIdx tr nr nc i' j) =
      if i' = i ∧ j < q then false else v (boolIdx tr nr nc i' j))
    (by intro i' _ j _; simp)
    (by intro q w _ hq ih i' hi' j hj
        rw [Function.update_apply]
        split_ifs with h1 h2 h2
        · rfl
        · exfalso
          obtain ⟨rfl, rfl⟩ := boolIdx_inj hi' hj hi hq h1
          exact h2 ⟨rfl, by omega⟩
        · rw [ih i' hi' j hj, if_pos]
          refine ⟨h2.1, ?_⟩
          rcases Nat.lt_succ_iff_lt_or_eq.1 h2.2 with h | rfl
          · exact h
          · exact absurd (by rw [h2.1]) h1
        · rw [ih i' hi' j hj, if_neg]
          intro h; exact h2 ⟨h.1, by omega⟩)
  rw [this i' hi' j hj]
  simp [hj]

theorem foldl_set {α : Type} (l : List α) (g : α → ℕ) (v : ℕ → Bool) (x : ℕ) :
    l.foldl (fun v a => Function.update v (g a) true) v x = true ↔ v x = true ∨ ∃ a ∈ l, g a = x := by
  induction l generalizing v with
  | nil => simp
  | cons a l ih =>
    rw [List.foldl_cons, ih, Function.update_apply]
    by_cases h : x = g a
    · simp [h]
    · simp [h, Ne.symm h]

theorem setRow_eq {tr : Bool} {nr nc i : ℕ} (idx : ℕ → ℕ) (s : Sp) (hi : i < nr) (v : ℕ → Bool) {i' j : ℕ} (hi' : i' < nr) (hj : j < nc) :
    setRow tr nr nc idx s i v (boolIdx tr nr nc i' j) = true ↔
      v (boolIdx tr nr nc i' j) = true ∨ (i' = i ∧ j ∈ s (idx i)) := by
  unfold setRow
  rw [foldl_set]
  constructor
  · rintro (h | ⟨j', h1, h2⟩)
    · exact Or.inl h
    · rw [mem_takeWhile_sort] at h1
      obtain ⟨rfl, rfl⟩ := boolIdx_inj hi h1.2 hi' hj h2
      exact Or.inr ⟨rfl, h1.1⟩
  · rintro (h | ⟨rfl, h⟩)
    · exact Or.inl h
    · exact Or.inr ⟨j, (mem_takeWhile_sort _ _ _).2 ⟨h, hj⟩, rfl⟩

theorem mem_insertRow (tr : Bool) (nc : ℕ) (idx : ℕ → ℕ) (s : Sp) (i : ℕ) (v : ℕ → Finset ℕ) (a e : ℕ) :
    e ∈ insertRow tr nc idx s i v a ↔ e ∈ v a ∨
      ∃ j, (j ∈ s (idx i) ∧ j < nc) ∧ if tr then a = j ∧ e = i else a = i ∧ e = j := by
  unfold insertRow
  have := foldl_mem (l := ((s (idx i)).sort (· ≤ ·)).takeWhile (· < nc))
    (f := fun v j => if tr then Function.update v j (insert i (v j)) else Function.update v i (insert j (v i)))
    (Q := fun j a e => if tr then a = j ∧ e = i else a = i ∧ e = j) (by
      intro j s a e
      cases tr
      · exact mem_addElement s i j a e
      · exact mem_addElement s j i a e) v a e
  rw [this]
  simp only [mem_takeWhile_sort]

/-- the sets that are inserted are the result -/
theorem has_insertRows (tr : Bool) (nr nc : ℕ) (idx : ℕ → ℕ) (s : Sp) (i j : ℕ) :
    (SetVec.sets (forRange 0 nr (fun _ => ∅) fun i v => insertRow tr nc idx s i v)).Has tr nr nc i j ↔
      i < nr ∧ j < nc ∧ j ∈ s (idx i) := by
  unfold SetVec.Has
  refine and_congr_right fun hi => and_congr_right fun hj => ?_
  have key := fun a e => forRange_mem (lo := 0) (hi := nr) (f := fun i v => insertRow tr nc idx s i v)
    (Q := fun i a e => ∃ j, (j ∈ s (idx i) ∧ j < nc) ∧ if tr then a = j ∧ e = i else a = i ∧ e = j)
    (fun k _ t a e => mem_insertRow tr nc idx s k t a e) (Nat.zero_le _) (fun _ => ∅) a e
  cases tr
  · simp only [Bool.false_eq_true, if_false] at key ⊢
    rw [key]
    constructor
    · rintro (h | ⟨i', _, _, j', h1, rfl, rfl⟩)
      · exact absurd h (Finset.notMem_empty _)
      · exact h1.1
    · intro h
      exact Or.inr ⟨i, by omega, hi, j, ⟨h, hj⟩, rfl, rfl⟩
  · simp only [if_true] at key ⊢
    rw [key]
    constructor
    · rintro (h | ⟨i', _, _, j', h1, rfl, rfl⟩)
      · exact absurd h (Finset.notMem_empty _)
      · exact h1.1
    · intro h
      exact Or.inr ⟨i, by omega, hi, j, ⟨h, hj⟩, rfl, rfl⟩

theorem has_readBack (kind : Kind) (tr : Bool) (nr nc : ℕ) (idx : ℕ → ℕ) (junk : ℕ → Bool) (s : Sp) (i j : ℕ) :
    (readBack kind tr nr nc idx junk s).Has tr nr nc i j ↔ i < nr ∧ j < nc ∧ j ∈ s (idx i) := by
  cases kind with
  | set => exact has_insertRows tr nr nc idx s i j
  | bool =>
    unfold SetVec.Has
    refine and_congr_right fun hi => and_congr_right fun hj => ?_
    have := forRange_ind (Nat.zero_le nr) (s := junk)
      (f := fun i v => setRow tr nr nc idx s i (clearRow tr nr nc i v))
      (P := fun q (v : ℕ → Bool) => q ≤ nr ∧ ∀ i < q, ∀ j < nc, (v (boolIdx tr nr nc i j) = true ↔ j ∈ s (idx i)))
      ⟨by omega, by intro i hi; omega⟩
      (by rintro q v _ hq ⟨_, ih⟩
          refine ⟨by omega, fun i hi j hj => ?_⟩
          rw [setRow_eq idx s hq _ (by omega) hj, clearRow_eq hq _ (by omega) hj]
          by_cases h : i = q
          · subst h; simp
          · rw [if_neg h, ih i (by omega) j hj]
            simp [h])
    exact this.2 i hi j hj

theorem has_readHes (kind : Kind) (tr : Bool) (nr nc : ℕ) (idx : ℕ → ℕ) (junk : ℕ → Bool) (s : Sp) (i j : ℕ) :
    (readHes kind tr nr nc idx junk s).Has tr nr nc i j ↔ i < nr ∧ j < nc ∧ j ∈ s (idx i) := by
  cases kind with
  | set => exact has_insertRows tr nr nc idx s i j
  | bool =>
    unfold SetVec.Has
    refine and_congr_right fun hi => and_congr_right fun hj => ?_
    have h1 := forRange_ind (Nat.zero_le nr) (s := junk) (f := fun i v => clearRow tr nr nc i v)
      (P := fun q (v : ℕ → Bool) => q ≤ nr ∧ ∀ i < q, ∀ j < nc, v (boolIdx tr nr nc i j) = false)
      ⟨by omega, by intro i hi; omega⟩
      (by rintro q v _ hq ⟨_, ih⟩
          refine ⟨by omega, fun i hi j hj => ?_⟩
          rw [clearRow_eq hq _ (by omega) hj]
          by_cases h : i = q
          · simp [h]
          · rw [if_neg h, ih i (by omega) j hj])
    have h2 := forRange_ind (Nat.zero_le nr) (s := forRange 0 nr junk fun i v => clearRow tr nr nc i v)
      (f := fun i v => setRow tr nr nc idx s i v)
      (P := fun q (v : ℕ → Bool) => q ≤ nr ∧ ∀ i < nr, ∀ j < nc, (v (boolIdx tr nr nc i j) = true ↔ i < q ∧ j ∈ s (idx i)))
      ⟨by omega, by intro i hi j hj; rw [h1.2 i hi j hj]; simp⟩
      (by rintro q v _ hq ⟨_, ih⟩
          refine ⟨by omega, fun i hi j hj => ?_⟩
          rw [setRow_eq idx s hq _ hi hj, ih i hi j hj]
          constructor
          · rintro (h | ⟨rfl, h⟩)
            · exact ⟨by omega, h.2⟩
            · exact ⟨by omega, h⟩
          · rintro ⟨h, h'⟩
            rcases Nat.lt_succ_iff_lt_or_eq.1 h with h | rfl
            · exact Or.inl ⟨h, h'⟩
            · exact Or.inr ⟨rfl, h'⟩)
    show _ = true ↔ _
    rw [show (if tr = true then j * nr + i else i * nc + j) = boolIdx tr nr nc i j from rfl, h2.2 i hi j hj]
    simp [hi]

end CppAD.Legacy
