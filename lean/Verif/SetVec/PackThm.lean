import Verif.SetVec.PackProof

/-! # Theorems about `pack_setvec` -/

namespace CppAD.SetVec.Pack
variable {w : ℕ}

/-- all objects as constructed -/
def start (w : ℕ) : ℕ → Pack w := fun _ => fresh

theorem rel_all (hw : 0 < w) (cs : List Cmd) (hl : Legal (fun _ => Abs.fresh) cs)
    (hsz : ∀ c ∈ cs, Sizes (fun n e => 0 < n → 0 < e) c) (o : ℕ) :
    Rel ((impl w).runAll (start w) cs o) (runAll (fun _ => Abs.fresh) cs o) :=
  (refines hw).all cs hsz _ _ (fun _ => rel_fresh) hl o

/-- **pack_setvec is a vector of sets.**  For every word size, every number of
objects and every history of legal calls (including calls where the target,
the operands and the other object coincide), every object reports the number of sets, the
end value and membership as the abstract vector of sets does, and its
iterators visit exactly the elements of each set in increasing order and then
report `end`.  (`number_elements` is treated separately below.) -/
theorem pack_setvec_history (hw : 0 < w) (cs : List Cmd) (hl : Legal (fun _ => Abs.fresh) cs)
    (hsz : ∀ c ∈ cs, Sizes (fun n e => 0 < n → 0 < e) c) (o : ℕ) :
    (impl w).Agrees ((impl w).runAll (start w) cs o) (runAll (fun _ => Abs.fresh) cs o) :=
  agrees hw (rel_all hw cs hl hsz o)

theorem card_filter_succ (S : Finset ℕ) (m : ℕ) :
    (S.filter (· < m + 1)).card = (S.filter (· < m)).card + if m ∈ S then 1 else 0 := by
  have : S.filter (· < m + 1) = S.filter (· < m) ∪ (if m ∈ S then {m} else ∅) := by
    ext y
    by_cases hm : m ∈ S
    · simp only [hm, if_true, Finset.mem_union, Finset.mem_filter, Finset.mem_singleton]
      constructor
      · rintro ⟨h1, h2⟩
        rcases Nat.lt_succ_iff_lt_or_eq.mp h2 with h3 | h3
        · exact Or.inl ⟨h1, h3⟩
        · exact Or.inr h3
      · rintro (⟨h1, h2⟩ | rfl)
        · exact ⟨h1, by omega⟩
        · exact ⟨hm, by omega⟩
    · simp only [hm, if_false, Finset.union_empty, Finset.mem_filter]
      constructor
      · rintro ⟨h1, h2⟩
        refine ⟨h1, ?_⟩
        rcases Nat.lt_succ_iff_lt_or_eq.mp h2 with h3 | h3
        · exact h3
        · subst h3; exact absurd h1 hm
      · rintro ⟨h1, h2⟩; exact ⟨h1, by omega⟩
  rw [this, Finset.card_union_of_disjoint]
  · split <;> simp
  · rw [Finset.disjoint_left]
    intro y hy
    split
    · simp only [Finset.mem_singleton]; rintro rfl; simp at hy
    · simp

theorem number_ok (hw : 0 < w) {s : Pack w} {a : Abs} (h : Rel s a) (hle : a.last ≤ w)
    {i : ℕ} (hi : i < a.nSet) (hp : a.posts i = ∅) : s.number i = (a.sets i).card := by
  have hpos := h.pos (by omega)
  have hnp : s.nPack = 1 := by
    rw [h.nPack (by omega), Nat.div_eq_of_lt (by omega)]
  have hbel := h.below' hi
  have hb : ∀ x < w, ((s.data i).getLsbD x = true ↔ x ∈ a.sets i) := by
    intro x hx
    have := h.mem' hi hp (x := x) (by rw [hnp]; omega)
    rwa [hnp, Nat.div_eq_of_lt hx, Nat.mod_eq_of_lt hx, Nat.mul_one, Nat.add_zero] at this
  unfold number
  by_cases he : s.last = 1
  · rw [if_pos he]
    have hl1 : a.last = 1 := h.last ▸ he
    by_cases h0 : 0 ∈ a.sets i
    · have hS : a.sets i = {0} := by
        ext y; constructor
        · intro hy; have := hbel y hy; simp; omega
        · intro hy; simp at hy; subst hy; exact h0
      have : s.data i = 1#w := by
        apply BitVec.eq_of_getLsbD_eq
        intro k hk
        have hm := getLsbD_mask hw k
        rw [BitVec.shiftLeft_zero] at hm
        rw [hm, Bool.eq_iff_iff, hb k hk, hS]
        simp [eq_comm]
      rw [this, hS]
      simp [Nat.mod_eq_of_lt (Nat.one_lt_two_pow hw.ne')]
    · have hS : a.sets i = ∅ := by
        ext y; constructor
        · intro hy
          have := hbel y hy
          have : y = 0 := by omega
          subst this; exact absurd hy h0
        · intro hy; simp at hy
      have : s.data i = 0#w := by
        apply BitVec.eq_of_getLsbD_eq
        intro k hk
        rw [BitVec.getLsbD_zero, Bool.eq_iff_iff, hb k hk, hS]; simp
      rw [this, hS]; simp
  · rw [if_neg he]
    dsimp only
    rw [if_pos hnp]
    have hnl : (s.last - 1) % w + 1 = a.last := by
      rw [h.last, Nat.mod_eq_of_lt (by omega)]; omega
    have hix : (i + 1) * s.nPack - 1 = i := by rw [hnp]; omega
    rw [hnl, hix]
    have key := forRange_ind (lo := 0) (hi := a.last) (Nat.zero_le _) (s := ((0 : ℕ), 1#w))
      (f := fun _ cm =>
        (if cm.2 &&& s.data i != 0#w then cm.1 + 1 else cm.1, cm.2 <<< 1))
      (fun m cm => cm.1 = ((a.sets i).filter (· < m)).card ∧ cm.2 = 1#w <<< m)
      (by simp)
      (by
        rintro m ⟨c, mk⟩ _ hm ⟨h1, h2⟩
        simp only at h1 h2 ⊢
        refine ⟨?_, by rw [h2, BitVec.shiftLeft_add]⟩
        rw [BitVec.and_comm, h2, mask_test _ (by omega), card_filter_succ, h1]
        by_cases hm' : m ∈ a.sets i
        · rw [if_pos hm', if_pos ((hb m (by omega)).mpr hm')]
        · rw [if_neg hm', if_neg (fun hh => hm' ((hb m (by omega)).mp hh))]
          rfl)
    rw [key.1]
    congr 1
    ext y
    simp only [Finset.mem_filter, and_iff_left_iff_imp]
    exact hbel y

/-- `number_elements` is correct after every legal history for objects whose
end value is at most the number of bits in a word.  What is missing is the
case of more than one word per set; it is false, see
`pack_setvec_number_wrong`. -/
theorem pack_setvec_number_partial (hw : 0 < w) (cs : List Cmd)
    (hl : Legal (fun _ => Abs.fresh) cs)
    (hsz : ∀ c ∈ cs, Sizes (fun n e => 0 < n → 0 < e) c) (o : ℕ)
    (hle : (runAll (fun _ => Abs.fresh) cs o).last ≤ w) :
    (impl w).NumberAgrees ((impl w).runAll (start w) cs o) (runAll (fun _ => Abs.fresh) cs o) :=
  fun _ hi hp => number_ok hw (rel_all hw cs hl hsz o) hle hi hp

/-- **`number_elements` is wrong for sets of more than one word** (a defect of
pack_setvec.hpp:417-429): after `resize(1, w + 1)` and `add_element(0, 0)`
the set has one element and `number_elements(0)` returns zero. -/
theorem pack_setvec_number_wrong (hw : 0 < w) :
    let cs := [Cmd.resize 0 1 (w + 1), Cmd.add 0 0 0]
    Legal (fun _ => Abs.fresh) cs ∧
    ((runAll (fun _ => Abs.fresh) cs 0).sets 0).card = 1 ∧
    (impl w).number ((impl w).runAll (start w) cs 0) 0 = 0 := by
  refine ⟨?_, ?_, ?_⟩
  · simp [Legal, Cmd.Pre, Cmd.run]
  · simp [runAll, Cmd.run]
  · have hd : w / w = 1 := Nat.div_self hw
    have hne : w + 1 ≠ 1 := by omega
    set s : Pack w := (fresh : Pack w).resize 1 (w + 1) with hs
    have hr := rel_resize hw (fresh : Pack w) (n := 1) (e := w + 1) (by simp) (by simp)
    have hnp : s.nPack = 2 := by rw [hr.nPack (by simp)]; simp [hd]
    have hla : s.last = w + 1 := hr.last
    have hd1 : (s.add 0 0).data 1 = 0#w := by
      unfold add
      rw [hla, if_neg hne]
      simp only [Nat.zero_div, Nat.zero_mul, Nat.add_zero, Nat.sub_self]
      rw [Function.update_of_ne (by omega), hs]
      unfold resize
      simp only [Nat.add_sub_cancel, hd]
      exact zero_loop _ _ 1 (by norm_num)
    obtain ⟨_, f2, f3⟩ := add_fields s 0 0
    show (s.add 0 0).number 0 = 0
    unfold number
    rw [f2, f3, hla, hnp, if_neg hne]
    simp only [Nat.add_sub_cancel, Nat.mod_self, Nat.zero_add, Nat.one_mul]
    rw [if_neg (by norm_num), hd1]
    have step1 : forRange 0 1 ((0 : ℕ), 1#w) (fun _ cm =>
        (if cm.2 &&& 0#w != 0#w then cm.1 + 1 else cm.1, cm.2 <<< 1)) = (0, 1#w <<< 1) := by
      simp [forRange]
    rw [step1]
    refine forRange_inv (P := fun cm : ℕ × BitVec w => cm.1 = 0) rfl ?_
    intro k cm _ _ hcm
    simp [forRange, hcm, hd1]

/-- Non-vacuity: a legal history with aliased operands, two objects, a set of
several words (`w = 4`, `end = 10`), posts, and a copy; the final set is not
empty. -/
example :
    let cs := [Cmd.resize 0 3 10, Cmd.resize 1 2 10, Cmd.add 0 0 9, Cmd.post 0 0 2,
      Cmd.process 0 0, Cmd.add 1 1 5, Cmd.union 0 1 0 1 1, Cmd.inter 0 0 0 1 0,
      Cmd.assignment 0 2 0 0, Cmd.copy 2 0, Cmd.clear 0 1]
    Legal (fun _ => Abs.fresh) cs ∧ (∀ c ∈ cs, Sizes (fun n e => 0 < n → 0 < e) c) ∧
    9 ∈ (runAll (fun _ => Abs.fresh) cs 2).sets 2 ∧
    (impl 4).isElement ((impl 4).runAll (start 4) cs 2) 2 9 = true := by
  intro cs
  have h1 : Legal (fun _ => Abs.fresh) cs := by
    simp [cs, Legal, Cmd.Pre, Cmd.run, Abs.put]
  have h2 : ∀ c ∈ cs, Sizes (fun n e => 0 < n → 0 < e) c := by
    simp [cs, Sizes]
  have h3 : 9 ∈ (runAll (fun _ => Abs.fresh) cs 2).sets 2 := by
    simp [cs, runAll, Cmd.run, Abs.put]
  refine ⟨h1, h2, h3, ?_⟩
  have hA := pack_setvec_history (w := 4) (by norm_num) cs h1 h2 2
  refine (hA.isElement 2 ?_ ?_ 9 ?_).mpr h3
  · simp [cs, runAll, Cmd.run, Abs.put]
  · simp [cs, runAll, Cmd.run, Abs.put]
  · simp [cs, runAll, Cmd.run, Abs.put]

/-! ## sparsity_user2internal -/

theorem ofUser_aux (hw : 0 < w) {s : Pack w} {a : Abs} (h : Rel s a) (ps : ℕ → ℕ × ℕ) (N : ℕ)
    (f : ℕ → Bool) (hps : ∀ k < N, (ps k).1 < a.nSet ∧ (ps k).2 < a.last) :
    Rel (forRange 0 N s fun k s => if f k then s.add (ps k).1 (ps k).2 else s)
      { a with sets := fun i => a.sets i ∪
          ((Finset.range N).filter (fun k => f k ∧ (ps k).1 = i)).image (fun k => (ps k).2) } := by
  have : ∀ M ≤ N, Rel (forRange 0 M s fun k s => if f k then s.add (ps k).1 (ps k).2 else s)
      { a with sets := fun i => a.sets i ∪
          ((Finset.range M).filter (fun k => f k ∧ (ps k).1 = i)).image (fun k => (ps k).2) } := by
    intro M
    induction M with
    | zero => intro _; rw [forRange_of_le le_rfl]; simpa using h
    | succ M ih =>
      intro hM
      have ih := ih (by omega)
      rw [forRange_succ (Nat.zero_le M)]
      obtain ⟨p1, p2⟩ := hps M (by omega)
      cases hf : f M
      · simp only [Bool.false_eq_true, if_false]
        convert ih using 4
        rw [Finset.range_add_one, Finset.filter_insert]
        simp [hf]
      · simp only [if_true]
        convert rel_add hw ih (i := (ps M).1) (x := (ps M).2) p1 p2 using 2
        funext i
        by_cases hi : i = (ps M).1
        · subst hi
          rw [Function.update_self, Finset.range_add_one, Finset.filter_insert]
          simp [hf]
        · rw [Function.update_of_ne hi, Finset.range_add_one, Finset.filter_insert]
          have : ¬ (f M = true ∧ (ps M).1 = i) := fun h => hi h.2.symm
          rw [if_neg this]
  exact this N le_rfl

/-- two nested loops are one loop over pairs -/
theorem forRange_nested {σ : Type*} (n m : ℕ) (s : σ) (f : ℕ → ℕ → σ → σ) :
    forRange 0 n s (fun i s => forRange 0 m s (fun j s => f i j s))
      = forRange 0 (n * m) s (fun k s => f (k / m) (k % m) s) := by
  have inner : ∀ i (s : σ), forRange (i * m) (i * m + m) s (fun k s => f (k / m) (k % m) s)
      = forRange 0 m s (fun j s => f i j s) := by
    intro i s
    have : ∀ M ≤ m, forRange (i * m) (i * m + M) s (fun k s => f (k / m) (k % m) s)
      = forRange 0 M s (fun j s => f i j s) := by
      intro M
      induction M with
      | zero => intro _; rw [Nat.add_zero, forRange_of_le le_rfl, forRange_of_le le_rfl]
      | succ M ih =>
        intro hM
        rw [← Nat.add_assoc, forRange_succ (by omega), forRange_succ (Nat.zero_le _), ih (by omega)]
        have hm : 0 < m := by omega
        rw [Nat.mul_comm i m, Nat.mul_add_div hm, Nat.mul_add_mod, Nat.div_eq_of_lt (by omega),
          Nat.mod_eq_of_lt (by omega), Nat.add_zero]
    exact this m le_rfl
  have app : ∀ {a b c : ℕ} (_ : a ≤ b) (_ : b ≤ c) (s : σ) (g : ℕ → σ → σ),
      forRange a c s g = forRange b c (forRange a b s g) g := by
    intro a b c hab hbc s g
    induction c, hbc using Nat.le_induction with
    | base => rw [forRange_of_le (le_refl b)]
    | succ c hbc ih => rw [forRange_succ (by omega), forRange_succ hbc, ih]
  induction n with
  | zero => rw [forRange_of_le le_rfl, Nat.zero_mul, forRange_of_le le_rfl]
  | succ n ih =>
    rw [forRange_succ (Nat.zero_le n), ih, Nat.succ_mul,
      app (Nat.zero_le (n * m)) (Nat.le_add_right _ m), inner]

/-- **A boolean sparsity pattern given by the user becomes exactly that vector
of sets** (`sparsity_user2internal` for `pack_setvec`): for every pattern, shape and
word size, and whatever the object held before. -/
theorem pack_setvec_ofUser (hw : 0 < w) (s : Pack w) (user : ℕ → Bool) (nSet last : ℕ)
    (hn : nSet = 0 → last = 0) (he : 0 < nSet → 0 < last) (transpose : Bool) :
    (impl w).Agrees (s.ofUser user nSet last transpose)
      ⟨nSet, last, fun i => (Finset.range last).filter (fun j =>
        (if transpose then user (j * nSet + i) else user (i * last + j)) ∧ i < nSet),
        fun _ => ∅⟩ := by
  have h0 := rel_resize hw s hn he
  apply agrees hw
  cases transpose
  · simp only [ofUser, Bool.false_eq_true, if_false]
    rw [forRange_nested nSet last (s.resize nSet last)
      (fun i j s => if user (i * last + j) then s.add i j else s)]
    have := ofUser_aux hw h0 (fun k => (k / last, k % last)) (nSet * last)
      (fun k => user (k / last * last + k % last)) (by
        intro k hk
        rcases Nat.eq_zero_or_pos nSet with h | h
        · rw [h, Nat.zero_mul] at hk; omega
        · exact ⟨(Nat.div_lt_iff_lt_mul (he h)).mpr hk, Nat.mod_lt _ (he h)⟩)
    convert this using 3
    rename_i i
    ext j
    simp only [Finset.mem_filter, Finset.mem_range, Finset.empty_union, Finset.mem_image]
    constructor
    · rintro ⟨h1, h2, h3⟩
      have hl : 0 < last := by omega
      have e1 : (i * last + j) / last = i := by
        rw [Nat.mul_comm, Nat.mul_add_div hl, Nat.div_eq_of_lt h1]; rfl
      have e2 : (i * last + j) % last = j := by
        rw [Nat.mul_comm, Nat.mul_add_mod, Nat.mod_eq_of_lt h1]
      refine ⟨i * last + j, ⟨?_, ?_, e1⟩, e2⟩
      · calc i * last + j < i * last + last := by omega
          _ = (i + 1) * last := by ring
          _ ≤ nSet * last := Nat.mul_le_mul_right _ h3
      · rw [e1, e2]; exact h2
    · rintro ⟨k, ⟨h1, h2, h3⟩, h4⟩
      subst h3 h4
      have hl : 0 < last := Nat.pos_of_ne_zero (fun h => by
        subst h; rw [Nat.mul_zero] at h1; omega)
      exact ⟨Nat.mod_lt _ hl, h2, (Nat.div_lt_iff_lt_mul hl).mpr h1⟩
  · simp only [ofUser, if_true]
    rw [forRange_nested last nSet (s.resize nSet last)
      (fun j i s => if user (j * nSet + i) then s.add i j else s)]
    have := ofUser_aux hw h0 (fun k => (k % nSet, k / nSet)) (last * nSet)
      (fun k => user (k / nSet * nSet + k % nSet)) (by
        intro k hk
        rcases Nat.eq_zero_or_pos nSet with h | h
        · rw [h, Nat.mul_zero] at hk; omega
        · exact ⟨Nat.mod_lt _ h, (Nat.div_lt_iff_lt_mul h).mpr hk⟩)
    convert this using 3
    rename_i i
    ext j
    simp only [Finset.mem_filter, Finset.mem_range, Finset.empty_union, Finset.mem_image]
    constructor
    · rintro ⟨h1, h2, h3⟩
      have hl : 0 < nSet := by omega
      have e1 : (j * nSet + i) / nSet = j := by
        rw [Nat.mul_comm, Nat.mul_add_div hl, Nat.div_eq_of_lt h3]; rfl
      have e2 : (j * nSet + i) % nSet = i := by
        rw [Nat.mul_comm, Nat.mul_add_mod, Nat.mod_eq_of_lt h3]
      refine ⟨j * nSet + i, ⟨?_, ?_, e2⟩, e1⟩
      · calc j * nSet + i < j * nSet + nSet := by omega
          _ = (j + 1) * nSet := by ring
          _ ≤ last * nSet := Nat.mul_le_mul_right _ h1
      · rw [e1, e2]; exact h2
    · rintro ⟨k, ⟨h1, h2, h3⟩, h4⟩
      subst h3 h4
      have hl : 0 < nSet := Nat.pos_of_ne_zero (fun h => by
        subst h; rw [Nat.mul_zero] at h1; omega)
      exact ⟨(Nat.div_lt_iff_lt_mul hl).mpr h1, h2, Nat.mod_lt _ hl⟩

end CppAD.SetVec.Pack
