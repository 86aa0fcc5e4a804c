import Verif.SetVec.Pack
import Verif.SetVec.SortLemmas

/-! # `pack_setvec` refines the vector of sets -/

namespace CppAD.SetVec.Pack
variable {w : ℕ}

theorem mask_test (v : BitVec w) {k : ℕ} (hk : k < w) :
    (v &&& (1#w <<< k) != 0#w) = v.getLsbD k := by
  have h1 : (1#w <<< k) = BitVec.twoPow w k := (BitVec.twoPow_eq w k).symm
  rw [h1, BitVec.and_twoPow]
  cases hv : v.getLsbD k
  · simp
  · have : BitVec.twoPow w k ≠ 0#w := by
      intro h
      have := congrArg (fun b => b.getLsbD k) h
      simp [BitVec.getLsbD_twoPow, hk] at this
    simpa using this

theorem getLsbD_mask {k : ℕ} (hk : k < w) (b : ℕ) :
    (1#w <<< k).getLsbD b = decide (k = b) := by
  rw [← BitVec.twoPow_eq, BitVec.getLsbD_twoPow]
  by_cases h : k = b <;> simp [h]
  omega

/-- the bit for element `x` of set `i` -/
def bit (s : Pack w) (i x : ℕ) : Bool := (s.data (i * s.nPack + x / w)).getLsbD (x % w)

/-- a loop that writes one row -/
theorem row_loop {n t : ℕ} (d0 : ℕ → BitVec w) (g : ℕ → (ℕ → BitVec w) → BitVec w)
    (hg : ∀ j < n, ∀ d d' : ℕ → BitVec w, (∀ i, d (i * n + j) = d' (i * n + j)) → g j d = g j d') :
    forRange 0 n d0 (fun j d => Function.update d (t * n + j) (g j d))
      = fun k => if t * n ≤ k ∧ k < t * n + n then g (k - t * n) d0 else d0 k := by
  have : ∀ m ≤ n, forRange 0 m d0 (fun j d => Function.update d (t * n + j) (g j d))
      = fun k => if t * n ≤ k ∧ k < t * n + m then g (k - t * n) d0 else d0 k := by
    intro m
    induction m with
    | zero => 
      intro _; rw [forRange_of_le le_rfl]; funext k
      rw [if_neg (by omega)]
    | succ m ih =>
      intro hm
      rw [forRange_succ (Nat.zero_le m), ih (by omega)]
      funext k
      rw [Function.update_apply]
      by_cases hk : k = t * n + m
      · subst hk
        rw [if_pos rfl, if_pos (by omega), Nat.add_sub_cancel_left]
        refine hg m (by omega) _ _ (fun i => ?_)
        rw [if_neg]
        rintro ⟨h1, h2⟩
        have hit : i = t := by
          have hn : 0 < n := by omega
          have e1 : (i * n + m) / n = i := by
            rw [Nat.mul_comm, Nat.mul_add_div hn, Nat.div_eq_of_lt (by omega)]; rfl
          have e2 : (i * n + m) / n = t := by
            obtain ⟨c, hc⟩ := Nat.exists_eq_add_of_le h1
            rw [hc, Nat.mul_comm, Nat.mul_add_div hn, Nat.div_eq_of_lt (by omega)]; rfl
          omega
        subst hit; omega
      · rw [if_neg hk]
        by_cases h2 : t * n ≤ k ∧ k < t * n + m
        · rw [if_pos h2, if_pos (by omega)]
        · rw [if_neg h2, if_neg (by omega)]
  exact this n le_rfl

theorem row_val {n t i j : ℕ} (hj : j < n) (d0 : ℕ → BitVec w) (g : ℕ → BitVec w) :
    (fun k => if t * n ≤ k ∧ k < t * n + n then g (k - t * n) else d0 k) (i * n + j)
      = if i = t then g j else d0 (i * n + j) := by
  by_cases hi : i = t
  · subst hi
    simp only [if_true]
    rw [if_pos (by omega), Nat.add_sub_cancel_left]
  · simp only [if_neg hi]
    rw [if_neg]
    rintro ⟨h1, h2⟩
    have hn : 0 < n := by omega
    have e1 : (i * n + j) / n = i := by
      rw [Nat.mul_comm, Nat.mul_add_div hn, Nat.div_eq_of_lt hj]; rfl
    have e2 : (i * n + j) / n = t := by
      obtain ⟨c, hc⟩ := Nat.exists_eq_add_of_le h1
      rw [hc, Nat.mul_comm, Nat.mul_add_div hn, Nat.div_eq_of_lt (by omega)]; rfl
    omega

theorem zero_loop (N : ℕ) (d : ℕ → BitVec w) :
    ∀ k < N, forDown0 N d (fun i d => Function.update d i 0#w) k = 0#w := by
  have := forDown0_ind (n := N) (s := d) (f := fun i d => Function.update d i 0#w)
    (fun m d => ∀ k, m ≤ k → k < N → d k = 0#w) (fun k h1 h2 => by omega)
    (fun j d hj ih k h1 h2 => by
      by_cases hk : k = j
      · subst hk; simp
      · rw [Function.update_of_ne hk]; exact ih k (by omega) h2)
  exact fun k hk => this k (Nat.zero_le k) hk

/-- the relation between a `pack_setvec` and a vector of sets -/
structure Rel (s : Pack w) (a : Abs) : Prop where
  nSet : s.nSet = a.nSet
  last : s.last = a.last
  pos : 0 < a.nSet → 0 < a.last
  nPack : 0 < a.nSet → s.nPack = 1 + (a.last - 1) / w
  below : ∀ i < a.nSet, ∀ x ∈ a.sets i ∪ a.posts i, x < a.last
  mem : ∀ i < a.nSet, ∀ x < s.nPack * w, (s.bit i x = true ↔ x ∈ a.sets i ∪ a.posts i)

theorem lt_npack {e : ℕ} (hw : 0 < w) {x : ℕ} (hx : x < e) : x / w < 1 + (e - 1) / w := by
  have := Nat.div_le_div_right (c := w) (show x ≤ e - 1 by omega)
  omega

theorem lt_cap {e : ℕ} (hw : 0 < w) {x : ℕ} (hx : x < e) : x < (1 + (e - 1) / w) * w := by
  have := lt_npack hw hx
  exact (Nat.div_lt_iff_lt_mul hw).mp this

theorem div_lt_of_cap (hw : 0 < w) {n x : ℕ} (hx : x < n * w) : x / w < n :=
  (Nat.div_lt_iff_lt_mul hw).mpr hx

theorem rel_fresh : Rel (fresh : Pack w) Abs.fresh where
  nSet := rfl
  last := rfl
  pos := fun h => absurd h (by simp [Abs.fresh])
  nPack := fun h => absurd h (by simp [Abs.fresh])
  below := fun i h => absurd h (by simp [Abs.fresh])
  mem := fun i h => absurd h (by simp [Abs.fresh])

theorem rel_resize (hw : 0 < w) (s : Pack w) {n e : ℕ} (h0 : n = 0 → e = 0) (h1 : 0 < n → 0 < e) :
    Rel (s.resize n e) ⟨n, e, fun _ => ∅, fun _ => ∅⟩ := by
  by_cases hn : n = 0
  · subst hn
    unfold resize
    exact ⟨rfl, rfl, h1, fun h => absurd h (by simp), fun i h => absurd h (by simp),
      fun i h => absurd h (by simp)⟩
  · unfold resize
    rw [if_neg hn]
    refine ⟨rfl, rfl, h1, fun _ => rfl, fun i _ x hx => by simp at hx, fun i hi x hx => ?_⟩
    have hx' := div_lt_of_cap hw hx
    simp only [bit] at hx' ⊢
    rw [zero_loop]
    · simp
    · have hi' : i < n := hi
      calc i * (1 + (e - 1) / w) + x / w < i * (1 + (e - 1) / w) + (1 + (e - 1) / w) := by
            omega
        _ = (i + 1) * (1 + (e - 1) / w) := by ring
        _ ≤ n * (1 + (e - 1) / w) := Nat.mul_le_mul_right _ hi'

/-- effect of `add_element` on the bits -/
theorem bit_add (hw : 0 < w) {s : Pack w} {a : Abs} (h : Rel s a) {i x : ℕ} (hi : i < a.nSet)
    (hx : x < a.last) {i' x' : ℕ} (hi' : i' < a.nSet) (hx' : x' < s.nPack * w) :
    (s.add i x).bit i' x' = (s.bit i' x' || decide (i' = i ∧ x' = x)) := by
  have hpos := h.pos (by omega)
  have hnp := h.nPack (by omega)
  have hlt' := div_lt_of_cap hw hx'
  by_cases he : s.last = 1
  · have hl1 : a.last = 1 := h.last ▸ he
    have hx0 : x = 0 := by omega
    subst hx0
    have hn1 : s.nPack = 1 := by rw [hnp, hl1]; simp
    have hxw : x' < w := by rw [hn1] at hx'; omega
    have hb : x' / w = 0 := Nat.div_eq_of_lt hxw
    simp only [bit, add, he, if_true, hn1, hb, Nat.mul_one, Nat.add_zero, Function.update_apply,
      Nat.mod_eq_of_lt hxw]
    by_cases hii : i' = i
    · subst hii
      have : (1#w).getLsbD x' = decide (0 = x') := by
        have := getLsbD_mask hw x'
        simpa using this
      simp only [if_true, BitVec.getLsbD_or, this, true_and]
      congr 1
      simp [eq_comm]
    · simp [hii]
  · have hk : x - x / w * w = x % w := by
      have := Nat.div_add_mod x w
      rw [Nat.mul_comm] at this; omega
    simp only [bit, add, he, if_false, Function.update_apply, hk]
    by_cases hc : i' * s.nPack + x' / w = i * s.nPack + x / w
    · have hxl : x / w < s.nPack := hnp ▸ lt_npack hw hx
      have hn : 0 < s.nPack := Nat.pos_of_ne_zero (fun h0 => by rw [h0] at hxl; exact absurd hxl (Nat.not_lt_zero _))
      have hii : i' = i := by
        have e1 : (i' * s.nPack + x' / w) / s.nPack = i' := by
          rw [Nat.mul_comm, Nat.mul_add_div hn, Nat.div_eq_of_lt hlt']; rfl
        have e2 : (i * s.nPack + x / w) / s.nPack = i := by
          rw [Nat.mul_comm, Nat.mul_add_div hn, Nat.div_eq_of_lt hxl]; rfl
        rw [hc, e2] at e1; exact e1.symm
      subst hii
      have hdiv : x' / w = x / w := by omega
      rw [if_pos hc, BitVec.getLsbD_or, getLsbD_mask (Nat.mod_lt _ hw), hdiv]
      congr 1
      simp only [true_and]
      congr 1
      apply propext
      constructor
      · intro hm
        rw [← Nat.div_add_mod x' w, ← Nat.div_add_mod x w, hdiv, hm]
      · intro hm; rw [hm]
    · rw [if_neg hc]
      have : ¬ (i' = i ∧ x' = x) := by rintro ⟨rfl, rfl⟩; exact hc rfl
      simp [this]

theorem add_fields (s : Pack w) (i x : ℕ) :
    (s.add i x).nSet = s.nSet ∧ (s.add i x).last = s.last ∧ (s.add i x).nPack = s.nPack := by
  unfold add; split <;> simp

theorem rel_add (hw : 0 < w) {s : Pack w} {a : Abs} (h : Rel s a) {i x : ℕ} (hi : i < a.nSet)
    (hx : x < a.last) :
    Rel (s.add i x) { a with sets := Function.update a.sets i (insert x (a.sets i)) } := by
  obtain ⟨f1, f2, f3⟩ := add_fields s i x
  refine ⟨f1.trans h.nSet, f2.trans h.last, h.pos, fun hn => f3.trans (h.nPack hn), ?_, ?_⟩
  · intro j hj y hy
    by_cases hji : j = i
    · subst hji
      simp only [Function.update_self, Finset.insert_union, Finset.mem_insert] at hy
      rcases hy with rfl | hy
      · exact hx
      · exact h.below j hj y hy
    · simp only [Function.update_of_ne hji] at hy
      exact h.below j hj y hy
  · intro j hj y hy
    rw [f3] at hy
    rw [bit_add hw h hi hx hj hy, Bool.or_eq_true, h.mem j hj y hy, decide_eq_true_iff]
    by_cases hji : j = i
    · subst hji; simp; tauto
    · simp [Function.update_of_ne hji, hji]

theorem rel_post (hw : 0 < w) {s : Pack w} {a : Abs} (h : Rel s a) {i x : ℕ} (hi : i < a.nSet)
    (hx : x < a.last) :
    Rel (s.post i x) { a with posts := Function.update a.posts i (insert x (a.posts i)) } := by
  have := rel_add hw h hi hx
  refine ⟨this.nSet, this.last, this.pos, this.nPack, ?_, ?_⟩
  · intro j hj y hy
    refine this.below j hj y ?_
    by_cases hji : j = i
    · subst hji; simpa using hy
    · simpa [Function.update_of_ne hji] using hy
  · intro j hj y hy
    have h2 := this.mem j hj y hy
    refine h2.trans ?_
    by_cases hji : j = i
    · subst hji; simp
    · simp [Function.update_of_ne hji]

theorem rel_process {s : Pack w} {a : Abs} (h : Rel s a) (i : ℕ) :
    Rel (s.process i) (a.put i (a.sets i ∪ a.posts i)) := by
  refine ⟨h.nSet, h.last, h.pos, h.nPack, ?_, ?_⟩
  · intro j hj y hy
    refine h.below j hj y ?_
    by_cases hji : j = i
    · subst hji; simpa [Abs.put] using hy
    · simpa [Abs.put, Function.update_of_ne hji] using hy
  · intro j hj y hy
    refine (h.mem j hj y hy).trans ?_
    by_cases hji : j = i
    · subst hji; simp [Abs.put]
    · simp [Abs.put, Function.update_of_ne hji]

/-- replacing a row by bits computed from other rows -/
theorem rel_row (hw : 0 < w) {s : Pack w} {a : Abs} (h : Rel s a) {t : ℕ} {S : Finset ℕ}
    (g : ℕ → (ℕ → BitVec w) → BitVec w)
    (hg : ∀ j < s.nPack, ∀ d d' : ℕ → BitVec w,
      (∀ i, d (i * s.nPack + j) = d' (i * s.nPack + j)) → g j d = g j d')
    (hS : t < a.nSet → ∀ x ∈ S, x < a.last)
    (hb : t < a.nSet → ∀ x < s.nPack * w, ((g (x / w) s.data).getLsbD (x % w) = true ↔ x ∈ S)) :
    Rel { s with data := forRange 0 s.nPack s.data fun j d =>
      Function.update d (t * s.nPack + j) (g j d) } (a.put t S) := by
  refine ⟨h.nSet, h.last, h.pos, h.nPack, ?_, ?_⟩
  · intro j hj y hy
    by_cases hji : j = t
    · subst hji; exact hS hj y (by simpa [Abs.put] using hy)
    · exact h.below j hj y (by simpa [Abs.put, Function.update_of_ne hji] using hy)
  · intro j hj y hy
    have hy' := div_lt_of_cap hw hy
    rw [row_loop s.data g hg]
    simp only [bit] at hy' ⊢
    have hrv := row_val (t := t) (i := j) hy' s.data (fun j => g j s.data)
    beta_reduce at hrv
    rw [hrv]
    by_cases hji : j = t
    · subst hji
      rw [if_pos rfl, hb hj y hy]
      simp [Abs.put]
    · rw [if_neg hji]
      have := h.mem j hj y hy
      simp only [bit] at this
      rw [this]
      simp [Abs.put, Function.update_of_ne hji]

theorem rel_clear (hw : 0 < w) {s : Pack w} {a : Abs} (h : Rel s a) (t : ℕ) :
    Rel (s.clear t) (a.put t ∅) :=
  rel_row hw h (fun _ _ => 0#w) (fun _ _ _ _ _ => rfl) (fun _ x hx => by simp at hx)
    (fun _ x _ => by simp)

/-- the bits of a set without pending posts -/
theorem Rel.mem' {s : Pack w} {a : Abs} (h : Rel s a) {i : ℕ} (hi : i < a.nSet)
    (hp : a.posts i = ∅) {x : ℕ} (hx : x < s.nPack * w) :
    (s.data (i * s.nPack + x / w)).getLsbD (x % w) = true ↔ x ∈ a.sets i := by
  have := h.mem i hi x hx
  simpa [bit, hp] using this

theorem Rel.below' {s : Pack w} {a : Abs} (h : Rel s a) {i : ℕ} (hi : i < a.nSet) :
    ∀ x ∈ a.sets i, x < a.last :=
  fun x hx => h.below i hi x (Finset.mem_union_left _ hx)

theorem nPack_eq {s s' : Pack w} {a a' : Abs} (h : Rel s a) (h' : Rel s' a') (hn : 0 < a.nSet)
    (hn' : 0 < a'.nSet) (hl : a.last = a'.last) : s'.nPack = s.nPack := by
  rw [h.nPack hn, h'.nPack hn', hl]

theorem refines (hw : 0 < w) : (impl w).Refines Rel (fun n e => 0 < n → 0 < e) where
  resize n e s a hP h0 _ := rel_resize hw s h0 hP
  add i x s a hi hx h := rel_add hw h hi hx
  post i x s a hi hx h := rel_post hw h hi hx
  process i s a _ h := rel_process h i
  clear i s a _ h := rel_clear hw h i
  assign t v s a ht hv hp h :=
    rel_row hw h (fun j d => d (v * s.nPack + j)) (fun j _ d d' hd => hd v)
      (fun _ => h.below' hv) (fun _ x hx => h.mem' hv hp hx)
  assign' t v s a s' a' ht hv hl hp h h' := by
    have hn := nPack_eq h h' (by omega) (by omega) hl
    refine rel_row hw h (fun j d => s'.data (v * s.nPack + j)) (fun j _ d d' hd => rfl)
      (fun _ => hl ▸ h'.below' hv) (fun _ x hx => ?_)
    have := h'.mem' hv hp (hn ▸ hx)
    rwa [hn] at this
  union t l r s a ht hl hr hpl hpr h := by
    refine rel_row hw h (fun j d => d (l * s.nPack + j) ||| d (r * s.nPack + j))
      (fun j _ d d' hd => by rw [hd l, hd r]) (fun _ x hx => ?_) (fun _ x hx => ?_)
    · rcases Finset.mem_union.mp hx with h1 | h1
      · exact h.below' hl x h1
      · exact h.below' hr x h1
    · rw [BitVec.getLsbD_or, Bool.or_eq_true, h.mem' hl hpl hx, h.mem' hr hpr hx, Finset.mem_union]
  union' t l r s a s' a' ht hl hr he hpl hpr h h' := by
    have hn := nPack_eq h h' (by omega) (by omega) he
    refine rel_row hw h (fun j d => d (l * s.nPack + j) ||| s'.data (r * s.nPack + j))
      (fun j _ d d' hd => by rw [hd l]) (fun _ x hx => ?_) (fun _ x hx => ?_)
    · rcases Finset.mem_union.mp hx with h1 | h1
      · exact h.below' hl x h1
      · exact he ▸ h'.below' hr x h1
    · have := h'.mem' hr hpr (hn ▸ hx)
      rw [hn] at this
      rw [BitVec.getLsbD_or, Bool.or_eq_true, h.mem' hl hpl hx, this, Finset.mem_union]
  inter t l r s a ht hl hr hpl hpr h := by
    refine rel_row hw h (fun j d => d (l * s.nPack + j) &&& d (r * s.nPack + j))
      (fun j _ d d' hd => by rw [hd l, hd r]) (fun _ x hx => ?_) (fun _ x hx => ?_)
    · exact h.below' hl x (Finset.mem_inter.mp hx).1
    · rw [BitVec.getLsbD_and, Bool.and_eq_true, h.mem' hl hpl hx, h.mem' hr hpr hx,
        Finset.mem_inter]
  inter' t l r s a s' a' ht hl hr he hpl hpr h h' := by
    have hn := nPack_eq h h' (by omega) (by omega) he
    refine rel_row hw h (fun j d => d (l * s.nPack + j) &&& s'.data (r * s.nPack + j))
      (fun j _ d d' hd => by rw [hd l]) (fun _ x hx => ?_) (fun _ x hx => ?_)
    · exact h.below' hl x (Finset.mem_inter.mp hx).1
    · have := h'.mem' hr hpr (hn ▸ hx)
      rw [hn] at this
      rw [BitVec.getLsbD_and, Bool.and_eq_true, h.mem' hl hpl hx, this, Finset.mem_inter]

/-! ## queries -/

theorem isElement_ok (hw : 0 < w) {s : Pack w} {a : Abs} (h : Rel s a) {i x : ℕ} (hi : i < a.nSet)
    (hp : a.posts i = ∅) (hx : x < a.last) : s.isElement i x = true ↔ x ∈ a.sets i := by
  have hnp := h.nPack (by omega)
  have hcap : x < s.nPack * w := hnp ▸ lt_cap hw hx
  rw [← h.mem' hi hp hcap]
  by_cases he : s.last = 1
  · have hl1 : a.last = 1 := h.last ▸ he
    have hx0 : x = 0 := by omega
    subst hx0
    have hn1 : s.nPack = 1 := by rw [hnp, hl1]; simp
    simp only [isElement, he, if_true, hn1, Nat.mul_one, Nat.zero_div, Nat.add_zero, Nat.zero_mod]
    constructor
    · intro hne
      by_contra hb
      apply (bne_iff_ne.mp hne)
      apply BitVec.eq_of_getLsbD_eq
      intro k hk
      rw [BitVec.getLsbD_zero]
      by_cases hk0 : k = 0
      · subst hk0; simpa using hb
      · by_contra hc
        have hc' : (s.data i).getLsbD k = true := by simpa using hc
        have := (h.mem' (x := k) hi hp (by rw [hn1]; omega)).mp (by
          rw [hn1, Nat.div_eq_of_lt hk, Nat.mod_eq_of_lt hk]; simpa using hc')
        have := h.below' hi k this
        omega
    · intro hb
      rw [bne_iff_ne]
      intro h0; rw [h0] at hb; simp at hb
  · have hk : x - x / w * w = x % w := by
      have := Nat.div_add_mod x w
      rw [Nat.mul_comm] at this; omega
    simp only [isElement, he, if_false, hk]
    rw [mask_test _ (Nat.mod_lt _ hw)]

/-- the iterator is at element `n` of set `i` -/
def At (s : Pack w) (i n : ℕ) (t : It) : Prop :=
  t.nextElement = n ∧ (n < s.last → t.dataIndex = i * s.nPack + n / w)

theorem succ_div (hw : 0 < w) (n : ℕ) :
    (n + 1) / w = if (n + 1) % w = 0 then n / w + 1 else n / w := by
  rw [Nat.succ_div]
  by_cases h : w ∣ n + 1
  · rw [if_pos h, if_pos (Nat.mod_eq_zero_of_dvd h)]
  · rw [if_neg h, if_neg (fun h' => h (Nat.dvd_of_mod_eq_zero h'))]; rfl

theorem next_ok (hw : 0 < w) {s : Pack w} {a : Abs} (h : Rel s a) {i : ℕ} (hi : i < a.nSet)
    (hp : a.posts i = ∅) {n : ℕ} {t : It} (ht : At s i n t) (hn : n < a.last) :
    ∃ m, At s i m (s.next t) ∧ LeastFrom (a.sets i) a.last (n + 1) m := by
  have hl := h.last
  have hnp := h.nPack (by omega)
  have hb : ∀ x < a.last, ((s.data (i * s.nPack + x / w)).getLsbD (x % w) = true ↔ x ∈ a.sets i) :=
    fun x hx => h.mem' hi hp (hnp ▸ lt_cap hw hx)
  have hbel := h.below' hi
  obtain ⟨t1, t2⟩ := ht
  unfold next
  rw [if_neg (by omega)]
  dsimp only
  by_cases hend : t.nextElement + 1 = s.last
  · rw [if_pos hend]
    refine ⟨a.last, ⟨by simp; omega, fun hlt => by omega⟩, Or.inl rfl, fun hlt => by omega,
      fun y hy hny => ?_⟩
    have := hbel y hy; omega
  · rw [if_neg hend]
    have key := whileLoop_rule (σ := It × ℕ × BitVec w)
        (c := fun q => decide (q.1.nextElement < s.last) && !(s.data q.1.dataIndex &&& q.2.2 != 0#w))
        (b := fun q =>
          if q.2.1 + 1 = w then
            ({ dataIndex := q.1.dataIndex + 1, nextElement := q.1.nextElement + 1 }, 0, 1#w)
          else ({ dataIndex := q.1.dataIndex, nextElement := q.1.nextElement + 1 },
            q.2.1 + 1, q.2.2 <<< 1))
        (I := fun q => q.1.dataIndex = i * s.nPack + q.1.nextElement / w ∧
          q.2.1 = q.1.nextElement % w ∧ q.2.2 = 1#w <<< (q.1.nextElement % w) ∧
          n + 1 ≤ q.1.nextElement ∧ q.1.nextElement ≤ s.last ∧
          ∀ y ∈ a.sets i, n + 1 ≤ y → q.1.nextElement ≤ y)
        (μ := fun q => s.last - q.1.nextElement)
        (by
          rintro ⟨u, b, m⟩ ⟨i1, i2, i3, i4, i5, i6⟩ hc
          simp only at i1 i2 i3 i4 i5 i6
          simp only [Bool.and_eq_true, decide_eq_true_eq, Bool.not_eq_true'] at hc
          obtain ⟨hc1, hc2⟩ := hc
          rw [i3, mask_test _ (Nat.mod_lt _ hw), i1] at hc2
          have hnot : u.nextElement ∉ a.sets i := by
            rw [← hb _ (by omega)]; simp [hc2]
          have hmin : ∀ y ∈ a.sets i, n + 1 ≤ y → u.nextElement + 1 ≤ y := by
            intro y hy hny
            rcases Nat.lt_or_ge u.nextElement y with h1 | h1
            · exact h1
            · have : u.nextElement = y := le_antisymm (i6 y hy hny) h1
              subst this; exact absurd hy hnot
          have hd := succ_div hw u.nextElement
          have hmod : (u.nextElement + 1) % w = if u.nextElement % w + 1 = w then 0
              else u.nextElement % w + 1 := by
            have hlt := Nat.mod_lt u.nextElement hw
            split
            · next hh =>
              rw [← Nat.mod_add_mod, hh, Nat.mod_self]
            · next hh =>
              rw [← Nat.mod_add_mod, Nat.mod_eq_of_lt (by omega)]
          simp only [i2]
          by_cases hw1 : u.nextElement % w + 1 = w
          · rw [if_pos hw1] at hmod
            rw [hmod, if_pos rfl] at hd
            rw [if_pos hw1]
            refine ⟨⟨?_, ?_, ?_, ?_, ?_, hmin⟩, ?_⟩ <;> simp only
            · rw [hd, i1]; omega
            · exact hmod.symm
            · rw [hmod]; simp
            · omega
            · omega
            · omega
          · rw [if_neg hw1] at hmod
            rw [hmod, if_neg (by omega)] at hd
            rw [if_neg hw1]
            refine ⟨⟨?_, ?_, ?_, ?_, ?_, hmin⟩, ?_⟩ <;> simp only
            · rw [hd, i1]
            · exact hmod.symm
            · rw [hmod, i3, BitVec.shiftLeft_add]
            · omega
            · omega
            · omega)
        (s := (if (t.nextElement + 1) % w = 0 then
            { dataIndex := t.dataIndex + 1, nextElement := t.nextElement + 1 }
          else { dataIndex := t.dataIndex, nextElement := t.nextElement + 1 },
          (t.nextElement + 1) % w, 1#w <<< ((t.nextElement + 1) % w)))
        (by
          have hd := succ_div hw t.nextElement
          have h2 := t2 (by omega)
          have e : ∀ (c : Prop) [Decidable c], (if c then
            ({ dataIndex := t.dataIndex + 1, nextElement := t.nextElement + 1 } : It)
            else { dataIndex := t.dataIndex, nextElement := t.nextElement + 1 })
            = { dataIndex := if c then t.dataIndex + 1 else t.dataIndex,
                nextElement := t.nextElement + 1 } := by
              intro c _; split <;> rfl
          rw [e]
          refine ⟨?_, rfl, rfl, ?_, ?_, ?_⟩ <;> simp only
          · rw [hd, h2, t1]; split <;> omega
          · omega
          · omega
          · intro y _ hy; omega)
    obtain ⟨⟨k1, k2, k3, k4, k5, k6⟩, k7⟩ := key
    revert k1 k2 k3 k4 k5 k6 k7
    generalize whileLoop (σ := It × ℕ × BitVec w) _ _ _ = q
    intro k7 k1 k2 k3 k4 k5 k6
    refine ⟨q.1.nextElement, ⟨rfl, fun _ => k1⟩, ?_, fun _ => k4, k6⟩
    rcases Nat.lt_or_ge q.1.nextElement s.last with h1 | h1
    · right
      rw [Bool.and_eq_false_iff] at k7
      rcases k7 with k7 | k7
      · simp at k7; omega
      · have hm : (s.data q.1.dataIndex &&& q.2.2 != 0#w) = true := by simpa using k7
        rw [k3, mask_test _ (Nat.mod_lt _ hw), k1] at hm
        exact (hb _ (by omega)).mp hm
    · left; omega

theorem begin_ok (hw : 0 < w) {s : Pack w} {a : Abs} (h : Rel s a) {i : ℕ} (hi : i < a.nSet)
    (hp : a.posts i = ∅) :
    ∃ m, At s i m (s.begin i) ∧ LeastFrom (a.sets i) a.last 0 m := by
  have hpos := h.pos (by omega)
  have hnp := h.nPack (by omega)
  have hb := h.mem' hi hp (x := 0) (hnp ▸ lt_cap hw hpos)
  simp only [Nat.zero_div, Nat.add_zero, Nat.zero_mod] at hb
  have hmt := mask_test (s.data (i * s.nPack)) hw
  rw [BitVec.shiftLeft_zero] at hmt
  unfold begin
  dsimp only
  by_cases hc : (s.data (i * s.nPack) &&& 1#w != 0#w) = true
  · rw [if_pos hc]
    refine ⟨0, ⟨rfl, fun _ => by simp⟩, Or.inr ?_, fun _ => le_rfl, fun _ _ _ => Nat.zero_le _⟩
    rw [← hb, ← hmt]; exact hc
  · rw [if_neg hc]
    obtain ⟨m, h1, h2, h3, h4⟩ := next_ok hw h hi hp
      (n := 0) (t := ⟨i * s.nPack, 0⟩) ⟨rfl, fun _ => by simp⟩ hpos
    refine ⟨m, h1, h2, fun _ => Nat.zero_le _, fun y hy _ => h4 y hy ?_⟩
    rcases Nat.eq_zero_or_pos y with rfl | hy0
    · exfalso; apply hc; rw [hmt, hb]; exact hy
    · omega

theorem next_end {s : Pack w} {t : It} (h : t.nextElement = s.last) : s.next t = t := by
  unfold next; rw [if_pos h]

theorem item_ok (hw : 0 < w) {s : Pack w} {a : Abs} (h : Rel s a) {i : ℕ} (hi : i < a.nSet)
    (hp : a.posts i = ∅) (k : ℕ) :
    (impl w).item s i k = ((a.sets i).sort (· ≤ ·)).getD k a.last := by
  have hat : ∀ k, ∃ m ≤ a.last, At s i m ((s.next)^[k] (s.begin i)) := by
    intro k
    induction k with
    | zero =>
      obtain ⟨m, h1, h2, h3⟩ := begin_ok hw h hi hp
      refine ⟨m, ?_, h1⟩
      rcases h2 with rfl | h2
      · exact le_rfl
      · exact (h.below' hi m h2).le
    | succ k ih =>
      obtain ⟨m, hm, hA⟩ := ih
      rw [Function.iterate_succ_apply']
      rcases Nat.lt_or_ge m a.last with h1 | h1
      · obtain ⟨m', h1, h2, h3⟩ := next_ok hw h hi hp hA h1
        refine ⟨m', ?_, h1⟩
        rcases h2 with rfl | h2
        · exact le_rfl
        · exact (h.below' hi m' h2).le
      · refine ⟨m, hm, ?_⟩
        rw [next_end (by rw [hA.1, h.last]; omega)]; exact hA
  refine iterate_sort (f := fun k => (impl w).item s i k) (h.below' hi) ?_ ?_ ?_ k
  · obtain ⟨m, h1, h2⟩ := begin_ok hw h hi hp
    have : (impl w).item s i 0 = m := h1.1
    rw [this]; exact h2
  · intro k hk
    obtain ⟨m, hm, hA⟩ := hat k
    have e : (impl w).item s i k = m := hA.1
    rw [e] at hk ⊢
    obtain ⟨m', h1, h2⟩ := next_ok hw h hi hp hA hk
    have e' : (impl w).item s i (k + 1) = m' := by
      show (s.next^[k + 1] (s.begin i)).nextElement = m'
      rw [Function.iterate_succ_apply']; exact h1.1
    rw [e']; exact h2
  · intro k hk
    obtain ⟨m, hm, hA⟩ := hat k
    have e : (impl w).item s i k = m := hA.1
    rw [e] at hk
    show (s.next^[k + 1] (s.begin i)).nextElement = a.last
    rw [Function.iterate_succ_apply', next_end (by rw [hA.1, h.last]; omega), hA.1, hk]

theorem agrees (hw : 0 < w) {s : Pack w} {a : Abs} (h : Rel s a) : (impl w).Agrees s a where
  nSet := h.nSet
  last := h.last
  isElement _ hi hp _ hx := isElement_ok hw h hi hp hx
  item _ hi hp k := item_ok hw h hi hp k

end CppAD.SetVec.Pack
