import Verif.Util.VectorBool
import Verif.Util.VectorProof

/-! # Proofs for vectorBool (property C32) -/

namespace CppAD.Util.VectorBool

open Vector (copyLoop user_ne)

variable {w : ℕ}

/-- bit `k` of the array of `v` -/
def bit (s : Heap (BitVec w)) (v : Var) (k : ℕ) : Bool := (s.el v (k / w)).getLsbD (k % w)

theorem get_eq (hw : 0 < w) (s : Heap (BitVec w)) (v : Var) (i : ℕ) : get v i s = bit s v i := by
  unfold get bit
  have e : i - i / w * w = i % w := by have := Nat.div_add_mod i w; rw [Nat.mul_comm] at this; omega
  simp only [e]
  exact SetVec.Pack.mask_test _ (Nat.mod_lt _ hw)

theorem div_lt {k c : ℕ} (hw : 0 < w) (h : k < c * w) : k / w < c := (Nat.div_lt_iff_lt_mul hw).2 h

theorem unitMin_le (hw : 0 < w) (n c : ℕ) : unitMin w n ≤ c ↔ n ≤ c * w := by
  unfold unitMin
  split_ifs with h
  · subst h; simp
  · constructor
    · intro h1
      have : (n - 1) / w < c := h1
      rw [Nat.div_lt_iff_lt_mul hw] at this
      omega
    · intro h1
      have : (n - 1) / w < c := (Nat.div_lt_iff_lt_mul hw).2 (by omega)
      exact this

theorem lt_unitMin (hw : 0 < w) {k n : ℕ} (h : k < n) : k / w < unitMin w n := by
  by_contra hc
  have := (unitMin_le hw n (k / w)).1 (by omega)
  have h2 := Nat.div_mul_le_self k w
  omega

theorem set_spec (hw : 0 < w) {s : Heap (BitVec w)} (h : s.Inv) {v : Var} {i : ℕ} (hi : i < (s.var v).cap * w) (b : Bool) :
    (set v i b s).Inv ∧ (set v i b s).var = s.var ∧
      ∀ u k, k < (s.var u).cap * w → bit (set v i b s) u k = if u = v ∧ k = i then b else bit s u k := by
  have hd := div_lt hw hi
  have e : i - i / w * w = i % w := by have := Nat.div_add_mod i w; rw [Nat.mul_comm] at this; omega
  have key : ∃ x, set v i b s = s.wr v (i / w) x ∧ ∀ k, k < w → x.getLsbD k = if k = i % w then b else (s.el v (i / w)).getLsbD k := by
    unfold set
    simp only [e]
    cases b
    · refine ⟨s.el v (i / w) &&& ~~~ (1#w <<< (i % w)), by simp, fun k hk => ?_⟩
      rw [BitVec.getLsbD_and, BitVec.getLsbD_not, SetVec.Pack.getLsbD_mask (Nat.mod_lt _ hw)]
      by_cases q : k = i % w
      · rw [if_pos q]; simp [q]
      · rw [if_neg q]; simp [Ne.symm q, hk]
    · refine ⟨s.el v (i / w) ||| 1#w <<< (i % w), by simp, fun k hk => ?_⟩
      rw [BitVec.getLsbD_or, SetVec.Pack.getLsbD_mask (Nat.mod_lt _ hw)]
      by_cases q : k = i % w
      · rw [if_pos q]; simp [q]
      · rw [if_neg q]; simp [Ne.symm q]
  obtain ⟨x, hx, hb⟩ := key
  rw [hx]
  refine ⟨Heap.wr_inv h hd x, rfl, fun u k hk => ?_⟩
  unfold bit
  rw [Heap.wr_el h hd x (div_lt hw hk)]
  by_cases q1 : u = v
  · subst q1
    by_cases q2 : k / w = i / w
    · rw [if_pos ⟨rfl, q2⟩, hb _ (Nat.mod_lt _ hw), q2]
      by_cases q3 : k = i
      · rw [if_pos (by rw [q3]), if_pos ⟨rfl, q3⟩]
      · have : k % w ≠ i % w := by
          intro c
          apply q3
          rw [← Nat.div_add_mod k w, ← Nat.div_add_mod i w, q2, c]
        rw [if_neg this, if_neg (fun c => q3 c.2)]
    · rw [if_neg (fun c => q2 c.2), if_neg (fun c => q2 (by rw [c.2]))]
  · rw [if_neg (fun c => q1 c.1), if_neg (fun c => q1 c.1)]

/-- the state between operations -/
structure Good (s : Heap (BitVec w)) : Prop where
  inv : s.Inv
  len : ∀ v, (s.var v).len ≤ (s.var v).cap * w
  vec : (s.var .vec).cap = 0
  old : (s.var .old).cap = 0

theorem resize_spec (hw : 0 < w) {s : Heap (BitVec w)} (h : s.Inv) (hlen : ∀ v, (s.var v).len ≤ (s.var v).cap * w)
    {v : Var} {n : ℕ} {a : Alloc (BitVec w)} (ha : FreshBits (s.release v).mem n a) :
    (resize v n a s).Inv ∧ (∀ u, ((resize v n a s).var u).len ≤ ((resize v n a s).var u).cap * w) ∧
      ((resize v n a s).var v).len = n ∧ (∀ u, u ≠ v → (resize v n a s).var u = s.var u) ∧
      (∀ u i, u ≠ v → i < (s.var u).cap → (resize v n a s).el u i = s.el u i) ∧
      (n ≤ (s.var v).cap * w → ((resize v n a s).var v).cap = (s.var v).cap ∧ ∀ i, (resize v n a s).el v i = s.el v i) := by
  by_cases hc : n ≤ (s.var v).cap * w
  · have e : resize v n a s = s.setVar v { s.var v with len := n } := by
      unfold resize
      simp only []
      rw [if_pos]
      simp only [Heap.setVar, Function.update_self, ge_iff_le]
      exact (unitMin_le hw n _).2 hc
    rw [e]
    refine ⟨Heap.setLen_inv h v n, fun u => ?_, by simp [Heap.setVar], fun u hu => by simp [Heap.setVar, hu],
      fun u i hu _ => by simp [Heap.setVar, hu, Heap.el], fun _ => ⟨by simp [Heap.setVar], fun i => by simp [Heap.setVar, Heap.el]⟩⟩
    by_cases eu : u = v
    · subst eu; simp only [Heap.setVar, Function.update_self]; exact hc
    · simp only [Heap.setVar, Function.update_of_ne eu]; exact hlen u
  · have e : resize v n a s = ⟨(s.release v).mem.create a, Function.update (s.release v).var v ⟨a.cap, n, a.ptr⟩⟩ := by
      unfold resize
      simp only []
      rw [if_neg]
      · simp only [Heap.setVar, Function.update_self, Heap.release, Function.update_idem]
      · simp only [Heap.setVar, Function.update_self, ge_iff_le]
        rw [unitMin_le hw]; exact hc
    have hr := Heap.release_inv h v
    have hf : a.Fresh (s.release v).mem a.cap := ⟨ha.1, le_rfl⟩
    rw [e]
    refine ⟨Heap.create_inv hr (by rw [Heap.release_self]) hf n, fun u => ?_, by simp, fun u hu => ?_, fun u i hu hi => ?_,
      fun c => absurd c hc⟩
    · by_cases eu : u = v
      · subst eu; simpa using ha.2
      · simp only [Function.update_of_ne eu]; rw [Heap.release_var eu]; exact hlen u
    · simp only [Function.update_of_ne hu]; exact Heap.release_var hu
    · show ((s.release v).mem.create a).val (Function.update (s.release v).var v _ u).ptr i = _
      rw [Function.update_of_ne hu, Heap.create_val_ne hr hf (by rw [Heap.release_var hu]; omega)]
      exact Heap.release_el hu i

theorem seq_length (s : Heap (BitVec w)) (v : ℕ) : (seq s v).length = size s v := by simp [seq]

theorem seq_eq (hw : 0 < w) {s : Heap (BitVec w)} {v : ℕ} {l : List Bool} (h1 : size s v = l.length)
    (h2 : ∀ i (h : i < l.length), bit s (.user v) i = l[i]) : seq s v = l := by
  apply List.ext_getElem
  · rw [seq_length, h1]
  · intro i _ hi
    simp only [seq, List.getElem_map, List.getElem_range]
    rw [get_eq hw]
    exact h2 i hi

theorem seq_getElem (hw : 0 < w) (s : Heap (BitVec w)) (v i : ℕ) (h : i < (seq s v).length) : (seq s v)[i] = bit s (.user v) i := by
  rw [← get_eq hw]
  simp [seq]

theorem seq_update (hw : 0 < w) {s s' : Heap (BitVec w)} {v : ℕ} {l : List Bool} (h1 : ∀ u, u ≠ v → size s' u = size s u)
    (h2 : ∀ u i, u ≠ v → i < size s u → bit s' (.user u) i = bit s (.user u) i) (h3 : seq s' v = l) :
    seq s' = Function.update (seq s) v l := by
  funext u
  by_cases e : u = v
  · subst e; rw [h3]; simp
  · rw [Function.update_of_ne e]
    apply seq_eq hw
    · rw [seq_length]; exact h1 u e
    · intro i hi
      rw [seq_getElem hw]
      rw [seq_length] at hi
      exact h2 u i e hi

theorem Good.len_user {s : Heap (BitVec w)} (h : Good s) (v : ℕ) : size s v ≤ (s.var (.user v)).cap * w := h.len _

theorem resize_good (hw : 0 < w) {s : Heap (BitVec w)} (h : Good s) {v n : ℕ} {a : Alloc (BitVec w)}
    (ha : FreshBits (s.release (.user v)).mem n a) :
    Good (resize (.user v) n a s) ∧ ∃ l, l.length = n ∧
      (n ≤ capacity s v → ∀ i, i < n → i < (seq s v).length → l[i]? = (seq s v)[i]?) ∧
      seq (resize (.user v) n a s) = Function.update (seq s) v l := by
  obtain ⟨r1, r3, r4, r5, r6, r7⟩ := resize_spec hw h.inv h.len (v := .user v) ha
  refine ⟨⟨r1, r3, by rw [r5 _ (by simp)]; exact h.vec, by rw [r5 _ (by simp)]; exact h.old⟩, seq (resize (.user v) n a s) v, ?_, ?_, ?_⟩
  · rw [seq_length]; exact r4
  · intro hc i hi hi2
    rw [List.getElem?_eq_getElem (by rw [seq_length]; unfold size; omega), List.getElem?_eq_getElem hi2, seq_getElem hw, seq_getElem hw]
    unfold bit
    rw [(r7 hc).2]
  · refine seq_update hw (fun u hu => ?_) (fun u i hu hi => ?_) rfl
    · unfold size; rw [r5 _ (user_ne hu)]
    · have := h.len_user u
      unfold bit
      rw [r6 _ _ (user_ne hu) (div_lt hw (by omega))]

theorem release_good (hw : 0 < w) {s : Heap (BitVec w)} (h : Good s) (v : ℕ) :
    Good (s.release (.user v)) ∧ seq (s.release (.user v)) = Function.update (seq s) v [] := by
  refine ⟨⟨Heap.release_inv h.inv _, fun u => ?_, by rw [Heap.release_var (by simp)]; exact h.vec,
    by rw [Heap.release_var (by simp)]; exact h.old⟩,
    seq_update hw (fun u hu => ?_) (fun u i hu _ => ?_) ?_⟩
  · by_cases e : u = .user v
    · subst e; rw [Heap.release_self]; exact Nat.zero_le _
    · rw [Heap.release_var e]; exact h.len u
  · unfold size; rw [Heap.release_var (user_ne hu)]
  · unfold bit; rw [Heap.release_el (user_ne hu)]
  · unfold seq size; rw [Heap.release_self]; rfl

theorem swap_good {s : Heap (BitVec w)} (h : Good s) (v u : ℕ) :
    Good (swap (.user v) (.user u) s) ∧
      seq (swap (.user v) (.user u) s) = Function.update (Function.update (seq s) v (seq s u)) u (seq s v) := by
  unfold swap
  by_cases e : v = u
  · subst e
    rw [if_pos rfl]
    exact ⟨h, by simp⟩
  rw [if_neg (user_ne e)]
  refine ⟨⟨Heap.swapVar_inv h.inv _ _, fun x => ?_, by rw [Heap.swapVar_ne (by simp) (by simp)]; exact h.vec,
    by rw [Heap.swapVar_ne (by simp) (by simp)]; exact h.old⟩, ?_⟩
  · by_cases e1 : x = .user v
    · subst e1; rw [Heap.swapVar_left]; exact h.len _
    · by_cases e2 : x = .user u
      · subst e2; rw [Heap.swapVar_right]; exact h.len _
      · rw [Heap.swapVar_ne e1 e2]; exact h.len _
  · funext x
    by_cases e2 : x = u
    · subst e2
      rw [Function.update_self]
      unfold seq size get Heap.el
      rw [Heap.swapVar_right]; rfl
    · rw [Function.update_of_ne e2]
      by_cases e1 : x = v
      · subst e1
        rw [Function.update_self]
        unfold seq size get Heap.el
        rw [Heap.swapVar_left]; rfl
      · rw [Function.update_of_ne e1]
        unfold seq size get Heap.el
        rw [Heap.swapVar_ne (user_ne e1) (user_ne e2)]; rfl

/-- copying all the units of `u` that are used -/
theorem copy_good (hw : 0 < w) {s : Heap (BitVec w)} (h : Good s) {v u : ℕ} (e : v ≠ u) (hl : size s v = size s u) :
    Good (copyUnits (.user v) (.user u) (unitMin w (s.var (.user v)).len) s) ∧
      seq (copyUnits (.user v) (.user u) (unitMin w (s.var (.user v)).len) s) = Function.update (seq s) v (seq s u) := by
  have hv := h.len_user v
  have hu := h.len_user u
  obtain ⟨j1, j2, j3⟩ := copyLoop h.inv (v := .user v) (w := .user u) (k := 0) (n := unitMin w (s.var (.user v)).len)
    (by rw [Nat.zero_add, unitMin_le hw]; exact hv) (by rw [unitMin_le hw]; unfold size at hl hu; omega) (Or.inl (user_ne e))
    (f := fun i s => s.cp (.user v) i (.user u) i) (fun i t _ => by rw [Nat.zero_add])
  unfold copyUnits
  refine ⟨⟨j1, by rw [j2]; exact h.len, by rw [j2]; exact h.vec, by rw [j2]; exact h.old⟩, ?_⟩
  refine seq_update hw (fun x hx => by unfold size; rw [j2]) (fun x i hx hi => ?_) (seq_eq hw ?_ fun i hi => ?_)
  · have := h.len_user x
    unfold bit
    rw [j3 _ _ (div_lt hw (by omega)), if_neg (fun c => user_ne hx c.1)]
  · rw [seq_length]; unfold size; rw [j2]; exact hl
  · rw [seq_getElem hw]
    rw [seq_length] at hi
    unfold bit
    rw [j3 _ _ (div_lt hw (by omega)), if_pos ⟨rfl, Nat.zero_le _, by rw [Nat.zero_add]; exact lt_unitMin hw (by unfold size at hl hi; omega)⟩,
      Nat.sub_zero]

/-- copying a vector to itself changes nothing -/
theorem copy_self {s : Heap (BitVec w)} (v : Var) (n : ℕ) (h : s.Inv) (hn : n ≤ (s.var v).cap) : copyUnits v v n s = s := by
  unfold copyUnits
  induction n with
  | zero => exact forRange_of_le le_rfl _ _
  | succ n ih =>
    rw [forRange_succ (Nat.zero_le n), ih (by omega)]
    unfold Heap.cp Mem.cp
    have : s.mem.size (s.var v).ptr = (s.var v).cap := h.own v (by omega)
    have q : n < s.mem.size (s.var v).ptr := by omega
    simp [q]

theorem set_good (hw : 0 < w) {s : Heap (BitVec w)} (h : Good s) {v i : ℕ} (hi : i < size s v) (b : Bool) :
    Good (set (.user v) i b s) ∧ seq (set (.user v) i b s) = Function.update (seq s) v ((seq s v).set i b) := by
  have hl := h.len_user v
  obtain ⟨k1, k2, k3⟩ := set_spec hw h.inv (v := .user v) (i := i) (by omega) b
  refine ⟨⟨k1, by rw [k2]; exact h.len, by rw [k2]; exact h.vec, by rw [k2]; exact h.old⟩, ?_⟩
  refine seq_update hw (fun u hu => by unfold size; rw [k2]) (fun u j hu hj => ?_) (seq_eq hw ?_ fun j hj => ?_)
  · have := h.len_user u
    rw [k3 _ _ (by omega), if_neg (fun c => user_ne hu c.1)]
  · rw [List.length_set, seq_length]; unfold size; rw [k2]
  · rw [List.length_set, seq_length] at hj
    rw [k3 _ _ (by omega), List.getElem_set]
    by_cases e : i = j
    · rw [if_pos e, if_pos ⟨rfl, e.symm⟩]
    · rw [if_neg e, if_neg (fun c => e c.2.symm), seq_getElem hw]

/-- the part of push_back and push_vector that changes the length -/
def grow (v : Var) (m : ℕ) (a : Alloc (BitVec w)) (s : Heap (BitVec w)) : Heap (BitVec w) :=
  if (s.var v).len + m > (s.var v).cap * w then
    clear .vec (swap v .vec (copyUnits .vec v (unitMin w ((resize .vec ((s.var v).len + m) a s).var v).len)
      (resize .vec ((s.var v).len + m) a s)))
  else s.setVar v { s.var v with len := (s.var v).len + m }

theorem grow_spec (hw : 0 < w) {s : Heap (BitVec w)} (h : Good s) {v m : ℕ} {a : Alloc (BitVec w)} (ha : FreshBits s.mem (size s v + m) a) :
    Good (grow (.user v) m a s) ∧ size (grow (.user v) m a s) v = size s v + m ∧
      (∀ u, u ≠ v → size (grow (.user v) m a s) u = size s u) ∧
      ∀ u k, k < size s u → bit (grow (.user v) m a s) (.user u) k = bit s (.user u) k := by
  have hv := h.len_user v
  unfold grow
  by_cases hc : (s.var (.user v)).len + m > (s.var (.user v)).cap * w
  · rw [if_pos hc]
    have hrel : (s.release .vec).mem = s.mem := by unfold Heap.release; rw [if_neg (by rw [h.vec]; omega)]
    obtain ⟨r1, r3, r4, r5, r6, _⟩ := resize_spec hw h.inv h.len (v := .vec) (n := (s.var (.user v)).len + m) (a := a)
      (by rw [hrel]; exact ha)
    set s1 := resize .vec ((s.var (.user v)).len + m) a s with hs1
    have q5 : ∀ y, s1.var (.user y) = s.var (.user y) := fun y => r5 _ (by simp)
    have hcap : (s.var (.user v)).len + m ≤ (s1.var .vec).cap * w := by have := r3 .vec; rw [r4] at this; exact this
    obtain ⟨j1, j2, j3⟩ := copyLoop r1 (v := .vec) (w := .user v) (k := 0) (n := unitMin w (s1.var (.user v)).len)
      (by rw [Nat.zero_add, unitMin_le hw, q5]; omega) (by rw [unitMin_le hw, q5]; exact h.len _) (Or.inl (by simp))
      (f := fun i s => s.cp .vec i (.user v) i) (fun i t _ => by rw [Nat.zero_add])
    set s2 := copyUnits .vec (.user v) (unitMin w (s1.var (.user v)).len) s1 with hs2
    have hs2' : forRange 0 (unitMin w (s1.var (.user v)).len) s1 (fun i s => s.cp .vec i (.user v) i) = s2 := rfl
    rw [hs2'] at j1 j2 j3
    have sw : swap (.user v) .vec s2 = s2.swapVar (.user v) .vec := by unfold swap; rw [if_neg (by simp)]
    rw [sw]
    unfold clear
    set s5 := (s2.swapVar (.user v) .vec).release .vec with hs5
    have v5 : ∀ u, u ≠ .user v → u ≠ .vec → s5.var u = s1.var u := by
      intro u h1 h2; rw [hs5, Heap.release_var h2, Heap.swapVar_ne h1 h2, j2]
    have v5v : s5.var (.user v) = s1.var .vec := by rw [hs5, Heap.release_var (by simp), Heap.swapVar_left, j2]
    have e5 : ∀ u k, u ≠ .user v → u ≠ .vec → s5.el u k = s2.el u k := by
      intro u k h1 h2; unfold Heap.el; rw [v5 u h1 h2, j2, hs5, Heap.release_val]; rfl
    have e5v : ∀ k, s5.el (.user v) k = s2.el .vec k := by
      intro k; unfold Heap.el; rw [v5v, j2, hs5, Heap.release_val]; rfl
    refine ⟨⟨Heap.release_inv (Heap.swapVar_inv j1 _ _) _, fun u => ?_, by rw [hs5, Heap.release_self],
      by rw [v5 _ (by simp) (by simp), r5 _ (by simp)]; exact h.old⟩, ?_, ?_, ?_⟩
    · by_cases e1 : u = .user v
      · subst e1; rw [v5v]; exact r3 _
      · by_cases e2 : u = .vec
        · subst e2; rw [hs5, Heap.release_self]; exact Nat.zero_le _
        · rw [v5 u e1 e2]; exact r3 u
    · unfold size; rw [v5v, r4]
    · intro u hu; unfold size; rw [v5 _ (user_ne hu) (by simp), q5]
    · intro u k hk
      have hlu := h.len_user u
      unfold bit
      by_cases e : u = v
      · subst e
        have hk' : k < (s.var (.user u)).len := hk
        rw [e5v, j3 _ _ (div_lt hw (by omega)), if_pos ⟨rfl, Nat.zero_le _, by rw [q5, Nat.zero_add]; exact lt_unitMin hw hk⟩, Nat.sub_zero,
          r6 _ _ (by simp) (div_lt hw (by omega))]
      · rw [e5 _ _ (user_ne e) (by simp), j3 _ _ (by rw [q5]; exact div_lt hw (by omega)), if_neg (by simp),
          r6 _ _ (by simp) (div_lt hw (by omega))]
  · rw [if_neg hc]
    have hvar : ∀ u, u ≠ .user v → (s.setVar (.user v) { s.var (.user v) with len := (s.var (.user v)).len + m }).var u = s.var u := by
      intro u hu; simp [Heap.setVar, hu]
    have hself : (s.setVar (.user v) { s.var (.user v) with len := (s.var (.user v)).len + m }).var (.user v) =
        { s.var (.user v) with len := (s.var (.user v)).len + m } := by simp [Heap.setVar]
    refine ⟨⟨Heap.setLen_inv h.inv _ _, fun u => ?_, by rw [hvar _ (by simp)]; exact h.vec,
      by rw [hvar _ (by simp)]; exact h.old⟩, ?_, ?_, ?_⟩
    · by_cases e : u = .user v
      · subst e; rw [hself]; dsimp only; omega
      · rw [hvar u e]; exact h.len u
    · unfold size; rw [hself]
    · intro u hu; unfold size; rw [hvar _ (user_ne hu)]
    · intro u k _
      unfold bit Heap.el
      by_cases e : u = v
      · subst e; rw [hself]; rfl
      · rw [hvar _ (user_ne e)]; rfl

theorem pushBack_good (hw : 0 < w) {s : Heap (BitVec w)} (h : Good s) {v : ℕ} {b : Bool} {a : Alloc (BitVec w)}
    (ha : FreshBits s.mem (size s v + 1) a) :
    Good (pushBack (.user v) b a s) ∧ seq (pushBack (.user v) b a s) = Function.update (seq s) v (seq s v ++ [b]) := by
  obtain ⟨g, g1, g2, g3⟩ := grow_spec hw h (v := v) (m := 1) ha
  have e : pushBack (.user v) b a s = set (.user v) (size s v) b (grow (.user v) 1 a s) := rfl
  obtain ⟨k, k1⟩ := set_good hw g (v := v) (i := size s v) (by omega) b
  rw [e]
  refine ⟨k, ?_⟩
  rw [k1]
  have e2 : seq (grow (.user v) 1 a s) = Function.update (seq s) v (seq (grow (.user v) 1 a s) v) :=
    seq_update hw g2 (fun u i _ hi => g3 u i hi) rfl
  rw [e2, Function.update_idem, Function.update_self]
  congr 1
  apply List.ext_getElem
  · simp [seq_length, g1]
  · intro i h1 h2
    rw [List.length_set, seq_length, g1] at h1
    rw [List.getElem_set, List.getElem_append]
    by_cases c : size s v = i
    · rw [if_pos c, dif_neg (by rw [seq_length]; omega)]; simp
    · rw [if_neg c, dif_pos (by rw [seq_length]; omega), seq_getElem hw, seq_getElem hw, g3 v i (by omega)]

theorem pushVector_good (hw : 0 < w) {s : Heap (BitVec w)} (h : Good s) {v : ℕ} {l : List Bool}
    {other : ℕ → Heap (BitVec w) → Bool × Heap (BitVec w)}
    (ho : ∀ k t (_ : k < l.length), t.Inv → (∀ y, size s y ≤ (t.var (.user y)).cap * w) →
      (∀ y j, j < size s y → bit t (.user y) j = bit s (.user y) j) → other k t = (l[k], t))
    {a : Alloc (BitVec w)} (ha : FreshBits s.mem (size s v + l.length) a) :
    Good (pushVector (.user v) l.length other a s) ∧
      seq (pushVector (.user v) l.length other a s) = Function.update (seq s) v (seq s v ++ l) := by
  obtain ⟨g, g1, g2, g3⟩ := grow_spec hw h (v := v) (m := l.length) ha
  have e : pushVector (.user v) l.length other a s = forRange 0 l.length (grow (.user v) l.length a s) fun k s' =>
    set (.user v) (size s v + k) (other k s').1 (other k s').2 := rfl
  rw [e]
  set s1 := grow (.user v) l.length a s with hs1
  have hl1 : size s v + l.length ≤ (s1.var (.user v)).cap * w := by have := g.len_user v; omega
  have hcap : ∀ y, size s y ≤ (s1.var (.user y)).cap * w := by
    intro y
    have := g.len_user y
    by_cases c : y = v
    · subst c; omega
    · rw [g2 y c] at this; exact this
  have key := forRange_ind (Nat.zero_le l.length) (s := s1) (f := fun k s' => set (.user v) (size s v + k) (other k s').1 (other k s').2)
    (P := fun m t => m ≤ l.length → t.Inv ∧ t.var = s1.var ∧ (∀ y j, j < size s y → bit t (.user y) j = bit s (.user y) j) ∧
      ∀ j (_ : j < m) (hj : j < l.length), bit t (.user v) (size s v + j) = l[j]) ?_ ?_ le_rfl
  · obtain ⟨k1, k2, k3, k4⟩ := key
    set t := forRange 0 l.length s1 fun k s' => set (.user v) (size s v + k) (other k s').1 (other k s').2 with ht
    clear_value t
    refine ⟨⟨k1, by rw [k2]; exact g.len, by rw [k2]; exact g.vec, by rw [k2]; exact g.old⟩, ?_⟩
    refine seq_update hw (fun u hu => ?_) (fun u i hu hi => k3 u i hi) (seq_eq hw ?_ fun i hi => ?_)
    · rw [← g2 u hu]; unfold size; rw [k2]
    · rw [List.length_append, seq_length, ← g1]; unfold size; rw [k2]
    · rw [List.length_append, seq_length] at hi
      rw [List.getElem_append]
      by_cases c : i < size s v
      · rw [dif_pos (by rw [seq_length]; exact c), seq_getElem hw, k3 v i c]
      · rw [dif_neg (by rw [seq_length]; exact c)]
        have := k4 (i - size s v) (by omega) (by omega)
        rw [show size s v + (i - size s v) = i by omega] at this
        rw [this]
        simp only [seq_length]
  · exact fun _ => ⟨g.inv, rfl, g3, fun j hj => absurd hj (Nat.not_lt_zero _)⟩
  · intro m t _ hm ih hm1
    obtain ⟨i1, i2, i3, i4⟩ := ih (by omega)
    have eo := ho m t (by omega) i1 (by rw [i2]; exact hcap) i3
    rw [eo]
    obtain ⟨k1, k2, k3⟩ := set_spec hw i1 (v := .user v) (i := size s v + m) (by rw [i2]; omega) l[m]
    refine ⟨k1, by rw [k2, i2], fun y j hj => ?_, fun j hj hjl => ?_⟩
    · have := hcap y
      rw [k3 _ _ (by rw [i2]; omega), if_neg, i3 y j hj]
      rintro ⟨c1, c2⟩
      injection c1 with c1
      subst c1
      omega
    · rw [k3 _ _ (by rw [i2]; omega)]
      by_cases c : j = m
      · subst c; rw [if_pos ⟨rfl, rfl⟩]
      · rw [if_neg (fun q => c (by have := q.2; omega)), i4 j (by omega) hjl]

theorem touch_eq {s : Heap (BitVec w)} (h : s.Inv) {v : Var} {k : ℕ} (hk : k < (s.var v).cap) : touch v k s = s := by
  unfold touch
  rw [h.own v (by omega)]
  simp [hk]

theorem exec_good (hw : 0 < w) {s : Heap (BitVec w)} (h : Good s) {op : Op w} (hv : op.Valid s (seq s)) :
    Good (exec op s) ∧ op.Spec (capacity s) (seq s) (seq (exec op s)) := by
  cases op with
  | ctor v n a =>
    obtain ⟨g, e⟩ := release_good hw h v
    have hm : ((s.release (.user v)).release (.user v)).mem = (s.release (.user v)).mem := by
      conv_lhs => unfold Heap.release
      rw [if_neg (by simp)]; rfl
    obtain ⟨g', l, l1, _, l3⟩ := resize_good hw g (v := v) (n := n) (a := a) (by rw [hm]; exact hv)
    exact ⟨g', l, l1, by simp only [exec]; rw [l3, e, Function.update_idem]⟩
  | ctorCopy v u a =>
    obtain ⟨g, e⟩ := release_good hw h v
    have hm : ((s.release (.user v)).release (.user v)).mem = (s.release (.user v)).mem := by
      conv_lhs => unfold Heap.release
      rw [if_neg (by simp)]; rfl
    have hw1 : seq (s.release (.user v)) u = seq s u := by rw [e, Function.update_of_ne (Ne.symm hv.1)]
    have hw' : ((s.release (.user v)).var (.user u)).len = (seq s u).length := by rw [← hw1, seq_length]; rfl
    obtain ⟨g', l, l1, _, l3⟩ := resize_good hw g (v := v) (a := a) (n := ((s.release (.user v)).var (.user u)).len)
      (by rw [hw', hm]; exact hv.2)
    have hw2 : seq (VectorBool.resize (.user v) ((s.release (.user v)).var (.user u)).len a (s.release (.user v))) u = seq s u := by
      rw [l3, Function.update_of_ne (Ne.symm hv.1), hw1]
    obtain ⟨g2, e2⟩ := copy_good hw g' hv.1 (by rw [← seq_length, ← seq_length, hw2, l3, Function.update_self, l1, hw'])
    refine ⟨g2, ?_⟩
    simp only [Op.Spec, exec, copyCtor]
    rw [e2, hw2, l3, e, Function.update_idem, Function.update_idem]
  | ctorMove v u =>
    obtain ⟨g, e⟩ := release_good hw h v
    obtain ⟨g2, e2⟩ := swap_good g v u
    have hv' : v ≠ u := hv
    refine ⟨g2, ?_⟩
    simp only [Op.Spec, exec]
    rw [e2, e, Function.update_self, Function.update_of_ne (Ne.symm hv'), Function.update_idem]
  | destroy v => exact release_good hw h v
  | resize v n a => exact resize_good hw h (v := v) (a := a) hv
  | clear v => exact release_good hw h v
  | swap v u => exact swap_good h v u
  | assign v u a =>
    obtain ⟨hl, hf⟩ := hv
    simp only [Op.Spec, exec, VectorBool.assign]
    by_cases c : (s.var (.user v)).len = 0
    · rw [if_pos c]
      have hu' : (s.var (.user u)).len = (seq s u).length := (seq_length s u).symm
      obtain ⟨g', l, l1, l2, l3⟩ := resize_good hw h (v := v) (a := a) (n := (s.var (.user u)).len) (by rw [hu']; exact hf)
      by_cases e : v = u
      · subst e
        have hn : (VectorBool.resize (.user v) (s.var (.user v)).len a s) = s := by
          unfold VectorBool.resize
          simp only [c]
          rw [if_pos (by simp [unitMin])]
          unfold Heap.setVar
          rw [← c]
          simp
        rw [hn, copy_self _ _ h.inv (by rw [unitMin_le hw]; exact h.len _)]
        exact ⟨h, by simp⟩
      · have hw2 : seq (VectorBool.resize (.user v) (s.var (.user u)).len a s) u = seq s u := by
          rw [l3, Function.update_of_ne (Ne.symm e)]
        obtain ⟨g2, e2⟩ := copy_good hw g' e (by rw [← seq_length, ← seq_length, hw2, l3, Function.update_self, l1, hu'])
        exact ⟨g2, by rw [e2, hw2, l3, Function.update_idem]⟩
    · rw [if_neg c]
      by_cases e : v = u
      · subst e
        rw [copy_self _ _ h.inv (by rw [unitMin_le hw]; exact h.len _)]
        exact ⟨h, by simp⟩
      · rw [seq_length, seq_length] at hl
        exact copy_good hw h e (hl.resolve_left c)
  | moveAssign v u => exact swap_good h v u
  | set v i b => exact set_good hw h (by rw [← seq_length]; exact hv) b
  | setElem v i u j =>
    have hj : j < size s u := by rw [← seq_length]; exact hv.2
    have := h.len_user u
    simp only [exec]
    rw [touch_eq h.inv (div_lt hw (by omega))]
    obtain ⟨g, e⟩ := set_good hw h (v := v) (i := i) (by rw [← seq_length]; exact hv.1) (VectorBool.get (.user u) j s)
    exact ⟨g, _, by rw [List.getElem?_eq_getElem hv.2, seq_getElem hw, get_eq hw], e⟩
  | pushBack v b a => exact pushBack_good hw h (by rw [← seq_length]; exact hv)
  | pushVector v u a =>
    have hu' : (s.var (.user u)).len = (seq s u).length := (seq_length s u).symm
    simp only [exec, Op.Spec]
    rw [hu']
    refine pushVector_good hw h (fun k t hk ht hc hb => ?_) (by rw [← seq_length]; exact hv)
    rw [seq_length] at hk
    have := hc u
    rw [seq_getElem hw, get_eq hw, hb u k hk, touch_eq ht (div_lt hw (by omega))]
  | pushList v l a =>
    refine pushVector_good hw h (fun k t hk ht hc hb => ?_) (by rw [← seq_length]; exact hv)
    simp [hk]

theorem Reach.good (hw : 0 < w) {s : Heap (BitVec w)} (h : Reach s) : Good s := by
  induction h with
  | init => exact ⟨Heap.init_inv, fun _ => Nat.zero_le _, rfl, rfl⟩
  | step _ hv ih => exact (exec_good hw ih hv).1

/-- C32: for every number of bits per unit, in every history each operation has the effect of the same operation on sequences of bool. -/
theorem history_ok (hw : 0 < w) {s : Heap (BitVec w)} (h : Reach s) {op : Op w} (hv : op.Valid s (seq s)) :
    op.Spec (capacity s) (seq s) (seq (exec op s)) := (exec_good hw (h.good hw) hv).2

/-- C32: capacity is never smaller than size; every access so far was to a unit of allocated memory; each allocated block
belongs to exactly one vector. -/
theorem memory_ok (hw : 0 < w) {s : Heap (BitVec w)} (h : Reach s) :
    (∀ v, size s v ≤ capacity s v) ∧ s.mem.ok = true ∧
      (∀ p, 0 < s.mem.size p → ∃! v, 0 < (s.var (.user v)).cap ∧ (s.var (.user v)).ptr = p) := by
  have g := h.good hw
  have key : ∀ p, 0 < s.mem.size p → ∃ v, 0 < (s.var (.user v)).cap ∧ (s.var (.user v)).ptr = p := by
    intro p hp
    obtain ⟨u, hu, e⟩ := g.inv.leak p hp
    cases u with
    | user v => exact ⟨v, hu, e⟩
    | vec => rw [g.vec] at hu; omega
    | old => rw [g.old] at hu; omega
  refine ⟨fun v => g.len _, g.inv.ok, fun p hp => ?_⟩
  obtain ⟨v, hv, e⟩ := key p hp
  refine ⟨v, ⟨hv, e⟩, ?_⟩
  rintro x ⟨hx, e'⟩
  by_contra hne
  exact g.inv.sep _ _ (user_ne hne) hx hv (e'.trans e.symm)

/-- The hypotheses of the theorems are met by this history with 2 bits per unit, with growth and a vector that is pushed to itself. -/
example : ∃ s : Heap (BitVec 2), Reach s ∧ seq s 0 = [true, false, true, true, false, true] ∧
    seq s 1 = [true, false, true, false, false, true] := by
  have h0 : Reach (Heap.init : Heap (BitVec 2)) := .init
  have h1 := Reach.step (op := Op.pushBack 0 true ⟨1, 1, fun _ => 0⟩) h0 (by constructor <;> decide)
  have h2 := Reach.step (op := Op.pushList 0 [false, true] ⟨2, 2, fun _ => 3⟩) h1 (by constructor <;> decide)
  have h3 := Reach.step (op := Op.pushVector 0 0 ⟨3, 3, fun _ => 3⟩) h2 (by constructor <;> decide)
  have h4 := Reach.step (op := Op.assign 1 0 ⟨4, 4, fun _ => 0⟩) h3 ⟨by decide, by constructor <;> decide⟩
  have h5 := Reach.step (op := Op.set 1 3 false) h4 (by show _ < _; decide)
  exact ⟨_, h5, by decide +kernel, by decide +kernel⟩

end CppAD.Util.VectorBool
