import Verif.Util.PodProof

/-! # Every history of operations on pod_vector and pod_vector_maybe (property C64) -/

namespace CppAD.Util.Pod

open CppAD.Util.Vector (Good seq size capacity seq_length seq_eq seq_getElem seq_update user_ne set_good swap_good)

variable {α : Type}

theorem giveBack_seq {pod : Bool} {s : Heap (Option α)} (h : PGood pod s) (v : ℕ) :
    PGood pod (giveBack pod (.user v) s) ∧ seq (giveBack pod (.user v) s) = Function.update (seq s) v [] ∧
      ∀ u, u ≠ v → capacity (giveBack pod (.user v) s) u = capacity s u := by
  obtain ⟨p1, p2, p3, -, p5⟩ := giveBack_good h (v := .user v)
  refine ⟨p1, seq_update (fun u hu => ?_) (fun u i hu hi => ?_) ?_, fun u hu => ?_⟩
  · unfold size; rw [p3 _ (user_ne hu)]
  · have := h.good.len_user u
    exact p5 _ i (user_ne hu) (by unfold size at hi this; omega)
  · unfold seq size; rw [p2]; rfl
  · unfold capacity; rw [p3 _ (user_ne hu)]

theorem extend_seq {pod : Bool} {d : α} {s : Heap (Option α)} (h : PGood pod s) {v n : ℕ} {a : Alloc (Option α)}
    (ha : Raw pod s.mem (size s v + n) a) :
    PGood pod (extend pod d (.user v) n a s) ∧
      (∃ l, l.length = n ∧ seq (extend pod d (.user v) n a s) = Function.update (seq s) v (seq s v ++ l)) ∧
      (∀ u, u ≠ v → (extend pod d (.user v) n a s).var (.user u) = s.var (.user u)) ∧
      capacity s v ≤ capacity (extend pod d (.user v) n a s) v ∧
      (size s v + n ≤ capacity s v → ((extend pod d (.user v) n a s).var (.user v)).ptr = (s.var (.user v)).ptr) ∧
      size s v + n ≤ ((extend pod d (.user v) n a s).var (.user v)).cap ∧
      ∀ u j, j < size s u → (extend pod d (.user v) n a s).el (.user u) j = s.el (.user u) j := by
  obtain ⟨r1, r2, r3, r4, r5, r6⟩ := extend_spec (d := d) h (v := .user v) (by simp) (by simp) ha rfl
  set r := extend pod d (.user v) n a s with hr
  have hel : ∀ u j, j < size s u → r.el (.user u) j = s.el (.user u) j := by
    intro u j hj
    have := h.good.len_user u
    refine r4 _ j (by simp) (by unfold size at hj this; omega) fun e => ?_
    rw [← e]; exact hj
  have hsz : size r v = size s v + n := r2
  refine ⟨r1, ⟨(List.range n).map fun i => r.el (.user v) (size s v + i), by simp, ?_⟩, fun u hu => r3 _ (user_ne hu) (by simp), r5, r6,
    by have := r1.good.len_user v; rw [hsz] at this; exact this, hel⟩
  refine seq_update (fun u hu => ?_) (fun u i hu hi => hel u i hi) (seq_eq ?_ fun i hi => ?_)
  · unfold size; rw [r3 _ (user_ne hu) (by simp)]
  · rw [hsz, List.length_append, seq_length]; simp
  · rw [List.getElem_append]
    by_cases c : i < (seq s v).length
    · rw [dif_pos c, seq_getElem]
      rw [seq_length] at c
      exact hel v i c
    · rw [dif_neg c]
      rw [seq_length] at c
      simp only [List.getElem_map, List.getElem_range, seq_length]
      congr 1
      omega

theorem resize_seq {pod : Bool} {d : α} {s : Heap (Option α)} (h : PGood pod s) {v n : ℕ} {a : Alloc (Option α)}
    (ha : Raw pod (s.release (.user v)).mem n a) :
    PGood pod (resize pod d (.user v) n a s) ∧ size (resize pod d (.user v) n a s) v = n ∧
      (∀ u, u ≠ v → (resize pod d (.user v) n a s).var (.user u) = s.var (.user u)) ∧
      (∀ u j, u ≠ v → j < size s u → (resize pod d (.user v) n a s).el (.user u) j = s.el (.user u) j) ∧
      (n ≤ capacity s v → ∀ j, (resize pod d (.user v) n a s).el (.user v) j = s.el (.user v) j) ∧
      capacity s v ≤ capacity (resize pod d (.user v) n a s) v := by
  obtain ⟨r1, r2, r3, r4, r5, r6⟩ := resize_spec (d := d) h (v := .user v) (by simp) (by simp) ha rfl
  refine ⟨r1, r2, fun u hu => r3 _ (user_ne hu), fun u j hu hj => ?_, r5, r6⟩
  have := h.good.len_user u
  exact r4 _ j (user_ne hu) (by unfold size at hj this; omega)

theorem put_good {pod : Bool} {s : Heap (Option α)} (h : PGood pod s) {v i : ℕ} (hi : i < size s v) (x : α) :
    PGood pod (put pod (.user v) i x s) ∧ seq (put pod (.user v) i x s) = Function.update (seq s) v ((seq s v).set i (some x)) ∧
      (put pod (.user v) i x s).var = s.var := by
  have hc : i < (s.var (.user v)).cap := by have := h.good.len_user v; omega
  have hk : (pod || (s.el (.user v) i).isSome) = true := by
    cases hp : pod with
    | true => rfl
    | false => rw [h.obj hp _ _ hc]; rfl
  unfold put
  rw [chk_true hk]
  have g := set_good h.good hi (x := some x) (Heap.wr_inv h.good.inv hc _) rfl (fun u k hk => Heap.wr_el h.good.inv hc _ hk)
  refine ⟨⟨g.1, fun hp u k hk' => ?_⟩, g.2, rfl⟩
  rw [Heap.wr_el h.good.inv hc _ hk']
  split_ifs
  · rfl
  · exact h.obj hp u k hk'

theorem copyEl_good {pod : Bool} {s : Heap (Option α)} (h : PGood pod s) {v i w j : ℕ} (hi : i < size s v) (hj : j < size s w) :
    PGood pod (copyEl pod (.user v) i (.user w) j s) ∧
      seq (copyEl pod (.user v) i (.user w) j s) = Function.update (seq s) v ((seq s v).set i (s.el (.user w) j)) ∧
      (copyEl pod (.user v) i (.user w) j s).var = s.var := by
  have hc : i < (s.var (.user v)).cap := by have := h.good.len_user v; omega
  have hd : j < (s.var (.user w)).cap := by have := h.good.len_user w; omega
  have hk : (pod || ((s.el (.user v) i).isSome && (s.el (.user w) j).isSome)) = true := by
    cases hp : pod with
    | true => rfl
    | false => rw [h.obj hp _ _ hc, h.obj hp _ _ hd]; rfl
  unfold copyEl
  rw [chk_true hk]
  have g := set_good h.good hi (x := s.el (.user w) j) (Heap.cp_inv h.good.inv hc hd) rfl (fun u k hk => Heap.cp_el h.good.inv hc _ _ hk)
  refine ⟨⟨g.1, fun hp u k hk' => ?_⟩, g.2, rfl⟩
  rw [Heap.cp_el h.good.inv hc _ _ hk']
  split_ifs
  · exact h.obj hp _ _ hd
  · exact h.obj hp u k hk'

theorem seq_get? {s : Heap (Option α)} {w j : ℕ} (hj : j < size s w) : (seq s w)[j]? = some (s.el (.user w) j) := by
  rw [List.getElem?_eq_getElem (by rw [seq_length]; exact hj), seq_getElem]

/-- `v.push_back` after `extend`: setting the new element -/
theorem append_set {β : Type} (l : List β) (e : List β) (he : e.length = 1) (x : β) : (l ++ e).set l.length x = l ++ [x] := by
  obtain ⟨y, rfl⟩ := List.length_eq_one_iff.1 he
  simp

theorem assign_good {pod : Bool} {d : α} {s : Heap (Option α)} (h : PGood pod s) {v w : ℕ} {a : Alloc (Option α)}
    (ha : Raw pod (s.release (.user v)).mem (size s w) a) :
    PGood pod (assign pod d (.user v) (.user w) a s) ∧ seq (assign pod d (.user v) (.user w) a s) = Function.update (seq s) v (seq s w) ∧
      ∀ u, capacity s u ≤ capacity (assign pod d (.user v) (.user w) a s) u := by
  obtain ⟨r1, r2, r3, r4, r5, r6⟩ := resize_seq (d := d) h ha
  unfold assign
  dsimp only
  have esz : (s.var (.user w)).len = size s w := rfl
  rw [esz]
  set r := resize pod d (.user v) (size s w) a s with hr
  have hw : size r w = size s w := by
    by_cases e : w = v
    · subst e; exact r2
    · unfold size; rw [r3 w e]
  have hwel : ∀ j < size s w, r.el (.user w) j = s.el (.user w) j := by
    intro j hj
    by_cases e : w = v
    · subst e
      exact r5 (h.good.len_user w) j
    · exact r4 w j e hj
  have esz2 : (r.var (.user v)).len = size s w := r2
  rw [esz2]
  have c1 := r1.good.len_user v
  have c2 := r1.good.len_user w
  rw [r2] at c1
  rw [hw] at c2
  obtain ⟨k1, k2, k3⟩ := copyElLoop (pod := pod) r1.good.inv (v := .user v) (w := .user w) (n := size s w) c1 c2
    (fun hp i hi => r1.obj hp _ i (by omega)) (fun hp i hi => r1.obj hp _ i (by omega))
  set t := forRange 0 (size s w) r fun i s => copyEl pod (.user v) i (.user w) i s with ht
  refine ⟨⟨⟨k1, by rw [k2]; exact r1.good.len, by rw [k2]; exact r1.good.vec, by rw [k2]; exact r1.good.old⟩, fun hp u i hi => ?_⟩,
    seq_update (fun u hu => ?_) (fun u i hu hi => ?_) (seq_eq ?_ fun i hi => ?_), fun u => ?_⟩
  · rw [k2] at hi
    rw [k3 u i hi]
    split_ifs with q
    · exact r1.obj hp _ i (by omega)
    · exact r1.obj hp u i hi
  · unfold size; rw [k2, r3 u hu]
  · have := h.good.len_user u
    rw [k3 _ i (by rw [r3 u hu]; unfold size at hi this; omega), if_neg (fun c => user_ne hu c.1), r4 u i hu hi]
  · rw [seq_length]; unfold size; rw [k2]; exact r2
  · rw [seq_getElem]
    rw [seq_length] at hi
    rw [k3 _ i (by omega), if_pos ⟨rfl, hi⟩, hwel i hi]
  · unfold capacity
    rw [k2]
    by_cases e : u = v
    · subst e; exact r6
    · rw [r3 u e]

theorem exec_good {pod : Bool} {d : α} {s : Heap (Option α)} (h : PGood pod s) {op : Op α} (hv : op.Valid pod s (seq s)) :
    PGood pod (exec pod d op s) ∧ op.Spec pod (capacity s) (seq s) (seq (exec pod d op s)) ∧
      ∀ u, ¬ op.Shrinks u → capacity s u ≤ capacity (exec pod d op s) u := by
  cases op with
  | ctor v n a =>
    obtain ⟨g1, g2, g3⟩ := giveBack_seq h v
    have gs := (giveBack_good h (v := .user v)).2.2.2.1
    have hz : size (giveBack pod (.user v) s) v = 0 := by rw [← seq_length, g2]; simp
    have hv : Raw pod (s.release (.user v)).mem n a := hv
    obtain ⟨e1, ⟨l, e2, e3⟩, e4, -⟩ := extend_seq (d := d) g1 (v := v) (n := n) (a := a)
      (by rw [hz, Nat.zero_add]; exact ⟨⟨by rw [gs]; exact hv.1.1, hv.1.2⟩, hv.2⟩)
    refine ⟨e1, ⟨l, e2, ?_⟩, fun u hu => ?_⟩
    · show seq (extend pod d (.user v) n a (giveBack pod (.user v) s)) = _
      rw [e3, g2]; simp
    · have hu : u ≠ v := fun e => hu e.symm
      show _ ≤ capacity (extend pod d (.user v) n a (giveBack pod (.user v) s)) u
      unfold capacity at g3 ⊢
      rw [e4 u hu, g3 u hu]
  | destroy v =>
    obtain ⟨g1, g2, g3⟩ := giveBack_seq h v
    exact ⟨g1, g2, fun u hu => (g3 u fun e => hu e.symm).ge⟩
  | clear v =>
    obtain ⟨g1, g2, g3⟩ := giveBack_seq h v
    exact ⟨g1, g2, fun u hu => (g3 u fun e => hu e.symm).ge⟩
  | extend v n a =>
    have hv : Raw pod s.mem ((seq s v).length + n) a := hv
    rw [seq_length] at hv
    obtain ⟨e1, e2, e4, e5, -⟩ := extend_seq (d := d) h (v := v) (n := n) (a := a) hv
    refine ⟨e1, e2, fun u _ => ?_⟩
    by_cases e : u = v
    · subst e; exact e5
    · unfold capacity; exact (congrArg Hdr.cap (e4 u e)).ge
  | resize v n a =>
    obtain ⟨r1, r2, r3, r4, r5, r6⟩ := resize_seq (d := d) h hv
    refine ⟨r1, ⟨seq (resize pod d (.user v) n a s) v, by rw [seq_length]; exact r2, fun hc i hi hi2 => ?_, ?_⟩, fun u _ => ?_⟩
    · rw [seq_length] at hi2
      rw [seq_get? (by rw [r2]; exact hi), seq_get? hi2, r5 hc]
    · exact seq_update (fun u hu => by unfold size; exact congrArg Hdr.len (r3 u hu)) (fun u i hu hi => r4 u i hu hi) rfl
    · by_cases e : u = v
      · subst e; exact r6
      · unfold capacity; exact (congrArg Hdr.cap (r3 u e)).ge
  | swap v w =>
    have g := swap_good h.good v w
    refine ⟨⟨g.1, fun hp u i hi => ?_⟩, g.2, fun u hu => ?_⟩
    · have key : ∀ u, ∃ u', (exec pod d (.swap v w) s).var u = s.var u' := by
        intro u
        show ∃ u', (swap (.user v) (.user w) s).var u = s.var u'
        unfold swap
        by_cases e : v = w
        · subst e
          rw [if_pos rfl]
          exact ⟨u, rfl⟩
        · rw [if_neg (user_ne e)]
          by_cases e1 : u = .user v
          · subst e1; exact ⟨_, Heap.swapVar_left _ _ _⟩
          · by_cases e2 : u = .user w
            · subst e2; exact ⟨_, Heap.swapVar_right _ _ _⟩
            · exact ⟨u, Heap.swapVar_ne e1 e2⟩
      have hm : (exec pod d (.swap v w) s).mem = s.mem := by
        show (swap (.user v) (.user w) s).mem = _
        unfold swap
        split_ifs <;> rfl
      obtain ⟨u', e⟩ := key u
      rw [e] at hi
      have := h.obj hp u' i hi
      unfold Heap.el at this ⊢
      rw [hm, e]; exact this
    · have hu : ¬ (v = u ∨ w = u) := hu
      show _ ≤ capacity (swap (.user v) (.user w) s) u
      unfold swap capacity
      split_ifs
      · exact le_rfl
      · rw [Heap.swapVar_ne (user_ne fun e => hu (Or.inl e.symm)) (user_ne fun e => hu (Or.inr e.symm))]
  | assign v w a =>
    have hv : Raw pod (s.release (.user v)).mem (seq s w).length a := hv
    rw [seq_length] at hv
    obtain ⟨g1, g2, g3⟩ := assign_good (d := d) h hv
    exact ⟨g1, g2, fun u _ => g3 u⟩
  | set v i x =>
    have hv : i < (seq s v).length := hv
    rw [seq_length] at hv
    obtain ⟨g1, g2, g3⟩ := put_good h hv x
    exact ⟨g1, g2, fun u _ => by show _ ≤ capacity (put pod (.user v) i x s) u; unfold capacity; rw [g3]⟩
  | setElem v i w j =>
    obtain ⟨hi, hj⟩ : i < (seq s v).length ∧ j < (seq s w).length := hv
    rw [seq_length] at hi hj
    obtain ⟨g1, g2, g3⟩ := copyEl_good h hi hj
    exact ⟨g1, ⟨_, seq_get? hj, g2⟩, fun u _ => by
      show _ ≤ capacity (copyEl pod (.user v) i (.user w) j s) u; unfold capacity; rw [g3]⟩
  | pushBack v x a =>
    have hv : Raw pod s.mem ((seq s v).length + 1) a := hv
    rw [seq_length] at hv
    obtain ⟨e1, ⟨l, e2, e3⟩, e4, e5, -, -, -⟩ := extend_seq (d := d) h (v := v) (n := 1) (a := a) hv
    set r := extend pod d (.user v) 1 a s with hr
    have hsz : size r v = size s v + 1 := by rw [← seq_length, e3]; simp [e2, seq_length]
    obtain ⟨g1, g2, g3⟩ := put_good e1 (v := v) (i := size s v) (by omega) x
    refine ⟨g1, ?_, fun u _ => ?_⟩
    · show seq (put pod (.user v) (size s v) x r) = _
      rw [g2, e3, Function.update_self, Function.update_idem, ← seq_length, append_set _ _ e2]
    · show _ ≤ capacity (put pod (.user v) (size s v) x r) u
      unfold capacity
      rw [g3]
      by_cases e : u = v
      · subst e; exact e5
      · rw [e4 u e]
  | pushBackElem v w j a =>
    obtain ⟨hj, ha, hvw⟩ : j < (seq s w).length ∧ Raw pod s.mem ((seq s v).length + 1) a ∧ (v = w → (seq s v).length < capacity s v) := hv
    rw [seq_length] at hj ha hvw
    obtain ⟨e1, ⟨l, e2, e3⟩, e4, e5, e6, -, e7⟩ := extend_seq (d := d) h (v := v) (n := 1) (a := a) ha
    have hex : exec pod d (.pushBackElem v w j a) s =
        copyEl pod (.user v) (size s v) (.user w) j (extend pod d (.user v) 1 a s) := by
      have hp : (s.var (.user w)).ptr = ((extend pod d (.user v) 1 a s).var (.user w)).ptr := by
        by_cases e : w = v
        · subst e; exact (e6 (hvw rfl)).symm
        · rw [e4 w e]
      show pushBackElem pod d (.user v) (.user w) j a s = _
      unfold pushBackElem copyEl Heap.cp Heap.el
      dsimp only
      rw [hp]
      rfl
    rw [hex]
    set r := extend pod d (.user v) 1 a s with hr
    have hsz : size r v = size s v + 1 := by rw [← seq_length, e3]; simp [e2, seq_length]
    have hszw : j < size r w := by
      by_cases e : w = v
      · subst e; omega
      · unfold size; rw [e4 w e]; exact hj
    obtain ⟨g1, g2, g3⟩ := copyEl_good e1 (v := v) (i := size s v) (w := w) (j := j) (by omega) hszw
    refine ⟨g1, ⟨_, seq_get? hj, ?_⟩, fun u _ => ?_⟩
    · rw [g2, e3, Function.update_self, Function.update_idem, ← seq_length, append_set _ _ e2, e7 w j hj]
    · unfold capacity
      rw [g3]
      by_cases e : u = v
      · subst e; exact e5
      · rw [e4 u e]

theorem Reach.good {pod : Bool} {d : α} {s : Heap (Option α)} (h : Reach pod d s) : PGood pod s := by
  induction h with
  | init => exact ⟨⟨Heap.init_inv, fun _ => le_rfl, rfl, rfl⟩, fun _ u i hi => absurd hi (Nat.not_lt_zero _)⟩
  | step _ hv ih => exact (exec_good ih hv).1

/-- **C64** in every history, each operation has the effect of the same operation on mathematical sequences, for plain old data and
for other types.  Partial: not when the argument of `push_back` is an element of the same vector and memory is allocated (see
`push_own_wrong`). -/
theorem pod_history_ok_partial {pod : Bool} {d : α} {s : Heap (Option α)} (h : Reach pod d s) {op : Op α} (hv : op.Valid pod s (seq s)) :
    op.Spec pod (capacity s) (seq s) (seq (exec pod d op s)) := (exec_good h.good hv).2.1

/-- **C64** only a constructor, the destructor, `clear` and `swap` can make the capacity smaller -/
theorem pod_capacity_ok {pod : Bool} {d : α} {s : Heap (Option α)} (h : Reach pod d s) {op : Op α} (hv : op.Valid pod s (seq s)) {u : ℕ}
    (hu : ¬ op.Shrinks u) : capacity s u ≤ capacity (exec pod d op s) u := (exec_good h.good hv).2.2 u hu

/-- **C64** capacity is never smaller than size; every access, constructor, destructor and assignment so far was to memory that is
allocated (and to an object or to memory without an object, as required); each allocated block belongs to exactly one vector; when
the elements are objects, there is an object at every place in the capacity; no memory is allocated when all the vectors are
cleared or destroyed. -/
theorem pod_memory_ok {pod : Bool} {d : α} {s : Heap (Option α)} (h : Reach pod d s) :
    (∀ v, size s v ≤ capacity s v) ∧ s.mem.ok = true ∧
      (∀ p, 0 < s.mem.size p → ∃! v, 0 < capacity s v ∧ (s.var (.user v)).ptr = p) ∧
      (pod = false → ∀ v, ∀ x ∈ seq s v, x.isSome = true) ∧
      ((∀ v, capacity s v = 0) → ∀ p, s.mem.size p = 0) := by
  have g := h.good.good
  have key : ∀ p, 0 < s.mem.size p → ∃ v, 0 < capacity s v ∧ (s.var (.user v)).ptr = p := by
    intro p hp
    obtain ⟨u, hu, e⟩ := g.inv.leak p hp
    cases u with
    | user v => exact ⟨v, hu, e⟩
    | vec => rw [g.vec] at hu; omega
    | old => rw [g.old] at hu; omega
  refine ⟨fun v => g.len _, g.inv.ok, fun p hp => ?_, fun hp v x hx => ?_, fun h0 p => ?_⟩
  · obtain ⟨v, hv, e⟩ := key p hp
    refine ⟨v, ⟨hv, e⟩, ?_⟩
    rintro w ⟨hw, e'⟩
    by_contra hne
    exact g.inv.sep _ _ (user_ne hne) hw hv (e'.trans e.symm)
  · unfold seq at hx
    obtain ⟨i, hi, rfl⟩ := List.mem_map.1 hx
    rw [List.mem_range] at hi
    have := g.len_user v
    exact h.good.obj hp _ i (by omega)
  · by_contra hp
    obtain ⟨v, hv, _⟩ := key p (by omega)
    rw [h0] at hv; omega

/-- **C64** What is missing is false of the code: when the argument of `push_back` is an element of the vector itself and the vector
is at its capacity, `push_back` reads memory that was returned (the corresponding function of CppAD::vector does not). -/
theorem push_own_wrong {pod : Bool} {d : α} {s : Heap (Option α)} (h : Reach pod d s) {v j : ℕ} (hj : j < size s v)
    (hc : size s v = capacity s v) {a : Alloc (Option α)} (ha : Raw pod s.mem (size s v + 1) a) :
    (exec pod d (.pushBackElem v v j a) s).mem.ok = false := by
  have h := h.good
  have hlen : (s.var (.user v)).len = size s v := rfl
  have hcap : (s.var (.user v)).cap = size s v := hc.symm
  have key : (extend pod d (.user v) 1 a s).mem.size (s.var (.user v)).ptr = 0 := by
    unfold extend
    dsimp only
    rw [if_neg (by omega)]
    unfold giveBack Heap.release
    dsimp only
    have hq : ∀ t : Heap (Option α), ∀ u, (construct pod d u t).var = t.var := by
      intro t u
      unfold construct
      split_ifs
      · rfl
      · refine forRange_ind (Nat.zero_le _) (s := t) (P := fun _ (x : Heap (Option α)) => x.var = t.var) rfl ?_
        intro k x _ _ e
        rw [Heap.wr_var]; exact e
    have hq2 : ∀ (t : Heap (Option α)) u, (destruct pod u t).var = t.var := by
      intro t u
      unfold destruct
      split_ifs
      · rfl
      · refine forRange_ind (Nat.zero_le _) (s := t) (P := fun _ (x : Heap (Option α)) => x.var = t.var) rfl ?_
        intro k x _ _ e
        rw [Heap.wr_var]; exact e
    have hq3 : ∀ (t : Heap (Option α)) n, (forRange 0 n t fun i s => copyEl pod (.user v) i .old i s).var = t.var := by
      intro t n
      refine forRange_ind (Nat.zero_le _) (s := t) (P := fun _ (x : Heap (Option α)) => x.var = t.var) rfl ?_
      intro k x _ _ e
      exact e
    generalize hT : forRange 0 (s.var (.user v)).len
      (construct pod d (.user v) (alloc (.user v) ((s.var (.user v)).len + 1) a (s.setVar .old (s.var (.user v)))))
      (fun i s => copyEl pod (.user v) i .old i s) = T
    have hTv : T.var .old = s.var (.user v) := by
      rw [← hT, hq3, hq]
      simp [alloc, Heap.setVar]
    have hDv : (chk (destruct pod .old T) (pod || allRaw .old (destruct pod .old T))).var .old = s.var (.user v) := by
      show (destruct pod .old T).var .old = _
      rw [hq2, hTv]
    rw [hDv, if_pos (by omega)]
    simp [Mem.free]
  show (pushBackElem pod d (.user v) (.user v) j a s).mem.ok = false
  unfold pushBackElem
  dsimp only
  unfold Mem.cp chk
  dsimp only
  rw [key]
  simp

/-- The hypotheses of the theorems are met by this history of vectors of objects, with growth, a size that is reduced and increased
again, an element of another vector as argument, and an assignment; and `push_own_wrong` applies to its end. -/
example : ∃ s : Heap (Option ℕ), Reach false 0 s ∧ seq s 0 = [some 7, some 0, some 5, some 7] ∧ seq s 1 = [some 7, some 0, some 5] ∧
    (exec false 0 (.pushBackElem 0 0 2 ⟨9, 9, fun _ => none⟩) s).mem.ok = false := by
  have h0 : Reach false 0 (Heap.init : Heap (Option ℕ)) := .init
  have h1 := Reach.step (op := Op.ctor 0 2 ⟨1, 2, fun _ => none⟩) h0 ⟨by constructor <;> decide, fun _ _ => rfl⟩
  have h2 := Reach.step (op := Op.set 0 0 7) h1 (by show _ < _; decide)
  have h3 := Reach.step (op := Op.pushBack 0 5 ⟨2, 4, fun _ => none⟩) h2 ⟨by constructor <;> decide, fun _ _ => rfl⟩
  have h4 := Reach.step (op := Op.assign 1 0 ⟨3, 3, fun _ => none⟩) h3 ⟨by constructor <;> decide, fun _ _ => rfl⟩
  have h5 := Reach.step (op := Op.pushBackElem 0 1 0 ⟨4, 4, fun _ => none⟩) h4
    ⟨by decide, ⟨by constructor <;> decide, fun _ _ => rfl⟩, fun h => absurd h (by decide)⟩
  exact ⟨_, h5, by decide +kernel, by decide +kernel,
    push_own_wrong h5 (by decide +kernel) (by decide +kernel) ⟨by constructor <;> decide +kernel, fun _ _ => rfl⟩⟩

end CppAD.Util.Pod
