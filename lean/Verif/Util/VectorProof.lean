import Verif.Util.Vector

/-! # Proofs for CppAD::vector (property C33) -/

namespace CppAD.Util.Vector

variable {α : Type}

/-- a loop that copies elements: `v[k+i] = w[i]` -/
theorem copyLoop {s : Heap α} (h : s.Inv) {v w : Var} {k n : ℕ} (hv : k + n ≤ (s.var v).cap) (hw : n ≤ (s.var w).cap)
    (hd : v ≠ w ∨ n ≤ k) {f : ℕ → Heap α → Heap α} (hf : ∀ i t, t.var = s.var → f i t = t.cp v (k + i) w i) :
    (forRange 0 n s f).Inv ∧ (forRange 0 n s f).var = s.var ∧
      ∀ u j, j < (s.var u).cap → (forRange 0 n s f).el u j = if u = v ∧ k ≤ j ∧ j < k + n then s.el w (j - k) else s.el u j := by
  refine forRange_ind (Nat.zero_le n) (s := s) (f := f) (P := fun m t => m ≤ n → t.Inv ∧ t.var = s.var ∧
      ∀ u j, j < (s.var u).cap → t.el u j = if u = v ∧ k ≤ j ∧ j < k + m then s.el w (j - k) else s.el u j) ?_ ?_ le_rfl
  · exact fun _ => ⟨h, rfl, fun u j _ => by rw [if_neg (by omega)]⟩
  · intro m t _ hm ih hm1
    obtain ⟨i1, i2, i3⟩ := ih (by omega)
    rw [hf m t i2]
    have c1 : k + m < (t.var v).cap := by rw [i2]; omega
    have c2 : m < (t.var w).cap := by rw [i2]; omega
    refine ⟨Heap.cp_inv i1 c1 c2, by rw [Heap.cp_var, i2], fun u j hj => ?_⟩
    rw [Heap.cp_el i1 c1 w m (by rw [i2]; exact hj), i3 u j hj, i3 w m (by omega)]
    by_cases e : u = v ∧ j = k + m
    · have q : ¬ (w = v ∧ k ≤ m ∧ m < k + m) := by
        rintro ⟨q1, q2, q3⟩
        rcases hd with hd | hd
        · exact hd q1.symm
        · omega
      rw [if_pos e, if_neg q, if_pos ⟨e.1, by omega, by omega⟩, e.2, Nat.add_sub_cancel_left]
    · rw [if_neg e]
      by_cases q : u = v ∧ k ≤ j ∧ j < k + m
      · rw [if_pos q, if_pos ⟨q.1, q.2.1, by omega⟩]
      · rw [if_neg q, if_neg]
        rintro ⟨q1, q2, q3⟩
        apply q
        refine ⟨q1, q2, ?_⟩
        have : j ≠ k + m := fun e' => e ⟨q1, e'⟩
        omega

/-- the state between operations -/
structure Good (s : Heap α) : Prop where
  inv : s.Inv
  len : ∀ v, (s.var v).len ≤ (s.var v).cap
  vec : (s.var .vec).cap = 0
  old : (s.var .old).cap = 0

theorem resize_spec {s : Heap α} (h : s.Inv) (hlen : ∀ v, (s.var v).len ≤ (s.var v).cap) (ho : (s.var .old).cap = 0)
    {v : Var} (hv : v ≠ .old) {n : ℕ} {a : Alloc α} (ha : (s.var v).cap < n → a.Fresh s.mem n) :
    (resize v n a s).Inv ∧ ((resize v n a s).var .old).cap = 0 ∧ (∀ u, ((resize v n a s).var u).len ≤ ((resize v n a s).var u).cap) ∧
      ((resize v n a s).var v).len = n ∧
      (∀ u, u ≠ v → u ≠ .old → (resize v n a s).var u = s.var u) ∧
      (∀ u i, u ≠ v → u ≠ .old → i < (s.var u).cap → (resize v n a s).el u i = s.el u i) ∧
      ∀ i, i < n → i < (s.var v).len → (resize v n a s).el v i = s.el v i := by
  by_cases h1 : (s.var v).cap < n
  · replace ha := ha h1
    by_cases h2 : (s.var v).cap = 0
    · have e : resize v n a s = ⟨s.mem.create a, Function.update s.var v ⟨a.cap, n, a.ptr⟩⟩ := by
        unfold resize
        simp only [h1, h2, if_true, Heap.setVar, Function.update_self, Function.update_idem]
        rw [if_pos (by omega)]
        simp
      rw [e]
      refine ⟨Heap.create_inv h h2 ha n, ?_, ?_, by simp, ?_, ?_, ?_⟩
      · simp only [Function.update_of_ne (Ne.symm hv)]; exact ho
      · intro u
        by_cases eu : u = v
        · subst eu; simpa using ha.2
        · simp only [Function.update_of_ne eu]; exact hlen u
      · intro u hu _; simp [hu]
      · intro u i hu _ hi
        show (s.mem.create a).val (Function.update s.var v _ u).ptr i = _
        rw [Function.update_of_ne hu, Heap.create_val_ne h ha (by omega)]
        rfl
      · intro i _ hi
        have := hlen v
        omega
    · -- reallocation
      set s2 : Heap α := ⟨s.mem.create a, Function.update (s.setVar .old (s.var v)).var v ⟨a.cap, (s.var v).len, a.ptr⟩⟩ with hs2
      have hs2v : s2.var v = ⟨a.cap, (s.var v).len, a.ptr⟩ := by simp [hs2]
      have hs2o : s2.var .old = s.var v := by
        rw [hs2]; simp only [Heap.setVar, Function.update_of_ne (Ne.symm hv), Function.update_self]
      have hs2u : ∀ u, u ≠ v → u ≠ .old → s2.var u = s.var u := by
        intro u h1 h2
        rw [hs2]; simp only [Heap.setVar, Function.update_of_ne h1, Function.update_of_ne h2]
      have i2 : s2.Inv := by
        have := Heap.create_inv (s := s.swapVar v .old) (Heap.swapVar_inv h v .old) (v := v)
          (by rw [Heap.swapVar_left]; exact ho) (a := a) (n := n) ha (s.var v).len
        refine (congrArg Heap.Inv ?_).mp this
        rw [hs2]
        refine congrArg (Heap.mk _) ?_
        funext u
        by_cases e1 : u = v
        · subst e1; simp
        · by_cases e2 : u = .old
          · subst e2; simp [Heap.setVar, e1, Heap.swapVar_right]
          · simp [Heap.setVar, e1, e2, Heap.swapVar_ne e1 e2]
      have hc := hlen v
      obtain ⟨j1, j2, j3⟩ := copyLoop i2 (v := v) (w := .old) (k := 0) (n := (s2.var v).len) (by rw [hs2v]; simp only; have := ha.2; omega)
        (by rw [hs2v, hs2o]; exact hc) (Or.inl hv) (f := fun i s => s.cp v i .old i) (fun i t _ => by rw [Nat.zero_add])
      set s3 := forRange 0 (s2.var v).len s2 fun i s => s.cp v i .old i with hs3
      have e : resize v n a s = (s3.release .old).setVar v { (s3.release .old).var v with len := n } := by
        unfold resize
        rw [if_pos h1, if_neg h2]
        simp only [hs3, hs2, Heap.setVar, Function.update_of_ne hv]
      have k0 := Heap.release_inv j1 .old
      have kv : (s3.release .old).var v = s2.var v := by rw [Heap.release_var hv, j2]
      have kel : ∀ u i, u ≠ .old → i < (s2.var u).cap → (resize v n a s).el u i = s3.el u i := by
        intro u i hu _
        rw [e]
        unfold Heap.el
        have : (((s3.release .old).setVar v { (s3.release .old).var v with len := n }).var u).ptr = (s3.var u).ptr := by
          unfold Heap.setVar
          by_cases eu : u = v
          · subst eu; simp [Heap.release_var hu]
          · simp [eu, Heap.release_var hu]
        rw [this]
        show (s3.release .old).mem.val _ _ = _
        rw [Heap.release_val]
      refine ⟨by rw [e]; exact Heap.setLen_inv k0 v n, ?_, ?_, by rw [e]; simp [Heap.setVar], ?_, ?_, ?_⟩
      · rw [e]; simp [Heap.setVar, Ne.symm hv, Heap.release_self]
      · intro u
        rw [e]
        by_cases eu : u = v
        · subst eu; simp only [Heap.setVar, Function.update_self, kv, hs2v]; exact ha.2
        · simp only [Heap.setVar, Function.update_of_ne eu]
          by_cases eo : u = .old
          · subst eo; rw [Heap.release_self]
          · rw [Heap.release_var eo, j2, hs2u u eu eo]; exact hlen u
      · intro u eu eo
        rw [e]; simp only [Heap.setVar, Function.update_of_ne eu]
        rw [Heap.release_var eo, j2, hs2u u eu eo]
      · intro u i eu eo hi
        rw [kel u i eo (by rw [hs2u u eu eo]; exact hi), j3 u i (by rw [hs2u u eu eo]; exact hi), if_neg (fun c => eu c.1)]
        show (s.mem.create a).val (s2.var u).ptr i = _
        rw [hs2u u eu eo, Heap.create_val_ne h ha (by omega)]
        rfl
      · intro i hi hi2
        have q : i < (s2.var v).cap := by rw [hs2v]; have := ha.2; simp only; omega
        rw [kel v i hv q, j3 v i q, if_pos ⟨rfl, Nat.zero_le _, by rw [hs2v]; simpa using hi2⟩]
        show (s.mem.create a).val (s2.var .old).ptr _ = _
        rw [hs2o, Heap.create_val_ne h ha (by omega)]
        rfl
  · have e : resize v n a s = s.setVar v { s.var v with len := n } := by unfold resize; rw [if_neg h1]
    rw [e]
    refine ⟨Heap.setLen_inv h v n, ?_, ?_, by simp [Heap.setVar], ?_, ?_, ?_⟩
    · simp only [Heap.setVar, Function.update_of_ne (Ne.symm hv)]; exact ho
    · intro u
      by_cases eu : u = v
      · subst eu; simp only [Heap.setVar, Function.update_self]; omega
      · simp only [Heap.setVar, Function.update_of_ne eu]; exact hlen u
    · intro u hu _; simp [Heap.setVar, hu]
    · intro u i hu _ _; simp [Heap.setVar, hu, Heap.el]
    · intro i _ _; simp [Heap.setVar, Heap.el]

theorem seq_length (s : Heap α) (v : ℕ) : (seq s v).length = size s v := by simp [seq]

/-- two lists are equal when their length and elements are -/
theorem seq_eq {s : Heap α} {v : ℕ} {l : List α} (h1 : size s v = l.length)
    (h2 : ∀ i (h : i < l.length), s.el (.user v) i = l[i]) : seq s v = l := by
  apply List.ext_getElem
  · rw [seq_length, h1]
  · intro i _ hi
    simp only [seq, List.getElem_map, List.getElem_range]
    exact h2 i hi

theorem seq_getElem (s : Heap α) (v i : ℕ) (h : i < (seq s v).length) : (seq s v)[i] = s.el (.user v) i := by
  simp [seq]

theorem seq_update {s s' : Heap α} {v : ℕ} {l : List α} (h1 : ∀ u, u ≠ v → size s' u = size s u)
    (h2 : ∀ u i, u ≠ v → i < size s u → s'.el (.user u) i = s.el (.user u) i) (h3 : seq s' v = l) :
    seq s' = Function.update (seq s) v l := by
  funext u
  by_cases e : u = v
  · subst e; rw [h3]; simp
  · rw [Function.update_of_ne e]
    apply seq_eq
    · rw [seq_length]; exact h1 u e
    · intro i hi
      rw [seq_getElem]
      rw [seq_length] at hi
      exact h2 u i e hi

theorem user_ne {u v : ℕ} (h : u ≠ v) : Var.user u ≠ Var.user v := fun e => h (by injection e)

theorem Good.len_user {s : Heap α} (h : Good s) (v : ℕ) : size s v ≤ (s.var (.user v)).cap := h.len _

/-- resize of a user variable -/
theorem resize_good {s : Heap α} (h : Good s) {v n : ℕ} {a : Alloc α} (ha : a.Fresh s.mem n) :
    Good (resize (.user v) n a s) ∧ ∃ l, l.length = n ∧ (∀ i, i < n → i < (seq s v).length → l[i]? = (seq s v)[i]?) ∧
      seq (resize (.user v) n a s) = Function.update (seq s) v l := by
  obtain ⟨r1, r2, r3, r4, r5, r6, r7⟩ := resize_spec h.inv h.len h.old (v := .user v) (by simp) (n := n) (a := a) (fun _ => ha)
  refine ⟨⟨r1, r3, by rw [r5 _ (by simp) (by simp)]; exact h.vec, r2⟩, seq (resize (.user v) n a s) v, ?_, ?_, ?_⟩
  · rw [seq_length]; exact r4
  · intro i hi hi2
    have hi2' := hi2
    rw [seq_length] at hi2'
    rw [List.getElem?_eq_getElem (by rw [seq_length]; unfold size; omega), List.getElem?_eq_getElem hi2, seq_getElem, seq_getElem,
      r7 i hi hi2']
  · refine seq_update (fun u hu => ?_) (fun u i hu hi => ?_) rfl
    · unfold size; rw [r5 _ (user_ne hu) (by simp)]
    · have := h.len_user u
      exact r6 _ i (user_ne hu) (by simp) (by omega)

theorem release_good {s : Heap α} (h : Good s) (v : ℕ) :
    Good (s.release (.user v)) ∧ seq (s.release (.user v)) = Function.update (seq s) v [] := by
  refine ⟨⟨Heap.release_inv h.inv _, fun u => ?_, by rw [Heap.release_var (by simp)]; exact h.vec,
    by rw [Heap.release_var (by simp)]; exact h.old⟩, seq_update (fun u hu => ?_) (fun u i hu _ => ?_) ?_⟩
  · by_cases e : u = .user v
    · subst e; rw [Heap.release_self]
    · rw [Heap.release_var e]; exact h.len u
  · unfold size; rw [Heap.release_var (user_ne hu)]
  · rw [Heap.release_el (user_ne hu)]
  · unfold seq size; rw [Heap.release_self]; rfl

theorem swap_good {s : Heap α} (h : Good s) (v w : ℕ) :
    Good (swap (.user v) (.user w) s) ∧
      seq (swap (.user v) (.user w) s) = Function.update (Function.update (seq s) v (seq s w)) w (seq s v) := by
  unfold swap
  by_cases e : v = w
  · subst e
    rw [if_pos rfl]
    exact ⟨h, by simp⟩
  rw [if_neg (user_ne e)]
  refine ⟨⟨Heap.swapVar_inv h.inv _ _, fun u => ?_, by rw [Heap.swapVar_ne (by simp) (by simp)]; exact h.vec,
    by rw [Heap.swapVar_ne (by simp) (by simp)]; exact h.old⟩, ?_⟩
  · by_cases e1 : u = .user v
    · subst e1; rw [Heap.swapVar_left]; exact h.len _
    · by_cases e2 : u = .user w
      · subst e2; rw [Heap.swapVar_right]; exact h.len _
      · rw [Heap.swapVar_ne e1 e2]; exact h.len _
  · funext u
    by_cases e2 : u = w
    · subst e2
      rw [Function.update_self]
      unfold seq size Heap.el
      rw [Heap.swapVar_right]; rfl
    · rw [Function.update_of_ne e2]
      by_cases e1 : u = v
      · subst e1
        rw [Function.update_self]
        unfold seq size Heap.el
        rw [Heap.swapVar_left]; rfl
      · rw [Function.update_of_ne e1]
        unfold seq size Heap.el
        rw [Heap.swapVar_ne (user_ne e1) (user_ne e2)]; rfl

/-- copying all the elements of `w` -/
theorem copy_good {s : Heap α} (h : Good s) {v w : ℕ} (e : v ≠ w) (hl : size s v = size s w) :
    Good (forRange 0 (s.var (.user v)).len s fun i s => s.cp (.user v) i (.user w) i) ∧
      seq (forRange 0 (s.var (.user v)).len s fun i s => s.cp (.user v) i (.user w) i) = Function.update (seq s) v (seq s w) := by
  have hv := h.len_user v
  have hw := h.len_user w
  have hl' : (s.var (.user v)).len = (s.var (.user w)).len := hl
  obtain ⟨j1, j2, j3⟩ := copyLoop h.inv (v := .user v) (w := .user w) (k := 0) (n := (s.var (.user v)).len)
    (by unfold size at hv; omega) (by unfold size at hw; omega) (Or.inl (user_ne e)) (f := fun i s => s.cp (.user v) i (.user w) i)
    (fun i t _ => by rw [Nat.zero_add])
  refine ⟨⟨j1, by rw [j2]; exact h.len, by rw [j2]; exact h.vec, by rw [j2]; exact h.old⟩, ?_⟩
  refine seq_update (fun u hu => by unfold size; rw [j2]) (fun u i hu hi => ?_) (seq_eq ?_ fun i hi => ?_)
  · have := h.len_user u
    rw [j3 _ _ (by omega), if_neg (fun c => user_ne hu c.1)]
  · rw [seq_length]; unfold size; rw [j2]; exact hl
  · rw [seq_getElem]
    rw [seq_length] at hi
    rw [j3 _ _ (by omega), if_pos ⟨rfl, Nat.zero_le _, by rw [hl']; have : i < (s.var (.user w)).len := hi; omega⟩, Nat.sub_zero]

theorem fill_good {s : Heap α} (h : Good s) (v : ℕ) (x : α) :
    Good (fill (.user v) x s) ∧ seq (fill (.user v) x s) = Function.update (seq s) v (List.replicate (size s v) x) := by
  have hv := h.len_user v
  have key : (fill (.user v) x s).Inv ∧ (fill (.user v) x s).var = s.var ∧ ∀ u j, j < (s.var u).cap →
      (fill (.user v) x s).el u j = if u = .user v ∧ j < size s v then x else s.el u j := by
    unfold fill
    refine forRange_ind (Nat.zero_le _) (s := s) (P := fun m t => m ≤ size s v → t.Inv ∧ t.var = s.var ∧ ∀ u j, j < (s.var u).cap →
      t.el u j = if u = .user v ∧ j < m then x else s.el u j) ?_ ?_ le_rfl
    · exact fun _ => ⟨h.inv, rfl, fun u j _ => by rw [if_neg (by omega)]⟩
    · intro m t _ hm ih hm1
      obtain ⟨i1, i2, i3⟩ := ih (by omega)
      have c1 : m < (t.var (.user v)).cap := by rw [i2]; omega
      refine ⟨Heap.wr_inv i1 c1 x, by rw [Heap.wr_var, i2], fun u j hj => ?_⟩
      rw [Heap.wr_el i1 c1 x (by rw [i2]; exact hj), i3 u j hj]
      by_cases e : u = .user v
      · by_cases e2 : j = m
        · rw [if_pos ⟨e, e2⟩, if_pos ⟨e, by omega⟩]
        · rw [if_neg (fun c => e2 c.2)]
          by_cases e3 : j < m
          · rw [if_pos ⟨e, e3⟩, if_pos ⟨e, by omega⟩]
          · rw [if_neg (fun c => e3 c.2), if_neg (fun c => by have := c.2; omega)]
      · rw [if_neg (fun c => e c.1), if_neg (fun c => e c.1), if_neg (fun c => e c.1)]
  obtain ⟨k1, k2, k3⟩ := key
  refine ⟨⟨k1, by rw [k2]; exact h.len, by rw [k2]; exact h.vec, by rw [k2]; exact h.old⟩, ?_⟩
  refine seq_update (fun u hu => by unfold size; rw [k2]) (fun u i hu hi => ?_) (seq_eq ?_ fun i hi => ?_)
  · have := h.len_user u
    rw [k3 _ _ (by omega), if_neg (fun c => user_ne hu c.1)]
  · rw [List.length_replicate]; unfold size; rw [k2]
  · rw [List.length_replicate] at hi
    rw [k3 _ _ (by omega), if_pos ⟨rfl, hi⟩, List.getElem_replicate]

theorem set_good {s s' : Heap α} (h : Good s) {v i : ℕ} (hi : i < size s v) {x : α} (k1 : s'.Inv) (k2 : s'.var = s.var)
    (k3 : ∀ u k, k < (s.var u).cap → s'.el u k = if u = .user v ∧ k = i then x else s.el u k) :
    Good s' ∧ seq s' = Function.update (seq s) v ((seq s v).set i x) := by
  refine ⟨⟨k1, by rw [k2]; exact h.len, by rw [k2]; exact h.vec, by rw [k2]; exact h.old⟩, ?_⟩
  refine seq_update (fun u hu => by unfold size; rw [k2]) (fun u j hu hj => ?_) (seq_eq ?_ fun j hj => ?_)
  · have := h.len_user u
    rw [k3 _ _ (by omega), if_neg (fun c => user_ne hu c.1)]
  · rw [List.length_set, seq_length]; unfold size; rw [k2]
  · rw [List.length_set, seq_length] at hj
    have := h.len_user v
    rw [k3 _ _ (by omega), List.getElem_set]
    by_cases e : i = j
    · rw [if_pos e, if_pos ⟨rfl, e.symm⟩]
    · rw [if_neg e, if_neg (fun c => e c.2.symm), seq_getElem]

/-- what the assignment of the argument of push_back does -/
def PutOk (s : Heap α) (put : Var → ℕ → Heap α → Heap α) (x : α) : Prop :=
  ∀ (t : Heap α) u i, t.Inv → (∀ y, t.var (.user y) = s.var (.user y)) → (∀ y k, k < (s.var (.user y)).cap → t.el (.user y) k = s.el (.user y) k) →
    i < (t.var u).cap → (put u i t).Inv ∧ (put u i t).var = t.var ∧
      ∀ u' k, k < (t.var u').cap → (put u i t).el u' k = if u' = u ∧ k = i then x else t.el u' k

theorem pushBack_good {s : Heap α} (h : Good s) {v : ℕ} {put : Var → ℕ → Heap α → Heap α} {x : α} (hput : PutOk s put x) {a : Alloc α}
    (ha : a.Fresh s.mem (size s v + 1)) :
    Good (pushBack (.user v) put a s) ∧ seq (pushBack (.user v) put a s) = Function.update (seq s) v (seq s v ++ [x]) := by
  have hv := h.len_user v
  unfold pushBack
  by_cases hc : (s.var (.user v)).len < (s.var (.user v)).cap
  · rw [if_pos hc]
    obtain ⟨p1, p2, p3⟩ := hput s (.user v) (s.var (.user v)).len h.inv (fun _ => rfl) (fun _ _ _ => rfl) hc
    set s' := put (.user v) (s.var (.user v)).len s with hs'
    dsimp only
    have hvar : ∀ u, u ≠ .user v → (s'.setVar (.user v) { s'.var (.user v) with len := (s'.var (.user v)).len + 1 }).var u = s.var u := by
      intro u hu; simp [Heap.setVar, hu, p2]
    have hself : (s'.setVar (.user v) { s'.var (.user v) with len := (s'.var (.user v)).len + 1 }).var (.user v) =
        { s.var (.user v) with len := (s.var (.user v)).len + 1 } := by simp [Heap.setVar, p2]
    have hel : ∀ u k, k < (s.var u).cap → (s'.setVar (.user v) { s'.var (.user v) with len := (s'.var (.user v)).len + 1 }).el u k =
        if u = .user v ∧ k = (s.var (.user v)).len then x else s.el u k := by
      intro u k hk
      rw [← p3 u k hk]
      unfold Heap.el
      by_cases e : u = .user v
      · subst e; rw [hself, p2]; rfl
      · rw [hvar u e, p2]; rfl
    refine ⟨⟨Heap.setLen_inv p1 _ _, fun u => ?_, by rw [hvar _ (by simp)]; exact h.vec, by rw [hvar _ (by simp)]; exact h.old⟩, ?_⟩
    · by_cases e : u = .user v
      · subst e; rw [hself]; exact hc
      · rw [hvar u e]; exact h.len u
    · refine seq_update (fun u hu => by unfold size; rw [hvar _ (user_ne hu)]) (fun u j hu hj => ?_) (seq_eq ?_ fun j hj => ?_)
      · have := h.len_user u
        rw [hel _ _ (by omega), if_neg (fun c => user_ne hu c.1)]
      · rw [List.length_append, seq_length]; unfold size; rw [hself]; rfl
      · have hj' := hj
        rw [List.length_append, seq_length] at hj'
        have : j ≤ (s.var (.user v)).len := by unfold size at hj'; simpa using Nat.lt_succ_iff.1 hj'
        rw [hel _ _ (by omega), List.getElem_append]
        by_cases e : j = (s.var (.user v)).len
        · rw [if_pos ⟨rfl, e⟩, dif_neg (by rw [seq_length]; unfold size; omega)]; simp
        · rw [if_neg (fun c => e c.2), dif_pos (by rw [seq_length]; unfold size; omega), seq_getElem]
  · rw [if_neg hc]
    have hlen : (s.var (.user v)).len = (s.var (.user v)).cap := by unfold size at hv; omega
    obtain ⟨r1, r2, r3, r4, r5, r6, _⟩ := resize_spec h.inv h.len h.old (v := .vec) (by simp) (n := (s.var (.user v)).len + 1) (a := a)
      (fun _ => ha)
    set s1 := resize .vec ((s.var (.user v)).len + 1) a s with hs1
    have q5 : ∀ y, s1.var (.user y) = s.var (.user y) := fun y => r5 _ (by simp) (by simp)
    have q6 : ∀ y k, k < (s.var (.user y)).cap → s1.el (.user y) k = s.el (.user y) k := fun y k hk => r6 _ k (by simp) (by simp) hk
    have hcap : (s.var (.user v)).len + 1 ≤ (s1.var .vec).cap := by have := r3 .vec; rw [r4] at this; exact this
    obtain ⟨j1, j2, j3⟩ := copyLoop r1 (v := .vec) (w := .user v) (k := 0) (n := (s1.var (.user v)).len)
      (by rw [q5]; omega) (by rw [q5]; omega) (Or.inl (by simp)) (f := fun i s => s.cp .vec i (.user v) i)
      (fun i t _ => by rw [Nat.zero_add])
    dsimp only
    set s2 := forRange 0 (s1.var (.user v)).len s1 fun i s => s.cp .vec i (.user v) i with hs2
    obtain ⟨p1, p2, p3⟩ := hput s2 .vec (s2.var (.user v)).len j1 (fun y => by rw [j2, q5])
      (fun y k hk => by rw [j3 _ _ (by rw [q5]; exact hk), if_neg (by simp), q6 y k hk]) (by rw [j2, q5]; omega)
    set s3 := put .vec (s2.var (.user v)).len s2 with hs3
    have v3 : s3.var = s1.var := by rw [p2, j2]
    have e3 : ∀ u k, k < (s1.var u).cap → s3.el u k = if u = .vec ∧ k = (s.var (.user v)).len then x else
        if u = .vec ∧ k < (s.var (.user v)).len then s1.el (.user v) k else s1.el u k := by
      intro u k hk
      rw [p3 u k (by rw [j2]; exact hk), j3 u k hk, j2, q5]
      simp
    have sw : swap (.user v) .vec s3 = s3.swapVar (.user v) .vec := by unfold swap; rw [if_neg (by simp)]
    rw [sw]
    unfold clear
    set s5 := (s3.swapVar (.user v) .vec).release .vec with hs5
    have v5 : ∀ u, u ≠ .user v → u ≠ .vec → s5.var u = s1.var u := by
      intro u h1 h2; rw [hs5, Heap.release_var h2, Heap.swapVar_ne h1 h2, v3]
    have v5v : s5.var (.user v) = s1.var .vec := by rw [hs5, Heap.release_var (by simp), Heap.swapVar_left, v3]
    have e5 : ∀ u k, u ≠ .user v → u ≠ .vec → s5.el u k = s3.el u k := by
      intro u k h1 h2; unfold Heap.el; rw [v5 u h1 h2, v3, hs5, Heap.release_val]; rfl
    have e5v : ∀ k, s5.el (.user v) k = s3.el .vec k := by
      intro k; unfold Heap.el; rw [v5v, v3, hs5, Heap.release_val]; rfl
    refine ⟨⟨Heap.release_inv (Heap.swapVar_inv p1 _ _) _, fun u => ?_, by rw [hs5, Heap.release_self], by rw [v5 _ (by simp) (by simp)]; exact r2⟩, ?_⟩
    · by_cases e1 : u = .user v
      · subst e1; rw [v5v]; exact r3 _
      · by_cases e2 : u = .vec
        · subst e2; rw [hs5, Heap.release_self]
        · rw [v5 u e1 e2]; exact r3 u
    · refine seq_update (fun u hu => by unfold size; rw [v5 _ (user_ne hu) (by simp), q5]) (fun u j hu hj => ?_) (seq_eq ?_ fun j hj => ?_)
      · have := h.len_user u
        rw [e5 _ _ (user_ne hu) (by simp), e3 _ _ (by rw [q5]; omega), if_neg (by simp), if_neg (by simp), q6 _ _ (by omega)]
      · rw [List.length_append, seq_length]; unfold size; rw [v5v, r4]; rfl
      · have hj' := hj
        rw [List.length_append, seq_length] at hj'
        have : j ≤ (s.var (.user v)).len := by unfold size at hj'; simpa using Nat.lt_succ_iff.1 hj'
        rw [e5v, e3 _ _ (by omega), List.getElem_append]
        by_cases e : j = (s.var (.user v)).len
        · rw [if_pos ⟨rfl, e⟩, dif_neg (by rw [seq_length]; unfold size; omega)]; simp
        · rw [if_neg (fun c => e c.2), if_pos ⟨rfl, by omega⟩, dif_pos (by rw [seq_length]; unfold size; omega), seq_getElem,
            q6 _ _ (by omega)]

theorem pushVector_good {s : Heap α} (h : Good s) {v w : ℕ} {a : Alloc α} (ha : a.Fresh s.mem (size s v + size s w)) :
    Good (pushVector (.user v) (.user w) a s) ∧
      seq (pushVector (.user v) (.user w) a s) = Function.update (seq s) v (seq s v ++ seq s w) := by
  have hv := h.len_user v
  have hw := h.len_user w
  unfold size at hv hw ha
  unfold pushVector
  dsimp only
  by_cases hc : (s.var (.user v)).len + (s.var (.user w)).len ≤ (s.var (.user v)).cap
  · rw [if_pos hc]
    have key : ∀ M, M ≤ (s.var (.user w)).len → ∀ r, r = forRange 0 M s (fun i s =>
        (s.cp (.user v) (s.var (.user v)).len (.user w) i).setVar (.user v)
          { (s.cp (.user v) (s.var (.user v)).len (.user w) i).var (.user v) with
            len := ((s.cp (.user v) (s.var (.user v)).len (.user w) i).var (.user v)).len + 1 }) →
        r.Inv ∧ r.var = Function.update s.var (.user v) { s.var (.user v) with len := (s.var (.user v)).len + M } ∧
        ∀ u k, k < (s.var u).cap → r.el u k = if u = .user v ∧ (s.var (.user v)).len ≤ k ∧ k < (s.var (.user v)).len + M then
          s.el (.user w) (k - (s.var (.user v)).len) else s.el u k := by
      intro M
      induction M with
      | zero =>
        intro _ r hr
        rw [forRange_of_le (le_refl 0)] at hr
        subst hr
        refine ⟨h.inv, by simp, fun u k _ => by rw [if_neg (by omega)]⟩
      | succ M ih =>
        intro hM r hr
        obtain ⟨i1, i2, i3⟩ := ih (by omega) _ rfl
        rw [forRange_succ (Nat.zero_le M)] at hr
        set t := forRange 0 M s (fun i s =>
          (s.cp (.user v) (s.var (.user v)).len (.user w) i).setVar (.user v)
            { (s.cp (.user v) (s.var (.user v)).len (.user w) i).var (.user v) with
              len := ((s.cp (.user v) (s.var (.user v)).len (.user w) i).var (.user v)).len + 1 }) with ht
        clear_value t
        have tv : t.var (.user v) = { s.var (.user v) with len := (s.var (.user v)).len + M } := by rw [i2]; simp
        have tcap : ∀ u, (t.var u).cap = (s.var u).cap := by
          intro u; rw [i2]
          by_cases e : u = .user v
          · subst e; simp
          · simp [e]
        have tptr : ∀ u, (t.var u).ptr = (s.var u).ptr := by
          intro u; rw [i2]
          by_cases e : u = .user v
          · subst e; simp
          · simp [e]
        have tl : (t.var (.user v)).len = (s.var (.user v)).len + M := by rw [tv]
        have c1 : (t.var (.user v)).len < (t.var (.user v)).cap := by rw [tl, tcap]; omega
        have c2 : M < (t.var (.user w)).cap := by rw [tcap]; omega
        have ci := Heap.cp_inv i1 (v := .user v) (w := .user w) (i := (t.var (.user v)).len) (j := M) c1 c2
        subst hr
        refine ⟨Heap.setLen_inv ci _ _, ?_, fun u k hk => ?_⟩
        · show Function.update t.var _ _ = _
          rw [Heap.cp_var, i2, Function.update_idem, Function.update_self]
          rfl
        · have e0 : ((t.cp (.user v) (t.var (.user v)).len (.user w) M).setVar (.user v)
            { (t.cp (.user v) (t.var (.user v)).len (.user w) M).var (.user v) with
              len := ((t.cp (.user v) (t.var (.user v)).len (.user w) M).var (.user v)).len + 1 }).el u k =
              (t.cp (.user v) (t.var (.user v)).len (.user w) M).el u k := by
            unfold Heap.el Heap.setVar
            by_cases e : u = .user v
            · subst e; simp
            · simp [e]
          rw [e0, Heap.cp_el i1 c1 _ _ (by rw [tcap]; exact hk), tl, i3 u k hk, i3 _ M (by omega)]
          have q : ¬ (Var.user w = Var.user v ∧ (s.var (.user v)).len ≤ M ∧ M < (s.var (.user v)).len + M) := by
            rintro ⟨q1, q2, q3⟩
            rw [q1] at hM
            omega
          rw [if_neg q]
          by_cases e : u = .user v
          · by_cases e1 : k = (s.var (.user v)).len + M
            · rw [if_pos ⟨e, e1⟩, if_pos ⟨e, by omega, by omega⟩, e1, Nat.add_sub_cancel_left]
            · rw [if_neg (fun c => e1 c.2)]
              by_cases e2 : (s.var (.user v)).len ≤ k ∧ k < (s.var (.user v)).len + M
              · rw [if_pos ⟨e, e2⟩, if_pos ⟨e, e2.1, by omega⟩]
              · rw [if_neg (fun c => e2 c.2), if_neg (fun c => e2 ⟨c.2.1, by have := c.2.2; omega⟩)]
          · rw [if_neg (fun c => e c.1), if_neg (fun c => e c.1), if_neg (fun c => e c.1)]
    obtain ⟨k1, k2, k3⟩ := key _ le_rfl _ rfl
    set r := forRange 0 (s.var (.user w)).len s (fun i s =>
        (s.cp (.user v) (s.var (.user v)).len (.user w) i).setVar (.user v)
          { (s.cp (.user v) (s.var (.user v)).len (.user w) i).var (.user v) with
            len := ((s.cp (.user v) (s.var (.user v)).len (.user w) i).var (.user v)).len + 1 }) with hr
    clear_value r
    have hvar : ∀ u, u ≠ .user v → r.var u = s.var u := fun u hu => by rw [k2]; simp [hu]
    have hself : r.var (.user v) = { s.var (.user v) with len := (s.var (.user v)).len + (s.var (.user w)).len } := by rw [k2]; simp
    refine ⟨⟨k1, fun u => ?_, by rw [hvar _ (by simp)]; exact h.vec, by rw [hvar _ (by simp)]; exact h.old⟩, ?_⟩
    · by_cases e : u = .user v
      · subst e; rw [hself]; exact hc
      · rw [hvar u e]; exact h.len u
    · refine seq_update (fun u hu => by unfold size; rw [hvar _ (user_ne hu)]) (fun u j hu hj => ?_) (seq_eq ?_ fun j hj => ?_)
      · have := h.len_user u
        rw [k3 _ _ (by omega), if_neg (fun c => user_ne hu c.1)]
      · rw [List.length_append, seq_length, seq_length]; unfold size; rw [hself]
      · have hj' := hj
        rw [List.length_append, seq_length, seq_length] at hj'
        unfold size at hj'
        rw [k3 _ _ (by omega), List.getElem_append]
        by_cases e : j < (s.var (.user v)).len
        · rw [if_neg (fun c => by omega), dif_pos (by rw [seq_length]; exact e), seq_getElem]
        · rw [if_pos ⟨rfl, by omega, by omega⟩, dif_neg (by rw [seq_length]; exact e), seq_getElem]
          simp only [seq_length]
          rfl
  · rw [if_neg hc]
    obtain ⟨r1, r2, r3, r4, r5, r6, _⟩ := resize_spec h.inv h.len h.old (v := .vec) (by simp)
      (n := (s.var (.user v)).len + (s.var (.user w)).len) (a := a) (fun _ => ha)
    set s1 := resize .vec ((s.var (.user v)).len + (s.var (.user w)).len) a s with hs1
    have q5 : ∀ y, s1.var (.user y) = s.var (.user y) := fun y => r5 _ (by simp) (by simp)
    have q6 : ∀ y k, k < (s.var (.user y)).cap → s1.el (.user y) k = s.el (.user y) k := fun y k hk => r6 _ k (by simp) (by simp) hk
    have hcap : (s.var (.user v)).len + (s.var (.user w)).len ≤ (s1.var .vec).cap := by have := r3 .vec; rw [r4] at this; exact this
    obtain ⟨j1, j2, j3⟩ := copyLoop r1 (v := .vec) (w := .user v) (k := 0) (n := (s1.var (.user v)).len)
      (by rw [q5]; omega) (by rw [q5]; omega) (Or.inl (by simp)) (f := fun i s => s.cp .vec i (.user v) i)
      (fun i t _ => by rw [Nat.zero_add])
    set s2 := forRange 0 (s1.var (.user v)).len s1 fun i s => s.cp .vec i (.user v) i with hs2
    obtain ⟨p1, p2, p3⟩ := copyLoop j1 (v := .vec) (w := .user w) (k := (s.var (.user v)).len) (n := (s.var (.user w)).len)
      (by rw [j2]; omega) (by rw [j2, q5]; omega) (Or.inl (by simp)) (f := fun i s => s.cp .vec ((s.var (.user v)).len + i) (.user w) i)
      (fun i t ht => by rw [ht, j2, q5])
    set s3 := forRange 0 (s.var (.user w)).len s2 fun i s => s.cp .vec ((s.var (.user v)).len + i) (.user w) i with hs3
    have v3 : s3.var = s1.var := by rw [p2, j2]
    have e3 : ∀ k, k < (s.var (.user v)).len + (s.var (.user w)).len → s3.el .vec k = if k < (s.var (.user v)).len then s.el (.user v) k
        else s.el (.user w) (k - (s.var (.user v)).len) := by
      intro k hk
      rw [p3 _ k (by rw [j2]; omega)]
      by_cases e : k < (s.var (.user v)).len
      · rw [if_neg (by omega), if_pos e, j3 _ k (by omega), if_pos ⟨rfl, Nat.zero_le _, by rw [q5]; omega⟩, q6 _ _ (by omega), Nat.sub_zero]
      · rw [if_pos ⟨rfl, by omega, by omega⟩, if_neg e, j3 _ _ (by rw [q5]; omega), if_neg (by simp), q6 _ _ (by omega)]
    have e3u : ∀ y k, k < (s.var (.user y)).cap → s3.el (.user y) k = s.el (.user y) k := by
      intro y k hk
      rw [p3 _ k (by rw [j2, q5]; exact hk), if_neg (by simp), j3 _ k (by rw [q5]; exact hk), if_neg (by simp), q6 y k hk]
    have sw : swap (.user v) .vec s3 = s3.swapVar (.user v) .vec := by unfold swap; rw [if_neg (by simp)]
    rw [sw]
    unfold clear
    set s5 := (s3.swapVar (.user v) .vec).release .vec with hs5
    have v5 : ∀ u, u ≠ .user v → u ≠ .vec → s5.var u = s1.var u := by
      intro u h1 h2; rw [hs5, Heap.release_var h2, Heap.swapVar_ne h1 h2, v3]
    have v5v : s5.var (.user v) = s1.var .vec := by rw [hs5, Heap.release_var (by simp), Heap.swapVar_left, v3]
    have e5 : ∀ u k, u ≠ .user v → u ≠ .vec → s5.el u k = s3.el u k := by
      intro u k h1 h2; unfold Heap.el; rw [v5 u h1 h2, v3, hs5, Heap.release_val]; rfl
    have e5v : ∀ k, s5.el (.user v) k = s3.el .vec k := by
      intro k; unfold Heap.el; rw [v5v, v3, hs5, Heap.release_val]; rfl
    refine ⟨⟨Heap.release_inv (Heap.swapVar_inv p1 _ _) _, fun u => ?_, by rw [hs5, Heap.release_self], by rw [v5 _ (by simp) (by simp)]; exact r2⟩, ?_⟩
    · by_cases e1 : u = .user v
      · subst e1; rw [v5v]; exact r3 _
      · by_cases e2 : u = .vec
        · subst e2; rw [hs5, Heap.release_self]
        · rw [v5 u e1 e2]; exact r3 u
    · refine seq_update (fun u hu => by unfold size; rw [v5 _ (user_ne hu) (by simp), q5]) (fun u j hu hj => ?_) (seq_eq ?_ fun j hj => ?_)
      · have := h.len_user u
        rw [e5 _ _ (user_ne hu) (by simp), e3u _ _ (by omega)]
      · rw [List.length_append, seq_length, seq_length]; unfold size; rw [v5v, r4]
      · have hj' := hj
        rw [List.length_append, seq_length, seq_length] at hj'
        unfold size at hj'
        rw [e5v, e3 _ hj', List.getElem_append]
        by_cases e : j < (s.var (.user v)).len
        · rw [if_pos e, dif_pos (by rw [seq_length]; exact e), seq_getElem]
        · rw [if_neg e, dif_neg (by rw [seq_length]; exact e), seq_getElem]
          simp only [seq_length]
          rfl

/-- Each operation keeps the invariants and has the specified effect, except copy assignment of a vector to itself,
which removes all the elements. -/
theorem exec_good {s : Heap α} (h : Good s) {op : Op α} (hv : op.Valid s (seq s)) :
    Good (exec op s) ∧ (¬ op.SelfAssign → op.Spec (seq s) (seq (exec op s))) ∧
      ∀ v a, op = .assign v v a → seq (exec op s) = Function.update (seq s) v [] := by
  cases op with
  | ctor v n a =>
    obtain ⟨g, e⟩ := release_good h v
    obtain ⟨g', l, l1, _, l3⟩ := resize_good g (v := v) (a := a) hv
    exact ⟨g', fun _ => ⟨l, l1, by simp only [exec]; rw [l3, e, Function.update_idem]⟩, fun _ _ c => by cases c⟩
  | ctorValue v n x a =>
    obtain ⟨g, e⟩ := release_good h v
    obtain ⟨g', l, l1, _, l3⟩ := resize_good g (v := v) (a := a) hv
    obtain ⟨g2, e2⟩ := fill_good g' v x
    refine ⟨g2, fun _ => ?_, fun _ _ c => by cases c⟩
    simp only [Op.Spec, exec]
    rw [e2, l3, e, Function.update_idem, Function.update_idem, ← seq_length, l3, Function.update_self, l1]
  | ctorCopy v w a =>
    obtain ⟨g, e⟩ := release_good h v
    have hw : seq (s.release (.user v)) w = seq s w := by rw [e, Function.update_of_ne (Ne.symm hv.1)]
    have hw' : ((s.release (.user v)).var (.user w)).len = (seq s w).length := by rw [← hw, seq_length]; rfl
    obtain ⟨g', l, l1, _, l3⟩ := resize_good g (v := v) (a := a) (n := ((s.release (.user v)).var (.user w)).len) (by rw [hw']; exact hv.2)
    have hw2 : seq (Vector.resize (.user v) ((s.release (.user v)).var (.user w)).len a (s.release (.user v))) w = seq s w := by
      rw [l3, Function.update_of_ne (Ne.symm hv.1), hw]
    obtain ⟨g2, e2⟩ := copy_good g' hv.1 (by rw [← seq_length, ← seq_length, hw2, l3, Function.update_self, l1, hw'])
    refine ⟨g2, fun _ => ?_, fun _ _ c => by cases c⟩
    simp only [Op.Spec, exec, copyCtor]
    rw [e2, hw2, l3, e, Function.update_idem, Function.update_idem]
  | ctorMove v w =>
    obtain ⟨g, e⟩ := release_good h v
    obtain ⟨g2, e2⟩ := swap_good g v w
    have hv' : v ≠ w := hv
    refine ⟨g2, fun _ => ?_, fun _ _ c => by cases c⟩
    simp only [Op.Spec, exec]
    rw [e2, e, Function.update_self, Function.update_of_ne (Ne.symm hv'), Function.update_idem]
  | destroy v =>
    obtain ⟨g, e⟩ := release_good h v
    exact ⟨g, fun _ => e, fun _ _ c => by cases c⟩
  | resize v n a =>
    obtain ⟨g', l⟩ := resize_good h (v := v) (a := a) hv
    exact ⟨g', fun _ => l, fun _ _ c => by cases c⟩
  | clear v =>
    obtain ⟨g, e⟩ := release_good h v
    exact ⟨g, fun _ => e, fun _ _ c => by cases c⟩
  | swap v w =>
    obtain ⟨g, e⟩ := swap_good h v w
    exact ⟨g, fun _ => e, fun _ _ c => by cases c⟩
  | assign v w a =>
    have a0 : ∀ t : Heap α, Good t → Good (Vector.resize (.user v) 0 a t) ∧
        seq (Vector.resize (.user v) 0 a t) = Function.update (seq t) v [] ∧ (Vector.resize (.user v) 0 a t).mem = t.mem := by
      intro t ht
      have e : Vector.resize (.user v) 0 a t = t.setVar (.user v) { t.var (.user v) with len := 0 } := by
        unfold Vector.resize; rw [if_neg (by omega)]
      have hne : ∀ u, u ≠ .user v → (Vector.resize (.user v) 0 a t).var u = t.var u := fun u hu => by rw [e]; simp [Heap.setVar, hu]
      have hs : (Vector.resize (.user v) 0 a t).var (.user v) = { t.var (.user v) with len := 0 } := by rw [e]; simp [Heap.setVar]
      refine ⟨⟨by rw [e]; exact Heap.setLen_inv ht.inv _ _, fun u => ?_, by rw [hne _ (by simp)]; exact ht.vec,
        by rw [hne _ (by simp)]; exact ht.old⟩, seq_update (fun u hu => by unfold size; rw [hne _ (user_ne hu)])
        (fun u i hu _ => by unfold Heap.el; rw [hne _ (user_ne hu), e]; rfl) ?_, by rw [e]; rfl⟩
      · by_cases e1 : u = .user v
        · subst e1; rw [hs]; exact Nat.zero_le _
        · rw [hne u e1]; exact ht.len u
      · unfold seq size; rw [hs]; rfl
    obtain ⟨g, e, em⟩ := a0 s h
    by_cases hvw : v = w
    · subst hvw
      have l0 : ((Vector.resize (.user v) 0 a s).var (.user v)).len = 0 := by
        have := seq_length (Vector.resize (.user v) 0 a s) v
        rw [e, Function.update_self] at this
        exact this.symm
      obtain ⟨g1, e1, _⟩ := a0 _ g
      have x : exec (.assign v v a) s = Vector.resize (.user v) 0 a (Vector.resize (.user v) 0 a s) := by
        simp only [exec, Vector.assign, l0]
        have l1 : ((Vector.resize (.user v) 0 a (Vector.resize (.user v) 0 a s)).var (.user v)).len = 0 := by
          have := seq_length (Vector.resize (.user v) 0 a (Vector.resize (.user v) 0 a s)) v
          rw [e1, Function.update_self] at this
          exact this.symm
        rw [l1, forRange_of_le le_rfl]
      rw [x]
      refine ⟨g1, fun c => absurd rfl c, fun u b c => ?_⟩
      injection c with c1
      subst c1
      rw [e1, e, Function.update_idem]
    · have hw : seq (Vector.resize (.user v) 0 a s) w = seq s w := by rw [e, Function.update_of_ne (Ne.symm hvw)]
      have hw' : ((Vector.resize (.user v) 0 a s).var (.user w)).len = (seq s w).length := by rw [← hw, seq_length]; rfl
      obtain ⟨g', l, l1, _, l3⟩ := resize_good g (v := v) (a := a) (n := ((Vector.resize (.user v) 0 a s).var (.user w)).len)
        (by rw [hw', em]; exact hv)
      have hw2 : seq (Vector.resize (.user v) ((Vector.resize (.user v) 0 a s).var (.user w)).len a (Vector.resize (.user v) 0 a s)) w = seq s w := by
        rw [l3, Function.update_of_ne (Ne.symm hvw), hw]
      obtain ⟨g2, e2⟩ := copy_good g' hvw (by rw [← seq_length, ← seq_length, hw2, l3, Function.update_self, l1, hw'])
      refine ⟨g2, fun _ => ?_, fun u b c => ?_⟩
      · simp only [Op.Spec, exec, Vector.assign]
        rw [e2, hw2, l3, e, Function.update_idem, Function.update_idem]
      · injection c with c1 c2
        exact absurd (c1.trans c2.symm) hvw
  | moveAssign v w =>
    obtain ⟨g, e⟩ := swap_good h v w
    exact ⟨g, fun _ => e, fun _ _ c => by cases c⟩
  | set v i x =>
    have hi : i < size s v := by rw [← seq_length]; exact hv
    have := h.len_user v
    obtain ⟨g, e⟩ := set_good h hi (Heap.wr_inv h.inv (by omega) x) rfl (fun u k hk => Heap.wr_el h.inv (by omega) x hk)
    exact ⟨g, fun _ => e, fun _ _ c => by cases c⟩
  | setElem v i w j =>
    have hi : i < size s v := by rw [← seq_length]; exact hv.1
    have hj : j < size s w := by rw [← seq_length]; exact hv.2
    have := h.len_user v
    have := h.len_user w
    obtain ⟨g, e⟩ := set_good h hi (Heap.cp_inv h.inv (w := .user w) (j := j) (by omega) (by omega)) rfl
      (fun u k hk => Heap.cp_el h.inv (by omega) (.user w) j hk)
    exact ⟨g, fun _ => ⟨_, by rw [List.getElem?_eq_getElem hv.2, seq_getElem], e⟩, fun _ _ c => by cases c⟩
  | pushBack v x a =>
    obtain ⟨g, e⟩ := pushBack_good h (v := v) (put := fun u i s => s.wr u i x) (x := x)
      (fun t u i ht _ _ hi => ⟨Heap.wr_inv ht hi x, rfl, fun u' k hk => Heap.wr_el ht hi x hk⟩) (a := a) (by rw [← seq_length]; exact hv)
    exact ⟨g, fun _ => e, fun _ _ c => by cases c⟩
  | pushBackElem v w j a =>
    have hj : j < size s w := by rw [← seq_length]; exact hv.1
    have hc := h.len_user w
    obtain ⟨g, e⟩ := pushBack_good h (v := v) (put := fun u i s => s.cp u i (.user w) j) (x := s.el (.user w) j)
      (fun t u i ht h1 h2 hi => ⟨Heap.cp_inv ht hi (by rw [h1]; omega), rfl, fun u' k hk => by
        rw [Heap.cp_el ht hi (.user w) j hk, h2 w j (by omega)]⟩) (a := a) (by rw [← seq_length]; exact hv.2)
    exact ⟨g, fun _ => ⟨_, by rw [List.getElem?_eq_getElem hv.1, seq_getElem], e⟩, fun _ _ c => by cases c⟩
  | pushVector v w a =>
    obtain ⟨g, e⟩ := pushVector_good h (v := v) (w := w) (a := a) (by rw [← seq_length, ← seq_length]; exact hv)
    exact ⟨g, fun _ => e, fun _ _ c => by cases c⟩

theorem Reach.good [Inhabited α] {s : Heap α} (h : Reach s) : Good s := by
  induction h with
  | init => exact ⟨Heap.init_inv, fun _ => le_rfl, rfl, rfl⟩
  | step _ hv ih => exact (exec_good ih hv).1

/-- C33: in every history (which may contain copy assignments of a vector to itself), each operation other than a copy
assignment of a vector to itself has the effect of the same operation on mathematical sequences. -/
theorem history_ok_partial [Inhabited α] {s : Heap α} (h : Reach s) {op : Op α} (hv : op.Valid s (seq s)) (hs : ¬ op.SelfAssign) :
    op.Spec (seq s) (seq (exec op s)) := (exec_good h.good hv).2.1 hs

/-- What is missing from C33 is false of the code: `v = v` removes all the elements of `v` (vector.hpp:383-393). -/
theorem self_assign_empties [Inhabited α] {s : Heap α} (h : Reach s) {v : ℕ} {a : Alloc α} (ha : a.Fresh s.mem (seq s v).length) :
    seq (exec (.assign v v a) s) = Function.update (seq s) v [] := (exec_good h.good (op := .assign v v a) ha).2.2 v a rfl

/-- C33: capacity is never smaller than size; every access so far was to an element of allocated memory; each allocated block
belongs to exactly one vector, so a vector is the only one that can change its elements and there is no leak. -/
theorem memory_ok [Inhabited α] {s : Heap α} (h : Reach s) :
    (∀ v, size s v ≤ capacity s v) ∧ s.mem.ok = true ∧
      (∀ p, 0 < s.mem.size p → ∃! v, 0 < capacity s v ∧ (s.var (.user v)).ptr = p) ∧
      ((∀ v, capacity s v = 0) → ∀ p, s.mem.size p = 0) := by
  have g := h.good
  have key : ∀ p, 0 < s.mem.size p → ∃ v, 0 < capacity s v ∧ (s.var (.user v)).ptr = p := by
    intro p hp
    obtain ⟨u, hu, e⟩ := g.inv.leak p hp
    cases u with
    | user v => exact ⟨v, hu, e⟩
    | vec => rw [g.vec] at hu; omega
    | old => rw [g.old] at hu; omega
  refine ⟨fun v => g.len _, g.inv.ok, fun p hp => ?_, fun h0 p => ?_⟩
  · obtain ⟨v, hv, e⟩ := key p hp
    refine ⟨v, ⟨hv, e⟩, ?_⟩
    rintro w ⟨hw, e'⟩
    by_contra hne
    exact g.inv.sep _ _ (user_ne hne) hw hv (e'.trans e.symm)
  · by_contra hp
    obtain ⟨v, hv, _⟩ := key p (by omega)
    rw [h0] at hv; omega

/-- C33: comparison of vectors with the same size is comparison of all the elements (vector.hpp:443-513) -/
theorem compare_ok (op : α → α → Bool) (s : Heap α) (v w : ℕ) (hl : (seq s v).length = (seq s w).length) :
    compare op (.user v) (.user w) s = true ↔ ∀ i (h : i < (seq s v).length), op ((seq s v)[i]) ((seq s w)[i]'(hl ▸ h)) = true := by
  have key : ∀ n r, forRange 0 n r (fun i (result : Bool) => result && op (s.el (.user v) i) (s.el (.user w) i)) = true ↔
      r = true ∧ ∀ i, i < n → op (s.el (.user v) i) (s.el (.user w) i) = true := by
    intro n r
    induction n with
    | zero => rw [forRange_of_le le_rfl]; simp
    | succ n ih =>
      rw [forRange_succ (Nat.zero_le n), Bool.and_eq_true, ih]
      constructor
      · rintro ⟨⟨h1, h2⟩, h3⟩
        refine ⟨h1, fun i hi => ?_⟩
        rcases Nat.lt_succ_iff_lt_or_eq.1 hi with hi | rfl
        · exact h2 i hi
        · exact h3
      · rintro ⟨h1, h2⟩
        exact ⟨⟨h1, fun i hi => h2 i (by omega)⟩, h2 n (by omega)⟩
  unfold compare
  rw [key]
  have hs : (seq s v).length = (s.var (.user v)).len := seq_length s v
  constructor
  · rintro ⟨_, h2⟩ i hi
    rw [seq_getElem, seq_getElem]
    exact h2 i (by omega)
  · intro h
    refine ⟨rfl, fun i hi => ?_⟩
    have := h i (by omega)
    rw [seq_getElem, seq_getElem] at this
    exact this

/-- C33: `v == w` is equality of the sequences -/
theorem equal_ok [DecidableEq α] (s : Heap α) (v w : ℕ) (hl : (seq s v).length = (seq s w).length) :
    compare (fun x y => decide (x = y)) (.user v) (.user w) s = true ↔ seq s v = seq s w := by
  rw [compare_ok _ _ _ _ hl]
  constructor
  · intro h
    refine List.ext_getElem hl fun i h1 h2 => ?_
    simpa using h i h1
  · intro h i hi
    simp [h]

/-- The hypotheses of the theorems are met by this history, with growth, an argument that is an element of the vector that
grows, and a vector that is pushed to itself. -/
example : ∃ s : Heap ℕ, Reach s ∧ seq s 0 = [7, 7, 7, 7] ∧ seq s 1 = [7, 7, 5, 7] ∧
    seq (exec (.assign 1 1 ⟨9, 9, fun _ => 0⟩) s) 1 = [] := by
  have h0 : Reach (Heap.init : Heap ℕ) := .init
  have h1 := Reach.step (op := Op.ctor 0 0 ⟨1, 2, fun _ => 0⟩) h0 (by constructor <;> decide)
  have h2 := Reach.step (op := Op.pushBack 0 7 ⟨1, 1, fun _ => 0⟩) h1 (by constructor <;> decide)
  have h3 := Reach.step (op := Op.pushBackElem 0 0 0 ⟨2, 3, fun _ => 0⟩) h2 ⟨by decide, by constructor <;> decide⟩
  have h4 := Reach.step (op := Op.pushVector 0 0 ⟨3, 4, fun _ => 9⟩) h3 (by constructor <;> decide)
  have h5 := Reach.step (op := Op.ctorCopy 1 0 ⟨4, 4, fun _ => 0⟩) h4 ⟨by decide, by constructor <;> decide⟩
  have h6 := Reach.step (op := Op.set 1 2 5) h5 (by show _ < _; decide)
  exact ⟨_, h6, by decide +kernel, by decide +kernel, by decide +kernel⟩

end CppAD.Util.Vector
