import Verif.Util.Pod

/-! # Proofs for pod_vector and pod_vector_maybe (property C64) -/

namespace CppAD.Util.Pod

open CppAD.Util.Vector (Good seq size capacity seq_length seq_eq seq_getElem seq_update user_ne)

variable {α : Type}

theorem chk_true {β : Type} {s : Heap β} {b : Bool} (h : b = true) : chk s b = s := by
  subst h
  unfold chk
  rw [Bool.and_true]

/-- a loop that writes the same value to all the elements -/
theorem wrLoop {β : Type} {s : Heap β} (h : s.Inv) {v : Var} (x : β) (c : β → Bool)
    (hc : ∀ i < (s.var v).cap, c (s.el v i) = true) {r : Heap β}
    (hr : r = forRange 0 (s.var v).cap s fun i s => (chk s (c (s.el v i))).wr v i x) :
    r.Inv ∧ r.var = s.var ∧ r.mem.size = s.mem.size ∧ ∀ u j, j < (s.var u).cap → r.el u j = if u = v then x else s.el u j := by
  have key : r.Inv ∧ r.var = s.var ∧ r.mem.size = s.mem.size ∧
      ∀ u j, j < (s.var u).cap → r.el u j = if u = v ∧ j < (s.var v).cap then x else s.el u j := by
    rw [hr]
    refine forRange_ind (Nat.zero_le _) (s := s) (P := fun m t => m ≤ (s.var v).cap → t.Inv ∧ t.var = s.var ∧ t.mem.size = s.mem.size ∧
      ∀ u j, j < (s.var u).cap → t.el u j = if u = v ∧ j < m then x else s.el u j) ?_ ?_ le_rfl
    · exact fun _ => ⟨h, rfl, rfl, fun u j _ => by rw [if_neg (by omega)]⟩
    · intro m t _ hm ih hm1
      obtain ⟨i1, i2, i4, i3⟩ := ih (by omega)
      have c1 : m < (t.var v).cap := by rw [i2]; omega
      have c2 : c (t.el v m) = true := by
        rw [i3 v m hm, if_neg (by omega)]
        exact hc m hm
      rw [chk_true c2]
      refine ⟨Heap.wr_inv i1 c1 x, by rw [Heap.wr_var, i2], i4, fun u j hj => ?_⟩
      rw [Heap.wr_el i1 c1 x (by rw [i2]; exact hj), i3 u j hj]
      by_cases e : u = v
      · by_cases e2 : j = m
        · rw [if_pos ⟨e, e2⟩, if_pos ⟨e, by omega⟩]
        · rw [if_neg (fun c => e2 c.2)]
          by_cases e3 : j < m
          · rw [if_pos ⟨e, e3⟩, if_pos ⟨e, by omega⟩]
          · rw [if_neg (fun c => e3 c.2), if_neg (fun c => by have := c.2; omega)]
      · rw [if_neg (fun c => e c.1), if_neg (fun c => e c.1), if_neg (fun c => e c.1)]
  obtain ⟨k1, k2, k4, k3⟩ := key
  refine ⟨k1, k2, k4, fun u j hj => ?_⟩
  rw [k3 u j hj]
  by_cases e : u = v
  · subst e; rw [if_pos ⟨rfl, hj⟩, if_pos rfl]
  · rw [if_neg (fun c => e c.1), if_neg e]

theorem construct_spec {pod : Bool} {d : α} {s : Heap (Option α)} (h : s.Inv) {v : Var}
    (hn : pod = false → ∀ i < (s.var v).cap, s.el v i = none) :
    (construct pod d v s).Inv ∧ (construct pod d v s).var = s.var ∧
      (∀ u j, u ≠ v → j < (s.var u).cap → (construct pod d v s).el u j = s.el u j) ∧
      (pod = false → ∀ j < (s.var v).cap, (construct pod d v s).el v j = some d) := by
  unfold construct
  cases pod with
  | true => exact ⟨h, rfl, fun _ _ _ _ => rfl, by simp⟩
  | false =>
    rw [if_neg (by decide)]
    obtain ⟨k1, k2, -, k3⟩ := wrLoop h (v := v) (some d) (fun x => x.isNone) (fun i hi => by simp [hn rfl i hi]) rfl
    exact ⟨k1, k2, fun u j hu hj => by rw [k3 u j hj, if_neg hu], fun _ j hj => by rw [k3 v j hj, if_pos rfl]⟩

theorem giveBack_spec {pod : Bool} {s : Heap (Option α)} (h : s.Inv) {v : Var}
    (hn : pod = false → ∀ i < (s.var v).cap, (s.el v i).isSome = true) :
    (giveBack pod v s).Inv ∧ (giveBack pod v s).var = (s.release v).var ∧ (giveBack pod v s).mem.size = (s.release v).mem.size ∧
      ∀ u j, u ≠ v → j < (s.var u).cap → (giveBack pod v s).el u j = s.el u j := by
  have key : ∃ t : Heap (Option α), giveBack pod v s = t.release v ∧ t.Inv ∧ t.var = s.var ∧ t.mem.size = s.mem.size ∧
      ∀ u j, u ≠ v → j < (s.var u).cap → t.el u j = s.el u j := by
    cases pod with
    | true =>
      refine ⟨s, ?_, h, rfl, rfl, fun _ _ _ _ => rfl⟩
      have e : destruct true v s = s := rfl
      unfold giveBack
      rw [e]
      exact congrArg (fun t => Heap.release t v) (chk_true rfl)
    | false =>
      obtain ⟨k1, k2, k4, k3⟩ := wrLoop h (v := v) none (fun x => x.isSome) (hn rfl) (r := destruct false v s) rfl
      refine ⟨destruct false v s, ?_, k1, k2, k4, fun u j hu hj => by rw [k3 u j hj, if_neg hu]⟩
      unfold giveBack
      refine congrArg (fun t => Heap.release t v) (chk_true ?_)
      rw [Bool.false_or]
      unfold allRaw
      rw [List.all_eq_true]
      intro i hi
      rw [k2, List.mem_range] at hi
      rw [k3 v i hi, if_pos rfl]; rfl
  obtain ⟨t, e, k1, k2, k4, k3⟩ := key
  rw [e]
  refine ⟨Heap.release_inv k1 v, ?_, ?_, fun u j hu hj => ?_⟩
  · unfold Heap.release; rw [k2]
  · unfold Heap.release
    dsimp only
    rw [k2]
    split_ifs
    · simp only [Mem.free]; rw [k4]
    · exact k4
  · rw [Heap.release_el hu, k3 u j hu hj]

theorem alloc_spec {s : Heap (Option α)} (h : s.Inv) {v : Var} (hv : (s.var v).cap = 0) {n : ℕ} {a : Alloc (Option α)}
    (ha : a.Fresh s.mem n) (k : ℕ) :
    (alloc v k a s).Inv ∧ (alloc v k a s).var = Function.update s.var v ⟨a.cap, k, a.ptr⟩ ∧
      (∀ u j, u ≠ v → j < (s.var u).cap → (alloc v k a s).el u j = s.el u j) ∧ ∀ j, (alloc v k a s).el v j = a.init j := by
  refine ⟨Heap.create_inv h hv ha k, rfl, fun u j hu hj => ?_, fun j => ?_⟩
  · show (s.mem.create a).val (Function.update s.var v _ u).ptr j = _
    rw [Function.update_of_ne hu, Heap.create_val_ne h ha (by omega)]
    rfl
  · show (s.mem.create a).val (Function.update s.var v _ v).ptr j = _
    rw [Function.update_self]
    simp [Mem.create]

/-- a loop that copies or assigns elements -/
theorem copyElLoop {pod : Bool} {s : Heap (Option α)} (h : s.Inv) {v w : Var} {n : ℕ} (hv : n ≤ (s.var v).cap) (hw : n ≤ (s.var w).cap)
    (h1 : pod = false → ∀ i < n, (s.el v i).isSome = true) (h2 : pod = false → ∀ i < n, (s.el w i).isSome = true) :
    (forRange 0 n s fun i s => copyEl pod v i w i s).Inv ∧ (forRange 0 n s fun i s => copyEl pod v i w i s).var = s.var ∧
      ∀ u j, j < (s.var u).cap →
        (forRange 0 n s fun i s => copyEl pod v i w i s).el u j = if u = v ∧ j < n then s.el w j else s.el u j := by
  refine forRange_ind (Nat.zero_le n) (s := s) (P := fun m t => m ≤ n → t.Inv ∧ t.var = s.var ∧
      ∀ u j, j < (s.var u).cap → t.el u j = if u = v ∧ j < m then s.el w j else s.el u j) ?_ ?_ le_rfl
  · exact fun _ => ⟨h, rfl, fun u j _ => by rw [if_neg (by omega)]⟩
  · intro m t _ hm ih hm1
    obtain ⟨i1, i2, i3⟩ := ih (by omega)
    have c1 : m < (t.var v).cap := by rw [i2]; omega
    have c2 : m < (t.var w).cap := by rw [i2]; omega
    have e1 : t.el v m = s.el v m := by rw [i3 v m (by omega), if_neg (by omega)]
    have e2 : t.el w m = s.el w m := by rw [i3 w m (by omega), if_neg (by omega)]
    have c3 : (pod || ((t.el v m).isSome && (t.el w m).isSome)) = true := by
      cases hp : pod with
      | true => rfl
      | false => rw [e1, e2, h1 hp m (by omega), h2 hp m (by omega)]; rfl
    unfold copyEl
    rw [chk_true c3]
    refine ⟨Heap.cp_inv i1 c1 c2, by rw [Heap.cp_var, i2], fun u j hj => ?_⟩
    rw [Heap.cp_el i1 c1 w m (by rw [i2]; exact hj), e2, i3 u j hj]
    by_cases e : u = v
    · by_cases e4 : j = m
      · rw [if_pos ⟨e, e4⟩, if_pos ⟨e, by omega⟩, e4]
      · rw [if_neg (fun c => e4 c.2)]
        by_cases e3 : j < m
        · rw [if_pos ⟨e, e3⟩, if_pos ⟨e, by omega⟩]
        · rw [if_neg (fun c => e3 c.2), if_neg (fun c => by have := c.2; omega)]
    · rw [if_neg (fun c => e c.1), if_neg (fun c => e c.1), if_neg (fun c => e c.1)]

/-- the state between operations: when elements are objects, there is an object everywhere in the capacity of every vector -/
structure PGood (pod : Bool) (s : Heap (Option α)) : Prop where
  good : Good s
  obj : pod = false → ∀ u i, i < (s.var u).cap → (s.el u i).isSome = true

theorem setLen_good {pod : Bool} {s : Heap (Option α)} (h : PGood pod s) {v : Var} {n : ℕ} (hv1 : v ≠ .vec) (hv2 : v ≠ .old)
    (hn : n ≤ (s.var v).cap) : PGood pod (s.setVar v { s.var v with len := n }) := by
  have hu : ∀ u, u ≠ v → (s.setVar v { s.var v with len := n }).var u = s.var u := fun u hu => by simp [Heap.setVar, hu]
  have hself : (s.setVar v { s.var v with len := n }).var v = { s.var v with len := n } := by simp [Heap.setVar]
  refine ⟨⟨Heap.setLen_inv h.good.inv v n, fun u => ?_, by rw [hu _ hv1.symm]; exact h.good.vec,
    by rw [hu _ hv2.symm]; exact h.good.old⟩, fun hp u i hi => ?_⟩
  · by_cases e : u = v
    · subst e; rw [hself]; exact hn
    · rw [hu u e]; exact h.good.len u
  · unfold Heap.el
    by_cases e : u = v
    · subst e; rw [hself] at hi ⊢; exact h.obj hp u i hi
    · rw [hu u e] at hi ⊢; exact h.obj hp u i hi

/-- `extend` -/
theorem extend_spec {pod : Bool} {d : α} {s : Heap (Option α)} (h : PGood pod s) {v : Var} (hv1 : v ≠ .vec) (hv2 : v ≠ .old) {n : ℕ}
    {a : Alloc (Option α)} (ha : Raw pod s.mem ((s.var v).len + n) a) {r : Heap (Option α)} (hr : r = extend pod d v n a s) :
    PGood pod r ∧ (r.var v).len = (s.var v).len + n ∧ (∀ u, u ≠ v → u ≠ .old → r.var u = s.var u) ∧
      (∀ u j, u ≠ .old → j < (s.var u).cap → (u = v → j < (s.var v).len) → r.el u j = s.el u j) ∧
      (s.var v).cap ≤ (r.var v).cap ∧ ((s.var v).len + n ≤ (s.var v).cap → (r.var v).ptr = (s.var v).ptr) := by
  unfold extend at hr
  dsimp only at hr
  by_cases hc : (s.var v).len + n ≤ (s.var v).cap
  · rw [if_pos hc] at hr
    subst hr
    have hself : (s.setVar v { s.var v with len := (s.var v).len + n }).var v = { s.var v with len := (s.var v).len + n } := by
      simp [Heap.setVar]
    have hu : ∀ u, u ≠ v → (s.setVar v { s.var v with len := (s.var v).len + n }).var u = s.var u :=
      fun u hu => by simp [Heap.setVar, hu]
    refine ⟨setLen_good h hv1 hv2 hc, by rw [hself], fun u e _ => hu u e, fun u j _ _ _ => ?_, by rw [hself], fun _ => by rw [hself]⟩
    unfold Heap.el
    by_cases e : u = v
    · subst e; rw [hself]; rfl
    · rw [hu u e]; rfl
  · rw [if_neg hc] at hr
    set s1 := s.setVar .old (s.var v) with hs1
    set s2 := alloc v ((s.var v).len + n) a s1 with hs2
    have vv : s2.var v = ⟨a.cap, (s.var v).len + n, a.ptr⟩ := by simp [hs2, alloc]
    have vo : s2.var .old = s.var v := by
      simp only [hs2, alloc, hs1, Heap.setVar, Function.update_of_ne hv2.symm, Function.update_self]
    have vu : ∀ u, u ≠ v → u ≠ .old → s2.var u = s.var u := by
      intro u e1 e2
      simp only [hs2, alloc, hs1, Heap.setVar, Function.update_of_ne e1, Function.update_of_ne e2]
    have ho : (s.var .old).cap = 0 := h.good.old
    obtain ⟨b1, b2, b3, b4⟩ := alloc_spec (s := s.swapVar v .old) (Heap.swapVar_inv h.good.inv v .old) (v := v)
      (by rw [Heap.swapVar_left]; exact ho) (n := (s.var v).len + n) (a := a) ha.1 ((s.var v).len + n)
    have es2 : s2 = alloc v ((s.var v).len + n) a (s.swapVar v .old) := by
      rw [hs2, hs1]
      unfold alloc
      refine congrArg (Heap.mk _) ?_
      funext u
      by_cases e1 : u = v
      · subst e1; simp
      · by_cases e2 : u = .old
        · subst e2; simp [Heap.setVar, e1, Heap.swapVar_right]
        · simp [Heap.setVar, e1, e2, Heap.swapVar_ne e1 e2]
    rw [← es2] at b1 b2 b3 b4
    have o3 : ∀ j, j < (s.var v).cap → s2.el .old j = s.el v j := by
      intro j hj
      rw [b3 .old j hv2.symm (by rw [Heap.swapVar_right]; exact hj)]
      unfold Heap.el
      rw [Heap.swapVar_right]; rfl
    have u3 : ∀ u j, u ≠ v → u ≠ .old → j < (s.var u).cap → s2.el u j = s.el u j := by
      intro u j h1 h2 hj
      rw [b3 u j h1 (by rw [Heap.swapVar_ne h1 h2]; exact hj)]
      unfold Heap.el
      rw [Heap.swapVar_ne h1 h2]; rfl
    obtain ⟨c1, c2, c3, c4⟩ := construct_spec (pod := pod) (d := d) b1 (v := v) (fun hp i _ => by rw [b4, ha.2 hp])
    set s3 := construct pod d v s2 with hs3
    have hl := h.good.len v
    have ha1 := ha.1.2
    obtain ⟨d1, d2, d3⟩ := copyElLoop (pod := pod) c1 (v := v) (w := .old) (n := (s.var v).len)
      (by rw [c2, vv]; dsimp only; omega) (by rw [c2, vo]; exact hl)
      (fun hp i hi => by rw [c4 hp i (by rw [vv]; dsimp only; omega)]; rfl)
      (fun hp i hi => by
        rw [c3 .old i hv2.symm (by rw [vo]; omega), o3 i (by omega)]
        exact h.obj hp v i (by omega))
    set s4 := forRange 0 (s.var v).len s3 fun i s => copyEl pod v i .old i s with hs4
    obtain ⟨g1, g2, -, g3⟩ := giveBack_spec (pod := pod) d1 (v := .old) (fun hp i hi => by
      rw [d2, c2, vo] at hi
      rw [d3 _ _ (by rw [c2, vo]; exact hi), if_neg (fun e => hv2 e.1.symm), c3 .old i hv2.symm (by rw [vo]; exact hi), o3 i hi]
      exact h.obj hp v i hi)
    rw [← hr] at g1 g2 g3
    have rv : r.var v = ⟨a.cap, (s.var v).len + n, a.ptr⟩ := by rw [g2, Heap.release_var hv2, d2, c2, vv]
    have ru : ∀ u, u ≠ v → u ≠ .old → r.var u = s.var u := by
      intro u h1 h2
      rw [g2, Heap.release_var h2, d2, c2, vu u h1 h2]
    have ro : (r.var .old).cap = 0 := by rw [g2, Heap.release_self]
    have rlo : (r.var .old).len = 0 := by rw [g2, Heap.release_self]
    have rel : ∀ u j, u ≠ v → u ≠ .old → j < (s.var u).cap → r.el u j = s.el u j := by
      intro u j h1 h2 hj
      have : (s2.var u) = s.var u := vu u h1 h2
      rw [g3 u j h2 (by rw [d2, c2, this]; exact hj), d3 u j (by rw [c2, this]; exact hj), if_neg (fun c => h1 c.1),
        c3 u j h1 (by rw [this]; exact hj), u3 u j h1 h2 hj]
    refine ⟨⟨⟨g1, fun u => ?_, by rw [ru _ hv1.symm (by simp)]; exact h.good.vec, ro⟩, fun hp u i hi => ?_⟩, by rw [rv],
      ru, fun u j h2 hj he => ?_, by rw [rv]; dsimp only; omega, fun h => absurd h hc⟩
    · by_cases e1 : u = v
      · subst e1; rw [rv]; exact ha1
      · by_cases e2 : u = .old
        · subst e2; rw [rlo]; exact Nat.zero_le _
        · rw [ru u e1 e2]; exact h.good.len u
    · by_cases e2 : u = .old
      · subst e2; rw [ro] at hi; exact absurd hi (Nat.not_lt_zero _)
      · by_cases e1 : u = v
        · subst e1
          rw [rv] at hi
          rw [g3 u i e2 (by rw [d2, c2, vv]; exact hi), d3 u i (by rw [c2, vv]; exact hi)]
          split_ifs with q
          · rw [c3 .old i hv2.symm (by rw [vo]; omega), o3 i (by omega)]
            exact h.obj hp u i (by omega)
          · rw [c4 hp i (by rw [vv]; exact hi)]; rfl
        · rw [ru u e1 e2] at hi
          rw [rel u i e1 e2 hi]
          exact h.obj hp u i hi
    · by_cases e1 : u = v
      · subst e1
        have hj' := he rfl
        rw [g3 u j h2 (by rw [d2, c2, vv]; dsimp only; omega), d3 u j (by rw [c2, vv]; dsimp only; omega), if_pos ⟨rfl, hj'⟩,
          c3 .old j hv2.symm (by rw [vo]; omega), o3 j (by omega)]
      · exact rel u j e1 h2 hj

theorem giveBack_good {pod : Bool} {s : Heap (Option α)} (h : PGood pod s) {v : Var} :
    PGood pod (giveBack pod v s) ∧ (giveBack pod v s).var v = ⟨0, 0, (s.var v).ptr⟩ ∧
      (∀ u, u ≠ v → (giveBack pod v s).var u = s.var u) ∧
      (giveBack pod v s).mem.size = (s.release v).mem.size ∧
      ∀ u j, u ≠ v → j < (s.var u).cap → (giveBack pod v s).el u j = s.el u j := by
  obtain ⟨g1, g2, g4, g3⟩ := giveBack_spec (pod := pod) h.good.inv (v := v) (fun hp i hi => h.obj hp v i hi)
  have vs : (giveBack pod v s).var v = ⟨0, 0, (s.var v).ptr⟩ := by rw [g2, Heap.release_self]
  have vu : ∀ u, u ≠ v → (giveBack pod v s).var u = s.var u := fun u hu => by rw [g2, Heap.release_var hu]
  have vc : ∀ u, (giveBack pod v s).var u = s.var u ∨ ((giveBack pod v s).var u).cap = 0 ∧ ((giveBack pod v s).var u).len = 0 := by
    intro u
    by_cases e : u = v
    · subst e; rw [vs]; exact Or.inr ⟨rfl, rfl⟩
    · exact Or.inl (vu u e)
  refine ⟨⟨⟨g1, fun u => ?_, ?_, ?_⟩, fun hp u i hi => ?_⟩, vs, vu, g4, g3⟩
  · rcases vc u with e | ⟨e1, e2⟩
    · rw [e]; exact h.good.len u
    · rw [e2]; exact Nat.zero_le _
  · rcases vc .vec with e | ⟨e1, e2⟩
    · rw [e]; exact h.good.vec
    · exact e1
  · rcases vc .old with e | ⟨e1, e2⟩
    · rw [e]; exact h.good.old
    · exact e1
  · by_cases e : u = v
    · subst e; rw [vs] at hi; exact absurd hi (Nat.not_lt_zero _)
    · rw [vu u e] at hi
      rw [g3 u i e hi]
      exact h.obj hp u i hi

/-- `resize` -/
theorem resize_spec {pod : Bool} {d : α} {s : Heap (Option α)} (h : PGood pod s) {v : Var} (hv1 : v ≠ .vec) (hv2 : v ≠ .old) {n : ℕ}
    {a : Alloc (Option α)} (ha : Raw pod (s.release v).mem n a) {r : Heap (Option α)} (hr : r = resize pod d v n a s) :
    PGood pod r ∧ (r.var v).len = n ∧ (∀ u, u ≠ v → r.var u = s.var u) ∧
      (∀ u j, u ≠ v → j < (s.var u).cap → r.el u j = s.el u j) ∧ (n ≤ (s.var v).cap → ∀ j, r.el v j = s.el v j) ∧
      (s.var v).cap ≤ (r.var v).cap := by
  unfold resize at hr
  by_cases hc : (s.var v).cap < n
  · rw [if_pos hc] at hr
    obtain ⟨p1, p2, p3, p4, p5⟩ := giveBack_good h (v := v)
    set s1 := giveBack pod v s with hs1
    have hf : a.Fresh s1.mem n := ⟨by rw [p4]; exact ha.1.1, ha.1.2⟩
    obtain ⟨b1, b2, b3, b4⟩ := alloc_spec p1.good.inv (v := v) (by rw [p2]) hf n
    obtain ⟨c1, c2, c3, c4⟩ := construct_spec (pod := pod) (d := d) b1 (v := v) (fun hp i _ => by rw [b4, ha.2 hp])
    rw [← hr] at c1 c2 c3 c4
    have rv : r.var v = ⟨a.cap, n, a.ptr⟩ := by rw [c2, b2, Function.update_self]
    have ru : ∀ u, u ≠ v → r.var u = s.var u := fun u hu => by rw [c2, b2, Function.update_of_ne hu, p3 u hu]
    have rel : ∀ u j, u ≠ v → j < (s.var u).cap → r.el u j = s.el u j := by
      intro u j hu hj
      rw [c3 u j hu (by rw [b2, Function.update_of_ne hu, p3 u hu]; exact hj), b3 u j hu (by rw [p3 u hu]; exact hj), p5 u j hu hj]
    refine ⟨⟨⟨c1, fun u => ?_, by rw [ru _ hv1.symm]; exact h.good.vec, by rw [ru _ hv2.symm]; exact h.good.old⟩, fun hp u i hi => ?_⟩,
      by rw [rv], ru, rel, fun h => by omega, by rw [rv]; have := ha.1.2; dsimp only; omega⟩
    · by_cases e : u = v
      · subst e; rw [rv]; exact ha.1.2
      · rw [ru u e]; exact h.good.len u
    · by_cases e : u = v
      · subst e
        rw [c4 hp i (by rw [← c2]; exact hi)]; rfl
      · rw [ru u e] at hi
        rw [rel u i e hi]
        exact h.obj hp u i hi
  · rw [if_neg hc] at hr
    subst hr
    have hu : ∀ u, u ≠ v → (s.setVar v { s.var v with len := n }).var u = s.var u := fun u hu => by simp [Heap.setVar, hu]
    have hself : (s.setVar v { s.var v with len := n }).var v = { s.var v with len := n } := by simp [Heap.setVar]
    refine ⟨setLen_good h hv1 hv2 (by omega), by rw [hself], hu, fun u j e _ => ?_, fun _ j => ?_, by rw [hself]⟩
    · unfold Heap.el; rw [hu u e]; rfl
    · unfold Heap.el; rw [hself]; rfl

end CppAD.Util.Pod
