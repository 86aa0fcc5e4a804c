import Verif.Legacy.Sets

/-!
# The patterns computed by the older sparsity functions are conservative
-/

open scoped ContDiff Topology

namespace CppAD.Legacy

open Sparsity

theorem SetVec.Has_flip (tr : Bool) (nr nc : ℕ) (v : SetVec) (i j : ℕ) : v.Has (!tr) nr nc i j ↔ v.Has tr nc nr j i := by
  unfold SetVec.Has
  cases v <;> cases tr <;> exact and_left_comm

theorem SetVec.Ok_flip (tr : Bool) (nr nc : ℕ) (v : SetVec) : v.Ok (!tr) nr nc ↔ v.Ok tr nc nr := by
  unfold SetVec.Ok
  cases v <;> cases tr <;> rfl

open Classical in
/-- the pattern represented by a vector, as a `sparse_rc` -/
noncomputable def toPattern (tr : Bool) (nr nc : ℕ) (r : SetVec) : Pattern :=
  Pattern.ofList (((List.range nr).flatMap fun i => (List.range nc).map fun j => (i, j)).filter fun e => r.Has tr nr nc e.1 e.2)

theorem has_toPattern (tr : Bool) (nr nc : ℕ) (r : SetVec) (i j : ℕ) :
    Has false (toPattern tr nr nc r) i j ↔ r.Has tr nr nc i j := by
  unfold toPattern
  rw [has_ofList]
  simp only [Bool.false_eq_true, if_false, List.mem_filter, decide_eq_true_eq]
  constructor
  · exact fun h => h.2
  · intro h
    exact ⟨List.mem_flatMap.2 ⟨i, List.mem_range.2 h.1, List.mem_map.2 ⟨j, List.mem_range.2 h.2.1, rfl⟩⟩, h⟩

theorem post_eq (tr : Bool) (nr nc : ℕ) (idx : ℕ → ℕ) (h0 : ∀ i < nr, idx i ≠ 0) (r : SetVec) (hr : r.Ok tr nr nc) :
    post tr nr nc idx r = setInternalPattern false idx (fun _ => ∅) (toPattern tr nr nc r) := by
  funext v
  ext c
  rw [mem_post tr nr nc idx r hr, mem_setInternalPattern]
  simp only [has_toPattern]
  constructor
  · rintro ⟨i, rfl, h⟩
    exact ⟨h0 i h.1, i, rfl, h⟩
  · exact fun h => h.2

theorem dep_ne_zero {T : Tape} (hT : T.WF) {k : ℕ} (hk : k < T.dep.length) : T.dep.getD k 0 ≠ 0 := by
  have h1 := dep_usable hT hk
  have : ∀ (ops : List Op) (nv : ℕ) (U : Set ℕ), 0 < nv → 0 ∉ U → 0 ∉ usable ops nv U := by
    intro ops
    induction ops with
    | nil => intro nv U _ h; exact h
    | cons op ops ih =>
      intro nv U h0 h
      have := op.nres_pos
      refine ih _ _ (by omega) ?_
      rintro (h' | h')
      · have := h'.1; omega
      · exact h h'
  intro h0
  rw [h0] at h1
  exact this _ _ _ (by omega) (fun h => by have := h.1; omega) h1

theorem forSparseJac_sets {T : Tape} (junk : ℕ → Bool) (q : ℕ) (r : SetVec) (transpose dependency : Bool) (hr : r.Ok transpose T.n q) :
    (forSparseJac T junk q r transpose dependency).2 = (forJacSparsity T q (toPattern transpose T.n q r) false dependency).2 := by
  unfold forSparseJac forJacSparsity
  dsimp only
  rw [post_eq transpose T.n q _ (fun i _ => by omega) r hr]

theorem forSparseJac_has {T : Tape} (junk : ℕ → Bool) (q : ℕ) (r : SetVec) (transpose dependency : Bool) (hr : r.Ok transpose T.n q)
    (i j : ℕ) : (forSparseJac T junk q r transpose dependency).1.Has transpose T.dep.length q i j ↔
      Has false (forJacSparsity T q (toPattern transpose T.n q r) false dependency).1 i j := by
  unfold forSparseJac forJacSparsity
  dsimp only
  rw [has_readBack, has_getInternalPattern, post_eq transpose T.n q _ (fun i _ => by omega) r hr]

/-- **C45** `ForSparseJac`: the result contains every entry of `F'(x) R` that is not zero, for vectors of bool and of sets.
`R` is any matrix whose non-zeros are in the argument; `x` is any point where `F` is differentiable. -/
theorem for_sparse_jac_ok {T : Tape} (hT : T.WF) (junk : ℕ → Bool) (q : ℕ) (r : SetVec) (transpose dependency : Bool)
    (hr : r.Ok transpose T.n q)
    (R : ℕ → ℕ → ℝ) (hR : ∀ k < T.n, ∀ j < q, R k j ≠ 0 → r.Has transpose T.n q k j)
    (x : ℕ → ℝ) (hD : T.Dom x) (i j : ℕ) (hi : i < T.dep.length) (hj : j < q) (v : ℝ)
    (hv : HasDerivAt (fun t => T.eval (fun k => x k + t * R k j) i) v 0) (hne : v ≠ 0) :
    (forSparseJac T junk q r transpose dependency).1.Has transpose T.dep.length q i j := by
  rw [forSparseJac_has junk q r transpose dependency hr]
  exact for_jac_sparsity_ok hT q _ false dependency R (fun k hk j hj h => (has_toPattern ..).2 (hR k hk j hj h)) x hD i j hi hj v hv hne

/-- **C45** `ForSparseJac`, dependency patterns: if `(i, j)` is not in the result then component `i` does not change
when the arguments in column `j` of the argument pattern are changed. -/
theorem for_sparse_jac_dependency {T : Tape} (hT : T.WF) (junk : ℕ → Bool) (q : ℕ) (r : SetVec) (transpose : Bool)
    (hr : r.Ok transpose T.n q) (i j : ℕ) (hi : i < T.dep.length) (hj : j < q) (x x' : ℕ → ℝ)
    (hx : ∀ k < T.n, x k ≠ x' k → r.Has transpose T.n q k j) (hne : T.eval x i ≠ T.eval x' i) :
    (forSparseJac T junk q r transpose true).1.Has transpose T.dep.length q i j := by
  rw [forSparseJac_has junk q r transpose true hr]
  exact for_jac_sparsity_dependency hT q _ false i j hi hj x x' (fun k hk h => (has_toPattern ..).2 (hx k hk h)) hne

theorem hasP_flip (p : Pattern) (i j : ℕ) : Has true p i j ↔ Has false p j i := by
  unfold Has
  constructor <;> (rintro ⟨k, hk, h⟩; exact ⟨k, hk, h⟩)

theorem revSparseJac_has {T : Tape} (hT : T.WF) (junk : ℕ → Bool) (q : ℕ) (r : SetVec) (transpose dependency : Bool)
    (hr : r.Ok transpose q T.dep.length) (i j : ℕ) :
    (revSparseJac T junk q r transpose dependency).Has transpose q T.n i j ↔
      Has true (revJacSparsity T q (toPattern (!transpose) T.dep.length q r) true dependency) i j := by
  rw [← SetVec.Has_flip, hasP_flip]
  unfold revSparseJac revJacSparsity
  dsimp only
  rw [has_readBack, post_eq (!transpose) T.dep.length q _ (fun i hi => dep_ne_zero hT hi) r ((SetVec.Ok_flip ..).2 hr),
    Bool.not_true, has_getInternalPattern]

/-- **C45** `RevSparseJac`: the result contains every entry of `R F'(x)` that is not zero (`w` is row `i` of `R`). -/
theorem rev_sparse_jac_ok {T : Tape} (hT : T.WF) (junk : ℕ → Bool) (q : ℕ) (r : SetVec) (transpose dependency : Bool)
    (hr : r.Ok transpose q T.dep.length) (i j : ℕ) (hi : i < q) (hj : j < T.n) (w : List ℝ)
    (hR : ∀ k < T.dep.length, at' w k ≠ 0 → r.Has transpose q T.dep.length i k)
    (x : ℕ → ℝ) (hD : T.Dom x) (v : ℝ) (hv : IsPartial (wsum T w) x j v) (hne : v ≠ 0) :
    (revSparseJac T junk q r transpose dependency).Has transpose q T.n i j := by
  rw [revSparseJac_has hT junk q r transpose dependency hr]
  refine rev_jac_sparsity_ok hT q _ true dependency i j hi hj w (fun k hk h => ?_) x hD v hv hne
  rw [hasP_flip, has_toPattern, SetVec.Has_flip]
  exact hR k hk h

/-- **C45** `RevSparseJac`, dependency patterns. -/
theorem rev_sparse_jac_dependency {T : Tape} (hT : T.WF) (junk : ℕ → Bool) (q : ℕ) (r : SetVec) (transpose : Bool)
    (hr : r.Ok transpose q T.dep.length) (i j k : ℕ) (hi : i < q) (hj : j < T.n) (hk : k < T.dep.length)
    (hp : r.Has transpose q T.dep.length i k) (x x' : ℕ → ℝ) (hx : ∀ l < T.n, x l ≠ x' l → l = j)
    (hne : T.eval x k ≠ T.eval x' k) :
    (revSparseJac T junk q r transpose true).Has transpose q T.n i j := by
  rw [revSparseJac_has hT junk q r transpose true hr]
  refine rev_jac_sparsity_dependency hT q _ true i j k hi hj hk ?_ x x' hx hne
  rw [hasP_flip, has_toPattern, SetVec.Has_flip]
  exact hp

/-- *Specification*: component `k` is selected by the argument `s` of `RevSparseHes` and `ForSparseHes` (and
`r` of `ForSparseHes` for the independent variables) -/
def Selects : SetVec → ℕ → Prop
  | .bools v, k => v k = true
  | .sets v, k => k ∈ v 0

theorem revFlags_bools {T : Tape} (v : ℕ → Bool)
    (hsel : ∀ k < T.dep.length, ∀ k' < T.dep.length, T.dep.getD k 0 = T.dep.getD k' 0 → v k = v k') :
    ∀ k < T.dep.length, revFlags T (.bools v) (T.dep.getD k 0) = v k := by
  have := forRange_ind (Nat.zero_le T.dep.length) (s := fun _ : ℕ => false)
    (f := fun i rj => Function.update rj (T.dep.getD i 0) (v i))
    (P := fun q (rj : ℕ → Bool) => q ≤ T.dep.length ∧ ∀ k < q, rj (T.dep.getD k 0) = v k) ⟨by omega, by intro k hk; omega⟩
    (by
      rintro q rj _ hq ⟨_, ih⟩
      refine ⟨by omega, fun k hk => ?_⟩
      rw [Function.update_apply]
      split_ifs with h
      · exact (hsel k (by omega) q hq h).symm
      · rcases Nat.lt_succ_iff_lt_or_eq.1 hk with h' | rfl
        · exact ih k h'
        · exact absurd rfl h)
  exact this.2

theorem revFlags_ok {T : Tape} (s : SetVec)
    (hsel : s.kind = .bool → ∀ k < T.dep.length, ∀ k' < T.dep.length, T.dep.getD k 0 = T.dep.getD k' 0 → (Selects s k ↔ Selects s k'))
    (k : ℕ) (hk : k < T.dep.length) (h : Selects s k) : revFlags T s (T.dep.getD k 0) = true := by
  cases s with
  | bools v =>
    rw [revFlags_bools v (fun a ha b hb e => Bool.eq_iff_iff.2 (hsel rfl a ha b hb e)) k hk]
    exact h
  | sets v =>
    unfold revFlags
    rw [foldl_set]
    exact Or.inr ⟨k, (Finset.mem_sort _).2 h, rfl⟩

/-- **C45** `RevSparseHes` after `ForSparseJac`: the result contains every entry of `(∑_k w_k F_k)''(x) R` that is not
zero.  `R` is any matrix whose non-zeros are in the argument of `ForSparseJac` and all `w_k` that are not zero are selected.
Partial: for vectors of bool, components that are the same variable must all be selected or all be not selected
(see `rev_sparse_hes_wrong`; this is not necessary for vectors of sets); if there are calls to atomic functions, no
row of the argument of `ForSparseJac` is empty. -/
theorem rev_sparse_hes_ok_partial {T : Tape} (hT : T.WF) (junk junk' : ℕ → Bool) (q : ℕ) (r s : SetVec)
    (transpose transpose' dependency : Bool) (hr : r.Ok transpose T.n q)
    (R : ℕ → ℕ → ℝ) (hR : ∀ k < T.n, ∀ j < q, R k j ≠ 0 → r.Has transpose T.n q k j)
    (w : List ℝ) (hw : ∀ k < T.dep.length, at' w k ≠ 0 → Selects s k)
    (hsel : s.kind = .bool → ∀ k < T.dep.length, ∀ k' < T.dep.length, T.dep.getD k 0 = T.dep.getD k' 0 → (Selects s k ↔ Selects s k'))
    (hatom : (∀ op ∈ T.ops, ∀ c, op ≠ .atom c) ∨ ∀ k < T.n, ∃ j, r.Has transpose T.n q k j)
    (x : ℕ → ℝ) (hD : T.Dom x) (i j : ℕ) (hi : i < T.n) (hj : j < q) (v : ℝ)
    (hv : IsMixed (wsum T w) x (un i) (fun k => R k j) v) (hne : v ≠ 0) :
    (revSparseHes T junk' q (forSparseJac T junk q r transpose dependency).2 s transpose').Has transpose' q T.n j i := by
  rw [← SetVec.Has_flip]
  unfold revSparseHes
  dsimp only
  rw [has_readHes]
  refine ⟨hi, hj, ?_⟩
  rw [forSparseJac_sets junk q r transpose dependency hr]
  refine revHes_covers hT q _ false dependency R (fun k hk j hj h => (has_toPattern ..).2 (hR k hk j hj h)) _ w
    (fun k hk h => revFlags_ok s hsel k hk (hw k hk h)) ?_ x hD i j hj v hv hne
  refine hatom.imp_right fun h k hk => ?_
  obtain ⟨j, hj⟩ := h k hk
  exact ⟨j, (has_toPattern ..).2 hj⟩

theorem selDomain_ok (n : ℕ) (r : SetVec) (j : ℕ) (hj : j < n) (h : Selects r j) : selDomain n r j = true := by
  cases r with
  | bools v =>
    unfold selDomain
    have := forRange_ind (Nat.zero_le n) (s := fun _ : ℕ => false) (f := fun j sel => Function.update sel j (v j))
      (P := fun q (sel : ℕ → Bool) => ∀ j < q, sel j = v j) (by intro j hj; omega)
      (by intro q sel _ _ ih j hj
          rw [Function.update_apply]
          split_ifs with h
          · rw [h]
          · exact ih j (by omega))
    dsimp only
    rw [this j hj]
    exact h
  | sets v =>
    unfold selDomain
    dsimp only
    rw [foldl_set (g := fun j => j)]
    exact Or.inr ⟨j, (Finset.mem_sort _).2 h, rfl⟩

theorem selRange_ok (T : Tape) (s : SetVec) (k : ℕ) (hk : k < T.dep.length) (h : Selects s k) :
    0 ∈ selRange T s (T.dep.getD k 0) := by
  cases s with
  | bools v =>
    unfold selRange
    rw [forRange_mem (fun i _ s w c => if_mem (v i) s (T.dep.getD i 0) 0 w c) (Nat.zero_le _)]
    exact Or.inr ⟨k, by omega, hk, h, rfl, rfl⟩
  | sets v =>
    unfold selRange
    rw [foldl_mem (fun i s w c => mem_addElement s (T.dep.getD i 0) 0 w c)]
    exact Or.inr ⟨k, (Finset.mem_sort _).2 h, rfl, rfl⟩

/-- **C45** `ForSparseHes`: the result contains every second partial of `∑_k w_k F_k` that is not zero, for selected
rows and columns; all `w_k` that are not zero are selected.  Partial: operation sequences with a conditional expression
or an absolute zero multiplication with a parameter as left operand are excluded (as for `for_hes_sparsity`). -/
theorem for_sparse_hes_ok_partial {T : Tape} (hT : T.WF) (hsup : ∀ op ∈ T.ops, forHesSupported op = true)
    (junk : ℕ → Bool) (r s : SetVec) (w : List ℝ) (hw : ∀ k < T.dep.length, at' w k ≠ 0 → Selects s k)
    (x : ℕ → ℝ) (hD : T.Dom x) (i j : ℕ) (hi : i < T.n) (hj : j < T.n) (hsi : Selects r i) (hsj : Selects r j)
    (v : ℝ) (hv : IsPartial2 (wsum T w) x i j v) (hne : v ≠ 0) :
    (forSparseHes T junk r s).Has false T.n T.n i j := by
  have h := forHes_covers_partial hT hsup (selDomain T.n r) (selRange T s) w (fun k hk h0 => selRange_ok T s k hk (hw k hk h0)) x hD i j hi hj
    (selDomain_ok T.n r i hi hsi) (selDomain_ok T.n r j hj hsj) v hv hne
  have hm : j + 1 ∈ ((forHes T.n T.ops (selDomain T.n r) (revJac false T.ops (T.n + 1) (selRange T s)) (fun _ => ∅) (i + 1)).sort
      (· ≤ ·)).takeWhile (· < T.n + 1) := (mem_takeWhile_sort _ _ _).2 ⟨h, by omega⟩
  unfold forSparseHes
  dsimp only
  generalize forHes T.n T.ops (selDomain T.n r) (revJac false T.ops (T.n + 1) (selRange T s)) (fun _ => ∅) = H at hm
  refine ⟨hi, hj, ?_⟩
  cases r with
  | bools v =>
    have := forRange_ind (Nat.zero_le T.n) (s := forRange 0 T.n junk fun i v => clearRow false T.n T.n i v)
      (f := fun i v => (((H (i + 1)).sort (· ≤ ·)).takeWhile (· < T.n + 1)).foldl (fun v j => Function.update v (i * T.n + (j - 1)) true) v)
      (P := fun q (v : ℕ → Bool) => i < q → v (i * T.n + j) = true) (by omega)
      (by
        intro q v _ _ ih hq
        rw [foldl_set]
        rcases Nat.lt_succ_iff_lt_or_eq.1 hq with h | rfl
        · exact Or.inl (ih h)
        · exact Or.inr ⟨j + 1, hm, by simp⟩)
    simpa [SetVec.kind, boolIdx] using this hi
  | sets v =>
    dsimp only [SetVec.kind]
    simp only [Bool.false_eq_true, if_false]
    refine (forRange_mem (f := fun i v => (((H (i + 1)).sort (· ≤ ·)).takeWhile (· < T.n + 1)).foldl
      (fun v j => Sp.addElement v i (j - 1)) v)
      (fun k _ s w c => foldl_mem (f := fun v j => Sp.addElement v k (j - 1)) (fun j s w c => mem_addElement s k (j - 1) w c) s w c)
      (Nat.zero_le _) _ _ _).2 ?_
    exact Or.inr ⟨i, by omega, hi, j + 1, hm, rfl, by simp⟩

end CppAD.Legacy
