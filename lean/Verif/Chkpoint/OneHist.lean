import Verif.Chkpoint.OneThm

/-! # Every history of calls of a `checkpoint` object -/

open scoped ContDiff Topology

namespace CppAD.Chkpoint

open CppAD.Sparsity CppAD.Legacy

variable {T : Tape}

/-- Every history of calls that one object of the class `checkpoint` gets from recordings, forward and reverse mode and sparsity
calculations.  The flag is true when no `rev_sparse_hes` with vectors of sets has been called since the last forward mode
calculation that is not part of a recording (or since the constructor). -/
inductive Hist (T : Tape) : Bool → One → Prop
  | start {f : ADFun} {S : St} : Reach T f S → Hist T true ⟨f, none, none, none, none⟩
  | record {g o} (setType : Bool) (pj ij : ℕ → Bool) (junk cj : ℕ → ℝ) (nan : ℝ) (q : ℕ) (vx vy : ℕ → Bool) (tx : ℕ → ℝ) :
      Hist T g o → Hist T g (o.forward setType pj ij junk cj nan q (some vx) vy tx).1
  | forward {g o} (setType : Bool) (pj ij : ℕ → Bool) (junk cj : ℕ → ℝ) (nan : ℝ) (q : ℕ) (vy : ℕ → Bool) (tx : ℕ → ℝ) :
      Hist T g o → Hist T true (o.forward setType pj ij junk cj nan q none vy tx).1
  | reverse {g o} (junk junk' cj : ℕ → ℝ) (nan : ℝ) (q : ℕ) (tx py : ℕ → ℝ) :
      Hist T g o → Hist T g (o.reverse junk junk' cj nan q tx py).1
  | forJacBool {g o} (junk ij : ℕ → Bool) (q : ℕ) (r s0 : ℕ → Bool) : Hist T g o → Hist T g (o.forSparseJacBool junk ij q r s0).1
  | forJacSet {g o} (junk : ℕ → Bool) (r : ℕ → Finset ℕ) : Hist T g o → Hist T g (o.forSparseJacSet junk r).1
  | revJacBool {g o} (junk ij : ℕ → Bool) (q : ℕ) (rt st0 : ℕ → Bool) : Hist T g o → Hist T g (o.revSparseJacBool junk ij q rt st0).1
  | revJacSet {g o} (junk : ℕ → Bool) (rt : ℕ → Finset ℕ) : Hist T g o → Hist T g (o.revSparseJacSet junk rt).1
  | revHesBool {g o} (junk j1 j2 ij : ℕ → Bool) (q : ℕ) (s r u v0 : ℕ → Bool) :
      Hist T g o → Hist T g (o.revSparseHesBool junk j1 j2 ij q s r u v0).1
  | revHesSet {g o} (junk j1 j2 : ℕ → Bool) (q : ℕ) (s : ℕ → Bool) (r u : ℕ → Finset ℕ) :
      Hist T g o → Hist T false (o.revSparseHesSet junk j1 j2 q s r u).1

/-- what holds between two calls -/
structure OneInv (T : Tape) (g : Bool) (o : One) : Prop where
  reach : ∃ S, Reach T o.f S
  jacSet : ∀ s, o.jacSet = some s → CovJac T (fun i j => j ∈ s i) ∧ (g = true → DepJac T fun i j => j ∈ s i)
  jacBool : ∀ s, o.jacBool = some s → DepJac T fun i j => s (i * T.n + j) = true
  hesSet : ∀ s, o.hesSet = some s → CovHes T fun a b => b ∈ s a
  hesBool : ∀ s, o.hesBool = some s → CovHes T fun a b => s (a * T.n + b) = true

theorem OneInv.tape (hT : T.WF) {g : Bool} {o : One} (h : OneInv T g o) : o.f.toTape = T := by
  obtain ⟨S, h⟩ := h.reach
  exact (h.inv hT).2

theorem OneInv.weaken {g : Bool} {o : One} (h : OneInv T g o) : OneInv T false o :=
  ⟨h.reach, fun s hs => ⟨(h.jacSet s hs).1, by simp⟩, h.jacBool, h.hesSet, h.hesBool⟩

theorem OneInv.dropSet {g g' : Bool} {o : One} (h : OneInv T g o) : OneInv T g' { o with jacSet := none } :=
  ⟨h.reach, by simp, h.jacBool, h.hesSet, h.hesBool⟩

theorem OneInv.dropBool {g : Bool} {o : One} (h : OneInv T g o) : OneInv T g { o with jacBool := none } :=
  ⟨h.reach, h.jacSet, by simp, h.hesSet, h.hesBool⟩

theorem OneInv.dropHesSet {g : Bool} {o : One} (h : OneInv T g o) : OneInv T g { o with hesSet := none } :=
  ⟨h.reach, h.jacSet, h.jacBool, by simp, h.hesBool⟩

theorem OneInv.dropHesBool {g : Bool} {o : One} (h : OneInv T g o) : OneInv T g { o with hesBool := none } :=
  ⟨h.reach, h.jacSet, h.jacBool, h.hesSet, by simp⟩

theorem OneInv.setF {g : Bool} {o : One} (h : OneInv T g o) {f : ADFun} {S : St} (hf : Reach T f S) : OneInv T g { o with f := f } :=
  ⟨⟨S, hf⟩, h.jacSet, h.jacBool, h.hesSet, h.hesBool⟩

/-- make sure `jac_sparse_set_` is defined -/
theorem OneInv.needSet (hT : T.WF) {g : Bool} {o : One} (h : OneInv T g o) (junk : ℕ → Bool) :
    OneInv T g (if o.jacSet.isNone then o.setJacSet junk else o) ∧
      ∃ s, (if o.jacSet.isNone then o.setJacSet junk else o).jacSet = some s := by
  rcases e : o.jacSet with _ | s
  · obtain ⟨s, h1, h2⟩ := setJacSet_ok hT o (h.tape hT) junk
    show OneInv T g (o.setJacSet junk) ∧ ∃ s, (o.setJacSet junk).jacSet = some s
    refine ⟨⟨h.reach, fun s' hs => ?_, h.jacBool, h.hesSet, h.hesBool⟩, s, h1⟩
    cases h1.symm.trans hs
    exact ⟨h2.cov, fun _ => h2⟩
  · rw [if_neg (by simp)]
    exact ⟨h, s, e⟩

/-- make sure `jac_sparse_bool_` is defined -/
theorem OneInv.needBool (hT : T.WF) {g : Bool} {o : One} (h : OneInv T g o) (junk ij : ℕ → Bool) :
    OneInv T g (if o.jacBool.isNone then o.setJacBool junk ij else o) ∧
      ∃ s, (if o.jacBool.isNone then o.setJacBool junk ij else o).jacBool = some s := by
  rcases e : o.jacBool with _ | s
  · obtain ⟨s, h1, h2⟩ := setJacBool_ok hT o (h.tape hT) junk ij
    show OneInv T g (o.setJacBool junk ij) ∧ ∃ s, (o.setJacBool junk ij).jacBool = some s
    refine ⟨⟨h.reach, h.jacSet, fun s' hs => ?_, h.hesSet, h.hesBool⟩, s, h1⟩
    cases h1.symm.trans hs
    exact h2
  · rw [if_neg (by simp)]
    exact ⟨h, s, e⟩

/-- make sure `hes_sparse_bool_` is defined -/
theorem OneInv.needHesBool (hT : T.WF) {g : Bool} {o : One} (h : OneInv T g o) (junk ij : ℕ → Bool) :
    OneInv T g (if o.hesBool.isNone then o.setHesBool junk ij else o) ∧
      ∃ s, (if o.hesBool.isNone then o.setHesBool junk ij else o).hesBool = some s := by
  rcases e : o.hesBool with _ | s
  · obtain ⟨s, h1, h2⟩ := setHesBool_ok hT o (h.tape hT) junk ij
    show OneInv T g (o.setHesBool junk ij) ∧ ∃ s, (o.setHesBool junk ij).hesBool = some s
    refine ⟨⟨h.reach, h.jacSet, h.jacBool, h.hesSet, fun s' hs => ?_⟩, s, h1⟩
    cases h1.symm.trans hs
    exact h2
  · rw [if_neg (by simp)]
    exact ⟨h, s, e⟩

/-- make sure `hes_sparse_set_` is defined -/
theorem OneInv.needHesSet (hT : T.WF) {g : Bool} {o : One} (h : OneInv T g o) (junk : ℕ → Bool) :
    OneInv T false (if o.hesSet.isNone then o.setHesSet junk else o) ∧
      ∃ s, (if o.hesSet.isNone then o.setHesSet junk else o).hesSet = some s := by
  rcases e : o.hesSet with _ | s
  · obtain ⟨⟨s, h1, h2⟩, ⟨r, h3, h4⟩⟩ := setHesSet_ok hT o (h.tape hT) junk
    show OneInv T false (o.setHesSet junk) ∧ ∃ s, (o.setHesSet junk).hesSet = some s
    refine ⟨⟨h.reach, fun s' hs => ?_, h.jacBool, fun s' hs => ?_, h.hesBool⟩, s, h1⟩
    · cases h3.symm.trans hs
      exact ⟨h4, by simp⟩
    · cases h1.symm.trans hs
      exact h2
  · rw [if_neg (by simp)]
    exact ⟨h.weaken, s, e⟩

theorem OneInv.forwardVy (hT : T.WF) {g : Bool} {o : One} (h : OneInv T g o) (setType : Bool) (pj ij : ℕ → Bool)
    (vx vy : ℕ → Bool) : OneInv T g (o.forwardVy setType pj ij (some vx) vy).1 := by
  unfold One.forwardVy
  dsimp only
  by_cases hs : setType = true
  · rw [if_pos hs]
    exact (h.needSet hT pj).1
  · rw [if_neg hs]
    exact ((h.dropSet (g' := g)).needBool hT pj ij).1

theorem One.capacity_reach {f : ADFun} {S : St} (h : Reach T f S) (cj : ℕ → ℝ) : ∃ S', Reach T (f.capacityOrder cj 0) S' :=
  ⟨_, Reach.capacity cj 0 h⟩

theorem Hist.inv (hT : T.WF) {g : Bool} {o : One} (h : Hist T g o) : OneInv T g o := by
  induction h with
  | start h => exact ⟨⟨_, h⟩, by simp, by simp, by simp, by simp⟩
  | record setType pj ij junk cj nan q vx vy tx _ ih =>
    have h1 := ih.forwardVy hT setType pj ij vx vy
    obtain ⟨S, hS⟩ := h1.reach
    obtain ⟨S', h2, _⟩ := forward_reach hT hS junk nan q tx
    exact h1.setF (Reach.capacity cj 0 h2)
  | @forward g o setType pj ij junk cj nan q vy tx _ ih =>
    obtain ⟨S, hS⟩ := ih.reach
    obtain ⟨S', h2, _⟩ := forward_reach hT hS junk nan q tx
    exact ⟨⟨_, Reach.capacity cj 0 h2⟩, by simp [One.forward, One.forwardVy], by simp [One.forward, One.forwardVy],
      by simp [One.forward, One.forwardVy], by simp [One.forward, One.forwardVy]⟩
  | reverse junk junk' cj nan q tx py _ ih =>
    obtain ⟨S, hS⟩ := ih.reach
    obtain ⟨S', h2⟩ := reverse_reach hT hS junk junk' nan q tx py
    exact ih.setF (Reach.capacity cj 0 h2)
  | forJacBool junk ij q r s0 _ ih => exact (ih.needBool hT junk ij).1.dropSet
  | forJacSet junk r _ ih => exact (ih.dropBool.needSet hT junk).1
  | revJacBool junk ij q rt st0 _ ih => exact (ih.needBool hT junk ij).1.dropSet
  | revJacSet junk rt _ ih => exact (ih.dropBool.needSet hT junk).1
  | revHesBool junk j1 j2 ij q s r u v0 _ ih => exact (ih.needHesBool hT junk ij).1.dropHesSet
  | revHesSet junk j1 j2 q s r u _ ih => exact (ih.dropHesBool.needHesSet hT junk).1

/-! ## Values and derivatives -/

theorem forwardVy_f (o : One) (setType : Bool) (pj ij : ℕ → Bool) (vx : Option (ℕ → Bool)) (vy : ℕ → Bool) :
    (o.forwardVy setType pj ij vx vy).1.f = o.f := by
  unfold One.forwardVy
  cases vx with
  | none => rfl
  | some vx =>
    dsimp only
    split_ifs <;> rfl

/-- **C63** `forward` in every history, while recording (`vx` given) and during forward mode: the Taylor coefficients of the
recorded function along every smooth curve, for every order. -/
theorem one_forward_ok (hT : T.WF) {g : Bool} {o : One} (h : Hist T g o) (setType : Bool) (pj ij : ℕ → Bool) (junk cj : ℕ → ℝ)
    (nan : ℝ) (q : ℕ) (vx : Option (ℕ → Bool)) (vy : ℕ → Bool) (tx : ℕ → ℝ) (X : ℝ → ℕ → ℝ) (hX : ∀ j < T.n, Sm fun t => X t j)
    (hD : T.Dom (X 0)) (htx : ∀ j < T.n, ∀ k ≤ q, tx (j * (q + 1) + k) = tc (fun t => X t j) k) {i k : ℕ}
    (hi : i < T.dep.length) (hk : k ≤ q) :
    (o.forward setType pj ij junk cj nan q vx vy tx).2.1 (i * (q + 1) + k) = tc (fun t => T.eval (X t) i) k := by
  obtain ⟨S, hS⟩ := (h.inv hT).reach
  rw [← forwardVy_f o setType pj ij vx vy] at hS
  exact forward_tc hT hS junk nan q tx X hX hD htx hi hk

/-- **C63** order zero, at every point (also where the function is not differentiable) -/
theorem one_forward_zero (hT : T.WF) {g : Bool} {o : One} (h : Hist T g o) (setType : Bool) (pj ij : ℕ → Bool) (junk cj : ℕ → ℝ)
    (nan : ℝ) (q : ℕ) (vx : Option (ℕ → Bool)) (vy : ℕ → Bool) (tx : ℕ → ℝ) {i : ℕ} (hi : i < T.dep.length) :
    (o.forward setType pj ij junk cj nan q vx vy tx).2.1 (i * (q + 1)) = T.eval (ext fun j : Fin T.n => tx (j * (q + 1))) i := by
  obtain ⟨S, hS⟩ := (h.inv hT).reach
  rw [← forwardVy_f o setType pj ij vx vy] at hS
  exact forward_zero hT hS junk nan q tx hi

/-- **C63** `reverse` in every history: the derivative of the weighted sum of the Taylor coefficients of the results with respect to
every Taylor coefficient of every argument. -/
theorem one_reverse_ok (hT : T.WF) {g : Bool} {o : One} (h : Hist T g o) (junk junk' cj : ℕ → ℝ) (nan : ℝ) (q : ℕ)
    (tx py : ℕ → ℝ) (X : ℝ → ℕ → ℝ) (hX : ∀ j < T.n, Sm fun t => X t j) (hD : T.Dom (X 0))
    (htx : ∀ j < T.n, ∀ k ≤ q, tx (j * (q + 1) + k) = tc (fun t => X t j) k) {j k : ℕ} (hj : j < T.n) (hk : k ≤ q) :
    HasDerivAt (fun h => ∑ i ∈ Finset.range T.dep.length, ∑ l ∈ Finset.range (q + 1),
        py (i * (q + 1) + l) * tc (fun t => T.eval (Function.update (X t) j (X t j + h * t ^ k)) i) l)
      ((o.reverse junk junk' cj nan q tx py).2 (j * (q + 1) + k)) 0 := by
  obtain ⟨S, hS⟩ := (h.inv hT).reach
  exact reverse_deriv hT hS junk junk' nan q tx py X hX hD htx hj hk

/-! ## vy -/

theorem vySets_iff (n m : ℕ) (s : ℕ → Finset ℕ) (vx vy : ℕ → Bool) {i : ℕ} (hi : i < m) :
    vySets n m s vx vy i = true ↔ ∃ j ∈ s i, j < n ∧ vx j = true := by
  have key : ∀ (l : List ℕ) (a : ℕ) (vy : ℕ → Bool), l.foldl (fun vy j => Function.update vy a (vy a || vx j)) vy =
      Function.update vy a (vy a || l.any vx) := by
    intro l a
    induction l with
    | nil => intro vy; simp
    | cons c l ih =>
      intro vy
      rw [List.foldl_cons, ih]
      simp [Bool.or_assoc]
  have := AtomEx.forRange_assign (α := Bool) (m := m) vy (fun a => (visit s a n).any vx)
    (fun a vy => (visit s a n).foldl (fun vy j => Function.update vy a (vy a || vx j)) (Function.update vy a false))
    (fun a t _ => by rw [key]; simp) hi
  unfold vySets
  rw [this, List.any_eq_true]
  simp only [mem_visit]
  constructor
  · rintro ⟨j, ⟨h1, h2⟩, h3⟩; exact ⟨j, h1, h2, h3⟩
  · rintro ⟨j, h1, h2, h3⟩; exact ⟨j, ⟨h1, h2⟩, h3⟩

theorem vyBools_iff (n m : ℕ) (b vx vy : ℕ → Bool) {i : ℕ} (hi : i < m) :
    vyBools n m b vx vy i = true ↔ ∃ j < n, b (i * n + j) = true ∧ vx j = true := by
  have key : ∀ (a : ℕ) (vy : ℕ → Bool), (forRange 0 n (Function.update vy a false) fun j vy =>
      if b (a * n + j) then Function.update vy a (vy a || vx j) else vy) =
      Function.update vy a (forRange 0 n false fun j c => c || (b (a * n + j) && vx j)) := by
    intro a vy
    have h := forRange_ind (Nat.zero_le n) (s := Function.update vy a false) (f := fun j (vy : ℕ → Bool) =>
      if b (a * n + j) then Function.update vy a (vy a || vx j) else vy)
      (P := fun K (t : ℕ → Bool) => t = Function.update vy a (forRange 0 K false fun j c => c || (b (a * n + j) && vx j)))
      rfl (by
        intro K t _ _ ih
        rw [forRange_succ (Nat.zero_le K) false (fun j c => c || (b (a * n + j) && vx j)), ih]
        cases b (a * n + K) <;> simp)
    exact h
  have := AtomEx.forRange_assign (α := Bool) (m := m) vy (fun a => forRange 0 n false fun j c => c || (b (a * n + j) && vx j))
    (fun a vy => forRange 0 n (Function.update vy a false) fun j vy =>
      if b (a * n + j) then Function.update vy a (vy a || vx j) else vy) (fun a t _ => key a t) hi
  unfold vyBools
  rw [this, or_loop]
  simp

/-- **C63** `vy` while a call is recorded: a result that is not marked as a variable does not change with the arguments that are
variables.  Partial: not when `rev_sparse_hes` with vectors of sets has been called since the last forward mode calculation
outside of a recording (see `one_vy_wrong`). -/
theorem one_vy_ok_partial (hT : T.WF) {o : One} (h : Hist T true o) (setType : Bool) (pj ij : ℕ → Bool) (junk cj : ℕ → ℝ)
    (nan : ℝ) (q : ℕ) (vx vy : ℕ → Bool) (tx : ℕ → ℝ) {i : ℕ} (hi : i < T.dep.length)
    (hv : (o.forward setType pj ij junk cj nan q (some vx) vy tx).2.2 i = false) (x x' : ℕ → ℝ)
    (hx : ∀ j < T.n, vx j = false → x j = x' j) : T.eval x i = T.eval x' i := by
  have hI := h.inv hT
  have hn : o.f.n = T.n := by rw [hI.tape hT]
  have hm : o.f.dep.length = T.dep.length := by rw [hI.tape hT]
  unfold One.forward One.forwardVy at hv
  dsimp only at hv
  rw [hn, hm] at hv
  by_cases hset : setType = true
  · rw [if_pos hset] at hv
    obtain ⟨h1, s, h2⟩ := hI.needSet hT pj
    have h3 := (h1.jacSet s h2).2 rfl
    refine h3.many hT hi x x' fun j hj hne hmem => ?_
    dsimp only at hv
    rw [h2] at hv
    have hvj : vx j = true := by
      by_contra hc
      exact hne (hx j hj (by simpa using hc))
    have := (vySets_iff T.n T.dep.length s vx vy hi).2 ⟨j, hmem, hj, hvj⟩
    rw [Option.getD_some, this] at hv
    exact absurd hv (by simp)
  · rw [if_neg hset] at hv
    obtain ⟨h1, s, h2⟩ := (hI.dropSet (g' := true)).needBool hT pj ij
    have h3 := h1.jacBool s h2
    refine h3.many hT hi x x' fun j hj hne hmem => ?_
    dsimp only at hv
    have hvj : vx j = true := by
      by_contra hc
      exact hne (hx j hj (by simpa using hc))
    have := (vyBools_iff T.n T.dep.length s vx vy hi).2 ⟨j, hj, hmem, hvj⟩
    dsimp only at h2
    rw [h2, Option.getD_some, this] at hv
    exact absurd hv (by simp)

/-! ## Sparsity -/

/-- **C63** `for_sparse_jac` for vectors of sets in every history: the result contains the entries of `f'(x) R` that are not zero,
for every matrix `R` with non-zeros in `r`. -/
theorem one_for_sparse_jac_set_ok (hT : T.WF) {g : Bool} {o : One} (h : Hist T g o) (junk : ℕ → Bool) (r : ℕ → Finset ℕ)
    (R : ℕ → ℕ → ℝ) (k : ℕ) (hR : ∀ j < T.n, R j k ≠ 0 → k ∈ r j) (x : ℕ → ℝ) (hD : T.Dom x) {i : ℕ} (hi : i < T.dep.length)
    (J : ℕ → ℝ) (hJ : ∀ j < T.n, IsPartial (fun y => T.eval y i) x j (J j)) (hne : ∑ j ∈ Finset.range T.n, J j * R j k ≠ 0) :
    k ∈ (o.forSparseJacSet junk r).2 i := by
  have hI := h.inv hT
  obtain ⟨h1, s, h2⟩ := hI.dropBool.needSet hT junk
  have h3 := (h1.jacSet s h2).1
  obtain ⟨j, hj, hne⟩ := Finset.exists_ne_zero_of_sum_ne_zero hne
  rw [Finset.mem_range] at hj
  unfold One.forSparseJacSet
  dsimp only
  dsimp only at h2
  rw [h2, mem_mulSets, hI.tape hT]
  exact ⟨hi, j, h3 i hi j hj x hD _ (hJ j hj) (left_ne_zero_of_mul hne), hj, hR j hj (right_ne_zero_of_mul hne)⟩

/-- **C63** `for_sparse_jac` for vectors of bool -/
theorem one_for_sparse_jac_bool_ok (hT : T.WF) {g : Bool} {o : One} (h : Hist T g o) (junk ij : ℕ → Bool) (q : ℕ) (r s0 : ℕ → Bool)
    (R : ℕ → ℕ → ℝ) {k : ℕ} (hk : k < q) (hR : ∀ j < T.n, R j k ≠ 0 → r (j * q + k) = true) (x : ℕ → ℝ) (hD : T.Dom x) {i : ℕ}
    (hi : i < T.dep.length) (J : ℕ → ℝ) (hJ : ∀ j < T.n, IsPartial (fun y => T.eval y i) x j (J j))
    (hne : ∑ j ∈ Finset.range T.n, J j * R j k ≠ 0) : (o.forSparseJacBool junk ij q r s0).2 (i * q + k) = true := by
  have hI := h.inv hT
  have hn : o.f.n = T.n := by rw [hI.tape hT]
  have hm : o.f.dep.length = T.dep.length := by rw [hI.tape hT]
  obtain ⟨h1, s, h2⟩ := hI.needBool hT junk ij
  have h3 := (h1.jacBool s h2).cov
  obtain ⟨j, hj, hne⟩ := Finset.exists_ne_zero_of_sum_ne_zero hne
  rw [Finset.mem_range] at hj
  unfold One.forSparseJacBool
  dsimp only
  rw [h2, hn, hm, Option.getD_some, mulBools_iff _ _ _ _ _ _ hi hk]
  exact ⟨j, hj, h3 i hi j hj x hD _ (hJ j hj) (left_ne_zero_of_mul hne), hR j hj (right_ne_zero_of_mul hne)⟩

/-- **C63** `rev_sparse_jac` for vectors of sets in every history: the (transposed) result contains the entries of `R f'(x)` that are
not zero; `R i` are the elements of column `i` of the transposed argument `rt` -/
theorem one_rev_sparse_jac_set_ok (hT : T.WF) {g : Bool} {o : One} (h : Hist T g o) (junk : ℕ → Bool) (rt : ℕ → Finset ℕ)
    (R : ℕ → ℕ → ℝ) (k : ℕ) (hR : ∀ i < T.dep.length, R k i ≠ 0 → k ∈ rt i) (x : ℕ → ℝ) (hD : T.Dom x) {j : ℕ} (hj : j < T.n)
    (J : ℕ → ℝ) (hJ : ∀ i < T.dep.length, IsPartial (fun y => T.eval y i) x j (J i))
    (hne : ∑ i ∈ Finset.range T.dep.length, R k i * J i ≠ 0) : k ∈ (o.revSparseJacSet junk rt).2 j := by
  have hI := h.inv hT
  obtain ⟨h1, s, h2⟩ := hI.dropBool.needSet hT junk
  have h3 := (h1.jacSet s h2).1
  obtain ⟨i, hi, hne⟩ := Finset.exists_ne_zero_of_sum_ne_zero hne
  rw [Finset.mem_range] at hi
  unfold One.revSparseJacSet
  dsimp only
  dsimp only at h2
  rw [h2, hI.tape hT]
  have hb : ∀ a (st : Sp) v c, c ∈ (((rt a).sort (· ≤ ·)).foldl (fun st k =>
      (visit s a T.n).foldl (fun st j => Sp.addElement st j k) st) st) v ↔
      c ∈ st v ∨ ∃ k ∈ (rt a).sort (· ≤ ·), ∃ j ∈ visit s a T.n, v = j ∧ c = k := by
    intro a st v c
    exact foldl_mem (f := fun st k => (visit s a T.n).foldl (fun st j => Sp.addElement st j k) st)
      (Q := fun k v c => ∃ j ∈ visit s a T.n, v = j ∧ c = k)
      (fun k st v c => foldl_mem (f := fun st j => Sp.addElement st j k) (fun j st v c => mem_addElement st j k v c) st v c) st v c
  rw [Option.getD_some]
  refine (forRange_mem (fun a _ st v c => hb a st v c) (Nat.zero_le _) _ _ _).2 (Or.inr ⟨i, by omega, hi, k, ?_, j, ?_, rfl, rfl⟩)
  · rw [Finset.mem_sort]; exact hR i hi (left_ne_zero_of_mul hne)
  · rw [mem_visit]; exact ⟨h3 i hi j hj x hD _ (hJ i hi) (right_ne_zero_of_mul hne), hj⟩

/-- **C63** `rev_sparse_jac` for vectors of bool -/
theorem one_rev_sparse_jac_bool_ok (hT : T.WF) {g : Bool} {o : One} (h : Hist T g o) (junk ij : ℕ → Bool) (q : ℕ)
    (rt st0 : ℕ → Bool) (R : ℕ → ℕ → ℝ) {k : ℕ} (hk : k < q) (hR : ∀ i < T.dep.length, R k i ≠ 0 → rt (i * q + k) = true)
    (x : ℕ → ℝ) (hD : T.Dom x) {j : ℕ} (hj : j < T.n) (J : ℕ → ℝ)
    (hJ : ∀ i < T.dep.length, IsPartial (fun y => T.eval y i) x j (J i))
    (hne : ∑ i ∈ Finset.range T.dep.length, R k i * J i ≠ 0) : (o.revSparseJacBool junk ij q rt st0).2 (j * q + k) = true := by
  have hI := h.inv hT
  have hn : o.f.n = T.n := by rw [hI.tape hT]
  have hm : o.f.dep.length = T.dep.length := by rw [hI.tape hT]
  obtain ⟨h1, s, h2⟩ := hI.needBool hT junk ij
  have h3 := (h1.jacBool s h2).cov
  obtain ⟨i, hi, hne⟩ := Finset.exists_ne_zero_of_sum_ne_zero hne
  rw [Finset.mem_range] at hi
  unfold One.revSparseJacBool
  dsimp only
  rw [h2, hn, hm, Option.getD_some]
  have := (AtomEx.fill_mat (n := q) (m := T.n) st0 (fun i j => forRange 0 T.dep.length false fun k b => b || (rt (k * q + i) && s (k * T.n + j)))
    (fun i j => j * q + i) (fun i j st => Function.update st (j * q + i)
      (forRange 0 T.dep.length false fun k b => b || (rt (k * q + i) && s (k * T.n + j))))
    (fun _ _ _ _ _ => rfl) (fun i j i' j' hi _ hi' _ h => (AtomEx.idx_inj hi hi' h).symm)).1 k hk j hj
  rw [this, or_loop]
  refine Or.inr ⟨i, hi, ?_⟩
  rw [Bool.and_eq_true]
  exact ⟨hR i hi (left_ne_zero_of_mul hne), h3 i hi j hj x hD _ (hJ i hi) (right_ne_zero_of_mul hne)⟩

/-- **C63** the vector `t` in `rev_sparse_hes` contains the entries of `S f'(x)` that are not zero -/
theorem one_rev_t_ok (hT : T.WF) {o : One} (ho : o.f.toTape = T) (junk s : ℕ → Bool) (w : List ℝ)
    (hw : ∀ i < T.dep.length, at' w i ≠ 0 → s i = true) (x : ℕ → ℝ) (hD : T.Dom x) {j : ℕ} (hj : j < T.n) {d : ℝ}
    (hd : IsPartial (wsum T w) x j d) (hne : d ≠ 0) : o.revT junk s j = true := by
  unfold One.revT
  rw [ho]
  have := rev_sparse_jac_ok hT junk 1 (.bools s) false false trivial 0 j (by omega) hj w
    (fun k hk h => ⟨by omega, hk, by simpa using hw k hk h⟩) x hD d hd hne
  simpa using has_toBools rfl this

/-- the two terms of `V(x)` that the patterns of `rev_sparse_hes` cover -/
theorem one_v_set (hT : T.WF) {g : Bool} {o : One} (h : Hist T g o) (junk j1 j2 : ℕ → Bool) (q : ℕ) (s : ℕ → Bool)
    (r u : ℕ → Finset ℕ) (hu : ∀ i < T.dep.length, ∀ k ∈ u i, k < q) {i k : ℕ} (hi : i < T.n) (hk : k < q)
    (x : ℕ → ℝ) (hD : T.Dom x)
    (hc : (∃ (U : List ℝ) (d : ℝ), (∀ l < T.dep.length, at' U l ≠ 0 → k ∈ u l) ∧ IsPartial (wsum T U) x i d ∧ d ≠ 0) ∨
      (∃ (w : List ℝ) (d : ℝ) (j : ℕ), j < T.n ∧ k ∈ r j ∧ IsPartial2 (wsum T w) x i j d ∧ d ≠ 0)) :
    k ∈ (o.revSparseHesSet junk j1 j2 q s r u).2.2 i := by
  have hI := h.inv hT
  obtain ⟨h1, hs, h2⟩ := hI.dropHesBool.needHesSet hT junk
  have h3 := h1.hesSet hs h2
  unfold One.revSparseHesSet
  dsimp only
  dsimp only at h1 h2
  rw [h2, h1.tape hT, hI.tape hT, Option.getD_some]
  rw [forRange_mem (f := fun i v => ((toSets (revSparseJac T j2 q (.sets u) true false) i).sort (· ≤ ·)).foldl
    (fun v j => Sp.addElement v i j) v) (Q := fun i v c => ∃ j ∈ (toSets (revSparseJac T j2 q (.sets u) true false) i).sort (· ≤ ·),
      v = i ∧ c = j)
    (fun a _ st v c => foldl_mem (f := fun v j => Sp.addElement v a j) (fun j st v c => mem_addElement st a j v c) st v c)
    (Nat.zero_le _), mem_mulSets]
  rcases hc with ⟨U, d, hU, hd, hne⟩ | ⟨w, d, j, hj, hr, hd, hne⟩
  · refine Or.inr ⟨i, by omega, hi, k, ?_, rfl, rfl⟩
    rw [Finset.mem_sort]
    have := rev_sparse_jac_ok hT j2 q (.sets u) true false (by
      simpa [SetVec.Ok] using hu) k i hk hi U (fun l hl h => ⟨hk, hl, by simpa using hU l hl h⟩) x hD d hd hne
    exact has_toSets_true rfl this
  · exact Or.inl ⟨hi, j, h3 i hi j hj w x hD d hd hne, hj, hr⟩

/-- **C63** `rev_sparse_hes` for vectors of sets in every history: the result `v` contains the entries `(i, k)` of
`f'(x)^T U + (∑ S_l f_l)''(x) R` that are not zero. -/
theorem one_rev_sparse_hes_set_ok (hT : T.WF) {g : Bool} {o : One} (h : Hist T g o) (junk j1 j2 : ℕ → Bool) (q : ℕ) (s : ℕ → Bool)
    (r u : ℕ → Finset ℕ) (hu : ∀ i < T.dep.length, ∀ k ∈ u i, k < q) {i k : ℕ} (hi : i < T.n) (hk : k < q)
    (w : List ℝ) (U : List ℝ) (R : ℕ → ℝ)
    (hU : ∀ l < T.dep.length, at' U l ≠ 0 → k ∈ u l) (hR : ∀ j < T.n, R j ≠ 0 → k ∈ r j) (x : ℕ → ℝ) (hD : T.Dom x) (A : ℝ)
    (hA : IsPartial (wsum T U) x i A) (H : ℕ → ℝ) (hH : ∀ j < T.n, IsPartial2 (wsum T w) x i j (H j))
    (hne : A + ∑ j ∈ Finset.range T.n, H j * R j ≠ 0) : k ∈ (o.revSparseHesSet junk j1 j2 q s r u).2.2 i := by
  refine one_v_set hT h junk j1 j2 q s r u hu hi hk x hD ?_
  by_cases hA0 : A = 0
  · rw [hA0, zero_add] at hne
    obtain ⟨j, hj, hne⟩ := Finset.exists_ne_zero_of_sum_ne_zero hne
    rw [Finset.mem_range] at hj
    exact Or.inr ⟨w, H j, j, hj, hR j hj (right_ne_zero_of_mul hne), hH j hj, left_ne_zero_of_mul hne⟩
  · exact Or.inl ⟨U, A, hU, hA, hA0⟩

/-- **C63** `rev_sparse_hes` for vectors of bool -/
theorem one_rev_sparse_hes_bool_ok (hT : T.WF) {g : Bool} {o : One} (h : Hist T g o) (junk j1 j2 ij : ℕ → Bool) (q : ℕ)
    (s r u v0 : ℕ → Bool) {i k : ℕ} (hi : i < T.n) (hk : k < q) (w : List ℝ) (U : List ℝ) (R : ℕ → ℝ)
    (hU : ∀ l < T.dep.length, at' U l ≠ 0 → u (l * q + k) = true) (hR : ∀ j < T.n, R j ≠ 0 → r (j * q + k) = true)
    (x : ℕ → ℝ) (hD : T.Dom x) (A : ℝ) (hA : IsPartial (wsum T U) x i A) (H : ℕ → ℝ)
    (hH : ∀ j < T.n, IsPartial2 (wsum T w) x i j (H j)) (hne : A + ∑ j ∈ Finset.range T.n, H j * R j ≠ 0) :
    (o.revSparseHesBool junk j1 j2 ij q s r u v0).2.2 (i * q + k) = true := by
  have hI := h.inv hT
  obtain ⟨h1, hs, h2⟩ := hI.needHesBool hT junk ij
  have h3 := h1.hesBool hs h2
  unfold One.revSparseHesBool
  dsimp only
  rw [h2, h1.tape hT, hI.tape hT, Option.getD_some]
  generalize hv : mulBools T.n T.n q hs r v0 = v
  generalize ha : toBools (revSparseJac T j2 q (.bools u) true false) = a
  have hfin : (forRange 0 T.n v fun i v => forRange 0 q v fun k v => Function.update v (i * q + k) (v (i * q + k) || a (i * q + k)))
      (i * q + k) = (v (i * q + k) || a (i * q + k)) := by
    refine (forRange_ind (Nat.zero_le T.n) (s := v) (f := fun i v => forRange 0 q v fun k v =>
      Function.update v (i * q + k) (v (i * q + k) || a (i * q + k)))
      (P := fun I (t : ℕ → Bool) => (∀ b < I, ∀ c < q, t (b * q + c) = (v (b * q + c) || a (b * q + c))) ∧
        ∀ b, I ≤ b → ∀ c < q, t (b * q + c) = v (b * q + c)) ⟨by intros; omega, by intros; rfl⟩ ?_).1 i hi k hk
    rintro I t _ _ ⟨t1, t2⟩
    have t3 := forRange_ind (Nat.zero_le q) (s := t) (f := fun k (v : ℕ → Bool) => Function.update v (I * q + k) (v (I * q + k) || a (I * q + k)))
      (P := fun K (u : ℕ → Bool) => (∀ c < K, u (I * q + c) = (v (I * q + c) || a (I * q + c))) ∧
        (∀ c < q, K ≤ c → u (I * q + c) = v (I * q + c)) ∧ ∀ b ≠ I, ∀ c < q, u (b * q + c) = t (b * q + c))
      ⟨by intros; omega, fun c hc _ => t2 I le_rfl c hc, fun _ _ _ _ => rfl⟩ (by
        rintro K u _ hK ⟨u1, u2, u3⟩
        refine ⟨fun c hc => ?_, fun c hc hc' => ?_, fun b hb c hc => ?_⟩
        · by_cases e : c = K
          · subst e
            rw [Function.update_self, u2 c hK le_rfl]
          · rw [Function.update_of_ne (by omega)]
            exact u1 c (by omega)
        · rw [Function.update_of_ne (by omega)]
          exact u2 c hc (by omega)
        · rw [Function.update_of_ne (fun e => hb (AtomEx.idx_inj hc hK e).1)]
          exact u3 b hb c hc)
    refine ⟨fun b hb c hc => ?_, fun b hb c hc => ?_⟩
    · by_cases e : b = I
      · subst e; exact t3.1 c hc
      · rw [t3.2.2 b e c hc]; exact t1 b (by omega) c hc
    · rw [t3.2.2 b (by omega) c hc]; exact t2 b (by omega) c hc
  rw [hfin, Bool.or_eq_true]
  by_cases hA0 : A = 0
  · rw [hA0, zero_add] at hne
    obtain ⟨j, hj, hne⟩ := Finset.exists_ne_zero_of_sum_ne_zero hne
    rw [Finset.mem_range] at hj
    left
    rw [← hv, mulBools_iff _ _ _ _ _ _ hi hk]
    exact ⟨j, hj, h3 i hi j hj w x hD _ (hH j hj) (left_ne_zero_of_mul hne), hR j hj (right_ne_zero_of_mul hne)⟩
  · right
    rw [← ha]
    have := rev_sparse_jac_ok hT j2 q (.bools u) true false trivial k i hk hi U
      (fun l hl h => ⟨hk, hl, by simpa using hU l hl h⟩) x hD A hA hA0
    exact has_toBools_true rfl this

end CppAD.Chkpoint
