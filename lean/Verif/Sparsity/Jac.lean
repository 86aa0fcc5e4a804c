import Verif.Sparsity.Model
import Mathlib.Data.Finset.Sort

/-!
# Jacobian sparsity patterns are conservative
-/

open scoped ContDiff Topology

namespace CppAD.Sparsity

/-- *Specification*: the pattern contains `(i, j)` (`(j, i)` if it is the transposed pattern) -/
def Has (transpose : Bool) (pat : Pattern) (i j : ℕ) : Prop :=
  ∃ k < pat.nnz, if transpose then pat.row k = j ∧ pat.col k = i else pat.row k = i ∧ pat.col k = j

theorem mem_setInternalPattern (transpose : Bool) (idx : ℕ → ℕ) (pat : Pattern) (v c : ℕ) :
    c ∈ setInternalPattern transpose idx (fun _ => ∅) pat v ↔ v ≠ 0 ∧ ∃ i, idx i = v ∧ Has transpose pat i c := by
  have := forRange_ind (Nat.zero_le pat.nnz) (s := (fun _ => ∅ : Sp)) (f := fun k (s : Sp) =>
      let r := if transpose then pat.col k else pat.row k
      let c := if transpose then pat.row k else pat.col k
      if idx r = 0 then s else s.addElement (idx r) c)
    (P := fun q s => ∀ v c, c ∈ s v ↔ v ≠ 0 ∧ ∃ i, idx i = v ∧ ∃ k < q,
      if transpose then pat.row k = c ∧ pat.col k = i else pat.row k = i ∧ pat.col k = c)
    (by intro v c; simp) (by
      intro k s _ _ ih v c
      dsimp only
      have hstep : ∀ i, (∃ k' < k + 1, if transpose then pat.row k' = c ∧ pat.col k' = i else pat.row k' = i ∧ pat.col k' = c) ↔
          (∃ k' < k, if transpose then pat.row k' = c ∧ pat.col k' = i else pat.row k' = i ∧ pat.col k' = c) ∨
          (i = (if transpose then pat.col k else pat.row k) ∧ c = (if transpose then pat.row k else pat.col k)) := by
        intro i
        constructor
        · rintro ⟨k', hk, h⟩
          rcases Nat.lt_succ_iff_lt_or_eq.1 hk with h' | rfl
          · exact Or.inl ⟨k', h', h⟩
          · right
            cases transpose
            · exact ⟨h.1.symm, h.2.symm⟩
            · exact ⟨h.2.symm, h.1.symm⟩
        · rintro (⟨k', hk, h⟩ | ⟨h1, h2⟩)
          · exact ⟨k', by omega, h⟩
          · refine ⟨k, by omega, ?_⟩
            cases transpose
            · exact ⟨h1.symm, h2.symm⟩
            · exact ⟨h2.symm, h1.symm⟩
      simp only [hstep]
      by_cases h0 : idx (if transpose then pat.col k else pat.row k) = 0
      · rw [if_pos h0, ih]
        constructor
        · rintro ⟨a, i, b, d⟩; exact ⟨a, i, b, Or.inl d⟩
        · rintro ⟨a, i, b, d | ⟨d, e⟩⟩
          · exact ⟨a, i, b, d⟩
          · subst d; exact absurd (b.symm.trans h0) a
      · rw [if_neg h0]
        unfold Sp.addElement
        by_cases hv : v = idx (if transpose then pat.col k else pat.row k)
        · rw [hv, Function.update_self, Finset.mem_insert, ih]
          constructor
          · rintro (rfl | ⟨a, i, b, d⟩)
            · exact ⟨h0, _, rfl, Or.inr ⟨rfl, rfl⟩⟩
            · exact ⟨a, i, b, Or.inl d⟩
          · rintro ⟨a, i, b, d | ⟨d, e⟩⟩
            · exact Or.inr ⟨a, i, b, d⟩
            · exact Or.inl e
        · rw [Function.update_of_ne hv, ih]
          constructor
          · rintro ⟨a, i, b, d⟩; exact ⟨a, i, b, Or.inl d⟩
          · rintro ⟨a, i, b, d | ⟨d, e⟩⟩
            · exact ⟨a, i, b, d⟩
            · subst d; exact absurd b.symm hv)
  exact this v c

theorem has_ofList (transpose : Bool) (l : List (ℕ × ℕ)) (i j : ℕ) :
    Has transpose (Pattern.ofList l) i j ↔ (if transpose then (j, i) else (i, j)) ∈ l := by
  unfold Has Pattern.ofList
  rw [List.mem_iff_getElem]
  constructor
  · rintro ⟨k, hk, h⟩
    refine ⟨k, hk, ?_⟩
    dsimp only at h hk
    rw [List.getD_eq_getElem _ _ hk] at h
    cases transpose
    · exact Prod.ext h.1 h.2
    · exact Prod.ext h.1 h.2
  · rintro ⟨k, hk, h⟩
    refine ⟨k, hk, ?_⟩
    dsimp only
    rw [List.getD_eq_getElem _ _ hk, h]
    cases transpose <;> exact ⟨rfl, rfl⟩

theorem mem_takeWhile_sort (A : Finset ℕ) (nc j : ℕ) :
    j ∈ (A.sort (· ≤ ·)).takeWhile (· < nc) ↔ j ∈ A ∧ j < nc := by
  have hs : (A.sort (· ≤ ·)).Pairwise (· ≤ ·) := Finset.pairwise_sort A (· ≤ ·)
  rw [← Finset.mem_sort (s := A) (· ≤ ·)]
  generalize A.sort (· ≤ ·) = l at hs
  induction l with
  | nil => simp
  | cons a l ih =>
    rw [List.pairwise_cons] at hs
    rw [List.takeWhile_cons]
    by_cases h : a < nc
    · simp only [h, decide_true, if_true, List.mem_cons, ih hs.2]
      constructor
      · rintro (rfl | ⟨h1, h2⟩)
        · exact ⟨Or.inl rfl, h⟩
        · exact ⟨Or.inr h1, h2⟩
      · rintro ⟨rfl | h1, h2⟩
        · exact Or.inl rfl
        · exact Or.inr ⟨h1, h2⟩
    · simp only [h, decide_false, Bool.false_eq_true, if_false, List.not_mem_nil, false_iff, List.mem_cons]
      rintro ⟨rfl | h1, h2⟩
      · exact h h2
      · exact h (lt_of_le_of_lt (hs.1 j h1) h2)

theorem has_getInternalPattern (transpose : Bool) (nr nc : ℕ) (idx : ℕ → ℕ) (s : Sp) (i j : ℕ) :
    Has transpose (getInternalPattern transpose nr nc idx s) i j ↔ i < nr ∧ j < nc ∧ j ∈ s (idx i) := by
  unfold getInternalPattern
  rw [has_ofList, List.mem_flatMap]
  constructor
  · rintro ⟨i', hi, h⟩
    rw [List.mem_map] at h
    obtain ⟨j', hj, h⟩ := h
    rw [mem_takeWhile_sort] at hj
    rw [List.mem_range] at hi
    cases transpose
    · simp only [Bool.false_eq_true, if_false, Prod.mk.injEq] at h
      obtain ⟨rfl, rfl⟩ := h
      exact ⟨hi, hj.2, hj.1⟩
    · simp only [if_true, Prod.mk.injEq] at h
      obtain ⟨rfl, rfl⟩ := h
      exact ⟨hi, hj.2, hj.1⟩
  · rintro ⟨h1, h2, h3⟩
    exact ⟨i, List.mem_range.2 h1, List.mem_map.2 ⟨j, (mem_takeWhile_sort _ _ _).2 ⟨h3, h2⟩, rfl⟩⟩

/-! ## forward -/

/-- the arguments that are propagated -/
def depArgs (dependency : Bool) (op : Op) : List ℕ := if dependency then op.args else jacArgs op

theorem depArgs_sub (b : Bool) (op : Op) : ∀ a ∈ depArgs b op, a ∈ op.args := by
  unfold depArgs
  split
  · exact fun a h => h
  · exact jacArgs_sub op

theorem jac_sub_dep (b : Bool) (op : Op) : ∀ a ∈ jacArgs op, a ∈ depArgs b op := by
  unfold depArgs
  split
  · exact jacArgs_sub op
  · exact fun a h => h

/-- effect of one operator of a forward Jacobian sweep -/
def FJ (op : Op) (L : List ℕ) (iz : ℕ) (s s' : Sp) : Prop :=
  (∀ v, v ≠ iz → s' v = s v) ∧ ∀ a ∈ L, s a ⊆ s' iz

theorem addOpd_spec (iz : ℕ) (o : Opd) (s : Sp) : (∀ v, v ≠ iz → addOpd iz o s v = s v) ∧ s iz ⊆ addOpd iz o s iz ∧
    ∀ a ∈ o.vars, s a ⊆ addOpd iz o s iz := by
  cases o with
  | par c => exact ⟨fun _ _ => rfl, fun _ h => h, by simp [Opd.vars]⟩
  | var u =>
    unfold addOpd Sp.binaryUnion
    refine ⟨fun v hv => Function.update_of_ne hv _ _, ?_, ?_⟩
    · dsimp only; rw [Function.update_self]; exact Finset.subset_union_left
    · intro a ha
      simp only [Opd.vars, List.mem_singleton] at ha
      subst ha
      dsimp only
      rw [Function.update_self]; exact Finset.subset_union_right

theorem csumForJac_spec (iz : ℕ) (vars : List ℕ) (hv : ∀ a ∈ vars, a ≠ iz) (s : Sp) :
    (∀ v, v ≠ iz → csumForJac iz vars s v = s v) ∧ ∀ a ∈ vars, s a ⊆ csumForJac iz vars s iz := by
  have gen : ∀ (vars : List ℕ), (∀ a ∈ vars, a ≠ iz) → ∀ (s : Sp),
      (∀ v, v ≠ iz → vars.foldl (fun s a => Sp.binaryUnion s iz iz a s) s v = s v) ∧
      (s iz ⊆ vars.foldl (fun s a => Sp.binaryUnion s iz iz a s) s iz) ∧
      ∀ a ∈ vars, s a ⊆ vars.foldl (fun s a => Sp.binaryUnion s iz iz a s) s iz := by
    intro vars
    induction vars with
    | nil => intro _ s; exact ⟨fun _ _ => rfl, fun _ h => h, by simp⟩
    | cons b vars ih =>
      intro hv s
      obtain ⟨h1, h2, h3⟩ := ih (fun a ha => hv a (by simp [ha])) (Sp.binaryUnion s iz iz b s)
      have e1 : ∀ v, v ≠ iz → Sp.binaryUnion s iz iz b s v = s v := fun v h => Function.update_of_ne h _ _
      have e2 : Sp.binaryUnion s iz iz b s iz = s iz ∪ s b := Function.update_self ..
      refine ⟨fun v h => (h1 v h).trans (e1 v h), ?_, ?_⟩
      · refine subset_trans ?_ h2
        rw [e2]; exact Finset.subset_union_left
      · intro a ha
        rcases List.mem_cons.1 ha with rfl | ha
        · refine subset_trans ?_ h2
          rw [e2]; exact Finset.subset_union_right
        · have := h3 a ha
          rwa [e1 a (hv a (by simp [ha]))] at this
  obtain ⟨h1, _, h3⟩ := gen vars hv (s.clear iz)
  have e1 : ∀ v, v ≠ iz → s.clear iz v = s v := fun v h => Function.update_of_ne h _ _
  refine ⟨fun v h => (h1 v h).trans (e1 v h), fun a ha => ?_⟩
  have := h3 a ha
  rwa [e1 a (hv a ha)] at this

theorem cexpForJac_spec (dep : Bool) (iz : ℕ) (l r t f : Opd) (hv : ∀ a ∈ cexpArgs l r t f, a ≠ iz) (s : Sp) :
    (∀ v, v ≠ iz → cexpForJac dep iz l r t f s v = s v) ∧
    (∀ a ∈ t.vars ++ f.vars, s a ⊆ cexpForJac dep iz l r t f s iz) ∧
    (dep = true → ∀ a ∈ l.vars ++ r.vars, s a ⊆ cexpForJac dep iz l r t f s iz) := by
  unfold cexpForJac
  have hc : ∀ v, v ≠ iz → s.clear iz v = s v := fun v h => Function.update_of_ne h _ _
  have hmid : ∃ m : Sp, (if dep = true then addOpd iz r (addOpd iz l (s.clear iz)) else s.clear iz) = m ∧
      (∀ v, v ≠ iz → m v = s v) ∧ (dep = true → ∀ a ∈ l.vars ++ r.vars, s a ⊆ m iz) := by
    refine ⟨_, rfl, ?_⟩
    cases dep
    · exact ⟨fun v hv => hc v hv, fun h => (by cases h)⟩
    · rw [if_pos rfl]
      obtain ⟨a1, a2, a3⟩ := addOpd_spec iz l (s.clear iz)
      obtain ⟨b1, b2, b3⟩ := addOpd_spec iz r (addOpd iz l (s.clear iz))
      refine ⟨fun v hv => (b1 v hv).trans ((a1 v hv).trans (hc v hv)), fun _ a ha => ?_⟩
      rcases List.mem_append.1 ha with h | h
      · have := a3 a h
        rw [hc a (hv a (by simp [cexpArgs, h]))] at this
        exact subset_trans this b2
      · have := b3 a h
        have hne := hv a (by simp [cexpArgs, h])
        rwa [a1 a hne, hc a hne] at this
  obtain ⟨m, e, h1, h2⟩ := hmid
  rw [e]
  obtain ⟨a1, a2, a3⟩ := addOpd_spec iz t m
  obtain ⟨b1, b2, b3⟩ := addOpd_spec iz f (addOpd iz t m)
  refine ⟨fun v hv => (b1 v hv).trans ((a1 v hv).trans (h1 v hv)), fun a ha => ?_, fun hd a ha => ?_⟩
  · rcases List.mem_append.1 ha with h | h
    · have := a3 a h
      rw [h1 a (hv a (by simp [cexpArgs, h]))] at this
      exact subset_trans this b2
    · have := b3 a h
      have hne := hv a (by simp [cexpArgs, h])
      rwa [a1 a hne, h1 a hne] at this
  · exact subset_trans (h2 hd a ha) (subset_trans a2 b2)

theorem forJacOp_elem (dep : Bool) (op : Op) (hna : ∀ c, op ≠ .atom c) (iz : ℕ) (s : Sp) (hz : ∀ a ∈ op.args, a ≠ iz) :
    FJ op (depArgs dep op) iz s (forJacOp dep op iz s) := by
  have h1 : ∀ ix, FJ op [ix] iz s (oneVarForJac iz ix s) := fun ix =>
    ⟨fun v hv => Function.update_of_ne hv _ _, fun a ha => by
      rw [List.mem_singleton] at ha; subst ha
      unfold oneVarForJac Sp.assignment; rw [Function.update_self]⟩
  have h2 : ∀ ix iy, FJ op [ix, iy] iz s (twoVarForJac iz ix iy s) := fun ix iy =>
    ⟨fun v hv => Function.update_of_ne hv _ _, fun a ha => by
      simp only [List.mem_cons, List.not_mem_nil, or_false] at ha
      unfold twoVarForJac Sp.binaryUnion; rw [Function.update_self]
      rcases ha with rfl | rfl
      · exact Finset.subset_union_left
      · exact Finset.subset_union_right⟩
  have h0 : FJ op [] iz s (s.clear iz) := ⟨fun v hv => Function.update_of_ne hv _ _, by simp⟩
  cases op with
  | cexp c l r t f =>
    obtain ⟨a1, a2, a3⟩ := cexpForJac_spec dep iz l r t f hz s
    refine ⟨a1, fun a ha => ?_⟩
    cases dep
    · exact a2 a ha
    · have ha : a ∈ cexpArgs l r t f := ha
      simp only [cexpArgs, List.mem_append, or_assoc] at ha
      rcases ha with h | h | h | h
      · exact a3 rfl a (by simp [h])
      · exact a3 rfl a (by simp [h])
      · exact a2 a (by simp [h])
      · exact a2 a (by simp [h])
  | csum c addv subv addp subp =>
    have : depArgs dep (.csum c addv subv addp subp) = addv ++ subv := by cases dep <;> rfl
    rw [this]
    exact csumForJac_spec iz _ hz s
  | dis fn ix => cases dep
                 · exact h0
                 · exact h1 ix
  | sign ix => cases dep
               · exact h0
               · exact h1 ix
  | par c => cases dep <;> exact h0
  | atom c => exact absurd rfl (hna c)
  | _ => cases dep <;> first | exact h1 _ | exact h2 _ _

/-! ### atomic functions -/

/-- the arguments that are propagated to result `r` -/
def depS (dependency : Bool) (op : Op) (r : ℕ) : Set ℕ := if dependency then depSet op r else jacSet op r

theorem depS_elem (b : Bool) {op : Op} (h : ∀ c, op ≠ .atom c) (r : ℕ) : depS b op r = {a | a ∈ depArgs b op} := by
  unfold depS depArgs
  cases b
  · simp only [Bool.false_eq_true, if_false]; exact jacSet_elem h r
  · simp only [if_true]; exact depSet_elem h r

theorem depS_sub (b : Bool) (op : Op) (r : ℕ) : ∀ a ∈ depS b op r, a ∈ op.args := by
  unfold depS
  split
  · exact depSet_sub op r
  · exact jacSet_sub op r

theorem jac_sub_depS (b : Bool) (op : Op) {r : ℕ} (hr : r < op.nres) : ∀ a ∈ jacSet op r, a ∈ depS b op r := by
  unfold depS
  split
  · exact jac_sub_depSet op hr
  · exact fun a h => h

theorem postFold_mem (s : Sp) (tgt src : ℕ × ℕ → ℕ) (l : List (ℕ × ℕ)) (p : Sp) (v e : ℕ) :
    e ∈ l.foldl (fun p q => postSet s (tgt q) (src q) p) p v ↔ e ∈ p v ∨ ∃ q ∈ l, tgt q = v ∧ e ∈ s (src q) := by
  induction l generalizing p with
  | nil => simp
  | cons q l ih =>
    rw [List.foldl_cons, ih]
    unfold postSet
    by_cases h : v = tgt q
    · subst h
      rw [Function.update_self, Finset.mem_union]
      constructor
      · rintro ((h | h) | ⟨q', h1, h2⟩)
        · exact Or.inl h
        · exact Or.inr ⟨q, by simp, rfl, h⟩
        · exact Or.inr ⟨q', by simp [h1], h2⟩
      · rintro (h | ⟨q', h1, h2, h3⟩)
        · exact Or.inl (Or.inl h)
        · rcases List.mem_cons.1 h1 with rfl | h1
          · exact Or.inl (Or.inr h3)
          · exact Or.inr ⟨q', h1, h2, h3⟩
    · rw [Function.update_of_ne h]
      constructor
      · rintro (h | ⟨q', h1, h2⟩)
        · exact Or.inl h
        · exact Or.inr ⟨q', by simp [h1], h2⟩
      · rintro (h' | ⟨q', h1, h2, h3⟩)
        · exact Or.inl h'
        · rcases List.mem_cons.1 h1 with rfl | h1
          · exact absurd h2.symm h
          · exact Or.inr ⟨q', h1, h2, h3⟩

theorem processPost_mem (ts : List ℕ) (s p : Sp) (v e : ℕ) :
    e ∈ (processPost ts s p).1 v ↔ e ∈ s v ∨ (v ∈ ts ∧ e ∈ p v) := by
  unfold processPost
  induction ts generalizing s p with
  | nil => simp
  | cons t ts ih =>
    rw [List.foldl_cons, ih]
    dsimp only
    by_cases h : v = t
    · subst h
      rw [Function.update_self, Function.update_self]
      simp
    · rw [Function.update_of_ne h, Function.update_of_ne h]
      simp [h]

theorem xIdx_var {c : AtomCall} {j a : ℕ} (h : c.x j = .var a) : xIdx c j = a := by unfold xIdx; rw [h]

theorem xIdx_args {c : AtomCall} {j : ℕ} (hj : j < c.A.n) (h : xIdx c j ≠ 0) : xIdx c j ∈ c.args := by
  unfold xIdx at h ⊢
  cases hx : c.x j with
  | par v => rw [hx] at h; exact absurd rfl h
  | var a => exact c.mem_args.2 ⟨j, hj, hx⟩

theorem yIdx_comp (c : AtomCall) {r : ℕ} (hr : r < c.nres) (nv : ℕ) : yIdx c nv (c.comp r) = nv + r := by
  obtain ⟨_, h2, h3⟩ := c.comp_spec hr
  unfold yIdx AtomCall.idx
  rw [if_pos h2, h3]

theorem yIdx_range {c : AtomCall} {i nv : ℕ} (hi : i < c.A.m) (h : yIdx c nv i ≠ 0) : nv ≤ yIdx c nv i ∧ yIdx c nv i < nv + c.nres := by
  unfold yIdx at h ⊢
  cases hs : c.selY i with
  | false => rw [hs] at h; exact absurd rfl h
  | true =>
    have := c.pos_lt_nres hi hs
    unfold AtomCall.idx
    simp only [if_true]
    omega

/-- what the user promises for the Jacobian pattern -/
theorem atom_jac {c : AtomCall} {r : ℕ} (hr : r < c.nres) (dep : Bool) (sx sy : ℕ → Bool) {a : ℕ} (ha : a ∈ depS dep (.atom c) r)
    (hsy : sy (c.comp r) = true) (hsx : ∀ j < c.A.n, c.x j = .var a → sx j = true) :
    ∃ j, c.x j = .var a ∧ (c.comp r, j) ∈ c.A.jac c.ident dep sx sy := by
  have hc := (c.comp_spec hr).1
  cases dep with
  | false =>
    obtain ⟨j, hj, X, hX, hd, hne⟩ := ha
    refine ⟨j, hj, ?_⟩
    by_contra hno
    exact hne (c.A.jac_zero c.ident sx sy _ hc hsy j (hsx j j.2 hj) (c.ident_var hj) hno X hd fun k hk => hX.ident k hk)
  | true =>
    obtain ⟨j, hj, X, v, hX, hne⟩ := ha
    refine ⟨j, hj, ?_⟩
    by_contra hno
    exact hne (c.A.jac_dep c.ident sx sy _ hc hsy j (hsx j j.2 hj) (c.ident_var hj) hno X v fun k hk => hX.ident k hk)

theorem forJacOp_spec (dep : Bool) (op : Op) (nv : ℕ) (s : Sp) (hz : ∀ a ∈ op.args, a < nv) (h0 : ∀ a ∈ op.args, a ≠ 0) :
    (∀ v < nv, forJacOp dep op (nv + op.nres - 1) s v = s v) ∧ ∀ r, op.naux ≤ r → r < op.nres →
      ∀ a ∈ depS dep op r, s a ⊆ forJacOp dep op (nv + op.nres - 1) s (nv + r) := by
  have hpos := op.nres_pos
  rcases atom_or op with ⟨c, rfl⟩ | hna
  · show (∀ v < nv, atomForJac dep c (nv + c.nres - 1) s v = s v) ∧ _
    have key : ∀ v e, e ∈ atomForJac dep c (nv + c.nres - 1) s v ↔ e ∈ s v ∨
        (v ∈ (List.range c.A.m).map (yIdx c nv) ∧ ∃ q ∈ c.A.jac c.ident dep (fun j => decide (xIdx c j ≠ 0 ∧ s (xIdx c j) ≠ ∅))
          (fun i => decide (yIdx c nv i ≠ 0)), yIdx c nv q.1 = v ∧ e ∈ s (xIdx c q.2)) := by
      intro v e
      unfold atomForJac
      rw [nv_sub c]
      rw [processPost_mem, postFold_mem s (fun q => yIdx c nv q.1) (fun q => xIdx c q.2)]
      simp
    refine ⟨fun v hv => ?_, fun r _ hr a ha e he => ?_⟩
    · ext e
      rw [key]
      constructor
      · rintro (h | ⟨_, q, hq, h1, h2⟩)
        · exact h
        · obtain ⟨⟨hm, hs⟩, _⟩ := c.A.jac_sel _ _ _ _ q hq
          have := yIdx_range hm (of_decide_eq_true hs)
          omega
      · exact Or.inl
    · show e ∈ atomForJac dep c (nv + c.nres - 1) s (nv + r)
      rw [key]
      right
      have hr : r < c.nres := hr
      have hy := yIdx_comp c hr nv
      refine ⟨List.mem_map.2 ⟨c.comp r, List.mem_range.2 (c.comp_spec hr).1, hy⟩, ?_⟩
      have ha' := depS_sub dep _ r a ha
      have hlt := hz a ha'
      have hane := h0 a ha'
      obtain ⟨j, hj, hm⟩ := atom_jac hr dep (fun j => decide (xIdx c j ≠ 0 ∧ s (xIdx c j) ≠ ∅)) (fun i => decide (yIdx c nv i ≠ 0)) ha
        (by rw [hy]; exact decide_eq_true (by omega))
        (fun j _ hj => by
          rw [xIdx_var hj]
          exact decide_eq_true ⟨hane, fun h => by rw [h] at he; simp at he⟩)
      exact ⟨_, hm, hy, by rw [xIdx_var hj]; exact he⟩
  · obtain ⟨h1, h2⟩ := forJacOp_elem dep op hna (nv + op.nres - 1) s (fun a ha => by have := hz a ha; omega)
    refine ⟨fun v hv => h1 v (by omega), fun r r1 r2 a ha => ?_⟩
    rw [last_elem hna r1 r2]
    rw [depS_elem dep hna] at ha
    have := h2 a ha
    rwa [show nv + op.nres - 1 = nv + (op.nres - 1) by omega] at this ⊢

/-- the independent variables do not have index zero -/
theorem addRes_ne {op : Op} {nv : ℕ} {U : Set ℕ} (h : 0 < nv) (h0 : ∀ a ∈ U, a ≠ 0) : ∀ a ∈ addRes op nv U, a ≠ 0 := by
  rintro a (ha | ha)
  · have := ha.1; omega
  · exact h0 a ha

/-- a forward sweep: the final sets are closed and the sets of the given variables do not change -/
theorem forJac_closed (dep : Bool) (ops : List Op) : ∀ (nv : ℕ) (U : Set ℕ) (s : Sp), 0 < nv → (∀ a ∈ U, a ≠ 0) →
    (∀ a ∈ U, a < nv) → WFOps ops nv U →
    (∀ v < nv, forJac dep ops nv s v = s v) ∧
    AllOps (fun op r iz => ∀ a ∈ depS dep op r, forJac dep ops nv s a ⊆ forJac dep ops nv s iz) ops nv := by
  induction ops with
  | nil => intro nv U s _ _ _ _; exact ⟨fun _ _ => rfl, trivial⟩
  | cons op ops ih =>
    intro nv U s hnv h0 hU hw
    have hlt : ∀ a ∈ op.args, a < nv := fun a h => hU a (hw.1 a h)
    obtain ⟨h1, h2⟩ := forJacOp_spec dep op nv s hlt (fun a h => h0 a (hw.1 a h))
    obtain ⟨i1, i2⟩ := ih (nv + op.nres) _ (forJacOp dep op (nv + op.nres - 1) s) (by omega) (addRes_ne hnv h0) (U_insert op hU) hw.2
    refine ⟨fun v hv => (i1 v (by omega)).trans (h1 v hv), fun r r1 r2 a ha => ?_, i2⟩
    have hal := hlt a (depS_sub dep op r a ha)
    show forJac dep ops _ _ a ⊆ forJac dep ops _ _ _
    rw [i1 a (by omega), i1 _ (by omega), h1 a hal]
    exact h2 r r1 r2 a ha

/-- derivative of the environment of the independent variables -/
theorem indEnv_line (x d : ℕ → ℝ) (v : ℕ) :
    HasDerivAt (fun t : ℝ => indEnv (fun k => x k + t * d k) v) (indEnv d v) 0 := by
  unfold indEnv
  by_cases h : v = 0
  · simp only [h, if_true]; exact hasDerivAt_const _ _
  · simp only [h, if_false]
    have := ((hasDerivAt_id (0 : ℝ)).mul_const (d (v - 1))).const_add (x (v - 1))
    simpa using this

theorem indEnv_zero (x d : ℕ → ℝ) : indEnv (fun k => x k + 0 * d k) = indEnv x := by
  congr 1; funext k; ring

theorem dep_usable {T : Tape} (hT : T.WF) {i : ℕ} (hi : i < T.dep.length) :
    T.dep.getD i 0 ∈ usable T.ops (T.n + 1) T.ind := by
  rw [List.getD_eq_getElem _ _ hi]
  exact hT.dep _ (List.getElem_mem hi)

theorem ind_ne {T : Tape} : ∀ a ∈ T.ind, a ≠ 0 := fun a ha => by have := ha.1; omega

theorem ind_lt {T : Tape} : ∀ a ∈ T.ind, a < T.n + 1 := fun a ha => by have := ha.2; omega

/-- **C15**: the pattern computed by `for_jac_sparsity` contains every entry of `F'(x) R` that is not zero.
`R` is any matrix whose non-zeros are in the argument pattern; `x` is any point where `F` is differentiable. -/
theorem for_jac_sparsity_ok {T : Tape} (hT : T.WF) (ell : ℕ) (pat : Pattern) (transpose dependency : Bool)
    (R : ℕ → ℕ → ℝ) (hR : ∀ k < T.n, ∀ j < ell, R k j ≠ 0 → Has transpose pat k j)
    (x : ℕ → ℝ) (hD : T.Dom x) (i j : ℕ) (hi : i < T.dep.length) (hj : j < ell) (v : ℝ)
    (hv : HasDerivAt (fun t => T.eval (fun k => x k + t * R k j) i) v 0) (hne : v ≠ 0) :
    Has transpose (forJacSparsity T ell pat transpose dependency).1 i j := by
  by_contra hno
  unfold forJacSparsity at hno
  dsimp only at hno
  rw [has_getInternalPattern] at hno
  set s0 := setInternalPattern transpose (fun j => j + 1) (fun _ => ∅) pat with hs0
  have hno : j ∉ forJac dependency T.ops (T.n + 1) s0 (T.dep.getD i 0) := fun h => hno ⟨hi, hj, h⟩
  obtain ⟨c1, c2⟩ := forJac_closed dependency T.ops (T.n + 1) T.ind s0 (by omega) ind_ne ind_lt hT.ops
  refine hne (hv.unique ?_)
  refine closed_deriv {v | j ∉ forJac dependency T.ops (T.n + 1) s0 v} T.ops (T.n + 1) T.ind
    (fun t => indEnv (fun k => x k + t * R k j)) (indEnv fun k => R k j) ind_lt hT.ops (fun v _ => indEnv_line x (fun k => R k j) v) ?_ ?_ ?_
    _ (dep_usable hT hi) hno
  · show domOps _ _ (indEnv fun k => x k + 0 * R k j)
    rw [indEnv_zero x (fun k => R k j)]; exact hD
  · refine AllOps.mono _ _ (fun op r iz _ _ hr h hz a ha => ?_) c2
    exact fun hm => hz (h a (jac_sub_depS dependency op hr a ha) hm)
  · intro v hv hA
    have hA : j ∉ forJac dependency T.ops (T.n + 1) s0 v := hA
    rw [c1 v (ind_lt v hv), hs0, mem_setInternalPattern] at hA
    unfold indEnv
    have hv1 := hv.1
    have hv2 := hv.2
    rw [if_neg (by omega)]
    by_contra hr
    exact hA ⟨by omega, v - 1, by omega, hR _ (by omega) j hj hr⟩

/-- **C15**, dependency patterns: if `(i, j)` is not in the pattern computed with `dependency` true then
component `i` of the result does not change when the arguments that are in column `j` of the argument pattern
are changed in any way (at any point, differentiable or not). -/
theorem for_jac_sparsity_dependency {T : Tape} (hT : T.WF) (ell : ℕ) (pat : Pattern) (transpose : Bool)
    (i j : ℕ) (hi : i < T.dep.length) (hj : j < ell) (x x' : ℕ → ℝ)
    (hx : ∀ k < T.n, x k ≠ x' k → Has transpose pat k j) (hne : T.eval x i ≠ T.eval x' i) :
    Has transpose (forJacSparsity T ell pat transpose true).1 i j := by
  by_contra hno
  unfold forJacSparsity at hno
  dsimp only at hno
  rw [has_getInternalPattern] at hno
  set s0 := setInternalPattern transpose (fun j => j + 1) (fun _ => ∅) pat with hs0
  have hno : j ∉ forJac true T.ops (T.n + 1) s0 (T.dep.getD i 0) := fun h => hno ⟨hi, hj, h⟩
  obtain ⟨c1, c2⟩ := forJac_closed true T.ops (T.n + 1) T.ind s0 (by omega) ind_ne ind_lt hT.ops
  refine hne ?_
  refine closed_eval {v | j ∉ forJac true T.ops (T.n + 1) s0 v} T.ops (T.n + 1) T.ind
    _ _ ind_lt hT.ops ?_ ?_ _ (dep_usable hT hi) hno
  · refine AllOps.mono _ _ (fun op r iz _ _ _ h hz a ha => ?_) c2
    exact fun hm => hz (h a ha hm)
  · intro v hv hA
    have hA : j ∉ forJac true T.ops (T.n + 1) s0 v := hA
    rw [c1 v (ind_lt v hv), hs0, mem_setInternalPattern] at hA
    unfold indEnv
    have hv1 := hv.1
    have hv2 := hv.2
    rw [if_neg (by omega), if_neg (by omega)]
    by_contra hr
    exact hA ⟨by omega, v - 1, by omega, hx _ (by omega) hr⟩

/-! ## reverse -/

/-- effect of one operator of a reverse Jacobian sweep -/
def RJ (op : Op) (L : List ℕ) (iz : ℕ) (s s' : Sp) : Prop :=
  (∀ v, s v ⊆ s' v) ∧ (∀ v, v ∉ op.args → s' v = s v) ∧ ∀ a ∈ L, s iz ⊆ s' a

theorem foldUnion_spec (iz : ℕ) (vars : List ℕ) (hv : iz ∉ vars) (s : Sp) :
    (∀ v, s v ⊆ csumRevJac iz vars s v) ∧ (∀ v, v ∉ vars → csumRevJac iz vars s v = s v) ∧
    ∀ a ∈ vars, s iz ⊆ csumRevJac iz vars s a := by
  unfold csumRevJac
  induction vars generalizing s with
  | nil => exact ⟨fun _ _ h => h, fun _ _ => rfl, by simp⟩
  | cons b vars ih =>
    simp only [List.mem_cons, not_or] at hv
    obtain ⟨h1, h2, h3⟩ := ih hv.2 (Sp.binaryUnion s b b iz s)
    have e0 : ∀ v, s v ⊆ Sp.binaryUnion s b b iz s v := by
      intro v
      by_cases h : v = b
      · subst h; unfold Sp.binaryUnion; rw [Function.update_self]; exact Finset.subset_union_left
      · unfold Sp.binaryUnion; rw [Function.update_of_ne h]
    have e1 : ∀ v, v ≠ b → Sp.binaryUnion s b b iz s v = s v := fun v h => Function.update_of_ne h _ _
    have e2 : Sp.binaryUnion s b b iz s b = s b ∪ s iz := Function.update_self ..
    refine ⟨fun v => subset_trans (e0 v) (h1 v), fun v hv' => ?_, fun a ha => ?_⟩
    · simp only [List.mem_cons, not_or] at hv'
      exact (h2 v hv'.2).trans (e1 v hv'.1)
    · rcases List.mem_cons.1 ha with rfl | ha
      · refine subset_trans ?_ (h1 a)
        rw [e2]; exact Finset.subset_union_right
      · have := h3 a ha
        rwa [e1 iz hv.1] at this

theorem revOpd_eq (iz : ℕ) (o : Opd) (s : Sp) : revOpd iz o s = csumRevJac iz o.vars s := by cases o <;> rfl

theorem csumRevJac_append (iz : ℕ) (l l' : List ℕ) (s : Sp) :
    csumRevJac iz (l ++ l') s = csumRevJac iz l' (csumRevJac iz l s) := List.foldl_append

theorem revJacOp_eq (dep : Bool) (op : Op) (hna : ∀ c, op ≠ .atom c) (iz : ℕ) (s : Sp) :
    revJacOp dep op iz s = csumRevJac iz (depArgs dep op) s := by
  cases op with
  | cexp c l r t f =>
    unfold revJacOp cexpRevJac depArgs
    simp only [revOpd_eq]
    cases dep
    · simp only [Bool.false_eq_true, if_false]
      exact (csumRevJac_append ..).symm
    · simp only [if_true, Op.args, cexpArgs, csumRevJac_append]
  | atom c => exact absurd rfl (hna c)
  | _ => cases dep <;> rfl

theorem revJacOp_elem (dep : Bool) (op : Op) (hna : ∀ c, op ≠ .atom c) (iz : ℕ) (s : Sp) (hz : iz ∉ op.args) :
    RJ op (depArgs dep op) iz s (revJacOp dep op iz s) := by
  rw [revJacOp_eq dep op hna]
  obtain ⟨h1, h2, h3⟩ := foldUnion_spec iz (depArgs dep op) (fun h => hz (depArgs_sub dep op _ h)) s
  exact ⟨h1, fun v hv => h2 v fun h => hv (depArgs_sub dep op _ h), h3⟩

theorem revJacOp_spec (dep : Bool) (op : Op) (nv : ℕ) (hnv : 0 < nv) (s : Sp) (hz : ∀ a ∈ op.args, a < nv) (h0 : ∀ a ∈ op.args, a ≠ 0) :
    (∀ v, s v ⊆ revJacOp dep op (nv + op.nres - 1) s v) ∧
    (∀ v, v ∉ op.args → revJacOp dep op (nv + op.nres - 1) s v = s v) ∧ ∀ r, op.naux ≤ r → r < op.nres →
      ∀ a ∈ depS dep op r, s (nv + r) ⊆ revJacOp dep op (nv + op.nres - 1) s a := by
  have hpos := op.nres_pos
  rcases atom_or op with ⟨c, rfl⟩ | hna
  · have key : ∀ v e, e ∈ atomRevJac dep c (nv + c.nres - 1) s v ↔ e ∈ s v ∨
        (v ∈ (List.range c.A.n).map (xIdx c) ∧ ∃ q ∈ c.A.jac c.ident dep (fun j => decide (xIdx c j ≠ 0))
          (fun i => decide (yIdx c nv i ≠ 0 ∧ s (yIdx c nv i) ≠ ∅)), xIdx c q.2 = v ∧ e ∈ s (yIdx c nv q.1)) := by
      intro v e
      unfold atomRevJac
      rw [nv_sub c]
      rw [processPost_mem, postFold_mem s (fun q => xIdx c q.2) (fun q => yIdx c nv q.1)]
      simp
    show (∀ v, s v ⊆ atomRevJac dep c (nv + c.nres - 1) s v) ∧ (∀ v, v ∉ c.args → atomRevJac dep c (nv + c.nres - 1) s v = s v) ∧ _
    refine ⟨fun v e he => (key v e).2 (Or.inl he), fun v hv => ?_, fun r _ hr a ha e he => ?_⟩
    · ext e
      rw [key]
      constructor
      · rintro (h | ⟨_, q, hq, h1, h2⟩)
        · exact h
        · obtain ⟨_, hm, hs⟩ := c.A.jac_sel _ _ _ _ q hq
          exact absurd (h1 ▸ xIdx_args hm (of_decide_eq_true hs)) hv
      · exact Or.inl
    · show e ∈ atomRevJac dep c (nv + c.nres - 1) s a
      rw [key]
      right
      have hr : r < c.nres := hr
      have hy := yIdx_comp c hr nv
      have ha' := depS_sub dep _ r a ha
      obtain ⟨j, hj, hm⟩ := atom_jac hr dep (fun j => decide (xIdx c j ≠ 0)) (fun i => decide (yIdx c nv i ≠ 0 ∧ s (yIdx c nv i) ≠ ∅)) ha
        (by
          rw [hy]
          exact decide_eq_true ⟨by omega, fun h => by rw [h] at he; simp at he⟩)
        (fun j _ hj => by
          rw [xIdx_var hj]
          exact decide_eq_true (h0 a ha'))
      have hjn := (c.A.jac_sel _ _ _ _ _ hm).2.1
      exact ⟨List.mem_map.2 ⟨j, List.mem_range.2 hjn, xIdx_var hj⟩, _, hm, xIdx_var hj, by dsimp only; rw [hy]; exact he⟩
  · obtain ⟨h1, h2, h3⟩ := revJacOp_elem dep op hna (nv + op.nres - 1) s (fun ha => by have := hz _ ha; omega)
    refine ⟨h1, h2, fun r r1 r2 a ha => ?_⟩
    rw [last_elem hna r1 r2]
    rw [depS_elem dep hna] at ha
    have := h3 a ha
    rwa [show nv + op.nres - 1 = nv + (op.nres - 1) by omega] at this ⊢

theorem revJac_closed (dep : Bool) (ops : List Op) : ∀ (nv : ℕ) (U : Set ℕ) (s : Sp), 0 < nv → (∀ a ∈ U, a ≠ 0) →
    (∀ a ∈ U, a < nv) → WFOps ops nv U →
    (∀ v, s v ⊆ revJac dep ops nv s v) ∧
    AllOps (fun op r iz => ∀ a ∈ depS dep op r, revJac dep ops nv s iz ⊆ revJac dep ops nv s a) ops nv := by
  induction ops with
  | nil => intro nv U s _ _ _ _; exact ⟨fun _ _ h => h, trivial⟩
  | cons op ops ih =>
    intro nv U s hnv h0 hU hw
    have hlt : ∀ a ∈ op.args, a < nv := fun a h => hU a (hw.1 a h)
    obtain ⟨i1, i2⟩ := ih (nv + op.nres) _ s (by omega) (addRes_ne hnv h0) (U_insert op hU) hw.2
    obtain ⟨h1, h2, h3⟩ := revJacOp_spec dep op nv hnv (revJac dep ops (nv + op.nres) s) hlt (fun a h => h0 a (hw.1 a h))
    refine ⟨fun v => subset_trans (i1 v) (h1 v), fun r r1 r2 a ha => ?_, ?_⟩
    · show revJacOp dep op _ _ _ ⊆ revJacOp dep op _ _ _
      rw [h2 (nv + r) (fun h => by have := hlt _ h; omega)]
      exact h3 r r1 r2 a ha
    · refine AllOps.mono _ _ (fun o r iz hz _ _ h a ha => ?_) i2
      show revJacOp dep op _ _ _ ⊆ revJacOp dep op _ _ _
      rw [h2 iz (fun h => by have := hlt _ h; omega)]
      exact subset_trans (h a ha) (h1 a)

theorem wsum_zero {T : Tape} (w : List ℝ) {x d : ℕ → ℝ}
    (h : ∀ i < T.dep.length, at' w i ≠ 0 → HasDerivAt (fun t => T.eval (fun k => x k + t * d k) i) 0 0) :
    HasDerivAt (fun t => wsum T w (fun k => x k + t * d k)) 0 0 := by
  unfold wsum
  rw [show (0 : ℝ) = ∑ i ∈ Finset.range T.dep.length, (0 : ℝ) by simp]
  refine HasDerivAt.fun_sum fun i hi => ?_
  by_cases hw : at' w i = 0
  · simp only [hw, zero_mul]; simpa using hasDerivAt_const (0 : ℝ) (0 : ℝ)
  · have h1 := (h i (Finset.mem_range.1 hi) hw).const_mul (at' w i)
    rw [mul_zero] at h1
    simpa using h1

/-- **C16**: the pattern computed by `rev_jac_sparsity` contains every entry of `R F'(x)` that is not zero.
`R` is any `ell` by `m` matrix whose non-zeros are in the argument pattern (`w` is its row `i`); `x` is any point
where `F` is differentiable. -/
theorem rev_jac_sparsity_ok {T : Tape} (hT : T.WF) (ell : ℕ) (pat : Pattern) (transpose dependency : Bool)
    (i j : ℕ) (hi : i < ell) (hj : j < T.n) (w : List ℝ) (hR : ∀ k < T.dep.length, at' w k ≠ 0 → Has transpose pat i k)
    (x : ℕ → ℝ) (hD : T.Dom x) (v : ℝ)
    (hv : IsPartial (wsum T w) x j v) (hne : v ≠ 0) :
    Has transpose (revJacSparsity T ell pat transpose dependency) i j := by
  have hflip : ∀ p : Pattern, Has transpose p i j ↔ Has (!transpose) p j i := by
    intro p
    unfold Has
    cases transpose
    · constructor <;> (rintro ⟨k, hk, h⟩; exact ⟨k, hk, h⟩)
    · constructor <;> (rintro ⟨k, hk, h⟩; exact ⟨k, hk, h⟩)
  by_contra hno
  rw [hflip] at hno
  unfold revJacSparsity at hno
  dsimp only at hno
  rw [has_getInternalPattern] at hno
  set s0 := setInternalPattern (!transpose) (fun i => T.dep.getD i 0) (fun _ => ∅) pat with hs0
  have hno : i ∉ revJac dependency T.ops (T.n + 1) s0 (j + 1) := fun h => hno ⟨hj, hi, h⟩
  obtain ⟨c1, c2⟩ := revJac_closed dependency T.ops (T.n + 1) T.ind s0 (by omega) ind_ne ind_lt hT.ops
  refine hne (hv.unique ?_)
  simp only [upd_un]
  refine wsum_zero w fun k hk hw => ?_
  refine closed_deriv {v | i ∈ revJac dependency T.ops (T.n + 1) s0 v} T.ops (T.n + 1) T.ind
    (fun t => indEnv (fun k => x k + t * un j k)) (indEnv (un j)) ind_lt hT.ops (fun v _ => indEnv_line x (un j) v) ?_ ?_ ?_
    _ (dep_usable hT hk) ?_
  · show domOps _ _ (indEnv fun k => x k + 0 * un j k)
    rw [indEnv_zero x (un j)]; exact hD
  · refine AllOps.mono _ _ (fun op r iz _ _ hr h hz a ha => ?_) c2
    exact h a (jac_sub_depS dependency op hr a ha) hz
  · intro v hv hA
    have hv1 := hv.1
    unfold indEnv un
    rw [if_neg (by omega)]
    by_cases hvj : v - 1 = j
    · exfalso
      have : v = j + 1 := by omega
      subst this
      exact hno hA
    · simp [hvj]
  · refine c1 _ ?_
    rw [hs0, mem_setInternalPattern]
    have hd : T.dep.getD k 0 ≠ 0 := by
      have h1 := dep_usable hT hk
      have : ∀ (ops : List Op) (nv : ℕ) (U : Set ℕ), 0 < nv → 0 ∉ U → 0 ∉ usable ops nv U := by
        intro ops
        induction ops with
        | nil => intro nv U _ h; exact h
        | cons op ops ih =>
          intro nv U h0 h
          have := op.nres_pos
          refine ih _ _ (by omega) ?_
          rintro (h' | h')
          · have := h'.1; omega
          · exact h h'
      intro h0
      rw [h0] at h1
      exact this _ _ _ (by omega) (fun h => by have := h.1; omega) h1
    refine ⟨hd, k, rfl, ?_⟩
    have := hR k hk hw
    unfold Has at this ⊢
    cases transpose
    · obtain ⟨q, hq, h⟩ := this; exact ⟨q, hq, h⟩
    · obtain ⟨q, hq, h⟩ := this; exact ⟨q, hq, h⟩

end CppAD.Sparsity
