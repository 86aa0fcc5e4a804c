import Verif.Chkpoint.Contract

/-! # Properties of checkpoint functions -/

open scoped ContDiff Topology

namespace CppAD.Chkpoint

open CppAD.Sparsity

variable {T : Tape}

/-! ## for_type and rev_depend -/

theorem le_forType (pat : Pattern) (typeX : ℕ → ℕ) {i j : ℕ} (h : Has false pat i j) : typeX j ≤ forType pat typeX i := by
  have := forRange_ind (Nat.zero_le pat.nnz) (s := (fun _ => constantEnum : ℕ → ℕ)) (f := fun k (typeY : ℕ → ℕ) =>
      let i := pat.row k
      let j := pat.col k
      Function.update typeY i (max (typeY i) (typeX j)))
    (fun (K : ℕ) (ty : ℕ → ℕ) => ∀ k < K, typeX (pat.col k) ≤ ty (pat.row k))
    (by intro k hk; omega) (by
      intro k ty _ _ ih k' hk'
      dsimp only
      by_cases he : pat.row k' = pat.row k
      · rw [he, Function.update_self]
        rcases Nat.lt_succ_iff_lt_or_eq.1 hk' with h1 | rfl
        · exact (he ▸ ih k' h1).trans (le_max_left _ _)
        · exact le_max_right _ _
      · rw [Function.update_of_ne he]
        rcases Nat.lt_succ_iff_lt_or_eq.1 hk' with h1 | rfl
        · exact ih k' h1
        · exact absurd rfl he)
  obtain ⟨k, hk, h1, h2⟩ := h
  have := this k hk
  rw [h1, h2] at this
  exact this

theorem forType_attained (pat : Pattern) (typeX : ℕ → ℕ) (i : ℕ) :
    forType pat typeX i = constantEnum ∨ ∃ j, Has false pat i j ∧ forType pat typeX i = typeX j := by
  have := forRange_ind (Nat.zero_le pat.nnz) (s := (fun _ => constantEnum : ℕ → ℕ)) (f := fun k (typeY : ℕ → ℕ) =>
      let i := pat.row k
      let j := pat.col k
      Function.update typeY i (max (typeY i) (typeX j)))
    (fun (K : ℕ) (ty : ℕ → ℕ) => K ≤ pat.nnz → ∀ i, ty i = constantEnum ∨ ∃ j, Has false pat i j ∧ ty i = typeX j)
    (fun _ _ => Or.inl rfl) (by
      intro k ty _ hk ih hK i
      dsimp only
      by_cases he : i = pat.row k
      · subst he
        rw [Function.update_self]
        rcases le_total (ty (pat.row k)) (typeX (pat.col k)) with h1 | h1
        · rw [max_eq_right h1]
          exact Or.inr ⟨_, ⟨k, by omega, rfl, rfl⟩, rfl⟩
        · rw [max_eq_left h1]
          exact ih (by omega) _
      · rw [Function.update_of_ne he]
        exact ih (by omega) i)
  exact this le_rfl i

theorem revDepend_iff (pat : Pattern) (dy : ℕ → Bool) (j : ℕ) :
    revDepend pat dy j = true ↔ ∃ i, Has false pat i j ∧ dy i = true := by
  have := forRange_ind (Nat.zero_le pat.nnz) (s := (fun _ => false : ℕ → Bool)) (f := fun k (dependX : ℕ → Bool) =>
      let i := pat.row k
      let j := pat.col k
      if dy i then Function.update dependX j true else dependX)
    (fun (K : ℕ) (dx : ℕ → Bool) => dx j = true ↔ ∃ k < K, pat.col k = j ∧ dy (pat.row k) = true)
    (by simp) (by
      intro k dx _ _ ih
      dsimp only
      have hsplit : (∃ k' < k + 1, pat.col k' = j ∧ dy (pat.row k') = true) ↔
          (∃ k' < k, pat.col k' = j ∧ dy (pat.row k') = true) ∨ (pat.col k = j ∧ dy (pat.row k) = true) := by
        constructor
        · rintro ⟨k', hk, h⟩
          rcases Nat.lt_succ_iff_lt_or_eq.1 hk with hk | rfl
          · exact Or.inl ⟨k', hk, h⟩
          · exact Or.inr h
        · rintro (⟨k', hk, h⟩ | h)
          · exact ⟨k', by omega, h⟩
          · exact ⟨k, by omega, h⟩
      rw [hsplit, ← ih]
      split_ifs with hc
      · by_cases he : j = pat.col k
        · subst he; simp [hc]
        · rw [Function.update_of_ne he]
          exact ⟨Or.inl, fun h => h.elim id fun h => absurd h.1.symm he⟩
      · exact ⟨Or.inl, fun h => h.elim id fun h => absurd h.2 hc⟩)
  refine this.trans ?_
  constructor
  · rintro ⟨k, hk, h1, h2⟩; exact ⟨_, ⟨k, hk, rfl, h1⟩, h2⟩
  · rintro ⟨i, ⟨k, hk, h1, h2⟩, h3⟩; exact ⟨k, hk, h2, h1 ▸ h3⟩

/-- changing several arguments that a component does not depend on -/
theorem dep_many (hT : T.WF) {useHes : Bool} {i : ℕ} (hi : i < T.dep.length) (x x' : ℕ → ℝ)
    (h : ∀ j < T.n, x j ≠ x' j → ¬ Has false (ctorJac T useHes).1 i j) : T.eval x i = T.eval x' i := by
  have key : ∀ K ≤ T.n, T.eval (fun j => if j < K then x' j else x j) i = T.eval x i := by
    intro K
    induction K with
    | zero => intro _; rfl
    | succ K ih =>
      intro hK
      rw [← ih (by omega)]
      by_cases he : x K = x' K
      · congr 1
        funext j
        by_cases h1 : j = K
        · subst h1; simp [he]
        · have : j < K + 1 ↔ j < K := by omega
          simp [this]
      · refine ctorJac_dep hT hi (by omega : K < T.n) (h K (by omega) he) _ _ fun l _ hl => ?_
        by_contra h1
        refine hl ?_
        have : l < K + 1 ↔ l < K := by omega
        simp [this]
  rw [← key T.n le_rfl]
  refine T.eval_congr hT (fun j hj => ?_) hi
  simp [hj]

/-- **C42** `for_type`: the result `i` is classified as a constant, dynamic parameter or variable in such a way that its value only
depends on the arguments whose class is not above it: two argument vectors that agree on those give the same value. -/
theorem for_type_ok (hT : T.WF) (useHes : Bool) (typeX : ℕ → ℕ) {i : ℕ} (hi : i < T.dep.length) (x x' : ℕ → ℝ)
    (hx : ∀ j < T.n, typeX j ≤ forType (ctorJac T useHes).1 typeX i → x j = x' j) : T.eval x i = T.eval x' i :=
  dep_many hT hi x x' fun j hj hne hh => hne (hx j hj (le_forType _ _ hh))

/-- **C42** `for_type` does not overestimate: a result is at most as variable as one of the arguments, or constant. -/
theorem for_type_attained (T : Tape) (useHes : Bool) (typeX : ℕ → ℕ) (i : ℕ) :
    forType (ctorJac T useHes).1 typeX i = constantEnum ∨ ∃ j < T.n, forType (ctorJac T useHes).1 typeX i = typeX j := by
  rcases forType_attained (ctorJac T useHes).1 typeX i with h | ⟨j, h1, h2⟩
  · exact Or.inl h
  · exact Or.inr ⟨j, (ctorJac_range h1).2, h2⟩

/-- **C42** `rev_depend`: when the results in `dependY` are needed, the arguments that are not marked do not change them. -/
theorem rev_depend_ok (hT : T.WF) (useHes : Bool) (dependY : ℕ → Bool) {i : ℕ} (hi : i < T.dep.length) (hd : dependY i = true)
    (x x' : ℕ → ℝ) (hx : ∀ j < T.n, revDepend (ctorJac T useHes).1 dependY j = true → x j = x' j) : T.eval x i = T.eval x' i :=
  dep_many hT hi x x' fun j hj hne hh => hne (hx j hj ((revDepend_iff _ _ _).2 ⟨i, hh, hd⟩))

/-! ## recording a call -/

/-- value of an operand -/
def opdVal (e : ℕ → ℝ) (o : Opd) : ℝ :=
  match o with
  | .par c => c
  | .var v => e v

/-- `type_x`, core/atomic/three/afun.hpp:133-159; `dyn j`: argument `j` is a dynamic parameter -/
def typeX (x : ℕ → Opd) (dyn : ℕ → Bool) (j : ℕ) : ℕ :=
  match x j with
  | .par _ => if dyn j then dynamicEnum else constantEnum
  | .var _ => variableEnum

/-- the result `i`, core/atomic/three/afun.hpp:160-220: `none` when it is recorded as a variable (FunrvOp), otherwise the value computed by
zero order forward mode while recording (FunrpOp); `e` are the values of the variables while recording -/
noncomputable def resY (T : Tape) (useHes : Bool) (s : State T) (x : ℕ → Opd) (dyn : ℕ → Bool) (e : ℕ → ℝ) (i : ℕ) : Option ℝ :=
  if forType (ctorJac T useHes).1 (typeX x dyn) i = variableEnum then none
  else some ((forward s.f s.junk s.nan 0 fun j => opdVal e (x j)).2 i)

theorem typeX_le (x : ℕ → Opd) (dyn : ℕ → Bool) (j : ℕ) : typeX x dyn j ≤ variableEnum := by
  unfold typeX
  split
  · split_ifs <;> decide
  · exact le_rfl

/-- **C42** a result that is classified as a constant depends neither on the variables nor on the dynamic parameters among the
arguments of the call -/
theorem constant_result (hT : T.WF) (useHes : Bool) (x : ℕ → Opd) (dyn : ℕ → Bool) {i : ℕ} (hi : i < T.dep.length)
    (h : forType (ctorJac T useHes).1 (typeX x dyn) i = constantEnum) (u u' : ℕ → ℝ)
    (hu : ∀ j < T.n, (∃ c, x j = .par c) → dyn j = false → u j = u' j) : T.eval u i = T.eval u' i := by
  refine for_type_ok hT useHes (typeX x dyn) hi u u' fun j hj hle => ?_
  rw [h] at hle
  unfold typeX at hle
  split at hle
  · rename_i c hc
    refine hu j hj ⟨c, hc⟩ ?_
    cases hd : dyn j with
    | false => rfl
    | true => rw [hd, if_pos rfl] at hle; exact absurd hle (by decide)
  · exact absurd hle (by decide)

/-- **C42** a result that is not classified as a variable does not depend on the variables among the arguments of the call -/
theorem parameter_result (hT : T.WF) (useHes : Bool) (x : ℕ → Opd) (dyn : ℕ → Bool) {i : ℕ} (hi : i < T.dep.length)
    (h : forType (ctorJac T useHes).1 (typeX x dyn) i ≠ variableEnum) (u u' : ℕ → ℝ)
    (hu : ∀ j < T.n, (∃ c, x j = .par c) → u j = u' j) : T.eval u i = T.eval u' i := by
  refine for_type_ok hT useHes (typeX x dyn) hi u u' fun j hj hle => ?_
  have h2 : forType (ctorJac T useHes).1 (typeX x dyn) i ≤ variableEnum := by
    rcases forType_attained (ctorJac T useHes).1 (typeX x dyn) i with h | ⟨j, _, h⟩
    · rw [h]; decide
    · rw [h]; exact typeX_le x dyn j
  have hlt : typeX x dyn j < variableEnum := by omega
  unfold typeX at hlt
  split at hlt
  · rename_i c hc
    exact hu j hj ⟨c, hc⟩
  · exact absurd hlt (lt_irrefl _)

theorem resY_ok (hT : T.WF) (useHes : Bool) (s : State T) (x : ℕ → Opd) (dyn : ℕ → Bool) (e e' : ℕ → ℝ) {i : ℕ} (hi : i < T.dep.length)
    {c : ℝ} (h : resY T useHes s x dyn e i = some c) : T.eval (ext fun j : Fin T.n => opdVal e' (x j)) i = c := by
  unfold resY at h
  split_ifs at h with ht
  rw [Option.some.injEq] at h
  have h0 := forward_zero hT s.reach s.junk s.nan 0 (fun j => opdVal e (x j)) hi
  rw [zero_add, mul_one, h] at h0
  rw [h0]
  refine for_type_ok hT useHes (typeX x dyn) hi _ _ fun j hj hle => ?_
  simp only [ext, hj, dite_true, mul_one]
  have hlt : typeX x dyn j < variableEnum := by
    have h2 : forType (ctorJac T useHes).1 (typeX x dyn) i ≤ variableEnum := by
      rcases forType_attained (ctorJac T useHes).1 (typeX x dyn) i with h | ⟨j, _, h⟩
      · rw [h]; decide
      · rw [h]; exact typeX_le x dyn j
    omega
  unfold typeX at hlt
  unfold opdVal
  revert hlt
  cases x j with
  | par c => intro _; rfl
  | var v => intro hlt; exact absurd hlt (lt_irrefl _)

/-- a call of the checkpoint function that is put on the tape of the outer function -/
noncomputable def call (hT : T.WF) (useHes : Bool)
    (hsup : useHes = true → T.n ≤ T.dep.length → ∀ op ∈ T.ops, forHesSupported op = true)
    (st : ℕ → (ℕ → ℝ) → (ℕ → ℝ) → State T) (s : State T) (x : ℕ → Opd) (dyn : ℕ → Bool) (e : ℕ → ℝ)
    (hvar : ∃ i < T.dep.length, forType (ctorJac T useHes).1 (typeX x dyn) i = variableEnum) : AtomCall where
  A := atom hT useHes hsup st
  x := x
  y := resY T useHes s x dyn e
  some_var := by
    obtain ⟨i, hi, h⟩ := hvar
    exact ⟨i, hi, by unfold resY; rw [if_pos h]⟩
  par_res := by
    intro e' i hi c h
    have := resY_ok hT useHes s x dyn e e' hi h
    exact this
  ident _ := false
  ident_ok := by intro j h; cases h

/-- **C42** values: in the outer function, a result of the call that is a variable has the value of the inner function at the arguments. -/
theorem call_value (hT : T.WF) (useHes : Bool) (hsup) (st : ℕ → (ℕ → ℝ) → (ℕ → ℝ) → State T) (s : State T) (x : ℕ → Opd)
    (dyn : ℕ → Bool) (e : ℕ → ℝ) (hvar) {i : ℕ} (hi : i < T.dep.length)
    (hv : (call hT useHes hsup st s x dyn e hvar).y i = none) (e' : ℕ → ℝ) :
    (Op.atom (call hT useHes hsup st s x dyn e hvar)).val e' ((call hT useHes hsup st s x dyn e hvar).pos i)
      = T.eval (ext fun j : Fin T.n => opdVal e' (x j)) i := by
  set c := call hT useHes hsup st s x dyn e hvar with hc
  have hsel : c.selY i = true := by unfold AtomCall.selY; rw [hv]; rfl
  show c.A.fn _ (c.comp (c.pos i)) = _
  rw [c.comp_pos (i := i) hi hsel]
  rfl

/-! ## two recordings of the same function -/

/-- **C42**, **C43** Taylor coefficients do not depend on how the function was recorded: with calls of checkpoint or atomic functions or
without them, in any state of the objects involved. -/
theorem forward_same_function {O D : Tape} (hO : O.WF) (hD : D.WF) (hn : O.n = D.n) (hm : O.dep.length = D.dep.length)
    (heq : ∀ x, ∀ i < D.dep.length, O.eval x i = D.eval x i) {f g : ADFun} {S R : St} (hf : Reach O f S) (hg : Reach D g R)
    (junk junk' : ℕ → ℝ) (nan nan' : ℝ) (q : ℕ) (xq : List ℝ) (hl : xq.length = O.n * (q + 1))
    (hdom : q = 0 ∨ (O.Dom (fun j => at' xq ((q + 1) * j)) ∧ D.Dom fun j => at' xq ((q + 1) * j))) :
    (f.forward junk nan q xq).2 = (g.forward junk' nan' q xq).2 := by
  obtain ⟨l1, h1⟩ := forward_all_orders hO hf junk nan q xq hl
  obtain ⟨l2, h2⟩ := forward_all_orders hD hg junk' nan' q xq (by rw [hl, hn])
  refine List.ext_getElem (by rw [l1, l2, hm]) fun p hp hp' => ?_
  have hq : 0 < q + 1 := Nat.succ_pos q
  have e : p / (q + 1) * (q + 1) + p % (q + 1) = p := Nat.div_add_mod' p (q + 1)
  have hi : p / (q + 1) < D.dep.length := by
    rw [Nat.div_lt_iff_lt_mul hq, ← l2]; exact hp'
  have hk : p % (q + 1) ≤ q := by have := Nat.mod_lt p hq; omega
  have a := h1 (p / (q + 1)) (by rw [hm]; exact hi) (p % (q + 1)) hk (hdom.imp (fun h => by subst h; exact Nat.mod_one p) And.left)
  have b := h2 (p / (q + 1)) hi (p % (q + 1)) hk (hdom.imp (fun h => by subst h; exact Nat.mod_one p) And.right)
  rw [e] at a b
  unfold at' at a b
  rw [List.getD_eq_getElem _ _ hp] at a
  rw [List.getD_eq_getElem _ _ hp'] at b
  rw [a, b]
  congr 1
  funext t
  exact heq _ _ hi

/-- **C42**, **C43** reverse mode: the same for derivatives. -/
theorem reverse_same_function {O D : Tape} (hO : O.WF) (hD : D.WF) (hn : O.n = D.n) (hm : O.dep.length = D.dep.length)
    (heq : ∀ x, ∀ i < D.dep.length, O.eval x i = D.eval x i) {f g : ADFun} {S R : St} (hf : Reach O f S) (hg : Reach D g R)
    (junk junk' : ℕ → ℝ) (q : ℕ) (w : List ℝ) (hl : w.length = O.dep.length * q) (hq : 0 < q)
    (hS : q ≤ S.num) (hR : q ≤ R.num) (hSd : q = 1 ∨ S.ndir = 1) (hRd : q = 1 ∨ R.ndir = 1)
    (hx : S.x 0 = R.x 0) (hdS : O.Dom fun j => S.x 0 j 0) (hdR : D.Dom fun j => R.x 0 j 0) :
    (f.reverse junk q w).2 = (g.reverse junk' q w).2 := by
  obtain ⟨l1, h1⟩ := reverse_derivative hO hf junk q w hl hq hS hSd hdS
  obtain ⟨l2, h2⟩ := reverse_derivative hD hg junk' q w (by rw [hl, hm]) hq hR hRd hdR
  refine List.ext_getElem (by rw [l1, l2, hn]) fun p hp hp' => ?_
  have e : p / q * q + p % q = p := Nat.div_add_mod' p q
  have hi : p / q < D.n := by
    rw [Nat.div_lt_iff_lt_mul hq, ← l2]; exact hp'
  have hk : p % q < q := Nat.mod_lt p hq
  have a := h1 (p / q) (by rw [hn]; exact hi) (p % q) hk
  have b := h2 (p / q) hi (p % q) hk
  rw [e] at a b
  unfold at' at a b
  rw [List.getD_eq_getElem _ _ hp] at a
  rw [List.getD_eq_getElem _ _ hp'] at b
  refine a.unique (b.congr_of_eventuallyEq (Filter.Eventually.of_forall fun ε => ?_))
  dsimp only
  rw [hm]
  refine Finset.sum_congr rfl fun i hi => Finset.sum_congr rfl fun k _ => ?_
  congr 1
  unfold Tape.Y
  rw [hx]
  congr 1
  funext t
  exact heq _ _ (Finset.mem_range.1 hi)

end CppAD.Chkpoint
