import Verif.Legacy.Hes

/-!
# The older functions: where the documentation is wrong, and examples
-/

open scoped ContDiff Topology

namespace CppAD.Legacy

open Sparsity IndexSort SparseJac SparseHes

/-- a sorting function that can be evaluated -/
def isort (l : List (Element ℕ)) : List (Element ℕ) := l.insertionSort fun a b => a.key ≤ b.key

theorem isort_std : StdSort (Element.lt (κ := ℕ)) isort where
  perm l := List.perm_insertionSort _ l
  sorted l := by
    have : Std.Total fun (a b : Element ℕ) => a.key ≤ b.key := ⟨fun a b => Nat.le_total _ _⟩
    have : IsTrans (Element ℕ) fun a b => a.key ≤ b.key := ⟨fun a b c => Nat.le_trans⟩
    refine (List.pairwise_insertionSort (fun (a b : Element ℕ) => a.key ≤ b.key) l).imp ?_
    intro a b h
    exact Nat.not_lt.mpr h

/-- the elements of a set in increasing order, by a function that can be evaluated -/
def fsort (s : Finset ℕ) : List ℕ :=
  Quot.liftOn s.val (fun l => l.insertionSort (· ≤ ·)) fun a b (h : a.Perm b) =>
    List.Perm.eq_of_pairwise (le := (· ≤ ·)) (fun _ _ _ _ h1 h2 => Nat.le_antisymm h1 h2)
      (List.pairwise_insertionSort (· ≤ ·) a) (List.pairwise_insertionSort (· ≤ ·) b)
      (((List.perm_insertionSort _ a).trans h).trans (List.perm_insertionSort _ b).symm)

theorem sort_eq (s : Finset ℕ) : s.sort (· ≤ ·) = fsort s := by
  obtain ⟨v, hv⟩ := s
  induction v using Quot.inductionOn with
  | h l =>
    refine List.Perm.eq_of_pairwise (le := (· ≤ ·)) (fun _ _ _ _ h1 h2 => Nat.le_antisymm h1 h2)
      (Finset.pairwise_sort _ _) (List.pairwise_insertionSort (· ≤ ·) l) ?_
    refine (Multiset.coe_eq_coe.1 ?_).trans (List.perm_insertionSort (· ≤ ·) l).symm
    exact Finset.sort_eq _ _

/-- `f(x) = x_0 * x_1 + x_1 * x_2 + x_2 * x_2` -/
def subTape : Tape := ⟨3, [.mulvv 1 2, .mulvv 2 3, .mulvv 3 3, .addvv 4 5, .addvv 7 6], [8]⟩

/-- row 1 has columns 0 and 2, row 2 has column 2 -/
def subPat : SetVec := .sets fun i => if i = 1 then {0, 2} else if i = 2 then {2} else ∅

def subRow (k : ℕ) : ℕ := if k = 0 then 1 else 2
def subCol (k : ℕ) : ℕ := if k = 0 then 0 else 2

def subWork : HWork := hesWork isort 3 2 subRow subCol (user2internal false 3 3 subPat) (fun _ => false) .symmetric

/-- the first steps of `Color.pick`, by a function that can be evaluated -/
theorem pick_eq (f : ℕ → Bool) : Color.pick f =
    bif f 0 then bif f 1 then bif f 2 then whileLoop (σ := ℕ) (fun ell => f ell) (· + 1) 3 else 2 else 1 else 0 := by
  unfold Color.pick
  cases h0 : f 0 with
  | false => rw [whileLoop_false (by exact h0)]; rfl
  | true =>
    rw [whileLoop_true (by exact h0)]
    cases h1 : f 1 with
    | false => rw [whileLoop_false (by exact h1)]; rfl
    | true =>
      rw [whileLoop_true (by exact h1)]
      cases h2 : f 2 with
      | false => rw [whileLoop_false (by exact h2)]; rfl
      | true => rw [whileLoop_true (by exact h2)]; rfl

theorem subWork_eq : [subWork.row 0, subWork.col 0, subWork.row 1, subWork.col 1, subWork.color 0, subWork.color 1, subWork.color 2, subWork.order 0, subWork.order 1]
    = [0, 1, 2, 2, 0, 3, 0, 0, 1] := by
  simp only [subWork, hesWork, Color.Sym.colorSymmetric, Color.Sym.body, Color.Sym.forbid1, Color.Sym.forbid2, Color.Sym.erase, user2internal, subPat,
    sort_eq, pick_eq]
  decide +kernel

theorem isPartial_quad {g : (ℕ → ℝ) → ℝ} {y : ℕ → ℝ} {j : ℕ} {a b d : ℝ}
    (h : ∀ t, g (Function.update y j (y j + t)) = a + d * t + b * t ^ 2) : IsPartial g y j d := by
  unfold IsPartial
  rw [show (fun t => g (Function.update y j (y j + t))) = fun t => a + d * t + b * t ^ 2 from funext h]
  have h1 : HasDerivAt (fun t : ℝ => d * t) d 0 := by simpa using (hasDerivAt_id' (0 : ℝ)).const_mul d
  have h2 : HasDerivAt (fun t : ℝ => b * t ^ 2) 0 0 := by simpa using ((hasDerivAt_id' (0 : ℝ)).fun_pow 2).const_mul b
  simpa using (h1.const_add a).fun_add h2

/-- the function of `subTape` -/
def subFun (y : ℕ → ℝ) : ℝ := y 0 * y 1 + y 1 * y 2 + y 2 * y 2

/-- its gradient -/
def subGrad (j : ℕ) (y : ℕ → ℝ) : ℝ :=
  if j = 0 then y 1 else if j = 1 then y 0 + y 2 else if j = 2 then y 1 + 2 * y 2 else 0

/-- its Hessian -/
def subHes (i j : ℕ) : ℝ :=
  if i = 0 ∧ j = 1 ∨ i = 1 ∧ j = 0 ∨ i = 1 ∧ j = 2 ∨ i = 2 ∧ j = 1 then 1 else if i = 2 ∧ j = 2 then 2 else 0

theorem subGrad_ok (y : ℕ → ℝ) (j : ℕ) : IsPartial subFun y j (subGrad j y) := by
  refine isPartial_quad (a := subFun y) (b := if j = 2 then 1 else 0) fun t => ?_
  unfold subFun subGrad
  rcases j with _ | _ | _ | j <;> simp [Function.update_apply] <;> ring

theorem subHes_ok (y : ℕ → ℝ) (i j : ℕ) : IsPartial2 subFun y i j (subHes i j) := by
  refine ⟨subGrad j, Filter.Eventually.of_forall fun ε => subGrad_ok _ _, ?_⟩
  refine isPartial_quad (a := subGrad j y) (b := 0) fun t => ?_
  unfold subGrad subHes
  rcases j with _ | _ | _ | j <;> rcases i with _ | _ | _ | i <;> simp [Function.update_apply] <;> ring

theorem subTape_WF : subTape.WF := by
  refine ⟨by decide, ?_, ?_⟩
  · simp [subTape, WFOps, Tape.ind, addRes, Op.naux, Op.args, Op.nres]
  · intro d hd
    simp only [subTape, List.mem_singleton] at hd
    subst hd
    simp [subTape, usable, Tape.ind, addRes, Op.naux, Op.nres]

theorem subTape_wsum : wsum subTape [1] = subFun := by
  funext y
  simp [wsum, subFun, subTape, at', Tape.eval, evalOps, stepEnv, Op.nres, Op.val, indEnv]

/-- The "Column Subset" claim of the documentation, sparse_hessian.hpp:111-122, is false for the color method
"cppad.symmetric": the pattern contains every second partial, that is not zero, in a column of the subset, and the subset, but the
value for the entry (1, 0) is 2 instead of 1. -/
theorem sparse_hessian_column_subset_wrong : ∃ (T : Tape) (f : ADFun) (S : St) (x wt : List ℝ) (p : SetVec) (K : ℕ) (row col : ℕ → ℕ)
    (sort : List (Element ℕ) → List (Element ℕ)), T.WF ∧ Reach T f S ∧ StdSort Element.lt sort ∧ x.length = T.n ∧ wt.length = T.dep.length ∧
    T.Dom (at' x) ∧ p.Ok false T.n T.n ∧ Inside T.n T.n K row col (p.Has false T.n T.n) ∧
    (∀ k < K, ∀ i < T.n, ¬ p.Has false T.n T.n i (col k) → IsPartial2 (wsum T wt) (at' x) i (col k) 0) ∧
    ∀ (junk0 : ℕ → ℝ) (junk junk' : ℕ → ℕ → ℝ) (nan : ℝ) (val : ℕ → ℝ), ∃ k < K, ¬ IsPartial2 (wsum T wt) (at' x) (row k) (col k)
      ((sparseHessianWork sort f junk0 junk junk' (fun _ => false) nan x wt p K row col val .symmetric none).2.2.1 k) := by
  have hok : subPat.Ok false 3 3 := by
    intro i hi j hj
    simp only at hj
    split_ifs at hj <;> simp at hj <;> omega
  refine ⟨subTape, (subTape.initial fun _ => 0), _, [0, 0, 0], [1], subPat, 2, subRow, subCol, isort, subTape_WF, .start _ fun _ _ _ => 0, isort_std, rfl, rfl,
    ?_, hok, ?_, ?_, ?_⟩
  · simp [Tape.Dom, subTape, domOps, Op.dom]
  · intro k hk
    have : k = 0 ∨ k = 1 := by omega
    rcases this with rfl | rfl <;> simp [subRow, subCol, subPat, SetVec.Has, subTape]
  · intro k hk i hi hno
    rw [subTape_wsum]
    have e := subHes_ok (at' [0, 0, 0]) i (subCol k)
    suffices h : subHes i (subCol k) = 0 by rwa [h] at e
    replace hi : i < 3 := hi
    have : k = 0 ∨ k = 1 := by omega
    have hi3 : i = 0 ∨ i = 1 ∨ i = 2 := by omega
    rcases this with rfl | rfl <;> rcases hi3 with rfl | rfl | rfl <;>
      simp [subHes, subCol, subPat, SetVec.Has, subTape] at hno ⊢
  · intro junk0 junk junk' nan val
    refine ⟨0, by decide, fun hv => ?_⟩
    have hw := subWork_eq
    simp only [List.cons.injEq, and_true] at hw
    obtain ⟨r0, c0, r1, c1, k0, k1, k2, o0, o1⟩ := hw
    have hsum := (sparseHessianCompute_sum (sort := isort) subTape_WF (f := (subTape.initial fun _ => 0)) (.start _ fun _ _ _ => 0) junk0 junk junk' (fun _ => false) nan
      [0, 0, 0] [1] rfl rfl (by simp [Tape.Dom, subTape, domOps, Op.dom]) (user2internal false 3 3 subPat) 2 (by decide) subRow subCol val
      .symmetric none subWork rfl (fun k hk => by
        have : k = 0 ∨ k = 1 := by omega
        rcases this with rfl | rfl
        · rw [r0, c0]; decide
        · rw [r1, c1]; decide) (fun k hk => by
        have : k = 0 ∨ k = 1 := by omega
        rcases this with rfl | rfl
        · rw [r0, k0]; decide
        · rw [r1, k2]; decide) (colorOrder_ok isort_std _ _ _) subHes (fun i j => by rw [subTape_wsum]; exact subHes_ok _ _ _)).1 0 (by decide)
    have e2 : ∑ j ∈ cls 3 subWork.color (subWork.color (subWork.row 0)), subHes (subWork.col 0) j = 2 := by
      rw [r0, c0, k0]
      have : cls 3 subWork.color 0 = {0, 2} := by
        ext j
        simp only [cls, Finset.mem_filter, Finset.mem_range, Finset.mem_insert, Finset.mem_singleton]
        constructor
        · rintro ⟨h, e⟩
          have : j = 0 ∨ j = 1 ∨ j = 2 := by omega
          rcases this with rfl | rfl | rfl
          · simp
          · rw [k1] at e; omega
          · simp
        · rintro (rfl | rfl)
          · exact ⟨by decide, k0⟩
          · exact ⟨by decide, k2⟩
      rw [this, Finset.sum_pair (by decide)]
      norm_num [subHes]
    have e3 := hsum.trans e2
    replace e3 : (sparseHessianWork isort (subTape.initial fun _ => 0) junk0 junk junk' (fun _ => false) nan [0, 0, 0] [1] subPat 2 subRow subCol val
      .symmetric none).2.2.1 0 = 2 := e3
    rw [e3, subTape_wsum] at hv
    have := isPartial2_unique hv (subHes_ok _ _ _)
    norm_num [subHes, subRow, subCol] at this

/-! ## components that are the same variable -/

theorem dupTape_WF : dupTape.WF := by
  refine ⟨by decide, ?_, ?_⟩
  · simp [dupTape, WFOps, Tape.ind, addRes, Op.naux, Op.args, Op.nres]
  · intro d hd
    simp only [dupTape, List.mem_cons, List.not_mem_nil, or_false, or_self] at hd
    subst hd
    simp [dupTape, usable, Tape.ind, addRes, Op.naux, Op.nres]

theorem dupTape_wsum : wsum dupTape [1, 0] = fun y => y 0 * y 0 := by
  funext y
  simp [wsum, dupTape, at', Tape.eval, evalOps, stepEnv, Op.nres, Op.val, indEnv, Finset.sum_range_succ]

/-- the pattern is empty if component 1 is not selected, whatever is selected for component 0 -/
theorem dup_empty (J : Sp) (sv : ℕ → Bool) (h : sv 1 = false) (junk : ℕ → Bool) (i j : ℕ) :
    ¬ (revSparseHes dupTape junk 1 J (.bools sv) false).Has false 1 1 i j := by
  rw [← SetVec.Has_flip]
  unfold revSparseHes
  dsimp only
  have := has_readHes (SetVec.bools sv).kind true 1 1 (fun j => j + 1) junk (revHes J dupTape.ops (dupTape.n + 1) (revFlags dupTape (.bools sv), fun _ => ∅)).2 j i
  rw [show (!false) = true from rfl]
  intro h'
  obtain ⟨h1, h2, h3⟩ := this.1 h'
  revert h3
  simp [dupTape, forRange, revHes, revHesOp, twoVarRevHes, revFlags, h,
    Op.nres, Function.update_apply, show List.range' 0 2 = [0, 1] from rfl]

/-- The full statement for `RevSparseHes` is false for vectors of bool when two components are the same variable: the flag of
component 1, not selected, overwrites that of component 0, rev_sparse_hes.hpp:264-270. -/
theorem rev_sparse_hes_wrong : ∃ (T : Tape) (x : ℕ → ℝ) (r s : SetVec) (w : List ℝ), T.WF ∧ T.Dom x ∧ r.Ok false T.n T.n ∧
    (∀ i j, r.Has false T.n T.n i j ↔ i < T.n ∧ j = i) ∧
    (∀ k < T.dep.length, at' w k ≠ 0 → Selects s k) ∧ IsPartial2 (wsum T w) x 0 0 2 ∧
    ∀ junk junk', ¬ (revSparseHes T junk' T.n (forSparseJac T junk T.n r false false).2 s false).Has false T.n T.n 0 0 := by
  refine ⟨dupTape, fun _ => 0, identityBools 1 (fun _ => false), .bools fun i => i == 0, [1, 0], dupTape_WF, ?_, trivial, ?_, ?_, ?_, ?_⟩
  · simp [Tape.Dom, dupTape, domOps, Op.dom]
  · intro i j
    exact identityBools_has ..
  · intro k hk h
    replace hk : k < 2 := hk
    have : k = 0 ∨ k = 1 := by omega
    rcases this with rfl | rfl
    · rfl
    · simp [at'] at h
  · rw [dupTape_wsum]; exact square_partial2 _
  · intro junk junk'
    exact dup_empty _ _ rfl _ _ _

theorem dup_zero (p : SetVec) (hok : p.Ok false 1 1) (hp : ∀ i j, ¬ p.Has false 1 1 i j) (sort : List (Element ℕ) → List (Element ℕ))
    (junk0 : ℕ → ℝ) (junk junk' : ℕ → ℕ → ℝ) (fjunk : ℕ → Bool) (nan : ℝ) (hes0 H0 : ℕ → ℝ) (x wt : List ℝ) :
    (sparseHessian sort (dupTape.initial fun _ => 0) junk0 junk junk' fjunk nan hes0 H0 x wt p).2 (0 * 1 + 0) = 0 := by
  unfold sparseHessian
  have hn : (dupTape.initial fun _ => 0).n = 1 := rfl
  simp only [hn]
  have he : entries 1 (user2internal false 1 1 p) = [] := by
    rw [List.eq_nil_iff_forall_not_mem]
    rintro ⟨i, j⟩ h
    exact hp i j ((mem_user2internal false 1 1 p hok i j).1 ((mem_entries ..).1 h).2)
  rw [he]
  exact zero_entries 1 1 _ 0 0 (by decide) (by decide)

/-- The full statement for `SparseHessian(x, w)` is false: with `F(x) = (z, z)`, `z = x * x` and `w = (1, 0)` the result is 0 instead
of 2. -/
theorem sparse_hessian_wrong : ∃ (T : Tape) (f : ADFun) (S : St) (x wt : List ℝ), T.WF ∧ Reach T f S ∧ x.length = T.n ∧
    wt.length = T.dep.length ∧ T.Dom (at' x) ∧ IsPartial2 (wsum T wt) (at' x) 0 0 2 ∧
    ∀ sort junk0 junk junk' fjunk rjunk sjunk pjunk pjunk' nan hes0 H0,
      (sparseHessianX sort f junk0 junk junk' fjunk rjunk sjunk pjunk pjunk' nan hes0 H0 x wt).2 (0 * T.n + 0) = 0 := by
  refine ⟨dupTape, (dupTape.initial fun _ => 0), _, [0], [1, 0], dupTape_WF, .start _ fun _ _ _ => 0, rfl, rfl, ?_, ?_, ?_⟩
  · simp [Tape.Dom, dupTape, domOps, Op.dom]
  · rw [dupTape_wsum]; exact square_partial2 _
  · intro sort junk0 junk junk' fjunk rjunk sjunk pjunk pjunk' nan hes0 H0
    refine dup_zero _ ?_ (dup_empty _ _ ?_ _) ..
    · trivial
    simp [forRange, dupTape, Tape.initial, show List.range' 0 2 = [0, 1] from rfl, at']

end CppAD.Legacy
