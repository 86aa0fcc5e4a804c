import Verif.Ipopt.Thm

/-!
# The callback object of `ipopt::solve`: theorems
-/

open scoped Topology
open CppAD.AtomEx (ev ev_of_lt)

namespace CppAD.Ipopt

open Sparsity Legacy IndexSort SparseJac SparseHes

variable {A : Arg} {E : Env} {o : Obj} {cur : Option (Fin A.nx → ℝ)} {fg : (Fin A.nx → ℝ) → ℕ → ℝ}

theorem start_false (J : Junk) (y : ℕ → ℝ) (o : Obj) : o.start A E J y false = o := by simp [Obj.start]

theorem evalJacG_start (J : Junk) (y values : ℕ → ℝ) (b : Bool) :
    o.evalJacG A E J y b values = (o.start A E J y b).evalJacG A E J y false values := by
  unfold Obj.evalJacG
  rw [start_false]

theorem evalH_start (J : Junk) (y : ℕ → ℝ) (s : ℝ) (lambda values : ℕ → ℝ) (b : Bool) :
    o.evalH A E J y b s lambda values = (o.start A E J y b).evalH A E J y false s lambda values := by
  unfold Obj.evalH
  rw [start_false]

/-- every history of calls keeps the invariant -/
theorem hist_inv (hP : Problem A) (hE : E.Ok) (h : Hist A E o cur) : Inv A E o cur := by
  induction h with
  | init J => exact init_inv hP hE J
  | call J c h hl ih =>
    cases c with
    | f x b => exact start_inv hP ih J x b hl
    | g x b v => exact start_inv hP ih J x b hl
    | gradF x b v => exact gradF_inv hP (start_inv hP ih J x b hl) J _ (vec_length _ _)
    | jacG x b v =>
      show Inv A E (Obj.evalJacG A E J _ (ev x) b v).1 (some x)
      rw [evalJacG_start]
      exact (jac_body hP hE (start_inv hP ih J x b hl) J _ v).1
    | h x b s l v =>
      show Inv A E (Obj.evalH A E J _ (ev x) b s l v).1 (some x)
      rw [evalH_start]
      exact (hes_body hP hE (start_inv hP ih J x b hl) J _ s l v).1

/-- a call is legal if `new_x` is true or the point is the point of the previous call -/
def Legal (cur : Option (Fin A.nx → ℝ)) (x : Fin A.nx → ℝ) (newX : Bool) : Prop := newX = true ∨ cur = some x

/-- the arrays of `eval_jac_g` with `values` NULL -/
theorem jacStructure_eq (o : Obj) (iRow jCol : ℕ → ℕ) {k : ℕ} (hk : k < o.rowJac.length) :
    (o.jacStructure A iRow jCol).1 k = o.rowJac.getD k 0 - A.nf ∧ (o.jacStructure A iRow jCol).2 k = o.colJac.getD k 0 := by
  unfold Obj.jacStructure
  have := forRange_ind (s := (iRow, jCol)) (f := fun k (s : (ℕ → ℕ) × (ℕ → ℕ)) =>
    (Function.update s.1 k (o.rowJac.getD k 0 - A.nf), Function.update s.2 k (o.colJac.getD k 0))) (Nat.zero_le o.rowJac.length)
    (fun K t => ∀ k < K, t.1 k = o.rowJac.getD k 0 - A.nf ∧ t.2 k = o.colJac.getD k 0) (by intro k hk; omega) (by
      intro i t _ _ ih k hk
      by_cases e : k = i
      · subst e; simp
      · dsimp only
        rw [Function.update_of_ne e, Function.update_of_ne e]
        exact ih k (by omega))
  exact this k hk

/-- the arrays of `eval_h` with `values` NULL -/
theorem hesStructure_eq (o : Obj) (iRow jCol : ℕ → ℕ) {k : ℕ} (hk : k < o.rowHes.length) :
    (o.hesStructure iRow jCol).1 k = o.rowHes.getD k 0 ∧ (o.hesStructure iRow jCol).2 k = o.colHes.getD k 0 := by
  unfold Obj.hesStructure
  have := forRange_ind (s := (iRow, jCol)) (f := fun k (s : (ℕ → ℕ) × (ℕ → ℕ)) =>
    (Function.update s.1 k (o.rowHes.getD k 0), Function.update s.2 k (o.colHes.getD k 0))) (Nat.zero_le o.rowHes.length)
    (fun K t => ∀ k < K, t.1 k = o.rowHes.getD k 0 ∧ t.2 k = o.colHes.getD k 0) (by intro k hk; omega) (by
      intro i t _ _ ih k hk
      by_cases e : k = i
      · subst e; simp
      · dsimp only
        rw [Function.update_of_ne e, Function.update_of_ne e]
        exact ih k (by omega))
  exact this k hk

/-- **C56** `eval_f`: after any history of calls the value is the sum of the first `nf` components of `fg` at the point of
the call -/
theorem evalF_ok (hP : Problem A) (hE : E.Ok) (h : Hist A E o cur) (J : Junk) (x : Fin A.nx → ℝ) (newX : Bool)
    (hl : Legal cur x newX) (hfg : Records A fg x) :
    (o.evalF A E J (ev x) newX).2 = ∑ i ∈ Finset.range A.nf, fg x i := by
  have hat := (start_inv hP (hist_inv hP hE h) J x newX hl).cur x rfl
  unfold Obj.evalF
  dsimp only
  refine forRange_ind (s := (0 : ℝ)) (f := fun i sum => sum + at' (o.start A E J (ev x) newX).fg0 i) (Nat.zero_le A.nf)
    (fun K t => t = ∑ i ∈ Finset.range K, fg x i) (by simp) ?_
  intro i t _ hi ih
  rw [Finset.sum_range_succ, ← ih, hat.val hfg (by omega)]

/-- **C56** `eval_g`: the values are the last `ng` components of `fg` -/
theorem evalG_ok (hP : Problem A) (hE : E.Ok) (h : Hist A E o cur) (J : Junk) (x : Fin A.nx → ℝ) (newX : Bool)
    (hl : Legal cur x newX) (hfg : Records A fg x) (g : ℕ → ℝ) :
    ∀ i < A.ng, (o.evalG A E J (ev x) newX g).2 i = fg x (A.nf + i) := by
  intro i hi
  have hat := (start_inv hP (hist_inv hP hE h) J x newX hl).cur x rfl
  unfold Obj.evalG
  dsimp only
  rw [AtomEx.forRange_assign g _ _ (fun _ _ _ => rfl) hi, hat.val hfg (by omega)]

/-- **C56** `eval_grad_f`: the values are the partial derivatives of the objective -/
theorem evalGradF_ok (hP : Problem A) (hE : E.Ok) (h : Hist A E o cur) (J : Junk) (x : Fin A.nx → ℝ) (newX : Bool)
    (hl : Legal cur x newX) (hfg : Records A fg x) (grad : ℕ → ℝ) (j : Fin A.nx) :
    PartialAt (fun y => ∑ i ∈ Finset.range A.nf, fg y i) x j ((o.evalGradF A E J (ev x) newX grad).2 j) := by
  have hat := (start_inv hP (hist_inv hP hE h) J x newX hl).cur x rfl
  unfold Obj.evalGradF
  dsimp only
  rw [AtomEx.forRange_assign grad _ _ (fun _ _ _ => rfl) j.2]
  have hr := (rev1_ok (hP.wf _ (by simp)) hat.ready J.zero (vec (A.nf + A.ng) (forRange 0 A.ng (forRange 0 A.nf J.out
    fun i w => Function.update w i 1) fun i w => Function.update w (A.nf + i) 0)) (by rw [hP.range _ (by simp)]; exact vec_length _ _)).2
    hfg.1 j (by rw [hP.dom _ (by simp)]; exact j.2)
  refine partial_at ?_ j hr
  filter_upwards [wsum_fg hP hfg (vec (A.nf + A.ng) (forRange 0 A.ng (forRange 0 A.nf J.out
    fun i w => Function.update w i 1) fun i w => Function.update w (A.nf + i) 0))] with x' hx'
  rw [hx', weights A.nf A.ng J.out 1 (fun _ => 0) (fg x') (fun i => A.nf + i) (fun _ => rfl)]
  simp

/-- the number of possibly non-zero elements of the Jacobian that Ipopt is told, and of the Hessian -/
def nnzJac (A : Arg) (o : Obj) : ℕ := (o.nlpInfo A).2.2.1
@[inherit_doc nnzJac] def nnzHes (A : Arg) (o : Obj) : ℕ := (o.nlpInfo A).2.2.2

/-- **C56** the structure of the Jacobian: the positions are inside, no position is repeated, and the derivative at
any other position is zero at every point -/
theorem jacStructure_ok_partial (hP : Problem A) (hE : E.Ok) (h : Hist A E o cur) (iRow jCol : ℕ → ℕ) :
    let r := o.jacStructure A iRow jCol
    (∀ k < nnzJac A o, r.1 k < A.ng ∧ r.2 k < A.nx) ∧
    (∀ k < nnzJac A o, ∀ l < nnzJac A o, r.1 k = r.1 l → r.2 k = r.2 l → k = l) ∧
    (∀ x fg, Records A fg x → ∀ i < A.ng, ∀ j : Fin A.nx, (∀ k < nnzJac A o, ¬ (r.1 k = i ∧ r.2 k = j)) →
      PartialAt (fun y => fg y (A.nf + i)) x j 0) := by
  have hI := hist_inv hP hE h
  have hm := hI.static.jac
  have hn : nnzJac A o = o.rowJac.length := rfl
  refine ⟨fun k hk => ?_, fun k hk l hl h1 h2 => ?_, fun x fg hfg i hi j hno => ?_⟩
  · obtain ⟨a, b⟩ := jacStructure_eq (A := A) o iRow jCol (hn ▸ hk)
    obtain ⟨c, d, e, _⟩ := hm.mem k (hn ▸ hk)
    rw [a, b]; exact ⟨by omega, e⟩
  · obtain ⟨a, b⟩ := jacStructure_eq (A := A) o iRow jCol (hn ▸ hk)
    obtain ⟨a', b'⟩ := jacStructure_eq (A := A) o iRow jCol (hn ▸ hl)
    obtain ⟨c, _⟩ := hm.mem k (hn ▸ hk)
    obtain ⟨c', _⟩ := hm.mem l (hn ▸ hl)
    rw [a, a'] at h1; rw [b, b'] at h2
    exact hm.inj k (hn ▸ hk) l (hn ▸ hl) (by omega) h2
  · have hl : (List.ofFn x).length = A.nx := by simp
    have hT := hP.wf _ hl
    have hd := hP.range _ hl
    obtain ⟨d, hp⟩ := wsum_partial hT hfg.1 (unitVec (A.tape (List.ofFn x)).dep.length (A.nf + i)) j
    have e : (fun y => (A.tape (List.ofFn x)).eval y (A.nf + i)) = wsum (A.tape (List.ofFn x))
        (unitVec (A.tape (List.ofFn x)).dep.length (A.nf + i)) := by
      funext y; rw [wsum_unit (by omega)]
    rw [← e] at hp
    have hd0 : d = 0 := by
      by_contra hne
      have hmem : ∃ k < o.rowJac.length, o.rowJac.getD k 0 = A.nf + i ∧ o.colJac.getD k 0 = (j : ℕ) := by
        refine hm.all (A.nf + i) j ⟨by omega, by omega, j.2, fun hs => ?_⟩
        rw [sparse_tape hP hs] at hp
        exact hI.static.patJac hs _ (by omega) _ j.2 (ev x) (by rw [← sparse_tape hP hs]; exact hfg.1) d hp hne
      obtain ⟨k, hk, h1, h2⟩ := hmem
      obtain ⟨a, b⟩ := jacStructure_eq (A := A) o iRow jCol hk
      exact hno k (hn ▸ hk) ⟨by rw [a, h1]; omega, by rw [b, h2]⟩
    subst hd0
    refine partial_at ?_ j hp
    filter_upwards [hfg.2] with x' hx'
    exact hx' _ (by omega)

/-- **C56** `eval_jac_g`: element `k` of `values` is the partial derivative at the `k`-th position of the structure -/
theorem evalJacG_ok_partial (hP : Problem A) (hE : E.Ok) (h : Hist A E o cur) (J : Junk) (x : Fin A.nx → ℝ) (newX : Bool)
    (hl : Legal cur x newX) (hfg : Records A fg x) (values : ℕ → ℝ) (iRow jCol : ℕ → ℕ) :
    ∀ k < nnzJac A o, ∀ j : Fin A.nx, (j : ℕ) = (o.jacStructure A iRow jCol).2 k →
      PartialAt (fun y => fg y (A.nf + (o.jacStructure A iRow jCol).1 k)) x j ((o.evalJacG A E J (ev x) newX values).2 k) := by
  intro k hk j hj
  have hI := hist_inv hP hE h
  have hI' := start_inv hP hI J x newX hl
  have hrow : (o.start A E J (ev x) newX).rowJac = o.rowJac := by unfold Obj.start; split <;> rfl
  have hcol : (o.start A E J (ev x) newX).colJac = o.colJac := by unfold Obj.start; split <;> rfl
  have := (jac_body hP hE hI' J (ev x) values).2 hfg.1 k (by rw [hrow]; exact hk)
  rw [← evalJacG_start, hrow, hcol] at this
  obtain ⟨a, b⟩ := jacStructure_eq (A := A) o iRow jCol hk
  obtain ⟨c, d, _⟩ := hI.static.jac.mem k hk
  rw [a, Nat.add_sub_cancel' c]
  rw [b] at hj
  rw [← hj] at this
  refine partial_at ?_ j this
  filter_upwards [hfg.2] with x' hx'
  exact hx' _ d

theorem lag_fg (hP : Problem A) {x : Fin A.nx → ℝ} (hfg : Records A fg x) (J : Junk) (s : ℝ) (lambda : ℕ → ℝ) : ∀ᶠ x' in 𝓝 x,
    wsum (A.tape (List.ofFn x)) (lagWeights A J s lambda) (ev x') = lagrangian A fg s lambda x' := by
  filter_upwards [wsum_fg hP hfg (lagWeights A J s lambda)] with x' hx'
  rw [hx']
  unfold lagWeights
  rw [weights A.nf A.ng J.out s lambda (fg x') (fun i => i + A.nf) (fun i => Nat.add_comm _ _)]
  rfl

/-- **C56** the structure of the Hessian: lower triangular positions, no position is repeated, and the second derivative of
the Lagrangian at any other lower triangular position is zero at every point, for every `obj_factor` and `lambda` -/
theorem hesStructure_ok_partial (hP : Problem A) (hE : E.Ok) (h : Hist A E o cur) (iRow jCol : ℕ → ℕ) :
    let r := o.hesStructure iRow jCol
    (∀ k < nnzHes A o, r.1 k < A.nx ∧ r.2 k ≤ r.1 k) ∧
    (∀ k < nnzHes A o, ∀ l < nnzHes A o, r.1 k = r.1 l → r.2 k = r.2 l → k = l) ∧
    (∀ x fg, Records A fg x → ∀ s lambda, ∀ i j : Fin A.nx, j ≤ i → (∀ k < nnzHes A o, ¬ (r.1 k = i ∧ r.2 k = j)) →
      Partial2At (lagrangian A fg s lambda) x i j 0) := by
  have hI := hist_inv hP hE h
  have hm := hI.static.hes
  have hn : nnzHes A o = o.rowHes.length := rfl
  refine ⟨fun k hk => ?_, fun k hk l hl h1 h2 => ?_, fun x fg hfg s lambda i j hij hno => ?_⟩
  · obtain ⟨a, b⟩ := hesStructure_eq o iRow jCol (hn ▸ hk)
    obtain ⟨c, d, _⟩ := hm.mem k (hn ▸ hk)
    rw [a, b]; exact ⟨c, d⟩
  · obtain ⟨a, b⟩ := hesStructure_eq o iRow jCol (hn ▸ hk)
    obtain ⟨a', b'⟩ := hesStructure_eq o iRow jCol (hn ▸ hl)
    rw [a, a'] at h1; rw [b, b'] at h2
    exact hm.inj k (hn ▸ hk) l (hn ▸ hl) h1 h2
  · have hl : (List.ofFn x).length = A.nx := by simp
    have hT := hP.wf _ hl
    let J : Junk := ⟨fun _ => 0, fun _ _ => 0, fun _ _ => 0, fun _ => 0, fun _ => false, fun _ _ => false⟩
    obtain ⟨d, hp, _⟩ := wsum_mixed hT hfg.1 (lagWeights A J s lambda) i j
    have hd0 : d = 0 := by
      by_contra hne
      have hmem : ∃ k < o.rowHes.length, o.rowHes.getD k 0 = (i : ℕ) ∧ o.colHes.getD k 0 = (j : ℕ) := by
        refine hm.all i j ⟨i.2, hij, fun hs => ?_⟩
        rw [sparse_tape hP hs] at hp
        exact hI.static.patHes hs _ i.2 _ j.2 (ev x) (by rw [← sparse_tape hP hs]; exact hfg.1) _ d hp hne
      obtain ⟨k, hk, h1, h2⟩ := hmem
      obtain ⟨a, b⟩ := hesStructure_eq o iRow jCol hk
      exact hno k (hn ▸ hk) ⟨by rw [a, h1], by rw [b, h2]⟩
    subst hd0
    exact partial2_at (lag_fg hP hfg J s lambda) i j hp

/-- **C56** `eval_h`: element `k` of `values` is the second partial derivative of the Lagrangian at the `k`-th position of the
structure -/
theorem evalH_ok_partial (hP : Problem A) (hE : E.Ok) (h : Hist A E o cur) (J : Junk) (x : Fin A.nx → ℝ) (newX : Bool)
    (hl : Legal cur x newX) (hfg : Records A fg x) (objFactor : ℝ) (lambda values : ℕ → ℝ) (iRow jCol : ℕ → ℕ) :
    ∀ k < nnzHes A o, ∀ i j : Fin A.nx, (i : ℕ) = (o.hesStructure iRow jCol).1 k → (j : ℕ) = (o.hesStructure iRow jCol).2 k →
      Partial2At (lagrangian A fg objFactor lambda) x i j ((o.evalH A E J (ev x) newX objFactor lambda values).2 k) := by
  intro k hk i j hi hj
  have hI := hist_inv hP hE h
  have hI' := start_inv hP hI J x newX hl
  have hrow : (o.start A E J (ev x) newX).rowHes = o.rowHes := by unfold Obj.start; split <;> rfl
  have hcol : (o.start A E J (ev x) newX).colHes = o.colHes := by unfold Obj.start; split <;> rfl
  have := (hes_body hP hE hI' J (ev x) objFactor lambda values).2 hfg.1 k (by rw [hrow]; exact hk)
  rw [← evalH_start, hrow, hcol] at this
  obtain ⟨a, b⟩ := hesStructure_eq o iRow jCol hk
  rw [a] at hi
  rw [b] at hj
  rw [← hi, ← hj] at this
  exact partial2_at (lag_fg hP hfg J objFactor lambda) i j this

/-- **C56** the dimensions and structures that Ipopt is told do not change during the calls -/
theorem structure_const (J : Junk) (c : Call A.nx) : (o.call A E J c).nlpInfo A = o.nlpInfo A ∧
    (∀ iRow jCol, (o.call A E J c).jacStructure A iRow jCol = o.jacStructure A iRow jCol) ∧
    (∀ iRow jCol, (o.call A E J c).hesStructure iRow jCol = o.hesStructure iRow jCol) := by
  have key : (o.call A E J c).rowJac = o.rowJac ∧ (o.call A E J c).colJac = o.colJac ∧ (o.call A E J c).rowHes = o.rowHes ∧
      (o.call A E J c).colHes = o.colHes := by
    have hs : ∀ y b, (o.start A E J y b).rowJac = o.rowJac ∧ (o.start A E J y b).colJac = o.colJac ∧
        (o.start A E J y b).rowHes = o.rowHes ∧ (o.start A E J y b).colHes = o.colHes := by
      intro y b; unfold Obj.start; split <;> exact ⟨rfl, rfl, rfl, rfl⟩
    cases c with
    | f x b => exact hs _ _
    | g x b v => exact hs _ _
    | gradF x b v => exact hs _ _
    | jacG x b v =>
      unfold Obj.call Obj.evalJacG
      dsimp only
      split_ifs <;> exact hs _ _
    | h x b s l v =>
      unfold Obj.call Obj.evalH
      dsimp only
      split_ifs <;> exact hs _ _
  obtain ⟨a, b, c', d⟩ := key
  refine ⟨?_, fun iRow jCol => ?_, fun iRow jCol => ?_⟩
  · unfold Obj.nlpInfo; rw [a, c']
  · unfold Obj.jacStructure; rw [a, b]
  · unfold Obj.hesStructure; rw [c', d]

/-- **C56** `get_bounds_info` and `get_starting_point` pass on the bounds and the starting point of the user -/
theorem bounds_ok (A : Arg) (xl xu gl gu x : ℕ → ℝ) :
    let b := boundsInfo A xl xu gl gu
    (∀ j < A.nx, b.1 j = A.xl j ∧ b.2.1 j = A.xu j) ∧ (∀ i < A.ng, b.2.2.1 i = A.gl i ∧ b.2.2.2 i = A.gu i) ∧
    (∀ j < A.nx, startingPoint A x j = A.xi j) := by
  have two : ∀ (n : ℕ) (p q s t : ℕ → ℝ), ∀ k < n, (forRange 0 n (p, q) fun i (u : (ℕ → ℝ) × (ℕ → ℝ)) =>
      (Function.update u.1 i (s i), Function.update u.2 i (t i))).1 k = s k ∧ (forRange 0 n (p, q) fun i (u : (ℕ → ℝ) × (ℕ → ℝ)) =>
      (Function.update u.1 i (s i), Function.update u.2 i (t i))).2 k = t k := by
    intro n p q s t
    refine forRange_ind (s := (p, q)) (f := fun i (u : (ℕ → ℝ) × (ℕ → ℝ)) =>
      (Function.update u.1 i (s i), Function.update u.2 i (t i))) (Nat.zero_le n)
      (fun K u => ∀ k < K, u.1 k = s k ∧ u.2 k = t k) (by intro k hk; omega) ?_
    intro i u _ _ ih k hk
    by_cases e : k = i
    · subst e; simp
    · dsimp only
      rw [Function.update_of_ne e, Function.update_of_ne e]
      exact ih k (by omega)
  exact ⟨two A.nx xl xu A.xl A.xu, two A.ng gl gu A.gl A.gu,
    fun j hj => AtomEx.forRange_assign x A.xi _ (fun _ _ _ => rfl) hj⟩

theorem fill_eq (n : ℕ) (junk : List ℝ) (src : ℕ → ℝ) : fill n junk src = vec n src := by
  have := forRange_ind (s := junk.takeD n 0) (f := fun j (v : List ℝ) => v.set j (src j)) (Nat.zero_le n)
    (fun K t => t.length = n ∧ ∀ k < K, t.getD k 0 = src k) ⟨by simp, by intro k hk; omega⟩ (by
      intro i t _ hi ih
      refine ⟨by simp [ih.1], fun k hk => ?_⟩
      by_cases e : k = i
      · subst e
        rw [List.getD_eq_getElem _ _ (by simp [ih.1]; exact hi)]
        simp
      · rw [List.getD_eq_getElem _ _ (by simp [ih.1]; omega), List.getElem_set_ne (by omega), ← ih.2 k (by omega),
          List.getD_eq_getElem _ _ (by rw [ih.1]; omega)])
  unfold fill
  apply List.ext_getElem
  · rw [this.1, vec_length]
  · intro k h1 h2
    have := this.2 k (by rw [this.1] at h1; exact h1)
    rw [List.getD_eq_getElem _ _ h1] at this
    rw [this]
    simp [vec]

/-- **C56** `finalize_solution` copies the solution; it reports success only if Ipopt does -/
theorem finalize_ok (A : Arg) (sol : Solution) (status : SolverReturn) (x zL zU g lambda : ℕ → ℝ) (objValue : ℝ) :
    let r := finalizeSolution A sol status x zL zU g lambda objValue
    r.x = vec A.nx x ∧ r.zl = vec A.nx zL ∧ r.zu = vec A.nx zU ∧ r.g = vec A.ng g ∧ r.lambda = vec A.ng lambda ∧
    r.objValue = objValue ∧ (r.status = .success ↔ status = .success) ∧ r.status ≠ .notDefined := by
  refine ⟨fill_eq _ _ _, fill_eq _ _ _, fill_eq _ _ _, fill_eq _ _ _, fill_eq _ _ _, rfl, ?_, ?_⟩
  · show toStatus status = .success ↔ _
    cases status <;> simp [toStatus]
  · show toStatus status ≠ .notDefined
    cases status <;> simp [toStatus]

end CppAD.Ipopt
