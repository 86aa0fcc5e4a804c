import Verif.Ipopt.Dense
import Verif.Ipopt.Patterns
import Verif.OptVal.Calc

/-!
# The callback object of `ipopt::solve`: the invariant
-/

open scoped Topology
open CppAD.AtomEx (ev ev_of_lt)

namespace CppAD.Ipopt

open Sparsity Legacy IndexSort SparseJac SparseHes

/-- sparse Jacobians and Hessians are used -/
def Arg.sparse (A : Arg) : Bool := A.sparseForward || A.sparseReverse

/-- the operation sequence when it does not change -/
def Arg.T0 (A : Arg) : Tape := A.tape (vec A.nx A.xi)

/-- what the constructor has determined -/
structure Static (A : Arg) (E : Env) (o : Obj) : Prop where
  jac : Lists o.rowJac o.colJac fun i j => A.nf ≤ i ∧ i < A.nf + A.ng ∧ j < A.nx ∧ (A.sparse = true → o.patJac (i * A.nx + j) = true)
  hes : Lists o.rowHes o.colHes fun i j => i < A.nx ∧ j ≤ i ∧ (A.sparse = true → o.patHes (i * A.nx + j) = true)
  order : o.colOrder = indexSort E.sort o.colJac
  patJac : A.sparse = true → ∀ i < A.nf + A.ng, ∀ j < A.nx, ∀ x, A.T0.Dom x → ∀ v, IsPartial (fun y => A.T0.eval y i) x j v → v ≠ 0 →
    o.patJac (i * A.nx + j) = true
  patHes : A.sparse = true → ∀ i < A.nx, ∀ j < A.nx, ∀ x, A.T0.Dom x → ∀ w v, IsPartial2 (wsum A.T0 w) x i j v → v ≠ 0 →
    o.patHes (i * A.nx + j) = true
  symm : A.sparse = true → ∀ i < A.nx, ∀ j < A.nx, o.patHes (i * A.nx + j) = true → o.patHes (j * A.nx + i) = true

/-- the work vectors are empty or from a previous call -/
structure Works (A : Arg) (o : Obj) : Prop where
  fwd : A.sparseForward = true → ∀ w, o.workJac = some w → Legacy.GoodFor A.nx o.rowJac.length (fun k => o.rowJac.getD k 0)
    (fun k => o.colJac.getD k 0) (user2internal true A.nx (A.nf + A.ng) (.bools o.patJac)) w
  rev : A.sparseForward = false → ∀ w, o.workJac = some w → Legacy.GoodRev (A.nf + A.ng) o.rowJac.length (fun k => o.rowJac.getD k 0)
    (fun k => o.colJac.getD k 0) (user2internal false (A.nf + A.ng) A.nx (.bools o.patJac)) w
  hes : ∀ w, o.workHes = some w → Legacy.GoodHes A.nx o.rowHes.length (fun k => o.rowHes.getD k 0)
    (fun k => o.colHes.getD k 0) (user2internal false A.nx A.nx (.bools o.patHes)) .symmetric w

/-- `x0_`, `fg0_` and the zero order Taylor coefficients correspond to `x` -/
structure At (A : Arg) (o : Obj) (x : Fin A.nx → ℝ) : Prop where
  ready : Ready (A.tape (List.ofFn x)) o.f (ev x)
  x0 : o.x0 = List.ofFn x
  fg0 : ∀ i < A.nf + A.ng, at' o.fg0 i = (A.tape (List.ofFn x)).eval (ev x) i

/-- the invariant -/
structure Inv (A : Arg) (E : Env) (o : Obj) (cur : Option (Fin A.nx → ℝ)) : Prop where
  static : Static A E o
  works : Works A o
  reach : A.retape = false → ∃ S, Reach A.T0 o.f S
  cur : ∀ x, cur = some x → At A o x

theorem vec_length (n : ℕ) (x : ℕ → ℝ) : (vec n x).length = n := by simp [vec]

theorem at_vec {n : ℕ} (x : ℕ → ℝ) {i : ℕ} (hi : i < n) : at' (vec n x) i = x i := by
  unfold at' vec
  rw [List.getD_eq_getElem _ _ (by simpa using hi)]; simp

theorem vec_ev {n : ℕ} (x : Fin n → ℝ) : vec n (ev x) = List.ofFn x := by
  unfold vec
  apply List.ext_getElem
  · simp
  · intro i h1 h2
    have : i < n := by simpa using h1
    simp [ev_of_lt x this]

theorem tape_const {A : Arg} (h : A.retape = false) (x : List ℝ) : A.tape x = A.T0 := by
  unfold Arg.T0 Arg.tape
  simp [h]

theorem sparse_tape {A : Arg} (hP : Problem A) (h : A.sparse = true) (x : List ℝ) : A.tape x = A.T0 := tape_const (hP.modes h) x

theorem init_inv {A : Arg} (hP : Problem A) {E : Env} (hE : E.Ok) (J : Junk) : Inv A E (Obj.init A E J) none := by
  have hl := vec_length A.nx A.xi
  have hn : A.T0.n = A.nx := hP.dom _ hl
  have hd : A.T0.dep.length = A.nf + A.ng := hP.range _ hl
  have hT : A.T0.WF := hP.wf _ hl
  by_cases hs : A.sparse = true
  · have hret := hP.modes hs
    have hT0 : (if A.retape then emptyTape else A.optimize (A.record (vec A.nx A.xi))) = A.T0 := by
      unfold Arg.T0 Arg.tape; simp [hret]
    have hs' : (A.sparseForward || A.sparseReverse) = true := hs
    have hna : ∀ op ∈ A.T0.ops, ∀ c, op ≠ .atom c := hP.atomic hs _ hl
    unfold Obj.init
    dsimp only
    rw [if_pos hs', hT0]
    refine ⟨⟨?_, ?_, rfl, ?_, ?_, ?_⟩, ⟨?_, ?_, ?_⟩, fun _ => ⟨_, Reach.start J.zero fun _ _ _ => 0⟩, fun x e => by cases e⟩
    · dsimp only
      rw [jacIdxSparse_eq _ _ _ (Nat.le_add_right _ _)]
      refine (lists_pairs fun i => List.nodup_range.filter _).congr fun i j => ?_
      simp only [List.mem_filter, List.mem_range]
      exact ⟨fun h => ⟨h.1, h.2.1, h.2.2.1, fun _ => h.2.2.2⟩, fun h => ⟨h.1, h.2.1, h.2.2.1, h.2.2.2 hs⟩⟩
    · dsimp only
      rw [hesIdxSparse_eq]
      refine (lists_pairs fun i => List.nodup_range.filter _).congr fun i j => ?_
      simp only [List.mem_filter, List.mem_range, Bool.and_eq_true, decide_eq_true_eq]
      exact ⟨fun h => ⟨h.2.1, h.2.2.2.2, fun _ => h.2.2.2.1⟩, fun h => ⟨Nat.zero_le _, h.1, by omega, h.2.2 hs, h.2.1⟩⟩
    · intro _ i hi j hj x hD v hv hne
      dsimp only
      rw [← hn, ← hd]
      exact jacPattern_ok hT hE.bits J (hd ▸ hi) (hn ▸ hj) hD hv hne
    · intro _ i hi j hj x hD w v hv hne
      dsimp only
      rw [← hn, ← hd]
      exact hesPattern_ok hT hna hE.bits J (hn ▸ hi) (hn ▸ hj) hD hv hne
    · intro _ i hi j hj h
      dsimp only at h ⊢
      rw [← hn, ← hd] at h ⊢
      exact hesPattern_symm hT hna hE.bits J (hn ▸ hi) (hn ▸ hj) h
    · intro _ w e; cases e
    · intro _ w e; cases e
    · intro w e; cases e
  · have hs' : ¬ (A.sparseForward || A.sparseReverse) = true := hs
    unfold Obj.init
    dsimp only
    rw [if_neg hs']
    refine ⟨⟨?_, ?_, rfl, fun h => absurd h hs, fun h => absurd h hs, fun h => absurd h hs⟩, ⟨?_, ?_, ?_⟩, fun hret => ?_, fun x e => by cases e⟩
    · dsimp only
      rw [jacIdxDense_eq _ _ _ (Nat.le_add_right _ _)]
      refine (lists_pairs fun i => List.nodup_range).congr fun i j => ?_
      simp only [List.mem_range]
      exact ⟨fun h => ⟨h.1, h.2.1, h.2.2, fun h => absurd h hs⟩, fun h => ⟨h.1, h.2.1, h.2.2.1⟩⟩
    · dsimp only
      rw [hesIdxDense_eq]
      refine (lists_pairs fun i => List.nodup_range).congr fun i j => ?_
      simp only [List.mem_range]
      exact ⟨fun h => ⟨h.2.1, by omega, fun h => absurd h hs⟩, fun h => ⟨Nat.zero_le _, h.1, by omega⟩⟩
    · intro _ w e; cases e
    · intro _ w e; cases e
    · intro w e; cases e
    · have hT0 : (if A.retape then emptyTape else A.optimize (A.record (vec A.nx A.xi))) = A.T0 := by
        unfold Arg.T0 Arg.tape; simp [hret]
      rw [hT0]
      exact ⟨_, Reach.start J.zero fun _ _ _ => 0⟩

theorem start_inv {A : Arg} (hP : Problem A) {E : Env} {o : Obj} {cur : Option (Fin A.nx → ℝ)} (h : Inv A E o cur) (J : Junk)
    (x : Fin A.nx → ℝ) (newX : Bool) (hlegal : newX = true ∨ cur = some x) : Inv A E (o.start A E J (ev x) newX) (some x) := by
  unfold Obj.start
  by_cases hx : newX = true
  · rw [if_pos hx]
    unfold Obj.cacheNewX
    dsimp only
    rw [vec_ev]
    have hl : (List.ofFn x).length = A.nx := by simp
    have hT := hP.wf _ hl
    have hn := hP.dom _ hl
    have hr : ∃ S, Reach (A.tape (List.ofFn x)) (if A.retape then (A.record (List.ofFn x)).initial J.zero else o.f) S := by
      by_cases hret : A.retape = true
      · rw [if_pos hret]
        have : A.tape (List.ofFn x) = A.record (List.ofFn x) := by unfold Arg.tape; rw [if_pos hret]
        rw [this]
        exact ⟨_, Reach.start J.zero fun _ _ _ => 0⟩
      · rw [if_neg hret, tape_const (by simpa using hret)]
        exact h.reach (by simpa using hret)
    obtain ⟨S, hr⟩ := hr
    generalize (if A.retape then (A.record (List.ofFn x)).initial J.zero else o.f) = g at hr
    have hready := fwd0_ready hT hr J.zero E.nan (List.ofFn x) (by rw [hl, hn])
    rw [OptVal.at_ofFn] at hready
    refine ⟨⟨h.static.jac, h.static.hes, h.static.order, h.static.patJac, h.static.patHes, h.static.symm⟩,
      ⟨h.works.fwd, h.works.rev, h.works.hes⟩, fun hret => ?_, fun x' e => ?_⟩
    · obtain ⟨S', hS', _⟩ := hready
      rw [tape_const hret] at hS'
      exact ⟨S', hS'⟩
    · cases e
      refine ⟨hready, rfl, fun i hi => ?_⟩
      dsimp only
      rw [fwd0_val hT hr J.zero E.nan _ (by rw [hl, hn]) (by rw [hP.range _ hl]; exact hi), OptVal.at_ofFn]
  · rw [if_neg hx]
    rcases hlegal with hl | rfl
    · exact absurd hl hx
    · exact h

/-- the invariant after a change of the Taylor coefficients and of the work vectors -/
theorem Inv.update {A : Arg} (hP : Problem A) {E : Env} {o : Obj} {x : Fin A.nx → ℝ} (h : Inv A E o (some x)) (f : ADFun)
    (wJ : Option Work) (wH : Option HWork) (hf : Ready (A.tape (List.ofFn x)) f (ev x))
    (hw : Works A { o with workJac := wJ, workHes := wH }) :
    Inv A E { o with f := f, workJac := wJ, workHes := wH } (some x) := by
  refine ⟨⟨h.static.jac, h.static.hes, h.static.order, h.static.patJac, h.static.patHes, h.static.symm⟩,
    ⟨hw.fwd, hw.rev, hw.hes⟩, fun hret => ?_, fun x' e => ?_⟩
  · obtain ⟨S', hS', _⟩ := hf
    rw [tape_const hret] at hS'
    exact ⟨S', hS'⟩
  · cases e
    have := h.cur x rfl
    exact ⟨hf, this.x0, this.fg0⟩

theorem Inv.updateF {A : Arg} (hP : Problem A) {E : Env} {o : Obj} {x : Fin A.nx → ℝ} (h : Inv A E o (some x)) (f : ADFun)
    (hf : Ready (A.tape (List.ofFn x)) f (ev x)) : Inv A E { o with f := f } (some x) :=
  h.update hP f o.workJac o.workHes hf h.works

end CppAD.Ipopt
