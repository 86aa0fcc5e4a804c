import Verif.Optimize.Thm
import Verif.AtomEx.VecSparse

/-! # A recording with an atomic function of dynamic parameters -/

open scoped Classical

namespace CppAD.Optim

open CppAD CppAD.Record CppAD.AtomEx

/-- the atomic function `y_i = - x_i` for `i = 0, 1` -/
noncomputable def negAtom : Atom := linAtom (fun _ => 0) .neg 2 (Or.inr (Or.inr rfl))

theorem negAtom_forward (sel : ℕ → Bool) (tx ty : ℕ → ℝ) (r : ℕ) (hr : r < 2) (hs : sel r = true) :
    negAtom.forward sel 0 0 tx ty r = - tx r := by
  have h := negAtom.forward_zero sel 0 tx ty r hr hs
  simp only [Nat.zero_add, mul_one] at h
  rw [h]
  show - ev (fun j : Fin 2 => tx j) r = _
  rw [ev_of_lt (n := 2) (fun j : Fin 2 => tx j) hr]

/-- `(q0, q1) = - (p0, p1)`, `y = q1 * x` with dynamic parameters `p0`, `p1`; `rev_depend` of the atomic function returns that result `r`
depends on argument `r` -/
noncomputable def exD : OTape where
  dyn := ⟨[0, 3, 4, -3, -4], [false, true, true, true, true],
    [.ind, .ind, .atom negAtom [true, true] 0 [1, 2], .atom negAtom [true, true] 1 [1, 2]], fun _ => 0⟩
  nInd := 2
  n := 1
  ops := [.begin, .inv, .pv .mul 4 1]
  dep := [2]
  vecs := []
  adep _ _ dy j := dy j

theorem exD_wf : exD.WF where
  len := by simp [exD]
  ind := by
    intro i hi
    simp only [exD, List.length_cons, List.length_nil] at hi
    simp only [exD, OTape.op]
    interval_cases i <;> simp [VOp.isInd]
  vars := by
    intro i hi
    simp only [exD, List.length_cons, List.length_nil] at hi
    simp only [exD, OTape.op]
    interval_cases i <;> simp [VOp.vars, Arg.vars, VOp.hasRes]
  pars := by
    intro i hi
    simp only [exD, List.length_cons, List.length_nil] at hi
    simp only [exD, OTape.op]
    interval_cases i <;> simp [VOp.pars, Arg.pars]
  csum := by
    intro i hi
    simp only [exD, List.length_cons, List.length_nil] at hi
    simp only [exD, OTape.op]
    interval_cases i <;> simp
  vec := by
    intro i hi
    simp only [exD, List.length_cons, List.length_nil] at hi
    simp only [exD, OTape.op]
    interval_cases i <;> simp [VOp.vec]
  vecs := by simp [exD]
  stores := by
    intro i hi
    simp only [exD, List.length_cons, List.length_nil] at hi
    simp only [exD, OTape.op]
    interval_cases i <;> simp [VOp.storesPar]
  call := by
    intro i hi
    simp only [exD, List.length_cons, List.length_nil] at hi
    simp only [exD, OTape.op]
    interval_cases i <;> simp
  dep := by simp [exD, OTape.op, VOp.hasRes]
  dyn := .dyn (b := [false, true, true, true]) (.dyn (b := [false, true, true]) (.dyn (b := [false, true]) (.dyn (b := [false]) (.con .nil)
    (by simp [DynOp.args])) (by simp [DynOp.args])) (by simp [DynOp.args])) (by simp [DynOp.args])
  plen := rfl
  par0 := by simp [exD, OTape.isDyn]
  nind := by
    refine ⟨by simp [exD], fun k hk => ?_⟩
    simp only [exD, List.length_cons, List.length_nil] at hk
    interval_cases k <;> simp [exD]
  atom := by
    intro k hk A sel i args he
    simp only [exD, List.length_cons, List.length_nil] at hk
    have hm : negAtom.m = 2 := rfl
    have hr : ∀ r < 2, selRank [true, true] r = r := by
      intro r hr; interval_cases r <;> simp [selRank, List.range, List.range.loop]
    have ho : exD.dyn.dynOps = [.ind, .ind, .atom negAtom [true, true] 0 [1, 2], .atom negAtom [true, true] 1 [1, 2]] := rfl
    rw [ho] at he ⊢
    interval_cases k <;> simp at he
    all_goals
      obtain ⟨rfl, rfl, rfl, rfl⟩ := he
      rw [hm]
      refine ⟨rfl, rfl, by rw [hr _ (by omega)]; omega, fun r h _ => ?_⟩
      rw [hr _ (by omega), hr _ h]
      interval_cases r <;> simp
  adep := by
    intro A sel i args hmem tx dy x x' hx hx' _ hd r hr hs
    have hA : A = negAtom ∧ sel = [true, true] ∧ args = [1, 2] := by
      simp [exD] at hmem
      rcases hmem with h | h <;> exact ⟨h.1, h.2.1, h.2.2.2⟩
    obtain ⟨rfl, rfl, rfl⟩ := hA
    have hr2 : r < 2 := by
      by_contra hc
      rw [List.getD_eq_default _ _ (by simpa [Nat.lt_iff_add_one_le] using hc)] at hs; cases hs
    rw [negAtom_forward _ _ _ r hr2 hs, negAtom_forward _ _ _ r hr2 hs]
    by_cases h : r < tx.length
    · rw [hd r h hr]
    · rw [List.getElem?_eq_none (by omega), List.getElem?_eq_none (by omega)]
  d2p := by
    intro k hk
    simp only [exD] at hk
    interval_cases k <;> simp [exD, dyn2par, List.range, List.range.loop]

example (h : Hashes) (order : List ℕ) (disc : ℕ → ℝ → ℝ) (ind : List ℝ) (x junk : ℕ → ℝ) :
    (exD.optimize h ⟨false, true, true, 10⟩ order).eval disc true ind x junk = exD.eval disc true ind x junk :=
  optimize_preserves_partial exD_wf (Or.inr (by
    intro i hi
    simp only [exD, List.length_cons, List.length_nil] at hi
    simp only [exD, OTape.op]
    interval_cases i <;> simp [VOp.vec])) (by simp [exD, VOp.isCskip]) h order disc ind x junk junk

/-- argument `p0` of the call is not needed for `q1`: it is marked as used only because it is an independent dynamic parameter; the
result `q0` is not used -/
example : exD.parUsage (fun _ => .yes) (fun _ => false) 3 = false ∧ exD.parUsage (fun _ => .yes) (fun _ => false) 4 = true := by
  have h : ∀ (u : ℕ → Bool) p, 3 ≤ p → (forDown0 4 u exD.dynUse) p = u p := by
    intro u p hp
    refine forDown0_ind (P := fun _ (u' : ℕ → Bool) => u' p = u p) rfl ?_
    intro k u' hk ih
    rw [← ih]
    have h4 : exD.dp k ≤ exD.dp 2 ∨ k = 3 := by
      have : k < 4 := hk
      rcases Nat.lt_or_ge k 3 with h | h
      · exact Or.inl (dp_le exD_wf (by simp [exD]) (by omega))
      · exact Or.inr (by omega)
    rcases h4 with h4 | rfl
    · refine dynUse_not exD_wf hk (h4.trans ?_)
      have : exD.dp 2 = 3 := by simp [OTape.dp, exD, dyn2par, List.range, List.range.loop]
      omega
    · have he : exD.dyn.dynOps.getD 3 .ind = .atom negAtom [true, true] 1 [1, 2] := rfl
      rw [dynUse_atom he, if_neg (by simp [selRank, List.range, List.range.loop])]
  have hl : exD.dyn.dynOps.length = 4 := rfl
  unfold OTape.parUsage
  rw [hl]
  refine ⟨(h _ 3 le_rfl).trans ?_, (h _ 4 (by omega)).trans ?_⟩ <;>
    simp [exD, forRange, List.range', OTape.op, parMarks, parMarksLR, markPars]

end CppAD.Optim
