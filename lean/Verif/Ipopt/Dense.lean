import Verif.Ipopt.Idx
import Verif.Ipopt.Keep

/-!
# The callback object of `ipopt::solve`: dense Jacobians
-/

namespace CppAD.Ipopt

open Sparsity Legacy IndexSort SparseJac SparseHes

variable {T : Tape} {x : ℕ → ℝ}

/-- the values of `Forward(0, x)` -/
theorem fwd0_val (hT : T.WF) {f : ADFun} {S : St} (h : Reach T f S) (junk : ℕ → ℝ) (nan : ℝ) (xv : List ℝ) (hl : xv.length = T.n)
    {i : ℕ} (hi : i < T.dep.length) : at' (f.forward junk nan 0 xv).2 i = T.eval (at' xv) i := by
  rw [(forward_one_order hT h junk nan 0 xv hl (Nat.zero_le _) (Or.inl (Nat.zero_le _))).2 i hi (Or.inl rfl), tc_zero]
  refine T.eval_congr hT (fun j _ => ?_) hi
  simp [curve]

theorem jacDenseRev_ok (hT : T.WF) (A : Arg) (J : Junk) (o : Obj) (hn : T.n = A.nx) (hd : T.dep.length = A.nf + A.ng)
    (hr : Ready T o.f x) {S : ℕ → ℕ → Prop} (hL : Lists o.rowJac o.colJac S)
    (hS : ∀ i j, S i j → A.nf ≤ i ∧ i < A.nf + A.ng ∧ j < A.nx) (values : ℕ → ℝ) :
    Ready T (o.jacDenseRev A J values).1 x ∧
    (T.Dom x → ∀ k < o.rowJac.length, IsPartial (fun y => T.eval y (o.rowJac.getD k 0)) x (o.colJac.getD k 0)
      ((o.jacDenseRev A J values).2 k)) := by
  set Q : ℕ → ℝ → Prop := fun k v => T.Dom x → IsPartial (fun y => T.eval y (o.rowJac.getD k 0)) x (o.colJac.getD k 0) v with hQ
  unfold Obj.jacDenseRev
  dsimp only
  have main := forRange_ind (s := (o.f, 0, values)) (Nat.le_add_right A.nf A.ng)
    (f := fun i (s : ADFun × ℕ × (ℕ → ℝ)) =>
      let r := s.1.reverse (J.back i) 1 (unitVec (A.nf + A.ng) i)
      (r.1, whileLoop (fun t : ℕ × (ℕ → ℝ) => decide (t.1 < o.rowJac.length ∧ o.rowJac.getD t.1 0 ≤ i)) (fun t =>
        (t.1 + 1, Function.update t.2 t.1 (at' r.2 (o.colJac.getD t.1 0)))) s.2))
    (fun I s => Ready T s.1 x ∧ s.2.1 ≤ o.rowJac.length ∧ (∀ k < s.2.1, Q k (s.2.2 k)) ∧
      ∀ k, s.2.1 ≤ k → k < o.rowJac.length → I ≤ o.rowJac.getD k 0)
    ⟨hr, Nat.zero_le _, fun k hk => absurd hk (Nat.not_lt_zero _), fun k _ hk => (hS _ _ (hL.mem k hk)).1⟩ (by
      rintro i ⟨g, k0, v0⟩ h1 h2 ⟨hg, hk0, hv, hrow⟩
      dsimp only at hg hk0 hv hrow ⊢
      have hrev := rev1_ok hT hg (J.back i) (unitVec (A.nf + A.ng) i) (by rw [unitVec_length, hd])
      refine ⟨hrev.1, ?_⟩
      have w := whileLoop_rule (c := fun t : ℕ × (ℕ → ℝ) => decide (t.1 < o.rowJac.length ∧ o.rowJac.getD t.1 0 ≤ i))
        (b := fun t => (t.1 + 1, Function.update t.2 t.1 (at' (g.reverse (J.back i) 1 (unitVec (A.nf + A.ng) i)).2 (o.colJac.getD t.1 0))))
        (fun t => t.1 ≤ o.rowJac.length ∧ (∀ k < t.1, Q k (t.2 k)) ∧ ∀ k, t.1 ≤ k → k < o.rowJac.length → i ≤ o.rowJac.getD k 0)
        (fun t => o.rowJac.length - t.1) (by
          rintro ⟨k, v⟩ ⟨a1, a2, a3⟩ hc
          simp only [decide_eq_true_eq] at hc
          dsimp only at a1 a2 a3 hc ⊢
          refine ⟨⟨hc.1, fun l hl => ?_, fun l hl hl' => a3 l (by omega) hl'⟩, by omega⟩
          by_cases e : l = k
          · subst e
            rw [Function.update_self]
            intro hD
            have hrowe : o.rowJac.getD l 0 = i := le_antisymm hc.2 (a3 l le_rfl hc.1)
            have hcol := (hS _ _ (hL.mem l hc.1)).2.2
            have := hrev.2 hD (o.colJac.getD l 0) (by omega)
            rw [hrowe]
            rw [← hd] at this ⊢
            unfold IsPartial at this ⊢
            simp only [wsum_unit (show i < T.dep.length by omega)] at this
            exact this
          · rw [Function.update_of_ne e]
            exact a2 l (by omega))
        (s := (k0, v0)) ⟨hk0, hv, hrow⟩
      obtain ⟨⟨b1, b2, b3⟩, b4⟩ := w
      refine ⟨b1, b2, fun k hk hk' => ?_⟩
      simp only [decide_eq_false_iff_not, not_and, not_le] at b4
      exact lt_of_lt_of_le (b4 (lt_of_le_of_lt hk hk')) (hL.mono _ k hk hk'))
  obtain ⟨m1, m2, m3, m4⟩ := main
  refine ⟨m1, fun hD k hk => m3 k ?_ hD⟩
  by_contra hc
  have h1 := m4 k (not_lt.1 hc) hk
  have h2 := (hS _ _ (hL.mem k hk)).2.1
  omega

theorem colOrder_ok {sort : List (Element ℕ) → List (Element ℕ)} (hs : StdSort Element.lt sort) (col : List ℕ) :
    Ordered col.length id (fun k => col.getD k 0) fun p => (indexSort sort col).getD p 0 := by
  have h := colorOrder_ok hs col.length id fun k => col.getD k 0
  unfold colorOrder at h
  have e : ((List.range col.length).map fun k => id (col.getD k 0)) = col := by
    apply List.ext_getElem
    · simp
    · intro k h1 h2
      simp [List.getElem?_eq_getElem h2]
  rw [e] at h
  exact h

theorem jacDenseFor_ok (hT : T.WF) (A : Arg) {E : Env} (hE : E.Ok) (J : Junk) (o : Obj) (hn : T.n = A.nx) (hd : T.dep.length = A.nf + A.ng)
    (hr : Ready T o.f x) {S : ℕ → ℕ → Prop} (hL : Lists o.rowJac o.colJac S) (ho : o.colOrder = indexSort E.sort o.colJac)
    (hS : ∀ i j, S i j → A.nf ≤ i ∧ i < A.nf + A.ng ∧ j < A.nx) (values : ℕ → ℝ) :
    Ready T (o.jacDenseFor A E J values).1 x ∧
    (T.Dom x → ∀ k < o.rowJac.length, IsPartial (fun y => T.eval y (o.rowJac.getD k 0)) x (o.colJac.getD k 0)
      ((o.jacDenseFor A E J values).2 k)) := by
  set Q : ℕ → ℝ → Prop := fun k v => T.Dom x → IsPartial (fun y => T.eval y (o.rowJac.getD k 0)) x (o.colJac.getD k 0) v with hQ
  have hO := colOrder_ok hE.sort o.colJac
  rw [hL.len, ← ho] at hO
  set ord : ℕ → ℕ := fun p => o.colOrder.getD p 0 with hord
  unfold Obj.jacDenseFor
  dsimp only
  have main := forRange_ind (s := (o.f, 0, o.colOrder.getD 0 0, values)) (Nat.zero_le A.nx)
    (f := fun j (s : ADFun × ℕ × ℕ × (ℕ → ℝ)) =>
      let r := s.1.forward (J.fwd j) E.nan 1 (unitVec A.nx j)
      (r.1, whileLoop (fun t : ℕ × ℕ × (ℕ → ℝ) => decide (t.1 < o.rowJac.length ∧ o.colJac.getD t.2.1 0 ≤ j)) (fun t =>
        (t.1 + 1, (if t.1 + 1 < o.rowJac.length then o.colOrder.getD (t.1 + 1) 0 else t.2.1),
          Function.update t.2.2 t.2.1 (at' r.2 (o.rowJac.getD t.2.1 0)))) s.2))
    (fun j s => Ready T s.1 x ∧ s.2.1 ≤ o.rowJac.length ∧ (s.2.1 < o.rowJac.length → s.2.2.1 = ord s.2.1) ∧
      (∀ p < s.2.1, Q (ord p) (s.2.2.2 (ord p))) ∧
      ∀ p, s.2.1 ≤ p → p < o.rowJac.length → j ≤ o.colJac.getD (ord p) 0)
    ⟨hr, Nat.zero_le _, fun _ => rfl, fun k hk => absurd hk (Nat.not_lt_zero _), fun k _ hk => Nat.zero_le _⟩ (by
      rintro j ⟨g, k0, k1, v0⟩ h1 h2 ⟨hg, hk0, hk1, hv, hcol⟩
      dsimp only at hg hk0 hk1 hv hcol ⊢
      have hf := fwd1_ok hT hg (J.fwd j) E.nan (unitVec A.nx j) (by rw [unitVec_length, hn])
      refine ⟨ready1_ready hf.1, ?_⟩
      have w := whileLoop_rule (c := fun t : ℕ × ℕ × (ℕ → ℝ) => decide (t.1 < o.rowJac.length ∧ o.colJac.getD t.2.1 0 ≤ j))
        (b := fun t => (t.1 + 1, (if t.1 + 1 < o.rowJac.length then o.colOrder.getD (t.1 + 1) 0 else t.2.1),
          Function.update t.2.2 t.2.1 (at' (g.forward (J.fwd j) E.nan 1 (unitVec A.nx j)).2 (o.rowJac.getD t.2.1 0))))
        (fun t => t.1 ≤ o.rowJac.length ∧ (t.1 < o.rowJac.length → t.2.1 = ord t.1) ∧ (∀ p < t.1, Q (ord p) (t.2.2 (ord p))) ∧
          ∀ p, t.1 ≤ p → p < o.rowJac.length → j ≤ o.colJac.getD (ord p) 0)
        (fun t => o.rowJac.length - t.1) (by
          rintro ⟨ell, k, v⟩ ⟨a1, a2, a3, a4⟩ hc
          simp only [decide_eq_true_eq] at hc
          dsimp only at a1 a2 a3 a4 hc ⊢
          obtain rfl := a2 hc.1
          refine ⟨⟨hc.1, fun h => by rw [if_pos h], fun p hp => ?_, fun p hp hp' => a4 p (by omega) hp'⟩, by omega⟩
          by_cases e : p = ell
          · subst e
            rw [Function.update_self]
            intro hD
            have hlt := hO.lt p hc.1
            have hcole : o.colJac.getD (ord p) 0 = j := le_antisymm hc.2 (a4 p le_rfl hc.1)
            have hrow := (hS _ _ (hL.mem (ord p) hlt)).2.1
            have := hf.2 hD (o.rowJac.getD (ord p) 0) (by omega)
            rw [hcole]
            rw [← hn] at this ⊢
            simp only [update_dir x (show j < T.n by omega)] at this
            exact this
          · rw [Function.update_of_ne (fun h => e (hO.inj p (by omega) ell hc.1 h))]
            exact a3 p (by omega))
        (s := (k0, k1, v0)) ⟨hk0, hk1, hv, hcol⟩
      obtain ⟨⟨b1, b2, b3, b4⟩, b5⟩ := w
      refine ⟨b1, b2, b3, fun p hp hp' => ?_⟩
      simp only [decide_eq_false_iff_not, not_and, not_le] at b5
      have hlt := lt_of_le_of_lt hp hp'
      have h5 := b5 hlt
      rw [b2 hlt] at h5
      rcases Nat.lt_or_eq_of_le hp with h | h
      · exact lt_of_lt_of_le h5 (hO.mono _ p h hp')
      · rw [← h]; exact h5)
  obtain ⟨m1, m2, _, m3, m4⟩ := main
  refine ⟨m1, fun hD k hk => ?_⟩
  obtain ⟨p, hp, rfl⟩ := hO.surj k hk
  refine m3 p ?_ hD
  by_contra hc
  have h1 := m4 p (not_lt.1 hc) hp
  have h2 := (hS _ _ (hL.mem _ hk)).2.2
  have h3 : ord p = o.colOrder.getD p 0 := rfl
  omega

end CppAD.Ipopt
