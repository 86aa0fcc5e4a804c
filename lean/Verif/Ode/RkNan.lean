import Verif.Ode.RkLoops

/-! # `Runge45` with not a number (property C67) -/

namespace CppAD.Rk

/-- *Specification*: a scalar that is a real number or not a number -/
abbrev Sc := Option ℝ

namespace Sc

/-- an operation is not a number if an operand is not a number -/
def lift (f : ℝ → ℝ → ℝ) : Sc → Sc → Sc
  | some a, some b => some (f a b)
  | _, _ => none

noncomputable local instance : Zero Sc := ⟨some 0⟩
noncomputable local instance : Add Sc := ⟨lift (· + ·)⟩
noncomputable local instance : Sub Sc := ⟨lift (· - ·)⟩
noncomputable local instance : Mul Sc := ⟨lift (· * ·)⟩
noncomputable local instance : Div Sc := ⟨lift (· / ·)⟩

/-- a rational constant -/
noncomputable def ofQ (q : ℚ) : Sc := some (q : ℝ)

/-- the absolute value -/
noncomputable def abs' : Sc → Sc := Option.map fun x => |x|

theorem add_none (a : Sc) : a + none = none := by cases a <;> rfl
theorem none_mul (a : Sc) : none * a = none := rfl
theorem mul_none (a : Sc) : a * none = none := by cases a <;> rfl
theorem mul_some {a b : Sc} (h : a * b ≠ none) : a ≠ none ∧ b ≠ none := by
  constructor
  · rintro rfl; exact h (none_mul b)
  · rintro rfl; exact h (mul_none a)

variable {n : ℕ}

/-- the product with the elements of a vector -/
theorem prod_none (z : Sc) (f : ℕ → Sc) :
    forRange 0 n z (fun i z => z * f i) ≠ none → z ≠ none ∧ ∀ i < n, f i ≠ none :=
  forRange_ind (Nat.zero_le n) (s := z) (f := fun i z => z * f i)
    (fun L (y : Sc) => y ≠ none → z ≠ none ∧ ∀ i < L, f i ≠ none) (fun h => ⟨h, by intro i hi; omega⟩)
    (by
      intro L y _ _ ih h
      obtain ⟨h1, h2⟩ := mul_some h
      obtain ⟨h3, h4⟩ := ih h1
      refine ⟨h3, fun i hi => ?_⟩
      by_cases e : i = L
      · subst e; exact h2
      · exact h4 i (by omega))

/-- what holds during the loop over the stages -/
def Inv (n : ℕ) (zn : Sc) (x : ℕ → Sc) (tr : List (ℕ → Sc)) : Prop :=
  (zn = none → ∀ i < n, x i = none) ∧ (zn ≠ none → ∀ f ∈ tr, ∀ i < n, f i ≠ none)

theorem stage_inv (F : Sc → (ℕ → Sc) → ℕ → Sc) (t h : Sc) (xf : ℕ → Sc) (j : ℕ) {s : St Sc}
    (hs : Inv n s.zn s.x5 s.tr) :
    Inv n (stage ofQ n F t h xf j s).zn (stage ofQ n F t h xf j s).x5 (stage ofQ n F t h xf j s).tr := by
  set xtmp := forRange 0 j xf (fun k x => forRange 0 n x fun i x =>
    Function.update x i (x i + ofQ (tabB ((j - 1) * 5 + k)) * s.fh (i * 6 + k))) with hx
  set ftmp := F (t + ofQ (tabA j) * h) xtmp with hf
  set zn := forRange 0 n s.zn (fun i z => z * ftmp i) with hz
  constructor
  · intro hn i hi
    have hn' : zn = none := hn
    have key := forRange_ind (Nat.zero_le n) (s := (s.fh, s.x4, s.x5)) (f := fun i v =>
        (Function.update v.1 (i * 6 + j) (ftmp i * h), Function.update v.2.1 i (v.2.1 i + ofQ (tabC4 j) * (ftmp i * h)),
          Function.update v.2.2 i (v.2.2 i + ofQ (tabC5 j) * (ftmp i * h) + zn)))
      (fun L (v : (ℕ → Sc) × (ℕ → Sc) × (ℕ → Sc)) => ∀ i < L, v.2.2 i = none) (by intro i hi; omega)
      (by
        intro L v _ _ ih i hi
        show Function.update v.2.2 _ _ _ = _
        by_cases e : i = L
        · subst e
          rw [Function.update_self, hn', add_none]
        · rw [Function.update_of_ne e]
          exact ih i (by omega))
    exact key i hi
  · intro hn f hm i hi
    have hp := prod_none (n := n) s.zn ftmp hn
    have hm' : f ∈ ftmp :: s.tr := hm
    rcases List.mem_cons.1 hm' with h1 | h1
    · rw [h1]; exact hp.2 i hi
    · exact hs.2 hp.1 f h1 i hi

/-- *Property C67*: if an element of a vector that `F.Ode` returns is not a number, then all the elements of `xf` and of
`e` are not numbers. -/
theorem nan_ok {M : ℕ} (F : Sc → (ℕ → Sc) → ℕ → Sc) (ti tf : Sc) (xi fh0 e0 : ℕ → Sc)
    (h : ∃ f ∈ (runge45 ofQ abs' n M F ti tf xi fh0 e0).tr, ∃ i < n, f i = none) :
    ∀ i < n, (runge45 ofQ abs' n M F ti tf xi fh0 e0).xf i = none ∧ (runge45 ofQ abs' n M F ti tf xi fh0 e0).e i = none := by
  have key := forRange_ind (Nat.zero_le M)
    (s := (⟨fh0, xi, forRange 0 n e0 fun i e => Function.update e i 0, 0, []⟩ : Out Sc))
    (f := fun m o => rkStep ofQ abs' n M F ti tf m o)
    (fun _ (o : Out Sc) => Inv n o.zn o.xf o.tr ∧ (o.zn = none → ∀ i < n, o.e i = none))
    (by
      have : (0 : Sc) ≠ none := Option.some_ne_none _
      exact ⟨⟨fun h => absurd h this, fun _ f hf => absurd hf (by simp)⟩, fun h => absurd h this⟩)
    (by
      intro m o _ _ ih
      have st := forRange_ind (by omega : 0 ≤ 6) (s := (⟨o.fh, o.xf, o.xf, o.zn, o.tr⟩ : St Sc))
        (f := fun j s => stage ofQ n F (ti * (ofQ ((M - m : ℕ) : ℚ) / ofQ M) + tf * (ofQ m / ofQ M)) ((tf - ti) / ofQ M) o.xf j s)
        (fun _ (s : St Sc) => Inv n s.zn s.x5 s.tr) ih.1
        (by intro j s _ _ hs; exact stage_inv F _ _ o.xf j hs)
      refine ⟨st, fun hn i hi => ?_⟩
      set s := forRange 0 6 (⟨o.fh, o.xf, o.xf, o.zn, o.tr⟩ : St Sc) (fun j s =>
        stage ofQ n F (ti * (ofQ ((M - m : ℕ) : ℚ) / ofQ M) + tf * (ofQ m / ofQ M)) ((tf - ti) / ofQ M) o.xf j s) with hs
      have hn' : s.zn = none := hn
      have ke := forRange_ind (Nat.zero_le n) (s := o.e)
        (f := fun i e => Function.update e i (e i + abs' (s.x5 i - s.x4 i) + s.zn))
        (fun L (y : ℕ → Sc) => ∀ i < L, y i = none) (by intro i hi; omega)
        (by
          intro L y _ _ ih i hi
          by_cases e : i = L
          · subst e
            rw [Function.update_self, hn', add_none]
          · rw [Function.update_of_ne e]
            exact ih i (by omega))
      exact ke i hi)
  intro i hi
  obtain ⟨f, hf, k, hk, hn⟩ := h
  have hz : (runge45 ofQ abs' n M F ti tf xi fh0 e0).zn = none := by
    by_contra hc
    exact key.1.2 hc f hf k hk hn
  exact ⟨key.1.1 hz i hi, key.2 hz i hi⟩

/-- a function that returns not a number at its first call -/
example : ∀ i < 2, (runge45 ofQ abs' 2 1 (fun _ _ i => if i = 0 then none else some 1) (some 0) (some 1) (fun _ => some 0)
    (fun _ => some 0) (fun _ => some 0)).xf i = none := by
  have := nan_ok (n := 2) (M := 1) (fun _ _ i => if i = 0 then none else some 1) (some 0) (some 1) (fun _ => some 0)
    (fun _ => some 0) (fun _ => some 0)
    ⟨fun i => if i = 0 then none else some 1, by simp [runge45, rkStep, stage, forRange, List.range'], 0, by omega, rfl⟩
  exact fun i hi => (this i hi).1

end Sc

end CppAD.Rk
