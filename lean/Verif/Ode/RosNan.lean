import Verif.Ode.Rosen34

/-! # `Rosen34` with not a number (property C68) -/

namespace CppAD.Rk

variable {R L : Type} [Zero R] [One R] [Add R] [Sub R] [Neg R] [Mul R] [Div R]

/-- `hasnan` finds a `nan` -/
theorem hasnan_iff (isnan : R → Bool) (n : ℕ) (v : ℕ → R) : hasnan isnan n v = true ↔ ∃ i < n, isnan (v i) = true :=
  forRange_ind (Nat.zero_le n) (s := false) (f := fun i b => b || isnan (v i))
    (fun L (b : Bool) => b = true ↔ ∃ i < L, isnan (v i) = true) (by simp)
    (by
      intro L b _ _ ih
      rw [Bool.or_eq_true, ih]
      constructor
      · rintro (⟨i, hi, h⟩ | h)
        · exact ⟨i, by omega, h⟩
        · exact ⟨L, by omega, h⟩
      · rintro ⟨i, hi, h⟩
        by_cases e : i = L
        · subst e; exact Or.inr h
        · exact Or.inl ⟨i, by omega, h⟩)

/-- the vectors in the list have no `nan` -/
def Clean (isnan : R → Bool) (tr : List (ℕ × (ℕ → R))) : Prop := ∀ p ∈ tr, ∀ i < p.1, isnan (p.2 i) ≠ true

theorem Clean.cons {isnan : R → Bool} {tr : List (ℕ × (ℕ → R))} (h : Clean isnan tr) {n : ℕ} {v : ℕ → R}
    (hv : ¬hasnan isnan n v = true) : Clean isnan ((n, v) :: tr) := by
  intro p hp i hi hc
  rcases List.mem_cons.1 hp with e | e
  · subst e
    exact hv ((hasnan_iff isnan n v).2 ⟨i, hi, hc⟩)
  · exact h p e i hi hc

theorem rosStage_clean (v : Env R L) (n : ℕ) (t h : R) (xf fT : ℕ → R) (lu : L) (k : ℕ) {s : RSt R}
    (hs : s.ret = false → Clean v.isnan s.tr) :
    (rosStage v n t h xf fT lu k s).ret = false → Clean v.isnan (rosStage v n t h xf fT lu k s).tr := by
  by_cases h1 : s.ret = true
  · have : rosStage v n t h xf fT lu k s = s := by rw [rosStage, if_pos h1]
    rw [this]
    exact hs
  · rw [rosStage, if_neg h1]
    simp only []
    split_ifs with h2
    · exact fun hr => absurd hr (by simp)
    · exact fun _ => (hs (by simpa using h1)).cons h2

/-- *Property C68*: if an element of a vector that `F.Ode`, `F.Ode_ind` or `F.Ode_dep` returns is not a number, then all the
elements of `xf` and of `e` are not numbers. -/
theorem rosen34_nan_ok (v : Env R L) (n M : ℕ) (ti tf : R) (xi g0 Eg0 ftmp0 e0 : ℕ → R)
    (h : ∃ p ∈ (rosen34 v n M ti tf xi g0 Eg0 ftmp0 e0).tr, ∃ i < p.1, v.isnan (p.2 i) = true) (i : ℕ) :
    (rosen34 v n M ti tf xi g0 Eg0 ftmp0 e0).xf i = v.nan ∧ (rosen34 v n M ti tf xi g0 Eg0 ftmp0 e0).e i = v.nan := by
  have key := forRange_ind (Nat.zero_le M)
    (s := (⟨g0, Eg0, ftmp0, xi, forRange 0 n e0 fun i e => Function.update e i 0, false, []⟩ : ROut R))
    (f := fun m o => rosStep v n M ti tf m o)
    (fun _ (o : ROut R) => (o.ret = false → Clean v.isnan o.tr) ∧ (o.ret = true → ∀ i, o.xf i = v.nan ∧ o.e i = v.nan))
    ⟨fun _ p hp => absurd hp (by simp), fun h => absurd h (by simp)⟩
    (by
      intro m o _ _ ih
      by_cases ho : o.ret = true
      · have : rosStep v n M ti tf m o = o := by rw [rosStep, if_pos ho]
        rw [this]
        exact ih
      · have hc := ih.1 (by simpa using ho)
        rw [rosStep, if_neg ho]
        simp only []
        split_ifs with h1 h2
        · exact ⟨fun h => absurd h (by simp), fun _ i => ⟨rfl, rfl⟩⟩
        · exact ⟨fun h => absurd h (by simp), fun _ i => ⟨rfl, rfl⟩⟩
        · refine ⟨fun _ => ?_, fun h => absurd h (by simp)⟩
          rw [Bool.or_eq_true, not_or] at h1
          have st := forRange_ind (by omega : 0 ≤ 3)
            (s := (⟨o.g, o.xf, o.xf, o.Eg, o.ftmp, false,
              (n * n, v.fX (ti * (v.ofQ ((M - m : ℕ) : ℚ) / v.ofQ M) + tf * (v.ofQ m / v.ofQ M)) o.xf) ::
              (n, v.fT (ti * (v.ofQ ((M - m : ℕ) : ℚ) / v.ofQ M) + tf * (v.ofQ m / v.ofQ M)) o.xf) :: o.tr⟩ : RSt R))
            (f := fun k s => rosStage v n (ti * (v.ofQ ((M - m : ℕ) : ℚ) / v.ofQ M) + tf * (v.ofQ m / v.ofQ M)) ((tf - ti) / v.ofQ M)
              o.xf (v.fT (ti * (v.ofQ ((M - m : ℕ) : ℚ) / v.ofQ M) + tf * (v.ofQ m / v.ofQ M)) o.xf)
              (v.fac (rosE n (v.ofQ 2) ((tf - ti) / v.ofQ M)
                (v.fX (ti * (v.ofQ ((M - m : ℕ) : ℚ) / v.ofQ M) + tf * (v.ofQ m / v.ofQ M)) o.xf))) k s)
            (fun _ (s : RSt R) => s.ret = false → Clean v.isnan s.tr)
            (fun _ => (hc.cons h1.1).cons h1.2)
            (by intro k s _ _ hs; exact rosStage_clean v n _ _ _ _ _ k hs)
          exact st (by simpa using h2))
  obtain ⟨p, hp, k, hk, hn⟩ := h
  have hr : (rosen34 v n M ti tf xi g0 Eg0 ftmp0 e0).ret = true := by
    by_contra hc
    exact key.1 (Bool.eq_false_iff.2 hc) p hp k hk hn
  exact key.2 hr i

/-- an `Ode_dep` that returns not a number (with integers as scalars and `-1` as `nan`) -/
example : (rosen34 (R := ℤ) (L := Unit) ⟨fun q => q.num, fun x => x == -1, -1, fun x => decide (x < 0), fun _ => (), fun _ b => b,
    fun _ _ _ => 1, fun _ _ _ => 1, fun _ _ i => if i = 2 then -1 else 1⟩ 2 3 0 1 (fun _ => 0) (fun _ => 0) (fun _ => 0)
    (fun _ => 0) (fun _ => 0)).xf 1 = -1 :=
  (rosen34_nan_ok _ 2 3 0 1 _ _ _ _ _ ⟨(4, fun i => if i = 2 then -1 else 1), List.mem_cons_self, 2, by decide, rfl⟩ 1).1

end CppAD.Rk
