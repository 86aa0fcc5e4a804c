import Verif.AbsOpt.Box

/-!
# Linear programs: examples
-/

namespace CppAD.AbsOpt

/-- coefficients of `x - 1 ≤ 0` and `- x + 1 ≤ 0` -/
def wA (k : ℕ) : ℝ := if k = 0 then 1 else if k = 1 then -1 else 0

/-- constants of `x - 1 ≤ 0` and `- x + 1 ≤ 0` -/
def wb (k : ℕ) : ℝ := if k = 0 then -1 else if k = 1 then 1 else 0

/-- `x = 1` is the solution of this linear program -/
theorem wSolves (c : ℕ → ℝ) : Solves 2 1 wA wb c (fun _ => 1) := by
  refine ⟨⟨fun j _ => by norm_num, fun i hi => ?_⟩, fun y hy => ?_⟩
  · interval_cases i <;> simp [rowVal, wA, wb]
  · have h0 := hy.2 0 (by omega)
    have h1 := hy.2 1 (by omega)
    simp [rowVal, wA, wb] at h0 h1
    have : y 0 = 1 := by linarith
    simp [cost, this]

theorem wNum : numAux 2 wb = 1 := by
  rw [numAux_succ, numAux_succ]
  have : numAux 0 wb = 0 := by unfold numAux; rw [forRange_of_le le_rfl]
  rw [this]
  norm_num [wb]

theorem wNum1 : numAux 1 wb = 0 := by
  rw [numAux_succ]
  have : numAux 0 wb = 0 := by unfold numAux; rw [forRange_of_le le_rfl]
  rw [this]
  norm_num [wb]

/-- **C57.** The linear program has a solution, but `simplex_method` returns false, for every number of iterations:
the auxiliary variable is zero but is still basic at the end of the first phase. -/
theorem simplexMethod_wrong (c : ℕ → ℝ) (maxitr : ℕ) (nan : ℝ) (xout : ℕ → ℝ) :
    Solves 2 1 wA wb c (fun _ => 1) ∧ ∃ x, simplexMethod 2 1 wA wb c maxitr nan xout = some (false, x) := by
  refine ⟨wSolves c, ?_⟩
  obtain ⟨s, h1, h2, hB, hT, ho⟩ := simplex_inv 2 1 wA wb c maxitr nan xout
  rw [h1]
  rw [wNum] at h2 hB hT ho ⊢
  have e0 : basis0 1 2 wb 0 = 1 := by norm_num [basis0, wb]
  have e1 : basis0 1 2 wb 1 = 3 := by unfold basis0; rw [wNum1]; norm_num [wb]
  have t00 : s.T 0 0 = 1 := by rw [hT 0 (by omega)]; norm_num [tab0, wb, wA]
  have t01 : s.T 0 1 = 1 := by rw [hT 0 (by omega)]; norm_num [tab0, wb, wA]
  have t02 : s.T 0 2 = 0 := by rw [hT 0 (by omega)]; norm_num [tab0, wb, wA]
  have t03 : s.T 0 3 = 0 := by rw [hT 0 (by omega)]; norm_num [tab0, wb, wA]
  have t04 : s.T 0 4 = 1 := by rw [hT 0 (by omega)]; norm_num [tab0, wb, wA]
  have t10 : s.T 1 0 = 1 := by rw [hT 1 (by omega)]; norm_num [tab0, wb, wA]
  have t11 : s.T 1 1 = 0 := by rw [hT 1 (by omega)]; norm_num [tab0, wb, wA, wNum1]
  have t12 : s.T 1 2 = -1 := by rw [hT 1 (by omega)]; norm_num [tab0, wb, wA]
  have t13 : s.T 1 3 = 1 := by rw [hT 1 (by omega)]; norm_num [tab0, wb, wA, wNum1]
  have t14 : s.T 1 4 = 1 := by rw [hT 1 (by omega)]; norm_num [tab0, wb, wA, wNum1]
  have t31 : s.T 3 1 = 0 := by have := hB.aux 0 (by omega); rwa [e0] at this
  have t33 : s.T 3 3 = 0 := by have := hB.aux 1 (by omega); rwa [e1] at this
  -- the auxiliary objective
  have haux : ∀ x y : ℝ, s.T 3 4 - (s.T 3 0 * x + s.T 3 2 * y) = 1 - x + y := by
    intro x y
    set v : ℕ → ℝ := fun j => if j = 0 then x else if j = 1 then 1 - x else if j = 2 then y else 1 - x + y with hv
    have hs : Sat 4 2 s.T v := by
      intro i hi
      interval_cases i
      · simp only [lhs, Finset.sum_range_succ, Finset.sum_range_zero, t00, t01, t02, t03, t04]; norm_num [hv]
      · simp only [lhs, Finset.sum_range_succ, Finset.sum_range_zero, t10, t11, t12, t13, t14]; norm_num [hv]; ring
    have := h2.aux v ((h2.sat v).1 hs)
    simp only [lhs, Finset.sum_range_succ, Finset.sum_range_zero, t31, t33] at this
    norm_num [hv] at this
    linarith
  have a0 := haux 0 0
  have a1 := haux 1 0
  have a2 := haux 0 1
  have t34 : s.T 3 4 = 1 := by linarith
  have t30 : s.T 3 0 = 1 := by linarith
  have t32 : s.T 3 2 = -1 := by linarith
  cases maxitr with
  | zero => exact ⟨s.x, rfl⟩
  | succ k =>
    have hb3 : s.basic 3 = true := (hB.mem 3).2 ⟨1, by omega, e1⟩
    have hb0 : s.basic 0 ≠ true := by
      intro hc
      obtain ⟨i, hi, e⟩ := (hB.mem 0).1 hc
      interval_cases i
      · rw [e0] at e; omega
      · rw [e1] at e; omega
    have had : ∀ bs : ℕ → Bool, bs 3 = true → ¬ auxDone 1 2 1 bs = true := by
      intro bs h hc
      exact (auxDone_iff 1 2 1 bs).1 hc 0 (by omega) h
    -- first iteration
    have hp : pivotRow 2 4 0 s.T = (some 1, 0) := by
      unfold pivotRow
      rw [forRange_succ (by omega), forRange_succ (by omega), forRange_of_le le_rfl]
      rw [t00, t04, t10, t14]
      norm_num
    obtain ⟨T1, hd, hT1⟩ := divideRow_ok hB (imin := 0) (jm := 0) (by omega) (by rw [t00]; norm_num) (by omega)
    have hP := pivoted_of (ne := 2) (jm := 0) (by omega) (by rw [t00]; norm_num) hT1
    have hB' := hP.basis hB (by omega) (by omega) (by rw [t00]; norm_num) hb0 (by
      intro i hi _
      interval_cases i
      · exact le_rfl
      · change s.T 0 4 / _ ≤ s.T 1 4 / _
        rw [t00, t04, t10, t14])
    obtain ⟨x, hx, _⟩ := readX_ok hB 1 nan s.x
    have hiter : iter 1 2 1 nan s = some (.next ⟨eliminate 4 5 0 0 T1,
        Function.update (Function.update s.basic (basis0 1 2 wb 0) false) 0 true, 3, x⟩) := by
      unfold iter
      dsimp only
      rw [show 1 + 2 + 1 + 1 - 1 = 1 + 2 + 1 from rfl, hx, Option.bind_some, ho]
      rw [if_pos (show (if 1 > 0 then 2 + 1 else 2) = 2 + 1 from rfl), if_neg (had _ hb3)]
      obtain ⟨e, he, hc⟩ := entering_ok 4 (s.T 3) s.basic (fun j _ hbj => by
        obtain ⟨i, hi, rfl⟩ := (hB.mem j).1 hbj
        exact hB.aux i hi)
      have he0 : e.2 = 0 := by
        rcases hc with hc | ⟨hc1, hc2, hc3⟩
        · have := hc.2 0 (by omega)
          rw [t30] at this; norm_num at this
        · generalize e.2 = q at hc1 hc2 hc3
          interval_cases q
          · rfl
          · rw [t31] at hc2; norm_num at hc2
          · rw [t32] at hc2; norm_num at hc2
          · rw [t33] at hc2; norm_num at hc2
      dsimp only
      have he' : entering (1 + 2 + 1) (s.T (if 1 > 0 then 2 + 1 else 2)) s.basic = some e := he
      have hp' : (pivotRow 2 (1 + 2 + 1) 0 s.T).2 = 0 := by rw [show 1 + 2 + 1 = 4 from rfl, hp]
      rw [he', Option.bind_some, he0, if_neg (by omega), hp', if_neg (by omega), hd, Option.bind_some, e0, if_pos (by omega)]
      rfl
    unfold iterate
    rw [hiter, Option.bind_some]
    dsimp only
    set s1 : State := ⟨eliminate 4 5 0 0 T1, Function.update (Function.update s.basic (basis0 1 2 wb 0) false) 0 true, 3, x⟩ with hs1
    cases k with
    | zero => exact ⟨s1.x, rfl⟩
    | succ k =>
      have hb3' : s1.basic 3 = true := by
        rw [hs1]; dsimp only
        rw [Function.update_of_ne (by omega), e0, Function.update_of_ne (by omega)]; exact hb3
      have hB1 : Basis 4 2 s1.T s1.basic (Function.update (basis0 1 2 wb) 0 0) := hB'
      have hrow : ∀ j ≤ 4, s1.T 3 j = s.T 3 j - s.T 0 j := by
        intro j hj
        have := hP.other 3 (by omega) (by omega) j hj
        rw [t30, t00, div_one, one_mul] at this
        exact this
      obtain ⟨x', hx', _⟩ := readX_ok hB1 1 nan s1.x
      have hiter' : iter 1 2 1 nan s1 = some (.done false x') := by
        unfold iter
        dsimp only
        rw [show 1 + 2 + 1 + 1 - 1 = 4 from rfl, hx', Option.bind_some]
        rw [if_pos (show s1.iobj = 2 + 1 from rfl), if_neg (had _ hb3')]
        obtain ⟨e, he, hc⟩ := entering_ok 4 (s1.T 3) s1.basic (fun j _ hbj => by
          obtain ⟨i, hi, rfl⟩ := (hB1.mem j).1 hbj
          exact hB1.aux i hi)
        have he4 : e.2 = 4 := by
          rcases hc with hc | ⟨hc1, hc2, hc3⟩
          · exact hc.1
          · generalize e.2 = q at hc1 hc2 hc3
            rw [hrow q (by omega)] at hc2
            interval_cases q
            · rw [t30, t00] at hc2; norm_num at hc2
            · rw [t31, t01] at hc2; norm_num at hc2
            · rw [t32, t02] at hc2; norm_num at hc2
            · rw [t33, t03] at hc2; norm_num at hc2
        dsimp only
        have he' : entering (1 + 2 + 1) (s1.T s1.iobj) s1.basic = some e := he
        rw [he', Option.bind_some, he4, if_pos (by omega)]
        rfl
      unfold iterate
      rw [hiter', Option.bind_some]
      exact ⟨x', rfl⟩

/-- coefficients and constants of `- x + 1 ≤ 0` -/
def gA (_ : ℕ) : ℝ := -1
/-- coefficients and constants of `- x + 1 ≤ 0` -/
def gb (_ : ℕ) : ℝ := 1

/-- a case with both phases where `simplex_method` returns true: minimize `x` subject to `1 ≤ x` -/
theorem simplexMethod_example (nan : ℝ) (xout : ℕ → ℝ) :
    ∃ x, simplexMethod 1 1 gA gb (fun _ => 1) 2 nan xout = some (true, x) := by
  obtain ⟨s, h1, h2, hB, hT, ho⟩ := simplex_inv 1 1 gA gb (fun _ => 1) 2 nan xout
  have n0 : numAux 0 gb = 0 := by unfold numAux; rw [forRange_of_le le_rfl]
  have n1 : numAux 1 gb = 1 := by rw [numAux_succ, n0]; norm_num [gb]
  rw [h1]
  rw [n1] at h2 hB hT ho ⊢
  have e0 : basis0 1 1 gb 0 = 2 := by unfold basis0; rw [n0]; norm_num [gb]
  have t00 : s.T 0 0 = 1 := by rw [hT 0 (by omega)]; norm_num [tab0, gb, gA]
  have t01 : s.T 0 1 = -1 := by rw [hT 0 (by omega)]; norm_num [tab0, gb, gA]
  have t02 : s.T 0 2 = 1 := by rw [hT 0 (by omega)]; norm_num [tab0, gb, gA, n0]
  have t03 : s.T 0 3 = 1 := by rw [hT 0 (by omega)]; norm_num [tab0, gb, gA, n0]
  have t22 : s.T 2 2 = 0 := by have := hB.aux 0 (by omega); rwa [e0] at this
  have t12 : s.T 1 2 = 0 := by have := hB.obj 0 (by omega); rwa [e0] at this
  have hsat : ∀ x y : ℝ, Sat 3 1 s.T (fun j => if j = 0 then x else if j = 1 then y else 1 - x + y) := by
    intro x y i hi
    interval_cases i
    simp only [lhs, Finset.sum_range_succ, Finset.sum_range_zero, t00, t01, t02, t03]; norm_num; ring
  have haux : ∀ x y : ℝ, s.T 2 3 - (s.T 2 0 * x + s.T 2 1 * y) = 1 - x + y := by
    intro x y
    have := h2.aux _ ((h2.sat _).1 (hsat x y))
    simp only [lhs, Finset.sum_range_succ, Finset.sum_range_zero, t22] at this
    norm_num at this
    linarith
  have hobj : ∀ x y : ℝ, s.T 1 3 - (s.T 1 0 * x + s.T 1 1 * y) = x := by
    intro x y
    have := h2.obj _ ((h2.sat _).1 (hsat x y))
    simp only [lhs, cost, Finset.sum_range_succ, Finset.sum_range_zero, t12] at this
    norm_num at this
    linarith
  have a0 := haux 0 0
  have a1 := haux 1 0
  have a2 := haux 0 1
  have b0 := hobj 0 0
  have b1 := hobj 1 0
  have b2 := hobj 0 1
  have t20 : s.T 2 0 = 1 := by linarith
  have t21 : s.T 2 1 = -1 := by linarith
  have t10 : s.T 1 0 = -1 := by linarith
  have t11 : s.T 1 1 = 0 := by linarith
  have hb2 : s.basic 2 = true := (hB.mem 2).2 ⟨0, by omega, e0⟩
  have hb0 : s.basic 0 ≠ true := by
    intro hc
    obtain ⟨i, hi, e⟩ := (hB.mem 0).1 hc
    interval_cases i
    rw [e0] at e; omega
  have hp : pivotRow 1 3 0 s.T = (some 1, 0) := by
    unfold pivotRow
    rw [forRange_succ (by omega), forRange_of_le le_rfl]
    rw [t00, t03]
    norm_num
  obtain ⟨T1, hd, hT1⟩ := divideRow_ok hB (imin := 0) (jm := 0) (by omega) (by rw [t00]; norm_num) (by omega)
  have hP := pivoted_of (ne := 1) (jm := 0) (by omega) (by rw [t00]; norm_num) hT1
  have hB' := hP.basis hB (by omega) (by omega) (by rw [t00]; norm_num) hb0 (by
    intro i hi _
    interval_cases i
    exact le_rfl)
  obtain ⟨x, hx, _⟩ := readX_ok hB 1 nan s.x
  have hiter : iter 1 1 1 nan s = some (.next ⟨eliminate 3 4 0 0 T1,
      Function.update (Function.update s.basic (basis0 1 1 gb 0) false) 0 true, 2, x⟩) := by
    unfold iter
    dsimp only
    rw [show 1 + 1 + 1 + 1 - 1 = 1 + 1 + 1 from rfl, hx, Option.bind_some, ho]
    rw [if_pos (show (if 1 > 0 then 1 + 1 else 1) = 1 + 1 from rfl), if_neg (fun hc => (auxDone_iff 1 1 1 s.basic).1 hc 0 (by omega) hb2)]
    obtain ⟨e, he, hc⟩ := entering_ok 3 (s.T 2) s.basic (fun j _ hbj => by
      obtain ⟨i, hi, rfl⟩ := (hB.mem j).1 hbj
      exact hB.aux i hi)
    have he0 : e.2 = 0 := by
      rcases hc with hc | ⟨hc1, hc2, hc3⟩
      · have := hc.2 0 (by omega)
        rw [t20] at this; norm_num at this
      · generalize e.2 = q at hc1 hc2 hc3
        interval_cases q
        · rfl
        · rw [t21] at hc2; norm_num at hc2
        · rw [t22] at hc2; norm_num at hc2
    dsimp only
    have he' : entering (1 + 1 + 1) (s.T (if 1 > 0 then 1 + 1 else 1)) s.basic = some e := he
    have hp' : (pivotRow 1 (1 + 1 + 1) 0 s.T).2 = 0 := by rw [show 1 + 1 + 1 = 3 from rfl, hp]
    rw [he', Option.bind_some, he0, if_neg (by omega), hp', if_neg (by omega), hd, Option.bind_some, e0, if_pos (by omega)]
    rfl
  unfold iterate
  rw [hiter, Option.bind_some]
  dsimp only
  set s1 : State := ⟨eliminate 3 4 0 0 T1, Function.update (Function.update s.basic (basis0 1 1 gb 0) false) 0 true, 2, x⟩ with hs1
  have hb2' : s1.basic 2 ≠ true := by
    rw [hs1]; dsimp only
    rw [Function.update_of_ne (by omega), e0, Function.update_self]; simp
  have hB1 : Basis 3 1 s1.T s1.basic (Function.update (basis0 1 1 gb) 0 0) := hB'
  have hrow : ∀ j ≤ 3, s1.T 1 j = s.T 1 j + s.T 0 j := by
    intro j hj
    have := hP.other 1 (by omega) (by omega) j hj
    rw [t10, t00, div_one] at this
    refine Eq.trans this ?_
    ring
  obtain ⟨x', hx', _⟩ := readX_ok hB1 1 nan s1.x
  have hiter' : iter 1 1 1 nan s1 = some (.done true x') := by
    unfold iter
    dsimp only
    rw [show 1 + 1 + 1 + 1 - 1 = 3 from rfl, hx', Option.bind_some]
    rw [if_pos (show s1.iobj = 1 + 1 from rfl), if_pos ((auxDone_iff 1 1 1 s1.basic).2 (fun k hk => by
      obtain rfl : k = 0 := by omega
      exact hb2'))]
    obtain ⟨e, he, hc⟩ := entering_ok 2 (s1.T 1) s1.basic (fun j _ hbj => by
      obtain ⟨i, hi, rfl⟩ := (hB1.mem j).1 hbj
      exact hB1.obj i hi)
    have he2 : e.2 = 2 := by
      rcases hc with hc | ⟨hc1, hc2, hc3⟩
      · exact hc.1
      · generalize e.2 = q at hc1 hc2 hc3
        rw [hrow q (by omega)] at hc2
        interval_cases q
        · rw [t10, t00] at hc2; norm_num at hc2
        · rw [t11, t01] at hc2; norm_num at hc2
    dsimp only
    have he' : entering (1 + 1) (s1.T 1) s1.basic = some e := he
    rw [he', Option.bind_some, he2, if_pos rfl]
    rfl
  unfold iterate
  rw [hiter', Option.bind_some]
  exact ⟨x', rfl⟩

/-- the theorem applies to this case -/
example (nan : ℝ) (xout : ℕ → ℝ) :
    ∃ x, simplexMethod 1 1 gA gb (fun _ => 1) 2 nan xout = some (true, x) ∧ Solves 1 1 gA gb (fun _ => 1) x := by
  obtain ⟨x, hx⟩ := simplexMethod_example nan xout
  obtain ⟨ok, x', h1, h2⟩ := simplexMethod_ok 1 1 gA gb (fun _ => 1) 2 nan xout
  rw [hx] at h1
  cases h1
  exact ⟨x, hx, h2 rfl⟩

end CppAD.AbsOpt
