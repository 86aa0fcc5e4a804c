import Verif.Record.Inv

/-! # Each operator records an operation that represents it -/

open scoped Classical

namespace CppAD.Record

open CppAD

variable {c : Cfg} {w0 : World} {r : Rec} {x y : AD} {dx dy : World → ℝ}

theorem con_ne (hr : RInv c w0 r) (v : ℝ) : (AD.con v).tapeId ≠ r.id := by
  have := hr.id
  show 0 ≠ r.id
  omega

theorem Step.here {a : AD} {d : World → ℝ} (hr : RInv c w0 r) (h : Den c w0 r a d) : Step c w0 r (r, a) d :=
  ⟨hr, Ext.refl r, h⟩

theorem not_dyn_val {P : Prop} [Decidable P] (h : (!r.dyn y && decide P) = true) : r.dyn y = false ∧ P := by
  simpa using h

theorem dyn_of_or (h : (r.dyn x || r.dyn y) = true) (h' : r.dyn x = false) : r.dyn y = true := by
  simpa [h'] using h
theorem dyn_of_or' (h : (r.dyn x || r.dyn y) = true) (h' : r.dyn y = false) : r.dyn x = true := by
  simpa [h'] using h
theorem not_or_dyn (h : ¬ (r.dyn x || r.dyn y) = true) : r.dyn x = false ∧ r.dyn y = false := by
  simpa using h

theorem addAD_ok (hr : RInv c w0 r) (hx : Den c w0 r x dx) (hy : Den c w0 r y dy) :
    Step c w0 r (addAD c r x y) (fun w => dx w + dy w) := by
  have hv : x.value + y.value = dx w0 + dy w0 := by rw [hx.1, hy.1]
  unfold addAD
  dsimp only
  by_cases vx : r.var x = true
  · rw [if_pos vx]
    by_cases vy : r.var y = true
    · rw [if_pos vy]
      exact step_vv hr hx hy vx vy _ (.addvv x.taddr y.taddr) (fun a b => a + b) (fun _ => rfl) rfl rfl rfl (fun _ => rfl)
        (fun _ => rfl) hv
    · rw [if_neg vy]
      by_cases h : (!r.dyn y && decide (y.value = 0)) = true
      · rw [if_pos h]
        obtain ⟨h1, h2⟩ := not_dyn_val h
        exact Step.here hr (hx.likeVar vx (fun w => by rw [hy.of_con vy h1, h2, add_zero]) hv)
      · rw [if_neg h]
        exact step_pv hr hy hx vy vx (fun p => .addpv p x.taddr) (fun a => .addpv a x.taddr) (fun a b => a + b)
          (fun _ _ => rfl) (fun _ _ => rfl) (fun _ => rfl) (fun _ => rfl) (fun _ _ _ => rfl) (fun _ => add_comm _ _) hv
  · rw [if_neg vx]
    by_cases vy : r.var y = true
    · rw [if_pos vy]
      by_cases h : (!r.dyn x && decide (x.value = 0)) = true
      · rw [if_pos h]
        obtain ⟨h1, h2⟩ := not_dyn_val h
        exact Step.here hr (hy.likeVar vy (fun w => by rw [hx.of_con vx h1, h2, zero_add]) hv)
      · rw [if_neg h]
        exact step_pv hr hx hy vx vy (fun p => .addpv p y.taddr) (fun a => .addpv a y.taddr) (fun a b => a + b)
          (fun _ _ => rfl) (fun _ _ => rfl) (fun _ => rfl) (fun _ => rfl) (fun _ _ _ => rfl) (fun _ => rfl) hv
    · rw [if_neg vy]
      by_cases hd : (r.dyn x || r.dyn y) = true
      · rw [if_pos hd]
        by_cases h : (!r.dyn x && decide (x.value = 0)) = true
        · rw [if_pos h]
          obtain ⟨h1, h2⟩ := not_dyn_val h
          exact Step.here hr (hy.likeDyn (dyn_of_or hd h1) (fun w => by rw [hx.of_con vx h1, h2, zero_add]) hv)
        · rw [if_neg h]
          by_cases h : (!r.dyn y && decide (y.value = 0)) = true
          · rw [if_pos h]
            obtain ⟨h1, h2⟩ := not_dyn_val h
            exact Step.here hr (hx.likeDyn (dyn_of_or' hd h1) (fun w => by rw [hy.of_con vy h1, h2, add_zero]) hv)
          · rw [if_neg h]
            exact step_dynBin hr hx hy vx vy .add (fun _ => rfl) hv
      · rw [if_neg hd]
        obtain ⟨h1, h2⟩ := not_or_dyn hd
        exact Step.here hr (.const _ (con_ne hr _) fun w => by rw [hx.of_con vx h1, hy.of_con vy h2]; rfl)

theorem subAD_ok (hr : RInv c w0 r) (hx : Den c w0 r x dx) (hy : Den c w0 r y dy) :
    Step c w0 r (subAD c r x y) (fun w => dx w - dy w) := by
  have hv : x.value - y.value = dx w0 - dy w0 := by rw [hx.1, hy.1]
  unfold subAD
  dsimp only
  by_cases vx : r.var x = true
  · rw [if_pos vx]
    by_cases vy : r.var y = true
    · rw [if_pos vy]
      exact step_vv hr hx hy vx vy _ (.subvv x.taddr y.taddr) (fun a b => a - b) (fun _ => rfl) rfl rfl rfl (fun _ => rfl)
        (fun _ => rfl) hv
    · rw [if_neg vy]
      by_cases h : (!r.dyn y && decide (y.value = 0)) = true
      · rw [if_pos h]
        obtain ⟨h1, h2⟩ := not_dyn_val h
        exact Step.here hr (hx.likeVar vx (fun w => by rw [hy.of_con vy h1, h2, sub_zero]) hv)
      · rw [if_neg h]
        exact step_pv hr hy hx vy vx (fun p => .subvp x.taddr p) (fun a => .subvp x.taddr a) (fun a b => b - a)
          (fun _ _ => rfl) (fun _ _ => rfl) (fun _ => rfl) (fun _ => rfl) (fun _ _ _ => rfl) (fun _ => rfl) hv
  · rw [if_neg vx]
    by_cases vy : r.var y = true
    · rw [if_pos vy]
      exact step_pv hr hx hy vx vy (fun p => .subpv p y.taddr) (fun a => .subpv a y.taddr) (fun a b => a - b)
          (fun _ _ => rfl) (fun _ _ => rfl) (fun _ => rfl) (fun _ => rfl) (fun _ _ _ => rfl) (fun _ => rfl) hv
    · rw [if_neg vy]
      by_cases hd : (r.dyn x || r.dyn y) = true
      · rw [if_pos hd]
        by_cases h : (!r.dyn y && decide (y.value = 0)) = true
        · rw [if_pos h]
          obtain ⟨h1, h2⟩ := not_dyn_val h
          exact Step.here hr (hx.likeDyn (dyn_of_or' hd h1) (fun w => by rw [hy.of_con vy h1, h2, sub_zero]) hv)
        · rw [if_neg h]
          exact step_dynBin hr hx hy vx vy .sub (fun _ => rfl) hv
      · rw [if_neg hd]
        obtain ⟨h1, h2⟩ := not_or_dyn hd
        exact Step.here hr (.const _ (con_ne hr _) fun w => by rw [hx.of_con vx h1, hy.of_con vy h2]; rfl)

theorem mulAD_ok (hr : RInv c w0 r) (hx : Den c w0 r x dx) (hy : Den c w0 r y dy) :
    Step c w0 r (mulAD c r x y) (fun w => dx w * dy w) := by
  have hv : x.value * y.value = dx w0 * dy w0 := by rw [hx.1, hy.1]
  unfold mulAD
  dsimp only
  by_cases vx : r.var x = true
  · rw [if_pos vx]
    by_cases vy : r.var y = true
    · rw [if_pos vy]
      exact step_vv hr hx hy vx vy _ (.mulvv x.taddr y.taddr) (fun a b => a * b) (fun _ => rfl) rfl rfl rfl (fun _ => rfl)
        (fun _ => rfl) hv
    · rw [if_neg vy]
      by_cases h : (!r.dyn y && decide (y.value = 0)) = true
      · rw [if_pos h]
        obtain ⟨h1, h2⟩ := not_dyn_val h
        exact Step.here hr (.const _ (con_ne hr _) fun w => by rw [hy.of_con vy h1, h2, mul_zero]; rfl)
      · rw [if_neg h]
        by_cases h : (!r.dyn y && decide (y.value = 1)) = true
        · rw [if_pos h]
          obtain ⟨h1, h2⟩ := not_dyn_val h
          exact Step.here hr (hx.likeVar vx (fun w => by rw [hy.of_con vy h1, h2, mul_one]) hv)
        · rw [if_neg h]
          exact step_pv hr hy hx vy vx (fun p => .mulpv p x.taddr) (fun a => .mulpv a x.taddr) (fun a b => a * b)
            (fun _ _ => rfl) (fun _ _ => rfl) (fun _ => rfl) (fun _ => rfl) (fun _ _ _ => rfl) (fun _ => mul_comm _ _) hv
  · rw [if_neg vx]
    by_cases vy : r.var y = true
    · rw [if_pos vy]
      by_cases h : (!r.dyn x && decide (x.value = 0)) = true
      · rw [if_pos h]
        obtain ⟨h1, h2⟩ := not_dyn_val h
        exact Step.here hr (.const _ (con_ne hr _) fun w => by rw [hx.of_con vx h1, h2, zero_mul]; rfl)
      · rw [if_neg h]
        by_cases h : (!r.dyn x && decide (x.value = 1)) = true
        · rw [if_pos h]
          obtain ⟨h1, h2⟩ := not_dyn_val h
          exact Step.here hr (hy.likeVar vy (fun w => by rw [hx.of_con vx h1, h2, one_mul]) hv)
        · rw [if_neg h]
          exact step_pv hr hx hy vx vy (fun p => .mulpv p y.taddr) (fun a => .mulpv a y.taddr) (fun a b => a * b)
            (fun _ _ => rfl) (fun _ _ => rfl) (fun _ => rfl) (fun _ => rfl) (fun _ _ _ => rfl) (fun _ => rfl) hv
    · rw [if_neg vy]
      by_cases hd : (r.dyn x || r.dyn y) = true
      · rw [if_pos hd]
        by_cases h : (!r.dyn x && decide (x.value = 0)) = true
        · rw [if_pos h]
          obtain ⟨h1, h2⟩ := not_dyn_val h
          exact Step.here hr (.const _ (con_ne hr _) fun w => by rw [hx.of_con vx h1, h2, zero_mul]; rfl)
        · rw [if_neg h]
          by_cases h : (!r.dyn y && decide (y.value = 0)) = true
          · rw [if_pos h]
            obtain ⟨h1, h2⟩ := not_dyn_val h
            exact Step.here hr (.const _ (con_ne hr _) fun w => by rw [hy.of_con vy h1, h2, mul_zero]; rfl)
          · rw [if_neg h]
            by_cases h : (!r.dyn x && decide (x.value = 1)) = true
            · rw [if_pos h]
              obtain ⟨h1, h2⟩ := not_dyn_val h
              exact Step.here hr (hy.likeDyn (dyn_of_or hd h1) (fun w => by rw [hx.of_con vx h1, h2, one_mul]) hv)
            · rw [if_neg h]
              by_cases h : (!r.dyn y && decide (y.value = 1)) = true
              · rw [if_pos h]
                obtain ⟨h1, h2⟩ := not_dyn_val h
                exact Step.here hr (hx.likeDyn (dyn_of_or' hd h1) (fun w => by rw [hy.of_con vy h1, h2, mul_one]) hv)
              · rw [if_neg h]
                exact step_dynBin hr hx hy vx vy .mul (fun _ => rfl) hv
      · rw [if_neg hd]
        obtain ⟨h1, h2⟩ := not_or_dyn hd
        exact Step.here hr (.const _ (con_ne hr _) fun w => by rw [hx.of_con vx h1, hy.of_con vy h2]; rfl)

theorem divAD_ok (hr : RInv c w0 r) (hx : Den c w0 r x dx) (hy : Den c w0 r y dy) :
    Step c w0 r (divAD c r x y) (fun w => dx w / dy w) := by
  have hv : x.value / y.value = dx w0 / dy w0 := by rw [hx.1, hy.1]
  unfold divAD
  dsimp only
  by_cases vx : r.var x = true
  · rw [if_pos vx]
    by_cases vy : r.var y = true
    · rw [if_pos vy]
      exact step_vv hr hx hy vx vy _ (.divvv x.taddr y.taddr) (fun a b => a / b) (fun _ => rfl) rfl rfl rfl (fun _ => rfl)
        (fun _ => rfl) hv
    · rw [if_neg vy]
      by_cases h : (!r.dyn y && decide (y.value = 1)) = true
      · rw [if_pos h]
        obtain ⟨h1, h2⟩ := not_dyn_val h
        exact Step.here hr (hx.likeVar vx (fun w => by rw [hy.of_con vy h1, h2, div_one]) hv)
      · rw [if_neg h]
        exact step_pv hr hy hx vy vx (fun p => .divvp x.taddr p) (fun a => .divvp x.taddr a) (fun a b => b / a)
          (fun _ _ => rfl) (fun _ _ => rfl) (fun _ => rfl) (fun _ => rfl) (fun _ _ _ => rfl) (fun _ => rfl) hv
  · rw [if_neg vx]
    by_cases vy : r.var y = true
    · rw [if_pos vy]
      by_cases h : (!r.dyn x && decide (x.value = 0)) = true
      · rw [if_pos h]
        obtain ⟨h1, h2⟩ := not_dyn_val h
        exact Step.here hr (.const _ (con_ne hr _) fun w => by rw [hx.of_con vx h1, h2, zero_div]; rfl)
      · rw [if_neg h]
        exact step_pv hr hx hy vx vy (fun p => .divpv p y.taddr) (fun a => .divpv a y.taddr) (fun a b => a / b)
          (fun _ _ => rfl) (fun _ _ => rfl) (fun _ => rfl) (fun _ => rfl) (fun _ _ _ => rfl) (fun _ => rfl) hv
    · rw [if_neg vy]
      by_cases hd : (r.dyn x || r.dyn y) = true
      · rw [if_pos hd]
        by_cases h : (!r.dyn x && decide (x.value = 0)) = true
        · rw [if_pos h]
          obtain ⟨h1, h2⟩ := not_dyn_val h
          exact Step.here hr (.const _ (con_ne hr _) fun w => by rw [hx.of_con vx h1, h2, zero_div]; rfl)
        · rw [if_neg h]
          by_cases h : (!r.dyn y && decide (y.value = 1)) = true
          · rw [if_pos h]
            obtain ⟨h1, h2⟩ := not_dyn_val h
            exact Step.here hr (hx.likeDyn (dyn_of_or' hd h1) (fun w => by rw [hy.of_con vy h1, h2, div_one]) hv)
          · rw [if_neg h]
            exact step_dynBin hr hx hy vx vy .div (fun _ => rfl) hv
      · rw [if_neg hd]
        obtain ⟨h1, h2⟩ := not_or_dyn hd
        exact Step.here hr (.const _ (con_ne hr _) fun w => by rw [hx.of_con vx h1, hy.of_con vy h2]; rfl)

/-- absolute zero multiplication of reals is multiplication -/
theorem azmul_eq (a b : ℝ) : BinF.azmul.fn a b = a * b := by
  unfold BinF.fn
  dsimp only
  split_ifs with h
  · rw [h, zero_mul]
  · rfl

theorem azmulAD_ok (hr : RInv c w0 r) (hx : Den c w0 r x dx) (hy : Den c w0 r y dy) :
    Step c w0 r (azmulAD c r x y) (fun w => BinF.azmul.fn (dx w) (dy w)) := by
  have hv : BinF.azmul.fn x.value y.value = BinF.azmul.fn (dx w0) (dy w0) := by rw [hx.1, hy.1]
  unfold azmulAD
  dsimp only
  by_cases vx : r.var x = true
  · rw [if_pos vx]
    by_cases vy : r.var y = true
    · rw [if_pos vy]
      exact step_vv hr hx hy vx vy _ (.zmulvv x.taddr y.taddr) (fun a b => a * b) (fun _ => rfl) rfl rfl rfl
        (fun _ => rfl) (fun _ => azmul_eq _ _) hv
    · rw [if_neg vy]
      by_cases h : (!r.dyn y && decide (y.value = 0)) = true
      · rw [if_pos h]
        obtain ⟨h1, h2⟩ := not_dyn_val h
        exact Step.here hr (.const _ (con_ne hr _) fun w => by
          show _ = BinF.azmul.fn x.value y.value
          rw [hy.of_con vy h1, h2]; simp [azmul_eq])
      · rw [if_neg h]
        by_cases h : (!r.dyn y && decide (y.value = 1)) = true
        · rw [if_pos h]
          obtain ⟨h1, h2⟩ := not_dyn_val h
          exact Step.here hr (hx.likeVar vx (fun w => by rw [hy.of_con vy h1, h2, azmul_eq, mul_one]) hv)
        · rw [if_neg h]
          exact step_pv hr hy hx vy vx (fun p => .zmulvp x.taddr p) (fun a => .zmulvp x.taddr a) (fun a b => b * a)
            (fun _ _ => rfl) (fun _ _ => rfl) (fun _ => rfl) (fun _ => rfl) (fun _ _ _ => rfl)
            (fun _ => by simp only [azmul_eq]) hv
  · rw [if_neg vx]
    by_cases vy : r.var y = true
    · rw [if_pos vy]
      by_cases h : (!r.dyn x && decide (x.value = 0)) = true
      · rw [if_pos h]
        obtain ⟨h1, h2⟩ := not_dyn_val h
        exact Step.here hr (.const _ (con_ne hr _) fun w => by
          show _ = BinF.azmul.fn x.value y.value
          rw [hx.of_con vx h1, h2]; simp [azmul_eq])
      · rw [if_neg h]
        by_cases h : (!r.dyn x && decide (x.value = 1)) = true
        · rw [if_pos h]
          obtain ⟨h1, h2⟩ := not_dyn_val h
          exact Step.here hr (hy.likeVar vy (fun w => by rw [hx.of_con vx h1, h2, azmul_eq, one_mul]) hv)
        · rw [if_neg h]
          exact step_pv hr hx hy vx vy (fun p => .zmulpv p y.taddr) (fun a => .zmulpv a y.taddr) (fun a b => a * b)
            (fun _ _ => rfl) (fun _ _ => rfl) (fun _ => rfl) (fun _ => rfl) (fun _ _ _ => rfl) (fun _ => azmul_eq _ _) hv
    · rw [if_neg vy]
      by_cases hd : (r.dyn x || r.dyn y) = true
      · rw [if_pos hd]
        by_cases h : (!r.dyn x && decide (x.value = 0)) = true
        · rw [if_pos h]
          obtain ⟨h1, h2⟩ := not_dyn_val h
          exact Step.here hr (.const _ (con_ne hr _) fun w => by
            show _ = BinF.azmul.fn x.value y.value
            rw [hx.of_con vx h1, h2]; simp [azmul_eq])
        · rw [if_neg h]
          by_cases h : (!r.dyn y && decide (y.value = 0)) = true
          · rw [if_pos h]
            obtain ⟨h1, h2⟩ := not_dyn_val h
            exact Step.here hr (.const _ (con_ne hr _) fun w => by
              show _ = BinF.azmul.fn x.value y.value
              rw [hy.of_con vy h1, h2]; simp [azmul_eq])
          · rw [if_neg h]
            by_cases h : (!r.dyn x && decide (x.value = 1)) = true
            · rw [if_pos h]
              obtain ⟨h1, h2⟩ := not_dyn_val h
              exact Step.here hr (hy.likeDyn (dyn_of_or hd h1) (fun w => by rw [hx.of_con vx h1, h2, azmul_eq, one_mul]) hv)
            · rw [if_neg h]
              by_cases h : (!r.dyn y && decide (y.value = 1)) = true
              · rw [if_pos h]
                obtain ⟨h1, h2⟩ := not_dyn_val h
                exact Step.here hr (hx.likeDyn (dyn_of_or' hd h1)
                  (fun w => by rw [hy.of_con vy h1, h2, azmul_eq, mul_one]) hv)
              · rw [if_neg h]
                exact step_dynBin hr hx hy vx vy .azmul (fun _ => rfl) hv
      · rw [if_neg hd]
        obtain ⟨h1, h2⟩ := not_or_dyn hd
        exact Step.here hr (.const _ (con_ne hr _) fun w => by rw [hx.of_con vx h1, hy.of_con vy h2]; rfl)

/-- `pow` represents the power, except in the special case `pow(0, y)` with constant zero and non constant `y` -/
theorem powAD_ok (hr : RInv c w0 r) (hx : Den c w0 r x dx) (hy : Den c w0 r y dy)
    (hf : r.constant x → x.value = 0 → r.constant y) :
    Step c w0 r (powAD c r x y) (fun w => dx w ^ dy w) := by
  have hv : x.value ^ y.value = dx w0 ^ dy w0 := by rw [hx.1, hy.1]
  have hconst : ¬ r.var x = true → r.dyn x = false → x.value = 0 → r.var y = true ∨ r.dyn y = true → False := by
    intro h1 h2 h3 h4
    have h5 := hf (by have := tapeId_ne h1 h2; simpa [Rec.constant] using this) h3
    simp only [Rec.constant, Bool.not_eq_eq_eq_not, Bool.not_true, decide_eq_false_iff_not] at h5
    rcases h4 with h4 | h4
    · simp only [Rec.var, Bool.and_eq_true, decide_eq_true_eq] at h4; exact h5 h4.1
    · simp only [Rec.dyn, Bool.and_eq_true, decide_eq_true_eq] at h4; exact h5 h4.1
  unfold powAD
  dsimp only
  by_cases vx : r.var x = true
  · rw [if_pos vx]
    by_cases vy : r.var y = true
    · rw [if_pos vy]
      exact step_vv hr hx hy vx vy _ (.powvv x.taddr y.taddr) (fun a b => a ^ b) (fun _ => rfl) rfl rfl rfl
        (fun _ => by simp [Op.val, ROp.nres]) (fun _ => rfl) hv
    · rw [if_neg vy]
      by_cases h : (!r.dyn y && decide (y.value = 0)) = true
      · rw [if_pos h]
        obtain ⟨h1, h2⟩ := not_dyn_val h
        exact Step.here hr (.const _ (con_ne hr _) fun w => by
          show _ = x.value ^ y.value
          rw [hy.of_con vy h1, h2, Real.rpow_zero, Real.rpow_zero])
      · rw [if_neg h]
        exact step_pv hr hy hx vy vx (fun p => .powvp x.taddr p) (fun a => .powvp x.taddr a) (fun a b => b ^ a)
          (fun _ _ => rfl) (fun _ _ => rfl) (fun _ => rfl) (fun _ => rfl) (fun _ _ _ => rfl) (fun _ => rfl) hv
  · rw [if_neg vx]
    by_cases vy : r.var y = true
    · rw [if_pos vy]
      by_cases h : (!r.dyn x && decide (x.value = 0)) = true
      · obtain ⟨h1, h2⟩ := not_dyn_val h
        exact (hconst vx h1 h2 (Or.inl vy)).elim
      · rw [if_neg h]
        exact step_pv hr hx hy vx vy (fun p => .powpv p y.taddr) (fun a => .powpv a y.taddr) (fun a b => a ^ b)
          (fun _ _ => rfl) (fun _ _ => rfl) (fun _ => rfl) (fun _ => rfl) (fun _ _ _ => by simp [Op.val, ROp.nres])
          (fun _ => rfl) hv
    · rw [if_neg vy]
      by_cases hd : (r.dyn x || r.dyn y) = true
      · rw [if_pos hd]
        by_cases h : (!r.dyn x && decide (x.value = 0)) = true
        · obtain ⟨h1, h2⟩ := not_dyn_val h
          exact (hconst vx h1 h2 (Or.inr (dyn_of_or hd h1))).elim
        · rw [if_neg h]
          by_cases h : (!r.dyn y && decide (y.value = 0)) = true
          · rw [if_pos h]
            obtain ⟨h1, h2⟩ := not_dyn_val h
            exact Step.here hr (.const _ (con_ne hr _) fun w => by
              show _ = x.value ^ y.value
              rw [hy.of_con vy h1, h2, Real.rpow_zero, Real.rpow_zero])
          · rw [if_neg h]
            exact step_dynBin hr hx hy vx vy .pow (fun _ => rfl) hv
      · rw [if_neg hd]
        obtain ⟨h1, h2⟩ := not_or_dyn hd
        exact Step.here hr (.const _ (con_ne hr _) fun w => by rw [hx.of_con vx h1, hy.of_con vy h2]; rfl)

theorem addEqAD_ok (hr : RInv c w0 r) (hx : Den c w0 r x dx) (hy : Den c w0 r y dy) :
    Step c w0 r (addEqAD c r x y) (fun w => dx w + dy w) := by
  have hv : x.value + y.value = dx w0 + dy w0 := by rw [hx.1, hy.1]
  unfold addEqAD
  dsimp only
  by_cases vx : r.var x = true
  · rw [if_pos vx]
    by_cases vy : r.var y = true
    · rw [if_pos vy]
      exact step_vv hr hx hy vx vy _ (.addvv x.taddr y.taddr) (fun a b => a + b) (fun _ => rfl) rfl rfl rfl (fun _ => rfl)
        (fun _ => rfl) hv
    · rw [if_neg vy]
      by_cases h : (r.dyn y || !decide (y.value = 0)) = true
      · rw [if_pos h]
        exact step_pv hr hy hx vy vx (fun p => .addpv p x.taddr) (fun a => .addpv a x.taddr) (fun a b => a + b)
          (fun _ _ => rfl) (fun _ _ => rfl) (fun _ => rfl) (fun _ => rfl) (fun _ _ _ => rfl) (fun _ => add_comm _ _) hv
      · rw [if_neg h]
        have h' : r.dyn y = false ∧ y.value = 0 := by simpa using h
        exact Step.here hr (hx.same (fun w => by rw [hy.of_con vy h'.1, h'.2, add_zero]) hv)
  · rw [if_neg vx]
    by_cases vy : r.var y = true
    · rw [if_pos vy]
      by_cases h : (!r.dyn x && decide (x.value = 0)) = true
      · rw [if_pos h]
        obtain ⟨h1, h2⟩ := not_dyn_val h
        exact Step.here hr (hy.likeVar vy (fun w => by rw [hx.of_con vx h1, h2, zero_add]) hv)
      · rw [if_neg h]
        exact step_pv hr hx hy vx vy (fun p => .addpv p y.taddr) (fun a => .addpv a y.taddr) (fun a b => a + b)
          (fun _ _ => rfl) (fun _ _ => rfl) (fun _ => rfl) (fun _ => rfl) (fun _ _ _ => rfl) (fun _ => rfl) hv
    · rw [if_neg vy]
      by_cases hd : (r.dyn x || r.dyn y) = true
      · rw [if_pos hd]
        by_cases h : (!r.dyn y && decide (y.value = 0)) = true
        · rw [if_pos h]
          obtain ⟨h1, h2⟩ := not_dyn_val h
          exact Step.here hr (hx.same (fun w => by rw [hy.of_con vy h1, h2, add_zero]) hv)
        · rw [if_neg h]
          by_cases h : (!r.dyn x && decide (x.value = 0)) = true
          · rw [if_pos h]
            obtain ⟨h1, h2⟩ := not_dyn_val h
            exact Step.here hr (hy.likeDyn (dyn_of_or hd h1) (fun w => by rw [hx.of_con vx h1, h2, zero_add]) hv)
          · rw [if_neg h]
            exact step_dynBin hr hx hy vx vy .add (fun _ => rfl) hv
      · rw [if_neg hd]
        obtain ⟨h1, h2⟩ := not_or_dyn hd
        exact Step.here hr (Den.keep (tapeId_ne vx h1) fun w => by rw [hx.of_con vx h1, hy.of_con vy h2])

theorem subEqAD_ok (hr : RInv c w0 r) (hx : Den c w0 r x dx) (hy : Den c w0 r y dy) :
    Step c w0 r (subEqAD c r x y) (fun w => dx w - dy w) := by
  have hv : x.value - y.value = dx w0 - dy w0 := by rw [hx.1, hy.1]
  unfold subEqAD
  dsimp only
  by_cases vx : r.var x = true
  · rw [if_pos vx]
    by_cases vy : r.var y = true
    · rw [if_pos vy]
      exact step_vv hr hx hy vx vy _ (.subvv x.taddr y.taddr) (fun a b => a - b) (fun _ => rfl) rfl rfl rfl (fun _ => rfl)
        (fun _ => rfl) hv
    · rw [if_neg vy]
      by_cases h : (!r.dyn y && decide (y.value = 0)) = true
      · rw [if_pos h]
        obtain ⟨h1, h2⟩ := not_dyn_val h
        exact Step.here hr (hx.same (fun w => by rw [hy.of_con vy h1, h2, sub_zero]) hv)
      · rw [if_neg h]
        exact step_pv hr hy hx vy vx (fun p => .subvp x.taddr p) (fun a => .subvp x.taddr a) (fun a b => b - a)
          (fun _ _ => rfl) (fun _ _ => rfl) (fun _ => rfl) (fun _ => rfl) (fun _ _ _ => rfl) (fun _ => rfl) hv
  · rw [if_neg vx]
    by_cases vy : r.var y = true
    · rw [if_pos vy]
      exact step_pv hr hx hy vx vy (fun p => .subpv p y.taddr) (fun a => .subpv a y.taddr) (fun a b => a - b)
          (fun _ _ => rfl) (fun _ _ => rfl) (fun _ => rfl) (fun _ => rfl) (fun _ _ _ => rfl) (fun _ => rfl) hv
    · rw [if_neg vy]
      by_cases hd : (r.dyn x || r.dyn y) = true
      · rw [if_pos hd]
        by_cases h : (!r.dyn y && decide (y.value = 0)) = true
        · rw [if_pos h]
          obtain ⟨h1, h2⟩ := not_dyn_val h
          exact Step.here hr (hx.same (fun w => by rw [hy.of_con vy h1, h2, sub_zero]) hv)
        · rw [if_neg h]
          exact step_dynBin hr hx hy vx vy .sub (fun _ => rfl) hv
      · rw [if_neg hd]
        obtain ⟨h1, h2⟩ := not_or_dyn hd
        exact Step.here hr (Den.keep (tapeId_ne vx h1) fun w => by rw [hx.of_con vx h1, hy.of_con vy h2])

theorem mulEqAD_ok (hr : RInv c w0 r) (hx : Den c w0 r x dx) (hy : Den c w0 r y dy) :
    Step c w0 r (mulEqAD c r x y) (fun w => dx w * dy w) := by
  have hv : x.value * y.value = dx w0 * dy w0 := by rw [hx.1, hy.1]
  have hid : (0 : ℕ) ≠ r.id := by have := hr.id; omega
  unfold mulEqAD
  dsimp only
  by_cases vx : r.var x = true
  · rw [if_pos vx]
    by_cases vy : r.var y = true
    · rw [if_pos vy]
      exact step_vv hr hx hy vx vy _ (.mulvv x.taddr y.taddr) (fun a b => a * b) (fun _ => rfl) rfl rfl rfl (fun _ => rfl)
        (fun _ => rfl) hv
    · rw [if_neg vy]
      by_cases h : (!r.dyn y && decide (y.value = 1)) = true
      · rw [if_pos h]
        obtain ⟨h1, h2⟩ := not_dyn_val h
        exact Step.here hr (hx.same (fun w => by rw [hy.of_con vy h1, h2, mul_one]) hv)
      · rw [if_neg h]
        by_cases h : (!r.dyn y && decide (y.value = 0)) = true
        · rw [if_pos h]
          obtain ⟨h1, h2⟩ := not_dyn_val h
          exact Step.here hr (.const _ hid fun w => by
            show _ = x.value * y.value
            rw [hy.of_con vy h1, h2, mul_zero, mul_zero])
        · rw [if_neg h]
          exact step_pv hr hy hx vy vx (fun p => .mulpv p x.taddr) (fun a => .mulpv a x.taddr) (fun a b => a * b)
            (fun _ _ => rfl) (fun _ _ => rfl) (fun _ => rfl) (fun _ => rfl) (fun _ _ _ => rfl) (fun _ => mul_comm _ _) hv
  · rw [if_neg vx]
    by_cases vy : r.var y = true
    · rw [if_pos vy]
      by_cases h : (!r.dyn x && decide (x.value = 0)) = true
      · rw [if_pos h]
        obtain ⟨h1, h2⟩ := not_dyn_val h
        exact Step.here hr (Den.keep (tapeId_ne vx h1) fun w => by
          show _ = x.value * y.value
          rw [hx.of_con vx h1, h2, zero_mul, zero_mul])
      · rw [if_neg h]
        by_cases h : (!r.dyn x && decide (x.value = 1)) = true
        · rw [if_pos h]
          obtain ⟨h1, h2⟩ := not_dyn_val h
          exact Step.here hr (hy.likeVar vy (fun w => by rw [hx.of_con vx h1, h2, one_mul]) hv)
        · rw [if_neg h]
          exact step_pv hr hx hy vx vy (fun p => .mulpv p y.taddr) (fun a => .mulpv a y.taddr) (fun a b => a * b)
            (fun _ _ => rfl) (fun _ _ => rfl) (fun _ => rfl) (fun _ => rfl) (fun _ _ _ => rfl) (fun _ => rfl) hv
    · rw [if_neg vy]
      by_cases hd : (r.dyn x || r.dyn y) = true
      · rw [if_pos hd]
        by_cases h : (!r.dyn y && decide (y.value = 1)) = true
        · rw [if_pos h]
          obtain ⟨h1, h2⟩ := not_dyn_val h
          exact Step.here hr (hx.same (fun w => by rw [hy.of_con vy h1, h2, mul_one]) hv)
        · rw [if_neg h]
          by_cases h : (!r.dyn y && decide (y.value = 0)) = true
          · rw [if_pos h]
            obtain ⟨h1, h2⟩ := not_dyn_val h
            exact Step.here hr (.const _ hid fun w => by
              show _ = x.value * y.value
              rw [hy.of_con vy h1, h2, mul_zero, mul_zero])
          · rw [if_neg h]
            by_cases h : (!r.dyn x && decide (x.value = 1)) = true
            · rw [if_pos h]
              obtain ⟨h1, h2⟩ := not_dyn_val h
              exact Step.here hr (hy.likeDyn (dyn_of_or hd h1) (fun w => by rw [hx.of_con vx h1, h2, one_mul]) hv)
            · rw [if_neg h]
              by_cases h : (!r.dyn x && decide (x.value = 0)) = true
              · rw [if_pos h]
                obtain ⟨h1, h2⟩ := not_dyn_val h
                exact Step.here hr (Den.keep (tapeId_ne vx h1) fun w => by
                  show _ = x.value * y.value
                  rw [hx.of_con vx h1, h2, zero_mul, zero_mul])
              · rw [if_neg h]
                exact step_dynBin hr hx hy vx vy .mul (fun _ => rfl) hv
      · rw [if_neg hd]
        obtain ⟨h1, h2⟩ := not_or_dyn hd
        exact Step.here hr (Den.keep (tapeId_ne vx h1) fun w => by rw [hx.of_con vx h1, hy.of_con vy h2])

theorem divEqAD_ok (hr : RInv c w0 r) (hx : Den c w0 r x dx) (hy : Den c w0 r y dy) :
    Step c w0 r (divEqAD c r x y) (fun w => dx w / dy w) := by
  have hv : x.value / y.value = dx w0 / dy w0 := by rw [hx.1, hy.1]
  unfold divEqAD
  dsimp only
  by_cases vx : r.var x = true
  · rw [if_pos vx]
    by_cases vy : r.var y = true
    · rw [if_pos vy]
      exact step_vv hr hx hy vx vy _ (.divvv x.taddr y.taddr) (fun a b => a / b) (fun _ => rfl) rfl rfl rfl (fun _ => rfl)
        (fun _ => rfl) hv
    · rw [if_neg vy]
      by_cases h : (!r.dyn y && decide (y.value = 1)) = true
      · rw [if_pos h]
        obtain ⟨h1, h2⟩ := not_dyn_val h
        exact Step.here hr (hx.same (fun w => by rw [hy.of_con vy h1, h2, div_one]) hv)
      · rw [if_neg h]
        exact step_pv hr hy hx vy vx (fun p => .divvp x.taddr p) (fun a => .divvp x.taddr a) (fun a b => b / a)
          (fun _ _ => rfl) (fun _ _ => rfl) (fun _ => rfl) (fun _ => rfl) (fun _ _ _ => rfl) (fun _ => rfl) hv
  · rw [if_neg vx]
    by_cases vy : r.var y = true
    · rw [if_pos vy]
      by_cases h : (!r.dyn x && decide (x.value = 0)) = true
      · rw [if_pos h]
        obtain ⟨h1, h2⟩ := not_dyn_val h
        exact Step.here hr (Den.keep (tapeId_ne vx h1) fun w => by
          show _ = x.value / y.value
          rw [hx.of_con vx h1, h2, zero_div, zero_div])
      · rw [if_neg h]
        exact step_pv hr hx hy vx vy (fun p => .divpv p y.taddr) (fun a => .divpv a y.taddr) (fun a b => a / b)
          (fun _ _ => rfl) (fun _ _ => rfl) (fun _ => rfl) (fun _ => rfl) (fun _ _ _ => rfl) (fun _ => rfl) hv
    · rw [if_neg vy]
      by_cases hd : (r.dyn x || r.dyn y) = true
      · rw [if_pos hd]
        by_cases h : (!r.dyn y && decide (y.value = 1)) = true
        · rw [if_pos h]
          obtain ⟨h1, h2⟩ := not_dyn_val h
          exact Step.here hr (hx.same (fun w => by rw [hy.of_con vy h1, h2, div_one]) hv)
        · rw [if_neg h]
          by_cases h : (!r.dyn x && decide (x.value = 0)) = true
          · rw [if_pos h]
            obtain ⟨h1, h2⟩ := not_dyn_val h
            exact Step.here hr (Den.keep (tapeId_ne vx h1) fun w => by
              show _ = x.value / y.value
              rw [hx.of_con vx h1, h2, zero_div, zero_div])
          · rw [if_neg h]
            exact step_dynBin hr hx hy vx vy .div (fun _ => rfl) hv
      · rw [if_neg hd]
        obtain ⟨h1, h2⟩ := not_or_dyn hd
        exact Step.here hr (Den.keep (tapeId_ne vx h1) fun w => by rw [hx.of_con vx h1, hy.of_con vy h2])

/-! ## Unary functions, discrete functions -/

theorem UnF.val_eq (f : UnF) (ix : ℕ) (e : ℕ → ℝ) : (f.op ix).val e ((f.op ix).nres - 1) = f.fn (e ix) := by
  cases f <;> simp [UnF.op, UnF.fn, Op.val, Op.nres, erfVal]

theorem UnF.nres_eq (f : UnF) (ix : ℕ) : (f.op ix).nres = (f.op 0).nres := by cases f <;> rfl
theorem UnF.args_eq (f : UnF) (ix : ℕ) : (f.op ix).args = [ix] := by cases f <;> rfl

theorem unAD_ok (hr : RInv c w0 r) (f : UnF) (hx : Den c w0 r x dx) :
    Step c w0 r (unAD r f x) (fun w => f.fn (dx w)) := by
  have hv : f.fn x.value = f.fn (dx w0) := by rw [hx.1]
  unfold unAD
  dsimp only
  have h2 := hx.2
  by_cases h : x.tapeId = r.id
  · rw [if_neg (by simp [h])]
    rw [if_pos h] at h2
    by_cases hd : x.adType = .dynamic
    · rw [if_pos hd]
      rw [if_pos hd] at h2
      refine putDyn_ok hr _ (by simpa [DynOp.args] using h2.1) (fun w => ?_) hv
      show f.fn (at' (r.parList c w) x.taddr) = f.fn (dx w)
      rw [← h2.2 w]; rfl
    · rw [if_neg hd]
      rw [if_neg hd] at h2
      replace h2 := h2.2
      refine putVar_ok hr _ (fun _ => f.op x.taddr) (fun _ => rfl) (fun _ => f.nres_eq _) (by simp [ROp.parArgs]) ?_ ?_ hv
      · intro w a ha
        rw [f.args_eq, List.mem_singleton] at ha
        subst ha; exact (h2 w).1
      · intro w
        show (f.op x.taddr).val (r.env c w) ((f.op 0).nres - 1) = _
        rw [← f.nres_eq x.taddr, f.val_eq, (h2 w).2]
  · rw [if_pos h]
    rw [if_neg h] at h2
    exact Step.here hr (.const _ (con_ne hr _) fun w => by rw [h2]; rfl)

theorem disAD_ok (hr : RInv c w0 r) (k : ℕ) (hx : Den c w0 r x dx) :
    Step c w0 r (disAD c r k x) (fun w => c.disc k (dx w)) := by
  have hv : c.disc k x.value = c.disc k (dx w0) := by rw [hx.1]
  unfold disAD
  dsimp only
  have h2 := hx.2
  by_cases h : x.tapeId = r.id
  · rw [if_neg (by simp [h])]
    rw [if_pos h] at h2
    by_cases hd : x.adType = .dynamic
    · rw [if_pos hd]
      rw [if_pos hd] at h2
      refine putDyn_ok hr _ (by simpa [DynOp.args] using h2.1) (fun w => ?_) hv
      show c.disc k (at' (r.parList c w) x.taddr) = c.disc k (dx w)
      rw [← h2.2 w]; rfl
    · rw [if_neg hd]
      rw [if_neg hd] at h2
      replace h2 := h2.2
      refine putVar_ok hr _ (fun _ => .dis (c.disc k) x.taddr) (fun _ => rfl) (fun _ => rfl) (by simp [ROp.parArgs]) ?_ ?_ hv
      · intro w a ha
        simp only [Op.args, List.mem_singleton] at ha
        subst ha; exact (h2 w).1
      · intro w
        show c.disc k (r.env c w x.taddr) = _
        rw [(h2 w).2]
  · rw [if_pos h]
    rw [if_neg h] at h2
    exact Step.here hr (.const _ (con_ne hr _) fun w => by rw [h2]; rfl)

/-! ## Conditional expressions -/

/-- operand of a conditional expression -/
theorem cexpOpd_ok (hr : RInv c w0 r) (hx : Den c w0 r x dx) (bit : ℕ) :
    RInv c w0 (r.cexpOpd c x bit).1 ∧ Ext c r (r.cexpOpd c x bit).1 ∧
    (((r.cexpOpd c x bit).2.2 = 0 ∧ (r.constant x = true ∨ x.adType = .dynamic) ∧
        (r.cexpOpd c x bit).2.1 < (r.cexpOpd c x bit).1.parAll.length ∧
        ∀ w, (r.cexpOpd c x bit).1.parAt c w (r.cexpOpd c x bit).2.1 = dx w) ∨
     ((r.cexpOpd c x bit).2.2 = bit ∧ ∀ w, (r.cexpOpd c x bit).2.1 ∈ (r.cexpOpd c x bit).1.use c w ∧
        (r.cexpOpd c x bit).1.env c w (r.cexpOpd c x bit).2.1 = dx w)) := by
  have h2 := hx.2
  unfold Rec.cexpOpd
  by_cases h : x.tapeId = r.id
  · have hc : ¬ r.constant x = true := by simp [Rec.constant, h]
    rw [if_neg hc]
    rw [if_pos h] at h2
    by_cases hd : x.adType = .dynamic
    · rw [if_pos hd] at h2
      refine ⟨hr, Ext.refl r, Or.inl ⟨by simp [hd], Or.inr hd, h2⟩⟩
    · rw [if_neg hd] at h2
      exact ⟨hr, Ext.refl r, Or.inr ⟨by simp [hd], h2.2⟩⟩
  · have hc : r.constant x = true := by simp [Rec.constant, h]
    rw [if_pos hc]
    rw [if_neg h] at h2
    obtain ⟨h3, h4, h5, h6, -⟩ := putCon_ok (c := c) hr x.value
    exact ⟨h3, h4, Or.inl ⟨rfl, Or.inl hc, h5, fun w => by rw [h6, h2]⟩⟩

/-- what a later recorder knows about an operand of a conditional expression -/
def OpdOk (c : Cfg) (s : Rec) (bit addr b : ℕ) (d : World → ℝ) : Prop :=
  (b = 0 ∧ addr < s.parAll.length ∧ ∀ w, s.parAt c w addr = d w) ∨
  (b = bit ∧ ∀ w, addr ∈ s.use c w ∧ s.env c w addr = d w)

theorem OpdOk.mono {s t : Rec} {bit addr b : ℕ} {d : World → ℝ} (h : OpdOk c s bit addr b d) (e : Ext c s t) :
    OpdOk c t bit addr b d := by
  rcases h with ⟨h1, h2, h3⟩ | ⟨h1, h2⟩
  · exact Or.inl ⟨h1, lt_of_lt_of_le h2 e.len, fun w => (e.par w _ h2).trans (h3 w)⟩
  · exact Or.inr ⟨h1, fun w => ⟨(e.env w _ (h2 w).1).1, (e.env w _ (h2 w).1).2.trans (h2 w).2⟩⟩

/-- an operand as seen by the sweeps -/
theorem opd_val {s : Rec} {i addr b flag : ℕ} {d : World → ℝ} (h : OpdOk c s (2 ^ i) addr b d)
    (hf : flag.testBit i = decide (b ≠ 0)) (w : World) :
    (cexpArg flag i addr (s.parAt c w)).val (s.env c w) = d w ∧
    (∀ a, cexpArg flag i addr (s.parAt c w) = .var a → a ∈ s.use c w) ∧
    (flag.testBit i = false → addr < s.parAll.length) := by
  have hpos : 0 < 2 ^ i := Nat.two_pow_pos i
  unfold cexpArg
  rcases h with ⟨h1, h2, h3⟩ | ⟨h1, h2⟩
  · have : flag.testBit i = false := by simp [hf, h1]
    rw [this]
    refine ⟨h3 w, ?_, fun _ => h2⟩
    intro a ha; simp at ha
  · have : flag.testBit i = true := by rw [hf]; simp; omega
    rw [this]
    refine ⟨(h2 w).2, ?_, by simp⟩
    intro a ha
    simp only [if_pos, Opd.var.injEq] at ha
    subst ha; exact (h2 w).1

theorem mem_cexpArgs {l r t f : Opd} {a : ℕ} (h : a ∈ cexpArgs l r t f) :
    l = .var a ∨ r = .var a ∨ t = .var a ∨ f = .var a := by
  unfold cexpArgs at h
  cases l <;> cases r <;> cases t <;> cases f <;> simp_all [Opd.vars] <;> tauto

/-- CondExpOp represents the conditional expression, except when left and right are constants and a branch is not -/
theorem cexpAD_ok (hr : RInv c w0 r) (cop : CompareOp) {l rt t f : AD} {dl dr dt df : World → ℝ} (hl : Den c w0 r l dl)
    (hrt : Den c w0 r rt dr) (ht : Den c w0 r t dt) (hf : Den c w0 r f df)
    (hfaith : r.constant l → r.constant rt → r.constant t ∧ r.constant f) :
    Step c w0 r (cexpAD c r cop l rt t f) (fun w => condExp cop (dl w) (dr w) (dt w) (df w)) := by
  have hv : condExp cop l.value rt.value t.value f.value = condExp cop (dl w0) (dr w0) (dt w0) (df w0) := by
    rw [hl.1, hrt.1, ht.1, hf.1]
  have con : ∀ {a : AD} {d : World → ℝ}, Den c w0 r a d → r.constant a = true → ∀ w, d w = a.value := by
    intro a d h hc
    have h2 := h.2
    rwa [if_neg (by simpa [Rec.constant] using hc)] at h2
  unfold cexpAD
  dsimp only
  by_cases h : (r.constant l && r.constant rt) = true
  · rw [if_pos h]
    rw [Bool.and_eq_true] at h
    obtain ⟨h3, h4⟩ := hfaith h.1 h.2
    exact Step.here hr (.const _ (con_ne hr _) fun w => by
      rw [con hl h.1, con hrt h.2, con ht h3, con hf h4]; rfl)
  · rw [if_neg h]
    obtain ⟨r1, e1, o1⟩ := cexpOpd_ok hr hl 1
    generalize g1 : r.cexpOpd c l 1 = a2 at *
    obtain ⟨r2, e2, o2⟩ := cexpOpd_ok r1 (hrt.mono e1) 2
    generalize g2 : a2.1.cexpOpd c rt 2 = a3 at *
    obtain ⟨r3, e3, o3⟩ := cexpOpd_ok r2 (ht.mono (e1.trans e2)) 4
    generalize g3 : a3.1.cexpOpd c t 4 = a4 at *
    obtain ⟨r4, e4, o4⟩ := cexpOpd_ok r3 (hf.mono ((e1.trans e2).trans e3)) 8
    generalize g4 : a4.1.cexpOpd c f 8 = a5 at *
    have p1 : OpdOk c a5.1 (2 ^ 0) a2.2.1 a2.2.2 dl :=
      OpdOk.mono (s := a2.1) (o1.imp (fun h => ⟨h.1, h.2.2⟩) id) (e2.trans (e3.trans e4))
    have p2 : OpdOk c a5.1 (2 ^ 1) a3.2.1 a3.2.2 dr :=
      OpdOk.mono (s := a3.1) (o2.imp (fun h => ⟨h.1, h.2.2⟩) id) (e3.trans e4)
    have p3 : OpdOk c a5.1 (2 ^ 2) a4.2.1 a4.2.2 dt :=
      OpdOk.mono (s := a4.1) (o3.imp (fun h => ⟨h.1, h.2.2⟩) id) e4
    have p4 : OpdOk c a5.1 (2 ^ 3) a5.2.1 a5.2.2 df := o4.imp (fun h => ⟨h.1, h.2.2⟩) id
    refine Step.after (e1.trans (e2.trans (e3.trans e4))) ?_
    by_cases hz : a2.2.2 + a3.2.2 + a4.2.2 + a5.2.2 = 0
    · rw [if_pos hz]
      have q1 : a2.2.1 < a5.1.parAll.length ∧ ∀ w, a5.1.parAt c w a2.2.1 = dl w := by
        rcases p1 with p | p
        · exact p.2
        · have := p.1; omega
      have q2 : a3.2.1 < a5.1.parAll.length ∧ ∀ w, a5.1.parAt c w a3.2.1 = dr w := by
        rcases p2 with p | p
        · exact p.2
        · have := p.1; omega
      have q3 : a4.2.1 < a5.1.parAll.length ∧ ∀ w, a5.1.parAt c w a4.2.1 = dt w := by
        rcases p3 with p | p
        · exact p.2
        · have := p.1; omega
      have q4 : a5.2.1 < a5.1.parAll.length ∧ ∀ w, a5.1.parAt c w a5.2.1 = df w := by
        rcases p4 with p | p
        · exact p.2
        · have := p.1; omega
      refine putDyn_ok r4 _ ?_ ?_ hv
      · intro a ha
        simp only [DynOp.args, List.mem_cons, List.not_mem_nil, or_false] at ha
        rcases ha with rfl | rfl | rfl | rfl
        exacts [q1.1, q2.1, q3.1, q4.1]
      · intro w
        show condExp cop (a5.1.parAt c w _) (a5.1.parAt c w _) (a5.1.parAt c w _) (a5.1.parAt c w _) = _
        rw [q1.2, q2.2, q3.2, q4.2]
    · rw [if_neg hz]
      have b1 : a2.2.2 = 0 ∨ a2.2.2 = 1 := p1.imp And.left And.left
      have b2 : a3.2.2 = 0 ∨ a3.2.2 = 2 := p2.imp And.left And.left
      have b3 : a4.2.2 = 0 ∨ a4.2.2 = 4 := p3.imp And.left And.left
      have b4 : a5.2.2 = 0 ∨ a5.2.2 = 8 := p4.imp And.left And.left
      have key : ∀ x y z u : ℕ, (x = 0 ∨ x = 1) → (y = 0 ∨ y = 2) → (z = 0 ∨ z = 4) → (u = 0 ∨ u = 8) →
          (x + y + z + u).testBit 0 = decide (x ≠ 0) ∧ (x + y + z + u).testBit 1 = decide (y ≠ 0) ∧
          (x + y + z + u).testBit 2 = decide (z ≠ 0) ∧ (x + y + z + u).testBit 3 = decide (u ≠ 0) := by
        rintro x y z u (rfl | rfl) (rfl | rfl) (rfl | rfl) (rfl | rfl) <;> decide
      obtain ⟨f1, f2, f3, f4⟩ := key _ _ _ _ b1 b2 b3 b4
      generalize a2.2.2 + a3.2.2 + a4.2.2 + a5.2.2 = flag at *
      have v1 := opd_val p1 f1
      have v2 := opd_val p2 f2
      have v3 := opd_val p3 f3
      have v4 := opd_val p4 f4
      refine putVar_ok r4 _ (fun w => .cexp cop (cexpArg flag 0 a2.2.1 (a5.1.parAt c w))
        (cexpArg flag 1 a3.2.1 (a5.1.parAt c w)) (cexpArg flag 2 a4.2.1 (a5.1.parAt c w))
        (cexpArg flag 3 a5.2.1 (a5.1.parAt c w))) (fun w => rfl) (fun _ => rfl) ?_ ?_ ?_ hv
      · intro a ha
        simp only [ROp.parArgs, List.mem_append] at ha
        rcases ha with ((ha | ha) | ha) | ha
        · split_ifs at ha with hb
          · simp at ha
          · rw [List.mem_singleton] at ha; subst ha; exact (v1 w0).2.2 (by simpa using hb)
        · split_ifs at ha with hb
          · simp at ha
          · rw [List.mem_singleton] at ha; subst ha; exact (v2 w0).2.2 (by simpa using hb)
        · split_ifs at ha with hb
          · simp at ha
          · rw [List.mem_singleton] at ha; subst ha; exact (v3 w0).2.2 (by simpa using hb)
        · split_ifs at ha with hb
          · simp at ha
          · rw [List.mem_singleton] at ha; subst ha; exact (v4 w0).2.2 (by simpa using hb)
      · intro w a ha
        rcases mem_cexpArgs ha with h | h | h | h
        exacts [(v1 w).2.1 a h, (v2 w).2.1 a h, (v3 w).2.1 a h, (v4 w).2.1 a h]
      · intro w
        show condExp cop _ _ _ _ = _
        rw [(v1 w).1, (v2 w).1, (v3 w).1, (v4 w).1]

end CppAD.Record
