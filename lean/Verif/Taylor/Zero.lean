import Verif.Taylor.FunMem

/-! # The any order sweep computes order zero at every point (also where an operation is not smooth) -/

namespace CppAD

theorem forRange_nil {σ : Type*} (s : σ) (f : ℕ → σ → σ) (a : ℕ) : forRange a a s f = s :=
  forRange_of_le le_rfl s f

theorem forRange_one {σ : Type*} (s : σ) (f : ℕ → σ → σ) : forRange 0 1 s f = f 0 s := rfl

/-- the general order function for orders zero to zero agrees with the zero order function -/
theorem Op.fwd00 (op : Op) (nv : ℕ) (s : Tay) (ha : ∀ a ∈ op.args, a < nv) :
    ∀ v < nv + op.nres, op.fwd 0 0 (nv + op.nres - 1) s v 0 = op.fwd0 (nv + op.nres - 1) s v 0 := by
  intro v hv
  cases op with
  | csum c addv subv addp subp => rfl
  | dis fn ix => rfl
  | atom c => rfl
  | cexp cop l r t f => simp [Op.fwd, Op.fwd0, cexpForward, forRange_nil]
  | _ =>
    simp only [Op.args, Op.nres, Op.fwd0, Op.fwd, List.mem_cons, List.not_mem_nil, or_false, forall_eq_or_imp,
      forall_eq] at ha hv ⊢
    simp (disch := omega) [Tay.set_apply, if_pos, if_neg, absForward, acosForward, acoshForward, asinForward, asinhForward,
      asinForwardG, atanForward, atanhForward, atanForwardG, tanForward, tanhForward, tanForwardG, sinForward, cosForward,
      sinhForward, coshForward, trigForward, addvvForward, addpvForward, subvvForward, subpvForward, subvpForward,
      mulvvForward, mulpvForward, divvvForward, divpvForward, divvpForward, zmulvvForward, zmulpvForward, zmulvpForward,
      negForward, erfForward, erfForward0, expForward, expm1Forward, logForward, log1pForward, sqrtForward, signForward,
      parForward, powvvForward, powpvForward, powvpForward, forRange_nil, forRange_one, Tay.add]
    try (split_ifs <;> first | rfl | omega | ring1 | exact sign_mul_self_abs _)

/-- order zero of the general order function -/
theorem Op.fwd_zero (op : Op) (nv q : ℕ) (s : Tay) (ha : ∀ a ∈ op.args, a < nv) :
    ∀ v < nv + op.nres, op.fwd 0 q (nv + op.nres - 1) s v 0 = op.fwd0 (nv + op.nres - 1) s v 0 := by
  intro v hv
  rw [← op.fwd00 nv s ha v hv]
  by_cases h : nv ≤ v
  · obtain ⟨r, rfl⟩ := Nat.exists_eq_add_of_le h
    exact op.cert.fwd_zero nv q s ha r (by omega)
  · rw [op.cert.fwd_frame nv 0 q s (Nat.zero_le q) ha v 0 (by omega), op.cert.fwd_frame nv 0 0 s le_rfl ha v 0 (by omega)]

/-- order zero of the any order sweep, at every point -/
theorem forwardAny_zero (q : ℕ) (ops : List Op) : ∀ nv U (s : Tay), (∀ a ∈ U, a < nv) → WFOps ops nv U →
    ∀ v < numVar ops nv, forwardAny 0 q ops nv s v 0 = evalOps ops nv (fun v => s v 0) v := by
  induction ops with
  | nil => intro nv U s _ _ _ _; rfl
  | cons op ops ih =>
    intro nv U s hU hw v hv
    have ha : ∀ a ∈ op.args, a < nv := fun a h => hU a (hw.1 a h)
    rw [forwardAny, ih _ _ _ (U_insert op hU) hw.2 v hv]
    refine evalOps_congr _ _ _ _ _ (U_insert op hU) hw.2 ?_ v hv
    intro u hu
    rw [op.fwd_zero nv q s ha u hu]
    have h0 := op.fwd0_ok nv s ha
    by_cases h : nv ≤ u ∧ u < nv + op.nres
    · obtain ⟨r, rfl⟩ := Nat.exists_eq_add_of_le h.1
      rw [h0.1 r (by omega), stepEnv_res _ (by omega)]
    · rw [h0.2 u 0 (fun hh => h hh.1), stepEnv, if_neg h]

end CppAD
