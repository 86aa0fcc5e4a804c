import Verif.Taylor.FunModel

/-! # Specification of the functions recorded in an `ADFun` and of its derivatives -/

open scoped ContDiff Topology

namespace CppAD

/-- values of the independent variables as values of the variables `1 .. n` -/
def indEnv (x : ℕ → ℝ) : ℕ → ℝ := fun v => if v = 0 then 0 else x (v - 1)

/-- *Specification*: component `i` of the recorded function `F` at `x` -/
noncomputable def Tape.eval (f : Tape) (x : ℕ → ℝ) (i : ℕ) : ℝ :=
  evalOps f.ops (f.n + 1) (indEnv x) (f.dep.getD i 0)

/-- *Specification*: every operation in the evaluation of `F` at `x` is at a point where it is smooth -/
def Tape.Dom (f : Tape) (x : ℕ → ℝ) : Prop := domOps f.ops (f.n + 1) (indEnv x)

/-- independent variables -/
def Tape.ind (f : Tape) : Set ℕ := {v | 1 ≤ v ∧ v ≤ f.n}

/-- Well formed recordings: there is an independent variable, operands and dependent variables are
independent variables or primary results of previous operations. -/
structure Tape.WF (f : Tape) : Prop where
  n_pos : 0 < f.n
  ops : WFOps f.ops (f.n + 1) f.ind
  dep : ∀ d ∈ f.dep, d ∈ usable f.ops (f.n + 1) f.ind

/-- *Specification*: the curve `X(t)_j = ∑_{l < K} x_j^(l) t^l` -/
noncomputable def curve (K : ℕ) (x : ℕ → ℕ → ℝ) (t : ℝ) (j : ℕ) : ℝ := ∑ l ∈ Finset.range K, x j l * t ^ l

/-- *Specification*: the order `k` Taylor coefficient of `F_i(X(t))` -/
noncomputable def Tape.Y (f : Tape) (K : ℕ) (x : ℕ → ℕ → ℝ) (i k : ℕ) : ℝ :=
  tc (fun t => f.eval (curve K x t) i) k

/-- coefficients of variable `v` -/
noncomputable def Tape.VC (f : Tape) (K : ℕ) (x : ℕ → ℕ → ℝ) (v k : ℕ) : ℝ :=
  tc (fun t => evalOps f.ops (f.n + 1) (indEnv (curve K x t)) v) k

theorem Tape.Y_eq (f : Tape) (K : ℕ) (x : ℕ → ℕ → ℝ) (i k : ℕ) :
    f.Y K x i k = f.VC K x (f.dep.getD i 0) k := rfl

/-! ## basic facts -/

open PowerSeries in
theorem tc_mono (c : ℝ) (l k : ℕ) : tc (fun t => c * t ^ l) k = if k = l then c else 0 := by
  rw [← coeff_T, T_mul contDiffAt_const (Sm_pow l), T_const, T_pow, coeff_C_mul, coeff_X_pow]
  split <;> simp

theorem Sm_curve (K : ℕ) (x : ℕ → ℕ → ℝ) (j : ℕ) : Sm (fun t => curve K x t j) := by
  unfold curve
  exact ContDiffAt.sum fun l _ => contDiffAt_const.mul (Sm_pow l)

theorem tc_curve (K : ℕ) (x : ℕ → ℕ → ℝ) (j k : ℕ) :
    tc (fun t => curve K x t j) k = if k < K then x j k else 0 := by
  induction K with
  | zero => simp [curve, tc]
  | succ K ih =>
    have : (fun t => curve (K + 1) x t j) = fun t => curve K x t j + x j K * t ^ K := by
      funext t; simp [curve, Finset.sum_range_succ]
    rw [this, ← coeff_T, T_add (Sm_curve K x j) (contDiffAt_const.mul (Sm_pow K)), map_add, coeff_T, coeff_T,
      ih, tc_mono]
    by_cases h1 : k < K
    · simp [h1, Nat.lt_succ_of_lt h1, Nat.ne_of_lt h1]
    · by_cases h2 : k = K
      · subst h2; simp
      · have : ¬ k < K + 1 := by omega
        simp [h1, h2, this]

theorem curve_zero (K : ℕ) (x : ℕ → ℕ → ℝ) (j : ℕ) : curve K x 0 j = if 0 < K then x j 0 else 0 := by
  rw [← tc_zero (fun t => curve K x t j), tc_curve]

theorem Sm_indEnv (K : ℕ) (x : ℕ → ℕ → ℝ) (v : ℕ) : Sm (fun t => indEnv (curve K x t) v) := by
  unfold indEnv
  split
  · exact contDiffAt_const
  · exact Sm_curve K x _

theorem tc_indEnv (K : ℕ) (x : ℕ → ℕ → ℝ) (v k : ℕ) :
    tc (fun t => indEnv (curve K x t) v) k = if v = 0 then 0 else if k < K then x (v - 1) k else 0 := by
  unfold indEnv
  split
  · rw [← coeff_T, T_const]; simp
  · exact tc_curve K x _ k

theorem evalOps_congr (ops : List Op) : ∀ nv U (e e' : ℕ → ℝ), (∀ a ∈ U, a < nv) → WFOps ops nv U →
    (∀ v < nv, e v = e' v) → ∀ v < numVar ops nv, evalOps ops nv e v = evalOps ops nv e' v := by
  induction ops with
  | nil => intro nv U e e' _ _ h; exact h
  | cons op ops ih =>
    intro nv U e e' hU hw h
    refine ih _ _ _ _ (U_insert op hU) hw.2 ?_
    intro v hv
    unfold stepEnv
    split
    · exact op.cert.val_congr _ _ (fun a ha => h a (hU a (hw.1 a ha))) _
    · exact h v (by omega)

theorem domOps_congr (ops : List Op) : ∀ nv U (e e' : ℕ → ℝ), (∀ a ∈ U, a < nv) → WFOps ops nv U →
    (∀ v < nv, e v = e' v) → domOps ops nv e → domOps ops nv e' := by
  induction ops with
  | nil => intro nv U e e' _ _ _ _; trivial
  | cons op ops ih =>
    intro nv U e e' hU hw h hd
    refine ⟨op.cert.dom_congr _ _ (fun a ha => h a (hU a (hw.1 a ha))) hd.1, ?_⟩
    refine ih _ _ _ _ (U_insert op hU) hw.2 ?_ hd.2
    intro v hv
    unfold stepEnv
    split
    · exact op.cert.val_congr _ _ (fun a ha => h a (hU a (hw.1 a ha))) _
    · exact h v (by omega)

theorem Tape.ind_lt (f : Tape) : ∀ a ∈ f.ind, a < f.n + 1 := fun a h => by
  have := h.2; omega

theorem Tape.dep_lt {f : Tape} (h : f.WF) {i : ℕ} (hi : i < f.dep.length) : f.dep.getD i 0 < f.numVar := by
  rw [List.getD_eq_getElem _ _ hi]
  exact usable_lt _ _ _ f.ind_lt _ (h.dep _ (List.getElem_mem hi))

theorem Tape.Dom_congr {f : Tape} (h : f.WF) {x x' : ℕ → ℝ} (hx : ∀ j < f.n, x j = x' j) (hd : f.Dom x) :
    f.Dom x' :=
  domOps_congr _ _ _ _ _ f.ind_lt h.ops (fun v hv => by
    unfold indEnv
    split
    · rfl
    · exact hx _ (by omega)) hd

theorem Tape.eval_congr {f : Tape} (h : f.WF) {x x' : ℕ → ℝ} (hx : ∀ j < f.n, x j = x' j) {i : ℕ}
    (hi : i < f.dep.length) : f.eval x i = f.eval x' i :=
  evalOps_congr _ _ _ _ _ f.ind_lt h.ops (fun v hv => by
    unfold indEnv
    split
    · rfl
    · exact hx _ (by omega)) _ (f.dep_lt h hi)

/-- coefficients of variables depend only on the coefficients of the same or lower order -/
theorem Tape.VC_congr {f : Tape} (h : f.WF) {K K' : ℕ} {x x' : ℕ → ℕ → ℝ} {v k : ℕ} (hK : k < K) (hK' : k < K')
    (hd : k = 0 ∨ f.Dom (fun j => x j 0)) (hx : ∀ j < f.n, ∀ l ≤ k, x j l = x' j l)
    (hv : v < f.numVar) : f.VC K x v k = f.VC K' x' v k := by
  have e0 : ∀ u < f.n + 1, indEnv (curve K x 0) u = indEnv (curve K' x' 0) u := by
    intro u hu
    unfold indEnv
    split
    · rfl
    · rw [curve_zero, curve_zero, if_pos (by omega), if_pos (by omega), hx _ (by omega) 0 (by omega)]
  rcases hd with rfl | hd
  · unfold Tape.VC
    rw [tc_zero, tc_zero]
    exact evalOps_congr _ _ _ _ _ f.ind_lt h.ops e0 v hv
  · have d1 : domOps f.ops (f.n + 1) (indEnv (curve K x 0)) :=
      domOps_congr _ _ _ _ _ f.ind_lt h.ops (fun v hv => by
        unfold indEnv
        split
        · rfl
        · rw [curve_zero, if_pos (by omega)]) hd
    refine tc_evalOps_congr k _ _ _ _ _ f.ind_lt h.ops (fun _ _ => Sm_indEnv _ _ _) (fun _ _ => Sm_indEnv _ _ _)
      d1 (domOps_congr _ _ _ _ _ f.ind_lt h.ops e0 d1) ?_ v hv k le_rfl
    intro u hu l hl
    rw [tc_indEnv, tc_indEnv]
    split
    · rfl
    · rw [if_pos (by omega), if_pos (by omega), hx _ (by omega) l hl]

theorem Tape.Dom_curve {f : Tape} (h : f.WF) {K : ℕ} {x : ℕ → ℕ → ℝ} (hK : 0 < K) (hd : f.Dom (fun j => x j 0)) :
    domOps f.ops (f.n + 1) (indEnv (curve K x 0)) :=
  f.Dom_congr h (fun j _ => by rw [curve_zero, if_pos hK]) hd

end CppAD
