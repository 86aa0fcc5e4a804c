import Verif.Taylor.Tape
import Verif.Taylor.Mixed

/-! # Reverse sweep -/

open scoped ContDiff Topology PowerSeries

namespace CppAD

/-- tangents after one operation -/
noncomputable def stepLin (op : Op) (nv : ℕ) (e d : ℕ → ℝ) : ℕ → ℝ :=
  fun v => if nv ≤ v ∧ v < nv + op.nres then op.cert.lin e d (v - nv) else d v

/-- tangents of all variables -/
noncomputable def linOps : List Op → ℕ → (ℕ → ℝ) → (ℕ → ℝ) → ℕ → ℝ
  | [], _, _, d => d
  | op :: ops, nv, e, d => linOps ops (nv + op.nres) (stepEnv op nv e) (stepLin op nv e d)

theorem stepLin_lt {op : Op} {nv v : ℕ} (e d : ℕ → ℝ) (h : v < nv) : stepLin op nv e d v = d v := by
  simp [stepLin, Nat.not_le.mpr h]

theorem stepLin_res {op : Op} {nv r : ℕ} (e d : ℕ → ℝ) (h : r < op.nres) :
    stepLin op nv e d (nv + r) = op.cert.lin e d r := by simp [stepLin, h]

theorem linOps_lt (ops : List Op) : ∀ nv e d v, v < nv → linOps ops nv e d v = d v := by
  induction ops with
  | nil => intro nv e d v _; rfl
  | cons op ops ih =>
    intro nv e d v h
    rw [linOps, ih _ _ _ _ (by omega), stepLin_lt _ _ h]

theorem stepLin_val {op : Op} {nv r : ℕ} (e d : ℕ → ℝ) (ha : ∀ a ∈ op.args, a < nv) (h : r < op.nres) :
    stepLin op nv e d (nv + r) = op.cert.lin (stepEnv op nv e) (stepLin op nv e d) r := by
  rw [stepLin_res _ _ h]
  exact op.cert.lin_congr _ _ _ _
    (fun a h => ⟨(stepEnv_lt _ (ha a h)).symm, (stepLin_lt _ _ (ha a h)).symm⟩) r

theorem stepLin_smooth {op : Op} {nv : ℕ} (env d : ℝ → ℕ → ℝ) (ha : ∀ a ∈ op.args, a < nv)
    (hs : ∀ v < nv, Sm (fun t => env t v)) (hsd : ∀ v < nv, Sm (fun t => d t v)) (hd : op.dom (env 0)) :
    ∀ v < nv + op.nres, Sm (fun t => stepLin op nv (env t) (d t) v) := by
  intro v hv
  by_cases h : v < nv
  · simpa only [stepLin_lt _ _ h] using hsd v h
  · obtain ⟨r, rfl⟩ := Nat.exists_eq_add_of_le (Nat.not_lt.mp h)
    have hr : r < op.nres := by omega
    simp only [stepLin_res _ _ hr]
    exact op.cert.lin_smooth env d (fun a h => hs a (ha a h)) (fun a h => hsd a (ha a h)) hd r hr

/-- variables that are not operands are not changed by the reverse sweep -/
theorem reverseSweep_frame (d : ℕ) (ops : List Op) : ∀ nv U (s P : Tay), (∀ a ∈ U, a < nv) → WFOps ops nv U →
    ∀ v < nv, v ∉ U → reverseSweep d ops nv s P v = P v := by
  induction ops with
  | nil => intro nv U s P _ _ v _ _; rfl
  | cons op ops ih =>
    intro nv U s P hU hw v hv hn
    have hp := op.nres_pos
    rw [reverseSweep, op.cert.rev_frame nv d s _ v hv (fun h => hn (hw.1 v h))]
    refine ih _ _ s P (U_insert op hU) hw.2 v (by omega) ?_
    rintro (h | h)
    · have := h.1; omega
    · exact hn h

theorem usable_old (ops : List Op) : ∀ nv U, ∀ v < nv, v ∈ usable ops nv U → v ∈ U := by
  induction ops with
  | nil => intro nv U v _ h; exact h
  | cons op ops ih =>
    intro nv U v hv h
    have hp := op.nres_pos
    rcases ih _ _ v (by omega) h with h | h
    · have := h.1; omega
    · exact h

theorem usable_mono (ops : List Op) : ∀ nv U, U ⊆ usable ops nv U := by
  induction ops with
  | nil => intro nv U; exact fun _ h => h
  | cons op ops ih => intro nv U v h; exact ih _ _ (Or.inr h)

/-- The reverse sweep transposes the tangent map: the pairing of partials with tangents is preserved. -/
theorem reverseSweep_ok (d : ℕ) (ops : List Op) : ∀ nv U (env dd : ℝ → ℕ → ℝ) (s P : Tay),
    (∀ a ∈ U, a < nv) → WFOps ops nv U →
    (∀ v < nv, Sm (fun t => env t v)) → (∀ v < nv, Sm (fun t => dd t v)) → domOps ops nv (env 0) →
    (∀ v < numVar ops nv, ∀ k ≤ d, s v k = tc (fun t => evalOps ops nv (env t) v) k) →
    (∀ v, nv ≤ v → v < numVar ops nv → v ∉ usable ops nv U → ∀ k ≤ d, P v k = 0) →
    Phi nv (fun _ => d + 1) (fun v => tc (fun t => dd t v)) (reverseSweep d ops nv s P)
      = Phi (numVar ops nv) (fun _ => d + 1)
          (fun v => tc (fun t => linOps ops nv (env t) (dd t) v)) P := by
  induction ops with
  | nil => intro nv U env dd s P _ _ _ _ _ _ _; rfl
  | cons op ops ih =>
    intro nv U env dd s P hU hw hs hsd hd h1 h2
    have ha : ∀ a ∈ op.args, a < nv := fun a h => hU a (hw.1 a h)
    have hle := le_numVar ops (nv + op.nres)
    have hse := stepEnv_smooth env 0 ha hs hd.1
    have hsl := stepLin_smooth env dd ha hs hsd hd.1
    have hi := ih (nv + op.nres) _ (fun t => stepEnv op nv (env t)) (fun t => stepLin op nv (env t) (dd t))
      s P (U_insert op hU) hw.2 hse hsl hd.2 h1
      (fun v hv1 hv2 hv3 => h2 v (by omega) hv2 hv3)
    have hr := op.cert.rev_ok nv (fun t => stepEnv op nv (env t)) (fun t => stepLin op nv (env t) (dd t)) d s
      (reverseSweep d ops (nv + op.nres) s P) ha hse hsl
      (fun t r hr => stepEnv_val _ ha hr) (fun t r hr => stepLin_val _ _ ha hr) (stepEnv_dom _ ha hd.1)
      (fun v hv k hk => by
        rw [h1 v (by simp only [numVar]; omega) k hk]
        simp only [evalOps, evalOps_lt ops (nv + op.nres) _ v hv])
      (fun r hr k hk => by
        have hlt := op.naux_lt
        have hnot : nv + r ∉ addRes op nv U := by
          rintro (h | h)
          · have := h.1; omega
          · have := hU _ h; omega
        rw [reverseSweep_frame d ops _ _ s P (U_insert op hU) hw.2 (nv + r) (by omega) hnot]
        exact h2 (nv + r) (by omega) (by simp only [numVar]; omega)
          (fun h => hnot (usable_old ops _ _ _ (by omega) h)) k hk)
    rw [hi] at hr
    refine Eq.trans ?_ hr
    rw [reverseSweep]
    unfold Phi
    refine Finset.sum_congr rfl fun v hv => Finset.sum_congr rfl fun k _ => ?_
    simp only [stepLin_lt _ _ (Finset.mem_range.mp hv)]

/-- tangents are derivatives along curves -/
theorem linOps_hasDeriv (ops : List Op) : ∀ nv U (env : ℝ → ℕ → ℝ) (d : ℕ → ℝ) (x : ℝ),
    (∀ a ∈ U, a < nv) → WFOps ops nv U →
    (∀ v < nv, HasDerivAt (fun u => env u v) (d v) x) → domOps ops nv (env x) →
    ∀ v < numVar ops nv,
      HasDerivAt (fun u => evalOps ops nv (env u) v) (linOps ops nv (env x) d v) x := by
  induction ops with
  | nil => intro nv U env d x _ _ h _; exact h
  | cons op ops ih =>
    intro nv U env d x hU hw h hd
    have ha : ∀ a ∈ op.args, a < nv := fun a h => hU a (hw.1 a h)
    refine ih _ _ (fun u => stepEnv op nv (env u)) _ x (U_insert op hU) hw.2 ?_ hd.2
    intro v hv
    by_cases hv' : v < nv
    · simpa only [stepEnv_lt _ hv', stepLin_lt _ _ hv'] using h v hv'
    · obtain ⟨r, rfl⟩ := Nat.exists_eq_add_of_le (Nat.not_lt.mp hv')
      have hr : r < op.nres := by omega
      simp only [stepEnv_res _ hr, stepLin_res _ _ hr]
      exact op.cert.hasDeriv env d x (fun a h' => h a (ha a h')) hd.1 r hr

theorem linOps_smooth (ops : List Op) : ∀ nv U (env d : ℝ → ℕ → ℝ), (∀ a ∈ U, a < nv) → WFOps ops nv U →
    (∀ v < nv, Sm (fun t => env t v)) → (∀ v < nv, Sm (fun t => d t v)) → domOps ops nv (env 0) →
    ∀ v < numVar ops nv, Sm (fun t => linOps ops nv (env t) (d t) v) := by
  induction ops with
  | nil => intro nv U env d _ _ _ h _; exact h
  | cons op ops ih =>
    intro nv U env d hU hw hs hsd hd
    have ha : ∀ a ∈ op.args, a < nv := fun a h => hU a (hw.1 a h)
    exact ih _ _ (fun t => stepEnv op nv (env t)) (fun t => stepLin op nv (env t) (d t)) (U_insert op hU) hw.2
      (stepEnv_smooth env 0 ha hs hd.1) (stepLin_smooth env d ha hs hsd hd.1) hd.2

/-- tangents are homogeneous -/
theorem linOps_smul (ops : List Op) (nv : ℕ) (U : Set ℕ) (e d : ℕ → ℝ) (c : ℝ) (hU : ∀ a ∈ U, a < nv)
    (hw : WFOps ops nv U) (hd : domOps ops nv e) :
    ∀ v < numVar ops nv, linOps ops nv e (fun v => c * d v) v = c * linOps ops nv e d v := by
  intro v hv
  have h1 := linOps_hasDeriv ops nv U (fun u v => e v + u * (c * d v)) (fun v => c * d v) 0 hU hw
    (fun v _ => by simpa using ((hasDerivAt_id (0 : ℝ)).mul_const (c * d v)).const_add (e v))
    (by simpa using hd) v hv
  have h2 := linOps_hasDeriv ops nv U (fun u v => e v + u * d v) d 0 hU hw
    (fun v _ => by simpa using ((hasDerivAt_id (0 : ℝ)).mul_const (d v)).const_add (e v))
    (by simpa using hd) v hv
  have h3 : HasDerivAt (fun u : ℝ => u * c) c 0 := by simpa using (hasDerivAt_id (0 : ℝ)).mul_const c
  have h4 : HasDerivAt (fun u => evalOps ops nv (fun v => e v + u * c * d v) v)
      (linOps ops nv e d v * c) 0 := by
    have := HasDerivAt.comp (h := fun u : ℝ => u * c) (0 : ℝ) (by simpa using h2) h3
    simpa [Function.comp_def] using this
  simp only [zero_mul, add_zero] at h1
  have h5 := h1.unique (by simpa only [mul_assoc] using h4)
  rw [h5, mul_comm]

end CppAD
