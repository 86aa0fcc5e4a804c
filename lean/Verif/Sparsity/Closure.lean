import Verif.Sparsity.LocalAtom

/-!
# Consequences of a set of variables being closed under dependence
-/

open scoped ContDiff Topology

namespace CppAD.Sparsity

/-- every operator of the sequence satisfies `P op r iz` for each result `r` that can be used, with index `iz` -/
def AllOps (P : Op → ℕ → ℕ → Prop) : List Op → ℕ → Prop
  | [], _ => True
  | op :: ops, nv => (∀ r, op.naux ≤ r → r < op.nres → P op r (nv + r)) ∧ AllOps P ops (nv + op.nres)

theorem AllOps.mono {P Q : Op → ℕ → ℕ → Prop} (ops : List Op) : ∀ nv,
    (∀ op r iz, nv ≤ iz → op.naux ≤ r → r < op.nres → P op r iz → Q op r iz) →
    AllOps P ops nv → AllOps Q ops nv := by
  induction ops with
  | nil => intro _ _ _; trivial
  | cons op ops ih =>
    intro nv h hp
    exact ⟨fun r h1 h2 => h op r _ (by omega) h1 h2 (hp.1 r h1 h2), ih _ (fun o r iz hz => h o r iz (by omega)) hp.2⟩

theorem res_idx {op : Op} {nv v : ℕ} (h : nv + op.naux ≤ v ∧ v < nv + op.nres) :
    ∃ r, op.naux ≤ r ∧ r < op.nres ∧ v = nv + r := ⟨v - nv, by omega, by omega, by omega⟩

/-- dependence: if the independent variables in `A` have the same values then so do all variables in `A` -/
theorem closed_eval (A : Set ℕ) (ops : List Op) : ∀ (nv : ℕ) (U : Set ℕ) (e e' : ℕ → ℝ), (∀ a ∈ U, a < nv) → WFOps ops nv U →
    AllOps (fun op r iz => iz ∈ A → ∀ a ∈ depSet op r, a ∈ A) ops nv → (∀ v ∈ U, v ∈ A → e v = e' v) →
    ∀ v ∈ usable ops nv U, v ∈ A → evalOps ops nv e v = evalOps ops nv e' v := by
  induction ops with
  | nil => intro nv U e e' _ _ _ h; exact h
  | cons op ops ih =>
    intro nv U e e' hU hw hc h
    refine ih _ _ _ _ (U_insert op hU) hw.2 hc.2 ?_
    rintro v (hv | hv) hA
    · obtain ⟨r, r1, r2, rfl⟩ := res_idx hv
      rw [stepEnv_res _ r2, stepEnv_res _ r2]
      exact val_dep op fun a ha => h a (hw.1 a (depSet_sub op r a ha)) (hc.1 r r1 r2 hA a ha)
    · rw [stepEnv_lt _ (hU v hv), stepEnv_lt _ (hU v hv)]
      exact h v hv hA

/-- first derivatives -/
theorem closed_deriv (A : Set ℕ) (ops : List Op) : ∀ (nv : ℕ) (U : Set ℕ) (env : ℝ → ℕ → ℝ) (d : ℕ → ℝ),
    (∀ a ∈ U, a < nv) → WFOps ops nv U → (∀ v < nv, HasDerivAt (fun t => env t v) (d v) 0) →
    domOps ops nv (env 0) →
    AllOps (fun op r iz => iz ∈ A → ∀ a ∈ jacSet op r, a ∈ A) ops nv → (∀ v ∈ U, v ∈ A → d v = 0) →
    ∀ v ∈ usable ops nv U, v ∈ A → HasDerivAt (fun t => evalOps ops nv (env t) v) 0 0 := by
  induction ops with
  | nil =>
    intro nv U env d hU _ hd _ _ h v hv hA
    have := hd v (hU v hv)
    rw [h v hv hA] at this
    exact this
  | cons op ops ih =>
    intro nv U env d hU hw hd hdom hc h
    have ha : ∀ a ∈ op.args, a < nv := fun a h => hU a (hw.1 a h)
    have hpos := op.nres_pos
    have hres : ∀ r < op.nres, HasDerivAt (fun t => stepEnv op nv (env t) (nv + r)) (op.cert.lin (env 0) d r) 0 := by
      intro r hr
      simp only [stepEnv_res _ hr]
      exact op.cert.hasDeriv env d 0 (fun a h => hd a (ha a h)) hdom.1 r hr
    refine ih _ _ (fun t => stepEnv op nv (env t)) (fun v => if v < nv then d v else op.cert.lin (env 0) d (v - nv))
      (U_insert op hU) hw.2 ?_ hdom.2 hc.2 ?_
    · intro v hv
      by_cases hlt : v < nv
      · simp only [stepEnv_lt _ hlt, hlt, if_true]; exact hd v hlt
      · simp only [hlt, if_false]
        have := hres (v - nv) (by omega)
        rwa [show nv + (v - nv) = v by omega] at this
    · rintro v (hv | hv) hA
      · obtain ⟨r, r1, r2, rfl⟩ := res_idx hv
        rw [if_neg (by omega)]
        have h1 := hres r r2
        have h2 := jac_zero op r1 r2 env d (fun a h => hd a (ha a h)) hdom.1
          (fun a h' => h a (hw.1 a (jacSet_sub op r a h')) (hc.1 r r1 r2 hA a h'))
        rw [Nat.add_sub_cancel_left]
        refine HasDerivAt.unique h1 ?_
        simp only [stepEnv_res _ r2]
        exact h2
      · rw [if_pos (hU v hv)]
        exact h v hv hA

/-- second derivatives -/
theorem closed_m12 (A : Set ℕ) (ops : List Op) : ∀ (nv : ℕ) (U : Set ℕ) (env : ℝ × ℝ → ℕ → ℝ),
    (∀ a ∈ U, a < nv) → WFOps ops nv U → (∀ v < nv, ContDiffAt ℝ ∞ (fun p => env p v) 0) →
    domOps ops nv (env 0) →
    AllOps (fun op r iz => iz ∈ A → (∀ a ∈ jacSet op r, a ∈ A) ∧ ∀ q ∈ hesSet op r,
      De (fun p => evalOps ops nv (env p) q.1) 0 * Dt (fun p => evalOps ops nv (env p) q.2) 0 = 0) ops nv →
    (∀ v ∈ U, v ∈ A → m12 (fun p => env p v) = 0) →
    ∀ v ∈ usable ops nv U, v ∈ A → m12 (fun p => evalOps ops nv (env p) v) = 0 := by
  induction ops with
  | nil => intro nv U env _ _ _ _ _ h; exact h
  | cons op ops ih =>
    intro nv U env hU hw hs hdom hc h
    have ha : ∀ a ∈ op.args, a < nv := fun a h => hU a (hw.1 a h)
    have hpos := op.nres_pos
    refine ih _ _ (fun p => stepEnv op nv (env p)) (U_insert op hU) hw.2
      (stepEnv_smooth env 0 ha hs hdom.1) hdom.2 hc.2 ?_
    rintro v (hv | hv) hA
    · obtain ⟨r, r1, r2, rfl⟩ := res_idx hv
      simp only [stepEnv_res _ r2]
      obtain ⟨c1, c2⟩ := hc.1 r r1 r2 hA
      refine hes_zero op r1 r2 env (fun a h => hs a (ha a h)) hdom.1
        (fun a h' => h a (hw.1 a (jacSet_sub op r a h')) (c1 a h')) ?_
      intro q hq
      have hq' := hesSet_sub op r2 q hq
      have := c2 q hq
      simp only [evalOps_lt _ _ _ _ (ha _ (jacSet_sub op r _ hq'.1)), evalOps_lt _ _ _ _ (ha _ (jacSet_sub op r _ hq'.2))] at this
      exact this
    · simp only [stepEnv_lt _ (hU v hv)]
      exact h v hv hA

end CppAD.Sparsity
