import Verif.Taylor.FunDirs
import Verif.Taylor.Mixed

/-! # Reverse mode: the member function Reverse computes derivatives -/

open scoped ContDiff Topology

namespace CppAD

/-- *Specification*: add `ε` to the coefficient of order `c` of independent variable `j` -/
noncomputable def bump (x : ℕ → ℕ → ℝ) (j c : ℕ) (ε : ℝ) : ℕ → ℕ → ℝ :=
  fun j' k => if j' = j ∧ k = c then x j' k + ε else x j' k

theorem curve_bump {K : ℕ} (x : ℕ → ℕ → ℝ) {j c : ℕ} (hc : c < K) (ε t : ℝ) (j' : ℕ) :
    curve K (bump x j c ε) t j' = curve K x t j' + ε * (if j' = j then t ^ c else 0) := by
  unfold curve bump
  by_cases h : j' = j
  · rw [if_pos h]
    have : ∀ l ∈ Finset.range K, (if j' = j ∧ l = c then x j' l + ε else x j' l) * t ^ l
        = x j' l * t ^ l + (if l = c then ε * t ^ l else 0) := by
      intro l _
      by_cases hl : l = c
      · rw [if_pos ⟨h, hl⟩, if_pos hl]; ring
      · rw [if_neg (fun hh => hl hh.2), if_neg hl]; ring
    rw [Finset.sum_congr rfl this, Finset.sum_add_distrib, Finset.sum_ite_eq' , if_pos (Finset.mem_range.mpr hc)]
  · rw [if_neg h]
    simp [h]

/-- tangent direction of the independent variables: `t^c` for variable `j` -/
def dirEnv (j c : ℕ) (t : ℝ) (v : ℕ) : ℝ := if v = j + 1 then t ^ c else 0

theorem Sm_dirEnv (j c v : ℕ) : Sm (fun t => dirEnv j c t v) := by
  unfold dirEnv; split
  · exact Sm_pow c
  · exact contDiffAt_const

theorem tc_dirEnv (j c v k : ℕ) : tc (fun t => dirEnv j c t v) k = if v = j + 1 ∧ k = c then 1 else 0 := by
  unfold dirEnv
  by_cases h : v = j + 1
  · simp only [h, if_true, true_and]
    have := tc_mono 1 c k
    simpa using this
  · simp only [h, if_false, false_and]
    rw [← coeff_T, T_const]; simp

theorem phEnv_bump {K : ℕ} (x : ℕ → ℕ → ℝ) (ph : ℕ → ℝ) {j c : ℕ} (hc : c < K) (ε t : ℝ) (v : ℕ) :
    phEnv K (bump x j c ε) ph t v = phEnv K x ph t v + ε * dirEnv j c t v := by
  unfold phEnv dirEnv
  by_cases h : v = 0
  · have : ¬ v = j + 1 := by omega
    simp [h]
  · rw [if_neg h, if_neg h, curve_bump x hc]
    by_cases h2 : v = j + 1
    · rw [if_pos (by omega), if_pos h2]
    · rw [if_neg (by omega), if_neg h2]

/-- derivative of the coefficients of variable `v` with respect to a coefficient of an independent variable -/
theorem Tape.VC_hasDeriv {f : Tape} (h : f.WF) {K : ℕ} (x : ℕ → ℕ → ℝ) (ph : ℕ → ℝ) (hK : 0 < K)
    (hd : f.Dom (fun j => x j 0)) {j c : ℕ} (hc : c < K) {v : ℕ} (hv1 : 1 ≤ v) (hv : v < f.numVar) (k : ℕ) :
    HasDerivAt (fun ε => f.VC K (bump x j c ε) v k)
      (tc (fun t => linOps f.ops (f.n + 1) (phEnv K x ph t) (dirEnv j c t) v) k) 0 := by
  have e : (fun ε => f.VC K (bump x j c ε) v k)
      = fun ε => tc (fun t => evalOps f.ops (f.n + 1) (fun u => phEnv K x ph t u + ε * dirEnv j c t u) v) k := by
    funext ε
    rw [← f.VC_ph h K (bump x j c ε) ph hv hv1 k]
    congr 1
    funext t
    congr 1
    funext u
    exact phEnv_bump x ph hc ε t u
  rw [e]
  have hd0 := f.dom_ph h ph hK hd
  have hs : ∀ u < f.n + 1, ContDiffAt ℝ ∞ (fun p : ℝ × ℝ => phEnv K x ph p.2 u + p.1 * dirEnv j c p.2 u) 0 := by
    intro u _
    have h1 : ContDiffAt ℝ ∞ (fun p : ℝ × ℝ => phEnv K x ph p.2 u) 0 :=
      ContDiffAt.comp (0 : ℝ × ℝ) (g := fun t => phEnv K x ph t u) (Sm_phEnv K x ph u) contDiffAt_snd
    have h2 : ContDiffAt ℝ ∞ (fun p : ℝ × ℝ => dirEnv j c p.2 u) 0 :=
      ContDiffAt.comp (0 : ℝ × ℝ) (g := fun t => dirEnv j c t u) (Sm_dirEnv j c u) contDiffAt_snd
    exact h1.add (contDiffAt_fst.mul h2)
  have hG := evalOps_smooth (0 : ℝ × ℝ) f.ops (f.n + 1) f.ind
    (fun p u => phEnv K x ph p.2 u + p.1 * dirEnv j c p.2 u) f.ind_lt h.ops hs (by simpa using hd0) v hv
  have hopen := domOps_open (0 : ℝ) f.ops (f.n + 1) f.ind (fun t => phEnv K x ph t) f.ind_lt h.ops
    (fun u _ => Sm_phEnv K x ph u) hd0
  refine hasDerivAt_tc (G := fun p : ℝ × ℝ =>
    evalOps f.ops (f.n + 1) (fun u => phEnv K x ph p.2 u + p.1 * dirEnv j c p.2 u) v) hG ?_ k
  filter_upwards [hopen] with t ht
  have := linOps_hasDeriv f.ops (f.n + 1) f.ind (fun ε u => phEnv K x ph t u + ε * dirEnv j c t u) (dirEnv j c t) 0
    f.ind_lt h.ops (fun u _ => by
      simpa using ((hasDerivAt_id (0 : ℝ)).mul_const (dirEnv j c t u)).const_add (phEnv K x ph t u))
    (by simpa using ht) v hv
  simpa using this

theorem tc_congr_ev {g g' : ℝ → ℝ} (h : g =ᶠ[𝓝 0] g') (k : ℕ) : tc g k = tc g' k := by
  unfold tc
  rw [h.iteratedDeriv_eq]

/-- shifting the order of the tangent direction -/
theorem Tape.lin_shift {f : Tape} (h : f.WF) {K : ℕ} (x : ℕ → ℕ → ℝ) (ph : ℕ → ℝ) (hK : 0 < K)
    (hd : f.Dom (fun j => x j 0)) (j s k : ℕ) {v : ℕ} (hv : v < f.numVar) :
    tc (fun t => linOps f.ops (f.n + 1) (phEnv K x ph t) (dirEnv j s t) v) (s + k)
      = tc (fun t => linOps f.ops (f.n + 1) (phEnv K x ph t) (dirEnv j 0 t) v) k := by
  have hd0 := f.dom_ph h ph hK hd
  have hopen := domOps_open (0 : ℝ) f.ops (f.n + 1) f.ind (fun t => phEnv K x ph t) f.ind_lt h.ops
    (fun u _ => Sm_phEnv K x ph u) hd0
  rw [← tc_pow_mul (linOps_smooth f.ops (f.n + 1) f.ind _ _ f.ind_lt h.ops (fun u _ => Sm_phEnv K x ph u)
    (fun u _ => Sm_dirEnv j 0 u) hd0 v hv) s k]
  refine tc_congr_ev ?_ _
  filter_upwards [hopen] with t ht
  rw [← linOps_smul f.ops (f.n + 1) f.ind _ _ (t ^ s) f.ind_lt h.ops ht v hv]
  congr 1
  funext u
  unfold dirEnv
  split <;> simp

/-! ## seeding -/

theorem Phi_zero (N : ℕ) (A : ℕ → ℕ) (δ : Tay) : Phi N A δ (fun _ _ => 0) = 0 := by simp [Phi]

theorem seed_ok (q : ℕ) (hq : 0 < q) (dep : List ℕ) (w : List ℝ) (N : ℕ) (δ : Tay)
    (hdep : ∀ i < dep.length, dep.getD i 0 < N) :
    (∀ v, v ∉ dep → ∀ k, seed q dep w v k = 0) ∧
    (w.length = dep.length → Phi N (fun _ => q) δ (seed q dep w)
      = ∑ i ∈ Finset.range dep.length, at' w i * δ (dep.getD i 0) (q - 1)) ∧
    (w.length ≠ dep.length → Phi N (fun _ => q) δ (seed q dep w)
      = ∑ i ∈ Finset.range dep.length, ∑ k ∈ Finset.range q, at' w (i * q + k) * δ (dep.getD i 0) k) := by
  have hmem : ∀ i < dep.length, dep.getD i 0 ∈ dep := fun i hi => by
    rw [List.getD_eq_getElem _ _ hi]; exact List.getElem_mem hi
  unfold seed
  by_cases hl : w.length = dep.length
  · simp only [if_pos hl]
    refine ⟨?_, fun _ => ?_, fun h => absurd hl h⟩
    · intro v hv k
      refine forRange_inv (P := fun P : Tay => P v k = 0) rfl ?_
      intro i P _ hi hP
      rw [Tay.add_ne_row _ _ _ _ (fun (h : v = dep.getD i 0) => hv (by rw [h]; exact hmem i hi))]; exact hP
    · refine forRange_ind (Nat.zero_le _)
        (fun M (P : Tay) => Phi N (fun _ => q) δ P = ∑ i ∈ Finset.range M, at' w i * δ (dep.getD i 0) (q - 1))
        (by simp [Phi_zero]) ?_
      intro i P _ hi hP
      rw [Phi_add _ _ _ _ _ (hdep i hi) (by omega), hP, Finset.sum_range_succ]
  · simp only [if_neg hl]
    refine ⟨?_, fun h => absurd h hl, fun _ => ?_⟩
    · intro v hv k
      refine forRange_inv (P := fun P : Tay => P v k = 0) rfl ?_
      intro i P _ hi hP
      refine forRange_inv (P := fun P : Tay => P v k = 0) hP ?_
      intro l P _ _ hP
      rw [Tay.add_ne_row _ _ _ _ (fun (h : v = dep.getD i 0) => hv (by rw [h]; exact hmem i hi))]; exact hP
    · refine forRange_ind (Nat.zero_le _)
        (fun M (P : Tay) => Phi N (fun _ => q) δ P
          = ∑ i ∈ Finset.range M, ∑ k ∈ Finset.range q, at' w (i * q + k) * δ (dep.getD i 0) k)
        (by simp [Phi_zero]) ?_
      intro i P _ hi hP
      rw [Finset.sum_range_succ, ← hP]
      refine forRange_ind (Nat.zero_le q)
        (fun M (Q : Tay) => Phi N (fun _ => q) δ Q
          = Phi N (fun _ => q) δ P + ∑ k ∈ Finset.range M, at' w (i * q + k) * δ (dep.getD i 0) k)
        (by simp) ?_
      intro k Q _ hk hQ
      rw [Phi_add _ _ _ _ _ (hdep i hi) hk, hQ, Finset.sum_range_succ]
      ring

/-! ## Reverse(q, w) -/

/-- *Specification*: conditions on a call of Reverse(q, w), core/reverse.hpp:102-131 -/
def St.preReverse (S : St) (m q : ℕ) (w : List ℝ) : Prop :=
  (w.length = m ∨ w.length = m * q) ∧ 0 < q ∧ q ≤ S.num ∧ (q = 1 ∨ S.ndir = 1)

/-- *Specification*: Reverse changes the stored coefficients only when there is more than one direction,
then it keeps order zero -/
def St.reverse (S : St) (q : ℕ) : St :=
  if q = 1 ∧ 1 < S.ndir then ⟨1, 1, fun _ => S.x 0⟩ else S

theorem revRoom_ok {f : ADFun} {S : St} (h : Inv f S) (junk : ℕ → ℝ) {q : ℕ} (hq : 0 < q) (hS : q ≤ S.num)
    (hp : q = 1 ∨ S.ndir = 1) :
    Inv (f.revRoom junk q) (S.reverse q) ∧ (S.reverse q).x 0 = S.x 0 ∧ q ≤ (S.reverse q).num ∧
      (S.reverse q).ndir = 1 ∧ (f.revRoom junk q).toTape = f.toTape := by
  have hcap : 0 < f.cap := by have := h.le_cap; have := h.num; omega
  have hdp := h.dir_pos hcap
  unfold ADFun.revRoom St.reverse
  have e : (q = 1 ∧ 1 < f.ndir) ↔ (q = 1 ∧ 1 < S.ndir) := by rw [h.ndir]
  by_cases hc : q = 1 ∧ 1 < S.ndir
  · rw [if_pos hc, if_pos (e.mpr hc)]
    refine ⟨?_, rfl, by simp only; omega, rfl, capacity2_tape _ _ _ _⟩
    refine ((h.shrink (p := 1) (by rw [h.num]; omega)).capacity2 junk (c := f.cap) hcap one_pos
      (Or.inr le_rfl)).congr ?_ rfl ?_ ?_
    · simp only; omega
    · intro ell hl
      simp only at hl ⊢
      rw [if_neg (by omega)]
    · simp only; split <;> rfl
  · rw [if_neg hc, if_neg (fun hh => hc (e.mp hh))]
    refine ⟨h, rfl, hS, ?_, rfl⟩
    have := h.ndir
    omega

theorem ADFun.reverse_ok {f : ADFun} {S : St} (h : Inv f S) (junk : ℕ → ℝ) (q : ℕ) (w : List ℝ)
    (hpre : S.preReverse f.dep.length q w) :
    Inv (f.reverse junk q w).1 (S.reverse q) ∧
    (f.reverse junk q w).1.toTape = f.toTape ∧
    (f.reverse junk q w).2.length = f.n * q ∧
    (w.length = f.dep.length * q → f.Dom S.x0 → ∀ j < f.n, ∀ c < q,
      HasDerivAt (fun ε => ∑ i ∈ Finset.range f.dep.length, ∑ k ∈ Finset.range q,
          at' w (i * q + k) * f.Y q (bump (S.x 0) j c ε) i k)
        (at' (f.reverse junk q w).2 (j * q + c)) 0) ∧
    (w.length = f.dep.length → f.Dom S.x0 → ∀ j < f.n, ∀ k < q,
      HasDerivAt (fun ε => ∑ i ∈ Finset.range f.dep.length, at' w i * f.Y q (bump (S.x 0) j 0 ε) i k)
        (at' (f.reverse junk q w).2 (j * q + k)) 0) := by
  obtain ⟨hlen, hq, hnum, hdir⟩ := hpre
  obtain ⟨hI, hx, hqS, hd1, htape⟩ := revRoom_ok h junk hq hnum hdir
  have hres : f.reverse junk q w = (f.revRoom junk q,
      let P := reverseSweep (q - 1) (f.revRoom junk q).ops ((f.revRoom junk q).n + 1)
        (unflat (f.revRoom junk q).cap (f.revRoom junk q).taylor) (seed q (f.revRoom junk q).dep w)
      if w.length = (f.revRoom junk q).dep.length then tab (f.revRoom junk q).n q fun j k => P (j + 1) (q - 1 - k)
      else tab (f.revRoom junk q).n q fun j k => P (j + 1) k) := rfl
  rw [hres]
  set f1 := f.revRoom junk q with hf1
  have en : f1.n = f.n := by rw [htape]
  have eops : f1.ops = f.ops := by rw [htape]
  have edep : f1.dep = f.dep := by rw [htape]
  have enum : f1.numVar = f.numVar := by unfold Tape.numVar; rw [htape]
  have hdir1 : f1.ndir = 1 := by rw [hI.ndir, hd1]
  set s := unflat f1.cap f1.taylor with hs
  set P := reverseSweep (q - 1) f1.ops (f1.n + 1) s (seed q f1.dep w) with hP
  have hs1 : ∀ v, 1 ≤ v → v < f.numVar → ∀ k < q, f.Dom S.x0 → s v k = f.VC q (S.x 0) v k := by
    intro v hv1 hv k hk hd
    have hx0 : (S.reverse q).x0 = S.x0 := by unfold St.x0; rw [hx]
    have hm := hI.mem 0 (by omega) v hv1 (by rw [enum]; exact hv) k (by rw [hI.num]; omega)
      (Or.inr (by rw [htape, hx0]; exact hd))
    have hc : 0 < f1.cap := by have := hI.le_cap; have := hI.num; omega
    rw [hdir1, view_one, stride_one hc, htape] at hm
    rw [hs, hm, hx]
    exact f.VC_congr h.wf (by rw [hI.num]; omega) hk (Or.inr hd) (fun _ _ _ _ => rfl) hv
  have core : f.Dom S.x0 → ∀ j < f.n, ∀ c < q,
      P (j + 1) c = Phi f.numVar (fun _ => q)
        (fun v => tc (fun t => linOps f.ops (f.n + 1) (phEnv q (S.x 0) (s 0) t) (dirEnv j c t) v)) (seed q f.dep w) := by
    intro hD j hj c hc
    have hd0 : domOps f.ops (f.n + 1) (phEnv q (S.x 0) (s 0) 0) := f.dom_ph h.wf _ hq hD
    have hr := reverseSweep_ok (q - 1) f.ops (f.n + 1) f.ind (fun t => phEnv q (S.x 0) (s 0) t) (dirEnv j c) s
      (seed q f.dep w) f.ind_lt h.wf.ops (fun u _ => Sm_phEnv _ _ _ u) (fun u _ => Sm_dirEnv j c u) hd0
      (by
        intro v hv k hk
        by_cases hv0 : v = 0
        · subst hv0
          simp only [evalOps_lt f.ops (f.n + 1) _ 0 (by omega)]
          rw [tc_phEnv _ _ _ _ (by omega)]; simp
        · rw [f.VC_ph h.wf q (S.x 0) (s 0) hv (by omega) k]
          exact hs1 v (by omega) hv k (by omega) hD)
      (by
        intro v _ _ hu k _
        refine (seed_ok q hq f.dep w f.numVar (fun _ _ => 0) (fun i hi => f.dep_lt h.wf hi)).1 v ?_ k
        intro hm
        exact hu (h.wf.dep v hm))
    have e1 : q - 1 + 1 = q := by omega
    rw [e1] at hr
    have hPe : reverseSweep (q - 1) f.ops (f.n + 1) s (seed q f.dep w) = P := by rw [hP, eops, en, edep]
    rw [hPe] at hr
    rw [show CppAD.numVar f.ops (f.n + 1) = f.numVar from rfl] at hr
    rw [← hr]
    unfold Phi
    rw [Finset.sum_eq_single (j + 1)]
    · rw [Finset.sum_eq_single c]
      · beta_reduce; rw [tc_dirEnv]; simp
      · intro b _ hb
        beta_reduce; rw [tc_dirEnv, if_neg (fun hh => hb hh.2), mul_zero]
      · intro hh; exact absurd (Finset.mem_range.mpr hc) hh
    · intro b _ hb
      refine Finset.sum_eq_zero fun k _ => ?_
      beta_reduce; rw [tc_dirEnv, if_neg (fun hh => hb hh.1), mul_zero]
    · intro hh; exact absurd (Finset.mem_range.mpr (by omega)) hh
  have hder : f.Dom S.x0 → ∀ (j c : ℕ), c < q → ∀ i < f.dep.length, ∀ k,
      HasDerivAt (fun ε => f.Y q (bump (S.x 0) j c ε) i k)
        (tc (fun t => linOps f.ops (f.n + 1) (phEnv q (S.x 0) (s 0) t) (dirEnv j c t) (f.dep.getD i 0)) k) 0 := by
    intro hD j c hc i hi k
    simp only [f.Y_eq]
    exact f.VC_hasDeriv h.wf (S.x 0) (s 0) hq hD hc (f.dep_pos h.wf hi) (f.dep_lt h.wf hi) k
  refine ⟨hI, htape, ?_, ?_, ?_⟩
  · simp only
    split <;> rw [tab_length, en]
  · intro hl hD j hj c hc
    simp only [edep, en]
    by_cases hl2 : w.length = f.dep.length
    · rw [if_pos hl2]
      by_cases hm : f.dep.length = 0
      · -- no dependent variables
        have hzero : P (j + 1) (q - 1 - c) = 0 := by
          rw [core hD j hj _ (by omega),
            (seed_ok q hq f.dep w f.numVar _ (fun i hi => f.dep_lt h.wf hi)).2.1 hl2, hm]
          simp
        rw [at_tab _ hj hc, hzero]
        simp only [hm, Finset.range_zero, Finset.sum_empty]
        exact hasDerivAt_const _ _
      · have hq1 : q = 1 := by
          have : f.dep.length * q = f.dep.length * 1 := by rw [← hl, hl2, mul_one]
          exact Nat.eq_of_mul_eq_mul_left (by omega) this
        obtain rfl : c = 0 := by omega
        rw [at_tab _ hj hc]
        have e0 : q - 1 - 0 = 0 := by omega
        rw [e0, core hD j hj 0 hc,
          (seed_ok q hq f.dep w f.numVar _ (fun i hi => f.dep_lt h.wf hi)).2.1 hl2]
        refine HasDerivAt.fun_sum fun i hi => ?_
        subst hq1
        simp only [Finset.range_one, Finset.sum_singleton, mul_one, add_zero]
        exact (hder hD j 0 hc i (Finset.mem_range.mp hi) 0).const_mul _
    · rw [if_neg hl2, at_tab _ hj hc, core hD j hj c hc,
        (seed_ok q hq f.dep w f.numVar _ (fun i hi => f.dep_lt h.wf hi)).2.2 hl2]
      refine HasDerivAt.fun_sum fun i hi => HasDerivAt.fun_sum fun k _ => ?_
      exact (hder hD j c hc i (Finset.mem_range.mp hi) k).const_mul _
  · intro hl hD j hj k hk
    simp only [edep, en]
    rw [if_pos hl, at_tab _ hj hk, core hD j hj _ (by omega),
      (seed_ok q hq f.dep w f.numVar _ (fun i hi => f.dep_lt h.wf hi)).2.1 hl]
    refine HasDerivAt.fun_sum fun i hi => ?_
    have hi := Finset.mem_range.mp hi
    have e1 : q - 1 = (q - 1 - k) + k := by omega
    have hsh := f.lin_shift h.wf (S.x 0) (s 0) hq hD j (q - 1 - k) k (f.dep_lt h.wf hi)
    rw [← e1] at hsh
    rw [hsh]
    exact (hder hD j 0 hq i hi k).const_mul _

end CppAD
