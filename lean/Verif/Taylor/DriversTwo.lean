import Verif.Taylor.Drivers

/-! # The driver ForTwo -/

open scoped ContDiff Topology

namespace CppAD

theorem tc_two (g : ℝ → ℝ) : tc g 2 = deriv (deriv g) 0 / 2 := by
  unfold tc
  rw [iteratedDeriv_succ, iteratedDeriv_one]
  norm_num [Nat.factorial]

section mixed
variable {G : ℝ × ℝ → ℝ}

theorem ev_line {P : ℝ × ℝ → Prop} (h : ∀ᶠ p in 𝓝 (0 : ℝ × ℝ), P p) {γ : ℝ → ℝ × ℝ} (hγ : Continuous γ)
    (h0 : γ 0 = 0) : ∀ᶠ t in 𝓝 (0 : ℝ), P (γ t) := by
  have : Filter.Tendsto γ (𝓝 0) (𝓝 0) := by
    have := hγ.tendsto 0
    rwa [h0] at this
  exact this.eventually h

theorem hasDeriv_diag {p : ℝ} (h : DifferentiableAt ℝ G (p, p)) :
    HasDerivAt (fun t => G (t, t)) (De G (p, p) + Dt G (p, p)) p := by
  have h1 : HasDerivAt (fun t : ℝ => (t, t)) ((1 : ℝ), (1 : ℝ)) p := (hasDerivAt_id _).prodMk (hasDerivAt_id _)
  have h2 := HasFDerivAt.comp_hasDerivAt (x := p) (l := G) (f := fun t => (t, t)) h.hasFDerivAt h1
  have e : fderiv ℝ G (p, p) (1, 1) = De G (p, p) + Dt G (p, p) := by
    unfold De Dt
    rw [← map_add]; simp
  rw [← e]; exact h2

theorem diag_mixed (hG : ContDiffAt ℝ ∞ G 0) :
    tc (fun t => G (t, t)) 2 - tc (fun t => G (t, 0)) 2 - tc (fun t => G (0, t)) 2 = De (Dt G) 0 := by
  have hE : ContDiffAt ℝ ∞ (De G) 0 := smooth_dir hG _
  have hT : ContDiffAt ℝ ∞ (Dt G) 0 := smooth_dir hG _
  have dE : DifferentiableAt ℝ (De G) 0 := hE.differentiableAt (by simp)
  have dT : DifferentiableAt ℝ (Dt G) 0 := hT.differentiableAt (by simp)
  -- diagonal
  have a1 : deriv (fun t => G (t, t)) =ᶠ[𝓝 0] fun t => De G (t, t) + Dt G (t, t) := by
    filter_upwards [ev_line (ev_diff hG) (γ := fun t => (t, t)) (by fun_prop) rfl] with t ht
    exact (hasDeriv_diag ht).deriv
  have a2 : deriv (deriv fun t => G (t, t)) 0 = De (De G) 0 + Dt (De G) 0 + (De (Dt G) 0 + Dt (Dt G) 0) := by
    rw [a1.deriv_eq]
    exact ((hasDeriv_diag (p := 0) dE).add (hasDeriv_diag (p := 0) dT)).deriv
  have b1 : deriv (fun t => G (t, 0)) =ᶠ[𝓝 0] fun t => De G (t, 0) := by
    filter_upwards [ev_line (ev_diff hG) (γ := fun t => (t, 0)) (by fun_prop) rfl] with t ht
    exact (hasDeriv_e (p := (t, 0)) ht).deriv
  have b2 : deriv (deriv fun t => G (t, 0)) 0 = De (De G) 0 := by
    rw [b1.deriv_eq]
    exact (hasDeriv_e (p := (0, 0)) dE).deriv
  have c1 : deriv (fun t => G (0, t)) =ᶠ[𝓝 0] fun t => Dt G (0, t) := by
    filter_upwards [ev_line (ev_diff hG) (γ := fun t => (0, t)) (by fun_prop) rfl] with t ht
    exact (hasDeriv_t (p := (0, t)) ht).deriv
  have c2 : deriv (deriv fun t => G (0, t)) 0 = Dt (Dt G) 0 := by
    rw [c1.deriv_eq]
    exact (hasDeriv_t (p := (0, 0)) dT).deriv
  have s : De (Dt G) 0 = Dt (De G) 0 := (symm_et hG).eq_of_nhds
  rw [tc_two, tc_two, tc_two, a2, b2, c2, s]
  ring

end mixed

variable {T : Tape} {x : ℕ → ℝ}

/-- `F_i` along two coordinate directions is smooth -/
theorem eval_smooth2 (hT : T.WF) (hD : T.Dom x) {i : ℕ} (hi : i < T.dep.length) (d e : ℕ → ℝ) :
    ContDiffAt ℝ ∞ (fun p : ℝ × ℝ => T.eval (fun j => x j + p.1 * d j + p.2 * e j) i) 0 := by
  refine evalOps_smooth (0 : ℝ × ℝ) T.ops (T.n + 1) T.ind
    (fun p => indEnv (fun j => x j + p.1 * d j + p.2 * e j)) T.ind_lt hT.ops ?_ ?_ _ (T.dep_lt hT hi)
  · intro v _
    unfold indEnv
    split
    · exact contDiffAt_const
    · exact (contDiffAt_const.add (contDiffAt_fst.mul contDiffAt_const)).add (contDiffAt_snd.mul contDiffAt_const)
  · refine T.Dom_congr hT (fun j _ => ?_) hD
    simp

/-- unit vector as a function -/
def un (j : ℕ) : ℕ → ℝ := fun j' => if j' = j then 1 else 0

theorem upd_un (y : ℕ → ℝ) (j : ℕ) (t : ℝ) : Function.update y j (y j + t) = fun j' => y j' + t * un j j' := by
  funext j'
  unfold un
  by_cases h : j' = j
  · subst h; simp
  · simp [h]

theorem Dom_dir_ev (hT : T.WF) (hD : T.Dom x) (d : ℕ → ℝ) : ∀ᶠ t in 𝓝 (0 : ℝ), T.Dom (fun j => x j + t * d j) := by
  refine domOps_open (0 : ℝ) T.ops (T.n + 1) T.ind (fun t => indEnv fun j => x j + t * d j) T.ind_lt hT.ops ?_ ?_
  · intro v _
    unfold indEnv
    split
    · exact contDiffAt_const
    · exact contDiffAt_const.add (contDiffAt_id.mul contDiffAt_const)
  · refine T.Dom_congr hT (fun j _ => ?_) hD
    simp

/-- the mixed derivative in the sense of the specification -/
theorem isPartial2_mixed (hT : T.WF) (hD : T.Dom x) {i : ℕ} (hi : i < T.dep.length) (k j : ℕ) :
    IsPartial2 (fun y => T.eval y i) x k j
      (De (Dt fun p : ℝ × ℝ => T.eval (fun l => x l + p.1 * un k l + p.2 * un j l) i) 0) := by
  have hG := eval_smooth2 hT hD hi (un k) (un j)
  refine ⟨fun y => deriv (fun t => T.eval (Function.update y j (y j + t)) i) 0, ?_, ?_⟩
  · filter_upwards [ev_line (ev_diff hG) (γ := fun t => (t, 0)) (by fun_prop) rfl] with ε hε
    unfold IsPartial
    have := (hasDeriv_t (p := (ε, 0)) hε)
    simp only at this
    have e : (fun t => T.eval (Function.update (Function.update x k (x k + ε)) j
        (Function.update x k (x k + ε) j + t)) i)
        = fun t => T.eval (fun l => x l + ε * un k l + t * un j l) i := by
      funext t
      congr 1
      rw [upd_un x k ε, upd_un _ j t]
    simp only [e]
    rw [this.deriv]; exact this
  · unfold IsPartial
    have hT' : ContDiffAt ℝ ∞ (Dt fun p : ℝ × ℝ => T.eval (fun l => x l + p.1 * un k l + p.2 * un j l) i) 0 :=
      smooth_dir hG _
    have h1 := hasDeriv_e (p := (0, 0)) (hT'.differentiableAt (by simp))
    refine HasDerivAt.congr_of_eventuallyEq h1 ?_
    filter_upwards [ev_line (ev_diff hG) (γ := fun t => (t, 0)) (by fun_prop) rfl] with ε hε
    have := (hasDeriv_t (p := (ε, 0)) hε)
    simp only at this
    have e : (fun t => T.eval (Function.update (Function.update x k (x k + ε)) j
        (Function.update x k (x k + ε) j + t)) i)
        = fun t => T.eval (fun l => x l + ε * un k l + t * un j l) i := by
      funext t
      congr 1
      rw [upd_un x k ε, upd_un _ j t]
    simp only [e]
    rw [this.deriv]

theorem diag_same (hT : T.WF) (hD : T.Dom x) {i : ℕ} (hi : i < T.dep.length) (k : ℕ) :
    De (Dt fun p : ℝ × ℝ => T.eval (fun l => x l + p.1 * un k l + p.2 * un k l) i) 0
      = 2 * tc (fun t => T.eval (fun l => x l + t * un k l) i) 2 := by
  have hG := eval_smooth2 hT hD hi (un k) (un k)
  have hE : ContDiffAt ℝ ∞ (Dt fun p : ℝ × ℝ => T.eval (fun l => x l + p.1 * un k l + p.2 * un k l) i) 0 :=
    smooth_dir hG _
  rw [tc_two]
  have e1 : deriv (fun t => T.eval (fun l => x l + t * un k l) i) =ᶠ[𝓝 0]
      fun t => (Dt fun p : ℝ × ℝ => T.eval (fun l => x l + p.1 * un k l + p.2 * un k l) i) (t, 0) := by
    filter_upwards [ev_line (ev_diff hG) (γ := fun t => (t, 0)) (by fun_prop) rfl] with t ht
    have h1 := hasDeriv_t (p := (t, 0)) ht
    simp only at h1
    have h2 : HasDerivAt (fun s => s - t) 1 t := (hasDerivAt_id t).sub_const t
    have h1' : HasDerivAt (fun s => T.eval (fun l => x l + t * un k l + s * un k l) i)
        ((Dt fun p : ℝ × ℝ => T.eval (fun l => x l + p.1 * un k l + p.2 * un k l) i) (t, 0)) (t - t) := by
      rw [sub_self]; exact h1
    have h3 := HasDerivAt.comp (h := fun s => s - t) t h1' h2
    rw [mul_one] at h3
    refine HasDerivAt.deriv (h3.congr_of_eventuallyEq (Filter.Eventually.of_forall fun s => ?_))
    simp only [Function.comp]
    congr 1
    funext l
    ring
  rw [e1.deriv_eq, (hasDeriv_e (p := (0, 0)) (hE.differentiableAt (by simp))).deriv]
  show _ = 2 * (De _ (0, 0) / 2)
  rw [mul_div_cancel₀]
  · rfl
  · norm_num

theorem un_unitVec {n j : ℕ} (hj : j < n) : at' (unitVec n j) = un j := by
  funext j'
  rw [at_unitVec hj]; rfl

theorem at_two {n j k : ℕ} (hj : j < n) (hk : k < n) (hne : j ≠ k) (j' : ℕ) :
    at' ((unitVec n j).set k 1) j' = un k j' + un j j' := by
  unfold at'
  by_cases h : j' < n
  · rw [List.getD_eq_getElem _ _ (by simpa [unitVec] using h), List.getElem_set]
    by_cases h1 : k = j'
    · subst h1
      have : ¬ k = j := fun h => hne h.symm
      simp [un, this]
    · rw [if_neg h1]
      have h2 := at_unitVec (n := n) (j := j) (j' := j') hj
      unfold at' at h2
      rw [List.getD_eq_getElem _ _ (by simpa [unitVec] using h)] at h2
      rw [h2]
      have h3 : un k j' = 0 := if_neg (fun h => h1 h.symm)
      rw [h3, zero_add]; rfl
  · rw [List.getD_eq_default _ _ (by simpa [unitVec] using h)]
    unfold un
    rw [if_neg (by omega), if_neg (by omega), add_zero]

/-- loop invariant of the diagonal terms -/
theorem forTwoDiag_ok (hT : T.WF) (hD : T.Dom x) (junk junk' : ℕ → ℝ) (nan : ℝ) {j1 : ℕ} (hj : j1 < T.n)
    (s : ADFun × (ℕ → Bool) × (ℕ → ℝ)) (h1 : Ready T s.1 x)
    (h2 : ∀ j < T.n, s.2.1 j = true → ∀ i < T.dep.length,
      s.2.2 (i * T.n + j) = tc (fun t => T.eval (fun l => x l + t * un j l) i) 2) :
    Ready T (forTwoDiag junk junk' nan T.n T.dep.length j1 s).1 x ∧
    (∀ j < T.n, (forTwoDiag junk junk' nan T.n T.dep.length j1 s).2.1 j = true → ∀ i < T.dep.length,
      (forTwoDiag junk junk' nan T.n T.dep.length j1 s).2.2 (i * T.n + j)
        = tc (fun t => T.eval (fun l => x l + t * un j l) i) 2) ∧
    (forTwoDiag junk junk' nan T.n T.dep.length j1 s).2.1 j1 = true ∧
    (∀ j, s.2.1 j = true → (forTwoDiag junk junk' nan T.n T.dep.length j1 s).2.1 j = true) := by
  unfold forTwoDiag
  by_cases hc : s.2.1 j1 = true
  · rw [if_pos hc]
    exact ⟨h1, h2, hc, fun _ h => h⟩
  · rw [if_neg hc]
    have a := (fwd1_ok hT h1 junk nan (unitVec T.n j1) (unitVec_length _ _)).1
    have b := fwd2_ok hT a junk' nan
    have hw := write_ok T.dep.length (fun i => i * T.n + j1) (fun a _ b _ hab => (rowcol_inj hj hj hab).1)
      (fun i => at' ((s.1.forward junk nan 1 (unitVec T.n j1)).1.forward junk' nan 2 (List.replicate T.n 0)).2 i) s.2.2
    refine ⟨b.1, ?_, by simp, ?_⟩
    · intro j hjn hcj i hi
      simp only
      by_cases hjj : j = j1
      · subst hjj
        rw [hw.1 i hi, b.2 hD i hi, un_unitVec hjn]
      · rw [hw.2 _ (fun l _ hh => hjj (rowcol_inj hjn hj hh).2)]
        simp only [Function.update_of_ne hjj] at hcj
        exact h2 j hjn hcj i hi
    · intro j hcj
      by_cases hjj : j = j1
      · subst hjj; simp
      · simp only [Function.update_of_ne hjj]; exact hcj

/-- **C36** ForTwo: `ddy[i*p+l]` is the second partial of `F_i` with respect to `x_{j[l]}` and `x_{k[l]}`. -/
theorem forTwo_ok {f : ADFun} (hT : T.WF) {S : St} (h : Reach T f S) (junk0 : ℕ → ℝ) (junk : ℕ → ℕ → ℕ → ℝ)
    (nan : ℝ) (D ddy : ℕ → ℝ) (xv : List ℝ) (jj kk : List ℕ) (hl : xv.length = T.n) (hlen : jj.length = kk.length)
    (hjj : ∀ j ∈ jj, j < T.n) (hkk : ∀ k ∈ kk, k < T.n) (hD : T.Dom (at' xv)) :
    ∀ i < T.dep.length, ∀ l < jj.length,
      IsPartial2 (fun y => T.eval y i) (at' xv) (kk.getD l 0) (jj.getD l 0)
        ((f.forTwo junk0 junk nan D ddy xv jj kk).2 (i * jj.length + l)) := by
  have h0 := fwd0_ready hT h junk0 nan xv hl
  have hn : f.n = T.n := by rw [(h.inv hT).2]
  have hd : f.dep = T.dep := by rw [(h.inv hT).2]
  have hjl : ∀ l < jj.length, jj.getD l 0 < T.n := fun l hl => by
    rw [List.getD_eq_getElem _ _ hl]; exact hjj _ (List.getElem_mem _)
  have hkl : ∀ l < jj.length, kk.getD l 0 < T.n := fun l hl => by
    rw [List.getD_eq_getElem _ _ (by omega)]; exact hkk _ (List.getElem_mem _)
  unfold ADFun.forTwo
  simp only [hn, hd]
  have hdiag := forRange_ind (σ := ADFun × (ℕ → Bool) × (ℕ → ℝ)) (Nat.zero_le jj.length)
    (s := ((f.forward junk0 nan 0 xv).1, (fun _ => false), D))
    (f := fun l s => forTwoDiag (junk l 2) (junk l 3) nan T.n T.dep.length (kk.getD l 0)
      (forTwoDiag (junk l 0) (junk l 1) nan T.n T.dep.length (jj.getD l 0) s))
    (fun L s => Ready T s.1 (at' xv) ∧
      (∀ j < T.n, s.2.1 j = true → ∀ i < T.dep.length,
        s.2.2 (i * T.n + j) = tc (fun t => T.eval (fun l => at' xv l + t * un j l) i) 2) ∧
      ∀ l < L, s.2.1 (jj.getD l 0) = true ∧ s.2.1 (kk.getD l 0) = true)
    ⟨h0, fun j _ hj => by simp at hj, fun l hl => by omega⟩
    (fun L s _ hL hs => by
      have a := forTwoDiag_ok hT hD (junk L 0) (junk L 1) nan (hjl L hL) s hs.1 hs.2.1
      have b := forTwoDiag_ok hT hD (junk L 2) (junk L 3) nan (hkl L hL) _ a.1 a.2.1
      refine ⟨b.1, b.2.1, fun l hl => ?_⟩
      rcases Nat.lt_succ_iff_lt_or_eq.mp hl with h | h
      · have := hs.2.2 l h
        exact ⟨b.2.2.2 _ (a.2.2.2 _ this.1), b.2.2.2 _ (a.2.2.2 _ this.2)⟩
      · subst h
        exact ⟨b.2.2.2 _ a.2.2.1, b.2.2.1⟩)
  generalize forRange 0 jj.length ((f.forward junk0 nan 0 xv).1, (fun _ => false), D)
    (fun l s => forTwoDiag (junk l 2) (junk l 3) nan T.n T.dep.length (kk.getD l 0)
      (forTwoDiag (junk l 0) (junk l 1) nan T.n T.dep.length (jj.getD l 0) s)) = s0 at hdiag ⊢
  obtain ⟨hr0, hD0, hc0⟩ := hdiag
  have := forRange_ind (σ := ADFun × (ℕ → ℝ)) (Nat.zero_le jj.length) (s := (s0.1, ddy))
    (f := fun l s =>
      if jj.getD l 0 = kk.getD l 0 then
        (s.1, forRange 0 T.dep.length s.2 fun i ddy =>
          Function.update ddy (i * jj.length + l) (2 * s0.2.2 (i * T.n + jj.getD l 0)))
      else
        (((s.1.forward (junk l 4) nan 1 ((unitVec T.n (jj.getD l 0)).set (kk.getD l 0) 1)).1.forward (junk l 5) nan 2
            (List.replicate T.n 0)).1, forRange 0 T.dep.length s.2 fun i ddy =>
          Function.update ddy (i * jj.length + l) (at' ((s.1.forward (junk l 4) nan 1
            ((unitVec T.n (jj.getD l 0)).set (kk.getD l 0) 1)).1.forward (junk l 5) nan 2 (List.replicate T.n 0)).2 i
              - s0.2.2 (i * T.n + jj.getD l 0) - s0.2.2 (i * T.n + kk.getD l 0))))
    (fun L s => Ready T s.1 (at' xv) ∧ ∀ i < T.dep.length, ∀ l < L,
      IsPartial2 (fun y => T.eval y i) (at' xv) (kk.getD l 0) (jj.getD l 0) (s.2 (i * jj.length + l)))
    ⟨hr0, fun _ _ l hl => by omega⟩
    (fun L s _ hL hs => by
      have hdj : ∀ i < T.dep.length, s0.2.2 (i * T.n + jj.getD L 0)
          = tc (fun t => T.eval (fun l => at' xv l + t * un (jj.getD L 0) l) i) 2 :=
        fun i hi => hD0 _ (hjl L hL) (hc0 L hL).1 i hi
      have hdk : ∀ i < T.dep.length, s0.2.2 (i * T.n + kk.getD L 0)
          = tc (fun t => T.eval (fun l => at' xv l + t * un (kk.getD L 0) l) i) 2 :=
        fun i hi => hD0 _ (hkl L hL) (hc0 L hL).2 i hi
      have key : ∀ g' : ℕ → ℝ, (∀ i < T.dep.length, IsPartial2 (fun y => T.eval y i) (at' xv) (kk.getD L 0)
            (jj.getD L 0) (g' i)) →
          ∀ i < T.dep.length, ∀ l < L + 1, IsPartial2 (fun y => T.eval y i) (at' xv) (kk.getD l 0) (jj.getD l 0)
            ((forRange 0 T.dep.length s.2 fun i ddy => Function.update ddy (i * jj.length + L) (g' i))
              (i * jj.length + l)) := by
        intro g' hg i hi l hl
        have hw := write_ok T.dep.length (fun i => i * jj.length + L)
          (fun a _ b _ hab => (rowcol_inj hL hL hab).1) g' s.2
        rcases Nat.lt_succ_iff_lt_or_eq.mp hl with h | h
        · rw [hw.2 _ (fun a _ hh => by have := (rowcol_inj (by omega) hL hh).2; omega)]
          exact hs.2 i hi l h
        · subst h; rw [hw.1 i hi]; exact hg i hi
      by_cases hc : jj.getD L 0 = kk.getD L 0
      · simp only [if_pos hc]
        refine ⟨hs.1, key _ fun i hi => ?_⟩
        have := isPartial2_mixed hT hD hi (kk.getD L 0) (kk.getD L 0)
        rw [diag_same hT hD hi] at this
        rw [hdj i hi, hc]; exact this
      · simp only [if_neg hc]
        have hlu : ((unitVec T.n (jj.getD L 0)).set (kk.getD L 0) 1).length = T.n := by simp [unitVec]
        have a := (fwd1_ok hT hs.1 (junk L 4) nan _ hlu).1
        have b := fwd2_ok hT a (junk L 5) nan
        refine ⟨b.1, key _ fun i hi => ?_⟩
        have hm := isPartial2_mixed hT hD hi (kk.getD L 0) (jj.getD L 0)
        rw [← diag_mixed (eval_smooth2 hT hD hi (un (kk.getD L 0)) (un (jj.getD L 0)))] at hm
        rw [b.2 hD i hi, hdj i hi, hdk i hi]
        have e1 : (fun t : ℝ => T.eval (fun j => at' xv j + t * at' ((unitVec T.n (jj.getD L 0)).set (kk.getD L 0) 1) j) i)
            = fun t => T.eval (fun l => at' xv l + t * un (kk.getD L 0) l + t * un (jj.getD L 0) l) i := by
          funext t
          congr 1
          funext j
          rw [at_two (hjl L hL) (hkl L hL) hc]; ring
        rw [e1]
        simp only [zero_mul, add_zero] at hm
        rw [sub_right_comm]
        exact hm)
  intro i hi l hl
  exact this.2 i hi l hl

/-- a concrete case: the hypotheses hold for `F(x) = sin(x0 * x1)` -/
example (a b : ℝ) : IsPartial2 (fun y => exTape.eval y 0) (at' [a, b]) 1 0
    (((exTape.initial fun _ => 0).forTwo (fun _ => 1) (fun _ _ _ => 2) 3 (fun _ => 4) (fun _ => 5) [a, b] [0, 0] [1, 0]).2
      (0 * 2 + 0)) :=
  forTwo_ok exTape_WF (Reach.start _ fun _ _ _ => 0) _ _ _ _ _ _ [0, 0] [1, 0] rfl rfl (by simp [exTape]) (by simp [exTape]) (exTape_Dom _)
    0 (by decide) 0 (by decide)

end CppAD
