import Verif.Chkpoint.Model

/-! # A checkpoint function satisfies the contract of an atomic function -/

open scoped ContDiff Topology

namespace CppAD.Chkpoint

open CppAD.Sparsity

variable {T : Tape}

/-- a vector of size `n` as a sequence -/
def ext {n : ℕ} (x : Fin n → ℝ) (j : ℕ) : ℝ := if h : j < n then x ⟨j, h⟩ else 0

theorem ext_fin {n : ℕ} (x : Fin n → ℝ) (j : Fin n) : ext x j = x j := by simp [ext]

theorem ext_update {n : ℕ} (x : Fin n → ℝ) (j : Fin n) (c : ℝ) : ext (Function.update x j c) = Function.update (ext x) j c := by
  funext l
  by_cases h : l < n
  · by_cases hj : l = j
    · subst hj; simp [ext]
    · have : (⟨l, h⟩ : Fin n) ≠ j := fun e => hj (by rw [← e])
      simp [ext, h, Function.update_of_ne hj, Function.update_of_ne this]
  · have hj : l ≠ j := fun e => h (e ▸ j.2)
    simp [ext, h, Function.update_of_ne hj]

theorem ext_smooth {n : ℕ} (x : Fin n → ℝ) (l : ℕ) : ContDiffAt ℝ ∞ (fun y : Fin n → ℝ => ext y l) x := by
  unfold ext
  split
  · fun_prop
  · exact contDiffAt_const

theorem env_smooth {n : ℕ} (x : Fin n → ℝ) (v : ℕ) : ContDiffAt ℝ ∞ (fun y : Fin n → ℝ => indEnv (ext y) v) x := by
  unfold indEnv
  split
  · exact contDiffAt_const
  · exact ext_smooth x _

theorem fn_smooth (hT : T.WF) {x : Fin T.n → ℝ} (hD : T.Dom (ext x)) {i : ℕ} (hi : i < T.dep.length) :
    ContDiffAt ℝ ∞ (fun y : Fin T.n → ℝ => T.eval (ext y) i) x :=
  evalOps_smooth x T.ops (T.n + 1) T.ind (fun y => indEnv (ext y)) T.ind_lt hT.ops (fun v _ => env_smooth x v) hD _
    (T.dep_lt hT hi)

theorem dom_open (hT : T.WF) : IsOpen {x : Fin T.n → ℝ | T.Dom (ext x)} := by
  rw [isOpen_iff_mem_nhds]
  intro x hx
  exact domOps_open x T.ops (T.n + 1) T.ind (fun y => indEnv (ext y)) T.ind_lt hT.ops (fun v _ => env_smooth x v) hx

/-- Taylor coefficients along a smooth curve depend only on the coefficients of the curve -/
theorem tc_eval_congr (hT : T.WF) (X X' : ℝ → ℕ → ℝ) (hX : ∀ j < T.n, Sm fun t => X t j) (hX' : ∀ j < T.n, Sm fun t => X' t j)
    (hD : T.Dom (X 0)) {k : ℕ} (h : ∀ j < T.n, ∀ l ≤ k, tc (fun t => X t j) l = tc (fun t => X' t j) l) {i : ℕ}
    (hi : i < T.dep.length) : tc (fun t => T.eval (X t) i) k = tc (fun t => T.eval (X' t) i) k := by
  have h0 : ∀ j < T.n, X 0 j = X' 0 j := by
    intro j hj
    have := h j hj 0 (Nat.zero_le _)
    rwa [tc_zero, tc_zero] at this
  have hs : ∀ (Z : ℝ → ℕ → ℝ), (∀ j < T.n, Sm fun t => Z t j) → ∀ v < T.n + 1, Sm fun t => indEnv (Z t) v := by
    intro Z hZ v hv
    unfold indEnv
    split
    · exact contDiffAt_const
    · exact hZ _ (by omega)
  refine tc_evalOps_congr k T.ops (T.n + 1) T.ind (fun t => indEnv (X t)) (fun t => indEnv (X' t)) T.ind_lt hT.ops (hs X hX) (hs X' hX')
    hD (T.Dom_congr hT h0 hD) ?_ _ (T.dep_lt hT hi) k le_rfl
  intro v hv l hl
  unfold indEnv
  split
  · rfl
  · exact h _ (by omega) l hl

theorem at_tx {n q : ℕ} (tx : ℕ → ℝ) {j k : ℕ} (hj : j < n) (hk : k ≤ q) :
    at' (tab n (q + 1) fun j k => tx (j * (q + 1) + k)) ((q + 1) * j + k) = tx (j * (q + 1) + k) := by
  rw [Nat.mul_comm]
  exact CppAD.at_tab (fun j k => tx (j * (q + 1) + k)) hj (by omega)

theorem tab_length (n q : ℕ) (g : ℕ → ℕ → ℝ) : (tab n q g).length = n * q := by simp [tab]

/-- results of order zero, at every point -/
theorem forward_zero (hT : T.WF) {f : ADFun} {S : St} (h : Reach T f S) (junk : ℕ → ℝ) (nan : ℝ) (q : ℕ) (tx : ℕ → ℝ) {i : ℕ}
    (hi : i < T.dep.length) :
    (forward f junk nan q tx).2 (i * (q + 1)) = T.eval (ext fun j : Fin T.n => tx (j * (q + 1))) i := by
  have hn : f.n = T.n := by rw [(h.inv hT).2]
  unfold forward
  dsimp only
  rw [hn]
  have h1 := (forward_all_orders hT h junk nan q _ (tab_length T.n (q + 1) fun j k => tx (j * (q + 1) + k))).2 i hi 0 (Nat.zero_le _)
    (Or.inl rfl)
  refine Eq.trans h1 ?_
  rw [tc_zero]
  refine T.eval_congr hT (fun j hj => ?_) hi
  rw [curve_zero, if_pos (Nat.succ_pos _), at_tx tx hj (Nat.zero_le q)]
  have := ext_fin (fun j : Fin T.n => tx (j * (q + 1))) ⟨j, hj⟩
  simpa using this.symm

/-- coefficients of every order -/
theorem forward_tc (hT : T.WF) {f : ADFun} {S : St} (h : Reach T f S) (junk : ℕ → ℝ) (nan : ℝ) (q : ℕ) (tx : ℕ → ℝ)
    (X : ℝ → ℕ → ℝ) (hX : ∀ j < T.n, Sm fun t => X t j) (hD : T.Dom (X 0))
    (htx : ∀ j < T.n, ∀ k ≤ q, tx (j * (q + 1) + k) = tc (fun t => X t j) k) {i k : ℕ}
    (hi : i < T.dep.length) (hk : k ≤ q) :
    (forward f junk nan q tx).2 (i * (q + 1) + k) = tc (fun t => T.eval (X t) i) k := by
  have hn : f.n = T.n := by rw [(h.inv hT).2]
  unfold forward
  dsimp only
  rw [hn]
  have hD' : T.Dom fun j => at' (tab T.n (q + 1) fun j k => tx (j * (q + 1) + k)) ((q + 1) * j) := by
    refine T.Dom_congr hT (fun j hj => ?_) hD
    have := at_tx tx hj (Nat.zero_le q)
    have h2 := htx j hj 0 (Nat.zero_le _)
    rw [tc_zero] at h2
    exact (this.trans h2).symm
  have h1 := (forward_all_orders hT h junk nan q _ (tab_length T.n (q + 1) fun j k => tx (j * (q + 1) + k))).2 i hi k hk
    (Or.inr hD')
  rw [h1]
  refine tc_eval_congr hT _ X (fun j _ => Sm_curve _ _ _) hX ?_ ?_ hi
  · refine T.Dom_congr hT (fun j hj => ?_) hD'
    rw [curve_zero, if_pos (Nat.succ_pos _)]
    rfl
  · intro j hj l hl
    rw [tc_curve, if_pos (by omega), at_tx tx hj (by omega), htx j hj l (by omega)]

/-- the state of `g_` after `forward` -/
theorem forward_reach (hT : T.WF) {f : ADFun} {S : St} (h : Reach T f S) (junk : ℕ → ℝ) (nan : ℝ) (q : ℕ) (tx : ℕ → ℝ) :
    ∃ S', Reach T (forward f junk nan q tx).1 S' ∧ S'.num = q + 1 ∧ S'.ndir = 1 ∧
      ∀ j < T.n, ∀ k ≤ q, S'.x 0 j k = tx (j * (q + 1) + k) := by
  have hn : f.n = T.n := by rw [(h.inv hT).2]
  unfold forward
  dsimp only
  rw [hn]
  have hl := tab_length T.n (q + 1) fun j k => tx (j * (q + 1) + k)
  refine ⟨_, Reach.forward junk nan q _ h (Or.inl hl), rfl, rfl, fun j hj k hk => ?_⟩
  simp only [St.forward, if_pos hl]
  exact at_tx tx hj hk

/-- the state of `g_` after `reverse` -/
theorem reverse_reach (hT : T.WF) {f : ADFun} {S : St} (h : Reach T f S) (junk junk' : ℕ → ℝ) (nan : ℝ) (q : ℕ) (tx py : ℕ → ℝ) :
    ∃ S', Reach T (reverse f junk junk' nan q tx py).1 S' := by
  obtain ⟨S', hr, h1, h2, _⟩ := forward_reach hT h junk nan q tx
  have hm : (forward f junk nan q tx).1.dep = T.dep := by rw [(hr.inv hT).2]
  refine ⟨_, Reach.reverse junk' (q + 1) (tab (forward f junk nan q tx).1.dep.length (q + 1) fun i k => py (i * (q + 1) + k)) hr
    ⟨Or.inr ?_, Nat.succ_pos _, by omega, Or.inr h2⟩⟩
  rw [tab_length, hm]

theorem reverse_deriv (hT : T.WF) {f : ADFun} {S : St} (h : Reach T f S) (junk junk' : ℕ → ℝ) (nan : ℝ) (q : ℕ) (tx py : ℕ → ℝ)
    (X : ℝ → ℕ → ℝ) (hX : ∀ j < T.n, Sm fun t => X t j) (hD : T.Dom (X 0))
    (htx : ∀ j < T.n, ∀ k ≤ q, tx (j * (q + 1) + k) = tc (fun t => X t j) k) {j k : ℕ} (hj : j < T.n) (hk : k ≤ q) :
    HasDerivAt (fun h => ∑ i ∈ Finset.range T.dep.length, ∑ l ∈ Finset.range (q + 1),
        py (i * (q + 1) + l) * tc (fun t => T.eval (Function.update (X t) j (X t j + h * t ^ k)) i) l)
      ((reverse f junk junk' nan q tx py).2 (j * (q + 1) + k)) 0 := by
  obtain ⟨S', hr, h1, h2, hx⟩ := forward_reach hT h junk nan q tx
  have hm : (forward f junk nan q tx).1.dep = T.dep := by rw [(hr.inv hT).2]
  have hx0 : ∀ j < T.n, S'.x 0 j 0 = X 0 j := by
    intro j hj
    rw [hx j hj 0 (Nat.zero_le _), htx j hj 0 (Nat.zero_le _), tc_zero]
  have hD' : T.Dom fun j => S'.x 0 j 0 := T.Dom_congr hT (fun j hj => (hx0 j hj).symm) hD
  have hl : (tab T.dep.length (q + 1) fun i k => py (i * (q + 1) + k)).length = T.dep.length * (q + 1) := tab_length _ _ _
  have hd := (reverse_derivative hT hr junk' (q + 1) _ hl (Nat.succ_pos _) (by omega) (Or.inr h2) hD').2 j hj k (by omega)
  unfold reverse
  dsimp only
  rw [hm]
  refine hd.congr_of_eventuallyEq ?_
  -- the domain is open
  have hop : ∀ᶠ e : ℝ in 𝓝 0, T.Dom (Function.update (X 0) j (X 0 j + e * 0 ^ k)) := by
    have := domOps_open (0 : ℝ) T.ops (T.n + 1) T.ind (fun e => indEnv (Function.update (X 0) j (X 0 j + e * 0 ^ k))) T.ind_lt hT.ops
      (fun v _ => by
        unfold indEnv
        split
        · exact contDiffAt_const
        · by_cases hv : v - 1 = j
          · rw [hv]; simp only [Function.update_self]; fun_prop
          · simp only [Function.update_of_ne hv]; exact contDiffAt_const) (by
          have e : Function.update (X 0) j (X 0 j + 0 * 0 ^ k) = X 0 := by simp
          rw [e]; exact hD)
    exact this
  filter_upwards [hop] with e he
  refine Finset.sum_congr rfl fun i hi => Finset.sum_congr rfl fun l hl' => ?_
  rw [Finset.mem_range] at hi hl'
  rw [CppAD.at_tab (fun i k => py (i * (q + 1) + k)) hi hl']
  congr 1
  unfold Tape.Y
  refine tc_eval_congr hT (fun t => Function.update (X t) j (X t j + e * t ^ k)) _ ?_ (fun j _ => Sm_curve _ _ _) he ?_ hi
  · intro a ha
    by_cases haj : a = j
    · subst haj
      simp only [Function.update_self]
      exact (hX a ha).add (contDiffAt_const.mul (Sm_pow k))
    · simp only [Function.update_of_ne haj]; exact hX a ha
  · intro a ha p hp
    rw [tc_curve, if_pos (by omega)]
    have hp' : p ≤ q := by omega
    by_cases haj : a = j
    · subst haj
      simp only [Function.update_self]
      rw [tc_add (hX a ha) (contDiffAt_const.mul (Sm_pow k)), tc_mono, ← htx a ha p hp', ← hx a ha p hp']
      unfold bump
      by_cases hpk : p = k <;> simp [hpk]
    · simp only [Function.update_of_ne haj]
      rw [← htx a ha p hp', ← hx a ha p hp']
      unfold bump
      simp [haj]

/-! ## sparsity -/

theorem mem_selectPattern (pat : Pattern) (sr sc : ℕ → Bool) (e : ℕ × ℕ) :
    e ∈ selectPattern pat sr sc ↔ Has false pat e.1 e.2 ∧ sc e.2 = true ∧ sr e.1 = true := by
  have := forRange_ind (Nat.zero_le pat.nnz) (s := ([] : List (ℕ × ℕ))) (f := fun k out =>
      let i := pat.row k
      let j := pat.col k
      if sc j && sr i then out ++ [(i, j)] else out)
    (fun (K : ℕ) (out : List (ℕ × ℕ)) => e ∈ out ↔ (∃ k < K, pat.row k = e.1 ∧ pat.col k = e.2) ∧ sc e.2 = true ∧ sr e.1 = true)
    (by simp) (by
      intro k out _ _ ih
      dsimp only
      have hsplit : (∃ k' < k + 1, pat.row k' = e.1 ∧ pat.col k' = e.2) ↔
          (∃ k' < k, pat.row k' = e.1 ∧ pat.col k' = e.2) ∨ (pat.row k = e.1 ∧ pat.col k = e.2) := by
        constructor
        · rintro ⟨k', hk, h⟩
          rcases Nat.lt_succ_iff_lt_or_eq.1 hk with hk | rfl
          · exact Or.inl ⟨k', hk, h⟩
          · exact Or.inr h
        · rintro (⟨k', hk, h⟩ | h)
          · exact ⟨k', by omega, h⟩
          · exact ⟨k, by omega, h⟩
      rw [hsplit]
      split_ifs with hc
      · rw [List.mem_append, ih, List.mem_singleton]
        rw [Bool.and_eq_true] at hc
        constructor
        · rintro (⟨h1, h2⟩ | rfl)
          · exact ⟨Or.inl h1, h2⟩
          · exact ⟨Or.inr ⟨rfl, rfl⟩, hc⟩
        · rintro ⟨h1 | ⟨h1, h2⟩, h3⟩
          · exact Or.inl ⟨h1, h3⟩
          · exact Or.inr (Prod.ext h1.symm h2.symm)
      · rw [ih]
        constructor
        · rintro ⟨h1, h2⟩; exact ⟨Or.inl h1, h2⟩
        · rintro ⟨h1 | ⟨h1, h2⟩, h3⟩
          · exact ⟨h1, h3⟩
          · exact absurd (by rw [h1, h2, h3.1, h3.2]; rfl) hc)
  refine this.trans ?_
  unfold Has
  simp

theorem ctorJac_range {useHes : Bool} {i j : ℕ} (h : Has false (ctorJac T useHes).1 i j) : i < T.dep.length ∧ j < T.n := by
  unfold ctorJac at h
  split_ifs at h
  · unfold forJacSparsity at h
    dsimp only at h
    rw [has_getInternalPattern] at h
    exact ⟨h.1, h.2.1⟩
  · unfold revJacSparsity at h
    dsimp only at h
    have hf : ∀ p : Pattern, Has false p i j ↔ Has (!false) p j i := fun p => Iff.rfl
    rw [hf, has_getInternalPattern] at h
    exact ⟨h.2.1, h.1⟩

theorem ctorHes_range {i j : ℕ} (h : Has false (ctorHes T) i j) : i < T.n ∧ j < T.n := by
  unfold ctorHes at h
  split_ifs at h
  · unfold forHesSparsity at h
    dsimp only at h
    obtain ⟨k, hk, h1, h2⟩ := h
    dsimp only at hk h1 h2
    have := (has_getInternalPattern false T.n (T.n + 1) (fun j => j + 1) _ i _).1 ⟨k, hk, h1, rfl⟩
    have hp := T.n
    refine ⟨this.1, ?_⟩
    have := this.2.1
    by_cases h0 : T.n = 0
    · omega
    · omega
  · unfold revHesSparsity at h
    dsimp only at h
    rw [has_getInternalPattern] at h
    exact ⟨h.1, h.2.1⟩

/-- entries that are not in `jac_sparsity_`: no dependency -/
theorem ctorJac_dep (hT : T.WF) {useHes : Bool} {i j : ℕ} (hi : i < T.dep.length) (hj : j < T.n)
    (h : ¬ Has false (ctorJac T useHes).1 i j) (x x' : ℕ → ℝ) (hx : ∀ l < T.n, x l ≠ x' l → l = j) : T.eval x i = T.eval x' i := by
  by_contra hne
  refine h ?_
  unfold ctorJac
  split_ifs
  · refine for_jac_sparsity_dependency hT T.n (identityPattern T.n) false i j hi hj x x' (fun k hk hne' => ?_) hne
    exact ⟨k, hk, rfl, hx k hk hne'⟩
  · exact rev_jac_sparsity_dependency hT T.dep.length (identityPattern T.dep.length) false i j i hi hj hi ⟨i, hi, rfl, rfl⟩ x x'
      hx hne

theorem line_update {n : ℕ} (x : Fin n → ℝ) (j : Fin n) (t : ℝ) :
    ext (x + t • Pi.single j (1 : ℝ)) = Function.update (ext x) j (ext x j + t) := by
  rw [ext_fin, ← ext_update]
  congr 1
  funext l
  by_cases h : l = j
  · subst h; simp
  · simp [h]

theorem fderiv_partial (hT : T.WF) {x : Fin T.n → ℝ} (hD : T.Dom (ext x)) {i : ℕ} (hi : i < T.dep.length) (j : Fin T.n) :
    IsPartial (fun y => T.eval y i) (ext x) j (fderiv ℝ (fun y : Fin T.n → ℝ => T.eval (ext y) i) x (Pi.single j 1)) := by
  have h1 : HasFDerivAt (fun y : Fin T.n → ℝ => T.eval (ext y) i) (fderiv ℝ (fun y : Fin T.n → ℝ => T.eval (ext y) i) x)
      (x + (0 : ℝ) • Pi.single j 1) := by
    rw [zero_smul, add_zero]
    exact ((fn_smooth hT hD hi).differentiableAt (by simp)).hasFDerivAt
  have h2 : HasDerivAt (fun t : ℝ => x + t • Pi.single j (1 : ℝ)) (Pi.single j (1 : ℝ)) 0 := by
    have := ((hasDerivAt_id (0 : ℝ)).smul_const (Pi.single j (1 : ℝ) : Fin T.n → ℝ)).const_add x
    simpa using this
  have h3 := h1.comp_hasDerivAt (0 : ℝ) h2
  unfold IsPartial
  refine h3.congr_of_eventuallyEq (Filter.Eventually.of_forall fun t => ?_)
  show _ = T.eval (ext (x + t • Pi.single j (1 : ℝ))) i
  rw [line_update]

theorem ctorJac_zero (hT : T.WF) {useHes : Bool} {i : ℕ} (hi : i < T.dep.length) (j : Fin T.n)
    (h : ¬ Has false (ctorJac T useHes).1 i j) {x : Fin T.n → ℝ} (hD : T.Dom (ext x)) :
    fderiv ℝ (fun y : Fin T.n → ℝ => T.eval (ext y) i) x (Pi.single j 1) = 0 := by
  have h1 := fderiv_partial hT hD hi j
  have h2 : IsPartial (fun y => T.eval y i) (ext x) j 0 := by
    unfold IsPartial
    have : (fun ε => T.eval (Function.update (ext x) j (ext x j + ε)) i) = fun _ => T.eval (ext x) i := by
      funext ε
      refine ctorJac_dep hT hi j.2 h _ _ fun l _ hl => ?_
      by_contra hne
      exact hl (Function.update_of_ne hne _ _)
    rw [this]
    exact hasDerivAt_const _ _
  exact h1.unique h2

theorem wsum_unit (T : Tape) {i : ℕ} (hi : i < T.dep.length) : wsum T (unitVec T.dep.length i) = fun y => T.eval y i := by
  funext y
  unfold wsum
  rw [Finset.sum_eq_single i]
  · rw [at_unitVec hi, if_pos rfl, one_mul]
  · intro k _ hk; rw [at_unitVec hi, if_neg hk, zero_mul]
  · intro h; exact absurd (Finset.mem_range.2 hi) h

/-- a sequence as a vector of size `n` -/
def res (n : ℕ) (y : ℕ → ℝ) : Fin n → ℝ := fun j => y j

theorem res_ext {n : ℕ} (x : Fin n → ℝ) : res n (ext x) = x := by funext j; exact ext_fin x j

theorem res_update {n : ℕ} (x : Fin n → ℝ) (j : Fin n) (t : ℝ) :
    res n (Function.update (ext x) j (ext x j + t)) = x + t • Pi.single j (1 : ℝ) := by
  rw [← line_update, res_ext]

theorem fderiv_partial2 (hT : T.WF) {x : Fin T.n → ℝ} (hD : T.Dom (ext x)) {i : ℕ} (hi : i < T.dep.length) (j k : Fin T.n) :
    IsPartial2 (fun y => T.eval y i) (ext x) j k
      (fderiv ℝ (fun y : Fin T.n → ℝ => fderiv ℝ (fun y : Fin T.n → ℝ => T.eval (ext y) i) y (Pi.single k 1)) x (Pi.single j 1)) := by
  set g : (Fin T.n → ℝ) → ℝ := fun y => T.eval (ext y) i with hg
  have hline : HasDerivAt (fun t : ℝ => x + t • Pi.single j (1 : ℝ)) (Pi.single j (1 : ℝ)) 0 := by
    have := ((hasDerivAt_id (0 : ℝ)).smul_const (Pi.single j (1 : ℝ) : Fin T.n → ℝ)).const_add x
    simpa using this
  refine ⟨fun y => fderiv ℝ g (res T.n y) (Pi.single k 1), ?_, ?_⟩
  · have hc : ContinuousAt (fun t : ℝ => x + t • Pi.single j (1 : ℝ)) 0 := hline.continuousAt
    have hev : ∀ᶠ t : ℝ in 𝓝 0, T.Dom (ext (x + t • Pi.single j (1 : ℝ))) :=
      hc.eventually (p := fun y => T.Dom (ext y)) (by
        have e : (fun t : ℝ => x + t • (Pi.single j (1 : ℝ) : Fin T.n → ℝ)) 0 = x := by simp
        rw [e]
        exact (dom_open hT).mem_nhds hD)
    filter_upwards [hev] with t ht
    rw [res_update, ← line_update]
    exact fderiv_partial hT ht hi k
  · have hs : ContDiffAt ℝ ∞ g x := fn_smooth hT hD hi
    have h2 : ContDiffAt ℝ 1 (fun y => fderiv ℝ g y (Pi.single k 1)) x :=
      (hs.fderiv_right (m := 1) (by
        exact WithTop.coe_le_coe.2 (le_top : ((1 : ℕ∞) + 1) ≤ ⊤))).clm_apply contDiffAt_const
    have h1 : HasFDerivAt (fun y => fderiv ℝ g y (Pi.single k 1)) (fderiv ℝ (fun y => fderiv ℝ g y (Pi.single k 1)) x)
        (x + (0 : ℝ) • Pi.single j 1) := by
      rw [zero_smul, add_zero]
      exact (h2.differentiableAt (by norm_num)).hasFDerivAt
    have h3 := h1.comp_hasDerivAt (0 : ℝ) hline
    unfold IsPartial
    refine h3.congr_of_eventuallyEq (Filter.Eventually.of_forall fun t => ?_)
    show fderiv ℝ g (res T.n (Function.update (ext x) j (ext x j + t))) (Pi.single k 1) = _
    rw [res_update]
    rfl

theorem ctorHes_zero (hT : T.WF) (hsup : T.n ≤ T.dep.length → ∀ op ∈ T.ops, forHesSupported op = true) {i : ℕ}
    (hi : i < T.dep.length) (j k : Fin T.n) (h : ¬ Has false (ctorHes T) j k) {x : Fin T.n → ℝ} (hD : T.Dom (ext x)) :
    fderiv ℝ (fun y : Fin T.n → ℝ => fderiv ℝ (fun y : Fin T.n → ℝ => T.eval (ext y) i) y (Pi.single k 1)) x (Pi.single j 1) = 0 := by
  have h1 := fderiv_partial2 hT hD hi j k
  rw [← wsum_unit T hi] at h1
  by_contra hne
  refine h ?_
  unfold ctorHes
  split_ifs with hnm
  · exact for_hes_sparsity_ok_partial hT (hsup hnm) (fun _ => true) (fun _ => true) _ (fun _ _ _ => rfl) (ext x) hD j k j.2 k.2 rfl rfl _ h1 hne
  · have e : (ctorJac T true).2 = (forJacSparsity T T.n (identityPattern T.n) false true).2 := by
      unfold ctorJac; rw [if_pos (Or.inr rfl)]
    rw [e]
    refine rev_hes_sparsity_ok_partial hT T.n (identityPattern T.n) false false true (fun k j => un j k)
      (fun k hk j _ hne => ⟨k, hk, rfl, by
        show k = j
        by_contra hkj
        exact hne (by simp [un, hkj])⟩)
      (fun _ => true) _ (fun _ _ _ => rfl) (fun _ _ _ _ _ => rfl) (Or.inr fun k hk => ⟨k, k, hk, rfl, rfl⟩) (ext x) hD j k j.2 k.2 _
      (isMixed_of_partial2 h1) hne

/-! ## the atomic function -/

/-- What a call of the checkpoint function finds: the object `g_` (or `member_[thread]->g_`) after the calls made so far, and the
unspecified values used by its `Forward` and `Reverse`. -/
structure State (T : Tape) where
  f : ADFun
  S : St
  reach : Reach T f S
  junk : ℕ → ℝ
  junk' : ℕ → ℝ
  nan : ℝ

/-- The checkpoint function of the recording `T` as an atomic function.  Each call of `forward` and of `reverse` may find
`g_` in a different state `st q taylor_x v`, where `v` is `taylor_y` or `partial_y`.
When `use_hes_sparsity` is false, `hes_sparsity` returns false (which stops the program); the list of all pairs takes its
place. -/
noncomputable def atom (hT : T.WF) (useHes : Bool)
    (hsup : useHes = true → T.n ≤ T.dep.length → ∀ op ∈ T.ops, forHesSupported op = true)
    (st : ℕ → (ℕ → ℝ) → (ℕ → ℝ) → State T) : Atom where
  n := T.n
  m := T.dep.length
  forward _ _ q tx ty := (forward (st q tx ty).f (st q tx ty).junk (st q tx ty).nan q tx).2
  reverse _ q tx _ py := (reverse (st q tx py).f (st q tx py).junk (st q tx py).junk' (st q tx py).nan q tx py).2
  fn x i := T.eval (ext x) i
  dom := {x | T.Dom (ext x)}
  dom_open := dom_open hT
  smooth x hx i hi := fn_smooth hT hx hi
  forward_zero sel q tx ty i hi _ := forward_zero hT (st q tx ty).reach _ _ q tx hi
  forward_ok sel p q X tx ty _ hX hD htx _ i hi _ k _ hk :=
    forward_tc hT (st q tx ty).reach _ _ q tx (fun t => ext (X t))
      (fun j hj => by simpa [ext, hj] using hX ⟨j, hj⟩) hD
      (fun j hj k hk => by simpa [ext, hj] using htx ⟨j, hj⟩ k hk) hi hk
  reverse_ok sel q X tx ty py hX hD htx _ j _ k hk := by
    have := reverse_deriv hT (st q tx py).reach (st q tx py).junk (st q tx py).junk' (st q tx py).nan q tx py (fun t => ext (X t))
      (fun j hj => by simpa [ext, hj] using hX ⟨j, hj⟩) hD
      (fun j hj k hk => by simpa [ext, hj] using htx ⟨j, hj⟩ k hk) j.2 hk
    simpa only [ext_update, ext_fin] using this
  jac _ _ sx sy := selectPattern (ctorJac T useHes).1 sy sx
  jac_sel := by
    intro id dep sx sy e he
    rw [mem_selectPattern] at he
    have := ctorJac_range he.1
    exact ⟨⟨this.1, he.2.2⟩, this.2, he.2.1⟩
  jac_zero := by
    intro id sx sy i hi hsy j hsx _ hno x hx _
    exact ctorJac_zero hT hi j (fun hh => hno (by rw [mem_selectPattern]; exact ⟨hh, hsx, hsy⟩)) hx
  jac_dep := by
    intro id sx sy i hi hsy j hsx _ hno x c _
    refine ctorJac_dep hT hi j.2 (fun hh => hno (by rw [mem_selectPattern]; exact ⟨hh, hsx, hsy⟩)) _ _ fun l _ hl => ?_
    by_contra hne
    exact hl (by rw [ext_update, Function.update_of_ne hne])
  hes _ sx _ := if useHes then selectPattern (ctorHes T) sx sx
    else ((List.range T.n).filter sx).flatMap fun i => ((List.range T.n).filter sx).map fun j => (i, j)
  hes_sel := by
    intro id sx sy e he
    split_ifs at he
    · rw [mem_selectPattern] at he
      have := ctorHes_range he.1
      exact ⟨⟨this.1, he.2.2⟩, this.2, he.2.1⟩
    · simp only [List.mem_flatMap, List.mem_filter, List.mem_range, List.mem_map] at he
      obtain ⟨i, hi, j, hj, rfl⟩ := he
      exact ⟨hi, hj⟩
  hes_zero := by
    intro id sx sy i hi _ j k hsj hsk _ _ hno _ x hx _
    by_cases hu : useHes = true
    · rw [if_pos hu] at hno
      exact ctorHes_zero hT (hsup hu) hi j k (fun hh => hno (by rw [mem_selectPattern]; exact ⟨hh, hsk, hsj⟩)) hx
    · rw [if_neg hu] at hno
      refine absurd ?_ hno
      simp only [List.mem_flatMap, List.mem_filter, List.mem_range, List.mem_map]
      exact ⟨j, ⟨j.2, hsj⟩, k, ⟨k.2, hsk⟩, rfl⟩

end CppAD.Chkpoint
