import Verif.Taylor.Op

/-! # Operation sequences and sweeps

An operation sequence (tape) is a list of operators.  Variable `0` is the phantom result of BeginOp,
variables `1 .. n` are the independent variables (InvOp); the results of the operators follow. -/

open scoped ContDiff Topology

namespace CppAD

/-- *Specification*: values of all variables after one operation, `nv` is the number of variables
before it. -/
noncomputable def stepEnv (op : Op) (nv : ℕ) (e : ℕ → ℝ) : ℕ → ℝ :=
  fun v => if nv ≤ v ∧ v < nv + op.nres then op.val e (v - nv) else e v

/-- *Specification*: values of all variables after an operation sequence. -/
noncomputable def evalOps : List Op → ℕ → (ℕ → ℝ) → ℕ → ℝ
  | [], _, e => e
  | op :: ops, nv, e => evalOps ops (nv + op.nres) (stepEnv op nv e)

/-- *Specification*: every operation of the sequence is applied at a point where it is smooth. -/
def domOps : List Op → ℕ → (ℕ → ℝ) → Prop
  | [], _, _ => True
  | op :: ops, nv, e => op.dom e ∧ domOps ops (nv + op.nres) (stepEnv op nv e)

/-- number of variables after the operation sequence -/
def numVar : List Op → ℕ → ℕ
  | [], nv => nv
  | op :: ops, nv => numVar ops (nv + op.nres)

/-- `U` and the results of the operation that can be used as operands: the primary result of an elementary operation,
all the results of an atomic function call -/
def addRes (op : Op) (nv : ℕ) (U : Set ℕ) : Set ℕ := {v | nv + op.naux ≤ v ∧ v < nv + op.nres} ∪ U

/-- variables that can be used as operands after the sequence: the ones in `U` and the results -/
def usable : List Op → ℕ → Set ℕ → Set ℕ
  | [], _, U => U
  | op :: ops, nv, U => usable ops (nv + op.nres) (addRes op nv U)

/-- The sequence is well formed: operands are variables in `U` or results of previous operations.
This is what recording produces. -/
def WFOps : List Op → ℕ → Set ℕ → Prop
  | [], _, _ => True
  | op :: ops, nv, U => (∀ a ∈ op.args, a ∈ U) ∧ WFOps ops (nv + op.nres) (addRes op nv U)

/-- cppad/local/sweep/forward_0.hpp:46-572 restricted to the operators in `Op` -/
noncomputable def forward0 : List Op → ℕ → Tay → Tay
  | [], _, s => s
  | op :: ops, nv, s => forward0 ops (nv + op.nres) (op.fwd0 (nv + op.nres - 1) s)

/-- cppad/local/sweep/forward_any.hpp:46-682 restricted to the operators in `Op`.
`i_var` is the index of the last result of the operator. -/
noncomputable def forwardAny (p q : ℕ) : List Op → ℕ → Tay → Tay
  | [], _, s => s
  | op :: ops, nv, s => forwardAny p q ops (nv + op.nres) (op.fwd p q (nv + op.nres - 1) s)

/-- cppad/local/sweep/forward_dir.hpp:44-593 restricted to the operators in `Op` -/
noncomputable def forwardDir (q r : ℕ) : List Op → ℕ → Tay → Tay
  | [], _, s => s
  | op :: ops, nv, s => forwardDir q r ops (nv + op.nres) (op.dir q r (nv + op.nres - 1) s)

/-- cppad/local/sweep/reverse.hpp:160-690 restricted to the operators in `Op`; the last operator
is processed first. `d` is the highest order. -/
noncomputable def reverseSweep (d : ℕ) : List Op → ℕ → Tay → Tay → Tay
  | [], _, _, P => P
  | op :: ops, nv, s, P =>
    op.rev d (nv + op.nres - 1) s (reverseSweep d ops (nv + op.nres) s P)

theorem Op.naux_lt (op : Op) : op.naux < op.nres := op.cert.naux_lt

theorem Op.nres_pos (op : Op) : 0 < op.nres := lt_of_le_of_lt (Nat.zero_le _) op.naux_lt

/-- an elementary operation has one result that can be an operand -/
theorem addRes_elem {op : Op} (h : op.naux = op.nres - 1) (nv : ℕ) (U : Set ℕ) :
    addRes op nv U = insert (nv + op.nres - 1) U := by
  have := op.nres_pos
  ext v
  simp only [addRes, Set.mem_union, Set.mem_setOf_eq, Set.mem_insert_iff]
  refine or_congr ?_ Iff.rfl
  omega

theorem le_numVar (ops : List Op) : ∀ nv, nv ≤ numVar ops nv := by
  induction ops with
  | nil => intro nv; exact le_rfl
  | cons op ops ih => intro nv; exact le_trans (Nat.le_add_right _ _) (ih _)

theorem usable_lt (ops : List Op) : ∀ nv U, (∀ a ∈ U, a < nv) → ∀ a ∈ usable ops nv U, a < numVar ops nv := by
  induction ops with
  | nil => intro nv U h; exact h
  | cons op ops ih =>
    intro nv U h
    refine ih _ _ ?_
    intro a ha
    rcases ha with ⟨h1, h2⟩ | ha
    · exact h2
    · have := h a ha; omega

theorem U_insert {U : Set ℕ} {nv : ℕ} (op : Op) (hU : ∀ a ∈ U, a < nv) :
    ∀ a ∈ addRes op nv U, a < nv + op.nres := by
  rintro a (h | h)
  · exact h.2
  · have := hU a h; omega

theorem stepEnv_lt {op : Op} {nv v : ℕ} (e : ℕ → ℝ) (h : v < nv) : stepEnv op nv e v = e v := by
  simp [stepEnv, Nat.not_le.mpr h]

theorem stepEnv_res {op : Op} {nv r : ℕ} (e : ℕ → ℝ) (h : r < op.nres) :
    stepEnv op nv e (nv + r) = op.val e r := by simp [stepEnv, h]

theorem evalOps_lt (ops : List Op) : ∀ nv e v, v < nv → evalOps ops nv e v = e v := by
  induction ops with
  | nil => intro nv e v _; rfl
  | cons op ops ih =>
    intro nv e v h
    rw [evalOps, ih _ _ _ (by omega), stepEnv_lt _ h]

/-- the results in the extended environment satisfy the defining equations -/
theorem stepEnv_val {op : Op} {nv r : ℕ} (e : ℕ → ℝ) (ha : ∀ a ∈ op.args, a < nv) (h : r < op.nres) :
    stepEnv op nv e (nv + r) = op.val (stepEnv op nv e) r := by
  rw [stepEnv_res _ h]
  exact op.cert.val_congr _ _ (fun a h => (stepEnv_lt _ (ha a h)).symm) r

theorem stepEnv_smooth {E : Type} [NormedAddCommGroup E] [NormedSpace ℝ E] {op : Op} {nv : ℕ}
    (env : E → ℕ → ℝ) (x : E) (ha : ∀ a ∈ op.args, a < nv)
    (hs : ∀ v < nv, ContDiffAt ℝ ∞ (fun e => env e v) x) (hd : op.dom (env x)) :
    ∀ v < nv + op.nres, ContDiffAt ℝ ∞ (fun e => stepEnv op nv (env e) v) x := by
  intro v hv
  by_cases h : v < nv
  · simpa only [stepEnv_lt _ h] using hs v h
  · obtain ⟨r, rfl⟩ := Nat.exists_eq_add_of_le (Nat.not_lt.mp h)
    have hr : r < op.nres := by omega
    simp only [stepEnv_res _ hr]
    exact op.cert.smooth env x (fun a h => hs a (ha a h)) hd r hr

theorem stepEnv_dom {op : Op} {nv : ℕ} (e : ℕ → ℝ) (ha : ∀ a ∈ op.args, a < nv) (hd : op.dom e) :
    op.dom (stepEnv op nv e) :=
  op.cert.dom_congr _ _ (fun a h => (stepEnv_lt _ (ha a h)).symm) hd

/-- All variables are smooth functions of the independent variables. -/
theorem evalOps_smooth {E : Type} [NormedAddCommGroup E] [NormedSpace ℝ E] (x : E) (ops : List Op) :
    ∀ nv U (env : E → ℕ → ℝ), (∀ a ∈ U, a < nv) → WFOps ops nv U → 
    (∀ v < nv, ContDiffAt ℝ ∞ (fun e => env e v) x) → domOps ops nv (env x) →
    ∀ v < numVar ops nv, ContDiffAt ℝ ∞ (fun e => evalOps ops nv (env e) v) x := by
  induction ops with
  | nil => intro nv U env _ _ hs _; exact hs
  | cons op ops ih =>
    intro nv U env hU hw hs hd
    have ha : ∀ a ∈ op.args, a < nv := fun a h => hU a (hw.1 a h)
    exact ih _ _ (fun e => stepEnv op nv (env e)) (U_insert op hU) hw.2
      (stepEnv_smooth env x ha hs hd.1) hd.2

/-- the smooth domain is open -/
theorem domOps_open {E : Type} [NormedAddCommGroup E] [NormedSpace ℝ E] (x : E) (ops : List Op) :
    ∀ nv U (env : E → ℕ → ℝ), (∀ a ∈ U, a < nv) → WFOps ops nv U → 
    (∀ v < nv, ContDiffAt ℝ ∞ (fun e => env e v) x) → domOps ops nv (env x) →
    ∀ᶠ e in 𝓝 x, domOps ops nv (env e) := by
  induction ops with
  | nil => intro nv U env _ _ _ _; exact Filter.Eventually.of_forall fun _ => trivial
  | cons op ops ih =>
    intro nv U env hU hw hs hd
    have ha : ∀ a ∈ op.args, a < nv := fun a h => hU a (hw.1 a h)
    exact (op.cert.dom_open env x (fun a h => (hs a (ha a h)).continuousAt) hd.1).and
      (ih _ _ (fun e => stepEnv op nv (env e)) (U_insert op hU) hw.2
        (stepEnv_smooth env x ha hs hd.1) hd.2)

/-! ## zero order -/

/-- The zero order sweep computes the value of every variable, at every point. -/
theorem forward0_ok (ops : List Op) : ∀ nv U (s : Tay), (∀ a ∈ U, a < nv) → WFOps ops nv U →
    (∀ v < numVar ops nv, forward0 ops nv s v 0 = evalOps ops nv (fun v => s v 0) v) ∧
    (∀ v k, k ≠ 0 → forward0 ops nv s v k = s v k) := by
  induction ops with
  | nil => intro nv U s _ _; exact ⟨fun _ _ => rfl, fun _ _ _ => rfl⟩
  | cons op ops ih =>
    intro nv U s hU hw
    have ha : ∀ a ∈ op.args, a < nv := fun a h => hU a (hw.1 a h)
    have h0 := op.fwd0_ok nv s ha
    have hi := ih (nv + op.nres) _ (op.fwd0 (nv + op.nres - 1) s) (U_insert op hU) hw.2
    have e : (fun v => op.fwd0 (nv + op.nres - 1) s v 0) = stepEnv op nv (fun v => s v 0) := by
      funext v
      by_cases h : nv ≤ v ∧ v < nv + op.nres
      · obtain ⟨r, rfl⟩ := Nat.exists_eq_add_of_le h.1
        rw [h0.1 r (by omega), stepEnv_res _ (by omega)]
      · rw [h0.2 v 0 (fun hh => h hh.1), stepEnv, if_neg h]
    refine ⟨fun v hv => ?_, fun v k hk => ?_⟩
    · rw [forward0, hi.1 v hv, e]; rfl
    · rw [forward0, hi.2 v k hk, h0.2 v k (fun hh => hk hh.2)]

/-! ## any order -/

/-- one operator: the forward function computes Taylor coefficients -/
theorem Op.fwd_tc (op : Op) (nv p q : ℕ) (env : ℝ → ℕ → ℝ) (s : Tay) (hpq : p ≤ q)
    (ha : ∀ a ∈ op.args, a < nv) (hs : ∀ v < nv, Sm (fun t => env t v)) (hd : op.dom (env 0))
    (h1 : ∀ v < nv, ∀ k ≤ q, s v k = tc (fun t => env t v) k)
    (h2 : ∀ r < op.nres, ∀ k < p, s (nv + r) k = tc (fun t => stepEnv op nv (env t) (nv + r)) k) :
    ∀ v < nv + op.nres, ∀ k ≤ q,
      op.fwd p q (nv + op.nres - 1) s v k = tc (fun t => stepEnv op nv (env t) v) k := by
  have hf := op.cert.fwd_frame nv p q s hpq ha
  have ht := op.cert.fwd_tc nv p q (fun t => stepEnv op nv (env t)) s hpq ha (stepEnv_smooth env 0 ha hs hd)
    (fun t r hr => stepEnv_val _ ha hr) (stepEnv_dom _ ha hd)
    (fun v hv k hk => by rw [h1 v hv k hk]; simp only [stepEnv_lt _ hv]) h2
  intro v hv k hk
  by_cases h : v < nv
  · rw [hf v k (by omega), h1 v h k hk]
    simp only [stepEnv_lt _ h]
  · obtain ⟨r, rfl⟩ := Nat.exists_eq_add_of_le (Nat.not_lt.mp h)
    by_cases hp : k < p
    · rw [hf (nv + r) k (by omega), h2 r (by omega) k hp]
    · exact ht r (by omega) k (by omega) hk

/-- The forward sweep of orders `p` to `q` computes the Taylor coefficients of every variable along
any smooth curve of the independent variables, given the orders below `p`. -/
theorem forwardAny_ok (p q : ℕ) (hpq : p ≤ q) (ops : List Op) :
    ∀ nv U (env : ℝ → ℕ → ℝ) (s : Tay), (∀ a ∈ U, a < nv) → WFOps ops nv U →
    (∀ v < nv, Sm (fun t => env t v)) → domOps ops nv (env 0) →
    (∀ v < nv, ∀ k ≤ q, s v k = tc (fun t => env t v) k) →
    (∀ v < numVar ops nv, ∀ k < p, s v k = tc (fun t => evalOps ops nv (env t) v) k) →
    ∀ v < numVar ops nv, ∀ k ≤ q,
      forwardAny p q ops nv s v k = tc (fun t => evalOps ops nv (env t) v) k := by
  induction ops with
  | nil => intro nv U env s _ _ _ _ h1 _; exact h1
  | cons op ops ih =>
    intro nv U env s hU hw hs hd h1 h2
    have ha : ∀ a ∈ op.args, a < nv := fun a h => hU a (hw.1 a h)
    have hle := le_numVar ops (nv + op.nres)
    have hf := op.cert.fwd_frame nv p q s hpq ha
    refine ih _ _ (fun t => stepEnv op nv (env t)) _ (U_insert op hU) hw.2
      (stepEnv_smooth env 0 ha hs hd.1) hd.2
      (op.fwd_tc nv p q env s hpq ha hs hd.1 h1 ?_) ?_
    · intro r hr k hk
      rw [h2 (nv + r) (by simp only [numVar]; omega) k hk]
      simp only [evalOps, evalOps_lt ops (nv + op.nres) _ (nv + r) (by omega)]
    · intro v hv k hk
      rw [hf v k (by omega)]
      exact h2 v hv k hk

/-- only the requested orders of results are changed -/
theorem forwardAny_frame (p q : ℕ) (hpq : p ≤ q) (ops : List Op) :
    ∀ nv U (s : Tay), (∀ a ∈ U, a < nv) → WFOps ops nv U →
    ∀ v k, ¬ ((nv ≤ v ∧ v < numVar ops nv) ∧ p ≤ k ∧ k ≤ q) → forwardAny p q ops nv s v k = s v k := by
  induction ops with
  | nil => intro nv U s _ _ v k _; rfl
  | cons op ops ih =>
    intro nv U s hU hw v k h
    have ha : ∀ a ∈ op.args, a < nv := fun a h => hU a (hw.1 a h)
    have hf := op.cert.fwd_frame nv p q s hpq ha
    have hle := le_numVar ops (nv + op.nres)
    simp only [numVar] at h
    rw [forwardAny, ih _ _ _ (U_insert op hU) hw.2 v k (by omega), hf v k (by omega)]

/-! ## multiple directions -/

theorem forwardDir_ok (q r ell : ℕ) (hq : 1 ≤ q) (hell : ell < r) (ops : List Op) :
    ∀ nv U (env : ℝ → ℕ → ℝ) (s : Tay), (∀ a ∈ U, a < nv) → WFOps ops nv U →
    (∀ v < nv, Sm (fun t => env t v)) → domOps ops nv (env 0) →
    (∀ v < nv, ∀ k ≤ q, view r ell s v k = tc (fun t => env t v) k) →
    (∀ v < numVar ops nv, ∀ k < q, view r ell s v k = tc (fun t => evalOps ops nv (env t) v) k) →
    ∀ v < numVar ops nv, ∀ k ≤ q,
      view r ell (forwardDir q r ops nv s) v k = tc (fun t => evalOps ops nv (env t) v) k := by
  induction ops with
  | nil => intro nv U env s _ _ _ _ h1 _; exact h1
  | cons op ops ih =>
    intro nv U env s hU hw hs hd h1 h2
    have ha : ∀ a ∈ op.args, a < nv := fun a h => hU a (hw.1 a h)
    have hle := le_numVar ops (nv + op.nres)
    have hf := op.cert.dir_frame nv q r s hq ha
    have hfr : ∀ v k, (v < nv ∨ nv + op.nres ≤ v ∨ k ≠ q) →
        view r ell (op.dir q r (nv + op.nres - 1) s) v k = view r ell s v k := by
      intro v k h
      refine hf v _ ?_
      rintro ⟨h3, h4⟩
      rcases h with h | h | h
      · omega
      · omega
      · exact view_frame hq hell h h4
    have hlow : ∀ v < nv, ∀ k ≤ q, view r ell (op.dir q r (nv + op.nres - 1) s) v k
        = tc (fun t => stepEnv op nv (env t) v) k := by
      intro v hv k hk
      rw [hfr v k (Or.inl hv), h1 v hv k hk]
      simp only [stepEnv_lt _ hv]
    have hres : ∀ r' < op.nres, ∀ k < q, view r ell (op.dir q r (nv + op.nres - 1) s) (nv + r') k
        = tc (fun t => stepEnv op nv (env t) (nv + r')) k := by
      intro r' hr k hk
      rw [hfr (nv + r') k (by omega), h2 (nv + r') (by simp only [numVar]; omega) k hk]
      simp only [evalOps, evalOps_lt ops (nv + op.nres) _ (nv + r') (by omega)]
    refine ih _ _ (fun t => stepEnv op nv (env t)) _ (U_insert op hU) hw.2
      (stepEnv_smooth env 0 ha hs hd.1) hd.2 ?_ ?_
    · intro v hv k hk
      by_cases h : v < nv
      · exact hlow v h k hk
      · obtain ⟨r', rfl⟩ := Nat.exists_eq_add_of_le (Nat.not_lt.mp h)
        rcases Nat.lt_or_eq_of_le hk with hk' | rfl
        · exact hres r' (by omega) k hk'
        · exact op.cert.dir_tc nv k r ell (fun t => stepEnv op nv (env t)) s hq hell ha (stepEnv_smooth env 0 ha hs hd.1)
            (fun t r hr => stepEnv_val _ ha hr) (stepEnv_dom _ ha hd.1)
            (fun v hv j hj => by rw [h1 v hv j hj]; simp only [stepEnv_lt _ hv])
            (fun r' hr j hj => by rw [← hfr (nv + r') j (by omega)]; exact hres r' hr j hj) r' (by omega)
    · intro v hv k hk
      rw [hfr v k (by omega)]
      exact h2 v hv k hk

theorem forwardDir_frame (q r : ℕ) (hq : 1 ≤ q) (ops : List Op) :
    ∀ nv U (s : Tay), (∀ a ∈ U, a < nv) → WFOps ops nv U →
    ∀ v m, ¬ ((nv ≤ v ∧ v < numVar ops nv) ∧ (q - 1) * r + 1 ≤ m ∧ m < (q - 1) * r + 1 + r) →
    forwardDir q r ops nv s v m = s v m := by
  induction ops with
  | nil => intro nv U s _ _ v k _; rfl
  | cons op ops ih =>
    intro nv U s hU hw v k h
    have ha : ∀ a ∈ op.args, a < nv := fun a h => hU a (hw.1 a h)
    have hf := op.cert.dir_frame nv q r s hq ha
    have hle := le_numVar ops (nv + op.nres)
    simp only [numVar] at h
    rw [forwardDir, ih _ _ _ (U_insert op hU) hw.2 v k (by omega), hf v k (by omega)]

/-- The Taylor coefficients up to order `K` of every variable only depend on the Taylor coefficients
up to order `K` of the independent variables. -/
theorem tc_evalOps_congr (K : ℕ) (ops : List Op) :
    ∀ nv U (env env' : ℝ → ℕ → ℝ), (∀ a ∈ U, a < nv) → WFOps ops nv U →
    (∀ v < nv, Sm (fun t => env t v)) → (∀ v < nv, Sm (fun t => env' t v)) →
    domOps ops nv (env 0) → domOps ops nv (env' 0) →
    (∀ v < nv, ∀ k ≤ K, tc (fun t => env t v) k = tc (fun t => env' t v) k) →
    ∀ v < numVar ops nv, ∀ k ≤ K,
      tc (fun t => evalOps ops nv (env t) v) k = tc (fun t => evalOps ops nv (env' t) v) k := by
  intro nv U env env' hU hw hs hs' hd hd' h v hv k hk
  have a1 := forwardAny_ok 0 K (Nat.zero_le _) ops nv U env (fun v k => tc (fun t => env t v) k)
    hU hw hs hd (fun _ _ _ _ => rfl) (fun _ _ _ hk => absurd hk (Nat.not_lt_zero _)) v hv k hk
  have a2 := forwardAny_ok 0 K (Nat.zero_le _) ops nv U env' (fun v k => tc (fun t => env t v) k)
    hU hw hs' hd' h (fun _ _ _ hk => absurd hk (Nat.not_lt_zero _)) v hv k hk
  rw [← a1, a2]

end CppAD
