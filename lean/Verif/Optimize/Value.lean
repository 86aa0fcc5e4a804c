import Verif.Optimize.Run

/-! # The values computed by the optimized recording -/

open scoped Classical

namespace CppAD.Optim

open CppAD CppAD.Record

/-- result of the comparison of a conditional expression when parameters have the values `V` and variables the values `E` -/
noncomputable def cmpAt (V E : ℕ → ℝ) : VOp → Bool
  | .cexp cop l r _ _ => decide (cop.holds (l.val V E) (r.val V E))
  | _ => false

/-- everything that is fixed in the comparison of a recording and its optimized version -/
structure Ctx where
  disc : ℕ → ℝ → ℝ
  ind : List ℝ
  x : ℕ → ℝ
  junk : ℕ → ℝ
  junk' : ℕ → ℝ
  b : Bool
  T : OTape
  h : Hashes
  o : Options
  order : List ℕ

namespace Ctx

variable (c : Ctx)

/-- values of the parameters -/
noncomputable def V : ℕ → ℝ := at' (parVals c.disc c.ind c.T.dyn)
/-- reference states -/
noncomputable def ref (i : ℕ) : FSt := refAt c.disc c.V c.T.ops (c.T.start c.x c.junk) i
/-- values of the variables -/
noncomputable def E (j : ℕ) : ℝ := finalVal c.disc c.V c.T.ops (c.T.start c.x c.junk) j
/-- the optimized recording -/
noncomputable def T' : OTape := c.T.optimize c.h c.o c.order
/-- values of its parameters -/
noncomputable def V' : ℕ → ℝ := at' (parVals c.disc c.ind c.T'.dyn)
/-- states of its sweep -/
noncomputable def S (q : ℕ) : FSt := swAt c.disc c.V' c.b c.T'.ops (c.T'.start c.x c.junk') q
/-- number of new operators before operator `i` -/
noncomputable def L (i : ℕ) : ℕ := c.T.L c.h c.o c.order i
/-- new index of a variable -/
noncomputable def nv (j : ℕ) : ℕ := c.T.nv c.h c.o c.order j
/-- new index of an operator -/
noncomputable def no (j : ℕ) : ℕ := c.T.no c.h c.o c.order j
/-- result of get_op_previous -/
noncomputable def Q : PrevSt := c.T.previous c.o c.h.op
/-- new index of a parameter -/
noncomputable def np : ℕ → ℕ := (c.T.plan c.h c.o).1.newPar
/-- usage -/
noncomputable def u (j : ℕ) : Usage := (c.T.use c.o).usage j

/-- the operator recorded for operator `i` when it is copied -/
noncomputable def new (i : ℕ) : VOp :=
  (c.T.op i).emit (c.T.plan c.h c.o).1.zero (c.T.pu c.h c.o) c.np ((c.T.newOps c.h c.o c.order i).varsAt (c.T.plan c.h c.o).1 i)
    (newVec c.Q.use.vused)

/-- operator `j` is not skipped -/
def Live (j : ℕ) : Prop := c.b = false ∨ ∀ k, (k, cmpAt c.V c.E (c.T.op k)) ∉ c.Q.use.cset j

/-- corresponding elements of VecAD vectors -/
def Rel (i : ℕ) (a a' : Arg) : Prop :=
  (∃ p, p < c.T.dyn.parAll.length ∧ c.T.pu c.h c.o p = true ∧ a = .par p ∧ a' = .par (c.np p)) ∨
  ∃ v, 1 ≤ v ∧ v < i ∧ c.u v = .yes ∧ (c.T.op v).hasRes = true ∧ a = .var v ∧ a' = .var (c.nv v)

/-- what is true of the state of the sweep of the optimized recording after the operators before `i` have been processed -/
structure Inv (i : ℕ) (s : FSt) : Prop where
  val : ∀ j, 1 ≤ j → j < i → c.u j = .yes → (c.T.op j).hasRes = true → c.Live (c.Q.pi j) → c.nv j < c.L i ∧ s.val (c.nv j) = c.E j
  skip : c.b = true → ∀ p, s.skip p = true → ∃ j < c.T.ops.length, c.u j = .yes ∧ c.Q.prev j = 0 ∧ c.no j = p ∧ ¬ c.Live j
  mem : (∀ j, c.Live j) → ∀ w, (c.T.useFrom c.o i).vused w = true → ∀ k,
    c.Rel i ((c.ref i).mem w k) (s.mem (newVec c.Q.use.vused w) k)

variable {c}

theorem E_eq {i j : ℕ} (hj : j < i) (hi : i ≤ c.T.ops.length) : (c.ref i).val j = c.E j := finalVal_eq hj hi

theorem ref_succ {i : ℕ} (hi : i < c.T.ops.length) : c.ref (i + 1) = (c.T.op i).step c.disc c.V i (c.ref i) := refAt_succ hi

theorem usage_eq (w : c.T.WF) : (c.T.plan c.h c.o).1.use.use.usage = c.u := plan_usage w

theorem Qinv (w : c.T.WF) : PInv c.o c.T c.T.ops.length c.Q := previous_inv w

theorem par_val (w : c.T.WF) {p : ℕ} (hp : p < c.T.dyn.parAll.length) (hu : c.T.pu c.h c.o p = true) : c.V' (c.np p) = c.V p :=
  newPar_val w hp hu

/-- the three ways of processing an operator -/
inductive Step (c : Ctx) (i : ℕ) (a b : List VOp) : Prop
  | none (hu : c.u i ≠ .yes) (hb : b = [] ∨ ∃ g p, b = [.frp g p])
  | prev (hu : c.u i = .yes) (hp : c.Q.prev i ≠ 0) (hb : b = []) (hv : c.nv i = c.nv (c.Q.prev i))
  | put (hu : c.u i = .yes) (hp : c.Q.prev i = 0) (ht : (c.T.plan c.h c.o).1.top (c.T.op i) = false)
      (hc : (c.T.op i).isCsum = false) (hs : (c.T.op i).isCskip = false) (hf : (c.T.op i).isFrp = false)
      (hb : b = [c.new i])
      (hno : c.no i = c.L i + a.length) (hnv : (c.T.op i).hasRes = true → c.nv i = c.L i + a.length)
  | csum (hu : c.u i = .yes) (hp : c.Q.prev i = 0)
      (ht : (c.T.plan c.h c.o).1.top (c.T.op i) = true ∨ (c.T.op i).isCsum = true)
      (hb : b = [csumFor c.h.real (c.T.plan c.h c.o).1 i (c.T.newOps c.h c.o c.order i)])
      (hno : c.no i = c.L i + a.length) (hnv : c.nv i = c.L i + a.length)

theorem step_cases (w : c.T.WF) {i : ℕ} (hi : i < c.T.ops.length) {a b : List VOp}
    (S : StepSpec c.h.real (c.T.plan c.h c.o).1 i (c.T.newOps c.h c.o c.order i) (c.T.newOps c.h c.o c.order (i + 1)) a b) : Step c i a b := by
  have eu : (c.T.plan c.h c.o).1.use.use.usage i = c.u i := by rw [usage_eq w]
  by_cases hu : c.u i = .yes
  · by_cases ht : (c.T.plan c.h c.o).1.top (c.T.op i) = true ∨ (c.T.op i).isCsum = true
    · have hp : c.Q.prev i = 0 := by
        rcases ht with ht | ht
        · rw [top_eq w, Bool.and_eq_true, List.any_eq_true] at ht
          obtain ⟨v, hv, hc⟩ := ht.2
          exact (top_not_matched w (Qinv w) (le_refl _) hv (by simpa using hc)).1
        · exact prev_zero w (by cases hop : c.T.op i <;> simp_all [VOp.isCsum, VOp.matchable])
      obtain ⟨e1, _, e2, e3⟩ := S.csum (eu.trans hu) ht
      exact .csum hu hp ht e1 e2 e3
    · push Not at ht
      have ht1 : (c.T.plan c.h c.o).1.top (c.T.op i) = false := by simpa using ht.1
      have ht2 : (c.T.op i).isCsum = false := by simpa using ht.2
      by_cases hp : c.Q.prev i = 0
      · have hs : (c.T.op i).isCskip = false := by
          by_contra hc
          have := use_skip (o := c.o) w hi (Or.inl (by simpa using hc))
          unfold u at hu
          rw [this] at hu; cases hu
        have hf : (c.T.op i).isFrp = false := by
          by_contra hc
          have := use_skip (o := c.o) w hi (Or.inr (Or.inr (by simpa using hc)))
          unfold u at hu
          rw [this] at hu; cases hu
        obtain ⟨e1, _, e2, e3⟩ := S.put (eu.trans hu) hp ht1 ht2 hs hf
        exact .put hu hp ht1 ht2 hs hf e1 e2 e3
      · obtain ⟨e1, _, e2⟩ := S.prev (eu.trans hu) hp ((Qinv w).prev i hp).2.2.2.2.1 ht1
        refine .prev hu hp e1 (e2.trans ?_)
        exact newVar_final ((Qinv w).prev i hp).1
  · exact .none hu (S.unused (by rw [eu]; exact hu)).1

theorem spec_of (c : Ctx) (i : ℕ) : ∃ a b, StepSpec c.h.real (c.T.plan c.h c.o).1 i (c.T.newOps c.h c.o c.order i) (c.T.newOps c.h c.o c.order (i + 1)) a b :=
  newOps_spec _ _ _ _ _

theorem L_succ {i : ℕ} {a b : List VOp}
    (S : StepSpec c.h.real (c.T.plan c.h c.o).1 i (c.T.newOps c.h c.o c.order i) (c.T.newOps c.h c.o c.order (i + 1)) a b) :
    c.L (i + 1) = c.L i + a.length + b.length := by
  unfold L OTape.L; rw [S.ops]; simp [Nat.add_assoc]

theorem L_le {i j : ℕ} (h : i ≤ j) : c.L i ≤ c.L j := L_mono h

/-- kept operators have different positions -/
theorem no_range (w : c.T.WF) {j : ℕ} (hj : j < c.T.ops.length) (hu : c.u j = .yes) (hp : c.Q.prev j = 0) : c.L j ≤ c.no j ∧ c.no j < c.L (j + 1) := by
  obtain ⟨a, b, S⟩ := spec_of c j
  have hl := L_succ S
  cases step_cases w hj S with
  | none h => exact absurd hu h
  | prev _ h => exact absurd hp h
  | put _ _ _ _ _ _ hb hno _ => rw [hb] at hl; simp at hl; omega
  | csum _ _ _ hb hno => rw [hb] at hl; simp at hl; omega

theorem no_inj (w : c.T.WF) {i j : ℕ} (hi : i < c.T.ops.length) (hj : j < c.T.ops.length) (hu : c.u j = .yes) (hp : c.Q.prev j = 0)
    (hu' : c.u i = .yes) (hp' : c.Q.prev i = 0) (h : c.no j = c.no i) : j = i := by
  have h1 := no_range w hj hu hp
  have h2 := no_range w hi hu' hp'
  rcases lt_trichotomy j i with hl | hl | hl
  · have := L_le (c := c) (show j + 1 ≤ i from hl); omega
  · exact hl
  · have := L_le (c := c) (show i + 1 ≤ j from hl); omega

/-- the independent variables come first in the new recording -/
theorem L_ind (w : c.T.WF) : ∀ i, i ≤ c.T.n + 1 → c.L i = i := by
  intro i
  induction i with
  | zero => intro _; exact L_zero
  | succ n ih =>
    intro hn
    have hnl : n < c.T.ops.length := by have := w.len; omega
    have hind : (c.T.op n).isInd = true := (w.ind n hnl).2 (by omega)
    obtain ⟨a, b, S⟩ := spec_of c n
    have hl := L_succ S
    have ha : a = [] := S.skipInd hind
    have hu : c.u n = .yes := use_ind w (by omega)
    rw [ih (by omega), ha] at hl
    cases step_cases w hnl S with
    | none h => exact absurd hu h
    | prev _ h =>
      refine absurd (prev_zero w ?_) h
      cases hop : c.T.op n <;> simp_all [VOp.isInd, VOp.matchable]
    | put _ _ _ _ _ _ hb => rw [hb] at hl; simpa using hl
    | csum _ _ _ hb => rw [hb] at hl; simpa using hl

/-- operators other than the first one have a positive position -/
theorem L_pos (w : c.T.WF) {i : ℕ} (hi : 1 ≤ i) : 1 ≤ c.L i := by
  have h1 := L_ind (c := c) w 1 (by omega)
  have := L_le (c := c) hi
  omega

theorem nv_pos (w : c.T.WF) (j : ℕ) (h1 : 1 ≤ j) (hj : j < c.T.ops.length) (hu : c.u j = .yes) (hr : (c.T.op j).hasRes = true) : 1 ≤ c.nv j := by
  induction j using Nat.strong_induction_on with
  | _ j ih =>
    obtain ⟨a, b, S⟩ := spec_of c j
    have := L_pos (c := c) w h1
    cases step_cases w hj S with
    | none h => exact absurd hu h
    | prev _ h _ hv =>
      obtain ⟨p1, p2, p3, p4, p5, p6, p7⟩ := (Qinv w).prev j h
      rw [hv]
      exact ih _ p1 (by omega) (by omega) p3 (by rw [p7.hasRes]; exact hr)
    | put _ _ _ _ _ _ _ _ hn => rw [hn hr]; omega
    | csum _ _ _ _ _ hn => rw [hn]; omega

theorem T'_len : c.T'.ops.length = c.L c.T.ops.length := optimize_len

/-- live operators have live arguments -/
theorem live_plain (w : c.T.WF) (hb : c.b = false ∨ SkipOk c.o c.T) {i : ℕ} (hi : i < c.T.ops.length) (hu : c.u i ≠ .no) (hp : c.Q.prev i = 0)
    (hl : c.Live i) : ∀ v ∈ (c.T.op i).plain c.T.tx (c.T.use c.o).usage i, c.Live (c.Q.pi v) := by
  intro v hv
  rcases hb with hb | hb
  · exact Or.inl hb
  · rcases hl with hl | hl
    · exact Or.inl hl
    · exact Or.inr fun k hk => hl k ((pi_sets w hb (Qinv w) hi hu hp).1 v hv hk)

theorem live_branch (w : c.T.WF) (hb : c.b = false ∨ SkipOk c.o c.T) {i : ℕ} (hi : i < c.T.ops.length) (hu : c.u i ≠ .no) (hp : c.Q.prev i = 0)
    (hl : c.Live i) : ∀ v ∈ (c.T.op i).branch (cmpAt c.V c.E (c.T.op i)), c.Live (c.Q.pi v) := by
  intro v hv
  rcases hb with hb | hb
  · exact Or.inl hb
  · rcases hl with hl | hl
    · exact Or.inl hl
    · refine Or.inr fun k hk => ?_
      have := (pi_sets w hb (Qinv w) hi hu hp).2 _ v hv hk
      rw [Finset.mem_insert] at this
      rcases this with h | h
      · have h1 : k = i := congrArg Prod.fst h
        have h2 := congrArg Prod.snd h
        simp only at h2
        rw [h1] at h2
        simp at h2
      · exact hl k h

/-- if there are VecAD operators, nothing is skipped -/
theorem live_vec (w : c.T.WF) (hb : c.b = false ∨ SkipOk c.o c.T) {i v : ℕ} (hi : i < c.T.ops.length) (hv : (c.T.op i).vec = some v) : ∀ j, c.Live j := by
  intro j
  rcases hb with hb | hb | hb
  · exact Or.inl hb
  · refine Or.inr fun k hk => ?_
    have := (Qinv w).sub j hk
    rw [cset_nil_skip hb] at this
    simp at this
  · rw [hb i hi] at hv; cases hv

end Ctx

end CppAD.Optim
