import Verif.Subgraph.Model
import Verif.Taylor.FunSpec
import Mathlib.Logic.Relation
import Mathlib.Data.List.Nodup
import Mathlib.Data.List.Perm.Basic

/-! # Random access tables and reachability between operators -/

namespace CppAD.Subgraph

variable {T : Tape}

/-- number of variables before operator `i` -/
def before (T : Tape) : ℕ → ℕ
  | 0 => 0
  | i + 1 => before T i + nres T i

/-- (primary) result of operator `i` -/
def pv (T : Tape) (i : ℕ) : ℕ := before T (i + 1) - 1

theorem nres_low {i : ℕ} (h : i ≤ T.n) : nres T i = 1 := by simp [nres, h]

theorem opAt_op (k : ℕ) : opAt T (T.n + 1 + k) = T.ops[k]? := by
  unfold opAt; rw [if_neg (by omega)]; congr 1; omega

theorem nres_op {k : ℕ} {op : Op} (h : T.ops[k]? = some op) : nres T (T.n + 1 + k) = op.nres := by
  unfold nres; rw [if_neg (by omega), opAt_op, h]; rfl

theorem nres_end : nres T (T.n + 1 + T.ops.length) = 0 := by
  unfold nres; rw [if_neg (by omega), opAt_op]; simp

theorem nres_pos {i : ℕ} (h : i < T.n + 1 + T.ops.length) : 0 < nres T i := by
  by_cases hi : i ≤ T.n
  · rw [nres_low hi]; exact one_pos
  · obtain ⟨k, rfl⟩ := Nat.exists_eq_add_of_le (show T.n + 1 ≤ i by omega)
    have : T.ops[k]? = some (T.ops[k]'(by omega)) := List.getElem?_eq_getElem _
    rw [nres_op this]; exact Op.nres_pos _

theorem before_low {i : ℕ} (h : i ≤ T.n + 1) : before T i = i := by
  induction i with
  | zero => rfl
  | succ i ih => rw [before, ih (by omega), nres_low (by omega)]

theorem numVar_append (ops ops' : List Op) : ∀ nv, numVar (ops ++ ops') nv = numVar ops' (numVar ops nv) := by
  induction ops with
  | nil => intro nv; rfl
  | cons op ops ih => intro nv; exact ih _

theorem before_op {k : ℕ} (h : k ≤ T.ops.length) : before T (T.n + 1 + k) = CppAD.numVar (T.ops.take k) (T.n + 1) := by
  induction k with
  | zero => rw [Nat.add_zero, before_low le_rfl]; rfl
  | succ k ih =>
    have hk : T.ops[k]? = some (T.ops[k]'(by omega)) := List.getElem?_eq_getElem _
    rw [← Nat.add_assoc, before, ih (by omega), nres_op hk, List.take_add_one, hk, numVar_append]
    rfl

theorem before_mono {i j : ℕ} (h : i ≤ j) : before T i ≤ before T j := by
  induction j, h using Nat.le_induction with
  | base => exact le_rfl
  | succ j _ ih => rw [before]; omega

theorem pv_low {i : ℕ} (h : i ≤ T.n) : pv T i = i := by
  unfold pv; rw [before_low (by omega)]; omega

theorem naux_op {k : ℕ} {op : Op} (h : T.ops[k]? = some op) : naux T (T.n + 1 + k) = op.naux := by
  unfold naux; rw [opAt_op, h]; rfl

theorem naux_low {i : ℕ} (h : i ≤ T.n) : naux T i = 0 := by
  unfold naux opAt; rw [if_pos h]; rfl

theorem naux_lt {i : ℕ} (h : i < T.n + 1 + T.ops.length) : naux T i < nres T i := by
  by_cases hi : i ≤ T.n
  · rw [nres_low hi, naux_low hi]; exact one_pos
  · obtain ⟨k, rfl⟩ := Nat.exists_eq_add_of_le (show T.n + 1 ≤ i by omega)
    have : T.ops[k]? = some (T.ops[k]'(by omega)) := List.getElem?_eq_getElem _
    rw [nres_op this, naux_op this]; exact Op.naux_lt _

/-- variable `v` is a result of operator `i` that can be an operand -/
def Res (T : Tape) (i v : ℕ) : Prop := before T i + naux T i ≤ v ∧ v < before T (i + 1)

theorem Res_low {i v : ℕ} (h : i ≤ T.n) : Res T i v ↔ v = i := by
  unfold Res; rw [naux_low h, before_low (by omega), before_low (by omega)]; omega

theorem Res_op {k : ℕ} {op : Op} (h : T.ops[k]? = some op) {v : ℕ} : Res T (T.n + 1 + k) v ↔ ResultOf T k op v := by
  have hk : k < T.ops.length := (List.getElem?_eq_some_iff.mp h).1
  unfold Res ResultOf
  rw [before, naux_op h, nres_op h, before_op (by omega)]
  exact ⟨fun g => ⟨h, g⟩, fun g => g.2⟩

theorem Res_uniq {i j v : ℕ} (hi : Res T i v) (hj : Res T j v) : i = j := by
  have h1 := hi.1; have h2 := hi.2; have h3 := hj.1; have h4 := hj.2
  rcases Nat.lt_trichotomy i j with h | h | h
  · have := before_mono (T := T) (show i + 1 ≤ j from h); omega
  · exact h
  · have := before_mono (T := T) (show j + 1 ≤ i from h); omega

/-- results of operator `i` come before the results of operator `j` -/
theorem before_lt {i j : ℕ} (h : i < j) (hj : j < T.n + 1 + T.ops.length) : pv T i < before T j ∧ before T j ≤ pv T j := by
  have h1 : before T (i + 1) ≤ before T j := before_mono h
  have h2 : before T (i + 1) = before T i + nres T i := rfl
  have h3 : before T (j + 1) = before T j + nres T j := rfl
  have h4 := nres_pos (T := T) (i := i) (by omega)
  have h5 := nres_pos hj
  unfold pv; omega

theorem pv_lt {i j : ℕ} (h : i < j) (hj : j < T.n + 1 + T.ops.length) : pv T i < pv T j := by
  have := before_lt h hj; omega

theorem pv_inj {i j : ℕ} (hi : i < T.n + 1 + T.ops.length) (hj : j < T.n + 1 + T.ops.length) (h : pv T i = pv T j) :
    i = j := by
  rcases Nat.lt_trichotomy i j with h1 | h1 | h1
  · have := pv_lt h1 hj; omega
  · exact h1
  · have := pv_lt h1 hi; omega

/-- operator tables that are right -/
def Right (T : Tape) (rnd : Rnd) : Prop :=
  ∀ i < T.n + 1 + T.ops.length, rnd.op2var i = pv T i ∧ ∀ v, Res T i v → rnd.var2op v = i

/-- the tables are right for every initial content of the vectors -/
theorem randomSetup_ok (T : Tape) (junk : Rnd) : Right T (randomSetup T junk) := by
  have := forRange_ind (Nat.zero_le (numOp T)) (s := ((0, junk) : ℕ × Rnd)) (f := fun i s =>
    let v := s.1 + nres T i
    if 0 < nres T i then
      (v, ⟨Function.update s.2.op2var i (v - 1),
        forRange (s.1 + naux T i) v s.2.var2op fun u t => Function.update t u i⟩)
    else (v, s.2))
    (fun m s => s.1 = before T m ∧ ∀ i < m, i < T.n + 1 + T.ops.length → 
      s.2.op2var i = pv T i ∧ ∀ v, Res T i v → s.2.var2op v = i) ⟨rfl, fun i h => absurd h (Nat.not_lt_zero _)⟩ ?_
  · intro i hi
    exact this.2 i (by unfold numOp; omega) hi
  · rintro m ⟨v, r⟩ _ hm ⟨h1, h2⟩
    dsimp only at h1 h2 ⊢
    subst h1
    have e : before T m + nres T m = before T (m + 1) := rfl
    by_cases hp : 0 < nres T m
    · rw [if_pos hp]
      have hmL : m < T.n + 1 + T.ops.length := by
        rcases Nat.lt_or_ge m (T.n + 1 + T.ops.length) with h | h
        · exact h
        · have : m = T.n + 1 + T.ops.length := by unfold numOp at hm; omega
          subst this; rw [nres_end] at hp; omega
      have hlt := naux_lt hmL
      have hset := forRange_ind (show before T m + naux T m ≤ before T m + nres T m by omega) (s := r.var2op)
        (f := fun u t => Function.update t u m)
        (fun w (t : ℕ → ℕ) => (∀ v, before T m + naux T m ≤ v → v < w → t v = m) ∧
          ∀ v, v < before T m + naux T m → t v = r.var2op v)
        ⟨fun v h h' => by omega, fun _ _ => rfl⟩ (by
          rintro w t hw1 hw2 ⟨g1, g2⟩
          refine ⟨fun v h h' => ?_, fun v h => ?_⟩
          · by_cases hv : v = w
            · subst hv; simp
            · rw [Function.update_of_ne hv]; exact g1 v h (by omega)
          · rw [Function.update_of_ne (by omega)]; exact g2 v h)
      refine ⟨e, fun i hi hi' => ?_⟩
      dsimp only
      by_cases him : i = m
      · subst him
        refine ⟨by rw [e]; exact Function.update_self .., fun v hv => hset.1 v hv.1 (by rw [e]; exact hv.2)⟩
      · have h3 := h2 i (by omega) hi'
        refine ⟨by rw [Function.update_of_ne him]; exact h3.1, fun v hv => ?_⟩
        have h4 := before_mono (T := T) (show i + 1 ≤ m by omega)
        rw [hset.2 v (by have := hv.2; omega)]
        exact h3.2 v hv
    · rw [if_neg hp]
      refine ⟨e, fun i hi hi' => h2 i ?_ hi'⟩
      rcases Nat.lt_or_ge i m with h | h
      · exact h
      · obtain rfl : i = m := by omega
        exact absurd (nres_pos hi') hp

/-! ## operands -/

theorem wf_args (ops : List Op) : ∀ nv U k op, WFOps ops nv U → ops[k]? = some op → ∀ a ∈ op.args,
    a ∈ usable (ops.take k) nv U := by
  induction ops with
  | nil => intro nv U k op _ h; simp at h
  | cons o ops ih =>
    intro nv U k op hw h a ha
    rcases k with _ | k
    · simp only [List.getElem?_cons_zero, Option.some.injEq] at h
      subst h; exact hw.1 a ha
    · exact ih _ _ k op hw.2 (by simpa using h) a ha

theorem usable_cases (ops : List Op) : ∀ nv U a, a ∈ usable ops nv U →
    a ∈ U ∨ ∃ k op, ops[k]? = some op ∧ numVar (ops.take k) nv + op.naux ≤ a ∧ a < numVar (ops.take k) nv + op.nres := by
  induction ops with
  | nil => intro nv U a h; exact Or.inl h
  | cons op ops ih =>
    intro nv U a h
    rcases ih _ _ a h with (h | h) | ⟨k, o, hk, h1⟩
    · exact Or.inr ⟨0, op, by simp, h⟩
    · exact Or.inl h
    · exact Or.inr ⟨k + 1, o, by simpa using hk, by simpa [numVar] using h1⟩

/-- a usable variable is the result of an operator -/
theorem usable_pv {k : ℕ} (hk : k ≤ T.ops.length) {a : ℕ} (h : a ∈ usable (T.ops.take k) (T.n + 1) T.ind) :
    ∃ i, 1 ≤ i ∧ i < T.n + 1 + k ∧ Res T i a := by
  rcases usable_cases _ _ _ _ h with h | ⟨l, op, hl, h1⟩
  · exact ⟨a, h.1, by have := h.2; omega, (Res_low h.2).mpr rfl⟩
  · have hl' : l < k := by
      have := (List.getElem?_eq_some_iff.mp hl).1; simp at this; omega
    rw [List.getElem?_take, if_pos hl'] at hl
    refine ⟨T.n + 1 + l, by omega, by omega, (Res_op hl).mpr ⟨hl, ?_⟩⟩
    rwa [List.take_take, min_eq_left hl'.le] at h1

/-- Operator `j` computes an operand of operator `i`. -/
def Edge (T : Tape) (i j : ℕ) : Prop := 1 ≤ j ∧ j < i ∧ i < T.n + 1 + T.ops.length ∧ ∃ a ∈ argVars T i, Res T j a

/-- operator `i` depends on operator `j` -/
abbrev R (T : Tape) : ℕ → ℕ → Prop := Relation.ReflTransGen (Edge T)

theorem argVars_op {k : ℕ} {op : Op} (h : T.ops[k]? = some op) : argVars T (T.n + 1 + k) = op.args := by
  unfold argVars; rw [opAt_op, h]; rfl

theorem argVars_low {i : ℕ} (h : i ≤ T.n) : argVars T i = [] := by
  unfold argVars opAt; rw [if_pos h]; rfl

theorem argVars_end {i : ℕ} (h : T.n + 1 + T.ops.length ≤ i) : argVars T i = [] := by
  obtain ⟨k, rfl⟩ := Nat.exists_eq_add_of_le (show T.n + 1 ≤ i by omega)
  unfold argVars; rw [opAt_op, List.getElem?_eq_none (by omega)]; rfl

/-- operands are results of previous operators -/
theorem arg_edge (hT : T.WF) {i a : ℕ} (ha : a ∈ argVars T i) : ∃ j, Edge T i j ∧ Res T j a := by
  by_cases hi : i ≤ T.n
  · rw [argVars_low hi] at ha; simp at ha
  · by_cases hi' : T.n + 1 + T.ops.length ≤ i
    · rw [argVars_end hi'] at ha; simp at ha
    · obtain ⟨k, rfl⟩ := Nat.exists_eq_add_of_le (show T.n + 1 ≤ i by omega)
      have hk : T.ops[k]? = some (T.ops[k]'(by omega)) := List.getElem?_eq_getElem _
      have ha' := ha
      rw [argVars_op hk] at ha
      obtain ⟨j, h1, h2, h3⟩ := usable_pv (by omega) (wf_args _ _ _ k _ hT.ops hk a ha)
      exact ⟨j, ⟨h1, h2, by omega, a, ha', h3⟩, h3⟩

theorem dep_pv (hT : T.WF) {i : ℕ} (hi : i < T.dep.length) :
    ∃ j, 1 ≤ j ∧ j < T.n + 1 + T.ops.length ∧ Res T j (T.dep.getD i 0) := by
  have h := hT.dep (T.dep.getD i 0) (by rw [List.getD_eq_getElem _ _ hi]; exact List.getElem_mem hi)
  exact usable_pv (T := T) le_rfl (by rwa [List.take_length])

theorem R_lt {i j : ℕ} (h : R T i j) : j ≤ i := by
  induction h with
  | refl => exact le_rfl
  | tail _ h ih => have := h.2.1; omega

/-- dependence of variables is dependence of operators -/
theorem reaches_iff (hT : T.WF) {i u v : ℕ} (hi : i < T.n + 1 + T.ops.length) (hv : Res T i v) (hu : 1 ≤ u ∧ u ≤ T.n) :
    Reaches T v u ↔ R T i u := by
  constructor
  · intro h
    induction h generalizing i with
    | refl v =>
      obtain rfl := Res_uniq hv ((Res_low hu.2).mpr rfl)
      exact .refl
    | @step k op v a u hk ha _ ih =>
      have hkl : k < T.ops.length := (List.getElem?_eq_some_iff.mp hk.1).1
      obtain rfl := Res_uniq hv ((Res_op hk.1).mpr hk)
      obtain ⟨j, hj, hja⟩ := arg_edge hT (i := T.n + 1 + k) (a := a) (by rw [argVars_op hk.1]; exact ha)
      exact .head hj (ih (by have := hj.2.1; omega) hja hu)
  · intro h
    induction h using Relation.ReflTransGen.head_induction_on generalizing v with
    | refl => rw [(Res_low hu.2).mp hv]; exact .refl _
    | @head i l h _ ih =>
      have h2 := h.2.1
      obtain ⟨a, ha, hla⟩ := h.2.2.2
      by_cases hin : i ≤ T.n
      · rw [argVars_low hin] at ha; simp at ha
      · obtain ⟨k, rfl⟩ := Nat.exists_eq_add_of_le (show T.n + 1 ≤ i by omega)
        have hk : T.ops[k]? = some (T.ops[k]'(by omega)) := List.getElem?_eq_getElem _
        refine .step ((Res_op hk).mp hv) (a := a) ?_ (ih (by omega) hla)
        rw [← argVars_op hk]; exact ha

end CppAD.Subgraph
