import Verif.AtomEx.VecThm
import Verif.Taylor.AtomType

/-! # Atomic vector operations: sparsity, dependency and types -/

open scoped ContDiff Topology

namespace CppAD.AtomEx

/-- a loop that appends -/
theorem forRange_append {α : Type*} {lo hi : ℕ} (l : List α) (g : ℕ → List α) (body : ℕ → List α → List α)
    (h : ∀ i l, lo ≤ i → i < hi → body i l = l ++ g i) (e : α) :
    e ∈ forRange lo hi l body ↔ e ∈ l ∨ ∃ i, lo ≤ i ∧ i < hi ∧ e ∈ g i := by
  rcases le_total hi lo with hle | hle
  · rw [forRange_of_le hle]
    constructor
    · exact Or.inl
    · rintro (h | ⟨i, h1, h2, _⟩)
      · exact h
      · omega
  · refine forRange_ind (s := l) hle (fun k t => e ∈ t ↔ e ∈ l ∨ ∃ i, lo ≤ i ∧ i < k ∧ e ∈ g i) ?_ ?_
    · constructor
      · exact Or.inl
      · rintro (h | ⟨i, h1, h2, _⟩)
        · exact h
        · omega
    · intro k t h1 h2 ht
      rw [h k t h1 h2, List.mem_append, ht]
      constructor
      · rintro ((h | ⟨i, a, b, c⟩) | h)
        · exact Or.inl h
        · exact Or.inr ⟨i, a, by omega, c⟩
        · exact Or.inr ⟨k, h1, by omega, h⟩
      · rintro (h | ⟨i, a, b, c⟩)
        · exact Or.inl (Or.inl h)
        · by_cases e : i = k
          · subst e; exact Or.inr c
          · exact Or.inl (Or.inr ⟨i, a, by omega, c⟩)

theorem VOpE.n_eq (op : VOpE) (m : ℕ) : op.n m = if op = .neg then m else 2 * m := by
  cases op <;> rfl

theorem mem_vecJac (op : VOpE) (m : ℕ) (id : ℕ → Bool) (dep : Bool) (sx sy : ℕ → Bool) (e : ℕ × ℕ) :
    e ∈ vecJac op m id dep sx sy ↔ ∃ i < m, sy i = true ∧
      ((sx i = true ∧ e = (i, i)) ∨ (op ≠ .neg ∧ sx (m + i) = true ∧ e = (i, m + i))) := by
  unfold vecJac
  rw [forRange_append [] (fun i => if sy i then (if sx i then [(i, i)] else []) ++
    (if op.n m ≠ m then (if sx (m + i) then [(i, m + i)] else []) else []) else [])]
  · constructor
    · rintro (h | ⟨i, _, hi, h⟩)
      · simp at h
      · refine ⟨i, hi, ?_⟩
        have hne : op.n m ≠ m → op ≠ .neg := by
          intro h h'; rw [h'] at h; exact h rfl
        split_ifs at h with h1 h2 h3 h4 <;> simp at h
        · rcases h with h | h
          · exact ⟨h1, Or.inl ⟨h2, h⟩⟩
          · exact ⟨h1, Or.inr ⟨hne h3, h4, h⟩⟩
        · exact ⟨h1, Or.inl ⟨h2, h⟩⟩
        · exact ⟨h1, Or.inl ⟨h2, h⟩⟩
        · rename_i h3 h4
          exact ⟨h1, Or.inr ⟨hne h3, h4, h⟩⟩
    · rintro ⟨i, hi, hs, h⟩
      refine Or.inr ⟨i, Nat.zero_le i, hi, ?_⟩
      rw [if_pos hs]
      rcases h with ⟨h1, rfl⟩ | ⟨h0, h1, rfl⟩
      · simp [h1]
      · have : op.n m ≠ m := by rw [VOpE.n_eq, if_neg h0]; omega
        simp [h1, this]
  · intro i l _ _
    split_ifs <;> simp

/-- the function does not change when an argument other than its own changes -/
theorem VOpE.fn_update (op : VOpE) (m : ℕ) (x : Fin (op.n m) → ℝ) (j : Fin (op.n m)) (c : ℝ) (i : ℕ)
    (h1 : i ≠ j) (h2 : op ≠ .neg → m + i ≠ j) : op.fn m (Function.update x j c) i = op.fn m x i := by
  cases op <;> simp only [VOpE.fn, ev_update, if_neg h1]
  · rw [if_neg (h2 (by decide))]
  · rw [if_neg (h2 (by decide))]
  · rw [if_neg (h2 (by decide))]
  · rw [if_neg (h2 (by decide))]

/-- **C54** (Jacobian pattern) for every operator: only selected rows and columns -/
theorem vecJac_sel (op : VOpE) (m : ℕ) : JacSel (op.n m) m (vecJac op m) := by
  intro id dep sx sy e he
  rw [mem_vecJac] at he
  obtain ⟨i, hi, hs, ⟨h1, rfl⟩ | ⟨h0, h1, rfl⟩⟩ := he
  · refine ⟨⟨hi, hs⟩, ?_, h1⟩
    dsimp only; rw [VOpE.n_eq]; split_ifs <;> omega
  · refine ⟨⟨hi, hs⟩, ?_, h1⟩
    dsimp only; rw [VOpE.n_eq, if_neg h0]; omega

theorem vecJac_other {op : VOpE} {m : ℕ} {id : ℕ → Bool} {dep : Bool} {sx sy : ℕ → Bool} {i j : ℕ} (hi : i < m)
    (hs : sy i = true) (hj : sx j = true) (h : (i, j) ∉ vecJac op m id dep sx sy) : i ≠ j ∧ (op ≠ .neg → m + i ≠ j) := by
  rw [mem_vecJac] at h
  constructor
  · rintro rfl; exact h ⟨i, hi, hs, Or.inl ⟨hj, rfl⟩⟩
  · rintro h0 rfl; exact h ⟨i, hi, hs, Or.inr ⟨h0, hj, rfl⟩⟩

/-- **C54** (Jacobian pattern) for every operator: every nonzero derivative is in the pattern -/
theorem vecJac_zero (op : VOpE) (m : ℕ) : JacZeroFor (op.n m) m (op.fn m) (op.dom m) (fun _ => True) (vecJac op m) := by
  intro id sx sy _ i hi hs j hj _ hno x _ _
  obtain ⟨h1, h2⟩ := vecJac_other hi hs hj hno
  exact fderiv_indep fun c => VOpE.fn_update op m x j c i h1 h2

/-- **C54** (dependency pattern) for every operator: every dependency is in the pattern -/
theorem vecJac_dep (op : VOpE) (m : ℕ) : JacDepFor (op.n m) m (op.fn m) (fun _ => True) (vecJac op m) := by
  intro id sx sy _ i hi hs j hj _ hno x c _
  obtain ⟨h1, h2⟩ := vecJac_other hi hs hj hno
  exact VOpE.fn_update op m x j c i h1 h2

theorem mem_vecRevDepend (op : VOpE) (m : ℕ) (dy : ℕ → Bool) {i : ℕ} (hi : i < m) :
    vecRevDepend op m dy i = dy i ∧ (op ≠ .neg → vecRevDepend op m dy (m + i) = dy i) := by
  unfold vecRevDepend
  by_cases h : op.n m = m
  · rw [if_pos h]
    have h' : op = .neg := by
      by_contra hne; rw [VOpE.n_eq, if_neg hne] at h; omega
    refine ⟨?_, fun hne => absurd h' hne⟩
    have := forRange_ind (s := fun _ : ℕ => false) (f := fun i dx => Function.update dx i (dy i)) (Nat.zero_le m)
      (fun K t => ∀ i < K, t i = dy i) (by intros; omega) (by
        intro k t _ _ ht i hi
        by_cases e : i = k
        · subst e; simp
        · rw [Function.update_of_ne e]; exact ht i (by omega))
    exact this i hi
  · rw [if_neg h]
    have := forRange_ind (s := fun _ : ℕ => false)
      (f := fun i dx => Function.update (Function.update dx i (dy i)) (m + i) (dy i)) (Nat.zero_le m)
      (fun K t => ∀ i < K, t i = dy i ∧ t (m + i) = dy i) (by intros; omega) (by
        intro k t _ hk ht i hi
        by_cases e : i = k
        · subst e
          refine ⟨?_, by simp⟩
          rw [Function.update_of_ne (by omega)]; simp
        · rw [Function.update_of_ne (by omega), Function.update_of_ne e, Function.update_of_ne (by omega),
            Function.update_of_ne (by omega)]
          exact ht i (by omega))
    exact ⟨(this i hi).1, fun _ => (this i hi).2⟩

/-- **C54** (reverse dependency) for every operator: the arguments that are not needed do not affect the results that are
needed -/
theorem vecRevDepend_ok (op : VOpE) (m : ℕ) : RevDepend (op.n m) m (op.fn m) (vecRevDepend op m) := by
  intro dy x x' h i hi hd
  have h1 : ev x i = ev x' i := by
    have hn : i < op.n m := by rw [VOpE.n_eq]; split_ifs <;> omega
    rw [ev_of_lt _ hn, ev_of_lt _ hn]
    refine h _ ?_
    rw [(mem_vecRevDepend op m dy hi).1, hd]
  have h2 : op ≠ .neg → ev x (m + i) = ev x' (m + i) := by
    intro hne
    have hn : m + i < op.n m := by rw [VOpE.n_eq, if_neg hne]; omega
    rw [ev_of_lt _ hn, ev_of_lt _ hn]
    refine h _ ?_
    rw [(mem_vecRevDepend op m dy hi).2 hne, hd]
  cases op <;> simp only [VOpE.fn, h1]
  · rw [h2 (by decide)]
  · rw [h2 (by decide)]
  · rw [h2 (by decide)]
  · rw [h2 (by decide)]

/-! ### Hessian patterns -/

theorem fderiv_ev {n : ℕ} (a : ℕ) : Differentiable ℝ (fun x : Fin n → ℝ => ev x a) :=
  (ev_smooth a).differentiable (by simp)

theorem hes_const {n : ℕ} {f : (Fin n → ℝ) → ℝ} {k : Fin n} {c : ℝ} (h : ∀ x, fderiv ℝ f x (Pi.single k 1) = c)
    (x : Fin n → ℝ) (v : Fin n → ℝ) : fderiv ℝ (fun x => fderiv ℝ f x (Pi.single k 1)) x v = 0 := by
  rw [show (fun x => fderiv ℝ f x (Pi.single k 1)) = fun _ => c from funext h]
  simp

/-- **C54** (Hessian pattern) the linear operators have an empty pattern, and zero second derivatives -/
theorem vecHes_linear (op : VOpE) (m : ℕ) (h : op = .add ∨ op = .sub ∨ op = .neg) :
    HesSel (op.n m) (vecHes op m) ∧ HesZero (op.n m) m (op.fn m) (op.dom m) (vecHes op m) := by
  refine ⟨?_, ?_⟩
  · intro id sx sy e he
    rcases h with rfl | rfl | rfl <;> simp [vecHes] at he
  · intro id sx sy i _ _ j k _ _ _ _ _ _ x _ _
    rcases h with rfl | rfl | rfl
    · refine hes_const (c := (if i = k then 1 else 0) + (if m + i = k then 1 else 0)) (fun x => ?_) x _
      simp only [VOpE.fn]
      rw [fderiv_fun_add (fderiv_ev _ x) (fderiv_ev _ x), ContinuousLinearMap.add_apply, ev_fderiv, ev_fderiv]
    · refine hes_const (c := (if i = k then 1 else 0) - (if m + i = k then 1 else 0)) (fun x => ?_) x _
      simp only [VOpE.fn]
      rw [fderiv_fun_sub (fderiv_ev _ x) (fderiv_ev _ x), ContinuousLinearMap.sub_apply, ev_fderiv, ev_fderiv]
    · refine hes_const (c := -(if i = k then 1 else 0)) (fun x => ?_) x _
      simp only [VOpE.fn]
      rw [fderiv_fun_neg, ContinuousLinearMap.neg_apply, ev_fderiv]

/-- first derivatives of a product of two components -/
theorem fderiv_mul_ev {n : ℕ} (a b : ℕ) (x : Fin n → ℝ) (k : Fin n) :
    fderiv ℝ (fun x : Fin n → ℝ => ev x a * ev x b) x (Pi.single k 1)
      = ev x a * (if b = k then 1 else 0) + ev x b * (if a = k then 1 else 0) := by
  rw [fderiv_fun_mul (fderiv_ev _ x) (fderiv_ev _ x)]
  simp only [ContinuousLinearMap.add_apply, ContinuousLinearMap.smul_apply, ev_fderiv, smul_eq_mul]

/-- second derivatives of a product of two components -/
theorem fderiv2_mul_ev {n : ℕ} (a b : ℕ) (x : Fin n → ℝ) (j k : Fin n) :
    fderiv ℝ (fun x => fderiv ℝ (fun x : Fin n → ℝ => ev x a * ev x b) x (Pi.single k 1)) x (Pi.single j 1)
      = (if a = j then 1 else 0) * (if b = k then 1 else 0) + (if b = j then 1 else 0) * (if a = k then 1 else 0) := by
  simp only [fderiv_mul_ev]
  rw [fderiv_fun_add (((fderiv_ev _).mul_const _) x) (((fderiv_ev _).mul_const _) x), fderiv_mul_const (fderiv_ev _ x),
    fderiv_mul_const (fderiv_ev _ x)]
  simp only [ContinuousLinearMap.add_apply, ContinuousLinearMap.smul_apply, ev_fderiv, smul_eq_mul]
  ring

theorem mem_vecHes_mul (m : ℕ) (id sx sy : ℕ → Bool) (e : ℕ × ℕ) :
    e ∈ vecHes .mul m id sx sy ↔ ∃ i < m, sy i = true ∧ sx (m + i) = true ∧ (e = (i, m + i) ∨ e = (m + i, i)) := by
  have : vecHes .mul m id sx sy = forRange 0 m [] fun i l =>
    if sy i then
      let l := if sx i && decide (VOpE.mul ≠ .mul) then l ++ [(i, i)] else l
      if VOpE.mul.n m ≠ m then (if sx (m + i) then l ++ [(i, m + i), (m + i, i)] else l) else l
    else l := rfl
  rw [this, forRange_append [] (fun i => if sy i then (if sx (m + i) then [(i, m + i), (m + i, i)] else []) else [])]
  · constructor
    · rintro (h | ⟨i, _, hi, h⟩)
      · simp at h
      · refine ⟨i, hi, ?_⟩
        split_ifs at h with h1 h2 <;> simp at h
        exact ⟨h1, h2, h⟩
    · rintro ⟨i, hi, h1, h2, h3⟩
      refine Or.inr ⟨i, Nat.zero_le i, hi, ?_⟩
      rw [if_pos h1, if_pos h2]; simpa using h3
  · intro i l _ hi
    have : VOpE.mul.n m ≠ m := by rw [VOpE.n_eq, if_neg (by decide)]; omega
    rw [if_pos this]
    split_ifs <;> simp_all

/-- **C54** (Hessian pattern) of multiplication: every nonzero second derivative is in the pattern -/
theorem vecHes_mul (m : ℕ) : HesZero (VOpE.mul.n m) m (VOpE.mul.fn m) (VOpE.mul.dom m) (vecHes .mul m) := by
  intro id sx sy i hi hs j k hj hk _ _ h1 h2 x _ _
  simp only [VOpE.fn]
  rw [fderiv2_mul_ev]
  rw [mem_vecHes_mul] at h1 h2
  have n1 : ¬ (i = j ∧ m + i = k) := by
    rintro ⟨a, b⟩
    exact h1 ⟨i, hi, hs, by rw [b]; exact hk, Or.inl (by rw [← a, ← b])⟩
  have n2 : ¬ (i = k ∧ m + i = j) := by
    rintro ⟨a, b⟩
    exact h2 ⟨i, hi, hs, by rw [b]; exact hj, Or.inl (by rw [← a, ← b])⟩
  by_cases a : i = j
  · rw [if_neg (fun h => n1 ⟨a, h⟩)]
    by_cases b : m + i = j
    · rw [if_neg (fun h => n2 ⟨h, b⟩)]; simp
    · rw [if_neg b]; simp
  · rw [if_neg a]
    by_cases b : m + i = j
    · rw [if_neg (fun h => n2 ⟨h, b⟩)]; simp
    · rw [if_neg b]; simp

/-- **C54** (defect) the Hessian pattern of multiplication has arguments that are not selected: when the left operand of
the call is a parameter and the right operand is a variable -/
theorem vecHes_mul_not_sel : ¬ HesSel (VOpE.mul.n 1) (vecHes .mul 1) := by
  intro h
  have := h (fun _ => false) (fun j => decide (j = 1)) (fun _ => true) (0, 1) (by
    rw [mem_vecHes_mul]; exact ⟨0, by omega, rfl, by decide, Or.inl rfl⟩)
  simp at this

/-- **C54** (defect) the Hessian pattern of division does not have the second derivative of `u / v` with respect to `v` -/
theorem vecHes_div_wrong : ¬ HesZero (VOpE.div.n 1) 1 (VOpE.div.fn 1) (VOpE.div.dom 1) (vecHes .div 1) := by
  intro h
  have hp : vecHes .div 1 (fun _ => false) (fun _ => true) (fun _ => true) = [(0, 0), (0, 1), (1, 0)] := by decide
  have h1 := h (fun _ => false) (fun _ => true) (fun _ => true) 0 (by omega) rfl (⟨1, by decide⟩ : Fin (VOpE.div.n 1))
    (⟨1, by decide⟩ : Fin (VOpE.div.n 1)) rfl rfl rfl rfl (by rw [hp]; decide) (by rw [hp]; decide) (fun _ => 1)
    (by intro i hi; have : i = 0 := by omega
        subst this; simp [ev, VOpE.n, VOpE.isUnary]) (by simp)
  set v : Fin (VOpE.div.n 1) := ⟨1, by decide⟩ with hv
  -- the derivative with respect to `v` near the point
  have e0 : ∀ y : Fin (VOpE.div.n 1) → ℝ, ev y 0 = y ⟨0, by decide⟩ := fun y => ev_of_lt y (by decide)
  have e1 : ∀ y : Fin (VOpE.div.n 1) → ℝ, ev y (1 + 0) = y v := fun y => ev_of_lt y (by decide)
  have hd : ∀ y : Fin (VOpE.div.n 1) → ℝ, ev y (1 + 0) ≠ 0 →
      fderiv ℝ (fun x => VOpE.div.fn 1 x 0) y (Pi.single v 1) = -(ev y 0) / (ev y (1 + 0)) ^ 2 := by
    intro y hy
    simp only [VOpE.fn]
    refine fderiv_of_line (((ev_smooth 0).contDiffAt.fun_div (ev_smooth (1 + 0)).contDiffAt hy).differentiableAt (by simp)) ?_
    have hl : (fun t => ev (Function.update y v (y v + t)) 0 / ev (Function.update y v (y v + t)) (1 + 0))
        = fun t => ev y 0 / (y v + t) := by
      funext t
      rw [ev_update, ev_update, if_neg (by rw [hv]; simp), if_pos (by rw [hv])]
    rw [hl]
    rw [e1] at hy ⊢
    have h2 := (hasDerivAt_const (0 : ℝ) (ev y 0)).fun_div ((hasDerivAt_id' (0 : ℝ)).const_add (y v))
      (by rw [add_zero]; exact hy)
    refine h2.congr_deriv ?_
    rw [add_zero]; ring
  have hev : (fun x => fderiv ℝ (fun x => VOpE.div.fn 1 x 0) x (Pi.single v 1))
      =ᶠ[𝓝 (fun _ => (1 : ℝ))] fun y => -(ev y 0) / (ev y (1 + 0)) ^ 2 := by
    have : ∀ᶠ y : Fin (VOpE.div.n 1) → ℝ in 𝓝 (fun _ => (1 : ℝ)), ev y (1 + 0) ≠ 0 :=
      ((fderiv_ev (1 + 0)).continuous.continuousAt).eventually_ne (by rw [e1]; norm_num)
    filter_upwards [this] with y hy
    exact hd y hy
  rw [hev.fderiv_eq] at h1
  have hne : ev (fun _ : Fin (VOpE.div.n 1) => (1 : ℝ)) (1 + 0) ≠ 0 := by rw [e1]; norm_num
  have h3 : fderiv ℝ (fun y : Fin (VOpE.div.n 1) → ℝ => -(ev y 0) / (ev y (1 + 0)) ^ 2) (fun _ => (1 : ℝ)) (Pi.single v 1) = 2 := by
    refine fderiv_of_line (((ev_smooth 0).neg.contDiffAt.fun_div ((ev_smooth (1 + 0)).pow 2).contDiffAt (pow_ne_zero 2 hne)).differentiableAt
      (by simp)) ?_
    have hl : (fun t => -ev (Function.update (fun _ : Fin (VOpE.div.n 1) => (1 : ℝ)) v (1 + t)) 0
        / ev (Function.update (fun _ : Fin (VOpE.div.n 1) => (1 : ℝ)) v (1 + t)) (1 + 0) ^ 2) = fun t => -1 / (1 + t) ^ 2 := by
      funext t
      rw [ev_update, ev_update, if_neg (by rw [hv]; simp), if_pos (by rw [hv]), e0]
    rw [hl]
    have h2 := (hasDerivAt_const (0 : ℝ) (-1 : ℝ)).fun_div (((hasDerivAt_id' (0 : ℝ)).const_add (1 : ℝ)).fun_pow 2)
      (by norm_num)
    refine h2.congr_deriv ?_
    norm_num
  rw [h3] at h1
  norm_num at h1

end CppAD.AtomEx

namespace CppAD.AtomEx

/-! ### Types of the results -/

/-- `for_type`; vector/for_type.hpp:34-103.  `type_y` is `ty` on entry. -/
def vecForType (op : VOpE) (m : ℕ) (ty : ℕ → AdT) (tx : ℕ → AdT) : ℕ → AdT :=
  let ty := if op.n m = m then forRange 0 m ty fun i ty => Function.update ty i (tx i)
    else forRange 0 m ty fun i ty => Function.update ty i ((tx i).max (tx (m + i)))
  match op with
  | .add | .sub => forRange 0 m ty fun i ty => Function.update ty i ((tx i).max (tx (m + i)))
  | .mul => forRange 0 m ty fun i ty =>
      if tx i = .identicalZero then Function.update ty i .identicalZero
      else if tx (m + i) = .identicalZero then Function.update ty i .identicalZero
      else Function.update ty i ((tx i).max (tx (m + i)))
  | .div => forRange 0 m ty fun i ty =>
      if tx i = .identicalZero then Function.update ty i .identicalZero
      else Function.update ty i ((tx i).max (tx (m + i)))
  | .neg => forRange 0 m ty fun i ty => Function.update ty i (tx i)

theorem forRange_assign {α : Type*} {m : ℕ} (ty : ℕ → α) (g : ℕ → α) (body : ℕ → (ℕ → α) → ℕ → α)
    (h : ∀ i t, i < m → body i t = Function.update t i (g i)) {i : ℕ} (hi : i < m) : forRange 0 m ty body i = g i := by
  refine forRange_ind (s := ty) (f := body) (Nat.zero_le m) (fun K t => ∀ i < K, t i = g i) (by intros; omega) ?_ i hi
  intro k t _ hk ht i hi
  rw [h k t hk]
  by_cases e : i = k
  · subst e; simp
  · rw [Function.update_of_ne e]; exact ht i (by omega)

/-- **C54** (types) for every operator: the types of the results -/
theorem vecForType_ok (op : VOpE) (m : ℕ) (ty : ℕ → AdT) : ForType (op.n m) m (op.fn m) (vecForType op m ty) := by
  intro tx x x' i hi h0
  have hu : ∀ a < op.n m, tx a = .identicalZero → ev x a = 0 ∧ ev x' a = 0 := by
    intro a ha h; rw [ev_of_lt _ ha, ev_of_lt _ ha]; exact h0 ⟨a, ha⟩ h
  have n1 : i < op.n m := by rw [VOpE.n_eq]; split_ifs <;> omega
  have n2 : op ≠ .neg → m + i < op.n m := by intro h; rw [VOpE.n_eq, if_neg h]; omega
  have hz : ∀ a b : AdT, (a.max b) = .identicalZero → a = .identicalZero ∧ b = .identicalZero := by
    intro a b h; cases a <;> cases b <;> first | exact ⟨rfl, rfl⟩ | simp [AdT.max, AdT.rank] at h
  have hag : ∀ r, (∀ j : Fin (op.n m), (tx j).rank ≤ r → x j = x' j) → ∀ a < op.n m, (tx a).rank ≤ r → ev x a = ev x' a := by
    intro r h a ha h'; rw [ev_of_lt _ ha, ev_of_lt _ ha]; exact h ⟨a, ha⟩ h'
  have lm : ∀ a b : AdT, a.rank ≤ (a.max b).rank ∧ b.rank ≤ (a.max b).rank := fun a b => AdT.max_le.1 le_rfl
  cases op with
  | add =>
    have e : vecForType .add m ty tx i = (tx i).max (tx (m + i)) := forRange_assign _ _ _ (fun _ _ _ => rfl) hi
    rw [e]
    have n2 := n2 (by decide)
    refine ⟨fun h => ?_, fun h => ?_⟩
    · obtain ⟨a, b⟩ := hz _ _ h
      simp only [VOpE.fn, (hu _ n1 a).1, (hu _ n2 b).1, add_zero]
    · simp only [VOpE.fn, hag _ h _ n1 (lm _ _).1, hag _ h _ n2 (lm _ _).2]
  | sub =>
    have e : vecForType .sub m ty tx i = (tx i).max (tx (m + i)) := forRange_assign _ _ _ (fun _ _ _ => rfl) hi
    rw [e]
    have n2 := n2 (by decide)
    refine ⟨fun h => ?_, fun h => ?_⟩
    · obtain ⟨a, b⟩ := hz _ _ h
      simp only [VOpE.fn, (hu _ n1 a).1, (hu _ n2 b).1, sub_zero]
    · simp only [VOpE.fn, hag _ h _ n1 (lm _ _).1, hag _ h _ n2 (lm _ _).2]
  | neg =>
    have e : vecForType .neg m ty tx i = tx i := forRange_assign _ _ _ (fun _ _ _ => rfl) hi
    rw [e]
    refine ⟨fun h => ?_, fun h => ?_⟩
    · simp only [VOpE.fn, (hu _ n1 h).1, neg_zero]
    · simp only [VOpE.fn, hag _ h _ n1 le_rfl]
  | mul =>
    have e : vecForType .mul m ty tx i = if tx i = .identicalZero then .identicalZero
        else if tx (m + i) = .identicalZero then .identicalZero else (tx i).max (tx (m + i)) :=
      forRange_assign (g := fun i => if tx i = .identicalZero then .identicalZero
        else if tx (m + i) = .identicalZero then .identicalZero else (tx i).max (tx (m + i))) _ _
        (fun i t _ => by split_ifs <;> rfl) hi
    rw [e]
    have n2 := n2 (by decide)
    split_ifs with h1 h2
    · simp only [VOpE.fn, (hu _ n1 h1).1, (hu _ n1 h1).2, zero_mul]; exact ⟨fun _ => trivial, fun _ => trivial⟩
    · simp only [VOpE.fn, (hu _ n2 h2).1, (hu _ n2 h2).2, mul_zero]; exact ⟨fun _ => trivial, fun _ => trivial⟩
    · refine ⟨fun h => absurd (hz _ _ h).1 h1, fun h => ?_⟩
      simp only [VOpE.fn, hag _ h _ n1 (lm _ _).1, hag _ h _ n2 (lm _ _).2]
  | div =>
    have e : vecForType .div m ty tx i = if tx i = .identicalZero then .identicalZero else (tx i).max (tx (m + i)) :=
      forRange_assign (g := fun i => if tx i = .identicalZero then .identicalZero else (tx i).max (tx (m + i))) _ _
        (fun i t _ => by split_ifs <;> rfl) hi
    rw [e]
    have n2 := n2 (by decide)
    split_ifs with h1
    · simp only [VOpE.fn, (hu _ n1 h1).1, (hu _ n1 h1).2, zero_div]; exact ⟨fun _ => trivial, fun _ => trivial⟩
    · refine ⟨fun h => absurd (hz _ _ h).1 h1, fun h => ?_⟩
      simp only [VOpE.fn, hag _ h _ n1 (lm _ _).1, hag _ h _ n2 (lm _ _).2]

/-! ### The linear operators satisfy the whole contract -/

/-- **C54** the callbacks of addition, subtraction and negation satisfy the contract of an atomic function, hence all the
theorems about recordings with atomic functions apply to them -/
noncomputable def linAtom (px0 : ℕ → ℝ) (op : VOpE) (m : ℕ) (h : op = .add ∨ op = .sub ∨ op = .neg) : Atom where
  n := op.n m
  m := m
  forward := vecForward op m
  reverse := vecReverse px0 op m
  fn := op.fn m
  dom := op.dom m
  dom_open := by rcases h with rfl | rfl | rfl <;> exact isOpen_univ
  smooth := by
    intro x _ i _
    rcases h with rfl | rfl | rfl
    · exact ((ev_smooth i).add (ev_smooth (m + i))).contDiffAt
    · exact ((ev_smooth i).sub (ev_smooth (m + i))).contDiffAt
    · exact (ev_smooth i).neg.contDiffAt
  forward_zero := vecForward_zero op m
  forward_ok := vecForward_ok op m
  reverse_ok := fun sel q X tx ty py => vecReverse_ok px0 op m sel q X tx ty py trivial
  jac := vecJac op m
  jac_sel := vecJac_sel op m
  jac_zero := fun id sx sy => vecJac_zero op m id sx sy trivial
  jac_dep := fun id sx sy => vecJac_dep op m id sx sy trivial
  hes := vecHes op m
  hes_sel := (vecHes_linear op m h).1
  hes_zero := (vecHes_linear op m h).2

/-- **C54** the linear operators satisfy the contract: the atomic function has these callbacks -/
theorem linAtom_ok (px0 : ℕ → ℝ) (op : VOpE) (m : ℕ) (h : op = .add ∨ op = .sub ∨ op = .neg) :
    ∃ A : Atom, A.m = m ∧ A.n = op.n m ∧ A.forward = vecForward op m ∧ A.reverse = vecReverse px0 op m ∧
      A.jac = vecJac op m ∧ A.hes = vecHes op m ∧ HEq A.fn (op.fn m) :=
  ⟨linAtom px0 op m h, rfl, rfl, rfl, rfl, rfl, rfl, HEq.rfl⟩

end CppAD.AtomEx
