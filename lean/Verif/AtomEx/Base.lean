import Verif.Taylor.ModelAtom
import Verif.Taylor.FunSpec
import Verif.Taylor.Div

/-!
# Atomic functions that come with the library: what they must satisfy

`Verif/Taylor/ModelAtom.lean` has the contract of an atomic function as a structure.  Here each requirement is a
separate proposition (with the same words), so that it can be stated, or refuted, for one callback at a time.
-/

open scoped ContDiff Topology

namespace CppAD.AtomEx

/-! ### The contract, one callback at a time (compare `CppAD.Atom`) -/

section

variable (n m : ℕ) (fn : (Fin n → ℝ) → ℕ → ℝ) (dom : Set (Fin n → ℝ))

/-- *Specification*: function values, at every point -/
def ForwardZero (forward : (ℕ → Bool) → ℕ → ℕ → (ℕ → ℝ) → (ℕ → ℝ) → ℕ → ℝ) : Prop :=
  ∀ sel q tx ty, ∀ i < m, sel i = true →
    forward sel 0 q tx ty (i * (q + 1)) = fn (fun j => tx (j * (q + 1))) i

/-- *Specification*: Taylor coefficients; core/atomic/four/forward.hpp:20-150 -/
def ForwardOk (forward : (ℕ → Bool) → ℕ → ℕ → (ℕ → ℝ) → (ℕ → ℝ) → ℕ → ℝ) : Prop :=
  ∀ sel p q (X : ℝ → Fin n → ℝ) (tx ty : ℕ → ℝ), p ≤ q → (∀ j, Sm (fun t => X t j)) → X 0 ∈ dom →
    (∀ j : Fin n, ∀ k ≤ q, tx (j * (q + 1) + k) = tc (fun t => X t j) k) →
    (∀ i < m, ∀ k < p, ty (i * (q + 1) + k) = tc (fun t => fn (X t) i) k) →
    ∀ i < m, sel i = true → ∀ k, p ≤ k → k ≤ q →
      forward sel p q tx ty (i * (q + 1) + k) = tc (fun t => fn (X t) i) k

/-- *Specification*: derivatives of weighted sums of Taylor coefficients, for the weights `py` of order up to `q` that
satisfy `W q py`; core/atomic/four/reverse.hpp:20-190 -/
def ReverseOkFor (W : ℕ → (ℕ → ℝ) → Prop)
    (reverse : (ℕ → Bool) → ℕ → (ℕ → ℝ) → (ℕ → ℝ) → (ℕ → ℝ) → ℕ → ℝ) : Prop :=
  ∀ sel q (X : ℝ → Fin n → ℝ) (tx ty py : ℕ → ℝ), W q py → (∀ j, Sm (fun t => X t j)) → X 0 ∈ dom →
    (∀ j : Fin n, ∀ k ≤ q, tx (j * (q + 1) + k) = tc (fun t => X t j) k) →
    (∀ i < m, ∀ k ≤ q, ty (i * (q + 1) + k) = tc (fun t => fn (X t) i) k) →
    ∀ j : Fin n, sel j = true → ∀ k ≤ q,
      HasDerivAt (fun h => ∑ i ∈ Finset.range m, ∑ l ∈ Finset.range (q + 1),
          py (i * (q + 1) + l) * tc (fun t => fn (Function.update (X t) j (X t j + h * t ^ k)) i) l)
        (reverse sel q tx ty py (j * (q + 1) + k)) 0

/-- *Specification*: derivatives of all weighted sums of Taylor coefficients; core/atomic/four/reverse.hpp:20-190 -/
def ReverseOk (reverse : (ℕ → Bool) → ℕ → (ℕ → ℝ) → (ℕ → ℝ) → (ℕ → ℝ) → ℕ → ℝ) : Prop :=
  ReverseOkFor n m fn dom (fun _ _ => True) reverse

/-- *Specification*: the Jacobian pattern only has selected rows and columns; core/atomic/four/jac_sparsity.hpp:10-130 -/
def JacSel (jac : (ℕ → Bool) → Bool → (ℕ → Bool) → (ℕ → Bool) → List (ℕ × ℕ)) : Prop :=
  ∀ id dep sx sy, ∀ e ∈ jac id dep sx sy, (e.1 < m ∧ sy e.1 = true) ∧ e.2 < n ∧ sx e.2 = true

/-- *Specification*: selected pairs that are not in the Jacobian pattern have zero derivative; `I id` restricts the
possible `ident_zero_x`; core/atomic/four/jac_sparsity.hpp:10-130 -/
def JacZeroFor (I : (ℕ → Bool) → Prop)
    (jac : (ℕ → Bool) → Bool → (ℕ → Bool) → (ℕ → Bool) → List (ℕ × ℕ)) : Prop :=
  ∀ id sx sy, I id → ∀ i < m, sy i = true → ∀ j : Fin n, sx j = true → id j = false →
    (i, (j : ℕ)) ∉ jac id false sx sy →
    ∀ x ∈ dom, (∀ k : Fin n, id k = true → x k = 0) → fderiv ℝ (fun x => fn x i) x (Pi.single j 1) = 0

/-- *Specification*: selected pairs that are not in the dependency pattern: the result does not depend on the argument;
core/atomic/four/jac_sparsity.hpp:10-130 -/
def JacDepFor (I : (ℕ → Bool) → Prop)
    (jac : (ℕ → Bool) → Bool → (ℕ → Bool) → (ℕ → Bool) → List (ℕ × ℕ)) : Prop :=
  ∀ id sx sy, I id → ∀ i < m, sy i = true → ∀ j : Fin n, sx j = true → id j = false →
    (i, (j : ℕ)) ∉ jac id true sx sy →
    ∀ (x : Fin n → ℝ) (c : ℝ), (∀ k : Fin n, id k = true → x k = 0) → fn (Function.update x j c) i = fn x i

/-- *Specification*: the Hessian pattern only has selected arguments; core/atomic/four/hes_sparsity.hpp:10-120 -/
def HesSel (hes : (ℕ → Bool) → (ℕ → Bool) → (ℕ → Bool) → List (ℕ × ℕ)) : Prop :=
  ∀ id sx sy, ∀ e ∈ hes id sx sy, (e.1 < n ∧ sx e.1 = true) ∧ e.2 < n ∧ sx e.2 = true

/-- *Specification*: selected pairs that are not in the Hessian pattern have zero second derivative;
core/atomic/four/hes_sparsity.hpp:10-120 -/
def HesZero (hes : (ℕ → Bool) → (ℕ → Bool) → (ℕ → Bool) → List (ℕ × ℕ)) : Prop :=
  ∀ id sx sy, ∀ i < m, sy i = true → ∀ j k : Fin n, sx j = true → sx k = true → id j = false → id k = false →
    ((j : ℕ), (k : ℕ)) ∉ hes id sx sy → ((k : ℕ), (j : ℕ)) ∉ hes id sx sy →
    ∀ x ∈ dom, (∀ l : Fin n, id l = true → x l = 0) →
      fderiv ℝ (fun x => fderiv ℝ (fun x => fn x i) x (Pi.single k 1)) x (Pi.single j 1) = 0

/-- *Specification*: `rev_depend(call_id, ident_zero_x, depend_x, depend_y)`, with all of `depend_x` false on entry: when two
points agree at the arguments that are needed, the results that are needed agree;
core/atomic/four/rev_depend.hpp:10-110 -/
def RevDepend (dep : (ℕ → Bool) → ℕ → Bool) : Prop :=
  ∀ (dy : ℕ → Bool) (x x' : Fin n → ℝ), (∀ j : Fin n, dep dy j = true → x j = x' j) →
    ∀ i < m, dy i = true → fn x i = fn x' i

end

/-! ### Vectors as functions of the index -/

/-- component `i` of `x`, zero when there is no such component -/
def ev {n : ℕ} (x : Fin n → ℝ) (i : ℕ) : ℝ := if h : i < n then x ⟨i, h⟩ else 0

theorem ev_val {n : ℕ} (x : Fin n → ℝ) (j : Fin n) : ev x j = x j := by simp [ev]

theorem ev_of_lt {n : ℕ} (x : Fin n → ℝ) {i : ℕ} (h : i < n) : ev x i = x ⟨i, h⟩ := by simp [ev, h]

theorem ev_update {n : ℕ} (x : Fin n → ℝ) (j : Fin n) (c : ℝ) (i : ℕ) :
    ev (Function.update x j c) i = if i = j then c else ev x i := by
  unfold ev
  by_cases h : i < n
  · rw [dif_pos h, dif_pos h]
    by_cases e : i = j
    · subst e; simp
    · rw [if_neg e, Function.update_of_ne]
      intro h'; exact e (by rw [← h'])
  · rw [dif_neg h, dif_neg h, if_neg]
    have := j.isLt; omega

theorem ev_smooth {n : ℕ} (i : ℕ) : ContDiff ℝ ∞ (fun x : Fin n → ℝ => ev x i) := by
  unfold ev
  by_cases h : i < n
  · simp only [dif_pos h]; exact contDiff_apply ℝ ℝ _
  · simp only [dif_neg h]; exact contDiff_const

theorem ev_sm {n : ℕ} {X : ℝ → Fin n → ℝ} (hX : ∀ j, Sm (fun t => X t j)) (i : ℕ) : Sm (fun t => ev (X t) i) := by
  unfold ev
  by_cases h : i < n
  · simp only [dif_pos h]; exact hX _
  · simp only [dif_neg h]; exact contDiffAt_const

theorem ev_fderiv {n : ℕ} (x : Fin n → ℝ) (i : ℕ) (j : Fin n) :
    fderiv ℝ (fun x : Fin n → ℝ => ev x i) x (Pi.single j 1) = if i = j then 1 else 0 := by
  unfold ev
  by_cases h : i < n
  · simp only [dif_pos h]
    have := (hasFDerivAt_apply (𝕜 := ℝ) (⟨i, h⟩ : Fin n) x).fderiv
    rw [this]
    simp only [ContinuousLinearMap.proj_apply, Pi.single_apply]
    by_cases e : i = j
    · rw [if_pos e, if_pos (Fin.ext e)]
    · rw [if_neg e, if_neg (fun h => e (congrArg Fin.val h))]
  · simp only [dif_neg h, fderiv_fun_const]
    rw [if_neg (by have := j.isLt; omega)]; simp

/-! ### Loops -/

theorem idx_inj {q a b k l : ℕ} (hk : k < q) (hl : l < q) (h : a * q + k = b * q + l) : a = b ∧ k = l := by
  have h1 : (a * q + k) / q = (b * q + l) / q := by rw [h]
  have h2 : (a * q + k) % q = (b * q + l) % q := by rw [h]
  rw [Nat.mul_comm a, Nat.mul_comm b, Nat.mul_add_div (by omega), Nat.mul_add_div (by omega), Nat.div_eq_of_lt hk,
    Nat.div_eq_of_lt hl] at h1
  rw [Nat.mul_comm a, Nat.mul_comm b, Nat.mul_add_mod, Nat.mul_add_mod, Nat.mod_eq_of_lt hk, Nat.mod_eq_of_lt hl] at h2
  omega

theorem idx_iff {q a b k l : ℕ} (hk : k < q) (hl : l < q) : a * q + k = b * q + l ↔ a = b ∧ k = l :=
  ⟨idx_inj hk hl, fun h => by rw [h.1, h.2]⟩

theorem vset_self (v : ℕ → ℝ) (i : ℕ) (x : ℝ) : vset v i x i = x := by simp [vset]

theorem vset_ne (v : ℕ → ℝ) {i j : ℕ} (x : ℝ) (h : j ≠ i) : vset v i x j = v j := by simp [vset, h]

/-- `v[i] += x` -/
def vadd (v : ℕ → ℝ) (i : ℕ) (x : ℝ) : ℕ → ℝ := vset v i (v i + x)

theorem vadd_apply (v : ℕ → ℝ) (i : ℕ) (x : ℝ) (c : ℕ) : vadd v i x c = v c + if c = i then x else 0 := by
  unfold vadd vset
  by_cases h : c = i
  · simp [h]
  · simp [h]

/-- a loop in which each step adds something (independent of the state) to each element -/
theorem forRange_additive {lo hi : ℕ} (v : ℕ → ℝ) (body : ℕ → (ℕ → ℝ) → ℕ → ℝ) (G : ℕ → ℕ → ℝ)
    (h : ∀ k v c, lo ≤ k → k < hi → body k v c = v c + G k c) (c : ℕ) :
    forRange lo hi v body c = v c + ∑ k ∈ Finset.Ico lo hi, G k c := by
  rcases le_total hi lo with hle | hle
  · rw [forRange_of_le hle, Finset.Ico_eq_empty (by omega)]; simp
  · refine forRange_ind (s := v) hle (fun k t => t c = v c + ∑ k ∈ Finset.Ico lo k, G k c) (by simp) ?_
    intro k t h1 h2 ht
    rw [h k t c h1 h2, ht, Finset.sum_Ico_succ_top h1, add_assoc]

theorem forDown0_additive {n : ℕ} (v : ℕ → ℝ) (body : ℕ → (ℕ → ℝ) → ℕ → ℝ) (G : ℕ → ℕ → ℝ)
    (h : ∀ k v c, k < n → body k v c = v c + G k c) (c : ℕ) :
    forDown0 n v body c = v c + ∑ k ∈ Finset.range n, G k c := by
  induction n generalizing v with
  | zero => simp [forDown0]
  | succ n ih =>
    rw [forDown0, ih _ (fun k v c hk => h k v c (by omega)), h n v c (by omega), Finset.sum_range_succ]
    ring

/-- a loop that accumulates in one element -/
theorem forRange_acc {lo hi : ℕ} (v : ℕ → ℝ) (c : ℕ) (g : ℕ → (ℕ → ℝ) → ℝ)
    (hg : ∀ k, lo ≤ k → k < hi → ∀ s s' : ℕ → ℝ, (∀ i, i ≠ c → s i = s' i) → g k s = g k s') :
    forRange lo hi v (fun k v => vset v c (v c + g k v)) = vset v c (v c + ∑ k ∈ Finset.Ico lo hi, g k v) := by
  rcases le_total hi lo with hle | hle
  · rw [forRange_of_le hle, Finset.Ico_eq_empty (by omega)]
    funext i; by_cases e : i = c <;> simp [vset, e]
  · refine forRange_ind (s := v) hle (fun k t => t = vset v c (v c + ∑ k ∈ Finset.Ico lo k, g k v)) ?_ ?_
    · funext i; by_cases e : i = c <;> simp [vset, e]
    · intro k t h1 h2 ht
      subst ht
      rw [hg k h1 h2 (vset v c (v c + ∑ k ∈ Finset.Ico lo k, g k v)) v (fun i hi => vset_ne _ _ hi)]
      rw [Finset.sum_Ico_succ_top h1]
      funext i; by_cases e : i = c <;> simp [vset, e, add_assoc]

/-- loops that assign element `i * q + k` for `i < m`, `p ≤ k < q`, the orders outside -/
theorem fill_outer {m p q : ℕ} (hpq : p ≤ q) (ty : ℕ → ℝ) (g : ℕ → ℕ → ℝ) {i k : ℕ} (hi : i < m) (hp : p ≤ k) (hk : k < q) :
    (forRange p q ty fun k ty => forRange 0 m ty fun i ty => vset ty (i * q + k) (g i k)) (i * q + k) = g i k := by
  have := forRange_ind (s := ty) (f := fun k ty => forRange 0 m ty fun i ty => vset ty (i * q + k) (g i k)) hpq
    (fun K t => ∀ i < m, ∀ k, p ≤ k → k < K → t (i * q + k) = g i k) (by intros; omega) ?_
  · exact this i hi k hp hk
  · intro K t h1 h2 ht
    have h3 := forRange_ind (s := t) (f := fun i ty => vset ty (i * q + K) (g i K)) (Nat.zero_le m)
      (fun I t => (∀ i < m, ∀ k, p ≤ k → k < K → t (i * q + k) = g i k) ∧ ∀ i < I, t (i * q + K) = g i K)
      ⟨ht, by intros; omega⟩ ?_
    · intro i hi k hp hk
      by_cases e : k = K
      · subst e; exact h3.2 i hi
      · exact h3.1 i hi k hp (by omega)
    · rintro I s _ hI ⟨hs1, hs2⟩
      constructor
      · intro i hi k hp hk
        rw [vset_ne _ _ (fun h => by have := (idx_inj (by omega) (by omega) h).2; omega)]
        exact hs1 i hi k hp hk
      · intro i hi
        by_cases e : i = I
        · subst e; rw [vset_self]
        · rw [vset_ne _ _ (fun h => e (idx_inj h2 h2 h).1)]
          exact hs2 i (by omega)

/-- loops that assign element `i * q + k` for `i < m`, `p ≤ k < q`, the rows outside; the value may depend on the lower
orders of the same row -/
theorem fill_inner {m p q : ℕ} (hpq : p ≤ q) (ty : ℕ → ℝ) (val : ℕ → ℕ → (ℕ → ℝ) → ℝ) (P : ℕ → ℕ → ℝ → Prop)
    (hlow : ∀ i < m, ∀ k < p, P i k (ty (i * q + k)))
    (hval : ∀ i < m, ∀ k, p ≤ k → k < q → ∀ s : ℕ → ℝ, (∀ k' < k, P i k' (s (i * q + k'))) → P i k (val i k s))
    {i k : ℕ} (hi : i < m) (hk : k < q) :
    P i k ((forRange 0 m ty fun i ty => forRange p q ty fun k ty => vset ty (i * q + k) (val i k ty)) (i * q + k)) := by
  have := forRange_ind (s := ty) (f := fun i ty => forRange p q ty fun k ty => vset ty (i * q + k) (val i k ty))
    (Nat.zero_le m)
    (fun I t => (∀ i < I, ∀ k < q, P i k (t (i * q + k))) ∧ ∀ i < m, ∀ k < p, P i k (t (i * q + k)))
    ⟨by intros; omega, hlow⟩ ?_
  · exact this.1 i hi k hk
  · rintro I t _ hI ⟨ht1, ht2⟩
    have h3 := forRange_ind (s := t) (f := fun k ty => vset ty (I * q + k) (val I k ty)) hpq
      (fun K t => (∀ i < I, ∀ k < q, P i k (t (i * q + k))) ∧ (∀ i < m, ∀ k < p, P i k (t (i * q + k)))
        ∧ ∀ k < K, P I k (t (I * q + k)))
      ⟨ht1, ht2, fun k hk => ht2 I hI k hk⟩ ?_
    · refine ⟨?_, h3.2.1⟩
      intro i hi k hk
      by_cases e : i = I
      · subst e; exact h3.2.2 k hk
      · exact h3.1 i (by omega) k hk
    · rintro K s h1 h2 ⟨a1, a2, a3⟩
      refine ⟨?_, ?_, ?_⟩
      · intro i hi k hk
        rw [vset_ne _ _ (fun h => by have := (idx_inj hk h2 h).1; omega)]
        exact a1 i hi k hk
      · intro i hi k hk
        rw [vset_ne _ _ (fun h => by have := (idx_inj (by omega) h2 h).2; omega)]
        exact a2 i hi k hk
      · intro k hk
        by_cases e : k = K
        · subst e; rw [vset_self]; exact hval I hI k h1 h2 s a3
        · rw [vset_ne _ _ (fun h => e (idx_inj (by omega) h2 h).2)]
          exact a3 k (by omega)

/-- loops that assign two elements in each step -/
theorem fill_pair {m q : ℕ} (px : ℕ → ℝ) (f g : ℕ → ℕ → ℝ) {i k : ℕ} (hi : i < m) (hk : k < q) :
    let r := forRange 0 q px fun k px => forRange 0 m px fun i px =>
      vset (vset px (i * q + k) (f i k)) ((m + i) * q + k) (g i k)
    r (i * q + k) = f i k ∧ r ((m + i) * q + k) = g i k := by
  intro r
  have := forRange_ind (s := px) (f := fun k px => forRange 0 m px fun i px =>
      vset (vset px (i * q + k) (f i k)) ((m + i) * q + k) (g i k)) (Nat.zero_le q)
    (fun K t => ∀ i < m, ∀ k < K, t (i * q + k) = f i k ∧ t ((m + i) * q + k) = g i k) (by intros; omega) ?_
  · exact this i hi k hk
  · intro K t h1 h2 ht
    have h3 := forRange_ind (s := t) (f := fun i px =>
        vset (vset px (i * q + K) (f i K)) ((m + i) * q + K) (g i K)) (Nat.zero_le m)
      (fun I t => (∀ i < m, ∀ k < K, t (i * q + k) = f i k ∧ t ((m + i) * q + k) = g i k) ∧
        ∀ i < I, t (i * q + K) = f i K ∧ t ((m + i) * q + K) = g i K)
      ⟨ht, by intros; omega⟩ ?_
    · intro i hi k hk
      by_cases e : k = K
      · subst e; exact h3.2 i hi
      · exact h3.1 i hi k (by omega)
    · rintro I s _ hI ⟨hs1, hs2⟩
      constructor
      · intro i hi k hk
        rw [vset_ne _ _ (fun h => by have := (idx_inj (by omega) (by omega) h).2; omega),
          vset_ne _ _ (fun h => by have := (idx_inj (by omega) (by omega) h).2; omega),
          vset_ne _ _ (fun h => by have := (idx_inj (by omega) (by omega) h).2; omega),
          vset_ne _ _ (fun h => by have := (idx_inj (by omega) (by omega) h).2; omega)]
        exact hs1 i hi k hk
      · intro i hi
        by_cases e : i = I
        · subst e
          rw [vset_ne _ _ (fun h => by have := (idx_inj h2 h2 h).1; omega), vset_self, vset_self]
          exact ⟨rfl, rfl⟩
        · rw [vset_ne _ _ (fun h => by have := (idx_inj h2 h2 h).1; omega),
            vset_ne _ _ (fun h => by have := (idx_inj h2 h2 h).1; omega),
            vset_ne _ _ (fun h => by have := (idx_inj h2 h2 h).1; omega),
            vset_ne _ _ (fun h => by have := (idx_inj h2 h2 h).1; omega)]
          exact hs2 i (by omega)

/-- a loop on a pair in which the components do not interact -/
theorem forRange_pair {α β : Type*} {lo hi : ℕ} (a : α) (b : β) (f : ℕ → α → α) (g : ℕ → β → β) :
    forRange lo hi (a, b) (fun d s => (f d s.1, g d s.2)) = (forRange lo hi a f, forRange lo hi b g) := by
  rcases le_total hi lo with hle | hle
  · rw [forRange_of_le hle, forRange_of_le hle, forRange_of_le hle]
  · refine forRange_ind (s := (a, b)) hle (fun k t => t = (forRange lo k a f, forRange lo k b g)) ?_ ?_
    · rw [forRange_of_le le_rfl, forRange_of_le le_rfl]
    · intro k t h1 h2 ht
      subst ht
      rw [forRange_succ h1, forRange_succ h1]

/-- a loop that sets elements to zero -/
theorem fill_zero {m q : ℕ} (o : ℕ) (px : ℕ → ℝ) {i k : ℕ} (hi : i < m) (hk : k < q) :
    (forRange 0 m px fun i px => forRange 0 q px fun k px => vset px ((i + o) * q + k) 0) ((i + o) * q + k) = 0 := by
  have h0 : ∀ (c : ℕ) (v : ℕ → ℝ) (a x : ℝ) (j : ℕ), x = 0 → v c = x → vset v j 0 c = 0 := by
    intro c v a x j hx hv
    by_cases e : c = j
    · subst e; exact vset_self _ _ _
    · rw [vset_ne _ _ e, hv, hx]
  have := forRange_ind (s := px) (f := fun i px => forRange 0 q px fun k px => vset px ((i + o) * q + k) 0) (Nat.zero_le m)
    (fun I t => ∀ i < I, ∀ k < q, t ((i + o) * q + k) = 0) (by intros; omega) ?_
  · exact this i hi k hk
  · intro I t _ _ ht
    have h3 := forRange_ind (s := t) (f := fun k px => vset px ((I + o) * q + k) 0) (Nat.zero_le q)
      (fun K t => (∀ i < I, ∀ k < q, t ((i + o) * q + k) = 0) ∧ ∀ k < K, t ((I + o) * q + k) = 0)
      ⟨ht, by intros; omega⟩ ?_
    · intro i hi k hk
      by_cases e : i = I
      · subst e; exact h3.2 k hk
      · exact h3.1 i (by omega) k hk
    · rintro K s _ _ ⟨a1, a2⟩
      refine ⟨fun i hi k hk => h0 _ _ 0 _ _ rfl (a1 i hi k hk), fun k hk => ?_⟩
      by_cases e : k = K
      · subst e; exact vset_self _ _ _
      · exact h0 _ _ 0 _ _ rfl (a2 k (by omega))

/-! ### Taylor series -/

open PowerSeries

theorem T_bump {f : ℝ → ℝ} (hf : Sm f) (h : ℝ) (k : ℕ) :
    T (fun t => f t + h * t ^ k) = T f + C h * X ^ k := by
  have hm : Sm (fun t : ℝ => h * t ^ k) := by unfold Sm; fun_prop
  rw [T_add hf hm]
  congr 1
  ext l
  rw [coeff_T, tc_mono, coeff_C_mul, coeff_X_pow]
  by_cases e : l = k <;> simp [e]

theorem tc_eq (f : ℝ → ℝ) (k : ℕ) : tc f k = coeff k (T f) := (coeff_T f k).symm

/-- coefficients of `X ^ k * F` -/
theorem coeff_X_pow_mul_ite (F : ℝ⟦X⟧) (k l : ℕ) : coeff l (X ^ k * F) = if k ≤ l then coeff (l - k) F else 0 :=
  PowerSeries.coeff_X_pow_mul' F k l

/-- the derivative with respect to argument `j` from the function of that argument -/
theorem fderiv_of_line {n : ℕ} {f : (Fin n → ℝ) → ℝ} {x : Fin n → ℝ} {j : Fin n} {d : ℝ} (hd : DifferentiableAt ℝ f x)
    (hf : HasDerivAt (fun t => f (Function.update x j (x j + t))) d 0) : fderiv ℝ f x (Pi.single j 1) = d := by
  have h1 : HasDerivAt (fun t : ℝ => x + t • (Pi.single j (1 : ℝ) : Fin n → ℝ)) (Pi.single j 1) 0 := by
    have := ((hasDerivAt_id (0 : ℝ)).smul_const (Pi.single j (1 : ℝ) : Fin n → ℝ)).const_add x
    simpa using this
  have h2 : HasDerivAt (fun t : ℝ => f (x + t • (Pi.single j (1 : ℝ) : Fin n → ℝ))) (fderiv ℝ f x (Pi.single j 1)) 0 := by
    have h3 : HasFDerivAt f (fderiv ℝ f x) (x + (0 : ℝ) • (Pi.single j (1 : ℝ) : Fin n → ℝ)) := by
      simpa using hd.hasFDerivAt
    exact h3.comp_hasDerivAt 0 h1
  have e : (fun t : ℝ => f (x + t • (Pi.single j (1 : ℝ) : Fin n → ℝ))) = fun t => f (Function.update x j (x j + t)) := by
    funext t
    congr 1
    funext i
    by_cases hi : i = j
    · subst hi; simp
    · rw [Function.update_of_ne hi]; simp [hi]
  rw [e] at h2
  exact h2.unique hf

/-- a function that does not change when argument `j` changes has zero derivative with respect to it -/
theorem fderiv_indep {n : ℕ} {f : (Fin n → ℝ) → ℝ} {x : Fin n → ℝ} {j : Fin n}
    (hf : ∀ c, f (Function.update x j c) = f x) : fderiv ℝ f x (Pi.single j 1) = 0 := by
  by_cases hd : DifferentiableAt ℝ f x
  · exact fderiv_of_line hd (by simp only [hf]; exact hasDerivAt_const _ _)
  · rw [fderiv_zero_of_not_differentiableAt hd]; rfl

end CppAD.AtomEx
