import Mathlib.Algebra.BigOperators.Intervals
import Mathlib.Data.Real.Basic
import Mathlib.Tactic.Ring
import Mathlib.Tactic.Linarith

/-! # Loops and two dimensional arrays used by the models of C++ loops -/

namespace CppAD

/-- The C++ loop `for(k = lo; k < hi; ++k) body(k)`. -/
def forRange {σ : Type*} (lo hi : ℕ) (s : σ) (body : ℕ → σ → σ) : σ :=
  (List.range' lo (hi - lo)).foldl (fun s k => body k s) s

/-- The C++ loop `j = n; while(j) { body(j); --j; }`. -/
def forDown {σ : Type*} : ℕ → σ → (ℕ → σ → σ) → σ
  | 0, s, _ => s
  | n + 1, s, body => forDown n (body (n + 1) s) body

/-- The C++ loop `j = n; while(j) { --j; body(j); }`. -/
def forDown0 {σ : Type*} : ℕ → σ → (ℕ → σ → σ) → σ
  | 0, s, _ => s
  | n + 1, s, body => forDown0 n (body n s) body

theorem forRange_of_le {σ : Type*} {lo hi : ℕ} (h : hi ≤ lo) (s : σ) (f : ℕ → σ → σ) :
    forRange lo hi s f = s := by
  simp [forRange, Nat.sub_eq_zero_of_le h]

theorem forRange_succ {σ : Type*} {lo hi : ℕ} (h : lo ≤ hi) (s : σ) (f : ℕ → σ → σ) :
    forRange lo (hi + 1) s f = f hi (forRange lo hi s f) := by
  unfold forRange
  rw [Nat.succ_sub h, Nat.succ_eq_add_one, List.range'_concat]
  simp [Nat.add_sub_cancel' h]

theorem forRange_ind {σ : Type*} {lo hi : ℕ} (h : lo ≤ hi) {s : σ} {f : ℕ → σ → σ}
    (P : ℕ → σ → Prop) (h0 : P lo s)
    (hs : ∀ k s, lo ≤ k → k < hi → P k s → P (k + 1) (f k s)) :
    P hi (forRange lo hi s f) := by
  induction hi, h using Nat.le_induction with
  | base => rw [forRange_of_le le_rfl]; exact h0
  | succ n hn ih =>
    rw [forRange_succ hn]
    exact hs n _ hn (Nat.lt_succ_self n)
      (ih fun k s h1 h2 => hs k s h1 (Nat.lt_succ_of_lt h2))

/-- Induction for a loop that may be empty. -/
theorem forRange_inv {σ : Type*} {lo hi : ℕ} {s : σ} {f : ℕ → σ → σ}
    (P : σ → Prop) (h0 : P s)
    (hs : ∀ k s, lo ≤ k → k < hi → P s → P (f k s)) :
    P (forRange lo hi s f) := by
  rcases le_total lo hi with h | h
  · exact forRange_ind h (fun _ s => P s) h0 hs
  · rw [forRange_of_le h]; exact h0

theorem forDown_ind {σ : Type*} {n : ℕ} {s : σ} {f : ℕ → σ → σ}
    (P : ℕ → σ → Prop) (h0 : P n s)
    (hs : ∀ j s, j < n → P (j + 1) s → P j (f (j + 1) s)) :
    P 0 (forDown n s f) := by
  induction n generalizing s with
  | zero => exact h0
  | succ n ih =>
    exact ih (hs n s (Nat.lt_succ_self n) h0)
      (fun j s hj => hs j s (Nat.lt_succ_of_lt hj))

theorem forDown0_ind {σ : Type*} {n : ℕ} {s : σ} {f : ℕ → σ → σ}
    (P : ℕ → σ → Prop) (h0 : P n s)
    (hs : ∀ j s, j < n → P (j + 1) s → P j (f j s)) :
    P 0 (forDown0 n s f) := by
  induction n generalizing s with
  | zero => exact h0
  | succ n ih =>
    exact ih (hs n s (Nat.lt_succ_self n) h0)
      (fun j s hj => hs j s (Nat.lt_succ_of_lt hj))

theorem forRange_congr {σ : Type*} {lo hi : ℕ} (s : σ) {f g : ℕ → σ → σ}
    (h : ∀ k s, lo ≤ k → k < hi → f k s = g k s) : forRange lo hi s f = forRange lo hi s g := by
  rcases le_total hi lo with h' | h'
  · rw [forRange_of_le h', forRange_of_le h']
  · refine forRange_ind (P := fun m t => t = forRange lo m s g) h' ?_ ?_
    · rw [forRange_of_le le_rfl]
    · intro k t h1 h2 ht; subst ht; rw [forRange_succ h1, h k _ h1 h2]

/-- the idiom `if( p == 0 ) { body(0); p++; } for(j = p; j < hi; ++j) body(j);` -/
theorem forRange_peel {σ : Type*} {p hi : ℕ} (h : p < hi) (s : σ) (f : ℕ → σ → σ) :
    forRange (if p = 0 then 1 else p) hi (if p = 0 then f 0 s else s) f = forRange p hi s f := by
  by_cases hp : p = 0
  · subst hp
    simp only [if_true]
    refine forRange_ind (P := fun m t => t = forRange 0 m s f) h ?_ ?_
    · simp [forRange]
    · intro k t h1 h2 ht; subst ht; rw [forRange_succ (Nat.zero_le k)]
  · simp [hp]

/-- Coefficients, first index is the variable, second index is the order. -/
abbrev Tay := ℕ → ℕ → ℝ

/-- assignment `a[i][k] = v` -/
def Tay.set (s : Tay) (i k : ℕ) (v : ℝ) : Tay :=
  fun i' k' => if i' = i ∧ k' = k then v else s i' k'

/-- `a[i][k] += v` -/
def Tay.add (s : Tay) (i k : ℕ) (v : ℝ) : Tay := s.set i k (s i k + v)

@[simp] theorem Tay.set_self (s : Tay) (i k : ℕ) (v : ℝ) : s.set i k v i k = v := by
  simp [Tay.set]

theorem Tay.set_apply (s : Tay) (i k : ℕ) (v : ℝ) (i' k' : ℕ) :
    s.set i k v i' k' = if i' = i ∧ k' = k then v else s i' k' := rfl

theorem Tay.set_ne_row (s : Tay) {i i' : ℕ} (k : ℕ) (v : ℝ) (k' : ℕ) (h : i' ≠ i) :
    s.set i k v i' k' = s i' k' := by simp [Tay.set, h]

theorem Tay.set_ne_ord (s : Tay) (i i' : ℕ) {k k' : ℕ} (v : ℝ) (h : k' ≠ k) :
    s.set i k v i' k' = s i' k' := by simp [Tay.set, h]

@[simp] theorem Tay.add_self (s : Tay) (i k : ℕ) (v : ℝ) : s.add i k v i k = s i k + v := by
  simp [Tay.add]

theorem Tay.add_apply (s : Tay) (i k : ℕ) (v : ℝ) (i' k' : ℕ) :
    s.add i k v i' k' = if i' = i ∧ k' = k then s i k + v else s i' k' := rfl

theorem Tay.add_ne_row (s : Tay) {i i' : ℕ} (k : ℕ) (v : ℝ) (k' : ℕ) (h : i' ≠ i) :
    s.add i k v i' k' = s i' k' := by simp [Tay.add_apply, h]

theorem Tay.add_ne_ord (s : Tay) (i i' : ℕ) {k k' : ℕ} (v : ℝ) (h : k' ≠ k) :
    s.add i k v i' k' = s i' k' := by simp [Tay.add_apply, h]

/-- A loop that accumulates into one cell, where the summand does not depend on that cell. -/
theorem forRange_accum {lo hi : ℕ} (s : Tay) (z j : ℕ) (g : ℕ → Tay → ℝ)
    (hg : ∀ k v, lo ≤ k → k < hi → g k (s.set z j v) = g k s) :
    forRange lo hi s (fun k s => s.add z j (g k s))
      = s.set z j (s z j + ∑ k ∈ Finset.Ico lo hi, g k s) := by
  rcases le_total hi lo with h | h
  · rw [forRange_of_le h, Finset.Ico_eq_empty_of_le h]
    funext a b; simp only [Tay.set_apply]; split <;> simp_all
  · refine forRange_ind (P := fun m t => t = s.set z j (s z j + ∑ k ∈ Finset.Ico lo m, g k s))
      h ?_ ?_
    · funext a b; simp only [Tay.set_apply]; split <;> simp_all
    · intro k t h1 h2 ht
      subst ht
      rw [Tay.add, hg k _ h1 h2, Finset.sum_Ico_succ_top h1, Tay.set_self]
      funext a b; simp only [Tay.set_apply]; split <;> simp_all [add_assoc]

/-- A loop over orders that, at order `j`, only changes rows in `R` at order `j`, and establishes
a relation `Q j` that only involves rows in `R` at orders at most `j`. -/
theorem forRange_rows {p hi : ℕ} (hp : p ≤ hi) (s : Tay) (f : ℕ → Tay → Tay) (R : ℕ → Prop)
    (Q : ℕ → Tay → Prop)
    (hf : ∀ j s, p ≤ j → j < hi → ∀ v k, ¬ (R v ∧ k = j) → f j s v k = s v k)
    (hQ : ∀ j s, p ≤ j → j < hi → Q j (f j s))
    (hloc : ∀ j s s', p ≤ j → j < hi → (∀ v k, (¬ R v ∨ k ≤ j) → s v k = s' v k) → Q j s → Q j s') :
    (∀ j, p ≤ j → j < hi → Q j (forRange p hi s f)) ∧
    (∀ v k, ¬ (R v ∧ p ≤ k ∧ k < hi) → forRange p hi s f v k = s v k) := by
  have : ∀ m, p ≤ m → m ≤ hi → 
      (∀ j, p ≤ j → j < m → Q j (forRange p m s f)) ∧
      (∀ v k, ¬ (R v ∧ p ≤ k ∧ k < m) → forRange p m s f v k = s v k) := by
    intro m hm
    induction m, hm using Nat.le_induction with
    | base =>
      intro _; refine ⟨fun j h1 h2 => by omega, fun v k _ => by rw [forRange_of_le le_rfl]⟩
    | succ n hn ih =>
      intro hle
      obtain ⟨i1, i2⟩ := ih (by omega)
      rw [forRange_succ hn]
      constructor
      · intro j h1 h2
        rcases Nat.lt_succ_iff_lt_or_eq.mp h2 with h3 | h3
        · refine hloc j _ _ h1 (by omega) (fun v k hvk => ?_) (i1 j h1 h3)
          rw [hf n _ hn (by omega)]
          rintro ⟨hR, hk⟩
          rcases hvk with h | h
          · exact h hR
          · omega
        · subst h3; exact hQ _ _ hn (by omega)
      · intro v k hvk
        rw [hf n _ hn (by omega) v k (by rintro ⟨a, b⟩; exact hvk ⟨a, by omega, by omega⟩)]
        exact i2 v k (by rintro ⟨a, b, c⟩; exact hvk ⟨a, by omega, by omega⟩)
  exact this hi hp le_rfl

end CppAD
