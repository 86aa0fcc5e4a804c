import Mathlib.Data.Nat.Find
import Mathlib.Logic.Function.Iterate

/-!
# `while` loops

`whileLoop c b s` is the C++ statement `while( c(s) ) s = b(s);`.
It is a least fixed point: when the loop does not terminate its value is
the opaque `Classical.ofNonempty`, about which nothing can be proved, so a
theorem which determines the result of a model function also shows that its
loops terminate.
-/

namespace CppAD

/-- the C++ loop `while( c(s) ) s = b(s);` -/
def whileLoop {σ : Type} [Nonempty σ] (c : σ → Bool) (b : σ → σ) (s : σ) : σ :=
  if c s then whileLoop c b (b s) else s
partial_fixpoint

variable {σ : Type} [Nonempty σ]

theorem whileLoop_true {c : σ → Bool} {b : σ → σ} {s : σ} (h : c s = true) :
    whileLoop c b s = whileLoop c b (b s) := by
  conv_lhs => rw [whileLoop]
  simp [h]

theorem whileLoop_false {c : σ → Bool} {b : σ → σ} {s : σ} (h : c s = false) :
    whileLoop c b s = s := by
  rw [whileLoop]; simp [h]

/-- total correctness rule: an invariant and a decreasing measure -/
theorem whileLoop_rule {c : σ → Bool} {b : σ → σ} (I : σ → Prop) (μ : σ → ℕ)
    (step : ∀ s, I s → c s = true → I (b s) ∧ μ (b s) < μ s) {s : σ} (h0 : I s) :
    I (whileLoop c b s) ∧ c (whileLoop c b s) = false := by
  generalize hn : μ s = n
  induction n using Nat.strong_induction_on generalizing s with
  | _ n ih =>
    by_cases hc : c s = true
    · rw [whileLoop_true hc]
      obtain ⟨h1, h2⟩ := step s h0 hc
      exact ih _ (hn ▸ h2) h1 rfl
    · have hc' : c s = false := by simpa using hc
      rw [whileLoop_false hc']
      exact ⟨h0, hc'⟩

end CppAD
