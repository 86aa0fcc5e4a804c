import Mathlib.Data.Real.Basic
import Mathlib.Tactic.SplitIfs

/-! # Types of the arguments and results of an atomic function -/

namespace CppAD.AtomEx

/-- `ad_type_enum`; core/ad_type.hpp:35-43.  The order of the constructors is the order of the values. -/
inductive AdT
  | identicalZero | constant | dynamic | var
  deriving DecidableEq

/-- value of the enumerator; core/ad_type.hpp:35-43 -/
def AdT.rank : AdT → ℕ
  | .identicalZero => 0
  | .constant => 1
  | .dynamic => 2
  | .var => 3

/-- `std::max` for `ad_type_enum` -/
def AdT.max (a b : AdT) : AdT := if a.rank < b.rank then b else a

theorem AdT.max_le {a b : AdT} {r : ℕ} : (a.max b).rank ≤ r ↔ a.rank ≤ r ∧ b.rank ≤ r := by
  unfold AdT.max; split_ifs <;> omega

theorem AdT.rank_inj {a b : AdT} (h : a.rank = b.rank) : a = b := by
  cases a <;> cases b <;> first | rfl | simp [AdT.rank] at h

/-- *Specification* of `for_type(call_id, type_x, type_y)`; core/atomic/four/for_type.hpp:10-100.  A result of a type at most
`r` (constant, or dynamic parameter) only depends on the arguments of type at most `r`, and a result that is identically
zero is zero.  Arguments that are identically zero are zero. -/
def ForType (n m : ℕ) (fn : (Fin n → ℝ) → ℕ → ℝ) (ft : (ℕ → AdT) → ℕ → AdT) : Prop :=
  ∀ (tx : ℕ → AdT) (x x' : Fin n → ℝ) (i : ℕ), i < m →
    (∀ j : Fin n, tx j = .identicalZero → x j = 0 ∧ x' j = 0) →
    (ft tx i = .identicalZero → fn x i = 0) ∧
    ((∀ j : Fin n, (tx j).rank ≤ (ft tx i).rank → x j = x' j) → fn x i = fn x' i)

end CppAD.AtomEx
