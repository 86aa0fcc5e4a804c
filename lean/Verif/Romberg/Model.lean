import Verif.Taylor.Loop

/-!
# `RombergOne` and `RombergMul`

utility/romberg_one.hpp and utility/romberg_mul.hpp with `Float` the real numbers.  The integrand `F` is an object whose call operator
may change its state `σ` (this is used by `RombergMul`, where it accumulates error estimates).
-/

namespace CppAD.Romberg

/-- The conversion `int(m)` of a `size_t` to a 32 bit `int`, used at romberg_one.hpp:178,196 -/
def toInt (m : ℕ) : ℤ := ((m : ℤ) + 2 ^ 31) % 2 ^ 32 - 2 ^ 31

/-- the vector `r`, the only assignments are `r[i] = v` -/
abbrev Vec := ℕ → ℝ

/-- romberg_one.hpp:176-186, the body of the loop that computes the trapezoidal rule with `2^i` intervals.
The loop `for(k = 1; k < ipow2; k += 2)` is a loop over `j` with `k = 2 * j + 1`. -/
noncomputable def trapStep {σ : Type} (F : ℝ → σ → ℝ × σ) (a b : ℝ) (i : ℕ) (t : ℕ × Vec × σ) : ℕ × Vec × σ :=
  let ipow2 := t.1 * 2
  let pow2 : ℝ := toInt ipow2
  let s := forRange 0 (ipow2 / 2) ((0 : ℝ), t.2.2) fun j u =>
    let k : ℕ := 2 * j + 1
    let x := ((pow2 - k) * a + k * b) / pow2
    let y := F x u.2
    (u.1 + y.1, y.2)
  (ipow2, Function.update t.2.1 i (t.2.1 (i - 1) / 2 + s.1 * (b - a) / pow2), s.2)

/-- romberg_one.hpp:195-199, the body of the loop that computes the higher order estimates.
The loop `for(k = n-1; k > i; k--)` is a loop over `j` from `n-1-i` down to 1 with `k = i + j`. -/
noncomputable def highStep (n i : ℕ) (t : ℕ × Vec) : ℕ × Vec :=
  let ipow4 := t.1 * 4
  let pow4 : ℝ := toInt ipow4
  let pow4minus : ℝ := ((ipow4 - 1 : ℕ) : ℝ)
  (ipow4, forDown (n - 1 - i) t.2 fun j r =>
    let k := i + j
    Function.update r k ((pow4 * r k - r (k - 1)) / pow4minus))

/-- `RombergOne`, romberg_one.hpp:148-207; the result is the return value, the output `e` and the final state of `F`.
In `F(a) + F(b)` the order of the calls, which C++ does not specify, is left to right. -/
noncomputable def rombergOne {σ : Type} (F : ℝ → σ → ℝ × σ) (a b : ℝ) (n p : ℕ) (s : σ) : ℝ × ℝ × σ :=
  let fa := F a s
  let fb := F b fa.2
  let r : Vec := Function.update (fun _ => 0) 0 ((fa.1 + fb.1) * (b - a) / 2)
  let t := forRange 1 n (1, r, fb.2) (trapStep F a b)
  let r := (forRange 0 p (1, t.2.1) (highStep n)).2
  let e := r (n - 1) - r (n - 2)
  let e := if e < 0 then -e else e
  (r (n - 1), e, t.2.2)

/-- `IntegrateLast::operator()`, romberg_mul.hpp:210-219, together with `SliceLast`, romberg_mul.hpp:168-186.  The state of this
object is `esum`, `ecount` and the state of `F`. -/
noncomputable def integrateLast {σ : Type} (F : List ℝ → σ → ℝ × σ) (last : ℕ) (a b : List ℝ) (n p : List ℕ)
    (x : List ℝ) (s : ℝ × ℕ × σ) : ℝ × ℝ × ℕ × σ :=
  let t := rombergOne (fun xlast => F (x.take last ++ [xlast])) (a.getD last 0) (b.getD last 0) (n.getD last 0) (p.getD last 0) s.2.2
  (t.1, s.1 + t.2.1, s.2.1 + 1, t.2.2)

/-- The result of `RombergMul`: return value, output `e`, the final state of `F`, and whether all the calls of `assert`
(which are only there when `NDEBUG` is not defined) succeed -/
structure Result (σ : Type) where
  r : ℝ
  e : ℝ
  state : σ
  asserts : Bool

/-- `RombergMul<Fun, SizeVector, FloatVector, m>::operator()`, romberg_mul.hpp:231-318.  The specialization for `m = 1` is
romberg_mul.hpp:282-318; there is no `m = 0`. -/
noncomputable def rombergMul : (m : ℕ) → {σ : Type} → (List ℝ → σ → ℝ × σ) → List ℝ → List ℝ → List ℕ → List ℕ → σ → Result σ
  | 0, _, _, _, _, _, _, s => ⟨0, 0, s, true⟩
  | 1, _, F, a, b, n, p, s =>
    let t := integrateLast F 0 a b n p a (0, 0, s)
    ⟨t.1, t.2.1, t.2.2.2, decide (t.2.2.1 = 1)⟩
  | m + 2, _, F, a, b, n, p, s =>
    let t := rombergMul (m + 1) (integrateLast F (m + 1) a b n p) a b n p (0, 0, s)
    let prod := forRange 0 (m + 1) (1 : ℝ) fun i q => q * (b.getD i 0 - a.getD i 0)
    let pow2 := forRange 0 (m + 1) 1 fun i q => forRange 0 (n.getD i 0 - 1) q fun _ q => q * 2
    ⟨t.r, t.e + t.state.1 * prod / (t.state.2.1 : ℝ), t.state.2.2, t.asserts && decide (t.state.2.1 = pow2 + 1)⟩

end CppAD.Romberg
