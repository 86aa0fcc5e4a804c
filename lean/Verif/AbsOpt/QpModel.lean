import Verif.AbsOpt.Model
import Verif.Util.Lu
import Verif.Util.While

/-!
# Quadratic programs: `qp_interior` and `qp_box`

example/abs_normal/qp_interior.hpp, example/abs_normal/qp_box.hpp.  Real arithmetic.  `junk` is the contents of
newly allocated vectors.  Tracing is not included.
-/

namespace CppAD.AbsOpt

/-- `qp_interior_max_abs`, qp_interior.hpp:323-329; also the loops at 447-455 -/
noncomputable def maxAbs (N : ℕ) (v : ℕ → ℝ) (a : ℝ) : ℝ := forRange 0 N a fun j a => max a |v j|

/-- `qp_interior_join`, qp_interior.hpp:348-363 -/
def qpJoin (n m : ℕ) (v vx vy vs : ℕ → ℝ) : ℕ → ℝ :=
  let v := forRange 0 n v fun i v => Function.update v i (vx i)
  let v := forRange 0 m v fun i v => Function.update v (n + i) (vy i)
  forRange 0 m v fun i v => Function.update v (n + m + i) (vs i)

/-- `qp_interior_split`, qp_interior.hpp:331-346 -/
def qpSplit (n m : ℕ) (v vx vy vs : ℕ → ℝ) : (ℕ → ℝ) × (ℕ → ℝ) × (ℕ → ℝ) :=
  let vx := forRange 0 n vx fun i vx => Function.update vx i (v i)
  let r := forRange 0 m (vy, vs) fun i r => (Function.update r.1 i (v (n + i)), Function.update r.2 i (v (n + m + i)))
  (vx, r.1, r.2)

/-- `qp_interior_F_0`, qp_interior.hpp:365-403 -/
noncomputable def qpF0 (n m : ℕ) (c C g G : ℕ → ℝ) (junk : ℕ → ℝ) (x y s : ℕ → ℝ) : ℕ → ℝ :=
  let rx := forRange 0 n junk fun j r =>
    let r := Function.update r j (g j)
    let r := forRange 0 n r fun i r => Function.update r j (r j + G (j * n + i) * x i)
    forRange 0 m r fun i r => Function.update r j (r j + y i * C (i * n + j))
  let ry := forRange 0 m junk fun i r =>
    let r := Function.update r i (c i + s i)
    forRange 0 n r fun j r => Function.update r i (r i + C (i * n + j) * x j)
  let rs := forRange 0 m junk fun i r => Function.update r i (s i * y i)
  qpJoin n m junk rx ry rs

/-- the Newton step, qp_interior.hpp:503-557: `delta_xys` -/
noncomputable def qpStep (n m : ℕ) (C G : ℕ → ℝ) (junk : ℕ → ℝ) (ip jp : ℕ → ℕ) (Fmu y s : ℕ → ℝ) : ℕ → ℝ :=
  let r := qpSplit n m Fmu junk junk junk
  let rx := r.1
  let ry := r.2.1
  let rs := r.2.2
  let tmp := forRange 0 m junk fun i t => Function.update t i ((rs i - y i * ry i) / s i)
  let right := forRange 0 n junk fun j t =>
    let t := Function.update t j 0
    let t := forRange 0 m t fun i t => Function.update t j (t j + C (i * n + j) * tmp i)
    Function.update t j (t j - rx j)
  let Left := forRange 0 n G fun i L => forRange 0 n L fun j L => forRange 0 m L fun k L =>
    Function.update L (i * n + j) (L (i * n + j) + C (k * n + j) * (y k / s k) * C (k * n + i))
  let dx := (CppAD.Lu.luSolve CppAD.Lu.absGeq CppAD.Lu.leqZero Real.log n 1 ip jp junk Left right).1
  let Cdx := forRange 0 m junk fun i t =>
    let t := Function.update t i 0
    forRange 0 n t fun j t => Function.update t i (t i + C (i * n + j) * dx j)
  let dy := forRange 0 m junk fun i t =>
    let t := Function.update t i (y i * ry i - rs i + y i * Cdx i)
    Function.update t i (t i / s i)
  let ds := forRange 0 m junk fun i t => Function.update t i (- ry i - Cdx i)
  qpJoin n m junk dx dy ds

/-- `F_mu`, qp_interior.hpp:498-501, 579-580 -/
noncomputable def qpFmu (n m : ℕ) (mu : ℝ) (F : ℕ → ℝ) : ℕ → ℝ :=
  forRange 0 m F fun i F => Function.update F (n + m + i) (F (n + m + i) - mu)

/-- the state of the line search -/
structure Search where
  lam : ℝ
  ok : Bool
  x : ℕ → ℝ
  y : ℕ → ℝ
  s : ℕ → ℝ

instance : Nonempty Search := ⟨⟨0, false, fun _ => 0, fun _ => 0, fun _ => 0⟩⟩

/-- one step of the line search, qp_interior.hpp:568-592 -/
noncomputable def searchStep (n m : ℕ) (c C g G junk : ℕ → ℝ) (mu : ℝ) (Fmu d x0 y0 s0 : ℕ → ℝ) (r : Search) : Search :=
  let lam := r.lam / 2
  let x := forRange 0 n r.x fun j x => Function.update x j (x0 j + lam * d j)
  let t := forRange 0 m (true, r.y, r.s) fun i (t : Bool × (ℕ → ℝ) × (ℕ → ℝ)) =>
    let y := Function.update t.2.1 i (y0 i + lam * d (n + i))
    let s := Function.update t.2.2 i (s0 i + lam * d (n + m + i))
    (t.1 && decide (s i > 0 ∧ y i > 0), y, s)
  let y := t.2.1
  let s := t.2.2
  let ok :=
    if t.1 then
      let F := qpFmu n m mu (qpF0 n m c C g G junk x y s)
      let q := forRange 0 (n + m + m) ((0 : ℝ), (0 : ℝ)) fun i (q : ℝ × ℝ) =>
        let dv := F i - Fmu i
        (q.1 + Fmu i * Fmu i, q.2 + (2 * Fmu i * dv + dv * dv))
      decide (q.2 < - lam * q.1 / 4)
    else false
  ⟨lam, ok, x, y, s⟩

/-- the line search, qp_interior.hpp:563-593 -/
noncomputable def search (n m : ℕ) (c C g G junk : ℕ → ℝ) (mu : ℝ) (Fmu d x0 y0 s0 : ℕ → ℝ) : Search :=
  whileLoop (fun r => !r.ok && decide (r.lam > 1e-5)) (searchStep n m c C g G junk mu Fmu d x0 y0 s0) ⟨2, false, junk, junk, junk⟩

/-- the iterations, qp_interior.hpp:484-619; the first argument is `maxitr - itr`.  The result is the return value, `xout`, `yout`, `sout` -/
noncomputable def qpLoop (n m : ℕ) (c C g G junk : ℕ → ℝ) (ip jp : ℕ → ℕ) (eps : ℝ) :
    ℕ → ℝ → (ℕ → ℝ) → (ℕ → ℝ) → (ℕ → ℝ) → (ℕ → ℝ) → ℝ → Bool × (ℕ → ℝ) × (ℕ → ℝ) × (ℕ → ℝ)
  | k, mu, x, y, s, F, Fmax =>
    if Fmax ≤ eps then (true, x, y, s)
    else match k with
    | 0 => (false, x, y, s)
    | k + 1 =>
      let Fmu := qpFmu n m mu F
      let d := qpStep n m C G junk ip jp Fmu y s
      let r := search n m c C g G junk mu Fmu d x y s
      if r.ok then
        let F := qpF0 n m c C g G junk r.x r.y r.s
        let Fmax := maxAbs (n + m + m) F 0
        qpLoop n m c C g G junk ip jp eps k (if Fmax ≤ 10 * mu then mu / 100 else mu) r.x r.y r.s F Fmax
      else (false, x, y, s)

/-- initial values, qp_interior.hpp:465-479; the first component is false after the return in line 474 -/
noncomputable def qpInit (n m : ℕ) (c C : ℕ → ℝ) (mu : ℝ) (x y s : ℕ → ℝ) : Bool × (ℕ → ℝ) × (ℕ → ℝ) :=
  forRange 0 m (true, y, s) fun i r =>
    if r.1 then
      let sum := forRange 0 n (c i) fun j sum => sum + C (i * n + j) * x j
      if sum > 0 then (false, r.2) else (true, Function.update r.2.1 i (Real.sqrt mu), Function.update r.2.2 i (Real.sqrt mu))
    else r

/-- `qp_interior`, qp_interior.hpp:408-623: the return value, `xout`, `yout`, `sout` -/
noncomputable def qpInterior (n m : ℕ) (c C g G : ℕ → ℝ) (eps : ℝ) (maxitr : ℕ) (junk : ℕ → ℝ) (ip jp : ℕ → ℕ) (xin xout yout sout : ℕ → ℝ) :
    Bool × (ℕ → ℝ) × (ℕ → ℝ) × (ℕ → ℝ) :=
  let maxElement := maxAbs n g (maxAbs (n * n) G (maxAbs m c (maxAbs (m * n) C 0)))
  let mu := 1e-1 * maxElement
  if maxElement = 0 then (false, xout, yout, sout)
  else
    let r := qpInit n m c C mu xin yout sout
    if r.1 then
      let F := qpF0 n m c C g G junk xin r.2.1 r.2.2
      qpLoop n m c C g G junk ip jp eps maxitr mu xin r.2.1 r.2.2 F (maxAbs (n + m + m) F 0)
    else (false, xin, r.2)

/-- one limit, qp_box.hpp:272-285; the state is `i_limit`, `C_int`, `c_int` -/
def qpLimit (n m : ℕ) (b : ℕ → Option ℝ) (sign : ℝ) (j : ℕ) (t : ℕ × (ℕ → ℝ) × (ℕ → ℝ)) : ℕ × (ℕ → ℝ) × (ℕ → ℝ) :=
  match b j with
  | none => t
  | some bj => (t.1 + 1, Function.update t.2.1 ((m + t.1) * n + j) sign, Function.update t.2.2 (m + t.1) (- sign * bj))

/-- `qp_box`, qp_box.hpp:206-302; `a j = none` is minus infinity, `b j = none` is plus infinity.
The result is the return value and `xout`; the multipliers of `qp_interior` are returned too (the program discards them). -/
noncomputable def qpBox (n m : ℕ) (a b : ℕ → Option ℝ) (c C g G : ℕ → ℝ) (eps : ℝ) (maxitr : ℕ) (junk : ℕ → ℝ) (ip jp : ℕ → ℕ) (xin xout : ℕ → ℝ) :
    Bool × (ℕ → ℝ) × (ℕ → ℝ) × (ℕ → ℝ) :=
  let nLimit := forRange 0 n 0 fun j k =>
    let k := if (a j).isSome then k + 1 else k
    if (b j).isSome then k + 1 else k
  let Ci := forRange 0 ((m + nLimit) * n) junk fun i v => Function.update v i 0
  let t := forRange 0 m (Ci, junk) fun i t =>
    (forRange 0 n t.1 fun j v => Function.update v (i * n + j) (C (i * n + j)), Function.update t.2 i (c i))
  let t := forRange 0 n (0, t) (qpLimit n m b 1)
  let t := forRange 0 n t (qpLimit n m a (-1))
  qpInterior n (m + nLimit) t.2.2 t.2.1 g G eps maxitr junk ip jp xin xout junk junk

end CppAD.AbsOpt
