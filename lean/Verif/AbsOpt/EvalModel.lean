import Verif.AbsOpt.Model
import Verif.Util.Lu

/-!
# The abs-normal approximation and its minimization: `abs_eval`, `abs_min_linear` and `min_nso_linear`

example/abs_normal/abs_eval.hpp, example/abs_normal/abs_min_linear.hpp, example/abs_normal/min_nso_linear.hpp.
Real arithmetic.  `junk` is the contents of newly allocated vectors.  Tracing is not included, the sizes of the vectors are correct.
-/

namespace CppAD.AbsOpt

/-- the assertion in abs_eval.hpp:128-141 -/
noncomputable def absCheck (n m s : ℕ) (gj : ℕ → ℝ) : Bool :=
  forRange 0 s true fun i b => forRange i s b fun j b => b && decide (gj ((m + i) * (n + s) + (n + j)) = 0)

/-- `z_tilde`, abs_eval.hpp:146-165 -/
noncomputable def absEvalZ (n m s : ℕ) (g gj dx gt : ℕ → ℝ) : ℕ → ℝ :=
  forRange 0 s gt fun i gt =>
    let gt := Function.update gt (m + i) (g (m + i))
    let gt := forRange 0 n gt fun j gt => Function.update gt (m + i) (gt (m + i) + gj ((m + i) * (n + s) + j) * dx j)
    forRange 0 i gt fun j gt =>
      Function.update gt (m + i) (gt (m + i) + gj ((m + i) * (n + s) + n + j) * (|gt (m + j)| - |g (m + j)|))

/-- `y_tilde`, abs_eval.hpp:168-187 -/
noncomputable def absEvalY (n m s : ℕ) (g gj dx gt : ℕ → ℝ) : ℕ → ℝ :=
  forRange 0 m gt fun i gt =>
    let gt := Function.update gt i (g i)
    let gt := forRange 0 n gt fun j gt => Function.update gt i (gt i + gj (i * (n + s) + j) * dx j)
    forRange 0 s gt fun j gt =>
      Function.update gt i (gt i + gj (i * (n + s) + n + j) * (|gt (m + j)| - |g (m + j)|))

/-- `abs_eval`, abs_eval.hpp:102-189; the result is `none` when the assertion fails -/
noncomputable def absEval (n m s : ℕ) (g gj dx junk : ℕ → ℝ) : Option (ℕ → ℝ) :=
  if absCheck n m s gj then some (absEvalY n m s g gj dx (absEvalZ n m s g gj dx junk)) else none

/-- `CppAD::sign` for double, include/cppad/core/base_double.hpp:180-186 -/
noncomputable def sgn (x : ℝ) : ℝ := if x > 0 then 1 else if x = 0 then 0 else -1

/-- `sigma`, abs_min_linear.hpp:306-308, 435-436 (`m = 1`) -/
noncomputable def sigmaOf (s : ℕ) (gt sigma : ℕ → ℝ) : ℕ → ℝ :=
  forRange 0 s sigma fun i v => Function.update v i (sgn (gt (1 + i)))

/-- `dy_dx`, abs_min_linear.hpp:275-297, 321-343 (the partials of `y` and `z`, which do not change, are included) -/
noncomputable def absSlope (n s : ℕ) (gj junk : ℕ → ℝ) (ip jp : ℕ → ℕ) (sigma : ℕ → ℝ) : ℕ → ℝ :=
  let pypx := forRange 0 n junk fun j v => Function.update v j (gj j)
  let pypu := forRange 0 s junk fun j v => Function.update v j (gj (n + j))
  let pzpx := forRange 0 s junk fun i v => forRange 0 n v fun j v => Function.update v (i * n + j) (gj ((n + s) * (i + 1) + j))
  let pzpu := forRange 0 s junk fun i v => forRange 0 s v fun j v => Function.update v (i * s + j) (gj ((n + s) * (i + 1) + n + j))
  let ss := forRange 0 s junk fun i v =>
    let v := forRange 0 s v fun j v => Function.update v (i * s + j) (- pzpu (i * s + j) * sigma j)
    Function.update v (i * s + i) (v (i * s + i) + 1)
  let sn := (CppAD.Lu.luSolve CppAD.Lu.absGeq CppAD.Lu.leqZero Real.log s n ip jp junk ss pzpx).1
  let sn := forRange 0 s sn fun i v => forRange 0 n v fun j v => Function.update v (i * n + j) (v (i * n + j) * sigma i)
  forRange 0 n junk fun j v =>
    let v := Function.update v j (pypx j)
    forRange 0 s v fun k v => Function.update v j (v j + pypu k * sn (k * n + j))

/-- the variables of `abs_min_linear` that change -/
structure Cut where
  /-- `delta_x` -/
  d : ℕ → ℝ
  /-- `g_tilde` -/
  gt : ℕ → ℝ
  /-- `sigma` -/
  sigma : ℕ → ℝ
  /-- `C` -/
  C : ℕ → ℝ
  /-- `c` -/
  c : ℕ → ℝ

/-- a solver for linear programs with box constraints: the number of constraints, `A`, `b`, `c`, `d` -/
abbrev LpSolver := ℕ → (ℕ → ℝ) → (ℕ → ℝ) → (ℕ → ℝ) → (ℕ → Option ℝ) → Option (Bool × (ℕ → ℝ))

/-- the cutting plane problem: `A_box`, `b_box`, abs_min_linear.hpp:371-377 -/
def cutA (n k : ℕ) (C c junk : ℕ → ℝ) : (ℕ → ℝ) × (ℕ → ℝ) :=
  forRange 0 k (junk, junk) fun i t =>
    let A := forRange 0 n t.1 fun j A => Function.update A (i * (n + 1) + j) (C (i * n + j))
    (Function.update A (i * (n + 1) + n) (-1), Function.update t.2 i (c i))

/-- `c_box`, abs_min_linear.hpp:379-382 -/
def cutC (n : ℕ) (junk : ℕ → ℝ) : ℕ → ℝ :=
  Function.update (forRange 0 (n + 1) junk fun i v => Function.update v i 0) n 1

/-- `d_box`, abs_min_linear.hpp:385-388 -/
def cutD (n : ℕ) (bound : ℕ → ℝ) : ℕ → Option ℝ :=
  Function.update (forRange 0 n (fun _ => none) fun j v => Function.update v j (some (bound j))) n none

/-- what one iteration does -/
inductive CutStep where
  /-- return with this value and `delta_x` -/
  | stop (ok : Bool) (d : ℕ → ℝ)
  /-- next iteration -/
  | next (t : Cut)

/-- one iteration of `abs_min_linear`, abs_min_linear.hpp:315-443; `k` is `n_plane`, which is equal to `itr`.
The solver `lp` is `lp_box`; `none` is an assertion that fails. -/
noncomputable def cutStep (n s : ℕ) (g gj bound : ℕ → ℝ) (eps0 eps1 : ℝ) (lp : LpSolver) (junk : ℕ → ℝ) (ip jp : ℕ → ℕ) (k : ℕ) (t : Cut) : Option CutStep :=
  let p := absSlope n s gj junk ip jp t.sigma
  let nearZero := forRange 0 n true fun j b => b && decide (|p j| < eps1)
  if nearZero then some (.stop true t.d)
  else
    let plane := forRange 0 n (t.gt 0) fun j w => w - p j * t.d j
    let c := Function.update t.c k plane
    let C := forRange 0 n t.C fun j C => Function.update C (k * n + j) (p j)
    let A := cutA n (k + 1) C c junk
    (lp (k + 1) A.1 A.2 (cutC n junk) (cutD n bound)).bind fun r =>
    if r.1 then
      let maxDiff := forRange 0 n (0 : ℝ) fun j a => max a |t.d j - r.2 j|
      let new := forRange 0 n junk fun j v => Function.update v j (r.2 j)
      (absEval n 1 s g gj new junk).bind fun gnew =>
      if maxDiff < eps0 then some (.stop true new)
      else some (.next ⟨new, gnew, sigmaOf s gnew t.sigma, C, c⟩)
    else some (.stop false t.d)

/-- the iterations; the first argument is `maxitr[0] - itr` -/
noncomputable def cutLoop (n s : ℕ) (g gj bound : ℕ → ℝ) (eps0 eps1 : ℝ) (lp : LpSolver) (junk : ℕ → ℝ) (ip jp : ℕ → ℕ) :
    ℕ → ℕ → Cut → Option (Bool × (ℕ → ℝ))
  | 0, _, t => some (false, t.d)
  | r + 1, k, t => (cutStep n s g gj bound eps0 eps1 lp junk ip jp k t).bind fun u =>
    match u with
    | .stop ok d => some (ok, d)
    | .next t => cutLoop n s g gj bound eps0 eps1 lp junk ip jp r (k + 1) t

/-- `abs_min_linear`, abs_min_linear.hpp:210-447 with `m = 1`: the return value and `delta_x`.  The first argument is `lp_box`.
When `s = 0` and there is an iteration, `LuSolve` divides by zero (lu_invert.hpp:190): this is `none`. -/
noncomputable def absMinLinear (lp : LpSolver) (n s : ℕ) (g gj bound : ℕ → ℝ) (eps0 eps1 : ℝ) (maxitr : ℕ) (junk : ℕ → ℝ) (ip jp : ℕ → ℕ) (dx : ℕ → ℝ) :
    Option (Bool × (ℕ → ℝ)) :=
  let dx := forRange 0 n dx fun j v => Function.update v j 0
  (absEval n 1 s g gj dx junk).bind fun gt =>
  if s = 0 ∧ 0 < maxitr then none
  else cutLoop n s g gj bound eps0 eps1 lp junk ip jp maxitr 0 ⟨dx, gt, sigmaOf s gt junk, junk, junk⟩

/-- `lp_box` with the arguments of abs_min_linear.hpp:395-403 -/
noncomputable def boxSolver (n maxitr : ℕ) (nan : ℝ) (junk : ℕ → ℝ) : LpSolver :=
  fun k A b c d => lpBox k (n + 1) A b c d maxitr nan junk junk junk junk junk

/-- `min_nso_linear_join`, min_nso_linear.hpp:164-175 -/
def nsoJoin (n s : ℕ) (x u junk : ℕ → ℝ) : ℕ → ℝ :=
  let xu := forRange 0 n junk fun j v => Function.update v j (x j)
  forRange 0 s xu fun j v => Function.update v (n + j) (u j)

/-- the variables of `min_nso_linear` that change -/
structure Nso where
  /-- `x_out` -/
  x : ℕ → ℝ
  /-- `xu_cur` -/
  xu : ℕ → ℝ
  /-- `g_cur` -/
  g : ℕ → ℝ
  /-- `b_cur` -/
  b : ℝ

/-- the iterations of `min_nso_linear`, min_nso_linear.hpp:271-355; the first argument is `maxitr[0] - itr`.
Simplification: `a.Forward(0, x)`, `g.Forward(0, xu)` and `g.Jacobian(xu)` are the functions `fa`, `fg` and `fj`
(`a_cur` is not used after `xu_cur` is computed).  `sub g gj b` is the call of `abs_min_linear` with all the bounds equal to `b`.
`none` is an assertion that fails. -/
noncomputable def nsoLoop (n s : ℕ) (fa fg fj : (ℕ → ℝ) → ℕ → ℝ) (sub : (ℕ → ℝ) → (ℕ → ℝ) → ℝ → Option (Bool × (ℕ → ℝ)))
    (eps0 eps1 : ℝ) (junk : ℕ → ℝ) : ℕ → Nso → Option (Bool × (ℕ → ℝ))
  | 0, t => some (false, t.x)
  | r + 1, t =>
    let gj := fj t.xu
    (sub t.g gj t.b).bind fun q =>
    if q.1 then
      let d := q.2
      let u := forRange 0 n (junk, (0 : ℝ)) fun j u => (Function.update u.1 j (t.x j + d j), max u.2 |d j|)
      if u.2 < t.b ∧ u.2 < eps0 then some (true, t.x)
      else (absEval n 1 s t.g gj d junk).bind fun gt =>
        let derivative := (gt 0 - t.g 0) / u.2
        if derivative ≤ 0 then
          if - eps1 < derivative then some (true, t.x)
          else
            let xu := nsoJoin n s u.1 (fa u.1) junk
            let gnew := fg xu
            let rate := (gnew 0 - t.g 0) / u.2
            if - eps1 < rate then nsoLoop n s fa fg fj sub eps0 eps1 junk r ⟨t.x, t.xu, t.g, t.b / 2⟩
            else nsoLoop n s fa fg fj sub eps0 eps1 junk r ⟨u.1, xu, gnew, t.b⟩
        else none
    else some (false, t.x)

/-- `min_nso_linear`, min_nso_linear.hpp:182-357; `sub g gj b e0 e1` is the call of `abs_min_linear` with all the bounds equal to `b`
and `epsilon` equal to `(e0, e1)`: the return value and `x_out` -/
noncomputable def minNso (n s : ℕ) (fa fg fj : (ℕ → ℝ) → ℕ → ℝ) (sub : (ℕ → ℝ) → (ℕ → ℝ) → ℝ → ℝ → ℝ → Option (Bool × (ℕ → ℝ)))
    (eps0 eps1 : ℝ) (maxitr : ℕ) (bin : ℝ) (junk x : ℕ → ℝ) : Option (Bool × (ℕ → ℝ)) :=
  if eps0 < bin then
    let xu := nsoJoin n s x (fa x) junk
    nsoLoop n s fa fg fj (fun g gj b => sub g gj b (eps0 / 10) (eps1 / 10)) eps0 eps1 junk maxitr ⟨x, xu, fg xu, bin⟩
  else none

/-- the call of `abs_min_linear`, min_nso_linear.hpp:247-255, 277-285; `maxitr1`, `maxitr2` are `maxitr[1]`, `maxitr[2]` -/
noncomputable def nsoSub (n s maxitr1 maxitr2 : ℕ) (nan : ℝ) (junk : ℕ → ℝ) (ip jp : ℕ → ℕ) (g gj : ℕ → ℝ) (b e0 e1 : ℝ) : Option (Bool × (ℕ → ℝ)) :=
  absMinLinear (boxSolver n maxitr2 nan junk) n s g gj (forRange 0 n junk fun j v => Function.update v j b) e0 e1 maxitr1 junk ip jp junk

/-- `min_nso_linear` with the solvers of the library -/
noncomputable def minNsoLinear (n s : ℕ) (fa fg fj : (ℕ → ℝ) → ℕ → ℝ) (eps0 eps1 : ℝ) (maxitr maxitr1 maxitr2 : ℕ) (bin nan : ℝ) (junk : ℕ → ℝ)
    (ip jp : ℕ → ℕ) (x : ℕ → ℝ) : Option (Bool × (ℕ → ℝ)) :=
  minNso n s fa fg fj (nsoSub n s maxitr1 maxitr2 nan junk ip jp) eps0 eps1 maxitr bin junk x

end CppAD.AbsOpt
