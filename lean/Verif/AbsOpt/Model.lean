import Verif.Taylor.Loop

/-!
# Linear programs: `simplex_method` and `lp_box`

example/abs_normal/simplex_method.hpp, example/abs_normal/lp_box.hpp.  Real arithmetic.  The element `T[i * nc + j]` of the Tableau
is `T i j`; every column index is less than `nc`.  A failed assertion is `none`.  Tracing is not included.
-/

namespace CppAD.AbsOpt

/-- `T[i * nc + j] = v` -/
def setRC (T : ℕ → ℕ → ℝ) (i j : ℕ) (v : ℝ) : ℕ → ℕ → ℝ := Function.update T i (Function.update (T i) j v)

/-- the number of auxiliary variables, simplex_method.hpp:144-148 -/
noncomputable def numAux (ne : ℕ) (b : ℕ → ℝ) : ℕ := forRange 0 ne 0 fun i na => if b i > 0 then na + 1 else na

/-- one equation, simplex_method.hpp:169-192; the state is the next auxiliary index, the Tableau and `basic`;
`last` is `nc - 1` -/
noncomputable def placeRow (nx ne last : ℕ) (A b : ℕ → ℝ) (i : ℕ) (s : ℕ × (ℕ → ℕ → ℝ) × (ℕ → Bool)) :
    ℕ × (ℕ → ℕ → ℝ) × (ℕ → Bool) :=
  let na := s.1
  if b i > 0 then
    let T := forRange 0 nx s.2.1 fun j T => setRC T i j (- A (i * nx + j))
    let T := setRC T i (nx + i) (-1)
    let T := setRC T i (nx + ne + na) 1
    let basic := Function.update s.2.2 (nx + ne + na) true
    (na + 1, setRC T i last (b i), basic)
  else
    let T := forRange 0 nx s.2.1 fun j T => setRC T i j (A (i * nx + j))
    let T := setRC T i (nx + i) 1
    let basic := Function.update s.2.2 (nx + i) true
    (na, setRC T i last (- b i), basic)

/-- the equations, simplex_method.hpp:155-193 -/
noncomputable def placeRows (nx ne last : ℕ) (A b : ℕ → ℝ) : ℕ × (ℕ → ℕ → ℝ) × (ℕ → Bool) :=
  forRange 0 ne (0, fun _ _ => 0, fun _ => false) (placeRow nx ne last A b)

/-- the two objectives, simplex_method.hpp:200-206 -/
noncomputable def placeObj (nx ne na : ℕ) (c : ℕ → ℝ) (T : ℕ → ℕ → ℝ) : ℕ → ℕ → ℝ :=
  let T := forRange 0 nx T fun j T => setRC T ne j (- c j)
  forRange 0 na T fun j T => setRC T (ne + 1) (nx + ne + j) (-1)

/-- the equation of an auxiliary variable, simplex_method.hpp:212-221 -/
noncomputable def findRow (ne ja : ℕ) (T : ℕ → ℕ → ℝ) : Option ℕ :=
  (forRange 0 ne (some ne) fun i r => r.bind fun ia =>
    if T i ja ≠ 0 then (if T i ja = 1 ∧ T (ne + 1) ja = -1 ∧ ia = ne then some i else none) else some ia).bind fun ia =>
  if ia < ne then some ia else none

/-- coefficients of the auxiliary objective, simplex_method.hpp:210-226 -/
noncomputable def fixObj (nx ne na nc : ℕ) (T : ℕ → ℕ → ℝ) : Option (ℕ → ℕ → ℝ) :=
  forRange 0 na (some T) fun k r => r.bind fun T => (findRow ne (nx + ne + k) T).bind fun ia =>
    let T := forRange 0 nc T fun j T => setRC T (ne + 1) j (T (ne + 1) j + T ia j)
    some (setRC T (ne + 1) (nx + ne + k) 0)

/-- the current point, simplex_method.hpp:236-250 -/
noncomputable def readX (nx ne last : ℕ) (nan : ℝ) (T : ℕ → ℕ → ℝ) (basic : ℕ → Bool) (x : ℕ → ℝ) : Option (ℕ → ℝ) :=
  forRange 0 nx (some x) fun j r => r.bind fun x =>
    let x := Function.update x j 0
    if basic j then
      forRange 0 ne (some (Function.update x j nan)) fun i r => r.bind fun x =>
        if T i j = 0 ∨ T i j = 1 then (if T i j = 1 then some (Function.update x j (T i last)) else some x) else none
    else some x

/-- check if the auxiliary problem is solved, simplex_method.hpp:267-270 -/
def auxDone (nx ne na : ℕ) (basic : ℕ → Bool) : Bool :=
  forRange 0 na true fun k done => if basic (nx + ne + k) then false else done

/-- variable with maximum coefficient, simplex_method.hpp:280-288; the state is `cmax`, `jmax` -/
noncomputable def entering (nv : ℕ) (row : ℕ → ℝ) (basic : ℕ → Bool) : Option (ℝ × ℕ) :=
  forRange 0 nv (some (0, nv)) fun j r => r.bind fun s =>
    if row j > s.1 then (if basic j then none else some (row j, j)) else some s

/-- the pivot row, simplex_method.hpp:303-313; the state is `rmin` (`none` is infinity), `imin` -/
noncomputable def pivotRow (ne last jmax : ℕ) (T : ℕ → ℕ → ℝ) : Option ℝ × ℕ :=
  forRange 0 ne (none, ne) fun i s =>
    if T i jmax > 0 then
      let r := T i last / T i jmax
      match s.1 with
      | none => (some r, i)
      | some rmin => if r < rmin then (some r, i) else s
    else s

/-- divide the pivot row, simplex_method.hpp:321-336; the state is `basic2not`, `T` -/
noncomputable def divideRow (nc imin jmax : ℕ) (basic : ℕ → Bool) (T : ℕ → ℕ → ℝ) : Option (ℕ × (ℕ → ℕ → ℝ)) :=
  let pivot := T imin jmax
  (forRange 0 nc (some (nc, T)) fun j r => r.bind fun s =>
    let T := s.2
    (if basic j = true ∧ T imin j = 1 then (if s.1 = nc then some j else none) else some s.1).bind fun b2n =>
      some (b2n, setRC T imin j (T imin j / pivot))).bind fun s =>
  some (s.1, setRC s.2 imin jmax 1)

/-- the other rows, simplex_method.hpp:343-350 -/
noncomputable def eliminate (nr nc imin jmax : ℕ) (T : ℕ → ℕ → ℝ) : ℕ → ℕ → ℝ :=
  forRange 0 nr T fun i T =>
    if i ≠ imin then
      let r := T i jmax / T imin jmax
      let T := forRange 0 nc T fun j T => setRC T i j (T i j - r * T imin j)
      setRC T i jmax 0
    else T

/-- the state between iterations -/
structure State where
  T : ℕ → ℕ → ℝ
  basic : ℕ → Bool
  iobj : ℕ
  x : ℕ → ℝ

/-- result of an iteration: the return value of `simplex_method`, or the next state -/
inductive Out
  | done (ok : Bool) (x : ℕ → ℝ)
  | next (s : State)

/-- one iteration, simplex_method.hpp:235-353 -/
noncomputable def iter (nx ne na : ℕ) (nan : ℝ) (s : State) : Option Out :=
  let nc := nx + ne + na + 1
  let nr := ne + 2
  (readX nx ne (nc - 1) nan s.T s.basic s.x).bind fun x =>
  let p : ℕ × ℕ :=
    if s.iobj = ne + 1 then (if auxDone nx ne na s.basic then (ne, nx + ne) else (s.iobj, nx + ne + na)) else (s.iobj, nx + ne)
  let iobj := p.1
  let nv := p.2
  (entering nv (s.T iobj) s.basic).bind fun e =>
  let jmax := e.2
  if jmax = nv then some (.done (decide (iobj = ne)) x)
  else
    let imin := (pivotRow ne (nc - 1) jmax s.T).2
    if imin = ne then (if iobj = ne then some (.done false x) else none)
    else
      (divideRow nc imin jmax s.basic s.T).bind fun d =>
      if d.1 < nv ∧ d.1 ≠ jmax then
        some (.next ⟨eliminate nr nc imin jmax d.2, Function.update (Function.update s.basic d.1 false) jmax true, iobj, x⟩)
      else none

/-- the iterations, simplex_method.hpp:234-357; the first argument is the number of iterations that are left -/
noncomputable def iterate (nx ne na : ℕ) (nan : ℝ) : ℕ → State → Option (Bool × (ℕ → ℝ))
  | 0, s => some (false, s.x)
  | k + 1, s => (iter nx ne na nan s).bind fun
    | .done ok x => some (ok, x)
    | .next s => iterate nx ne na nan k s

/-- `simplex_method`, simplex_method.hpp:115-358: the return value and `xout` -/
noncomputable def simplexMethod (ne nx : ℕ) (A b c : ℕ → ℝ) (maxitr : ℕ) (nan : ℝ) (xout : ℕ → ℝ) : Option (Bool × (ℕ → ℝ)) :=
  let na := numAux ne b
  let nc := nx + ne + na + 1
  let s := placeRows nx ne (nc - 1) A b
  if nc = nx + ne + s.1 + 1 then
    (fixObj nx ne s.1 nc (placeObj nx ne s.1 c s.2.1)).bind fun T =>
      iterate nx ne s.1 nan maxitr ⟨T, s.2.2, if s.1 > 0 then ne + 1 else ne, xout⟩
  else none

/-- the constraints `|x_j| ≤ d_j`, lp_box.hpp:177-191; the state is `i_limit`, `A_simplex`, `b_simplex` -/
noncomputable def boxLimit (m n : ℕ) (d : ℕ → Option ℝ) (j : ℕ) (s : ℕ × (ℕ → ℝ) × (ℕ → ℝ)) : ℕ × (ℕ → ℝ) × (ℕ → ℝ) :=
  match d j with
  | none => s
  | some dj =>
    let k := s.1
    let bS := Function.update s.2.2 (m + 2 * k) (- dj)
    let aS := Function.update s.2.1 ((m + 2 * k) * (2 * n) + 2 * j) 1
    let bS := Function.update bS (m + 2 * k + 1) (- dj)
    let aS := Function.update aS ((m + 2 * k + 1) * (2 * n) + 2 * j + 1) 1
    (k + 1, aS, bS)

/-- `lp_box`, lp_box.hpp:124-218; `d j = none` is infinity.  Newly allocated memory is `junk`. -/
noncomputable def lpBox (m n : ℕ) (A b c : ℕ → ℝ) (d : ℕ → Option ℝ) (maxitr : ℕ) (nan : ℝ) (junkA junkB junkC junkX xout : ℕ → ℝ) :
    Option (Bool × (ℕ → ℝ)) :=
  let nLimit := forRange 0 n 0 fun j k => if (d j).isSome then k + 1 else k
  let AS := forRange 0 ((m + 2 * nLimit) * (2 * n)) junkA fun i a => Function.update a i 0
  let s := forRange 0 m (AS, junkB) fun i s =>
    (forRange 0 n s.1 fun j a =>
      Function.update (Function.update a (i * (2 * n) + 2 * j) (A (i * n + j))) (i * (2 * n) + 2 * j + 1) (- A (i * n + j)),
     Function.update s.2 i (b i))
  let s := forRange 0 n (0, s) (boxLimit m n d)
  let cS := forRange 0 n junkC fun j v => Function.update (Function.update v (2 * j) (c j)) (2 * j + 1) (- c j)
  (simplexMethod (m + 2 * nLimit) (2 * n) s.2.1 s.2.2 cS maxitr nan junkX).bind fun r =>
  some (r.1, forRange 0 n xout fun j x => Function.update x j (r.2 (2 * j) - r.2 (2 * j + 1)))

end CppAD.AbsOpt
