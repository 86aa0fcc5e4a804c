import Verif.Ode.RosTab
import Verif.Taylor.Loop
import Verif.Util.Lu

/-! # `Rosen34` (property C68): the model

`include/cppad/utility/rosen_34.hpp`.  The model is written for any type of scalars `R`; `fac` and `inv` stand for
`LuFactor` and `LuInvert`. -/

namespace CppAD.Rk

variable {R L : Type} [Zero R] [One R] [Add R] [Sub R] [Neg R] [Mul R] [Div R]

/-- what `Rosen34` uses: the constants, the test for `nan` and the `nan`, `diff < zero`, `LuFactor`, `LuInvert`, and the
functions `Ode`, `Ode_ind`, `Ode_dep` -/
structure Env (R L : Type) where
  ofQ : ℚ → R
  isnan : R → Bool
  nan : R
  neg : R → Bool
  fac : (ℕ → R) → L
  inv : L → (ℕ → R) → ℕ → R
  f : R → (ℕ → R) → ℕ → R
  fT : R → (ℕ → R) → ℕ → R
  fX : R → (ℕ → R) → ℕ → R

/-- `hasnan` (include/cppad/utility/nan.hpp) -/
def hasnan (isnan : R → Bool) (n : ℕ) (v : ℕ → R) : Bool := forRange 0 n false fun i b => b || isnan (v i)

/-- the local variables inside the loop over the stages; `ret` is true if the function has returned, `tr` is a ghost
variable: the vectors that the member functions of `F` have returned and their lengths -/
structure RSt (R : Type) where
  g : ℕ → R
  x3 : ℕ → R
  x4 : ℕ → R
  Eg : ℕ → R
  ftmp : ℕ → R
  ret : Bool
  tr : List (ℕ × (ℕ → R))

/-- the right side of a linear equation (rosen_34.hpp:457-462, 475-480) -/
def rosEg (ofQ : ℚ → R) (n k kk : ℕ) (h : R) (fT ftmp g Eg : ℕ → R) : ℕ → R :=
  let Eg := forRange 0 n Eg fun i Eg => Function.update Eg i (ftmp i + ofQ (rosCt k) * fT i * h)
  forRange 0 k Eg fun l Eg => forRange 0 n Eg fun i Eg =>
    Function.update Eg i (Eg i + ofQ (rosCg (kk * 3 + l)) * g (i * 3 + l))

/-- one function evaluation and solution (rosen_34.hpp:438-473) -/
def rosStage (v : Env R L) (n : ℕ) (t h : R) (xf fT : ℕ → R) (lu : L) (k : ℕ) (s : RSt R) : RSt R :=
  if s.ret then s
  else
    let xtmp := forRange 0 k xf fun l x => forRange 0 n x fun i x =>
      Function.update x i (x i + v.ofQ (rosB ((k - 1) * 2 + l)) * s.g (i * 3 + l) * h)
    let ftmp := v.f (t + v.ofQ (rosA k) * h) xtmp
    if hasnan v.isnan n ftmp then { s with ftmp := ftmp, ret := true, tr := (n, ftmp) :: s.tr }
    else
      let Eg := v.inv lu (rosEg v.ofQ n k (k - 1) h fT ftmp s.g s.Eg)
      let w := forRange 0 n (s.g, s.x3, s.x4) fun i w =>
        (Function.update w.1 (i * 3 + k) (Eg i),
         Function.update w.2.1 i (w.2.1 i + h * v.ofQ (rosD3 k) * Eg i),
         Function.update w.2.2 i (w.2.2 i + h * v.ofQ (rosD4 k) * Eg i))
      ⟨w.1, w.2.1, w.2.2, Eg, ftmp, false, (n, ftmp) :: s.tr⟩

/-- the variables that live from one step to the next -/
structure ROut (R : Type) where
  g : ℕ → R
  Eg : ℕ → R
  ftmp : ℕ → R
  xf : ℕ → R
  e : ℕ → R
  ret : Bool
  tr : List (ℕ × (ℕ → R))

/-- the matrix `I - f_x * h / 2` (rosen_34.hpp:420-424) -/
def rosE (n : ℕ) (two h : R) (fx : ℕ → R) : ℕ → R :=
  forRange 0 n fx fun i E =>
    let E := forRange 0 n E fun j E => Function.update E (i * n + j) (-E (i * n + j) * h / two)
    Function.update E (i * n + i) (E (i * n + i) + 1)

/-- one integration step (rosen_34.hpp:403-499) -/
def rosStep (v : Env R L) (n M : ℕ) (ti tf : R) (m : ℕ) (o : ROut R) : ROut R :=
  if o.ret then o
  else
    let ns := v.ofQ M
    let h := (tf - ti) / ns
    let t := ti * (v.ofQ ((M - m : ℕ) : ℚ) / ns) + tf * (v.ofQ m / ns)
    let fT := v.fT t o.xf
    let fX := v.fX t o.xf
    let tr := (n * n, fX) :: (n, fT) :: o.tr
    if hasnan v.isnan n fT || hasnan v.isnan (n * n) fX then
      { o with xf := fun _ => v.nan, e := fun _ => v.nan, ret := true, tr := tr }
    else
      let lu := v.fac (rosE n (v.ofQ 2) h fX)
      let s := forRange 0 3 (⟨o.g, o.xf, o.xf, o.Eg, o.ftmp, false, tr⟩ : RSt R) fun k s =>
        rosStage v n t h o.xf fT lu k s
      if s.ret then ⟨s.g, s.Eg, s.ftmp, fun _ => v.nan, fun _ => v.nan, true, s.tr⟩
      else
        let Eg := v.inv lu (rosEg v.ofQ n 3 2 h fT s.ftmp s.g s.Eg)
        let w := forRange 0 n (s.x4, o.e) fun i w =>
          let x4 := Function.update w.1 i (w.1 i + h * v.ofQ (rosD4 3) * Eg i)
          let diff := x4 i - s.x3 i
          (x4, Function.update w.2 i (if v.neg diff then w.2 i - diff else w.2 i + diff))
        ⟨s.g, Eg, s.ftmp, w.1, w.2, false, s.tr⟩

/-- `Rosen34` (rosen_34.hpp:314-501).  `g0`, `Eg0`, `ftmp0` are the values in uninitialised vectors and `e0` is the value
of `e` on input; the checks of the types and `CPPAD_ASSERT_KNOWN` are not modelled.  `LuFactor` does not use the values
of `ip` and `jp` on input, so they are not carried from step to step. -/
def rosen34 (v : Env R L) (n M : ℕ) (ti tf : R) (xi g0 Eg0 ftmp0 e0 : ℕ → R) : ROut R :=
  let e := forRange 0 n e0 fun i e => Function.update e i 0
  forRange 0 M (⟨g0, Eg0, ftmp0, xi, e, false, []⟩ : ROut R) fun m o => rosStep v n M ti tf m o

end CppAD.Rk
