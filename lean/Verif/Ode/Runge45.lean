import Verif.Ode.RkTab
import Verif.Taylor.Loop

/-! # `Runge45` (property C67): the model

`include/cppad/utility/runge_45.hpp`.  The model is written for any type of scalars `R`, so that it can be used with
real numbers (the order of the method) and with numbers that have a `nan` (the propagation of a `nan`). -/

namespace CppAD.Rk


variable {R : Type} [Zero R] [Add R] [Sub R] [Mul R] [Div R]

/-- the local variables of `Runge45` inside the loop over the stages; `tr` is a ghost variable: the vectors that
`F.Ode` returned, in reverse order -/
structure St (R : Type) where
  fh : ℕ → R
  x4 : ℕ → R
  x5 : ℕ → R
  zn : R
  tr : List (ℕ → R)

/-- one function evaluation (runge_45.hpp:389-415): the argument `F t x` is the vector that `F.Ode` stores in `ftmp` -/
def stage (ofQ : ℚ → R) (n : ℕ) (F : R → (ℕ → R) → ℕ → R) (t h : R) (xf : ℕ → R) (j : ℕ) (s : St R) : St R :=
  let xtmp := forRange 0 j xf fun k x => forRange 0 n x fun i x =>
    Function.update x i (x i + ofQ (tabB ((j - 1) * 5 + k)) * s.fh (i * 6 + k))
  let ftmp := F (t + ofQ (tabA j) * h) xtmp
  let zn := forRange 0 n s.zn fun i z => z * ftmp i
  let v := forRange 0 n (s.fh, s.x4, s.x5) fun i v =>
    let fhi := ftmp i * h
    (Function.update v.1 (i * 6 + j) fhi,
     Function.update v.2.1 i (v.2.1 i + ofQ (tabC4 j) * fhi),
     Function.update v.2.2 i (v.2.2 i + ofQ (tabC5 j) * fhi + zn))
  ⟨v.1, v.2.1, v.2.2, zn, ftmp :: s.tr⟩

/-- the variables that live from one step to the next -/
structure Out (R : Type) where
  fh : ℕ → R
  xf : ℕ → R
  e : ℕ → R
  zn : R
  tr : List (ℕ → R)

/-- one integration step (runge_45.hpp:381-426) -/
def rkStep (ofQ : ℚ → R) (fabs : R → R) (n M : ℕ) (F : R → (ℕ → R) → ℕ → R) (ti tf : R) (m : ℕ) (o : Out R) : Out R :=
  let ns := ofQ M
  let h := (tf - ti) / ns
  let t := ti * (ofQ ((M - m : ℕ) : ℚ) / ns) + tf * (ofQ m / ns)
  let s := forRange 0 6 (⟨o.fh, o.xf, o.xf, o.zn, o.tr⟩ : St R) fun j s => stage ofQ n F t h o.xf j s
  let e := forRange 0 n o.e fun i e => Function.update e i (e i + fabs (s.x5 i - s.x4 i) + s.zn)
  ⟨s.fh, s.x5, e, s.zn, s.tr⟩

/-- `Runge45` (runge_45.hpp:284-428).  `fh0`, `e0` are the values in the uninitialised vector `fh` and the values of
`e` on input; the checks of the types and `CPPAD_ASSERT_KNOWN` are not modelled. -/
def runge45 (ofQ : ℚ → R) (fabs : R → R) (n M : ℕ) (F : R → (ℕ → R) → ℕ → R) (ti tf : R) (xi fh0 e0 : ℕ → R) : Out R :=
  let e := forRange 0 n e0 fun i e => Function.update e i 0
  forRange 0 M (⟨fh0, xi, e, 0, []⟩ : Out R) fun m o => rkStep ofQ fabs n M F ti tf m o

end CppAD.Rk
