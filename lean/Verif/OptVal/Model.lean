import Verif.Taylor.Drivers
import Verif.Util.Lu

/-!
# Derivatives of optimal values: opt_val_hes and BenderQuad

The functions that the user supplies are recorded by these routines; `S_k` after `Dependent` (and `optimize`) is an
`ADFun` of `Verif/Taylor/FunModel.lean`.  What a recording has to do with the user's function is a specification,
`Records` in `Verif/OptVal/Spec.lean`; that it does is C06 (recording) and C13 (optimize).  A vector is its size
together with a memory `ℕ → ℝ`; an access outside of a vector, and a failed CPPAD_ASSERT_KNOWN, is `none`.
-/

namespace CppAD.OptVal

/-- what memory contains before it is assigned, and the value of nan, during one call of a driver -/
structure Junk where
  out : ℕ → ℝ
  zero : ℕ → ℝ
  fwd : ℕ → ℕ → ℝ
  back : ℕ → ℕ → ℝ
  nan : ℝ

/-- `v[i] = c` where `v` has `size` elements -/
noncomputable def setAt (size : ℕ) (v : ℕ → ℝ) (i : ℕ) (c : ℝ) : Option (ℕ → ℝ) :=
  if i < size then some (Function.update v i c) else none

/-- `for(j = 0; j < m; j++) a_y[j] = ...`, where `a_y` has `ay` elements; core/opt_val_hes.hpp:423-424 and 479-480 -/
noncomputable def copyY (ay m : ℕ) (y : ℕ → ℝ) (v : ℕ → ℝ) : Option (ℕ → ℝ) :=
  forRange 0 m (some v) fun j s => s.bind fun v => setAt ay v j (y j)

/-- `for(j = 0; j < n; j++) v[j] += u[j]`, core/opt_val_hes.hpp:441-442 and 490-491 -/
noncomputable def addTo (n : ℕ) (v u : ℕ → ℝ) : ℕ → ℝ :=
  forRange 0 n v fun j v => Function.update v j (v j + u j)

/-- core/opt_val_hes.hpp:416-444; `sx k` is the object `S_k` after line 437 -/
noncomputable def jacPart (ay n m ell : ℕ) (sx : ℕ → ADFun) (J : ℕ → Junk) (x : List ℝ) (y : ℕ → ℝ) (jac v : ℕ → ℝ) :
    Option (ℕ → ℝ) :=
  (copyY ay m y v).bind fun _ =>
    let jac := forRange 0 n jac fun j jac => Function.update jac j 0
    some (forRange 0 ell jac fun k jac =>
      addTo n jac ((sx k).jacobian (J k).zero (J k).fwd (J k).nan (J k).out x).2)

/-- core/opt_val_hes.hpp:464-492; `sxy k` is the object `S_k` after line 485 -/
noncomputable def fHes (ay n m ell : ℕ) (sxy : ℕ → ADFun) (J : ℕ → Junk) (xy : List ℝ) (y h0 v : ℕ → ℝ) :
    Option (ℕ → ℝ) :=
  let h := forRange 0 ((n + m) * (n + m)) h0 fun j h => Function.update h j 0
  forRange 0 ell (some h) fun k s => s.bind fun h => (copyY ay m y v).bind fun _ =>
    some (addTo ((n + m) * (n + m)) h ((sxy k).hessianIdx (J k).zero (J k).fwd (J k).back (J k).nan (J k).out xy 0).2)

/-- core/opt_val_hes.hpp:494-498 -/
noncomputable def fYX (n m : ℕ) (h v : ℕ → ℝ) : ℕ → ℝ :=
  forRange 0 m v fun i v => forRange 0 n v fun j v =>
    Function.update v (i * n + j) (h ((i + n) * (n + m) + j))

/-- core/opt_val_hes.hpp:500-504; the vector `F_yy` has `fyy` elements -/
noncomputable def fYY (fyy n m : ℕ) (h v : ℕ → ℝ) : Option (ℕ → ℝ) :=
  forRange 0 m (some v) fun i s => forRange 0 m s fun j s => s.bind fun v =>
    setAt fyy v (i * m + j) (h ((i + n) * (n + m) + j + n))

/-- core/opt_val_hes.hpp:513-520 -/
noncomputable def hesPart (n m : ℕ) (h negY hes : ℕ → ℝ) : ℕ → ℝ :=
  forRange 0 n hes fun i hes => forRange 0 n hes fun j hes =>
    forRange 0 m (Function.update hes (i * n + j) (h (i * (n + m) + j))) fun k hes =>
      Function.update hes (i * n + j) (hes (i * n + j) - h (i * (n + m) + k + n) * negY (k * n + j))

/-- memory before it is assigned: `a_y`, `F_hes`, `F_yx`, `F_yy`, `ip`, `jp` and `neg_Y_x` -/
structure Mem where
  ay : ℕ → ℝ
  h : ℕ → ℝ
  yx : ℕ → ℝ
  yy : ℕ → ℝ
  ip : ℕ → ℕ
  jp : ℕ → ℕ
  sol : ℕ → ℝ

/-- core/opt_val_hes.hpp:366-522 where the vector `a_y` has `ay` elements and the vector `F_yy` has `fyy` elements.
`jacW` (`hesW`) is true when jac (hes) has elements.  Returns signdet, jac and hes.  LuSolve has the assertion that the
size of its matrix is `m * m` (utility/lu_solve.hpp:284-290). -/
noncomputable def optValWith (ay fyy : ℕ) {n m : ℕ} (ell : ℕ) (sx sxy : ℕ → ADFun) (J J' : ℕ → Junk) (M : Mem)
    (x : Fin n → ℝ) (y : Fin m → ℝ) (jacW hesW : Bool) (jac hes : ℕ → ℝ) : Option (ℤ × (ℕ → ℝ) × (ℕ → ℝ)) :=
  (if jacW then jacPart ay n m ell sx J (List.ofFn x) (at' (List.ofFn y)) jac M.ay else some jac).bind fun jac =>
  if ! hesW then some (0, jac, hes)
  else
    (fHes ay n m ell sxy J' (List.ofFn x ++ List.ofFn y) (at' (List.ofFn y)) M.h M.ay).bind fun h =>
    let yx := fYX n m h M.yx
    (fYY fyy n m h M.yy).bind fun yy =>
    if fyy ≠ m * m then none
    else
      let r := CppAD.Lu.luSolve CppAD.Lu.absGeq CppAD.Lu.leqZero Real.log m n M.ip M.jp M.sol yy yx
      if r.2.2 = 0 then some (r.2.2, jac, hes)
      else some (r.2.2, jac, hesPart n m h r.1 hes)

/-- CppAD::opt_val_hes, core/opt_val_hes.hpp:366-522: line 414 makes `a_y` with `n` elements and line 500 makes `F_yy`
with `n * m` elements -/
noncomputable def optVal {n m : ℕ} (ell : ℕ) (sx sxy : ℕ → ADFun) (J J' : ℕ → Junk) (M : Mem)
    (x : Fin n → ℝ) (y : Fin m → ℝ) (jacW hesW : Bool) (jac hes : ℕ → ℝ) : Option (ℤ × (ℕ → ℝ) × (ℕ → ℝ)) :=
  optValWith n (n * m) ell sx sxy J J' M x y jacW hesW jac hes

/-- CppAD::BenderQuad, core/bender_quad.hpp:311-410; `f` is the object `Gtilde` after line 378.  Returns `g[0]`, `gx`
and `gxx`. -/
noncomputable def bender (f : ADFun) (J : Junk) {n : ℕ} (x : Fin n → ℝ) (gx gxx : ℕ → ℝ) : ℝ × (ℕ → ℝ) × (ℕ → ℝ) :=
  let r := f.forward J.zero J.nan 0 (List.ofFn x)
  let s := forRange 0 n (r.1, gx, gxx) fun j s =>
    let r1 := s.1.forward (J.fwd j) J.nan 1 (unitVec n j)
    let gx := Function.update s.2.1 j (at' r1.2 0)
    let r2 := r1.1.reverse (J.back j) 2 [1]
    (r2.1, gx, forRange 0 n s.2.2 fun i gxx => Function.update gxx (i * n + j) (at' r2.2 (i * 2 + 1)))
  (at' r.2 0, s.2)

end CppAD.OptVal
