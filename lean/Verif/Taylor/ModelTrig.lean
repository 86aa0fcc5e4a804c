import Verif.Taylor.ModelExp
import Mathlib.Analysis.SpecialFunctions.Trigonometric.Arctan
import Mathlib.Analysis.SpecialFunctions.Trigonometric.Inverse
import Mathlib.Analysis.SpecialFunctions.Arsinh
import Mathlib.Analysis.SpecialFunctions.Artanh
import Mathlib.Analysis.SpecialFunctions.Arcosh

/-! # Model of the trigonometric and hyperbolic operators

Every operator in this file has two results, the primary result `i_z` and the auxiliary result
`i_z - 1`.  The source files of sin, cos, sinh, cosh have the same text except for the names of the
functions and a sign; one parametrized definition (`trigForward`, ...) models them, and each
operator is an instance.  The same holds for tan, tanh, for atan, atanh and for
asin, acos, asinh, acosh.  A statement `x -= y` that is `x += y` in the sibling file is modelled by
`x += sg * y`. -/

namespace CppAD

/-! ## sin, cos, sinh, cosh -/

/-- `sin_forward_any` sin_op.hpp:14-59, `cos_forward_any` cos_op.hpp:13-59,
`sinh_forward_any` sinh_op.hpp:14-60, `cosh_forward_any` cosh_op.hpp:14-59 in
include/cppad/local/var_op; `is`, `ic` are the rows called `s`, `c` there. -/
noncomputable def trigForward (fs fc : ℝ → ℝ) (sg : ℝ) (ix p q is ic : ℕ) (s : Tay) : Tay :=
  let s := if p = 0 then
      let s := s.set is 0 (fs (s ix 0))
      s.set ic 0 (fc (s ix 0))
    else s
  let p := if p = 0 then 1 else p
  forRange p (q + 1) s fun j s =>
    let s := s.set is j 0
    let s := s.set ic j 0
    let s := forRange 1 (j + 1) s fun k s =>
      let s := s.add is j ((k : ℝ) * s ix k * s ic (j - k))
      s.add ic j (sg * ((k : ℝ) * s ix k * s is (j - k)))
    let s := s.set is j (s is j / (j : ℝ))
    s.set ic j (s ic j / (j : ℝ))

/-- `sin_forward_dir` sin_op.hpp:62-103, `cos_forward_dir` cos_op.hpp:62-103,
`sinh_forward_dir` sinh_op.hpp:63-104, `cosh_forward_dir` cosh_op.hpp:62-103 -/
noncomputable def trigDir (sg : ℝ) (ix q r is ic : ℕ) (s : Tay) : Tay :=
  let m := (q - 1) * r + 1
  forRange 0 r s fun ell s =>
    let s := s.set is (m + ell) ((q : ℝ) * s ix (m + ell) * s ic 0)
    let s := s.set ic (m + ell) (sg * ((q : ℝ) * s ix (m + ell) * s is 0))
    let s := forRange 1 q s fun k s =>
      let s := s.add is (m + ell) ((k : ℝ) * s ix ((k - 1) * r + 1 + ell) * s ic ((q - k - 1) * r + 1 + ell))
      s.add ic (m + ell) (sg * ((k : ℝ) * s ix ((k - 1) * r + 1 + ell) * s is ((q - k - 1) * r + 1 + ell)))
    let s := s.set is (m + ell) (s is (m + ell) / (q : ℝ))
    s.set ic (m + ell) (s ic (m + ell) / (q : ℝ))

/-- `sin_reverse` sin_op.hpp:135-188, `cos_reverse` cos_op.hpp:133-186,
`sinh_reverse` sinh_op.hpp:134-187, `cosh_reverse` cosh_op.hpp:133-186 -/
noncomputable def trigReverse (sg : ℝ) (ix d is ic : ℕ) (s P : Tay) : Tay :=
  let P := forDown d P fun j P =>
    let P := P.set is j (P is j / (j : ℝ))
    let P := P.set ic j (P ic j / (j : ℝ))
    forRange 1 (j + 1) P fun k P =>
      let P := P.add ix k ((k : ℝ) * azmul (P is j) (s ic (j - k)))
      let P := P.add ix k (sg * ((k : ℝ) * azmul (P ic j) (s is (j - k))))
      let P := P.add is (j - k) (sg * ((k : ℝ) * azmul (P ic j) (s ix k)))
      P.add ic (j - k) ((k : ℝ) * azmul (P is j) (s ix k))
  let P := P.add ix 0 (azmul (P is 0) (s ic 0))
  P.add ix 0 (sg * azmul (P ic 0) (s is 0))

/-- sin_op.hpp:14-59 (`s` is the primary result) -/
noncomputable def sinForward (ix p q iz : ℕ) : Tay → Tay :=
  trigForward Real.sin Real.cos (-1) ix p q iz (iz - 1)
/-- sin_op.hpp:62-103 -/
noncomputable def sinDir (ix q r iz : ℕ) : Tay → Tay := trigDir (-1) ix q r iz (iz - 1)
/-- sin_op.hpp:135-188 -/
noncomputable def sinReverse (ix d iz : ℕ) : Tay → Tay → Tay := trigReverse (-1) ix d iz (iz - 1)
/-- cos_op.hpp:13-59 (`c` is the primary result) -/
noncomputable def cosForward (ix p q iz : ℕ) : Tay → Tay :=
  trigForward Real.sin Real.cos (-1) ix p q (iz - 1) iz
/-- cos_op.hpp:62-103 -/
noncomputable def cosDir (ix q r iz : ℕ) : Tay → Tay := trigDir (-1) ix q r (iz - 1) iz
/-- cos_op.hpp:133-186 -/
noncomputable def cosReverse (ix d iz : ℕ) : Tay → Tay → Tay := trigReverse (-1) ix d (iz - 1) iz
/-- sinh_op.hpp:14-60 -/
noncomputable def sinhForward (ix p q iz : ℕ) : Tay → Tay :=
  trigForward Real.sinh Real.cosh 1 ix p q iz (iz - 1)
/-- sinh_op.hpp:63-104 -/
noncomputable def sinhDir (ix q r iz : ℕ) : Tay → Tay := trigDir 1 ix q r iz (iz - 1)
/-- sinh_op.hpp:134-187 -/
noncomputable def sinhReverse (ix d iz : ℕ) : Tay → Tay → Tay := trigReverse 1 ix d iz (iz - 1)
/-- cosh_op.hpp:14-59 -/
noncomputable def coshForward (ix p q iz : ℕ) : Tay → Tay :=
  trigForward Real.sinh Real.cosh 1 ix p q (iz - 1) iz
/-- cosh_op.hpp:62-103; lines 85-86 call the row `i_z` `s` and the row `i_z - 1` `c`,
although `i_z` holds the hyperbolic cosine. -/
noncomputable def coshDir (ix q r iz : ℕ) : Tay → Tay := trigDir 1 ix q r iz (iz - 1)
/-- cosh_op.hpp:133-186 -/
noncomputable def coshReverse (ix d iz : ℕ) : Tay → Tay → Tay := trigReverse 1 ix d (iz - 1) iz

/-! ## tan, tanh -/

/-- `tan_forward_any` tan_op.hpp:14-56, `tanh_forward_any` tanh_op.hpp:14-56 -/
noncomputable def tanForwardG (f : ℝ → ℝ) (sg : ℝ) (ix p q iz : ℕ) (s : Tay) : Tay :=
  let iy := iz - 1
  let s := if p = 0 then
      let s := s.set iz 0 (f (s ix 0))
      s.set iy 0 (s iz 0 * s iz 0)
    else s
  let p := if p = 0 then 1 else p
  forRange p (q + 1) s fun j s =>
    let s := s.set iz j (s ix j)
    let s := forRange 1 (j + 1) s fun k s =>
      s.add iz j (sg * ((k : ℝ) * s ix k * s iy (j - k) / (j : ℝ)))
    let s := s.set iy j (s iz 0 * s iz j)
    forRange 1 (j + 1) s fun k s => s.add iy j (s iz k * s iz (j - k))

/-- `tan_forward_dir` tan_op.hpp:60-98, `tanh_forward_dir` tanh_op.hpp:60-98 -/
noncomputable def tanDirG (sg : ℝ) (ix q r iz : ℕ) (s : Tay) : Tay :=
  let iy := iz - 1
  let m := (q - 1) * r + 1
  forRange 0 r s fun ell s =>
    let s := s.set iz (m + ell) ((q : ℝ) * (s ix (m + ell) + sg * (s ix (m + ell) * s iy 0)))
    let s := forRange 1 q s fun k s => s.add iz (m + ell)
      (sg * ((k : ℝ) * s ix ((k - 1) * r + 1 + ell) * s iy ((q - k - 1) * r + 1 + ell)))
    let s := s.set iz (m + ell) (s iz (m + ell) / (q : ℝ))
    let s := s.set iy (m + ell) (2 * s iz (m + ell) * s iz 0)
    forRange 1 q s fun k s => s.add iy (m + ell)
      (s iz ((k - 1) * r + 1 + ell) * s iz ((q - k - 1) * r + 1 + ell))

/-- `tan_reverse` tan_op.hpp:130-179, `tanh_reverse` tanh_op.hpp:129-178 -/
noncomputable def tanReverseG (sg : ℝ) (ix d iz : ℕ) (s P : Tay) : Tay :=
  let iy := iz - 1
  let P := forDown d P fun j P =>
    let P := P.add ix j (P iz j)
    let P := P.set iz j (P iz j / (j : ℝ))
    let P := forRange 1 (j + 1) P fun k P =>
      let P := P.add ix k (sg * (azmul (P iz j) (s iy (j - k)) * (k : ℝ)))
      P.add iy (j - k) (sg * (azmul (P iz j) (s ix k) * (k : ℝ)))
    forRange 0 j P fun k P => P.add iz k (azmul (P iy (j - 1)) (s iz (j - k - 1)) * 2)
  P.add ix 0 (azmul (P iz 0) (1 + sg * s iy 0))

/-- tan_op.hpp:14-56 -/
noncomputable def tanForward := tanForwardG Real.tan 1
/-- tan_op.hpp:60-98 -/
noncomputable def tanDir := tanDirG 1
/-- tan_op.hpp:130-179 -/
noncomputable def tanReverse := tanReverseG 1
/-- tanh_op.hpp:14-56 -/
noncomputable def tanhForward := tanForwardG Real.tanh (-1)
/-- tanh_op.hpp:60-98 -/
noncomputable def tanhDir := tanDirG (-1)
/-- tanh_op.hpp:129-178 -/
noncomputable def tanhReverse := tanReverseG (-1)

/-! ## atan, atanh -/

/-- `atan_forward_any` atan_op.hpp:14-57, `atanh_forward_any` atanh_op.hpp:15-58 -/
noncomputable def atanForwardG (f : ℝ → ℝ) (sg : ℝ) (ix p q iz : ℕ) (s : Tay) : Tay :=
  let ib := iz - 1
  let s := if p = 0 then
      let s := s.set iz 0 (f (s ix 0))
      s.set ib 0 (1 + sg * (s ix 0 * s ix 0))
    else s
  let p := if p = 0 then 1 else p
  forRange p (q + 1) s fun j s =>
    let s := s.set ib j (sg * (2 * s ix 0 * s ix j))
    let s := s.set iz j 0
    let s := forRange 1 j s fun k s =>
      let s := s.add ib j (sg * (s ix k * s ix (j - k)))
      s.add iz j (-((k : ℝ) * s iz k * s ib (j - k)))
    let s := s.set iz j (s iz j / (j : ℝ))
    let s := s.add iz j (s ix j)
    s.set iz j (s iz j / s ib 0)

/-- `atan_forward_dir` atan_op.hpp:61-97, `atanh_forward_dir` atanh_op.hpp:62-98 -/
noncomputable def atanDirG (sg : ℝ) (ix q r iz : ℕ) (s : Tay) : Tay :=
  let ib := iz - 1
  let m := (q - 1) * r + 1
  forRange 0 r s fun ell s =>
    let s := s.set ib (m + ell) (sg * (2 * s ix (m + ell) * s ix 0))
    let s := s.set iz (m + ell) ((q : ℝ) * s ix (m + ell))
    let s := forRange 1 q s fun k s =>
      let s := s.add ib (m + ell) (sg * (s ix ((k - 1) * r + 1 + ell) * s ix ((q - k - 1) * r + 1 + ell)))
      s.add iz (m + ell) (-((k : ℝ) * s iz ((k - 1) * r + 1 + ell) * s ib ((q - k - 1) * r + 1 + ell)))
    s.set iz (m + ell) (s iz (m + ell) / ((q : ℝ) * s ib 0))

/-- `atan_reverse` atan_op.hpp:127-183, `atanh_reverse` atanh_op.hpp:128-184 -/
noncomputable def atanReverseG (sg : ℝ) (ix d iz : ℕ) (s P : Tay) : Tay :=
  let ib := iz - 1
  let inv_b0 := 1 / s ib 0
  let P := forDown d P fun j P =>
    let P := P.set iz j (azmul (P iz j) inv_b0)
    let P := P.set ib j (P ib j * 2)
    let P := P.add ib 0 (-azmul (P iz j) (s iz j))
    let P := P.add ix j (P iz j + sg * azmul (P ib j) (s ix 0))
    let P := P.add ix 0 (sg * azmul (P ib j) (s ix j))
    let P := P.set iz j (P iz j / (j : ℝ))
    forRange 1 j P fun k P =>
      let P := P.add ib (j - k) (-((k : ℝ) * azmul (P iz j) (s iz k)))
      let P := P.add iz k (-((k : ℝ) * azmul (P iz j) (s ib (j - k))))
      P.add ix k (sg * azmul (P ib j) (s ix (j - k)))
  P.add ix 0 (azmul (P iz 0) inv_b0 + sg * (2 * azmul (P ib 0) (s ix 0)))

/-- atan_op.hpp:14-57 -/
noncomputable def atanForward := atanForwardG Real.arctan 1
/-- atan_op.hpp:61-97 -/
noncomputable def atanDir := atanDirG 1
/-- atan_op.hpp:127-183 -/
noncomputable def atanReverse := atanReverseG 1
/-- atanh_op.hpp:15-58 -/
noncomputable def atanhForward := atanForwardG Real.artanh (-1)
/-- atanh_op.hpp:62-98 -/
noncomputable def atanhDir := atanDirG (-1)
/-- atanh_op.hpp:128-184 -/
noncomputable def atanhReverse := atanReverseG (-1)

/-! ## asin, acos, asinh, acosh -/

/-- `asin_forward_any` asin_op.hpp:14-66, `acos_forward_any` acos_op.hpp:14-66,
`asinh_forward_any` asinh_op.hpp:15-67, `acosh_forward_any` acosh_op.hpp:15-67.
`f` is the function, `u0` computes the order zero coefficient of `u` from that of `x`,
`su` is the sign of `x * x` in `u`, `sz` is the sign of `x[j]` in the update of `z[j]`. -/
noncomputable def asinForwardG (f u0 : ℝ → ℝ) (su sz : ℝ) (ix p q iz : ℕ) (s : Tay) : Tay :=
  let ib := iz - 1
  let s := if p = 0 then
      let s := s.set iz 0 (f (s ix 0))
      let uj := u0 (s ix 0)
      s.set ib 0 (Real.sqrt uj)
    else s
  let p := if p = 0 then 1 else p
  forRange p (q + 1) s fun j s =>
    let uj := forRange 0 (j + 1) (0 : ℝ) fun k uj => uj + su * (s ix k * s ix (j - k))
    let s := s.set ib j 0
    let s := s.set iz j 0
    let s := forRange 1 j s fun k s =>
      let s := s.add ib j (-((k : ℝ) * s ib k * s ib (j - k)))
      s.add iz j (-((k : ℝ) * s iz k * s ib (j - k)))
    let s := s.set ib j (s ib j / (j : ℝ))
    let s := s.set iz j (s iz j / (j : ℝ))
    let s := s.add ib j (uj / 2)
    let s := s.add iz j (sz * s ix j)
    let s := s.set ib j (s ib j / s ib 0)
    s.set iz j (s iz j / s ib 0)

/-- `asin_forward_dir` asin_op.hpp:69-110, `acos_forward_dir` acos_op.hpp:69-110,
`asinh_forward_dir` asinh_op.hpp:70-111, `acosh_forward_dir` acosh_op.hpp:70-111.
acos_op.hpp:108 is written `-( x + z / q ) / b[0]`; with `sz = -1` this is
`( sz * x - z / q ) / b[0]`. -/
noncomputable def asinDirG (su sz : ℝ) (ix q r iz : ℕ) (s : Tay) : Tay :=
  let ib := iz - 1
  let m := (q - 1) * r + 1
  forRange 0 r s fun ell s =>
    let uq := su * (2 * s ix (m + ell) * s ix 0)
    let uq := forRange 1 q uq fun k uq =>
      uq + su * (s ix ((k - 1) * r + 1 + ell) * s ix ((q - k - 1) * r + 1 + ell))
    let s := s.set ib (m + ell) 0
    let s := s.set iz (m + ell) 0
    let s := forRange 1 q s fun k s =>
      let s := s.add ib (m + ell) ((k : ℝ) * s ib ((k - 1) * r + 1 + ell) * s ib ((q - k - 1) * r + 1 + ell))
      s.add iz (m + ell) ((k : ℝ) * s iz ((k - 1) * r + 1 + ell) * s ib ((q - k - 1) * r + 1 + ell))
    let s := s.set ib (m + ell) ((uq / 2 - s ib (m + ell) / (q : ℝ)) / s ib 0)
    s.set iz (m + ell) ((sz * s ix (m + ell) - s iz (m + ell) / (q : ℝ)) / s ib 0)

/-- `asin_reverse` asin_op.hpp:140-211, `acos_reverse` acos_op.hpp:140-211,
`asinh_reverse` asinh_op.hpp:141-212, `acosh_reverse` acosh_op.hpp:141-212.
acos_op.hpp:191,210 are written `px[j] -= pz[j] + pb[j] * x[0]`,
`px[0] -= (pz[0] + pb[0] * x[0]) * inv_b0`. -/
noncomputable def asinReverseG (su sz : ℝ) (ix d iz : ℕ) (s P : Tay) : Tay :=
  let ib := iz - 1
  let inv_b0 := 1 / s ib 0
  let P := forDown d P fun j P =>
    let P := P.set ib j (azmul (P ib j) inv_b0)
    let P := P.set iz j (azmul (P iz j) inv_b0)
    let P := P.add ib 0 (-(azmul (P iz j) (s iz j) + azmul (P ib j) (s ib j)))
    let P := P.add ix 0 (su * azmul (P ib j) (s ix j))
    let P := P.add ix j (sz * P iz j + su * azmul (P ib j) (s ix 0))
    let P := P.set iz j (P iz j / (j : ℝ))
    forRange 1 j P fun k P =>
      let P := P.add ib (j - k) (-((k : ℝ) * azmul (P iz j) (s iz k) + azmul (P ib j) (s ib k)))
      let P := P.add ix k (su * azmul (P ib j) (s ix (j - k)))
      P.add iz k (-((k : ℝ) * azmul (P iz j) (s ib (j - k))))
  P.add ix 0 (azmul (sz * P iz 0 + su * azmul (P ib 0) (s ix 0)) inv_b0)

/-- asin_op.hpp:14-66 -/
noncomputable def asinForward := asinForwardG Real.arcsin (fun x => 1 - x * x) (-1) 1
/-- asin_op.hpp:69-110 -/
noncomputable def asinDir := asinDirG (-1) 1
/-- asin_op.hpp:140-211 -/
noncomputable def asinReverse := asinReverseG (-1) 1
/-- acos_op.hpp:14-66 -/
noncomputable def acosForward := asinForwardG Real.arccos (fun x => 1 - x * x) (-1) (-1)
/-- acos_op.hpp:69-110 -/
noncomputable def acosDir := asinDirG (-1) (-1)
/-- acos_op.hpp:140-211 -/
noncomputable def acosReverse := asinReverseG (-1) (-1)
/-- asinh_op.hpp:15-67 -/
noncomputable def asinhForward := asinForwardG Real.arsinh (fun x => 1 + x * x) 1 1
/-- asinh_op.hpp:70-111 -/
noncomputable def asinhDir := asinDirG 1 1
/-- asinh_op.hpp:141-212 -/
noncomputable def asinhReverse := asinReverseG 1 1
/-- acosh_op.hpp:15-67 -/
noncomputable def acoshForward := asinForwardG Real.arcosh (fun x => x * x - 1) 1 1
/-- acosh_op.hpp:70-111 -/
noncomputable def acoshDir := asinDirG 1 1
/-- acosh_op.hpp:141-212 -/
noncomputable def acoshReverse := asinReverseG 1 1

end CppAD
