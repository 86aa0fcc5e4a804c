import Verif.Taylor.TapeRev

/-! # Model of the `ADFun` member functions Forward, Reverse and capacity_order

Simple vectors are lists; the Taylor coefficient buffer `taylor_` is a flat memory `ℕ → ℝ`. -/

namespace CppAD

/-- row major vector with `n` rows and `m` columns: element `i * m + k` is `g i k` -/
def tab (n m : ℕ) (g : ℕ → ℕ → ℝ) : List ℝ := (List.range (n * m)).map fun i => g (i / m) (i % m)

/-- element access `v[i]` of a simple vector -/
def at' (v : List ℝ) (i : ℕ) : ℝ := v.getD i 0

/-- A recording: `n` independent variables (variable indices `1 .. n`, `ind_taddr_[j] = j + 1`),
the elementary operation sequence in `play_`, and `dep = dep_taddr_`; cppad/core/ad_fun.hpp:98-126 -/
structure Tape where
  n : ℕ
  ops : List Op
  dep : List ℕ

/-- `num_var_tape_`, cppad/core/ad_fun.hpp:98 -/
def Tape.numVar (f : Tape) : ℕ := CppAD.numVar f.ops (f.n + 1)

/-- The other members of `ADFun` that are used here, cppad/core/ad_fun.hpp:89-118:
`taylor = taylor_`, `cap = cap_order_taylor_`, `num = num_order_taylor_`, `ndir = num_direction_taylor_`. -/
structure ADFun extends Tape where
  taylor : ℕ → ℝ
  cap : ℕ
  num : ℕ
  ndir : ℕ

/-- number of coefficients per variable, core/capacity_order.hpp:168 -/
def stride (c r : ℕ) : ℕ := (c - 1) * r + 1

/-- the memory seen as a matrix with `W` columns: `taylor[W * i + k]` -/
def unflat (W : ℕ) (mem : ℕ → ℝ) : Tay := fun i k => mem (W * i + k)
/-- the memory that holds a matrix with `W` columns -/
def flat (W : ℕ) (s : Tay) : ℕ → ℝ := fun a => s (a / W) (a % W)

/-- copy loop of capacity_order, core/capacity_order.hpp:171-199;
`new` is the uninitialized new buffer, `p` the number of orders to copy -/
def copyTaylor (N p C R c r : ℕ) (old new : ℕ → ℝ) : ℕ → ℝ :=
  if p = 0 then new else
  forRange 0 N new fun i m =>
    let m := Function.update m (((c - 1) * r + 1) * i + 0) (old (((C - 1) * R + 1) * i + 0))
    forRange 1 p m fun k m =>
      forRange 0 R m fun ell m =>
        Function.update m (((c - 1) * r + 1) * i + (k - 1) * r + ell + 1)
          (old (((C - 1) * R + 1) * i + (k - 1) * R + ell + 1))

/-- core/capacity_order.hpp:151-210 (private, number of orders and directions);
`junk` is the content of newly allocated memory -/
def ADFun.capacity2 (f : ADFun) (junk : ℕ → ℝ) (c r : ℕ) : ADFun :=
  if c = f.cap ∧ r = f.ndir then f
  else if c = 0 then { f with taylor := junk, num := 0, cap := 0, ndir := r }
  else
    let p := min f.num c
    { f with
      taylor := copyTaylor f.numVar p f.cap f.ndir c r f.taylor junk
      cap := c, num := p, ndir := r }

/-- core/capacity_order.hpp:234-249 (user API) -/
def ADFun.capacityOrder (f : ADFun) (junk : ℕ → ℝ) (c : ℕ) : ADFun :=
  if c = 0 ∨ c = 1 then f.capacity2 junk c c
  else f.capacity2 junk c (if f.ndir = 0 then 1 else f.ndir)

/-- core/forward/forward.hpp:134-160: make room for order `q` and one direction -/
def ADFun.fwdRoom (f : ADFun) (junk : ℕ → ℝ) (p q : ℕ) : ADFun :=
  if f.cap ≤ q ∨ f.ndir ≠ 1 then
    { f with num := if p = 0 then 0 else q }.capacity2 junk (max (q + 1) f.cap) 1
  else f

/-- ADFun::Forward(q, xq), core/forward/forward.hpp:95-314.  `nan` is the value used to
initialize the coefficients, `junk` the content of newly allocated memory.
The order zero case uses the sweep forward_0, otherwise forward_any. -/
noncomputable def ADFun.forward (f : ADFun) (junk : ℕ → ℝ) (nan : ℝ) (q : ℕ) (xq : List ℝ) : ADFun × List ℝ :=
  let p := q + 1 - xq.length / f.n
  let f := f.fwdRoom junk p q
  let C := f.cap
  let s := unflat C f.taylor
  -- initialize orders p to q of every variable
  let s := forRange 0 f.numVar s fun j s => forRange p (q + 1) s fun k s => s.set j k nan
  -- independent variables
  let s := if p = q then forRange 0 f.n s fun j s => s.set (j + 1) q (at' xq j)
    else forRange 0 f.n s fun j s => forRange 0 (q + 1) s fun k s => s.set (j + 1) k (at' xq ((q + 1) * j + k))
  let s := if q = 0 then forward0 f.ops (f.n + 1) s else forwardAny p q f.ops (f.n + 1) s
  let yq := if p = q then f.dep.map fun d => s d q
    else tab f.dep.length (q + 1) fun i k => s (f.dep.getD i 0) k
  ({ f with taylor := flat C s, num := q + 1 }, yq)

/-- core/forward/forward.hpp:446-460: make room for order `q` and `r` directions -/
def ADFun.dirRoom (f : ADFun) (junk : ℕ → ℝ) (q r : ℕ) : ADFun :=
  if f.cap ≤ q ∨ f.ndir ≠ r then
    { f with num := if f.ndir ≠ r then 1 else f.num }.capacity2 junk (max (q + 1) f.cap) r
  else f

/-- ADFun::Forward(q, r, xq), core/forward/forward.hpp:405-516 -/
noncomputable def ADFun.forwardDirs (f : ADFun) (junk : ℕ → ℝ) (q r : ℕ) (xq : List ℝ) : ADFun × List ℝ :=
  let f := f.dirRoom junk q r
  let W := (f.cap - 1) * r + 1
  let s := unflat W f.taylor
  let s := forRange 0 f.n s fun j s => forRange 0 r s fun ell s =>
    s.set (j + 1) ((q - 1) * r + ell + 1) (at' xq (r * j + ell))
  let s := forwardDir q r f.ops (f.n + 1) s
  let yq := tab f.dep.length r fun i ell => s (f.dep.getD i 0) ((q - 1) * r + ell + 1)
  ({ f with taylor := flat W s, num := q + 1 }, yq)

/-- seeding of the partials, core/reverse.hpp:133-156 -/
noncomputable def seed (q : ℕ) (dep : List ℕ) (w : List ℝ) : Tay :=
  let P : Tay := fun _ _ => 0
  if w.length = dep.length then
    forRange 0 dep.length P fun i P => P.add (dep.getD i 0) (q - 1) (at' w i)
  else
    forRange 0 dep.length P fun i P => forRange 0 q P fun k P => P.add (dep.getD i 0) k (at' w (i * q + k))

/-- core/reverse.hpp:115-124 : keep only order zero when there is more than one direction and `q = 1` -/
def ADFun.revRoom (f : ADFun) (junk : ℕ → ℝ) (q : ℕ) : ADFun :=
  if q = 1 ∧ 1 < f.ndir then { f with num := 1 }.capacity2 junk f.cap 1 else f

/-- ADFun::Reverse(q, w), core/reverse.hpp:83-199 -/
noncomputable def ADFun.reverse (f : ADFun) (junk : ℕ → ℝ) (q : ℕ) (w : List ℝ) : ADFun × List ℝ :=
  let f := f.revRoom junk q
  let P := reverseSweep (q - 1) f.ops (f.n + 1) (unflat f.cap f.taylor) (seed q f.dep w)
  let value := if w.length = f.dep.length then tab f.n q fun j k => P (j + 1) (q - 1 - k)
    else tab f.n q fun j k => P (j + 1) k
  (f, value)

end CppAD
