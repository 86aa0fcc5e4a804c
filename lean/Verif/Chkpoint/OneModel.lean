import Verif.Chkpoint.Contract
import Verif.Legacy.Patterns

/-! # Model of `checkpoint` (chkpoint_one): an atomic_two function that caches its sparsity patterns

An object of the class for one thread (`member_[thread]`, a copy of the recording).  The recording is the one after
`optimize` when that option is chosen (see C13, C50).  The versions with `AD<Base>` arguments and the memory of `f_` for sparsity
patterns are not modelled.  A cache that is empty (`n_set() == 0`, `size() == 0`) is `none`; number of arguments and
results are positive.  Elements of a `list_setvec` are visited in order until the end marker `n`. -/

namespace CppAD.Chkpoint

open CppAD.Sparsity CppAD.Legacy

/-- `member_struct`, chkpoint_one/chkpoint_one.hpp (without `af_`) -/
structure One where
  f : ADFun
  jacSet : Option (ℕ → Finset ℕ)
  jacBool : Option (ℕ → Bool)
  hesSet : Option (ℕ → Finset ℕ)
  hesBool : Option (ℕ → Bool)

/-- the sets of a vector of sets -/
def toSets : SetVec → ℕ → Finset ℕ
  | .sets v => v
  | .bools _ => fun _ => ∅

/-- the elements of a vector of bool -/
def toBools : SetVec → ℕ → Bool
  | .bools v => v
  | .sets _ => fun _ => false

/-- the elements of set `i` that an iterator visits before the end marker -/
def visit (s : ℕ → Finset ℕ) (i n : ℕ) : List ℕ := ((s i).sort (· ≤ ·)).takeWhile (· < n)

/-- `identity`, chkpoint_one/set_jac_sparse_set.hpp:24-29, 36-41, set_hes_sparse_set.hpp:11-47 -/
def identitySets (n : ℕ) : SetVec := .sets (forRange 0 n (fun _ => ∅) fun j s => Sp.addElement s j j)

/-- `set_jac_sparse_set`, chkpoint_one/set_jac_sparse_set.hpp:11-48.  `ForSparseJacCheckpoint` (for_sparse_jac.hpp:662-770) and
`RevSparseJacCheckpoint` (rev_sparse_jac.hpp:552-650) are the versions of `ForSparseJac` and `RevSparseJac` for `list_setvec`. -/
def One.setJacSet (o : One) (junk : ℕ → Bool) : One :=
  let T : Tape := o.f.toTape
  let n := T.n
  let m := T.dep.length
  { o with jacSet := some (toSets (if n ≤ m then (forSparseJac T junk n (identitySets n) false true).1
      else revSparseJac T junk m (identitySets m) false true)) }

/-- `set_jac_sparse_bool`, chkpoint_one/set_jac_sparse_bool.hpp:11-46; `ijunk` is the content of the new vector `identity` -/
def One.setJacBool (o : One) (junk ijunk : ℕ → Bool) : One :=
  let T : Tape := o.f.toTape
  let n := T.n
  let m := T.dep.length
  { o with jacBool := some (toBools (if n ≤ m then (forSparseJac T junk n (identityBools n ijunk) false true).1
      else revSparseJac T junk m (identityBools m ijunk) false true)) }

/-- `set_hes_sparse_set`, chkpoint_one/set_hes_sparse_set.hpp:11-47; note that the result of `ForSparseJacCheckpoint` is placed in
`jac_sparse_set_`.  `RevSparseHesCheckpoint` is in rev_sparse_hes.hpp:562-630. -/
def One.setHesSet (o : One) (junk : ℕ → Bool) : One :=
  let T : Tape := o.f.toTape
  let n := T.n
  let r := forSparseJac T junk n (identitySets n) false false
  let h := revHes r.2 T.ops (n + 1) (revFlags T (.bools fun _ => true), fun _ => ∅)
  { o with jacSet := some (toSets r.1), hesSet := some (toSets (readHes .set true n n (fun j => j + 1) junk h.2)) }

/-- `set_hes_sparse_bool`, chkpoint_one/set_hes_sparse_bool.hpp:11-43 -/
def One.setHesBool (o : One) (junk ijunk : ℕ → Bool) : One :=
  let T : Tape := o.f.toTape
  let n := T.n
  let r := forSparseJac T junk n (identityBools n ijunk) false false
  { o with hesBool := some (toBools (revSparseHes T junk n r.2 (.bools fun _ => true) false)) }

/-- chkpoint_one/forward.hpp:58-70, the case of set sparsity patterns -/
def vySets (n m : ℕ) (s : ℕ → Finset ℕ) (vx vy : ℕ → Bool) : ℕ → Bool :=
  forRange 0 m vy fun i vy =>
    (visit s i n).foldl (fun vy j => Function.update vy i (vy i || vx j)) (Function.update vy i false)

/-- chkpoint_one/forward.hpp:84-93, the case of bool sparsity patterns -/
def vyBools (n m : ℕ) (b vx vy : ℕ → Bool) : ℕ → Bool :=
  forRange 0 m vy fun i vy => forRange 0 n (Function.update vy i false) fun j vy =>
    if b (i * n + j) then Function.update vy i (vy i || vx j) else vy

/-- chkpoint_one/forward.hpp:34-95: the caches and `vy`; `vx` is none when `vx.size() == 0`, `setType` is
`sparsity() == set_sparsity_enum` -/
def One.forwardVy (o : One) (setType : Bool) (pjunk ijunk : ℕ → Bool) (vx : Option (ℕ → Bool)) (vy : ℕ → Bool) : One × (ℕ → Bool) :=
  let n := o.f.n
  let m := o.f.dep.length
  match vx with
  | none => ({ o with jacSet := none, jacBool := none, hesSet := none, hesBool := none }, vy)
  | some vx =>
    if setType then
      let o := if o.jacSet.isNone then o.setJacSet pjunk else o
      (o, vySets n m (o.jacSet.getD fun _ => ∅) vx vy)
    else
      let o := { o with jacSet := none }
      let o := if o.jacBool.isNone then o.setJacBool pjunk ijunk else o
      (o, vyBools n m (o.jacBool.getD fun _ => false) vx vy)

/-- `checkpoint::forward`, chkpoint_one/forward.hpp:12-106; the argument `p` is not used.  Returns the object, `ty` and `vy`. -/
noncomputable def One.forward (o : One) (setType : Bool) (pjunk ijunk : ℕ → Bool) (junk cjunk : ℕ → ℝ) (nan : ℝ) (q : ℕ)
    (vx : Option (ℕ → Bool)) (vy : ℕ → Bool) (tx : ℕ → ℝ) : One × (ℕ → ℝ) × (ℕ → Bool) :=
  let v := o.forwardVy setType pjunk ijunk vx vy
  let r := Chkpoint.forward v.1.f junk nan q tx
  ({ v.1 with f := r.1.capacityOrder cjunk 0 }, r.2, v.2)

/-- `checkpoint::reverse`, chkpoint_one/reverse.hpp:12-61 -/
noncomputable def One.reverse (o : One) (junk junk' cjunk : ℕ → ℝ) (nan : ℝ) (q : ℕ) (tx py : ℕ → ℝ) : One × (ℕ → ℝ) :=
  let r := Chkpoint.reverse o.f junk junk' nan q tx py
  ({ o with f := r.1.capacityOrder cjunk 0 }, r.2)

/-- product of bool patterns: chkpoint_one/for_sparse_jac.hpp:39-52, rev_sparse_hes.hpp:66-79 -/
def mulBools (m n q : ℕ) (J r s : ℕ → Bool) : ℕ → Bool :=
  forRange 0 m s fun i s => forRange 0 q s fun k s =>
    Function.update s (i * q + k) (forRange 0 n false fun j b => b || (J (i * n + j) && r (j * q + k)))

/-- product of set patterns: chkpoint_one/for_sparse_jac.hpp:106-122, rev_sparse_hes.hpp:177-192 -/
def mulSets (m n : ℕ) (J r : ℕ → Finset ℕ) : ℕ → Finset ℕ :=
  forRange 0 m (fun _ => ∅) fun i s => (visit J i n).foldl (fun s j =>
    ((r j).sort (· ≤ ·)).foldl (fun s k => Sp.addElement s i k) s) s

/-- `for_sparse_jac` for vectors of bool, chkpoint_one/for_sparse_jac.hpp:12-53; `s0` is the content of `s` before the call -/
def One.forSparseJacBool (o : One) (junk ijunk : ℕ → Bool) (q : ℕ) (r s0 : ℕ → Bool) : One × (ℕ → Bool) :=
  let n := o.f.n
  let m := o.f.dep.length
  let o := if o.jacBool.isNone then o.setJacBool junk ijunk else o
  let o := { o with jacSet := none }
  let s := forRange 0 m s0 fun i s => forRange 0 q s fun k s => Function.update s (i * q + k) false
  (o, mulBools m n q (o.jacBool.getD fun _ => false) r s)

/-- `for_sparse_jac` for vectors of sets, chkpoint_one/for_sparse_jac.hpp:79-125 -/
def One.forSparseJacSet (o : One) (junk : ℕ → Bool) (r : ℕ → Finset ℕ) : One × (ℕ → Finset ℕ) :=
  let n := o.f.n
  let m := o.f.dep.length
  let o := { o with jacBool := none }
  let o := if o.jacSet.isNone then o.setJacSet junk else o
  (o, mulSets m n (o.jacSet.getD fun _ => ∅) r)

/-- `rev_sparse_jac` for vectors of bool, chkpoint_one/rev_sparse_jac.hpp:12-51 -/
def One.revSparseJacBool (o : One) (junk ijunk : ℕ → Bool) (q : ℕ) (rt st0 : ℕ → Bool) : One × (ℕ → Bool) :=
  let n := o.f.n
  let m := o.f.dep.length
  let o := if o.jacBool.isNone then o.setJacBool junk ijunk else o
  let o := { o with jacSet := none }
  let J := o.jacBool.getD fun _ => false
  (o, forRange 0 q st0 fun i st => forRange 0 n st fun j st =>
    Function.update st (j * q + i) (forRange 0 m false fun k b => b || (rt (k * q + i) && J (k * n + j))))

/-- `rev_sparse_jac` for vectors of sets, chkpoint_one/rev_sparse_jac.hpp:77-129 -/
def One.revSparseJacSet (o : One) (junk : ℕ → Bool) (rt : ℕ → Finset ℕ) : One × (ℕ → Finset ℕ) :=
  let n := o.f.n
  let m := o.f.dep.length
  let o := { o with jacBool := none }
  let o := if o.jacSet.isNone then o.setJacSet junk else o
  let J := o.jacSet.getD fun _ => ∅
  (o, forRange 0 m (fun _ => ∅) fun i st => ((rt i).sort (· ≤ ·)).foldl (fun st k =>
    (visit J i n).foldl (fun st j => Sp.addElement st j k) st) st)

/-- the vector `t` in `rev_sparse_hes`, chkpoint_one/rev_sparse_hes.hpp:48, 158 -/
def One.revT (o : One) (junk s : ℕ → Bool) : ℕ → Bool := toBools (revSparseJac o.f.toTape junk 1 (.bools s) false false)

/-- the assertion in `rev_sparse_hes` when NDEBUG is not defined, chkpoint_one/rev_sparse_hes.hpp:49-52, 159-162 -/
def revAssert (n : ℕ) (vx t : ℕ → Bool) : Prop := ∀ j < n, (vx j || !t j) = true

/-- `rev_sparse_hes` for vectors of bool, chkpoint_one/rev_sparse_hes.hpp:12-88.  Returns the object, `t` and `v`. -/
def One.revSparseHesBool (o : One) (junk junk1 junk2 ijunk : ℕ → Bool) (q : ℕ) (s r u v0 : ℕ → Bool) :
    One × (ℕ → Bool) × (ℕ → Bool) :=
  let n := o.f.n
  let o := if o.hesBool.isNone then o.setHesBool junk ijunk else o
  let o := { o with hesSet := none }
  let t := o.revT junk1 s
  let a := toBools (revSparseJac o.f.toTape junk2 q (.bools u) true false)
  let v := mulBools n n q (o.hesBool.getD fun _ => false) r v0
  let v := forRange 0 n v fun i v => forRange 0 q v fun k v => Function.update v (i * q + k) (v (i * q + k) || a (i * q + k))
  (o, t, v)

/-- `rev_sparse_hes` for vectors of sets, chkpoint_one/rev_sparse_hes.hpp:122-204.  Returns the object, `t` and `v`. -/
def One.revSparseHesSet (o : One) (junk junk1 junk2 : ℕ → Bool) (q : ℕ) (s : ℕ → Bool) (r u : ℕ → Finset ℕ) :
    One × (ℕ → Bool) × (ℕ → Finset ℕ) :=
  let n := o.f.n
  let o := { o with hesBool := none }
  let o := if o.hesSet.isNone then o.setHesSet junk else o
  let t := o.revT junk1 s
  let a := toSets (revSparseJac o.f.toTape junk2 q (.sets u) true false)
  let v := mulSets n n (o.hesSet.getD fun _ => ∅) r
  let v := forRange 0 n v fun i v => ((a i).sort (· ≤ ·)).foldl (fun v j => Sp.addElement v i j) v
  (o, t, v)

end CppAD.Chkpoint
