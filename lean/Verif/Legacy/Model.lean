import Verif.Sparsity.Apply

/-!
# The older sparsity functions and the drivers that use them

`ForSparseJac`, `RevSparseJac`, `RevSparseHes`, `ForSparseHes`, `SparseJacobian`, `SparseJacobianForward`,
`SparseJacobianReverse`, `SparseHessian`.  Their patterns are vectors with elements of type `bool` or
`std::set<size_t>`.  The sizes of the vectors are checked by assertions and are not represented.
-/

namespace CppAD.Legacy

open Sparsity IndexSort SparseJac SparseHes

/-- an argument or result of type `SetVector`; the elements of the vector are `bool` or `std::set<size_t>` -/
inductive SetVec
  | bools (v : ℕ → Bool)
  | sets (v : ℕ → Finset ℕ)

/-- index of entry `(i, j)` of an `nr` by `nc` pattern in a vector of `bool`; for_sparse_jac.hpp:298-303, 328-333 -/
def boolIdx (tr : Bool) (nr nc i j : ℕ) : ℕ := if tr then j * nr + i else i * nc + j

/-- Posting the entries of an argument: for_sparse_jac.hpp:291-308 (bool), 422-463 (set) with `idx i = ind_taddr_[i] = i + 1`,
and rev_sparse_jac.hpp:242-255 (bool), 374-406 (set) with `idx i = dep_taddr_[i]` and `tr` the negation of `transpose`.
`post_element` is `addElement` on the posts, `process_post` then adds the posts to the (empty) sets. -/
def post (tr : Bool) (nr nc : ℕ) (idx : ℕ → ℕ) (r : SetVec) : Sp :=
  let p : Sp := match r with
    | .bools v => forRange 0 nr (fun _ => ∅) fun i p => forRange 0 nc p fun j p =>
        if v (boolIdx tr nr nc i j) then Sp.addElement p (idx i) j else p
    | .sets v =>
      if tr then forRange 0 nc (fun _ => ∅) fun i p => ((v i).sort (· ≤ ·)).foldl (fun p j => Sp.addElement p (idx j) i) p
      else forRange 0 nr (fun _ => ∅) fun i p => ((v i).sort (· ≤ ·)).foldl (fun p j => Sp.addElement p (idx i) j) p
  (processPost ((List.range nr).map idx) (fun _ => ∅) p).1

/-- Result for the elements of set `i`, bool case: for_sparse_jac.hpp:336-345, rev_sparse_jac.hpp:286-294,
rev_sparse_hes.hpp:308-316 -/
def setRow (tr : Bool) (nr nc : ℕ) (idx : ℕ → ℕ) (s : Sp) (i : ℕ) (v : ℕ → Bool) : ℕ → Bool :=
  (((s (idx i)).sort (· ≤ ·)).takeWhile (· < nc)).foldl (fun v j => Function.update v (boolIdx tr nr nc i j) true) v

/-- for_sparse_jac.hpp:327-334, rev_sparse_jac.hpp:277-284 -/
def clearRow (tr : Bool) (nr nc i : ℕ) (v : ℕ → Bool) : ℕ → Bool :=
  forRange 0 nc v fun j v => Function.update v (boolIdx tr nr nc i j) false

/-- Result for the elements of set `i`, set case: for_sparse_jac.hpp:485-494, rev_sparse_jac.hpp:429-437,
rev_sparse_hes.hpp:436-444 -/
def insertRow (tr : Bool) (nc : ℕ) (idx : ℕ → ℕ) (s : Sp) (i : ℕ) (v : ℕ → Finset ℕ) : ℕ → Finset ℕ :=
  (((s (idx i)).sort (· ≤ ·)).takeWhile (· < nc)).foldl (fun v j =>
    if tr then Function.update v j (insert i (v j)) else Function.update v i (insert j (v i))) v

/-- type of the elements of a `SetVector` -/
inductive Kind
  | bool
  | set

/-- `Set_type()` for the vector -/
def SetVec.kind : SetVec → Kind
  | .bools _ => .bool
  | .sets _ => .set

/-- Extracting the result: for_sparse_jac.hpp:322-346, 476-495 with `idx i = dep_taddr_[i]`, and rev_sparse_jac.hpp:268-295,
419-438 with `idx j = j + 1`; `junk` is the content of the new vector (the sets of a new vector are empty). -/
def readBack (kind : Kind) (tr : Bool) (nr nc : ℕ) (idx : ℕ → ℕ) (junk : ℕ → Bool) (s : Sp) : SetVec :=
  match kind with
  | .bool => .bools (forRange 0 nr junk fun i v => setRow tr nr nc idx s i (clearRow tr nr nc i v))
  | .set => .sets (forRange 0 nr (fun _ => ∅) fun i v => insertRow tr nc idx s i v)

/-- Extracting the result of `RevSparseHes`: rev_sparse_hes.hpp:287-317 (bool; the vector is cleared first), 424-445 (set) -/
def readHes (kind : Kind) (tr : Bool) (nr nc : ℕ) (idx : ℕ → ℕ) (junk : ℕ → Bool) (s : Sp) : SetVec :=
  match kind with
  | .bool =>
    let v := forRange 0 nr junk fun i v => clearRow tr nr nc i v
    .bools (forRange 0 nr v fun i v => setRow tr nr nc idx s i v)
  | .set => .sets (forRange 0 nr (fun _ => ∅) fun i v => insertRow tr nc idx s i v)

/-- `ADFun::ForSparseJac`, for_sparse_jac.hpp:257-347, 377-496, 574-597: the result and the sets that are kept in
`for_jac_sparse_pack_` or `for_jac_sparse_set_` -/
def forSparseJac (T : Tape) (junk : ℕ → Bool) (q : ℕ) (r : SetVec) (transpose dependency : Bool) : SetVec × Sp :=
  let s := post transpose T.n q (fun j => j + 1) r
  let s := forJac dependency T.ops (T.n + 1) s
  (readBack r.kind transpose T.dep.length q (fun i => T.dep.getD i 0) junk s, s)

/-- `ADFun::RevSparseJac`, rev_sparse_jac.hpp:207-296, 327-439, 492-510 -/
def revSparseJac (T : Tape) (junk : ℕ → Bool) (q : ℕ) (r : SetVec) (transpose dependency : Bool) : SetVec :=
  let s := post (!transpose) T.dep.length q (fun i => T.dep.getD i 0) r
  let s := revJac dependency T.ops (T.n + 1) s
  readBack r.kind (!transpose) T.n q (fun j => j + 1) junk s

/-- the flags `RevJac` for the selected components: rev_sparse_hes.hpp:264-270 (bool), 393-406 (set) -/
def revFlags (T : Tape) : SetVec → ℕ → Bool
  | .bools v => forRange 0 T.dep.length (fun _ => false) fun i rj => Function.update rj (T.dep.getD i 0) (v i)
  | .sets v => ((v 0).sort (· ≤ ·)).foldl (fun rj i => Function.update rj (T.dep.getD i 0) true) fun _ => false

/-- `ADFun::RevSparseHes`, rev_sparse_hes.hpp:222-318, 344-446, 503-521; `J` are the sets kept by the previous call to
`ForSparseJac` with `q` columns -/
def revSparseHes (T : Tape) (junk : ℕ → Bool) (q : ℕ) (J : Sp) (s : SetVec) (transpose : Bool) : SetVec :=
  let h := revHes J T.ops (T.n + 1) (revFlags T s, fun _ => ∅)
  readHes s.kind (!transpose) T.n q (fun j => j + 1) junk h.2

/-- the selected independent variables: for_sparse_hes.hpp:202-207 (bool), 318-328 (set) -/
def selDomain (n : ℕ) : SetVec → ℕ → Bool
  | .bools v => forRange 0 n (fun _ => false) fun j sel => Function.update sel j (v j)
  | .sets v =>
    let sel := forRange 0 n (fun _ => false) fun j sel => Function.update sel j false
    ((v 0).sort (· ≤ ·)).foldl (fun sel j => Function.update sel j true) sel

/-- the selected components: for_sparse_hes.hpp:209-217 (bool), 330-344 (set) -/
def selRange (T : Tape) : SetVec → Sp
  | .bools v => forRange 0 T.dep.length (fun _ => ∅) fun i s => if v i then Sp.addElement s (T.dep.getD i 0) 0 else s
  | .sets v => ((v 0).sort (· ≤ ·)).foldl (fun s i => Sp.addElement s (T.dep.getD i 0) 0) fun _ => ∅

/-- `ADFun::ForSparseHes`, for_sparse_hes.hpp:175-266, 289-390, 433-450 (`j - 1` is a size_t) -/
def forSparseHes (T : Tape) (junk : ℕ → Bool) (r s : SetVec) : SetVec :=
  let n := T.n
  let h := forHes n T.ops (selDomain n r) (revJac false T.ops (n + 1) (selRange T s)) (fun _ => ∅)
  match r.kind with
  | .bool =>
    let v := forRange 0 n junk fun i v => clearRow false n n i v
    .bools (forRange 0 n v fun i v =>
      (((h (i + 1)).sort (· ≤ ·)).takeWhile (· < n + 1)).foldl (fun v j => Function.update v (i * n + (j - 1)) true) v)
  | .set => .sets (forRange 0 n (fun _ => ∅) fun i v =>
      (((h (i + 1)).sort (· ≤ ·)).takeWhile (· < n + 1)).foldl (fun v j => Function.update v i (insert (j - 1) (v i))) v)

/-- `sparsity_user2internal`, local/sparse/pack_setvec.hpp:956-991 (bool), local/sparse/list_setvec.hpp:91-142 (set);
`post_element` and `process_post` together are `addElement` (C23) -/
def user2internal (tr : Bool) (nr nc : ℕ) : SetVec → Sp
  | .bools v =>
    if tr then forRange 0 nc (fun _ => ∅) fun j s => forRange 0 nr s fun i s =>
      if v (j * nr + i) then Sp.addElement s i j else s
    else forRange 0 nr (fun _ => ∅) fun i s => forRange 0 nc s fun j s =>
      if v (i * nc + j) then Sp.addElement s i j else s
  | .sets v =>
    if tr then forRange 0 nc (fun _ => ∅) fun j s => ((v j).sort (· ≤ ·)).foldl (fun s i => Sp.addElement s i j) s
    else forRange 0 nr (fun _ => ∅) fun i s => ((v i).sort (· ≤ ·)).foldl (fun s j => Sp.addElement s i j) s

/-- one group of colors, sparse_jacobian.hpp:473-499 (compare `SparseJac.group`); state is ((f, count_color), k, values) -/
noncomputable def dirGroup (n K maxR nc : ℕ) (junk : ℕ → ℕ → ℝ) (row col : ℕ → ℕ) (w : Work)
    (s : (ADFun × ℕ) × ℕ × (ℕ → ℝ)) : (ADFun × ℕ) × ℕ × (ℕ → ℝ) :=
  let r := min maxR (nc - s.1.2)
  let dx := tab n r fun j ell => if w.color j = ell + s.1.2 then 1 else 0
  let y := s.1.1.forwardDirs (junk s.1.2) 1 r dx
  let s2 := forRange 0 r s.2 fun ell s2 =>
    store K w.color col w.order (ell + s.1.2) (fun k => at' y.2 (row k * r + ell)) s2
  ((y.1, s.1.2 + r), s2)

/-- `ADFun::SparseJacobianFor`, sparse_jacobian.hpp:361-502, for the color method "cppad"; `pt` are the sets of the
transposed pattern, `maxR` is CPPAD_SPARSE_JACOBIAN_MAX_MULTIPLE_DIRECTION when that is not one (sparse_jacobian.hpp:11,
it is 64), `work` is none when `work.color` is empty.  Returns the object, the number of colors, the values and `work`. -/
noncomputable def sparseJacobianFor (sort : List (Element ℕ) → List (Element ℕ)) (f : ADFun)
    (junk0 : ℕ → ℝ) (junk : ℕ → ℕ → ℝ) (fjunk : ℕ → Bool) (nan : ℝ) (maxR : ℕ) (x : List ℝ)
    (pt : Sp) (K : ℕ) (row col : ℕ → ℕ) (jac : ℕ → ℝ) (work : Option Work) : ADFun × ℕ × (ℕ → ℝ) × Option Work :=
  let n := f.n
  let f := (f.forward junk0 nan 0 x).1
  if K = 0 then (f, 0, jac, work)
  else
    let w := work.getD (let color := Color.colorGeneral n K pt col row fjunk; ⟨color, colorOrder sort K color col⟩)
    let nc := nColor n w.color
    let jac := forRange 0 K jac fun k v => Function.update v k 0
    let s := whileLoop (fun s => decide (s.1.2 < nc)) (dirGroup n K maxR nc junk row col w) ((f, 0), 0, jac)
    (s.1.1, nc, s.2.2, some w)

/-- `ADFun::SparseJacobianRev`, sparse_jacobian.hpp:558-664, for the color method "cppad" -/
noncomputable def sparseJacobianRev (sort : List (Element ℕ) → List (Element ℕ)) (f : ADFun)
    (junk0 : ℕ → ℝ) (junk : ℕ → ℕ → ℝ) (fjunk : ℕ → Bool) (nan : ℝ) (x : List ℝ)
    (p : Sp) (K : ℕ) (row col : ℕ → ℕ) (jac : ℕ → ℝ) (work : Option Work) : ADFun × ℕ × (ℕ → ℝ) × Option Work :=
  let m := f.dep.length
  let f := (f.forward junk0 nan 0 x).1
  if K = 0 then (f, 0, jac, work)
  else
    let w := work.getD (let color := Color.colorGeneral m K p row col fjunk; ⟨color, colorOrder sort K color row⟩)
    let nc := nColor m w.color
    let jac := forRange 0 K jac fun k v => Function.update v k 0
    let s := forRange 0 nc (f, 0, jac) fun ell s =>
      let r := s.1.reverse (junk ell) 1 (tab m 1 fun i _ => if w.color i = ell then 1 else 0)
      (r.1, store K w.color row w.order ell (fun k => at' r.2 (col k)) s.2)
    (s.1, nc, s.2.2, some w)

/-- `ADFun::SparseJacobianForward`, sparse_jacobian.hpp:724-782 -/
noncomputable def sparseJacobianForward (sort : List (Element ℕ) → List (Element ℕ)) (f : ADFun)
    (junk0 : ℕ → ℝ) (junk : ℕ → ℕ → ℝ) (fjunk : ℕ → Bool) (nan : ℝ) (maxR : ℕ) (x : List ℝ) (p : SetVec)
    (K : ℕ) (row col : ℕ → ℕ) (jac : ℕ → ℝ) (work : Option Work) : ADFun × ℕ × (ℕ → ℝ) × Option Work :=
  if K = 0 then (f, 0, jac, work)
  else
    let st := if work.isNone then user2internal true f.n f.dep.length p else fun _ => ∅
    sparseJacobianFor sort f junk0 junk fjunk nan maxR x st K row col jac work

/-- `ADFun::SparseJacobianReverse`, sparse_jacobian.hpp:839-897 -/
noncomputable def sparseJacobianReverse (sort : List (Element ℕ) → List (Element ℕ)) (f : ADFun)
    (junk0 : ℕ → ℝ) (junk : ℕ → ℕ → ℝ) (fjunk : ℕ → Bool) (nan : ℝ) (x : List ℝ) (p : SetVec)
    (K : ℕ) (row col : ℕ → ℕ) (jac : ℕ → ℝ) (work : Option Work) : ADFun × ℕ × (ℕ → ℝ) × Option Work :=
  if K = 0 then (f, 0, jac, work)
  else
    let s := if work.isNone then user2internal false f.dep.length f.n p else fun _ => ∅
    sparseJacobianRev sort f junk0 junk fjunk nan x s K row col jac work

/-- the entries of a vector of sets in the order of its iterators: sparse_jacobian.hpp:996-1005 and 966-975 -/
def entries (nr : ℕ) (s : Sp) : List (ℕ × ℕ) := (List.range nr).flatMap fun i => ((s i).sort (· ≤ ·)).map fun j => (i, j)

/-- `ADFun::SparseJacobian(x, p)`, sparse_jacobian.hpp:929-1018; the result has the entry `(i, j)` at `i * n + j`;
`jac0`, `J0` are the contents of new vectors -/
noncomputable def sparseJacobian (sort : List (Element ℕ) → List (Element ℕ)) (f : ADFun)
    (junk0 : ℕ → ℝ) (junk : ℕ → ℕ → ℝ) (fjunk : ℕ → Bool) (nan : ℝ) (maxR : ℕ) (jac0 J0 : ℕ → ℝ) (x : List ℝ) (p : SetVec) :
    ADFun × (ℕ → ℝ) :=
  let m := f.dep.length
  let n := f.n
  let jac := forRange 0 m jac0 fun i v => forRange 0 n v fun j v => Function.update v (i * n + j) 0
  if n ≤ m then
    let st := user2internal true n m p
    let e := entries n st
    let row := fun k => (e.getD k (0, 0)).2
    let col := fun k => (e.getD k (0, 0)).1
    let J := sparseJacobianFor sort f junk0 junk fjunk nan maxR x st e.length row col J0 none
    (J.1, forRange 0 e.length jac fun k v => Function.update v (row k * n + col k) (J.2.2.1 k))
  else
    let s := user2internal false m n p
    let e := entries m s
    let row := fun k => (e.getD k (0, 0)).1
    let col := fun k => (e.getD k (0, 0)).2
    let J := sparseJacobianRev sort f junk0 junk fjunk nan x s e.length row col J0 none
    (J.1, forRange 0 e.length jac fun k v => Function.update v (row k * n + col k) (J.2.2.1 k))

/-- the identity pattern, sparse_jacobian.hpp:1057-1062, 1069-1074, sparse_hessian.hpp:845-850 -/
def identityBools (n : ℕ) (junk : ℕ → Bool) : SetVec :=
  .bools (forRange 0 n junk fun j r =>
    Function.update (forRange 0 n r fun k r => Function.update r (j * n + k) false) (j * n + j) true)

/-- `ADFun::SparseJacobian(x)`, sparse_jacobian.hpp:1044-1078; `rjunk`, `pjunk` are the contents of new vectors -/
noncomputable def sparseJacobianX (sort : List (Element ℕ) → List (Element ℕ)) (f : ADFun)
    (junk0 : ℕ → ℝ) (junk : ℕ → ℕ → ℝ) (fjunk rjunk pjunk : ℕ → Bool) (nan : ℝ) (maxR : ℕ) (jac0 J0 : ℕ → ℝ) (x : List ℝ) :
    ADFun × (ℕ → ℝ) :=
  let T : Tape := f.toTape
  let p := if f.n ≤ f.dep.length then (forSparseJac T pjunk f.n (identityBools f.n rjunk) false false).1
    else revSparseJac T pjunk f.dep.length (identityBools f.dep.length rjunk) false false
  sparseJacobian sort f junk0 junk fjunk nan maxR jac0 J0 x p

/-- colors, order and reflected subset, sparse_hessian.hpp:466-527, for the color methods "cppad.general" and
"cppad.symmetric" -/
def hesWork (sort : List (Element ℕ) → List (Element ℕ)) (n K : ℕ) (row col : ℕ → ℕ) (s : Sp) (fjunk : ℕ → Bool) :
    Coloring → HWork
  | .general =>
    let color := Color.colorGeneral n K s row col fjunk
    ⟨row, col, color, colorOrder sort K color row⟩
  | .symmetric =>
    let c := Color.Sym.colorSymmetric sort n K s row col fjunk
    ⟨c.1, c.2.1, c.2.2, colorOrder sort K c.2.2 c.1⟩

/-- `ADFun::SparseHessianCompute`, sparse_hessian.hpp:420-588; `s` are the sets of the pattern -/
noncomputable def sparseHessianCompute (sort : List (Element ℕ) → List (Element ℕ)) (f : ADFun)
    (junk0 : ℕ → ℝ) (junk junk' : ℕ → ℕ → ℝ) (fjunk : ℕ → Bool) (nan : ℝ) (x wt : List ℝ) (s : Sp)
    (K : ℕ) (row col : ℕ → ℕ) (hes : ℕ → ℝ) (coloring : Coloring) (work : Option HWork) :
    ADFun × ℕ × (ℕ → ℝ) × Option HWork :=
  let n := f.n
  let f := (f.forward junk0 nan 0 x).1
  if K = 0 then (f, 0, hes, work)
  else
    let w := work.getD (hesWork sort n K row col s fjunk coloring)
    let nc := nColor n w.color
    let hes := forRange 0 K hes fun k v => Function.update v k 0
    let s := forRange 0 nc (f, 0, hes) fun ell s =>
      if s.2.1 = K then s
      else if w.color (w.row (w.order s.2.1)) ≠ ell then s
      else
        let f1 := (s.1.forward (junk ell) nan 1 (tab n 1 fun i _ => if w.color i = ell then 1 else 0)).1
        let r := f1.reverse (junk' ell) 2 wt
        (r.1, store K w.color w.row w.order ell (fun k => at' r.2 (w.col k * 2 + 1)) s.2)
    (s.1, nc, s.2.2, some w)

/-- `ADFun::SparseHessian(x, w, p, row, col, hes, work)`, sparse_hessian.hpp:654-711 -/
noncomputable def sparseHessianWork (sort : List (Element ℕ) → List (Element ℕ)) (f : ADFun)
    (junk0 : ℕ → ℝ) (junk junk' : ℕ → ℕ → ℝ) (fjunk : ℕ → Bool) (nan : ℝ) (x wt : List ℝ) (p : SetVec)
    (K : ℕ) (row col : ℕ → ℕ) (hes : ℕ → ℝ) (coloring : Coloring) (work : Option HWork) :
    ADFun × ℕ × (ℕ → ℝ) × Option HWork :=
  if K = 0 then (f, 0, hes, work)
  else
    let s := if work.isNone then user2internal false f.n f.n p else fun _ => ∅
    sparseHessianCompute sort f junk0 junk junk' fjunk nan x wt s K row col hes coloring work

/-- `ADFun::SparseHessian(x, w, p)`, sparse_hessian.hpp:751-804; the color method of a new `work` is "cppad.symmetric"
(sparse_hessian.hpp:351) -/
noncomputable def sparseHessian (sort : List (Element ℕ) → List (Element ℕ)) (f : ADFun)
    (junk0 : ℕ → ℝ) (junk junk' : ℕ → ℕ → ℝ) (fjunk : ℕ → Bool) (nan : ℝ) (hes0 H0 : ℕ → ℝ) (x wt : List ℝ) (p : SetVec) :
    ADFun × (ℕ → ℝ) :=
  let n := f.n
  let hes := forRange 0 n hes0 fun i v => forRange 0 n v fun j v => Function.update v (i * n + j) 0
  let s := user2internal false n n p
  let e := entries n s
  let row := fun k => (e.getD k (0, 0)).1
  let col := fun k => (e.getD k (0, 0)).2
  let H := sparseHessianCompute sort f junk0 junk junk' fjunk nan x wt s e.length row col H0 .symmetric none
  (H.1, forRange 0 e.length hes fun k v => Function.update v (row k * n + col k) (H.2.2.1 k))

open Classical in
/-- `ADFun::SparseHessian(x, w)`, sparse_hessian.hpp:837-860 -/
noncomputable def sparseHessianX (sort : List (Element ℕ) → List (Element ℕ)) (f : ADFun)
    (junk0 : ℕ → ℝ) (junk junk' : ℕ → ℕ → ℝ) (fjunk rjunk sjunk pjunk pjunk' : ℕ → Bool) (nan : ℝ) (hes0 H0 : ℕ → ℝ)
    (x wt : List ℝ) : ADFun × (ℕ → ℝ) :=
  let T : Tape := f.toTape
  let J := (forSparseJac T pjunk f.n (identityBools f.n rjunk) false false).2
  let s := SetVec.bools (forRange 0 f.dep.length sjunk fun i s => Function.update s i (decide (at' wt i ≠ 0)))
  let p := revSparseHes T pjunk' f.n J s false
  sparseHessian sort f junk0 junk junk' fjunk nan hes0 H0 x wt p

end CppAD.Legacy
