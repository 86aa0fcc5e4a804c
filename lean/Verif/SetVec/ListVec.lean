import Verif.SetVec.Spec
import Verif.Util.While
import Verif.Taylor.Loop
import Mathlib.Data.List.Sort

/-!
# Model of `CppAD::local::sparse::size_setvec` (`list_setvec`)

include/cppad/local/sparse/size_setvec.hpp; `list_setvec` is
`size_setvec<size_t>` (list_setvec.hpp:26).  The linked lists, the reference
counts, the posts and the free list all live in one growable array `data_` of
(value, next) pairs; the model keeps exactly that representation.

Simplifications: `s_type` arithmetic is done in ℕ; `data_`, `start_` and
`post_` are functions together with a size (a cell obtained by `extend`
contains whatever the function contains, which is arbitrary); the scratch
member `temporary_` is a local variable of the functions that use it.
-/

namespace CppAD.SetVec

/-- size_setvec.hpp:146-157, the member data.  `data_[c]` is
`(val c, nxt c)`, `size` is `data_.size()`, `nSet` is `start_.size()` and
`post_.size()`. -/
structure LV where
  last : ℕ
  numNotUsed : ℕ
  dataNotUsed : ℕ
  size : ℕ
  val : ℕ → ℕ
  nxt : ℕ → ℕ
  nSet : ℕ
  start : ℕ → ℕ
  post : ℕ → ℕ

namespace LV

instance : Inhabited LV := ⟨⟨0, 0, 0, 0, fun _ => 0, fun _ => 0, 0, fun _ => 0, fun _ => 0⟩⟩

/-- size_setvec.hpp:591-593, default constructor -/
def fresh : LV := ⟨0, 0, 0, 0, fun _ => 0, fun _ => 0, 0, fun _ => 0, fun _ => 0⟩

/-- `data_[c].value = v` -/
def setVal (s : LV) (c v : ℕ) : LV := { s with val := Function.update s.val c v }

/-- `data_[c].next = v` -/
def setNxt (s : LV) (c v : ℕ) : LV := { s with nxt := Function.update s.nxt c v }

/-- `start_[i] = v` -/
def setStart (s : LV) (i v : ℕ) : LV := { s with start := Function.update s.start i v }

/-- `post_[i] = v` -/
def setPost (s : LV) (i v : ℕ) : LV := { s with post := Function.update s.post i v }

/-- size_setvec.hpp:656-695 `resize` -/
def resize (s : LV) (nSet last : ℕ) : LV :=
  if nSet = 0 then
    { s with size := 0, nSet := 0, numNotUsed := 0, dataNotUsed := 0, last := 0 }
  else
    let s := { s with last := last, nSet := nSet }
    let s := forRange 0 nSet s fun i s => (s.setStart i 0).setPost i 0
    let s := { s with size := 1 }
    let s := (s.setVal 0 last).setNxt 0 0
    { s with numNotUsed := 0, dataNotUsed := 0 }

/-- the loop at size_setvec.hpp:267-274 and 300-307: walk to the last cell of
the list that begins at `first`; returns (previous, number of cells) -/
def walk (s : LV) (first : ℕ) : ℕ × ℕ :=
  -- state: previous, next, number_drop
  let r := whileLoop (σ := ℕ × ℕ × ℕ) (fun q => q.2.1 != 0)
    (fun q => (q.2.1, s.nxt q.2.1, q.2.2 + 1)) (first, s.nxt first, 1)
  (r.1, r.2.2)

/-- size_setvec.hpp:276-278 and 309-311: add the list that begins at `first`
and whose last cell is `previous` to the cells not used -/
def release (s : LV) (first previous : ℕ) : LV :=
  { s.setNxt previous s.dataNotUsed with dataNotUsed := first }

/-- size_setvec.hpp:260-279, the part of `drop` for the posts -/
def dropPost (s : LV) (i : ℕ) : ℕ × LV :=
  let post := s.post i
  if post = 0 then (0, s)
  else
    let s := s.setPost i 0
    let w := s.walk post
    (w.2, s.release post w.1)

/-- size_setvec.hpp:281-313, the part of `drop` for the set -/
def dropStart (s : LV) (i : ℕ) : ℕ × LV :=
  let start := s.start i
  if start = 0 then (0, s)
  else
    let s := s.setVal start (s.val start - 1)
    let s := s.setStart i 0
    if 0 < s.val start then (0, s)
    else
      let w := s.walk start
      (w.2, s.release start w.1)

/-- size_setvec.hpp:251-314 `drop` -/
def drop (s : LV) (i : ℕ) : ℕ × LV :=
  let p := s.dropPost i
  let q := p.2.dropStart i
  (p.1 + q.1, q.2)

/-- the statements `number_drop = drop(i); number_not_used_ += number_drop;`
at size_setvec.hpp:1129-1130, 1209-1210, 1287-1288, 1424-1425, 1552-1553 -/
def dropAdd (s : LV) (i : ℕ) : LV :=
  let d := s.drop i
  { d.2 with numNotUsed := d.2.numNotUsed + d.1 }

/-- size_setvec.hpp:356-373 `get_data_index` -/
def getIdx (s : LV) : ℕ × LV :=
  if 0 < s.dataNotUsed then
    let index := s.dataNotUsed
    (index, { s with numNotUsed := s.numNotUsed - 1, dataNotUsed := s.nxt index })
  else (s.size, { s with size := s.size + 1 })

/-- size_setvec.hpp:816-841 `number_elements` -/
def number (s : LV) (i : ℕ) : ℕ :=
  let start := s.start i
  if start = 0 then 0
  else
    -- state: count, next
    (whileLoop (σ := ℕ × ℕ) (fun q => q.2 != 0) (fun q => (q.1 + 1, s.nxt q.2))
      (0, s.nxt start)).1

/-- size_setvec.hpp:885-894, locate the place for `element` in the list with
header `start`; returns (previous, next) -/
def locate (s : LV) (start element : ℕ) : ℕ × ℕ :=
  -- state: previous, next
  whileLoop (σ := ℕ × ℕ) (fun q => decide (s.val q.2 < element))
    (fun q => (q.2, s.nxt q.2)) (start, s.nxt start)

/-- the statements of the loops at size_setvec.hpp:930-933, 943-946, 951-954,
1138-1141, 1433-1436 and 1563-1567: append a new cell containing `v` to
the list that is being built and whose last cell is `q.1` -/
def append (q : ℕ × LV) (v : ℕ) : ℕ × LV :=
  let g := q.2.getIdx
  let s := g.2.setNxt q.1 g.1
  let s := s.setVal g.1 v
  (g.1, s)

/-- size_setvec.hpp:858-967 `add_element` -/
def add (s : LV) (i element : ℕ) : LV :=
  let start := s.start i
  if start = 0 then
    let g := s.getIdx
    let start := g.1
    let s := g.2.setStart i start
    let s := s.setVal start 1
    let g := s.getIdx
    let next := g.1
    let s := g.2.setNxt start next
    let s := s.setVal next element
    s.setNxt next 0
  else
    let loc := s.locate start element
    if s.val loc.2 = element then s
    else if s.val start = 1 then
      let g := s.getIdx
      let insert := g.1
      let s := g.2.setNxt insert loc.2
      let s := s.setVal insert element
      s.setNxt loc.1 insert
    else
      let s := s.setVal start (s.val start - 1)
      let g := s.getIdx
      let startNew := g.1
      let s := g.2.setVal startNew 1
      -- state: next in the old list, (previous_new, this object)
      let r := whileLoop (σ := ℕ × ℕ × LV) (fun q => decide (q.2.2.val q.1 < element))
        (fun q =>
          let value := q.2.2.val q.1
          let p := append q.2 value
          (p.2.nxt q.1, p)) (s.nxt start, startNew, s)
      let value := r.2.2.val r.1
      let p := append r.2 element
      let r := whileLoop (σ := ℕ × ℕ × ℕ × LV) (fun q => decide (q.1 < s.last))
        (fun q =>
          let p := append q.2.2 q.1
          let next := p.2.nxt q.2.1
          (p.2.val next, next, p)) (value, r.1, p)
      let s := r.2.2.2.setNxt r.2.2.1 0
      s.setStart i startNew

/-- size_setvec.hpp:989-1006 `post_element` -/
def postElement (s : LV) (i element : ℕ) : LV :=
  let next := s.post i
  let g := s.getIdx
  let s := g.2.setPost i g.1
  let s := s.setVal g.1 element
  s.setNxt g.1 next

/-- size_setvec.hpp:1133-1143, 1428-1438 and 1559-1569: put the elements of
`temporary_` in a new list for set `i` -/
def build (s : LV) (i : ℕ) (temporary : List ℕ) : LV :=
  let g := s.getIdx
  let s := g.2.setStart i g.1
  let s := s.setVal g.1 1
  let r := temporary.foldl append (g.1, s)
  r.2.setNxt r.1 0

/-- size_setvec.hpp:1057-1069, copy the posted elements to `temporary_`;
returns (previous, temporary_) -/
def collectPost (s : LV) (post : ℕ) : ℕ × List ℕ :=
  -- state: previous, next, temporary_
  let r := whileLoop (σ := ℕ × ℕ × List ℕ) (fun q => q.2.1 != 0)
    (fun q => (q.2.1, s.nxt q.2.1, q.2.2 ++ [s.val q.2.1])) (post, s.nxt post, [s.val post])
  (r.1, r.2.2)

/-- state of the merge loop at size_setvec.hpp:1086-1116: i_next, the union so
far, post_is_subset, previous_post.  `i_value` is `data_[i_next].value`, and
`end_ = data_[0].value` for the empty set. -/
structure PostState where
  iNext : ℕ
  out : List ℕ
  subset : Bool
  previous : ℕ
deriving Inhabited

/-- size_setvec.hpp:1098-1103, elements of set i smaller than `v` -/
def takeBelow (s : LV) (v : ℕ) (q : PostState) : PostState :=
  whileLoop (σ := PostState) (fun q => decide (s.val q.iNext < v))
    (fun q => { q with out := q.out ++ [s.val q.iNext], iNext := s.nxt q.iNext }) q

/-- size_setvec.hpp:1096-1115, body of the loop over the posted values -/
def postBody (s : LV) (q : PostState) (v : ℕ) : PostState :=
  let q := s.takeBelow v q
  let q := if s.val q.iNext = v then { q with iNext := s.nxt q.iNext }
    else { q with subset := false }
  let q := if q.previous ≠ v then { q with out := q.out ++ [v] } else q
  { q with previous := v }

/-- size_setvec.hpp:1029-1146 `process_post`; `std::sort` is `insertionSort` -/
def process (s : LV) (i : ℕ) : LV :=
  let post := s.post i
  if post = 0 then s
  else
    let next := s.nxt post
    if next = 0 then
      let value := s.val post
      let s := s.setPost i 0
      let s := s.release post post
      let s := { s with numNotUsed := s.numNotUsed + 1 }
      s.add i value
    else
      let c := s.collectPost post
      let numberPost := c.2.length
      let s := s.setPost i 0
      let s := s.release post c.1
      let s := { s with numNotUsed := s.numNotUsed + numberPost }
      let sorted := c.2.insertionSort (· ≤ ·)
      -- for an empty set i_value is end_, which is data_[0].value
      let iNext := if 0 < s.start i then s.nxt (s.start i) else 0
      let q := sorted.foldl s.postBody ⟨iNext, [], true, s.last⟩
      if q.subset then s
      else
        let q := s.takeBelow s.last q
        (s.dropAdd i).build i q.out

/-- size_setvec.hpp:1163-1183 `is_element` -/
def isElement (s : LV) (i element : ℕ) : Bool :=
  let start := s.start i
  if start = 0 then false
  else
    let next := whileLoop (σ := ℕ) (fun n => decide (s.val n < element)) (fun n => s.nxt n)
      (s.nxt start)
    decide (element = s.val next)

/-- size_setvec.hpp:1200-1213 `clear` -/
def clear (s : LV) (target : ℕ) : LV := s.dropAdd target

/-- size_setvec.hpp:1265-1283, make a copy of the list of another object;
returns (this_start, this object) -/
def copyList (s o : LV) (otherStart : ℕ) : ℕ × LV :=
  let g1 := s.getIdx
  let g2 := g1.2.getIdx
  let s := g2.2.setVal g1.1 1
  let s := s.setNxt g1.1 g2.1
  -- state: this_next, next in the other object, this object
  let r := whileLoop (σ := ℕ × ℕ × LV) (fun q => q.2.1 != 0)
    (fun q =>
      let s := q.2.2.setVal q.1 (o.val q.2.1)
      let next := o.nxt q.2.1
      if next = 0 then (q.1, next, s.setNxt q.1 0)
      else
        let g := s.getIdx
        (g.1, next, g.2.setNxt q.1 g.1)) (g2.1, o.nxt otherStart, s)
  (g1.1, r.2.2)

/-- size_setvec.hpp:1230-1294 `assignment`; `none` is `this == &other` -/
def assignment (s : LV) (target source : ℕ) (other : Option LV) : LV :=
  match other with
  | none =>
    if target = source then s
    else
      let otherStart := s.start source
      let s := if otherStart ≠ 0 then s.setVal otherStart (s.val otherStart + 1) else s
      (s.dropAdd target).setStart target otherStart
  | some o =>
    let otherStart := o.start source
    let r := if otherStart = 0 then (0, s) else s.copyList o otherStart
    (r.2.dropAdd target).setStart target r.1

/-- state of the loops at size_setvec.hpp:1350-1397 and 1492-1537: next_left,
next_right, temporary_, left_is_subset, right_is_subset; the values
`value_left`, `value_right` are those of the cells next_left, next_right -/
structure Merge where
  left : ℕ
  right : ℕ
  out : List ℕ
  leftSub : Bool
  rightSub : Bool
deriving Inhabited

/-- size_setvec.hpp:1365-1397 (`keep = true`, union) and 1507-1537
(`keep = false`, intersection): the merge loop -/
def merge (s o : LV) (last : ℕ) (keep : Bool) (q : Merge) : Merge :=
  whileLoop (σ := Merge)
    (fun q => decide (s.val q.left < last) && decide (o.val q.right < last))
    (fun q =>
      let vl := s.val q.left
      let vr := o.val q.right
      if vl = vr then
        { q with out := q.out ++ [vl], left := s.nxt q.left, right := o.nxt q.right }
      else if vl < vr then
        { q with leftSub := false, out := if keep then q.out ++ [vl] else q.out,
                 left := s.nxt q.left }
      else
        { q with rightSub := false, out := if keep then q.out ++ [vr] else q.out,
                 right := o.nxt q.right }) q

/-- size_setvec.hpp:1410-1415 and 1416-1421: the rest of one list -/
def rest (s : LV) (last : ℕ) (next : ℕ) (out : List ℕ) : List ℕ :=
  (whileLoop (σ := ℕ × List ℕ) (fun q => decide (s.val q.1 < last))
    (fun q => (s.nxt q.1, q.2 ++ [s.val q.1])) (next, out)).2

/-- size_setvec.hpp:1311-1441 `binary_union` -/
def union (s : LV) (target left right : ℕ) (other : Option LV) : LV :=
  let o := other.getD s
  let startLeft := s.start left
  let startRight := o.start right
  if startRight = 0 then s.assignment target left none
  else if startLeft = 0 then s.assignment target right other
  else
    let q := s.merge o s.last true ⟨s.nxt startLeft, o.nxt startRight, [], true, true⟩
    let rightSub := q.rightSub && decide (o.val q.right = s.last)
    let leftSub := q.leftSub && decide (s.val q.left = s.last)
    if rightSub then s.assignment target left none
    else if leftSub then s.assignment target right other
    else
      let out := rest s s.last q.left q.out
      let out := rest o s.last q.right out
      (s.dropAdd target).build target out

/-- size_setvec.hpp:1458-1572 `binary_intersection` -/
def inter (s : LV) (target left right : ℕ) (other : Option LV) : LV :=
  let o := other.getD s
  let startLeft := s.start left
  let startRight := o.start right
  if startLeft = 0 ∨ startRight = 0 then s.clear target
  else
    let q := s.merge o s.last false ⟨s.nxt startLeft, o.nxt startRight, [], true, true⟩
    let rightSub := q.rightSub && decide (o.val q.right = s.last)
    let leftSub := q.leftSub && decide (s.val q.left = s.last)
    if leftSub then s.assignment target left none
    else if rightSub then s.assignment target right other
    else
      let s := s.dropAdd target
      if q.out.length = 0 then s else s.build target q.out

/-- size_setvec.hpp:1615-1618, the iterator state `next_pair_`: value, next -/
structure It where
  value : ℕ
  next : ℕ

/-- size_setvec.hpp:1638-1664 constructor of the iterator -/
def begin (s : LV) (i : ℕ) : It :=
  let start := s.start i
  if start = 0 then ⟨s.last, 0⟩
  else
    let next := s.nxt start
    ⟨s.val next, s.nxt next⟩

/-- size_setvec.hpp:1681-1682 `operator*` -/
def deref (_ : LV) (t : It) : ℕ := t.value

/-- size_setvec.hpp:1702-1705 `operator++` -/
def next (s : LV) (t : It) : It := ⟨s.val t.next, s.nxt t.next⟩

/-- the class as an implementation of the concept -/
def impl : Impl LV It where
  fresh := fresh
  nSet := nSet
  last := last
  resize := resize
  add := add
  post := postElement
  process := process
  clear := clear
  assignment := assignment
  union := union
  inter := inter
  isElement := isElement
  number := number
  begin := begin
  deref := deref
  next := next

end LV
end CppAD.SetVec
