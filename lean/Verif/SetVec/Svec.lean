import Verif.SetVec.Spec
import Verif.Util.While
import Verif.Taylor.Loop
import Mathlib.Data.List.Sort

/-!
# Model of `CppAD::local::sparse::svec_setvec`

include/cppad/local/sparse/svec_setvec.hpp.  All the sets live in one growable
array `data_` of natural numbers.  A non-empty set is a block
`reference count, length, elements in increasing order, end_`; the posts of a
set are a block `length, capacity, elements, unused cells`.

Simplifications: `size_t` arithmetic is done in ℕ; `data_`, `start_` and
`post_` are functions together with a size (a cell obtained by `extend`
contains whatever the function contains; a cell at or beyond `data_.size()`
can be written, which is what the code does when the assertions of
`pod_vector::operator[]` are compiled out); in `process_post` the posted
elements are copied to a list and that list is sorted, where the code sorts
them in place and keeps raw pointers to them while `data_` is extended;
`std::sort` is `insertionSort` and `std::binary_search` is membership.
-/

namespace CppAD.SetVec

/-- svec_setvec.hpp:34-92, the member data.  `size` is `data_.size()`, `nSet`
is `start_.size()` and `post_.size()`. -/
structure SV where
  last : ℕ
  notUsed : ℕ
  size : ℕ
  val : ℕ → ℕ
  nSet : ℕ
  start : ℕ → ℕ
  post : ℕ → ℕ

namespace SV

instance : Inhabited SV := ⟨⟨0, 0, 0, fun _ => 0, 0, fun _ => 0, fun _ => 0⟩⟩

/-- svec_setvec.hpp:555-561, default constructor -/
def fresh : SV := ⟨0, 0, 0, fun _ => 0, 0, fun _ => 0, fun _ => 0⟩

/-- `data_[c] = v` -/
def setVal (s : SV) (c v : ℕ) : SV := { s with val := Function.update s.val c v }

/-- `start_[i] = v` -/
def setStart (s : SV) (i v : ℕ) : SV := { s with start := Function.update s.start i v }

/-- `post_[i] = v` -/
def setPost (s : SV) (i v : ℕ) : SV := { s with post := Function.update s.post i v }

/-- `data_.extend(n)` (pod_vector.hpp:356-386); the value returned by the code is the old size -/
def extend (s : SV) (n : ℕ) : SV := { s with size := s.size + n }

/-- `data_.push_back(v)` (pod_vector.hpp:260-264) -/
def push (s : SV) (v : ℕ) : SV := (s.extend 1).setVal s.size v

/-- svec_setvec.hpp:630-657 `resize` -/
def resize (s : SV) (nSet last : ℕ) : SV :=
  if nSet = 0 then
    { s with size := 0, nSet := 0, notUsed := 0, last := 0 }
  else
    let s := { s with last := last, nSet := nSet }
    let s := forRange 0 nSet s fun i s => (s.setStart i 0).setPost i 0
    { s with size := 1, notUsed := 1 }

/-- svec_setvec.hpp:104-112 `reference_count` -/
def refCount (s : SV) (i : ℕ) : ℕ :=
  let start := s.start i
  if start = 0 then 0 else s.val start

/-- svec_setvec.hpp:128-156 `drop`; returns (number_lost, this object) -/
def drop (s : SV) (i : ℕ) : ℕ × SV :=
  let refCount := s.refCount i
  if refCount = 0 then (0, s)
  else
    let start := s.start i
    let s := s.setVal start (s.val start - 1)
    if refCount ≠ 1 then (0, s)
    else
      let length := s.val (start + 1)
      (3 + length, s)

/-- svec_setvec.hpp:469-475, 1041-1047, 1139-1145 and 1260-1266: drop any
posting for the target set; returns (number_lost, this object) -/
def dropPost (s : SV) (i : ℕ) : ℕ × SV :=
  let post := s.post i
  if 0 < post then
    let capacity := s.val (post + 1)
    (capacity + 2, s.setPost i 0)
  else (0, s)

/-- state of the loop at svec_setvec.hpp:352-379: `data_` with its marks, and
`data_tmp`, `start_tmp` -/
structure Gc where
  data : ℕ → ℕ
  tmpSize : ℕ
  tmp : ℕ → ℕ
  tmpStart : ℕ → ℕ

/-- svec_setvec.hpp:368-370: copy one set to `data_tmp`; state: j, size of
`data_tmp`, `data_tmp` -/
def gcCopy (data : ℕ → ℕ) (last start tmpSize : ℕ) (tmp : ℕ → ℕ) : ℕ × (ℕ → ℕ) :=
  let r := whileLoop (σ := ℕ × ℕ × (ℕ → ℕ)) (fun q => data (start + q.1) != last)
    (fun q => (q.1 + 1, q.2.1 + 1, Function.update q.2.2 q.2.1 (data (start + q.1)))) (2, tmpSize, tmp)
  (r.2.1 + 1, Function.update r.2.2 r.2.1 last)

/-- svec_setvec.hpp:353-378, body of the loop over the sets -/
def gcBody (last : ℕ) (startOf : ℕ → ℕ) (i : ℕ) (g : Gc) : Gc :=
  let start := startOf i
  if start = 0 then { g with tmpStart := Function.update g.tmpStart i 0 }
  else if g.data start = 0 then
    { g with tmpStart := Function.update g.tmpStart i (g.data (start + 1)) }
  else
    let tmpStart := g.tmpSize
    let tmp := Function.update g.tmp tmpStart (g.data start)
    let tmp := Function.update tmp (tmpStart + 1) (g.data (start + 1))
    let c := gcCopy g.data last start (g.tmpSize + 2) tmp
    let data := Function.update g.data start 0
    let data := Function.update data (start + 1) tmpStart
    ⟨data, c.1, c.2, Function.update g.tmpStart i tmpStart⟩

/-- svec_setvec.hpp:340-387 `collect_garbage` -/
def collect (s : SV) : SV :=
  if s.notUsed < s.size / 2 + 100 then s
  else
    let g := forRange 0 s.nSet ⟨s.val, 1, s.val, s.start⟩ (gcBody s.last s.start)
    { s with start := g.tmpStart, val := g.tmp, size := g.tmpSize, notUsed := 1 }

/-- the statements `data_not_used_ += number_lost; collect_garbage();` at
svec_setvec.hpp:545-546, 939-940, 1002-1003, 1076-1077, 1196-1197, 1318-1319 -/
def lost (s : SV) (n : ℕ) : SV := collect { s with notUsed := s.notUsed + n }

/-- svec_setvec.hpp:665-672 `number_elements` -/
def number (s : SV) (i : ℕ) : ℕ :=
  let start := s.start i
  if start = 0 then 0 else s.val (start + 1)

/-- svec_setvec.hpp:691-733 `post_element` -/
def postElement (s : SV) (i element : ℕ) : SV :=
  let post := s.post i
  let s :=
    if post = 0 then
      let minCapacity := 10
      let postNew := s.size
      let s := s.extend (minCapacity + 2)
      let s := s.setVal postNew 1
      let s := s.setVal (postNew + 1) minCapacity
      let s := s.setVal (postNew + 2) element
      s.setPost i postNew
    else
      let length := s.val post
      let capacity := s.val (post + 1)
      if length = capacity then
        let postNew := s.size
        let s := s.extend (2 * capacity)
        let s := s.setVal postNew (length + 1)
        let s := s.setVal (postNew + 1) (2 * capacity)
        let s := forRange 0 length s fun j s => s.setVal (postNew + 2 + j) (s.val (post + 2 + j))
        let s := s.setVal (postNew + 2 + length) element
        let s := s.setPost i postNew
        { s with notUsed := s.notUsed + (length + 2) }
      else
        let s := s.setVal post (length + 1)
        s.setVal (post + 2 + length) element
  s.collect

/-- svec_setvec.hpp:773-789: is every posted element in the set; `value`,
`current` are for the set, the list is what remains of the posted elements -/
def postSubset (s : SV) : List ℕ → ℕ → Bool
  | [], _ => true
  | v :: vs, current =>
    let current := whileLoop (σ := ℕ) (fun c => decide (s.val c < v)) (fun c => c + 1) current
    if v < s.val current then false else postSubset s vs current

/-- state of the merge loops: position in the set (0 is used when the set is
empty and then never read), remaining elements, this object -/
structure PostMerge where
  value : ℕ
  current : ℕ
  rest : List ℕ
  self : SV
deriving Inhabited

/-- svec_setvec.hpp:848-856 (and 522-532): skip the elements equal to `v` -/
def skipEqual (v : ℕ) : List ℕ → List ℕ
  | [] => []
  | x :: xs => if x = v then skipEqual v xs else x :: xs

/-- svec_setvec.hpp:825-858: the merge loop of `process_post` -/
def postMerge (last : ℕ) (q : PostMerge) : PostMerge :=
  whileLoop (σ := PostMerge) (fun q => decide (q.value < last) || !q.rest.isEmpty)
    (fun q =>
      let vp := q.rest.headD last
      let q := if q.value = vp then
          { q with current := q.current + 1, value := q.self.val (q.current + 1) } else q
      if q.value < vp then
        let s := q.self.push q.value
        ⟨s.val (q.current + 1), q.current + 1, q.rest, s⟩
      else
        ⟨q.value, q.current, skipEqual vp q.rest, q.self.push vp⟩) q

/-- svec_setvec.hpp:745-876 `process_post` -/
def process (s : SV) (i : ℕ) : SV :=
  let start := s.start i
  let post := s.post i
  if post = 0 then s
  else
    let length := s.val post
    let capacity := s.val (post + 1)
    let posts := ((List.range length).map fun j => s.val (post + 2 + j)).insertionSort (· ≤ ·)
    let subset := if start = 0 then decide (posts = []) else s.postSubset posts (start + 2)
    if subset then
      (s.setPost i 0).lost (capacity + 2)
    else
      let d := s.drop i
      let s := d.2
      let startNew := s.size
      let s := s.extend 2
      let s := s.setStart i startNew
      let s := s.setVal startNew 1
      let value := if start = 0 then s.last else s.val (start + 2)
      let q := postMerge s.last ⟨value, start + 2, posts, s⟩
      let s := q.self.push s.last
      let s := s.setVal (startNew + 1) (s.size - (startNew + 3))
      (s.setPost i 0).lost (d.1 + (capacity + 2))

/-- svec_setvec.hpp:954-973 `is_element` -/
def isElement (s : SV) (i element : ℕ) : Bool :=
  let start := s.start i
  if start = 0 then false
  else
    let length := s.val (start + 1)
    (List.range length).any fun j => decide (s.val (start + 2 + j) = element)

/-- svec_setvec.hpp:887-943 `add_element` -/
def add (s : SV) (i element : ℕ) : SV :=
  if s.isElement i element then s
  else
    let start := s.start i
    if start = 0 then
      let start := s.size
      let s := s.extend 4
      let s := s.setStart i start
      let s := s.setVal start 1
      let s := s.setVal (start + 1) 1
      let s := s.setVal (start + 2) element
      s.setVal (start + 3) s.last
    else
      let d := s.drop i
      let s := d.2
      let length := s.val (start + 1)
      let newStart := s.size
      let s := s.extend 2
      let s := s.setVal newStart 1
      let s := s.setVal (newStart + 1) (length + 1)
      -- state: count, this object
      let q := whileLoop (σ := ℕ × SV) (fun q => decide (q.2.val (start + 2 + q.1) < element))
        (fun q => (q.1 + 1, q.2.push (q.2.val (start + 2 + q.1)))) (0, s)
      let q := (q.1, q.2.push element)
      let q := whileLoop (σ := ℕ × SV) (fun q => decide (q.2.val (start + 2 + q.1) < s.last))
        (fun q => (q.1 + 1, q.2.push (q.2.val (start + 2 + q.1)))) q
      let s := q.2.push s.last
      let s := s.setStart i newStart
      s.lost d.1

/-- svec_setvec.hpp:985-1004 `clear` -/
def clear (s : SV) (target : ℕ) : SV :=
  let d := s.drop target
  let s := d.2.setStart target 0
  if s.post target ≠ 0 then
    let capacity := s.post (target + 1)
    (s.setPost target 0).lost (d.1 + (capacity + 2))
  else s.lost d.1

/-- svec_setvec.hpp:1023-1078 `assignment`; `none` is `this == &other` -/
def assignment (s : SV) (target source : ℕ) (other : Option SV) : SV :=
  if other.isNone ∧ target = source then s
  else
    let d := s.drop target
    let p := d.2.dropPost target
    let s := p.2
    let otherStart := (other.getD s).start source
    let s :=
      match other with
      | none =>
        let s := s.setStart target otherStart
        if otherStart ≠ 0 then s.setVal otherStart (s.val otherStart + 1) else s
      | some o =>
        if otherStart = 0 then s.setStart target 0
        else
          let length := o.val (otherStart + 1)
          let thisStart := s.size
          let s := s.extend 2
          let s := s.setStart target thisStart
          let s := s.setVal thisStart 1
          let s := s.setVal (thisStart + 1) length
          let s := forRange 0 length s fun j s => s.push (o.val (otherStart + 2 + j))
          s.push s.last
    s.lost (d.1 + p.1)

/-- state of the loop in `is_subset` -/
structure Sub where
  one : ℕ
  two : ℕ
  oneSub : Bool
  twoSub : Bool
deriving Inhabited

/-- svec_setvec.hpp:256-327 `is_subset`; `value_one`, `value_two` are the
values at the positions `one`, `two` -/
def isSubset (s : SV) (one two : ℕ) (o : SV) : ℕ :=
  let startOne := s.start one
  let startTwo := o.start two
  if startOne = 0 then (if startTwo = 0 then 3 else 1)
  else if startTwo = 0 then 2
  else
    let q := whileLoop (σ := Sub)
      (fun q => (q.oneSub || q.twoSub) && decide (min (s.val q.one) (o.val q.two) < s.last))
      (fun q =>
        let valueOne := s.val q.one
        let valueTwo := o.val q.two
        let valueUnion := min valueOne valueTwo
        let q := if valueUnion < valueOne then { q with twoSub := false } else { q with one := q.one + 1 }
        if valueUnion < valueTwo then { q with oneSub := false } else { q with two := q.two + 1 })
      ⟨startOne + 2, startTwo + 2, true, true⟩
    if q.oneSub then (if q.twoSub then 3 else 1)
    else if q.twoSub then 2 else 0

/-- state of the merge loops of the binary operations: positions in the left
and right set, `start` (used by the intersection), this object -/
structure Merge where
  left : ℕ
  right : ℕ
  start : ℕ
  self : SV
deriving Inhabited

/-- svec_setvec.hpp:1167-1186: the merge loop of `binary_union`; `value_left`
and `value_right` are the values at the positions `left` and `right` -/
def unionLoop (last : ℕ) (other : Option SV) (q : Merge) : Merge :=
  whileLoop (σ := Merge)
    (fun q => decide (q.self.val q.left < last) || decide ((other.getD q.self).val q.right < last))
    (fun q =>
      let valueLeft := q.self.val q.left
      let q := if valueLeft = (other.getD q.self).val q.right then
        { q with right := q.right + 1 } else q
      let valueRight := (other.getD q.self).val q.right
      if valueLeft < valueRight then
        { q with self := q.self.push valueLeft, left := q.left + 1 }
      else
        { q with self := q.self.push valueRight, right := q.right + 1 }) q

/-- svec_setvec.hpp:1100-1198 `binary_union` -/
def union (s : SV) (target left right : ℕ) (other : Option SV) : SV :=
  let subset := s.isSubset left right (other.getD s)
  if subset = 2 ∨ subset = 3 then s.assignment target left none
  else if subset = 1 then s.assignment target right other
  else
    let startLeft := s.start left
    let startRight := (other.getD s).start right
    let d := s.drop target
    let p := d.2.dropPost target
    let s := p.2
    let start := s.size
    let s := s.extend 2
    let s := s.setStart target start
    let s := s.setVal start 1
    let q := unionLoop s.last other ⟨startLeft + 2, startRight + 2, start, s⟩
    let s := q.self.push s.last
    let s := s.setVal (start + 1) (s.size - (start + 3))
    s.lost (d.1 + p.1)

/-- svec_setvec.hpp:1284-1309: the loop of `binary_intersection` -/
def interLoop (target last : ℕ) (other : Option SV) (q : Merge) : Merge :=
  whileLoop (σ := Merge)
    (fun q => decide (q.self.val q.left < last) && decide ((other.getD q.self).val q.right < last))
    (fun q =>
      let valueLeft := q.self.val q.left
      let q := if valueLeft = (other.getD q.self).val q.right then
          let q := if q.start = 0 then
              let start := q.self.size
              { q with start := start,
                       self := ((q.self.extend 2).setStart target start).setVal start 1 }
            else q
          { q with self := q.self.push valueLeft, left := q.left + 1 }
        else q
      let q := if (other.getD q.self).val q.right < q.self.val q.left then
        { q with right := q.right + 1 } else q
      if q.self.val q.left < (other.getD q.self).val q.right then
        { q with left := q.left + 1 } else q) q

/-- svec_setvec.hpp:1220-1320 `binary_intersection` -/
def inter (s : SV) (target left right : ℕ) (other : Option SV) : SV :=
  let subset := s.isSubset left right (other.getD s)
  if subset = 1 ∨ subset = 3 then s.assignment target left none
  else if subset = 2 then s.assignment target right other
  else
    let startLeft := s.start left
    let startRight := (other.getD s).start right
    let d := s.drop target
    let p := d.2.dropPost target
    let s := p.2.setStart target 0
    let q := interLoop target s.last other ⟨startLeft + 2, startRight + 2, 0, s⟩
    let s := if q.start ≠ 0 then
        let s := q.self.push s.last
        s.setVal (q.start + 1) (s.size - (q.start + 3))
      else q.self
    s.lost (d.1 + p.1)

/-- svec_setvec.hpp:1371-1386 constructor of the iterator; the state is `data_index_` -/
def begin (s : SV) (i : ℕ) : ℕ :=
  let start := s.start i
  if start = 0 then 0 else start + 2

/-- svec_setvec.hpp:1400-1404 `operator*` -/
def deref (s : SV) (t : ℕ) : ℕ := if t = 0 then s.last else s.val t

/-- svec_setvec.hpp:1389-1396 `operator++` -/
def next (s : SV) (t : ℕ) : ℕ :=
  if t ≠ 0 then (if s.val (t + 1) = s.last then 0 else t + 1) else t

/-- the class as an implementation of the concept -/
def impl : Impl SV ℕ where
  fresh := fresh
  nSet := nSet
  last := last
  resize := resize
  add := add
  post := postElement
  process := process
  clear := clear
  assignment := assignment
  union := union
  inter := inter
  isElement := isElement
  number := number
  begin := begin
  deref := deref
  next := next

end SV
end CppAD.SetVec
