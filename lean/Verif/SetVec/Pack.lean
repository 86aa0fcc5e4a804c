import Verif.SetVec.Spec
import Verif.Util.While
import Verif.Taylor.Loop

/-!
# Model of `CppAD::local::sparse::pack_setvec`

include/cppad/local/sparse/pack_setvec.hpp.  `w` is the number of bits in a
`Pack` (64 for the `size_t` used by the code); all the results below hold for
every `w > 0`.  Simplifications: `size_t` index arithmetic is done in ℕ, and
`data_` is a function on all indices (the vector is never read at an index
that was not written by `resize`).
-/

namespace CppAD.SetVec

/-- pack_setvec.hpp:64-72, the member data; `n_bit_` is `w` -/
structure Pack (w : ℕ) where
  nSet : ℕ
  last : ℕ
  nPack : ℕ
  data : ℕ → BitVec w

namespace Pack
variable {w : ℕ}

/-- pack_setvec.hpp:177-180, default constructor -/
def fresh : Pack w := ⟨0, 0, 0, fun _ => 0#w⟩

/-- pack_setvec.hpp:242-264 `resize`.  `end - 1` does not underflow when the
precondition `end > 0` of the non-empty case holds. -/
def resize (s : Pack w) (nSet last : ℕ) : Pack w :=
  if nSet = 0 then { s with nSet := nSet, last := last, data := fun _ => 0#w }
  else
    let nPack := 1 + (last - 1) / w
    { nSet := nSet, last := last, nPack := nPack,
      data := forDown0 (nSet * nPack) s.data fun i d => Function.update d i 0#w }

/-- pack_setvec.hpp:448-464 `add_element` -/
def add (s : Pack w) (i element : ℕ) : Pack w :=
  if s.last = 1 then { s with data := Function.update s.data i (s.data i ||| 1#w) }
  else
    let j := element / w
    let k := element - j * w
    let mask := 1#w <<< k
    { s with data :=
        Function.update s.data (i * s.nPack + j) (s.data (i * s.nPack + j) ||| mask) }

/-- pack_setvec.hpp:481-482 `post_element` -/
def post (s : Pack w) (i element : ℕ) : Pack w := s.add i element

/-- pack_setvec.hpp:504-505 `process_post` -/
def process (s : Pack w) (_ : ℕ) : Pack w := s

/-- pack_setvec.hpp:525-540 `is_element` -/
def isElement (s : Pack w) (i element : ℕ) : Bool :=
  if s.last = 1 then s.data i != 0#w
  else
    let j := element / w
    let k := element - j * w
    let mask := 1#w <<< k
    (s.data (i * s.nPack + j) &&& mask) != 0#w

/-- pack_setvec.hpp:557-569 `clear` -/
def clear (s : Pack w) (target : ℕ) : Pack w :=
  { s with data := forRange 0 s.nPack s.data fun j d =>
      Function.update d (target * s.nPack + j) 0#w }

/-- pack_setvec.hpp:586-604 `assignment`; when `other` is the object itself
the loop reads the vector it is changing -/
def assignment (s : Pack w) (target value : ℕ) (other : Option (Pack w)) : Pack w :=
  { s with data := forRange 0 s.nPack s.data fun j d =>
      let src := match other with | none => d | some o => o.data
      Function.update d (target * s.nPack + j) (src (value * s.nPack + j)) }

/-- pack_setvec.hpp:621-643 `binary_union` -/
def union (s : Pack w) (target left right : ℕ) (other : Option (Pack w)) : Pack w :=
  { s with data := forRange 0 s.nPack s.data fun j d =>
      let src := match other with | none => d | some o => o.data
      let v := d (left * s.nPack + j) ||| src (right * s.nPack + j)
      Function.update d (target * s.nPack + j) v }

/-- pack_setvec.hpp:660-682 `binary_intersection` -/
def inter (s : Pack w) (target left right : ℕ) (other : Option (Pack w)) : Pack w :=
  { s with data := forRange 0 s.nPack s.data fun j d =>
      let src := match other with | none => d | some o => o.data
      let v := d (left * s.nPack + j) &&& src (right * s.nPack + j)
      Function.update d (target * s.nPack + j) v }

/-- pack_setvec.hpp:386-431 `number_elements`, as it is in the code -/
def number (s : Pack w) (i : ℕ) : ℕ :=
  if s.last = 1 then (s.data i).toNat
  else
    let nLast := (s.last - 1) % w + 1
    let unit := s.data ((i + 1) * s.nPack - 1)
    -- state: count, mask
    let cm := forRange 0 nLast ((0 : ℕ), 1#w) fun _ cm =>
      (if cm.2 &&& unit != 0#w then cm.1 + 1 else cm.1, cm.2 <<< 1)
    if s.nPack = 1 then cm.1
    else
      (forRange 0 w cm fun _ cm =>
        -- `k = n_pack_; while(--k)` visits n_pack_ - 1, ... , 1
        (forRange 1 s.nPack cm.1 fun k count =>
          if s.data (i * s.nPack + k) &&& cm.2 != 0#w then count + 1 else count,
         cm.2 <<< 1)).1

/-- pack_setvec.hpp:742-750, the iterator state: data_index_, next_element_ -/
structure It where
  dataIndex : ℕ
  nextElement : ℕ
deriving Inhabited

/-- pack_setvec.hpp:831-876 `operator++` of the iterator; the loop state is
the iterator, `bit` and `mask` -/
def next (s : Pack w) (t : It) : It :=
  if t.nextElement = s.last then t
  else
    let t : It := { t with nextElement := t.nextElement + 1 }
    if t.nextElement = s.last then t
    else
      let bit := t.nextElement % w
      let t : It := if bit = 0 then { t with dataIndex := t.dataIndex + 1 } else t
      let mask := 1#w <<< bit
      (whileLoop (σ := It × ℕ × BitVec w)
        (fun q => decide (q.1.nextElement < s.last) && !(s.data q.1.dataIndex &&& q.2.2 != 0#w))
        (fun q =>
          let t : It := { q.1 with nextElement := q.1.nextElement + 1 }
          let bit := q.2.1 + 1
          let mask := q.2.2 <<< 1
          if bit = w then ({ t with dataIndex := t.dataIndex + 1 }, 0, 1#w)
          else (t, bit, mask))
        (t, bit, mask)).1

/-- pack_setvec.hpp:771-794 constructor of the iterator -/
def begin (s : Pack w) (i : ℕ) : It :=
  let t : It := ⟨i * s.nPack, 0⟩
  if s.data t.dataIndex &&& 1#w != 0#w then t else s.next t

/-- pack_setvec.hpp:810-811 `operator*` -/
def deref (_ : Pack w) (t : It) : ℕ := t.nextElement

/-- the class as an implementation of the concept -/
def impl (w : ℕ) : Impl (Pack w) It where
  fresh := fresh
  nSet := nSet
  last := last
  resize := resize
  add := add
  post := post
  process := process
  clear := clear
  assignment := assignment
  union := union
  inter := inter
  isElement := isElement
  number := number
  begin := begin
  deref := deref
  next := next

/-- pack_setvec.hpp:953-991 `sparsity_user2internal`; `user` is the vector of
booleans passed by the user -/
def ofUser (s : Pack w) (user : ℕ → Bool) (nSet last : ℕ) (transpose : Bool) : Pack w :=
  let s := s.resize nSet last
  if transpose then
    forRange 0 last s fun j s => forRange 0 nSet s fun i s =>
      if user (j * nSet + i) then s.add i j else s
  else
    forRange 0 nSet s fun i s => forRange 0 last s fun j s =>
      if user (i * last + j) then s.add i j else s

end Pack
end CppAD.SetVec
