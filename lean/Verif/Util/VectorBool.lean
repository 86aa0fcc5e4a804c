import Verif.Util.Memory
import Verif.SetVec.PackProof

/-! # vectorBool (property C32)

Model of cppad/utility/vector_bool.hpp and cppad/local/utility/vector_bool.hpp, for every number of bits per unit.
The constructor from an initializer list is a default construction followed by push_back of each element
(vector_bool.hpp:190-194), it is not a separate operation. -/

namespace CppAD.Util.VectorBool

variable {w : ℕ}

/-- vector_bool.hpp:77-81 (`unit_min` as a function of the length) -/
def unitMin (w len : ℕ) : ℕ := if len = 0 then 0 else (len - 1) / w + 1

/-- checks the address for a read of a unit -/
def touch (v : Var) (k : ℕ) (s : Heap (BitVec w)) : Heap (BitVec w) :=
  { s with mem := { s.mem with ok := s.mem.ok && decide (k < s.mem.size (s.var v).ptr) } }

/-- vector_bool.hpp:253-272 -/
def resize (v : Var) (n : ℕ) (a : Alloc (BitVec w)) (s : Heap (BitVec w)) : Heap (BitVec w) :=
  let s := s.setVar v { s.var v with len := n }
  let minUnit := unitMin w n
  if (s.var v).cap ≥ minUnit then s
  else
    let mem := if 0 < (s.var v).cap then s.mem.free (s.var v).ptr else s.mem
    ⟨mem.create a, Function.update s.var v ⟨a.cap, n, a.ptr⟩⟩

/-- vector_bool.hpp:274-284, also the destructor vector_bool.hpp:200-201 -/
def clear (v : Var) (s : Heap (BitVec w)) : Heap (BitVec w) := s.release v

/-- vector_bool.hpp:337-346 -/
def swap (v u : Var) (s : Heap (BitVec w)) : Heap (BitVec w) := if v = u then s else s.swapVar v u

/-- the loops that copy the units that are used: vector_bool.hpp:185-188, 358-361, 465-468, 521-524 -/
def copyUnits (v u : Var) (n : ℕ) (s : Heap (BitVec w)) : Heap (BitVec w) := forRange 0 n s fun i s => s.cp v i u i

/-- vector_bool.hpp:182-189 -/
def copyCtor (v u : Var) (a : Alloc (BitVec w)) (s : Heap (BitVec w)) : Heap (BitVec w) :=
  let s := resize v (s.var u).len a s
  copyUnits v u (unitMin w (s.var v).len) s

/-- vector_bool.hpp:348-363 -/
def assign (v u : Var) (a : Alloc (BitVec w)) (s : Heap (BitVec w)) : Heap (BitVec w) :=
  let s := if (s.var v).len = 0 then resize v (s.var u).len a s else s
  copyUnits v u (unitMin w (s.var v).len) s

/-- vector_bool.hpp:402-411 and local/utility/vector_bool.hpp:54-55 -/
def get (v : Var) (i : ℕ) (s : Heap (BitVec w)) : Bool :=
  let unitIndex := i / w
  let bitIndex := i - unitIndex * w
  let unit := s.el v unitIndex
  let mask := 1#w <<< bitIndex
  (unit &&& mask) != 0#w

/-- vector_bool.hpp:412-420 with local/utility/vector_bool.hpp:56-60; also vector_bool.hpp:476-482 and 535-541 -/
def set (v : Var) (i : ℕ) (b : Bool) (s : Heap (BitVec w)) : Heap (BitVec w) :=
  let unitIndex := i / w
  let bitIndex := i - unitIndex * w
  let mask := 1#w <<< bitIndex
  if b then s.wr v unitIndex (s.el v unitIndex ||| mask) else s.wr v unitIndex (s.el v unitIndex &&& ~~~ mask)

/-- vector_bool.hpp:454-483 -/
def pushBack (v : Var) (b : Bool) (a : Alloc (BitVec w)) (s : Heap (BitVec w)) : Heap (BitVec w) :=
  let oldLength := (s.var v).len
  let s :=
    if (s.var v).len + 1 > (s.var v).cap * w then
      let s := resize .vec ((s.var v).len + 1) a s
      let s := copyUnits .vec v (unitMin w (s.var v).len) s
      let s := swap v .vec s
      clear .vec s
    else s.setVar v { s.var v with len := (s.var v).len + 1 }
  set v oldLength b s

/-- vector_bool.hpp:509-543 where `other` has `m` elements that are read by `other` -/
def pushVector (v : Var) (m : ℕ) (other : ℕ → Heap (BitVec w) → Bool × Heap (BitVec w)) (a : Alloc (BitVec w)) (s : Heap (BitVec w)) :
    Heap (BitVec w) :=
  let oldLength := (s.var v).len
  let s :=
    if (s.var v).len + m > (s.var v).cap * w then
      let s := resize .vec ((s.var v).len + m) a s
      let s := copyUnits .vec v (unitMin w (s.var v).len) s
      let s := swap v .vec s
      clear .vec s
    else s.setVar v { s.var v with len := (s.var v).len + m }
  forRange 0 m s fun k s =>
    let bs := other k s
    set v (oldLength + k) bs.1 bs.2

/-- the operations on the vectors that are variables of the program.  A construction begins the life of a vector in the place
where another vector was, which is destroyed.  `a` is the memory that is used if the operation allocates. -/
inductive Op (w : ℕ)
  /-- vector_bool.hpp:168-179 -/
  | ctor (v n : ℕ) (a : Alloc (BitVec w))
  /-- vector_bool.hpp:182-189 -/
  | ctorCopy (v u : ℕ) (a : Alloc (BitVec w))
  /-- vector_bool.hpp:197-199 -/
  | ctorMove (v u : ℕ)
  /-- vector_bool.hpp:200-201 -/
  | destroy (v : ℕ)
  | resize (v n : ℕ) (a : Alloc (BitVec w))
  | clear (v : ℕ)
  | swap (v u : ℕ)
  /-- vector_bool.hpp:348-363 -/
  | assign (v u : ℕ) (a : Alloc (BitVec w))
  /-- vector_bool.hpp:365-373 -/
  | moveAssign (v u : ℕ)
  /-- v[i] = b -/
  | set (v i : ℕ) (b : Bool)
  /-- v[i] = u[j], local/utility/vector_bool.hpp:61-65 -/
  | setElem (v i u j : ℕ)
  | pushBack (v : ℕ) (b : Bool) (a : Alloc (BitVec w))
  /-- push_vector where other is a vectorBool, perhaps the same one -/
  | pushVector (v u : ℕ) (a : Alloc (BitVec w))
  /-- push_vector where other is some other simple vector with elements of type bool -/
  | pushList (v : ℕ) (l : List Bool) (a : Alloc (BitVec w))

/-- the state after an operation -/
def exec : Op w → Heap (BitVec w) → Heap (BitVec w)
  | .ctor v n a, s => VectorBool.resize (.user v) n a (s.release (.user v))
  | .ctorCopy v u a, s => copyCtor (.user v) (.user u) a (s.release (.user v))
  | .ctorMove v u, s => VectorBool.swap (.user v) (.user u) (s.release (.user v))
  | .destroy v, s => VectorBool.clear (.user v) s
  | .resize v n a, s => VectorBool.resize (.user v) n a s
  | .clear v, s => VectorBool.clear (.user v) s
  | .swap v u, s => VectorBool.swap (.user v) (.user u) s
  | .assign v u a, s => VectorBool.assign (.user v) (.user u) a s
  | .moveAssign v u, s => VectorBool.swap (.user v) (.user u) s
  | .set v i b, s => VectorBool.set (.user v) i b s
  | .setElem v i u j, s => VectorBool.set (.user v) i (VectorBool.get (.user u) j s) (touch (.user u) (j / w) s)
  | .pushBack v b a, s => VectorBool.pushBack (.user v) b a s
  | .pushVector v u a, s => VectorBool.pushVector (.user v) (s.var (.user u)).len
      (fun k s => (VectorBool.get (.user u) k s, touch (.user u) (k / w) s)) a s
  | .pushList v l a, s => VectorBool.pushVector (.user v) l.length (fun k s => (l.getD k false, s)) a s

/-! ## Specification -/

/-- v.size() -/
def size (s : Heap (BitVec w)) (v : ℕ) : ℕ := (s.var (.user v)).len

/-- v.capacity(), vector_bool.hpp:89-90 -/
def capacity (s : Heap (BitVec w)) (v : ℕ) : ℕ := (s.var (.user v)).cap * w

/-- the values v[0], ..., v[v.size()-1] -/
def seq (s : Heap (BitVec w)) (v : ℕ) : List Bool := (List.range (size s v)).map fun i => get (.user v) i s

/-- the allocator gives memory that is not in use and has room for `n` bits -/
def FreshBits (mem : Mem (BitVec w)) (n : ℕ) (a : Alloc (BitVec w)) : Prop := mem.size a.ptr = 0 ∧ n ≤ a.cap * w

/-- what the caller must ensure (indices in range, the size of the left side of an assignment is zero or that of the right
side, vector_bool.hpp:354-357, 367-370), and what the allocator ensures -/
def Op.Valid (s : Heap (BitVec w)) (A : ℕ → List Bool) : Op w → Prop
  | .ctor v n a => FreshBits (s.release (.user v)).mem n a
  | .ctorCopy v u a => v ≠ u ∧ FreshBits (s.release (.user v)).mem (A u).length a
  | .ctorMove v u => v ≠ u
  | .resize v n a => FreshBits (s.release (.user v)).mem n a
  | .assign v u a => ((A v).length = 0 ∨ (A v).length = (A u).length) ∧ FreshBits (s.release (.user v)).mem (A u).length a
  | .moveAssign v u => (A v).length = 0 ∨ (A v).length = (A u).length
  | .set v i _ => i < (A v).length
  | .setElem v i u j => i < (A v).length ∧ j < (A u).length
  | .pushBack v _ a => FreshBits s.mem ((A v).length + 1) a
  | .pushVector v u a => FreshBits s.mem ((A v).length + (A u).length) a
  | .pushList v l a => FreshBits s.mem ((A v).length + l.length) a
  | _ => True

/-- The effect of an operation on sequences of bool.  Elements that are added by a constructor or by resize are arbitrary, and
resize to more than the capacity `cap` makes all the elements arbitrary (vector_bool.hpp:222-228). -/
def Op.Spec (cap : ℕ → ℕ) (A A' : ℕ → List Bool) : Op w → Prop
  | .ctor v n _ => ∃ l, l.length = n ∧ A' = Function.update A v l
  | .ctorCopy v u _ => A' = Function.update A v (A u)
  | .ctorMove v u => A' = Function.update (Function.update A v (A u)) u []
  | .destroy v => A' = Function.update A v []
  | .resize v n _ => ∃ l, l.length = n ∧ (n ≤ cap v → ∀ i, i < n → i < (A v).length → l[i]? = (A v)[i]?) ∧ A' = Function.update A v l
  | .clear v => A' = Function.update A v []
  | .swap v u => A' = Function.update (Function.update A v (A u)) u (A v)
  | .assign v u _ => A' = Function.update A v (A u)
  | .moveAssign v u => A' = Function.update (Function.update A v (A u)) u (A v)
  | .set v i b => A' = Function.update A v ((A v).set i b)
  | .setElem v i u j => ∃ b, (A u)[j]? = some b ∧ A' = Function.update A v ((A v).set i b)
  | .pushBack v b _ => A' = Function.update A v (A v ++ [b])
  | .pushVector v u _ => A' = Function.update A v (A v ++ A u)
  | .pushList v l _ => A' = Function.update A v (A v ++ l)

/-- the states that can be reached by valid operations, starting with no vectors -/
inductive Reach : Heap (BitVec w) → Prop
  | init : Reach Heap.init
  | step {s : Heap (BitVec w)} {op : Op w} : Reach s → op.Valid s (seq s) → Reach (exec op s)

end CppAD.Util.VectorBool
