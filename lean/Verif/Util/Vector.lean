import Verif.Util.Memory
import Mathlib.Tactic.SplitIfs

/-! # CppAD::vector (property C33)

Model of cppad/utility/vector.hpp.  Simplifications: an assignment of elements makes them equal (no nan); iterators are not
modelled; the constructor from an initializer list is a default construction followed by push_back of each element
(vector.hpp:211-215), it is not a separate operation. -/

namespace CppAD.Util.Vector

variable {α : Type}

/-- vector.hpp:283-305 -/
def resize (v : Var) (n : ℕ) (a : Alloc α) (s : Heap α) : Heap α :=
  let s :=
    if (s.var v).cap < n then
      if (s.var v).cap = 0 then
        ⟨s.mem.create a, Function.update s.var v ⟨a.cap, (s.var v).len, a.ptr⟩⟩
      else
        let s := s.setVar .old (s.var v)
        let s : Heap α := ⟨s.mem.create a, Function.update s.var v ⟨a.cap, (s.var v).len, a.ptr⟩⟩
        let s := forRange 0 (s.var v).len s fun i s => s.cp v i .old i
        s.release .old
    else s
  s.setVar v { s.var v with len := n }

/-- vector.hpp:306-312, and the destructor vector.hpp:227-228 -/
def clear (v : Var) (s : Heap α) : Heap α := s.release v

/-- vector.hpp:362-372 -/
def swap (v w : Var) (s : Heap α) : Heap α := if v = w then s else s.swapVar v w

/-- vector.hpp:383-393 -/
def assign (v w : Var) (a : Alloc α) (s : Heap α) : Heap α :=
  let s := resize v 0 a s
  let s := resize v (s.var w).len a s
  forRange 0 (s.var v).len s fun i s => s.cp v i w i

/-- vector.hpp:189-194, the loop -/
def fill (v : Var) (x : α) (s : Heap α) : Heap α := forRange 0 (s.var v).len s fun i s => s.wr v i x

/-- vector.hpp:218-222 -/
def copyCtor (v w : Var) (a : Alloc α) (s : Heap α) : Heap α :=
  let s := resize v (s.var w).len a s
  forRange 0 (s.var v).len s fun i s => s.cp v i w i

/-- vector.hpp:575-597; `wr` is the assignment of `element` to a vector at an index -/
def pushBack (v : Var) (put : Var → ℕ → Heap α → Heap α) (a : Alloc α) (s : Heap α) : Heap α :=
  if (s.var v).len < (s.var v).cap then
    let s' := put v (s.var v).len s
    s'.setVar v { s'.var v with len := (s'.var v).len + 1 }
  else
    let s := resize .vec ((s.var v).len + 1) a s
    let s := forRange 0 (s.var v).len s fun i s => s.cp .vec i v i
    let s := put .vec (s.var v).len s
    let s := swap v .vec s
    clear .vec s

/-- vector.hpp:623-652 when `other` is a vector -/
def pushVector (v w : Var) (a : Alloc α) (s : Heap α) : Heap α :=
  let m := (s.var w).len
  if (s.var v).len + m ≤ (s.var v).cap then
    forRange 0 m s fun i s =>
      let s' := s.cp v (s.var v).len w i
      s'.setVar v { s'.var v with len := (s'.var v).len + 1 }
  else
    let s := resize .vec ((s.var v).len + m) a s
    let s := forRange 0 (s.var v).len s fun i s => s.cp .vec i v i
    let s := forRange 0 m s fun i s => s.cp .vec ((s.var v).len + i) w i
    let s := swap v .vec s
    clear .vec s

/-- vector.hpp:443-513: one loop, six comparisons -/
def compare (op : α → α → Bool) (v w : Var) (s : Heap α) : Bool :=
  forRange 0 (s.var v).len true fun i result => result && op (s.el v i) (s.el w i)

/-- the operations on the vectors that are variables of the program.  A construction begins the life of a vector in the place
where another vector was, which is destroyed (`~vector`, vector.hpp:227).  `a` is the memory that is used if the operation allocates. -/
inductive Op (α : Type)
  /-- vector.hpp:174-187 -/
  | ctor (v n : ℕ) (a : Alloc α)
  /-- vector.hpp:189-208 -/
  | ctorValue (v n : ℕ) (x : α) (a : Alloc α)
  /-- vector.hpp:218-222 -/
  | ctorCopy (v w : ℕ) (a : Alloc α)
  /-- vector.hpp:225-226 -/
  | ctorMove (v w : ℕ)
  /-- vector.hpp:227-228 -/
  | destroy (v : ℕ)
  | resize (v n : ℕ) (a : Alloc α)
  | clear (v : ℕ)
  | swap (v w : ℕ)
  /-- vector.hpp:383-393 -/
  | assign (v w : ℕ) (a : Alloc α)
  /-- vector.hpp:376-380 -/
  | moveAssign (v w : ℕ)
  /-- v[i] = x, vector.hpp:537-542 -/
  | set (v i : ℕ) (x : α)
  /-- v[i] = w[j] -/
  | setElem (v i w j : ℕ)
  | pushBack (v : ℕ) (x : α) (a : Alloc α)
  /-- v.push_back( w[j] ): the argument is a reference to an element -/
  | pushBackElem (v w j : ℕ) (a : Alloc α)
  | pushVector (v w : ℕ) (a : Alloc α)

/-- the state after an operation -/
def exec : Op α → Heap α → Heap α
  | .ctor v n a, s => Vector.resize (.user v) n a (s.release (.user v))
  | .ctorValue v n x a, s => fill (.user v) x (Vector.resize (.user v) n a (s.release (.user v)))
  | .ctorCopy v w a, s => copyCtor (.user v) (.user w) a (s.release (.user v))
  | .ctorMove v w, s => Vector.swap (.user v) (.user w) (s.release (.user v))
  | .destroy v, s => s.release (.user v)
  | .resize v n a, s => Vector.resize (.user v) n a s
  | .clear v, s => Vector.clear (.user v) s
  | .swap v w, s => Vector.swap (.user v) (.user w) s
  | .assign v w a, s => Vector.assign (.user v) (.user w) a s
  | .moveAssign v w, s => Vector.swap (.user v) (.user w) s
  | .set v i x, s => s.wr (.user v) i x
  | .setElem v i w j, s => s.cp (.user v) i (.user w) j
  | .pushBack v x a, s => Vector.pushBack (.user v) (fun u i s => s.wr u i x) a s
  | .pushBackElem v w j a, s => Vector.pushBack (.user v) (fun u i s => s.cp u i (.user w) j) a s
  | .pushVector v w a, s => Vector.pushVector (.user v) (.user w) a s

/-! ## Specification -/

/-- v.size() -/
def size (s : Heap α) (v : ℕ) : ℕ := (s.var (.user v)).len

/-- v.capacity() -/
def capacity (s : Heap α) (v : ℕ) : ℕ := (s.var (.user v)).cap

/-- the values v[0], ..., v[v.size()-1] -/
def seq (s : Heap α) (v : ℕ) : List α := (List.range (size s v)).map fun i => s.el (.user v) i

/-- what the caller must ensure, in terms of the sequences `A` (vector.hpp:532, 538: indices are in range), and what the
allocator ensures.  A vector is not copied to itself by its constructor (it does not exist before). -/
def Op.Valid (s : Heap α) (A : ℕ → List α) : Op α → Prop
  | .ctor v n a => a.Fresh (s.release (.user v)).mem n
  | .ctorValue v n _ a => a.Fresh (s.release (.user v)).mem n
  | .ctorCopy v w a => v ≠ w ∧ a.Fresh (s.release (.user v)).mem (A w).length
  | .ctorMove v w => v ≠ w
  | .resize _ n a => a.Fresh s.mem n
  | .assign _ w a => a.Fresh s.mem (A w).length
  | .set v i _ => i < (A v).length
  | .setElem v i w j => i < (A v).length ∧ j < (A w).length
  | .pushBack v _ a => a.Fresh s.mem ((A v).length + 1)
  | .pushBackElem v w j a => j < (A w).length ∧ a.Fresh s.mem ((A v).length + 1)
  | .pushVector v w a => a.Fresh s.mem ((A v).length + (A w).length)
  | _ => True

/-- the effect of an operation on mathematical sequences; elements that are added by a constructor or resize without a value
are arbitrary -/
def Op.Spec (A A' : ℕ → List α) : Op α → Prop
  | .ctor v n _ => ∃ l, l.length = n ∧ A' = Function.update A v l
  | .ctorValue v n x _ => A' = Function.update A v (List.replicate n x)
  | .ctorCopy v w _ => A' = Function.update A v (A w)
  | .ctorMove v w => A' = Function.update (Function.update A v (A w)) w []
  | .destroy v => A' = Function.update A v []
  | .resize v n _ => ∃ l, l.length = n ∧ (∀ i, i < n → i < (A v).length → l[i]? = (A v)[i]?) ∧ A' = Function.update A v l
  | .clear v => A' = Function.update A v []
  | .swap v w => A' = Function.update (Function.update A v (A w)) w (A v)
  | .assign v w _ => A' = Function.update A v (A w)
  | .moveAssign v w => A' = Function.update (Function.update A v (A w)) w (A v)
  | .set v i x => A' = Function.update A v ((A v).set i x)
  | .setElem v i w j => ∃ x, (A w)[j]? = some x ∧ A' = Function.update A v ((A v).set i x)
  | .pushBack v x _ => A' = Function.update A v (A v ++ [x])
  | .pushBackElem v w j _ => ∃ x, (A w)[j]? = some x ∧ A' = Function.update A v (A v ++ [x])
  | .pushVector v w _ => A' = Function.update A v (A v ++ A w)

/-- copy assignment of a vector to itself -/
def Op.SelfAssign : Op α → Prop
  | .assign v w _ => v = w
  | _ => False

/-- the states that can be reached by valid operations, starting with no vectors -/
inductive Reach [Inhabited α] : Heap α → Prop
  | init : Reach Heap.init
  | step {s : Heap α} {op : Op α} : Reach s → op.Valid s (seq s) → Reach (exec op s)

end CppAD.Util.Vector
