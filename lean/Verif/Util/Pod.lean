import Verif.Util.VectorProof

/-! # pod_vector and pod_vector_maybe: the vectors that CppAD uses internally (property C64)

Model of local/pod_vector.hpp.  `pod` is the value of `is_pod<Type>()`: it is true for the class `pod_vector`, and both values are
possible for `pod_vector_maybe`.  An element of memory is `none` when there is no object (when `pod` is false) or when it was not
given a value (when `pod` is true).  The flag `ok` of the memory also records that every constructor was called for memory without
an object, every destructor and element assignment for an object, and that no object was in memory when it was returned.
`memcpy` is a loop over the elements. -/

namespace CppAD.Util.Pod

open CppAD.Util.Vector (Good seq size capacity)

variable {α : Type}

/-- a requirement of the language on the use of memory -/
def chk {β : Type} (s : Heap β) (b : Bool) : Heap β := { s with mem := { s.mem with ok := s.mem.ok && b } }

/-- the loop over `new(data_ + i) Type()`, pod_vector.hpp:590-594, 661-665; `d` is the value that the default constructor gives -/
def construct (pod : Bool) (d : α) (v : Var) (s : Heap (Option α)) : Heap (Option α) :=
  if pod then s else forRange 0 (s.var v).cap s fun i s => (chk s (s.el v i).isNone).wr v i (some d)

/-- the loop over `(data_ + i)->~Type()`, pod_vector.hpp:467-471, 602-605, 643-647, 674-678 -/
def destruct (pod : Bool) (v : Var) (s : Heap (Option α)) : Heap (Option α) :=
  if pod then s else forRange 0 (s.var v).cap s fun i s => (chk s (s.el v i).isSome).wr v i none

/-- there is no object in the memory of `v` -/
def allRaw (v : Var) (s : Heap (Option α)) : Bool := (List.range (s.var v).cap).all fun i => (s.el v i).isNone

/-- destruction of the elements and `thread_alloc::return_memory`, pod_vector.hpp:149-153, 380-382, 397-401, 416-420, 466-474, 601-608,
641-650, 673-681 -/
def giveBack (pod : Bool) (v : Var) (s : Heap (Option α)) : Heap (Option α) :=
  let s := destruct pod v s
  (chk s (pod || allRaw v s)).release v

/-- `thread_alloc::get_memory` and the members of the vector, pod_vector.hpp:368-373, 584-588 -/
def alloc (v : Var) (n : ℕ) (a : Alloc (Option α)) (s : Heap (Option α)) : Heap (Option α) :=
  ⟨s.mem.create a, Function.update s.var v ⟨a.cap, n, a.ptr⟩⟩

/-- `v[i] = w[j]`: bytes are copied when `pod` is true, otherwise objects are assigned -/
def copyEl (pod : Bool) (v : Var) (i : ℕ) (w : Var) (j : ℕ) (s : Heap (Option α)) : Heap (Option α) :=
  (chk s (pod || ((s.el v i).isSome && (s.el w j).isSome))).cp v i w j

/-- `extend`, pod_vector.hpp:356-387, 571-613 -/
def extend (pod : Bool) (d : α) (v : Var) (n : ℕ) (a : Alloc (Option α)) (s : Heap (Option α)) : Heap (Option α) :=
  let l := (s.var v).len
  if l + n ≤ (s.var v).cap then s.setVar v { s.var v with len := l + n }
  else
    let s := s.setVar .old (s.var v)
    let s := construct pod d v (alloc v (l + n) a s)
    let s := forRange 0 l s fun i s => copyEl pod v i .old i s
    giveBack pod .old s

/-- `resize`, pod_vector.hpp:389-412, 634-667 -/
def resize (pod : Bool) (d : α) (v : Var) (n : ℕ) (a : Alloc (Option α)) (s : Heap (Option α)) : Heap (Option α) :=
  if (s.var v).cap < n then construct pod d v (alloc v n a (giveBack pod v s)) else s.setVar v { s.var v with len := n }

/-- `swap`, pod_vector.hpp:294-299, 547-551 -/
def swap (v w : Var) (s : Heap (Option α)) : Heap (Option α) := if v = w then s else s.swapVar v w

/-- `operator=`, pod_vector.hpp:301-310, 688-697 -/
def assign (pod : Bool) (d : α) (v w : Var) (a : Alloc (Option α)) (s : Heap (Option α)) : Heap (Option α) :=
  let s := resize pod d v (s.var w).len a s
  forRange 0 (s.var v).len s fun i s => copyEl pod v i w i s

/-- `v[i] = x` -/
def put (pod : Bool) (v : Var) (i : ℕ) (x : α) (s : Heap (Option α)) : Heap (Option α) :=
  (chk s (pod || (s.el v i).isSome)).wr v i (some x)

/-- `push_back`, pod_vector.hpp:260-264, 534-537 -/
def pushBack (pod : Bool) (d : α) (v : Var) (x : α) (a : Alloc (Option α)) (s : Heap (Option α)) : Heap (Option α) :=
  put pod v (s.var v).len x (extend pod d v 1 a s)

/-- `v.push_back( w[j] )`: the argument is a reference to element `j` of the memory that `w` has before the call,
pod_vector.hpp:260-264, 534-537 -/
def pushBackElem (pod : Bool) (d : α) (v w : Var) (j : ℕ) (a : Alloc (Option α)) (s : Heap (Option α)) : Heap (Option α) :=
  let p := (s.var w).ptr
  let l := (s.var v).len
  let s := extend pod d v 1 a s
  let s := chk s (pod || ((s.el v l).isSome && (s.mem.val p j).isSome))
  { s with mem := s.mem.cp (s.var v).ptr l p j }

/-- the operations on the vectors that are variables of the program; `a` is the memory that is used if the operation allocates.
A constructor begins the life of a vector in the place where another vector was, which is destroyed. -/
inductive Op (α : Type)
  /-- pod_vector.hpp:132-144, 449-459; the default constructor has `n = 0` -/
  | ctor (v n : ℕ) (a : Alloc (Option α))
  /-- pod_vector.hpp:147-154, 465-475 -/
  | destroy (v : ℕ)
  | extend (v n : ℕ) (a : Alloc (Option α))
  | resize (v n : ℕ) (a : Alloc (Option α))
  /-- pod_vector.hpp:414-424, 672-685 -/
  | clear (v : ℕ)
  | swap (v w : ℕ)
  | assign (v w : ℕ) (a : Alloc (Option α))
  /-- v[i] = x, pod_vector.hpp:246-251, 491-504 -/
  | set (v i : ℕ) (x : α)
  /-- v[i] = w[j] -/
  | setElem (v i w j : ℕ)
  | pushBack (v : ℕ) (x : α) (a : Alloc (Option α))
  | pushBackElem (v w j : ℕ) (a : Alloc (Option α))

/-- the state after an operation -/
def exec (pod : Bool) (d : α) : Op α → Heap (Option α) → Heap (Option α)
  | .ctor v n a, s => Pod.extend pod d (.user v) n a (giveBack pod (.user v) s)
  | .destroy v, s => giveBack pod (.user v) s
  | .extend v n a, s => Pod.extend pod d (.user v) n a s
  | .resize v n a, s => Pod.resize pod d (.user v) n a s
  | .clear v, s => giveBack pod (.user v) s
  | .swap v w, s => Pod.swap (.user v) (.user w) s
  | .assign v w a, s => Pod.assign pod d (.user v) (.user w) a s
  | .set v i x, s => put pod (.user v) i x s
  | .setElem v i w j, s => copyEl pod (.user v) i (.user w) j s
  | .pushBack v x a, s => Pod.pushBack pod d (.user v) x a s
  | .pushBackElem v w j a, s => Pod.pushBackElem pod d (.user v) (.user w) j a s

/-! ## Specification -/

/-- memory that the allocator may return for `n` elements (C28); there are no objects in it -/
def Raw (pod : Bool) (m : Mem (Option α)) (n : ℕ) (a : Alloc (Option α)) : Prop :=
  a.Fresh m n ∧ (pod = false → ∀ i, a.init i = none)

/-- what the caller must ensure, in terms of the sequences `A`, and what the allocator ensures.  The argument of `push_back`
is not an element of a vector that has to allocate memory for it. -/
def Op.Valid (pod : Bool) (s : Heap (Option α)) (A : ℕ → List (Option α)) : Op α → Prop
  | .ctor v n a => Raw pod (s.release (.user v)).mem n a
  | .extend v n a => Raw pod s.mem ((A v).length + n) a
  | .resize v n a => Raw pod (s.release (.user v)).mem n a
  | .assign v w a => Raw pod (s.release (.user v)).mem (A w).length a
  | .set v i _ => i < (A v).length
  | .setElem v i w j => i < (A v).length ∧ j < (A w).length
  | .pushBack v _ a => Raw pod s.mem ((A v).length + 1) a
  | .pushBackElem v w j a => j < (A w).length ∧ Raw pod s.mem ((A v).length + 1) a ∧ (v = w → (A v).length < capacity s v)
  | _ => True

/-- the effect of an operation on mathematical sequences; `cap` is the capacity before.  A value `none` is not specified: elements
that are added by the constructor, `extend` or `resize` are arbitrary (when `pod` is false they are objects), and so are all the
elements after `resize` to a size greater than the capacity. -/
def Op.Spec (pod : Bool) (cap : ℕ → ℕ) (A A' : ℕ → List (Option α)) : Op α → Prop
  | .ctor v n _ => ∃ l, l.length = n ∧ A' = Function.update A v l
  | .destroy v => A' = Function.update A v []
  | .extend v n _ => ∃ l, l.length = n ∧ A' = Function.update A v (A v ++ l)
  | .resize v n _ => ∃ l, l.length = n ∧ (n ≤ cap v → ∀ i, i < n → i < (A v).length → l[i]? = (A v)[i]?) ∧ A' = Function.update A v l
  | .clear v => A' = Function.update A v []
  | .swap v w => A' = Function.update (Function.update A v (A w)) w (A v)
  | .assign v w _ => A' = Function.update A v (A w)
  | .set v i x => A' = Function.update A v ((A v).set i (some x))
  | .setElem v i w j => ∃ x, (A w)[j]? = some x ∧ A' = Function.update A v ((A v).set i x)
  | .pushBack v x _ => A' = Function.update A v (A v ++ [some x])
  | .pushBackElem v w j _ => ∃ x, (A w)[j]? = some x ∧ A' = Function.update A v (A v ++ [x])

/-- the operations that can make the capacity of `u` smaller -/
def Op.Shrinks (u : ℕ) : Op α → Prop
  | .ctor v _ _ | .destroy v | .clear v => v = u
  | .swap v w => v = u ∨ w = u
  | _ => False

/-- the states that can be reached by valid operations, starting with no vectors -/
inductive Reach (pod : Bool) (d : α) : Heap (Option α) → Prop
  | init : Reach pod d Heap.init
  | step {s : Heap (Option α)} {op : Op α} : Reach pod d s → op.Valid pod s (seq s) → Reach pod d (exec pod d op s)

end CppAD.Util.Pod
