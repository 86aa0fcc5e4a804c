import Verif.Util.While
import Mathlib.Data.List.Perm.Basic
import Mathlib.Data.List.Nodup
import Mathlib.Algebra.BigOperators.Group.List.Basic
import Mathlib.Tactic.Linarith
import Mathlib.Tactic.Ring
import Mathlib.Tactic.NormNum

/-! # thread_alloc (property C28)

Model of cppad/utility/thread_alloc.hpp.  Addresses are natural numbers, zero is the null pointer.  The header `block_t` of a
block of memory is at its address, the memory for the user starts `hdr` bytes after it.  The system allocator is not
modelled; its contract (`SysFresh`) is that `operator new` returns memory that does not overlap memory which
is allocated.  Simplifications: unlimited `size_t` for counts and addresses; the memory for the `thread_alloc_info`
records themselves is not modelled; tracing is not modelled.  One call is one step: while in parallel mode calls of different
threads access different data (see `frame`). -/

namespace CppAD.Alloc

/-- compile time constants -/
structure Cfg where
  /-- std::numeric_limits<size_t>::max() -/
  maxSize : ℕ
  /-- CPPAD_MIN_DOUBLE_CAPACITY * sizeof(double), thread_alloc.hpp:93 -/
  firstCap : ℕ
  /-- sizeof(block_t) -/
  hdr : ℕ
  /-- CPPAD_MAX_NUM_THREADS -/
  maxThreads : ℕ
  /-- NDEBUG is not defined and CPPAD_DEBUG_AND_RELEASE is zero: in use lists are maintained -/
  debug : Bool
  hdr_pos : 0 < hdr

/-- thread_alloc.hpp:94-99: the capacities that are recorded starting at `cap` -/
def capsFrom (limit cap : ℕ) : List ℕ :=
  if h : 0 < cap ∧ cap < limit then cap :: capsFrom limit (3 * ((cap + 1) / 2)) else []
termination_by limit - cap
decreasing_by omega

/-- thread_alloc.hpp:86-101: `capacity_info()->value[0 .. number-1]` -/
def Cfg.caps (cfg : Cfg) : List ℕ := capsFrom (cfg.maxSize / 2) cfg.firstCap

/-- `capacity_info()->number` -/
def Cfg.num (cfg : Cfg) : ℕ := cfg.caps.length

/-- `capacity_info()->value[c]` -/
def Cfg.cap (cfg : Cfg) (c : ℕ) : ℕ := cfg.caps.getD c 0

/-- thread_alloc.hpp:131-145 -/
structure Info where
  inuse : ℕ
  avail : ℕ
  rootAvail : ℕ → ℕ
  rootInuse : ℕ → ℕ

/-- thread_alloc.hpp:233-239: the values set when a record is created -/
def Info.zero : Info := ⟨0, 0, fun _ => 0, fun _ => 0⟩

/-- state of the allocator and of the memory; `live` is the memory that was obtained from the system (address, size) -/
structure State where
  live : List (ℕ × ℕ)
  tc : ℕ → ℕ
  next : ℕ → ℕ
  info : ℕ → Option Info
  hold : Bool

/-- initial values of the static variables, thread_alloc.hpp:161, 194 -/
def State.init : State := ⟨[], fun _ => 0, fun _ => 0, fun _ => none, false⟩

instance : Nonempty State := ⟨State.init⟩

/-- thread_alloc.hpp:191-242: the record for a thread, created when it does not exist -/
def State.getInfo (s : State) (t : ℕ) : Info := (s.info t).getD Info.zero

def State.setInfo (s : State) (t : ℕ) (i : Info) : State := { s with info := Function.update s.info t (some i) }

/-- `node` is the address of memory that was obtained from the system -/
def State.isLive (s : State) (node : ℕ) : Bool := s.live.any fun x => x.1 == node

/-- `::operator delete` -/
def State.sysDelete (s : State) (node : ℕ) : State := { s with live := s.live.filter fun x => x.1 ≠ node }

/-- how a call can fail: CPPAD_ASSERT_KNOWN (error by the user), CPPAD_ASSERT_UNKNOWN (error in CppAD), or access to memory
that is not allocated -/
inductive Err
  | user | assert | badAccess
deriving DecidableEq

/-- thread_alloc.hpp:753-865.  `thread` is thread_num(); `a` is the address that `operator new` returns if it is called.
Result: pointer, cap_bytes. -/
def getMemory (cfg : Cfg) (thread minBytes a : ℕ) (s : State) : Except Err (ℕ × ℕ × State) :=
  if ¬ minBytes < cfg.maxSize / 2 then .error .user
  else
    let cIndex := cfg.caps.findIdx fun v => ¬ v < minBytes
    if ¬ cIndex < cfg.num then .error .assert
    else
      let capBytes := cfg.cap cIndex
      let tcIndex := thread * cfg.num + cIndex
      let info := s.getInfo thread
      let node := info.rootAvail cIndex
      if node ≠ 0 then
        if ! s.isLive node then .error .badAccess
        else if s.tc node ≠ tcIndex then .error .assert
        else if info.avail < capBytes then .error .assert
        else
          let info := { info with rootAvail := Function.update info.rootAvail cIndex (s.next node) }
          let s := if cfg.debug then { s with next := Function.update s.next node (info.rootInuse cIndex) } else s
          let info := if cfg.debug then { info with rootInuse := Function.update info.rootInuse cIndex node } else info
          let info := { info with inuse := info.inuse + capBytes, avail := info.avail - capBytes }
          .ok (node + cfg.hdr, capBytes, s.setInfo thread info)
      else
        let node := a
        let s := { s with live := (node, cfg.hdr + capBytes) :: s.live, tc := Function.update s.tc node tcIndex }
        let s := if cfg.debug then { s with next := Function.update s.next node (info.rootInuse cIndex) } else s
        let info := if cfg.debug then { info with rootInuse := Function.update info.rootInuse cIndex node } else info
        let info := { info with inuse := info.inuse + capBytes }
        .ok (node + cfg.hdr, capBytes, s.setInfo thread info)

/-- `previous->next_` where `previous` is the root (`none`) or a node -/
def nextOf (s : State) (info : Info) (c : ℕ) : Option ℕ → ℕ
  | none => info.rootInuse c
  | some p => s.next p

/-- thread_alloc.hpp:952-954: search the in use list -/
noncomputable def findPrev (s : State) (info : Info) (c node : ℕ) : Option ℕ :=
  whileLoop (fun prev => nextOf s info c prev != 0 && nextOf s info c prev != node)
    (fun prev => some (nextOf s info c prev)) none

/-- thread_alloc.hpp:984-998, the end of return_memory -/
def finishReturn (cfg : Cfg) (node thread cIndex : ℕ) (s : State) (info : Info) : Except Err State :=
  let capacity := cfg.cap cIndex
  if info.inuse < capacity then .error .assert
  else
    let info := { info with inuse := info.inuse - capacity }
    if ! s.hold then .ok ((s.setInfo thread info).sysDelete node)
    else
      let s := { s with next := Function.update s.next node (info.rootAvail cIndex) }
      let info := { info with rootAvail := Function.update info.rootAvail cIndex node, avail := info.avail + capacity }
      .ok (s.setInfo thread info)

/-- thread_alloc.hpp:930-999.  `cur` is thread_num() and `par` is in_parallel() -/
noncomputable def returnMemory (cfg : Cfg) (cur : ℕ) (par : Bool) (ptr : ℕ) (s : State) : Except Err State :=
  let node := ptr - cfg.hdr
  if ! s.isLive node then .error .badAccess
  else
    let tcIndex := s.tc node
    let thread := tcIndex / cfg.num
    let cIndex := tcIndex % cfg.num
    if ¬ thread < cfg.maxThreads then .error .assert
    else if thread ≠ cur ∧ par = true then .error .user
    else
      let info := s.getInfo thread
      if cfg.debug then
        let prev := findPrev s info cIndex node
        if nextOf s info cIndex prev ≠ node then .error .user
        else match prev with
          | none => finishReturn cfg node thread cIndex s
              { info with rootInuse := Function.update info.rootInuse cIndex (s.next node) }
          | some p => finishReturn cfg node thread cIndex { s with next := Function.update s.next p (s.next node) } info
      else finishReturn cfg node thread cIndex s info

/-- thread_alloc.hpp:1073-1080: one pass of the loop; the state is (state, count_available_, v_ptr, failed) -/
def freeStep (capacity : ℕ) (x : State × ℕ × ℕ × Bool) : State × ℕ × ℕ × Bool :=
  let node := x.2.2.1
  if ! x.1.isLive node then (x.1, x.2.1, x.2.2.1, true)
  else if x.2.1 < capacity then (x.1, x.2.1, x.2.2.1, true)
  else (x.1.sysDelete node, x.2.1 - capacity, x.1.next node, false)

/-- thread_alloc.hpp:1070-1081: free the blocks with one capacity -/
noncomputable def freeCap (cfg : Cfg) (thread : ℕ) (s : State) (cIndex : ℕ) : Except Err State :=
  let info := s.getInfo thread
  let x := whileLoop (fun x => x.2.2.1 != 0 && !x.2.2.2) (freeStep (cfg.cap cIndex))
    (s, info.avail, info.rootAvail cIndex, false)
  if x.2.2.2 then .error .badAccess
  else .ok (x.1.setInfo thread
    { info with avail := x.2.1, rootAvail := Function.update info.rootAvail cIndex 0 })

/-- thread_alloc.hpp:1052-1088 -/
noncomputable def freeAvailable (cfg : Cfg) (cur : ℕ) (par : Bool) (thread : ℕ) (s : State) : Except Err State :=
  if ¬ thread < cfg.maxThreads then .error .user
  else if thread ≠ cur ∧ par = true then .error .user
  else do
    let s ← (List.range cfg.num).foldlM (freeCap cfg thread) s
    if (s.getInfo thread).avail ≠ 0 then .error .assert
    else if (s.getInfo thread).inuse = 0 then .ok { s with info := Function.update s.info thread none }
    else .ok s

/-- thread_alloc.hpp:1188-1196 -/
def inuse (s : State) (thread : ℕ) : ℕ := (s.getInfo thread).inuse

/-- thread_alloc.hpp:1243-1251 -/
def available (s : State) (thread : ℕ) : ℕ := (s.getInfo thread).avail

/-- thread_alloc.hpp:1130-1133 -/
def holdMemory (value : Bool) (s : State) : State := { s with hold := value }

/-- thread_alloc.hpp:1502-1514; `cur` is thread_num() and execution is sequential -/
noncomputable def freeAll (cfg : Cfg) (cur : ℕ) (s : State) : Except Err (Bool × State) :=
  (List.range cfg.maxThreads).reverse.foldlM (fun x t => do
    let s ← freeAvailable cfg cur false t x.2
    pure (x.1 && (inuse x.2 t == 0), s)) (true, s)

/-! ## Specification -/

/-- a block of memory as a user sees it: where it starts, the thread it was allocated for and its number of bytes -/
structure Blk where
  ptr : ℕ
  thread : ℕ
  cap : ℕ
deriving DecidableEq

/-- what is known from the history of calls: the blocks that are in use, those that are held for quick use, and the current
hold_memory setting -/
structure Hist where
  used : List Blk
  held : List Blk
  hold : Bool

/-- calls by the user of thread_alloc -/
inductive Call
  /-- thread_num() is `t`; `a` is the address which the system allocator returns if it is called -/
  | get (t minBytes a : ℕ)
  | ret (cur : ℕ) (par : Bool) (ptr : ℕ)
  | hold (value : Bool)
  | free (cur : ℕ) (par : Bool) (t : ℕ)
  | freeAll (cur : ℕ)

/-- values returned by the calls -/
inductive Out
  | mem (ptr cap : ℕ) | none | bool (b : Bool)

/-- execution of a call -/
noncomputable def exec (cfg : Cfg) (s : State) : Call → Except Err (Out × State)
  | .get t m a => (getMemory cfg t m a s).map fun x => (.mem x.1 x.2.1, x.2.2)
  | .ret cur par ptr => (returnMemory cfg cur par ptr s).map fun s => (.none, s)
  | .hold v => .ok (.none, holdMemory v s)
  | .free cur par t => (freeAvailable cfg cur par t s).map fun s => (.none, s)
  | .freeAll cur => (freeAll cfg cur s).map fun x => (.bool x.1, x.2)

/-- contract of `operator new`: memory that does not overlap memory obtained before -/
def SysFresh (s : State) (a size : ℕ) : Prop :=
  0 < a ∧ ∀ x ∈ s.live, a + size ≤ x.1 ∨ x.1 + x.2 ≤ a

/-- the smallest capacity that is sufficient for a request -/
def Cfg.capFor (cfg : Cfg) (minBytes : ℕ) : ℕ := (cfg.caps.find? fun v => minBytes ≤ v).getD 0

/-- the requirements on the user in the documentation of the functions; the number of bytes must not
exceed the largest capacity (see `request_too_large`) -/
def Call.Valid (cfg : Cfg) (s : State) (h : Hist) : Call → Prop
  | .get t m a => t < cfg.maxThreads ∧ (∃ v ∈ cfg.caps, m ≤ v) ∧ SysFresh s a (cfg.hdr + cfg.capFor m)
  | .ret cur par ptr => ∃ b ∈ h.used, b.ptr = ptr ∧ (par = true → b.thread = cur)
  | .hold _ => True
  | .free cur par t => t < cfg.maxThreads ∧ (par = true → t = cur)
  | .freeAll _ => True

/-- how a call changes what is known from the history -/
def Hist.update (h : Hist) : Call → Out → Hist
  | .get t _ _, .mem p c => { h with used := ⟨p, t, c⟩ :: h.used, held := h.held.filter fun b => b.ptr ≠ p }
  | .ret _ _ p, _ => { h with
      used := h.used.filter fun b => b.ptr ≠ p
      held := if h.hold then h.used.filter (fun b => b.ptr = p) ++ h.held else h.held }
  | .hold v, _ => { h with hold := v }
  | .free _ _ t, _ => { h with held := h.held.filter fun b => b.thread ≠ t }
  | .freeAll _, _ => { h with held := [] }
  | _, _ => h

/-- the states, and what is known from the history, after every sequence of valid calls -/
inductive Reach (cfg : Cfg) : State → Hist → Prop
  | init : Reach cfg State.init ⟨[], [], false⟩
  | step {s h call out s'} : Reach cfg s h → call.Valid cfg s h → exec cfg s call = .ok (out, s') →
      Reach cfg s' (h.update call out)

/-- number of bytes in the blocks of a list that belong to a thread -/
def total (l : List Blk) (t : ℕ) : ℕ := ((l.filter fun b => b.thread = t).map fun b => b.cap).sum

/-- the memory of two blocks does not overlap -/
def Blk.Disjoint (b c : Blk) : Prop := b.ptr + b.cap ≤ c.ptr ∨ c.ptr + c.cap ≤ b.ptr

end CppAD.Alloc
