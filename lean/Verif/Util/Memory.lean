import Verif.Taylor.Loop
import Mathlib.Tactic.Linarith

/-! # Memory for the vector classes (used by C32 and C33)

Blocks of memory that hold arrays, and headers of vectors that point to blocks.  `ok` records that every access so far was to an
element of a block that is allocated, and that every block that was freed was allocated.  The contract of the allocator
(property C28) is in `Alloc.Fresh`. -/

namespace CppAD.Util

/-- arrays of `β`: `size p` is the number of elements of the array at `p` (zero when `p` is not allocated) -/
structure Mem (β : Type) where
  size : ℕ → ℕ
  val : ℕ → ℕ → β
  ok : Bool

/-- what an allocation returns: address, number of elements (thread_alloc.hpp:1352-1372, `size_out`), initial values -/
structure Alloc (β : Type) where
  ptr : ℕ
  cap : ℕ
  init : ℕ → β

/-- an allocation of (at least) `n` elements is given a block that is not in use  and is not smaller than requested
(C28: `Alloc.get_memory_ok`) -/
def Alloc.Fresh {β : Type} (m : Mem β) (n : ℕ) (a : Alloc β) : Prop := m.size a.ptr = 0 ∧ n ≤ a.cap

variable {β : Type}

/-- allocation of a block -/
def Mem.create (m : Mem β) (a : Alloc β) : Mem β :=
  ⟨Function.update m.size a.ptr a.cap, Function.update m.val a.ptr a.init, m.ok⟩

/-- return of a block, which must be allocated -/
def Mem.free (m : Mem β) (p : ℕ) : Mem β :=
  ⟨Function.update m.size p 0, m.val, m.ok && decide (0 < m.size p)⟩

/-- `p[i] = x` -/
def Mem.wr (m : Mem β) (p i : ℕ) (x : β) : Mem β :=
  ⟨m.size, Function.update m.val p (Function.update (m.val p) i x), m.ok && decide (i < m.size p)⟩

/-- `p[i] = q[j]` -/
def Mem.cp (m : Mem β) (p i q j : ℕ) : Mem β :=
  ⟨m.size, Function.update m.val p (Function.update (m.val p) i (m.val q j)),
    m.ok && decide (i < m.size p) && decide (j < m.size q)⟩

/-- header of a vector: capacity in elements of the array, length, pointer -/
structure Hdr where
  cap : ℕ
  len : ℕ
  ptr : ℕ

/-- names of vectors: variables of the program, the local variable `vec` of push_back and push_vector, and the local pointer
`old_data` of resize (which is kept as a header with its capacity and length) -/
inductive Var
  | user (v : ℕ)
  | vec
  | old
deriving DecidableEq

/-- the memory and the vectors -/
structure Heap (β : Type) where
  mem : Mem β
  var : Var → Hdr

/-- no vector has memory -/
def Heap.init [Inhabited β] : Heap β := ⟨⟨fun _ => 0, fun _ _ => default, true⟩, fun _ => ⟨0, 0, 0⟩⟩

/-- the `i`-th element of the array of the vector `v` -/
def Heap.el (s : Heap β) (v : Var) (i : ℕ) : β := s.mem.val (s.var v).ptr i

def Heap.setVar (s : Heap β) (v : Var) (h : Hdr) : Heap β := { s with var := Function.update s.var v h }

/-- Memory invariant: accesses were good, each vector with capacity owns the block it points to, and every
allocated block is owned by one vector (no leak, no sharing). -/
structure Heap.Inv (s : Heap β) : Prop where
  ok : s.mem.ok = true
  own : ∀ v, 0 < (s.var v).cap → s.mem.size (s.var v).ptr = (s.var v).cap
  sep : ∀ v w, v ≠ w → 0 < (s.var v).cap → 0 < (s.var w).cap → (s.var v).ptr ≠ (s.var w).ptr
  leak : ∀ p, 0 < s.mem.size p → ∃ v, 0 < (s.var v).cap ∧ (s.var v).ptr = p

theorem Heap.init_inv [Inhabited β] : (Heap.init : Heap β).Inv :=
  ⟨rfl, fun v h => by simp [Heap.init] at h, fun v w _ h => by simp [Heap.init] at h, fun p h => by simp [Heap.init] at h⟩

/-- `delete_data(data_)` when there is memory, and capacity zero (the destructor of both vector classes; the value of the
pointer is not used while the capacity is zero) -/
def Heap.release (s : Heap β) (v : Var) : Heap β :=
  { mem := if 0 < (s.var v).cap then s.mem.free (s.var v).ptr else s.mem
    var := Function.update s.var v ⟨0, 0, (s.var v).ptr⟩ }

/-- `std::swap` of all the members of two headers -/
def Heap.swapVar (s : Heap β) (v w : Var) : Heap β :=
  { s with var := Function.update (Function.update s.var v (s.var w)) w (s.var v) }

theorem Heap.release_inv {s : Heap β} (h : s.Inv) (v : Var) : (s.release v).Inv := by
  have hv : ((s.release v).var v).cap = 0 := by simp [release]
  have hne : ∀ w, w ≠ v → (s.release v).var w = s.var w := fun w hw => by simp [release, hw]
  have hc : ∀ w, 0 < ((s.release v).var w).cap → w ≠ v := fun w hw e => by subst e; omega
  refine ⟨?_, ?_, ?_, ?_⟩
  · unfold release
    by_cases h0 : 0 < (s.var v).cap
    · simp only [h0, if_true, Mem.free]
      rw [h.ok, h.own v h0]; simpa using h0
    · simp only [h0, if_false]; exact h.ok
  · intro w hw
    have := hc w hw
    rw [hne w this] at hw ⊢
    rw [← h.own w hw]
    unfold release
    by_cases h0 : 0 < (s.var v).cap
    · simp only [h0, if_true, Mem.free]
      rw [Function.update_of_ne (h.sep w v this hw h0)]
    · simp only [h0, if_false]
  · intro a b hab ha hb
    have ha' := hc a ha
    have hb' := hc b hb
    rw [hne a ha'] at ha ⊢
    rw [hne b hb'] at hb ⊢
    exact h.sep a b hab ha hb
  · intro p hp
    unfold release at hp
    by_cases h0 : 0 < (s.var v).cap
    · simp only [h0, if_true, Mem.free] at hp
      by_cases e : p = (s.var v).ptr
      · subst e; simp at hp
      · rw [Function.update_of_ne e] at hp
        obtain ⟨w, hw, ew⟩ := h.leak p hp
        have : w ≠ v := fun e' => e (by rw [← ew, e'])
        exact ⟨w, by rw [hne w this]; exact hw, by rw [hne w this]; exact ew⟩
    · simp only [h0, if_false] at hp
      obtain ⟨w, hw, ew⟩ := h.leak p hp
      have : w ≠ v := fun e' => h0 (by rw [← e']; exact hw)
      exact ⟨w, by rw [hne w this]; exact hw, by rw [hne w this]; exact ew⟩

theorem Heap.release_var {s : Heap β} {v w : Var} (h : w ≠ v) : (s.release v).var w = s.var w := by
  simp [release, h]

theorem Heap.release_self (s : Heap β) (v : Var) : (s.release v).var v = ⟨0, 0, (s.var v).ptr⟩ := by
  simp [release]

theorem Heap.release_val (s : Heap β) (v : Var) : (s.release v).mem.val = s.mem.val := by
  unfold release; dsimp only; split_ifs <;> rfl

theorem Heap.release_el {s : Heap β} {v w : Var} (h : w ≠ v) (i : ℕ) : (s.release v).el w i = s.el w i := by
  unfold el; rw [release_var h, release_val]

theorem Heap.swapVar_inv {s : Heap β} (h : s.Inv) (v w : Var) : (s.swapVar v w).Inv := by
  have key : ∀ u, (s.swapVar v w).var u = s.var (Equiv.swap v w u) := by
    intro u
    unfold swapVar
    by_cases e1 : u = w
    · subst e1; simp
    · by_cases e2 : u = v
      · subst e2; simp [e1]
      · simp [e1, e2, Equiv.swap_apply_of_ne_of_ne e2 e1]
  refine ⟨h.ok, fun u hu => ?_, fun a b hab ha hb => ?_, fun p hp => ?_⟩
  · rw [key] at hu ⊢; exact h.own _ hu
  · rw [key] at ha hb ⊢; rw [key]
    exact h.sep _ _ (fun e => hab ((Equiv.swap v w).injective e)) ha hb
  · obtain ⟨u, hu, e⟩ := h.leak p hp
    exact ⟨Equiv.swap v w u, by rw [key, Equiv.swap_apply_self]; exact hu, by rw [key, Equiv.swap_apply_self]; exact e⟩

theorem Heap.swapVar_left (s : Heap β) (v w : Var) : (s.swapVar v w).var v = s.var w := by
  unfold swapVar
  by_cases e : v = w
  · subst e; simp
  · simp [e]

theorem Heap.swapVar_right (s : Heap β) (v w : Var) : (s.swapVar v w).var w = s.var v := by
  unfold swapVar; simp

theorem Heap.swapVar_ne {s : Heap β} {v w u : Var} (h1 : u ≠ v) (h2 : u ≠ w) : (s.swapVar v w).var u = s.var u := by
  unfold swapVar; simp [h1, h2]

theorem Heap.swapVar_mem (s : Heap β) (v w : Var) : (s.swapVar v w).mem = s.mem := rfl

/-- changing only the length -/
theorem Heap.setLen_inv {s : Heap β} (h : s.Inv) (v : Var) (n : ℕ) :
    (s.setVar v { s.var v with len := n }).Inv := by
  have key : ∀ u, ((s.setVar v { s.var v with len := n }).var u).cap = (s.var u).cap ∧
      ((s.setVar v { s.var v with len := n }).var u).ptr = (s.var u).ptr := by
    intro u; unfold setVar
    by_cases e : u = v
    · subst e; simp
    · simp [e]
  refine ⟨h.ok, fun u hu => ?_, fun a b hab ha hb => ?_, fun p hp => ?_⟩
  · rw [(key u).1] at hu ⊢; rw [(key u).2]; exact h.own u hu
  · rw [(key a).1] at ha; rw [(key b).1] at hb; rw [(key a).2, (key b).2]; exact h.sep a b hab ha hb
  · obtain ⟨u, hu, e⟩ := h.leak p hp
    exact ⟨u, by rw [(key u).1]; exact hu, by rw [(key u).2]; exact e⟩

/-- new memory for a vector that has none -/
theorem Heap.create_inv {s : Heap β} (h : s.Inv) {v : Var} (hv : (s.var v).cap = 0) {n : ℕ} {a : Alloc β} (ha : a.Fresh s.mem n) (k : ℕ) :
    (Heap.Inv ⟨s.mem.create a, Function.update s.var v ⟨a.cap, k, a.ptr⟩⟩) := by
  have hp : ∀ u, 0 < (s.var u).cap → (s.var u).ptr ≠ a.ptr := by
    intro u hu e
    have := h.own u hu
    rw [e, ha.1] at this
    omega
  refine ⟨h.ok, fun u hu => ?_, fun x y hxy hx hy => ?_, fun p hp' => ?_⟩
  · simp only [Mem.create] at hu ⊢
    by_cases e : u = v
    · subst e; simp
    · simp only [Function.update_of_ne e] at hu ⊢
      rw [Function.update_of_ne (hp u hu)]; exact h.own u hu
  · simp only at hx hy ⊢
    by_cases e : x = v
    · subst e
      simp only [Function.update_self, Function.update_of_ne (Ne.symm hxy)] at hx hy ⊢
      exact (hp y hy).symm
    · by_cases e' : y = v
      · subst e'
        simp only [Function.update_self, Function.update_of_ne e] at hx hy ⊢
        exact hp x hx
      · simp only [Function.update_of_ne e, Function.update_of_ne e'] at hx hy ⊢
        exact h.sep x y hxy hx hy
  · simp only [Mem.create] at hp'
    by_cases e : p = a.ptr
    · subst e
      rw [Function.update_self] at hp'
      exact ⟨v, by simpa using hp', by simp⟩
    · rw [Function.update_of_ne e] at hp'
      obtain ⟨u, hu, eu⟩ := h.leak p hp'
      have : u ≠ v := fun e' => by rw [e', hv] at hu; omega
      exact ⟨u, by simpa [this] using hu, by simpa [this] using eu⟩

theorem Heap.create_val_ne {s : Heap β} (h : s.Inv) {n : ℕ} {a : Alloc β} (ha : a.Fresh s.mem n) {u : Var} (hu : 0 < (s.var u).cap) (i : ℕ) :
    (s.mem.create a).val (s.var u).ptr i = s.mem.val (s.var u).ptr i := by
  have e : (s.var u).ptr ≠ a.ptr := by
    intro e
    have := h.own u hu
    rw [e, ha.1] at this
    omega
  simp [Mem.create, Function.update_of_ne e]

/-- writing an element of a vector -/
def Heap.wr (s : Heap β) (v : Var) (i : ℕ) (x : β) : Heap β := { s with mem := s.mem.wr (s.var v).ptr i x }

/-- copying an element of a vector to an element of a vector -/
def Heap.cp (s : Heap β) (v : Var) (i : ℕ) (w : Var) (j : ℕ) : Heap β :=
  { s with mem := s.mem.cp (s.var v).ptr i (s.var w).ptr j }

theorem Heap.wr_inv {s : Heap β} (h : s.Inv) {v : Var} {i : ℕ} (hi : i < (s.var v).cap) (x : β) : (s.wr v i x).Inv := by
  refine ⟨?_, h.own, h.sep, h.leak⟩
  have : (s.wr v i x).mem.ok = (s.mem.ok && decide (i < s.mem.size (s.var v).ptr)) := rfl
  rw [this, h.ok, h.own v (by omega)]
  simpa using hi

theorem Heap.cp_inv {s : Heap β} (h : s.Inv) {v w : Var} {i j : ℕ} (hi : i < (s.var v).cap) (hj : j < (s.var w).cap) :
    (s.cp v i w j).Inv := by
  refine ⟨?_, h.own, h.sep, h.leak⟩
  have : (s.cp v i w j).mem.ok = (s.mem.ok && decide (i < s.mem.size (s.var v).ptr) &&
    decide (j < s.mem.size (s.var w).ptr)) := rfl
  rw [this, h.ok, h.own v (by omega), h.own w (by omega)]
  simp [hi, hj]

theorem Heap.wr_var (s : Heap β) (v : Var) (i : ℕ) (x : β) : (s.wr v i x).var = s.var := rfl
theorem Heap.cp_var (s : Heap β) (v : Var) (i : ℕ) (w : Var) (j : ℕ) : (s.cp v i w j).var = s.var := rfl

theorem Heap.wr_el {s : Heap β} (h : s.Inv) {v : Var} {i : ℕ} (hi : i < (s.var v).cap) (x : β) {u : Var} {k : ℕ} (hk : k < (s.var u).cap) :
    (s.wr v i x).el u k = if u = v ∧ k = i then x else s.el u k := by
  show (s.mem.wr (s.var v).ptr i x).val (s.var u).ptr k = _
  unfold Mem.wr
  dsimp only
  by_cases e : u = v
  · subst e
    by_cases e2 : k = i
    · subst e2; simp
    · simp [e2, el]
  · rw [Function.update_of_ne (h.sep u v e (by omega) (by omega)), if_neg (fun c => e c.1)]
    rfl

theorem Heap.cp_eq (s : Heap β) (v : Var) (i : ℕ) (w : Var) (j : ℕ) :
    (s.cp v i w j).mem.val = (s.wr v i (s.el w j)).mem.val := rfl

theorem Heap.cp_el {s : Heap β} (h : s.Inv) {v : Var} {i : ℕ} (hi : i < (s.var v).cap) (w : Var) (j : ℕ) {u : Var} {k : ℕ} (hk : k < (s.var u).cap) :
    (s.cp v i w j).el u k = if u = v ∧ k = i then s.el w j else s.el u k := by
  rw [← wr_el h hi (s.el w j) hk]
  rfl

end CppAD.Util
