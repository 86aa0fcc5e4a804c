import Mathlib.Data.List.Basic
import Mathlib.Data.List.Induction
import Mathlib.Logic.Function.Basic

/-!
# `ErrorHandler`

include/cppad/utility/error_handler.hpp.  A handler is an arbitrary value
of a type `H` (the function pointer).  The program has one static variable
`current` (lines 205-226) and each `ErrorHandler` object, identified by its
address, has one constant member `previous` (line 174).

The handlers are assumed to be constructed and destroyed in sequential
mode (the calls for `set_get_in_parallel()` in the constructor and
destructor only report an error).
-/

namespace CppAD.ErrHandler

/-- error_handler.hpp:174 and 205-226: the static variable and the member of every object -/
structure State (H : Type) where
  current : H
  previous : ℕ → H

variable {H : Type}

/-- error_handler.hpp:137-148: constructor of the object with address `a` -/
def construct (s : State H) (a : ℕ) (h : H) : State H :=
  let s := { s with previous := Function.update s.previous a s.current }
  { s with current := h }

/-- error_handler.hpp:151-161: destructor of the object with address `a` -/
def destruct (s : State H) (a : ℕ) : State H := { s with current := s.previous a }

/-- error_handler.hpp:164-172: the handler that receives an error report -/
def call (s : State H) : H := s.current

/-- one step of the program -/
inductive Event (H : Type) where
  | construct (a : ℕ) (h : H)
  | destruct (a : ℕ)

def step (s : State H) : Event H → State H
  | .construct a h => construct s a h
  | .destruct a => destruct s a

/-- error_handler.hpp:206: before any object is constructed the current handler is `Default`; the
members of objects that do not exist have an arbitrary content -/
def run (dflt : H) (junk : ℕ → H) (es : List (Event H)) : State H := es.foldl step ⟨dflt, junk⟩

/-- Specification: the objects that are alive after a history, the most recently constructed first,
with the handler given to the constructor. `none`: the history is not a nesting (a live object is
constructed again, or an object that is not the most recently constructed live one is destroyed). -/
def live : List (Event H) → Option (List (ℕ × H))
  | es => es.foldl (fun l e => l.bind fun l =>
      match e with
      | .construct a h => if a ∈ l.map Prod.fst then none else some ((a, h) :: l)
      | .destruct a => match l with
        | [] => none
        | (b, _) :: l => if a = b then some l else none) (some [])

/-- The invariant: the chain of `previous` members -/
def Chain (dflt : H) : State H → List (ℕ × H) → Prop
  | s, [] => s.current = dflt
  | s, (a, h) :: l => s.current = h ∧ Chain dflt { s with current := s.previous a } l

theorem chain_update (dflt : H) (l : List (ℕ × H)) (c : H) (p : ℕ → H) (a : ℕ) (v : H) (ha : a ∉ l.map Prod.fst) :
    Chain dflt ⟨c, p⟩ l → Chain dflt ⟨c, Function.update p a v⟩ l := by
  induction l generalizing c with
  | nil => exact id
  | cons x l ih =>
    obtain ⟨b, h⟩ := x
    simp only [List.map_cons, List.mem_cons, not_or] at ha
    rintro ⟨h1, h2⟩
    refine ⟨h1, ?_⟩
    dsimp only
    rw [Function.update_of_ne (Ne.symm ha.1)]
    exact ih _ ha.2 h2

theorem chain_run (dflt : H) (junk : ℕ → H) (es : List (Event H)) (l : List (ℕ × H)) (h : live es = some l) :
    Chain dflt (run dflt junk es) l := by
  induction es using List.reverseRecOn generalizing l with
  | nil => simp only [live, List.foldl_nil, Option.some.injEq] at h; subst h; rfl
  | append_singleton es e ih =>
    unfold live at h
    unfold run
    rw [List.foldl_append] at h ⊢
    simp only [List.foldl_cons, List.foldl_nil] at h ⊢
    change (live es).bind _ = _ at h
    change Chain dflt (step (run dflt junk es) e) l
    obtain ⟨l', hl', h⟩ := Option.bind_eq_some_iff.1 h
    have ih := ih l' hl'
    cases e with
    | construct a x =>
      dsimp only at h
      split_ifs at h with hm
      cases h
      refine ⟨rfl, ?_⟩
      simp only [step, construct, Function.update_self]
      exact chain_update dflt l' _ _ a _ hm ih
    | destruct a =>
      dsimp only at h
      cases l' with
      | nil => cases h
      | cons x l' =>
        obtain ⟨b, y⟩ := x
        dsimp only at h
        split_ifs at h with hb
        cases h
        subst hb
        exact ih.2

/-- **C40**: for every nesting of handlers, an error is reported to the most recently constructed
live handler, and to the default handler when there is none -/
theorem call_most_recent (dflt : H) (junk : ℕ → H) (es : List (Event H)) (l : List (ℕ × H)) (h : live es = some l) :
    call (run dflt junk es) = (l.map Prod.snd).headD dflt := by
  have := chain_run dflt junk es l h
  cases l with
  | nil => exact this
  | cons x l => exact this.1

/-- **C40**: destroying an object restores the handler that received the errors when it was
constructed, whatever balanced nesting was executed in between -/
theorem destruct_restores (dflt : H) (junk : ℕ → H) (es mid : List (Event H)) (a : ℕ) (h : H) (l : List (ℕ × H))
    (h1 : live es = some l) (h2 : live (es ++ [.construct a h] ++ mid ++ [.destruct a]) = some l) :
    call (run dflt junk (es ++ [.construct a h] ++ mid ++ [.destruct a])) = call (run dflt junk es) := by
  rw [call_most_recent _ _ _ _ h1, call_most_recent _ _ _ _ h2]

/-- a nesting of depth two with one object destroyed and its address used again -/
example : live [.construct 1 'a', .construct 2 'b', .destruct 2, .construct 2 'c', .construct 3 'd', .destruct 3]
    = some [(2, 'c'), (1, 'a')] := by decide

example : call (run '0' (fun _ => '?') [.construct 1 'a', .construct 2 'b', .destruct 2, .construct 2 'c', .construct 3 'd', .destruct 3])
    = 'c' := call_most_recent _ _ _ [(2, 'c'), (1, 'a')] (by decide)

end CppAD.ErrHandler
