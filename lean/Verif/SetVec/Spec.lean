import Mathlib.Data.Finset.Sort
import Mathlib.Data.Finset.Lattice.Basic

/-!
# Specification: a vector of sets

What the C++ concept `SetVector` (include/cppad/local/sparse/setvector.xrst)
promises, written without reference to any implementation.

* A program uses any number of `SetVector` objects, named by natural numbers.
* `Cmd` is one call of a member function that changes an object.
* `Cmd.Pre` is the documented precondition of the call.
* `Cmd.run` is its documented effect on the abstract state.
* `Impl` is an implementation; `Impl.run` executes a call on the concrete
  objects; `Impl.Correct` says that after every history of legal calls every
  query returns what the abstract state says.
-/

namespace CppAD.SetVec

/-- Abstract state of one `SetVector` object: `sets i` is the i-th set,
`posts i` the elements posted to it and not yet processed. -/
structure Abs where
  nSet : ℕ
  last : ℕ
  sets : ℕ → Finset ℕ
  posts : ℕ → Finset ℕ

/-- state after the default constructor -/
def Abs.fresh : Abs := ⟨0, 0, fun _ => ∅, fun _ => ∅⟩

/-- replace the i-th set, dropping what was posted to it -/
def Abs.put (a : Abs) (i : ℕ) (s : Finset ℕ) : Abs :=
  { a with sets := Function.update a.sets i s, posts := Function.update a.posts i ∅ }

/-- A call of a member function of object number `o` (`vec` in the
documentation); `p` is the object passed as `other`, possibly `o` itself. -/
inductive Cmd
  | resize (o n e : ℕ)
  | add (o i x : ℕ)
  | post (o i x : ℕ)
  | process (o i : ℕ)
  | clear (o i : ℕ)
  | assignment (o target source p : ℕ)
  | union (o target left right p : ℕ)
  | inter (o target left right p : ℕ)
  | copy (o p : ℕ)
  | swap (o p : ℕ)

/-- documented preconditions (setvector.xrst) -/
def Cmd.Pre (a : ℕ → Abs) : Cmd → Prop
  | .resize _ n e => n = 0 → e = 0
  | .add o i x => i < (a o).nSet ∧ x < (a o).last
  | .post o i x => i < (a o).nSet ∧ x < (a o).last
  | .process o i => i < (a o).nSet
  | .clear o i => i < (a o).nSet
  | .assignment o t s p =>
      t < (a o).nSet ∧ s < (a p).nSet ∧ (a o).last = (a p).last ∧ (a p).posts s = ∅
  | .union o t l r p =>
      t < (a o).nSet ∧ l < (a o).nSet ∧ r < (a p).nSet ∧ (a o).last = (a p).last ∧
      (a o).posts l = ∅ ∧ (a p).posts r = ∅
  | .inter o t l r p =>
      t < (a o).nSet ∧ l < (a o).nSet ∧ r < (a p).nSet ∧ (a o).last = (a p).last ∧
      (a o).posts l = ∅ ∧ (a p).posts r = ∅
  | .copy _ _ => True
  | .swap _ _ => True

/-- documented effects (setvector.xrst) -/
def Cmd.run (a : ℕ → Abs) : Cmd → (ℕ → Abs)
  | .resize o n e => Function.update a o ⟨n, e, fun _ => ∅, fun _ => ∅⟩
  | .add o i x => Function.update a o
      { a o with sets := Function.update (a o).sets i (insert x ((a o).sets i)) }
  | .post o i x => Function.update a o
      { a o with posts := Function.update (a o).posts i (insert x ((a o).posts i)) }
  | .process o i => Function.update a o ((a o).put i ((a o).sets i ∪ (a o).posts i))
  | .clear o i => Function.update a o ((a o).put i ∅)
  | .assignment o t s p => Function.update a o ((a o).put t ((a p).sets s))
  | .union o t l r p => Function.update a o ((a o).put t ((a o).sets l ∪ (a p).sets r))
  | .inter o t l r p => Function.update a o ((a o).put t ((a o).sets l ∩ (a p).sets r))
  | .copy o p => Function.update a o (a p)
  | .swap o p => Function.update (Function.update a o (a p)) p (a o)

/-- every call of the history satisfies its precondition when it is made -/
def Legal : (ℕ → Abs) → List Cmd → Prop
  | _, [] => True
  | a, c :: cs => c.Pre a ∧ Legal (c.run a) cs

/-- abstract state after a history -/
def runAll (a : ℕ → Abs) (cs : List Cmd) : ℕ → Abs := cs.foldl Cmd.run a

/-- An implementation of the concept.  `none` in the place of `other` means
that `other` is the object itself (`this == &other`). -/
structure Impl (σ It : Type) where
  fresh : σ
  nSet : σ → ℕ
  last : σ → ℕ
  resize : σ → ℕ → ℕ → σ
  add : σ → ℕ → ℕ → σ
  post : σ → ℕ → ℕ → σ
  process : σ → ℕ → σ
  clear : σ → ℕ → σ
  assignment : σ → ℕ → ℕ → Option σ → σ
  union : σ → ℕ → ℕ → ℕ → Option σ → σ
  inter : σ → ℕ → ℕ → ℕ → Option σ → σ
  isElement : σ → ℕ → ℕ → Bool
  number : σ → ℕ → ℕ
  begin : σ → ℕ → It
  deref : σ → It → ℕ
  next : σ → It → It

/-- the object passed as `other`: itself, or a different one -/
def otherOf {σ : Type} (w : ℕ → σ) (o p : ℕ) : Option σ := if o = p then none else some (w p)

/-- execute one call -/
def Impl.run {σ It : Type} (I : Impl σ It) (w : ℕ → σ) : Cmd → (ℕ → σ)
  | .resize o n e => Function.update w o (I.resize (w o) n e)
  | .add o i x => Function.update w o (I.add (w o) i x)
  | .post o i x => Function.update w o (I.post (w o) i x)
  | .process o i => Function.update w o (I.process (w o) i)
  | .clear o i => Function.update w o (I.clear (w o) i)
  | .assignment o t s p => Function.update w o (I.assignment (w o) t s (otherOf w o p))
  | .union o t l r p => Function.update w o (I.union (w o) t l r (otherOf w o p))
  | .inter o t l r p => Function.update w o (I.inter (w o) t l r (otherOf w o p))
  | .copy o p => Function.update w o (w p)
  | .swap o p => Function.update (Function.update w o (w p)) p (w o)

/-- execute a history -/
def Impl.runAll {σ It : Type} (I : Impl σ It) (w : ℕ → σ) (cs : List Cmd) : ℕ → σ :=
  cs.foldl I.run w

/-- the value `*itr` after `k` increments of the iterator for the i-th set -/
def Impl.item {σ It : Type} (I : Impl σ It) (s : σ) (i k : ℕ) : ℕ :=
  I.deref s ((I.next s)^[k] (I.begin s i))

/-- The queries agree with the abstract state: the number of sets, the end
value, membership, and iteration, which visits the elements in increasing
order, each once, and then reports `end` for ever. -/
structure Impl.Agrees {σ It : Type} (I : Impl σ It) (s : σ) (a : Abs) : Prop where
  nSet : I.nSet s = a.nSet
  last : I.last s = a.last
  isElement : ∀ i < a.nSet, a.posts i = ∅ → ∀ x < a.last,
    (I.isElement s i x = true ↔ x ∈ a.sets i)
  item : ∀ i < a.nSet, a.posts i = ∅ → ∀ k,
    I.item s i k = ((a.sets i).sort (· ≤ ·)).getD k a.last

/-- `number_elements` agrees with the abstract state -/
def Impl.NumberAgrees {σ It : Type} (I : Impl σ It) (s : σ) (a : Abs) : Prop :=
  ∀ i < a.nSet, a.posts i = ∅ → I.number s i = (a.sets i).card

/-- `R` is preserved by every member function; `P` is an additional
condition on the calls of `resize`. -/
structure Impl.Refines {σ It : Type} (I : Impl σ It) (R : σ → Abs → Prop) (P : ℕ → ℕ → Prop) :
    Prop where
  resize : ∀ n e s a, P n e → (n = 0 → e = 0) → R s a →
      R (I.resize s n e) ⟨n, e, fun _ => ∅, fun _ => ∅⟩
  add : ∀ i x s a, i < a.nSet → x < a.last → R s a →
      R (I.add s i x) { a with sets := Function.update a.sets i (insert x (a.sets i)) }
  post : ∀ i x s a, i < a.nSet → x < a.last → R s a →
      R (I.post s i x) { a with posts := Function.update a.posts i (insert x (a.posts i)) }
  process : ∀ i s a, i < a.nSet → R s a → R (I.process s i) (a.put i (a.sets i ∪ a.posts i))
  clear : ∀ i s a, i < a.nSet → R s a → R (I.clear s i) (a.put i ∅)
  assign : ∀ t v s a, t < a.nSet → v < a.nSet → a.posts v = ∅ → R s a →
      R (I.assignment s t v none) (a.put t (a.sets v))
  assign' : ∀ t v s a s' a', t < a.nSet → v < a'.nSet → a.last = a'.last →
      a'.posts v = ∅ → R s a → R s' a' → R (I.assignment s t v (some s')) (a.put t (a'.sets v))
  union : ∀ t l r s a, t < a.nSet → l < a.nSet → r < a.nSet → a.posts l = ∅ → a.posts r = ∅ →
      R s a → R (I.union s t l r none) (a.put t (a.sets l ∪ a.sets r))
  union' : ∀ t l r s a s' a', t < a.nSet → l < a.nSet → r < a'.nSet → a.last = a'.last →
      a.posts l = ∅ → a'.posts r = ∅ → R s a → R s' a' →
      R (I.union s t l r (some s')) (a.put t (a.sets l ∪ a'.sets r))
  inter : ∀ t l r s a, t < a.nSet → l < a.nSet → r < a.nSet → a.posts l = ∅ → a.posts r = ∅ →
      R s a → R (I.inter s t l r none) (a.put t (a.sets l ∩ a.sets r))
  inter' : ∀ t l r s a s' a', t < a.nSet → l < a.nSet → r < a'.nSet → a.last = a'.last →
      a.posts l = ∅ → a'.posts r = ∅ → R s a → R s' a' →
      R (I.inter s t l r (some s')) (a.put t (a.sets l ∩ a'.sets r))

/-- all the sizes passed to `resize` satisfy `P` -/
def Sizes (P : ℕ → ℕ → Prop) : Cmd → Prop
  | .resize _ n e => P n e
  | _ => True

theorem upd_rel {σ : Type} {R : σ → Abs → Prop} {w : ℕ → σ} {a : ℕ → Abs}
    (h : ∀ o, R (w o) (a o)) (o : ℕ) {s : σ} {b : Abs} (hs : R s b) (o' : ℕ) :
    R (Function.update w o s o') (Function.update a o b o') := by
  by_cases ho : o' = o
  · subst ho; simpa using hs
  · rw [Function.update_of_ne ho, Function.update_of_ne ho]; exact h o'

theorem Impl.Refines.step {σ It : Type} {I : Impl σ It} {R : σ → Abs → Prop} {P : ℕ → ℕ → Prop}
    (hR : I.Refines R P) {w : ℕ → σ} {a : ℕ → Abs} (h : ∀ o, R (w o) (a o)) (c : Cmd)
    (hP : Sizes P c) (hpre : c.Pre a) (o : ℕ) : R (I.run w c o) (c.run a o) := by
  cases c with
  | resize q n e => exact upd_rel h q (hR.resize n e (w q) (a q) hP hpre (h q)) o
  | add q i x => exact upd_rel h q (hR.add i x (w q) (a q) hpre.1 hpre.2 (h q)) o
  | post q i x => exact upd_rel h q (hR.post i x (w q) (a q) hpre.1 hpre.2 (h q)) o
  | process q i => exact upd_rel h q (hR.process i (w q) (a q) hpre (h q)) o
  | clear q i => exact upd_rel h q (hR.clear i (w q) (a q) hpre (h q)) o
  | assignment q t v p =>
    obtain ⟨h1, h2, h3, h4⟩ := hpre
    refine upd_rel h q ?_ o
    by_cases hop : q = p
    · subst hop; simp only [otherOf, if_true]; exact hR.assign t v (w q) (a q) h1 h2 h4 (h q)
    · simp only [otherOf, if_neg hop]
      exact hR.assign' t v (w q) (a q) (w p) (a p) h1 h2 h3 h4 (h q) (h p)
  | union q t l r p =>
    obtain ⟨h1, h2, h3, h4, h5, h6⟩ := hpre
    refine upd_rel h q ?_ o
    by_cases hop : q = p
    · subst hop; simp only [otherOf, if_true]
      exact hR.union t l r (w q) (a q) h1 h2 h3 h5 h6 (h q)
    · simp only [otherOf, if_neg hop]
      exact hR.union' t l r (w q) (a q) (w p) (a p) h1 h2 h3 h4 h5 h6 (h q) (h p)
  | inter q t l r p =>
    obtain ⟨h1, h2, h3, h4, h5, h6⟩ := hpre
    refine upd_rel h q ?_ o
    by_cases hop : q = p
    · subst hop; simp only [otherOf, if_true]
      exact hR.inter t l r (w q) (a q) h1 h2 h3 h5 h6 (h q)
    · simp only [otherOf, if_neg hop]
      exact hR.inter' t l r (w q) (a q) (w p) (a p) h1 h2 h3 h4 h5 h6 (h q) (h p)
  | copy q p => exact upd_rel h q (h p) o
  | swap q p => exact upd_rel (upd_rel h q (h p)) p (h q) o

/-- a relation preserved by every call holds after every legal history -/
theorem Impl.Refines.all {σ It : Type} {I : Impl σ It} {R : σ → Abs → Prop} {P : ℕ → ℕ → Prop}
    (hR : I.Refines R P) (cs : List Cmd) (hP : ∀ c ∈ cs, Sizes P c) (w : ℕ → σ) (a : ℕ → Abs)
    (h : ∀ o, R (w o) (a o)) (hl : Legal a cs) :
    ∀ o, R (I.runAll w cs o) (SetVec.runAll a cs o) := by
  induction cs generalizing w a with
  | nil => exact h
  | cons c cs ih =>
    exact ih (fun c hc => hP c (by simp [hc])) _ _
      (fun o => hR.step h c (hP c (by simp)) hl.1 o) hl.2

end CppAD.SetVec
