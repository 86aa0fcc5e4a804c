import Verif.Record.Session

/-! # Tape identifiers and threads (property C08)

Every thread has its own tape and tape identifier.  The objects of type AD live in a memory that is shared by the threads.
A history is any sequence of calls, each executed by some thread.  The calls are those that
touch the identifiers: constructing, assigning and copying objects, the AD operations of Record/Model.lean,
Independent, Dependent and abort_recording. -/

open scoped Classical

namespace CppAD.Record.Threads

open CppAD CppAD.Record

/-- The static tables `tape_id_table` and `tape_table` (cppad/core/tape_link.hpp:40-71) and the AD objects in memory
(address to object).  The type of the identifiers is taken as unbounded: the assertions at tape_link.hpp:185-189 and
216-222 stop the program when it is exhausted. -/
structure G where
  idTable : ℕ → ℕ
  tape : ℕ → Option Rec
  obj : ℕ → AD

/-- start of the program: static storage is zero, objects are default constructed (ad_ctor.hpp:117-124) -/
def G.start (v : ℕ → ℝ) : G := ⟨fun _ => 0, fun _ => none, fun a => AD.con (v a)⟩

/-- Constant(x), cppad/core/con_dyn_var.hpp:93-100; `M` is CPPAD_MAX_NUM_THREADS -/
def G.constant (M : ℕ) (g : G) (x : AD) : Bool :=
  if x.tapeId = 0 then true else decide (x.tapeId ≠ g.idTable (x.tapeId % M))

/-- Dynamic(x), cppad/core/con_dyn_var.hpp:114-121 -/
def G.dynamic (M : ℕ) (g : G) (x : AD) : Bool :=
  if x.tapeId = 0 ∨ x.adType ≠ .dynamic then false else decide (x.tapeId = g.idTable (x.tapeId % M))

/-- Parameter(x), cppad/core/con_dyn_var.hpp:135-142 -/
def G.parameter (M : ℕ) (g : G) (x : AD) : Bool :=
  if x.tapeId = 0 ∨ x.adType = .dynamic then true else decide (x.tapeId ≠ g.idTable (x.tapeId % M))

/-- Variable(x), cppad/core/con_dyn_var.hpp:156-163 -/
def G.variable (M : ℕ) (g : G) (x : AD) : Bool :=
  if x.tapeId = 0 ∨ x.adType ≠ .variable then false else decide (x.tapeId = g.idTable (x.tapeId % M))

/-- identifier used by tape_manage(new_tape_manage) for this thread, cppad/core/tape_link.hpp:182-196 -/
def G.newId (M : ℕ) (g : G) (t : ℕ) : ℕ := if g.idTable t = 0 then t + M else g.idTable t

/-- tape_manage(delete_tape_manage) on thread `t`, cppad/core/tape_link.hpp:209-224 -/
def G.delete (M : ℕ) (g : G) (t : ℕ) : G :=
  { g with tape := Function.update g.tape t none, idTable := Function.update g.idTable t (g.idTable t + M) }

/-- store an object in memory -/
def G.put (g : G) (a : ℕ) (x : AD) : G := { g with obj := Function.update g.obj a x }

/-- store objects at the given addresses -/
def putAll (o : ℕ → AD) : List (ℕ × AD) → ℕ → AD
  | [] => o
  | (a, x) :: l => putAll (Function.update o a x) l

/-- Calls, with the addresses of the objects they use; `dst` is where the result is stored -/
inductive Call
  | construct (dst : ℕ) (v : ℝ)
  | assignBase (dst : ℕ) (v : ℝ)
  | copy (dst src : ℕ)
  | un (f : UnF) (dst x : ℕ)
  | dis (k : ℕ) (dst x : ℕ)
  | bin (f : BinF) (dst x y : ℕ)
  | eq (f : EqF) (x y : ℕ)
  | cexp (cop : CompareOp) (dst left right t f : ℕ)
  | compare (cop : CompareOp) (x y : ℕ)
  | independent (recordCompare : Bool) (x p : List ℕ)
  | dependent (y : List ℕ)
  | abort

/-- an operation whose result is a constant when this thread is not recording (e.g. add.hpp:19-21) -/
def G.operate (g : G) (t dst : ℕ) (v : AD) (f : Rec → Rec × AD) : G :=
  match g.tape t with
  | none => g.put dst v
  | some r => { g.put dst (f r).2 with tape := Function.update g.tape t (some (f r).1) }

/-- The effect of a call executed by thread `t`; `none` when an assertion fails.

* construct: ad_ctor.hpp:151-158; assignBase: ad_assign.hpp:91-97; copy: default copy and assignment;
* un, dis, bin, eq, cexp, compare: Record/Model.lean when recording, otherwise the value only (add.hpp:19-21,
  add_eq.hpp:19-22, std_math_11.hpp:745-747, discrete.hpp:258-261, compare.hpp:122-124);
* cexp: its operands must not be on the tape of another thread (tape_link.hpp:131-140);
* independent: core/independent/independent.hpp:61-81, tape_link.hpp:170-207, local/independent.hpp:34-110;
* dependent: core/dependent.hpp:147-157, 232-328; abort: core/abort_recording.hpp:44-48. -/
noncomputable def step (M : ℕ) (c : Cfg) (nan : ℝ) (t : ℕ) (g : G) : Call → Option G
  | .construct dst v => some (g.put dst (AD.con v))
  | .assignBase dst v => some (g.put dst { g.obj dst with value := v, tapeId := 0 })
  | .copy dst src => some (g.put dst (g.obj src))
  | .un f dst x => some (g.operate t dst (AD.con (f.fn (g.obj x).value)) fun r => unAD r f (g.obj x))
  | .dis k dst x => some (g.operate t dst (AD.con (c.disc k (g.obj x).value)) fun r => disAD c r k (g.obj x))
  | .bin f dst x y =>
    some (g.operate t dst (AD.con (f.fn (g.obj x).value (g.obj y).value)) fun r => binAD c r f (g.obj x) (g.obj y))
  | .eq f x y =>
    some (g.operate t x { g.obj x with value := f.bin.fn (g.obj x).value (g.obj y).value }
      fun r => eqAD c r f (g.obj x) (g.obj y))
  | .cexp cop dst left right a b =>
    if ∀ i ∈ [left, right, a, b], g.constant M (g.obj i) ∨ (g.obj i).tapeId % M = t then
      some (g.operate t dst
        (AD.con (condExp cop (g.obj left).value (g.obj right).value (g.obj a).value (g.obj b).value))
        fun r => cexpAD c r cop (g.obj left) (g.obj right) (g.obj a) (g.obj b))
    else none
  | .compare cop x y =>
    match g.tape t with
    | none => some g
    | some r => some { g with tape := Function.update g.tape t (some (compareAD c r cop (g.obj x) (g.obj y)).1) }
  | .independent rc x p =>
    match g.tape t with
    | some _ => none
    | none =>
      if x = [] then none
      else
        let id := g.newId M t
        let i := Record.independent nan (c.hash nan) id rc (x.map fun a => (g.obj a).value) (p.map fun a => (g.obj a).value)
        some
          { idTable := Function.update g.idTable t id
            tape := Function.update g.tape t (some i.1)
            obj := putAll (putAll g.obj (x.zip i.2.1)) (p.zip i.2.2) }
  | .dependent y =>
    match g.tape t with
    | none => none
    | some _ => if y = [] then none else some (g.delete M t)
  | .abort =>
    match g.tape t with
    | none => some g
    | some _ => some (g.delete M t)

/-- `Steps M c nan g g'`: some calls, on any threads, take state `g` to `g'` -/
inductive Steps (M : ℕ) (c : Cfg) (nan : ℝ) : G → G → Prop
  | refl (g : G) : Steps M c nan g g
  | tail {g g' g'' : G} (t : ℕ) (call : Call) : Steps M c nan g g' → t < M → step M c nan t g' call = some g'' →
      Steps M c nan g g''

/-- states that can occur -/
def Reachable (M : ℕ) (c : Cfg) (nan : ℝ) (g : G) : Prop := ∃ v, Steps M c nan (G.start v) g

/-! ## Identifiers of the results of operations -/

variable {c : Cfg}

@[simp] theorem putCon_id (r : Rec) (v : ℝ) : (r.putCon c v).1.id = r.id := rfl
@[simp] theorem putDyn_id (r : Rec) (op : DynOp) (v : ℝ) : (r.putDyn op v).1.id = r.id := rfl
@[simp] theorem putDyn_tapeId (r : Rec) (op : DynOp) (v : ℝ) : (r.putDyn op v).2.tapeId = r.id := rfl
@[simp] theorem putOp_id (r : Rec) (op : ROp) : (r.putOp op).1.id = r.id := rfl
@[simp] theorem putVar_id (r : Rec) (op : ROp) (v : ℝ) : (r.putVar op v).1.id = r.id := rfl
@[simp] theorem putVar_tapeId (r : Rec) (op : ROp) (v : ℝ) : (r.putVar op v).2.tapeId = r.id := rfl
@[simp] theorem parAddr_id (r : Rec) (a : AD) : (r.parAddr c a).1.id = r.id := by
  unfold Rec.parAddr; split <;> rfl
@[simp] theorem putDynBin_id (r : Rec) (f : BinF) (x y : AD) (v : ℝ) : (r.putDynBin c f x y v).1.id = r.id := by
  simp [Rec.putDynBin]
@[simp] theorem putDynBin_tapeId (r : Rec) (f : BinF) (x y : AD) (v : ℝ) :
    (r.putDynBin c f x y v).2.tapeId = r.id := by
  simp [Rec.putDynBin]
@[simp] theorem cexpOpd_id (r : Rec) (a : AD) (b : ℕ) : (r.cexpOpd c a b).1.id = r.id := by
  unfold Rec.cexpOpd; split <;> rfl

/-- what an operation may do to the identifiers -/
def Good (r : Rec) (args : List AD) (o : Rec × AD) : Prop :=
  o.1.id = r.id ∧ (o.2.tapeId = 0 ∨ o.2.tapeId = r.id ∨ ∃ a ∈ args, o.2.tapeId = a.tapeId)

theorem bin_good (r : Rec) (f : BinF) (x y : AD) : Good r [x, y] (binAD c r f x y) := by
  unfold Good
  cases f <;> simp only [binAD, addAD, subAD, mulAD, divAD, azmulAD, powAD] <;>
    split_ifs <;> simp [AD.con, AD.likeVar, AD.likeDyn]

theorem eq_good (r : Rec) (f : EqF) (x y : AD) : Good r [x, y] (eqAD c r f x y) := by
  unfold Good
  cases f <;> simp only [eqAD, addEqAD, subEqAD, mulEqAD, divEqAD] <;>
    split_ifs <;> simp [AD.con, AD.likeVar, AD.likeDyn]

theorem un_good (r : Rec) (f : UnF) (x : AD) : Good r [x] (unAD r f x) := by
  unfold Good unAD; dsimp only; split_ifs <;> simp [AD.con]

theorem dis_good (r : Rec) (k : ℕ) (x : AD) : Good r [x] (disAD c r k x) := by
  unfold Good disAD; dsimp only; split_ifs <;> simp [AD.con]

theorem cexp_good (r : Rec) (cop : CompareOp) (x y a b : AD) : Good r [x, y, a, b] (cexpAD c r cop x y a b) := by
  unfold Good cexpAD; dsimp only; split_ifs <;> simp [AD.con]

theorem compare_id (r : Rec) (cop : CompareOp) (x y : AD) : (compareAD c r cop x y).1.id = r.id := by
  unfold compareAD; dsimp only; split_ifs <;> simp

/-! ## The invariant -/

/-- An identifier that may be stored in an object: zero, or not larger than the identifier of its thread and, when that
thread is not recording, smaller. -/
def IdOk (M : ℕ) (g : G) (id : ℕ) : Prop :=
  id = 0 ∨ id < g.idTable (id % M) ∨ (id = g.idTable (id % M) ∧ (g.tape (id % M)).isSome)

structure Inv (M : ℕ) (g : G) : Prop where
  table : ∀ t < M, g.idTable t = 0 ∨ (g.idTable t % M = t ∧ M ≤ g.idTable t)
  tape : ∀ t r, g.tape t = some r → t < M ∧ r.id = g.idTable t ∧ M ≤ r.id
  obj : ∀ a, IdOk M g (g.obj a).tapeId

variable {M : ℕ} {nan : ℝ}

theorem start_inv (v : ℕ → ℝ) : Inv M (G.start v) :=
  ⟨fun _ _ => .inl rfl, fun _ _ h => by simp [G.start] at h, fun _ => .inl rfl⟩

theorem put_inv {g : G} (h : Inv M g) (a : ℕ) (x : AD) (hx : IdOk M g x.tapeId) : Inv M (g.put a x) := by
  refine ⟨h.table, h.tape, fun b => ?_⟩
  change IdOk M g (Function.update g.obj a x b).tapeId
  by_cases hb : b = a
  · subst hb; simpa using hx
  · rw [Function.update_of_ne hb]; exact h.obj b

theorem setTape_inv {g : G} (h : Inv M g) (t : ℕ) (r r' : Rec) (hr : g.tape t = some r) (hid : r'.id = r.id) :
    Inv M { g with tape := Function.update g.tape t (some r') } := by
  refine ⟨h.table, fun u s hs => ?_, fun a => ?_⟩
  · by_cases hu : u = t
    · subst hu
      simp at hs; subst hs
      have := h.tape u r hr
      rw [hid]; exact this
    · simp [Function.update_of_ne hu] at hs
      exact h.tape u s hs
  · rcases h.obj a with h1 | h1 | ⟨h1, h2⟩
    · exact .inl h1
    · exact .inr (.inl h1)
    · refine .inr (.inr ⟨h1, ?_⟩)
      simp only [Function.update_apply]
      split_ifs
      · rfl
      · exact h2

theorem operate_inv {g : G} (h : Inv M g) (t dst : ℕ) (v : AD) (f : Rec → Rec × AD) (args : List ℕ)
    (hv : IdOk M g v.tapeId) (hf : ∀ r, g.tape t = some r → Good r (args.map g.obj) (f r)) :
    Inv M (g.operate t dst v f) := by
  unfold G.operate
  cases ht : g.tape t with
  | none => exact put_inv h dst v hv
  | some r =>
    obtain ⟨h1, h2⟩ := hf r ht
    have hid := h.tape t r ht
    have hok : IdOk M g (f r).2.tapeId := by
      rcases h2 with h2 | h2 | ⟨a, ha, h2⟩
      · exact .inl h2
      · rw [h2]
        have hm : r.id % M = t := by
          rcases h.table t hid.1 with h0 | h0
          · have := hid.2.2; rw [hid.2.1, h0] at this
            omega
          · rw [hid.2.1]; exact h0.1
        refine .inr (.inr ?_)
        rw [hm]; exact ⟨hid.2.1, by simp [ht]⟩
      · obtain ⟨i, _, rfl⟩ := List.mem_map.1 ha
        rw [h2]; exact h.obj i
    exact setTape_inv (put_inv h dst _ hok) t r (f r).1 ht h1

theorem delete_inv {g : G} (h : Inv M g) (t : ℕ) (r : Rec) (ht : g.tape t = some r) : Inv M (g.delete M t) := by
  have hid := h.tape t r ht
  refine ⟨fun u hu => ?_, fun u s hs => ?_, fun a => ?_⟩
  · by_cases hut : u = t
    · subst hut
      right
      rcases h.table u hu with h0 | h0
      · have := hid.2.2; rw [hid.2.1, h0] at this; omega
      · simp [G.delete, h0.1]
    · simpa [G.delete, Function.update_of_ne hut] using h.table u hu
  · by_cases hut : u = t
    · subst hut; simp [G.delete] at hs
    · simp [G.delete, Function.update_of_ne hut] at hs ⊢
      exact h.tape u s hs
  · rcases h.obj a with h1 | h1 | ⟨h1, h2⟩
    · exact .inl h1
    · refine .inr (.inl (h1.trans_le ?_))
      simp only [G.delete, Function.update_apply]; split_ifs with h3
      · rw [h3]; omega
      · exact le_rfl
    · by_cases h3 : (g.obj a).tapeId % M = t
      · refine .inr (.inl ?_)
        change (g.obj a).tapeId < _
        have hM := hid.1
        simp [G.delete, h3] at h1 ⊢
        omega
      · refine .inr (.inr ?_)
        simp [G.delete, Function.update_of_ne h3]
        exact ⟨h1, h2⟩

theorem putAll_cases (o : ℕ → AD) (l : List (ℕ × AD)) (a : ℕ) :
    putAll o l a = o a ∨ ∃ p ∈ l, putAll o l a = p.2 := by
  induction l generalizing o with
  | nil => exact .inl rfl
  | cons p l ih =>
    obtain ⟨b, x⟩ := p
    rcases ih (Function.update o b x) with h | ⟨q, hq, h⟩
    · by_cases hb : a = b
      · subst hb
        right; refine ⟨(a, x), by simp, ?_⟩
        simpa [putAll] using h
      · left; simpa [putAll, Function.update_of_ne hb] using h
    · right; exact ⟨q, by simp [hq], h⟩

theorem independent_ids (nan : ℝ) (hn id : ℕ) (rc : Bool) (x p : List ℝ) :
    (Record.independent nan hn id rc x p).1.id = id ∧
      (∀ a ∈ (Record.independent nan hn id rc x p).2.1, a.tapeId = id) ∧
      (∀ a ∈ (Record.independent nan hn id rc x p).2.2, a.tapeId = id) := by
  refine ⟨rfl, fun a ha => ?_, fun a ha => ?_⟩
  · simp only [Record.independent, List.mem_mapIdx] at ha
    obtain ⟨i, hi, rfl⟩ := ha; rfl
  · simp only [Record.independent, List.mem_mapIdx] at ha
    obtain ⟨i, hi, rfl⟩ := ha; rfl

theorem newId_spec {g : G} (h : Inv M g) {t : ℕ} (ht : t < M) :
    g.newId M t % M = t ∧ M ≤ g.newId M t ∧ g.idTable t ≤ g.newId M t := by
  unfold G.newId
  split_ifs with h0
  · refine ⟨?_, by omega, by omega⟩
    rw [Nat.add_mod_right, Nat.mod_eq_of_lt ht]
  · rcases h.table t ht with h1 | h1
    · exact absurd h1 h0
    · exact ⟨h1.1, h1.2, le_rfl⟩

theorem independent_inv {g g' : G} (h : Inv M g) {t : ℕ} (ht : t < M) {rc : Bool} {x p : List ℕ}
    (hs : step M c nan t g (.independent rc x p) = some g') : Inv M g' := by
  simp only [step] at hs
  cases hg : g.tape t with
  | some r => rw [hg] at hs; simp at hs
  | none =>
    rw [hg] at hs
    simp only at hs
    split_ifs at hs with hx
    simp only [Option.some.injEq] at hs
    subst hs
    obtain ⟨hm, hM, hle⟩ := newId_spec h ht
    obtain ⟨i1, i2, i3⟩ := independent_ids nan (c.hash nan) (g.newId M t) rc (x.map fun a => (g.obj a).value)
      (p.map fun a => (g.obj a).value)
    refine ⟨fun u hu => ?_, fun u s hs => ?_, fun a => ?_⟩
    · by_cases hut : u = t
      · subst hut; right; simp [hm, hM]
      · simpa [Function.update_of_ne hut] using h.table u hu
    · by_cases hut : u = t
      · subst hut
        simp at hs; subst hs
        simp [i1, hM, ht]
      · simp [Function.update_of_ne hut] at hs ⊢
        exact h.tape u s hs
    · have hnew : ∀ y : AD, y.tapeId = g.newId M t → IdOk M
          { idTable := Function.update g.idTable t (g.newId M t)
            tape := Function.update g.tape t (some (Record.independent nan (c.hash nan) (g.newId M t) rc
              (x.map fun a => (g.obj a).value) (p.map fun a => (g.obj a).value)).1)
            obj := g.obj } y.tapeId := by
        intro y hy
        refine .inr (.inr ?_)
        simp [hy, hm]
      have hold : ∀ b, IdOk M
          { idTable := Function.update g.idTable t (g.newId M t)
            tape := Function.update g.tape t (some (Record.independent nan (c.hash nan) (g.newId M t) rc
              (x.map fun a => (g.obj a).value) (p.map fun a => (g.obj a).value)).1)
            obj := g.obj } (g.obj b).tapeId := by
        intro b
        rcases h.obj b with h1 | h1 | ⟨h1, h2⟩
        · exact .inl h1
        · refine .inr (.inl (h1.trans_le ?_))
          simp only [Function.update_apply]; split_ifs with h3
          · rw [h3]; exact hle
          · exact le_rfl
        · have h3 : (g.obj b).tapeId % M ≠ t := by
            intro h3; rw [h3, hg] at h2; simp at h2
          refine .inr (.inr ?_)
          simp [Function.update_of_ne h3]
          exact ⟨h1, h2⟩
      change IdOk M { idTable := _, tape := _, obj := g.obj } (putAll (putAll g.obj _) _ a).tapeId
      rcases putAll_cases (putAll g.obj (x.zip _)) (p.zip _) a with h1 | ⟨q, hq, h1⟩
      · rw [h1]
        rcases putAll_cases g.obj (x.zip _) a with h2 | ⟨q, hq, h2⟩
        · rw [h2]; exact hold a
        · rw [h2]; exact hnew _ (i2 _ (List.of_mem_zip hq).2)
      · rw [h1]; exact hnew _ (i3 _ (List.of_mem_zip hq).2)

theorem step_inv {g g' : G} (h : Inv M g) {t : ℕ} (ht : t < M) {call : Call}
    (hs : step M c nan t g call = some g') : Inv M g' := by
  cases call with
  | independent rc x p => exact independent_inv h ht hs
  | construct dst v => simp only [step, Option.some.injEq] at hs; subst hs; exact put_inv h _ _ (.inl rfl)
  | assignBase dst v => simp only [step, Option.some.injEq] at hs; subst hs; exact put_inv h _ _ (.inl rfl)
  | copy dst src => simp only [step, Option.some.injEq] at hs; subst hs; exact put_inv h _ _ (h.obj _)
  | un f dst x =>
    simp only [step, Option.some.injEq] at hs; subst hs
    exact operate_inv h _ _ _ _ [x] (.inl rfl) fun r _ => un_good r f _
  | dis k dst x =>
    simp only [step, Option.some.injEq] at hs; subst hs
    exact operate_inv h _ _ _ _ [x] (.inl rfl) fun r _ => dis_good r k _
  | bin f dst x y =>
    simp only [step, Option.some.injEq] at hs; subst hs
    exact operate_inv h _ _ _ _ [x, y] (.inl rfl) fun r _ => bin_good r f _ _
  | eq f x y =>
    simp only [step, Option.some.injEq] at hs; subst hs
    exact operate_inv h _ _ _ _ [x, y] (h.obj x) fun r _ => eq_good r f _ _
  | cexp cop dst l r a b =>
    simp only [step] at hs
    split_ifs at hs
    simp only [Option.some.injEq] at hs; subst hs
    exact operate_inv h _ _ _ _ [l, r, a, b] (.inl rfl) fun s _ => cexp_good s cop _ _ _ _
  | compare cop x y =>
    simp only [step] at hs
    cases hg : g.tape t with
    | none => rw [hg] at hs; simp at hs; subst hs; exact h
    | some r =>
      rw [hg] at hs; simp only [Option.some.injEq] at hs; subst hs
      exact setTape_inv h t r _ hg (compare_id r cop _ _)
  | dependent y =>
    simp only [step] at hs
    cases hg : g.tape t with
    | none => rw [hg] at hs; simp at hs
    | some r =>
      rw [hg] at hs; simp only at hs
      split_ifs at hs
      simp only [Option.some.injEq] at hs; subst hs
      exact delete_inv h t r hg
  | abort =>
    simp only [step] at hs
    cases hg : g.tape t with
    | none => rw [hg] at hs; simp at hs; subst hs; exact h
    | some r => rw [hg] at hs; simp at hs; subst hs; exact delete_inv h t r hg

theorem Steps.inv {g g' : G} (h : Steps M c nan g g') (hi : Inv M g) : Inv M g' := by
  induction h with
  | refl => exact hi
  | tail t call _ ht hs ih => exact step_inv ih ht hs

theorem Reachable.inv {g : G} (h : Reachable M c nan g) : Inv M g := by
  obtain ⟨v, h⟩ := h
  exact h.inv (start_inv v)

/-! ## Identifiers only grow -/

theorem operate_idTable (g : G) (t dst : ℕ) (v : AD) (f : Rec → Rec × AD) : (g.operate t dst v f).idTable = g.idTable := by
  unfold G.operate; split <;> rfl

/-- one call does not decrease the identifier of any thread -/
theorem step_mono {g g' : G} (hi : Inv M g) {t : ℕ} (ht : t < M) {call : Call} (hs : step M c nan t g call = some g')
    (u : ℕ) : g.idTable u ≤ g'.idTable u := by
  have hdel : ∀ v, g.idTable v ≤ (g.delete M t).idTable v := by
    intro v
    simp only [G.delete, Function.update_apply]; split_ifs with h1
    · rw [h1]; omega
    · exact le_rfl
  cases call with
  | construct | assignBase | copy => simp only [step, Option.some.injEq] at hs; subst hs; exact le_rfl
  | un | dis | bin | eq =>
    simp only [step, Option.some.injEq] at hs; subst hs; rw [operate_idTable]
  | cexp cop dst l r a b =>
    simp only [step] at hs
    split_ifs at hs
    simp only [Option.some.injEq] at hs; subst hs; rw [operate_idTable]
  | compare cop x y =>
    simp only [step] at hs
    cases hg : g.tape t with
    | none => rw [hg] at hs; simp at hs; subst hs; exact le_rfl
    | some r => rw [hg] at hs; simp only [Option.some.injEq] at hs; subst hs; exact le_rfl
  | independent rc x p =>
    simp only [step] at hs
    cases hg : g.tape t with
    | some r => rw [hg] at hs; simp at hs
    | none =>
      rw [hg] at hs
      simp only at hs
      split_ifs at hs with hx
      simp only [Option.some.injEq] at hs
      subst hs
      simp only [Function.update_apply]; split_ifs with h1
      · rw [h1]; exact (newId_spec hi ht).2.2
      · exact le_rfl
  | dependent y =>
    simp only [step] at hs
    cases hg : g.tape t with
    | none => rw [hg] at hs; simp at hs
    | some r =>
      rw [hg] at hs; simp only at hs
      split_ifs at hs
      simp only [Option.some.injEq] at hs; subst hs
      exact hdel u
  | abort =>
    simp only [step] at hs
    cases hg : g.tape t with
    | none => rw [hg] at hs; simp at hs; subst hs; exact le_rfl
    | some r => rw [hg] at hs; simp at hs; subst hs; exact hdel u

theorem Steps.mono {g g' : G} (h : Steps M c nan g g') (hi : Inv M g) (u : ℕ) : g.idTable u ≤ g'.idTable u := by
  induction h with
  | refl => exact le_rfl
  | tail t call h1 ht hs ih => exact ih.trans (step_mono (h1.inv hi) ht hs u)

/-! ## Property theorems (C08) -/

/-- A call that ends the recording of thread `t`: Dependent (also used by the ADFun constructor) or abort_recording while
the thread is recording. -/
def Stops (M : ℕ) (c : Cfg) (nan : ℝ) (t : ℕ) (g g' : G) : Prop :=
  t < M ∧ (g.tape t).isSome ∧ ((∃ y, step M c nan t g (.dependent y) = some g') ∨ step M c nan t g .abort = some g')

theorem Stops.eq {t : ℕ} {g g' : G} (h : Stops M c nan t g g') : ∃ r, g.tape t = some r ∧ g' = g.delete M t := by
  obtain ⟨_, h1, h2⟩ := h
  obtain ⟨r, hr⟩ := Option.isSome_iff_exists.1 h1
  refine ⟨r, hr, ?_⟩
  rcases h2 with ⟨y, h2⟩ | h2
  · simp only [step, hr] at h2
    split_ifs at h2
    simpa using h2.symm
  · simp only [step, hr] at h2
    simpa using h2.symm

theorem Stops.step {t : ℕ} {g g' : G} (h : Stops M c nan t g g') : Steps M c nan g g' := by
  rcases h.2.2 with ⟨y, h2⟩ | h2
  · exact .tail t _ (.refl g) h.1 h2
  · exact .tail t _ (.refl g) h.1 h2

/-- **C08**.  A value `x` that some AD object holds when thread `t` stops recording, and that is a variable or
dynamic parameter of that recording, is a constant in every later state: `Constant` is true, `Variable`
and `Dynamic` are false, `Parameter` is true, and no recording `r` (of any thread `u`) takes it for one of its variables or dynamic parameters. -/
theorem finished_is_constant {g g' g'' : G} {t : ℕ} (hg : Reachable M c nan g) (hs : Stops M c nan t g g')
    (hl : Steps M c nan g' g'') (a : ℕ) (hx : (g.obj a).tapeId % M = t)
    (_hv : g.variable M (g.obj a) = true ∨ g.dynamic M (g.obj a) = true) :
    g''.constant M (g.obj a) = true ∧ g''.variable M (g.obj a) = false ∧ g''.dynamic M (g.obj a) = false ∧
      g''.parameter M (g.obj a) = true ∧
      ∀ u r, g''.tape u = some r → r.var (g.obj a) = false ∧ r.dyn (g.obj a) = false := by
  have hi := hg.inv
  have hi' := hs.step.inv hi
  have hi'' := hl.inv hi'
  have hmono := hl.mono hi' t
  obtain ⟨r, hr, rfl⟩ := hs.eq
  have hid := hi.tape t r hr
  have hne : (g.obj a).tapeId < g''.idTable t := by
    refine lt_of_lt_of_le ?_ hmono
    have h1 : (g.obj a).tapeId ≤ g.idTable t := by
      rcases hi.obj a with h1 | h1 | ⟨h1, _⟩
      · omega
      · rw [hx] at h1; exact h1.le
      · rw [hx] at h1; exact h1.le
    have hM := hs.1
    simp [G.delete]; omega
  refine ⟨?_, ?_, ?_, ?_, fun u s hs' => ?_⟩
  · simp [G.constant, hx, hne.ne]
  · simp [G.variable, hx, hne.ne]
  · simp [G.dynamic, hx, hne.ne]
  · simp [G.parameter, hx, hne.ne]
  · have h1 : (g.obj a).tapeId ≠ s.id := by
      intro h1
      obtain ⟨h2, h3, h4⟩ := hi''.tape u s hs'
      have h5 : s.id % M = u := by
        rcases hi''.table u h2 with h0 | h0
        · rw [h3, h0] at h4; omega
        · rw [h3]; exact h0.1
      rw [h1, h5] at hx
      subst hx
      omega
    simp [Rec.var, Rec.dyn, h1]

/-- **C08**, no AD value is a variable or dynamic parameter of two recordings: recordings that are active at the same
time on different threads have different identifiers, and so have a recording that was stopped and any recording that
is active later. -/
theorem recordings_distinct {g : G} (hg : Reachable M c nan g) {t : ℕ} {r : Rec} (hr : g.tape t = some r) (x : AD)
    (hx : r.var x = true ∨ r.dyn x = true) :
    (∀ u s, g.tape u = some s → u ≠ t → s.var x = false ∧ s.dyn x = false) ∧
      ∀ g' g'', Stops M c nan t g g' → Steps M c nan g' g'' →
        ∀ u s, g''.tape u = some s → s.var x = false ∧ s.dyn x = false := by
  have hi := hg.inv
  have hxid : x.tapeId = r.id := by
    rcases hx with hx | hx
    · simp [Rec.var] at hx; exact hx.1
    · simp [Rec.dyn] at hx; exact hx.1
  have hmod : ∀ {g : G}, Inv M g → ∀ {u s}, g.tape u = some s → s.id % M = u := by
    intro g hi u s hs
    obtain ⟨h2, h3, h4⟩ := hi.tape u s hs
    rcases hi.table u h2 with h0 | h0
    · rw [h3, h0] at h4; omega
    · rw [h3]; exact h0.1
  refine ⟨fun u s hs hu => ?_, fun g' g'' hst hl u s hs => ?_⟩
  · have h1 : x.tapeId ≠ s.id := by
      intro h1
      have h2 := hmod hi hr
      rw [← hxid, h1, hmod hi hs] at h2
      exact hu h2
    simp [Rec.var, Rec.dyn, h1]
  · have hi' := hst.step.inv hi
    have hi'' := hl.inv hi'
    have hmono := hl.mono hi' t
    have hM := hst.1
    obtain ⟨_, _, rfl⟩ := hst.eq
    have h1 : x.tapeId ≠ s.id := by
      intro h1
      have h2 := hmod hi hr
      rw [← hxid, h1, hmod hi'' hs] at h2
      subst h2
      have h3 := hi''.tape u s hs
      have h4 := hi.tape u r hr
      simp [G.delete] at hmono
      omega
    simp [Rec.var, Rec.dyn, h1]

/-- While thread `t` records, exactly its variables and dynamic parameters are what `Variable` and `Dynamic` report
for objects with an identifier of that thread: the tests used by the operators and the tests of the API agree. -/
theorem recorder_agrees {g : G} (hg : Reachable M c nan g) {t : ℕ} {r : Rec} (hr : g.tape t = some r) (x : AD)
    (hx : x.adType ≠ .constant) (ht : x.tapeId = 0 ∨ x.tapeId % M = t) :
    r.var x = g.variable M x ∧ r.dyn x = g.dynamic M x := by
  have hi := hg.inv
  obtain ⟨h2, h3, h4⟩ := hi.tape t r hr
  rcases ht with ht | ht
  · have : x.tapeId ≠ r.id := by omega
    have h5 : (0 : ℕ) ≠ r.id := by omega
    simp [Rec.var, Rec.dyn, G.variable, G.dynamic, ht, h5]
  · by_cases h0 : x.tapeId = 0
    · have h5 : (0 : ℕ) ≠ r.id := by omega
      simp [Rec.var, Rec.dyn, G.variable, G.dynamic, h0, h5]
    · simp only [Rec.var, Rec.dyn, G.variable, G.dynamic, ht, h0, false_or, ← h3]
      cases hty : x.adType <;> simp_all

/-- When a thread starts a recording, the objects that exist before satisfy the hypotheses used in Record/Session.lean:
the new identifier is not zero and is not the identifier of any of them. -/
theorem new_recording_ok {g : G} (hg : Reachable M c nan g) {t : ℕ} (ht : t < M) (hnone : g.tape t = none) (cfg : Cfg)
    (nan' : ℝ) (rc : Bool) (old : List ℕ) (x p : List ℝ) (hx : x ≠ []) :
    Session.Ok ⟨cfg, nan', g.newId M t, rc, old.map g.obj, x, p, []⟩ := by
  have hi := hg.inv
  obtain ⟨h1, h2, h3⟩ := newId_spec hi ht
  refine ⟨by change 0 < g.newId M t; omega, fun a ha => ?_, hx, by simp⟩
  obtain ⟨i, _, rfl⟩ := List.mem_map.1 ha
  change (g.obj i).tapeId ≠ g.newId M t
  intro he
  rcases hi.obj i with h4 | h4 | ⟨h4, h5⟩
  · omega
  · rw [he, h1] at h4; omega
  · rw [he, h1, hnone] at h5; simp at h5

/-! ### A history that meets the hypotheses -/

/-- thread 1 of 4 declares the object at address 0 independent, doubles it, then stops -/
example (c : Cfg) : ∃ g g' : G, Reachable 4 c 0 g ∧ Stops 4 c 0 1 g g' ∧ (g.obj 0).tapeId % 4 = 1 ∧
    g.variable 4 (g.obj 0) = true ∧ g.variable 4 (g.obj 7) = true ∧ ∃ r, g.tape 1 = some r ∧ r.var (g.obj 7) = true := by
  obtain ⟨g1, h1⟩ : ∃ g1, step 4 c 0 1 (G.start fun _ => 1) (.independent true [0] []) = some g1 :=
    ⟨_, by simp only [step, G.start]; rfl⟩
  obtain ⟨g2, h2⟩ : ∃ g2, step 4 c 0 1 g1 (.bin .add 7 0 0) = some g2 := ⟨_, rfl⟩
  have hg : Reachable 4 c 0 g2 := ⟨_, .tail 1 _ (.tail 1 _ (.refl _) (by norm_num) h1) (by norm_num) h2⟩
  simp only [step, G.start, List.cons_ne_nil, if_false, Option.some.injEq] at h1
  subst h1
  simp only [step, G.operate, Function.update_self, Option.some.injEq] at h2
  subst h2
  refine ⟨_, _, hg, ⟨by norm_num, by simp, .inr (by simp only [step, Function.update_self]; rfl)⟩, ?_⟩
  simp [G.put, putAll, Record.independent, G.newId, G.variable, binAD, addAD, Rec.var, Rec.putVar, Rec.putOp]

end CppAD.Record.Threads
