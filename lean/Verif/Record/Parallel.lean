import Verif.Record.Threads

/-! # Recordings on several threads do not depend on the schedule (property C51)

A schedule is a list of calls, each with the thread that executes it: an interleaving of what the threads do.  When no thread uses an
AD object that another thread changes, every thread gets what it gets when it runs alone. -/

open scoped Classical

namespace CppAD.Record.Threads

open CppAD CppAD.Record

/-! ## Specification -/

/-- the addresses of the objects that a call changes -/
def Call.writes : Call → List ℕ
  | .construct dst _ => [dst]
  | .assignBase dst _ => [dst]
  | .copy dst _ => [dst]
  | .un _ dst _ => [dst]
  | .dis _ dst _ => [dst]
  | .bin _ dst _ _ => [dst]
  | .eq _ x _ => [x]
  | .cexp _ dst _ _ _ _ => [dst]
  | .compare _ _ _ => []
  | .independent _ x p => x ++ p
  | .dependent _ => []
  | .abort => []

/-- the addresses of the objects that a call uses -/
def Call.reads : Call → List ℕ
  | .construct _ _ => []
  | .assignBase dst _ => [dst]
  | .copy _ src => [src]
  | .un _ _ x => [x]
  | .dis _ _ x => [x]
  | .bin _ _ x y => [x, y]
  | .eq _ x y => [x, y]
  | .cexp _ _ l r a b => [l, r, a, b]
  | .compare _ x y => [x, y]
  | .independent _ x p => x ++ p
  | .dependent y => y
  | .abort => []

/-- the function that a call stores: the recording and the dependent objects (core/dependent.hpp:147-157, 232-328) -/
noncomputable def stored (t : ℕ) (g : G) : Call → List (ℕ × Rec × List AD)
  | .dependent y => match g.tape t with
    | some r => [(t, r, y.map g.obj)]
    | none => []
  | _ => []

/-- The calls of a schedule one after another; `none` when an assertion fails.  The second result is the functions that were stored,
with the thread that did it. -/
noncomputable def run (M : ℕ) (c : Cfg) (nan : ℝ) : List (ℕ × Call) → G → Option (G × List (ℕ × Rec × List AD))
  | [], g => some (g, [])
  | (t, call) :: l, g => (step M c nan t g call).bind fun g' => (run M c nan l g').map fun q => (q.1, stored t g call ++ q.2)

/-- the part of a schedule that thread `t` executes -/
def part (t : ℕ) (l : List (ℕ × Call)) : List (ℕ × Call) := l.filter fun p => p.1 = t

/-- no call changes an object that a call of another thread uses or changes -/
def RaceFree (l : List (ℕ × Call)) : Prop :=
  ∀ p ∈ l, ∀ q ∈ l, p.1 ≠ q.1 → ∀ a ∈ q.2.writes, a ∉ p.2.reads ∧ a ∉ p.2.writes

/-! ## Proof -/

variable {c : Cfg} {M : ℕ} {nan : ℝ}

/-- the objects that thread `t` may have: of its own tapes, constants, and objects of recordings that were finished in state `g0` -/
def Mine (M : ℕ) (g0 : G) (t id : ℕ) : Prop := id = 0 ∨ id % M = t ∨ id < g0.idTable (id % M)

/-- the schedule (`g`) and thread `t` alone (`h`) -/
structure Sim (M : ℕ) (g0 : G) (A : ℕ → Prop) (t : ℕ) (g h : G) : Prop where
  invG : Inv M g
  invH : Inv M h
  monoG : ∀ u, g0.idTable u ≤ g.idTable u
  monoH : ∀ u, g0.idTable u ≤ h.idTable u
  tape : g.tape t = h.tape t
  table : g.idTable t = h.idTable t
  obj : ∀ a, A a → g.obj a = h.obj a ∧ Mine M g0 t (g.obj a).tapeId

variable {g0 : G} {A : ℕ → Prop} {t : ℕ} {g h : G}

/-- the calls that only change the tape of their own thread -/
theorem step_other {u : ℕ} (hu : u ≠ t) {g' : G} {call : Call} (hs : step M c nan u g call = some g') :
    g'.tape t = g.tape t ∧ g'.idTable t = g.idTable t ∧ ∀ a, a ∉ call.writes → g'.obj a = g.obj a := by
  have hop : ∀ dst v f, (g.operate u dst v f).tape t = g.tape t ∧ (g.operate u dst v f).idTable t = g.idTable t ∧
      ∀ a, a ≠ dst → (g.operate u dst v f).obj a = g.obj a := by
    intro dst v f
    unfold G.operate
    cases g.tape u with
    | none => exact ⟨rfl, rfl, fun a ha => Function.update_of_ne ha _ _⟩
    | some r => exact ⟨Function.update_of_ne hu.symm _ _, rfl, fun a ha => Function.update_of_ne ha _ _⟩
  have hdel : (g.delete M u).tape t = g.tape t ∧ (g.delete M u).idTable t = g.idTable t ∧ (g.delete M u).obj = g.obj :=
    ⟨Function.update_of_ne hu.symm _ _, Function.update_of_ne hu.symm _ _, rfl⟩
  have hput : ∀ dst x, ((g.put dst x).tape t = g.tape t ∧ (g.put dst x).idTable t = g.idTable t) ∧ ∀ a, a ≠ dst → (g.put dst x).obj a = g.obj a :=
    fun dst x => ⟨⟨rfl, rfl⟩, fun a ha => Function.update_of_ne ha _ _⟩
  cases call with
  | construct dst v =>
    simp only [step, Option.some.injEq] at hs; subst hs
    exact ⟨rfl, rfl, fun a ha => (hput dst _).2 a (by simpa [Call.writes] using ha)⟩
  | assignBase dst v =>
    simp only [step, Option.some.injEq] at hs; subst hs
    exact ⟨rfl, rfl, fun a ha => (hput dst _).2 a (by simpa [Call.writes] using ha)⟩
  | copy dst src =>
    simp only [step, Option.some.injEq] at hs; subst hs
    exact ⟨rfl, rfl, fun a ha => (hput dst _).2 a (by simpa [Call.writes] using ha)⟩
  | un f dst x =>
    simp only [step, Option.some.injEq] at hs; subst hs
    obtain ⟨h1, h2, h3⟩ := hop dst (AD.con (f.fn (g.obj x).value)) fun r => unAD r f (g.obj x)
    exact ⟨h1, h2, fun a ha => h3 a (by simpa [Call.writes] using ha)⟩
  | dis k dst x =>
    simp only [step, Option.some.injEq] at hs; subst hs
    obtain ⟨h1, h2, h3⟩ := hop dst (AD.con (c.disc k (g.obj x).value)) fun r => disAD c r k (g.obj x)
    exact ⟨h1, h2, fun a ha => h3 a (by simpa [Call.writes] using ha)⟩
  | bin f dst x y =>
    simp only [step, Option.some.injEq] at hs; subst hs
    obtain ⟨h1, h2, h3⟩ := hop dst (AD.con (f.fn (g.obj x).value (g.obj y).value)) fun r => binAD c r f (g.obj x) (g.obj y)
    exact ⟨h1, h2, fun a ha => h3 a (by simpa [Call.writes] using ha)⟩
  | eq f x y =>
    simp only [step, Option.some.injEq] at hs; subst hs
    obtain ⟨h1, h2, h3⟩ := hop x { g.obj x with value := f.bin.fn (g.obj x).value (g.obj y).value } fun r => eqAD c r f (g.obj x) (g.obj y)
    exact ⟨h1, h2, fun a ha => h3 a (by simpa [Call.writes] using ha)⟩
  | cexp cop dst l r a b =>
    simp only [step] at hs
    split_ifs at hs
    simp only [Option.some.injEq] at hs; subst hs
    obtain ⟨h1, h2, h3⟩ := hop dst (AD.con (condExp cop (g.obj l).value (g.obj r).value (g.obj a).value (g.obj b).value))
      fun s => cexpAD c s cop (g.obj l) (g.obj r) (g.obj a) (g.obj b)
    exact ⟨h1, h2, fun a ha => h3 a (by simpa [Call.writes] using ha)⟩
  | compare cop x y =>
    simp only [step] at hs
    cases hg : g.tape u with
    | none => rw [hg] at hs; simp at hs; subst hs; exact ⟨rfl, rfl, fun _ _ => rfl⟩
    | some r =>
      rw [hg] at hs; simp only [Option.some.injEq] at hs; subst hs
      exact ⟨Function.update_of_ne hu.symm _ _, rfl, fun _ _ => rfl⟩
  | independent rc x p =>
    simp only [step] at hs
    cases hg : g.tape u with
    | some r => rw [hg] at hs; simp at hs
    | none =>
      rw [hg] at hs
      simp only at hs
      split_ifs at hs with hx
      simp only [Option.some.injEq] at hs
      subst hs
      refine ⟨Function.update_of_ne hu.symm _ _, Function.update_of_ne hu.symm _ _, fun a ha => ?_⟩
      simp only [Call.writes, List.mem_append, not_or] at ha
      have key : ∀ (l : List ℕ) (m : List AD) (o : ℕ → AD), a ∉ l → putAll o (l.zip m) a = o a := by
        intro l
        induction l with
        | nil => intro m o _; rfl
        | cons b l ih =>
          intro m o hb
          cases m with
          | nil => rfl
          | cons y m =>
            simp only [List.mem_cons, not_or] at hb
            simp only [List.zip_cons_cons, putAll]
            rw [ih m _ hb.2, Function.update_of_ne hb.1]
      show putAll (putAll g.obj _) _ a = g.obj a
      rw [key p _ _ ha.2, key x _ _ ha.1]
  | dependent y =>
    simp only [step] at hs
    cases hg : g.tape u with
    | none => rw [hg] at hs; simp at hs
    | some r =>
      rw [hg] at hs; simp only at hs
      split_ifs at hs
      simp only [Option.some.injEq] at hs; subst hs
      exact ⟨hdel.1, hdel.2.1, fun a _ => by rw [hdel.2.2]⟩
  | abort =>
    simp only [step] at hs
    cases hg : g.tape u with
    | none => rw [hg] at hs; simp at hs; subst hs; exact ⟨rfl, rfl, fun _ _ => rfl⟩
    | some r => rw [hg] at hs; simp at hs; subst hs; exact ⟨hdel.1, hdel.2.1, fun a _ => by rw [hdel.2.2]⟩

/-- a call of another thread -/
theorem sim_other {u : ℕ} (hu : u ≠ t) (huM : u < M) (H : Sim M g0 A t g h) {g' : G} {call : Call} (hs : step M c nan u g call = some g')
    (hw : ∀ a ∈ call.writes, ¬ A a) : Sim M g0 A t g' h := by
  obtain ⟨h1, h2, h3⟩ := step_other hu hs
  refine ⟨step_inv H.invG huM hs, H.invH, fun v => (H.monoG v).trans (step_mono H.invG huM hs v), H.monoH, h1.trans H.tape, h2.trans H.table, ?_⟩
  intro a ha
  rw [h3 a fun h' => hw a h' ha]
  exact H.obj a ha

/-- what is the same after a call of thread `t` -/
structure Same (M : ℕ) (g0 : G) (A : ℕ → Prop) (t : ℕ) (g h : G) : Prop where
  tape : g.tape t = h.tape t
  table : g.idTable t = h.idTable t
  obj : ∀ a, A a → g.obj a = h.obj a ∧ Mine M g0 t (g.obj a).tapeId

theorem same_put (H : Sim M g0 A t g h) (dst : ℕ) {v : AD} (hv : Mine M g0 t v.tapeId) : Same M g0 A t (g.put dst v) (h.put dst v) := by
  refine ⟨H.tape, H.table, fun a ha => ?_⟩
  simp only [G.put, Function.update_apply]
  split_ifs
  · exact ⟨rfl, hv⟩
  · exact H.obj a ha

theorem same_operate (ht : t < M) (H : Sim M g0 A t g h) (dst : ℕ) {v : AD} (hv : Mine M g0 t v.tapeId) {f : Rec → Rec × AD} {args : List AD}
    (hf : ∀ r, Good r args (f r)) (ha : ∀ a ∈ args, Mine M g0 t a.tapeId) : Same M g0 A t (g.operate t dst v f) (h.operate t dst v f) := by
  unfold G.operate
  rw [← H.tape]
  cases hg : g.tape t with
  | none => exact same_put H dst hv
  | some r =>
    have hm : Mine M g0 t (f r).2.tapeId := by
      rcases (hf r).2 with h' | h' | ⟨a, ha', h'⟩
      · exact .inl h'
      · rw [h']
        obtain ⟨h2, h3, h4⟩ := H.invG.tape t r hg
        refine .inr (.inl ?_)
        rcases H.invG.table t h2 with h0 | h0
        · rw [h3, h0] at h4; omega
        · rw [h3]; exact h0.1
      · rw [h']; exact ha a ha'
    obtain ⟨s1, s2, s3⟩ := same_put H dst hm
    exact ⟨by simp, s2, s3⟩

theorem same_delete (H : Sim M g0 A t g h) : Same M g0 A t (g.delete M t) (h.delete M t) :=
  ⟨by simp [G.delete], by simp [G.delete, H.table], H.obj⟩

/-- objects that are not of another thread's recording: the test in `tape_ptr(tape_id)` gives the same -/
theorem constant_or (H : Sim M g0 A t g h) {a : ℕ} (ha : A a) :
    (g.constant M (g.obj a) ∨ (g.obj a).tapeId % M = t) ∧ (h.constant M (h.obj a) ∨ (h.obj a).tapeId % M = t) := by
  obtain ⟨h1, h2⟩ := H.obj a ha
  rw [← h1]
  rcases h2 with h2 | h2 | h2
  · simp [G.constant, h2]
  · exact ⟨.inr h2, .inr h2⟩
  · have a1 := H.monoG ((g.obj a).tapeId % M)
    have a2 := H.monoH ((g.obj a).tapeId % M)
    refine ⟨.inl ?_, .inl ?_⟩ <;> simp only [G.constant] <;> split_ifs <;> simp <;> omega

theorem putAll_same {o o' : ℕ → AD} (l : List (ℕ × AD)) (hl : ∀ p ∈ l, Mine M g0 t p.2.tapeId)
    (ho : ∀ a, A a → o a = o' a ∧ Mine M g0 t (o a).tapeId) :
    ∀ a, A a → putAll o l a = putAll o' l a ∧ Mine M g0 t (putAll o l a).tapeId := by
  induction l generalizing o o' with
  | nil => exact ho
  | cons p l ih =>
    obtain ⟨b, x⟩ := p
    simp only [putAll]
    refine ih (fun p hp => hl p (List.mem_cons_of_mem _ hp)) fun a ha => ?_
    simp only [Function.update_apply]
    split_ifs
    · exact ⟨rfl, hl (b, x) List.mem_cons_self⟩
    · exact ho a ha

/-- a call of thread `t` itself -/
theorem same_step (ht : t < M) (H : Sim M g0 A t g h) (call : Call) (hA : ∀ a, a ∈ call.reads → A a) :
    (step M c nan t g call = none ∧ step M c nan t h call = none) ∨
    ∃ g' h', step M c nan t g call = some g' ∧ step M c nan t h call = some h' ∧ Same M g0 A t g' h' := by
  have hH : Same M g0 A t g h := ⟨H.tape, H.table, H.obj⟩
  cases call with
  | construct dst v => exact .inr ⟨_, _, rfl, rfl, same_put H dst (.inl rfl)⟩
  | assignBase dst v =>
    refine .inr ⟨_, _, rfl, rfl, ?_⟩
    rw [← (H.obj dst (hA dst (by simp [Call.reads]))).1]
    exact same_put H dst (.inl rfl)
  | copy dst src =>
    obtain ⟨h1, h2⟩ := H.obj src (hA src (by simp [Call.reads]))
    refine .inr ⟨_, _, rfl, rfl, ?_⟩
    rw [← h1]
    exact same_put H dst h2
  | un f dst x =>
    obtain ⟨h1, h2⟩ := H.obj x (hA x (by simp [Call.reads]))
    refine .inr ⟨_, _, rfl, rfl, ?_⟩
    rw [← h1]
    exact same_operate ht H dst (.inl rfl) (fun r => un_good r f _) (by simpa using h2)
  | dis k dst x =>
    obtain ⟨h1, h2⟩ := H.obj x (hA x (by simp [Call.reads]))
    refine .inr ⟨_, _, rfl, rfl, ?_⟩
    rw [← h1]
    exact same_operate ht H dst (.inl rfl) (fun r => dis_good r k _) (by simpa using h2)
  | bin f dst x y =>
    obtain ⟨h1, h2⟩ := H.obj x (hA x (by simp [Call.reads]))
    obtain ⟨h3, h4⟩ := H.obj y (hA y (by simp [Call.reads]))
    refine .inr ⟨_, _, rfl, rfl, ?_⟩
    rw [← h1, ← h3]
    exact same_operate ht H dst (.inl rfl) (fun r => bin_good r f _ _) (by simpa using ⟨h2, h4⟩)
  | eq f x y =>
    obtain ⟨h1, h2⟩ := H.obj x (hA x (by simp [Call.reads]))
    obtain ⟨h3, h4⟩ := H.obj y (hA y (by simp [Call.reads]))
    refine .inr ⟨_, _, rfl, rfl, ?_⟩
    rw [← h1, ← h3]
    exact same_operate ht H x (v := { g.obj x with value := f.bin.fn (g.obj x).value (g.obj y).value }) h2 (fun r => eq_good r f _ _) (by simpa using ⟨h2, h4⟩)
  | cexp cop dst l r a b =>
    have ha : ∀ i ∈ [l, r, a, b], A i := fun i hi => hA i (by simpa [Call.reads] using hi)
    have e1 : ∀ i ∈ [l, r, a, b], g.constant M (g.obj i) ∨ (g.obj i).tapeId % M = t := fun i hi => (constant_or H (ha i hi)).1
    have e2 : ∀ i ∈ [l, r, a, b], h.constant M (h.obj i) ∨ (h.obj i).tapeId % M = t := fun i hi => (constant_or H (ha i hi)).2
    obtain ⟨h1, h2⟩ := H.obj l (ha l (by simp))
    obtain ⟨h3, h4⟩ := H.obj r (ha r (by simp))
    obtain ⟨h5, h6⟩ := H.obj a (ha a (by simp))
    obtain ⟨h7, h8⟩ := H.obj b (ha b (by simp))
    refine .inr ⟨_, _, by simp only [step]; rw [if_pos e1], by simp only [step]; rw [if_pos e2], ?_⟩
    rw [← h1, ← h3, ← h5, ← h7]
    exact same_operate ht H dst (.inl rfl) (fun s => cexp_good s cop _ _ _ _) (by simpa using ⟨h2, h4, h6, h8⟩)
  | compare cop x y =>
    obtain ⟨h1, h2⟩ := H.obj x (hA x (by simp [Call.reads]))
    obtain ⟨h3, h4⟩ := H.obj y (hA y (by simp [Call.reads]))
    simp only [step]
    rw [← H.tape]
    cases hg : g.tape t with
    | none => exact .inr ⟨_, _, rfl, rfl, hH⟩
    | some r =>
      refine .inr ⟨_, _, rfl, rfl, ?_⟩
      rw [← h1, ← h3]
      exact ⟨by simp, H.table, H.obj⟩
  | independent rc x p =>
    simp only [step]
    rw [← H.tape]
    cases hg : g.tape t with
    | some r => exact .inl ⟨rfl, rfl⟩
    | none =>
      dsimp only
      by_cases hx : x = []
      · rw [if_pos hx, if_pos hx]; exact .inl ⟨rfl, rfl⟩
      · rw [if_neg hx, if_neg hx]
        refine .inr ⟨_, _, rfl, rfl, ?_⟩
        have ex : (x.map fun a => (h.obj a).value) = x.map fun a => (g.obj a).value :=
          List.map_congr_left fun a ha => by rw [(H.obj a (hA a (by simp [Call.reads, ha]))).1]
        have ep : (p.map fun a => (h.obj a).value) = p.map fun a => (g.obj a).value :=
          List.map_congr_left fun a ha => by rw [(H.obj a (hA a (by simp [Call.reads, ha]))).1]
        have ei : h.newId M t = g.newId M t := by unfold G.newId; rw [H.table]
        rw [ex, ep, ei]
        obtain ⟨i1, i2, i3⟩ := independent_ids nan (c.hash nan) (g.newId M t) rc (x.map fun a => (g.obj a).value) (p.map fun a => (g.obj a).value)
        have hm := (newId_spec H.invG ht).1
        refine ⟨by simp, by simp, ?_⟩
        refine putAll_same _ (fun q hq => ?_) (putAll_same _ (fun q hq => ?_) H.obj)
        · rw [i3 _ (List.of_mem_zip hq).2]; exact .inr (.inl hm)
        · rw [i2 _ (List.of_mem_zip hq).2]; exact .inr (.inl hm)
  | dependent y =>
    simp only [step]
    rw [← H.tape]
    cases hg : g.tape t with
    | none => exact .inl ⟨rfl, rfl⟩
    | some r =>
      dsimp only
      by_cases hy : y = []
      · rw [if_pos hy, if_pos hy]; exact .inl ⟨rfl, rfl⟩
      · rw [if_neg hy, if_neg hy]; exact .inr ⟨_, _, rfl, rfl, same_delete H⟩
  | abort =>
    simp only [step]
    rw [← H.tape]
    cases hg : g.tape t with
    | none => exact .inr ⟨_, _, rfl, rfl, hH⟩
    | some r => exact .inr ⟨_, _, rfl, rfl, same_delete H⟩

theorem stored_same (H : Sim M g0 A t g h) (call : Call) (hA : ∀ a, a ∈ call.reads → A a) : stored t g call = stored t h call := by
  cases call with
  | dependent y =>
    simp only [stored]
    rw [← H.tape]
    cases g.tape t with
    | none => rfl
    | some r =>
      have : y.map g.obj = y.map h.obj := List.map_congr_left fun a ha => (H.obj a (hA a ha)).1
      simp only [this]
  | _ => rfl

theorem stored_fst {u : ℕ} (g : G) (call : Call) : ∀ p ∈ stored u g call, p.1 = u := by
  intro p hp
  cases call with
  | dependent y =>
    simp only [stored] at hp
    cases hg : g.tape u with
    | none => rw [hg] at hp; simp at hp
    | some r => rw [hg] at hp; simp at hp; rw [hp]
  | _ => simp [stored] at hp

theorem run_sim {A : ℕ → ℕ → Prop} : ∀ (l : List (ℕ × Call)), (∀ p ∈ l, p.1 < M ∧ (∀ a, a ∈ p.2.reads → A p.1 a) ∧ ∀ u, u ≠ p.1 → ∀ a ∈ p.2.writes, ¬ A u a) →
    ∀ (g : G) (h : ℕ → G), (∀ t < M, Sim M g0 (A t) t g (h t)) →
    match run M c nan l g with
    | some q => ∀ t < M, ∃ r, run M c nan (part t l) (h t) = some r ∧ Sim M g0 (A t) t q.1 r.1 ∧ q.2.filter (fun p => p.1 = t) = r.2
    | none => ∃ t < M, run M c nan (part t l) (h t) = none := by
  intro l
  induction l with
  | nil => intro _ g h H; simp only [run]; exact fun t ht => ⟨(h t, []), rfl, H t ht, rfl⟩
  | cons p l ih =>
    intro hl g h H
    obtain ⟨u, call⟩ := p
    obtain ⟨hu, hr, hw⟩ := hl (u, call) List.mem_cons_self
    have hl' := fun p hp => hl p (List.mem_cons_of_mem _ hp)
    have pu : part u ((u, call) :: l) = (u, call) :: part u l := by simp [part]
    have po : ∀ t, t ≠ u → part t ((u, call) :: l) = part t l := by
      intro t ht; simp [part, ht.symm]
    simp only [run]
    rcases same_step (c := c) (nan := nan) hu (H u hu) call hr with ⟨e1, e2⟩ | ⟨g', h', e1, e2, hs⟩
    · rw [e1]
      refine ⟨u, hu, ?_⟩
      rw [pu]; simp only [run, e2, Option.bind_none]
    · rw [e1]
      simp only [Option.bind_some]
      have H' : ∀ t < M, Sim M g0 (A t) t g' (if t = u then h' else h t) := by
        intro t ht
        by_cases htu : t = u
        · subst htu
          rw [if_pos rfl]
          have H0 := H t ht
          exact ⟨step_inv H0.invG ht e1, step_inv H0.invH ht e2, fun v => (H0.monoG v).trans (step_mono H0.invG ht e1 v),
            fun v => (H0.monoH v).trans (step_mono H0.invH ht e2 v), hs.tape, hs.table, hs.obj⟩
        · rw [if_neg htu]
          exact sim_other (Ne.symm htu) hu (H t ht) e1 (hw t htu)
      have key := ih hl' g' _ H'
      cases hq : run M c nan l g' with
      | none =>
        rw [hq] at key
        obtain ⟨t, ht, hn⟩ := key
        refine ⟨t, ht, ?_⟩
        by_cases htu : t = u
        · subst htu
          rw [if_pos rfl] at hn
          rw [pu]; simp only [run, e2, Option.bind_some, hn, Option.map_none]
        · rw [if_neg htu] at hn
          rw [po t htu]; exact hn
      | some q =>
        rw [hq] at key
        simp only [Option.map_some]
        intro t ht
        obtain ⟨r, r1, r2, r3⟩ := key t ht
        by_cases htu : t = u
        · subst htu
          rw [if_pos rfl] at r1
          refine ⟨(r.1, stored t (h t) call ++ r.2), ?_, r2, ?_⟩
          · rw [pu]; simp only [run, e2, Option.bind_some, r1, Option.map_some]
          · rw [List.filter_append, r3, stored_same (H t ht) call hr]
            congr 1
            exact List.filter_eq_self.2 fun p hp => by simpa using stored_fst (h t) call p hp
        · rw [if_neg htu] at r1
          refine ⟨r, by rw [po t htu]; exact r1, r2, ?_⟩
          rw [List.filter_append, r3]
          have : (stored u g call).filter (fun p => decide (p.1 = t)) = [] :=
            List.filter_eq_nil_iff.2 fun p hp => by rw [stored_fst g call p hp]; simpa using Ne.symm htu
          rw [this, List.nil_append]

/-! ## The property theorem -/

/-- **C51.**  `g` is any state in which no thread is recording (parallel mode starts and ends in such states), `l` any schedule of calls of
threads `0, ..., M - 1` where no call changes an object that a call of another thread uses.

An assertion fails in the schedule if and only if it fails in some thread that runs alone.  When none fails, every thread `t` has at the end
the same recording, the same tape identifier, the same values in all the objects it uses, and it stored the same functions in the same
order as when it runs alone: what a thread records does not depend on the schedule. -/
theorem schedule_ok {g : G} (hg : Reachable M c nan g) (hn : ∀ t, g.tape t = none) (l : List (ℕ × Call)) (hM : ∀ p ∈ l, p.1 < M) (hl : RaceFree l) :
    (run M c nan l g = none ↔ ∃ t < M, run M c nan (part t l) g = none) ∧
    ∀ g' fs, run M c nan l g = some (g', fs) → ∀ t < M, ∃ gt ft, run M c nan (part t l) g = some (gt, ft) ∧
      g'.tape t = gt.tape t ∧ g'.idTable t = gt.idTable t ∧ fs.filter (fun p => p.1 = t) = ft ∧
      ∀ p ∈ l, p.1 = t → ∀ a, a ∈ p.2.reads ∨ a ∈ p.2.writes → g'.obj a = gt.obj a := by
  have hi := hg.inv
  let A : ℕ → ℕ → Prop := fun t a => ∃ p ∈ l, p.1 = t ∧ (a ∈ p.2.reads ∨ a ∈ p.2.writes)
  have key := run_sim (c := c) (nan := nan) (g0 := g) (A := A) l (fun p hp => ⟨hM p hp, fun a ha => ⟨p, hp, rfl, .inl ha⟩, fun u hu a ha => by
      rintro ⟨q, hq, rfl, h'⟩
      obtain ⟨r1, r2⟩ := hl q hq p hp hu a ha
      exact h'.elim r1 r2⟩) g (fun _ => g) (fun t _ => ⟨hi, hi, fun _ => le_rfl, fun _ => le_rfl, rfl, rfl, fun a _ => ⟨rfl, by
        rcases hi.obj a with h1 | h1 | ⟨h1, h2⟩
        · exact .inl h1
        · exact .inr (.inr h1)
        · rw [hn] at h2; simp at h2⟩⟩)
  cases hq : run M c nan l g with
  | none =>
    rw [hq] at key
    exact ⟨⟨fun _ => key, fun _ => rfl⟩, by simp⟩
  | some q =>
    rw [hq] at key
    refine ⟨⟨by simp, fun ⟨t, ht, h⟩ => ?_⟩, ?_⟩
    · obtain ⟨r, r1, _⟩ := key t ht
      rw [r1] at h; simp at h
    · intro g' fs he t ht
      simp only [Option.some.injEq] at he
      subst he
      obtain ⟨r, r1, r2, r3⟩ := key t ht
      exact ⟨r.1, r.2, r1, r2.tape, r2.table, r3, fun p hp hpt a ha => (r2.obj a ⟨p, hp, hpt, ha⟩).1⟩

/-- two schedules with the same calls in every thread give every thread the same recordings -/
theorem schedule_independent {g : G} (hg : Reachable M c nan g) (hn : ∀ t, g.tape t = none) (l l' : List (ℕ × Call)) (hM : ∀ p ∈ l, p.1 < M)
    (hM' : ∀ p ∈ l', p.1 < M) (hl : RaceFree l) (hl' : RaceFree l') (he : ∀ t, part t l = part t l') :
    (run M c nan l g = none ↔ run M c nan l' g = none) ∧
    ∀ g1 f1 g2 f2, run M c nan l g = some (g1, f1) → run M c nan l' g = some (g2, f2) → ∀ t < M,
      g1.tape t = g2.tape t ∧ f1.filter (fun p => p.1 = t) = f2.filter (fun p => p.1 = t) := by
  obtain ⟨a1, a2⟩ := schedule_ok hg hn l hM hl
  obtain ⟨b1, b2⟩ := schedule_ok hg hn l' hM' hl'
  refine ⟨by rw [a1, b1]; simp only [he], ?_⟩
  intro g1 f1 g2 f2 h1 h2 t ht
  obtain ⟨gt, ft, c1, c2, _, c4, _⟩ := a2 g1 f1 h1 t ht
  obtain ⟨gt', ft', d1, d2, _, d4, _⟩ := b2 g2 f2 h2 t ht
  rw [he t, d1] at c1
  simp only [Option.some.injEq, Prod.mk.injEq] at c1
  obtain ⟨rfl, rfl⟩ := c1
  exact ⟨c2.trans d2.symm, c4.trans d4.symm⟩

/-! ### A schedule that meets the hypotheses -/

/-- two threads: thread 0 records a function of the object at address 0, thread 1 of the one at address 1; both use the constant at
address 9 -/
def exSchedule : List (ℕ × Call) :=
  [(0, .independent true [0] []), (1, .independent true [1] []), (1, .bin .mul 11 1 9), (0, .bin .add 10 0 9), (1, .dependent [11]), (0, .dependent [10])]

theorem exSchedule_raceFree : RaceFree exSchedule := by
  unfold RaceFree exSchedule
  decide

example (c : Cfg) (v : ℕ → ℝ) : ∃ g' fs, run 2 c 0 exSchedule (G.start v) = some (g', fs) ∧ fs.length = 2 ∧
    ∃ gt ft, run 2 c 0 (part 1 exSchedule) (G.start v) = some (gt, ft) ∧ fs.filter (fun p => p.1 = 1) = ft ∧ ft.length = 1 := by
  obtain ⟨-, h2⟩ := schedule_ok (M := 2) (c := c) (nan := 0) ⟨v, .refl _⟩ (fun _ => rfl) exSchedule (by simp [exSchedule]) exSchedule_raceFree
  obtain ⟨q, hq, e1, e2⟩ : ∃ q, run 2 c 0 exSchedule (G.start v) = some q ∧ q.2.length = 2 ∧ (q.2.filter (fun p => p.1 = 1)).length = 1 := by
    simp [exSchedule, run, step, G.start, G.operate, stored, G.newId, G.delete, G.put]
  obtain ⟨gt, ft, c1, _, _, c4, _⟩ := h2 q.1 q.2 hq 1 (by norm_num)
  exact ⟨q.1, q.2, hq, e1, gt, ft, c1, c4, by rw [← c4]; exact e2⟩

end CppAD.Record.Threads
