import Verif.Record.Thm2
import Verif.AtomEx.VecSparse

/-! # A concrete session with a call of an atomic function -/

open scoped Classical

namespace CppAD.Record

open CppAD CppAD.AtomEx

/-- vector addition with three components (example/atomic_four/vector/add_op.hpp), which satisfies the contract of an atomic function -/
noncomputable def addAtom : RAtom where
  A := linAtom (fun _ => 0) .add 3 (Or.inl rfl)
  forType := vecForType .add 3 (fun _ => .var)
  type_ok := vecForType_ok .add 3 _

theorem addAtom_m : addAtom.A.m = 3 := rfl

theorem addAtom_fn (x : Fin addAtom.A.n → ℝ) (i : ℕ) : addAtom.A.fn x i = ev x i + ev x (3 + i) := rfl

/-- an argument of the function -/
theorem ev_addAtom (g : ℕ → ℝ) (i : ℕ) (hi : i < 6) : ev (fun j : Fin addAtom.A.n => g j) i = g i :=
  ev_of_lt (n := 6) (fun j : Fin 6 => g j) hi

/-- one independent variable `x = 3`, one dynamic parameter `p = 2` and an old constant 5 (positions 1, 2, 0) -/
noncomputable def atomSession : Session := ⟨cfg0, 0, 7, true, [AD.con 5], [3], [2], []⟩

/-- `(y0, y1, y2) = (x, p, 5) + (5, p, 5); z = y0 * y1; w = z * y2` -/
noncomputable def atomProg : Prog :=
  .instr (.atom addAtom [1, 2, 0, 0, 2, 0]) (.instr (.bin .mul 3 4) (.instr (.bin .mul 6 5) (.ret [7])))

theorem atomSession_ok : atomSession.Ok :=
  ⟨by simp [atomSession], by simp [atomSession, AD.con], by simp [atomSession], by simp [atomSession]⟩

theorem atomProg_plain : atomProg.plain := ⟨trivial, trivial, trivial, trivial⟩

/-- the first result of the call is a variable, the second a dynamic parameter and the third a constant -/
theorem atomProg_types : (List.range 3).map (addAtom.forType (atomSession.rec0.atomTypes
    ((List.range 6).map fun j => reg atomSession.store0.m ([1, 2, 0, 0, 2, 0].getD j 0)))) = [.var, .dynamic, .constant] := by
  have e : ∀ tx i, i < 3 → addAtom.forType tx i = (tx i).max (tx (3 + i)) := fun tx i hi => forRange_assign _ _ _ (fun _ _ _ => rfl) hi
  simp [List.range, List.range.loop, e, Rec.atomTypes, Rec.atomType, Session.rec0, Session.store0, atomSession, independent, reg, AD.con, AdT.max,
    Rec.var, Rec.dyn, AdT.rank]

/-- Recorded with `x = 3, p = 2`; after `f.new_dynamic(4)`, `f.Forward(0, 7)` returns `(7 + 5) * (4 + 4) * (5 + 5)`. -/
example (junk : ℕ → ℝ) (nan : ℝ) : ∃ F f S, atomSession.Hist atomProg F [4] f S ∧ (F.forward atomSession.cfg.disc f junk nan 0 [7]).2 = [960] := by
  refine ⟨_, _, _, .newDynamic [4] [0] (.start (fun _ => 0) (fun _ _ _ => 0) [0] rfl) rfl rfl, ?_⟩
  rw [replay_plain atomSession_ok atomProg_plain (.newDynamic [4] [0] (.start (fun _ => 0) (fun _ _ _ => 0) [0] rfl) rfl rfl)
    junk nan [7] rfl]
  simp only [atomProg, Prog.follow, Instr.run, Session.store, atomSession, addAtom_m, addAtom_fn]
  have e (i : ℕ) (hi : i < 6) := ev_addAtom (fun j => at' ([5, 7, 4] : List ℝ) ([1, 2, 0, 0, 2, 0].getD j 0)) i hi
  simp only [List.map_cons, List.map_nil, AD.con, List.cons_append, List.nil_append, List.range, List.range.loop, e 0 (by norm_num), e 1 (by norm_num), e 2 (by norm_num), e (3+0) (by norm_num), e (3+1) (by norm_num),
    e (3+2) (by norm_num)]
  simp [at', BinF.fn]; norm_num

end CppAD.Record
