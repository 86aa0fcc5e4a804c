import Verif.Record.Thm

/-! # Conditional expressions in reverse mode, the two defects of the recorder, and concrete sessions -/

open scoped Classical

namespace CppAD.Record

open CppAD

/-! ## C11: reverse mode -/

theorem opdAdd_ok (o : Opd) (d iz : ℕ) (G : ℝ → ℝ) (P : Tay) (ho : o ≠ .var iz) :
    (∀ j, opdAdd o d (fun j P => G (P iz j)) P iz j = P iz j) ∧
    ∀ v j, opdAdd o d (fun j P => G (P iz j)) P v j = P v j + if o = .var v ∧ j ≤ d then G (P iz j) else 0 := by
  cases o with
  | par c => exact ⟨fun _ => rfl, fun v j => by simp [opdAdd]⟩
  | var u =>
    have hu : u ≠ iz := fun h => ho (by rw [h])
    have key := forDown0_ind (n := d + 1) (s := P) (f := fun j P => P.add u j (G (P iz j)))
      (P := fun n Q => ∀ v j, Q v j = P v j + if u = v ∧ n ≤ j ∧ j ≤ d then G (P iz j) else 0)
      (fun v j => by rw [if_neg (by omega), add_zero]) (by
        intro n Q hn h v j
        have hz : Q iz n = P iz n := by rw [h, if_neg (fun hh => hu hh.1), add_zero]
        rw [hz]
        unfold Tay.add
        rw [Tay.set_apply]
        by_cases hv : v = u ∧ j = n
        · obtain ⟨rfl, rfl⟩ := hv
          rw [if_pos ⟨rfl, rfl⟩, h v j, if_neg (by omega), if_pos ⟨rfl, le_rfl, by omega⟩, add_zero]
        · rw [if_neg hv, h v j]
          congr 1
          by_cases h' : u = v ∧ n + 1 ≤ j ∧ j ≤ d
          · rw [if_pos h', if_pos ⟨h'.1, by omega, h'.2.2⟩]
          · rw [if_neg h', if_neg]
            rintro ⟨rfl, h1, h2⟩
            have : j ≠ n := fun hj => hv ⟨rfl, hj⟩
            exact h' ⟨rfl, by omega, h2⟩)
    refine ⟨fun j => ?_, fun v j => ?_⟩
    · refine (key iz j).trans ?_
      rw [if_neg (fun h => hu h.1), add_zero]
    · refine (key v j).trans ?_
      simp only [Nat.zero_le, true_and, Opd.var.injEq]

/-- **C11**: reverse mode adds the partials of the result to the partials of the selected branch and to nothing else, at
every point (also where `left = right`) -/
theorem cexp_reverse_selected (cop : CompareOp) (l r t f : Opd) (d iz : ℕ) (s P : Tay) (ht : t ≠ .var iz) (hf : f ≠ .var iz)
    (v j : ℕ) :
    cexpReverse cop l r t f d iz s P v j
      = P v j + if selected cop l r t f s = .var v ∧ j ≤ d then P iz j else 0 := by
  have l0 : l.at0 s = opdCoef l s 0 := by cases l <;> simp [Opd.at0, opdCoef]
  have r0 : r.at0 s = opdCoef r s 0 := by cases r <;> simp [Opd.at0, opdCoef]
  unfold cexpReverse
  have h1 := opdAdd_ok t d iz (fun z => condExp cop (l.at0 s) (r.at0 s) z 0) P ht
  have h2 := opdAdd_ok f d iz (fun z => condExp cop (l.at0 s) (r.at0 s) 0 z)
    (opdAdd t d (fun j P => condExp cop (l.at0 s) (r.at0 s) (P iz j) 0) P) hf
  rw [h2.2 v j, h1.1 j, h1.2 v j]
  unfold selected condExp
  rw [l0, r0]
  by_cases hc : cop.holds (opdCoef l s 0) (opdCoef r s 0)
  · rw [if_pos hc, if_pos hc, if_pos hc]; simp
  · rw [if_neg hc, if_neg hc, if_neg hc]; simp

/-- a conditional expression with a tie, `CondExpLe(x1, x1, x2, 7)`, order one -/
example : cexpForward .le (.var 1) (.var 1) (.var 2) (.par 7) 0 1 3 (fun v k => v + k) 3 1 = 3 := by
  rw [cexp_forward_selected _ _ _ _ _ _ _ _ _ (by simp) (Nat.zero_le _) le_rfl]
  simp [selected, CompareOp.holds, opdCoef]; norm_num

/-! ## The two defects -/

/-- some configuration -/
noncomputable def cfg0 : Cfg := ⟨fun _ => 0, fun _ x => x⟩

/-- session with one independent variable equal to 1 and no dynamic parameters -/
noncomputable def defSession : Session := ⟨cfg0, 0, 7, true, [], [1], [], []⟩

theorem defSession_ok : defSession.Ok := ⟨by simp [defSession], by simp [defSession], by simp [defSession], by simp [defSession]⟩

/-- `y = CondExpLt(0, 1, x, 5)` where 0 and 1 are constants -/
def cexpProg : Prog := .instr (.con 0) (.instr (.con 1) (.instr (.con 5) (.instr (.cexp .lt 1 2 0 3) (.ret [4]))))

/-- **C06, C11 fail**: when `left` and `right` are constants the result of a conditional expression is recorded as a constant, although
the selected branch is the variable `x` (cond_exp.hpp:175-180).  Recorded at `x = 1`, evaluated at `x = 2` the
result is 1 and not 2. -/
theorem condExp_constant_wrong :
    defSession.Ok ∧ cexpProg.run cfg0.disc (defSession.store [2] []) = [2] ∧
    ((defSession.fun_ cexpProg).tape cfg0.disc [2]).eval (fun _ => 2) 0 = 1 := by
  refine ⟨defSession_ok, ?_, ?_⟩
  · simp [cexpProg, Prog.run, Instr.run, Session.store, defSession, at', condExp, CompareOp.holds]
  · simp [defSession, cexpProg, Session.fun_, Session.recorded, Prog.record, Instr.record, cexpAD, Rec.constant, reg, AD.con,
      independent, Rec.dependents, Rec.dependent, Rec.var, Rec.parAddr, Rec.dyn, Rec.putCon, DynRec.putConPar, cfg0, Rec.toFun,
      Fun.tape, Tape.eval, Rec.putOp, resolve, ROp.toOpM, ROp.toOp, Fun.par, at', condExp, CompareOp.holds, evalOps, stepEnv, ROp.nres, Op.nres, Op.val]

/-- `y = pow(0, x)` where 0 is a constant -/
def powProg : Prog := .instr (.con 0) (.instr (.bin .pow 1 0) (.ret [2]))

/-- **C06 fails**: `pow(0, y)` with a constant zero is recorded as a constant (pow.hpp:178-180), although it depends on `y`:
recorded at `x = 1` with the value 0, evaluated at `x = 0` the result is 0 and not `0 ^ 0 = 1`. -/
theorem pow_zero_wrong :
    defSession.Ok ∧ powProg.run cfg0.disc (defSession.store [0] []) = [1] ∧
    ((defSession.fun_ powProg).tape cfg0.disc [0]).eval (fun _ => 0) 0 = 0 := by
  refine ⟨defSession_ok, ?_, ?_⟩
  · simp [powProg, Prog.run, Instr.run, Session.store, defSession, at', BinF.fn]
  · simp [defSession, powProg, Session.fun_, Session.recorded, Prog.record, Instr.record, binAD, powAD, reg, AD.con,
      independent, Rec.dependents, Rec.dependent, Rec.var, Rec.parAddr, Rec.dyn, Rec.putCon, DynRec.putConPar, cfg0, Rec.toFun,
      Fun.tape, Tape.eval, Rec.putOp, resolve, ROp.toOpM, ROp.toOp, Fun.par, at', evalOps, stepEnv, ROp.nres, Op.nres, Op.val]

/-! ## A concrete session -/

/-- one independent variable `x = 3`, one dynamic parameter `p = 2`, an old constant `5` -/
noncomputable def exSession : Session := ⟨cfg0, 0, 7, true, [AD.con 5], [3], [2], []⟩

/-- `z = x * p; if (z < 5) y = sin(z) else { z += x; y = z }` -/
def exProg : Prog :=
  .instr (.bin .mul 1 2) (.branch .lt 3 0 (.instr (.un .sin 3) (.ret [4])) (.instr (.opEq .add 3 1) (.ret [3])))

theorem exSession_ok : exSession.Ok := ⟨by simp [exSession], by simp [exSession, AD.con], by simp [exSession], by simp [exSession]⟩
theorem exProg_plain : exProg.plain := ⟨trivial, ⟨trivial, trivial⟩, trivial, trivial⟩

theorem exProg_faithful : exSession.Faithful exProg := exProg_plain.faithful _ _

theorem exOutcomes : (exSession.recorded exProg).outcomes = [false] := by
  have h := (recorded_ok exSession_ok exProg_faithful).2.2.2.1
  rw [show exSession.D exSession.w0 = exSession.store exSession.x exSession.p from exSession.D_eq rfl rfl _] at h
  rw [h]
  have hl : exProg.outcomes exSession.cfg.disc (exSession.recorded exProg).outcomes (exSession.store exSession.x exSession.p) (exSession.store exSession.x exSession.p)
      = [decide (CompareOp.lt.holds (6 : ℝ) 5)] := by
    simp only [exProg, Prog.outcomes, Instr.run, ite_self]
    congr 2
    simp [exSession, Session.store, at', BinF.fn, AD.con]; norm_num
  rw [hl]
  simp [CompareOp.holds]; norm_num

/-- Recorded with `x = 3, p = 2`; after `f.new_dynamic(10)` and then `f.new_dynamic(4)`, `f.Forward(0, 7)` returns `7 * 4 + 7`. -/
example (junk : ℕ → ℝ) (nan : ℝ) : ∃ F f S, exSession.Hist exProg F [4] f S ∧ (F.forward exSession.cfg.disc f junk nan 0 [7]).2 = [35] := by
  refine ⟨_, _, _, .newDynamic [4] [0] (.newDynamic [10] [0] (.start (fun _ => 0) (fun _ _ _ => 0) [0] rfl) rfl rfl) rfl rfl, ?_⟩
  rw [replay_plain exSession_ok exProg_plain (.newDynamic [4] [0] (.newDynamic [10] [0] (.start (fun _ => 0) (fun _ _ _ => 0) [0] rfl) rfl rfl) rfl rfl)
    junk nan [7] rfl, exOutcomes]
  simp [exProg, Prog.follow, Instr.run, Session.store, exSession, at', BinF.fn, EqF.bin, AD.con]; norm_num

/-- at `x = 1`, `p = 2` the comparison `x * p < 5` has a different outcome -/
example : ∃ F f S, exSession.Hist exProg F [2] f S ∧
    (F.compareChange cfg0.disc 1 (fun _ _ => 1)).number = 1 := by
  refine ⟨_, _, _, .start (fun _ => 0) (fun _ _ _ => 0) [0] rfl, ?_⟩
  have := (compare_change_number_partial exSession_ok exProg_faithful
    (.start (fun _ => 0) (fun _ _ _ => 0) [0] rfl) rfl (count := 1) one_pos (x := [1]) rfl (t := fun _ _ => 1)
    (by intro j hj; have : j = 0 := by simpa [exSession] using hj
        subst this; simp [at'])).1
  refine this.trans ?_
  rw [exOutcomes]
  have hl : exProg.outcomes exSession.cfg.disc [false] (exSession.store [1] exSession.p) (exSession.store [1] exSession.p)
      = [decide (CompareOp.lt.holds (2 : ℝ) 5)] := by
    simp [exProg, Prog.outcomes, Instr.run, exSession, Session.store, at', BinF.fn, AD.con]
  rw [hl, decide_eq_true (show CompareOp.lt.holds (2 : ℝ) 5 by show (2 : ℝ) < 5; norm_num)]
  simp [numChanged]

/-- a faithful session with a conditional expression whose operands are variables and dynamic parameters -/
example : exSession.Faithful (.instr (.cexp .lt 1 2 0 1) (.ret [3])) := by
  refine ⟨?_, trivial⟩
  intro h
  simp [Rec.constant, reg, exSession, independent] at h

/-! ## A session with a VecAD vector -/

/-- two independent variables, recorded at `(0, 5)` -/
noncomputable def vecSession : Session := ⟨cfg0, 0, 7, true, [], [0, 5], [], []⟩

/-- `VecAD V = {10, 20, 30}; V[x0] = x1; y = V[2] * x1` -/
noncomputable def vecProg : Prog :=
  .instr (.vnew [10, 20, 30]) (.instr (.con 2) (.instr (.vstore 0 0 1) (.instr (.vload 0 2) (.instr (.bin .mul 3 1) (.ret [4])))))

theorem vecSession_ok : vecSession.Ok := ⟨by simp [vecSession], by simp [vecSession], by simp [vecSession], by simp [vecSession]⟩

theorem vecProg_plain : vecProg.plain := ⟨trivial, trivial, trivial, trivial, trivial, trivial⟩

theorem vecIndex_two : vecIndex 3 2 = some 2 := by
  unfold vecIndex
  have : (-1 : ℝ) < 2 := by norm_num
  simp [this]

/-- Recorded at `x = (0, 5)`, where `V[2]` is the constant 30; at `x = (2, 7)` the element that is loaded is the variable `x1`, so
`f.Forward(0, x)` returns `7 * 7`. -/
example (junk : ℕ → ℝ) (nan : ℝ) : ∃ F f S, vecSession.Hist vecProg F [] f S ∧
    (F.forward vecSession.cfg.disc f junk nan 0 [2, 7]).2 = [49] := by
  refine ⟨_, _, _, .start (fun _ => 0) (fun _ _ _ => 0) [0, 0] rfl, ?_⟩
  rw [replay_plain vecSession_ok vecProg_plain (.start (fun _ => 0) (fun _ _ _ => 0) [0, 0] rfl) junk nan [2, 7] rfl]
  simp [vecProg, Prog.follow, Instr.run, Session.store, vecSession, at', BinF.fn, vecGet, vecSet, vecIndex_two]; norm_num

end CppAD.Record
