import Verif.Record.Thm2

/-! # C61: PrintFor

What `f.Forward(q, xq, s)` prints on the stream `s`. -/

open scoped Classical

namespace CppAD.Record

open CppAD

variable {s : Session} {P : Prog}

/-- **C61**: after any history, Forward with lowest order zero at `x` prints `before`, `value`, `after` for exactly the calls `PrintFor(notpos, before,
value, after)` in the recorded operation sequence for which `notpos`, computed at `x` and the current dynamic parameters, is not greater than zero;
in the order of the calls, and with `value` also computed at `x` and the current dynamic parameters.  Forward for higher orders prints nothing.
`t` are the Taylor coefficients after the independent variables have been set to `x`.  (The hypothesis `Faithful` excludes the two defects
`condExp_constant_wrong` and `pow_zero_wrong`; this is why the theorem is partial.) -/
theorem print_for_partial (hs : s.Ok) (hf : s.Faithful P) {F : Fun} {p : List ℝ} {f : ADFun} {S : St} (h : s.Hist P F p f S)
    {x : List ℝ} (hx : x.length = s.x.length) {t : Tay} (ht : ∀ j < s.x.length, t (j + 1) 0 = at' x j) (low q : ℕ) :
    F.printed s.cfg.disc low q t =
      if low = 0 then P.prints s.cfg.disc (s.recorded P).outcomes (s.store x p) (s.store x p) else [] := by
  obtain ⟨rfl, hp, -⟩ := h.reach hs hf
  unfold Fun.printed
  split_ifs
  · have e := recorded_prints hs hf ⟨p, x, x⟩
    have hsel : s.D (World.sel ⟨p, x, x⟩) = s.store x p := s.D_eq hx hp x
    rw [hsel, s.D_eq hx hp] at e
    rw [← e, funAt_par p ⟨p, x, x⟩ rfl]
    exact sweepPri_ok s.cfg.disc _ _ _ q _ _ (indSet (s.recorded P).r.n) t _ (indEnv (at' x)) (indSet_lt _)
      ((recorded_ok hs hf).1.wf ⟨p, x, x⟩) (recorded_ok hs hf).1.cmp (ind_agree hs hf ht)
  · rfl

/-- **C61**: if the comparisons in the algorithm have the same outcomes as while recording (see C10), then this is the output of the algorithm
executed directly on real numbers. -/
theorem print_for_run_partial (hs : s.Ok) (hf : s.Faithful P) {F : Fun} {p : List ℝ} {f : ADFun} {S : St} (h : s.Hist P F p f S)
    {x : List ℝ} (hx : x.length = s.x.length) {t : Tay} (ht : ∀ j < s.x.length, t (j + 1) 0 = at' x j) (q : ℕ)
    (ho : P.outcomes s.cfg.disc (s.recorded P).outcomes (s.store x p) (s.store x p) = (s.recorded P).outcomes) :
    F.printed s.cfg.disc 0 q t = P.runPrints s.cfg.disc (s.store x p) := by
  rw [print_for_partial hs hf h hx ht, if_pos rfl, Prog.runPrints_eq _ _ _ _ ho]

/-- **C61** for algorithms without conditional expressions, pow and VecAD access by size_t: no hypothesis on the recording -/
theorem print_for_plain (hs : s.Ok) (hP : P.plain) {F : Fun} {p : List ℝ} {f : ADFun} {S : St} (h : s.Hist P F p f S)
    {x : List ℝ} (hx : x.length = s.x.length) {t : Tay} (ht : ∀ j < s.x.length, t (j + 1) 0 = at' x j) (low q : ℕ) :
    F.printed s.cfg.disc low q t =
      if low = 0 then P.prints s.cfg.disc (s.recorded P).outcomes (s.store x p) (s.store x p) else [] :=
  print_for_partial hs (hP.faithful _ _) h hx ht low q

/-! ## Example -/

/-- `z = x * p; PrintFor(z, "z=", x, "\n"); PrintFor("p=", p); y = sin(z)`, where the second call is PrintFor(0, "p=", p, "") -/
def priProg : Prog :=
  .instr (.bin .mul 1 2) (.instr (.print 3 ['z', '='] 1 ['\n']) (.instr (.con 0)
    (.instr (.print 4 ['p', '='] 2 []) (.instr (.un .sin 3) (.ret [5])))))

theorem priProg_plain : priProg.plain := ⟨trivial, trivial, trivial, trivial, trivial, trivial⟩

/-- Recorded with `x = 3`, `p = 2`.  At `x = 1`, `p = -4` both calls print; at `x = 1`, `p = 4` only the second one. -/
example : (∃ F f S, exSession.Hist priProg F [-4] f S ∧
      F.printed cfg0.disc 0 0 (fun _ _ => 1) = [(['z', '='], 1, ['\n']), (['p', '='], -4, [])]) ∧
    ∃ F f S, exSession.Hist priProg F [4] f S ∧ F.printed cfg0.disc 0 0 (fun _ _ => 1) = [(['p', '='], 4, [])] := by
  have ht : ∀ j < exSession.x.length, (fun _ _ => (1 : ℝ) : Tay) (j + 1) 0 = at' [1] j := by
    intro j hj
    have : j = 0 := by simpa [exSession] using hj
    subst this; simp [at']
  constructor
  · refine ⟨_, _, _, .newDynamic [-4] [0] (.start (fun _ => 0) (fun _ _ _ => 0) [0] rfl) rfl rfl, ?_⟩
    refine (print_for_plain exSession_ok priProg_plain (.newDynamic [-4] [0] (.start (fun _ => 0) (fun _ _ _ => 0) [0] rfl) rfl rfl)
      (x := [1]) rfl ht 0 0).trans ?_
    simp [priProg, Prog.prints, Instr.prints, Instr.run, Session.store, exSession, at', BinF.fn, AD.con, cstr]
    rw [if_neg (by norm_num)]; rfl
  · refine ⟨_, _, _, .newDynamic [4] [0] (.start (fun _ => 0) (fun _ _ _ => 0) [0] rfl) rfl rfl, ?_⟩
    refine (print_for_plain exSession_ok priProg_plain (.newDynamic [4] [0] (.start (fun _ => 0) (fun _ _ _ => 0) [0] rfl) rfl rfl)
      (x := [1]) rfl ht 0 0).trans ?_
    simp [priProg, Prog.prints, Instr.prints, Instr.run, Session.store, exSession, at', BinF.fn, AD.con, cstr]

end CppAD.Record
