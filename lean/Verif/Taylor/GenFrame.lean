import Verif.Taylor.GenZero

/-! # Which rows a reverse operator reads and writes -/

open scoped Classical

namespace CppAD.Gen

variable {B : Type} [RevBase B]

omit [RevBase B] in
theorem set_keep {P : GTay B} {i k v : ℕ} {x : B} (h : v ≠ i) : GTay.set P i k x v = P v := by
  funext k'; exact if_neg fun hh => h hh.1

theorem add_keep {P : GTay B} {i k v : ℕ} {x : B} (h : v ≠ i) : GTay.add P i k x v = P v := set_keep h

omit [RevBase B] in
theorem forRange_keep {P : GTay B} {lo hi v : ℕ} {f : ℕ → GTay B → GTay B} (h : ∀ k P, f k P v = P v) :
    forRange lo hi P f v = P v :=
  forRange_inv (fun Q : GTay B => Q v = P v) rfl fun k Q _ _ hQ => (h k Q).trans hQ

omit [RevBase B] in
theorem forDown_keep {P : GTay B} {n v : ℕ} {f : ℕ → GTay B → GTay B} (h : ∀ k P, f k P v = P v) :
    forDown n P f v = P v := by
  induction n generalizing P with
  | zero => rfl
  | succ n ih => exact (ih (P := f (n + 1) P)).trans (h _ _)

omit [RevBase B] in
theorem forDown0_keep {P : GTay B} {n v : ℕ} {f : ℕ → GTay B → GTay B} (h : ∀ k P, f k P v = P v) :
    forDown0 n P f v = P v := by
  induction n generalizing P with
  | zero => rfl
  | succ n ih => exact (ih (P := f n P)).trans (h _ _)

omit [RevBase B] in
theorem foldl_keep {α : Type*} {l : List α} {P : GTay B} {v : ℕ} {f : GTay B → α → GTay B}
    (h : ∀ P, ∀ a ∈ l, f P a v = P v) : l.foldl f P v = P v := by
  induction l generalizing P with
  | nil => rfl
  | cons a l ih => exact (ih (P := f P a) fun P b hb => h P b (by simp [hb])).trans (h P a (by simp))

/-- one step of the proof that a row is kept -/
macro "keep1" : tactic => `(tactic| first
  | rfl
  | refine (set_keep (by assumption)).trans ?_
  | refine (add_keep (by assumption)).trans ?_
  | (refine (forRange_keep fun k P => ?_).trans ?_)
  | (refine (forDown_keep fun k P => ?_).trans ?_)
  | (refine (forDown0_keep fun k P => ?_).trans ?_))

macro "keep" : tactic => `(tactic| repeat' keep1)

theorem expReverse_keep {ix d iz v : ℕ} {s P : GTay B} (h1 : v ≠ ix) (h2 : v ≠ iz) :
    expReverse ix d iz s P v = P v := by
  unfold expReverse expBody
  split_ifs
  · rfl
  · dsimp only; keep

theorem mulpv_keep {x : B} {iy d iz v : ℕ} {s P : GTay B} (h1 : v ≠ iy) : mulpvReverse x iy d iz s P v = P v := by
  unfold mulpvReverse; keep

theorem subpv_keep {x : B} {iy d iz v : ℕ} {s P : GTay B} (h1 : v ≠ iy) : subpvReverse x iy d iz s P v = P v := by
  unfold subpvReverse; keep

theorem mulvv_keep {ix iy d iz v : ℕ} {s P : GTay B} (h1 : v ≠ ix) (h2 : v ≠ iy) :
    mulvvReverse ix iy d iz s P v = P v := by
  unfold mulvvReverse; dsimp only; keep

theorem log_keep {ix d iz v : ℕ} {s P : GTay B} (h1 : v ≠ ix) (h2 : v ≠ iz) : logReverse ix d iz s P v = P v := by
  unfold logReverse; dsimp only; keep

theorem erf_keep {sg c : B} {ix d iz v : ℕ} {s P : GTay B} (h : v ≠ ix) (h0 : v ≠ iz - 4) (h1 : v ≠ iz - 4 + 1)
    (h2 : v ≠ iz - 4 + 2) (h3 : v ≠ iz - 4 + 3) (h4 : v ≠ iz - 4 + 4) : erfReverse sg c ix d iz s P v = P v := by
  unfold erfReverse erfBody
  split_ifs
  · rfl
  · dsimp only
    refine (mulvv_keep h h).trans ((subpv_keep h0).trans ((expReverse_keep h1 h2).trans ((mulpv_keep h2).trans ?_)))
    keep

theorem opdAdd_keep {o : GOpd B} {d v : ℕ} {g : ℕ → GTay B → B} {P : GTay B} (h : v ∉ o.vars) :
    opdAdd o d g P v = P v := by
  cases o with
  | par _ => rfl
  | var u =>
    have hu : v ≠ u := by simpa [GOpd.vars] using h
    unfold opdAdd; dsimp only; keep

theorem powvp_keep {ix d iz v : ℕ} {y : B} {s P : GTay B} (h1 : v ≠ ix) (h2 : v ≠ iz) :
    powvpReverse ix y d iz s P v = P v := by
  have key : ∀ n (pw : GTay B × GTay B) (f : ℕ → GTay B × GTay B → GTay B × GTay B),
      (∀ j pw, (f j pw).1 v = pw.1 v) → (forDown n pw f).1 v = pw.1 v := by
    intro n
    induction n with
    | zero => intro pw f _; rfl
    | succ n ih => intro pw f hf; exact (ih _ f hf).trans (hf _ _)
  unfold powvpReverse
  dsimp only
  refine (forRange_keep fun k P => set_keep h1).trans ?_
  refine key _ _ _ fun j pw => ?_
  dsimp only
  keep

/-- only the partials of the arguments and of the results change -/
theorem GOp.rev_keep (op : GOp B) (d nv v : ℕ) (s P : GTay B) (ha : v ∉ op.args) (hr : ¬(nv ≤ v ∧ v < nv + op.nres)) :
    op.rev d (nv + op.nres - 1) s P v = P v := by
  cases op with
  | csum c addv subv addp subp =>
    simp only [GOp.args, List.mem_append, not_or] at ha
    unfold GOp.rev csumReverse
    refine (foldl_keep fun P a hm => forDown0_keep fun k P => add_keep fun h => ?_).trans
      (foldl_keep fun P a hm => forDown0_keep fun k P => add_keep fun h => ?_)
    · exact ha.2 (h ▸ hm)
    · exact ha.1 (h ▸ hm)
  | cexp cop l r t f =>
    simp only [GOp.args, List.mem_append, not_or] at ha
    unfold GOp.rev cexpReverse
    exact (opdAdd_keep ha.2.2.2).trans (opdAdd_keep ha.2.2.1)
  | powvp ix y =>
    simp only [GOp.args, GOp.nres, List.mem_cons, List.not_mem_nil, or_false] at ha hr
    exact powvp_keep ha (by simp only [GOp.nres]; omega)
  | erf ix =>
    simp only [GOp.args, GOp.nres, List.mem_cons, List.not_mem_nil, or_false] at ha hr
    refine erf_keep ha ?_ ?_ ?_ ?_ ?_ <;> simp only [GOp.nres] <;> omega
  | erfc ix =>
    simp only [GOp.args, GOp.nres, List.mem_cons, List.not_mem_nil, or_false] at ha hr
    refine erf_keep ha ?_ ?_ ?_ ?_ ?_ <;> simp only [GOp.nres] <;> omega
  | exp ix =>
    simp only [GOp.args, GOp.nres, List.mem_cons, List.not_mem_nil, or_false] at ha hr
    exact expReverse_keep ha (by simp only [GOp.nres]; omega)
  | expm1 ix =>
    simp only [GOp.args, GOp.nres, List.mem_cons, List.not_mem_nil, or_false] at ha hr
    have h0 : v ≠ nv + (GOp.expm1 ix : GOp B).nres - 1 := by simp only [GOp.nres]; omega
    simp only [GOp.rev, expm1Reverse, expm1Body]
    split_ifs
    · rfl
    · keep
  | powpv x iy =>
    simp only [GOp.args, GOp.nres, List.mem_cons, List.not_mem_nil, or_false] at ha hr
    exact (mulpv_keep (s := s) ha).trans (expReverse_keep (by simp only [GOp.nres]; omega) (by simp only [GOp.nres]; omega))
  | powvv ix iy =>
    simp only [GOp.args, GOp.nres, List.mem_cons, List.not_mem_nil, or_false, not_or] at ha hr
    exact (log_keep ha.1 (by simp only [GOp.nres]; omega)).trans
      ((mulvv_keep (by simp only [GOp.nres]; omega) ha.2).trans
      (expReverse_keep (by simp only [GOp.nres]; omega) (by simp only [GOp.nres]; omega)))
  | par c => rfl
  | dis fn ix => rfl
  | sign ix => rfl
  | addvv ix iy | subvv ix iy | mulvv ix iy | divvv ix iy | zmulvv ix iy =>
    simp only [GOp.args, GOp.nres, List.mem_cons, List.not_mem_nil, or_false, not_or] at ha hr
    obtain ⟨h1, h2⟩ := ha
    have h0 : v ≠ nv + 1 - 1 := by omega
    simp only [GOp.nres, GOp.rev, addvvReverse, subvvReverse, mulvvReverse, divvvReverse, zmulvvReverse]
    keep
  | _ =>
    simp only [GOp.args, GOp.nres, List.mem_cons, List.not_mem_nil, or_false] at ha hr
    first
    | (have h0 : v ≠ nv + 1 - 1 := by omega
       simp only [GOp.nres, GOp.rev, absReverse, addpvReverse, subpvReverse, subvpReverse, mulpvReverse, divpvReverse,
        divvpReverse, zmulpvReverse, zmulvpReverse, negReverse, logReverse, log1pReverse, sqrtReverse]
       keep
       done)
    | (have h0 : v ≠ nv + 2 - 1 := by omega
       have h1 : v ≠ nv + 2 - 1 - 1 := by omega
       simp only [GOp.nres, GOp.rev, trigReverse, tanReverseG, atanReverseG, asinReverseG]
       keep
       done)

theorem exp_read {ix d iz : ℕ} {s s' P : GTay B} (h1 : s ix = s' ix) (h2 : s iz = s' iz) :
    expReverse ix d iz s P = expReverse ix d iz s' P := by
  simp only [expReverse, expBody, h1, h2]

theorem log_read {ix d iz : ℕ} {s s' P : GTay B} (h1 : s ix = s' ix) (h2 : s iz = s' iz) :
    logReverse ix d iz s P = logReverse ix d iz s' P := by
  simp only [logReverse, h1, h2]

theorem mulvv_read {ix iy d iz : ℕ} {s s' P : GTay B} (h1 : s ix = s' ix) (h2 : s iy = s' iy) :
    mulvvReverse ix iy d iz s P = mulvvReverse ix iy d iz s' P := by
  simp only [mulvvReverse, h1, h2]

theorem erf_read {sg c : B} {ix d iz : ℕ} {s s' P : GTay B} (h : s ix = s' ix) (_h0 : s (iz - 4) = s' (iz - 4))
    (h1 : s (iz - 4 + 1) = s' (iz - 4 + 1)) (h2 : s (iz - 4 + 2) = s' (iz - 4 + 2)) (h3 : s (iz - 4 + 3) = s' (iz - 4 + 3)) :
    erfReverse sg c ix d iz s P = erfReverse sg c ix d iz s' P := by
  unfold erfReverse
  refine if_congr Iff.rfl rfl ?_
  unfold erfBody
  dsimp only
  rw [h, h3]
  exact (mulvv_read h h).trans (congrArg (mulvvReverse ix ix d _ s') (congrArg (subpvReverse 0 _ d _ s')
    (exp_read h1 h2)))

/-- only the Taylor coefficients of the arguments and of the results are read -/
theorem GOp.rev_read (op : GOp B) (d nv : ℕ) (s s' P : GTay B)
    (h : ∀ v, v ∈ op.args ∨ (nv ≤ v ∧ v < nv + op.nres) → s v = s' v) :
    op.rev d (nv + op.nres - 1) s P = op.rev d (nv + op.nres - 1) s' P := by
  cases op with
  | csum c addv subv addp subp => rfl
  | cexp cop l r t f =>
    have hl : l.at0 s = l.at0 s' := by
      cases l with
      | par c => rfl
      | var v => exact congrFun (h v (Or.inl (by simp [GOp.args, GOpd.vars]))) 0
    have hr : r.at0 s = r.at0 s' := by
      cases r with
      | par c => rfl
      | var v => exact congrFun (h v (Or.inl (by simp [GOp.args, GOpd.vars]))) 0
    simp only [GOp.rev, cexpReverse, hl, hr]
  | par c => rfl
  | dis fn ix => rfl
  | sign ix => rfl
  | addvv ix iy => rfl
  | subvv ix iy => rfl
  | mulvv ix iy | divvv ix iy | zmulvv ix iy =>
    simp only [GOp.args, GOp.nres, List.mem_cons, List.not_mem_nil, or_false] at h
    have h0 := h (nv + 1 - 1) (Or.inr (by omega))
    have h1 := h ix (Or.inl (by simp))
    have h2 := h iy (Or.inl (by simp))
    simp only [GOp.nres, GOp.rev, mulvvReverse, divvvReverse, zmulvvReverse, h0, h1, h2]
  | powvv ix iy =>
    simp only [GOp.args, GOp.nres, List.mem_cons, List.not_mem_nil, or_false] at h
    have h0 := h (nv + 3 - 1 - 2) (Or.inr (by omega))
    have h1 := h (nv + 3 - 1 - 2 + 1) (Or.inr (by omega))
    have h2 := h (nv + 3 - 1 - 2 + 2) (Or.inr (by omega))
    have h3 := h ix (Or.inl (by simp))
    have h4 := h iy (Or.inl (by simp))
    exact (log_read h3 h0).trans (congrArg _ ((mulvv_read h0 h4).trans (congrArg _ (exp_read h1 h2))))
  | powpv x iy =>
    simp only [GOp.args, GOp.nres, List.mem_cons, List.not_mem_nil, or_false] at h
    have h0 := h (nv + 3 - 1 - 2) (Or.inr (by omega))
    have h1 := h (nv + 3 - 1 - 2 + 1) (Or.inr (by omega))
    have h2 := h (nv + 3 - 1 - 2 + 2) (Or.inr (by omega))
    have e := exp_read (d := d) (P := P) h1 h2
    simp only [GOp.nres, GOp.rev, powpvReverse, h0, e]
    rfl
  | erf ix | erfc ix =>
    simp only [GOp.args, GOp.nres, List.mem_cons, List.not_mem_nil, or_false] at h
    have h0 := h (nv + 5 - 1 - 4) (Or.inr (by omega))
    have h1 := h (nv + 5 - 1 - 4 + 1) (Or.inr (by omega))
    have h2 := h (nv + 5 - 1 - 4 + 2) (Or.inr (by omega))
    have h3 := h (nv + 5 - 1 - 4 + 3) (Or.inr (by omega))
    have h5 := h ix (Or.inl (by simp))
    simp only [GOp.nres, GOp.rev]
    exact erf_read h5 h0 h1 h2 h3
  | addpv x iy => rfl
  | subpv x iy => rfl
  | subvp ix y => rfl
  | mulpv x iy => rfl
  | zmulpv x iy => rfl
  | zmulvp ix y => rfl
  | divvp ix y => rfl
  | neg ix => rfl
  | exp ix =>
    exact exp_read (h ix (Or.inl (by simp [GOp.args]))) (h _ (Or.inr (by simp only [GOp.nres]; omega)))
  | expm1 ix =>
    have h0 := h (nv + 1 - 1) (Or.inr (by simp only [GOp.nres]; omega))
    have h1 := h ix (Or.inl (by simp [GOp.args]))
    refine if_congr Iff.rfl rfl ?_
    simp only [GOp.nres, expm1Body, h0, h1]
  | abs ix | log ix | log1p ix | sqrt ix | powvp ix y | divpv x ix =>
    simp only [GOp.args, GOp.nres, List.mem_cons, List.not_mem_nil, or_false] at h
    have h0 := h (nv + 1 - 1) (Or.inr (by omega))
    have h1 := h ix (Or.inl (by simp))
    simp only [GOp.nres, GOp.rev, absReverse, logReverse, log1pReverse, sqrtReverse,
      powvpReverse, divpvReverse, h0, h1]
  | acos ix | acosh ix | asin ix | asinh ix | atan ix | atanh ix | cos ix | cosh ix | sin ix | sinh ix | tan ix | tanh ix =>
    simp only [GOp.args, GOp.nres, List.mem_cons, List.not_mem_nil, or_false] at h
    have h0 := h (nv + 2 - 1) (Or.inr (by omega))
    have h1 := h (nv + 2 - 1 - 1) (Or.inr (by omega))
    have h2 := h ix (Or.inl (by simp))
    simp only [GOp.nres, GOp.rev, trigReverse, tanReverseG, atanReverseG, asinReverseG, h0, h1, h2]

end CppAD.Gen
