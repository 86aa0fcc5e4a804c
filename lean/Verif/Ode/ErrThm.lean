import Verif.Ode.ErrInv

/-!
# `OdeErrControl`: the properties a user relies on

Every theorem is about every method object (with or without a state, with any
error estimates, returning `nan` at any call), every pair of times, step size
bounds and error bounds that satisfies the requirements in the documentation.
-/

namespace CppAD.Ode

variable {A : ErrArgs}

/-- the last call of `method.step` returned a `nan` -/
def LastNan (A : ErrArgs) (cs : List Call) : Prop := ∃ l c, cs = l ++ [c] ∧ ¬ c.Ok A.n

theorem odeErrControl_calls (A : ErrArgs) (scur : ℝ) : (odeErrControl A scur).calls
    = (whileLoop (errCond A) (errBody A) (errInit A scur)).calls := by
  unfold odeErrControl; dsimp only; split_ifs <;> rfl

theorem odeErrControl_nstep (A : ErrArgs) (scur : ℝ) : (odeErrControl A scur).nstep
    = (whileLoop (errCond A) (errBody A) (errInit A scur)).nstep := by
  unfold odeErrControl; dsimp only; split_ifs <;> rfl

theorem lastNan_iff (hA : A.Valid) (scur : ℝ) :
    LastNan A (odeErrControl A scur).calls ↔
      (whileLoop (errCond A) (errBody A) (errInit A scur)).failed = true := by
  obtain ⟨I, h1, _⟩ := errLoop hA scur
  rw [odeErrControl_calls]
  generalize whileLoop (errCond A) (errBody A) (errInit A scur) = s at I h1 ⊢
  constructor
  · rintro ⟨l, c, h2, h3⟩
    rcases h1 with h | h
    · rcases I.done h with h4 | ⟨l', c', h4, h5⟩
      · rw [h4] at h2; simp at h2
      · rw [h4] at h2
        have e : c' = c := by
          have := congrArg List.getLast? h2
          simpa using this
        exact absurd (e ▸ (I.acc c' (by rw [h4]; simp) h5).1) h3
    · exact h
  · intro h
    obtain ⟨l, c, h2, h3, _⟩ := I.fail h
    exact ⟨l, c, h2, h3⟩

/-- **The integration covers the interval.** When the last call of `method.step`
did not return a `nan`, `OdeErrControl` terminates, the accepted steps lead from
`ti`, `xi` to `tf`, `xf` without a gap and without an overlap, `ef` is the sum of
the error estimates of the accepted steps, and `maxabs` is the maximum of the
absolute values at the times between the accepted steps. -/
theorem odeErrControl_path (hA : A.Valid) (scur : ℝ)
    (hok : ¬ LastNan A (odeErrControl A scur).calls) :
    ∃ xf ef : ℕ → ℝ,
      (∀ i < A.n, (odeErrControl A scur).xf i = some (xf i)) ∧
      (∀ i < A.n, (odeErrControl A scur).ef i = some (ef i)) ∧
      IsPath A.n A.ti A.xi (accepted (odeErrControl A scur).calls) A.tf xf ∧
      (∀ i < A.n, ef i
        = ((accepted (odeErrControl A scur).calls).map fun c => (c.eb i).getD 0).sum) ∧
      (∀ i < A.n, IsGreatest
        {v | v = |A.xi i| ∨ ∃ c ∈ accepted (odeErrControl A scur).calls,
          ∃ x, c.xb i = some x ∧ v = |x|} ((odeErrControl A scur).maxabs i)) := by
  rw [lastNan_iff hA] at hok
  obtain ⟨I, h1, _⟩ := errLoop hA scur
  unfold odeErrControl
  dsimp only
  generalize whileLoop (errCond A) (errBody A) (errInit A scur) = s at I h1 hok ⊢
  rw [if_neg hok]
  have hta : s.ta = A.tf := h1.resolve_right hok
  exact ⟨s.xa, s.ef, fun _ _ => rfl, fun _ _ => rfl, hta ▸ I.path, I.ef, I.maxabs⟩

/-- **Not a number.** When the last call of `method.step` returned a `nan`, `xf`
and `ef` are vectors of `nan`; this happens only for a step that is not larger
than `3 smin / 2`.  (When a `nan` is returned for another call, the step is
tried again with a smaller size: `odeErrControl_calls_start`.) -/
theorem odeErrControl_nan (hA : A.Valid) (scur : ℝ)
    (hn : LastNan A (odeErrControl A scur).calls) :
    (∀ i, (odeErrControl A scur).xf i = none ∧ (odeErrControl A scur).ef i = none) ∧
    ∃ l c, (odeErrControl A scur).calls = l ++ [c] ∧ ¬ c.Ok A.n ∧
      c.tb - c.ta ≤ A.smin * 3 / 2 := by
  rw [lastNan_iff hA] at hn
  obtain ⟨I, h1, _⟩ := errLoop hA scur
  unfold odeErrControl
  dsimp only
  generalize whileLoop (errCond A) (errBody A) (errInit A scur) = s at I h1 hn ⊢
  rw [if_pos hn]
  exact ⟨fun _ => ⟨rfl, rfl⟩, I.fail hn⟩

/-- **Every call starts at the end of the accepted steps before it.** So a
rejected step is tried again from the same time with the same value. -/
theorem odeErrControl_calls_start (hA : A.Valid) (scur : ℝ) (k : ℕ)
    (hk : k < (odeErrControl A scur).calls.length) :
    IsPath A.n A.ti A.xi (accepted ((odeErrControl A scur).calls.take k))
      (odeErrControl A scur).calls[k].ta (odeErrControl A scur).calls[k].xa := by
  obtain ⟨I, _, _⟩ := errLoop hA scur
  have := I.starts
  revert hk
  rw [odeErrControl_calls]
  exact this k

/-- **Every step is a step of the method.** The values and error estimates of each call are what
`method.step` returned for its times and its initial value. -/
theorem odeErrControl_method (hA : A.Valid) (scur : ℝ) (k : ℕ)
    (hk : k < (odeErrControl A scur).calls.length) :
    A.method.step ((odeErrControl A scur).calls.take k) (odeErrControl A scur).calls[k].ta
      (odeErrControl A scur).calls[k].tb (odeErrControl A scur).calls[k].xa
      = ((odeErrControl A scur).calls[k].xb, (odeErrControl A scur).calls[k].eb) := by
  obtain ⟨⟨_, h⟩, _⟩ := whileLoop_rule (c := errCond A) (b := errBody A)
    (fun s => ErrInv A s ∧ ∀ k (hk : k < s.calls.length),
      A.method.step (s.calls.take k) s.calls[k].ta s.calls[k].tb s.calls[k].xa
        = (s.calls[k].xb, s.calls[k].eb)) (errMu A)
    (by
      rintro s ⟨I, h⟩ hc
      obtain ⟨I', hlt, hst⟩ := errInv_step hA I hc
      have hnf : s.failed = false := by
        unfold errCond at hc
        rw [Bool.and_eq_true] at hc
        simpa using hc.2
      refine ⟨⟨I', ?_⟩, errMu_lt hA hnf hlt hst⟩
      have key : ∃ c, (errBody A s).calls = s.calls ++ [c] ∧
          A.method.step s.calls c.ta c.tb c.xa = (c.xb, c.eb) := by
        unfold errBody
        dsimp only
        split_ifs <;> first
          | exact ⟨_, rfl, rfl⟩
          | exact ⟨_, (accept_fields A _ _ _ _).2.2.2.2.1, rfl⟩
      obtain ⟨c, e1, e2⟩ := key
      intro k hk
      simp only [e1] at hk ⊢
      rw [List.length_append, List.length_singleton] at hk
      by_cases hk' : k < s.calls.length
      · rw [List.take_append_of_le_length hk'.le]
        simp only [List.getElem_append_left hk']
        exact h k hk'
      · have hk2 : k = s.calls.length := by omega
        subst hk2
        simpa using e2)
    (s := errInit A scur) ⟨errInv_init hA scur, fun k hk => absurd hk (Nat.not_lt_zero k)⟩
  revert hk
  rw [odeErrControl_calls]
  exact h k

/-- **Which steps are accepted.** A call whose result has a `nan` is not
accepted; an accepted step which is larger than `3 smin / 2` has its error
estimate within the part of the requested bounds that corresponds to its size;
and a step which is not accepted has a `nan`, or is larger than `3 smin / 2` and
not within the bounds.  The error estimates have to be non-negative
(`odeErrControl_negative_wrong`). -/
theorem odeErrControl_accept (hA : A.Valid) (scur : ℝ) (c : Call)
    (hc : c ∈ (odeErrControl A scur).calls) (hn : c.Nonneg A.n) :
    (c.acc = true → c.Ok A.n ∧ (A.smin * 3 / 2 < c.tb - c.ta → c.Within A)) ∧
    (c.acc = false → ¬ c.Ok A.n ∨ (A.smin * 3 / 2 < c.tb - c.ta ∧ ¬ c.Within A)) := by
  obtain ⟨I, _, _⟩ := errLoop hA scur
  rw [odeErrControl_calls] at hc
  refine ⟨fun h => ?_, I.rej c hc⟩
  obtain ⟨h1, h2⟩ := I.acc c hc h
  refine ⟨h1, fun h3 => ?_⟩
  rcases h2 with h2 | h2
  · exact absurd h3 (not_lt.2 h2)
  · exact h2 hn

theorem IsPath.sum_size {n : ℕ} {t t1 : ℝ} {x x1 : ℕ → ℝ} {l : List Call}
    (h : IsPath n t x l t1 x1) : (l.map fun c => c.tb - c.ta).sum = t1 - t := by
  induction l generalizing t x with
  | nil => rw [h.1]; simp
  | cons d l ih =>
    obtain ⟨a, b, c', z, e, f⟩ := h
    rw [List.map_cons, List.sum_cons, ih f, a]
    ring

theorem list_sum_le {l : List Call} {f g : Call → ℝ} (h : ∀ c ∈ l, f c ≤ g c) :
    (l.map f).sum ≤ (l.map g).sum := by
  induction l with
  | nil => simp
  | cons a l ih =>
    simp only [List.map_cons, List.sum_cons]
    exact add_le_add (h a (by simp)) (ih fun c hc => h c (by simp [hc]))

/-- **The total error estimate is within the requested bound**:
`ef_i ≤ eabs_i + erel * maxabs_i`, when no accepted step is smaller than
`3 smin / 2` (that is, when `smin` did not stop the error control). -/
theorem odeErrControl_error (hA : A.Valid) (scur : ℝ) (hT : A.ti < A.tf)
    (hok : ¬ LastNan A (odeErrControl A scur).calls)
    (hn : ∀ c ∈ (odeErrControl A scur).calls, c.Nonneg A.n)
    (hs : ∀ c ∈ accepted (odeErrControl A scur).calls, A.smin * 3 / 2 < c.tb - c.ta) :
    ∀ i < A.n, ∃ e, (odeErrControl A scur).ef i = some e ∧
      0 ≤ e ∧ e ≤ A.eabs i + A.erel * (odeErrControl A scur).maxabs i := by
  obtain ⟨xf, ef, h1, h2, h3, h4, h5⟩ := odeErrControl_path hA scur hok
  intro i hi
  refine ⟨ef i, h2 i hi, ?_, ?_⟩
  · rw [h4 i hi]
    refine List.sum_nonneg ?_
    intro v hv
    obtain ⟨c, hc, rfl⟩ := List.mem_map.1 hv
    have hc' := List.mem_of_mem_filter hc
    cases he : c.eb i with
    | none => simp
    | some e => simpa using hn c hc' i hi e he
  · set M := (odeErrControl A scur).maxabs i
    have hT' : 0 < A.tf - A.ti := by linarith
    rw [h4 i hi]
    have key : ∀ c ∈ accepted (odeErrControl A scur).calls, (c.eb i).getD 0
        ≤ (A.eabs i + A.erel * M) / (A.tf - A.ti) * (c.tb - c.ta) := by
      intro c hc
      have hc' : c ∈ (odeErrControl A scur).calls := List.mem_of_mem_filter hc
      have hacc : c.acc = true := by
        have := (List.mem_filter.1 hc).2
        simpa using this
      obtain ⟨ho, hw⟩ := (odeErrControl_accept hA scur c hc' (hn c hc')).1 hacc
      obtain ⟨o1, o2⟩ := ho i hi
      obtain ⟨x, hx⟩ := Option.isSome_iff_exists.1 o1
      obtain ⟨e, he⟩ := Option.isSome_iff_exists.1 o2
      have h6 := hw (hs c hc) i hi x e hx he
      have h7 : |x| ≤ M := (h5 i hi).2 (Or.inr ⟨c, hc, x, hx, rfl⟩)
      rw [he]
      show e ≤ _
      have hpos : 0 < c.tb - c.ta := by
        have := hs c hc
        have := hA.smin_pos
        linarith
      refine (le_abs_self e).trans (h6.trans ?_)
      rw [div_mul_eq_mul_div]
      refine div_le_div_of_nonneg_right (mul_le_mul_of_nonneg_right ?_ hpos.le) hT'.le
      have := mul_le_mul_of_nonneg_left h7 hA.erel
      linarith
    refine (list_sum_le key).trans ?_
    rw [List.sum_map_mul_left, h3.sum_size, div_mul_cancel₀ _ hT'.ne']

/-- **Step sizes.** Every call of `method.step` is for a non-empty part of the
interval; its size is at least `smin` and at most `smax` unless it ends at
`tf`; it is never larger than `3 smax / 2` (`odeErrControl_smax_wrong` shows
that the bound `smax` in the documentation is false). -/
theorem odeErrControl_size_partial (hA : A.Valid) (scur : ℝ) (c : Call)
    (hc : c ∈ (odeErrControl A scur).calls) :
    A.ti ≤ c.ta ∧ c.ta < c.tb ∧ c.tb ≤ A.tf ∧
    (c.tb = A.tf ∨ (A.smin ≤ c.tb - c.ta ∧ c.tb - c.ta ≤ A.smax)) ∧
    c.tb - c.ta ≤ A.smax * 3 / 2 := by
  obtain ⟨I, _, _⟩ := errLoop hA scur
  rw [odeErrControl_calls] at hc
  have := I.sizes c hc
  exact ⟨this.start, this.pos, this.tf, this.size, this.max⟩

theorem IsPath.rest {n : ℕ} {t t1 : ℝ} {x x1 : ℕ → ℝ} {l : List Call}
    (h : IsPath n t x l t1 x1) (hl : ∀ c ∈ l, SizeOk A c) :
    t1 = t ∨ t1 = A.tf ∨ A.smin / 2 < A.tf - t1 := by
  induction l generalizing t x with
  | nil => exact Or.inl h.1
  | cons d l ih =>
    obtain ⟨a, b, c', z, e, f⟩ := h
    right
    rcases ih f (fun c hc => hl c (by simp [hc])) with g | g
    · rw [g]; exact (hl d (by simp)).rest
    · exact g

/-- **The minimum step size.** When `smin < tf - ti`, every step is larger than
`smin / 2`, and only the last two calls of `method.step` can be for a step that
is smaller than `smin`. -/
theorem odeErrControl_smin (hA : A.Valid) (scur : ℝ) (hT : A.smin < A.tf - A.ti) (k : ℕ)
    (hk : k < (odeErrControl A scur).calls.length) :
    A.smin / 2 < (odeErrControl A scur).calls[k].tb - (odeErrControl A scur).calls[k].ta ∧
    (k + 2 < (odeErrControl A scur).calls.length →
      A.smin ≤ (odeErrControl A scur).calls[k].tb - (odeErrControl A scur).calls[k].ta) := by
  have hp := hA.smin_pos
  obtain ⟨I, h1, _⟩ := errLoop hA scur
  revert hk
  rw [odeErrControl_calls]
  intro hk
  generalize whileLoop (errCond A) (errBody A) (errInit A scur) = s at I h1 hk ⊢
  have hsz := I.sizes _ (List.getElem_mem hk)
  constructor
  · rcases hsz.size with h | h
    · have h2 := (I.starts k hk).rest (fun c hc => I.sizes c
        (List.mem_of_mem_take (List.mem_of_mem_filter hc)))
      have := hsz.pos
      rw [h]
      rcases h2 with g | g | g
      · rw [g]; linarith
      · linarith
      · exact g
    · linarith [h.1]
  · intro hk2
    have hl : Long A s.calls[k] := by
      rcases I.short with h | ⟨l, c, h2, h3, h4, _⟩ | ⟨_, l, r, h2, h3, h4⟩
      · exact h _ (List.getElem_mem hk)
      · apply h3
        have hlen : s.calls.length = l.length + 1 := by rw [h2]; simp
        have hkl : k < l.length := by omega
        have : s.calls[k] = l[k] := by
          simp only [h2]
          rw [List.getElem_append_left hkl]
        rw [this]; exact List.getElem_mem hkl
      · apply h4
        have hlen : s.calls.length = l.length + r.length := by rw [h2]; simp
        have hkl : k < l.length := by omega
        have : s.calls[k] = l[k] := by
          simp only [h2]
          rw [List.getElem_append_left hkl]
        rw [this]; exact List.getElem_mem hkl
    rcases hsz.size with h | h
    · exact (hl h).le
    · exact h.1

/-- **A short interval.** When `0 < tf - ti ≤ smin`, every call of
`method.step` is for the whole interval, there are at most two calls, and only
one when the first does not return a `nan`. -/
theorem odeErrControl_one_step (hA : A.Valid) (scur : ℝ) (hT : A.ti < A.tf)
    (hs : A.tf - A.ti ≤ A.smin) :
    (∀ c ∈ (odeErrControl A scur).calls, c.ta = A.ti ∧ c.tb = A.tf) ∧
    0 < (odeErrControl A scur).calls.length ∧
    (odeErrControl A scur).calls.length ≤ 2 ∧
    (∀ h : 0 < (odeErrControl A scur).calls.length,
      ((odeErrControl A scur).calls[0].Ok A.n → (odeErrControl A scur).calls.length = 1)) := by
  have hp := hA.smin_pos
  obtain ⟨I, h1, _⟩ := errLoop hA scur
  rw [odeErrControl_calls]
  generalize whileLoop (errCond A) (errBody A) (errInit A scur) = s at I h1 ⊢
  have htb : ∀ c ∈ s.calls, c.tb = A.tf := by
    intro c hc
    have := I.sizes c hc
    rcases this.size with h | h
    · exact h
    · have h2 := this.start
      have h3 := this.tf
      linarith [h.1]
  have hta : ∀ k (hk : k < s.calls.length), s.calls[k].ta = A.ti ∧ accepted (s.calls.take k) = [] := by
    intro k hk
    have h2 := I.starts k hk
    cases he : accepted (s.calls.take k) with
    | nil => rw [he] at h2; exact ⟨h2.1, rfl⟩
    | cons c l =>
      rw [he] at h2
      have h3 := h2.first
      have hc : c ∈ s.calls := List.mem_of_mem_take
        (List.mem_of_mem_filter (he ▸ List.mem_cons_self : c ∈ accepted (s.calls.take k)))
      rw [htb c hc] at h3
      have h4 := I.sizes _ (List.getElem_mem hk)
      have := h4.pos
      have := h4.tf
      linarith
  have hpos : 0 < s.calls.length := by
    rcases h1 with h | h
    · rw [List.length_pos_iff]
      intro he
      have h2 := I.path
      rw [he] at h2
      have := h2.1
      linarith
    · obtain ⟨l, c, h2, _⟩ := I.fail h
      rw [h2]; simp
  have hnl : ∀ c ∈ s.calls, ¬ Long A c := by
    intro c hc hl
    obtain ⟨k, hk, rfl⟩ := List.getElem_of_mem hc
    have h2 := hl (htb _ hc)
    rw [htb _ hc, (hta k hk).1] at h2
    linarith
  refine ⟨?_, hpos, ?_, ?_⟩
  · intro c hc
    refine ⟨?_, htb c hc⟩
    obtain ⟨k, hk, rfl⟩ := List.getElem_of_mem hc
    exact (hta k hk).1
  · have hnil : ∀ l r : List Call, s.calls = l ++ r → (∀ d ∈ l, Long A d) → l = [] := by
      intro l r h2 h3
      cases l with
      | nil => rfl
      | cons d l =>
        exact absurd (h3 d (by simp)) (hnl d (by rw [h2]; simp))
    rcases I.short with h | ⟨l, c, h2, h3, h4, _⟩ | ⟨_, l, r, h2, h3, h4⟩
    · have := hnil s.calls [] (by simp) h
      rw [this]; simp
    · rw [h2, hnil l [c] h2 h3]; simp
    · rw [h2, hnil l r h2 h4]; simpa using h3
  · intro h hok
    by_contra hne
    have hk : 1 < s.calls.length := by omega
    have h2 := (hta 1 hk).2
    have hacc : s.calls[0].acc = true := by
      cases ha : s.calls[0].acc with
      | true => rfl
      | false =>
        rcases I.rej _ (List.getElem_mem h) ha with g | g
        · exact absurd hok g
        · have h5 := htb _ (List.getElem_mem h)
          rw [h5, (hta 0 h).1] at g
          linarith [g.1]
    cases hcs : s.calls with
    | nil => rw [hcs] at hk; simp at hk
    | cons c l =>
      simp only [hcs] at hacc h2
      simp [accepted] at h2
      have : c.acc = true := hacc
      rw [this] at h2; simp at h2

/-- **The number of calls**: `nstep` is the number of calls of `method.step`,
and whatever the method returns, it is not larger than
`⌈(tf - ti) / smin⌉ * (⌈log(smax / smin) / log(4/3)⌉ + 1)`; in particular
`OdeErrControl` always terminates. -/
theorem odeErrControl_nstep_bound (hA : A.Valid) (scur : ℝ) :
    (odeErrControl A scur).nstep = (odeErrControl A scur).calls.length ∧
    (odeErrControl A scur).nstep ≤
      ⌈(A.tf - A.ti) / A.smin⌉₊ * (⌈Real.log (A.smax / A.smin) / Real.log (4 / 3)⌉₊ + 1) := by
  obtain ⟨I, _, h⟩ := errLoop hA scur
  rw [odeErrControl_nstep, odeErrControl_calls]
  exact ⟨I.nstep, h⟩

/-! ### Two counterexamples -/

/-- a method for a constant function, with a constant error estimate -/
def constMethod (e : ℝ) : Method where
  step := fun _ _ _ xa => (fun i => some (xa i), fun _ => some e)
  order := 2

/-- integrate from zero to `tf`, with `smin = smax = 2` -/
noncomputable def constArgs (e tf smax : ℝ) : ErrArgs :=
  ⟨1, constMethod e, 0, tf, fun _ => 0, 2, smax, fun _ => 0, 0⟩

theorem constArgs_valid (e : ℝ) {tf smax : ℝ} (h : 0 ≤ tf) (h2 : 2 ≤ smax) :
    (constArgs e tf smax).Valid where
  order := by simp [constArgs, constMethod]
  time := h
  smin_pos := by simp [constArgs]
  smin_smax := h2
  eabs := by simp [constArgs]
  erel := le_rfl

theorem constArgs_first {e tf smax scur : ℝ} (h : 0 < tf)
    (hreq : tf ≤ (request (constArgs e tf smax) scur).1 * 3 / 2)
    (hg : tf ≤ 3 ∨ 1 ≤ lambdaOf (constArgs e tf smax) scur tf (fun _ => some 0) (fun _ => some e)) :
    ∃ c, (odeErrControl (constArgs e tf smax) scur).calls = [c] ∧ c.ta = 0 ∧ c.tb = tf ∧
      c.acc = true ∧ c.eb = fun _ => some e := by
  rw [odeErrControl_calls]
  have h0 : errCond (constArgs e tf smax) (errInit (constArgs e tf smax) scur) = true := by
    simp [errCond, errInit, constArgs, h.ne]
  rw [whileLoop_true h0]
  have htb : stepEnd (constArgs e tf smax) 0 (request (constArgs e tf smax) scur).1 = tf := by
    unfold stepEnd
    rw [if_pos (by show tf ≤ _; linarith)]
    rfl
  have hb : ∃ s : ErrState, errBody (constArgs e tf smax) (errInit (constArgs e tf smax) scur) = s ∧
      s.ta = tf ∧ s.calls = [⟨0, tf, fun _ => 0, fun _ => some 0, fun _ => some e, true⟩] := by
    refine ⟨_, rfl, ?_⟩
    have hn1 : hasnan 1 (fun _ => some 0) = false := hasnan_iff.2 (by simp)
    have hn2 : hasnan 1 (fun _ => some e) = false := hasnan_iff.2 (by simp)
    have e1 : (constArgs e tf smax).n = 1 := rfl
    have e2 : (constArgs e tf smax).method.step = fun _ _ _ xa => (fun i => some (xa i), fun _ => some e) := rfl
    have e3 : (errInit (constArgs e tf smax) scur).ta = 0 := rfl
    have e4 : (errInit (constArgs e tf smax) scur).scur = scur := rfl
    have e5 : (errInit (constArgs e tf smax) scur).xa = fun _ => 0 := rfl
    have e6 : (constArgs e tf smax).tf = tf := rfl
    have e7 : (constArgs e tf smax).smin = 2 := rfl
    have e8 : (errInit (constArgs e tf smax) scur).calls = [] := rfl
    unfold errBody
    simp only [e2, e3, e4, e5, htb, e1, hn1, hn2, e7, e8, Bool.or_self, Bool.not_false, Bool.not_true,
      Bool.false_and, Bool.true_and, Bool.false_eq_true, if_false, sub_zero, List.nil_append]
    have hgood : (decide (1 ≤ lambdaOf (constArgs e tf smax) scur tf (fun _ => some 0) (fun _ => some e))
        || decide (tf ≤ 2 * 3 / 2)) = true := by
      rw [Bool.or_eq_true_iff]
      rcases hg with g | g
      · right; exact decide_eq_true (by linarith)
      · left; exact decide_eq_true g
    simp only [hgood, if_true]
    rw [(accept_fields _ _ _ _ _).1, if_neg (by simp [e6])]
    exact ⟨(accept_fields _ _ _ _ _).1, (accept_fields _ _ _ _ _).2.2.2.2.1⟩
  obtain ⟨s, hs, h1, h2⟩ := hb
  rw [hs, whileLoop_false (by simp [errCond, h1, constArgs])]
  exact ⟨_, h2, rfl, rfl, rfl, rfl⟩

/-- **The documented maximum step size is false**: "`smax` specifies the maximum
step size to use during the integration; i.e., the maximum value for `tb - ta`
in a call to `method`".  With `smin = smax = 2`, `ti = 0` and `tf = 3` there is
one call, with `tb - ta = 3`. -/
theorem odeErrControl_smax_wrong : ∃ (A : ErrArgs) (scur : ℝ), A.Valid ∧
    ∃ c ∈ (odeErrControl A scur).calls, A.smax < c.tb - c.ta := by
  obtain ⟨c, h1, h2, h3, _⟩ := constArgs_first (e := 0) (tf := 3) (smax := 2) (scur := 2)
    (by norm_num) (by
      have := (request_bounds (constArgs_valid 0 (tf := 3) (smax := 2) (by norm_num) le_rfl) 2).1
      have h2 : (constArgs 0 3 2).smin = 2 := rfl
      rw [h2] at this
      linarith) (Or.inl le_rfl)
  refine ⟨constArgs 0 3 2, 2, constArgs_valid 0 (by norm_num) le_rfl, c, by rw [h1]; simp, ?_⟩
  rw [h2, h3]
  show (2 : ℝ) < 3 - 0
  norm_num

/-- **A negative error estimate is ignored**: the logarithm of
a negative number is a `nan`, and the comparison with it is false.  Here the
requested error bound is positive, the error estimate is `-100`, the step is
much larger than `smin`, and it is accepted. -/
theorem odeErrControl_negative_wrong : ∃ (A : ErrArgs) (scur : ℝ), A.Valid ∧
    ∃ c ∈ (odeErrControl A scur).calls, c.acc = true ∧ A.smin * 3 / 2 < c.tb - c.ta ∧
      ¬ c.Within A := by
  let A : ErrArgs := ⟨1, constMethod (-100), 0, 9, fun _ => 0, 2, 9, fun _ => 1, 0⟩
  have hA : A.Valid := ⟨by simp [A, constMethod], by norm_num [A], by norm_num [A],
    by norm_num [A], by intro i _; norm_num [A], le_rfl⟩
  refine ⟨A, 9, hA, ?_⟩
  obtain ⟨I, h1, _⟩ := errLoop hA 9
  -- the first call
  have h0 : errCond A (errInit A 9) = true := by simp [errCond, errInit, A]
  have hreq : request A 9 = (9, false) := by
    simp [request, A]; norm_num
  have htb : stepEnd A 0 9 = 9 := by
    unfold stepEnd
    rw [if_pos (by norm_num [A])]
  have hroot : ∀ m : ℝ, root m ((1 + 0 * |(0 : ℝ)|) / (-100) * (9 - 0) / (9 - 0)) = none := by
    intro m; unfold root; rw [if_pos (by norm_num)]
  have hlam : lambdaOf A 9 (9 - 0) (fun _ => some 0) (fun _ => some (-100)) = 10 := by
    obtain ⟨_, h | ⟨i, hi, x, e, hx, he, hne, hr⟩⟩ :=
      lambdaOf_spec A 9 (9 - 0) (fun _ => some 0) (fun _ => some (-100))
    · rw [h]; norm_num
    · simp only [Option.some.injEq] at hx he
      subst hx; subst he
      have h3 := hroot ((A.method.order - 1 : ℕ) : ℝ)
      have h4 : A.eabs i = 1 := rfl
      have h5 : A.erel = 0 := rfl
      have h6 : A.tf = 9 := rfl
      have h7 : A.ti = 0 := rfl
      rw [h4, h5, h6, h7, h3] at hr
      cases hr
  have hn1 : hasnan 1 (fun _ => some 0) = false := hasnan_iff.2 (by simp)
  have hn2 : hasnan 1 (fun _ => some (-100)) = false := hasnan_iff.2 (by simp)
  have hb : ∃ s : ErrState, errBody A (errInit A 9) = s ∧ s.ta = 9 ∧
      s.calls = [⟨0, 9, fun _ => 0, fun _ => some 0, fun _ => some (-100), true⟩] := by
    refine ⟨_, rfl, ?_⟩
    have e1 : A.n = 1 := rfl
    have e2 : A.method.step = fun _ _ _ xa => (fun i => some (xa i), fun _ => some (-100)) := rfl
    have e3 : (errInit A 9).ta = 0 := rfl
    have e4 : (errInit A 9).scur = 9 := rfl
    have e5 : (errInit A 9).xa = fun _ => 0 := rfl
    have e6 : A.tf = 9 := rfl
    have e8 : (errInit A 9).calls = [] := rfl
    unfold errBody
    simp only [e2, e3, e4, e5, hreq, htb, e1, hn1, hn2, e8, hlam, Bool.or_self, Bool.not_false,
      Bool.not_true, Bool.false_and, Bool.true_and, Bool.false_eq_true, if_false, List.nil_append]
    have hgood : (decide ((1 : ℝ) ≤ 10) || decide ((9 - 0 : ℝ) ≤ A.smin * 3 / 2)) = true := by
      rw [Bool.or_eq_true_iff]
      exact Or.inl (decide_eq_true (by norm_num))
    simp only [hgood, if_true]
    rw [(accept_fields _ _ _ _ _).1, if_neg (by simp [e6])]
    exact ⟨(accept_fields _ _ _ _ _).1, (accept_fields _ _ _ _ _).2.2.2.2.1⟩
  obtain ⟨s, hs, h2, h3⟩ := hb
  have hcalls : (odeErrControl A 9).calls
      = [⟨0, 9, fun _ => 0, fun _ => some 0, fun _ => some (-100), true⟩] := by
    rw [odeErrControl_calls, whileLoop_true h0, hs, whileLoop_false (by simp [errCond, h2, A]), h3]
  refine ⟨_, by rw [hcalls]; exact List.mem_singleton.2 rfl, rfl, by norm_num [A], ?_⟩
  intro hW
  have := hW 0 (by norm_num [A]) 0 (-100) rfl rfl
  norm_num [A] at this

/-! ### Non-vacuity -/

/-- the hypotheses of the theorems hold for a method with a positive error
estimate, and the theorem about the error is not vacuous -/
example : ∃ (A : ErrArgs) (scur : ℝ), A.Valid ∧ A.ti < A.tf ∧
    ¬ LastNan A (odeErrControl A scur).calls ∧
    (∀ c ∈ (odeErrControl A scur).calls, c.Nonneg A.n) ∧
    (∀ c ∈ accepted (odeErrControl A scur).calls, A.smin * 3 / 2 < c.tb - c.ta) ∧
    (odeErrControl A scur).calls ≠ [] := by
  have hA := constArgs_valid 0 (tf := 9) (smax := 9) (by norm_num) (by norm_num)
  obtain ⟨c, h1, h2, h3, h4, h5⟩ := constArgs_first (e := 0) (tf := 9) (smax := 9) (scur := 9)
    (by norm_num) (by
      have : (request (constArgs 0 9 9) 9).1 = 9 := by
        simp [request, constArgs]; norm_num
      rw [this]; norm_num) (Or.inr (by
        obtain ⟨_, h | ⟨i, hi, x, e, hx, he, hne, hr⟩⟩ :=
          lambdaOf_spec (constArgs 0 9 9) 9 9 (fun _ => some 0) (fun _ => some 0)
        · rw [h]; norm_num
        · simp only [Option.some.injEq] at he
          exact absurd he.symm hne))
  refine ⟨constArgs 0 9 9, 9, hA, by norm_num [constArgs], ?_, ?_, ?_, by rw [h1]; simp⟩
  · rintro ⟨l, d, h6, h7⟩
    rw [h1] at h6
    have e : d = c := by
      have := congrArg List.getLast? h6
      simpa using this.symm
    apply h7
    rw [e]
    have hc : c ∈ (odeErrControl (constArgs 0 9 9) 9).calls := by rw [h1]; simp
    exact (((odeErrControl_accept hA 9 c hc (by
      intro i _ v hv; rw [h5] at hv; cases hv; exact le_rfl)).1 h4).1)
  · intro d hd
    rw [h1, List.mem_singleton] at hd
    subst hd
    intro i _ v hv
    rw [h5] at hv; cases hv; exact le_rfl
  · intro d hd
    have hd' : d ∈ (odeErrControl (constArgs 0 9 9) 9).calls := List.mem_of_mem_filter hd
    rw [h1, List.mem_singleton] at hd'
    subst hd'
    rw [h2, h3]
    norm_num [constArgs]

/-- the short interval case is met, with one call -/
example : ∃ (A : ErrArgs) (scur : ℝ), A.Valid ∧ A.ti < A.tf ∧ A.tf - A.ti ≤ A.smin ∧
    (odeErrControl A scur).calls.length = 1 := by
  have hA := constArgs_valid 0 (tf := 1) (smax := 9) (by norm_num) (by norm_num)
  obtain ⟨c, h1, _⟩ := constArgs_first (e := 0) (tf := 1) (smax := 9) (scur := 9)
    (by norm_num) (by
      have := (request_bounds hA 9).1
      have h2 : (constArgs 0 1 9).smin = 2 := rfl
      rw [h2] at this
      linarith) (Or.inl (by norm_num))
  exact ⟨constArgs 0 1 9, 9, hA, by norm_num [constArgs], by norm_num [constArgs], by rw [h1]; rfl⟩

end CppAD.Ode
