import Verif.Ode.ErrStep
import Mathlib.Analysis.SpecialFunctions.Log.Base
import Mathlib.Algebra.Order.Floor.Ring
import Mathlib.Algebra.BigOperators.Group.List.Basic

/-! # The invariant of the loop in `OdeErrControl` -/

namespace CppAD.Ode

theorem IsPath.append {n : ℕ} {t t1 : ℝ} {x x1 : ℕ → ℝ} {l : List Call} {c : Call} {y : ℕ → ℝ}
    (h : IsPath n t x l t1 x1) (h1 : c.ta = t1) (h2 : ∀ i < n, c.xa i = x1 i) (h3 : c.ta < c.tb)
    (h4 : ∀ i < n, c.xb i = some (y i)) : IsPath n t x (l ++ [c]) c.tb y := by
  induction l generalizing t x with
  | nil =>
    obtain ⟨a, b⟩ := h
    exact ⟨h1.trans a, fun i hi => (h2 i hi).trans (b i hi), h3, y, h4, rfl, fun _ _ => rfl⟩
  | cons d l ih =>
    obtain ⟨a, b, c', z, e, f⟩ := h
    exact ⟨a, b, c', z, e, ih f⟩

theorem IsPath.le {n : ℕ} {t t1 : ℝ} {x x1 : ℕ → ℝ} {l : List Call}
    (h : IsPath n t x l t1 x1) : t ≤ t1 := by
  induction l generalizing t x with
  | nil => exact h.1.ge
  | cons d l ih =>
    obtain ⟨a, b, c', z, e, f⟩ := h
    have := ih f
    linarith

/-- a path that contains a step is at least as long as this step -/
theorem IsPath.first {n : ℕ} {t t1 : ℝ} {x x1 : ℕ → ℝ} {l : List Call} {c : Call}
    (h : IsPath n t x (c :: l) t1 x1) : c.tb ≤ t1 := by
  obtain ⟨a, b, c', z, e, f⟩ := h
  exact f.le

theorem accepted_append (l r : List Call) : accepted (l ++ r) = accepted l ++ accepted r := by
  simp [accepted]

/-- this step is not one of the short steps at the end -/
def Long (A : ErrArgs) (c : Call) : Prop := c.tb = A.tf → A.smin < c.tb - c.ta

structure ErrInv (A : ErrArgs) (s : ErrState) : Prop where
  ti : A.ti ≤ s.ta
  tf : s.ta ≤ A.tf
  path : IsPath A.n A.ti A.xi (accepted s.calls) s.ta s.xa
  starts : ∀ k (h : k < s.calls.length),
    IsPath A.n A.ti A.xi (accepted (s.calls.take k)) s.calls[k].ta s.calls[k].xa
  sizes : ∀ c ∈ s.calls, SizeOk A c
  acc : ∀ c ∈ s.calls, c.acc = true → c.Ok A.n ∧
    (c.tb - c.ta ≤ A.smin * 3 / 2 ∨ (c.Nonneg A.n → c.Within A))
  rej : ∀ c ∈ s.calls, c.acc = false → ¬ c.Ok A.n ∨
    (A.smin * 3 / 2 < c.tb - c.ta ∧ ¬ c.Within A)
  ef : ∀ i < A.n, s.ef i = ((accepted s.calls).map fun c => (c.eb i).getD 0).sum
  maxabs : ∀ i < A.n, IsGreatest
    {v | v = |A.xi i| ∨ ∃ c ∈ accepted s.calls, ∃ x, c.xb i = some x ∧ v = |x|} (s.maxabs i)
  nstep : s.nstep = s.calls.length
  fail : s.failed = true → ∃ l c, s.calls = l ++ [c] ∧ ¬ c.Ok A.n ∧
    c.tb - c.ta ≤ A.smin * 3 / 2
  done : s.ta = A.tf → s.calls = [] ∨ ∃ l c, s.calls = l ++ [c] ∧ c.acc = true
  rest : s.ta = A.tf ∨ s.ta = A.ti ∨ A.smin / 2 < A.tf - s.ta
  short : (∀ c ∈ s.calls, Long A c) ∨
    (∃ l c, s.calls = l ++ [c] ∧ (∀ d ∈ l, Long A d) ∧ s.failed = false ∧
      A.tf - s.ta ≤ A.smin ∧ s.scur ≤ A.smin) ∨
    ((s.failed = true ∨ s.ta = A.tf) ∧ ∃ l r, s.calls = l ++ r ∧ r.length ≤ 2 ∧ ∀ d ∈ l, Long A d)

theorem errInv_init {A : ErrArgs} (hA : A.Valid) (scur : ℝ) : ErrInv A (errInit A scur) where
  ti := le_rfl
  tf := hA.time
  path := ⟨rfl, fun _ _ => rfl⟩
  starts := fun k h => absurd h (Nat.not_lt_zero k)
  sizes := fun c h => by simp [errInit] at h
  acc := fun c h => by simp [errInit] at h
  rej := fun c h => by simp [errInit] at h
  ef := fun i _ => by simp [errInit, accepted]
  maxabs := fun i _ => by
    refine ⟨Or.inl (absIf_eq _), ?_⟩
    rintro v (h | ⟨c, h, _⟩)
    · rw [h]; exact (absIf_eq _).ge
    · simp [errInit, accepted] at h
  nstep := rfl
  fail := fun h => by simp [errInit] at h
  done := fun _ => Or.inl rfl
  rest := Or.inr (Or.inl rfl)
  short := Or.inl (fun c h => by simp [errInit] at h)

/-- properties of all calls are preserved when one call is appended -/
theorem forall_append {P : Call → Prop} {l : List Call} {c : Call} (h : ∀ d ∈ l, P d) (hc : P c) :
    ∀ d ∈ l ++ [c], P d := by
  intro d hd
  rcases List.mem_append.1 hd with h1 | h1
  · exact h d h1
  · rw [List.mem_singleton.1 h1]; exact hc

theorem starts_append {A : ErrArgs} {l : List Call} {c : Call} {t : ℝ} {x : ℕ → ℝ}
    (h : ∀ k (h : k < l.length),
      IsPath A.n A.ti A.xi (accepted (l.take k)) l[k].ta l[k].xa)
    (hp : IsPath A.n A.ti A.xi (accepted l) t x) (h1 : c.ta = t) (h2 : c.xa = x) :
    ∀ k (h : k < (l ++ [c]).length),
      IsPath A.n A.ti A.xi (accepted ((l ++ [c]).take k)) (l ++ [c])[k].ta (l ++ [c])[k].xa := by
  intro k hk
  by_cases hkl : k < l.length
  · rw [List.getElem_append_left hkl, List.take_append_of_le_length hkl.le]
    exact h k hkl
  · have e : k = l.length := by
      have : (l ++ [c]).length = l.length + 1 := by simp
      omega
    subst e
    rw [List.getElem_append_right le_rfl]
    simp only [Nat.sub_self, List.getElem_cons_zero, List.take_left]
    rw [h1, h2]
    exact hp

set_option maxHeartbeats 1000000 in
theorem errInv_step {A : ErrArgs} (hA : A.Valid) {s : ErrState} (I : ErrInv A s)
    (hc : errCond A s = true) : ErrInv A (errBody A s) ∧ s.ta < A.tf ∧
      ErrStep A s (errBody A s) := by
  have hp := hA.smin_pos
  unfold errCond at hc
  rw [Bool.and_eq_true] at hc
  have hne : s.ta ≠ A.tf := of_decide_eq_true hc.1
  have hnf : s.failed = false := by simpa using hc.2
  have hlt : s.ta < A.tf := lt_of_le_of_ne I.tf hne
  have hst := errBody_step hA I.ti hlt
  refine ⟨?_, hlt, hst⟩
  -- when the remaining interval is short, the call goes to the end
  have hend : A.tf - s.ta ≤ A.smin → (nextCall A s).tb = A.tf := by
    intro h
    have hb := request_bounds hA s.scur
    rcases stepEnd_cases (A := A) s.ta (request A s.scur).1 with ⟨h3, h4⟩ | ⟨h3, h4⟩
    · exact h4
    · linarith
  generalize errBody A s = s' at hst
  cases hst with
  | fail c hc size bad small e =>
    have e1 : c.ta = s.ta := by rw [hc]; rfl
    have e2 : c.xa = s.xa := by rw [hc]; rfl
    have e3 : c.acc = false := by rw [hc]; rfl
    have eac : accepted (s.calls ++ [c]) = accepted s.calls := by
      rw [accepted_append]; simp [accepted, e3]
    subst e
    refine ⟨I.ti, I.tf, ?_, starts_append I.starts I.path e1 e2, forall_append I.sizes size,
      forall_append I.acc (by simp [e3]), forall_append I.rej (fun _ => Or.inl bad), ?_, ?_, ?_,
      ?_, ?_, I.rest, ?_⟩
    · show IsPath _ _ _ (accepted (s.calls ++ [c])) _ _
      rw [eac]; exact I.path
    · intro i hi
      show _ = ((accepted (s.calls ++ [c])).map _).sum
      rw [eac]; exact I.ef i hi
    · intro i hi
      have := I.maxabs i hi
      dsimp only
      rw [eac]; exact this
    · show s.nstep + 1 = (s.calls ++ [c]).length
      rw [I.nstep]; simp
    · exact fun _ => ⟨s.calls, c, rfl, bad, small⟩
    · exact fun h => absurd h hne
    · right; right
      refine ⟨Or.inl rfl, ?_⟩
      rcases I.short with h | ⟨l, d, h1, h2, _⟩ | ⟨h, _⟩
      · exact ⟨s.calls, [c], rfl, by simp, h⟩
      · refine ⟨l, [d, c], ?_, by simp, h2⟩
        show s.calls ++ [c] = _
        rw [h1]; simp
      · rcases h with h | h
        · rw [hnf] at h; exact absurd h (by simp)
        · exact absurd h hne
  | reject c hc size why big t ht ht' e =>
    have e1 : c.ta = s.ta := by rw [hc]; rfl
    have e2 : c.xa = s.xa := by rw [hc]; rfl
    have e3 : c.acc = false := by rw [hc]; rfl
    have eac : accepted (s.calls ++ [c]) = accepted s.calls := by
      rw [accepted_append]; simp [accepted, e3]
    subst e
    refine ⟨I.ti, I.tf, ?_, starts_append I.starts I.path e1 e2, forall_append I.sizes size,
      forall_append I.acc (by simp [e3]), forall_append I.rej (fun _ => ?_), ?_, ?_, ?_,
      ?_, ?_, I.rest, ?_⟩
    · show IsPath _ _ _ (accepted (s.calls ++ [c])) _ _
      rw [eac]; exact I.path
    · rcases why with h | h
      · exact Or.inl h
      · exact Or.inr h.2
    · intro i hi
      show _ = ((accepted (s.calls ++ [c])).map _).sum
      rw [eac]; exact I.ef i hi
    · intro i hi
      have := I.maxabs i hi
      dsimp only
      rw [eac]; exact this
    · show s.nstep + 1 = (s.calls ++ [c]).length
      rw [I.nstep]; simp
    · intro h
      exact absurd (hnf.symm.trans h) (by simp)
    · exact fun h => absurd h hne
    · rcases I.short with h | ⟨l, d, h1, h2, _, h4, h5⟩ | ⟨h, _⟩
      · by_cases hl : Long A c
        · exact Or.inl (forall_append h hl)
        · right; left
          unfold Long at hl
          have h6 : c.tb = A.tf := by by_contra h; exact hl (fun h' => absurd h' h)
          have h7 : c.tb - c.ta ≤ A.smin := by
            by_contra h; exact hl (fun _ => not_le.1 h)
          refine ⟨s.calls, c, rfl, h, hnf, ?_, ?_⟩
          · show A.tf - s.ta ≤ A.smin
            rw [← h6, ← e1]; exact h7
          · show t ≤ A.smin
            linarith
      · exact absurd (lt_of_lt_of_le big ((min_le_left _ _).trans h5)) (lt_irrefl _)
      · rcases h with h | h
        · rw [hnf] at h; exact absurd h (by simp)
        · exact absurd h hne
  | accept c hc size ok why hta hnstep hfail hcalls hxa hef hmax =>
    have e1 : c.ta = s.ta := by rw [hc]; rfl
    have e2 : c.xa = s.xa := by rw [hc]; rfl
    have e3 : c.acc = true := by rw [hc]
    have etb : c.tb = (nextCall A s).tb := by rw [hc]
    have eac : accepted (s.calls ++ [c]) = accepted s.calls ++ [c] := by
      rw [accepted_append]; simp [accepted, e3]
    have hpath := I.path.append e1 (fun i _ => by rw [e2]) size.pos hxa
    refine ⟨?_, ?_, ?_, ?_, ?_, ?_, ?_, ?_, ?_, ?_, ?_, ?_, ?_, ?_⟩
    · have := size.start
      have := size.pos
      rw [hta]; linarith
    · rw [hta]; exact size.tf
    · rw [hcalls, eac, hta]; exact hpath
    · simp only [hcalls]
      exact starts_append I.starts I.path e1 e2
    · rw [hcalls]; exact forall_append I.sizes size
    · rw [hcalls]; exact forall_append I.acc (fun _ => ⟨ok, why⟩)
    · rw [hcalls]; exact forall_append I.rej (fun h => by rw [e3] at h; exact absurd h (by simp))
    · intro i hi
      obtain ⟨e, h1, h2⟩ := hef i hi
      rw [hcalls, eac, h2, I.ef i hi]
      simp [h1]
    · intro i hi
      rw [hcalls, eac, hmax i hi]
      obtain ⟨g1, g2⟩ := I.maxabs i hi
      constructor
      · rcases le_total (s.maxabs i) |s'.xa i| with h | h
        · rw [max_eq_right h]
          exact Or.inr ⟨c, by simp, s'.xa i, hxa i hi, rfl⟩
        · rw [max_eq_left h]
          rcases g1 with g | ⟨d, hd, x, hx⟩
          · exact Or.inl g
          · exact Or.inr ⟨d, List.mem_append_left _ hd, x, hx⟩
      · rintro v (h | ⟨d, hd, x, hx, hv⟩)
        · exact (g2 (Or.inl h)).trans (le_max_left _ _)
        · rcases List.mem_append.1 hd with h | h
          · exact (g2 (Or.inr ⟨d, h, x, hx, hv⟩)).trans (le_max_left _ _)
          · rw [List.mem_singleton.1 h, hxa i hi] at hx
            cases hx
            rw [hv]; exact le_max_right _ _
    · rw [hnstep, hcalls, I.nstep]; simp
    · intro h
      exact absurd ((hfail.trans hnf).symm.trans h) (by simp)
    · exact fun _ => Or.inr ⟨s.calls, c, hcalls, e3⟩
    · rw [hta]
      rcases size.rest with h | h
      · exact Or.inl h
      · exact Or.inr (Or.inr h)
    · rcases I.short with h | ⟨l, d, h1, h2, _, h4, h5⟩ | ⟨h, _⟩
      · by_cases hl : Long A c
        · left; rw [hcalls]; exact forall_append h hl
        · right; right
          unfold Long at hl
          have h6 : c.tb = A.tf := by by_contra h; exact hl (fun h' => absurd h' h)
          exact ⟨Or.inr (hta.trans h6), s.calls, [c], hcalls, by simp, h⟩
      · right; right
        refine ⟨Or.inr (hta.trans (etb.trans (hend h4))), l, [d, c], ?_, by simp, h2⟩
        rw [hcalls, h1]; simp
      · rcases h with h | h
        · rw [hnf] at h; exact absurd h (by simp)
        · exact absurd h hne

/-! ### Termination -/

/-- the number of steps of size `smin` that are left -/
noncomputable def stepsLeft (A : ErrArgs) (ta : ℝ) : ℕ := ⌈(A.tf - ta) / A.smin⌉₊

/-- the number of times that the step size `s` can be decreased -/
noncomputable def cutsLeft (A : ErrArgs) (s : ℝ) : ℕ :=
  ⌈Real.log (max A.smin (min s A.smax) / A.smin) / Real.log (4 / 3)⌉₊

/-- a bound for the number of calls of `method.step` -/
noncomputable def callBound (A : ErrArgs) : ℕ :=
  ⌈(A.tf - A.ti) / A.smin⌉₊ * (⌈Real.log (A.smax / A.smin) / Real.log (4 / 3)⌉₊ + 1)

noncomputable def cutsMax (A : ErrArgs) : ℕ :=
  ⌈Real.log (A.smax / A.smin) / Real.log (4 / 3)⌉₊

theorem log43 : 0 < Real.log (4 / 3) := Real.log_pos (by norm_num)

theorem cutsLeft_le {A : ErrArgs} (hA : A.Valid) (s : ℝ) : cutsLeft A s ≤ cutsMax A := by
  have hp := hA.smin_pos
  refine Nat.ceil_mono (div_le_div_of_nonneg_right (Real.log_le_log ?_ ?_) log43.le)
  · exact div_pos (lt_of_lt_of_le hp (le_max_left _ _)) hp
  · exact div_le_div_of_nonneg_right (max_le hA.smin_smax (min_le_right _ _)) hp.le

theorem cutsLeft_lt {A : ErrArgs} (hA : A.Valid) {s t : ℝ} (h : A.smin < min s A.smax)
    (ht : t ≤ min s A.smax * 3 / 4) : cutsLeft A t < cutsLeft A s := by
  have hp := hA.smin_pos
  set q := min s A.smax with hq
  have hq0 : 0 < q := hp.trans h
  have e : max A.smin q = q := max_eq_right h.le
  have hlog : 0 < Real.log (q / A.smin) := Real.log_pos ((one_lt_div hp).2 h)
  have h1 : Real.log (max A.smin (min t A.smax) / A.smin)
      ≤ max 0 (Real.log (q / A.smin) - Real.log (4 / 3)) := by
    rcases le_total (min t A.smax) A.smin with h2 | h2
    · rw [max_eq_left h2, div_self hp.ne', Real.log_one]
      exact le_max_left _ _
    · rw [max_eq_right h2]
      refine le_trans ?_ (le_max_right _ _)
      rw [← Real.log_div (div_pos hq0 hp).ne' (by norm_num)]
      refine Real.log_le_log (div_pos (lt_of_lt_of_le hp h2) hp) ?_
      have h3 : min t A.smax ≤ q * 3 / 4 := (min_le_left _ _).trans ht
      rw [div_le_iff₀ hp]
      have : q / A.smin / (4 / 3) * A.smin = q * 3 / 4 := by field_simp
      rw [this]; exact h3
  unfold cutsLeft
  rw [e]
  have hl := log43
  have h4 : Real.log (max A.smin (min t A.smax) / A.smin) / Real.log (4 / 3)
      ≤ max 0 (Real.log (q / A.smin) / Real.log (4 / 3) - 1) := by
    rw [div_le_iff₀ hl]
    refine h1.trans ?_
    rw [max_mul_of_nonneg _ _ hl.le, sub_mul, div_mul_cancel₀ _ hl.ne', zero_mul, one_mul]
  have h5 : 0 < Real.log (q / A.smin) / Real.log (4 / 3) := div_pos hlog hl
  refine lt_of_le_of_lt (Nat.ceil_mono h4) ?_
  rw [Nat.lt_ceil]
  rcases le_total (Real.log (q / A.smin) / Real.log (4 / 3) - 1) 0 with h6 | h6
  · rw [max_eq_left h6]; simpa using h5
  · rw [max_eq_right h6]
    have := Nat.ceil_lt_add_one h6
    linarith

theorem stepsLeft_lt {A : ErrArgs} (hA : A.Valid) {t : ℝ} {c : Call} (h : SizeOk A c) (ht : c.ta = t) :
    stepsLeft A c.tb < stepsLeft A t := by
  have hp := hA.smin_pos
  unfold stepsLeft
  rw [Nat.lt_ceil, ← ht]
  rcases h.size with h1 | ⟨h1, _⟩
  · rw [h1]
    have : 0 < (A.tf - c.ta) / A.smin := div_pos (by have := h.pos; rw [h1] at this; linarith) hp
    simpa using this
  · have h2 : 0 ≤ (A.tf - c.tb) / A.smin := div_nonneg (by linarith [h.tf]) hp.le
    have h3 := Nat.ceil_lt_add_one h2
    refine lt_of_lt_of_le h3 ?_
    rw [le_div_iff₀ hp, add_mul, div_mul_cancel₀ _ hp.ne']
    linarith

/-- the measure that decreases in every iteration -/
noncomputable def errMu (A : ErrArgs) (s : ErrState) : ℕ :=
  if s.failed = true then 0
  else stepsLeft A s.ta * (cutsMax A + 1) - (cutsMax A - cutsLeft A s.scur)

theorem errMu_lt {A : ErrArgs} (hA : A.Valid) {s s' : ErrState} (hnf : s.failed = false)
    (hlt : s.ta < A.tf) (h : ErrStep A s s') : errMu A s' < errMu A s := by
  have hp := hA.smin_pos
  have hS : 0 < stepsLeft A s.ta := Nat.ceil_pos.2 (div_pos (by linarith) hp)
  have hC := cutsLeft_le hA s.scur
  have e : errMu A s = stepsLeft A s.ta * (cutsMax A + 1) - (cutsMax A - cutsLeft A s.scur) := by
    simp [errMu, hnf]
  have hge : cutsMax A + 1 ≤ stepsLeft A s.ta * (cutsMax A + 1) := Nat.le_mul_of_pos_left _ hS
  cases h with
  | fail c hc size bad small e' =>
    rw [e]
    subst e'
    simp only [errMu, if_true]
    omega
  | reject c hc size why big t ht ht' e' =>
    have h1 := cutsLeft_lt hA big (t := t) (by linarith)
    rw [e]
    subst e'
    simp only [errMu, hnf, Bool.false_eq_true, if_false]
    omega
  | accept c hc size ok why hta hnstep hfail hcalls hxa hef hmax =>
    have h1 := stepsLeft_lt hA size (t := s.ta) (by rw [hc]; rfl)
    rw [e]
    have : errMu A s' ≤ stepsLeft A c.tb * (cutsMax A + 1) := by
      unfold errMu
      split_ifs
      · exact Nat.zero_le _
      · rw [hta]; exact Nat.sub_le _ _
    have h2 := Nat.mul_le_mul_right (cutsMax A + 1) (Nat.succ_le_of_lt h1)
    have h3 : (stepsLeft A c.tb + 1) * (cutsMax A + 1)
      = stepsLeft A c.tb * (cutsMax A + 1) + (cutsMax A + 1) := by ring
    have h2' : (stepsLeft A c.tb + 1) * (cutsMax A + 1) ≤ stepsLeft A s.ta * (cutsMax A + 1) := h2
    omega

theorem errStep_nstep {A : ErrArgs} {s s' : ErrState} (h : ErrStep A s s') :
    s'.nstep = s.nstep + 1 := by
  cases h with
  | fail c hc size bad small e' => rw [e']
  | reject c hc size why big t ht ht' e' => rw [e']
  | accept c hc size ok why hta hnstep hfail hcalls hxa hef hmax => exact hnstep

/-- the state when the loop ends -/
theorem errLoop {A : ErrArgs} (hA : A.Valid) (scur : ℝ) :
    let s := whileLoop (errCond A) (errBody A) (errInit A scur)
    ErrInv A s ∧ (s.ta = A.tf ∨ s.failed = true) ∧ s.nstep ≤ callBound A := by
  intro s
  obtain ⟨⟨h1, h2⟩, h3⟩ := whileLoop_rule (c := errCond A) (b := errBody A)
    (fun s => ErrInv A s ∧ s.nstep + errMu A s ≤ callBound A) (errMu A)
    (by
      rintro s ⟨I, h⟩ hc
      obtain ⟨I', hlt, hst⟩ := errInv_step hA I hc
      have hnf : s.failed = false := by
        unfold errCond at hc
        rw [Bool.and_eq_true] at hc
        simpa using hc.2
      have hmu := errMu_lt hA hnf hlt hst
      refine ⟨⟨I', ?_⟩, hmu⟩
      rw [errStep_nstep hst]
      omega)
    (s := errInit A scur) ⟨errInv_init hA scur, by
      show 0 + errMu A (errInit A scur) ≤ callBound A
      rw [zero_add]
      unfold errMu
      split_ifs
      · exact Nat.zero_le _
      · exact Nat.sub_le _ _⟩
  refine ⟨h1, ?_, le_trans (Nat.le_add_right _ _) h2⟩
  change errCond A s = false at h3
  generalize s = s at h3 ⊢
  unfold errCond at h3
  rw [Bool.and_eq_false_iff] at h3
  rcases h3 with h | h
  · left
    have := of_decide_eq_false h
    simpa using this
  · right; simpa using h

end CppAD.Ode
