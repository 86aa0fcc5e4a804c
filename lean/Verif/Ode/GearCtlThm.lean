import Verif.Ode.GearInv

/-!
# `OdeGearControl`: the properties a user relies on
-/

namespace CppAD.Ode

open scoped Classical

variable {A : GearArgs}

theorem points_append (A : GearArgs) (l : List GCall) (c : GCall) :
    points A (l ++ [c]) = if c.acc = true then points A l ++ [c.point A.n] else points A l := by
  unfold points gAccepted
  by_cases h : c.acc = true
  · simp [h]
  · simp [h]

theorem points_length_pos (A : GearArgs) (l : List GCall) : 0 < (points A l).length := by
  simp [points]

/-- the last of the recent points -/
theorem Recent.last {n : ℕ} {pts : List (ℝ × (ℕ → ℝ))} {m : ℕ} {T X : ℕ → ℝ} (h : Recent n pts m T X)
    (hm : 1 ≤ m) : ∃ q, pts.getLast? = some q ∧ T (m - 1) = q.1 ∧
      ∀ i < n, X ((m - 1) * n + i) = q.2 i := by
  obtain ⟨h1, h2⟩ := h
  obtain ⟨q, h3, h4⟩ := h2 (m - 1) (by omega)
  refine ⟨q, ?_, h4⟩
  rw [List.getLast?_eq_getElem?]
  rw [← h3]
  congr 1; omega

structure GInv (A : GearArgs) (s : GState) : Prop where
  m_eq : s.m = min A.M (points A s.calls).length
  recent : Recent A.n (points A s.calls) s.m s.T s.X
  ti : A.ti ≤ s.T (s.m - 1)
  tf : s.T (s.m - 1) ≤ A.tf
  starts : ∀ k (h : k < s.calls.length), s.calls[k].m = min A.M (points A (s.calls.take k)).length ∧
    Recent A.n (points A (s.calls.take k)) s.calls[k].m s.calls[k].T s.calls[k].X
  sizes : ∀ c ∈ s.calls, GSize A c
  acc : ∀ c ∈ s.calls, c.acc = true → c.size ≤ A.least c.m * 3 / 2 ∨ c.Within A
  rej : ∀ c ∈ s.calls, c.acc = false → A.least c.m * 3 / 2 < c.size ∧ ¬ c.Within A
  ef : ∀ i < A.n, s.ef i = ((gAccepted s.calls).map fun c => c.e i).sum
  maxabs : ∀ i < A.n, IsGreatest {v | ∃ q ∈ points A s.calls, v = |q.2 i|} (s.maxabs i)
  nstep : s.nstep = s.calls.length
  short : ∃ l r, s.calls = l ++ r ∧ r.length ≤ 1 ∧ (∀ c ∈ l, A.least c.m ≤ c.size) ∧
    (r ≠ [] → s.T (s.m - 1) = A.tf)
  total : ((gAccepted s.calls).map GCall.size).sum = s.T (s.m - 1) - A.ti

theorem gInv_init (hA : A.Valid) : GInv A (gInit A) where
  m_eq := by
    have := hA.M
    show 1 = min A.M 1
    omega
  recent := by
    refine ⟨le_rfl, ?_⟩
    intro j hj
    have hj' : j < 1 := hj
    have : j = 0 := by omega
    subst this
    refine ⟨(A.ti, A.xi), rfl, rfl, ?_⟩
    intro i hi
    simp [gInit, hi]
  ti := le_rfl
  tf := hA.time
  starts := fun k h => absurd h (Nat.not_lt_zero k)
  sizes := fun c h => by simp [gInit] at h
  acc := fun c h => by simp [gInit] at h
  rej := fun c h => by simp [gInit] at h
  ef := fun i _ => by simp [gInit, gAccepted]
  maxabs := fun i _ => by
    refine ⟨⟨(A.ti, A.xi), by simp [points], absIf_eq _⟩, ?_⟩
    rintro v ⟨q, hq, rfl⟩
    simp [points, gInit, gAccepted] at hq
    subst hq
    exact (absIf_eq _).ge
  nstep := rfl
  short := ⟨[], [], rfl, by simp, by simp, by simp⟩
  total := by simp [gInit, gAccepted]

theorem gForall_append {P : GCall → Prop} {l : List GCall} {c : GCall} (h : ∀ d ∈ l, P d) (hc : P c) :
    ∀ d ∈ l ++ [c], P d := by
  intro d hd
  rcases List.mem_append.1 hd with h1 | h1
  · exact h d h1
  · rw [List.mem_singleton.1 h1]; exact hc

theorem gStarts_append {l : List GCall} {c : GCall}
    (h : ∀ k (h : k < l.length), l[k].m = min A.M (points A (l.take k)).length ∧
      Recent A.n (points A (l.take k)) l[k].m l[k].T l[k].X)
    (h1 : c.m = min A.M (points A l).length) (h2 : Recent A.n (points A l) c.m c.T c.X) :
    ∀ k (h : k < (l ++ [c]).length),
      (l ++ [c])[k].m = min A.M (points A ((l ++ [c]).take k)).length ∧
      Recent A.n (points A ((l ++ [c]).take k)) (l ++ [c])[k].m (l ++ [c])[k].T (l ++ [c])[k].X := by
  intro k hk
  by_cases hkl : k < l.length
  · rw [List.getElem_append_left hkl, List.take_append_of_le_length hkl.le]
    exact h k hkl
  · have e : k = l.length := by
      have : (l ++ [c]).length = l.length + 1 := by simp
      omega
    subst e
    rw [List.getElem_append_right le_rfl]
    simp only [Nat.sub_self, List.getElem_cons_zero, List.take_left]
    exact ⟨h1, h2⟩

theorem Recent.congr {n : ℕ} {pts : List (ℝ × (ℕ → ℝ))} {m : ℕ} {T X T' X' : ℕ → ℝ}
    (h : Recent n pts m T X) (hT : ∀ j < m, T' j = T j)
    (hX : ∀ j < m, ∀ i < n, X' (j * n + i) = X (j * n + i)) : Recent n pts m T' X' := by
  refine ⟨h.1, fun j hj => ?_⟩
  obtain ⟨q, h1, h2, h3⟩ := h.2 j hj
  exact ⟨q, h1, (hT j hj).trans h2, fun i hi => (hX j hj i hi).trans (h3 i hi)⟩

set_option maxHeartbeats 1000000 in
theorem gInv_step (hA : A.Valid) {s : GState} (I : GInv A s) (hlt : s.T (s.m - 1) < A.tf) :
    GInv A (gBody A s) ∧ GStep A s (gBody A s) := by
  have hM := hA.M
  have hpl := points_length_pos A s.calls
  have hm1 : 1 ≤ s.m := by rw [I.m_eq]; omega
  have hmM : s.m ≤ A.M := by rw [I.m_eq]; omega
  have hst := gBody_step hA hm1 hmM I.ti hlt
  refine ⟨?_, hst⟩
  obtain ⟨l0, r0, hs1, hs2, hs3, hs4⟩ := I.short
  have hr0 : r0 = [] := by
    by_contra h
    exact absurd (hs4 h) hlt.ne
  rw [hr0, List.append_nil] at hs1
  rw [← hs1] at hs3
  generalize gBody A s = s' at hst
  cases hst with
  | reject c hm hT hX hacc size big why cut next em eT eX eef emax en ec =>
    have hrec : Recent A.n (points A s.calls) c.m c.T c.X := by
      rw [hm]; exact I.recent.congr hT hX
    have ep : points A (s.calls ++ [c]) = points A s.calls := by
      rw [points_append, if_neg (by simp [hacc])]
    have eac : gAccepted (s.calls ++ [c]) = gAccepted s.calls := by
      simp [gAccepted, hacc]
    have eTm : s'.T (s'.m - 1) = s.T (s.m - 1) := by
      rw [em, eT]; exact hT _ (by omega)
    refine ⟨?_, ?_, ?_, ?_, ?_, ?_, ?_, ?_, ?_, ?_, ?_, ?_, ?_⟩
    · rw [em, ec, ep]; exact I.m_eq
    · rw [ec, ep, em, eT, eX, ← hm]; exact hrec
    · rw [eTm]; exact I.ti
    · rw [eTm]; exact I.tf
    · simp only [ec]
      exact gStarts_append I.starts (hm.trans I.m_eq) hrec
    · rw [ec]; exact gForall_append I.sizes size
    · rw [ec]; exact gForall_append I.acc (by simp [hacc])
    · rw [ec]; exact gForall_append I.rej (fun _ => ⟨big, why⟩)
    · intro i hi
      rw [ec, eac, eef]; exact I.ef i hi
    · intro i hi
      rw [ec, ep, emax]; exact I.maxabs i hi
    · rw [en, ec, I.nstep]; simp
    · refine ⟨s'.calls, [], by simp, by simp, ?_, by simp⟩
      rw [ec]
      refine gForall_append hs3 ?_
      have := hA.least_pos c.m
      linarith
    · rw [ec, eac, eTm]; exact I.total
  | accept c hm hT hX hacc size why em eT eX eef emax en ec =>
    have hrec : Recent A.n (points A s.calls) c.m c.T c.X := by
      rw [hm]; exact I.recent.congr hT hX
    have ep : points A (s.calls ++ [c]) = points A s.calls ++ [c.point A.n] := by
      rw [points_append, if_pos hacc]
    have eac : gAccepted (s.calls ++ [c]) = gAccepted s.calls ++ [c] := by
      simp [gAccepted, hacc]
    have hm' : 1 ≤ s'.m := by rw [em]; omega
    have hlast : s'.T (s'.m - 1) = c.T c.m := by
      rw [eT _ (by omega), hm]
      congr 1; rw [em]; omega
    have hpos := size.pos
    unfold GCall.size at hpos
    have hprev : c.T (c.m - 1) = s.T (s.m - 1) := by rw [hm]; exact hT _ (by omega)
    have hlen : (points A s'.calls).length = (points A s.calls).length + 1 := by
      rw [ec, ep]; simp
    refine ⟨?_, ?_, ?_, ?_, ?_, ?_, ?_, ?_, ?_, ?_, ?_, ?_, ?_⟩
    · rw [em, hlen, I.m_eq]; omega
    · -- the points
      have hle : s'.m ≤ (points A s'.calls).length := by
        rw [em, hlen]; have := I.recent.1; omega
      refine ⟨hle, ?_⟩
      intro j hj
      rw [eT j hj]
      have hk : j + (s.m + 1 - s'.m) ≤ s.m := by rw [em] at hj ⊢; omega
      have hidx : (points A s'.calls).length - s'.m + j
          = (points A s.calls).length - s.m + (j + (s.m + 1 - s'.m)) := by
        have := I.recent.1
        rw [hlen, em]; rw [em] at hj hle; omega
      rw [hidx, ec, ep]
      by_cases hk' : j + (s.m + 1 - s'.m) < s.m
      · obtain ⟨q, q1, q2, q3⟩ := hrec.2 _ (by rw [hm]; exact hk')
        refine ⟨q, ?_, q2, ?_⟩
        · have hb : (points A s.calls).length - s.m + (j + (s.m + 1 - s'.m)) < (points A s.calls).length := by
            have := I.recent.1; omega
          have e : (points A s.calls).length - c.m = (points A s.calls).length - s.m := by rw [hm]
          rw [e] at q1
          rw [List.getElem?_append_left hb]
          exact q1
        · intro i hi
          rw [eX j hj i hi]; exact q3 i hi
      · have hk2 : j + (s.m + 1 - s'.m) = s.m := by omega
        refine ⟨c.point A.n, ?_, ?_, ?_⟩
        · rw [hk2, Nat.sub_add_cancel I.recent.1]
          simp
        · rw [hk2, ← hm]; rfl
        · intro i hi
          rw [eX j hj i hi, hk2, ← hm]; rfl
    · rw [hlast]; have := I.ti; linarith
    · rw [hlast]; exact size.tf
    · simp only [ec]
      exact gStarts_append I.starts (hm.trans I.m_eq) hrec
    · rw [ec]; exact gForall_append I.sizes size
    · rw [ec]; exact gForall_append I.acc (fun _ => why)
    · rw [ec]; exact gForall_append I.rej (fun h => by rw [hacc] at h; exact absurd h (by simp))
    · intro i hi
      rw [ec, eac, eef i hi, I.ef i hi]
      simp
    · intro i hi
      rw [ec, ep, emax i hi]
      obtain ⟨g1, g2⟩ := I.maxabs i hi
      constructor
      · rcases le_total (s.maxabs i) |c.X (c.m * A.n + i)| with h | h
        · rw [max_eq_right h]
          exact ⟨c.point A.n, by simp, rfl⟩
        · rw [max_eq_left h]
          obtain ⟨q, hq, hv⟩ := g1
          exact ⟨q, List.mem_append_left _ hq, hv⟩
      · rintro v ⟨q, hq, hv⟩
        rcases List.mem_append.1 hq with h | h
        · exact (g2 ⟨q, h, hv⟩).trans (le_max_left _ _)
        · rw [List.mem_singleton.1 h] at hv
          rw [hv]; exact le_max_right _ _
    · rw [en, ec, I.nstep]; simp
    · rcases size.size with h | h
      · exact ⟨s.calls, [c], ec, by simp, hs3, fun _ => hlast.trans h⟩
      · refine ⟨s'.calls, [], by simp, by simp, ?_, by simp⟩
        rw [ec]
        exact gForall_append hs3 h.1
    · rw [ec, eac, hlast, List.map_append, List.sum_append, I.total]
      simp only [List.map_cons, List.map_nil, List.sum_cons, List.sum_nil, GCall.size]
      rw [hprev]; ring

/-! ### Termination -/

/-- only used to count: the minimum step size is the smaller of `smin` and `sini` -/
noncomputable def gDummy (A : GearArgs) : ErrArgs :=
  ⟨0, ⟨fun _ _ _ _ => (fun _ => none, fun _ => none), 2⟩, A.ti, A.tf, fun _ => 0, min A.smin A.sini,
    A.smax, fun _ => 0, 0⟩

theorem gDummy_valid (hA : A.Valid) : (gDummy A).Valid where
  order := by simp [gDummy]
  time := hA.time
  smin_pos := lt_min hA.smin_pos hA.sini_pos
  smin_smax := (min_le_left _ _).trans hA.smin_smax
  eabs := by simp [gDummy]
  erel := le_rfl

theorem least_ge (A : GearArgs) (m : ℕ) : (gDummy A).smin ≤ A.least m := by
  unfold GearArgs.least gDummy; dsimp only
  split_ifs
  · exact min_le_right _ _
  · exact min_le_left _ _

noncomputable def gMu (A : GearArgs) (s : GState) : ℕ :=
  stepsLeft (gDummy A) (s.T (s.m - 1)) * (cutsMax (gDummy A) + 1)
    - (cutsMax (gDummy A) - cutsLeft (gDummy A) s.step)

theorem gMu_lt (hA : A.Valid) {s s' : GState} (hm1 : 1 ≤ s.m)
    (hlt : s.T (s.m - 1) < A.tf) (h : GStep A s s') : gMu A s' < gMu A s := by
  have hD := gDummy_valid hA
  have hp := hD.smin_pos
  have hS : 0 < stepsLeft (gDummy A) (s.T (s.m - 1)) :=
    Nat.ceil_pos.2 (div_pos (sub_pos.2 hlt) hp)
  have hC := cutsLeft_le hD s.step
  have hge : cutsMax (gDummy A) + 1 ≤ stepsLeft (gDummy A) (s.T (s.m - 1)) * (cutsMax (gDummy A) + 1) :=
    Nat.le_mul_of_pos_left _ hS
  unfold gMu
  cases h with
  | reject c hm hT hX hacc size big why cut next em eT eX eef emax en ec =>
    have h1 := cutsLeft_lt hD (s := s.step) (t := s'.step)
      (lt_of_le_of_lt (least_ge A c.m) cut) next
    have eTm : s'.T (s'.m - 1) = s.T (s.m - 1) := by
      rw [em, eT]; exact hT _ (by omega)
    rw [eTm]
    omega
  | accept c hm hT hX hacc size why em eT eX eef emax en ec =>
    have hm' : 1 ≤ s'.m := by
      have h1 := size.m_pos
      have h2 := size.m_le
      rw [em]; omega
    have hlast : s'.T (s'.m - 1) = c.T c.m := by
      rw [eT _ (by omega), hm]
      congr 1; rw [em]; omega
    have hprev : c.T (c.m - 1) = s.T (s.m - 1) := by rw [hm]; exact hT _ (by omega)
    have hpos := size.pos
    have hsz : c.size = c.T c.m - s.T (s.m - 1) := by unfold GCall.size; rw [hprev]
    rw [hlast]
    have h1 : stepsLeft (gDummy A) (c.T c.m) < stepsLeft (gDummy A) (s.T (s.m - 1)) := by
      unfold stepsLeft
      rw [Nat.lt_ceil]
      show _ < (A.tf - s.T (s.m - 1)) / (gDummy A).smin
      have e : (gDummy A).tf = A.tf := rfl
      rw [e]
      rcases size.size with h | ⟨h, _⟩
      · rw [h]
        have : 0 < (A.tf - s.T (s.m - 1)) / (gDummy A).smin := div_pos (sub_pos.2 hlt) hp
        simpa using this
      · have h2 : 0 ≤ (A.tf - c.T c.m) / (gDummy A).smin :=
          div_nonneg (by linarith [size.tf]) hp.le
        refine lt_of_lt_of_le (Nat.ceil_lt_add_one h2) ?_
        rw [le_div_iff₀ hp, add_mul, div_mul_cancel₀ _ hp.ne']
        have := least_ge A c.m
        linarith
    have h2 : (stepsLeft (gDummy A) (c.T c.m) + 1) * (cutsMax (gDummy A) + 1)
        ≤ stepsLeft (gDummy A) (s.T (s.m - 1)) * (cutsMax (gDummy A) + 1) :=
      Nat.mul_le_mul_right _ (Nat.succ_le_of_lt h1)
    have h3 : (stepsLeft (gDummy A) (c.T c.m) + 1) * (cutsMax (gDummy A) + 1)
      = stepsLeft (gDummy A) (c.T c.m) * (cutsMax (gDummy A) + 1) + (cutsMax (gDummy A) + 1) := by ring
    omega

theorem gStep_nstep {s s' : GState} (h : GStep A s s') : s'.nstep = s.nstep + 1 := by
  cases h with
  | reject c hm hT hX hacc size big why cut next em eT eX eef emax en ec => exact en
  | accept c hm hT hX hacc size why em eT eX eef emax en ec => exact en

theorem gLoop (hA : A.Valid) :
    let s := whileLoop (gCond A) (gBody A) (gInit A)
    GInv A s ∧ s.T (s.m - 1) = A.tf ∧ s.nstep ≤ ⌈(A.tf - A.ti) / min A.smin A.sini⌉₊ *
      (⌈Real.log (A.smax / min A.smin A.sini) / Real.log (4 / 3)⌉₊ + 1) := by
  intro s
  obtain ⟨⟨h1, h2⟩, h3⟩ := whileLoop_rule (c := gCond A) (b := gBody A)
    (fun s => GInv A s ∧ s.nstep + gMu A s ≤ callBound (gDummy A)) (gMu A)
    (by
      rintro s ⟨I, h⟩ hc
      have hlt : s.T (s.m - 1) < A.tf := of_decide_eq_true hc
      obtain ⟨I', hst⟩ := gInv_step hA I hlt
      have hm1 : 1 ≤ s.m := by
        have := hA.M
        have := points_length_pos A s.calls
        rw [I.m_eq]; omega
      have hmu := gMu_lt hA hm1 hlt hst
      refine ⟨⟨I', ?_⟩, hmu⟩
      rw [gStep_nstep hst]
      omega)
    (s := gInit A) ⟨gInv_init hA, by
      show 0 + gMu A (gInit A) ≤ callBound (gDummy A)
      rw [zero_add]
      exact Nat.sub_le _ _⟩
  refine ⟨h1, ?_, le_trans (Nat.le_add_right _ _) h2⟩
  change gCond A s = false at h3
  have h4 : ¬ s.T (s.m - 1) < A.tf := of_decide_eq_false h3
  exact le_antisymm h1.tf (not_lt.1 h4)

/-! ## The theorems -/

/-- **The result.** `OdeGearControl` terminates; the last point (the initial point when there is no
step) is at the time `tf` and `xf` is its value; `ef` is the sum of the error estimates of the
accepted steps; `maxabs` is the maximum of the absolute values over the points; `nstep` is the number
of calls of `OdeGear` and is not larger than a bound that depends only on the times and the step
size bounds. -/
theorem odeGearControl_result (hA : A.Valid) :
    (∃ q, (points A (odeGearControl A).calls).getLast? = some q ∧ q.1 = A.tf ∧
      ∀ i < A.n, (odeGearControl A).xf i = q.2 i) ∧
    (∀ i < A.n, (odeGearControl A).ef i
      = ((gAccepted (odeGearControl A).calls).map fun c => c.e i).sum) ∧
    (∀ i < A.n, IsGreatest {v | ∃ q ∈ points A (odeGearControl A).calls, v = |q.2 i|}
      ((odeGearControl A).maxabs i)) ∧
    (odeGearControl A).nstep = (odeGearControl A).calls.length ∧
    (odeGearControl A).nstep ≤ ⌈(A.tf - A.ti) / min A.smin A.sini⌉₊ *
      (⌈Real.log (A.smax / min A.smin A.sini) / Real.log (4 / 3)⌉₊ + 1) := by
  obtain ⟨I, h1, h2⟩ := gLoop hA
  have hm1 : 1 ≤ (whileLoop (gCond A) (gBody A) (gInit A)).m := by
    have := hA.M
    have := points_length_pos A (whileLoop (gCond A) (gBody A) (gInit A)).calls
    rw [I.m_eq]; omega
  obtain ⟨q, q1, q2, q3⟩ := I.recent.last hm1
  exact ⟨⟨q, q1, q2.symm.trans h1, q3⟩, I.ef, I.maxabs, I.nstep, h2⟩

/-- **The multi-step history.** In every call of `OdeGear` the order `m` is the number of points so
far, at most `M`, and the first `m` elements of `T` and `X` are the last `m` points (in order). -/
theorem odeGearControl_history (hA : A.Valid) (k : ℕ) (hk : k < (odeGearControl A).calls.length) :
    (odeGearControl A).calls[k].m
      = min A.M (points A ((odeGearControl A).calls.take k)).length ∧
    Recent A.n (points A ((odeGearControl A).calls.take k)) (odeGearControl A).calls[k].m
      (odeGearControl A).calls[k].T (odeGearControl A).calls[k].X := by
  obtain ⟨I, _, _⟩ := gLoop hA
  exact I.starts k hk

/-- **Every step is a step of `OdeGear`.** The new value and the error estimate of each call are what
`OdeGear` returns for the times and the previous values of the call. -/
theorem odeGearControl_calls (hA : A.Valid) (c : GCall) (hc : c ∈ (odeGearControl A).calls) :
    ∃ X e, (∀ j < c.m, ∀ i < A.n, X (j * A.n + i) = c.X (j * A.n + i)) ∧
      odeGear A.F c.m A.n c.T X e = (c.X, c.e) := by
  obtain ⟨⟨_, h⟩, _⟩ := whileLoop_rule (c := gCond A) (b := gBody A)
    (fun s => GInv A s ∧ ∀ c ∈ s.calls, ∃ X e, (∀ j < c.m, ∀ i < A.n,
      X (j * A.n + i) = c.X (j * A.n + i)) ∧ odeGear A.F c.m A.n c.T X e = (c.X, c.e)) (gMu A)
    (by
      rintro s ⟨I, h⟩ hc
      have hlt : s.T (s.m - 1) < A.tf := of_decide_eq_true hc
      obtain ⟨I', hst⟩ := gInv_step hA I hlt
      have hm1 : 1 ≤ s.m := by
        have := hA.M
        have := points_length_pos A s.calls
        rw [I.m_eq]; omega
      refine ⟨⟨I', ?_⟩, gMu_lt hA hm1 hlt hst⟩
      have key : ∃ c, (gBody A s).calls = s.calls ++ [c] ∧ ∃ T, c.m = s.m ∧ c.T = T ∧
          (c.X, c.e) = odeGear A.F s.m A.n T s.X s.e := by
        unfold gBody
        dsimp only
        split_ifs <;> exact ⟨_, rfl, _, rfl, rfl, rfl⟩
      obtain ⟨c, e1, T, e2, e3, e4⟩ := key
      intro c' hc'
      rw [e1, List.mem_append, List.mem_singleton] at hc'
      rcases hc' with hc' | rfl
      · exact h c' hc'
      · refine ⟨s.X, s.e, ?_, by rw [e4, e2, e3]⟩
        intro j hj i hi
        have e5 : c'.X = (odeGear A.F s.m A.n T s.X s.e).1 := congrArg Prod.fst e4
        rw [e5, (odeGear_fields A.F s.m A.n T s.X s.e).2.1]
        intro i' _ he
        rw [e2] at hj
        have := Nat.mul_le_mul_right A.n (Nat.succ_le_of_lt hj)
        rw [Nat.succ_mul] at this
        omega)
    (s := gInit A) ⟨gInv_init hA, by simp [gInit]⟩
  exact h c hc

/-- **Step sizes.** Every step goes forward, and not beyond `tf`; its size is at most `3 smax / 2`
(and at most `smax` unless it ends at `tf`); it is at least `sini` during the initialization
(`m < M`) and at least `smin` after it (`m = M`), except for the last call. -/
theorem odeGearControl_size_partial (hA : A.Valid) :
    (∀ c ∈ (odeGearControl A).calls, 1 ≤ c.m ∧ c.m ≤ A.M ∧ 0 < c.size ∧ c.T c.m ≤ A.tf ∧
      c.size ≤ A.smax * 3 / 2 ∧ (c.T c.m = A.tf ∨ c.size ≤ A.smax)) ∧
    (∀ k (hk : k + 1 < (odeGearControl A).calls.length),
      (if (odeGearControl A).calls[k].m < A.M then A.sini else A.smin)
        ≤ (odeGearControl A).calls[k].size) := by
  obtain ⟨I, _, _⟩ := gLoop hA
  constructor
  · intro c hc
    have := I.sizes c hc
    exact ⟨this.m_pos, this.m_le, this.pos, this.tf, this.max, this.size.imp id (fun h => h.2.1)⟩
  · obtain ⟨l, r, h1, h2, h3, _⟩ := I.short
    have h1' : (odeGearControl A).calls = l ++ r := h1
    intro k hk
    have hlen : (odeGearControl A).calls.length = l.length + r.length := by rw [h1']; simp
    have hkl : k < l.length := by omega
    have : (odeGearControl A).calls[k] = l[k] := by
      simp only [h1']
      rw [List.getElem_append_left hkl]
    rw [this]
    exact h3 _ (List.getElem_mem hkl)

/-- **Which steps are accepted.** An accepted step that is larger than `3 / 2` times the minimum
size is within the error bounds; a step that is not accepted is larger than this and is not within
the error bounds. -/
theorem odeGearControl_accept (hA : A.Valid) (c : GCall) (hc : c ∈ (odeGearControl A).calls) :
    (c.acc = true → A.least c.m * 3 / 2 < c.size → c.Within A) ∧
    (c.acc = false → A.least c.m * 3 / 2 < c.size ∧ ¬ c.Within A) := by
  obtain ⟨I, _, _⟩ := gLoop hA
  refine ⟨fun h h1 => ?_, I.rej c hc⟩
  exact (I.acc c hc h).resolve_left (not_le.2 h1)

/-- the number of accepted steps with `m = 1` -/
theorem one_first (hA : A.Valid) (hM : 2 ≤ A.M) :
    ((gAccepted (odeGearControl A).calls).filter (fun c => decide (c.m = 1))).length ≤ 1 := by
  obtain ⟨I, _, _⟩ := gLoop hA
  have key : ∀ l : List GCall, (∀ k (h : k < l.length),
      l[k].m = min A.M (points A (l.take k)).length) →
      ((gAccepted l).filter (fun c => decide (c.m = 1))).length ≤ 1 ∧
      ((gAccepted l).filter (fun c => decide (c.m = 1)) ≠ [] → 2 ≤ (points A l).length) := by
    intro l
    induction l using List.reverseRecOn with
    | nil => intro _; simp [gAccepted]
    | append_singleton l c ih =>
      intro h
      have hl : ∀ k (h : k < l.length), l[k].m = min A.M (points A (l.take k)).length := by
        intro k hk
        have := h k (by simp; omega)
        rw [List.getElem_append_left hk, List.take_append_of_le_length hk.le] at this
        exact this
      obtain ⟨i1, i2⟩ := ih hl
      have hc := h l.length (by simp)
      rw [List.getElem_append_right le_rfl] at hc
      simp only [Nat.sub_self, List.getElem_cons_zero, List.take_left] at hc
      rw [points_append]
      by_cases ha : c.acc = true
      · have e : gAccepted (l ++ [c]) = gAccepted l ++ [c] := by simp [gAccepted, ha]
        rw [e, List.filter_append, if_pos ha]
        have hp := points_length_pos A l
        by_cases hm : c.m = 1
        · have hnil : (gAccepted l).filter (fun c => decide (c.m = 1)) = [] := by
            by_contra hne
            have := i2 hne
            rw [hm] at hc; omega
          rw [hnil]
          simp only [List.nil_append]
          refine ⟨List.length_filter_le _ _, fun _ => ?_⟩
          simp; omega
        · have : [c].filter (fun c => decide (c.m = 1)) = [] := by simp [hm]
          rw [this, List.append_nil]
          refine ⟨i1, fun h => ?_⟩
          have := i2 h
          simp; omega
      · have e : gAccepted (l ++ [c]) = gAccepted l := by simp [gAccepted, ha]
        rw [e, if_neg ha]
        exact ⟨i1, i2⟩
  exact (key _ (fun k h => (I.starts k h).1)).1

theorem gsum_le {l : List GCall} {f g : GCall → ℝ} (h : ∀ c ∈ l, f c ≤ g c) :
    (l.map f).sum ≤ (l.map g).sum := by
  induction l with
  | nil => simp
  | cons a l ih =>
    simp only [List.map_cons, List.sum_cons]
    exact add_le_add (h a (by simp)) (ih fun c hc => h c (by simp [hc]))

theorem gsum_add (l : List GCall) (f g : GCall → ℝ) :
    (l.map fun c => f c + g c).sum = (l.map f).sum + (l.map g).sum := by
  induction l with
  | nil => simp
  | cons a l ih => simp only [List.map_cons, List.sum_cons, ih]; ring

theorem gsum_ite (l : List GCall) (a : ℝ) :
    (l.map fun c => if c.m = 1 then a else 0).sum
      = (l.filter (fun c => decide (c.m = 1))).length * a := by
  induction l with
  | nil => simp
  | cons c l ih =>
    rw [List.map_cons, List.sum_cons, ih]
    by_cases h : c.m = 1
    · rw [if_pos h, List.filter_cons_of_pos (by simpa using h), List.length_cons]; push_cast; ring
    · rw [if_neg h, List.filter_cons_of_neg (by simpa using h), zero_add]

/-- **The total error estimate.** For `M ≥ 2`, when no accepted step is smaller than `3 / 2` times
the minimum size (that is, when the minimum sizes did not stop the error control),
`ef_i ≤ 1.1 * (eabs_i + erel * maxabs_i)`.  The factor comes from the first step, for which the code
requires that the estimate is at most a tenth of the bound (and not in proportion to the step size).
For `M = 1` every step is like that, and the error estimates are not scaled by the step size. -/
theorem odeGearControl_error (hA : A.Valid) (hM : 2 ≤ A.M) (hT : A.ti < A.tf)
    (hs : ∀ c ∈ gAccepted (odeGearControl A).calls, A.least c.m * 3 / 2 < c.size) :
    ∀ i < A.n, 0 ≤ (odeGearControl A).ef i ∧ (odeGearControl A).ef i
      ≤ 11 / 10 * (A.eabs i + A.erel * (odeGearControl A).maxabs i) := by
  obtain ⟨I, h1, _⟩ := gLoop hA
  obtain ⟨_, hef, hmax, _⟩ := odeGearControl_result hA
  intro i hi
  have hT' : 0 < A.tf - A.ti := sub_pos.2 hT
  have hmem : ∀ c ∈ gAccepted (odeGearControl A).calls, c ∈ (odeGearControl A).calls :=
    fun c hc => List.mem_of_mem_filter hc
  rw [hef i hi]
  set M := (odeGearControl A).maxabs i with hMdef
  have hM0 : 0 ≤ M := by
    obtain ⟨q, _, h⟩ := (hmax i hi).1
    rw [hMdef, h]; exact abs_nonneg _
  have ha : 0 ≤ A.eabs i + A.erel * M := add_nonneg (hA.eabs i hi) (mul_nonneg hA.erel hM0)
  constructor
  · refine List.sum_nonneg ?_
    intro v hv
    obtain ⟨c, hc, rfl⟩ := List.mem_map.1 hv
    exact (I.sizes c (hmem c hc)).err i hi
  · have key : ∀ c ∈ gAccepted (odeGearControl A).calls, c.e i
        ≤ (if c.m = 1 then (A.eabs i + A.erel * M) / 10 else 0)
          + (A.eabs i + A.erel * M) / (A.tf - A.ti) * c.size := by
      intro c hc
      have hacc : c.acc = true := by
        have := (List.mem_filter.1 hc).2
        simpa using this
      have hw := (odeGearControl_accept hA c (hmem c hc)).1 hacc (hs c hc) i hi
      have hx : |c.X (c.m * A.n + i)| ≤ M := by
        refine (hmax i hi).2 ⟨c.point A.n, ?_, rfl⟩
        exact List.mem_cons_of_mem _ (List.mem_map_of_mem hc)
      have h2 : A.eabs i + A.erel * |c.X (c.m * A.n + i)| ≤ A.eabs i + A.erel * M := by
        have := mul_le_mul_of_nonneg_left hx hA.erel
        linarith
      have hpos := (I.sizes c (hmem c hc)).pos
      have h3 : 0 ≤ (A.eabs i + A.erel * M) / (A.tf - A.ti) * c.size :=
        mul_nonneg (div_nonneg ha hT'.le) hpos.le
      by_cases hm : c.m = 1
      · rw [if_pos hm] at hw ⊢
        linarith
      · rw [if_neg hm] at hw ⊢
        rw [zero_add]
        refine hw.trans ?_
        rw [mul_div_assoc', div_mul_eq_mul_div]
        exact div_le_div_of_nonneg_right (mul_le_mul_of_nonneg_right h2 hpos.le) hT'.le
    refine (gsum_le key).trans ?_
    rw [gsum_add, gsum_ite, List.sum_map_mul_left]
    have htot : ((gAccepted (odeGearControl A).calls).map GCall.size).sum = A.tf - A.ti := by
      have := I.total
      rw [h1] at this
      exact this
    have e : (List.map (fun c => c.size) (gAccepted (odeGearControl A).calls)).sum = A.tf - A.ti := htot
    rw [e, div_mul_cancel₀ _ hT'.ne']
    have h5 := one_first hA hM
    have h6 : ((((gAccepted (odeGearControl A).calls).filter (fun c => decide (c.m = 1))).length : ℕ) : ℝ) ≤ 1 := by
      exact_mod_cast h5
    have h7 := mul_le_mul_of_nonneg_right h6 (div_nonneg ha (by norm_num : (0 : ℝ) ≤ 10))
    linarith

/-! ### A concrete case -/

/-- the equation `x' = 0` from time zero to `tf`, with `smin = sini = 1`, `smax` and order two -/
noncomputable def zeroArgs (tf smax : ℝ) : GearArgs :=
  ⟨⟨fun _ _ _ => 0, fun _ _ _ => 0⟩, 1, 2, 0, tf, fun _ => 5, 1, smax, 1, fun _ => 1, 0⟩

theorem zeroArgs_valid {tf smax : ℝ} (h : 0 ≤ tf) (h1 : 1 ≤ smax) : (zeroArgs tf smax).Valid where
  M := by simp [zeroArgs]
  time := h
  smin_pos := by simp [zeroArgs]
  sini_pos := by simp [zeroArgs]
  smin_smax := h1
  sini_smax := h1
  eabs := by simp [zeroArgs]
  erel := le_rfl

/-- **The documented maximum step size is false** here too: with `smin = sini = smax = 1`, `ti = 0` and
`tf = 3 / 2`, there is a call with a step of size `3 / 2`. -/
theorem odeGearControl_smax_wrong : ∃ A : GearArgs, A.Valid ∧
    ∃ c ∈ (odeGearControl A).calls, A.smax < c.size := by
  have hA := zeroArgs_valid (tf := 3 / 2) (smax := 1) (by norm_num) le_rfl
  refine ⟨zeroArgs (3 / 2) 1, hA, ?_⟩
  obtain ⟨I, h1, _⟩ := gLoop hA
  have hne : (odeGearControl (zeroArgs (3 / 2) 1)).calls ≠ [] := by
    intro h
    obtain ⟨⟨q, q1, q2, _⟩, _⟩ := odeGearControl_result hA
    rw [h] at q1
    simp only [points, gAccepted, List.filter_nil, List.map_nil, List.getLast?_singleton,
      Option.some.injEq] at q1
    rw [← q1] at q2
    norm_num [zeroArgs] at q2
  have hpos : 0 < (odeGearControl (zeroArgs (3 / 2) 1)).calls.length := List.length_pos_iff.2 hne
  refine ⟨_, List.getElem_mem hpos, ?_⟩
  obtain ⟨hm, hrec⟩ := odeGearControl_history hA 0 hpos
  have hsz := I.sizes _ (List.getElem_mem hpos)
  change GSize _ (odeGearControl (zeroArgs (3 / 2) 1)).calls[0] at hsz
  simp only [List.take_zero] at hm hrec
  have hp : points (zeroArgs (3 / 2) 1) [] = [(0, fun _ => 5)] := rfl
  rw [hp] at hm hrec
  have hm1 : (odeGearControl (zeroArgs (3 / 2) 1)).calls[0].m = 1 := by
    rw [hm]; simp [zeroArgs]
  obtain ⟨q, q1, q2, _⟩ := hrec.2 0 (by omega)
  rw [hm1] at q1
  simp at q1
  have hT0 : (odeGearControl (zeroArgs (3 / 2) 1)).calls[0].T 0 = 0 := by rw [q2, ← q1]
  have hls : ∀ m, (zeroArgs (3 / 2) 1).least m = 1 := by
    intro m; unfold GearArgs.least; split_ifs <;> rfl
  have e1 : (zeroArgs (3 / 2) 1).tf = 3 / 2 := rfl
  have e2 : (zeroArgs (3 / 2) 1).smax = 1 := rfl
  have hsize : (odeGearControl (zeroArgs (3 / 2) 1)).calls[0].size
      = (odeGearControl (zeroArgs (3 / 2) 1)).calls[0].T 1 := by
    unfold GCall.size; rw [hm1, Nat.sub_self, hT0, sub_zero]
  have h3 := hsz.size
  rw [hls, e1, e2, hm1, hsize] at h3
  rw [e2, hsize]
  rcases h3 with h | ⟨h, _, h'⟩
  · rw [h]; norm_num
  · linarith

/-- the arguments are valid for an interval on which there is at least one call -/
example : ∃ A : GearArgs, A.Valid ∧ 2 ≤ A.M ∧ A.ti < A.tf ∧ (odeGearControl A).calls ≠ [] := by
  have hA := zeroArgs_valid (tf := 9) (smax := 4) (by norm_num) (by norm_num)
  refine ⟨zeroArgs 9 4, hA, le_rfl, by norm_num [zeroArgs], ?_⟩
  intro h
  obtain ⟨⟨q, q1, q2, _⟩, _⟩ := odeGearControl_result hA
  rw [h] at q1
  simp only [points, gAccepted, List.filter_nil, List.map_nil, List.getLast?_singleton,
    Option.some.injEq] at q1
  rw [← q1] at q2
  simp [zeroArgs] at q2

end CppAD.Ode
