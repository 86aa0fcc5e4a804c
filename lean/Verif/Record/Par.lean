import Verif.Record.Prog

/-! # Parameters: the table of constants (C09) and the dynamic sweep -/

open scoped Classical

namespace CppAD.Record

open CppAD

/-! ## C09 -/

/-- requests to the recorder -/
inductive Put (B : Type)
  | con (v : B)
  | dyn (v : B) (op : DynOp)

/-- *Specification*: the value stored by the request -/
def Put.value {B : Type} : Put B → B
  | .con v => v
  | .dyn v _ => v

/-- a sequence of requests; the returned indices are listed -/
def runPuts {B : Type} (hash : B → ℕ) (idEq : B → B → Bool) : DynRec B → List (Put B) → DynRec B × List ℕ
  | r, [] => (r, [])
  | r, .con v :: ps =>
    let d := r.putConPar hash idEq v
    let e := runPuts hash idEq d.1 ps
    (e.1, d.2 :: e.2)
  | r, .dyn v op :: ps =>
    let d := r.putDynPar v op
    let e := runPuts hash idEq d.1 ps
    (e.1, d.2 :: e.2)

/-- `s` extends `r`: what was stored is unchanged -/
def DynRec.Ext {B : Type} (r s : DynRec B) : Prop :=
  (∀ (i : ℕ) (v : B), r.parAll[i]? = some v → s.parAll[i]? = some v) ∧
  (∀ (i : ℕ) (b : Bool), r.parIsDyn[i]? = some b → s.parIsDyn[i]? = some b) ∧
  (r.parAll.length = r.parIsDyn.length → s.parAll.length = s.parIsDyn.length)

theorem DynRec.Ext.refl {B : Type} (r : DynRec B) : r.Ext r := ⟨fun _ _ h => h, fun _ _ h => h, id⟩

theorem DynRec.Ext.trans {B : Type} {r s t : DynRec B} (h : r.Ext s) (h' : s.Ext t) : r.Ext t :=
  ⟨fun i v e => h'.1 i v (h.1 i v e), fun i v e => h'.2.1 i v (h.2.1 i v e), fun e => h'.2.2 (h.2.2 e)⟩

theorem getElem?_append_some {α : Type*} {l l' : List α} {i : ℕ} {a : α} (h : l[i]? = some a) :
    (l ++ l')[i]? = some a := by
  rw [List.getElem?_append_left (by
    rcases Nat.lt_or_ge i l.length with h' | h'
    · exact h'
    · rw [List.getElem?_eq_none h'] at h; simp at h)]
  exact h

theorem putConPar_cases {B : Type} (hash : B → ℕ) (idEq : B → B → Bool) (r : DynRec B) (v : B) :
    ((r.putConPar hash idEq v).1 = r ∧ 0 < (r.putConPar hash idEq v).2 ∧
      ∃ c, r.parAll[(r.putConPar hash idEq v).2]? = some c ∧ r.parIsDyn.getD (r.putConPar hash idEq v).2 false = false ∧
        idEq c v = true) ∨
    ((r.putConPar hash idEq v).2 = r.parAll.length ∧ (r.putConPar hash idEq v).1.parAll = r.parAll ++ [v] ∧
      (r.putConPar hash idEq v).1.parIsDyn = r.parIsDyn ++ [false] ∧ (r.putConPar hash idEq v).1.dynOps = r.dynOps) := by
  unfold DynRec.putConPar
  dsimp only
  by_cases h : 0 < r.hashTable (hash v)
  · rw [if_pos h]
    cases e : r.parAll[r.hashTable (hash v)]? with
    | none => right; simp
    | some c =>
      dsimp only
      by_cases h2 : (!r.parIsDyn.getD (r.hashTable (hash v)) false && idEq c v) = true
      · left
        rw [if_pos h2]
        simp only [Bool.and_eq_true, Bool.not_eq_eq_eq_not, Bool.not_true] at h2
        exact ⟨rfl, h, c, e, h2.1, h2.2⟩
      · right; rw [if_neg h2]; simp
  · rw [if_neg h]; right; simp

theorem putConPar_ext {B : Type} (hash : B → ℕ) (idEq : B → B → Bool) (r : DynRec B) (v : B) :
    r.Ext (r.putConPar hash idEq v).1 := by
  rcases putConPar_cases hash idEq r v with ⟨h, _⟩ | ⟨_, h1, h2, _⟩
  · rw [h]; exact .refl r
  · refine ⟨fun i c hc => ?_, fun i c hc => ?_, fun h => ?_⟩
    · rw [h1]; exact getElem?_append_some hc
    · rw [h2]; exact getElem?_append_some hc
    · rw [h1, h2]; simp [h]

theorem putDynPar_ext {B : Type} (r : DynRec B) (v : B) (op : DynOp) : r.Ext (r.putDynPar v op).1 :=
  ⟨fun _ _ hc => getElem?_append_some hc, fun _ _ hc => getElem?_append_some hc, fun h => by
    simp [DynRec.putDynPar, h]⟩

theorem runPuts_ext {B : Type} (hash : B → ℕ) (idEq : B → B → Bool) (ps : List (Put B)) : ∀ r : DynRec B,
    r.Ext (runPuts hash idEq r ps).1 := by
  induction ps with
  | nil => intro r; exact .refl r
  | cons p ps ih =>
    intro r
    cases p with
    | con v => exact (putConPar_ext hash idEq r v).trans (ih _)
    | dyn v op => exact (putDynPar_ext r v op).trans (ih _)

/-- **C09** Constants are stored faithfully: for every hash function, every comparison `idEq`, every content of the hash
table at the start and every sequence of requests, the index returned for request `k` is not zero and refers, at
the end, to a parameter that is the value of the request or (only for constants) identically equal to
it; the parameter is dynamic exactly if the request was for a dynamic parameter. -/
theorem put_con_par_faithful {B : Type} (hash : B → ℕ) (idEq : B → B → Bool) (ps : List (Put B)) : ∀ (r : DynRec B),
    0 < r.parAll.length → r.parAll.length = r.parIsDyn.length →
    (runPuts hash idEq r ps).2.length = ps.length ∧
    ∀ (k : ℕ) (p : Put B), ps[k]? = some p → ∃ (i : ℕ) (c : B), (runPuts hash idEq r ps).2[k]? = some i ∧ 0 < i ∧
      (runPuts hash idEq r ps).1.parAll[i]? = some c ∧
      match p with
      | .con v => (c = v ∨ idEq c v = true) ∧ (runPuts hash idEq r ps).1.parIsDyn[i]? = some false
      | .dyn v _ => c = v ∧ (runPuts hash idEq r ps).1.parIsDyn[i]? = some true := by
  induction ps with
  | nil => intro r _ _; exact ⟨rfl, fun k p h => by simp at h⟩
  | cons q ps ih =>
    intro r h0 hl
    cases q with
    | con v =>
      have hx := putConPar_ext hash idEq r v
      have hlen : 0 < (r.putConPar hash idEq v).1.parAll.length := by
        rcases putConPar_cases hash idEq r v with ⟨h, _⟩ | ⟨_, h1, _⟩
        · rw [h]; exact h0
        · rw [h1]; simp
      obtain ⟨i1, i2⟩ := ih _ hlen (hx.2.2 hl)
      refine ⟨by simp [runPuts, i1], fun k p hk => ?_⟩
      cases k with
      | zero =>
        simp only [List.getElem?_cons_zero, Option.some.injEq] at hk
        subst hk
        have hy := runPuts_ext hash idEq ps (r.putConPar hash idEq v).1
        rcases putConPar_cases hash idEq r v with ⟨h, hp, c, hc, hd, he⟩ | ⟨h, h1, h2, _⟩
        · refine ⟨(r.putConPar hash idEq v).2, c, rfl, hp, hy.1 _ _ (hx.1 _ _ hc), Or.inr he, ?_⟩
          refine hy.2.1 _ _ (hx.2.1 _ _ ?_)
          have : (r.putConPar hash idEq v).2 < r.parIsDyn.length := by
            rw [← hl]
            by_contra hcon
            rw [List.getElem?_eq_none (by omega)] at hc
            simp at hc
          rw [List.getD_eq_getElem?_getD, List.getElem?_eq_getElem this] at hd
          rw [List.getElem?_eq_getElem this]
          simpa using hd
        · refine ⟨(r.putConPar hash idEq v).2, v, rfl, by omega, hy.1 _ _ ?_, Or.inl rfl, hy.2.1 _ _ ?_⟩
          · rw [h, h1]; simp
          · rw [h, h2, hl]; simp
      | succ k => exact i2 k p (by simpa using hk)
    | dyn v op =>
      have hx := putDynPar_ext r v op
      obtain ⟨i1, i2⟩ := ih (r.putDynPar v op).1 (by simp [DynRec.putDynPar]) (hx.2.2 hl)
      refine ⟨by simp [runPuts, i1], fun k p hk => ?_⟩
      cases k with
      | zero =>
        simp only [List.getElem?_cons_zero, Option.some.injEq] at hk
        subst hk
        have hy := runPuts_ext hash idEq ps (r.putDynPar v op).1
        refine ⟨r.parAll.length, v, rfl, h0, hy.1 _ _ ?_, rfl, hy.2.1 _ _ ?_⟩
        · simp [DynRec.putDynPar]
        · simp [DynRec.putDynPar, hl]
      | succ k => exact i2 k p (by simpa using hk)

/-- C09 is not vacuous: the recorder made by Independent satisfies the hypotheses, and with a constant hash function
(every pair of constants collides) three constants are stored at three indices and found again. -/
example : (runPuts (B := ℤ) (fun _ => 0) (fun a b => a == b) ⟨[0], [false], [], fun _ => 0⟩
    [.con 5, .con 7, .con 5, .con 5, .dyn 5 .ind, .con 5]).2 = [1, 2, 3, 3, 4, 3] := by decide

/-! ## The dynamic sweep -/

theorem dyn2par_snoc (b : List Bool) (x : Bool) :
    dyn2par (b ++ [x]) = dyn2par b ++ if x then [b.length] else [] := by
  unfold dyn2par
  rw [List.length_append, List.length_singleton, List.range_succ, List.filter_append]
  congr 1
  · refine List.filter_congr fun i hi => ?_
    rw [List.mem_range] at hi
    rw [List.getD_append _ _ _ _ hi]
  · cases x <;> simp

/-- what the recorder guarantees about `par_is_dyn_` and the dynamic operators -/
inductive DynWf : List Bool → List DynOp → Prop
  | nil : DynWf [] []
  | con {b o} : DynWf b o → DynWf (b ++ [false]) o
  | dyn {b o op} : DynWf b o → (∀ a ∈ op.args, a < b.length) → DynWf (b ++ [true]) (o ++ [op])

theorem DynWf.length {b : List Bool} {o : List DynOp} (h : DynWf b o) : (dyn2par b).length = o.length := by
  induction h with
  | nil => rfl
  | con _ ih => rw [dyn2par_snoc]; simpa using ih
  | dyn _ _ ih => rw [dyn2par_snoc]; simpa using ih

theorem DynWf.args {b : List Bool} {o : List DynOp} (h : DynWf b o) : ∀ op ∈ o, ∀ a ∈ op.args, a < b.length := by
  induction h with
  | nil => intro op h; simp at h
  | con _ ih => intro op h a ha; have := ih op h a ha; simp; omega
  | dyn _ h2 ih =>
    intro op h a ha
    rcases List.mem_append.1 h with h | h
    · have := ih op h a ha; simp; omega
    · rw [List.mem_singleton] at h; subst h
      have := h2 a ha; simp; omega

theorem dyn2par_lt {b : List Bool} {i : ℕ} (h : i ∈ dyn2par b) : i < b.length := by
  unfold dyn2par at h; exact List.mem_range.1 (List.mem_filter.1 h).1

theorem forRange_length {α : Type*} (hi : ℕ) (g : ℕ → List α → ℕ) (f : ℕ → List α → α) (s : List α) :
    (forRange 0 hi s fun i par => par.set (g i par) (f i par)).length = s.length :=
  forRange_ind (Nat.zero_le hi) (s := s) (f := fun i par => par.set (g i par) (f i par))
    (P := fun _ t => t.length = s.length) rfl (fun k t _ _ ht => by simpa using ht)

theorem dynamicSweep_length (disc : ℕ → ℝ → ℝ) (ind : List ℝ) (b : List Bool) (o : List DynOp) (par : List ℝ) :
    (dynamicSweep disc ind b o par).length = par.length := forRange_length _ _ _ _

theorem forRange_rel {σ τ : Type*} (R : σ → τ → Prop) {hi : ℕ} {s : σ} {t : τ} {f : ℕ → σ → σ} {g : ℕ → τ → τ}
    (h0 : R s t) (hs : ∀ k < hi, ∀ a b, R a b → R (f k a) (g k b)) : R (forRange 0 hi s f) (forRange 0 hi t g) := by
  induction hi with
  | zero => exact h0
  | succ n ih =>
    rw [forRange_succ (Nat.zero_le n), forRange_succ (Nat.zero_le n)]
    exact hs n (Nat.lt_succ_self n) _ _ (ih fun k hk => hs k (Nat.lt_succ_of_lt hk))

theorem at'_append {l l' : List ℝ} {i : ℕ} (h : i < l.length) : at' (l ++ l') i = at' l i :=
  List.getD_append _ _ _ _ h

theorem at'_append_length (l : List ℝ) (v : ℝ) : at' (l ++ [v]) l.length = v := by simp [at']

theorem DynOp.eval_congr (disc : ℕ → ℝ → ℝ) (ind : List ℝ) (i : ℕ) {par par' : List ℝ} (op : DynOp)
    (h : ∀ a ∈ op.args, at' par a = at' par' a) : op.eval disc ind i par = op.eval disc ind i par' := by
  cases op
  case atom A sel k args =>
    simp only [DynOp.eval]
    congr 1
    funext j
    cases hj : args[j]? with
    | none => rfl
    | some a => exact h a (List.mem_of_getElem? hj)
  all_goals simp_all [DynOp.eval, DynOp.args]

theorem getD_mem_or {α : Type*} {l : List α} {i : ℕ} (d : α) (h : i < l.length) : l.getD i d ∈ l := by
  rw [List.getD_eq_getElem _ _ h]; exact List.getElem_mem h

theorem snoc_of_length {α : Type*} {l : List α} {n : ℕ} (h : l.length = n + 1) : ∃ q v, l = q ++ [v] := by
  have hne : l ≠ [] := by rintro rfl; simp at h
  exact ⟨l.dropLast, l.getLast hne, (List.dropLast_append_getLast hne).symm⟩

/-- one more parameter after those used: the sweep does not change it -/
theorem sweep_prefix (disc : ℕ → ℝ → ℝ) (ind : List ℝ) {b : List Bool} {o o' : List DynOp} (h : DynWf b o)
    (par : List ℝ) (v : ℝ) (hl : par.length = b.length) :
    (forRange 0 (dyn2par b).length (par ++ [v]) fun i par =>
      par.set ((dyn2par b).getD i 0) (((o ++ o').getD i .ind).eval disc ind i par))
      = dynamicSweep disc ind b o par ++ [v] := by
  have key := forRange_rel (fun (a c : List ℝ) => a = c ++ [v] ∧ c.length = b.length) (hi := (dyn2par b).length)
    (s := par ++ [v]) (t := par)
    (f := fun i par => par.set ((dyn2par b).getD i 0) (((o ++ o').getD i .ind).eval disc ind i par))
    (g := fun i par => par.set ((dyn2par b).getD i 0) ((o.getD i .ind).eval disc ind i par)) ⟨rfl, hl⟩ ?_
  · exact key.1
  · rintro k hk a c ⟨rfl, hc⟩
    have hd : (dyn2par b).getD k 0 < b.length := dyn2par_lt (getD_mem_or 0 hk)
    have hko : k < o.length := by rw [← h.length]; exact hk
    refine ⟨?_, by simpa using hc⟩
    rw [List.set_append_left _ _ (by omega)]
    congr 2
    rw [List.getD_append _ _ _ _ hko]
    refine DynOp.eval_congr _ _ _ _ fun a ha => at'_append ?_
    have := h.args _ (getD_mem_or .ind hko) a ha
    omega

theorem sweep_con (disc : ℕ → ℝ → ℝ) (ind : List ℝ) {b : List Bool} {o : List DynOp} (h : DynWf b o)
    (par : List ℝ) (v : ℝ) (hl : par.length = b.length) :
    dynamicSweep disc ind (b ++ [false]) o (par ++ [v]) = dynamicSweep disc ind b o par ++ [v] := by
  have := sweep_prefix disc ind (o' := []) h par v hl
  simpa [dynamicSweep, dyn2par_snoc] using this

theorem sweep_dyn (disc : ℕ → ℝ → ℝ) (ind : List ℝ) {b : List Bool} {o : List DynOp} (h : DynWf b o)
    (par : List ℝ) (v : ℝ) (hl : par.length = b.length) (op : DynOp) (ha : ∀ a ∈ op.args, a < b.length) :
    dynamicSweep disc ind (b ++ [true]) (o ++ [op]) (par ++ [v])
      = dynamicSweep disc ind b o par ++ [op.eval disc ind o.length (dynamicSweep disc ind b o par)] := by
  have h1 := sweep_prefix disc ind (o' := [op]) h par v hl
  have hlen := dynamicSweep_length disc ind b o par
  unfold dynamicSweep at h1 ⊢
  rw [dyn2par_snoc, if_pos rfl]
  dsimp only
  rw [List.length_append, List.length_singleton, forRange_succ (Nat.zero_le _)]
  have h2 : (forRange 0 (dyn2par b).length (par ++ [v]) fun i par =>
      par.set ((dyn2par b ++ [b.length]).getD i 0) (((o ++ [op]).getD i .ind).eval disc ind i par))
      = dynamicSweep disc ind b o par ++ [v] := by
    refine Eq.trans (forRange_congr _ ?_) h1
    intro i s _ hi
    rw [List.getD_append _ _ _ _ hi]
  rw [h2]
  have e1 : (dyn2par b ++ [b.length]).getD (dyn2par b).length 0 = b.length := by simp
  have e2 : (o ++ [op]).getD (dyn2par b).length .ind = op := by rw [h.length]; simp
  rw [e1, e2, h.length, List.set_append_right _ _ (by rw [hlen, hl]), hlen, hl, Nat.sub_self, List.set_cons_zero]
  have e3 : op.eval disc ind o.length (dynamicSweep disc ind b o par ++ [v])
      = op.eval disc ind o.length (dynamicSweep disc ind b o par) :=
    DynOp.eval_congr _ _ _ _ fun a h => at'_append (by rw [hlen, hl]; exact ha a h)
  rw [e3, ← h.length]
  rfl

/-- the sweep depends only on the constants: earlier values of the dynamic parameters do not matter -/
theorem sweep_congr (disc : ℕ → ℝ → ℝ) (ind : List ℝ) {b : List Bool} {o : List DynOp} (h : DynWf b o) :
    ∀ (par par' : List ℝ), par.length = b.length → par'.length = b.length →
    (∀ i, b.getD i true = false → at' par i = at' par' i) →
    dynamicSweep disc ind b o par = dynamicSweep disc ind b o par' := by
  induction h with
  | nil =>
    intro par par' h1 h2 _
    rw [List.length_eq_zero_iff.1 h1, List.length_eq_zero_iff.1 h2]
  | @con b o hw ih =>
    intro par par' h1 h2 h3
    simp only [List.length_append, List.length_singleton] at h1 h2
    obtain ⟨q, v, rfl⟩ := snoc_of_length h1
    obtain ⟨q', v', rfl⟩ := snoc_of_length h2
    simp only [List.length_append, List.length_singleton, Nat.add_right_cancel_iff] at h1 h2
    have hv : v = v' := by
      have := h3 b.length (by simp)
      rw [← h1, at'_append_length, h1, ← h2, at'_append_length] at this
      exact this
    rw [sweep_con _ _ hw _ _ h1, sweep_con _ _ hw _ _ h2, hv, ih q q' h1 h2 ?_]
    intro i hi
    have hib : i < b.length := by
      by_contra hc
      rw [List.getD_eq_default _ _ (by omega)] at hi; simp at hi
    have := h3 i (by rw [List.getD_append _ _ _ _ hib]; exact hi)
    rwa [at'_append (by omega), at'_append (by omega)] at this
  | @dyn b o op hw ha ih =>
    intro par par' h1 h2 h3
    simp only [List.length_append, List.length_singleton] at h1 h2
    obtain ⟨q, v, rfl⟩ := snoc_of_length h1
    obtain ⟨q', v', rfl⟩ := snoc_of_length h2
    simp only [List.length_append, List.length_singleton, Nat.add_right_cancel_iff] at h1 h2
    rw [sweep_dyn _ _ hw _ _ h1 _ ha, sweep_dyn _ _ hw _ _ h2 _ ha, ih q q' h1 h2 ?_]
    intro i hi
    have hib : i < b.length := by
      by_contra hc
      rw [List.getD_eq_default _ _ (by omega)] at hi; simp at hi
    have := h3 i (by rw [List.getD_append _ _ _ _ hib]; exact hi)
    rwa [at'_append (by omega), at'_append (by omega)] at this

/-- the sweep does not change constants -/
theorem sweep_con_eq (disc : ℕ → ℝ → ℝ) (ind : List ℝ) {b : List Bool} {o : List DynOp} (h : DynWf b o) :
    ∀ (par : List ℝ), par.length = b.length → ∀ i, b.getD i true = false →
    at' (dynamicSweep disc ind b o par) i = at' par i := by
  induction h with
  | nil => intro par h1 i hi; simp at hi
  | @con b o hw ih =>
    intro par h1 i hi
    simp only [List.length_append, List.length_singleton] at h1
    obtain ⟨q, v, rfl⟩ := snoc_of_length h1
    simp only [List.length_append, List.length_singleton, Nat.add_right_cancel_iff] at h1
    rw [sweep_con _ _ hw _ _ h1]
    have hl := dynamicSweep_length disc ind b o q
    by_cases hib : i < b.length
    · rw [at'_append (by omega), at'_append (by omega)]
      exact ih q h1 i (by rwa [List.getD_append _ _ _ _ hib] at hi)
    · by_cases hib' : i = b.length
      · subst hib'
        have e1 := at'_append_length (dynamicSweep disc ind b o q) v
        have e2 := at'_append_length q v
        rw [hl, h1] at e1; rw [h1] at e2
        rw [e1, e2]
      · simp only [at']
        rw [List.getD_eq_default _ _ (by simp; omega), List.getD_eq_default _ _ (by simp; omega)]
  | @dyn b o op hw ha ih =>
    intro par h1 i hi
    simp only [List.length_append, List.length_singleton] at h1
    obtain ⟨q, v, rfl⟩ := snoc_of_length h1
    simp only [List.length_append, List.length_singleton, Nat.add_right_cancel_iff] at h1
    rw [sweep_dyn _ _ hw _ _ h1 _ ha]
    have hl := dynamicSweep_length disc ind b o q
    by_cases hib : i < b.length
    · rw [at'_append (by omega), at'_append (by omega)]
      exact ih q h1 i (by rwa [List.getD_append _ _ _ _ hib] at hi)
    · exfalso
      by_cases hib' : i = b.length
      · subst hib'; simp at hi
      · rw [List.getD_eq_default _ _ (by simp; omega)] at hi; simp at hi

end CppAD.Record
