import Verif.Optimize.Usage

/-! # The result of get_op_usage -/

open scoped Classical

namespace CppAD.Optim

open CppAD CppAD.Record

variable {o : Options} {tx : ℕ → AdType × ℝ} {op : ℕ → VOp} {nset : Bool}

/-- only the sets of the arguments change -/
theorem useStep_cset (i : ℕ) (s : UseSt) : ∀ j, j ∉ (op i).vars → (useStep o tx op nset i s).cset j = s.cset j := by
  intro j hj
  unfold useStep
  cases hop : op i with
  | begin => rfl
  | inv => rfl
  | un f v =>
    simp only [hop, VOp.vars] at hj
    dsimp only
    split_ifs
    · exact (incArg_eff (op := op) _ _ _ _).cset j hj
    · rfl
  | pv f p v =>
    simp only [hop, VOp.vars] at hj
    dsimp only
    split_ifs
    · exact (incArg_eff (op := op) _ _ _ _).cset j hj
    · rfl
  | vp f v p =>
    simp only [hop, VOp.vars] at hj
    dsimp only
    split_ifs
    · exact (incArg_eff (op := op) _ _ _ _).cset j hj
    · rfl
  | vv f v u =>
    simp only [hop, VOp.vars] at hj
    dsimp only
    split_ifs
    · exact ((incArg_eff (op := op) _ _ _ _).trans (incArg_eff (op := op) _ _ _ _)).cset j hj
    · rfl
  | dis k v =>
    simp only [hop, VOp.vars] at hj
    dsimp only
    split_ifs
    · exact (incArg_eff (op := op) _ _ _ _).cset j hj
    · rfl
  | par p => rfl
  | cexp cop l r t f =>
    simp only [hop, VOp.vars] at hj
    dsimp only
    split_ifs
    · exact ((((incOpd_eff (op := op) i l s).trans (incOpd_eff i r _)).trans (incCase_eff _ i false t _)).trans
        (incCase_eff _ i true f _)).cset j hj
    · rfl
  | cmp c a b =>
    simp only [hop, VOp.vars] at hj
    dsimp only
    split_ifs
    · exact ((incOpd_eff (op := op) i a (s.mark i)).trans (incOpd_eff i b _)).cset j hj
    · rfl
  | csum c av sv ad sd =>
    simp only [hop, VOp.vars] at hj
    exact (foldl_eff (op := op) i (av ++ sv) s).cset j hj
  | cskip => rfl
  | ldp w p => dsimp only; split_ifs <;> rfl
  | ldv w v => dsimp only; split_ifs <;> rfl
  | stpp => rfl
  | stvp => rfl
  | stpv w p v => dsimp only; split_ifs <;> rfl
  | stvv w v u => dsimp only; split_ifs <;> rfl
  | afun A args m =>
    dsimp only
    split_ifs
    · exact (foldlA_eff (op := op) i _ s).cset j fun h => hj (by
        rw [hop]; exact need_vars (tx := tx) (u := s.usage) (i := i) (op := .afun A args m) h)
    · rfl
  | frv A args g r =>
    simp only [hop, VOp.vars, List.mem_cons, not_or] at hj
    dsimp only
    split_ifs
    · exact (incArg_eff (op := op) _ _ _ _).cset j (by simpa using hj.1)
    · rfl
  | frp => rfl

/-- the variable arguments that are used, other than the cases of a conditional expression -/
def VOp.plain (tx : ℕ → AdType × ℝ) (u : ℕ → Usage) (i : ℕ) : VOp → List ℕ
  | .cexp _ l r _ _ => l.vars ++ r.vars
  | op => op.need tx u i

/-- the case of a conditional expression that is used when the comparison is `b` -/
def VOp.branch : VOp → Bool → List ℕ
  | .cexp _ _ _ t _, true => t.vars
  | .cexp _ _ _ _ f, false => f.vars
  | _, _ => []

theorem VOp.plain_need {u : ℕ → Usage} {i : ℕ} {op : VOp} {v : ℕ} (h : v ∈ op.plain tx u i) : v ∈ op.need tx u i := by
  cases op with
  | cexp => simp_all [VOp.need, VOp.vars, VOp.plain]; tauto
  | _ => exact h

theorem VOp.plain_vars {u : ℕ → Usage} {i : ℕ} {op : VOp} {v : ℕ} (h : v ∈ op.plain tx u i) : v ∈ op.vars := need_vars (VOp.plain_need h)

theorem VOp.branch_need {u : ℕ → Usage} {i : ℕ} {op : VOp} {b : Bool} {v : ℕ} (h : v ∈ op.branch b) : v ∈ op.need tx u i := by
  cases op with
  | cexp => cases b <;> simp_all [VOp.need, VOp.vars, VOp.branch]
  | _ => cases h

theorem VOp.branch_vars {op : VOp} {b : Bool} {v : ℕ} (h : v ∈ op.branch b) : v ∈ op.vars :=
  need_vars (tx := fun _ => (AdType.constant, 0)) (u := fun _ => .no) (i := 0) (VOp.branch_need h)

theorem plain_congr {u u' : ℕ → Usage} {i : ℕ} (op : VOp) (h : ∀ j, i < j → u j = u' j) : op.plain tx u i = op.plain tx u' i := by
  cases op with
  | afun A args m => exact need_congr (.afun A args m) h
  | _ => rfl

theorem plain_eq {u : ℕ → Usage} {i : ℕ} {op : VOp} (h : op.isAtom = false) (h' : op.isCexp = false) : op.plain tx u i = op.vars := by
  cases op <;> simp_all [VOp.plain, VOp.need, VOp.isAtom, VOp.isCexp]

theorem incArg_cset (check : Bool) {i j : ℕ} (s : UseSt) : (incArg op true check i j s).cset j ⊆ s.cset i := by
  simp only [incArg, if_true, Function.update_self]
  split_ifs
  · exact subset_rfl
  · exact Finset.inter_subset_right

theorem incOpd_cset {i : ℕ} (a : Arg) (s : UseSt) : ∀ v ∈ a.vars, (incOpd op true i a s).cset v ⊆ s.cset i := by
  cases a
  · simp [Arg.vars]
  · simp only [Arg.vars, List.mem_singleton]; rintro v rfl; exact incArg_cset _ _

theorem incCase_cset {same : Bool} {i : ℕ} {b : Bool} (a : Arg) (s : UseSt) :
    ∀ v ∈ a.vars, (incCase o op true same i b a s).cset v ⊆ insert (i, b) (s.cset i) := by
  cases a with
  | par p => simp [Arg.vars]
  | var j =>
    simp only [Arg.vars, List.mem_singleton]
    rintro v rfl
    simp only [incCase]
    split_ifs
    · simp only [Function.update_self]
      exact Finset.insert_subset_insert _ (incArg_cset _ _)
    · exact (incArg_cset _ _).trans (Finset.subset_insert _ _)

theorem foldl_cset {i : ℕ} : ∀ (l : List ℕ) (s : UseSt), i ∉ l →
    ∀ v ∈ l, (l.foldl (fun s j => incArg op true false i j s) s).cset v ⊆ s.cset i
  | [], s, _ => by simp
  | j :: l, s, hi => by
    intro v hv
    rw [List.foldl_cons]
    simp only [List.mem_cons, not_or] at hi
    have h := foldl_eff (op := op) (nset := true) i l (incArg op true false i j s)
    have e := (incArg_eff (op := op) (nset := true) false i j s).cset i (by simpa using hi.1)
    by_cases h1 : v ∈ l
    · exact e ▸ foldl_cset l _ hi.2 v h1
    · have hvj : v = j := by simp only [List.mem_cons] at hv; tauto
      subst hvj
      rw [h.cset v h1]
      exact incArg_cset _ _

theorem foldlA_cset {i : ℕ} : ∀ (l : List Arg) (s : UseSt), i ∉ l.flatMap Arg.vars →
    ∀ v ∈ l.flatMap Arg.vars, (l.foldl (fun s a => incOpd op true i a s) s).cset v ⊆ s.cset i
  | [], s, _ => by simp
  | a :: l, s, hi => by
    intro v hv
    rw [List.foldl_cons]
    rw [List.flatMap_cons, List.mem_append] at hv hi
    rw [not_or] at hi
    have h := foldlA_eff (op := op) (nset := true) i l (incOpd op true i a s)
    have e := (incOpd_eff (op := op) (nset := true) i a s).cset i hi.1
    by_cases h1 : v ∈ l.flatMap Arg.vars
    · exact e ▸ foldlA_cset l _ hi.2 v h1
    · rw [h.cset v h1]
      exact incOpd_cset a s v (hv.resolve_right h1)

/-- sets of the arguments of an operator that does not use VecAD vectors -/
theorem useStep_sets (i : ℕ) (s : UseSt) (hi : i ∉ (op i).vars) (hv : (op i).vec = none)
    (hno : (op i).hasRes = false → s.usage i = .no)
    (hu : (useStep o tx op true i s).usage i ≠ .no) :
    (∀ v ∈ (op i).plain tx s.usage i, (useStep o tx op true i s).cset v ⊆ s.cset i) ∧
      ∀ b, ∀ v ∈ (op i).branch b, (useStep o tx op true i s).cset v ⊆ insert (i, !b) (s.cset i) := by
  unfold useStep at hu ⊢
  cases hop : op i with
  | begin => simp [VOp.vars, VOp.need, VOp.plain, VOp.branch]
  | inv => simp [VOp.vars, VOp.need, VOp.plain, VOp.branch]
  | par p => simp [VOp.vars, VOp.need, VOp.plain, VOp.branch]
  | un f v =>
    simp only [hop, VOp.vars] at hu ⊢
    split_ifs at hu ⊢ with h
    · simp only [VOp.plain, VOp.need, VOp.vars, VOp.branch, List.mem_singleton, List.not_mem_nil]
      exact ⟨by rintro _ rfl; exact incArg_cset _ _, by simp⟩
    · exact absurd hu h
  | dis f v =>
    simp only [hop, VOp.vars] at hu ⊢
    split_ifs at hu ⊢ with h
    · simp only [VOp.plain, VOp.need, VOp.vars, VOp.branch, List.mem_singleton, List.not_mem_nil]
      exact ⟨by rintro _ rfl; exact incArg_cset _ _, by simp⟩
    · exact absurd hu h
  | pv f p v =>
    simp only [hop, VOp.vars] at hu ⊢
    split_ifs at hu ⊢ with h
    · simp only [VOp.plain, VOp.need, VOp.vars, VOp.branch, List.mem_singleton, List.not_mem_nil]
      exact ⟨by rintro _ rfl; exact incArg_cset _ _, by simp⟩
    · exact absurd hu h
  | vp f v p =>
    simp only [hop, VOp.vars] at hu ⊢
    split_ifs at hu ⊢ with h
    · simp only [VOp.plain, VOp.need, VOp.vars, VOp.branch, List.mem_singleton, List.not_mem_nil]
      exact ⟨by rintro _ rfl; exact incArg_cset _ _, by simp⟩
    · exact absurd hu h
  | vv f v u =>
    simp only [hop, VOp.vars, List.mem_cons, List.not_mem_nil, or_false, not_or] at hu hi ⊢
    split_ifs at hu ⊢ with h
    · generalize (o.csum && (VOp.vv f v u).addOrSub) = check
      have e1 := incArg_eff (op := op) (nset := true) check i v s
      have e2 := incArg_eff (op := op) (nset := true) check i u (incArg op true check i v s)
      have e3 : (incArg op true check i v s).cset i = s.cset i := e1.cset i (by simpa using hi.1)
      simp only [VOp.plain, VOp.need, VOp.vars, VOp.branch]
      refine ⟨fun w hw => ?_, by simp⟩
      by_cases hwu : w = u
      · subst hwu; exact e3 ▸ incArg_cset _ _
      · have hwv : w = v := by simp at hw; tauto
        subst hwv
        rw [e2.cset w (by simpa using hwu)]; exact incArg_cset _ _
    · exact absurd hu h
  | cexp cop l r t f =>
    simp only [hop, VOp.vars, List.mem_append, not_or] at hu hi ⊢
    obtain ⟨⟨⟨h1, h2⟩, h3⟩, h4⟩ := hi
    split_ifs at hu ⊢ with h
    · have e1 := incOpd_eff (op := op) (nset := true) i l s
      have e2 := incOpd_eff (op := op) (nset := true) i r (incOpd op true i l s)
      have e3 := incCase_eff (o := o) (op := op) (nset := true) (sameVar t f) i false t (incOpd op true i r (incOpd op true i l s))
      have e4 := incCase_eff (o := o) (op := op) (nset := true) (sameVar t f) i true f
        (incCase o op true (sameVar t f) i false t (incOpd op true i r (incOpd op true i l s)))
      have c1 := e1.cset i h1
      have c2 := (e2.cset i h2).trans c1
      have c3 := (e3.cset i h3).trans c2
      refine ⟨fun v hv => ?_, fun b v hv => ?_⟩
      · simp only [VOp.plain, List.mem_append] at hv
        rcases hv with hv | hv
        · exact (((e2.trans e3).trans e4).shrink v (by rw [incOpd_yes _ _ _ v hv]; simp)).trans (incOpd_cset _ _ v hv)
        · refine ((e3.trans e4).shrink v (by rw [incOpd_yes _ _ _ v hv]; simp)).trans ?_
          exact c1 ▸ incOpd_cset _ _ v hv
      · cases b with
        | true =>
          refine (e4.shrink v (by rw [incCase_yes _ _ _ _ _ v hv]; simp)).trans ?_
          exact c2 ▸ incCase_cset _ _ v hv
        | false => exact c3 ▸ incCase_cset _ _ v hv
    · exact absurd hu h
  | cmp c a b =>
    simp only [hop, VOp.vars, List.mem_append, not_or] at hu hi ⊢
    split_ifs at hu ⊢ with h
    · have e2 := incOpd_eff (op := op) (nset := true) i a (s.mark i)
      have e3 := incOpd_eff (op := op) (nset := true) i b (incOpd op true i a (s.mark i))
      have c1 : (incOpd op true i a (s.mark i)).cset i = s.cset i := e2.cset i hi.1
      refine ⟨fun v hv => ?_, by simp [VOp.branch]⟩
      simp only [VOp.plain, VOp.need, VOp.vars, List.mem_append] at hv
      rcases hv with hv | hv
      · exact (e3.shrink v (by rw [incOpd_yes _ _ _ v hv]; simp)).trans (incOpd_cset (i := i) a (s.mark i) v hv)
      · exact c1 ▸ incOpd_cset _ _ v hv
    · exact absurd (hno (by rw [hop]; rfl)) hu
  | csum c av sv ad sd =>
    simp only [hop, VOp.vars] at hi
    exact ⟨by simpa only [VOp.plain, VOp.need, VOp.vars] using foldl_cset (av ++ sv) s hi, by simp [VOp.branch]⟩
  | cskip cop l r tr fa =>
    simp only [hop] at hu
    exact absurd (hno (by rw [hop]; rfl)) hu
  | afun A args m =>
    simp only [hop] at hu ⊢
    split_ifs at hu ⊢ with h
    · refine ⟨?_, by simp [VOp.branch]⟩
      refine foldlA_cset _ s fun h => hi ?_
      rw [hop]
      exact need_vars (tx := tx) (u := s.usage) (i := i) (op := .afun A args m) h
    · exact absurd hu h
  | frv A args g r =>
    simp only [hop] at hu ⊢
    split_ifs at hu ⊢ with h
    · simp only [VOp.plain, VOp.need, VOp.branch, List.mem_singleton, List.not_mem_nil]
      exact ⟨by rintro _ rfl; exact incArg_cset _ _, by simp⟩
    · exact absurd hu h
  | frp => simp [VOp.plain, VOp.need, VOp.branch]
  | _ => simp [hop, VOp.vec] at hv

/-! ## Elements of the sets -/

/-- an element of a set belongs to a conditional expression that is used, and all its conditions are also in the set -/
def Clo (op : ℕ → VOp) (N i : ℕ) (s : UseSt) : Prop :=
  ∀ j k b, (k, b) ∈ s.cset j → i ≤ k ∧ k < N ∧ (op k).isCexp = true ∧ s.usage k ≠ .no ∧ s.cset k ⊆ s.cset j

theorem Clo.incArg {N i j : ℕ} {s : UseSt} {check : Bool} (h : Clo op N i s) (hj : j < i) : Clo op N i (incArg op nset check i j s) := by
  intro j' k b hk
  have e := incArg_eff (op := op) (nset := nset) check i j s
  have aux : ∀ j'', (k, b) ∈ s.cset j'' → i ≤ k ∧ k < N ∧ (op k).isCexp = true ∧ (CppAD.Optim.incArg op nset check i j s).usage k ≠ .no ∧
      (CppAD.Optim.incArg op nset check i j s).cset k ⊆ s.cset j'' := by
    intro j'' h1
    obtain ⟨a1, a2, a3, a4, a5⟩ := h j'' k b h1
    refine ⟨a1, a2, a3, Usage.ne_no (e.mono k) a4, ?_⟩
    rw [e.cset k (by simp; omega)]; exact a5
  by_cases hjj : j' = j
  · subst hjj
    cases nset with
    | false => simp only [CppAD.Optim.incArg, Bool.false_eq_true, if_false] at hk aux ⊢; exact aux j' hk
    | true =>
      have hkj : k ≠ j' := by
        rintro rfl
        simp only [CppAD.Optim.incArg, if_true, Function.update_self] at hk
        split_ifs at hk
        · have := (h _ _ _ hk).1; omega
        · have := (h _ _ _ (Finset.mem_inter.1 hk).2).1; omega
      simp only [CppAD.Optim.incArg, if_true, Function.update_self, Function.update_of_ne hkj] at hk aux ⊢
      split_ifs at hk ⊢ with hu
      · exact aux i hk
      · obtain ⟨m1, m2⟩ := Finset.mem_inter.1 hk
        obtain ⟨a1, a2, a3, a4, a5⟩ := aux _ m1
        exact ⟨a1, a2, a3, a4, Finset.subset_inter a5 (aux _ m2).2.2.2.2⟩
  · have e1 := e.cset j' (by simpa using hjj)
    rw [e1] at hk ⊢
    exact aux j' hk

theorem Clo.mark {N i j : ℕ} {s : UseSt} (h : Clo op N i s) : Clo op N i (s.mark j) := by
  intro j' k b hk
  obtain ⟨a1, a2, a3, a4, a5⟩ := h j' k b hk
  exact ⟨a1, a2, a3, Usage.ne_no ((mark_eff (op := op) s j).mono k) a4, a5⟩

theorem Clo.incOpd {N i : ℕ} {s : UseSt} {a : Arg} (h : Clo op N i s) (hj : ∀ v ∈ a.vars, v < i) : Clo op N i (incOpd op nset i a s) := by
  cases a with
  | par p => exact h
  | var v => exact h.incArg (hj v (by simp [Arg.vars]))

theorem Clo.incCase {N i : ℕ} {same b : Bool} {s : UseSt} {a : Arg} (h : Clo op N i s) (hj : ∀ v ∈ a.vars, v < i)
    (hN : i < N) (hc : (op i).isCexp = true) (hu : s.usage i ≠ .no) : Clo op N i (incCase o op true same i b a s) := by
  cases a with
  | par p => exact h
  | var j =>
    have hji := hj j (by simp [Arg.vars])
    have h1 : Clo op N i (CppAD.Optim.incArg op true false i j s) := h.incArg hji
    simp only [CppAD.Optim.incCase]
    split_ifs with hcan
    · simp only [Bool.and_eq_true, decide_eq_true_eq] at hcan
      have e := incArg_eff (op := op) (nset := true) false i j s
      have ej : (CppAD.Optim.incArg op true false i j s).cset j = s.cset i := by simp [CppAD.Optim.incArg, hcan.2]
      have ei : (CppAD.Optim.incArg op true false i j s).cset i = s.cset i := e.cset i (by simp; omega)
      have uj : (CppAD.Optim.incArg op true false i j s).usage j = .yes := incArg_yes _ _ _
      generalize CppAD.Optim.incArg op true false i j s = s1 at *
      intro j' k b' hk
      have hu1 : s1.usage i ≠ .no := Usage.ne_no (e.mono i) hu
      by_cases hjj : j' = j
      · subst hjj
        simp only [Function.update_self, Finset.mem_insert, Prod.mk.injEq] at hk
        rcases hk with ⟨rfl, rfl⟩ | hk
        · refine ⟨le_refl _, hN, hc, ?_, ?_⟩
          · simp only [Function.update_of_ne (show k ≠ j' by omega)]; exact hu1
          · simp only [Function.update_self, Function.update_of_ne (show k ≠ j' by omega), ei, ej]
            exact Finset.subset_insert _ _
        · obtain ⟨a1, a2, a3, a4, a5⟩ := h1 _ _ _ hk
          refine ⟨a1, a2, a3, ?_, ?_⟩
          · simp only [Function.update_of_ne (show k ≠ j' by omega)]; exact a4
          · simp only [Function.update_self, Function.update_of_ne (show k ≠ j' by omega)]
            exact a5.trans (Finset.subset_insert _ _)
      · simp only [Function.update_of_ne hjj] at hk ⊢
        obtain ⟨a1, a2, a3, a4, a5⟩ := h1 _ _ _ hk
        refine ⟨a1, a2, a3, ?_, ?_⟩
        · simp only [Function.update_of_ne (show k ≠ j by omega)]; exact a4
        · simp only [Function.update_of_ne (show k ≠ j by omega)]; exact a5
    · exact h1

theorem Clo.foldl {N i : ℕ} : ∀ (l : List ℕ) {s : UseSt}, Clo op N i s → (∀ v ∈ l, v < i) →
    Clo op N i (l.foldl (fun s j => CppAD.Optim.incArg op nset false i j s) s)
  | [], _, h, _ => h
  | j :: l, _, h, hl => Clo.foldl l (h.incArg (hl j (by simp))) fun v hv => hl v (by simp [hv])

theorem Clo.foldlA {N i : ℕ} : ∀ (l : List Arg) {s : UseSt}, Clo op N i s → (∀ v ∈ l.flatMap Arg.vars, v < i) →
    Clo op N i (l.foldl (fun s a => CppAD.Optim.incOpd op nset i a s) s)
  | [], _, h, _ => h
  | a :: l, _, h, hl => Clo.foldlA l (h.incOpd fun v hv => hl v (by simp [hv])) fun v hv => hl v (by
      rw [List.flatMap_cons, List.mem_append]; exact Or.inr hv)

theorem Clo.step {N i : ℕ} {s : UseSt} (h : Clo op N (i + 1) s) (hN : i < N) (hv : ∀ v ∈ (op i).vars, v < i) :
    Clo op N i (useStep o tx op true i s) := by
  have h : Clo op N i s := fun j k b hk => by
    obtain ⟨a1, a2⟩ := h j k b hk
    exact ⟨by omega, a2⟩
  unfold useStep
  cases hop : op i with
  | begin => exact h.mark
  | inv => exact h.mark
  | par p => exact h
  | un f v =>
    dsimp only; split_ifs
    · exact h.incArg (hv v (by simp [hop, VOp.vars]))
    · exact h
  | dis f v =>
    dsimp only; split_ifs
    · exact h.incArg (hv v (by simp [hop, VOp.vars]))
    · exact h
  | pv f p v =>
    dsimp only; split_ifs
    · exact h.incArg (hv v (by simp [hop, VOp.vars]))
    · exact h
  | vp f v p =>
    dsimp only; split_ifs
    · exact h.incArg (hv v (by simp [hop, VOp.vars]))
    · exact h
  | vv f v u =>
    dsimp only; split_ifs
    · exact (h.incArg (hv v (by simp [hop, VOp.vars]))).incArg (hv u (by simp [hop, VOp.vars]))
    · exact h
  | cexp cop l r t f =>
    have hv' : ∀ v, v ∈ l.vars ∨ v ∈ r.vars ∨ v ∈ t.vars ∨ v ∈ f.vars → v < i := by
      intro v h; apply hv; simp only [hop, VOp.vars, List.mem_append]; tauto
    dsimp only; split_ifs with hu
    · have c2 := (h.incOpd (nset := true) (a := l) (fun v h => hv' v (by tauto))).incOpd (nset := true) (a := r) (fun v h => hv' v (by tauto))
      have u2 := Usage.ne_no (((incOpd_eff (op := op) (nset := true) i l s).trans (incOpd_eff (op := op) (nset := true) i r _)).mono i) hu
      have hc : (op i).isCexp = true := by rw [hop]; rfl
      refine (c2.incCase (fun v h => hv' v (by tauto)) hN hc u2).incCase (fun v h => hv' v (by tauto)) hN hc ?_
      exact Usage.ne_no ((incCase_eff (op := op) _ i _ t _).mono i) u2
    · exact h
  | cmp c a b =>
    have hv' : ∀ v, v ∈ a.vars ∨ v ∈ b.vars → v < i := by
      intro v h; apply hv; simp only [hop, VOp.vars, List.mem_append]; tauto
    dsimp only; split_ifs
    · exact (h.mark.incOpd (fun v h => hv' v (by tauto))).incOpd (fun v h => hv' v (by tauto))
    · exact h
  | csum c av sv ad sd => exact h.foldl _ fun v hm => hv v (by simpa [hop, VOp.vars] using hm)
  | cskip => exact h
  | ldp w p => dsimp only; split_ifs <;> exact h
  | ldv w v =>
    dsimp only; split_ifs
    · exact Clo.mark (s := { s with vused := Function.update s.vused w true }) h
    · exact h
  | stpp => exact h
  | stvp => exact h
  | stpv w p v =>
    dsimp only; split_ifs
    · exact h.mark.mark
    · exact h
  | stvv w v u =>
    dsimp only; split_ifs
    · exact h.mark.mark.mark
    · exact h
  | afun A args m =>
    dsimp only; split_ifs
    · exact h.foldlA _ fun v hm => hv v (by
        rw [hop]; exact need_vars (tx := tx) (u := s.usage) (i := i) (op := .afun A args m) hm)
    · exact h
  | frv A args g r =>
    dsimp only; split_ifs
    · exact h.incArg (hv g (by simp [hop, VOp.vars]))
    · exact h
  | frp => exact h

/-! ## The whole pass -/

variable {T : OTape}

theorem useFrom_ge {i : ℕ} (h : T.ops.length ≤ i) : T.useFrom o i = T.useInit := by
  have : T.ops.length - i = 0 := by omega
  simp [OTape.useFrom, this]

theorem useFrom_lt {i : ℕ} (h : i < T.ops.length) :
    T.useFrom o i = useStep o T.tx T.op (T.nset o) i (T.useFrom o (i + 1)) := by
  unfold OTape.useFrom
  have : T.ops.length - i = (T.ops.length - (i + 1)) + 1 := by omega
  rw [this, List.range'_succ, List.foldr_cons]

/-- induction over the reverse pass -/
theorem useFrom_ind {P : ℕ → UseSt → Prop} (h0 : P T.ops.length T.useInit)
    (hs : ∀ i < T.ops.length, P (i + 1) (T.useFrom o (i + 1)) → P i (useStep o T.tx T.op (T.nset o) i (T.useFrom o (i + 1)))) :
    ∀ i ≤ T.ops.length, P i (T.useFrom o i) := by
  intro i hi
  obtain ⟨d, hd⟩ : ∃ d, i + d = T.ops.length := ⟨T.ops.length - i, by omega⟩
  induction d generalizing i with
  | zero => rw [show i = T.ops.length by omega, useFrom_ge (le_refl _)]; exact h0
  | succ d ih => rw [useFrom_lt (by omega)]; exact hs i (by omega) (ih (i + 1) (by omega) (by omega))

theorem useFrom_mono {i j : ℕ} (h : i ≤ j) : ∀ v, ((T.useFrom o j).usage v).le ((T.useFrom o i).usage v) := by
  intro v
  obtain ⟨d, rfl⟩ := Nat.exists_eq_add_of_le h
  clear h
  induction d generalizing i with
  | zero => exact Usage.le_refl _
  | succ d ih =>
    by_cases hi : i < T.ops.length
    · obtain ⟨l, _, e⟩ := useStep_eff (o := o) (tx := T.tx) (op := T.op) (nset := T.nset o) i (T.useFrom o (i + 1))
      rw [useFrom_lt hi]
      have := ih (i := i + 1)
      rw [show i + 1 + d = i + (d + 1) by omega] at this
      exact Usage.le_trans this (e.mono v)
    · rw [useFrom_ge (by omega), useFrom_ge (by omega)]; exact Usage.le_refl _

theorem useFrom_shrink {i j : ℕ} (h : i ≤ j) (v : ℕ) (hu : (T.useFrom o j).usage v ≠ .no) :
    (T.useFrom o i).cset v ⊆ (T.useFrom o j).cset v := by
  obtain ⟨d, rfl⟩ := Nat.exists_eq_add_of_le h
  clear h
  induction d generalizing i with
  | zero => exact subset_rfl
  | succ d ih =>
    by_cases hi : i < T.ops.length
    · obtain ⟨l, _, e⟩ := useStep_eff (o := o) (tx := T.tx) (op := T.op) (nset := T.nset o) i (T.useFrom o (i + 1))
      rw [useFrom_lt hi]
      have := ih (i := i + 1)
      rw [show i + 1 + d = i + (d + 1) by omega] at this
      refine (e.shrink v ?_).trans (this hu)
      exact Usage.ne_no (useFrom_mono (show i + 1 ≤ i + (d + 1) by omega) v) hu
    · rw [useFrom_ge (by omega), useFrom_ge (by omega)]

/-- the usage of operator `j` is known once it has been processed -/
theorem use_usage (w : T.WF) {i j : ℕ} (h : i ≤ j) : (T.useFrom o i).usage j = (T.useFrom o j).usage j := by
  obtain ⟨d, rfl⟩ := Nat.exists_eq_add_of_le h
  clear h
  induction d generalizing i with
  | zero => rfl
  | succ d ih =>
    by_cases hi : i < T.ops.length
    · obtain ⟨l, hl, e⟩ := useStep_eff (o := o) (tx := T.tx) (op := T.op) (nset := T.nset o) i (T.useFrom o (i + 1))
      rw [useFrom_lt hi, e.usage]
      · have := ih (i := i + 1)
        rw [show i + 1 + d = i + (d + 1) by omega] at this
        exact this
      · intro hm
        rcases hl _ hm with h1 | h1
        · have := (w.vars i hi _ h1).2.1; omega
        · omega
    · rw [useFrom_ge (by omega), useFrom_ge (by omega)]

/-- the set of operator `j` is known before it is processed -/
theorem use_cset (w : T.WF) {i j : ℕ} (h : i ≤ j + 1) : (T.useFrom o i).cset j = (T.useFrom o (j + 1)).cset j := by
  obtain ⟨d, hd⟩ := Nat.exists_eq_add_of_le h
  rw [hd]
  have hj : i ≤ j ∨ d = 0 := by omega
  clear h
  induction d generalizing i with
  | zero => rfl
  | succ d ih =>
    by_cases hi : i < T.ops.length
    · rw [useFrom_lt hi, useStep_cset]
      · have := ih (i := i + 1) (by omega) (by omega)
        rw [show i + 1 + d = i + (d + 1) by omega] at this
        exact this
      · intro hm
        have := (w.vars i hi _ hm).2.1; omega
    · rw [useFrom_ge (by omega), useFrom_ge (by omega)]

/-- operators without a result are not used before they are processed -/
theorem use_nores (w : T.WF) {i j : ℕ} (hj : j < i) (hr : (T.op j).hasRes = false) (hi : i ≤ T.ops.length) :
    (T.useFrom o i).usage j = .no := by
  revert hj
  refine useFrom_ind (P := fun i s => j < i → s.usage j = .no) ?_ ?_ i hi
  · intro hj
    have : j ∉ T.dep := fun h => by have := (w.dep j h).2.2; rw [hr] at this; cases this
    simp [OTape.useInit, this]
  · intro k hk ih hjk
    obtain ⟨l, hl, e⟩ := useStep_eff (o := o) (tx := T.tx) (op := T.op) (nset := T.nset o) k (T.useFrom o (k + 1))
    rw [e.usage, ih (by omega)]
    intro hm
    rcases hl _ hm with h1 | h1
    · have := (w.vars k hk _ h1).2.2; rw [hr] at this; cases this
    · omega

theorem notmem_vars (w : T.WF) {i : ℕ} (hi : i < T.ops.length) : i ∉ (T.op i).vars := fun h => by
  have := (w.vars i hi i h).2.1; omega

theorem need_final (w : T.WF) (i : ℕ) : (T.op i).need T.tx (T.useFrom o (i + 1)).usage i = (T.op i).need T.tx (T.use o).usage i :=
  need_congr _ fun j hj => by
    have h1 : (T.useFrom o (i + 1)).usage j = _ := use_usage w hj
    have h2 : (T.use o).usage j = _ := use_usage w (Nat.zero_le j)
    rw [h1, h2]

theorem plain_final (w : T.WF) (i : ℕ) : (T.op i).plain T.tx (T.useFrom o (i + 1)).usage i = (T.op i).plain T.tx (T.use o).usage i :=
  plain_congr _ fun j hj => by
    have h1 : (T.useFrom o (i + 1)).usage j = _ := use_usage w hj
    have h2 : (T.use o).usage j = _ := use_usage w (Nat.zero_le j)
    rw [h1, h2]

/-- Arguments of used operators are used; an argument has csum usage only if it and the operator that uses it are
additions or subtractions. -/
theorem use_args (w : T.WF) {i : ℕ} (hi : i < T.ops.length) (hu : (T.use o).usage i ≠ .no) : ∀ v ∈ (T.op i).need T.tx (T.use o).usage i,
    (T.use o).usage v ≠ .no ∧ ((T.use o).usage v = .csum → (T.op i).addOrSub = true ∧ (T.op v).addOrSub = true) := by
  intro v hv
  rw [← need_final w] at hv
  have e1 : (T.use o).usage i = (T.useFrom o i).usage i := use_usage w (Nat.zero_le _)
  rw [e1] at hu
  rw [useFrom_lt hi] at hu
  have h := useStep_args (o := o) (tx := T.tx) (op := T.op) (nset := T.nset o) i (T.useFrom o (i + 1)) (w.stores i hi)
    (fun h => use_nores w (by omega) h hi) hu v hv
  rw [← useFrom_lt hi] at h
  have m := useFrom_mono (o := o) (T := T) (Nat.zero_le i) v
  refine ⟨Usage.ne_no m h.1, fun hc => ?_⟩
  have : (T.useFrom o i).usage v = .csum := by
    have hc : (T.useFrom o 0).usage v = .csum := hc
    rw [hc] at m
    cases hq : (T.useFrom o i).usage v <;> simp_all [Usage.le]
  exact ⟨(h.2 this).1, (h.2 this).2.1⟩

/-- a variable that is an argument of two used operators does not have csum usage -/
theorem use_twice (w : T.WF) {i k v : ℕ} (hik : i < k) (hk : k < T.ops.length) (hui : (T.use o).usage i ≠ .no)
    (huk : (T.use o).usage k ≠ .no) (hvi : v ∈ (T.op i).need T.tx (T.use o).usage i) (hvk : v ∈ (T.op k).need T.tx (T.use o).usage k) : (T.use o).usage v = .yes := by
  rw [← need_final w] at hvi hvk
  have ei : (T.use o).usage i = (T.useFrom o i).usage i := use_usage w (Nat.zero_le _)
  have ek : (T.use o).usage k = (T.useFrom o k).usage k := use_usage w (Nat.zero_le _)
  rw [ei] at hui
  rw [ek] at huk
  rw [useFrom_lt hk] at huk
  rw [useFrom_lt (by omega)] at hui
  have h1 := (useStep_args (o := o) (tx := T.tx) (op := T.op) (nset := T.nset o) k (T.useFrom o (k + 1)) (w.stores k hk)
    (fun h => use_nores w (by omega) h hk) huk v hvk).1
  rw [← useFrom_lt hk] at h1
  have h2 := useStep_args (o := o) (tx := T.tx) (op := T.op) (nset := T.nset o) i (T.useFrom o (i + 1)) (w.stores i (by omega))
    (fun h => use_nores w (by omega) h (by omega)) hui v hvi
  rw [← useFrom_lt (by omega)] at h2
  have h3 := Usage.ne_no (useFrom_mono (o := o) (T := T) (show i + 1 ≤ k from hik) v) h1
  have m := useFrom_mono (o := o) (T := T) (Nat.zero_le i) v
  have : (T.useFrom o i).usage v = .yes := by
    cases hq : (T.useFrom o i).usage v with
    | yes => rfl
    | no => exact absurd hq h2.1
    | csum => exact absurd (h2.2 hq).2.2 h3
  rw [this] at m
  exact Usage.yes_le m

/-- the dependent variables are used -/
theorem use_dep {d : ℕ} (hd : d ∈ T.dep) : (T.use o).usage d = .yes := by
  have h : (T.useFrom o T.ops.length).usage d = .yes := by rw [useFrom_ge (le_refl _)]; simp [OTape.useInit, hd]
  have m := useFrom_mono (o := o) (T := T) (Nat.zero_le T.ops.length) d
  rw [h] at m
  exact Usage.yes_le m

/-- the independent variables are used -/
theorem use_ind (w : T.WF) {i : ℕ} (hi : i ≤ T.n) : (T.use o).usage i = .yes := by
  have hl : i < T.ops.length := lt_of_le_of_lt hi w.len
  have h := (w.ind i hl).2 hi
  have e : (T.use o).usage i = (T.useFrom o i).usage i := use_usage w (Nat.zero_le _)
  rw [e, useFrom_lt hl]
  unfold useStep
  cases hop : T.op i <;> simp_all [VOp.isInd, UseSt.mark]

/-- csum usage only for additions and subtractions -/
theorem use_csum {j : ℕ} (h : (T.use o).usage j = .csum) : (T.op j).addOrSub = true := by
  have : ∀ i ≤ T.ops.length, (T.useFrom o i).usage j = .csum → (T.op j).addOrSub = true := by
    refine useFrom_ind (P := fun i s => s.usage j = .csum → (T.op j).addOrSub = true) ?_ ?_
    · intro h; simp only [OTape.useInit] at h; split_ifs at h
    · intro i hi ih h
      obtain ⟨l, _, e⟩ := useStep_eff (o := o) (tx := T.tx) (op := T.op) (nset := T.nset o) i (T.useFrom o (i + 1))
      rcases e.csum j h with h1 | ⟨_, h1⟩
      · exact ih h1
      · exact h1
  exact this 0 (Nat.zero_le _) h

/-! ## VecAD vectors -/

theorem vused_incArg {check : Bool} {i j : ℕ} {s : UseSt} : (incArg op nset check i j s).vused = s.vused := rfl

theorem vused_incOpd {i : ℕ} {a : Arg} {s : UseSt} : (incOpd op nset i a s).vused = s.vused := by cases a <;> rfl

theorem vused_incCase {same b : Bool} {i : ℕ} {a : Arg} {s : UseSt} : (incCase o op nset same i b a s).vused = s.vused := by
  cases a with
  | par => rfl
  | var => simp only [incCase]; split_ifs <;> rfl

theorem vused_foldl {i : ℕ} : ∀ (l : List ℕ) (s : UseSt), (l.foldl (fun s j => incArg op nset false i j s) s).vused = s.vused
  | [], _ => rfl
  | j :: l, s => by rw [List.foldl_cons, vused_foldl l]; rfl

theorem vused_foldlA {i : ℕ} : ∀ (l : List Arg) (s : UseSt), (l.foldl (fun s a => incOpd op nset i a s) s).vused = s.vused
  | [], _ => rfl
  | a :: l, s => by rw [List.foldl_cons, vused_foldlA l, vused_incOpd]

theorem vused_mono {i w : ℕ} {s : UseSt} (h : s.vused w = true) : (useStep o tx op nset i s).vused w = true := by
  unfold useStep
  cases op i with
  | ldp w' p =>
    dsimp only; split_ifs
    · by_cases hw : w = w' <;> simp [Function.update_apply, hw, h]
    · exact h
  | ldv w' p =>
    dsimp only; split_ifs
    · by_cases hw : w = w' <;> simp [UseSt.mark, Function.update_apply, hw, h]
    · exact h
  | csum => dsimp only; rw [vused_foldl]; exact h
  | afun => dsimp only; split_ifs <;> (try rw [vused_foldlA]) <;> exact h
  | _ => dsimp only; (try split_ifs) <;> simpa [UseSt.mark, vused_incArg, vused_incOpd, vused_incCase] using h

/-- a load that is used marks its vector -/
theorem use_load (wf : T.WF) {i w : ℕ} (hi : i < T.ops.length) (hl : (∃ p, T.op i = .ldp w p) ∨ ∃ v, T.op i = .ldv w v)
    (hu : (T.use o).usage i ≠ .no) : (T.useFrom o i).vused w = true := by
  have e : (T.use o).usage i = (T.useFrom o i).usage i := use_usage wf (Nat.zero_le _)
  rw [e, useFrom_lt hi] at hu
  rw [useFrom_lt hi]
  unfold useStep at hu ⊢
  rcases hl with ⟨p, h⟩ | ⟨v, h⟩
  · simp only [h] at hu ⊢
    split_ifs at hu ⊢ with h1
    · simp
    · exact absurd hu h1
  · simp only [h] at hu ⊢
    split_ifs at hu ⊢ with h1
    · simp [UseSt.mark]
    · exact absurd hu h1

/-- a store in a vector that is loaded later is used -/
theorem use_store (wf : T.WF) {i w : ℕ} (hi : i < T.ops.length) (hl : (∃ p v, T.op i = .stpv w p v) ∨ ∃ v u, T.op i = .stvv w v u)
    (hu : (T.useFrom o (i + 1)).vused w = true) : (T.use o).usage i = .yes := by
  have e : (T.use o).usage i = (T.useFrom o i).usage i := use_usage wf (Nat.zero_le _)
  rw [e, useFrom_lt hi]
  unfold useStep
  rcases hl with ⟨p, v, h⟩ | ⟨v, u, h⟩
  · have h1 := (wf.vars i hi v (by simp [h, VOp.vars])).2.1
    simp only [h, hu, if_true]
    simp [UseSt.mark, Function.update_of_ne (show i ≠ v by omega)]
  · have h1 := (wf.vars i hi v (by simp [h, VOp.vars])).2.1
    have h2 := (wf.vars i hi u (by simp [h, VOp.vars])).2.1
    simp only [h, hu, if_true]
    simp [UseSt.mark, Function.update_of_ne (show i ≠ v by omega), Function.update_of_ne (show i ≠ u by omega)]

theorem useFrom_vused {i j w : ℕ} (h : i ≤ j) (hu : (T.useFrom o j).vused w = true) : (T.useFrom o i).vused w = true := by
  obtain ⟨d, rfl⟩ := Nat.exists_eq_add_of_le h
  clear h
  induction d generalizing i with
  | zero => exact hu
  | succ d ih =>
    by_cases hi : i < T.ops.length
    · rw [useFrom_lt hi]
      exact vused_mono (ih (i := i + 1) (by rw [show i + 1 + d = i + (d + 1) by omega]; exact hu))
    · rw [useFrom_ge (by omega)]; rw [useFrom_ge (by omega)] at hu; exact hu

/-! ## Conditional skips -/

/-- conditional skips are off, or there are no VecAD vectors -/
def SkipOk (o : Options) (T : OTape) : Prop := o.cskip = false ∨ ∀ i < T.ops.length, (T.op i).vec = none

theorem cexps_nil (h : T.nset o = false) {i : ℕ} (hi : i < T.ops.length) : o.cskip = false ∨ (T.op i).isCexp = false := by
  by_cases hs : o.cskip = true
  · right
    simp only [OTape.nset, OTape.cexps, hs, if_true, Bool.not_eq_false', List.isEmpty_iff, List.filter_eq_nil_iff,
      List.mem_range] at h
    simpa using h i hi
  · left; simpa using hs

/-- without sets all the sets are empty -/
theorem cset_nil (h : T.nset o = false) : ∀ i ≤ T.ops.length, ∀ j, (T.useFrom o i).cset j = ∅ := by
  refine useFrom_ind (P := fun _ s => ∀ j, s.cset j = ∅) (by simp [OTape.useInit]) ?_
  intro i hi ih
  rw [h]
  have a1 : ∀ (check : Bool) (j : ℕ) (s : UseSt), (∀ j, s.cset j = ∅) → ∀ j', (incArg T.op false check i j s).cset j' = ∅ :=
    fun check j s hs j' => by simpa [incArg] using hs j'
  have a2 : ∀ (a : Arg) (s : UseSt), (∀ j, s.cset j = ∅) → ∀ j', (incOpd T.op false i a s).cset j' = ∅ := by
    intro a s hs; cases a
    · exact hs
    · exact a1 _ _ _ hs
  have a3 : o.cskip = false → ∀ (a : Arg) (same b : Bool) (s : UseSt), (∀ j, s.cset j = ∅) →
      ∀ j', (incCase o T.op false same i b a s).cset j' = ∅ := by
    intro ho a same b s hs; cases a
    · exact hs
    · simp only [incCase, ho, Bool.false_and, Bool.false_eq_true, if_false]; exact a1 _ _ _ hs
  have a4 : ∀ (l : List ℕ) (s : UseSt), (∀ j, s.cset j = ∅) →
      ∀ j', (l.foldl (fun s j => incArg T.op false false i j s) s).cset j' = ∅ := by
    intro l
    induction l with
    | nil => exact fun s hs => hs
    | cons j l ihl => exact fun s hs => ihl _ (a1 _ _ _ hs)
  have a5 : ∀ (l : List Arg) (s : UseSt), (∀ j, s.cset j = ∅) →
      ∀ j', (l.foldl (fun s a => incOpd T.op false i a s) s).cset j' = ∅ := by
    intro l
    induction l with
    | nil => exact fun s hs => hs
    | cons j l ihl => exact fun s hs => ihl _ (a2 _ _ hs)
  unfold useStep
  cases hop : T.op i with
  | cexp cop l r t f =>
    have ho : o.cskip = false := by
      rcases cexps_nil h hi with h1 | h1
      · exact h1
      · rw [hop] at h1; cases h1
    dsimp only; split_ifs
    · exact a3 ho _ _ _ _ (a3 ho _ _ _ _ (a2 _ _ (a2 _ _ ih)))
    · exact ih
  | csum => exact a4 _ _ ih
  | afun =>
    dsimp only; split_ifs
    · exact a5 _ _ ih
    · exact ih
  | vv =>
    dsimp only; split_ifs
    · exact a1 _ _ _ (a1 _ _ _ ih)
    · exact ih
  | cmp =>
    dsimp only; split_ifs
    · exact a2 _ _ (a2 _ _ ih)
    · exact ih
  | _ => dsimp only; (try split_ifs) <;> first | exact ih | exact a1 _ _ _ ih

theorem cset_nil_use (h : T.nset o = false) (j : ℕ) : (T.use o).cset j = ∅ := cset_nil h 0 (Nat.zero_le _) j

theorem cset_nil_skip (h : o.cskip = false) (j : ℕ) : (T.use o).cset j = ∅ :=
  cset_nil_use (by simp [OTape.nset, OTape.cexps, h]) j

theorem cset_no (j : ℕ) (h : (T.use o).usage j = .no) : (T.use o).cset j = ∅ := by
  have : ∀ i ≤ T.ops.length, (T.useFrom o i).usage j = .no → (T.useFrom o i).cset j = ∅ := by
    refine useFrom_ind (P := fun i s => s.usage j = .no → s.cset j = ∅) ?_ ?_
    · intro _; rfl
    · intro i hi ih h
      obtain ⟨l, _, e⟩ := useStep_eff (o := o) (tx := T.tx) (op := T.op) (nset := T.nset o) i (T.useFrom o (i + 1))
      have h0 : (T.useFrom o (i + 1)).usage j = .no := by
        by_contra hc; exact Usage.ne_no (e.mono j) hc h
      rw [e.cset j (fun hm => e.used j hm h), ih h0]
  exact this 0 (Nat.zero_le _) h

/-- the set of a dependent variable is empty -/
theorem cset_dep {d : ℕ} (hd : d ∈ T.dep) : (T.use o).cset d = ∅ := by
  have h : (T.useFrom o T.ops.length).usage d = .yes := by rw [useFrom_ge (le_refl _)]; simp [OTape.useInit, hd]
  have := useFrom_shrink (o := o) (T := T) (Nat.zero_le T.ops.length) d (by rw [h]; simp)
  rw [useFrom_ge (le_refl _)] at this
  exact Finset.subset_empty.1 this

/-- the set of an argument -/
theorem cset_args (w : T.WF) (hs : SkipOk o T) {i : ℕ} (hi : i < T.ops.length) (hu : (T.use o).usage i ≠ .no) :
    (∀ v ∈ (T.op i).plain T.tx (T.use o).usage i, (T.use o).cset v ⊆ (T.use o).cset i) ∧
      ∀ b, ∀ v ∈ (T.op i).branch b, (T.use o).cset v ⊆ insert (i, !b) ((T.use o).cset i) := by
  by_cases hn : T.nset o = true
  · have hv : (T.op i).vec = none := by
      rcases hs with h | h
      · simp [OTape.nset, OTape.cexps, h] at hn
      · exact h i hi
    have e : (T.use o).usage i = (T.useFrom o i).usage i := use_usage w (Nat.zero_le _)
    have ec : (T.use o).cset i = (T.useFrom o (i + 1)).cset i := use_cset w (by omega)
    have hno := fun h => use_nores (o := o) w (show i < i + 1 by omega) h hi
    rw [e, useFrom_lt hi] at hu
    have ha := useStep_args (o := o) (tx := T.tx) (op := T.op) (nset := T.nset o) i (T.useFrom o (i + 1)) (w.stores i hi) hno hu
    rw [← useFrom_lt hi] at ha
    rw [hn] at hu
    have h := useStep_sets (o := o) (tx := T.tx) (op := T.op) i (T.useFrom o (i + 1)) (notmem_vars w hi) hv hno hu
    rw [← hn, ← useFrom_lt hi, ← ec] at h
    rw [← plain_final w]
    exact ⟨fun v hv => (useFrom_shrink (Nat.zero_le i) v (ha v (VOp.plain_need hv)).1).trans (h.1 v hv),
      fun b v hv => (useFrom_shrink (Nat.zero_le i) v (ha v (VOp.branch_need hv)).1).trans (h.2 b v hv)⟩
  · simp only [Bool.not_eq_true] at hn
    simp [cset_nil_use hn]

/-- a condition in a set comes from a conditional expression that is used, with all the conditions of that expression -/
theorem cset_clo (w : T.WF) : Clo T.op T.ops.length 0 (T.use o) := by
  by_cases hn : T.nset o = true
  · refine useFrom_ind (P := fun i s => Clo T.op T.ops.length i s) ?_ ?_ 0 (Nat.zero_le _)
    · intro j k b hk; simp [OTape.useInit] at hk
    · intro i hi ih
      rw [hn]
      exact ih.step hi fun v hv => (w.vars i hi v hv).2.1
  · simp only [Bool.not_eq_true] at hn
    intro j k b hk
    rw [cset_nil_use hn] at hk; simp at hk

end CppAD.Optim
