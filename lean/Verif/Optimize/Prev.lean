import Verif.Optimize.UsageAll

/-! # What get_op_previous guarantees -/

open scoped Classical

namespace CppAD.Optim

open CppAD CppAD.Record

variable {o : Options} {hash : VOp → ℕ} {T : OTape}

/-- canonical operator: the previous match, or the operator itself -/
def PrevSt.pi (s : PrevSt) (j : ℕ) : ℕ := if s.prev j = 0 then j else s.prev j

/-- operator `j` has been matched with `c` when arguments are replaced using `v2p` -/
def Matches (v2p : ℕ → ℕ) (oj oc : VOp) : Prop :=
  oc.map id v2p id = (oj.map id v2p id).order ∨ (oc.map id v2p id).swap = some (oj.map id v2p id).order

/-- after the operators with index less than `i` have been processed -/
structure PInv (o : Options) (T : OTape) (i : ℕ) (s : PrevSt) : Prop where
  usage : s.use.usage = (T.use o).usage
  vused : s.use.vused = (T.use o).vused
  later : ∀ j, i ≤ j → s.prev j = 0
  v2p : s.v2p = s.pi
  prev : ∀ j, s.prev j ≠ 0 → s.prev j < j ∧ (T.use o).usage j = .yes ∧ (T.use o).usage (s.prev j) = .yes ∧ s.prev (s.prev j) = 0 ∧
    (T.op j).matchable = true ∧ (T.op (s.prev j)).matchable = true ∧ Matches s.pi (T.op j) (T.op (s.prev j))
  table : ∀ code, ∀ c ∈ s.table code, 1 ≤ c ∧ c < i ∧ (T.use o).usage c = .yes ∧ (T.op c).matchable = true ∧ s.prev c = 0
  sub : ∀ j, s.use.cset j ⊆ (T.use o).cset j
  sub_prev : ∀ j, s.prev j ≠ 0 → s.use.cset (s.prev j) ⊆ (T.use o).cset j
  sup : ∀ c X, X ⊆ (T.use o).cset c → (∀ j, s.prev j = c → c ≠ 0 → X ⊆ (T.use o).cset j) → X ⊆ s.use.cset c

theorem Matches.congr {f g : ℕ → ℕ} {oj oc : VOp} (h : Matches f oj oc) (h1 : ∀ v ∈ oj.vars, f v = g v)
    (h2 : ∀ v ∈ oc.vars, f v = g v) (m1 : oj.matchable = true) (m2 : oc.matchable = true) : Matches g oj oc := by
  have key : ∀ op : VOp, op.matchable = true → (∀ v ∈ op.vars, f v = g v) → op.map id f id = op.map id g id := by
    intro op hm hv
    have ha : ∀ a : Arg, (∀ v ∈ a.vars, f v = g v) → a.map id f = a.map id g := by
      intro a; cases a <;> simp [Arg.map, Arg.vars]
    cases op <;> simp_all [VOp.map, VOp.vars, VOp.matchable]
  unfold Matches
  rw [← key oj m1 h1, ← key oc m2 h2]
  exact h

theorem find_spec {α : Type} {p : α → Bool} {l : List α} {a : α} (h : l.find? p = some a) : a ∈ l ∧ p a = true :=
  ⟨List.mem_of_find?_eq_some h, List.find?_some h⟩

theorem PInv.step (w : T.WF) {i : ℕ} (hi : i < T.ops.length) {s : PrevSt} (h : PInv o T i s) :
    PInv o T (i + 1) (prevStep o.limit T.op (T.nset o) hash i s) := by
  have hp0 : Function.update s.prev i 0 = s.prev := by
    rw [Function.update_eq_self_iff]; exact (h.later i (le_refl _)).symm
  have base : PInv o T (i + 1) s :=
    { usage := h.usage, vused := h.vused, later := fun j hj => h.later j (by omega), v2p := h.v2p, prev := h.prev,
      table := fun code c hc => by obtain ⟨a, b, d⟩ := h.table code c hc; exact ⟨a, by omega, d⟩,
      sub := h.sub, sub_prev := h.sub_prev, sup := h.sup }
  unfold prevStep
  simp only [hp0]
  split_ifs with hu hne
  · -- a match
    simp only [matchOp] at hne ⊢
    split at hne
    case h_2 => exact absurd (h.later i (le_refl _)) hne
    rename_i c hc
    simp only [hc] at hne ⊢
    simp only [Function.update_self] at hne ⊢
    obtain ⟨hm, hmatch⟩ := find_spec hc
    rw [Finset.mem_sort] at hm
    obtain ⟨c1, c2, c3, c4, c5⟩ := h.table _ c hm
    have hui : (T.use o).usage i = .yes := by rw [← h.usage]; exact hu.1
    have hpi : ∀ j, j < i → (if Function.update s.prev i c j = 0 then j else Function.update s.prev i c j) = s.pi j := by
      intro j hj
      rw [Function.update_of_ne (by omega)]; rfl
    have hM : Matches s.pi (T.op i) (T.op c) := by
      simp only [isMatch, Bool.or_eq_true, decide_eq_true_eq, h.v2p] at hmatch
      exact hmatch
    have e := incArg_eff (op := T.op) (nset := T.nset o) false i c s.use
    have hci : c ≠ i := by omega
    refine { usage := ?_, vused := h.vused, later := ?_, v2p := ?_, prev := ?_, table := ?_, sub := ?_, sub_prev := ?_, sup := ?_ }
    · rw [← h.usage]
      funext j
      by_cases hj : j = c
      · subst hj; rw [incArg_yes, h.usage, c3]
      · exact e.usage j (by simpa using hj)
    · intro j hj
      exact (Function.update_of_ne (show j ≠ i by omega) _ _).trans (h.later j (by omega))
    · funext j
      simp only [PrevSt.pi]
      by_cases hj : j = i
      · subst hj; simp [hne]
      · simp only [Function.update_of_ne hj]; rw [h.v2p]; rfl
    · intro j hj
      by_cases hji : j = i
      · subst hji
        simp only [Function.update_self]
        refine ⟨c2, hui, c3, by rw [Function.update_of_ne hci]; exact c5, hu.2, c4, ?_⟩
        refine hM.congr (fun v hv => ?_) (fun v hv => ?_) hu.2 c4
        · exact (hpi v (w.vars j hi v hv).2.1).symm
        · exact (hpi v (lt_trans (w.vars c (by omega) v hv).2.1 c2)).symm
      · simp only [Function.update_of_ne hji] at hj ⊢
        obtain ⟨p1, p2, p3, p4, p5, p6, p7⟩ := h.prev j hj
        have hjlt : j < i := by by_contra hc; exact hj (h.later j (by omega))
        refine ⟨p1, p2, p3, by rw [Function.update_of_ne (by omega)]; exact p4, p5, p6, ?_⟩
        refine p7.congr (fun v hv => ?_) (fun v hv => ?_) p5 p6
        · exact (hpi v (by have := (w.vars j (by omega) v hv).2.1; omega)).symm
        · exact (hpi v (by have := (w.vars _ (by omega) v hv).2.1; omega)).symm
    · intro code d hd
      obtain ⟨a1, a2, a3⟩ := h.table code d hd
      exact ⟨a1, by omega, a3.1, a3.2.1, (Function.update_of_ne (show d ≠ i by omega) _ _).trans a3.2.2⟩
    · intro j
      by_cases hj : j = c
      · subst hj; exact (e.shrink j (by rw [h.usage, c3]; simp)).trans (h.sub j)
      · rw [e.cset j (by simpa using hj)]; exact h.sub j
    · intro j hj
      by_cases hji : j = i
      · subst hji
        simp only [Function.update_self]
        by_cases hn : T.nset o = true
        · rw [hn]; exact (incArg_cset (op := T.op) false s.use).trans (h.sub j)
        · have := (e.shrink c (by rw [h.usage, c3]; simp)).trans (h.sub c)
          rw [cset_nil_use (by simpa using hn)] at this
          rw [Finset.subset_empty.1 this]; exact Finset.empty_subset _
      · simp only [Function.update_of_ne hji] at hj ⊢
        refine Finset.Subset.trans ?_ (h.sub_prev j hj)
        by_cases hjc : s.prev j = c
        · rw [hjc]; exact e.shrink c (by rw [h.usage, c3]; simp)
        · rw [e.cset _ (by simpa using hjc)]
    · intro c' X hX hall
      have hX' : X ⊆ s.use.cset c' := by
        refine h.sup c' X hX fun j hj hc0 => hall j ?_ hc0
        by_cases hji : j = i
        · subst hji; exact absurd (hj.symm.trans (h.later j (le_refl _))) hc0
        · exact (Function.update_of_ne hji _ _).trans hj
      by_cases hcc : c' = c
      · subst hcc
        have h1 := hall i (by simp) (by omega)
        cases hn : T.nset o with
        | false => simpa [incArg] using hX'
        | true =>
          have hyes : s.use.usage c' ≠ .no := by rw [h.usage, c3]; simp
          simp only [incArg, if_true, Function.update_self, hyes, if_false]
          refine Finset.subset_inter hX' (h.sup i X h1 fun j hj hc0 => ?_)
          exfalso
          by_cases hz : s.prev j = 0
          · omega
          · obtain ⟨p1, _, _, _⟩ := h.prev j hz
            have hjlt : j < i := by by_contra hc; exact hz (h.later j (by omega))
            omega
      · rw [e.cset c' (by simpa using hcc)]; exact hX'
  · -- no match
    simp only [matchOp] at hne ⊢
    split at hne
    case h_1 =>
      rename_i c hc
      simp only [Function.update_self, not_not] at hne
      obtain ⟨hm, _⟩ := find_spec hc
      rw [Finset.mem_sort] at hm
      have := (h.table _ c hm).1
      omega
    rename_i hc
    simp only [hc] at hne ⊢
    have hui : (T.use o).usage i = .yes := by rw [← h.usage]; exact hu.1
    have hi1 : 1 ≤ i := by
      by_contra hc0
      have hz : i = 0 := by omega
      subst hz
      have := (w.ind 0 hi).2 (Nat.zero_le _)
      have hm := hu.2
      revert this hm
      cases T.op 0 <;> simp [VOp.isInd, VOp.matchable]
    exact { base with
      v2p := h.v2p
      table := fun code c hcm => by
        by_cases hcode : code = hash (((T.op i).map id s.v2p id).order)
        · subst hcode
          simp only [Function.update_self, Finset.mem_insert] at hcm
          rcases hcm with rfl | hcm
          · exact ⟨hi1, by omega, hui, hu.2, h.later c (le_refl _)⟩
          · split_ifs at hcm
            · simp at hcm
            · exact base.table _ c hcm
        · simp only [Function.update_of_ne hcode] at hcm
          exact base.table _ c hcm }
  · exact base

theorem prevUpTo_inv (w : T.WF) {i : ℕ} (hi : i ≤ T.ops.length) : PInv o T i (T.prevUpTo o hash i) := by
  unfold OTape.prevUpTo
  refine forRange_ind (Nat.zero_le i) (P := fun (i : ℕ) (s : PrevSt) => i ≤ T.ops.length → PInv o T i s) ?_ ?_ hi
  · intro _
    refine ⟨rfl, rfl, fun _ _ => rfl, ?_, fun j hj => absurd rfl hj, fun _ c hc => by simp at hc, fun _ => subset_rfl,
      fun j hj => absurd rfl hj, fun c X hX _ => hX⟩
    funext j; simp [PrevSt.pi]
  · intro k s _ hk ih hk'
    exact PInv.step w (by omega) (ih (by omega))

theorem previous_inv (w : T.WF) : PInv o T T.ops.length (T.previous o hash) := prevUpTo_inv w (le_refl _)

/-! ## Values -/

variable {disc : ℕ → ℝ → ℝ} {par : ℕ → ℝ}

theorem res_order (op : VOp) (s : FSt) : op.order.res disc par s = op.res disc par s := by
  cases op with
  | vv f v u =>
    cases f <;> simp only [VOp.order] <;> split_ifs <;> simp only [VOp.res, BinF.fn] <;> ring
  | _ => rfl

theorem res_swap {op op' : VOp} (h : op.swap = some op') (s : FSt) : op'.res disc par s = op.res disc par s := by
  cases op with
  | vv f v u =>
    cases f <;> simp only [VOp.swap, Option.some.injEq, reduceCtorEq] at h <;> subst h <;> simp only [VOp.res, BinF.fn] <;> ring
  | _ => simp [VOp.swap] at h

theorem matchable_vec {op : VOp} (h : op.matchable = true) : op.vec = none := by
  cases op <;> simp_all [VOp.matchable, VOp.vec]

theorem matchable_ind {op : VOp} (h : op.matchable = true) : op.isInd = false := by
  cases op <;> simp_all [VOp.matchable, VOp.isInd]

theorem order_hasRes (op : VOp) : op.order.hasRes = op.hasRes := by
  cases op with
  | vv f v u => cases f <;> simp only [VOp.order] <;> split_ifs <;> rfl
  | _ => rfl

theorem swap_hasRes {op op' : VOp} (h : op.swap = some op') : op'.hasRes = op.hasRes := by
  cases op with
  | vv f v u => cases f <;> simp_all [VOp.swap] <;> subst h <;> rfl
  | _ => simp [VOp.swap] at h

theorem map_hasRes (op : VOp) (a b c : ℕ → ℕ) : (op.map a b c).hasRes = op.hasRes := by cases op <;> rfl

theorem Matches.hasRes {f : ℕ → ℕ} {oj oc : VOp} (h : Matches f oj oc) : oc.hasRes = oj.hasRes := by
  rcases h with h | h
  · rw [← map_hasRes oc id f id, h, order_hasRes, map_hasRes]
  · have := swap_hasRes h
    rw [order_hasRes, map_hasRes, map_hasRes] at this
    exact this.symm

/-- replacing a variable by the previous one does not change its value -/
theorem pi_val (w : T.WF) {s0 : FSt} {s : PrevSt} {i : ℕ} (h : PInv o T i s) (hi : i ≤ T.ops.length) (j : ℕ) (hj : (T.op j).hasRes = true) :
    finalVal disc par T.ops s0 (s.pi j) = finalVal disc par T.ops s0 j := by
  induction j using Nat.strong_induction_on with
  | _ j ih =>
    by_cases hz : s.prev j = 0
    · simp [PrevSt.pi, hz]
    · obtain ⟨p1, p2, p3, p4, p5, p6, p7⟩ := h.prev j hz
      have hjlt : j < i := by by_contra hc; exact hz (h.later j (by omega))
      have hc : s.prev j < T.ops.length := by omega
      simp only [PrevSt.pi, hz, if_false]
      have hrc : (T.op (s.prev j)).hasRes = true := p7.hasRes.trans hj
      have e1 := finalVal_res (disc := disc) (par := par) (s := s0) hc hrc (matchable_ind p6)
      have e2 := finalVal_res (disc := disc) (par := par) (s := s0) (show j < T.ops.length by omega) hj (matchable_ind p5)
      rw [e1, e2]
      change (T.op (s.prev j)).res disc par _ = (T.op j).res disc par _
      set F : FSt := ⟨finalVal disc par T.ops s0, fun _ _ => .par 0, fun _ => false⟩ with hF
      have key : ∀ k < T.ops.length, k ≤ j → (T.op k).matchable = true →
          (T.op k).res disc par (refAt disc par T.ops s0 k) = ((T.op k).map id s.pi id).res disc par F := by
        intro k hk hkj hm
        refine (res_map (disc := disc) (T.op k) (gp := id) (gv := s.pi) (gw := id) (fun _ _ => rfl) ?_ ?_).symm
        · intro v hv
          obtain ⟨_, v2, v3⟩ := w.vars k hk v hv
          rw [finalVal_eq v2 (by omega)]
          exact ih v (by omega) v3
        · intro w' hw'; rw [matchable_vec hm] at hw'; cases hw'
      rw [key _ hc (by omega) p6, key j (by omega) (le_refl _) p5]
      rcases p7 with h1 | h1
      · rw [h1, res_order]
      · rw [← res_swap h1, res_order]

/-! ## Sets -/

theorem order_vars (op : VOp) (v : ℕ) : v ∈ op.order.vars ↔ v ∈ op.vars := by
  cases op with
  | vv f a b => cases f <;> simp only [VOp.order] <;> split_ifs <;> simp [VOp.vars] <;> tauto
  | _ => rfl

theorem swap_vars {op op' : VOp} (h : op.swap = some op') (v : ℕ) : v ∈ op'.vars ↔ v ∈ op.vars := by
  cases op with
  | vv f a b =>
    cases f <;> simp only [VOp.swap, Option.some.injEq, reduceCtorEq] at h <;> subst h <;> simp [VOp.vars] <;> tauto
  | _ => simp [VOp.swap] at h

theorem map_vars {op : VOp} (gp gv gw : ℕ → ℕ) : (op.map gp gv gw).vars = op.vars.map gv := by
  have ha : ∀ a : Arg, (a.map gp gv).vars = a.vars.map gv := by intro a; cases a <;> rfl
  have hl : ∀ l : List Arg, (l.map (Arg.map gp gv)).flatMap Arg.vars = (l.flatMap Arg.vars).map gv := fun l => by
    induction l with
    | nil => rfl
    | cons a l ih => rw [List.map_cons, List.flatMap_cons, ih, ha, List.flatMap_cons, List.map_append]
  cases op <;> simp only [VOp.map, VOp.vars, ha, hl, List.map_append, List.map_cons, List.map_nil]

theorem Matches.vars {f : ℕ → ℕ} {oj oc : VOp} (h : Matches f oj oc) {v : ℕ} :
    (∃ u ∈ oc.vars, f u = v) ↔ ∃ u ∈ oj.vars, f u = v := by
  have h1 : v ∈ (oc.map id f id).vars ↔ v ∈ (oj.map id f id).vars := by
    rcases h with h | h
    · rw [h, order_vars]
    · rw [← swap_vars h, order_vars]
  simpa [map_vars] using h1

theorem matchable_plain {tx : ℕ → AdType × ℝ} {u : ℕ → Usage} {i : ℕ} {op : VOp} (h : op.matchable = true) : op.plain tx u i = op.vars := by
  cases op <;> simp_all [VOp.matchable, VOp.plain, VOp.need]

theorem matchable_need {tx : ℕ → AdType × ℝ} {u : ℕ → Usage} {i : ℕ} {op : VOp} (h : op.matchable = true) : op.need tx u i = op.vars := by
  cases op <;> simp_all [VOp.matchable, VOp.need]

theorem PInv.pi_sub {s : PrevSt} {i : ℕ} (h : PInv o T i s) (v : ℕ) : s.use.cset (s.pi v) ⊆ (T.use o).cset v := by
  by_cases hz : s.prev v = 0
  · simp only [PrevSt.pi, hz, if_true]; exact h.sub v
  · simp only [PrevSt.pi, hz, if_false]; exact h.sub_prev v hz

theorem PInv.pi_pi {s : PrevSt} {i : ℕ} (h : PInv o T i s) (v : ℕ) : s.prev (s.pi v) = 0 := by
  by_cases hz : s.prev v = 0
  · simp [PrevSt.pi, hz]
  · simp only [PrevSt.pi, hz, if_false]; exact (h.prev v hz).2.2.2.1

/-- an operator that nothing has been matched with keeps its set -/
theorem PInv.cset_eq {s : PrevSt} {i : ℕ} (h : PInv o T i s) {k : ℕ} (hk : ∀ j, s.prev j = k → k = 0) :
    s.use.cset k = (T.use o).cset k :=
  Finset.Subset.antisymm (h.sub k) (h.sup k _ subset_rfl fun j hj h0 => absurd (hk j hj) h0)

theorem PInv.cset_eq' {s : PrevSt} {i : ℕ} (h : PInv o T i s) {k : ℕ} (hk : (T.op k).matchable = false) :
    s.use.cset k = (T.use o).cset k := by
  refine h.cset_eq fun j hj => ?_
  by_contra hc
  have := (h.prev j (by rw [hj]; exact hc)).2.2.2.2.2.1
  rw [hj, hk] at this; cases this

/-- sets of the arguments, after get_op_previous -/
theorem pi_sets (w : T.WF) (hs : SkipOk o T) {s : PrevSt} (h : PInv o T T.ops.length s) {k : ℕ} (hk : k < T.ops.length)
    (hu : (T.use o).usage k ≠ .no) (h0 : s.prev k = 0) :
    (∀ v ∈ (T.op k).plain T.tx (T.use o).usage k, s.use.cset (s.pi v) ⊆ s.use.cset k) ∧
      ∀ b, ∀ v ∈ (T.op k).branch b, s.use.cset (s.pi v) ⊆ insert (k, !b) (s.use.cset k) := by
  have hb := cset_args w hs hk hu
  by_cases hm : (T.op k).matchable = true
  · constructor
    · intro v hv
      refine h.sup k _ ((h.pi_sub v).trans (hb.1 v hv)) fun j hj hk0 => ?_
      have hj0 : s.prev j ≠ 0 := by rw [hj]; exact hk0
      obtain ⟨p1, p2, p3, p4, p5, p6, p7⟩ := h.prev j hj0
      rw [hj] at p7
      have hjl : j < T.ops.length := by by_contra hc; exact hj0 (h.later j (by omega))
      obtain ⟨v', hv', e⟩ := (p7.vars (v := s.pi v)).1 ⟨v, VOp.plain_vars hv, rfl⟩
      rw [← e]
      refine (h.pi_sub v').trans ((cset_args w hs hjl (by rw [p2]; simp)).1 v' ?_)
      rw [matchable_plain p5]; exact hv'
    · intro b v hv
      cases hop : T.op k <;> simp_all [VOp.matchable, VOp.branch]
  · have e := h.cset_eq' (k := k) (by simpa using hm)
    rw [e]
    exact ⟨fun v hv => (h.pi_sub v).trans (hb.1 v hv), fun b v hv => (h.pi_sub v).trans (hb.2 b v hv)⟩

/-- conditions come with all the conditions of the conditional expression -/
theorem pi_clo (w : T.WF) {s : PrevSt} (h : PInv o T T.ops.length s) {j k : ℕ} {b : Bool} (hk : (k, b) ∈ s.use.cset j) :
    k < T.ops.length ∧ (T.op k).isCexp = true ∧ (T.use o).usage k ≠ .no ∧ s.use.cset k ⊆ s.use.cset j := by
  obtain ⟨_, a2, a3, a4, a5⟩ := cset_clo (o := o) w j k b (h.sub j hk)
  refine ⟨a2, a3, a4, ?_⟩
  have hm : (T.op k).matchable = false := by cases hop : T.op k <;> simp_all [VOp.matchable, VOp.isCexp]
  rw [h.cset_eq' hm]
  refine h.sup j _ a5 fun j' hj' hj0 => ?_
  have hz : s.prev j' ≠ 0 := by rw [hj']; exact hj0
  have : (k, b) ∈ (T.use o).cset j' := h.sub_prev j' hz (by rw [hj']; exact hk)
  exact (cset_clo (o := o) w j' k b this).2.2.2.2

/-- an operator that has an argument with csum usage is not matched -/
theorem top_not_matched (w : T.WF) {s : PrevSt} {i : ℕ} (h : PInv o T i s) (hi : i ≤ T.ops.length) {k v : ℕ} (hv : v ∈ (T.op k).vars)
    (hc : (T.use o).usage v = .csum) : s.prev k = 0 ∧ ∀ j, s.prev j = k → k = 0 := by
  have hpv : s.prev v = 0 := by
    by_contra hz
    have := (h.prev v hz).2.1
    rw [hc] at this; cases this
  have main : ∀ j c, s.prev j = c → c ≠ 0 → (v ∈ (T.op j).vars ∨ v ∈ (T.op c).vars) → False := by
    intro j c hj hc0 hm
    have hz : s.prev j ≠ 0 := by rw [hj]; exact hc0
    have hjl : j < i := by by_contra hx; exact hz (h.later j (by omega))
    obtain ⟨p1, p2, p3, p4, p5, p6, p7⟩ := h.prev j hz
    rw [hj] at p7 p1 p3 p6
    have hpi : ∀ u, s.pi u = v → u = v := by
      intro u hu
      by_cases hz' : s.prev u = 0
      · simpa [PrevSt.pi, hz'] using hu
      · have := (h.prev u hz').2.2.1
        simp only [PrevSt.pi, hz', if_false] at hu
        rw [hu, hc] at this; cases this
    have hpv' : s.pi v = v := by simp [PrevSt.pi, hpv]
    have both : v ∈ (T.op j).vars ∧ v ∈ (T.op c).vars := by
      rcases hm with hm | hm
      · refine ⟨hm, ?_⟩
        obtain ⟨u, hu, e⟩ := (p7.vars (v := v)).2 ⟨v, hm, hpv'⟩
        rwa [hpi u e] at hu
      · refine ⟨?_, hm⟩
        obtain ⟨u, hu, e⟩ := (p7.vars (v := v)).1 ⟨v, hm, hpv'⟩
        rwa [hpi u e] at hu
    have := use_twice (o := o) w p1 (by omega) (by rw [p3]; simp) (by rw [p2]; simp) (by rw [matchable_need p6]; exact both.2) (by rw [matchable_need p5]; exact both.1)
    rw [hc] at this; cases this
  constructor
  · by_contra hz
    exact main k _ rfl hz (Or.inl hv)
  · intro j hj
    by_contra hz
    exact main j k hj hz (Or.inr hv)

end CppAD.Optim
