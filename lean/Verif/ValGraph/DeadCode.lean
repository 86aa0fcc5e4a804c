/-
`dead_code` preserves the function that a value graph without dynamic vector operators represents,
when the operands of the comparisons and prints that are kept are not dead code themselves.
-/
import Verif.ValGraph.RevDep

namespace CppAD.ValGraph
open Classical

/-! ### specification -/

/-- the dependents need this value (calls to atomic functions are not followed) -/
inductive Live (T : VTape) : ℕ → Prop
  | dep {a : ℕ} (h : a ∈ T.dep) : Live T a
  | arg {i a : ℕ} (hi : i < T.nOp) (hr : (T.node i).nres ≠ 0)
      (hc : ∀ m id n, (T.node i).kind ≠ .call m id n) (hl : Live T (T.res i))
      (ha : a ∈ (T.node i).args) : Live T a

/-- a comparison or print that `dead_code` keeps -/
def Kept (T : VTape) (nd : Node) : Prop :=
  match nd.kind with
  | .comp c => T.keepCompare = true ∧ c ≠ .no
  | .pri _ _ => T.keepPrint = true ∧ nd.args.getD 0 0 ≠ T.nInd
  | _ => False

/-- the operands of the comparisons and prints that are kept are independents or values that the
dependents need -/
def VTape.KeptLive (T : VTape) : Prop :=
  ∀ nd ∈ T.nodes, Kept T nd → ∀ a ∈ nd.args, a ≤ T.nInd ∨ Live T a

/-- `rev_depend` of every atomic function is right whatever constants it is given: the results that
are needed are determined by the arguments that it says are needed -/
def Prim.RevDependOk (P : Prim) : Prop :=
  ∀ a id conX depY xs ys, xs.length = ys.length →
    (∀ k, k < xs.length → P.depX a id conX depY k = true → rd ys k = rd xs k) →
    ∀ j, depY.getD j false = true → P.atom a id ys j = P.atom a id xs j

/-- `rev_depend` of every atomic function is right when the arguments have the constant values that
it is given -/
def Prim.RevDependConOk (P : Prim) : Prop :=
  ∀ a id conX depY xs ys, xs.length = ys.length →
    (∀ k, rd conX k ≠ none → rd xs k = rd conX k) →
    (∀ k, k < xs.length → P.depX a id conX depY k = true → rd ys k = rd xs k) →
    ∀ j, depY.getD j false = true → P.atom a id ys j = P.atom a id xs j

/-- every value that is not nan when all the independents are nan does not depend on the
independents -/
def VTape.NanSound (T : VTape) (P : Prim) : Prop :=
  ∀ x : List V, x.length = T.nInd → ∀ a, a < T.nVal → rd (T.nanVal P) a ≠ none →
    rd (T.run P x).val a = rd (T.nanVal P) a

/-! ### proof -/

/-- what is needed of the atomic functions that are called, at the values `v` -/
def CallOk (T : VTape) (P : Prim) (use : ℕ → ℕ) (v : ℕ → V) : Prop :=
  ∀ i, i < T.nOp → ∀ a id n, (T.node i).kind = .call a id n →
    ∀ ys : List V, ys.length = (T.node i).args.length →
    (∀ k, k < (T.node i).args.length →
      P.depX a id ((T.node i).args.map (rd (T.nanVal P)))
        ((List.range n).map (fun k => decide (use (T.res i + k) ≠ 0))) k = true →
      rd ys k = v ((T.node i).args.getD k 0)) →
    ∀ j, j < n → use (T.res i + j) ≠ 0 →
      P.atom a id ys j = P.atom a id ((T.node i).args.map v) j

theorem live_use {T : VTape} {P : Prim} {u : ℕ → ℕ} (H : DepInv T P 0 u) {a : ℕ}
    (h : Live T a) : u a ≠ 0 := by
  induction h with
  | dep h => exact H.dep _ h
  | arg hi hr hc _ ha ih => exact H.arg _ (Nat.zero_le _) hi hr hc ih _ ha

theorem rd_range_map (f : ℕ → V) (n k : ℕ) (hk : k < n) : rd ((List.range n).map f) k = f k := by
  simp [rd, List.getD_eq_getElem?_getD, hk]

/-- `w` gives at the new indices the values `v`, for the values that are used -/
structure DeadVal (T : VTape) (use : ℕ → ℕ) (i : ℕ) (s : NewSt) (v w : ℕ → V) : Prop where
  val : ∀ a, a < T.res i → a ≤ T.nInd ∨ use a ≠ 0 → w (s.idx a) = v a
  cf : s.new.nodes.countP (fun nd => decide (FalseAt w nd)) =
    if T.keepCompare = true then (T.nodes.take i).countP (fun nd => decide (FalseAt v nd)) else 0
  out : s.new.nodes.filterMap (printAt T.nInd w) =
    if T.keepPrint = true then (T.nodes.take i).filterMap (printAt T.nInd v) else []

/-- loop invariant of `dead_code` -/
structure DeadInv (T : VTape) (P : Prim) (use : ℕ → ℕ) (i : ℕ) (s : NewSt) : Prop where
  nInd : s.new.nInd = T.nInd
  dep : s.new.dep = []
  wf : s.new.WF
  plain : s.new.Plain
  ind : ∀ a, a ≤ T.nInd → s.idx a = a
  lt : ∀ a, a < T.res i → a ≤ T.nInd ∨ use a ≠ 0 → s.idx a < s.new.nVal
  val : ∀ x v w, Sol T P x v → CallOk T P use v → Sol s.new P x w → DeadVal T use i s v w

theorem nVal_pos {T : VTape} (hw : T.WF) : T.nInd < T.nVal := by
  obtain ⟨l, hl⟩ := hw.head
  simp [VTape.nVal, hl, nresSum, Node.nres, Kind.nres]

theorem push_filterMap {T : VTape} {nd : Node} (n : ℕ) (w : ℕ → V) :
    (T.push nd).1.nodes.filterMap (printAt n w) =
      T.nodes.filterMap (printAt n w) ++ (printAt n w nd).toList := by
  simp only [VTape.push, List.filterMap_append]
  congr 1

theorem push_countP {T : VTape} {nd : Node} (w : ℕ → V) :
    (T.push nd).1.nodes.countP (fun nd => decide (FalseAt w nd)) =
      T.nodes.countP (fun nd => decide (FalseAt w nd)) + (if FalseAt w nd then 1 else 0) := by
  simp [VTape.push, List.countP_append, List.countP_singleton]

theorem take_countP {T : VTape} {i : ℕ} (hi : i < T.nOp) (v : ℕ → V) :
    (T.nodes.take (i + 1)).countP (fun nd => decide (FalseAt v nd)) =
      (T.nodes.take i).countP (fun nd => decide (FalseAt v nd)) +
        (if FalseAt v (T.node i) then 1 else 0) := by
  rw [List.take_succ_eq_append_getElem hi, ← node_eq T hi]
  simp [List.countP_append, List.countP_singleton]

theorem take_filterMap {T : VTape} {i : ℕ} (hi : i < T.nOp) (n : ℕ) (v : ℕ → V) :
    (T.nodes.take (i + 1)).filterMap (printAt n v) =
      (T.nodes.take i).filterMap (printAt n v) ++ (printAt n v (T.node i)).toList := by
  rw [List.take_succ_eq_append_getElem hi, ← node_eq T hi, List.filterMap_append]
  congr 1

theorem quiet_of_nres {nd : Node} (n : ℕ) (v : ℕ → V) (h : ∀ c, nd.kind ≠ .comp c)
    (h' : ∀ a b, nd.kind ≠ .pri a b) : ¬ FalseAt v nd ∧ printAt n v nd = none := by
  obtain ⟨k, l⟩ := nd
  cases k <;> simp_all [FalseAt, printAt]

theorem dead_skip {T : VTape} {P : Prim} {use : ℕ → ℕ} {i : ℕ} {s : NewSt} (hw : T.WF)
    (hi : i < T.nOp) (hi0 : 0 < i) (H : DeadInv T P use i s)
    (hu : ∀ j, j < (T.node i).nres → use (T.res i + j) = 0)
    (hc : T.keepCompare = true → ∀ v, ¬ FalseAt v (T.node i))
    (ho : T.keepPrint = true → ∀ v, printAt T.nInd v (T.node i) = none) :
    DeadInv T P use (i + 1) s := by
  have hres := res_succ T hi
  have hlt : ∀ a, a < T.res (i + 1) → a ≤ T.nInd ∨ use a ≠ 0 → a < T.res i := by
    intro a ha hua
    by_contra hna
    rcases hua with h | h
    · have := nInd_le_res T i
      have h2 : T.nInd < T.res i := by
        have h0 : T.res 1 ≤ T.res i := res_mono T hi0
        obtain ⟨l, hl⟩ := hw.head
        have h1 := res_succ T (show 0 < T.nOp by omega)
        have hn0 : T.node 0 = ⟨.con none, []⟩ := by simp [VTape.node, hl]
        rw [hn0, res_zero] at h1
        simp only [Node.nres, Kind.nres, Nat.zero_add] at h1
        omega
      omega
    · have := hu (a - T.res i) (by omega)
      rw [show T.res i + (a - T.res i) = a by omega] at this
      exact h this
  refine ⟨H.nInd, H.dep, H.wf, H.plain, H.ind, fun a ha hua => H.lt a (hlt a ha hua) hua, ?_⟩
  intro x v w h1 h2 h3
  obtain ⟨d1, d2, d3⟩ := H.val x v w h1 h2 h3
  refine ⟨fun a ha hua => d1 a (hlt a ha hua) hua, ?_, ?_⟩
  · rw [d2, take_countP hi]
    split_ifs with hk hf
    · exact absurd hf (hc hk v)
    · rfl
    · rfl
  · rw [d3, take_filterMap hi]
    split_ifs with hk
    · rw [ho hk v]; simp
    · rfl

/-- an operator is put at the end of the new tape -/
theorem dead_push {T : VTape} {P : Prim} {use : ℕ → ℕ} {i : ℕ} {s : NewSt} (hw : T.WF)
    (hi : i < T.nOp) (hi0 : 0 < i) (H : DeadInv T P use i s) (args : List ℕ)
    (hlen : args.length = (T.node i).args.length)
    (harg : ∀ a ∈ args, a < s.new.nVal) (hpl : (T.node i).kind.isVector = false)
    (hval : ∀ x v w, Sol T P x v → CallOk T P use v → Sol s.new P x w → DeadVal T use i s v w →
      ∀ k, k < (T.node i).nres → use (T.res i + k) ≠ 0 →
        rd ((T.node i).kind.out P (args.map w)) k =
          rd ((T.node i).kind.out P ((T.node i).args.map v)) k)
    (hc : ∀ x v w, Sol T P x v → CallOk T P use v → Sol s.new P x w → DeadVal T use i s v w →
      if T.keepCompare = true then (FalseAt w ⟨(T.node i).kind, args⟩ ↔ FalseAt v (T.node i))
        else ¬ FalseAt w ⟨(T.node i).kind, args⟩)
    (ho : ∀ x v w, Sol T P x v → CallOk T P use v → Sol s.new P x w → DeadVal T use i s v w →
      if T.keepPrint = true then
        printAt T.nInd w ⟨(T.node i).kind, args⟩ = printAt T.nInd v (T.node i)
        else printAt T.nInd w ⟨(T.node i).kind, args⟩ = none) :
    DeadInv T P use (i + 1)
      ⟨(s.new.push ⟨(T.node i).kind, args⟩).1, s.which,
        setRange s.idx (T.res i) s.new.nVal (T.node i).nres⟩ := by
  have hres := res_succ T hi
  have hin : T.nInd < T.res i := by
    have h0 : T.res 1 ≤ T.res i := res_mono T hi0
    obtain ⟨l, hl⟩ := hw.head
    have h1 := res_succ T (show 0 < T.nOp by omega)
    have hn0 : T.node 0 = ⟨.con none, []⟩ := by simp [VTape.node, hl]
    rw [hn0, res_zero] at h1
    simp only [Node.nres, Kind.nres, Nat.zero_add] at h1
    omega
  have hnr : (⟨(T.node i).kind, args⟩ : Node).nres = (T.node i).nres := rfl
  refine ⟨H.nInd, H.dep, push_wf H.wf harg (by rw [hlen]; exact hw.arity i hi),
    push_plain H.plain hpl, ?_, ?_, ?_⟩
  · intro a ha
    simp only [setRange]
    rw [if_neg (by omega)]; exact H.ind a ha
  · intro a ha hua
    rw [push_nVal, hnr]
    simp only [setRange]
    split_ifs with h
    · omega
    · have := H.lt a (by omega) hua
      omega
  · intro x v w h1 h2 h3
    obtain ⟨h3', hlast⟩ := push_sol h3
    have D := H.val x v w h1 h2 h3'
    refine ⟨?_, ?_, ?_⟩
    · intro a ha hua
      simp only [setRange]
      split_ifs with h
      · have hu : use a ≠ 0 := by
          rcases hua with h' | h'
          · omega
          · exact h'
        have e := hlast (a - T.res i) (by rw [hnr]; omega)
        rw [e]
        have e2 := hval x v w h1 h2 h3' D (a - T.res i) (by omega)
          (by rwa [show T.res i + (a - T.res i) = a by omega])
        rw [e2, ← h1.2 i hi _ (by omega)]
        congr 1; omega
      · exact D.val a (by omega) hua
    · rw [push_countP, D.cf, take_countP hi]
      have := hc x v w h1 h2 h3' D
      split_ifs with hk hf hg hg <;> simp_all
    · rw [push_filterMap, D.out, take_filterMap hi]
      have := ho x v w h1 h2 h3' D
      split_ifs with hk <;> simp_all

theorem need_use {T : VTape} {d : DepSt} {i : ℕ} (h : needOp T d i) (h1 : (T.node i).nres = 1) :
    d.use (T.res i) ≠ 0 := by
  unfold needOp at h
  unfold Node.nres at h1
  cases hk : (T.node i).kind <;> rw [hk] at h h1 <;> simp only [Kind.nres] at h h1
  all_goals first
    | (obtain ⟨j, hj, hu⟩ := h
       have h0 : j = 0 := by omega
       subst h0; exact hu)
    | (exfalso; omega)

theorem skip_use {T : VTape} {d : DepSt} {i : ℕ} (hp : (T.node i).kind.isVector = false)
    (h : ¬ needOp T d i) (j : ℕ) (hj : j < (T.node i).nres) : d.use (T.res i + j) = 0 := by
  by_contra hu
  apply h
  unfold needOp
  unfold Node.nres at hj
  cases hk : (T.node i).kind <;> rw [hk] at hj hp <;> simp only [Kind.nres] at hj ⊢
  all_goals first
    | exact ⟨j, hj, hu⟩
    | (exfalso; omega)
    | (simp [Kind.isVector] at hp)

theorem skip_comp {T : VTape} {d : DepSt} {i : ℕ} (h : ¬ needOp T d i)
    (hk : T.keepCompare = true) (v : ℕ → V) : ¬ FalseAt v (T.node i) := by
  unfold needOp at h
  unfold FalseAt
  cases hn : (T.node i).kind <;> rw [hn] at h <;> simp only [not_false_eq_true]
  case comp c =>
    have : c = .no := by
      by_contra hne; exact h ⟨hk, hne⟩
    subst this
    simp [Cmp.holds]

theorem skip_pri {T : VTape} {d : DepSt} {i : ℕ} (h : ¬ needOp T d i)
    (hk : T.keepPrint = true) (v : ℕ → V) : printAt T.nInd v (T.node i) = none := by
  unfold needOp at h
  unfold printAt
  cases hn : (T.node i).kind <;> rw [hn] at h <;> simp only []
  case pri a b =>
    have : (T.node i).args.getD 0 0 = T.nInd := by
      by_contra hne; exact h ⟨hk, hne⟩
    rw [if_pos this]

theorem deadLoop_inv {T : VTape} {P : Prim} (hw : T.WF) (hp : T.Plain) (hk : T.KeptLive) :
    DeadInv T P (revDepend T P).use T.nOp
      (forRange 1 T.nOp (newInit T) (fun i s => deadStep T (revDepend T P) s i)) := by
  have D := revDepend_inv P hw hp
  set d := revDepend T P with hd
  obtain ⟨l0, hl0⟩ := hw.head
  have h0 : 0 < T.nOp := by simp [VTape.nOp, hl0]
  have hn0 : T.node 0 = ⟨.con none, []⟩ := by simp [VTape.node, hl0]
  have hr1 : T.res 1 = T.nInd + 1 := by
    have h1 := res_succ T h0
    rw [hn0, res_zero] at h1
    simpa [Node.nres, Kind.nres] using h1
  have ht1 : T.nodes.take 1 = [⟨.con none, []⟩] := by simp [hl0]
  refine forRange_ind (show 1 ≤ T.nOp from h0) (P := fun i s => DeadInv T P d.use i s) ?_ ?_
  · refine ⟨rfl, rfl, setInd_wf _ _ _, setInd_plain _ _ _, fun a ha => by simp [newInit, ha], ?_, ?_⟩
    · intro a ha _
      simp only [newInit, setInd_nVal]
      rw [if_pos (by omega)]; omega
    · intro x v w h1 _ h3
      refine ⟨fun a ha _ => ?_, ?_, ?_⟩
      · simp only [newInit]
        rw [if_pos (by omega)]
        by_cases hai : a < T.nInd
        · rw [h1.1 a hai, h3.1 a hai]
        · have hae : a = T.nInd := by omega
          subst hae
          rw [sol_nan hw h1]
          exact sol_nan (T := setInd T.nInd true true) (setInd_wf _ _ _) h3
      · rw [ht1]; simp [newInit, setInd, FalseAt]
      · rw [ht1]
        have e : ∀ u : ℕ → V, List.filterMap (printAt T.nInd u) [⟨.con none, []⟩] = [] := fun u => rfl
        simp only [newInit, setInd, e, ite_self]
  · intro i s hi1 hi H
    have hpl := hp _ (node_mem T hi)
    have hin : T.nInd < T.res i := by have := res_mono T hi1; omega
    have hin' : T.nInd < s.new.nVal := by
      have := nVal_pos H.wf; rw [H.nInd] at this; exact this
    unfold deadStep
    by_cases hneed : needOp T d i
    · rw [if_pos hneed]
      -- operators that have all their arguments
      have generic : (∀ a ∈ (T.node i).args, a ≤ T.nInd ∨ d.use a ≠ 0) →
          (∀ x v w, Sol T P x v → CallOk T P d.use v → Sol s.new P x w → DeadVal T d.use i s v w →
            if T.keepCompare = true then
              (FalseAt w ⟨(T.node i).kind, (T.node i).args.map s.idx⟩ ↔ FalseAt v (T.node i))
            else ¬ FalseAt w ⟨(T.node i).kind, (T.node i).args.map s.idx⟩) →
          (∀ x v w, Sol T P x v → CallOk T P d.use v → Sol s.new P x w → DeadVal T d.use i s v w →
            if T.keepPrint = true then
              printAt T.nInd w ⟨(T.node i).kind, (T.node i).args.map s.idx⟩ =
                printAt T.nInd v (T.node i)
            else printAt T.nInd w ⟨(T.node i).kind, (T.node i).args.map s.idx⟩ = none) →
          DeadInv T P d.use (i + 1)
            ⟨(s.new.push ⟨(T.node i).kind, (T.node i).args.map s.idx⟩).1, s.which,
              setRange s.idx (T.res i) s.new.nVal (T.node i).nres⟩ := by
        intro hargs hc ho
        refine dead_push hw hi hi1 H _ (by simp) ?_ hpl ?_ hc ho
        · intro a ha
          simp only [List.mem_map] at ha
          obtain ⟨b, hb, rfl⟩ := ha
          exact H.lt b (hw.args i hi b hb) (hargs b hb)
        · intro x v w _ _ _ Dv k _ _
          rw [List.map_map]
          congr 2
          apply List.map_congr_left
          intro a ha
          exact Dv.val a (hw.args i hi a ha) (hargs a ha)
      have hquiet : (∀ c, (T.node i).kind ≠ .comp c) → (∀ a b, (T.node i).kind ≠ .pri a b) →
          ∀ (args : List ℕ),
          (∀ x v w, Sol T P x v → CallOk T P d.use v → Sol s.new P x w → DeadVal T d.use i s v w →
            if T.keepCompare = true then
              (FalseAt w ⟨(T.node i).kind, args⟩ ↔ FalseAt v (T.node i))
            else ¬ FalseAt w ⟨(T.node i).kind, args⟩) ∧
          (∀ x v w, Sol T P x v → CallOk T P d.use v → Sol s.new P x w → DeadVal T d.use i s v w →
            if T.keepPrint = true then
              printAt T.nInd w ⟨(T.node i).kind, args⟩ = printAt T.nInd v (T.node i)
            else printAt T.nInd w ⟨(T.node i).kind, args⟩ = none) := by
        intro q1 q2 args
        have a1 := fun v => quiet_of_nres (nd := T.node i) T.nInd v q1 q2
        have a2 := fun v => quiet_of_nres (nd := ⟨(T.node i).kind, args⟩) T.nInd v q1 q2
        constructor
        · intro x v w _ _ _ _
          split_ifs
          · simp [(a1 v).1, (a2 w).1]
          · exact (a2 w).1
        · intro x v w _ _ _ _
          split_ifs
          · rw [(a1 v).2, (a2 w).2]
          · exact (a2 w).2
      -- operators that have a result
      have one : (T.node i).nres = 1 → (∀ a id n, (T.node i).kind ≠ .call a id n) →
          DeadInv T P d.use (i + 1)
            ⟨(s.new.push ⟨(T.node i).kind, (T.node i).args.map s.idx⟩).1, s.which,
              setRange s.idx (T.res i) s.new.nVal (T.node i).nres⟩ := by
        intro h1 hcall
        have hu : d.use (T.res i) ≠ 0 := need_use hneed h1
        have q1 : ∀ c, (T.node i).kind ≠ .comp c := by
          intro c hc; simp [Node.nres, hc, Kind.nres] at h1
        have q2 : ∀ a b, (T.node i).kind ≠ .pri a b := by
          intro a b hc; simp [Node.nres, hc, Kind.nres] at h1
        obtain ⟨g1, g2⟩ := hquiet q1 q2 ((T.node i).args.map s.idx)
        exact generic (fun a ha => Or.inr (D.arg i (Nat.zero_le _) hi (by omega) hcall hu a ha)) g1 g2
      -- comparisons and prints
      have kept : Kept T (T.node i) → (∀ a ∈ (T.node i).args, a ≤ T.nInd ∨ d.use a ≠ 0) := by
        intro hkept a ha
        rcases hk _ (node_mem T hi) hkept a ha with h | h
        · exact Or.inl h
        · exact Or.inr (live_use D h)
      cases hkind : (T.node i).kind with
      | con c =>
        have hargs : (T.node i).args = [] := by
          have := hw.arity i hi
          rw [hkind] at this
          exact List.length_eq_zero_iff.mp this
        have hnr : (T.node i).nres = 1 := by simp [Node.nres, hkind, Kind.nres]
        have hq := fun v => quiet_of_nres (nd := T.node i) T.nInd v (by simp [hkind]) (by simp [hkind])
        simp only [recordNew, hkind, VTape.recordCon]
        by_cases hcn : c = none
        · subst hcn
          simp only [if_true]
          rw [hnr]
          refine ⟨H.nInd, H.dep, H.wf, H.plain, ?_, ?_, ?_⟩
          · intro a ha
            simp only [setRange]
            rw [if_neg (by omega)]; exact H.ind a ha
          · intro a ha hua
            simp only [setRange]
            rw [res_succ T hi] at ha
            split_ifs with h
            · rw [H.nInd]; omega
            · exact H.lt a (by omega) hua
          · intro x v w e1 e2 e3
            have Dv := H.val x v w e1 e2 e3
            refine ⟨?_, ?_, ?_⟩
            · intro a ha hua
              rw [res_succ T hi] at ha
              simp only [setRange]
              split_ifs with h
              · have hae : a = T.res i + 0 := by omega
                rw [hae, e1.2 i hi 0 (by omega), hkind]
                simp only [Nat.add_zero, Nat.sub_self]
                rw [sol_nan H.wf e3]
                simp [Kind.out, rd]
              · exact Dv.val a (by omega) hua
            · rw [Dv.cf, take_countP hi]
              simp [(hq v).1]
            · rw [Dv.out, take_filterMap hi]
              simp [(hq v).2]
        · simp only [hcn, if_false]
          have := one hnr (by simp [hkind])
          rw [hkind, hargs] at this
          exact this
      | call a id n =>
        simp only [recordNew, hkind]
        have hlen : ((T.node i).args.map
            (fun a => if d.use a ≠ 0 then s.idx a else s.new.nInd)).length =
            (T.node i).args.length := by simp
        obtain ⟨g1, g2⟩ := hquiet (by simp [hkind]) (by simp [hkind])
          ((T.node i).args.map (fun a => if d.use a ≠ 0 then s.idx a else s.new.nInd))
        have := dead_push hw hi hi1 H _ hlen ?_ hpl ?_ g1 g2
        · rw [hkind] at this; exact this
        · intro b hb
          simp only [List.mem_map] at hb
          obtain ⟨c, hc, rfl⟩ := hb
          split_ifs with hu
          · exact H.lt c (hw.args i hi c hc) (Or.inr hu)
          · rw [H.nInd]; exact hin'
        · intro x v w e1 e2 e3 Dv k hk' hu
          have hkn : k < n := by simpa [Node.nres, hkind, Kind.nres] using hk'
          rw [hkind]
          simp only [Kind.out]
          rw [rd_range_map _ _ _ hkn, rd_range_map _ _ _ hkn]
          refine e2 i hi a id n hkind _ (by simp) ?_ k hkn hu
          intro m hm hdep
          have hum := D.call i (Nat.zero_le _) hi a id n hkind (by omega) m hm hdep
          rw [List.map_map, getD_map_V _ _ hm]
          simp only [Function.comp]
          rw [if_pos hum]
          exact Dv.val _ (hw.args i hi _ (getD_mem hm)) (Or.inr hum)
      | comp c =>
        have hneed' : T.keepCompare = true ∧ c ≠ .no := by
          unfold needOp at hneed; rw [hkind] at hneed; exact hneed
        have hkargs := kept (by unfold Kept; rw [hkind]; exact hneed')
        have := generic hkargs ?_ ?_
        · simp only [recordNew, hkind]
          rw [hkind] at this; exact this
        · intro x v w _ _ _ Dv
          rw [if_pos hneed'.1]
          have hmap : ∀ a ∈ (T.node i).args, w (s.idx a) = v a := fun a ha =>
            Dv.val a (hw.args i hi a ha) (hkargs a ha)
          have har := hw.arity i hi
          rw [hkind] at har ⊢
          simp only [Kind.arityOk] at har
          have e : ∀ k, k < (T.node i).args.length →
              ((T.node i).args.map s.idx).getD k 0 = s.idx ((T.node i).args.getD k 0) := by
            intro k hk'; simp [List.getD_eq_getElem?_getD, hk']
          simp only [FalseAt, hkind]
          rw [e 0 (by omega), e 1 (by omega), hmap _ (getD_mem (by omega)),
            hmap _ (getD_mem (by omega))]
        · intro x v w _ _ _ Dv
          split_ifs <;> simp [printAt, hkind]
      | pri b a =>
        have hneed' : T.keepPrint = true ∧ (T.node i).args.getD 0 0 ≠ T.nInd := by
          unfold needOp at hneed; rw [hkind] at hneed; exact hneed
        have hkargs := kept (by unfold Kept; rw [hkind]; exact hneed')
        have := generic hkargs ?_ ?_
        · simp only [recordNew, hkind]
          rw [hkind] at this; exact this
        · intro x v w _ _ _ Dv
          split_ifs <;> simp [FalseAt, hkind]
        · intro x v w e1 e2 e3 Dv
          rw [if_pos hneed'.1]
          have hmap : ∀ a ∈ (T.node i).args, w (s.idx a) = v a := fun a ha =>
            Dv.val a (hw.args i hi a ha) (hkargs a ha)
          have har := hw.arity i hi
          rw [hkind] at har ⊢
          simp only [Kind.arityOk] at har
          have e : ∀ k, k < (T.node i).args.length →
              ((T.node i).args.map s.idx).getD k 0 = s.idx ((T.node i).args.getD k 0) := by
            intro k hk'; simp [List.getD_eq_getElem?_getD, hk']
          have m0 := hmap _ (getD_mem (l := (T.node i).args) (k := 0) (by omega))
          have m1 := hmap _ (getD_mem (l := (T.node i).args) (k := 1) (by omega))
          simp only [printAt, hkind]
          rw [e 0 (by omega), e 1 (by omega), if_neg hneed'.2, m0, m1]
          by_cases hidx : s.idx ((T.node i).args.getD 0 0) = T.nInd
          · rw [if_pos hidx, if_neg]
            rw [← m0, hidx, ← H.nInd, sol_nan H.wf e3]
            simp [Cmp.holds]
          · rw [if_neg hidx]
      | vec w => rw [hkind] at hpl; simp [Kind.isVector] at hpl
      | load w => rw [hkind] at hpl; simp [Kind.isVector] at hpl
      | store w => rw [hkind] at hpl; simp [Kind.isVector] at hpl
      | _ =>
        have := one (by simp [Node.nres, hkind, Kind.nres]) (by simp [hkind])
        simp only [recordNew, hkind]
        rw [hkind] at this
        exact this
    · rw [if_neg hneed]
      refine dead_skip hw hi hi1 H ?_ ?_ ?_
      · exact fun j hj => skip_use hpl hneed j hj
      · exact fun hkc v => skip_comp hneed hkc v
      · exact fun hkc v => skip_pri hneed hkc v

theorem deadCode_wf {T : VTape} {P : Prim} (hw : T.WF) (hp : T.Plain) (hk : T.KeptLive) :
    (deadCode T P).WF ∧ (deadCode T P).Plain ∧ (deadCode T P).nInd = T.nInd := by
  have H := deadLoop_inv (P := P) hw hp hk
  have D := revDepend_inv P hw hp
  refine ⟨⟨H.wf.head, H.wf.args, H.wf.arity, ?_⟩, H.plain, H.nInd⟩
  intro a ha
  simp only [deadCode, List.mem_map] at ha
  obtain ⟨b, hb, rfl⟩ := ha
  exact H.lt b (by rw [res_nOp]; exact hw.dep b hb) (Or.inr (D.dep b hb))

theorem deadCode_core {T : VTape} {P : Prim} (hw : T.WF) (hp : T.Plain) (hk : T.KeptLive)
    {x : List V} (hx : x.length = T.nInd)
    (hc : CallOk T P (revDepend T P).use (rd (T.run P x).val)) :
    (deadCode T P).eval P x = T.eval P x ∧
      (deadCode T P).compareFalse P x = (if T.keepCompare = true then T.compareFalse P x else 0) ∧
      (deadCode T P).printed P x = (if T.keepPrint = true then T.printed P x else []) := by
  have H := deadLoop_inv (P := P) hw hp hk
  have D := revDepend_inv P hw hp
  obtain ⟨hw', hp', hn⟩ := deadCode_wf (P := P) hw hp hk
  have hx' : x.length = (deadCode T P).nInd := by rw [hn, hx]
  have hs := run_sol (P := P) hp hw hx
  have hs' := run_sol (P := P) hp' hw' hx'
  have Dv := H.val x _ _ hs hc hs'
  obtain ⟨c1, o1⟩ := run_cf_out hp hw hx hs
  obtain ⟨c2, o2⟩ := run_cf_out hp' hw' hx' hs'
  refine ⟨?_, ?_, ?_⟩
  · rw [eval_eq hp' hw' hx' hs', eval_eq hp hw hx hs]
    simp only [deadCode, List.map_map]
    apply List.map_congr_left
    intro b hb
    exact Dv.val b (by rw [res_nOp]; exact hw.dep b hb) (Or.inr (D.dep b hb))
  · rw [c2, c1]
    have := Dv.cf
    rw [show T.nOp = T.nodes.length from rfl, List.take_length] at this
    exact this
  · rw [o2, o1, hn]
    have := Dv.out
    rw [show T.nOp = T.nodes.length from rfl, List.take_length] at this
    exact this

theorem callOk_of_revDependOk {T : VTape} {P : Prim} (hP : P.RevDependOk) (use : ℕ → ℕ)
    (v : ℕ → V) : CallOk T P use v := by
  intro i _ a id n _ ys hlen hag j hj hu
  refine hP a id ((T.node i).args.map (rd (T.nanVal P)))
    ((List.range n).map (fun k => decide (use (T.res i + k) ≠ 0))) _ ys (by simp [hlen]) ?_ j ?_
  · intro k hk' hd
    rw [List.length_map] at hk'
    rw [getD_map_V _ _ hk']
    exact hag k hk' hd
  · simp [List.getD_eq_getElem?_getD, hj, hu]

theorem callOk_of_conOk {T : VTape} {P : Prim} (hw : T.WF) (hP : P.RevDependConOk)
    (hT : T.NanSound P) (use : ℕ → ℕ) {x : List V} (hx : x.length = T.nInd) :
    CallOk T P use (rd (T.run P x).val) := by
  intro i hi a id n _ ys hlen hag j hj hu
  refine hP a id ((T.node i).args.map (rd (T.nanVal P)))
    ((List.range n).map (fun k => decide (use (T.res i + k) ≠ 0))) _ ys (by simp [hlen]) ?_ ?_ j ?_
  · intro k hne
    by_cases hk : k < (T.node i).args.length
    · rw [getD_map_V _ _ hk] at hne ⊢
      rw [getD_map_V _ _ hk]
      refine hT x hx _ ?_ hne
      have := hw.args i hi _ (getD_mem hk)
      have := res_le_nVal T (i := i)
      omega
    · exfalso; apply hne
      simp only [rd, List.getD_eq_getElem?_getD]
      rw [List.getElem?_eq_none (by simp; omega)]; rfl
  · intro k hk' hd
    rw [List.length_map] at hk'
    rw [getD_map_V _ _ hk']
    exact hag k hk' hd
  · simp [List.getD_eq_getElem?_getD, hj, hu]

/-- **`dead_code` preserves the dependents for every tape without dynamic vectors and every point;
the comparisons are all kept or all removed, and the same for the prints.**  The operands of the
comparisons and prints that are kept must be independents or values that the dependents need, and
`rev_depend` of the atomic functions must be right. -/
theorem dead_code_ok_partial {T : VTape} {P : Prim} (hw : T.WF) (hp : T.Plain) (hk : T.KeptLive)
    (hP : P.RevDependOk) {x : List V} (hx : x.length = T.nInd) :
    (deadCode T P).eval P x = T.eval P x ∧
      (deadCode T P).compareFalse P x = (if T.keepCompare = true then T.compareFalse P x else 0) ∧
      (deadCode T P).printed P x = (if T.keepPrint = true then T.printed P x else []) :=
  deadCode_core hw hp hk hx (callOk_of_revDependOk hP _ _)

/-- the same when `rev_depend` makes use of the constants, for tapes where a value that is not nan
at nan is a constant -/
theorem dead_code_con_ok_partial {T : VTape} {P : Prim} (hw : T.WF) (hp : T.Plain) (hk : T.KeptLive)
    (hP : P.RevDependConOk) (hT : T.NanSound P) {x : List V} (hx : x.length = T.nInd) :
    (deadCode T P).eval P x = T.eval P x ∧
      (deadCode T P).compareFalse P x = (if T.keepCompare = true then T.compareFalse P x else 0) ∧
      (deadCode T P).printed P x = (if T.keepPrint = true then T.printed P x else []) :=
  deadCode_core hw hp hk hx (callOk_of_conOk hw hP hT _ hx)

end CppAD.ValGraph
