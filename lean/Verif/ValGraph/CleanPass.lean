/-
The passes of `optimize("val_graph ...")` keep a value graph clean, and do not add cumulative
summations when they are not wanted.
-/
import Verif.ValGraph.Clean
import Verif.ValGraph.Optimize

namespace CppAD.ValGraph
open CppAD CppAD.Record CppAD.Optim CppAD.Graph Classical

/-- there is no cumulative summation -/
def VTape.NoSum (T : VTape) : Prop := ∀ nd ∈ T.nodes.tail, ∀ a b, nd.kind ≠ .csum a b

/-- some values of a clean graph -/
theorem clean_sol {T : VTape} (hw : T.WF) (hc : T.Clean) (disc : ℕ → ℝ → ℝ) :
    ∃ v, Sol T (realPrim disc) (List.replicate T.nInd (some 0)) v ∧ v T.nInd = none ∧ ∀ a < T.nVal, a ≠ T.nInd → v a ≠ none := by
  have hp := clean_plain hw hc
  have hs := run_sol (P := realPrim disc) hp hw (x := List.replicate T.nInd (some 0)) (by simp)
  refine ⟨_, hs, sol_nan hw hs, clean_some (realPrim_total disc) hw hc ?_ hs⟩
  intro j hj
  simp [rd, List.getD_eq_getElem?_getD, hj]

theorem mem_tail_node {T : VTape} {nd : Node} (h : nd ∈ T.nodes.tail) : ∃ i, 0 < i ∧ i < T.nOp ∧ T.node i = nd := by
  obtain ⟨i, hi, rfl⟩ := List.mem_iff_getElem.1 h
  have hl : i + 1 < T.nodes.length := by simp at hi; omega
  refine ⟨i + 1, by omega, hl, ?_⟩
  rw [node_eq T hl, List.getElem_tail]

theorem tail_node {T : VTape} {i : ℕ} (h0 : 0 < i) (hi : i < T.nOp) : T.node i ∈ T.nodes.tail := by
  rw [node_eq T hi, List.mem_iff_getElem]
  refine ⟨i - 1, by simp [VTape.nOp] at hi ⊢; omega, ?_⟩
  rw [List.getElem_tail]; congr 1; omega

theorem noOp_clean {n : ℕ} {nd : Node} (h : nd.Clean n) : (noOp n nd).Clean n := by
  obtain ⟨k, l⟩ := nd
  obtain ⟨h1, h2⟩ := h
  cases k <;> simp_all [noOp, Kind.simple, Node.Clean]

theorem renumber_clean (hash : Kind → List ℕ → ℕ) {T : VTape} (hw : T.WF) (hc : T.Clean) : (renumber hash T).Clean := by
  have hp := clean_plain hw hc
  have H := renLoop_inv hash hw hp
  obtain ⟨v, hs, hn, hv⟩ := clean_sol hw hc (fun _ _ => 0)
  have key : ∀ a, a < T.nVal → a ≠ T.nInd → (renLoop hash T T.nOp).idx a ≠ T.nInd := by
    intro a ha hne h
    have := H.val _ _ v hs a ha
    rw [h, hn] at this
    exact hv a ha hne this.symm
  constructor
  · intro nd hnd
    obtain ⟨i, h0, hi, rfl⟩ := mem_tail_node hnd
    rw [renumber_nOp hash hw hp] at hi
    have hci : Node.Clean T.nInd ((renLoop hash T T.nOp).nodes.getD i default) ∧
        ((renLoop hash T T.nOp).nodes.getD i default).args = (T.node i).args := by
      have hcl := hc.node h0 hi
      rcases H.nodes i hi with h | ⟨_, h, _⟩
      · rw [h]; exact ⟨hcl, rfl⟩
      · rw [h]
        refine ⟨noOp_clean hcl, ?_⟩
        generalize T.node i = nd at hcl
        obtain ⟨k, l⟩ := nd
        obtain ⟨h1, h2⟩ := hcl
        cases k <;> simp_all [noOp, Kind.simple]
    rw [renumber_node hash i hi]
    refine ⟨hci.1.1, ?_⟩
    intro a ha
    obtain ⟨b, hb, rfl⟩ := List.mem_map.1 ha
    rw [hci.2] at hb
    have := hw.args i hi b hb
    have h2 := res_le_nVal T (i := i)
    exact key b (by omega) ((hc.node h0 hi).2 b hb)
  · intro d hd
    obtain ⟨b, hb, rfl⟩ := List.mem_map.1 hd
    exact key b (hw.dep b hb) (hc.dep b hb)

theorem renumber_noSum (hash : Kind → List ℕ → ℕ) {T : VTape} (hw : T.WF) (hp : T.Plain) (h : T.NoSum) : (renumber hash T).NoSum := by
  intro nd hnd a b
  obtain ⟨i, h0, hi, rfl⟩ := mem_tail_node hnd
  rw [renumber_nOp hash hw hp] at hi
  have hi' := h _ (tail_node h0 hi) a b
  rw [renumber_node hash i hi]
  rcases (renLoop_inv hash hw hp).nodes i hi with h | ⟨_, h, _⟩
  · rw [h]; exact hi'
  · rw [h]
    generalize T.node i = nd at hi'
    obtain ⟨k, l⟩ := nd
    cases k <;> simp_all [noOp]

theorem summation_clean {T : VTape} (disc : ℕ → ℝ → ℝ) (hw : T.WF) (hc : T.Clean) : (summation T (realPrim disc)).Clean := by
  have hp := clean_plain hw hc
  obtain ⟨v, hs, hn, hv⟩ := clean_sol hw hc disc
  have hpt : SumPt T v := by
    refine sumPt_of_sol hw hs fun i hi hsum => hv _ ?_ ?_
    · have := res_add_lt T (k := 0) hi (by rcases isSum_cases hsum with h | h | h <;> simp [Node.nres, h, Kind.nres])
      simpa using this
    · have h0 : 0 < i := by
        rcases Nat.eq_zero_or_pos i with rfl | h
        · exfalso
          obtain ⟨l, hl⟩ := hw.head
          have hn : T.node 0 = ⟨.con none, []⟩ := by simp [VTape.node, hl]
          rw [hn] at hsum; simp [Kind.isSum] at hsum
        · exact h
      have := nInd_lt_res hw hp i h0
      omega
  constructor
  · intro nd hnd
    obtain ⟨i, h0, hi, rfl⟩ := mem_tail_node hnd
    rw [summation_nOp hw hp] at hi
    rcases summation_node (P := realPrim disc) hw hp i hi with h | ⟨_, _, c, h, hf⟩
    · rw [h]; exact hc.node h0 hi
    · rw [h]
      refine ⟨rfl, fun a ha hne => ?_⟩
      exact (hf.el a ha).2 v hpt (by rw [show a = T.nInd from hne]; exact hn)
  · exact hc.dep

/-- what holds in the loop of `dead_code` -/
structure DeadClean (T : VTape) (s : NewSt) : Prop where
  nInd : s.new.nInd = T.nInd
  pos : T.nInd < s.new.nVal
  idx : ∀ a, a ≠ T.nInd → s.idx a ≠ T.nInd
  nodes : ∃ l, s.new.nodes = ⟨.con none, []⟩ :: l ∧ ∀ nd ∈ l, nd.Clean T.nInd ∧ (∃ nd' ∈ T.nodes.tail, nd'.kind = nd.kind) ∧
    ∀ k, nd.kind = .comp k → T.keepCompare = true

theorem dead_push_clean {T : VTape} {s : NewSt} (H : DeadClean T s) {k : Kind} {old : List ℕ} {nd' : Node} (hk : nd'.kind = k) (hm : nd' ∈ T.nodes.tail)
    (hs : k.simple = true) (ha : ∀ a ∈ old, a ≠ T.nInd) (hcmp : ∀ c, k = .comp c → T.keepCompare = true) (o n : ℕ) :
    DeadClean T ⟨(s.new.push ⟨k, old.map s.idx⟩).1, s.which, setRange s.idx o s.new.nVal n⟩ := by
  obtain ⟨l, hl, hl2⟩ := H.nodes
  refine ⟨H.nInd, ?_, ?_, ?_⟩
  · show T.nInd < (s.new.push _).1.nVal
    rw [push_nVal]; have := H.pos; omega
  · intro a hne
    show setRange s.idx o s.new.nVal n a ≠ T.nInd
    unfold setRange
    have := H.pos
    split_ifs
    · omega
    · exact H.idx a hne
  · refine ⟨l ++ [⟨k, old.map s.idx⟩], by simp [VTape.push, hl], ?_⟩
    intro nd hnd
    rcases List.mem_append.1 hnd with h | h
    · exact hl2 nd h
    · obtain rfl := List.mem_singleton.1 h
      refine ⟨⟨hs, ?_⟩, ⟨nd', hm, hk⟩, hcmp⟩
      intro a h'
      obtain ⟨b, hb, rfl⟩ := List.mem_map.1 h'
      exact H.idx b (ha b hb)

theorem deadLoop_clean {T : VTape} (P : Prim) (hw : T.WF) (hc : T.Clean) :
    DeadClean T (forRange 1 T.nOp (newInit T) (fun i s => deadStep T (revDepend T P) s i)) := by
  have h1 : 1 ≤ T.nOp := by
    obtain ⟨l, hl⟩ := hw.head
    simp [VTape.nOp, hl]
  refine forRange_ind h1 (P := fun (_ : ℕ) (s : NewSt) => DeadClean T s) ?_ ?_
  · refine ⟨rfl, ?_, ?_, [], rfl, by simp⟩
    · show T.nInd < (setInd T.nInd true true).nVal
      rw [setInd_nVal]; omega
    · intro a hne
      have := nVal_pos hw
      simp only [newInit]
      split_ifs <;> omega
  · intro i s h1 h2 H
    have hcl := hc.node h1 h2
    have hm := tail_node h1 h2
    unfold deadStep
    by_cases hneed : needOp T (revDepend T P) i
    · rw [if_pos hneed]
      obtain ⟨hs, ha⟩ := hcl
      have hcmp : ∀ k, (T.node i).kind = k → ∀ c, k = .comp c → T.keepCompare = true := by
        intro k hk c hc'
        unfold needOp at hneed
        rw [hk, hc'] at hneed
        exact hneed.1
      cases hk : (T.node i).kind with
      | con c =>
        cases c with
        | none => rw [hk] at hs; simp [Kind.simple] at hs
        | some c =>
          have := dead_push_clean H (old := []) hk hm (by rw [hk] at hs; exact hs) (by simp) (by simp) (T.res i) (T.node i).nres
          simp only [recordNew, hk, VTape.recordCon, reduceCtorEq, if_false, push_snd]
          exact this
      | call a b c => rw [hk] at hs; simp [Kind.simple] at hs
      | load a => rw [hk] at hs; simp [Kind.simple] at hs
      | store a => rw [hk] at hs; simp [Kind.simple] at hs
      | vec a => rw [hk] at hs; simp [Kind.simple] at hs
      | _ =>
        have := dead_push_clean H (old := (T.node i).args) hk hm (by rw [hk] at hs; exact hs) ha (hcmp _ hk) (T.res i) (T.node i).nres
        simp only [recordNew, hk, push_snd]
        exact this
    · rw [if_neg hneed]; exact H

theorem deadCode_clean {T : VTape} (P : Prim) (hw : T.WF) (hc : T.Clean) : (deadCode T P).Clean := by
  have H := deadLoop_clean P hw hc
  obtain ⟨l, hl, hl2⟩ := H.nodes
  have hn : (deadCode T P).nInd = T.nInd := H.nInd
  constructor
  · intro nd hnd
    rw [hn]
    simp only [deadCode, hl, List.tail_cons] at hnd
    exact (hl2 nd hnd).1
  · intro d hd
    rw [hn]
    obtain ⟨b, hb, rfl⟩ := List.mem_map.1 hd
    exact H.idx b (hc.dep b hb)

theorem deadCode_noSum {T : VTape} (P : Prim) (hw : T.WF) (hc : T.Clean) (h : T.NoSum) : (deadCode T P).NoSum := by
  have H := deadLoop_clean P hw hc
  obtain ⟨l, hl, hl2⟩ := H.nodes
  intro nd hnd a b
  simp only [deadCode, hl, List.tail_cons] at hnd
  obtain ⟨_, ⟨nd', hm, he⟩, _⟩ := hl2 nd hnd
  rw [← he]; exact h nd' hm a b

/-- comparisons are only there when they are kept -/
theorem deadCode_noComp {T : VTape} (P : Prim) (hw : T.WF) (hc : T.Clean) (h : T.keepCompare = false) :
    ∀ nd ∈ (deadCode T P).nodes, ∀ k, nd.kind ≠ .comp k := by
  have H := deadLoop_clean P hw hc
  obtain ⟨l, hl, hl2⟩ := H.nodes
  intro nd hnd k hk
  simp only [deadCode, hl] at hnd
  rcases List.mem_cons.1 hnd with rfl | h'
  · simp at hk
  · have := (hl2 nd h').2.2 k hk
    rw [h] at this; cases this

end CppAD.ValGraph
