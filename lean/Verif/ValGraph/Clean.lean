/-
Value graphs where the only use of nan is the constant that every tape begins with.
-/
import Verif.ValGraph.Fun

namespace CppAD.ValGraph
open CppAD CppAD.Record CppAD.Optim CppAD.Graph Classical

/-- operators that do not give nan for arguments that are not nan, and are not an atomic function, a print or
a dynamic vector operator -/
def Kind.simple : Kind → Bool
  | .con none => false
  | .cexp .ne => false
  | .cexp .no => false
  | .call _ _ _ => false
  | .pri _ _ => false
  | .vec _ => false
  | .load _ => false
  | .store _ => false
  | _ => true

/-- the operator is simple and its arguments are not the nan constant, which has index `n` -/
def Node.Clean (n : ℕ) (nd : Node) : Prop := nd.kind.simple = true ∧ ∀ a ∈ nd.args, a ≠ n

/-- after the first operator, which is the constant nan, the operators are clean; the dependents are not nan -/
structure VTape.Clean (T : VTape) : Prop where
  nodes : ∀ nd ∈ T.nodes.tail, nd.Clean T.nInd
  dep : ∀ d ∈ T.dep, d ≠ T.nInd

theorem simple_isVector {k : Kind} (h : k.simple = true) : k.isVector = false := by
  cases k <;> simp_all [Kind.simple, Kind.isVector]

theorem VTape.Clean.node {T : VTape} (h : T.Clean) {i : ℕ} (h0 : 0 < i) (hi : i < T.nOp) : (T.node i).Clean T.nInd := by
  refine h.nodes _ ?_
  rw [node_eq T hi, List.mem_iff_getElem]
  refine ⟨i - 1, by simp [VTape.nOp] at hi ⊢; omega, ?_⟩
  rw [List.getElem_tail]; congr 1; omega

theorem clean_plain {T : VTape} (hw : T.WF) (h : T.Clean) : T.Plain := by
  obtain ⟨l, hl⟩ := hw.head
  intro nd hnd
  rw [hl] at hnd
  rcases List.mem_cons.1 hnd with rfl | h'
  · rfl
  · exact simple_isVector (h.nodes nd (by rw [hl]; exact h')).1

/-- the functions are defined everywhere: the result is nan only when an operand is -/
structure Prim.Total (P : Prim) : Prop where
  un : ∀ u x, P.un u (some x) ≠ none
  div : ∀ x y, P.div (some x) (some y) ≠ none
  pow : ∀ x y, P.pow (some x) (some y) ≠ none
  dis : ∀ k x, P.dis k (some x) ≠ none

theorem realPrim_total (disc : ℕ → ℝ → ℝ) : (realPrim disc).Total := by
  constructor <;> intros <;> simp [realPrim]

theorem foldl_some {g : V → V → V} (hg : ∀ a b : ℝ, g (some a) (some b) ≠ none) (l : List V) (h : ∀ b ∈ l, b ≠ none) (r : V)
    (hr : r ≠ none) : l.foldl g r ≠ none := by
  induction l generalizing r with
  | nil => exact hr
  | cons b l ih =>
    refine ih (fun c hc => h c (List.mem_cons_of_mem _ hc)) _ ?_
    obtain ⟨a, rfl⟩ := Option.ne_none_iff_exists'.1 hr
    obtain ⟨a', ha'⟩ := Option.ne_none_iff_exists'.1 (h b List.mem_cons_self)
    subst ha'; exact hg _ _

theorem cexpVal_some {c : Cmp} (h : c ≠ .ne ∧ c ≠ .no) {l r t f : V} (ht : t ≠ none) (hf : f ≠ none) : cexpVal c l r t f ≠ none := by
  cases c <;> simp_all [cexpVal] <;> split_ifs <;> simp_all

/-- a simple operator with arguments that are not nan -/
theorem simple_out {P : Prim} (hP : P.Total) {k : Kind} (h : k.simple = true) {x : List V} (hk : k.arityOk x.length)
    (hx : ∀ b ∈ x, b ≠ none) : ∀ j < k.nres, rd (k.out P x) j ≠ none := by
  have hrd : ∀ j < x.length, ∃ r, rd x j = some r := by
    intro j hj
    refine Option.ne_none_iff_exists'.1 (hx _ ?_)
    unfold rd; rw [List.getD_eq_getElem _ _ hj]; exact List.getElem_mem _
  cases k with
  | con c => cases c <;> simp_all [Kind.simple, Kind.out, rd, Kind.nres]
  | un u =>
    obtain ⟨r, hr⟩ := hrd 0 (by simp_all [Kind.arityOk])
    simp only [Kind.nres, Kind.out, Nat.lt_one_iff, forall_eq, rd_cons_zero, hr]; exact hP.un u r
  | neg =>
    obtain ⟨r, hr⟩ := hrd 0 (by simp_all [Kind.arityOk])
    simp [Kind.nres, Kind.out, rd_cons_zero, hr, vneg]
  | add =>
    obtain ⟨r, hr⟩ := hrd 0 (by simp_all [Kind.arityOk])
    obtain ⟨q, hq⟩ := hrd 1 (by simp_all [Kind.arityOk])
    simp [Kind.nres, Kind.out, rd_cons_zero, hr, hq, vadd]
  | sub =>
    obtain ⟨r, hr⟩ := hrd 0 (by simp_all [Kind.arityOk])
    obtain ⟨q, hq⟩ := hrd 1 (by simp_all [Kind.arityOk])
    simp [Kind.nres, Kind.out, rd_cons_zero, hr, hq, vsub]
  | mul =>
    obtain ⟨r, hr⟩ := hrd 0 (by simp_all [Kind.arityOk])
    obtain ⟨q, hq⟩ := hrd 1 (by simp_all [Kind.arityOk])
    simp [Kind.nres, Kind.out, rd_cons_zero, hr, hq, vmul]
  | div =>
    obtain ⟨r, hr⟩ := hrd 0 (by simp_all [Kind.arityOk])
    obtain ⟨q, hq⟩ := hrd 1 (by simp_all [Kind.arityOk])
    simp only [Kind.nres, Kind.out, Nat.lt_one_iff, forall_eq, rd_cons_zero, hr, hq]; exact hP.div r q
  | pow =>
    obtain ⟨r, hr⟩ := hrd 0 (by simp_all [Kind.arityOk])
    obtain ⟨q, hq⟩ := hrd 1 (by simp_all [Kind.arityOk])
    simp only [Kind.nres, Kind.out, Nat.lt_one_iff, forall_eq, rd_cons_zero, hr, hq]; exact hP.pow r q
  | dis k =>
    obtain ⟨r, hr⟩ := hrd 0 (by simp_all [Kind.arityOk])
    simp only [Kind.nres, Kind.out, Nat.lt_one_iff, forall_eq, rd_cons_zero, hr]; exact hP.dis k r
  | cexp c =>
    obtain ⟨r, hr⟩ := hrd 2 (by simp_all [Kind.arityOk])
    obtain ⟨q, hq⟩ := hrd 3 (by simp_all [Kind.arityOk])
    simp only [Kind.nres, Kind.out, Nat.lt_one_iff, forall_eq, rd_cons_zero]
    refine cexpVal_some ?_ (by simp [hr]) (by simp [hq])
    cases c <;> simp_all [Kind.simple]
  | comp c => intro j hj; simp [Kind.nres] at hj
  | csum n m =>
    simp only [Kind.nres, Kind.out, Nat.lt_one_iff, forall_eq, rd_cons_zero]
    refine foldl_some (by simp [vsub]) _ (fun b hb => hx b (List.mem_of_mem_drop hb)) _ ?_
    exact foldl_some (by simp [vadd]) _ (fun b hb => hx b (List.mem_of_mem_take hb)) _ (by simp)
  | _ => simp [Kind.simple] at h

/-- the only nan among the values is the constant -/
theorem clean_some {T : VTape} {P : Prim} (hP : P.Total) (hw : T.WF) (hc : T.Clean) {x : List V} (hx : ∀ j < T.nInd, rd x j ≠ none) {w : ℕ → V}
    (h : Sol T P x w) : ∀ a < T.nVal, a ≠ T.nInd → w a ≠ none := by
  intro a
  induction a using Nat.strong_induction_on with
  | _ a ih =>
    intro ha hne
    by_cases h' : a < T.nInd
    · rw [h.1 a h']; exact hx a h'
    · obtain ⟨i, k, hi, hk, rfl⟩ := exists_res T T.nOp le_rfl (by omega : T.nInd ≤ a) (by rw [res_nOp]; exact ha)
      have hi0 : 0 < i := by
        rcases Nat.eq_zero_or_pos i with rfl | h0
        · exfalso
          obtain ⟨l, hl⟩ := hw.head
          have hn : T.node 0 = ⟨.con none, []⟩ := by simp [VTape.node, hl]
          rw [hn] at hk
          simp [Node.nres, Kind.nres] at hk
          subst hk
          rw [res_zero] at hne; simp at hne
        · exact h0
      rw [h.2 i hi k hk]
      obtain ⟨hs, harg⟩ := hc.node hi0 hi
      refine simple_out hP hs (by rw [List.length_map]; exact hw.arity i hi) ?_ k hk
      intro b hb
      obtain ⟨c, hc', rfl⟩ := List.mem_map.1 hb
      have h1 := hw.args i hi c hc'
      exact ih c (by omega) (by have := res_le_nVal T (i := i); omega) (harg c hc')

end CppAD.ValGraph
