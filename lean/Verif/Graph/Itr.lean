import Verif.Graph.Model
import Verif.Optimize.Pars

/-! # The iterator of a graph, and the values of its nodes -/

open scoped Classical

namespace CppAD.Graph

open CppAD CppAD.Record CppAD.Optim

theorem getD_mid {pre l post : List ℕ} {i : ℕ} (h : i < l.length) : (pre ++ l ++ post).getD (pre.length + i) 0 = l.getD i 0 := by
  rw [List.append_assoc, List.getD_append_right _ _ _ _ (by omega), Nat.add_sub_cancel_left, List.getD_append _ _ _ _ h]

theorem range_map_getD (l : List ℕ) (g : ℕ → ℕ) (h : ∀ i < l.length, g i = l.getD i 0) : (List.range l.length).map g = l := by
  apply List.ext_getElem
  · simp
  · intro i h1 h2
    simp only [List.getElem_map, List.getElem_range]
    rw [h i h2, List.getD_eq_getElem _ _ h2]

/-- the iterator finds the operator that was pushed -/
theorem setValue_enc (pre post : List ℕ) (n : GNode) :
    setValue (pre ++ n.enc ++ post) pre.length n.code = (n, pre.length + n.enc.length) := by
  have key : ∀ i, i < n.enc.length → (pre ++ n.enc ++ post).getD (pre.length + i) 0 = n.enc.getD i 0 := fun i h => getD_mid h
  cases n with
  | un f a => have := key 0 (by simp [GNode.enc]); simp [setValue, GNode.code, GNode.enc] at *
  | bin f a b =>
    have h0 := key 0 (by simp [GNode.enc]); have h1 := key 1 (by simp [GNode.enc])
    simp only [GNode.enc, Nat.add_zero] at h0 h1
    simp only [setValue, GNode.code, GNode.enc, h0, h1]; rfl
  | dis a b =>
    have h0 := key 0 (by simp [GNode.enc]); have h1 := key 1 (by simp [GNode.enc])
    simp only [GNode.enc, Nat.add_zero] at h0 h1
    simp only [setValue, GNode.code, GNode.enc, Nat.add_sub_cancel, h0, h1]; rfl
  | comp f a b =>
    have h0 := key 0 (by simp [GNode.enc]); have h1 := key 1 (by simp [GNode.enc])
    simp only [GNode.enc, Nat.add_zero] at h0 h1
    simp only [setValue, GNode.code, GNode.enc, h0, h1]; rfl
  | cexp c l r t f =>
    have h0 := key 0 (by simp [GNode.enc]); have h1 := key 1 (by simp [GNode.enc])
    have h2 := key 2 (by simp [GNode.enc]); have h3 := key 3 (by simp [GNode.enc])
    simp only [GNode.enc, Nat.add_zero] at h0 h1 h2 h3
    simp only [setValue, GNode.code, GNode.enc, h0, h1, h2, h3]; rfl
  | print a b c d =>
    have h0 := key 0 (by simp [GNode.enc]); have h1 := key 1 (by simp [GNode.enc])
    have h2 := key 2 (by simp [GNode.enc]); have h3 := key 3 (by simp [GNode.enc])
    simp only [GNode.enc, Nat.add_zero] at h0 h1 h2 h3
    have e1 : pre.length + 2 - 1 = pre.length + 1 := by omega
    have e3 : pre.length + 2 + 1 = pre.length + 3 := by omega
    simp only [setValue, GNode.code, GNode.enc, Nat.add_sub_cancel, e1, e3, h0, h1, h2, h3]; rfl
  | sum args =>
    have h0 := key 0 (by simp [GNode.enc])
    simp only [GNode.enc, Nat.add_zero, List.getD_cons_zero] at h0
    have e : (List.range args.length).map (fun i => (pre ++ (GNode.sum args).enc ++ post).getD (pre.length + 1 + i) 0) = args := by
      refine range_map_getD _ _ fun i hi => ?_
      have := key (i + 1) (by simp [GNode.enc]; omega)
      rw [show pre.length + 1 + i = pre.length + (i + 1) by omega, this]; simp [GNode.enc]
    simp only [GNode.enc] at e
    simp only [setValue, GNode.code, GNode.enc, Nat.add_sub_cancel, h0, e, List.length_cons]
    congr 1; omega
  | atom name nres args =>
    have h0 := key 0 (by simp [GNode.enc]); have h1 := key 1 (by simp [GNode.enc]); have h2 := key 2 (by simp [GNode.enc])
    simp only [GNode.enc, Nat.add_zero, List.getD_cons_zero, List.getD_cons_succ] at h0 h1 h2
    have e : (List.range args.length).map (fun i => (pre ++ (GNode.atom name nres args).enc ++ post).getD (pre.length + 3 + i) 0) = args := by
      refine range_map_getD _ _ fun i hi => ?_
      have := key (i + 3) (by simp [GNode.enc]; omega)
      rw [show pre.length + 3 + i = pre.length + (i + 3) by omega, this]; simp [GNode.enc]
    simp only [GNode.enc] at e
    have e1 : pre.length + 3 - 1 = pre.length + 2 := by omega
    have e2 : pre.length + 3 - 2 = pre.length + 1 := by omega
    simp only [setValue, GNode.code, GNode.enc, Nat.add_sub_cancel, e1, e2, h0, h1, h2, e, List.length_cons]
    congr 1; omega
  | atom4 name cid nres args =>
    have h0 := key 0 (by simp [GNode.enc]); have h1 := key 1 (by simp [GNode.enc]); have h2 := key 2 (by simp [GNode.enc])
    have h3 := key 3 (by simp [GNode.enc])
    simp only [GNode.enc, Nat.add_zero, List.getD_cons_zero, List.getD_cons_succ] at h0 h1 h2 h3
    have e : (List.range args.length).map (fun i => (pre ++ (GNode.atom4 name cid nres args).enc ++ post).getD (pre.length + 4 + i) 0) = args := by
      refine range_map_getD _ _ fun i hi => ?_
      have := key (i + 4) (by simp [GNode.enc]; omega)
      rw [show pre.length + 4 + i = pre.length + (i + 4) by omega, this]; simp [GNode.enc]
    simp only [GNode.enc] at e
    have e1 : pre.length + 4 - 1 = pre.length + 3 := by omega
    have e2 : pre.length + 4 - 2 = pre.length + 2 := by omega
    have e3 : pre.length + 4 - 3 = pre.length + 1 := by omega
    simp only [setValue, GNode.code, GNode.enc, Nat.add_sub_cancel, e1, e2, e3, h0, h1, h2, h3, e, List.length_cons]
    congr 1; omega

/-- operator_arg of a list of operators -/
def encAll (l : List GNode) : List ℕ := (l.map GNode.enc).flatten

theorem nodesFrom_enc (l : List GNode) : ∀ (pre : List ℕ), nodesFrom (pre ++ encAll l) (l.map GNode.code) pre.length = l := by
  induction l with
  | nil => intro pre; rfl
  | cons n l ih =>
    intro pre
    have e : pre ++ encAll (n :: l) = pre ++ n.enc ++ encAll l := by simp [encAll]
    have h := setValue_enc pre (encAll l) n
    have := ih (pre ++ n.enc)
    rw [List.length_append] at this
    rw [List.map_cons, e, nodesFrom, h]
    simp only [this]

/-- the operators `l` were pushed -/
def Enc (g : CppGraph) (l : List GNode) : Prop := g.ops = l.map GNode.code ∧ g.args = encAll l

theorem Enc.nodes {g : CppGraph} {l : List GNode} (h : Enc g l) : g.nodes = l := by
  have := nodesFrom_enc l []
  unfold CppGraph.nodes; rw [h.1, h.2]; simpa using this

theorem Enc.push {g : CppGraph} {l : List GNode} (h : Enc g l) (n : GNode) : Enc (g.push n) (l ++ [n]) := by
  constructor
  · simp [CppGraph.push, h.1]
  · simp [CppGraph.push, h.2, encAll]

/-! ## Values -/

variable {fn : Txt → ℝ → ℝ}

theorem evalNodes_append (D : List Txt) (l l' : List GNode) : ∀ V, evalNodes fn D (l ++ l') V = evalNodes fn D l' (evalNodes fn D l V) := by
  induction l with
  | nil => intro V; rfl
  | cons n l ih => intro V; exact ih _

theorem evalNodes_length (D : List Txt) (l : List GNode) : ∀ V, V.length ≤ (evalNodes fn D l V).length := by
  induction l with
  | nil => intro V; exact le_refl _
  | cons n l ih => intro V; refine le_trans ?_ (ih _); simp

theorem evalNodes_prefix (D : List Txt) (l : List GNode) : ∀ V k, k < V.length → at' (evalNodes fn D l V) k = at' V k := by
  induction l with
  | nil => intro V k _; rfl
  | cons n l ih =>
    intro V k hk
    rw [evalNodes, ih _ _ (by rw [List.length_append]; omega), at'_append hk]

theorem results_length (D : List Txt) (V : ℕ → ℝ) {n : GNode} (h : n.isAtom = false) : (n.results fn D V).length = n.nres := by
  cases n <;> simp_all [GNode.results, GNode.nres, GNode.isAtom]

theorem evalNodes_len (D : List Txt) (l : List GNode) : ∀ V, (∀ n ∈ l, n.isAtom = false) →
    (evalNodes fn D l V).length = V.length + (l.map GNode.nres).sum := by
  induction l with
  | nil => intro V _; simp [evalNodes]
  | cons n l ih =>
    intro V h
    rw [evalNodes, ih _ fun m hm => h m (List.mem_cons_of_mem _ hm), List.length_append, results_length _ _ (h n List.mem_cons_self)]
    simp; omega

theorem NodesOk_append (D : List Txt) (l l' : List GNode) : ∀ k, NodesOk D (l ++ l') k ↔ NodesOk D l k ∧ NodesOk D l' (k + (l.map GNode.nres).sum) := by
  induction l with
  | nil => intro k; simp [NodesOk]
  | cons n l ih => intro k; simp only [List.cons_append, NodesOk, ih, List.map_cons, List.sum_cons, Nat.add_assoc, and_assoc]

theorem nameOk_append {D : List Txt} (E : List Txt) {n : GNode} (h : n.nameOk D) : n.nameOk (D ++ E) := by
  cases n <;> simp_all [GNode.nameOk]; omega

theorem NodesOk_names {D : List Txt} (E : List Txt) (l : List GNode) : ∀ k, NodesOk D l k → NodesOk (D ++ E) l k := by
  induction l with
  | nil => intro k _; trivial
  | cons n l ih => intro k h; exact ⟨h.1, nameOk_append E h.2.1, ih _ h.2.2⟩

theorem evalNodes_names {D : List Txt} (E : List Txt) (l : List GNode) : ∀ k V, NodesOk D l k → evalNodes fn (D ++ E) l V = evalNodes fn D l V := by
  induction l with
  | nil => intro k V _; rfl
  | cons n l ih =>
    intro k V h
    have e : n.results fn (D ++ E) (at' V) = n.results fn D (at' V) := by
      have := h.2.1
      cases n with
      | dis name a => simp only [GNode.results]; rw [List.getD_append _ _ _ _ this]
      | _ => rfl
    rw [evalNodes, evalNodes, e]
    exact ih _ _ h.2.2

theorem results_congr (D : List Txt) {V V' : ℕ → ℝ} {n : GNode} (h : ∀ a ∈ n.argNodes, V a = V' a) : n.results fn D V = n.results fn D V' := by
  cases n with
  | sum args => simp only [GNode.results, GNode.argNodes] at *; rw [sumOver_congr h]
  | _ => simp_all [GNode.results, GNode.argNodes]

theorem failed_congr {V V' : ℕ → ℝ} {n : GNode} (h : ∀ a ∈ n.argNodes, V a = V' a) : n.failed V = n.failed V' := by
  cases n <;> simp_all [GNode.failed, GNode.argNodes]

/-- A graph under construction: `l` are the operators and `V` the values of the nodes so far, `st` are the values of the
nodes that come before the operators -/
structure GI (fn : Txt → ℝ → ℝ) (st : List ℝ) (g : CppGraph) (l : List GNode) (V : List ℝ) : Prop where
  enc : Enc g l
  ok : NodesOk g.discreteNames l st.length
  val : evalNodes fn g.discreteNames l st = V
  noAtom : ∀ n ∈ l, n.isAtom = false
  names : g.discreteNames.Nodup

theorem GI.len {st V : List ℝ} {g : CppGraph} {l : List GNode} (h : GI fn st g l V) : V.length = st.length + (l.map GNode.nres).sum := by
  rw [← h.val, evalNodes_len _ _ _ h.noAtom]

theorem GI.push {st V : List ℝ} {g : CppGraph} {l : List GNode} (h : GI fn st g l V) (n : GNode) (ha : ∀ a ∈ n.argNodes, 1 ≤ a ∧ a < V.length)
    (hn : n.nameOk g.discreteNames) (hA : n.isAtom = false) : GI fn st (g.push n) (l ++ [n]) (V ++ n.results fn g.discreteNames (at' V)) where
  enc := h.enc.push n
  ok := by
    show NodesOk g.discreteNames _ _
    rw [NodesOk_append]
    refine ⟨h.ok, ?_, hn, trivial⟩
    rw [← h.len]; exact ha
  val := by
    show evalNodes fn g.discreteNames _ _ = _
    rw [evalNodes_append, h.val]; rfl
  noAtom m hm := by
    rcases List.mem_append.1 hm with h' | h'
    · exact h.noAtom m h'
    · rw [List.mem_singleton.1 h']; exact hA
  names := h.names

theorem discreteName_ok (g : CppGraph) (nm : Txt) : (∃ E, (g.discreteName nm).1 = { g with discreteNames := g.discreteNames ++ E } ∧
    (g.discreteNames.Nodup → (g.discreteNames ++ E).Nodup)) ∧
    (g.discreteName nm).2 < (g.discreteName nm).1.discreteNames.length ∧ (g.discreteName nm).1.discreteNames.getD (g.discreteName nm).2 [] = nm := by
  unfold CppGraph.discreteName
  dsimp only
  by_cases h : g.discreteNames.findIdx (fun s => decide (s = nm)) = g.discreteNames.length
  · rw [if_pos h]
    refine ⟨⟨[nm], rfl, fun hn => ?_⟩, ?_, ?_⟩
    · rw [List.findIdx_eq_length] at h
      rw [List.nodup_append]
      refine ⟨hn, by simp, fun a ha b hb e => ?_⟩
      have := h a ha
      simp only [List.mem_singleton] at hb
      subst hb; subst e; simp at this
    · simp [h]
    · simp [h]
  · rw [if_neg h]
    have hlt : g.discreteNames.findIdx (fun s => decide (s = nm)) < g.discreteNames.length :=
      lt_of_le_of_ne List.findIdx_le_length h
    refine ⟨⟨[], by simp, fun hn => by simpa using hn⟩, hlt, ?_⟩
    rw [List.getD_eq_getElem _ _ hlt]
    exact of_decide_eq_true (List.findIdx_getElem (w := hlt))

theorem GI.name {st V : List ℝ} {g : CppGraph} {l : List GNode} (h : GI fn st g l V) (nm : Txt) : GI fn st (g.discreteName nm).1 l V := by
  obtain ⟨⟨E, hE, hN⟩, _⟩ := discreteName_ok g nm
  rw [hE]
  exact ⟨h.enc, NodesOk_names E _ _ h.ok, by show evalNodes fn (g.discreteNames ++ E) l st = V; rw [evalNodes_names E _ _ _ h.ok, h.val], h.noAtom, hN h.names⟩

end CppAD.Graph
