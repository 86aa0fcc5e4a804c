import Verif.Csrc.Thm
import Verif.Graph.Example

/-! # C53: to_csrc for a recording, and what goes wrong -/

open scoped Classical

namespace CppAD.Csrc

open CppAD CppAD.Record CppAD.Optim CppAD.Graph

/-! ## Graphs without atomic functions -/

theorem nodeResults_eq (E : CEnv) (g : CppGraph) (val : ℕ → ℝ) {n : GNode} (h : n.isAtom = false) :
    nodeResults E g val n = n.results E.disc g.discreteNames val ∧ nodeFlag E g val n = 0 ∧ nodeCount E g val n = n.failed val := by
  cases n with
  | atom4 a b c d => exact absurd h (by simp [GNode.isAtom])
  | _ => exact ⟨rfl, rfl, rfl⟩

theorem evalAll_eq (E : CEnv) (g : CppGraph) (ns : List GNode) : ∀ (vals : List ℝ) (c : ℕ), (∀ n ∈ ns, n.isAtom = false) →
    NodesOk g.discreteNames ns vals.length →
    evalAll E g ns vals c = (evalNodes E.disc g.discreteNames ns vals, 0,
      c + (ns.map (GNode.failed (at' (evalNodes E.disc g.discreteNames ns vals)))).sum) := by
  induction ns with
  | nil => intro vals c _ _; rfl
  | cons n ns ih =>
    intro vals c h hN
    obtain ⟨h1, h2, h3⟩ := nodeResults_eq E g (at' vals) (h n List.mem_cons_self)
    have hl : (vals ++ n.results E.disc g.discreteNames (at' vals)).length = vals.length + n.nres := by
      rw [List.length_append, results_length _ _ (h n List.mem_cons_self)]
    simp only [evalAll, h1, h2, h3]
    rw [if_neg (by simp), ih _ _ (fun m hm => h m (List.mem_cons_of_mem _ hm)) (by rw [hl]; exact hN.2.2)]
    have hf : n.failed (at' (evalNodes E.disc g.discreteNames (n :: ns) vals)) = n.failed (at' vals) :=
      failed_congr fun a ha => evalNodes_prefix _ _ _ _ (hN.1 a ha).2
    rw [List.map_cons, List.sum_cons, hf]
    simp only [evalNodes, Prod.mk.injEq, true_and]
    omega

/-- for a graph without atomic functions the specification is the one of C31 -/
theorem evalGraph_eq (E : CEnv) (g : CppGraph) (w : g.WF) (d x : List ℝ) (hd : d.length = g.nDyn) (hx : x.length = g.nVar) :
    evalGraph E g d x = (g.eval E.disc d x, 0, g.failed E.disc d x) := by
  have hl : (g.start d x).length = 1 + g.nDyn + g.nVar + g.constants.length := by simp [CppGraph.start, hd, hx]; omega
  simp only [evalGraph]
  rw [evalAll_eq E g g.nodes _ 0 w.noAtom (by rw [hl]; exact w.nodes)]
  simp [CppGraph.eval, CppGraph.failed]

/-! ## Recordings -/

/-- the operators of dynamic parameters that to_csrc implements -/
def dynOk : DynOp → Prop
  | .un .neg _ => False
  | .cexp .. => False
  | _ => True

/-- The operators of variables that to_csrc implements correctly.  A cumulative summation must have at least one term
that is added besides its constant, and if it subtracts anything, at least two terms that are subtracted. -/
def opOk : VOp → Prop
  | .un .neg _ => False
  | .cexp .. => False
  | .csum _ av sv ad sd => 1 ≤ av.length + ad.length ∧ sv.length + sd.length ≠ 1
  | _ => True

/-- invariant: all the operators in the graph are implemented -/
def CI (s : ToSt) : Prop := ∃ l, Enc s.g l ∧ ∀ n ∈ l, nodeOk n

theorem CI.push {g : CppGraph} {l : List GNode} (h : Enc g l) (hl : ∀ n ∈ l, nodeOk n) {n : GNode} (hn : nodeOk n) :
    ∃ l, Enc (g.push n) l ∧ ∀ n ∈ l, nodeOk n := by
  refine ⟨_, h.push n, fun m hm => ?_⟩
  rcases List.mem_append.1 hm with h' | h'
  · exact hl m h'
  · rw [List.mem_singleton.1 h']; exact hn

theorem enc_name {g : CppGraph} {l : List GNode} (h : Enc g l) (nm : Txt) : Enc (g.discreteName nm).1 l := by
  obtain ⟨⟨E, hE, -⟩, -⟩ := discreteName_ok g nm
  rw [hE]; exact h

variable {names : ℕ → Txt} {T : OTape}

theorem toDyn_ci {k : ℕ} {s : ToSt} (h : CI s) (hop : dynOk (T.dyn.dynOps.getD k .ind)) : CI (toDyn names T k s) := by
  obtain ⟨l, h1, h2⟩ := h
  unfold toDyn
  dsimp only
  cases ho : T.dyn.dynOps.getD k .ind with
  | ind => exact ⟨l, h1, h2⟩
  | atom A sel j args => exact ⟨l, h1, h2⟩
  | un f a =>
    rw [ho] at hop
    refine CI.push h1 h2 ?_
    cases f <;> first | trivial | exact absurd hop id
  | bin f a b => exact CI.push h1 h2 trivial
  | dis j a => exact CI.push (enc_name h1 _) h2 trivial
  | cexp c a b d e => rw [ho] at hop; exact absurd hop id

theorem toVar_ci {i : ℕ} {s : ToSt} (h : CI s) (hop : opOk (T.op i)) : CI (toVar names T i s) := by
  obtain ⟨l, h1, h2⟩ := h
  unfold toVar
  cases ho : T.op i with
  | un f a =>
    rw [ho] at hop
    refine CI.push h1 h2 ?_
    cases f <;> first | trivial | exact absurd hop id
  | pv f a b => exact CI.push h1 h2 trivial
  | vp f a b => exact CI.push h1 h2 trivial
  | vv f a b => exact CI.push h1 h2 trivial
  | cmp c a b => exact CI.push h1 h2 trivial
  | dis j a => exact CI.push (enc_name h1 _) h2 trivial
  | cexp c a b d e => rw [ho] at hop; exact absurd hop id
  | csum c av sv ad sd =>
    rw [ho] at hop
    dsimp only
    have hs : nodeOk (.sum (s.p2n c :: (av.map (Function.update s.v2n i (s.prev + if (!sv.isEmpty || !sd.isEmpty) = true then 3 else 1)) ++
        ad.map s.p2n))) := by
      show 2 ≤ List.length _
      have := hop.1
      simp; omega
    obtain ⟨l', k1, k2⟩ := CI.push h1 h2 hs
    split_ifs with hh
    · rw [if_pos hh] at k1
      have hs' : nodeOk (.sum (sv.map (Function.update s.v2n i (s.prev + 3)) ++ sd.map s.p2n)) := by
        show 2 ≤ List.length _
        have h3 := hop.2
        have : sv.length + sd.length ≠ 0 := by
          intro h0
          obtain ⟨ha, hb⟩ := Nat.add_eq_zero_iff.1 h0
          rw [List.length_eq_zero_iff] at ha hb
          rw [ha, hb] at hh
          simp at hh
        simp; omega
      obtain ⟨l'', k3, k4⟩ := CI.push k1 k2 hs'
      exact CI.push (n := .bin .sub (s.prev + 1) (s.prev + 2)) k3 k4 trivial
    · rw [if_neg hh] at k1
      exact ⟨l', k1, k2⟩
  | _ => exact ⟨l, h1, h2⟩

theorem toInit_ci' (fname : Txt) (T : OTape) : CI (toInit fname T) ∧ (toInit fname T).g.name = fname := by
  unfold toInit
  refine forRange_inv (P := fun (s : ToSt) => CI s ∧ s.g.name = fname) ⟨⟨[], ⟨rfl, rfl⟩, by simp⟩, rfl⟩ ?_
  intro k s _ _ ih
  dsimp only
  split_ifs
  · exact ih
  · exact ⟨ih.1, ih.2⟩

theorem discreteName_name (g : CppGraph) (nm : Txt) : (g.discreteName nm).1.name = g.name := by
  obtain ⟨⟨E, hE, -⟩, -⟩ := discreteName_ok g nm
  rw [hE]

theorem toDyn_name {k : ℕ} {s : ToSt} : (toDyn names T k s).g.name = s.g.name := by
  unfold toDyn
  dsimp only
  split <;> first | rfl | exact discreteName_name _ _

theorem toVar_name {k : ℕ} {s : ToSt} : (toVar names T k s).g.name = s.g.name := by
  unfold toVar
  split <;> first | rfl | exact discreteName_name _ _ | (dsimp only; split_ifs <;> rfl)

theorem toGraph_ci (fname : Txt) (hv : ∀ i < T.ops.length, opOk (T.op i)) (hd : ∀ k < T.dyn.dynOps.length, dynOk (T.dyn.dynOps.getD k .ind)) :
    (∀ n ∈ (toGraph names fname T).nodes, nodeOk n) ∧ (toGraph names fname T).name = fname := by
  have h0 := toInit_ci' fname T
  have h1 := forRange_inv (lo := T.nInd) (hi := T.dyn.dynOps.length) (s := toInit fname T) (f := toDyn names T)
    (P := fun (s : ToSt) => CI s ∧ s.g.name = fname) h0 fun k s _ hk ih => ⟨toDyn_ci ih.1 (hd k hk), toDyn_name.trans ih.2⟩
  have h2 := forRange_inv (lo := 0) (hi := T.ops.length) (f := toVar names T)
    (P := fun (s : ToSt) => CI s ∧ s.g.name = fname) h1 fun k s _ hk ih => ⟨toVar_ci ih.1 (hv k hk), toVar_name.trans ih.2⟩
  obtain ⟨⟨l, h3, h4⟩, h5⟩ := h2
  refine ⟨?_, h5⟩
  have : (toGraph names fname T).nodes = l := h3.nodes
  rw [this]; exact h4

/-- **C53** (recordings) For every recording CppAD makes with operators that to_csrc implements correctly, the C function that
to_csrc writes computes the same as zero order forward mode: for all values of the independent dynamic parameters
and variables it returns zero, stores the function values in `y`, and adds the compare change count to `*compare_change`. -/
theorem toCsrc_values_partial (names : List Txt) (T : OTape) (w : TapeOk T) (hd : DiscOk names T) (fname : Txt) (hf : fname ≠ [])
    (hv : ∀ i < T.ops.length, opOk (T.op i)) (hp : ∀ k < T.dyn.dynOps.length, dynOk (T.dyn.dynOps.getD k .ind))
    (disc : ℕ → ℝ → ℝ) (E : CEnv) (hE : E.disc = discFn names disc) :
    ∃ f, toCsrc (fun k => names.getD k []) fname T = some f ∧
      ∀ (ind x : List ℝ) (junk : ℕ → ℝ) (y : ℕ → ℝ) (cc : ℕ), ind.length = T.nInd → x.length = T.n →
      ∃ y', f.call E (T.nInd + T.n) (at' (ind ++ x)) T.dep.length y cc = some (0, y', cc + compareChange disc T ind (at' x) junk) ∧
        (∀ i < T.dep.length, y' i = at' (T.eval disc true ind (at' x) junk) i) ∧ ∀ i, T.dep.length ≤ i → y' i = y i := by
  obtain ⟨h1, h2⟩ := toGraph_ci (names := fun k => names.getD k []) fname hv hp
  have w' := toGraph_values w hd disc fname (List.replicate T.nInd 0) (List.replicate T.n 0) (fun _ => 0) (by simp) (by simp)
  have hok : Ok (toGraph (fun k => names.getD k []) fname T) := ⟨by rw [h2]; exact hf, w'.2.2.1.nodes, w'.2.2.1.deps, h1⟩
  obtain ⟨f, g1, g2, -⟩ := csrc_values_partial E _ hok
  have hlen : (toGraph (fun k => names.getD k []) fname T).deps.length = T.dep.length := by simp [toGraph]
  refine ⟨f, g1, fun ind x junk y cc hi hx => ?_⟩
  obtain ⟨e1, e2, e3, e4, e5⟩ := toGraph_values w hd disc fname ind x junk hi hx
  have he := evalGraph_eq E _ e3 ind x (by rw [e1, hi]) (by rw [e2, hx])
  obtain ⟨y', k1, k2, k3⟩ := g2 ind x y cc (by rw [e1, hi]) (by rw [e2, hx]) (by rw [he])
  rw [he, hE, e4, e5] at k1
  rw [he, hE, e4, hlen] at k2
  rw [hlen] at k3
  rw [e1, e2, hlen] at k1
  exact ⟨y', k1, k2, k3⟩

end CppAD.Csrc
