import Verif.Graph.From3

/-! # C31: graphs and recorded functions

`toGraph_values`, `fromGraph_values_partial` and `roundTrip_values` are the properties of to_graph and from_graph. -/

open scoped Classical

namespace CppAD.Graph

open CppAD CppAD.Record CppAD.Optim

/-- The discrete function with a certain name -/
noncomputable def discFn (names : List Txt) (disc : ℕ → ℝ → ℝ) : Txt → ℝ → ℝ := fun nm => disc (names.findIdx fun s => decide (s = nm))

theorem discFn_ok {names : List Txt} (h : names.Nodup) (disc : ℕ → ℝ → ℝ) : ∀ k < names.length, discFn names disc (names.getD k []) = disc k := by
  intro k hk
  unfold discFn
  congr 1
  have hne : names.findIdx (fun s => decide (s = names.getD k [])) ≠ names.length := by
    have := List.findIdx_lt_length_of_exists (p := fun s => decide (s = names.getD k [])) (xs := names) ⟨names.getD k [], getD_mem_or [] hk, by simp⟩
    omega
  obtain ⟨h1, h2⟩ := findIdx_name names _ hne
  generalize names.findIdx (fun s => decide (s = names.getD k [])) = j at *
  rw [List.getD_eq_getElem _ _ h1, List.getD_eq_getElem _ _ hk] at h2
  exact (List.Nodup.getElem_inj_iff h).1 h2

/-! ## Names in the graph that to_graph creates -/

theorem discreteName_names (g : CppGraph) (nm : Txt) : ∀ m ∈ (g.discreteName nm).1.discreteNames, m ∈ g.discreteNames ∨ m = nm := by
  intro m hm
  unfold CppGraph.discreteName at hm
  dsimp only at hm
  split_ifs at hm with h
  · simpa using hm
  · exact Or.inl hm

variable {names : List Txt} {T : OTape}

theorem toDyn_names (hd : DiscOk names T) {k : ℕ} (hk : k < T.dyn.dynOps.length) {s : ToSt} (h : ∀ m ∈ s.g.discreteNames, m ∈ names) :
    ∀ m ∈ (toDyn (fun k => names.getD k []) T k s).g.discreteNames, m ∈ names := by
  intro m hm
  unfold toDyn at hm
  dsimp only at hm
  cases hop : T.dyn.dynOps.getD k .ind with
  | dis j a =>
    rw [hop] at hm
    rcases discreteName_names _ _ m hm with h' | rfl
    · exact h m h'
    · exact getD_mem_or [] (hd.dyn _ (getD_mem_or .ind hk) j (by rw [hop]; rfl))
  | _ => rw [hop] at hm; exact h m hm

theorem toVar_names (hd : DiscOk names T) {i : ℕ} (hi : i < T.ops.length) {s : ToSt} (h : ∀ m ∈ s.g.discreteNames, m ∈ names) :
    ∀ m ∈ (toVar (fun k => names.getD k []) T i s).g.discreteNames, m ∈ names := by
  intro m hm
  unfold toVar at hm
  cases hop : T.op i with
  | dis j a =>
    rw [hop] at hm
    rcases discreteName_names _ _ m hm with h' | rfl
    · exact h m h'
    · exact getD_mem_or [] (hd.var i hi j (by rw [hop]; rfl))
  | csum _ _ sv _ sd =>
    rw [hop] at hm
    dsimp only at hm
    split_ifs at hm <;> exact h m hm
  | _ => rw [hop] at hm; exact h m hm

theorem toGraph_names (w : TapeOk T) (hd : DiscOk names T) (fname : Txt) :
    ∀ m ∈ (toGraph (fun k => names.getD k []) fname T).discreteNames, m ∈ names := by
  have h0 : ∀ m ∈ (toInit fname T).g.discreteNames, m ∈ names := by
    unfold toInit
    refine forRange_ind (by have := w.par0.1; omega) (P := fun _ (s : ToSt) => ∀ m ∈ s.g.discreteNames, m ∈ names) ?_ ?_
    · intro m hm; simp at hm
    · intro k s _ _ ih
      dsimp only
      split_ifs
      · exact ih
      · exact ih
  have h1 := forRange_ind w.nind.1 (s := toInit fname T) (f := toDyn (fun k => names.getD k []) T)
    (P := fun _ (s : ToSt) => ∀ m ∈ s.g.discreteNames, m ∈ names) h0 fun k s _ hk ih => toDyn_names hd hk ih
  exact forRange_ind (Nat.zero_le _) (f := toVar (fun k => names.getD k []) T)
    (P := fun _ (s : ToSt) => ∀ m ∈ s.g.discreteNames, m ∈ names) h1 fun k s _ hk ih => toVar_names hd hk ih

/-! ## The properties -/

/-- **C31** (to_graph).  For every recording that CppAD makes, without the operators that to_graph does not support, the
graph has the same independent dynamic parameters and variables and for all their values the dependent nodes of the graph
have the values that the recorded function has; the number of comparisons that do not have the result during recording is
`compare_change_number`. -/
theorem toGraph_values (w : TapeOk T) (hd : DiscOk names T) (disc : ℕ → ℝ → ℝ) (fname : Txt) (ind x : List ℝ) (junk : ℕ → ℝ)
    (hi : ind.length = T.nInd) (hx : x.length = T.n) :
    (toGraph (fun k => names.getD k []) fname T).nDyn = T.nInd ∧ (toGraph (fun k => names.getD k []) fname T).nVar = T.n ∧
    (toGraph (fun k => names.getD k []) fname T).WF ∧
    (toGraph (fun k => names.getD k []) fname T).eval (discFn names disc) ind x = T.eval disc true ind (at' x) junk ∧
    (toGraph (fun k => names.getD k []) fname T).failed (discFn names disc) ind x = compareChange disc T ind (at' x) junk := by
  have hn : NameOk (discFn names disc) disc (fun k => names.getD k []) T :=
    ⟨fun i hi k hk => discFn_ok hd.nodup disc k (hd.var i hi k hk), fun op hop k hk => discFn_ok hd.nodup disc k (hd.dyn op hop k hk)⟩
  obtain ⟨h1, h2, h3, h4, h5⟩ := toGraph_ok (junk := junk) w hn hi hx fname true
  exact ⟨h3, h4, h5, h1, h2⟩

/-- **C31** (from_graph, partial: graphs with atomic functions are not included, and comparisons are preserved only when
no operand is a constant, see `fromGraph_compare_wrong`).  For every well formed graph whose discrete functions are known,
from_graph creates a function; for all values of its independent dynamic parameters and variables, it has the values of the
graph.  `dyn2var` and `var2dyn` are any vectors with the right sizes. -/
theorem fromGraph_values_partial (c : FCfg) (g : CppGraph) (d2v v2d : List Bool) (w : g.WF) (hd : d2v.length = g.nDyn) (hv : v2d.length = g.nVar)
    (hn : c.names.Nodup) (hk : ∀ nm ∈ g.discreteNames, nm ∈ c.names) :
    ∃ T, fromGraph c g d2v v2d = some T ∧ TapeOk T ∧ ∀ d x : List ℝ, d.length = g.nDyn → x.length = g.nVar →
      T.nInd = (newDyn d2v v2d d x).length ∧ T.n = (newVar d2v v2d d x).length ∧
      ∀ junk : ℕ → ℝ,
        T.eval c.disc true (newDyn d2v v2d d x) (at' (newVar d2v v2d d x)) junk = g.eval (discFn c.names c.disc) d x ∧
        (g.NoConCmp → compareChange c.disc T (newDyn d2v v2d d x) (at' (newVar d2v v2d d x)) junk = g.failed (discFn c.names c.disc) d x) := by
  obtain ⟨T, hT⟩ := fromGraph_some (c := c) (d2v := d2v) (v2d := v2d) w hn hk
  obtain ⟨h1, h2⟩ := fromGraph_ok (fn := discFn c.names c.disc) w hd hv (discFn_ok hn c.disc) hT
  refine ⟨T, hT, h1, fun d x hdl hxl => ?_⟩
  obtain ⟨h3, h4, h5⟩ := h2 d x hdl hxl
  exact ⟨h3, h4, fun junk => h5 true junk⟩

theorem pick_false (n : ℕ) (l : List ℝ) : pick (List.replicate n false) l = [] := by
  unfold pick
  rw [List.filter_eq_nil_iff.2, List.map_nil]
  intro q hq
  have := (List.of_mem_zip hq).1
  simp at this
  simp [this]

theorem pick_true (l : List ℝ) : pick (List.replicate l.length true) l = l := by
  unfold pick
  rw [List.filter_eq_self.2]
  · exact List.map_snd_zip (by simp)
  · intro q hq
    have := (List.of_mem_zip hq).1
    simp at this
    simp [this]

/-- **C31** (round trip).  from_graph applied to the graph that to_graph creates gives a function with the values of the original
function, for all values of the independent dynamic parameters and variables. -/
theorem roundTrip_values (c : FCfg) (w : TapeOk T) (hd : DiscOk c.names T) (fname : Txt) :
    ∃ T', fromGraph' c (toGraph (fun k => c.names.getD k []) fname T) = some T' ∧ TapeOk T' ∧ T'.nInd = T.nInd ∧ T'.n = T.n ∧
      ∀ (ind x : List ℝ) (junk junk' : ℕ → ℝ), ind.length = T.nInd → x.length = T.n →
        T'.eval c.disc true ind (at' x) junk' = T.eval c.disc true ind (at' x) junk ∧
        ((toGraph (fun k => c.names.getD k []) fname T).NoConCmp →
          compareChange c.disc T' ind (at' x) junk' = compareChange c.disc T ind (at' x) junk) := by
  set g := toGraph (fun k => c.names.getD k []) fname T with hg
  have H := fun (ind x : List ℝ) (junk : ℕ → ℝ) => toGraph_values w hd c.disc fname ind x junk
  obtain ⟨g1, g2, g3, -⟩ := H (List.replicate T.nInd 0) (List.replicate T.n 0) (fun _ => 0) (by simp) (by simp)
  obtain ⟨T', hT, h1, h2⟩ := fromGraph_values_partial c g (List.replicate g.nDyn false) (List.replicate g.nVar false) g3 (by simp) (by simp)
    hd.nodup (toGraph_names w hd fname)
  have key : ∀ ind x : List ℝ, ind.length = g.nDyn → x.length = g.nVar →
      newDyn (List.replicate g.nDyn false) (List.replicate g.nVar false) ind x = ind ∧
      newVar (List.replicate g.nDyn false) (List.replicate g.nVar false) ind x = x := by
    intro ind x hi hx
    unfold newDyn newVar
    rw [pick_false, pick_false, List.map_replicate, List.map_replicate, ← hi, ← hx]
    simp [pick_true]
  refine ⟨T', hT, h1, ?_, ?_, fun ind x junk junk' hi hx => ?_⟩
  · obtain ⟨k1, -⟩ := h2 (List.replicate g.nDyn 0) (List.replicate g.nVar 0) (by simp) (by simp)
    rw [k1, (key _ _ (by simp) (by simp)).1, List.length_replicate]; exact g1
  · obtain ⟨-, k1, -⟩ := h2 (List.replicate g.nDyn 0) (List.replicate g.nVar 0) (by simp) (by simp)
    rw [k1, (key _ _ (by simp) (by simp)).2, List.length_replicate]; exact g2
  · obtain ⟨-, -, k3⟩ := h2 ind x (by rw [hi]; exact g1.symm) (by rw [hx]; exact g2.symm)
    obtain ⟨e1, e2⟩ := key ind x (by rw [hi]; exact g1.symm) (by rw [hx]; exact g2.symm)
    obtain ⟨-, -, -, k4, k5⟩ := H ind x junk hi hx
    rw [e1, e2] at k3
    exact ⟨(k3 junk').1.trans k4, fun hc => ((k3 junk').2 hc).trans k5⟩

end CppAD.Graph
