import Verif.Graph.JsonThm
import Verif.Graph.Example

/-! # C31: the JSON representation of a graph and of a function -/

open scoped Classical

namespace CppAD.Graph

open CppAD CppAD.Record CppAD.Optim

/-! ## What depends only on the use of names -/

theorem use_results {fn : Txt → ℝ → ℝ} {g g' : CppGraph} {n n' : GNode} (h : n.use g = n'.use g') (val : ℕ → ℝ) :
    n.results fn g.discreteNames val = n'.results fn g'.discreteNames val := by
  simp only [GNode.use, GUse.mk.injEq] at h
  obtain ⟨hc, hs, -, -, ha⟩ := h
  cases n <;> cases n' <;> simp_all [GNode.code, GNode.strs, GNode.argNodes, GNode.results]

theorem use_failed {g g' : CppGraph} {n n' : GNode} (h : n.use g = n'.use g') (val : ℕ → ℝ) : n.failed val = n'.failed val := by
  simp only [GNode.use, GUse.mk.injEq] at h
  obtain ⟨hc, hs, -, -, ha⟩ := h
  cases n <;> cases n' <;> simp_all [GNode.code, GNode.strs, GNode.argNodes, GNode.failed]

theorem use_cmpOk {g g' : CppGraph} {n n' : GNode} (h : n.use g = n'.use g') (con : ℕ → Bool) : n.cmpOk con ↔ n'.cmpOk con := by
  simp only [GNode.use, GUse.mk.injEq] at h
  obtain ⟨hc, hs, -, -, ha⟩ := h
  cases n <;> cases n' <;> simp_all [GNode.code, GNode.strs, GNode.argNodes, GNode.cmpOk]

theorem use_isAtom {g g' : CppGraph} {n n' : GNode} (h : n.use g = n'.use g') : n.isAtom = n'.isAtom := by
  have hc := congrArg GUse.code h
  simp only [GNode.use] at hc
  cases n <;> cases n' <;> simp_all [GNode.code, GNode.isAtom]

theorem use_nres {g g' : CppGraph} {n n' : GNode} (h : n.use g = n'.use g') : n.nres = n'.nres := congrArg GUse.nres h

theorem use_args {g g' : CppGraph} {n n' : GNode} (h : n.use g = n'.use g') : n.argNodes = n'.argNodes := congrArg GUse.args h

theorem use_write {g g' : CppGraph} {n n' : GNode} (h : n.use g = n'.use g') (k : ℕ) : writeUsage g k n = writeUsage g' k n' := by
  simp only [GNode.use, GUse.mk.injEq] at h
  obtain ⟨hc, hs, hi, hr, ha⟩ := h
  cases n <;> cases n' <;> simp_all [GNode.code, GNode.strs, GNode.argNodes, GNode.callId, GNode.nres] <;> delta writeUsage <;>
    simp_all [GNode.argNodes]

/-- lists of operators with the same uses -/
def SameUses (g g' : CppGraph) (l l' : List GNode) : Prop := List.Forall₂ (fun n n' => n.use g = n'.use g') l l'

theorem sameUses_of_map {g g' : CppGraph} : ∀ {l l' : List GNode}, l.map (GNode.use g) = l'.map (GNode.use g') → SameUses g g' l l'
  | [], [], _ => .nil
  | [], _ :: _, h => by simp at h
  | _ :: _, [], h => by simp at h
  | n :: l, n' :: l', h => by
    simp only [List.map_cons, List.cons.injEq] at h
    exact .cons h.1 (sameUses_of_map h.2)

theorem evalNodes_uses {fn : Txt → ℝ → ℝ} {g g' : CppGraph} {l l' : List GNode} (h : SameUses g g' l l') :
    ∀ V, evalNodes fn g.discreteNames l V = evalNodes fn g'.discreteNames l' V := by
  induction h with
  | nil => intro V; rfl
  | cons hn _ ih => intro V; simp only [evalNodes, use_results hn, ih]

theorem NodesOk_uses {g g' : CppGraph} {l l' : List GNode} (h : SameUses g g' l l') (hin : ∀ n ∈ l', NamesIn g' n) :
    ∀ k, NodesOk g.discreteNames l k → NodesOk g'.discreteNames l' k := by
  induction h with
  | nil => intro k _; trivial
  | @cons n n' l l' hn _ ih =>
    intro k hk
    refine ⟨?_, ?_, ?_⟩
    · rw [← use_args hn]; exact hk.1
    · have := hin n' (by simp)
      cases n' <;> first | trivial | exact this
    · rw [← use_nres hn]
      exact ih (fun m hm => hin m (by simp [hm])) _ hk.2.2

theorem noConCmp_uses {g g' : CppGraph} {l l' : List GNode} (h : SameUses g g' l l') : ∀ con, noConCmp l con ↔ noConCmp l' con := by
  induction h with
  | nil => intro V; rfl
  | cons hn _ ih => intro V; simp only [noConCmp, use_cmpOk hn, use_nres hn, use_args hn, ih]

theorem nresSum_uses {g g' : CppGraph} {l l' : List GNode} (h : SameUses g g' l l') : l.map GNode.nres = l'.map GNode.nres := by
  induction h with
  | nil => rfl
  | cons hn _ ih => simp only [List.map_cons, use_nres hn, ih]

theorem isAtom_uses {g g' : CppGraph} {l l' : List GNode} (h : SameUses g g' l l') : l.map GNode.isAtom = l'.map GNode.isAtom := by
  induction h with
  | nil => rfl
  | cons hn _ ih => simp only [List.map_cons, use_isAtom hn, ih]

theorem failed_uses {g g' : CppGraph} {l l' : List GNode} (h : SameUses g g' l l') (val : ℕ → ℝ) : l.map (GNode.failed val) = l'.map (GNode.failed val) := by
  induction h with
  | nil => rfl
  | cons hn _ ih => simp only [List.map_cons, use_failed hn, ih]

theorem write_uses {g g' : CppGraph} {l l' : List GNode} (h : SameUses g g' l l') (k : GCode → ℕ) :
    l.map (fun n => writeUsage g (k n.code) n) = l'.map fun n => writeUsage g' (k n.code) n := by
  induction h with
  | nil => rfl
  | cons hn _ ih =>
    have hc := congrArg GUse.code hn
    simp only [GNode.use] at hc
    simp only [List.map_cons, ih, hc, use_write hn]

/-! ## The properties -/

/-- **C31** (JSON, graphs).  For every graph that the JSON format can represent (see `CppGraph.JsonOk`: no quote in names,
numbers in the range of int, constants that are finite, atomic functions that have arguments, no atom4), the parser accepts the text of the writer and
the graph it makes has the same function name, independent dynamic parameters and variables, dependent nodes, operators, arguments, and names of
functions; its constants are the ones that the text of the constants represents. -/
theorem json_graph (J : JCfg) (g : CppGraph) (h : g.JsonOk J) :
    ∃ g', parseJson J (writeJson J g) = some g' ∧ g'.name = g.name ∧ g'.nDyn = g.nDyn ∧ g'.nVar = g.nVar ∧ g'.deps = g.deps ∧
      g'.constants = (g.constants.map fun v => J.atof (J.fmt v)) ∧ g'.nodes.map (GNode.use g') = g.nodes.map (GNode.use g) := by
  obtain ⟨g', h1, h2⟩ := parse_run J g h
  exact ⟨g', h1, h2.name, h2.nDyn, h2.nVar, h2.deps, h2.constants, h2.uses⟩

theorem JsonRead.values {J : JCfg} {g g' : CppGraph} (r : JsonRead J g g') (hv : ∀ v ∈ g.constants, J.atof (J.fmt v) = v)
    (fn : Txt → ℝ → ℝ) (d x : List ℝ) : g'.eval fn d x = g.eval fn d x ∧ g'.failed fn d x = g.failed fn d x := by
  have hc : g'.constants = g.constants := by
    rw [r.constants]
    conv_rhs => rw [← List.map_id g.constants]
    exact List.map_congr_left hv
  have hs := sameUses_of_map r.uses
  have he : ∀ V, evalNodes fn g'.discreteNames g'.nodes V = evalNodes fn g.discreteNames g.nodes V := evalNodes_uses hs
  have h0 : g'.start d x = g.start d x := by simp only [CppGraph.start, hc]
  constructor
  · simp only [CppGraph.eval, he, h0, r.deps]
  · simp only [CppGraph.failed, he, h0, failed_uses hs]

theorem JsonRead.wf {J : JCfg} {g g' : CppGraph} (r : JsonRead J g g') (w : g.WF) : g'.WF ∧ (g'.NoConCmp ↔ g.NoConCmp) := by
  have hs := sameUses_of_map r.uses.symm
  have hl : g'.constants.length = g.constants.length := by rw [r.constants, List.length_map]
  refine ⟨⟨?_, ?_, ?_, r.nodup.1⟩, ?_⟩
  · rw [r.nDyn, r.nVar, hl]
    exact NodesOk_uses hs r.range _ w.nodes
  · intro d hd
    have := w.deps d (by rw [← r.deps]; exact hd)
    simp only [CppGraph.numNodes, r.nDyn, r.nVar, hl, ← nresSum_uses hs] at this ⊢
    exact this
  · intro n hn
    have : n.isAtom ∈ g.nodes.map GNode.isAtom := by rw [isAtom_uses hs]; exact List.mem_map_of_mem hn
    obtain ⟨m, hm, he⟩ := List.mem_map.mp this
    rw [← he]; exact w.noAtom m hm
  · simp only [CppGraph.NoConCmp, r.nDyn, r.nVar, hl]
    exact (noConCmp_uses hs _).symm

/-- **C31** (JSON, values).  If the text of each constant represents its value, the graph that the parser makes defines the same
function, for all discrete functions and all values of the independent dynamic parameters and variables, and the same comparisons fail. -/
theorem json_values (J : JCfg) (g : CppGraph) (h : g.JsonOk J) (hv : ∀ v ∈ g.constants, J.atof (J.fmt v) = v) :
    ∃ g', parseJson J (writeJson J g) = some g' ∧ g'.nDyn = g.nDyn ∧ g'.nVar = g.nVar ∧
      ∀ (fn : Txt → ℝ → ℝ) (d x : List ℝ), g'.eval fn d x = g.eval fn d x ∧ g'.failed fn d x = g.failed fn d x := by
  obtain ⟨g', h1, h2⟩ := parse_run J g h
  exact ⟨g', h1, h2.nDyn, h2.nVar, h2.values hv⟩

/-- **C31** (JSON, canonical text).  Writing the graph that the parser made from the text of a graph gives the same text, and so
the parser gives the same graph again; the text of a constant does not change when it is read and written. -/
theorem json_text (J : JCfg) (g : CppGraph) (h : g.JsonOk J) (hv : ∀ v ∈ g.constants, J.fmt (J.atof (J.fmt v)) = J.fmt v) :
    ∃ g', parseJson J (writeJson J g) = some g' ∧ writeJson J g' = writeJson J g ∧ parseJson J (writeJson J g') = some g' := by
  obtain ⟨g', h1, r⟩ := parse_run J g h
  have hf : g'.constants.map J.fmt = g.constants.map J.fmt := by
    rw [r.constants, List.map_map]
    exact List.map_congr_left hv
  have hl : g'.constants.length = g.constants.length := by rw [r.constants, List.length_map]
  have hw := write_uses (sameUses_of_map r.uses) (graphCode g.ops)
  have e : writeJson J g' = writeJson J g := by
    delta writeJson writeRaw
    simp only [r.name, r.nDyn, r.nVar, r.deps, r.ops, hf, hl, hw]
  exact ⟨g', h1, e, by rw [e, h1]⟩

/-- ADFun::to_json, cppad/core/graph/to_json.hpp:66-81 -/
noncomputable def toJson (J : JCfg) (names : ℕ → Txt) (fname : Txt) (T : OTape) : Txt := writeJson J (toGraph names fname T)

/-- ADFun::from_json, cppad/core/graph/from_json.hpp:52-69 -/
noncomputable def fromJson (J : JCfg) (c : FCfg) (json : Txt) : Option OTape := (parseJson J json).bind (fromGraph' c)

/-- **C31** (JSON, functions).  from_json applied to the text that to_json makes gives a function with the values of the original
function, for all values of the independent dynamic parameters and variables.  The recording is any recording that CppAD makes without
the operators that to_graph does not support; the number of nodes and the sizes of vectors are in the range of int, the function names have no
quotes, and the text of each constant represents its value. -/
theorem json_function (J : JCfg) (c : FCfg) {T : OTape} (w : TapeOk T) (hd : DiscOk c.names T) (fname : Txt)
    (hj : (toGraph (fun k => c.names.getD k []) fname T).JsonOk J)
    (hv : ∀ v ∈ (toGraph (fun k => c.names.getD k []) fname T).constants, J.atof (J.fmt v) = v) :
    ∃ T', fromJson J c (toJson J (fun k => c.names.getD k []) fname T) = some T' ∧ TapeOk T' ∧ T'.nInd = T.nInd ∧ T'.n = T.n ∧
      ∀ (ind x : List ℝ) (junk junk' : ℕ → ℝ), ind.length = T.nInd → x.length = T.n →
        T'.eval c.disc true ind (at' x) junk' = T.eval c.disc true ind (at' x) junk ∧
        ((toGraph (fun k => c.names.getD k []) fname T).NoConCmp →
          compareChange c.disc T' ind (at' x) junk' = compareChange c.disc T ind (at' x) junk) := by
  have H := fun (ind x : List ℝ) (junk : ℕ → ℝ) => toGraph_values w hd c.disc fname ind x junk
  set g := toGraph (fun k => c.names.getD k []) fname T with hg
  obtain ⟨g1, g2, g3, -⟩ := H (List.replicate T.nInd 0) (List.replicate T.n 0) (fun _ => 0) (by simp) (by simp)
  obtain ⟨g', hp, r⟩ := parse_run J g hj
  obtain ⟨w', hcc⟩ := r.wf g3
  have hnames : ∀ nm ∈ g'.discreteNames, nm ∈ c.names := by
    intro m hm
    obtain ⟨n, hn, hc, hs⟩ := r.disc m hm
    have hin : n.nameOk g.discreteNames := by
      have : ∀ (l : List GNode) (k : ℕ), NodesOk g.discreteNames l k → ∀ n ∈ l, n.nameOk g.discreteNames := by
        intro l
        induction l with
        | nil => intro k _ n hn; simp at hn
        | cons a l ih =>
          intro k hk n hn
          rcases List.mem_cons.mp hn with rfl | hn
          · exact hk.2.1
          · exact ih _ hk.2.2 n hn
      exact this _ _ g3.nodes n hn
    cases n with
    | dis name a =>
      simp only [GNode.strs, List.mem_singleton] at hs
      rw [hs]
      exact toGraph_names w hd fname _ (getD_mem_or [] hin)
    | _ => simp [GNode.code] at hc
  obtain ⟨T', hT, h1, h2⟩ := fromGraph_values_partial c g' (List.replicate g'.nDyn false) (List.replicate g'.nVar false) w' (by simp) (by simp)
    hd.nodup hnames
  have key : ∀ ind x : List ℝ, ind.length = g'.nDyn → x.length = g'.nVar →
      newDyn (List.replicate g'.nDyn false) (List.replicate g'.nVar false) ind x = ind ∧
      newVar (List.replicate g'.nDyn false) (List.replicate g'.nVar false) ind x = x := by
    intro ind x hi hx
    unfold newDyn newVar
    rw [pick_false, pick_false, List.map_replicate, List.map_replicate, ← hi, ← hx]
    simp [pick_true]
  have n1 : g'.nDyn = T.nInd := r.nDyn.trans g1
  have n2 : g'.nVar = T.n := r.nVar.trans g2
  refine ⟨T', ?_, h1, ?_, ?_, fun ind x junk junk' hi hx => ?_⟩
  · unfold fromJson toJson
    rw [hp]
    exact hT
  · obtain ⟨k1, -⟩ := h2 (List.replicate g'.nDyn 0) (List.replicate g'.nVar 0) (by simp) (by simp)
    rw [k1, (key _ _ (by simp) (by simp)).1, List.length_replicate, n1]
  · obtain ⟨-, k1, -⟩ := h2 (List.replicate g'.nDyn 0) (List.replicate g'.nVar 0) (by simp) (by simp)
    rw [k1, (key _ _ (by simp) (by simp)).2, List.length_replicate, n2]
  · obtain ⟨-, -, k3⟩ := h2 ind x (by rw [hi, n1]) (by rw [hx, n2])
    obtain ⟨e1, e2⟩ := key ind x (by rw [hi, n1]) (by rw [hx, n2])
    obtain ⟨-, -, -, k4, k5⟩ := H ind x junk hi hx
    obtain ⟨v1, v2⟩ := r.values hv (discFn c.names c.disc) ind x
    rw [e1, e2] at k3
    exact ⟨((k3 junk').1.trans v1).trans k4, fun hc => (((k3 junk').2 (hcc.2 hc)).trans v2).trans k5⟩

/-! ## Examples -/

/-- a graph with strings, an atomic function, a sum and a comparison -/
def jsonGraph : CppGraph :=
  { name := "f".toList, nDyn := 1, nVar := 2, discreteNames := ["step".toList], atomicNames := ["g".toList, "h".toList], printText := ["x = ".toList, "\n".toList],
    constants := [], ops := [.bin .add, .dis, .atom, .print, .comp .lt, .sum, .cexp .le],
    args := [1, 2, 0, 4, 1, 2, 3, 1, 2, 5, 0, 1, 1, 2, 2, 3, 3, 4, 5, 6, 1, 2, 3, 8], deps := [9, 7] }

theorem jsonGraph_nodes : jsonGraph.nodes =
    [.bin .add 1 2, .dis 0 4, .atom 1 2 [1, 2, 5], .print 0 1 1 2, .comp .lt 2 3, .sum [4, 5, 6], .cexp .le 1 2 3 8] := rfl

theorem jsonGraph_ok (J : JCfg) : jsonGraph.JsonOk J := by
  refine ⟨clean_lit (by decide), by decide, by decide, by decide, by simp [jsonGraph], by decide, ?_, by decide, by simp [jsonGraph]⟩
  rw [jsonGraph_nodes]
  have c1 : Clean "step".toList := clean_lit (by decide)
  have c2 : Clean "h".toList := clean_lit (by decide)
  have c3 : Clean "x = ".toList := clean_lit (by decide)
  have c4 : Clean "\n".toList := clean_lit (by decide)
  intro n hn
  simp only [List.mem_cons, List.not_mem_nil, or_false] at hn
  rcases hn with rfl | rfl | rfl | rfl | rfl | rfl | rfl <;>
    refine ⟨by decide, ?_, by decide, by decide, by decide, by decide⟩ <;> intro s hs <;>
    simp only [GNode.strs, jsonGraph, List.getD_cons_zero, List.getD_cons_succ, List.mem_cons, List.not_mem_nil, or_false] at hs
  · rw [hs]; exact c1
  · rw [hs]; exact c2
  · rcases hs with rfl | rfl
    · exact c3
    · exact c4

/-- `json_graph`, `json_values` and `json_text` apply to the example -/
example (J : JCfg) : ∃ g', parseJson J (writeJson J jsonGraph) = some g' ∧ writeJson J g' = writeJson J jsonGraph := by
  obtain ⟨g', h1, h2, -⟩ := json_text J jsonGraph (jsonGraph_ok J) (by simp [jsonGraph])
  exact ⟨g', h1, h2⟩

theorem exT_graph : toGraph (fun k => exNames.getD k []) [] exT = ⟨[], 1, 2, exNames, [], [], [2],
    [.bin .mul, .bin .add, .dis, .bin .mul, .comp .lt, .sum, .sum, .bin .sub, .cexp .le],
    [1, 4, 5, 2, 0, 3, 6, 7, 8, 1, 3, 4, 8, 1, 1, 6, 9, 10, 2, 4, 11, 8], [11, 12]⟩ := by
  have d : dyn2par [false, true, false, true] = [1, 3] := rfl
  simp [toGraph, toInit, exT, forRange, List.range', toDyn, toVar, d, CppGraph.push, GNode.code, GNode.enc, ToSt.next, ToSt.arg, OTape.op,
    CppGraph.discreteName, cexpNode, Function.update, at', exNames]

/-- `json_function` applies to the recording of `toGraph_values`, when the text of the constant 2 is "2" -/
example (c : FCfg) (hc : c.names = exNames) (big : Txt → ℕ) :
    ∃ T', fromJson ⟨fun _ => ['2'], fun _ => 2, big⟩ c (toJson ⟨fun _ => ['2'], fun _ => 2, big⟩ (fun k => c.names.getD k []) [] exT) = some T' ∧ T'.n = 2 := by
  have hj : (toGraph (fun k => c.names.getD k []) [] exT).JsonOk ⟨fun _ => ['2'], fun _ => 2, big⟩ := by
    rw [hc, exT_graph]
    refine ⟨by intro c hc; simp at hc, by decide, by decide, by simp, by simp [isFlt], by decide, ?_, by decide, by decide⟩
    have c1 : Clean "floor".toList := clean_lit (by decide)
    intro n hn
    simp only [CppGraph.nodes, nodesFrom, setValue, List.mem_cons, List.not_mem_nil, or_false] at hn
    rcases hn with rfl | rfl | rfl | rfl | rfl | rfl | rfl | rfl | rfl <;>
      refine ⟨by decide, ?_, by decide, by decide, by decide, by decide⟩ <;> intro s hs <;>
      simp [GNode.strs, exNames] at hs
    rw [hs]; exact c1
  obtain ⟨T', h1, -, -, h2, -⟩ := json_function ⟨fun _ => ['2'], fun _ => 2, big⟩ c exT_ok (by rw [hc]; exact exT_disc) [] hj
    (by rw [hc, exT_graph]; simp)
  exact ⟨T', h1, h2⟩

end CppAD.Graph
