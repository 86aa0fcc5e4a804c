import Verif.Graph.JsonMain

/-! # C31: graphs for which the JSON round trip is wrong

These are the cases excluded by `CppGraph.JsonOk`. -/

namespace CppAD.Graph

open CppAD CppAD.Record CppAD.Optim

/-- a call of the atomic function "g" with call_id equal to 5, one result, and one argument -/
def atom4Graph : CppGraph :=
  { name := [], nDyn := 0, nVar := 1, discreteNames := [], atomicNames := ["g".toList], printText := [], constants := [], ops := [.atom4],
    args := [0, 5, 1, 1, 1], deps := [2] }

theorem atom4Graph_nodes : atom4Graph.nodes = [.atom4 0 5 1 [1]] := rfl

set_option maxRecDepth 100000 in
theorem atom4_args (J : JCfg) : ((parseJson J (writeJson J atom4Graph)).map fun g => (g.ops, g.args, g.atomicNames)) =
    some ([.atom4], [5, 0, 1, 1, 1], ["g".toList]) := by
  rfl

/-- json_parser.cpp:257-259 pushes call_id before name_index, the iterator (cpp_graph_itr.hpp) expects them in the other order: in
the graph that is read the call_id is 0 and the name of the function is the element with index 5 of a vector that has one element. -/
theorem json_atom4_wrong (J : JCfg) : ∃ g', parseJson J (writeJson J atom4Graph) = some g' ∧ g'.nodes = [.atom4 5 0 1 [1]] ∧
    g'.atomicNames = ["g".toList] ∧ g'.nodes.map (GNode.use g') ≠ atom4Graph.nodes.map (GNode.use atom4Graph) := by
  have h := atom4_args J
  rw [Option.map_eq_some_iff] at h
  obtain ⟨g', h1, h2⟩ := h
  simp only [Prod.mk.injEq] at h2
  have hn : g'.nodes = [.atom4 5 0 1 [1]] := by
    unfold CppGraph.nodes
    rw [h2.1, h2.2.1]
    rfl
  refine ⟨g', h1, hn, h2.2.2, ?_⟩
  rw [hn, atom4Graph_nodes]
  simp [GNode.use, GNode.callId]

/-- a call of an atomic function that has no arguments -/
def atom0Graph : CppGraph :=
  { name := [], nDyn := 0, nVar := 1, discreteNames := [], atomicNames := ["g".toList], printText := [], constants := [], ops := [.atom],
    args := [0, 1, 0], deps := [2] }

set_option maxRecDepth 100000 in
/-- json_writer.cpp:143-149 does not write the bracket after the last argument when there are no arguments: the parser does not accept
the text -/
theorem json_atom_no_args_wrong (J : JCfg) : atom0Graph.nodes = [.atom 0 1 []] ∧ parseJson J (writeJson J atom0Graph) = none :=
  ⟨rfl, by rfl⟩

/-- a graph whose function has the name `it's` -/
def quoteGraph : CppGraph :=
  { name := "it's".toList, nDyn := 0, nVar := 1, discreteNames := [], atomicNames := [], printText := [], constants := [], ops := [.un .sin],
    args := [1], deps := [2] }

set_option maxRecDepth 100000 in
/-- json_writer.cpp:230-232 changes the quotes in names: the parser does not accept the text -/
theorem json_quote_wrong (J : JCfg) : quoteGraph.nodes = [.un .sin 1] ∧ parseJson J (writeJson J quoteGraph) = none := ⟨rfl, by rfl⟩

/-- a constant that is written as `nan` or `inf` cannot be read: json_lexer.cpp:241-254 -/
theorem json_nan_wrong (J : JCfg) (a : Char) (t : Txt) :
    J.flt.run (a :: ("nan".toList ++ t)) = none ∧ J.flt.run (a :: ("inf".toList ++ t)) = none := ⟨rfl, rfl⟩

end CppAD.Graph
