import Verif.Graph.JsonUse
import Verif.Graph.Thm

/-! # JSON round trip -/

namespace CppAD.Graph

open CppAD CppAD.Record CppAD.Optim

theorem setValue_code (args : List ℕ) (fa : ℕ) (c : GCode) : (setValue args fa c).1.code = c := by
  cases c <;> rfl

theorem nodesFrom_code (args : List ℕ) (cs : List GCode) : ∀ fa, (nodesFrom args cs fa).map GNode.code = cs := by
  induction cs with
  | nil => intro fa; rfl
  | cons c cs ih => intro fa; simp only [nodesFrom, List.map_cons, setValue_code, ih]

theorem nodes_code (g : CppGraph) : g.nodes.map GNode.code = g.ops := nodesFrom_code _ _ _

theorem nodes_length (g : CppGraph) : g.nodes.length = g.ops.length := by
  rw [← nodes_code g, List.length_map]

/-- the fields that are not changed by reading operators -/
def SameHead (g h : CppGraph) : Prop :=
  h.name = g.name ∧ h.nDyn = g.nDyn ∧ h.nVar = g.nVar ∧ h.constants = g.constants ∧ h.deps = g.deps

theorem pUsage_sp (J : JCfg) (codes : List GCode) (g : CppGraph) (a b : Char) (t : Txt) (hb : isSpace b = true) :
    (pUsage J codes g).run (a :: b :: t) = (pUsage J codes g).run (b :: t) := by
  delta pUsage
  simp only [StateT.run_bind, chk_sp '[' a b t hb]

theorem pUsages_sp (J : JCfg) (codes : List GCode) (n : ℕ) (hn : n ≠ 0) (g : CppGraph) (a b : Char) (t : Txt) (hb : isSpace b = true) :
    (pUsages J codes n g).run (a :: b :: t) = (pUsages J codes n g).run (b :: t) := by
  match n with
  | 0 => exact absurd rfl hn
  | 1 => simp only [pUsages, pUsage_sp J codes g a b t hb]
  | n + 2 => simp only [pUsages, StateT.run_bind, pUsage_sp J codes g a b t hb]

theorem pUsages_run (J : JCfg) (codes : List GCode) (g0 : CppGraph) (k : GCode → ℕ) (ns : List GNode)
    (hk : ∀ n ∈ ns, k n.code < 2 ^ 31 ∧ codes.getD (k n.code) (.un .abs) = n.code ∧ n.JsonOk g0) :
    ∀ (g : CppGraph) (a : Char) (t : Txt), ∃ (g1 : CppGraph) (ms : List GNode) (a' : Char),
      (pUsages J codes ns.length g).run (a :: (joinSep [',', '\n'] (ns.map fun n => (writeUsage g0 (k n.code) n).map quote) ++ t)) =
        some (g1, a' :: t) ∧ NamesLe g g1 ∧ (NamesNodup g → NamesNodup g1) ∧ g1.ops = g.ops ++ ms.map GNode.code ∧
        g1.args = g.args ++ encAll ms ∧ ms.map (GNode.use g1) = ns.map (GNode.use g0) ∧ (∀ m ∈ ms, NamesIn g1 m) ∧ SameHead g g1 ∧
        (∀ m ∈ g1.discreteNames, m ∈ g.discreteNames ∨ ∃ n ∈ ns, n.code = .dis ∧ m ∈ n.strs g0) := by
  induction ns with
  | nil =>
    intro g a t
    exact ⟨g, [], a, rfl, NamesLe.refl g, id, by simp, by simp [encAll], rfl, by simp, ⟨rfl, rfl, rfl, rfl, rfl⟩, fun m hm => Or.inl hm⟩
  | cons n ns ih =>
    intro g a t
    have hn := hk n (by simp)
    cases ns with
    | nil =>
      obtain ⟨g1, n', h1, h2, h3, h4, h5, h6, h7, h8, h9, h10, h11, h12, h13⟩ := usage_read J codes g g0 n (k n.code) hn.1 hn.2.1 hn.2.2 a t
      refine ⟨g1.push n', [n'], ']', ?_, h3, h5, by simp [CppGraph.push, h6], by simp [CppGraph.push, h7, encAll], ?_, ?_, ⟨h8, h9, h10, h11, h12⟩,
        fun m hm => (h13 m hm).imp id fun h => ⟨n, by simp, h⟩⟩
      · simp only [List.map_cons, List.map_nil, joinSep, List.length_cons, List.length_nil, pUsages]
        exact h1
      · simp only [List.map_cons, List.map_nil]
        rw [← h2]; rfl
      · intro m hm
        rw [List.mem_singleton] at hm
        rw [hm]; exact h4
    | cons n2 ns =>
      have e : joinSep [',', '\n'] ((n :: n2 :: ns).map fun n => (writeUsage g0 (k n.code) n).map quote) ++ t =
          (writeUsage g0 (k n.code) n).map quote ++ ',' :: '\n' ::
            (joinSep [',', '\n'] ((n2 :: ns).map fun n => (writeUsage g0 (k n.code) n).map quote) ++ t) := by
        simp [joinSep]
      obtain ⟨g1, n', h1, h2, h3, h4, h5, h6, h7, h8, h9, h10, h11, h12, h13⟩ := usage_read J codes g g0 n (k n.code) hn.1 hn.2.1 hn.2.2 a
        (',' :: '\n' :: (joinSep [',', '\n'] ((n2 :: ns).map fun n => (writeUsage g0 (k n.code) n).map quote) ++ t))
      obtain ⟨g2, ms, a', k1, k2, k3, k4, k5, k6, k7, ⟨k8, k9, k10, k11, k12⟩, k13⟩ := ih (fun m hm => hk m (by simp [hm])) (g1.push n') '\n' t
      refine ⟨g2, n' :: ms, a', ?_, h3.trans k2, fun h => k3 (h5 h), ?_, ?_, ?_, ?_, ⟨k8.trans h8, k9.trans h9, k10.trans h10,
        k11.trans h11, k12.trans h12⟩, ?_⟩
      · rw [e]
        show (pUsages J codes (ns.length + 2) g).run _ = _
        simp only [pUsages, StateT.run_bind, h1, Option.bind_eq_bind, Option.bind_some, chk_hit ',' ']' _ (by decide)]
        have := pUsages_sp J codes (ns.length + 1) (by omega) (g1.push n') ',' '\n'
          (joinSep [',', '\n'] ((n2 :: ns).map fun n => (writeUsage g0 (k n.code) n).map quote) ++ t) (by decide)
        rw [this]
        exact k1
      · rw [k4]; simp [CppGraph.push, h6]
      · rw [k5]; simp [CppGraph.push, h7, encAll]
      · rw [List.map_cons, List.map_cons, k6]
        congr 1
        rw [← h2]
        exact NamesIn.use h4 k2
      · intro m hm
        rcases List.mem_cons.mp hm with rfl | hm
        · exact NamesIn.le h4 k2
        · exact k7 m hm
      · intro m hm
        rcases k13 m hm with h | ⟨q, hq, h⟩
        · exact (h13 m h).imp id fun h => ⟨n, by simp, h⟩
        · exact Or.inr ⟨q, List.mem_cons_of_mem _ hq, h⟩

theorem defs_run (J : JCfg) (ops l : List GCode) (a : Char) (t : Txt) :
    ∃ a', (sepBy (pDefine J) l.length).run (a :: (joinSep [',', '\n'] (l.map fun c => (writeDefine ops c).map quote) ++ ' ' :: t)) =
      some (l, a' :: ' ' :: t) := by
  refine sepBy_run (fun _ => true) rfl '\n' (by decide) _ l (by simp) (fun a b t hb => ?_) (fun i hi a c t _ => ?_) a ' ' t rfl
  · delta pDefine
    simp only [StateT.run_bind, chk_sp '{' a b t hb]
  · refine ⟨'}', ?_⟩
    rw [List.getElem_map]
    exact pDefine_run J ops _ a (c :: t)

theorem cons_run (J : JCfg) (l : List ℝ) (hl : ∀ v ∈ l, J.fmt v ≠ [] ∧ ∀ c ∈ J.fmt v, isFlt c = true) (a : Char) (t : Txt) :
    ∃ a', (sepBy J.flt l.length).run (a :: (joinSep [',', '\n'] (l.map J.fmt) ++ ' ' :: t)) =
      some (l.map fun v => J.atof (J.fmt v), a' :: ' ' :: t) := by
  have := sepBy_run (p := J.flt) (fun c => !isFlt c) (by decide) '\n' (by decide) (l.map J.fmt) (l.map fun v => J.atof (J.fmt v)) (by simp)
    (fun a b t hb => flt_sp J a b t hb) (fun i hi a c t hc => by
      have hi' : i < l.length := by simpa using hi
      have h := hl l[i] (List.getElem_mem _)
      refine ⟨(J.fmt l[i]).getLast h.1, ?_⟩
      rw [List.getElem_map, List.getElem_map]
      exact flt_hit J a c t _ h.1 h.2 (by simpa using hc)) a ' ' t (by decide)
  simpa using this

theorem deps_run (J : JCfg) (l : List ℕ) (h : ∀ x ∈ l, x < 2 ^ 31) (a : Char) (t : Txt) :
    ∃ a', (sepBy J.dep l.length).run (a :: (joinSep [',', ' '] (l.map dec) ++ ' ' :: t)) = some (l, a' :: ' ' :: t) := by
  refine sepBy_run (fun c => !isFlt c) (by decide) ' ' (by decide) (l.map dec) l (by simp)
    (fun a b t hb => dep_sp J a b t hb) (fun i hi a c t hc => ?_) a ' ' t (by decide)
  refine ⟨lst (l[i]'(by simpa using hi)), ?_⟩
  rw [List.getElem_map]
  exact dep_hit J a c t (h _ (List.getElem_mem _)) (by simpa using hc)

theorem dep_sepBy_sp {α : Type} (p : P α) (hsp : ∀ a b t, isSpace b = true → p.run (a :: b :: t) = p.run (b :: t))
    (n : ℕ) (hn : n ≠ 0) (a b : Char) (t : Txt) (hb : isSpace b = true) :
    (sepBy p n).run (a :: b :: t) = (sepBy p n).run (b :: t) := by
  match n with
  | 0 => exact absurd rfl hn
  | 1 => simp only [sepBy, StateT.run_bind, hsp a b t hb]
  | n + 2 => simp only [sepBy, StateT.run_bind, hsp a b t hb]

/-- the text of a loop can be preceded by white space -/
theorem loop_sp {α : Type} (p : P α) (hsp : ∀ a b t, isSpace b = true → p.run (a :: b :: t) = p.run (b :: t))
    (n : ℕ) (txt t : Txt) (b : Char) (hb : isSpace b = true) (v : List α)
    (h : ∀ a, ∃ a', (sepBy p n).run (a :: (txt ++ ' ' :: t)) = some (v, a' :: ' ' :: t)) (h0 : n = 0 → txt = [] ∧ v = []) (a : Char) :
    ∃ a' u, (sepBy p n).run (a :: b :: (txt ++ ' ' :: t)) = some (v, a' :: u) ∧ ∀ c, (chk c).run (a' :: u) = (chk c).run (' ' :: t) := by
  by_cases hn : n = 0
  · subst hn
    obtain ⟨rfl, rfl⟩ := h0 rfl
    refine ⟨a, b :: ' ' :: t, rfl, fun c => ?_⟩
    rw [chk_sp _ _ _ _ hb, chk_sp _ _ _ _ (by decide)]
  · obtain ⟨a', h⟩ := h b
    refine ⟨a', ' ' :: t, ?_, fun c => chk_sp _ _ _ _ (by decide)⟩
    rw [dep_sepBy_sp p hsp n hn _ _ _ hb, h]

theorem usages_sp (J : JCfg) (codes : List GCode) (g0 : CppGraph) (k : GCode → ℕ) (ns : List GNode)
    (hk : ∀ n ∈ ns, k n.code < 2 ^ 31 ∧ codes.getD (k n.code) (.un .abs) = n.code ∧ n.JsonOk g0) (g : CppGraph) (a : Char) (t : Txt) :
    ∃ (g1 : CppGraph) (ms : List GNode) (a' : Char) (u : Txt),
      (pUsages J codes ns.length g).run (a :: '\n' :: (joinSep [',', '\n'] (ns.map fun n => (writeUsage g0 (k n.code) n).map quote) ++ '\n' :: t)) =
        some (g1, a' :: u) ∧ (∀ c, (chk c).run (a' :: u) = (chk c).run ('\n' :: t)) ∧ (NamesNodup g → NamesNodup g1) ∧
        g1.ops = g.ops ++ ms.map GNode.code ∧
        g1.args = g.args ++ encAll ms ∧ ms.map (GNode.use g1) = ns.map (GNode.use g0) ∧ (∀ m ∈ ms, NamesIn g1 m) ∧ SameHead g g1 ∧
        (∀ m ∈ g1.discreteNames, m ∈ g.discreteNames ∨ ∃ n ∈ ns, n.code = .dis ∧ m ∈ n.strs g0) := by
  have hsp : isSpace '\n' = true := by decide
  by_cases h0 : ns = []
  · subst h0
    exact ⟨g, [], a, '\n' :: '\n' :: t, rfl, fun c => by rw [chk_sp _ _ _ _ hsp, chk_sp _ _ _ _ hsp], id, by simp, by simp [encAll], rfl, by simp,
      ⟨rfl, rfl, rfl, rfl, rfl⟩, fun m hm => Or.inl hm⟩
  · obtain ⟨g1, ms, a', h1, h2, h3, h4, h5, h6, h7, h8⟩ := pUsages_run J codes g0 k ns hk g '\n' ('\n' :: t)
    refine ⟨g1, ms, a', '\n' :: t, ?_, fun c => chk_sp _ _ _ _ hsp, h3, h4, h5, h6, h7, h8⟩
    rw [pUsages_sp J codes _ (by simpa using h0) g a '\n' _ hsp, h1]

theorem clean_lit {s : Txt} (h : (s.all fun x => decide (x ≠ '\'' ∧ x ≠ '"')) = true) : Clean s := by
  intro x hx
  simpa using List.all_eq_true.mp h x hx

attribute [local irreducible] GCode.nArg GCode.name name2code dec graphCode lst defines

set_option maxHeartbeats 1000000 in
set_option maxRecDepth 20000 in
theorem write_eq (J : JCfg) (g : CppGraph) (h : g.JsonOk J) : writeJson J g =
    '{' :: '\n' :: '"' :: ("function_name".toList ++ '"' :: ' ' :: ':' :: ' ' :: '"' :: (g.name ++ '"' :: ',' ::
    '\n' :: '"' :: ("op_define_vec".toList ++ '"' :: ' ' :: ':' :: ' ' :: '[' :: ' ' :: (dec (defines g.ops).length ++ ',' :: ' ' :: '[' ::
      '\n' :: (joinSep [',', '\n'] ((defines g.ops).map fun c => (writeDefine g.ops c).map quote) ++ ' ' :: ']' :: '\n' :: ']' :: ' ' :: ',' ::
    '\n' :: '"' :: ("n_dynamic_ind".toList ++ '"' :: ' ' :: ':' :: ' ' :: (dec g.nDyn ++ ',' ::
    '\n' :: '"' :: ("n_variable_ind".toList ++ '"' :: ' ' :: ':' :: ' ' :: (dec g.nVar ++ ',' ::
    '\n' :: '"' :: ("constant_vec".toList ++ '"' :: ' ' :: ':' :: ' ' :: '[' :: ' ' :: (dec g.constants.length ++ ',' :: ' ' :: '[' ::
      '\n' :: (joinSep [',', '\n'] (g.constants.map J.fmt) ++ ' ' :: ']' :: ' ' :: ']' :: ',' ::
    '\n' :: '"' :: ("op_usage_vec".toList ++ '"' :: ' ' :: ':' :: ' ' :: '[' :: ' ' :: (dec g.ops.length ++ ',' :: ' ' :: '[' ::
      '\n' :: (joinSep [',', '\n'] (g.nodes.map fun n => (writeUsage g (graphCode g.ops n.code) n).map quote) ++ '\n' :: ']' :: ' ' :: ']' :: ',' ::
    '\n' :: '"' :: ("dependent_vec".toList ++ '"' :: ' ' :: ':' :: ' ' :: '[' :: ' ' :: (dec g.deps.length ++ ',' :: ' ' :: '[' ::
      ' ' :: (joinSep [',', ' '] (g.deps.map dec) ++ ' ' :: ']' :: ' ' :: ']' :: '\n' :: '}' :: '\n' :: [])))))))))))))))))) := by
  have e1 : (g.constants.map J.fmt).map (List.map quote) = g.constants.map J.fmt := by
    rw [List.map_map]
    exact List.map_congr_left fun v hv => quote_clean fun c hc => digit_ne_quote ((h.con v hv).2 c hc)
  delta writeJson writeRaw
  simp only [List.map_append, map_joinSep, quote_dec, quote_clean h.name, e1, quote_args, List.map_map, List.append_assoc,
    String.reduceToList, List.map_cons, List.map_nil, List.cons_append, List.nil_append]
  simp [quote, Function.comp_def, quote_args']

/-- the graph that the parser makes from the text of the writer -/
structure JsonRead (J : JCfg) (g g' : CppGraph) : Prop where
  name : g'.name = g.name
  nDyn : g'.nDyn = g.nDyn
  nVar : g'.nVar = g.nVar
  constants : g'.constants = g.constants.map fun v => J.atof (J.fmt v)
  deps : g'.deps = g.deps
  ops : g'.ops = g.ops
  uses : g'.nodes.map (GNode.use g') = g.nodes.map (GNode.use g)
  nodup : g'.discreteNames.Nodup ∧ g'.atomicNames.Nodup ∧ g'.printText.Nodup
  range : ∀ n ∈ g'.nodes, NamesIn g' n
  disc : ∀ m ∈ g'.discreteNames, ∃ n ∈ g.nodes, n.code = .dis ∧ m ∈ n.strs g

theorem bind_step {α β : Type} {p : P α} {f : α → P β} {s s' : Txt} {v : α} (h : p.run s = some (v, s')) :
    (p >>= f).run s = (f v).run s' := by
  rw [StateT.run_bind, h]; rfl

set_option maxRecDepth 20000 in
set_option maxHeartbeats 1000000 in
theorem parse_run (J : JCfg) (g : CppGraph) (h : g.JsonOk J) : ∃ g', parseJson J (writeJson J g) = some g' ∧ JsonRead J g g' := by
  have hs1 : isSpace ' ' = true := by decide
  have hs2 : isSpace '\n' = true := by decide
  have qs := fun a c t => chk_sp c a ' ' t hs1
  have qn := fun a c t => chk_sp c a '\n' t hs2
  have rs := fun a c t => key_sp c a ' ' t hs1
  have rn := fun a c t => key_sp c a '\n' t hs2
  have ss := fun a t => str_sp a ' ' t hs1
  have is := fun a t => int_sp J a ' ' t hs1
  have c1 := fun a t => chk_hit '[' a t (by decide)
  have c2 := fun a t => chk_hit ':' a t (by decide)
  have c3 := fun a t => chk_hit ',' a t (by decide)
  have c4 := fun a t => chk_hit ']' a t (by decide)
  have c5 := fun a t => chk_hit '}' a t (by decide)
  have k1 := fun a t => key_hit a "function_name".toList t (clean_lit (by decide))
  have k2 := fun a t => key_hit a "op_define_vec".toList t (clean_lit (by decide))
  have k3 := fun a t => key_hit a "n_dynamic_ind".toList t (clean_lit (by decide))
  have k4 := fun a t => key_hit a "n_variable_ind".toList t (clean_lit (by decide))
  have k5 := fun a t => key_hit a "constant_vec".toList t (clean_lit (by decide))
  have k6 := fun a t => key_hit a "op_usage_vec".toList t (clean_lit (by decide))
  have k7 := fun a t => key_hit a "dependent_vec".toList t (clean_lit (by decide))
  have s1 := fun a t => str_hit a g.name t h.name
  have i1 := fun a t => int_hit J a ',' t (n := (defines g.ops).length) (by have := defines_len g.ops; omega) (by decide)
  have i2 := fun a t => int_hit J a ',' t h.nDyn (by decide)
  have i3 := fun a t => int_hit J a ',' t h.nVar (by decide)
  have i4 := fun a t => int_hit J a ',' t h.nCon (by decide)
  have i5 := fun a t => int_hit J a ',' t h.nOps (by decide)
  have i6 := fun a t => int_hit J a ',' t h.nDeps (by decide)
  have hi : lexInit (writeJson J g) = some (writeJson J g) := by
    rw [write_eq J g h]
    simp [lexInit, List.dropWhile_cons, show isSpace '{' = false by decide]
  have S : ∀ (c : Char) a t, isSpace c = false → (chk c).run (a :: ' ' :: c :: t) = some ((), c :: t) :=
    fun c a t hc => (chk_sp _ _ _ _ hs1).trans (chk_hit _ _ _ hc)
  have N : ∀ (c : Char) a t, isSpace c = false → (chk c).run (a :: '\n' :: c :: t) = some ((), c :: t) :=
    fun c a t hc => (chk_sp _ _ _ _ hs2).trans (chk_hit _ _ _ hc)
  have e : parseJson J (writeJson J g) = ((pGraph J).run (writeJson J g)).map Prod.fst := by
    rw [parseJson, hi, Option.bind_some]
  rw [e]
  suffices ∃ g' s', (pGraph J).run (writeJson J g) = some (g', s') ∧ JsonRead J g g' by
    obtain ⟨g', s', h1, h2⟩ := this
    exact ⟨g', by rw [h1]; rfl, h2⟩
  rw [write_eq J g h]
  delta pGraph
  rw [bind_step ((rn _ _ _).trans (k1 _ _))]
  rw [bind_step (S ':' _ _ (by decide))]
  rw [bind_step ((ss _ _).trans (s1 _ _))]
  rw [bind_step (c3 _ _)]
  rw [bind_step ((rn _ _ _).trans (k2 _ _))]
  rw [bind_step (S ':' _ _ (by decide))]
  rw [bind_step (S '[' _ _ (by decide))]
  rw [bind_step ((is _ _).trans (i1 _ _))]
  rw [bind_step (c3 _ _)]
  rw [bind_step (S '[' _ _ (by decide))]
  obtain ⟨a1, u1, e1, f1⟩ := loop_sp (pDefine J) (fun a b t hb => by delta pDefine; simp only [StateT.run_bind, chk_sp '{' a b t hb])
    (defines g.ops).length (joinSep [',', '\n'] ((defines g.ops).map fun c => (writeDefine g.ops c).map quote)) _ '\n' hs2 (defines g.ops)
    (fun a => defs_run J g.ops (defines g.ops) a _) (fun h0 => by simp [List.length_eq_zero_iff.mp h0, joinSep]) '['
  rw [bind_step e1, bind_step ((f1 ']').trans (c4 _ _))]
  rw [bind_step (N ']' _ _ (by decide))]
  rw [bind_step (S ',' _ _ (by decide))]
  rw [bind_step ((rn _ _ _).trans (k3 _ _))]
  rw [bind_step (S ':' _ _ (by decide))]
  rw [bind_step ((is _ _).trans (i2 _ _))]
  rw [bind_step (c3 _ _)]
  rw [bind_step ((rn _ _ _).trans (k4 _ _))]
  rw [bind_step (S ':' _ _ (by decide))]
  rw [bind_step ((is _ _).trans (i3 _ _))]
  rw [bind_step (c3 _ _)]
  rw [bind_step ((rn _ _ _).trans (k5 _ _))]
  rw [bind_step (S ':' _ _ (by decide))]
  rw [bind_step (S '[' _ _ (by decide))]
  rw [bind_step ((is _ _).trans (i4 _ _))]
  rw [bind_step (c3 _ _)]
  rw [bind_step (S '[' _ _ (by decide))]
  obtain ⟨a2, u2, e2, f2⟩ := loop_sp J.flt (fun a b t hb => flt_sp J a b t hb)
    g.constants.length (joinSep [',', '\n'] (g.constants.map J.fmt)) _ '\n' hs2 (g.constants.map fun v => J.atof (J.fmt v))
    (fun a => cons_run J g.constants h.con a _) (fun h0 => by simp [List.length_eq_zero_iff.mp h0, joinSep]) '['
  rw [bind_step e2, bind_step ((f2 ']').trans (c4 _ _))]
  rw [bind_step (S ']' _ _ (by decide))]
  rw [bind_step (c3 _ _)]
  rw [bind_step ((rn _ _ _).trans (k6 _ _))]
  rw [bind_step (S ':' _ _ (by decide))]
  rw [bind_step (S '[' _ _ (by decide))]
  rw [bind_step ((is _ _).trans (i5 _ _))]
  rw [bind_step (c3 _ _)]
  rw [bind_step (S '[' _ _ (by decide))]
  obtain ⟨g1, ms, a3, u3, e3, f3, h3, h4, h5, h6, h7, h8, h9⟩ := usages_sp J (.un .abs :: defines g.ops) g (graphCode g.ops) g.nodes
    (fun n hn => ⟨graphCode_lt _ _, getD_graphCode (by rw [← nodes_code g]; exact List.mem_map_of_mem hn), h.nodes n hn⟩)
    ⟨g.name, g.nDyn, g.nVar, [], [], [], g.constants.map fun v => J.atof (J.fmt v), [], [], []⟩ '[' _
  rw [nodes_length] at e3
  rw [bind_step e3, bind_step ((f3 ']').trans (c4 _ _))]
  rw [bind_step (S ']' _ _ (by decide))]
  rw [bind_step (c3 _ _)]
  rw [bind_step ((rn _ _ _).trans (k7 _ _))]
  rw [bind_step (S ':' _ _ (by decide))]
  rw [bind_step (S '[' _ _ (by decide))]
  rw [bind_step ((is _ _).trans (i6 _ _))]
  rw [bind_step (c3 _ _)]
  rw [bind_step (S '[' _ _ (by decide))]
  obtain ⟨a4, u4, e4, f4⟩ := loop_sp J.dep (fun a b t hb => dep_sp J a b t hb)
    g.deps.length (joinSep [',', ' '] (g.deps.map dec)) _ ' ' hs1 g.deps
    (fun a => deps_run J g.deps h.deps a _) (fun h0 => by simp [List.length_eq_zero_iff.mp h0, joinSep]) '['
  rw [bind_step e4, bind_step ((f4 ']').trans (c4 _ _))]
  rw [bind_step (S ']' _ _ (by decide))]
  rw [bind_step (N '}' _ _ (by decide))]
  have hE : Enc { g1 with deps := g.deps } ms := ⟨by simpa using h4, by simpa using h5⟩
  have hu : ms.map (GNode.use { g1 with deps := g.deps }) = g.nodes.map (GNode.use g) := by
    rw [← h6]
    exact List.map_congr_left fun m _ => by cases m <;> rfl
  refine ⟨_, _, rfl, h8.1, h8.2.1, h8.2.2.1, h8.2.2.2.1, rfl, ?_, ?_, ?_, ?_, ?_⟩
  · show g1.ops = g.ops
    have : ms.map GNode.code = g.nodes.map GNode.code := by
      have := congrArg (List.map GUse.code) hu
      rw [List.map_map, List.map_map] at this
      exact this
    rw [h4, this, nodes_code]
    rfl
  · rw [hE.nodes, hu]
  · exact h3 ⟨List.nodup_nil, List.nodup_nil, List.nodup_nil⟩
  · rw [hE.nodes]
    intro n hn
    have := h7 n hn
    cases n <;> exact this
  · intro m hm
    rcases h9 m hm with h | h
    · simp at h
    · exact h

end CppAD.Graph
