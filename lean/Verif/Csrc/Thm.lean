import Verif.Csrc.Model

/-! # C53: the C source code computes the function -/

open scoped Classical

namespace CppAD.Csrc

open CppAD CppAD.Record CppAD.Optim CppAD.Graph

variable {E : CEnv} {A : CArgs} {nv : ℕ} {g : CppGraph}

/-! ## Names -/

theorem after_append (p s : Txt) : after p (p ++ s) = some s := by
  induction p with
  | nil => cases s <;> rfl
  | cons c p ih => simp [after, ih]

theorem lookup_disc (s : Txt) : lookup mathNames1 (discPre ++ s) = none := by
  unfold lookup
  rw [Option.map_eq_none_iff, List.find?_eq_none]
  intro e he h
  have hh : e.1 = discPre ++ s := of_decide_eq_true h
  have key : ∀ e ∈ mathNames1, e.1.take 2 ≠ ['c', 'p'] := by decide
  exact key e he (by rw [hh]; rfl)

theorem extern1_disc (s : Txt) : extern1 E (discPre ++ s) = some (E.disc s) := by
  simp [extern1, lookup_disc, after_append]

theorem sign_eq (x : ℝ) : (if x > 0 then (1 : ℝ) else if x = 0 then 0 else -1) = Real.sign x := by
  rcases lt_trichotomy x 0 with h | h | h
  · rw [Real.sign_of_neg h, if_neg (by linarith), if_neg h.ne]
  · rw [h, Real.sign_zero]; simp
  · rw [Real.sign_of_pos h, if_pos h]

/-- the math.h function for each operator -/
def unMath : UnF → CMath1
  | .abs => .fabs | .acos => .acos | .acosh => .acosh | .asin => .asin | .asinh => .asinh | .atan => .atan | .atanh => .atanh
  | .cos => .cos | .cosh => .cosh | .erf => .erf | .erfc => .erfc | .exp => .exp | .expm1 => .expm1 | .log => .log
  | .log1p => .log1p | .neg => .sign | .sign => .sign | .sin => .sin | .sinh => .sinh | .sqrt => .sqrt | .tan => .tan | .tanh => .tanh

theorem csrcUn_lookup (f : UnF) (h : f ≠ .neg) : ∃ s, csrcUn f = some s ∧ lookup mathNames1 s = some (unMath f) := by
  have key : ∀ f : UnF, f ≠ .neg → (csrcUn f).bind (lookup mathNames1) = some (unMath f) := by
    intro f h
    cases f <;> first | exact absurd rfl h | decide
  have := key f h
  cases hs : csrcUn f with
  | none => rw [hs] at this; simp at this
  | some s => rw [hs] at this; exact ⟨s, rfl, this⟩

theorem unMath_fn (f : UnF) (h : f ≠ .neg) : (unMath f).fn = f.fn := by
  cases f <;> first | rfl | exact absurd rfl h | (funext x; exact sign_eq x)

theorem csrcUn_call (f : UnF) (h : f ≠ .neg) : ∃ s, csrcUn f = some s ∧ extern1 E s = some f.fn := by
  obtain ⟨s, h1, h2⟩ := csrcUn_lookup f h
  exact ⟨s, h1, by simp [extern1, h2, unMath_fn f h]⟩

theorem look_azmul : lookup mathNames2 (GCode.bin .azmul).name = some .azmul := by decide
theorem look_pow : lookup mathNames2 (GCode.bin .pow).name = some .pow := by decide
theorem look_add : lookup cOps "+".toList = some .plus := by decide
theorem look_sub : lookup cOps "-".toList = some .minus := by decide
theorem look_mul : lookup cOps "*".toList = some .times := by decide
theorem look_div : lookup cOps "/".toList = some .divide := by decide

theorem csrcBin_eval (f : BinF) {v : ℕ → Option ℝ} {a b : ℕ} {x y : ℝ} (ha : v a = some x) (hb : v b = some y) :
    (csrcBin f a b).eval E v = some (f.fn x y) := by
  cases f <;> simp only [csrcBin, CExpr.eval, look_azmul, look_pow, look_add, look_sub, look_mul, look_div, ha, hb] <;> rfl

/-- the negation of each comparison -/
def cmpRel : CmpF → CRel
  | .eq => .ne | .le => .gt | .lt => .ge | .ne => .eq

theorem csrcCmp_lookup (c : CmpF) : lookup cRels (csrcCmp c) = some (cmpRel c) := by cases c <;> decide

theorem cmpRel_holds (c : CmpF) (x y : ℝ) : (cmpRel c).holds x y ↔ ¬ CmpF.holds c x y := by
  cases c <;> simp [cmpRel, CRel.holds, CmpF.holds]

/-! ## One operator -/

/-- the local array contains the values of the nodes -/
def Rel (v : ℕ → Option ℝ) (vals : List ℝ) : Prop := ∀ k, 1 ≤ k → k < vals.length → v k = some (at' vals k)

theorem Rel.mapM {v : ℕ → Option ℝ} {vals : List ℝ} (h : Rel v vals) {l : List ℕ} (hl : ∀ a ∈ l, 1 ≤ a ∧ a < vals.length) :
    l.mapM v = some (l.map (at' vals)) := by
  induction l with
  | nil => rfl
  | cons a l ih =>
    have h1 := hl a List.mem_cons_self
    rw [List.mapM_cons, h a h1.1 h1.2, ih fun b hb => hl b (List.mem_cons_of_mem _ hb)]
    rfl

theorem Rel.snoc {v : ℕ → Option ℝ} {vals : List ℝ} (h : Rel v vals) (x : ℝ) : Rel (Function.update v vals.length (some x)) (vals ++ [x]) := by
  intro k h1 hk
  simp only [List.length_append, List.length_singleton] at hk
  by_cases e : k = vals.length
  · subst e; rw [Function.update_self, at'_append_length]
  · rw [Function.update_of_ne e, at'_append (by omega)]; exact h k h1 (by omega)

theorem at'_append_right {l l' : List ℝ} {k : ℕ} (h : l.length ≤ k) : at' (l ++ l') k = at' l' (k - l.length) := by
  unfold at'; rw [List.getD_append_right _ _ _ _ h]

theorem at'_range_map {n k : ℕ} (f : ℕ → ℝ) (h : k < n) : at' ((List.range n).map f) k = f k := by
  unfold at'
  rw [List.getD_eq_getElem _ _ (by simpa using h)]; simp

theorem nodeResults_length (val : ℕ → ℝ) {n : GNode} (h : nodeOk n) : (nodeResults E g val n).length = n.nres := by
  cases n with
  | un f a => rfl
  | atom name k args => exact absurd h id
  | atom4 name id k args => simp [nodeResults, GNode.nres]
  | _ => rfl

/-- what one operator does -/
theorem node_step {m : CMem} {vals : List ℝ} {n : GNode} (hR : Rel m.v vals) (ha : ∀ a ∈ n.argNodes, 1 ≤ a ∧ a < vals.length)
    (hok : nodeOk n) (hlen : vals.length + n.nres ≤ nv) :
    ∃ s m', csrcNode g vals.length n = some s ∧
      s.exec E A nv m = some (if nodeFlag E g (at' vals) n = 0 then none else some (retFlag (nodeFlag E g (at' vals) n)), m') ∧
      m'.y = m.y ∧ m'.cc = m.cc + nodeCount E g (at' vals) n ∧
      (Rel m'.v (vals ++ nodeResults E g (at' vals) n)) := by
  have key : ∀ {e : CExpr} {x : ℝ}, e.eval E m.v = some x → vals.length + 1 ≤ nv →
      (CStmt.set vals.length e).exec E A nv m = some (none, { m with v := Function.update m.v vals.length (some x) }) := by
    intro e x he hl
    simp only [CStmt.exec, he, Option.bind_eq_bind, Option.bind_some]
    rw [if_pos (by omega)]
  cases n with
  | un f a =>
    have hf : f ≠ .neg := by rintro rfl; exact hok
    obtain ⟨s, h1, h2⟩ := csrcUn_call (E := E) f hf
    have h3 := ha a (by simp [GNode.argNodes])
    refine ⟨_, _, by rw [csrcNode, h1]; rfl, key (x := f.fn (at' vals a)) ?_ hlen, rfl, rfl, hR.snoc _⟩
    simp only [CExpr.eval, h2, hR a h3.1 h3.2]; rfl
  | bin f a b =>
    have h3 := ha a (by simp [GNode.argNodes])
    have h4 := ha b (by simp [GNode.argNodes])
    exact ⟨_, _, rfl, key (csrcBin_eval f (hR a h3.1 h3.2) (hR b h4.1 h4.2)) hlen, rfl, rfl, hR.snoc _⟩
  | dis name a =>
    have h3 := ha a (by simp [GNode.argNodes])
    refine ⟨_, _, rfl, key (x := E.disc (g.discreteNames.getD name []) (at' vals a)) ?_ hlen, rfl, rfl, hR.snoc _⟩
    simp only [CExpr.eval, extern1_disc, hR a h3.1 h3.2]; rfl
  | atom name k args => exact absurd hok id
  | atom4 name id k args =>
    have h1 := hR.mapM (l := args) ha
    set o := E.atom (g.atomicNames.getD name []) id (args.map (at' vals)) k with ho
    refine ⟨_, ⟨fun j => if vals.length ≤ j ∧ j < vals.length + k then some (o.w (j - vals.length)) else m.v j, m.y, m.cc + o.count⟩,
      rfl, ?_, rfl, rfl, ?_⟩
    · simp only [CStmt.exec, after_append, h1, Option.bind_eq_bind, Option.bind_some]
      rw [if_neg (by
        rintro (h' | h')
        · exact hok h'
        · simp only [GNode.nres] at hlen; omega)]
      simp only [nodeFlag, retFlag, ← ho]
      congr 2
      by_cases h0 : o.flag = 0
      · simp [h0]
      · by_cases h12 : o.flag = 1 ∨ o.flag = 2
        · rw [if_pos h12, if_neg h0, if_pos h12]
        · rw [if_neg h12, if_neg h0, if_neg h12, if_pos h0]
    · intro j hj1 hj2
      simp only [nodeResults, ← ho, List.length_append, List.length_map, List.length_range] at hj2 ⊢
      by_cases h : vals.length ≤ j
      · rw [if_pos ⟨h, hj2⟩, at'_append_right h, at'_range_map _ (by omega)]
      · rw [if_neg (fun h' => h h'.1), at'_append (by omega)]
        exact hR j hj1 (by omega)
  | print b c p q => exact absurd hok id
  | cexp c l r t f => exact absurd hok id
  | comp c a b =>
    have h3 := ha a (by simp [GNode.argNodes])
    have h4 := ha b (by simp [GNode.argNodes])
    refine ⟨_, { m with cc := m.cc + nodeCount E g (at' vals) (.comp c a b) }, rfl, ?_, rfl, rfl, ?_⟩
    · simp only [CStmt.exec, csrcCmp_lookup, hR a h3.1 h3.2, hR b h4.1 h4.2, Option.bind_eq_bind, Option.bind_some, nodeFlag, if_true,
        nodeCount, GNode.failed]
      by_cases h : CmpF.holds c (at' vals a) (at' vals b)
      · rw [if_pos h, if_neg (by rw [cmpRel_holds]; exact fun h' => h' h)]
      · rw [if_neg h, if_pos (by rw [cmpRel_holds]; exact h)]
    · simpa [nodeResults, GNode.results] using hR
  | sum args =>
    have h1 := hR.mapM (l := args) ha
    refine ⟨_, _, rfl, key (x := sumOver (at' vals) args) ?_ hlen, rfl, rfl, hR.snoc _⟩
    have h2 : 2 ≤ args.length := hok
    have h3 : args ≠ [] := by rintro rfl; simp at h2
    simp only [csrcSum, if_neg (show ¬ args.length = 1 by omega), CExpr.eval, if_neg h3, h1]; rfl

/-! ## The statements -/

theorem exec_cons_none {s : CStmt} {ss : List CStmt} {m m' : CMem} (h : s.exec E A nv m = some (none, m')) :
    exec E A nv (s :: ss) m = exec E A nv ss m' := by
  simp [exec, h]

theorem exec_cons_some {s : CStmt} {ss : List CStmt} {m m' : CMem} {flag : ℕ} (h : s.exec E A nv m = some (some flag, m')) :
    exec E A nv (s :: ss) m = some (flag, m') := by
  simp [exec, h]

/-- the operators -/
theorem nodes_exec (D : List Txt) (ns : List GNode) : ∀ (vals : List ℝ) (m : CMem) (c : ℕ), Rel m.v vals → NodesOk D ns vals.length →
    (∀ n ∈ ns, nodeOk n) → vals.length + (ns.map GNode.nres).sum ≤ nv → ∃ ss, csrcNodes g ns vals.length = some ss ∧
      ((evalAll E g ns vals c).2.1 = 0 → ∃ m', (∀ rest, exec E A nv (ss ++ rest) m = exec E A nv rest m') ∧ m'.y = m.y ∧
        m'.cc + c = m.cc + (evalAll E g ns vals c).2.2 ∧ Rel m'.v (evalAll E g ns vals c).1 ∧
        (evalAll E g ns vals c).1.length = vals.length + (ns.map GNode.nres).sum) ∧
      ((evalAll E g ns vals c).2.1 ≠ 0 → ∃ m', (∀ rest, exec E A nv (ss ++ rest) m = some (retFlag (evalAll E g ns vals c).2.1, m')) ∧ m'.y = m.y ∧
        m'.cc + c = m.cc + (evalAll E g ns vals c).2.2) := by
  induction ns with
  | nil =>
    intro vals m c hR _ _ _
    exact ⟨[], rfl, fun _ => ⟨m, fun _ => rfl, rfl, rfl, hR, rfl⟩, fun h => absurd rfl h⟩
  | cons n ns ih =>
    intro vals m c hR hN hok hlen
    simp only [List.map_cons, List.sum_cons] at hlen
    have hokn := hok n List.mem_cons_self
    obtain ⟨s, m', h1, h2, h3, h4, h5⟩ := node_step (E := E) (A := A) (g := g) hR hN.1 hokn (by omega : vals.length + n.nres ≤ nv)
    have hl : (vals ++ nodeResults E g (at' vals) n).length = vals.length + n.nres := by
      rw [List.length_append, nodeResults_length _ hokn]
    obtain ⟨ss, k1, k2, k3⟩ := ih (vals ++ nodeResults E g (at' vals) n) m' (c + nodeCount E g (at' vals) n) h5
      (by rw [hl]; exact hN.2.2) (fun n hn => hok n (List.mem_cons_of_mem _ hn)) (by rw [hl]; omega)
    rw [hl] at k1
    refine ⟨s :: ss, by simp [csrcNodes, h1, k1], ?_⟩
    by_cases hf : nodeFlag E g (at' vals) n = 0
    · rw [if_pos hf] at h2
      have he : evalAll E g (n :: ns) vals c = evalAll E g ns (vals ++ nodeResults E g (at' vals) n) (c + nodeCount E g (at' vals) n) := by
        simp only [evalAll, hf]; simp
      rw [he]
      refine ⟨fun h => ?_, fun h => ?_⟩
      · obtain ⟨m'', g1, g2, g3, g4, g5⟩ := k2 h
        refine ⟨m'', fun rest => ?_, g2.trans h3, by omega, g4, ?_⟩
        · rw [List.cons_append, exec_cons_none h2, g1]
        · rw [g5, hl, List.map_cons, List.sum_cons]; omega
      · obtain ⟨m'', g1, g2, g3⟩ := k3 h
        refine ⟨m'', fun rest => ?_, g2.trans h3, by omega⟩
        rw [List.cons_append, exec_cons_none h2, g1]
    · rw [if_neg hf] at h2
      have he : evalAll E g (n :: ns) vals c = (vals, nodeFlag E g (at' vals) n, c + nodeCount E g (at' vals) n) := by
        simp only [evalAll]; rw [if_pos hf]
      rw [he]
      refine ⟨fun h => absurd h hf, fun _ => ⟨m', fun rest => ?_, h3, by simp only; omega⟩⟩
      rw [List.cons_append, exec_cons_some h2]

/-- the constants -/
theorem con_exec (cs : List ℝ) (m : CMem) (hl : 1 + A.nu + cs.length ≤ nv) : ∀ n ≤ cs.length, ∃ m',
    (∀ rest, exec E A nv (((List.range n).map fun i => CStmt.setCon i (at' cs i)) ++ rest) m = exec E A nv rest m') ∧ m'.y = m.y ∧ m'.cc = m.cc ∧
    ∀ k, m'.v k = if 1 + A.nu ≤ k ∧ k < 1 + A.nu + n then some (at' cs (k - (1 + A.nu))) else m.v k := by
  intro n
  induction n with
  | zero => intro _; exact ⟨m, fun _ => rfl, rfl, rfl, fun k => by rw [if_neg (by omega)]⟩
  | succ n ih =>
    intro hn
    obtain ⟨m', h1, h2, h3, h4⟩ := ih (by omega)
    refine ⟨{ m' with v := Function.update m'.v (1 + A.nu + n) (some (at' cs n)) }, fun rest => ?_, h2, h3, fun k => ?_⟩
    · rw [List.range_succ, List.map_append, List.append_assoc, h1]
      refine exec_cons_none ?_
      simp only [CStmt.exec]
      rw [if_pos (by omega)]
    · show Function.update m'.v (1 + A.nu + n) (some (at' cs n)) k = _
      by_cases e : k = 1 + A.nu + n
      · subst e; rw [Function.update_self, if_pos (by omega), Nat.add_sub_cancel_left]
      · rw [Function.update_of_ne e, h4]
        by_cases h : 1 + A.nu ≤ k ∧ k < 1 + A.nu + n
        · rw [if_pos h, if_pos (by omega)]
        · rw [if_neg h, if_neg (by omega)]

/-- the dependent variables -/
theorem dep_exec {vals : List ℝ} (deps : List ℕ) (hA : A.ny = deps.length) (hd : ∀ d ∈ deps, 1 ≤ d ∧ d < vals.length) (m : CMem) (hR : Rel m.v vals) :
    ∀ n ≤ deps.length, ∃ m',
    (∀ rest, exec E A nv (((List.range n).map fun i => CStmt.setY i (deps.getD i 0)) ++ rest) m = exec E A nv rest m') ∧ m'.v = m.v ∧ m'.cc = m.cc ∧
    ∀ k, m'.y k = if k < n then at' vals (deps.getD k 0) else m.y k := by
  intro n
  induction n with
  | zero => intro _; exact ⟨m, fun _ => rfl, rfl, rfl, fun k => by rw [if_neg (by omega)]⟩
  | succ n ih =>
    intro hn
    obtain ⟨m', h1, h2, h3, h4⟩ := ih (by omega)
    have hm : deps.getD n 0 ∈ deps := by
      rw [List.getD_eq_getElem _ _ (by omega)]; exact List.getElem_mem _
    have hv := hR _ (hd _ hm).1 (hd _ hm).2
    refine ⟨{ m' with y := Function.update m'.y n (at' vals (deps.getD n 0)) }, fun rest => ?_, h2, h3, fun k => ?_⟩
    · rw [List.range_succ, List.map_append, List.append_assoc, h1]
      refine exec_cons_none ?_
      simp only [CStmt.exec, h2, hv, Option.bind_eq_bind, Option.bind_some]
      rw [if_pos (by omega)]
    · show Function.update m'.y n _ k = _
      by_cases e : k = n
      · subst e; rw [Function.update_self, if_pos (by omega)]
      · rw [Function.update_of_ne e, h4]
        by_cases h : k < n
        · rw [if_pos h, if_pos (by omega)]
        · rw [if_neg h, if_neg (by omega)]

/-- a graph that csrc_writer can convert: it has a name, arguments are previous nodes, and all its operators are implemented -/
structure Ok (g : CppGraph) : Prop where
  name : g.name ≠ []
  nodes : NodesOk g.discreteNames g.nodes (1 + g.nDyn + g.nVar + g.constants.length)
  deps : ∀ d ∈ g.deps, 1 ≤ d ∧ d < g.numNodes
  ops : ∀ n ∈ g.nodes, nodeOk n

theorem at'_start {g : CppGraph} {d x : List ℝ} (k : ℕ) (hk : 1 ≤ k) : at' (g.start d x) k = at' (d ++ x ++ g.constants) (k - 1) := by
  obtain ⟨j, rfl⟩ : ∃ j, k = j + 1 := ⟨k - 1, by omega⟩
  rfl

/-- **C53** The function that is written computes what the graph says: for every graph with a name whose operators are
implemented (no neg, no conditional expression, no print, no atomic_three, every sum has at least two terms), every
external discrete and atomic functions, and every argument: it returns zero, `y` contains the values of the dependent
nodes, nothing else in `y` is changed, and the number of comparisons that are false is added to
`*compare_change`.  If an atomic callback returns an error, it returns an error and
`y` is not changed.  If `nu` (or else `ny`) is not the expected value, it returns one (two) and nothing is changed. -/
theorem csrc_values_partial (E : CEnv) (g : CppGraph) (h : Ok g) : ∃ f, csrcWriter g = some f ∧
    (∀ (d x : List ℝ) (y : ℕ → ℝ) (cc : ℕ), d.length = g.nDyn → x.length = g.nVar → (evalGraph E g d x).2.1 = 0 →
      ∃ y', f.call E (g.nDyn + g.nVar) (at' (d ++ x)) g.deps.length y cc = some (0, y', cc + (evalGraph E g d x).2.2) ∧
        (∀ i < g.deps.length, y' i = at' (evalGraph E g d x).1 i) ∧ ∀ i, g.deps.length ≤ i → y' i = y i) ∧
    (∀ (d x : List ℝ) (y : ℕ → ℝ) (cc : ℕ), d.length = g.nDyn → x.length = g.nVar → (evalGraph E g d x).2.1 ≠ 0 →
      f.call E (g.nDyn + g.nVar) (at' (d ++ x)) g.deps.length y cc =
        some (retFlag (evalGraph E g d x).2.1, y, cc + (evalGraph E g d x).2.2)) ∧
    (∀ (nu : ℕ) (u : ℕ → ℝ) (ny : ℕ) (y : ℕ → ℝ) (cc : ℕ), nu ≠ g.nDyn + g.nVar → f.call E nu u ny y cc = some (1, y, cc)) ∧
    (∀ (u : ℕ → ℝ) (ny : ℕ) (y : ℕ → ℝ) (cc : ℕ), ny ≠ g.deps.length → f.call E (g.nDyn + g.nVar) u ny y cc = some (2, y, cc)) := by
  have hn := h.nodes
  set first := 1 + g.nDyn + g.nVar + g.constants.length with hfirst
  have hstart : ∀ d x : List ℝ, d.length = g.nDyn → x.length = g.nVar → (g.start d x).length = first := by
    intro d x hd hx; simp [CppGraph.start, hd, hx, hfirst]; omega
  have hb : ∃ ss, csrcNodes g g.nodes first = some ss := by
    obtain ⟨ss, h1, -⟩ := nodes_exec (E := E) (A := ⟨0, fun _ => 0, 0⟩) (nv := first + (g.nodes.map GNode.nres).sum) (g := g) g.discreteNames g.nodes
      (List.replicate first 0) ⟨fun k => some (at' (List.replicate first 0) k), fun _ => 0, 0⟩ 0 (fun k _ _ => rfl)
      (by rw [List.length_replicate]; exact hn) h.ops (by rw [List.length_replicate])
    rw [List.length_replicate] at h1
    exact ⟨ss, h1⟩
  obtain ⟨ss, hss⟩ := hb
  have hw : csrcWriter g = some ⟨first + (g.nodes.map GNode.nres).sum,
      [.retNu (g.nDyn + g.nVar) 1, .retNy g.deps.length 2, .set 0 .nan, .copyU] ++
          ((List.range g.constants.length).map fun i => .setCon i (at' g.constants i)) ++ ss ++
          ((List.range g.deps.length).map fun i => .setY i (g.deps.getD i 0)) ++ [.ret 0]⟩ := by
    unfold csrcWriter
    rw [if_neg h.name]
    dsimp only
    rw [← hfirst, hss]; rfl
  set nv := first + (g.nodes.map GNode.nres).sum with hnv
  -- the state after the beginning of the body
  have hbegin : ∀ (d x : List ℝ) (y : ℕ → ℝ) (cc : ℕ), d.length = g.nDyn → x.length = g.nVar → ∃ m : CMem, Rel m.v (g.start d x) ∧ m.y = y ∧ m.cc = cc ∧
      ∀ rest, exec E ⟨g.nDyn + g.nVar, at' (d ++ x), g.deps.length⟩ nv ([.retNu (g.nDyn + g.nVar) 1, .retNy g.deps.length 2, .set 0 .nan, .copyU] ++
          ((List.range g.constants.length).map fun i => .setCon i (at' g.constants i)) ++ rest) ⟨fun _ => none, y, cc⟩ =
        exec E ⟨g.nDyn + g.nVar, at' (d ++ x), g.deps.length⟩ nv rest m := by
    intro d x y cc hd hx
    set A : CArgs := ⟨g.nDyn + g.nVar, at' (d ++ x), g.deps.length⟩ with hA
    set m1 : CMem := ⟨Function.update (fun _ => none) 0 (some E.nan), y, cc⟩ with hm1
    set m2 : CMem := ⟨fun k => if 1 ≤ k ∧ k ≤ A.nu then some (A.u (k - 1)) else m1.v k, y, cc⟩ with hm2
    obtain ⟨m3, h1, h2, h3, h4⟩ := con_exec (E := E) (A := A) (nv := nv) g.constants m2 (by simp only [hA]; omega) _ (le_refl _)
    refine ⟨m3, fun k hk1 hk2 => ?_, h2, h3, fun rest => ?_⟩
    · rw [hstart d x hd hx] at hk2
      rw [h4, at'_start k hk1]
      have hdx : (d ++ x).length = g.nDyn + g.nVar := by simp [hd, hx]
      by_cases hc : 1 + A.nu ≤ k ∧ k < 1 + A.nu + g.constants.length
      · rw [if_pos hc]
        simp only [hA] at hc ⊢
        rw [at'_append_right (by omega), hdx]
        congr 2; omega
      · rw [if_neg hc]
        simp only [hA] at hc
        have hk3 : k ≤ g.nDyn + g.nVar := by omega
        rw [at'_append (by omega)]
        simp only [hm2, hA]
        rw [if_pos ⟨hk1, hk3⟩]
    · rw [List.append_assoc]
      have e1 : (CStmt.retNu (g.nDyn + g.nVar) 1).exec E A nv ⟨fun _ => none, y, cc⟩ = some (none, ⟨fun _ => none, y, cc⟩) := by
        simp [CStmt.exec, hA]
      have e2 : (CStmt.retNy g.deps.length 2).exec E A nv ⟨fun _ => none, y, cc⟩ = some (none, ⟨fun _ => none, y, cc⟩) := by
        simp [CStmt.exec, hA]
      have e3 : (CStmt.set 0 .nan).exec E A nv ⟨fun _ => none, y, cc⟩ = some (none, m1) := by
        simp only [CStmt.exec, CExpr.eval, Option.bind_eq_bind, Option.bind_some]
        rw [if_pos (by omega)]
      have e4 : CStmt.copyU.exec E A nv m1 = some (none, m2) := by
        simp only [CStmt.exec]
        rw [if_pos (by simp only [hA]; omega)]
      simp only [List.cons_append, List.nil_append]
      rw [exec_cons_none e1, exec_cons_none e2, exec_cons_none e3, exec_cons_none e4, h1]
  refine ⟨_, hw, fun d x y cc hd hx h0 => ?_, fun d x y cc hd hx h0 => ?_, fun nu u ny y cc hnu => ?_, fun u ny y cc hny => ?_⟩
  · obtain ⟨m, m1, m2, m3, m4⟩ := hbegin d x y cc hd hx
    have hl := hstart d x hd hx
    obtain ⟨ss', k1, k2, -⟩ := nodes_exec (E := E) (A := ⟨g.nDyn + g.nVar, at' (d ++ x), g.deps.length⟩) (nv := nv) (g := g) g.discreteNames g.nodes
      (g.start d x) m 0 m1 (by rw [hl]; exact hn) h.ops (by rw [hl])
    rw [hl, hss] at k1
    obtain rfl := Option.some.inj k1
    obtain ⟨m', g1, g2, g3, g4, g5⟩ := k2 h0
    obtain ⟨m'', f1, f2, f3, f4⟩ := dep_exec (E := E) (A := ⟨g.nDyn + g.nVar, at' (d ++ x), g.deps.length⟩) (nv := nv) g.deps rfl
      (fun k hk => ⟨(h.deps k hk).1, by rw [g5, hl]; exact (h.deps k hk).2⟩) m' g4 _ (le_refl _)
    refine ⟨m''.y, ?_, fun i hi => ?_, fun i hi => ?_⟩
    · unfold CFun.call
      dsimp only
      rw [List.append_assoc, List.append_assoc, m4, g1, f1]
      simp only [exec, CStmt.exec, Option.bind_eq_bind, Option.bind_some, Option.map_some]
      rw [f3]
      simp only [evalGraph]
      rw [← m3, ← g3]; rfl
    · rw [f4, if_pos hi]
      simp only [evalGraph]
      unfold at'
      rw [List.getD_eq_getElem (g.deps.map _) _ (by simpa using hi), List.getElem_map, List.getD_eq_getElem g.deps _ hi]
    · rw [f4, if_neg (by omega), g2, m2]
  · obtain ⟨m, m1, m2, m3, m4⟩ := hbegin d x y cc hd hx
    have hl := hstart d x hd hx
    obtain ⟨ss', k1, -, k2⟩ := nodes_exec (E := E) (A := ⟨g.nDyn + g.nVar, at' (d ++ x), g.deps.length⟩) (nv := nv) (g := g) g.discreteNames g.nodes
      (g.start d x) m 0 m1 (by rw [hl]; exact hn) h.ops (by rw [hl])
    rw [hl, hss] at k1
    obtain rfl := Option.some.inj k1
    obtain ⟨m', g1, g2, g3⟩ := k2 h0
    unfold CFun.call
    dsimp only
    rw [List.append_assoc, List.append_assoc, m4, g1]
    simp only [Option.map_some, g2, m2, evalGraph]
    rw [← m3, ← g3]; rfl
  · unfold CFun.call
    simp only [List.cons_append]
    rw [exec_cons_some (m' := ⟨fun _ => none, y, cc⟩) (flag := 1) (by simp [CStmt.exec, hnu])]
    rfl
  · unfold CFun.call
    simp only [List.cons_append]
    rw [exec_cons_none (m' := ⟨fun _ => none, y, cc⟩) (by simp [CStmt.exec]),
      exec_cons_some (m' := ⟨fun _ => none, y, cc⟩) (flag := 2) (by simp [CStmt.exec, hny])]
    rfl

end CppAD.Csrc
