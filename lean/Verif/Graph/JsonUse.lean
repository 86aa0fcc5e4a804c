import Verif.Graph.JsonLex
import Verif.Graph.Itr

/-! # Reading back one operator -/

namespace CppAD.Graph

open CppAD CppAD.Record CppAD.Optim

theorem name2code_name (c : GCode) : name2code c.name = c := by
  rcases c with (_ | _) <;> first | decide | (rename_i f; cases f <;> decide)

theorem mem_table (c : GCode) : c ∈ opTable.map fun e => e.1 := by
  rcases c with (_ | _) <;> first | decide | (rename_i f; cases f <;> decide)

theorem clean_name (c : GCode) : Clean c.name := by
  have : ∀ c : GCode, (c.name.all fun x => decide (x ≠ '\'' ∧ x ≠ '"')) = true := by
    intro c
    rcases c with (_ | _) <;> first | decide | (rename_i f; cases f <;> decide)
  intro x hx
  simpa using List.all_eq_true.mp (this c) x hx

theorem nArg_lt (c : GCode) : c.nArg < 2 ^ 31 := by
  have : ∀ c : GCode, c.nArg ≤ 4 := by
    intro c
    rcases c with (_ | _) <;> first | decide | (rename_i f; cases f <;> decide)
  have := this c
  omega

theorem getD_graphCode {ops : List GCode} {c d : GCode} (h : c ∈ ops) : (d :: defines ops).getD (graphCode ops c) d = c := by
  have hm : c ∈ defines ops := by
    rw [defines, List.mem_filter]
    exact ⟨mem_table c, by simpa using h⟩
  rw [graphCode, if_pos h, List.getD_cons_succ, List.getD_eq_getElem _ _ (List.idxOf_lt_length_of_mem hm), List.getElem_idxOf]

theorem defines_len (ops : List GCode) : (defines ops).length ≤ 40 := by
  refine le_trans (List.length_filter_le _ _) ?_
  simp [opTable]

theorem graphCode_lt (ops : List GCode) (c : GCode) : graphCode ops c < 2 ^ 31 := by
  unfold graphCode
  split
  · have := List.idxOf_le_length (a := c) (l := defines ops)
    have := defines_len ops
    omega
  · decide

/-! ## Definitions -/

theorem nArg_un (f : UnF) : (GCode.un f).nArg = 1 := by cases f <;> decide
theorem nArg_bin (f : BinF) : (GCode.bin f).nArg = 2 := by cases f <;> decide
theorem nArg_cexp (f : GCmp) : (GCode.cexp f).nArg = 4 := by cases f <;> decide
theorem nArg_comp (f : CmpF) : (GCode.comp f).nArg = 0 := by cases f <;> decide
theorem nArg_sum : GCode.sum.nArg = 0 := by decide
theorem nArg_dis : GCode.dis.nArg = 0 := by decide
theorem nArg_atom : GCode.atom.nArg = 0 := by decide
theorem nArg_print : GCode.print.nArg = 0 := by decide

theorem dec0 : dec 0 = ['0'] := by decide
theorem dec1 : dec 1 = ['1'] := by decide
theorem dec2 : dec 2 = ['2'] := by decide

attribute [local irreducible] GCode.nArg GCode.name name2code dec graphCode lst

theorem pDefine_run (J : JCfg) (ops : List GCode) (c : GCode) (a : Char) (t : Txt) :
    (pDefine J).run (a :: ((writeDefine ops c).map quote ++ t)) = some (c, '}' :: t) := by
  have hk := graphCode_lt ops c
  have key' : ∀ (k : Txt) (a : Char) (t u : Txt), k ++ ['"'] = u → Clean k → (key k).run (a :: '"' :: (u ++ t)) = some ((), '"' :: t) := by
    rintro k a t _ rfl hk
    simpa using key_hit a k t hk
  have k1 := fun a t => key' "op_code".toList a t _ rfl (by intro c hc; revert c; decide)
  have k2 := fun a t => key' "name".toList a t _ rfl (by intro c hc; revert c; decide)
  have k3 := fun a t => key' "n_arg".toList a t _ rfl (by intro c hc; revert c; decide)
  simp at k1 k2 k3
  have hsp : isSpace ' ' = true := by decide
  have i1 := fun a t => int_hit J a ',' t hk (by decide)
  have i2 := fun a t => int_hit J a ' ' t (nArg_lt c) (by decide)
  have s1 := fun a t => str_hit a c.name t (clean_name c)
  have c1 := fun a t => chk_hit '{' a t (by decide)
  have c2 := fun a t => chk_hit ':' a t (by decide)
  have c3 := fun a t => chk_hit ',' a t (by decide)
  have c4 := fun a t => chk_hit '}' a t (by decide)
  have q1 := fun a c t => chk_sp c a ' ' t hsp
  have q2 := fun a c t => key_sp c a ' ' t hsp
  by_cases h0 : c.nArg = 0
  · have ht : (writeDefine ops c).map quote ++ t = '{' :: ' ' :: '"' :: 'o' :: 'p' :: '_' :: 'c' :: 'o' :: 'd' :: 'e' :: '"' :: ':' ::
        (dec (graphCode ops c) ++ ',' :: ' ' :: '"' :: 'n' :: 'a' :: 'm' :: 'e' :: '"' :: ':' :: '"' :: (c.name ++ '"' :: ' ' :: '}' :: t)) := by
      delta writeDefine
      simp [h0, quote, quote_clean (clean_name c)]
    rw [ht]
    delta pDefine
    simp only [StateT.run_bind, String.reduceToList, c1, c2, c3, c4, q1, q2, k1, k2, k3, i1, s1, Option.bind_eq_bind, Option.bind_some, name2code_name, h0,
      gt_iff_lt, lt_irrefl, if_false]
    simp
  · have ht : (writeDefine ops c).map quote ++ t = '{' :: ' ' :: '"' :: 'o' :: 'p' :: '_' :: 'c' :: 'o' :: 'd' :: 'e' :: '"' :: ':' ::
        (dec (graphCode ops c) ++ ',' :: ' ' :: '"' :: 'n' :: 'a' :: 'm' :: 'e' :: '"' :: ':' :: '"' :: (c.name ++ '"' :: ',' :: ' ' ::
          '"' :: 'n' :: '_' :: 'a' :: 'r' :: 'g' :: '"' :: ':' :: (dec c.nArg ++ ' ' :: '}' :: t))) := by
      delta writeDefine
      simp [h0, quote, quote_clean (clean_name c)]
    rw [ht]
    delta pDefine
    simp only [StateT.run_bind, String.reduceToList, c1, c2, c3, c4, q1, q2, k1, k2, k3, i1, s1, Option.bind_eq_bind, Option.bind_some, name2code_name,
      gt_iff_lt, Nat.pos_of_ne_zero h0, if_true, i2]
    simp

/-! ## Names -/

/-- the vectors of names of `h` begin with the ones of `g` -/
def NamesLe (g h : CppGraph) : Prop :=
  g.discreteNames <+: h.discreteNames ∧ g.atomicNames <+: h.atomicNames ∧ g.printText <+: h.printText

theorem NamesLe.refl (g : CppGraph) : NamesLe g g := ⟨List.prefix_refl _, List.prefix_refl _, List.prefix_refl _⟩

theorem NamesLe.trans {g h k : CppGraph} (a : NamesLe g h) (b : NamesLe h k) : NamesLe g k :=
  ⟨a.1.trans b.1, a.2.1.trans b.2.1, a.2.2.trans b.2.2⟩

/-- the vectors of names have no duplicates -/
def NamesNodup (g : CppGraph) : Prop := g.discreteNames.Nodup ∧ g.atomicNames.Nodup ∧ g.printText.Nodup

/-- indices of names are in range -/
def NamesIn (g : CppGraph) : GNode → Prop
  | .dis name _ => name < g.discreteNames.length
  | .atom name _ _ => name < g.atomicNames.length
  | .atom4 name _ _ _ => name < g.atomicNames.length
  | .print before after _ _ => before < g.printText.length ∧ after < g.printText.length
  | _ => True

theorem prefix_getD {l m : List Txt} (h : l <+: m) {i : ℕ} (hi : i < l.length) : m.getD i [] = l.getD i [] := by
  obtain ⟨r, rfl⟩ := h
  exact List.getD_append _ _ _ _ hi

theorem NamesIn.use {g h : CppGraph} {n : GNode} (hn : NamesIn g n) (hl : NamesLe g h) : n.use h = n.use g := by
  have : n.strs h = n.strs g := by
    cases n with
    | dis name a => simp only [GNode.strs, prefix_getD hl.1 hn]
    | atom name r l => simp only [GNode.strs, prefix_getD hl.2.1 hn]
    | atom4 name c r l => simp only [GNode.strs, prefix_getD hl.2.1 hn]
    | print b a x y => simp only [GNode.strs, prefix_getD hl.2.2 hn.1, prefix_getD hl.2.2 hn.2]
    | _ => rfl
  simp only [GNode.use, this]

theorem NamesIn.le {g h : CppGraph} {n : GNode} (hn : NamesIn g n) (hl : NamesLe g h) : NamesIn h n := by
  have h1 := hl.1.length_le
  have h2 := hl.2.1.length_le
  have h3 := hl.2.2.length_le
  cases n <;> simp only [NamesIn] at * <;> omega

theorem addName_mem (l : List Txt) (s : Txt) : ∀ m ∈ (addName l s).1, m ∈ l ∨ m = s := by
  intro m hm
  unfold addName at hm
  dsimp only at hm
  split_ifs at hm with h
  · simpa using hm
  · exact Or.inl hm

theorem addName_ok (l : List Txt) (s : Txt) : l <+: (addName l s).1 ∧ (addName l s).2 < (addName l s).1.length ∧
    (addName l s).1.getD (addName l s).2 [] = s ∧ (l.Nodup → (addName l s).1.Nodup) := by
  unfold addName
  by_cases h : l.findIdx (fun x => decide (x = s)) = l.length
  · simp only [h, if_true]
    refine ⟨List.prefix_append _ _, by simp, by simp, fun hn => ?_⟩
    rw [List.nodup_append]
    refine ⟨hn, List.nodup_singleton _, ?_⟩
    rw [List.findIdx_eq_length] at h
    intro a ha b hb
    rw [List.mem_singleton] at hb
    rw [hb]
    simpa using h a ha
  · simp only [h, if_false]
    have hlt : l.findIdx (fun x => decide (x = s)) < l.length := lt_of_le_of_ne List.findIdx_le_length h
    refine ⟨List.prefix_refl _, hlt, ?_, id⟩
    rw [List.getD_eq_getElem _ _ hlt]
    simpa using List.findIdx_getElem (w := hlt)

/-! ## Operators -/

theorem args_run (J : JCfg) (args : List ℕ) (h : ∀ x ∈ args, x < 2 ^ 31) (a c : Char) (t : Txt) (hc : c.isDigit = false) :
    ∃ a', (sepBy J.int args.length).run (a :: (joinSep [',', ' '] (args.map dec) ++ c :: t)) = some (args, a' :: c :: t) := by
  refine sepBy_run (fun c => !c.isDigit) (by decide) ' ' (by decide) (args.map dec) args (by simp)
    (fun a b t hb => int_sp J a b t hb) (fun i hi a c t hc => ?_) a c t (by simpa using hc)
  refine ⟨lst (args[i]'(by simpa using hi)), ?_⟩
  rw [List.getElem_map]
  exact int_hit J a c t (h _ (List.getElem_mem _)) (by simpa using hc)

/-- result of reading an operator -/
def Read (J : JCfg) (codes : List GCode) (g g0 : CppGraph) (n : GNode) (a : Char) (txt t : Txt) : Prop :=
  ∃ (g1 : CppGraph) (n' : GNode), (pUsage J codes g).run (a :: (txt ++ t)) = some (g1.push n', ']' :: t) ∧ n'.use g1 = n.use g0 ∧
    NamesLe g g1 ∧ NamesIn g1 n' ∧ (NamesNodup g → NamesNodup g1) ∧ g1.ops = g.ops ∧ g1.args = g.args ∧ g1.name = g.name ∧
    g1.nDyn = g.nDyn ∧ g1.nVar = g.nVar ∧ g1.constants = g.constants ∧ g1.deps = g.deps ∧
    ∀ m ∈ g1.discreteNames, m ∈ g.discreteNames ∨ (n.code = .dis ∧ m ∈ n.strs g0)

theorem add_push (g : CppGraph) (n : GNode) : g.add n.code n.enc = g.push n := rfl

theorem fixed_read (J : JCfg) (codes : List GCode) (g g0 : CppGraph) (n : GNode) (k : ℕ) (hk : k < 2 ^ 31)
    (hc : codes.getD k (.un .abs) = n.code) (hf : n.code.nArg = n.argNodes.length) (hpos : n.argNodes ≠ []) (he : n.enc = n.argNodes)
    (hpre : prefixArgs n.code [] [] 1 n.code.nArg = []) (hs : ∀ h, n.strs h = []) (hin : NamesIn g n) (ha : ∀ x ∈ n.argNodes, x < 2 ^ 31)
    (a : Char) (t : Txt) :
    Read J codes g g0 n a (("[ ".toList ++ (dec k ++ (", ".toList ++ writeArgs n.argNodes))).map quote) t := by
  have ht : ("[ ".toList ++ (dec k ++ (", ".toList ++ writeArgs n.argNodes))).map quote ++ t = '[' :: ' ' :: (dec k ++ ',' :: ' ' ::
      (joinSep [',', ' '] (n.argNodes.map dec) ++ ' ' :: ']' :: t)) := by
    have e : (n.argNodes.map dec).map (List.map quote) = n.argNodes.map dec := by
      rw [List.map_map]
      exact List.map_congr_left fun x _ => quote_dec x
    delta writeArgs
    rw [if_neg hpos]
    simp [map_joinSep, quote, e]
  have hsp : isSpace ' ' = true := by decide
  have i1 := fun a t => int_hit J a ',' t hk (by decide)
  have i2 := fun a t => int_sp J a ' ' t hsp
  have c1 := fun a t => chk_hit '[' a t (by decide)
  have c3 := fun a t => chk_hit ',' a t (by decide)
  have c4 := fun a t => chk_hit ']' a t (by decide)
  have q1 := fun a c t => chk_sp c a ' ' t hsp
  have hpos' : 0 < n.code.nArg := by rw [hf]; exact List.length_pos_of_ne_nil hpos
  obtain ⟨a', hargs⟩ := args_run J n.argNodes ha ' ' ' ' (']' :: t) (by decide)
  have hs2 : (sepBy J.int n.argNodes.length).run (',' :: ' ' :: (joinSep [',', ' '] (n.argNodes.map dec) ++ ' ' :: ']' :: t)) =
      (sepBy J.int n.argNodes.length).run (' ' :: (joinSep [',', ' '] (n.argNodes.map dec) ++ ' ' :: ']' :: t)) := by
    cases h : n.argNodes.length with
    | zero => simp [sepBy] at *; exact absurd h hpos
    | succ m => cases m <;> simp only [sepBy, StateT.run_bind, i2]
  refine ⟨g, n, ?_, ?_, NamesLe.refl g, hin, id, rfl, rfl, rfl, rfl, rfl, rfl, rfl, fun m hm => Or.inl hm⟩
  · rw [ht]
    delta pUsage
    simp only [StateT.run_bind, String.reduceToList, c1, c3, c4, q1, i1, i2, Option.bind_eq_bind, Option.bind_some, hc, gt_iff_lt, hpos', if_true]
    rw [hpre, hf, hs2, hargs]
    simp only [Option.bind_some, q1, c4, List.nil_append]
    rw [← he, add_push]
    rfl
  · simp only [GNode.use, hs]

theorem sepBy_sp (J : JCfg) (n : ℕ) (hn : n ≠ 0) (a b : Char) (t : Txt) (hb : isSpace b = true) :
    (sepBy J.int n).run (a :: b :: t) = (sepBy J.int n).run (b :: t) := by
  match n with
  | 0 => exact absurd rfl hn
  | 1 => simp only [sepBy, StateT.run_bind, int_sp J a b t hb]
  | n + 2 => simp only [sepBy, StateT.run_bind, int_sp J a b t hb]

theorem tail_run (J : JCfg) (nres : ℕ) (args : List ℕ) (hr : nres < 2 ^ 31) (hl : args.length < 2 ^ 31) (ha : ∀ x ∈ args, x < 2 ^ 31)
    (w1 w2 : Txt) (h1 : w1 = [] ∨ w1 = [' ']) (h2 : w2 = [] ∨ w2 = [' ']) (a : Char) (t : Txt) :
    (pTail J).run (a :: (dec nres ++ ',' :: ' ' :: (dec args.length ++ ',' :: ' ' :: '[' :: (w1 ++ (joinSep [',', ' '] (args.map dec) ++
      (w2 ++ ']' :: ' ' :: ']' :: t)))))) = some ((nres, args.length, args), ']' :: t) := by
  have hsp : isSpace ' ' = true := by decide
  have i1 := fun a t => int_hit J a ',' t hr (by decide)
  have i2 := fun a t => int_hit J a ',' t hl (by decide)
  have i3 := fun a t => int_sp J a ' ' t hsp
  have c1 := fun a t => chk_hit '[' a t (by decide)
  have c3 := fun a t => chk_hit ',' a t (by decide)
  have c4 := fun a t => chk_hit ']' a t (by decide)
  have q1 := fun a c t => chk_sp c a ' ' t hsp
  have key : ∃ a', (sepBy J.int args.length).run ('[' :: (w1 ++ (joinSep [',', ' '] (args.map dec) ++ (w2 ++ ']' :: ' ' :: ']' :: t)))) =
      some (args, a' :: (w2 ++ ']' :: ' ' :: ']' :: t)) ∨
      (args = [] ∧ (sepBy J.int args.length).run ('[' :: (w1 ++ (joinSep [',', ' '] (args.map dec) ++ (w2 ++ ']' :: ' ' :: ']' :: t)))) =
        some (args, '[' :: (w1 ++ (w2 ++ ']' :: ' ' :: ']' :: t)))) := by
    by_cases h0 : args = []
    · exact ⟨' ', Or.inr ⟨h0, by subst h0; rfl⟩⟩
    · have hlen : args.length ≠ 0 := by simpa using h0
      obtain ⟨c, u, hw, hd⟩ : ∃ c u, w2 ++ ']' :: ' ' :: ']' :: t = c :: u ∧ c.isDigit = false := by
        rcases h2 with rfl | rfl
        · exact ⟨']', ' ' :: ']' :: t, rfl, by decide⟩
        · exact ⟨' ', ']' :: ' ' :: ']' :: t, rfl, by decide⟩
      rw [hw]
      rcases h1 with rfl | rfl
      · obtain ⟨a', h⟩ := args_run J args ha '[' c u hd
        exact ⟨a', Or.inl h⟩
      · obtain ⟨a', h⟩ := args_run J args ha ' ' c u hd
        refine ⟨a', Or.inl ?_⟩
        rw [List.cons_append, List.nil_append, sepBy_sp J _ hlen _ _ _ hsp, h]
  have fin : ∀ a', (chk ']').run (a' :: (w2 ++ ']' :: ' ' :: ']' :: t)) = some ((), ']' :: ' ' :: ']' :: t) := by
    intro a'
    rcases h2 with rfl | rfl
    · exact c4 _ _
    · rw [List.cons_append, List.nil_append, q1, c4]
  have fin2 : (chk ']').run ('[' :: (w1 ++ (w2 ++ ']' :: ' ' :: ']' :: t))) = some ((), ']' :: ' ' :: ']' :: t) := by
    rcases h1 with rfl | rfl
    · exact fin _
    · rw [List.cons_append, List.nil_append, q1, fin]
  delta pTail
  simp only [StateT.run_bind, c1, c3, q1, i1, i2, i3, Option.bind_eq_bind, Option.bind_some]
  obtain ⟨a', h | ⟨-, h⟩⟩ := key
  · rw [h]
    simp only [Option.bind_some, fin, q1, c4]
    rfl
  · rw [h]
    simp only [Option.bind_some, fin2, q1, c4]
    rfl

theorem quote_args (args : List ℕ) : (args.map dec).map (List.map quote) = args.map dec := by
  rw [List.map_map]
  exact List.map_congr_left fun x _ => quote_dec x

theorem quote_args' (args : List ℕ) : args.map (List.map quote ∘ dec) = args.map dec :=
  List.map_congr_left fun x _ => quote_dec x

theorem usage_read (J : JCfg) (codes : List GCode) (g g0 : CppGraph) (n : GNode) (k : ℕ) (hk : k < 2 ^ 31)
    (hc : codes.getD k (.un .abs) = n.code) (hn : n.JsonOk g0) (a : Char) (t : Txt) :
    Read J codes g g0 n a ((writeUsage g0 k n).map quote) t := by
  have hsp : isSpace ' ' = true := by decide
  have i1 := fun a t => int_hit J a ',' t hk (by decide)
  have i3 := fun a t => int_sp J a ' ' t hsp
  have c1 := fun a t => chk_hit '[' a t (by decide)
  have c3 := fun a t => chk_hit ',' a t (by decide)
  have q1 := fun a c t => chk_sp c a ' ' t hsp
  have q3 := fun a t => str_sp a ' ' t hsp
  have tsp : ∀ a t, (pTail J).run (a :: ' ' :: t) = (pTail J).run (' ' :: t) := by
    intro a t
    delta pTail
    simp only [StateT.run_bind, i3]
  cases n with
  | un f x => exact fixed_read J codes g g0 _ k hk hc (nArg_un f) (by simp [GNode.argNodes]) rfl rfl (fun _ => rfl) trivial hn.args a t
  | bin f x y => exact fixed_read J codes g g0 _ k hk hc (nArg_bin f) (by simp [GNode.argNodes]) rfl rfl (fun _ => rfl) trivial hn.args a t
  | cexp c l r y f => exact fixed_read J codes g g0 _ k hk hc (nArg_cexp c) (by simp [GNode.argNodes]) rfl rfl (fun _ => rfl) trivial hn.args a t
  | atom4 name c r args => exact absurd rfl hn.noAtom4
  | sum args =>
    have ht : (writeUsage g0 k (.sum args)).map quote ++ t = '[' :: ' ' :: (dec k ++ ',' :: ' ' :: (dec 1 ++ ',' :: ' ' :: (dec args.length ++
        ',' :: ' ' :: '[' :: ([' '] ++ (joinSep [',', ' '] (args.map dec) ++ ([] ++ ']' :: ' ' :: ']' :: t)))))) := by
      delta writeUsage
      simp [map_joinSep, quote, quote_args', dec1]
    refine ⟨g, .sum args, ?_, rfl, NamesLe.refl g, trivial, id, rfl, rfl, rfl, rfl, rfl, rfl, rfl, fun m hm => Or.inl hm⟩
    rw [ht]
    delta pUsage
    simp only [StateT.run_bind, c1, c3, q1, i1, i3, Option.bind_eq_bind, Option.bind_some, hc, gt_iff_lt]
    rw [if_neg (by show ¬ 0 < GCode.sum.nArg; rw [nArg_sum]; decide)]
    simp only [GNode.code, pStrings, pCall, StateT.run_bind, StateT.run_pure, Option.pure_def, Option.bind_eq_bind, Option.bind_some, tsp,
      tail_run J 1 args (by decide) hn.nargs hn.args [' '] [] (Or.inr rfl) (Or.inl rfl)]
    rfl
  | comp c x y =>
    have ht : (writeUsage g0 k (.comp c x y)).map quote ++ t = '[' :: ' ' :: (dec k ++ ',' :: ' ' :: (dec 0 ++ ',' :: ' ' :: (dec [x, y].length ++
        ',' :: ' ' :: '[' :: ([' '] ++ (joinSep [',', ' '] ([x, y].map dec) ++ ([' '] ++ ']' :: ' ' :: ']' :: t)))))) := by
      delta writeUsage
      simp [map_joinSep, quote, quote_args, dec0, dec2, joinSep]
    refine ⟨g, .comp c x y, ?_, rfl, NamesLe.refl g, trivial, id, rfl, rfl, rfl, rfl, rfl, rfl, rfl, fun m hm => Or.inl hm⟩
    rw [ht]
    delta pUsage
    simp only [StateT.run_bind, c1, c3, q1, i1, i3, Option.bind_eq_bind, Option.bind_some, hc, gt_iff_lt]
    rw [if_neg (by show ¬ 0 < (GCode.comp c).nArg; rw [nArg_comp]; decide)]
    simp only [GNode.code, pStrings, pCall, StateT.run_bind, StateT.run_pure, Option.pure_def, Option.bind_eq_bind, Option.bind_some, tsp,
      tail_run J 0 [x, y] (by decide) hn.nargs hn.args [' '] [' '] (Or.inr rfl) (Or.inr rfl)]
    rfl
  | dis name x =>
    have hcl : Clean (g0.discreteNames.getD name []) := hn.strs _ (by simp [GNode.strs])
    have s1 := fun a t => str_hit a _ t hcl
    have ht : (writeUsage g0 k (.dis name x)).map quote ++ t = '[' :: ' ' :: (dec k ++ ',' :: ' ' :: '"' :: (g0.discreteNames.getD name [] ++
        '"' :: ',' :: ' ' :: (dec 1 ++ ',' :: ' ' :: (dec [x].length ++
        ',' :: ' ' :: '[' :: ([' '] ++ (joinSep [',', ' '] ([x].map dec) ++ ([' '] ++ ']' :: ' ' :: ']' :: t))))))) := by
      delta writeUsage
      simp only [List.map_append, quote_clean hcl]
      simp [quote, joinSep]
    have ha := addName_ok g.discreteNames (g0.discreteNames.getD name [])
    refine ⟨{ g with discreteNames := (addName g.discreteNames (g0.discreteNames.getD name [])).1 },
      .dis (addName g.discreteNames (g0.discreteNames.getD name [])).2 x, ?_, ?_, ⟨ha.1, List.prefix_refl _, List.prefix_refl _⟩, ha.2.1,
      fun h => ⟨ha.2.2.2 h.1, h.2⟩, rfl, rfl, rfl, rfl, rfl, rfl, rfl, fun m hm => (addName_mem _ _ m hm).imp id fun h => ⟨rfl, by simp [GNode.strs, h]⟩⟩
    · rw [ht]
      delta pUsage
      simp only [StateT.run_bind, c1, c3, q1, i1, i3, Option.bind_eq_bind, Option.bind_some, hc, gt_iff_lt]
      rw [if_neg (by show ¬ 0 < GCode.dis.nArg; rw [nArg_dis]; decide)]
      simp only [GNode.code, pStrings, pCall, StateT.run_bind, StateT.run_pure, Option.pure_def, Option.bind_eq_bind, Option.bind_some, tsp,
        q3, s1, c3, tail_run J 1 [x] (by decide) hn.nargs hn.args [' '] [' '] (Or.inr rfl) (Or.inr rfl)]
      rfl
    · simp only [GNode.use, GNode.strs, ha.2.2.1]
      rfl
  | atom name r args =>
    have hcl : Clean (g0.atomicNames.getD name []) := hn.strs _ (by simp [GNode.strs])
    have s1 := fun a t => str_hit a _ t hcl
    have ht : (writeUsage g0 k (.atom name r args)).map quote ++ t = '[' :: ' ' :: (dec k ++ ',' :: ' ' :: '"' :: (g0.atomicNames.getD name [] ++
        '"' :: ',' :: ' ' :: (dec r ++ ',' :: ' ' :: (dec args.length ++
        ',' :: ' ' :: '[' :: ([] ++ (joinSep [',', ' '] (args.map dec) ++ ([' '] ++ ']' :: ' ' :: ']' :: t))))))) := by
      delta writeUsage writeArgs
      simp only [List.map_append, quote_clean hcl]
      rw [if_neg (show args ≠ [] from hn.atom rfl)]
      simp [quote, map_joinSep, quote_args']
    have ha := addName_ok g.atomicNames (g0.atomicNames.getD name [])
    refine ⟨{ g with atomicNames := (addName g.atomicNames (g0.atomicNames.getD name [])).1 },
      .atom (addName g.atomicNames (g0.atomicNames.getD name [])).2 r args, ?_, ?_, ⟨List.prefix_refl _, ha.1, List.prefix_refl _⟩, ha.2.1,
      fun h => ⟨h.1, ha.2.2.2 h.2.1, h.2.2⟩, rfl, rfl, rfl, rfl, rfl, rfl, rfl, fun m hm => Or.inl hm⟩
    · rw [ht]
      delta pUsage
      simp only [StateT.run_bind, c1, c3, q1, i1, i3, Option.bind_eq_bind, Option.bind_some, hc, gt_iff_lt]
      rw [if_neg (by show ¬ 0 < GCode.atom.nArg; rw [nArg_atom]; decide)]
      simp only [GNode.code, pStrings, pCall, StateT.run_bind, StateT.run_pure, Option.pure_def, Option.bind_eq_bind, Option.bind_some, tsp,
        q3, s1, c3, tail_run J r args hn.nres hn.nargs hn.args [] [' '] (Or.inl rfl) (Or.inr rfl)]
      rfl
    · simp only [GNode.use, GNode.strs, ha.2.2.1]
      rfl
  | print b e x y =>
    have hcl : Clean (g0.printText.getD b []) := hn.strs _ (by simp [GNode.strs])
    have hcl2 : Clean (g0.printText.getD e []) := hn.strs _ (by simp [GNode.strs])
    have s1 := fun a t => str_hit a _ t hcl
    have s2 := fun a t => str_hit a _ t hcl2
    have ht : (writeUsage g0 k (.print b e x y)).map quote ++ t = '[' :: ' ' :: (dec k ++ ',' :: ' ' :: '"' :: (g0.printText.getD b [] ++
        '"' :: ',' :: ' ' :: '"' :: (g0.printText.getD e [] ++ '"' :: ',' :: ' ' :: (dec 0 ++ ',' :: ' ' :: (dec [x, y].length ++
        ',' :: ' ' :: '[' :: ([' '] ++ (joinSep [',', ' '] ([x, y].map dec) ++ ([' '] ++ ']' :: ' ' :: ']' :: t)))))))) := by
      delta writeUsage
      simp only [List.map_append, quote_clean hcl, quote_clean hcl2]
      simp [quote, joinSep, dec0, dec2]
    have ha := addName_ok g.printText (g0.printText.getD b [])
    have hb := addName_ok (addName g.printText (g0.printText.getD b [])).1 (g0.printText.getD e [])
    refine ⟨{ g with printText := (addName (addName g.printText (g0.printText.getD b [])).1 (g0.printText.getD e [])).1 },
      .print (addName g.printText (g0.printText.getD b [])).2 (addName (addName g.printText (g0.printText.getD b [])).1 (g0.printText.getD e [])).2 x y,
      ?_, ?_, ⟨List.prefix_refl _, List.prefix_refl _, ha.1.trans hb.1⟩, ⟨lt_of_lt_of_le ha.2.1 hb.1.length_le, hb.2.1⟩,
      fun h => ⟨h.1, h.2.1, hb.2.2.2 (ha.2.2.2 h.2.2)⟩, rfl, rfl, rfl, rfl, rfl, rfl, rfl, fun m hm => Or.inl hm⟩
    · rw [ht]
      delta pUsage
      simp only [StateT.run_bind, c1, c3, q1, i1, i3, Option.bind_eq_bind, Option.bind_some, hc, gt_iff_lt]
      rw [if_neg (by show ¬ 0 < GCode.print.nArg; rw [nArg_print]; decide)]
      simp only [GNode.code, pStrings, pCall, StateT.run_bind, StateT.run_pure, Option.pure_def, Option.bind_eq_bind, Option.bind_some, tsp,
        q3, s1, s2, c3, tail_run J 0 [x, y] (by decide) hn.nargs hn.args [' '] [' '] (Or.inr rfl) (Or.inr rfl)]
      rfl
    · simp only [GNode.use, GNode.strs, hb.2.2.1, prefix_getD hb.1 ha.2.1, ha.2.2.1]
      rfl

end CppAD.Graph
