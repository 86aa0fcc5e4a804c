/-
`renumber` preserves the function that a value graph without dynamic vector operators represents.
-/
import Verif.ValGraph.Eval

namespace CppAD.ValGraph
open Classical

theorem sol_nan {T : VTape} {P : Prim} {x : List V} {v : ℕ → V} (hw : T.WF) (h : Sol T P x v) :
    v T.nInd = none := by
  obtain ⟨l, hl⟩ := hw.head
  have h0 : 0 < T.nOp := by simp [VTape.nOp, hl]
  have hn : T.node 0 = ⟨.con none, []⟩ := by simp [VTape.node, hl]
  have := h.2 0 h0 0 (by rw [hn]; simp [Node.nres, Kind.nres])
  rw [hn, res_zero] at this
  simpa [Kind.out, rd] using this

theorem noOp_nres (n : ℕ) (nd : Node) : (noOp n nd).nres = nd.nres := by
  obtain ⟨k, a⟩ := nd
  cases k <;> simp [noOp, Node.nres, Kind.nres]

theorem rd_cons_zero (a : V) (l : List V) : rd (a :: l) 0 = a := by simp [rd]

theorem getD_map_V (l : List ℕ) (v : ℕ → V) {k : ℕ} (h : k < l.length) :
    rd (l.map v) k = v (l.getD k 0) := by
  simp only [rd, List.getD_eq_getElem?_getD, List.getElem?_map, List.getElem?_eq_getElem h]
  rfl

theorem vadd_comm (a b : V) : vadd a b = vadd b a := by
  cases a <;> cases b <;> simp [vadd, add_comm]

theorem vmul_comm (a b : V) : vmul a b = vmul b a := by
  cases a <;> cases b <;> simp [vmul, mul_comm]

/-- matching operators have the same results, the same comparison result and print the same -/
theorem matches_out {P : Prim} {v : ℕ → V} {idx : ℕ → ℕ} {a b : Node}
    (hm : matches' idx a b) (ha : a.kind.arityOk a.args.length)
    (hva : ∀ i ∈ a.args, v (idx i) = v i) (hvb : ∀ i ∈ b.args, v (idx i) = v i) :
    a.kind.out P (a.args.map v) = b.kind.out P (b.args.map v) := by
  obtain ⟨hk, hl, h | ⟨hc, h1, h2⟩⟩ := hm
  · have e : a.args.map v = b.args.map v := by
      have ea : a.args.map v = (a.args.map idx).map v := by
        rw [List.map_map]; exact List.map_congr_left fun i hi => (hva i hi).symm
      have eb : b.args.map v = (b.args.map idx).map v := by
        rw [List.map_map]; exact List.map_congr_left fun i hi => (hvb i hi).symm
      rw [ea, eb, h]
    rw [e, hk]
  · have hal : a.args.length = 2 := by
      rcases hc with hc | hc <;> rw [hc] at ha <;> exact ha
    have ha0 := getD_mem (l := a.args) (k := 0) (by omega)
    have ha1 := getD_mem (l := a.args) (k := 1) (by omega)
    have hb0 := getD_mem (l := b.args) (k := 0) (by omega)
    have hb1 := getD_mem (l := b.args) (k := 1) (by omega)
    have e0 : v (a.args.getD 0 0) = v (b.args.getD 1 0) := by
      rw [← hva _ ha0, ← hvb _ hb1, h1]
    have e1 : v (a.args.getD 1 0) = v (b.args.getD 0 0) := by
      rw [← hva _ ha1, ← hvb _ hb0, h2]
    rcases hc with hc | hc
    · rw [← hk, hc]
      simp only [Kind.out]
      rw [getD_map_V _ _ (by omega), getD_map_V _ _ (by omega), getD_map_V _ _ (by omega),
        getD_map_V _ _ (by omega), e0, e1, vadd_comm]
    · rw [← hk, hc]
      simp only [Kind.out]
      rw [getD_map_V _ _ (by omega), getD_map_V _ _ (by omega), getD_map_V _ _ (by omega),
        getD_map_V _ _ (by omega), e0, e1, vmul_comm]

/-- operators with no results that match have the same arguments, up to the index map -/
theorem matches_args {idx : ℕ → ℕ} {a b : Node} (hm : matches' idx a b) (h0 : a.nres = 0) :
    a.kind = b.kind ∧ a.args.map idx = b.args.map idx := by
  obtain ⟨hk, hl, h | ⟨hc, h1, h2⟩⟩ := hm
  · exact ⟨hk, h⟩
  · rcases hc with hc | hc <;> simp [Node.nres, hc, Kind.nres] at h0

/-- what holds after the first `i` operators were handled by the first loop of `renumber` -/
structure RenInv (T : VTape) (i : ℕ) (s : RenSt) : Prop where
  len : s.nodes.length = T.nodes.length
  later : ∀ j, i ≤ j → s.nodes.getD j default = T.node j
  nodes : ∀ j, j < i → s.nodes.getD j default = T.node j ∨
    (T.node j).nres = 0 ∧ s.nodes.getD j default = noOp T.nInd (T.node j) ∧
      ∃ j', j' < j ∧ s.nodes.getD j' default = T.node j' ∧ (T.node j').kind = (T.node j).kind ∧
        (T.node j').args.length = (T.node j).args.length ∧
        ∀ P x v, Sol T P x v → (T.node j').args.map v = (T.node j).args.map v
  val : ∀ P x v, Sol T P x v → ∀ a, a < T.nVal → v (s.idx a) = v a
  le : ∀ a, s.idx a ≤ a
  ind : ∀ a, a ≤ T.nInd → s.idx a = a
  same : ∀ a, T.res i ≤ a → s.idx a = a
  table : ∀ c j, j ∈ s.table c → j < i ∧ s.nodes.getD j default = T.node j

theorem matchOp_cases (hash : Kind → List ℕ → ℕ) (node : ℕ → Node) (idx : ℕ → ℕ)
    (table : ℕ → List ℕ) (i : ℕ) :
    ((node i).kind = .con none ∧ matchOp hash node idx table i = (0, table)) ∨
    ((node i).kind ≠ .con none ∧ ∃ c j, j ∈ table c ∧ matches' idx (node i) (node j) ∧
      matchOp hash node idx table i = (j, table)) ∨
    ((node i).kind ≠ .con none ∧ ∃ c, matchOp hash node idx table i =
      (i, Function.update table c (table c ++ [i]))) := by
  unfold matchOp
  by_cases h : (node i).kind = .con none
  · left; simp [h]
  · right
    rw [if_neg h]
    simp only
    generalize hash (node i).kind ((node i).args.map idx) = c
    cases hf : (table c).find? (fun j => decide (matches' idx (node i) (node j))) with
    | some j =>
      left
      have h1 := List.mem_of_find?_eq_some hf
      have h2 := List.find?_some hf
      exact ⟨h, c, j, h1, by simpa using h2, rfl⟩
    | none => right; exact ⟨h, c, rfl⟩

theorem renLoop_inv_to (hash : Kind → List ℕ → ℕ) {T : VTape} (hw : T.WF) (n : ℕ)
    (hn : n ≤ T.nOp) : RenInv T n (renLoop hash T n) := by
  obtain ⟨l0, hl0⟩ := hw.head
  have h0 : 0 < T.nOp := by simp [VTape.nOp, hl0]
  have hn0 : T.node 0 = ⟨.con none, []⟩ := by simp [VTape.node, hl0]
  unfold renLoop
  refine forRange_ind (Nat.zero_le _) (P := fun i s => RenInv T i s) ?_ ?_
  · exact ⟨rfl, fun j _ => rfl, fun j hj => by omega, fun _ _ _ _ _ _ => rfl, fun _ => le_rfl,
      fun _ _ => rfl, fun _ _ => rfl, fun _ _ h => by simp at h⟩
  · intro i s _ hin H
    have hi : i < T.nOp := by omega
    have hres := res_succ T hi
    have hnode := H.later i le_rfl
    -- the state when nothing changes except possibly the table
    have keep : ∀ tb : ℕ → List ℕ, (∀ c j, j ∈ tb c → j ∈ s.table c ∨ j = i) →
        RenInv T (i + 1) ⟨s.nodes, s.idx, tb⟩ := by
      intro tb htb
      refine ⟨H.len, fun j hj => H.later j (by omega), fun j hj => ?_, H.val, H.le, H.ind,
        fun a ha => H.same a (by have := res_mono T (show i ≤ i + 1 by omega); omega), ?_⟩
      · rcases Nat.lt_succ_iff_lt_or_eq.mp hj with h | h
        · exact H.nodes j h
        · subst h; left; exact hnode
      · intro c j hj
        rcases htb c j hj with h | h
        · obtain ⟨h1, h2⟩ := H.table c j h; exact ⟨by omega, h2⟩
        · subst h; exact ⟨by omega, hnode⟩
    -- a matching operator
    have matched : ∀ j tb, tb = s.table → j < i → s.nodes.getD j default = T.node j →
        (T.node j).kind = (T.node i).kind →
        (T.node j).args.length = (T.node i).args.length →
        (T.node j).nres = (T.node i).nres →
        ((T.node i).nres = 0 → ∀ P x v, Sol T P x v →
          (T.node j).args.map v = (T.node i).args.map v) →
        (∀ P x v, Sol T P x v → ∀ k, k < (T.node i).nres → v (T.res j + k) = v (T.res i + k)) →
        RenInv T (i + 1) (if (T.node i).nres = 0 then
            ⟨s.nodes.set i (noOp T.nInd (s.nodes.getD i default)), s.idx, tb⟩
          else ⟨s.nodes, setRange s.idx (T.res i) (T.res j) (T.node i).nres, tb⟩) := by
      intro j tb htb hji hnj hk hl hr hargs hv
      subst htb
      by_cases hz : (T.node i).nres = 0
      · rw [if_pos hz]
        have hset : ∀ m, m ≠ i → (s.nodes.set i (noOp T.nInd (s.nodes.getD i default))).getD m
            default = s.nodes.getD m default := by
          intro m hm
          simp [List.getD_eq_getElem?_getD, List.getElem?_set, Ne.symm hm]
        have hseti : (s.nodes.set i (noOp T.nInd (s.nodes.getD i default))).getD i default =
            noOp T.nInd (T.node i) := by
          rw [hnode]
          have : i < s.nodes.length := by rw [H.len]; exact hi
          simp [List.getD_eq_getElem?_getD, this]
        refine ⟨by simp [H.len], fun m hm => ?_, fun m hm => ?_, H.val, H.le, H.ind,
          fun a ha => H.same a (by have := res_mono T (show i ≤ i + 1 by omega); omega), ?_⟩
        · rw [hset m (by omega)]; exact H.later m (by omega)
        · rcases Nat.lt_succ_iff_lt_or_eq.mp hm with h | h
          · rw [hset m (by omega)]
            rcases H.nodes m h with h' | ⟨h1, h2, j', h3, h4, h5⟩
            · left; exact h'
            · right; exact ⟨h1, h2, j', h3, by rw [hset j' (by omega)]; exact h4, h5⟩
          · subst h
            right
            exact ⟨hz, hseti, j, hji, by rw [hset j (by omega)]; exact hnj, hk, hl, hargs hz⟩
        · intro c m hm
          obtain ⟨h1, h2⟩ := H.table c m hm
          exact ⟨by omega, by rw [hset m (by omega)]; exact h2⟩
      · rw [if_neg hz]
        have hrij : T.res j + (T.node i).nres ≤ T.res i := by
          rw [← hr, ← res_succ T (by omega)]; exact res_mono T (by omega)
        have hri : T.nInd < T.res i ∨ i = 0 := by
          by_cases h : i = 0
          · right; exact h
          · left
            have h1 := res_succ T h0
            have h2 := res_mono T (show 1 ≤ i by omega)
            rw [hn0, res_zero] at h1
            simp only [Node.nres, Kind.nres] at h1
            simp only [Nat.zero_add] at h1
            omega
        refine ⟨H.len, fun m hm => H.later m (by omega), fun m hm => ?_, ?_, ?_, ?_, ?_, ?_⟩
        · rcases Nat.lt_succ_iff_lt_or_eq.mp hm with h | h
          · exact H.nodes m h
          · subst h; left; exact hnode
        · intro P x v hs a ha
          simp only [setRange]
          split_ifs with hc
          · have := hv P x v hs (a - T.res i) (by omega)
            rw [this]; congr 1; omega
          · exact H.val P x v hs a ha
        · intro a
          simp only [setRange]
          split_ifs with hc
          · omega
          · exact H.le a
        · intro a ha
          simp only [setRange]
          rw [if_neg (by omega)]; exact H.ind a ha
        · intro a ha
          simp only [setRange]
          rw [if_neg (by omega)]; exact H.same a (by omega)
        · intro c m hm
          obtain ⟨h1, h2⟩ := H.table c m hm
          exact ⟨by omega, h2⟩
    unfold renStep
    simp only
    rcases matchOp_cases hash (fun j => s.nodes.getD j default) s.idx s.table i with
      ⟨hk, hm⟩ | ⟨hk, c, j, hj, hma, hm⟩ | ⟨hk, c, hm⟩
    · rw [hm]
      by_cases hi0 : (0 : ℕ) = i
      · simp only [hi0, if_true]; exact keep _ (fun c j h => Or.inl h)
      · simp only [hi0, if_false]
        rw [hnode] at hk
        have h1 : (T.node i).nres = 1 := by simp [Node.nres, hk, Kind.nres]
        have hargs : (T.node i).args.length = 0 := by
          have := hw.arity i hi; rw [hk] at this; exact this
        have hrec := matched 0 s.table rfl (by omega) ?_ (by rw [hn0, hk]) (by rw [hn0, hargs]; rfl)
          (by rw [h1, hn0]; rfl) (by omega) ?_
        · exact hrec
        · rcases H.nodes 0 (by omega) with h | ⟨h, _⟩
          · exact h
          · rw [hn0] at h; simp [Node.nres, Kind.nres] at h
        · intro P x v hs k hk'
          have hk0 : k = 0 := by omega
          subst hk0
          rw [hs.2 0 h0 0 (by rw [hn0]; simp [Node.nres, Kind.nres]), hs.2 i hi 0 (by omega), hk,
            hn0]
          simp [Kind.out]
    · rw [hm]
      obtain ⟨hji, hnj⟩ := H.table c j hj
      rw [hnode, hnj] at hma
      simp only [show ¬ (j = i) by omega, if_false]
      have hjn : j < T.nOp := by omega
      have hva : ∀ P x v, Sol T P x v → ∀ a ∈ (T.node i).args, v (s.idx a) = v a := by
        intro P x v hs a ha
        exact H.val P x v hs a (by have := hw.args i hi a ha; have := res_le_nVal T (i := i); omega)
      have hvb : ∀ P x v, Sol T P x v → ∀ a ∈ (T.node j).args, v (s.idx a) = v a := by
        intro P x v hs a ha
        exact H.val P x v hs a (by have := hw.args j hjn a ha; have := res_le_nVal T (i := j); omega)
      have hnr : (T.node j).nres = (T.node i).nres := by simp only [Node.nres, hma.1]
      refine matched j s.table rfl hji hnj hma.1.symm hma.2.1.symm hnr ?_ ?_
      · intro hz P x v hs
        have := (matches_args hma hz).2
        have ea : (T.node i).args.map v = ((T.node i).args.map s.idx).map v := by
          rw [List.map_map]; exact List.map_congr_left fun a ha => (hva P x v hs a ha).symm
        have eb : (T.node j).args.map v = ((T.node j).args.map s.idx).map v := by
          rw [List.map_map]; exact List.map_congr_left fun a ha => (hvb P x v hs a ha).symm
        rw [ea, eb, this]
      · intro P x v hs k hk'
        rw [hs.2 i hi k hk', hs.2 j hjn k (by omega),
          matches_out hma (hw.arity i hi) (hva P x v hs) (hvb P x v hs)]
    · rw [hm]
      simp only [if_true]
      refine keep _ (fun c' j h => ?_)
      by_cases hc : c' = c
      · subst hc
        rw [Function.update_self] at h
        simpa using h
      · rw [Function.update_of_ne hc] at h; exact Or.inl h

theorem renLoop_inv (hash : Kind → List ℕ → ℕ) {T : VTape} (hw : T.WF) (_hp : T.Plain) :
    RenInv T T.nOp (renLoop hash T T.nOp) := renLoop_inv_to hash hw _ le_rfl

/-- pointwise sublist of a filterMap -/
theorem filterMap_sublist {α β : Type*} (l : List α) (f g : α → Option β)
    (h : ∀ a ∈ l, f a = g a ∨ f a = none) : (l.filterMap f).Sublist (l.filterMap g) := by
  induction l with
  | nil => simp
  | cons a l ih =>
    have ih' := ih (fun b hb => h b (List.mem_cons_of_mem _ hb))
    rcases h a List.mem_cons_self with e | e
    · simp only [List.filterMap_cons, e]
      cases g a with
      | none => exact ih'
      | some b => exact ih'.cons₂ b
    · simp only [List.filterMap_cons, e]
      cases g a with
      | none => exact ih'
      | some b => exact ih'.cons b

theorem nodes_eq_range (T : VTape) : T.nodes = (List.range T.nOp).map T.node := by
  apply List.ext_getElem
  · simp [VTape.nOp]
  · intro i h1 h2
    simp only [List.getElem_map, List.getElem_range]
    rw [node_eq T h1]

/-- an operator that was changed to a no op -/
theorem noOp_quiet {n : ℕ} {idx : ℕ → ℕ} (v : ℕ → V) {nd : Node} (hz : nd.nres = 0)
    (hpl : nd.kind.isVector = false) (ha : nd.kind.arityOk nd.args.length) (hi : idx n = n) :
    ¬ FalseAt v ⟨(noOp n nd).kind, (noOp n nd).args.map idx⟩ ∧
      printAt n v ⟨(noOp n nd).kind, (noOp n nd).args.map idx⟩ = none := by
  obtain ⟨k, l⟩ := nd
  cases k <;> simp [Node.nres, Kind.nres] at hz <;> simp [Kind.isVector] at hpl
  · simp [noOp, FalseAt, printAt, Cmp.holds]
  · simp [noOp, FalseAt, printAt]
  · simp only [Kind.arityOk] at ha
    match l, ha with
    | [a, b], _ => simp [noOp, FalseAt, printAt, hi]

section
variable (hash : Kind → List ℕ → ℕ) {T : VTape} (hw : T.WF) (hp : T.Plain)

/-- operator `i` of `renumber hash T` -/
theorem renumber_node (i : ℕ) (hi : i < T.nOp) :
    (renumber hash T).node i =
      ⟨((renLoop hash T T.nOp).nodes.getD i default).kind,
        ((renLoop hash T T.nOp).nodes.getD i default).args.map (renLoop hash T T.nOp).idx⟩ := by
  by_cases h : i < (renLoop hash T T.nOp).nodes.length
  · simp [VTape.node, renumber, List.getD_eq_getElem?_getD, h]
  · simp only [VTape.node, renumber, List.getD_eq_getElem?_getD, List.getElem?_map]
    rw [List.getElem?_eq_none (by omega)]
    rfl

include hw hp

theorem renumber_nOp : (renumber hash T).nOp = T.nOp := by
  have := (renLoop_inv hash hw hp).len
  simpa [VTape.nOp, renumber] using this

theorem renumber_nres (i : ℕ) (hi : i < T.nOp) :
    ((renumber hash T).node i).nres = (T.node i).nres := by
  rw [renumber_node hash i hi]
  rcases (renLoop_inv hash hw hp).nodes i hi with h | ⟨_, h, _⟩
  · rw [h]; rfl
  · rw [h]; exact noOp_nres T.nInd (T.node i)

theorem renumber_res (i : ℕ) (hi : i ≤ T.nOp) : (renumber hash T).res i = T.res i := by
  induction i with
  | zero => simp only [res_zero]; rfl
  | succ i ih =>
    rw [res_succ _ (by rw [renumber_nOp hash hw hp]; omega), res_succ T (by omega), ih (by omega),
      renumber_nres hash hw hp i (by omega)]

theorem renumber_nVal : (renumber hash T).nVal = T.nVal := by
  rw [← res_nOp, ← res_nOp, renumber_nOp hash hw hp, renumber_res hash hw hp _ le_rfl]

theorem noOp_args_le {nd : Node} {r : ℕ} (h : ∀ a ∈ nd.args, a < r) (hr : T.nInd < r) :
    ∀ a ∈ (noOp T.nInd nd).args, a < r := by
  obtain ⟨k, l⟩ := nd
  cases k <;> simp_all [noOp]
  intro a ha
  rcases List.mem_or_eq_of_mem_set ha with h1 | h1
  · exact h a h1
  · omega

theorem nInd_lt_res (i : ℕ) (hi : 0 < i) : T.nInd < T.res i := by
  obtain ⟨l0, hl0⟩ := hw.head
  have h0 : 0 < T.nOp := by simp [VTape.nOp, hl0]
  have hn0 : T.node 0 = ⟨.con none, []⟩ := by simp [VTape.node, hl0]
  have h1 := res_succ T h0
  have h2 := res_mono T (show 1 ≤ i by omega)
  rw [hn0, res_zero] at h1
  simp only [Node.nres, Kind.nres, Nat.zero_add] at h1
  omega

theorem renumber_wf : (renumber hash T).WF := by
  have H := renLoop_inv hash hw hp
  have hn := renumber_nOp hash hw hp
  obtain ⟨l0, hl0⟩ := hw.head
  have h0 : 0 < T.nOp := by simp [VTape.nOp, hl0]
  have hn0 : T.node 0 = ⟨.con none, []⟩ := by simp [VTape.node, hl0]
  refine ⟨?_, ?_, ?_, ?_⟩
  · have e := renumber_node hash 0 h0
    rcases H.nodes 0 h0 with h | ⟨h, _⟩
    · rw [h, hn0] at e
      rw [← hn] at h0
      rw [node_eq _ h0] at e
      cases hc : (renumber hash T).nodes with
      | nil => simp [VTape.nOp, hc] at h0
      | cons a l => simp [hc] at e; exact ⟨l, by rw [e]⟩
    · rw [hn0] at h; simp [Node.nres, Kind.nres] at h
  · intro i hi a ha
    rw [hn] at hi
    rw [renumber_res hash hw hp i hi.le]
    rw [renumber_node hash i hi] at ha
    simp only [List.mem_map] at ha
    obtain ⟨b, hb, rfl⟩ := ha
    refine lt_of_le_of_lt (H.le b) ?_
    rcases H.nodes i hi with h | ⟨_, h, j, hj, _⟩
    · rw [h] at hb; exact hw.args i hi b hb
    · rw [h] at hb
      exact noOp_args_le hw hp (hw.args i hi) (nInd_lt_res hw hp i (by omega)) b hb
  · intro i hi
    rw [hn] at hi
    rw [renumber_node hash i hi]
    have ha := hw.arity i hi
    rcases H.nodes i hi with h | ⟨hz, h, _⟩
    · rw [h]; simpa using ha
    · rw [h]
      generalize T.node i = nd at ha hz
      obtain ⟨k, l⟩ := nd
      cases k <;> simp_all [noOp, Node.nres, Kind.nres, Kind.arityOk]
  · intro d hd
    rw [renumber_nVal hash hw hp]
    simp only [renumber, List.mem_map] at hd
    obtain ⟨b, hb, rfl⟩ := hd
    exact lt_of_le_of_lt (H.le b) (hw.dep b hb)

theorem renumber_plain : (renumber hash T).Plain := by
  intro nd hnd
  rw [nodes_eq_range] at hnd
  simp only [List.mem_map, List.mem_range] at hnd
  obtain ⟨i, hi, rfl⟩ := hnd
  rw [renumber_nOp hash hw hp] at hi
  rw [renumber_node hash i hi]
  have := hp _ (node_mem T hi)
  rcases (renLoop_inv hash hw hp).nodes i hi with h | ⟨_, h, _⟩
  · rw [h]; exact this
  · rw [h]
    generalize T.node i = nd at this
    obtain ⟨k, l⟩ := nd
    cases k <;> simp_all [noOp, Kind.isVector]

/-- a solution of the old equations is a solution of the new equations -/
theorem renumber_sol {P : Prim} {x : List V} {v : ℕ → V} (hs : Sol T P x v) :
    Sol (renumber hash T) P x v := by
  have H := renLoop_inv hash hw hp
  refine ⟨hs.1, ?_⟩
  intro i hi k hk
  rw [renumber_nOp hash hw hp] at hi
  rw [renumber_nres hash hw hp i hi] at hk
  rw [renumber_res hash hw hp i hi.le, hs.2 i hi k hk, renumber_node hash i hi]
  rcases H.nodes i hi with h | ⟨h, _⟩
  · rw [h]
    simp only [List.map_map]
    congr 2
    apply List.map_congr_left
    intro a ha
    exact (H.val P x v hs a (by
      have := hw.args i hi a ha; have := res_le_nVal T (i := i); omega)).symm
  · omega

/-- values are preserved at every index -/
theorem renumber_val {P : Prim} {x : List V} (hx : x.length = T.nInd) {a : ℕ} (ha : a < T.nVal) :
    rd ((renumber hash T).run P x).val a = rd (T.run P x).val a := by
  refine sol_unique (renumber_wf hash hw hp) (x := x) (P := P) ?_ ?_
    (by rw [renumber_nVal hash hw hp]; exact ha)
  · exact run_sol (renumber_plain hash hw hp) (renumber_wf hash hw hp) hx
  · exact renumber_sol hash hw hp (run_sol hp hw hx)

/-- **`renumber` preserves the function, for every tape without dynamic vectors, every point
(including points with nan) and every hash function.**  The number of false comparisons does not
increase and it is zero exactly when it was zero.  The same texts are printed (a text that was
printed more than once may be printed fewer times). -/
theorem renumber_ok_partial {P : Prim} {x : List V} (hx : x.length = T.nInd) :
    (renumber hash T).eval P x = T.eval P x ∧
      (renumber hash T).compareFalse P x ≤ T.compareFalse P x ∧
      ((renumber hash T).compareFalse P x = 0 ↔ T.compareFalse P x = 0) ∧
      ((renumber hash T).printed P x).Sublist (T.printed P x) ∧
      (∀ p ∈ T.printed P x, p ∈ (renumber hash T).printed P x) := by
  have H := renLoop_inv hash hw hp
  have hs := run_sol (P := P) hp hw hx
  set v := rd (T.run P x).val with hv
  have hs' := renumber_sol hash hw hp hs
  have hR := renumber_wf hash hw hp
  have hRp := renumber_plain hash hw hp
  obtain ⟨c1, o1⟩ := run_cf_out hp hw hx hs
  obtain ⟨c2, o2⟩ := run_cf_out hRp hR (x := x) hx hs'
  have hn := renumber_nOp hash hw hp
  -- arguments
  have hav : ∀ i, i < T.nOp → ∀ a ∈ (T.node i).args, v ((renLoop hash T T.nOp).idx a) = v a := by
    intro i hi a ha
    exact H.val P x v hs a (by have := hw.args i hi a ha; have := res_le_nVal T (i := i); omega)
  -- operators that are kept
  have keptF : ∀ i, i < T.nOp → (renLoop hash T T.nOp).nodes.getD i default = T.node i →
      (FalseAt v ((renumber hash T).node i) ↔ FalseAt v (T.node i)) := by
    intro i hi he
    rw [renumber_node hash i hi, he]
    have ha := hw.arity i hi
    have hav' := hav i hi
    generalize T.node i = nd at ha hav'
    obtain ⟨k, l⟩ := nd
    cases k <;> simp only [FalseAt]
    simp only [Kind.arityOk] at ha
    have h0 := hav' _ (getD_mem (l := l) (k := 0) (by omega))
    have h1 := hav' _ (getD_mem (l := l) (k := 1) (by omega))
    have e : ∀ k, k < l.length → (l.map (renLoop hash T T.nOp).idx).getD k 0 =
        (renLoop hash T T.nOp).idx (l.getD k 0) := by
      intro k hk; simp [List.getD_eq_getElem?_getD, hk]
    rw [e 0 (by omega), e 1 (by omega), h0, h1]
  have keptP : ∀ i, i < T.nOp → (renLoop hash T T.nOp).nodes.getD i default = T.node i →
      printAt T.nInd v ((renumber hash T).node i) = printAt T.nInd v (T.node i) := by
    intro i hi he
    rw [renumber_node hash i hi, he]
    have ha := hw.arity i hi
    have hav' := hav i hi
    generalize T.node i = nd at ha hav'
    obtain ⟨k, l⟩ := nd
    cases k <;> simp only [printAt]
    simp only [Kind.arityOk] at ha
    have h0 := hav' _ (getD_mem (l := l) (k := 0) (by omega))
    have h1 := hav' _ (getD_mem (l := l) (k := 1) (by omega))
    have e : ∀ k, k < l.length → (l.map (renLoop hash T T.nOp).idx).getD k 0 =
        (renLoop hash T T.nOp).idx (l.getD k 0) := by
      intro k hk; simp [List.getD_eq_getElem?_getD, hk]
    rw [e 0 (by omega), e 1 (by omega), h0, h1]
    by_cases hf : l.getD 0 0 = T.nInd
    · rw [if_pos (by rw [hf]; exact H.ind _ le_rfl), if_pos hf]
    · rw [if_neg hf]
      by_cases hf2 : (renLoop hash T T.nOp).idx (l.getD 0 0) = T.nInd
      · rw [if_pos hf2, if_neg]
        rw [← h0, hf2, sol_nan hw hs]
        simp [Cmp.holds]
      · rw [if_neg hf2]
  have hnot : ∀ i, i < T.nOp → (T.node i).nres = 0 →
      (renLoop hash T T.nOp).nodes.getD i default = noOp T.nInd (T.node i) →
      ¬ FalseAt v ((renumber hash T).node i) ∧ printAt T.nInd v ((renumber hash T).node i) = none := by
    intro i hi hz he
    rw [renumber_node hash i hi, he]
    exact noOp_quiet v hz (hp _ (node_mem T hi)) (hw.arity i hi) (H.ind _ le_rfl)
  -- lists
  rw [nodes_eq_range T, List.countP_map] at c1
  rw [nodes_eq_range (renumber hash T), hn, List.countP_map] at c2
  rw [nodes_eq_range T, List.filterMap_map] at o1
  rw [nodes_eq_range (renumber hash T), hn, List.filterMap_map] at o2
  have imp : ∀ i, i < T.nOp → FalseAt v ((renumber hash T).node i) → FalseAt v (T.node i) := by
    intro i hi hf
    rcases H.nodes i hi with h | ⟨h1, h2, _⟩
    · exact (keptF i hi h).mp hf
    · exact absurd hf (hnot i hi h1 h2).1
  -- an operator that was kept and acts as operator `i`
  have rep : ∀ i, i < T.nOp → ∃ j, j < T.nOp ∧
      (renLoop hash T T.nOp).nodes.getD j default = T.node j ∧
      (T.node j).kind = (T.node i).kind ∧ (T.node j).args.length = (T.node i).args.length ∧
      (T.node j).args.map v = (T.node i).args.map v := by
    intro i hi
    rcases H.nodes i hi with h | ⟨_, _, j, h1, h2, h3, h4, h5⟩
    · exact ⟨i, hi, h, rfl, rfl, rfl⟩
    · exact ⟨j, by omega, h2, h3, h4, h5 P x v hs⟩
  refine ⟨?_, ?_, ?_, ?_, ?_⟩
  · rw [eval_eq hRp hR (x := x) hx hs', eval_eq hp hw hx hs]
    simp only [renumber, List.map_map]
    apply List.map_congr_left
    intro d hd
    exact H.val P x v hs d (hw.dep d hd)
  · rw [c1, c2]
    apply List.countP_mono_left
    intro i hi h
    simp only [List.mem_range] at hi
    simp only [Function.comp, decide_eq_true_eq] at h ⊢
    exact imp i hi h
  · rw [c1, c2, List.countP_eq_zero, List.countP_eq_zero]
    constructor
    · intro h i hi hf
      simp only [List.mem_range] at hi h
      simp only [Function.comp, decide_eq_true_eq] at h hf
      obtain ⟨j, hj, h1, h2, h3, h4⟩ := rep i hi
      refine h j hj ((keptF j hj h1).mpr ?_)
      have ha := hw.arity i hi
      have haj := hw.arity j hj
      generalize T.node i = nd at *
      generalize T.node j = nd' at *
      obtain ⟨k, l⟩ := nd
      obtain ⟨k', l'⟩ := nd'
      simp only at h2 h3 h4
      subst h2
      cases k' <;> simp only [FalseAt] at hf ⊢
      simp only [Kind.arityOk] at ha haj
      rw [← getD_map_V l' v (by omega), ← getD_map_V l' v (by omega), h4,
        getD_map_V l v (by omega), getD_map_V l v (by omega)]
      exact hf
    · intro h i hi hf
      simp only [List.mem_range] at hi h
      simp only [Function.comp, decide_eq_true_eq] at h hf
      exact h i hi (imp i hi hf)
  · rw [o1, o2]
    apply filterMap_sublist
    intro i hi
    simp only [List.mem_range] at hi
    simp only [Function.comp]
    rcases H.nodes i hi with h | ⟨h1, h2, _⟩
    · left; exact keptP i hi h
    · right; exact (hnot i hi h1 h2).2
  · intro p hpp
    rw [o1, List.mem_filterMap] at hpp
    rw [o2, List.mem_filterMap]
    obtain ⟨i, hi, h⟩ := hpp
    simp only [List.mem_range] at hi
    simp only [Function.comp] at h
    obtain ⟨j, hj, h1, h2, h3, h4⟩ := rep i hi
    refine ⟨j, List.mem_range.mpr hj, ?_⟩
    simp only [Function.comp]
    show printAt T.nInd v _ = _
    rw [keptP j hj h1]
    have ha := hw.arity i hi
    have haj := hw.arity j hj
    have hnan := sol_nan hw hs
    generalize T.node i = nd at *
    generalize T.node j = nd' at *
    obtain ⟨k, l⟩ := nd
    obtain ⟨k', l'⟩ := nd'
    simp only at h2 h3 h4
    subst h2
    cases k' <;> simp only [printAt, reduceCtorEq] at h ⊢
    simp only [Kind.arityOk] at ha haj
    have e0 : v (l'.getD 0 0) = v (l.getD 0 0) := by
      rw [← getD_map_V l' v (by omega), h4, getD_map_V l v (by omega)]
    have e1 : v (l'.getD 1 0) = v (l.getD 1 0) := by
      rw [← getD_map_V l' v (by omega), h4, getD_map_V l v (by omega)]
    rw [e0, e1]
    by_cases hf : l.getD 0 0 = T.nInd
    · rw [if_pos hf] at h; exact absurd h (by simp)
    · rw [if_neg hf] at h
      by_cases hf2 : l'.getD 0 0 = T.nInd
      · rw [hf2, hnan] at e0
        rw [← e0] at h
        simp [Cmp.holds] at h
      · rw [if_neg hf2]; exact h

end

end CppAD.ValGraph
