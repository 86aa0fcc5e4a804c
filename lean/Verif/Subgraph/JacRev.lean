import Verif.Subgraph.Reverse
import Verif.Taylor.Drivers
import Verif.Util.SparseRc

/-! # C41: sparse Jacobians by reverse mode on subgraphs, `subgraph_jac_rev` -/

open scoped ContDiff Topology Classical

namespace CppAD.Subgraph

open IndexSort (StdSort Element)
open SparseRc (Rc Holds)

/-- Values the code does not specify: the memory for Taylor coefficients, random access tables and partials after `resize`, one for each call
of the modelled functions, and the initial contents of `dw`. -/
structure Junk where
  taylor : ℕ → ℝ
  nan : ℝ
  sel : Rnd
  rnd : ℕ → Rnd
  part : ℕ → Tay
  dw : List ℝ

/-- `f.subgraph_jac_rev(select_domain, select_range, x, matrix_out)`, core/subgraph_jac_rev.hpp:280-348.  Returns the number of
rows, of columns and the list of the entries `(row, column, value)` of `matrix_out`. -/
noncomputable def jacRevSelect (f : ADFun) (sort : List ℕ → List ℕ) (jk : Junk) (info : Info) (domain range : ℕ → Bool)
    (x : List ℝ) : ℕ × ℕ × List (ℕ × ℕ × ℝ) :=
  let f0 := (f.forward jk.taylor jk.nan 0 x).1
  let info := select f0.toTape jk.sel info domain
  let s := forRange 0 f0.dep.length ((info, jk.dw, []) : Info × List ℝ × List (ℕ × ℕ × ℝ)) fun i s =>
    if range i then
      let r := reverse f0 sort (jk.rnd i) (jk.part i) s.1 1 i s.2.1
      (r.1, r.2.2, forRange 0 r.2.1.length s.2.2 fun c out =>
        out ++ [(i, r.2.1.getD c 0, at' r.2.2 (r.2.1.getD c 0))])
    else s
  (f0.dep.length, f0.n, s.2.2)

/-- core/subgraph_jac_rev.hpp:243-244: the state of the outer loop.  `mem` is the memory of the elements of the vector
`dw_col`, also of those after its end. -/
structure SubSt where
  k : ℕ
  info : Info
  mem : ℕ → ℕ
  dw : List ℝ
  val : List ℝ

noncomputable instance : Nonempty SubSt := ⟨⟨0, ⟨fun _ => 0, fun _ => false, fun _ => false⟩, fun _ => 0, [], []⟩⟩

/-- core/subgraph_jac_rev.hpp:252-276: the entries of one row.  State: `c`, `k`, `i_dep`, `i_ind`, the values of subset. -/
noncomputable def jacRevRow (m n nnz ell size : ℕ) (row col : List ℕ) (rm : List ℕ) (mem : ℕ → ℕ) (dw : List ℝ)
    (s : ℕ × ℕ × ℕ × ℕ × List ℝ) : ℕ × ℕ × ℕ × ℕ × List ℝ :=
  whileLoop (fun s => decide (s.2.2.1 = ell)) (fun s =>
    let c := whileLoop (fun c => decide (c < size) && decide (mem c < s.2.2.2.1)) (fun c => c + 1) s.1
    -- the code reads dw_col[c] also when c is the size of dw_col
    let v := if s.2.2.2.1 = mem c then at' dw s.2.2.2.1 else 0
    let val := s.2.2.2.2.set (rm.getD s.2.1 0) v
    let k := s.2.1 + 1
    if k = nnz then (c, k, m, n, val)
    else (c, k, row.getD (rm.getD k 0) 0, col.getD (rm.getD k 0) 0, val)) s

/-- `f.subgraph_jac_rev(x, subset)`, core/subgraph_jac_rev.hpp:202-279.  `subset` is the pattern of the argument, `val` its
values; returns its new values.  `fresh k = none` says that `dw_col.resize` keeps its memory, `some w` that there is new memory
with contents `w`; `mem0` is the memory at the beginning. -/
noncomputable def jacRevSubset (f : ADFun) (sort : List ℕ → List ℕ) (esort : List (Element ℕ) → List (Element ℕ)) (jk : Junk)
    (mem0 : ℕ → ℕ) (fresh : ℕ → Option (ℕ → ℕ)) (info : Info) (x : List ℝ) (subset : Rc) (val : List ℝ) : List ℝ :=
  let f0 := (f.forward jk.taylor jk.nan 0 x).1
  let nnz := subset.nnz
  let rm := subset.row_major esort
  let domain := forRange 0 nnz (fun _ => false) fun k d => Function.update d (subset.col.getD k 0) true
  let s : SubSt := ⟨0, select f0.toTape jk.sel info domain, mem0, jk.dw, val⟩
  (whileLoop (fun s : SubSt => decide (s.k < nnz)) (fun s =>
    let ell := subset.row.getD (rm.getD s.k 0) 0
    let r := reverse f0 sort (jk.rnd s.k) (jk.part s.k) s.info 1 ell s.dw
    let mem := fun c => if c < r.2.1.length then r.2.1.getD c 0 else ((fresh s.k).getD s.mem) c
    let t := jacRevRow f0.dep.length f0.n nnz ell r.2.1.length subset.row subset.col rm mem r.2.2
      (0, s.k, ell, subset.col.getD (rm.getD s.k 0) 0, s.val)
    ⟨t.2.1, r.1, mem, r.2.2, t.2.2.2.2⟩) s).val

/-! ## Proofs -/

variable {T : Tape}

/-- one call with `q = 1` after `Forward(0, x)` -/
theorem call_one (hT : T.WF) {f0 : ADFun} {S : St} (hreach : Reach T f0 S) (hnum : S.num = 1) (hdir : S.ndir = 1)
    {x : ℕ → ℝ} (hx : ∀ j < T.n, S.x 0 j 0 = x j) (hD : T.Dom x) {domain done : ℕ → Bool} {info : Info}
    (hsel : Selected T domain info done) {sort : List ℕ → List ℕ} (hs : StdSort (· < ·) sort) {ell : ℕ} (hell : ell < T.dep.length)
    (hdone : done ell = false) {dw : List ℝ} (hdw : dw.length = T.n) (jrnd : Rnd) (junk : Tay) :
    let r := reverse f0 sort jrnd junk info 1 ell dw
    r.2.1.Pairwise (· < ·) ∧
    (∀ j, j ∈ r.2.1 ↔ j < T.n ∧ domain j = true ∧ Reaches T (T.dep.getD ell 0) (j + 1)) ∧
    r.2.2.length = T.n ∧
    Selected T domain r.1 (Function.update done ell true) ∧
    (∀ j < T.n, domain j = true →
      IsPartial (fun y => T.eval y ell) x j (if j ∈ r.2.1 then at' r.2.2 j else 0)) := by
  have hcall : Call T f0 S domain info done sort 1 ell dw :=
    ⟨hT, hreach, hsel, hs, one_pos, hnum.ge, hdir, hell, hdone, by rw [hdw, mul_one]⟩
  obtain ⟨h1, h2, h3, h4, h5⟩ := subgraph_reverse_ok hcall jrnd junk
  refine ⟨h1, h2, by rw [h3, mul_one], h4, fun j hj hdj => ?_⟩
  have hD' : T.Dom S.x0 := T.Dom_congr hT (fun j hj => (hx j hj).symm) hD
  have h6 := h5 hD' j hj hdj 0 one_pos
  rw [mul_one, add_zero] at h6
  unfold IsPartial
  refine h6.congr_of_eventuallyEq (Filter.Eventually.of_forall fun ε => ?_)
  dsimp only
  rw [Nat.sub_self, Y_one hT _ hell le_rfl]
  refine T.eval_congr hT (fun j' hj' => ?_) hell
  rw [bump_zero]
  by_cases h : j' = j
  · subst h; simp [hx _ hj']
  · rw [Function.update_of_ne h, Function.update_of_ne h, hx j' hj']

theorem fwd0_state (hT : T.WF) {f : ADFun} {S : St} (h : Reach T f S) (junk : ℕ → ℝ) (nan : ℝ) (xv : List ℝ)
    (hl : xv.length = T.n) : ∃ S', Reach T (f.forward junk nan 0 xv).1 S' ∧ S'.num = 1 ∧ S'.ndir = 1 ∧
      (∀ j < T.n, S'.x 0 j 0 = at' xv j) ∧ (f.forward junk nan 0 xv).1.toTape = T := by
  have h1 := Reach.forward junk nan 0 xv h (Or.inl (by simpa using hl))
  refine ⟨_, h1, rfl, rfl, ?_, (h1.inv hT).2⟩
  intro j _
  simp [St.forward, hl]

theorem append_loop {α : Type} (g : ℕ → α) (N : ℕ) (out : List α) :
    (forRange 0 N out fun c out => out ++ [g c]) = out ++ (List.range N).map g := by
  refine forRange_ind (Nat.zero_le N) (s := out) (f := fun c (out : List α) => out ++ [g c])
    (P := fun k (o : List α) => o = out ++ (List.range k).map g) (by simp) ?_
  rintro k o _ _ rfl
  rw [List.range_succ]; simp

theorem map_range_getD {α β : Type} (l : List α) (d : α) (g : α → β) :
    (List.range l.length).map (fun c => g (l.getD c d)) = l.map g := by
  refine List.ext_getElem (by simp) ?_
  intro k h1 h2
  simp only [List.getElem_map, List.getElem_range, List.length_map] at h1 h2 ⊢
  rw [List.getD_eq_getElem _ _ h2]

/-- **C41**: `subgraph_jac_rev(select_domain, select_range, x, matrix_out)`, for every recording, history, selection and contents of
the memory: `matrix_out` has the dimensions of the Jacobian, its entries are in row major order without duplicates, there is an entry for
`(i, j)` exactly when both are selected and component `i` depends on `x_j` in the operation graph, its value is the partial derivative,
and the selected partial derivatives without entry are zero. -/
theorem subgraph_jac_rev_select_ok (hT : T.WF) {f : ADFun} {S : St} (h : Reach T f S) {sort : List ℕ → List ℕ}
    (hs : StdSort (· < ·) sort) (jk : Junk) (hjk : jk.dw.length = T.n) (info : Info) (domain range : ℕ → Bool) (x : List ℝ)
    (hl : x.length = T.n) (hD : T.Dom (at' x)) :
    let out := jacRevSelect f sort jk info domain range x
    out.1 = T.dep.length ∧ out.2.1 = T.n ∧
    (out.2.2.Pairwise fun a b => a.1 < b.1 ∨ (a.1 = b.1 ∧ a.2.1 < b.2.1)) ∧
    (∀ i j, (∃ v, (i, j, v) ∈ out.2.2) ↔ i < T.dep.length ∧ range i = true ∧ j < T.n ∧ domain j = true ∧
      Reaches T (T.dep.getD i 0) (j + 1)) ∧
    (∀ i j v, (i, j, v) ∈ out.2.2 → IsPartial (fun y => T.eval y i) (at' x) j v) ∧
    (∀ i < T.dep.length, range i = true → ∀ j < T.n, domain j = true → (∀ v, (i, j, v) ∉ out.2.2) →
      IsPartial (fun y => T.eval y i) (at' x) j 0) := by
  obtain ⟨S', hr, hnum, hdir, hx, ht⟩ := fwd0_state hT h jk.taylor jk.nan x hl
  unfold jacRevSelect
  dsimp only
  generalize (f.forward jk.taylor jk.nan 0 x).1 = f0 at hr ht ⊢
  rw [ht]
  let P : ℕ → Info × List ℝ × List (ℕ × ℕ × ℝ) → Prop := fun m s =>
    (∃ done, Selected T domain s.1 done ∧ ∀ l, m ≤ l → done l = false) ∧ s.2.1.length = T.n ∧
    (s.2.2.Pairwise fun a b => a.1 < b.1 ∨ (a.1 = b.1 ∧ a.2.1 < b.2.1)) ∧
    (∀ i j, (∃ v, (i, j, v) ∈ s.2.2) ↔ i < m ∧ range i = true ∧ j < T.n ∧ domain j = true ∧
      Reaches T (T.dep.getD i 0) (j + 1)) ∧
    (∀ i j v, (i, j, v) ∈ s.2.2 → IsPartial (fun y => T.eval y i) (at' x) j v) ∧
    (∀ i < m, range i = true → ∀ j < T.n, domain j = true → (∀ v, (i, j, v) ∉ s.2.2) →
      IsPartial (fun y => T.eval y i) (at' x) j 0)
  have main := forRange_ind (Nat.zero_le T.dep.length) (s := (select T jk.sel info domain, jk.dw, []))
    (f := fun i (s : Info × List ℝ × List (ℕ × ℕ × ℝ)) =>
      if range i then
        let r := reverse f0 sort (jk.rnd i) (jk.part i) s.1 1 i s.2.1
        (r.1, r.2.2, forRange 0 r.2.1.length s.2.2 fun c out =>
          out ++ [(i, r.2.1.getD c 0, at' r.2.2 (r.2.1.getD c 0))])
      else s) (P := P)
    ⟨⟨_, Selected.select jk.sel info, fun _ _ => rfl⟩, hjk, List.Pairwise.nil, by simp, by simp, by simp⟩ ?_
  · exact ⟨rfl, rfl, main.2.2.1, main.2.2.2.1, main.2.2.2.2.1, main.2.2.2.2.2⟩
  · rintro m ⟨inf, dw, out⟩ _ hm ⟨⟨done, hd1, hd2⟩, h1, h2, h3, h4, h5⟩
    dsimp only at hd1 h1 h2 h3 h4 h5 ⊢
    by_cases hrm : range m = true
    · rw [if_pos hrm]
      obtain ⟨c1, c2, c3, c4, c5⟩ := call_one hT hr hnum hdir hx hD hd1 hs hm (hd2 m le_rfl) h1 (jk.rnd m) (jk.part m)
      generalize reverse f0 sort (jk.rnd m) (jk.part m) inf 1 m dw = r at c1 c2 c3 c4 c5 ⊢
      rw [append_loop (fun c => (m, r.2.1.getD c 0, at' r.2.2 (r.2.1.getD c 0))),
        map_range_getD r.2.1 0 (fun j => (m, j, at' r.2.2 j))]
      have hold : ∀ e ∈ out, e.1 < m := by
        rintro ⟨i, j, v⟩ he; exact ((h3 i j).mp ⟨v, he⟩).1
      have hnew : ∀ e ∈ r.2.1.map (fun j => (m, j, at' r.2.2 j)), e.1 = m := by
        intro e he
        obtain ⟨j, _, rfl⟩ := List.mem_map.mp he
        rfl
      have hmemnew : ∀ j v, (m, j, v) ∈ out ++ r.2.1.map (fun j => (m, j, at' r.2.2 j)) ↔ j ∈ r.2.1 ∧ v = at' r.2.2 j := by
        intro j v
        rw [List.mem_append, List.mem_map]
        constructor
        · rintro (h | ⟨a, ha, he⟩)
          · exact absurd (hold _ h) (Nat.lt_irrefl m)
          · obtain ⟨_, he⟩ := Prod.mk.inj he
            obtain ⟨rfl, rfl⟩ := Prod.mk.inj he
            exact ⟨ha, rfl⟩
        · rintro ⟨ha, rfl⟩; exact Or.inr ⟨j, ha, rfl⟩
      have hmemold : ∀ i j v, i ≠ m → ((i, j, v) ∈ out ++ r.2.1.map (fun j => (m, j, at' r.2.2 j)) ↔ (i, j, v) ∈ out) := by
        intro i j v hi
        rw [List.mem_append]
        exact ⟨fun h => h.resolve_right fun h => hi (hnew _ h), Or.inl⟩
      refine ⟨⟨_, c4, fun l hl => ?_⟩, c3, ?_, ?_, ?_, ?_⟩
      · rw [Function.update_of_ne (by omega)]; exact hd2 l (by omega)
      · rw [List.pairwise_append]
        refine ⟨h2, ?_, ?_⟩
        · rw [List.pairwise_map]
          exact c1.imp (fun h => Or.inr ⟨rfl, h⟩)
        · intro a ha b hb
          left; rw [hnew b hb]; exact hold a ha
      · intro i j
        by_cases hi : i = m
        · subst hi
          simp only [hmemnew]
          constructor
          · rintro ⟨v, hv, _⟩
            exact ⟨by omega, hrm, (c2 j).mp hv⟩
          · rintro ⟨_, _, hh⟩
            exact ⟨_, (c2 j).mpr hh, rfl⟩
        · simp only [hmemold _ _ _ hi, h3 i j]
          refine and_congr_left fun _ => ?_
          omega
      · intro i j v hv
        by_cases hi : i = m
        · subst hi
          obtain ⟨g1, rfl⟩ := (hmemnew j v).mp hv
          have g2 := (c2 j).mp g1
          have := c5 j g2.1 g2.2.1
          rwa [if_pos g1] at this
        · exact h4 i j v ((hmemold _ _ _ hi).mp hv)
      · intro i hi hri j hj hdj hno
        by_cases hi' : i = m
        · subst hi'
          have := c5 j hj hdj
          rwa [if_neg (fun g => hno _ ((hmemnew j _).mpr ⟨g, rfl⟩))] at this
        · exact h5 i (by omega) hri j hj hdj fun v hv => hno v ((hmemold _ _ _ hi').mpr hv)
    · rw [if_neg hrm]
      refine ⟨⟨done, hd1, fun l hl => hd2 l (by omega)⟩, h1, h2, ?_, h4, ?_⟩
      · intro i j
        rw [h3]
        constructor
        · rintro ⟨a, b⟩; exact ⟨by omega, b⟩
        · rintro ⟨a, b⟩
          rcases Nat.lt_succ_iff_lt_or_eq.mp a with h | rfl
          · exact ⟨h, b⟩
          · exact absurd b.1 hrm
      · intro i hi hri
        refine h5 i ?_ hri
        rcases Nat.lt_succ_iff_lt_or_eq.mp hi with h | rfl
        · exact h
        · exact absurd hri hrm


/-! ### values for a given subset -/

/-- *Specification*: row `i` of the Jacobian depends (in the operation graph) on some column `≥ j` that occurs in the list of entries `l`. -/
def Later (T : Tape) (l : List (ℕ × ℕ)) (i j : ℕ) : Prop :=
  ∃ e ∈ l, j ≤ e.2 ∧ Reaches T (T.dep.getD i 0) (e.2 + 1)

/-- what one row of the code does: `rr k`, `cc k` are the row and column of the `k`-th entry in row major order -/
theorem jacRevRow_ok {m n nnz ell : ℕ} {row col rm : List ℕ} {mem : ℕ → ℕ} {dw : List ℝ} {cols : List ℕ}
    (hell : ell < m) (hrm : rm.Perm (List.range nnz))
    (hsorted : ∀ k k', k < k' → k' < nnz → row.getD (rm.getD k 0) 0 = row.getD (rm.getD k' 0) 0 →
      col.getD (rm.getD k 0) 0 ≤ col.getD (rm.getD k' 0) 0)
    (hcols : cols.Pairwise (· < ·)) (hmem : ∀ c < cols.length, mem c = cols.getD c 0)
    {k0 : ℕ} (hk0 : k0 < nnz) (hr0 : row.getD (rm.getD k0 0) 0 = ell) (val : List ℝ) (hval : val.length = nnz) :
    let t := jacRevRow m n nnz ell cols.length row col rm mem dw (0, k0, ell, col.getD (rm.getD k0 0) 0, val)
    k0 < t.2.1 ∧ t.2.1 ≤ nnz ∧ (∀ k, k0 ≤ k → k < t.2.1 → row.getD (rm.getD k 0) 0 = ell) ∧
    (t.2.1 < nnz → row.getD (rm.getD t.2.1 0) 0 ≠ ell) ∧ t.2.2.2.2.length = nnz ∧
    (∀ k < k0, at' t.2.2.2.2 (rm.getD k 0) = at' val (rm.getD k 0)) ∧
    ∀ k, k0 ≤ k → k < t.2.1 → (∃ j ∈ cols, col.getD (rm.getD k 0) 0 ≤ j) →
      at' t.2.2.2.2 (rm.getD k 0) = if col.getD (rm.getD k 0) 0 ∈ cols then at' dw (col.getD (rm.getD k 0) 0) else 0 := by
  have hlen : rm.length = nnz := by rw [hrm.length_eq, List.length_range]
  have hnd : rm.Nodup := (hrm.nodup_iff).mpr List.nodup_range
  have hrlt : ∀ k < nnz, rm.getD k 0 < nnz := by
    intro k hk
    rw [List.getD_eq_getElem _ _ (by omega)]
    exact List.mem_range.mp (hrm.subset (List.getElem_mem _))
  have hinj : ∀ k < nnz, ∀ k' < nnz, rm.getD k 0 = rm.getD k' 0 → k = k' := by
    intro k hk k' hk' he
    rw [List.getD_eq_getElem _ _ (by omega), List.getD_eq_getElem _ _ (by omega)] at he
    exact (hnd.getElem_inj_iff).mp he
  have hset : ∀ (v : List ℝ) k k' a, k < nnz → k' < nnz → k ≠ k' →
      at' (v.set (rm.getD k 0) a) (rm.getD k' 0) = at' v (rm.getD k' 0) := by
    intro v k k' a hk hk' hne
    have := fun h => hne (hinj k hk k' hk' h)
    generalize rm.getD k 0 = a1 at this ⊢
    generalize rm.getD k' 0 = a2 at this ⊢
    unfold at'
    rw [List.getD_eq_getElem?_getD, List.getD_eq_getElem?_getD, List.getElem?_set_ne this]
  have hself : ∀ (v : List ℝ) k a, k < nnz → v.length = nnz → at' (v.set (rm.getD k 0) a) (rm.getD k 0) = a := by
    intro v k a hk hv
    unfold at'
    rw [List.getD_eq_getElem _ _ (by rw [List.length_set, hv]; exact hrlt k hk)]
    simp
  let I : ℕ × ℕ × ℕ × ℕ × List ℝ → Prop := fun s =>
    k0 ≤ s.2.1 ∧ s.2.1 ≤ nnz ∧ (s.2.1 = k0 → s.2.2.1 = ell) ∧
    (s.2.1 < nnz → s.2.2.1 = row.getD (rm.getD s.2.1 0) 0 ∧ s.2.2.2.1 = col.getD (rm.getD s.2.1 0) 0) ∧
    (s.2.1 = nnz → s.2.2.1 = m) ∧
    (∀ k, k0 ≤ k → k < s.2.1 → row.getD (rm.getD k 0) 0 = ell) ∧
    s.2.2.2.2.length = nnz ∧
    (∀ k < k0, at' s.2.2.2.2 (rm.getD k 0) = at' val (rm.getD k 0)) ∧
    s.1 ≤ cols.length ∧ (s.2.2.1 = ell → ∀ c < s.1, cols.getD c 0 < s.2.2.2.1) ∧
    ∀ k, k0 ≤ k → k < s.2.1 → (∃ j ∈ cols, col.getD (rm.getD k 0) 0 ≤ j) →
      at' s.2.2.2.2 (rm.getD k 0) = if col.getD (rm.getD k 0) 0 ∈ cols then at' dw (col.getD (rm.getD k 0) 0) else 0
  have hcs : ∀ a b, a < b → b < cols.length → cols.getD a 0 < cols.getD b 0 := by
    intro a b hab hb
    rw [List.getD_eq_getElem _ _ (by omega), List.getD_eq_getElem _ _ hb]
    exact List.pairwise_iff_getElem.mp hcols a b (by omega) hb hab
  have hci : ∀ j ∈ cols, ∃ c < cols.length, cols.getD c 0 = j := by
    intro j hj
    obtain ⟨c, hc, rfl⟩ := List.getElem_of_mem hj
    exact ⟨c, hc, List.getD_eq_getElem _ _ hc⟩
  have main := whileLoop_rule (c := fun s : ℕ × ℕ × ℕ × ℕ × List ℝ => decide (s.2.2.1 = ell)) (b := fun s =>
    let c := whileLoop (fun c => decide (c < cols.length) && decide (mem c < s.2.2.2.1)) (fun c => c + 1) s.1
    let v := if s.2.2.2.1 = mem c then at' dw s.2.2.2.1 else 0
    let val := s.2.2.2.2.set (rm.getD s.2.1 0) v
    let k := s.2.1 + 1
    if k = nnz then (c, k, m, n, val)
    else (c, k, row.getD (rm.getD k 0) 0, col.getD (rm.getD k 0) 0, val)) I (fun s => nnz - s.2.1) ?_
    (s := (0, k0, ell, col.getD (rm.getD k0 0) 0, val))
    ⟨le_rfl, hk0.le, fun _ => rfl, fun _ => ⟨hr0.symm, rfl⟩, fun h => by dsimp only at h; omega, fun k h1 h2 => by dsimp only at h2; omega,
      hval, fun _ _ => rfl, Nat.zero_le _, fun _ c h => absurd h (Nat.not_lt_zero _), fun k h1 h2 => by dsimp only at h2; omega⟩
  · intro t
    obtain ⟨⟨i1, i2, i3, i4, i5, i6, i7, i8, i9, i10, i11⟩, hc⟩ := main
    simp only [decide_eq_false_iff_not] at hc
    refine ⟨?_, i2, i6, fun h => ?_, i7, i8, i11⟩
    · refine lt_of_le_of_ne i1 fun h => hc (i3 h.symm)
    · intro e
      exact hc ((i4 h).1.trans e)
  · rintro ⟨c, k, iD, iI, v⟩ ⟨i1, i2, i3, i4, i5, i6, i7, i8, i9, i10, i11⟩ hc
    simp only [decide_eq_true_eq] at hc
    dsimp only at i1 i2 i3 i4 i5 i6 i7 i8 i9 i10 i11 ⊢
    have hk : k < nnz := by
      refine lt_of_le_of_ne i2 fun h => ?_
      have := i5 h; omega
    obtain ⟨g1, g2⟩ := i4 hk
    have hadv := whileLoop_rule (c := fun c => decide (c < cols.length) && decide (mem c < iI)) (b := fun c => c + 1)
      (fun c => c ≤ cols.length ∧ ∀ c' < c, cols.getD c' 0 < iI) (fun c => cols.length - c)
      (by
        rintro a ⟨a1, a2⟩ ha
        simp only [Bool.and_eq_true, decide_eq_true_eq] at ha
        refine ⟨⟨by omega, fun c' hc' => ?_⟩, by omega⟩
        rcases Nat.lt_succ_iff_lt_or_eq.mp hc' with h | rfl
        · exact a2 c' h
        · rw [← hmem _ ha.1]; exact ha.2) (s := c) ⟨i9, i10 hc⟩
    generalize whileLoop (fun c => decide (c < cols.length) && decide (mem c < iI)) (fun c => c + 1) c = c1 at hadv ⊢
    obtain ⟨⟨a1, a2⟩, a3⟩ := hadv
    have a4 : c1 < cols.length → iI ≤ mem c1 := by
      intro h
      simp only [Bool.and_eq_false_iff, decide_eq_false_iff_not] at a3
      omega
    have hnew : ∀ k', k0 ≤ k' → k' < k + 1 → (∃ j ∈ cols, col.getD (rm.getD k' 0) 0 ≤ j) →
        at' (v.set (rm.getD k 0) (if iI = mem c1 then at' dw iI else 0)) (rm.getD k' 0) =
        if col.getD (rm.getD k' 0) 0 ∈ cols then at' dw (col.getD (rm.getD k' 0) 0) else 0 := by
      intro k' h1 h2 h3
      rcases Nat.lt_succ_iff_lt_or_eq.mp h2 with h | rfl
      · rw [hset _ _ _ _ hk (by omega) (by omega)]; exact i11 k' h1 h h3
      · rw [hself _ _ _ hk i7, ← g2]
        rw [← g2] at h3
        obtain ⟨j, hj, hjI⟩ := h3
        obtain ⟨c2, hc2, rfl⟩ := hci j hj
        have hc12 : c1 ≤ c2 := by
          by_contra h
          have := a2 c2 (by omega); omega
        have hlt : c1 < cols.length := by omega
        have h4 := a4 hlt
        rw [hmem c1 hlt] at h4 ⊢
        by_cases e : iI = cols.getD c1 0
        · rw [if_pos e, if_pos]
          rw [e, List.getD_eq_getElem _ _ hlt]; exact List.getElem_mem _
        · rw [if_neg e, if_neg]
          intro hin
          obtain ⟨c3, hc3, e3⟩ := hci _ hin
          rcases Nat.lt_trichotomy c3 c1 with h | rfl | h
          · have := a2 c3 h; omega
          · omega
          · have := hcs c1 c3 h hc3; omega
    have hrow : ∀ k', k0 ≤ k' → k' < k + 1 → row.getD (rm.getD k' 0) 0 = ell := by
      intro k' h1 h2
      rcases Nat.lt_succ_iff_lt_or_eq.mp h2 with h | rfl
      · exact i6 k' h1 h
      · rw [← g1, hc]
    have hold : ∀ k' < k0, at' (v.set (rm.getD k 0) (if iI = mem c1 then at' dw iI else 0)) (rm.getD k' 0)
        = at' val (rm.getD k' 0) := by
      intro k' h
      rw [hset _ _ _ _ hk (by omega) (by omega)]; exact i8 k' h
    by_cases he : k + 1 = nnz
    · rw [if_pos he]
      refine ⟨⟨by dsimp only; omega, he.le, fun h => by dsimp only at h; omega, fun h => by dsimp only at h; omega, fun _ => rfl, hrow,
        by rw [List.length_set]; exact i7, hold, a1, fun h => ?_, hnew⟩, by dsimp only; omega⟩
      dsimp only at h; omega
    · rw [if_neg he]
      refine ⟨⟨by dsimp only; omega, by dsimp only; omega, fun h => by dsimp only at h; omega, fun h => ⟨rfl, rfl⟩,
        fun h => by dsimp only at h; omega, hrow,
        by rw [List.length_set]; exact i7, hold, a1, fun h c' hc' => ?_, hnew⟩, by dsimp only; omega⟩
      dsimp only at h hc' ⊢
      have h1 := a2 c' hc'
      have h2 := hsorted k (k + 1) (by omega) (by omega) (by rw [h, ← g1, hc])
      rw [← g2] at h2
      omega

theorem domain_loop (col : List ℕ) (N : ℕ) (j : ℕ) :
    (forRange 0 N (fun _ => false) fun k d => Function.update d (col.getD k 0) true : ℕ → Bool) j = true ↔
      ∃ k < N, col.getD k 0 = j := by
  refine forRange_ind (Nat.zero_le N) (s := fun _ => false) (f := fun k (d : ℕ → Bool) => Function.update d (col.getD k 0) true)
    (P := fun m (d : ℕ → Bool) => d j = true ↔ ∃ k < m, col.getD k 0 = j) (by simp) ?_
  intro m d _ _ ih
  by_cases h : j = col.getD m 0
  · rw [h, Function.update_self]
    simp only [true_iff]
    exact ⟨m, by omega, rfl⟩
  · rw [Function.update_of_ne h, ih]
    constructor
    · rintro ⟨k, h1, h2⟩; exact ⟨k, by omega, h2⟩
    · rintro ⟨k, h1, h2⟩
      rcases Nat.lt_succ_iff_lt_or_eq.mp h1 with h3 | rfl
      · exact ⟨k, h3, h2⟩
      · exact absurd h2.symm h

/-- **C41** (part): `subgraph_jac_rev(x, subset)`, for every recording, history, subset (in any order, also with duplicates) and contents of the
memory: the value set for entry `p = (i, j)` of the subset is the partial derivative of component `i` with respect to `x_j`, whenever component `i`
depends in the operation graph on `x_j` or on a later variable whose column occurs in the subset.
Missing: without this condition the code reads after the end of `dw_col`, and the value may be wrong, see `subgraph_jac_rev_subset_wrong`. -/
theorem subgraph_jac_rev_subset_ok_partial (hT : T.WF) {f : ADFun} {S : St} (h : Reach T f S) {sort : List ℕ → List ℕ}
    (hs : StdSort (· < ·) sort) {esort : List (Element ℕ) → List (Element ℕ)} (hes : StdSort Element.lt esort)
    (jk : Junk) (hjk : jk.dw.length = T.n) (mem0 : ℕ → ℕ) (fresh : ℕ → Option (ℕ → ℕ)) (info : Info) (x : List ℝ)
    (hl : x.length = T.n) (hD : T.Dom (at' x)) {subset : Rc} {l : List (ℕ × ℕ)} (hsub : Holds esort subset T.dep.length T.n l)
    (hin : ∀ e ∈ l, e.1 < T.dep.length ∧ e.2 < T.n) (val : List ℝ) (hval : val.length = l.length) :
    let out := jacRevSubset f sort esort jk mem0 fresh info x subset val
    out.length = l.length ∧
    ∀ p i j, l[p]? = some (i, j) → Later T l i j → IsPartial (fun y => T.eval y i) (at' x) j (at' out p) := by
  obtain ⟨S', hr, hnum, hdir, hx, ht⟩ := fwd0_state hT h jk.taylor jk.nan x hl
  have hI := hsub.inv hes
  obtain ⟨hperm, hord⟩ := hI.row_major hes hin
  unfold jacRevSubset
  dsimp only
  generalize (f.forward jk.taylor jk.nan 0 x).1 = f0 at hr ht ⊢
  rw [ht, hI.nnz]
  set rm := subset.row_major esort with hrmdef
  have hrow : ∀ k, subset.row.getD k 0 = (l.getD k (0, 0)).1 := by intro k; rw [hI.row, SparseRc.getD_fst]
  have hcol : ∀ k, subset.col.getD k 0 = (l.getD k (0, 0)).2 := by intro k; rw [hI.col, SparseRc.getD_snd]
  have hlen : rm.length = l.length := by rw [hperm.length_eq, List.length_range]
  have hle : ∀ k k', k < k' → k' < l.length → SparseRc.rowLe (l.getD (rm.getD k 0) (0, 0)) (l.getD (rm.getD k' 0) (0, 0)) := by
    intro k k' hk hk'
    rw [List.pairwise_map] at hord
    rw [List.getD_eq_getElem rm _ (by omega), List.getD_eq_getElem rm _ (by omega)]
    exact List.pairwise_iff_getElem.mp hord k k' (by omega) (by omega) hk
  have hrlt : ∀ k < l.length, rm.getD k 0 < l.length := by
    intro k hk
    rw [List.getD_eq_getElem _ _ (by omega)]
    exact List.mem_range.mp (hperm.subset (List.getElem_mem _))
  have hmemD : ∀ k < l.length, l.getD (rm.getD k 0) (0, 0) ∈ l := by
    intro k hk
    rw [List.getD_eq_getElem _ _ (hrlt k hk)]; exact List.getElem_mem _
  set domain : ℕ → Bool := forRange 0 l.length (fun _ => false) fun k d => Function.update d (subset.col.getD k 0) true with hdom
  have hdomain : ∀ j, domain j = true ↔ ∃ e ∈ l, e.2 = j := by
    intro j
    rw [hdom, domain_loop]
    constructor
    · rintro ⟨k, h1, rfl⟩
      exact ⟨l.getD k (0, 0), by rw [List.getD_eq_getElem _ _ h1]; exact List.getElem_mem _, (hcol k).symm⟩
    · rintro ⟨e, he, rfl⟩
      obtain ⟨k, hk, rfl⟩ := List.getElem_of_mem he
      exact ⟨k, hk, by rw [hcol, List.getD_eq_getElem _ _ hk]⟩
  let Good : ℕ → ℝ → Prop := fun k v =>
    Later T l (l.getD (rm.getD k 0) (0, 0)).1 (l.getD (rm.getD k 0) (0, 0)).2 →
      IsPartial (fun y => T.eval y (l.getD (rm.getD k 0) (0, 0)).1) (at' x) (l.getD (rm.getD k 0) (0, 0)).2 v
  let I : SubSt → Prop := fun s => s.k ≤ l.length ∧
    (∃ done, Selected T domain s.info done ∧ ∀ ell, done ell = true → ∃ k < s.k, subset.row.getD (rm.getD k 0) 0 = ell) ∧
    (s.k < l.length → ∀ k < s.k, subset.row.getD (rm.getD k 0) 0 < subset.row.getD (rm.getD s.k 0) 0) ∧
    s.dw.length = T.n ∧ s.val.length = l.length ∧ ∀ k < s.k, Good k (at' s.val (rm.getD k 0))
  have main := whileLoop_rule (c := fun s : SubSt => decide (s.k < l.length)) (b := fun s =>
    let ell := subset.row.getD (rm.getD s.k 0) 0
    let r := reverse f0 sort (jk.rnd s.k) (jk.part s.k) s.info 1 ell s.dw
    let mem := fun c => if c < r.2.1.length then r.2.1.getD c 0 else ((fresh s.k).getD s.mem) c
    let t := jacRevRow T.dep.length T.n l.length ell r.2.1.length subset.row subset.col rm mem r.2.2
      (0, s.k, ell, subset.col.getD (rm.getD s.k 0) 0, s.val)
    (⟨t.2.1, r.1, mem, r.2.2, t.2.2.2.2⟩ : SubSt)) I (fun s => l.length - s.k) ?_
    (s := ⟨0, select T jk.sel info domain, mem0, jk.dw, val⟩)
    ⟨Nat.zero_le _, ⟨_, Selected.select jk.sel info, fun _ h => by simp at h⟩, fun _ k h => absurd h (Nat.not_lt_zero _), hjk, hval,
      fun k h => absurd h (Nat.not_lt_zero _)⟩
  · obtain ⟨⟨i1, i2, i3, i4, i5, i6⟩, hc⟩ := main
    simp only [decide_eq_false_iff_not] at hc
    refine ⟨i5, fun p i j hp hlater => ?_⟩
    obtain ⟨hpl, hpe⟩ := List.getElem?_eq_some_iff.mp hp
    obtain ⟨k, hk, rfl⟩ := List.getElem_of_mem (hperm.symm.subset (List.mem_range.mpr hpl))
    have h6 := i6 k (lt_of_lt_of_le (hlen ▸ hk) (Nat.not_lt.mp hc))
    simp only [Good] at h6
    rw [List.getD_eq_getElem rm _ hk, List.getD_eq_getElem l _ hpl, hpe] at h6
    exact h6 hlater
  · rintro ⟨k0, inf, mem, dw, v⟩ ⟨i1, ⟨done, d1, d2⟩, i3, i4, i5, i6⟩ hc
    simp only [decide_eq_true_eq] at hc
    dsimp only at i1 d1 d2 i3 i4 i5 i6 ⊢
    have hell : subset.row.getD (rm.getD k0 0) 0 < T.dep.length := by
      rw [hrow]; exact (hin _ (hmemD k0 hc)).1
    have hnd : done (subset.row.getD (rm.getD k0 0) 0) = false := by
      cases e : done (subset.row.getD (rm.getD k0 0) 0)
      · rfl
      · obtain ⟨k, hk, e2⟩ := d2 _ e
        have := i3 hc k hk; omega
    obtain ⟨c1, c2, c3, c4, c5⟩ := call_one hT hr hnum hdir hx hD d1 hs hell hnd i4 (jk.rnd k0) (jk.part k0)
    have hrowok := jacRevRow_ok (m := T.dep.length) (n := T.n) (nnz := l.length) (row := subset.row) (col := subset.col) (rm := rm)
      (mem := fun c => if c < (reverse f0 sort (jk.rnd k0) (jk.part k0) inf 1 (subset.row.getD (rm.getD k0 0) 0) dw).2.1.length then
        (reverse f0 sort (jk.rnd k0) (jk.part k0) inf 1 (subset.row.getD (rm.getD k0 0) 0) dw).2.1.getD c 0 else ((fresh k0).getD mem) c)
      (dw := (reverse f0 sort (jk.rnd k0) (jk.part k0) inf 1 (subset.row.getD (rm.getD k0 0) 0) dw).2.2)
      (cols := (reverse f0 sort (jk.rnd k0) (jk.part k0) inf 1 (subset.row.getD (rm.getD k0 0) 0) dw).2.1)
      (ell := subset.row.getD (rm.getD k0 0) 0) hell hperm
      (by
        intro k k' h1 h2 h3
        rw [hrow, hrow] at h3
        rw [hcol, hcol]
        rcases hle k k' h1 h2 with h | h
        · omega
        · exact h.2) c1 (fun c hc => by rw [if_pos hc]) (k0 := k0) hc rfl v i5
    generalize reverse f0 sort (jk.rnd k0) (jk.part k0) inf 1 (subset.row.getD (rm.getD k0 0) 0) dw = r at c1 c2 c3 c4 c5 hrowok ⊢
    dsimp only at hrowok
    generalize jacRevRow T.dep.length T.n l.length _ r.2.1.length subset.row subset.col rm _ r.2.2 _ = t at hrowok ⊢
    obtain ⟨t1, t2, t3, t4, t5, t6, t7⟩ := hrowok
    refine ⟨⟨t2, ⟨_, c4, fun ell he => ?_⟩, fun h k hk => ?_, c3, t5, fun k hk => ?_⟩, by omega⟩
    · dsimp only
      by_cases e : ell = subset.row.getD (rm.getD k0 0) 0
      · exact ⟨k0, t1, e.symm⟩
      · rw [Function.update_of_ne e] at he
        obtain ⟨k, hk, e2⟩ := d2 ell he
        exact ⟨k, by omega, e2⟩
    · dsimp only at h hk ⊢
      have h1 : ∀ a b, a < b → b < l.length → subset.row.getD (rm.getD a 0) 0 ≤ subset.row.getD (rm.getD b 0) 0 := by
        intro a b hab hb
        rw [hrow, hrow]
        rcases hle a b hab hb with h | h <;> omega
      have h2 := t4 h
      have h3 := h1 k0 t.2.1 t1 h
      have h4 : subset.row.getD (rm.getD k 0) 0 ≤ subset.row.getD (rm.getD k0 0) 0 := by
        by_cases e : k < k0
        · exact h1 k k0 e hc
        · exact (t3 k (by omega) hk).le
      omega
    · dsimp only at hk ⊢
      by_cases e : k < k0
      · rw [t6 k e]; exact i6 k e
      · intro hlater
        have hk' : k < l.length := by omega
        have e1 := t3 k (by omega) hk
        have e2 := hin _ (hmemD k hk')
        rw [hrow, hrow] at e1
        obtain ⟨e', he', hge, hre⟩ := hlater
        have h7 := t7 k (by omega) hk ⟨e'.2, (c2 _).mpr ⟨(hin _ he').2, (hdomain _).mpr ⟨e', he', rfl⟩, by
          rw [hrow, ← e1]; exact hre⟩, by rw [hcol]; exact hge⟩
        rw [h7]
        have h8 := c5 (l.getD (rm.getD k 0) (0, 0)).2 e2.2 ((hdomain _).mpr ⟨_, hmemD k hk', rfl⟩)
        rw [hcol]
        rw [hrow, ← e1] at h8
        exact h8


theorem reverse_nil {f : ADFun} {sort : List ℕ → List ℕ} {jrnd : Rnd} {junk : Tay} {info : Info} {q ell : ℕ} {dw : List ℝ}
    (h : (reverse f sort jrnd junk info q ell dw).2.1 = []) : (reverse f sort jrnd junk info q ell dw).2.2 = dw := by
  unfold reverse at h ⊢
  dsimp only at h ⊢
  rw [List.map_eq_nil_iff, List.range_eq_nil] at h
  rw [h, forRange_of_le le_rfl]

/-- the pattern with the entries `(0, 0)` and `(1, 0)` -/
def exSubset : Rc := ⟨2, 2, 2, [0, 1], [0, 0], [], []⟩

theorem exSubset_holds (esort : List (Element ℕ) → List (Element ℕ)) : Holds esort exSubset 2 2 [(0, 0), (1, 0)] :=
  Holds.resize 2 2 [(0, 0), (1, 0)] Holds.empty

theorem ex_not_reach : ¬ Reaches exTape2 2 1 := by
  rw [reaches_iff exTape2_WF (i := 2) (by decide) ((Res_low (by decide)).mpr rfl) (by decide)]
  intro h1
  rcases Relation.ReflTransGen.cases_head h1 with h | ⟨l, h4, _⟩
  · omega
  · exact not_edge_low (by decide) h4

theorem ex_reach : Reaches exTape2 5 1 :=
  .step (k := 1) (op := .sin 3) (a := 3) ⟨rfl, by decide, by decide⟩ (by simp [Op.args])
    (.step (k := 0) (op := .mulvv 1 2) ⟨rfl, by decide, by decide⟩ (by simp [Op.args]) (.refl 1))

theorem ex_row_major {esort : List (Element ℕ) → List (Element ℕ)} (hes : StdSort Element.lt esort) :
    exSubset.row_major esort = [0, 1] := by
  obtain ⟨hp, ho⟩ := ((exSubset_holds esort).inv hes).row_major hes (by decide)
  generalize exSubset.row_major esort = rm at hp ho
  have hlen := hp.length_eq
  match rm, hlen with
  | [a, b], _ =>
    have hnd : [a, b].Nodup := hp.nodup_iff.mpr List.nodup_range
    have ha : a < 2 := List.mem_range.mp (hp.subset (by simp))
    have hb : b < 2 := List.mem_range.mp (hp.subset (by simp))
    simp only [List.nodup_cons, List.mem_singleton] at hnd
    have hab := hnd.1
    interval_cases a <;> interval_cases b
    · exact absurd rfl hab
    · rfl
    · simp [SparseRc.rowLe] at ho
    · exact absurd rfl hab

/-- **C41** is false of the version with a subset: for `f(x) = (sin(x0 * x1), x1)` at `x = (0, 1)` and the subset with entries
`(0, 0)` and `(1, 0)` the code sets the second one to `1` when `dw_col.resize(0)` keeps the memory of the vector, for every contents of
the memory at the beginning; but the partial derivative of `x1` with respect to `x0` is zero. -/
theorem subgraph_jac_rev_subset_wrong {f : ADFun} {S : St} (h : Reach exTape2 f S) {sort : List ℕ → List ℕ}
    (hs : StdSort (· < ·) sort) {esort : List (Element ℕ) → List (Element ℕ)} (hes : StdSort Element.lt esort)
    (jk : Junk) (hjk : jk.dw.length = 2) (mem0 : ℕ → ℕ) (info : Info) :
    at' (jacRevSubset f sort esort jk mem0 (fun _ => none) info [0, 1] exSubset [0, 0]) 1 = 1 ∧
    IsPartial (fun y => exTape2.eval y 1) (at' [0, 1]) 0 0 := by
  constructor
  swap
  · unfold IsPartial
    have : (fun ε => exTape2.eval (Function.update (at' [0, 1]) 0 (at' [0, 1] 0 + ε)) 1) = fun _ => 1 := by
      funext ε
      simp [Tape.eval, exTape2, evalOps, stepEnv, indEnv, at', Op.nres]
    rw [this]
    exact hasDerivAt_const _ _
  have hT := exTape2_WF
  obtain ⟨S', hr, hnum, hdir, hx, ht⟩ := fwd0_state hT h jk.taylor jk.nan [0, 1] rfl
  have hD : exTape2.Dom (at' [0, 1]) := by simp [Tape.Dom, exTape2, domOps, Op.dom]
  unfold jacRevSubset
  dsimp only
  generalize (f.forward jk.taylor jk.nan 0 [0, 1]).1 = f0 at hr ht ⊢
  rw [ht, ex_row_major hes]
  have hsel : (forRange 0 exSubset.nnz (fun _ => false) fun k d => Function.update d (exSubset.col.getD k 0) true : ℕ → Bool)
      = fun j => decide (j = 0) := by
    funext j
    simp [exSubset, forRange_succ, forRange_of_le, Function.update_apply]
  rw [hsel]
  have hst : Selected exTape2 (fun j => decide (j = 0)) (select exTape2 jk.sel info fun j => decide (j = 0)) fun _ => false :=
    Selected.select jk.sel info
  obtain ⟨c1, c2, c3, c4, c5⟩ := call_one hT hr hnum hdir hx hD hst hs (ell := 0) (by decide) rfl hjk (jk.rnd 0) (jk.part 0)
  rw [whileLoop_true (by simp [exSubset])]
  dsimp only
  rw [show exSubset.row.getD ([0, 1].getD 0 0) 0 = 0 from rfl, show exSubset.col.getD ([0, 1].getD 0 0) 0 = 0 from rfl]
  generalize reverse f0 sort (jk.rnd 0) (jk.part 0) (select exTape2 jk.sel info fun j => decide (j = 0)) 1 0 jk.dw = r0
    at c1 c2 c3 c4 c5 ⊢
  have hm0 : 0 ∈ r0.2.1 := (c2 0).mpr ⟨by decide, rfl, ex_reach⟩
  have hcol0 : r0.2.1 = [0] := by
    have hall : ∀ j ∈ r0.2.1, j = 0 := fun j hj => by simpa using ((c2 j).mp hj).2.1
    match hq : r0.2.1 with
    | [] => rw [hq] at hm0; simp at hm0
    | [a] => rw [hq] at hall; rw [hall a (by simp)]
    | a :: b :: t =>
      rw [hq] at hall c1
      have h1 := hall a (by simp)
      have h2 := hall b (by simp)
      rw [List.pairwise_cons] at c1
      have := c1.1 b (by simp)
      omega
  have hdw0 : at' r0.2.2 0 = 1 := by
    have h1 := c5 0 (by decide) rfl
    rw [if_pos hm0] at h1
    unfold IsPartial at h1
    refine h1.unique ?_
    have : (fun ε => exTape2.eval (Function.update (at' [0, 1]) 0 (at' [0, 1] 0 + ε)) 0) = fun ε => Real.sin ε := by
      funext ε
      simp [Tape.eval, exTape2, evalOps, stepEnv, indEnv, at', Op.nres, Op.val]
    rw [this]
    simpa using Real.hasDerivAt_sin 0
  have hrow0 : jacRevRow exTape2.dep.length exTape2.n exSubset.nnz 0 r0.2.1.length exSubset.row exSubset.col [0, 1]
      (fun c => if c < r0.2.1.length then r0.2.1.getD c 0 else (none : Option (ℕ → ℕ)).getD mem0 c) r0.2.2 (0, 0, 0, 0, [0, 0])
      = (0, 1, 1, 0, [1, 0]) := by
    unfold jacRevRow
    rw [whileLoop_true (by simp)]
    rw [hcol0]
    dsimp only
    rw [whileLoop_false (c := fun c => decide (c < [0].length) && decide _) (by simp)]
    rw [whileLoop_false (by simp [exSubset])]
    simp [exSubset, hdw0]
  rw [hrow0]
  dsimp only
  obtain ⟨d1, d2, d3, d4, d5⟩ := call_one hT hr hnum hdir hx hD c4 hs (ell := 1) (by decide) (by simp) c3 (jk.rnd 1) (jk.part 1)
  rw [whileLoop_true (by simp [exSubset])]
  dsimp only
  rw [show exSubset.row.getD ([0, 1].getD 1 0) 0 = 1 from rfl, show exSubset.col.getD ([0, 1].getD 1 0) 0 = 0 from rfl]
  have hcol1 : (reverse f0 sort (jk.rnd 1) (jk.part 1) r0.1 1 1 r0.2.2).2.1 = [] := by
    rw [List.eq_nil_iff_forall_not_mem]
    intro j hj
    obtain ⟨_, h2, h3⟩ := (d2 j).mp hj
    simp only [decide_eq_true_eq] at h2
    subst h2
    exact ex_not_reach h3
  have hdw1 := reverse_nil hcol1
  generalize reverse f0 sort (jk.rnd 1) (jk.part 1) r0.1 1 1 r0.2.2 = r1 at hcol1 hdw1 ⊢
  have hrow1 : jacRevRow exTape2.dep.length exTape2.n exSubset.nnz 1 r1.2.1.length exSubset.row exSubset.col [0, 1]
      (fun c => if c < r1.2.1.length then r1.2.1.getD c 0 else (none : Option (ℕ → ℕ)).getD
        (fun c => if c < r0.2.1.length then r0.2.1.getD c 0 else (none : Option (ℕ → ℕ)).getD mem0 c) c) r1.2.2 (0, 1, 1, 0, [1, 0])
      = (0, 2, 2, 2, [1, 1]) := by
    unfold jacRevRow
    rw [whileLoop_true (by simp)]
    rw [hcol0, hcol1, hdw1]
    dsimp only
    rw [whileLoop_false (c := fun c => decide (c < [].length) && decide _) (by simp)]
    rw [whileLoop_false (by simp [exSubset, exTape2])]
    simp [exSubset, hdw0, exTape2]
  rw [hrow1]
  rw [whileLoop_false (by simp [exSubset])]
  simp [at']

/-- the hypotheses of `subgraph_jac_rev_subset_ok_partial` are met for an entry that is not in the sparsity pattern: `(1, 0)` in the subset
with the entries `(1, 0)` and `(1, 1)` -/
example : ∃ l : List (ℕ × ℕ), l[0]? = some (1, 0) ∧ (∀ e ∈ l, e.1 < exTape2.dep.length ∧ e.2 < exTape2.n) ∧
    Later exTape2 l 1 0 ∧ ¬ Reaches exTape2 (exTape2.dep.getD 1 0) 1 :=
  ⟨[(1, 0), (1, 1)], rfl, by decide, ⟨(1, 1), by simp, by simp, .refl 2⟩, ex_not_reach⟩

end CppAD.Subgraph
