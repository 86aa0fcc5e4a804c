import Verif.Color.SparseJac

/-!
# `sparse_hes`

include/cppad/core/sparse_hes.hpp.
-/

open scoped ContDiff Topology

namespace CppAD.SparseHes

open IndexSort SparseJac

/-- the colorings that do not use the ColPack library, sparse_hes.hpp:437-440 -/
inductive Coloring
  | general
  | symmetric

/-- `sparse_hes_work`, sparse_hes.hpp:254-276 -/
structure HWork where
  row : ℕ → ℕ
  col : ℕ → ℕ
  color : ℕ → ℕ
  order : ℕ → ℕ

/-- sparse_hes.hpp:400-479 -/
def workHes (sort : List (Element ℕ) → List (Element ℕ)) (n K : ℕ) (row col : ℕ → ℕ) (pat : Pattern)
    (fjunk : ℕ → Bool) : Coloring → HWork
  | .general =>
    let color := Color.colorGeneral n K (setInternal true pat) col row fjunk
    ⟨row, col, color, colorOrder sort K color col⟩
  | .symmetric =>
    let c := Color.Sym.colorSymmetric sort n K (setInternal true pat) col row fjunk
    ⟨c.2.1, c.1, c.2.2, colorOrder sort K c.2.2 c.1⟩

/-- `ADFun::sparse_hes`, sparse_hes.hpp:324-544.  `work` is `none` when its vectors are empty.
Returns the object, the number of colors, the values in `subset`, and `work`. -/
noncomputable def sparseHes (sort : List (Element ℕ) → List (Element ℕ)) (f : ADFun)
    (junk0 : ℕ → ℝ) (junk junk' : ℕ → ℕ → ℝ) (fjunk : ℕ → Bool) (nan : ℝ) (x wt : List ℝ)
    (K : ℕ) (row col : ℕ → ℕ) (val : ℕ → ℝ) (pat : Pattern) (coloring : Coloring) (work : Option HWork) :
    ADFun × ℕ × (ℕ → ℝ) × Option HWork :=
  let n := f.n
  let f := (f.forward junk0 nan 0 x).1
  if K = 0 then (f, 0, val, work)
  else
    let w := work.getD (workHes sort n K row col pat fjunk coloring)
    let nc := nColor n w.color
    let val := forRange 0 K val fun k v => Function.update v k 0
    let s := forRange 0 nc (f, 0, val) fun ell s =>
      if s.2.1 = K then s
      else if w.color (w.col (w.order s.2.1)) ≠ ell then s
      else
        let f1 := (s.1.forward (junk ell) nan 1 (tab n 1 fun j _ => if w.color j = ell then 1 else 0)).1
        let r := f1.reverse (junk' ell) 2 wt
        (r.1, store K w.color w.col w.order ell (fun k => at' r.2 (w.row k * 2 + 1)) s.2)
    (s.1, nc, s.2.2, some w)

/-- the work information of a previous call with the same subset and pattern -/
structure GoodHes (n K : ℕ) (row col : ℕ → ℕ) (pat : Pattern) (coloring : Coloring) (w : HWork) : Prop where
  plain : coloring = .general → ∀ k < K, w.row k = row k ∧ w.col k = col k
  reflect : ∀ k < K, (w.row k = row k ∧ w.col k = col k) ∨ (w.row k = col k ∧ w.col k = row k)
  colored : ∀ k < K, w.color (w.col k) < n
  not : ∀ j < n, (∀ k < K, w.col k ≠ j) → w.color j = n
  recover : ∀ k < K, ∀ j < n, j ≠ w.col k → w.color j = w.color (w.col k) →
    ∀ q < pat.nnz, ¬ (pat.row q = w.row k ∧ pat.col q = j)
  ordered : Ordered K w.color w.col w.order

/-- index `i` appears in the subset, as a row or as a column -/
def Appears (K : ℕ) (row col : ℕ → ℕ) (i : ℕ) : Prop := ∃ k < K, row k = i ∨ col k = i

/-- the entries of the pattern that matter: for the general coloring, the row is a row of the subset and the
column is a column of the subset; for the symmetric coloring, both appear in the subset as a row or as a column -/
def Matters (K : ℕ) (row col : ℕ → ℕ) (i j : ℕ) : Coloring → Prop
  | .general => (∃ k < K, row k = i) ∧ ∃ k < K, col k = j
  | .symmetric => Appears K row col i ∧ Appears K row col j

/-- Specification: the second partials that are not in the pattern are zero at `x`.  This is only
required for the entries that matter. -/
def Covers2 (T : Tape) (wt : List ℝ) (K : ℕ) (row col : ℕ → ℕ) (pat : Pattern) (coloring : Coloring) (x : ℕ → ℝ) : Prop :=
  ∀ i < T.n, ∀ j < T.n, Matters K row col i j coloring → (∀ k < pat.nnz, ¬ (pat.row k = i ∧ pat.col k = j)) →
    IsPartial2 (wsum T wt) x i j 0

/-- symmetric patterns -/
def Pattern.Symm (pat : Pattern) : Prop :=
  ∀ q < pat.nnz, ∃ r < pat.nnz, pat.row r = pat.col q ∧ pat.col r = pat.row q

theorem workHes_good {sort : List (Element ℕ) → List (Element ℕ)} (hs : StdSort Element.lt sort)
    {n K : ℕ} {row col : ℕ → ℕ} {pat : Pattern} (h : Inside n n K row col pat) (fjunk : ℕ → Bool)
    {coloring : Coloring} (hsym : coloring = .symmetric → Pattern.Symm pat) :
    GoodHes n K row col pat coloring (workHes sort n K row col pat fjunk coloring) := by
  have hpre : ∀ k < K, col k < n ∧ row k < n ∧ row k ∈ setInternal true pat (col k) := by
    intro k hk
    obtain ⟨h1, h2, q, hq, h3, h4⟩ := h k hk
    refine ⟨h2, h1, ?_⟩
    rw [mem_setInternal]
    exact ⟨q, hq, by simp [h3, h4]⟩
  cases coloring with
  | general =>
    have hv := Color.color_general_valid n n K _ col row fjunk hpre
    refine ⟨fun _ k _ => ⟨rfl, rfl⟩, fun k _ => Or.inl ⟨rfl, rfl⟩, hv.colored, hv.not, ?_, colorOrder_ok hs K _ col⟩
    intro k hk j hj hne hc q hq ⟨e1, e2⟩
    apply hv.recover k hk j hj hne hc
    rw [mem_setInternal]
    exact ⟨q, hq, by rw [if_pos rfl]; exact ⟨e1, e2⟩⟩
  | symmetric =>
    have hv := Color.Sym.color_symmetric_valid hs n K (setInternal true pat) col row fjunk (by
      intro i _ j _ hij
      rw [mem_setInternal] at hij ⊢
      obtain ⟨q, hq, hq'⟩ := hij
      simp only [if_true] at hq'
      obtain ⟨r, hr, h1, h2⟩ := hsym rfl q hq
      exact ⟨r, hr, by simp [h1, h2, hq']⟩) hpre
    refine ⟨fun h => (by cases h), fun k hk => ?_, hv.colored, hv.not, ?_, colorOrder_ok hs K _ _⟩
    · rcases hv.reflect k hk with ⟨a, b⟩ | ⟨a, b⟩
      · exact Or.inl ⟨b, a⟩
      · exact Or.inr ⟨b, a⟩
    · intro k hk j hj hne hc q hq ⟨e1, e2⟩
      apply hv.recover k hk j hj hne hc
      rw [mem_setInternal]
      exact ⟨q, hq, by rw [if_pos rfl]; exact ⟨e1, e2⟩⟩

variable {T : Tape} {f : ADFun}

/-- **C21** `sparse_hes`: for every history of calls, point, weights, subset, pattern that
covers the non-zero second partials at the point (and is symmetric when the
symmetric coloring is used), and for a `work` that is empty or from a previous call with
this subset and pattern: entry `k` of the subset is set to the second partial
derivative of `∑ w_i F_i` with respect to `x_(row k)` and `x_(col k)`, and the
resulting `work` is again usable. -/
theorem sparse_hes_ok (hT : T.WF) {S : St} (h : Reach T f S) {sort : List (Element ℕ) → List (Element ℕ)}
    (hs : StdSort Element.lt sort) (junk0 : ℕ → ℝ) (junk junk' : ℕ → ℕ → ℝ) (fjunk : ℕ → Bool) (nan : ℝ)
    (xv wt : List ℝ) (hl : xv.length = T.n) (hwt : wt.length = T.dep.length) (hD : T.Dom (at' xv))
    (K : ℕ) (row col : ℕ → ℕ) (val : ℕ → ℝ) (pat : Pattern)
    (hin : Inside T.n T.n K row col pat) (coloring : Coloring) (hpat : Covers2 T wt K row col pat coloring (at' xv))
    (hsym : coloring = .symmetric → Pattern.Symm pat)
    (work : Option HWork) (hw : ∀ w, work = some w → GoodHes T.n K row col pat coloring w) :
    (∀ k < K, IsPartial2 (wsum T wt) (at' xv) (row k) (col k)
      ((sparseHes sort f junk0 junk junk' fjunk nan xv wt K row col val pat coloring work).2.2.1 k)) ∧
    (∀ w, (sparseHes sort f junk0 junk junk' fjunk nan xv wt K row col val pat coloring work).2.2.2 = some w →
      GoodHes T.n K row col pat coloring w) := by
  have h0 := fwd0_ready hT h junk0 nan xv hl
  have hn : f.n = T.n := by rw [(h.inv hT).2]
  unfold sparseHes
  simp only [hn]
  generalize (f.forward junk0 nan 0 xv).1 = f0 at h0
  by_cases hK : K = 0
  · rw [if_pos hK]
    exact ⟨fun k hk => by omega, hw⟩
  rw [if_neg hK]
  have hwg : GoodHes T.n K row col pat coloring (work.getD (workHes sort T.n K row col pat fjunk coloring)) := by
    cases work with
    | none => exact workHes_good hs hin fjunk hsym
    | some w => exact hw w rfl
  generalize work.getD (workHes sort T.n K row col pat fjunk coloring) = w at hwg
  refine ⟨?_, fun w' e => by cases e; exact hwg⟩
  have ho := hwg.ordered
  have hrc : ∀ k < K, w.row k < T.n ∧ w.col k < T.n := by
    intro k hk
    obtain ⟨h1, h2, -⟩ := hin k hk
    rcases hwg.reflect k hk with ⟨a, b⟩ | ⟨a, b⟩ <;> rw [a, b] <;> exact ⟨by assumption, by assumption⟩
  set nc := nColor T.n w.color with hnc
  set val0 := forRange 0 K val fun k v => Function.update v k 0
  let Q : ℕ → ℝ → Prop := fun k v => IsPartial2 (wsum T wt) (at' xv) (row k) (col k) v
  have main := forRange_ind (Nat.zero_le nc) (s := (f0, 0, val0))
    (f := fun ell s =>
      if s.2.1 = K then s
      else if w.color (w.col (w.order s.2.1)) ≠ ell then s
      else
        let f1 := (s.1.forward (junk ell) nan 1 (tab T.n 1 fun j _ => if w.color j = ell then 1 else 0)).1
        let r := f1.reverse (junk' ell) 2 wt
        (r.1, store K w.color w.col w.order ell (fun k => at' r.2 (w.row k * 2 + 1)) s.2))
    (P := fun q s => Ready T s.1 (at' xv) ∧ Stored K w.color w.col w.order Q q s.2)
    ⟨h0, stored_init _⟩ (by
      rintro ell ⟨g, k, v⟩ _ hell ⟨hr, hst⟩
      dsimp only at hr hst ⊢
      by_cases h1 : k = K
      · rw [if_pos h1]
        refine ⟨hr, hst.le, ?_, hst.val⟩
        intro p hp
        have := (hst.pos p hp)
        dsimp only at this ⊢
        constructor
        · intro h; have := this.mp h; omega
        · intro; omega
      · have hkK : k < K := by have := hst.le; dsimp only at this; omega
        rw [if_neg h1]
        by_cases h2 : w.color (w.col (w.order k)) = ell
        · rw [if_neg (by simpa using h2)]
          have hf1 := (fwd1_ok hT hr (junk ell) nan (tab T.n 1 fun j _ => if w.color j = ell then 1 else 0)
            (by rw [tab_length, Nat.mul_one])).1
          rw [at_cls] at hf1
          generalize (g.forward (junk ell) nan 1 (tab T.n 1 fun j _ => if w.color j = ell then 1 else 0)).1 = f1
            at hf1 ⊢
          have hrev := rev2_ok hT hf1 (junk' ell) wt hwt
          obtain ⟨⟨S1, a1, a2, _, a4⟩, hrev2⟩ := hrev
          refine ⟨⟨S1, a1, by omega, fun j hj => (a4 j hj).1⟩, ?_⟩
          dsimp only
          refine store_ok ho hst ?_
          intro k' hk' hc
          obtain ⟨r1, r2⟩ := hrc k' hk'
          obtain ⟨dg, d1, d2⟩ := hrev2 hD (w.row k') r1
          obtain ⟨d, hd1, hd2⟩ := wsum_mixed hT hD wt (w.row k') (w.col k')
          have hmem : w.col k' ∈ cls T.n w.color ell := by simp [cls, r2, hc]
          have hval := dir_sum2 hT hD (fun j => if j = w.col k' then d else 0) (cls T.n w.color ell) d1 d2 (by
            intro j hj
            simp only [cls, Finset.mem_filter, Finset.mem_range] at hj
            by_cases hjc : j = w.col k'
            · subst hjc; rw [if_pos rfl]; exact hd1
            · rw [if_neg hjc]
              have app : ∀ k < K, Appears K row col (w.row k) ∧ Appears K row col (w.col k) := by
                intro k hk
                rcases hwg.reflect k hk with ⟨a, b⟩ | ⟨a, b⟩
                · exact ⟨⟨k, hk, Or.inl a.symm⟩, ⟨k, hk, Or.inr b.symm⟩⟩
                · exact ⟨⟨k, hk, Or.inr a.symm⟩, ⟨k, hk, Or.inl b.symm⟩⟩
              have hj2 : ∃ k < K, w.col k = j := by
                by_contra hno
                have := hwg.not j hj.1 (fun k hk e => hno ⟨k, hk, e⟩)
                have := hwg.colored k' hk'
                omega
              obtain ⟨k2, hk2, e2⟩ := hj2
              have hm : Matters K row col (w.row k') j coloring := by
                cases coloring with
                | general => exact ⟨⟨k', hk', ((hwg.plain rfl k' hk').1).symm⟩, k2, hk2, (hwg.plain rfl k2 hk2).2.symm.trans e2⟩
                | symmetric => exact ⟨(app k' hk').1, e2 ▸ (app k2 hk2).2⟩
              exact hpat _ r1 _ hj.1 hm (hwg.recover k' hk' j hj.1 hjc (by rw [hj.2, hc])))
          rw [Finset.sum_ite_eq' _ (w.col k'), if_pos hmem] at hval
          show IsPartial2 _ _ _ _ _
          rw [hval]
          rcases hwg.reflect k' hk' with ⟨a, b⟩ | ⟨a, b⟩
          · rw [a, b] at hd1; exact hd1
          · rw [a, b] at hd2; exact hd2
        · rw [if_pos h2]
          refine ⟨hr, hst.le, ?_, hst.val⟩
          intro p hp
          have hk := hst.pos k hkK
          have := hst.pos p hp
          dsimp only at hk this ⊢
          constructor
          · intro h; have := this.mp h; omega
          · intro h
            by_contra hc
            rcases Nat.lt_or_eq_of_le (Nat.not_lt.mp hc) with hlt | rfl
            · have := ho.mono k p hlt hp
              omega
            · omega)
  refine stored_end ho main.2 ?_
  intro k hk
  exact nColor_gt T.n w.color (w.col k) (hrc k hk).2 (hwg.colored k hk)

/-- the hypotheses are met: the recording of `sin(x_0 * x_1)`, a symmetric pattern with all the
entries, a subset with an off diagonal entry -/
example (xv : List ℝ) : exTape.Dom (at' xv) ∧ Inside exTape.n exTape.n 2 (fun k => k) (fun _ => 0)
      ⟨4, fun k => k / 2, fun k => k % 2⟩ ∧ Pattern.Symm ⟨4, fun k => k / 2, fun k => k % 2⟩ ∧
    Covers2 exTape [1] 2 (fun k => k) (fun _ => 0) ⟨4, fun k => k / 2, fun k => k % 2⟩ .symmetric (at' xv) ∧
    Inside exTape.dep.length exTape.n 2 (fun _ => 0) (fun k => k) ⟨2, fun _ => 0, fun k => k⟩ ∧
    Covers exTape 2 (fun _ => 0) (fun k => k) ⟨2, fun _ => 0, fun k => k⟩ (at' xv) := by
  refine ⟨exTape_Dom _, ?_, ?_, ?_, ?_, ?_⟩
  · show ∀ k < 2, k < 2 ∧ 0 < 2 ∧ ∃ q < 4, q / 2 = k ∧ q % 2 = 0
    decide
  · show ∀ q < 4, ∃ r < 4, r / 2 = q % 2 ∧ r % 2 = q / 2
    decide
  · intro i hi j hj _ hno
    have hi' : i < 2 := hi
    have hj' : j < 2 := hj
    exact absurd ⟨by show (2 * i + j) / 2 = i; omega, by show (2 * i + j) % 2 = j; omega⟩
      (hno (2 * i + j) (by show _ < 4; omega))
  · show ∀ k < 2, 0 < 1 ∧ k < 2 ∧ ∃ q < 2, 0 = 0 ∧ q = k
    decide
  · intro i hi j hj _ _ hno
    have hi' : i < 1 := hi
    have hj' : j < 2 := hj
    exact absurd ⟨by show 0 = i; omega, rfl⟩ (hno j hj')

end CppAD.SparseHes
