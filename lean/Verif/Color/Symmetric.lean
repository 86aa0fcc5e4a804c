import Verif.Color.General
import Verif.Util.IndexSort

/-!
# `color_symmetric_cppad`

include/cppad/local/color_symmetric.hpp:74-208.  As for `color_general_cppad`,
a `SetVector` object is represented by the sets it holds.  `std::set` is a
finite set, iterated in increasing order.
-/

namespace CppAD.Color

/-- Specification: the coloring and the (possibly reflected) entries
`(row' k, col' k)` are such that the requested entries `(row k, col k)` of a symmetric
matrix can be recovered. -/
structure ValidSym (m K : ℕ) (P : ℕ → Finset ℕ) (row col row' col' color : ℕ → ℕ) : Prop where
  /-- each entry is the requested one or its reflection -/
  reflect : ∀ k < K, (row' k = row k ∧ col' k = col k) ∨ (row' k = col k ∧ col' k = row k)
  /-- a row that is used has a color -/
  colored : ∀ k < K, color (row' k) < m
  /-- a row that is not used has no color -/
  not : ∀ i < m, (∀ k < K, row' k ≠ i) → color i = m
  /-- a used entry is not disturbed by another row of the same color -/
  recover : ∀ k < K, ∀ i < m, i ≠ row' k → color i = color (row' k) → col' k ∉ P i

namespace Sym

/-- color_symmetric.hpp:87-93: `pair_needed` -/
def pairNeeded (K : ℕ) (row col : ℕ → ℕ) : ℕ → Finset ℕ :=
  forRange 0 K (fun _ => ∅) fun k a =>
    let a1 := Function.update a (row k) (insert (col k) (a (row k)))
    Function.update a1 (col k) (insert (row k) (a1 (col k)))

/-- color_symmetric.hpp:97-100: the keys -/
def keys (m : ℕ) (need : ℕ → Finset ℕ) : List ℕ :=
  (List.range m).map fun i => m - (need i).card

/-- color_symmetric.hpp:104-106: `row2order` -/
def row2order (m : ℕ) (order2row : ℕ → ℕ) : ℕ → ℕ :=
  forRange 0 m (fun _ => 0) fun o a => Function.update a (order2row o) o

/-- color_symmetric.hpp:109-117: initial coloring -/
def initial (m : ℕ) (need : ℕ → Finset ℕ) (order2row : ℕ → ℕ) : (ℕ → ℕ) × ℕ :=
  forRange 0 m ((fun _ => 0), 0) fun o s =>
    if need (order2row o) = ∅ then (Function.update s.1 (order2row o) m, s.2)
    else (Function.update s.1 (order2row o) s.2, s.2 + 1)

/-- color_symmetric.hpp:136-151 -/
def forbid1 (P : ℕ → Finset ℕ) (color : ℕ → ℕ) (c1 : ℕ) (cols : Finset ℕ) (f : ℕ → Bool) :
    ℕ → Bool :=
  (cols.sort (· ≤ ·)).foldl (fun f j1 =>
    ((P j1).sort (· ≤ ·)).foldl (fun f i2 =>
      if color i2 < c1 then Function.update f (color i2) true else f) f) f

/-- color_symmetric.hpp:154-166 -/
def forbid2 (P : ℕ → Finset ℕ) (color : ℕ → ℕ) (need : ℕ → Finset ℕ) (order2row : ℕ → ℕ)
    (o1 i1 : ℕ) (f : ℕ → Bool) : ℕ → Bool :=
  forRange 0 o1 f fun o2 f =>
    ((need (order2row o2)).sort (· ≤ ·)).foldl (fun f j2 =>
      if j2 ∈ P i1 then Function.update f (color (order2row o2)) true else f) f

/-- color_symmetric.hpp:177-190: state is (color, need) -/
def erase (m : ℕ) (r2o : ℕ → ℕ) (o1 i1 : ℕ) (s : (ℕ → ℕ) × (ℕ → Finset ℕ)) :
    (ℕ → ℕ) × (ℕ → Finset ℕ) :=
  ((s.2 i1).sort (· ≤ ·)).foldl (fun s j1 =>
    if o1 < r2o j1 then
      if i1 ∈ s.2 j1 then
        (if (s.2 j1).erase i1 = ∅ then Function.update s.1 j1 m else s.1,
          Function.update s.2 j1 ((s.2 j1).erase i1))
      else s
    else s) s

/-- color_symmetric.hpp:123-191: one iteration of the loop over the rows;
state is ((color, need), forbidden) -/
def body (m : ℕ) (P : ℕ → Finset ℕ) (order2row r2o : ℕ → ℕ) (o1 : ℕ)
    (s : ((ℕ → ℕ) × (ℕ → Finset ℕ)) × (ℕ → Bool)) : ((ℕ → ℕ) × (ℕ → Finset ℕ)) × (ℕ → Bool) :=
  let i1 := order2row o1
  let color := s.1.1
  let need := s.1.2
  if color i1 < m then
    let c1 := color i1
    let f1 := forRange 0 (c1 + 1) s.2 fun c2 f => Function.update f c2 false
    let f2 := forbid1 P color c1 (need i1) f1
    let f3 := forbid2 P color need order2row o1 i1 f2
    (erase m r2o o1 i1 (Function.update color i1 (pick f3), need), f3)
  else s

/-- color_symmetric.hpp:74-208.  `order2row` is the result of `index_sort`;
`junk` is the initial content of `forbidden`.  Returns (row, col, color). -/
def colorSymmetric (sort : List (IndexSort.Element ℕ) → List (IndexSort.Element ℕ))
    (m K : ℕ) (P : ℕ → Finset ℕ) (row col : ℕ → ℕ) (junk : ℕ → Bool) :
    (ℕ → ℕ) × (ℕ → ℕ) × (ℕ → ℕ) :=
  let need := pairNeeded K row col
  let ind := IndexSort.indexSort sort (keys m need)
  let order2row := fun o => ind.getD o 0
  let r2o := row2order m order2row
  let c0 := (initial m need order2row).1
  let s := forRange 0 m ((c0, need), junk) fun o1 s => body m P order2row r2o o1 s
  let need' := s.1.2
  -- color_symmetric.hpp:194-206
  let rc := forRange 0 K (row, col) fun k rc =>
    if rc.2 k ∈ need' (rc.1 k) then rc
    else (Function.update rc.1 k (rc.2 k), Function.update rc.2 k (rc.1 k))
  (rc.1, rc.2, s.1.1)

theorem mem_pairNeeded (K : ℕ) (row col : ℕ → ℕ) (i j : ℕ) :
    j ∈ pairNeeded K row col i ↔
      ∃ k < K, (row k = i ∧ col k = j) ∨ (row k = j ∧ col k = i) := by
  refine forRange_ind (Nat.zero_le K)
    (P := fun k (a : ℕ → Finset ℕ) => j ∈ a i ↔
      ∃ q < k, (row q = i ∧ col q = j) ∨ (row q = j ∧ col q = i)) (by simp) ?_
  intro k a _ _ ih
  have e : (∃ q < k + 1, (row q = i ∧ col q = j) ∨ (row q = j ∧ col q = i)) ↔
      (∃ q < k, (row q = i ∧ col q = j) ∨ (row q = j ∧ col q = i)) ∨
        ((row k = i ∧ col k = j) ∨ (row k = j ∧ col k = i)) := by
    constructor
    · rintro ⟨q, hq, h⟩
      rcases Nat.lt_succ_iff_lt_or_eq.mp hq with hq | rfl
      · exact Or.inl ⟨q, hq, h⟩
      · exact Or.inr h
    · rintro (⟨q, hq, h⟩ | h)
      · exact ⟨q, by omega, h⟩
      · exact ⟨k, by omega, h⟩
  rw [e, ← ih]
  rw [Function.update_apply, Function.update_apply, Function.update_apply]
  split_ifs with h1 h2 h2 <;> (try simp only [Finset.mem_insert]) <;> grind

theorem row2order_eq {m : ℕ} {o2r : ℕ → ℕ} (hinj : ∀ a < m, ∀ b < m, o2r a = o2r b → a = b) :
    ∀ o < m, row2order m o2r (o2r o) = o := by
  refine forRange_ind (Nat.zero_le m) (P := fun k (a : ℕ → ℕ) => ∀ o < k, a (o2r o) = o)
    (fun o ho => by omega) ?_
  intro k a _ hk ih o ho
  by_cases h : o = k
  · subst h; rw [Function.update_self]
  · rw [Function.update_of_ne]
    · exact ih o (by omega)
    · intro e; exact h (hinj _ (by omega) _ hk e)

theorem initial_ok {m : ℕ} {need : ℕ → Finset ℕ} {o2r : ℕ → ℕ}
    (hinj : ∀ a < m, ∀ b < m, o2r a = o2r b → a = b) :
    (∀ o < m, need (o2r o) = ∅ → (initial m need o2r).1 (o2r o) = m) ∧
    (∀ o < m, need (o2r o) ≠ ∅ → (initial m need o2r).1 (o2r o) ≤ o) ∧
    (∀ o < m, ∀ p < o, need (o2r o) ≠ ∅ → need (o2r p) ≠ ∅ →
      (initial m need o2r).1 (o2r p) < (initial m need o2r).1 (o2r o)) := by
  have := forRange_ind (Nat.zero_le m) (s := ((fun _ => 0 : ℕ → ℕ), 0))
    (f := fun o s =>
      if need (o2r o) = ∅ then (Function.update s.1 (o2r o) m, s.2)
      else (Function.update s.1 (o2r o) s.2, s.2 + 1))
    (P := fun k (s : (ℕ → ℕ) × ℕ) => s.2 ≤ k ∧
      (∀ o < k, need (o2r o) = ∅ → s.1 (o2r o) = m) ∧
      (∀ o < k, need (o2r o) ≠ ∅ → s.1 (o2r o) ≤ o ∧ s.1 (o2r o) < s.2) ∧
      (∀ o < k, ∀ p < o, need (o2r o) ≠ ∅ → need (o2r p) ≠ ∅ → s.1 (o2r p) < s.1 (o2r o)))
    (by refine ⟨le_rfl, ?_, ?_, ?_⟩ <;> (intro o ho; omega)) (by
      intro k s _ hk ⟨h0, h1, h2, h3⟩
      have hne : ∀ o < k, o2r o ≠ o2r k := fun o ho e => by
        have := hinj _ (by omega) _ hk e; omega
      by_cases hn : need (o2r k) = ∅
      · rw [if_pos hn]
        dsimp only
        refine ⟨by omega, ?_, ?_, ?_⟩
        · intro o ho h
          rcases Nat.lt_succ_iff_lt_or_eq.mp ho with ho | rfl
          · rw [Function.update_of_ne (hne o ho)]; exact h1 o ho h
          · rw [Function.update_self]
        · intro o ho h
          rcases Nat.lt_succ_iff_lt_or_eq.mp ho with ho | rfl
          · rw [Function.update_of_ne (hne o ho)]; exact h2 o ho h
          · exact absurd hn h
        · intro o ho p hp h h'
          rcases Nat.lt_succ_iff_lt_or_eq.mp ho with ho | rfl
          · rw [Function.update_of_ne (hne o ho), Function.update_of_ne (hne p (by omega))]
            exact h3 o ho p hp h h'
          · exact absurd hn h
      · rw [if_neg hn]
        dsimp only
        refine ⟨by omega, ?_, ?_, ?_⟩
        · intro o ho h
          rcases Nat.lt_succ_iff_lt_or_eq.mp ho with ho | rfl
          · rw [Function.update_of_ne (hne o ho)]; exact h1 o ho h
          · exact absurd h hn
        · intro o ho h
          rcases Nat.lt_succ_iff_lt_or_eq.mp ho with ho | rfl
          · rw [Function.update_of_ne (hne o ho)]
            have := h2 o ho h; omega
          · rw [Function.update_self]; omega
        · intro o ho p hp h h'
          rcases Nat.lt_succ_iff_lt_or_eq.mp ho with ho | rfl
          · rw [Function.update_of_ne (hne o ho), Function.update_of_ne (hne p (by omega))]
            exact h3 o ho p hp h h'
          · rw [Function.update_self, Function.update_of_ne (hne p hp)]
            have := h2 p hp h'; omega)
  obtain ⟨-, h1, h2, h3⟩ := this
  exact ⟨h1, fun o ho h => (h2 o ho h).1, h3⟩

theorem forbid1_iff {P : ℕ → Finset ℕ} {color : ℕ → ℕ} {c1 : ℕ} {cols : Finset ℕ}
    {f : ℕ → Bool} {c : ℕ} :
    forbid1 P color c1 cols f c = true ↔
      f c = true ∨ ∃ j ∈ cols, ∃ r ∈ P j, color r < c1 ∧ color r = c := by
  unfold forbid1
  rw [foldl_mark _ _ (fun j c => ∃ r ∈ P j, color r < c1 ∧ color r = c)]
  · simp only [Finset.mem_sort]
  · intro f j c
    rw [foldl_mark _ _ (fun r c => color r < c1 ∧ color r = c)]
    · simp only [Finset.mem_sort]
    · intro f r c
      exact mark_one _ f _ c

theorem forbid2_iff {P : ℕ → Finset ℕ} {color : ℕ → ℕ} {need : ℕ → Finset ℕ} {o2r : ℕ → ℕ}
    {o1 i1 : ℕ} {f : ℕ → Bool} {c : ℕ} :
    forbid2 P color need o2r o1 i1 f c = true ↔
      f c = true ∨ ∃ o2 < o1, ∃ j ∈ need (o2r o2), j ∈ P i1 ∧ color (o2r o2) = c := by
  unfold forbid2
  refine forRange_ind (Nat.zero_le o1) (s := f) (P := fun k (g : ℕ → Bool) => g c = true ↔
      f c = true ∨ ∃ o2 < k, ∃ j ∈ need (o2r o2), j ∈ P i1 ∧ color (o2r o2) = c) (by simp) ?_
  intro k g _ _ ih
  rw [foldl_mark _ _ (fun j c => j ∈ P i1 ∧ color (o2r k) = c)]
  · simp only [Finset.mem_sort]
    rw [ih]
    constructor
    · rintro ((h | ⟨o, ho, h⟩) | h)
      · exact Or.inl h
      · exact Or.inr ⟨o, by omega, h⟩
      · exact Or.inr ⟨k, by omega, h⟩
    · rintro (h | ⟨o, ho, h⟩)
      · exact Or.inl (Or.inl h)
      · rcases Nat.lt_succ_iff_lt_or_eq.mp ho with ho | rfl
        · exact Or.inl (Or.inr ⟨o, ho, h⟩)
        · exact Or.inr h
  · intro f j c
    exact mark_one _ f _ c

/-- effect of the erase loop -/
theorem erase_eq {m : ℕ} {r2o : ℕ → ℕ} {o1 i1 : ℕ} (s : (ℕ → ℕ) × (ℕ → Finset ℕ)) :
    ∀ j, ((erase m r2o o1 i1 s).2 j =
        if j ∈ s.2 i1 ∧ o1 < r2o j then (s.2 j).erase i1 else s.2 j) ∧
      ((erase m r2o o1 i1 s).1 j =
        if j ∈ s.2 i1 ∧ o1 < r2o j ∧ i1 ∈ s.2 j ∧ (s.2 j).erase i1 = ∅ then m else s.1 j) := by
  unfold erase
  have hn : ((s.2 i1).sort (· ≤ ·)).Nodup := Finset.sort_nodup _ _
  have key : ∀ (l : List ℕ), l.Nodup → ∀ t : (ℕ → ℕ) × (ℕ → Finset ℕ), ∀ j,
      ((l.foldl (fun s j1 =>
        if o1 < r2o j1 then
          if i1 ∈ s.2 j1 then
            (if (s.2 j1).erase i1 = ∅ then Function.update s.1 j1 m else s.1,
              Function.update s.2 j1 ((s.2 j1).erase i1))
          else s
        else s) t).2 j = if j ∈ l ∧ o1 < r2o j then (t.2 j).erase i1 else t.2 j) ∧
      ((l.foldl (fun s j1 =>
        if o1 < r2o j1 then
          if i1 ∈ s.2 j1 then
            (if (s.2 j1).erase i1 = ∅ then Function.update s.1 j1 m else s.1,
              Function.update s.2 j1 ((s.2 j1).erase i1))
          else s
        else s) t).1 j = if j ∈ l ∧ o1 < r2o j ∧ i1 ∈ t.2 j ∧ (t.2 j).erase i1 = ∅ then m
          else t.1 j) := by
    intro l
    induction l with
    | nil => intro _ t j; simp
    | cons a l ih =>
      intro hnd t j
      obtain ⟨hal, hl⟩ := List.nodup_cons.mp hnd
      rw [List.foldl_cons]
      obtain ⟨e1, e2⟩ := ih hl (if o1 < r2o a then
          if i1 ∈ t.2 a then
            (if (t.2 a).erase i1 = ∅ then Function.update t.1 a m else t.1,
              Function.update t.2 a ((t.2 a).erase i1))
          else t
        else t) j
      rw [e1, e2]
      by_cases hja : j = a
      · subst hja
        simp only [hal, false_and, if_false, List.mem_cons, true_or, true_and]
        by_cases h1 : o1 < r2o j
        · simp only [h1, if_true, true_and]
          by_cases h2 : i1 ∈ t.2 j
          · simp only [h2, if_true, true_and, Function.update_self]
            split_ifs <;> simp
          · simp [h2]
        · simp [h1]
      · have hf : ∀ (u : (ℕ → ℕ) × (ℕ → Finset ℕ)), u = (if o1 < r2o a then
            if i1 ∈ t.2 a then
              (if (t.2 a).erase i1 = ∅ then Function.update t.1 a m else t.1,
                Function.update t.2 a ((t.2 a).erase i1))
            else t
          else t) → u.1 j = t.1 j ∧ u.2 j = t.2 j := by
          rintro u rfl
          split_ifs <;> simp [Function.update_of_ne hja]
        obtain ⟨g1, g2⟩ := hf _ rfl
        rw [g1, g2]
        simp only [List.mem_cons, hja, false_or]
        exact ⟨trivial, trivial⟩
  intro j
  have := key _ hn s j
  simpa only [Finset.mem_sort] using this

/-- the invariant after the rows `order2row 0, …, order2row (M-1)` have been colored -/
structure Inv (m M : ℕ) (P : ℕ → Finset ℕ) (o2r : ℕ → ℕ) (c0 : ℕ → ℕ) (need0 : ℕ → Finset ℕ)
    (color : ℕ → ℕ) (need : ℕ → Finset ℕ) : Prop where
  sub : ∀ i, need i ⊆ need0 i
  either : ∀ i j, j ∈ need0 i → j ∈ need i ∨ i ∈ need j
  empty : ∀ o < m, need (o2r o) = ∅ → color (o2r o) = m
  done : ∀ o < M, need (o2r o) ≠ ∅ → color (o2r o) ≤ c0 (o2r o)
  todo : ∀ o, M ≤ o → o < m → need (o2r o) ≠ ∅ → color (o2r o) = c0 (o2r o)
  once : ∀ o < M, ∀ p, o < p → p < m → o2r p ∈ need (o2r o) → o2r o ∉ need (o2r p)
  clash : ∀ o < M, ∀ p < M, o ≠ p → need (o2r o) ≠ ∅ → need (o2r p) ≠ ∅ →
    color (o2r o) = color (o2r p) → ∀ j ∈ need (o2r o), j ∉ P (o2r p)

theorem body_inv {m M : ℕ} {P : ℕ → Finset ℕ} {o2r r2o : ℕ → ℕ} {c0 : ℕ → ℕ}
    {need0 : ℕ → Finset ℕ} (hM : M < m)
    (hsym : ∀ i < m, ∀ j < m, j ∈ P i → i ∈ P j)
    (hlt : ∀ o < m, o2r o < m) (hsurj : ∀ i < m, ∃ o < m, o2r o = i)
    (hinj : ∀ a < m, ∀ b < m, o2r a = o2r b → a = b)
    (hr2o : ∀ o < m, r2o (o2r o) = o)
    (hneed : ∀ i j, j ∈ need0 i → i < m ∧ j < m)
    (hc : ∀ o < m, need0 (o2r o) ≠ ∅ → c0 (o2r o) ≤ o)
    (hcc : ∀ o < m, ∀ p < o, need0 (o2r o) ≠ ∅ → need0 (o2r p) ≠ ∅ → c0 (o2r p) < c0 (o2r o))
    {s : ((ℕ → ℕ) × (ℕ → Finset ℕ)) × (ℕ → Bool)}
    (h : Inv m M P o2r c0 need0 s.1.1 s.1.2) :
    Inv m (M + 1) P o2r c0 need0 (body m P o2r r2o M s).1.1 (body m P o2r r2o M s).1.2 := by
  obtain ⟨⟨color, need⟩, fb⟩ := s
  dsimp only at h
  unfold body
  dsimp only
  have hne0 : ∀ i, need i ≠ ∅ → need0 i ≠ ∅ := fun i hi e => by
    have := h.sub i; rw [e, Finset.subset_empty] at this; exact hi this
  by_cases hemp : need (o2r M) = ∅
  · have hcm := h.empty M hM hemp
    rw [if_neg (by omega)]
    refine ⟨h.sub, h.either, h.empty, ?_, ?_, ?_, ?_⟩
    · intro o ho hn
      rcases Nat.lt_succ_iff_lt_or_eq.mp ho with ho | rfl
      · exact h.done o ho hn
      · exact absurd hemp hn
    · intro o ho; exact h.todo o (by omega)
    · intro o ho p hop hp hin
      rcases Nat.lt_succ_iff_lt_or_eq.mp ho with ho | rfl
      · exact h.once o ho p hop hp hin
      · change o2r p ∈ need (o2r o) at hin
        rw [hemp] at hin; exact absurd hin (Finset.notMem_empty _)
    · intro o ho p hp hop h1 h2
      have : o ≠ M := by rintro rfl; exact h1 hemp
      have : p ≠ M := by rintro rfl; exact h2 hemp
      exact h.clash o (by omega) p (by omega) hop h1 h2
  · have hcm : color (o2r M) = c0 (o2r M) := h.todo M le_rfl hM hemp
    have hclt : color (o2r M) < m := by
      have := hc M hM (hne0 _ hemp); omega
    rw [if_pos hclt]
    set c1 := color (o2r M) with hc1
    set f1 := forRange 0 (c1 + 1) fb fun ell f => Function.update f ell false
    have hf1 : ∀ c ≤ c1, f1 c = false := fun c hc => clear_eq _ fb c (by omega)
    set f2 := forbid1 P color c1 (need (o2r M)) f1 with hf2
    set f3 := forbid2 P color need o2r M (o2r M) f2 with hf3
    have hcol : ∀ o < M, need (o2r o) ≠ ∅ → color (o2r o) < c1 := by
      intro o ho hn
      have h1 := h.done o ho hn
      have h2 := hcc M hM o ho (hne0 _ hemp) (hne0 _ hn)
      omega
    have hfree : f3 c1 = false := by
      rw [← Bool.not_eq_true, hf3, forbid2_iff, hf2, forbid1_iff]
      rintro ((h1 | ⟨j, _, r, _, h2, h3⟩) | ⟨o, ho, j, hj, _, h4⟩)
      · rw [hf1 _ le_rfl] at h1; cases h1
      · omega
      · have := hcol o ho (Finset.ne_empty_of_mem hj); omega
    obtain ⟨p1, p2⟩ := pick_ok hfree
    have he := erase_eq (m := m) (r2o := r2o) (o1 := M) (i1 := o2r M)
      (Function.update color (o2r M) (pick f3), need)
    dsimp only at he
    generalize erase m r2o M (o2r M) (Function.update color (o2r M) (pick f3), need) = t at he
    obtain ⟨color', need'⟩ := t
    dsimp only at he ⊢
    -- facts on the erased sets
    have hdone : ∀ o ≤ M, need' (o2r o) = need (o2r o) := by
      intro o ho
      rw [(he _).1, if_neg]
      rintro ⟨_, h2⟩
      rw [hr2o o (by omega)] at h2; omega
    have hlater : ∀ o, M < o → o < m → ∀ j, j ∈ need' (o2r o) ↔
        j ∈ need (o2r o) ∧ (j = o2r M → o2r o ∉ need (o2r M)) := by
      intro o ho ho' j
      rw [(he _).1]
      have : M < r2o (o2r o) := by rw [hr2o o ho']; exact ho
      by_cases h1 : o2r o ∈ need (o2r M)
      · rw [if_pos ⟨h1, this⟩, Finset.mem_erase]
        tauto
      · rw [if_neg (fun h => h1 h.1)]
        tauto
    have hsub' : ∀ i, need' i ⊆ need i := by
      intro i
      rw [(he i).1]; split_ifs
      · exact Finset.erase_subset _ _
      · exact subset_rfl
    have hcdone : ∀ o ≤ M, color' (o2r o) = Function.update color (o2r M) (pick f3) (o2r o) := by
      intro o ho
      rw [(he _).2, if_neg]
      rintro ⟨_, h2, _⟩
      rw [hr2o o (by omega)] at h2; omega
    have hne : ∀ o < m, o ≠ M → o2r o ≠ o2r M := fun o ho hoM e => hoM (hinj _ ho _ hM e)
    refine ⟨fun i => (hsub' i).trans (h.sub i), ?_, ?_, ?_, ?_, ?_, ?_⟩
    · -- either
      intro i j hij
      obtain ⟨hi, hj⟩ := hneed i j hij
      obtain ⟨oi, hoi, rfl⟩ := hsurj i hi
      obtain ⟨oj, hoj, rfl⟩ := hsurj j hj
      have key : ∀ a < m, ∀ b < m, o2r b ∈ need (o2r a) →
          o2r b ∈ need' (o2r a) ∨ o2r a ∈ need' (o2r b) := by
        intro a ha b hb hab
        by_cases haM : a ≤ M
        · left; rw [hdone a haM]; exact hab
        · by_cases hc : o2r b ∈ need' (o2r a)
          · exact Or.inl hc
          · right
            rw [hlater a (by omega) ha] at hc
            have hbM : o2r b = o2r M ∧ o2r a ∈ need (o2r M) := by tauto
            have : b = M := hinj _ hb _ hM hbM.1
            subst this
            rw [hdone b le_rfl]; exact hbM.2
      rcases h.either _ _ hij with h1 | h1
      · exact key oi hoi oj hoj h1
      · exact (key oj hoj oi hoi h1).symm
    · -- empty
      intro o ho hemp'
      by_cases hoM : o ≤ M
      · rw [hdone o hoM] at hemp'
        have hoM' : o ≠ M := by rintro rfl; exact hemp hemp'
        rw [hcdone o hoM, Function.update_of_ne (hne o ho hoM')]
        exact h.empty o ho hemp'
      · have hMr : M < r2o (o2r o) := by rw [hr2o o ho]; omega
        rw [(he _).2]
        rw [(he _).1] at hemp'
        split_ifs with h1
        · rfl
        · rw [Function.update_of_ne (hne o ho (by omega))]
          apply h.empty o ho
          split_ifs at hemp' with h2
          · by_cases hin : o2r M ∈ need (o2r o)
            · exact absurd ⟨h2.1, h2.2, hin, hemp'⟩ h1
            · rwa [Finset.erase_eq_of_notMem hin] at hemp'
          · exact hemp'
    · -- done
      intro o ho hn
      rw [hdone o (by omega)] at hn
      rw [hcdone o (by omega)]
      by_cases hoM : o = M
      · subst hoM; rw [Function.update_self]; omega
      · rw [Function.update_of_ne (hne o (by omega) hoM)]
        exact h.done o (by omega) hn
    · -- todo
      intro o ho ho' hn
      have hMr : M < r2o (o2r o) := by rw [hr2o o ho']; omega
      rw [(he _).1] at hn
      rw [(he _).2, if_neg, Function.update_of_ne (hne o ho' (by omega))]
      · apply h.todo o (by omega) ho'
        intro e
        rw [e] at hn
        simp at hn
      · rintro ⟨h1, h2, h3, h4⟩
        rw [if_pos ⟨h1, h2⟩] at hn
        exact hn h4
    · -- once
      intro o ho p hop hp hin hin'
      rw [hdone o (by omega)] at hin
      rcases Nat.lt_succ_iff_lt_or_eq.mp ho with ho | rfl
      · exact h.once o ho p hop hp hin (hsub' _ hin')
      · rw [hlater p hop hp] at hin'
        exact hin'.2 rfl hin
    · -- clash
      intro o ho p hp hop h1 h2 hcc' j hj hjp
      rw [hdone o (by omega)] at h1 hj
      rw [hdone p (by omega)] at h2
      rw [hcdone o (by omega), hcdone p (by omega)] at hcc'
      by_cases hoM : o = M
      · subst hoM
        have hpM : p ≠ o := fun e => hop e.symm
        rw [Function.update_self, Function.update_of_ne (hne p (by omega) hpM)] at hcc'
        have hjm := (hneed _ _ (h.sub _ hj)).2
        have hf : f3 (color (o2r p)) = true := by
          rw [hf3, forbid2_iff, hf2, forbid1_iff]
          exact Or.inl (Or.inr ⟨j, hj, o2r p, hsym _ (hlt p (by omega)) _ hjm hjp,
            hcol p (by omega) h2, rfl⟩)
        rw [← hcc', p2] at hf; cases hf
      · rw [Function.update_of_ne (hne o (by omega) hoM)] at hcc'
        by_cases hpM : p = M
        · subst hpM
          rw [Function.update_self] at hcc'
          have hf : f3 (color (o2r o)) = true := by
            rw [hf3, forbid2_iff]
            exact Or.inr ⟨o, by omega, j, hj, hjp, rfl⟩
          rw [hcc', p2] at hf; cases hf
        · rw [Function.update_of_ne (hne p (by omega) hpM)] at hcc'
          exact h.clash o (by omega) p (by omega) hop h1 h2 hcc' j hj hjp

/-- **C19**: for every symmetric pattern, every list of requested entries of the
pattern, every `std::sort`, and every initial content of the work
vector, the result of `color_symmetric_cppad` recovers the requested entries -/
theorem color_symmetric_valid {sort : List (IndexSort.Element ℕ) → List (IndexSort.Element ℕ)}
    (hsort : IndexSort.StdSort IndexSort.Element.lt sort)
    (m K : ℕ) (P : ℕ → Finset ℕ) (row col : ℕ → ℕ) (junk : ℕ → Bool)
    (hsym : ∀ i < m, ∀ j < m, j ∈ P i → i ∈ P j)
    (h : ∀ k < K, row k < m ∧ col k < m ∧ col k ∈ P (row k)) :
    ValidSym m K P row col (colorSymmetric sort m K P row col junk).1
      (colorSymmetric sort m K P row col junk).2.1
      (colorSymmetric sort m K P row col junk).2.2 := by
  unfold colorSymmetric
  extract_lets need ind o2r r2o c0 s need' rc
  have hn0 : ∀ i j, j ∈ need i ↔ ∃ k < K, (row k = i ∧ col k = j) ∨ (row k = j ∧ col k = i) :=
    mem_pairNeeded K row col
  have hperm : ind.Perm (List.range m) := by
    have := (IndexSort.index_sort_sorts hsort (keys m need)).perm
    have e : (keys m need).length = m := by simp [keys]
    rw [e] at this; exact this
  have hlen : ind.length = m := by simpa using hperm.length_eq
  have ho2r : ∀ o, (ho : o < m) → o2r o = ind[o]'(by omega) := by
    intro o ho
    show ind.getD o 0 = _
    rw [List.getD_eq_getElem _ _ (by omega)]
  have hlt : ∀ o < m, o2r o < m := by
    intro o ho
    rw [ho2r o ho]
    exact List.mem_range.mp (hperm.subset (List.getElem_mem _))
  have hsurj : ∀ i < m, ∃ o < m, o2r o = i := by
    intro i hi
    obtain ⟨o, ho, e⟩ := List.getElem_of_mem (hperm.symm.subset (List.mem_range.mpr hi))
    exact ⟨o, by omega, by rw [ho2r o (by omega)]; exact e⟩
  have hinj : ∀ a < m, ∀ b < m, o2r a = o2r b → a = b := by
    intro a ha b hb e
    rw [ho2r a ha, ho2r b hb] at e
    exact (hperm.nodup_iff.mpr List.nodup_range).getElem_inj_iff.mp e
  have hr2o : ∀ o < m, r2o (o2r o) = o := row2order_eq hinj
  obtain ⟨i1, i2, i3⟩ := initial_ok (m := m) (need := need) hinj
  have hneed : ∀ i j, j ∈ need i → i < m ∧ j < m := by
    intro i j hij
    obtain ⟨k, hk, ⟨rfl, rfl⟩ | ⟨rfl, rfl⟩⟩ := (hn0 i j).mp hij
    · exact ⟨(h k hk).1, (h k hk).2.1⟩
    · exact ⟨(h k hk).2.1, (h k hk).1⟩
  have inv : Inv m m P o2r c0 need s.1.1 s.1.2 := by
    refine forRange_ind (Nat.zero_le m)
      (P := fun M (s : ((ℕ → ℕ) × (ℕ → Finset ℕ)) × (ℕ → Bool)) =>
        Inv m M P o2r c0 need s.1.1 s.1.2) ?_ ?_
    · exact ⟨fun _ => subset_rfl, fun _ _ h => Or.inl h, i1, fun o ho => by omega,
        fun o _ _ _ => rfl, fun o ho => by omega, fun o ho => by omega⟩
    · intro M s _ hM hs
      exact body_inv hM hsym hlt hsurj hinj hr2o hneed i2 i3 hs
  have hrc : ∀ k, (k < K → rc.1 k = (if col k ∈ need' (row k) then row k else col k) ∧
      rc.2 k = (if col k ∈ need' (row k) then col k else row k)) := by
    have := forRange_ind (Nat.zero_le K) (s := (row, col)) (f := fun k rc =>
        if rc.2 k ∈ need' (rc.1 k) then rc
        else (Function.update rc.1 k (rc.2 k), Function.update rc.2 k (rc.1 k)))
      (P := fun q (rc : (ℕ → ℕ) × (ℕ → ℕ)) =>
        (∀ k < q, rc.1 k = (if col k ∈ need' (row k) then row k else col k) ∧
          rc.2 k = (if col k ∈ need' (row k) then col k else row k)) ∧
        (∀ k, q ≤ k → rc.1 k = row k ∧ rc.2 k = col k))
      ⟨fun k hk => by omega, fun k _ => ⟨rfl, rfl⟩⟩ (by
        intro q rc _ _ ⟨h1, h2⟩
        obtain ⟨e1, e2⟩ := h2 q le_rfl
        rw [e1, e2]
        constructor
        · intro k hk
          rcases Nat.lt_succ_iff_lt_or_eq.mp hk with hk | rfl
          · split_ifs with hc
            · have := h1 k hk; rwa [if_pos, if_pos] at this <;> assumption
            all_goals
              first
              | exact h1 k hk
              | (dsimp only
                 rw [Function.update_of_ne (by omega), Function.update_of_ne (by omega)]
                 simpa [*] using h1 k hk)
              | simpa [*] using h1 k hk
          · split_ifs with hc
            · exact ⟨e1, e2⟩
            · dsimp only
              rw [Function.update_self, Function.update_self]
              exact ⟨rfl, rfl⟩
        · intro k hk
          split_ifs with hc
          · exact h2 k (by omega)
          · dsimp only
            rw [Function.update_of_ne (by omega), Function.update_of_ne (by omega)]
            exact h2 k (by omega))
    exact this.1
  have hin : ∀ k < K, rc.2 k ∈ need' (rc.1 k) := by
    intro k hk
    rw [(hrc k hk).1, (hrc k hk).2]
    split_ifs with hc
    · exact hc
    · exact (inv.either _ _ ((hn0 _ _).mpr ⟨k, hk, Or.inl ⟨rfl, rfl⟩⟩)).resolve_left hc
  have hrow : ∀ k < K, rc.1 k < m := by
    intro k hk
    rw [(hrc k hk).1]
    split_ifs
    · exact (h k hk).1
    · exact (h k hk).2.1
  have hcol : ∀ k < K, s.1.1 (rc.1 k) < m := by
    intro k hk
    obtain ⟨o, ho, e⟩ := hsurj _ (hrow k hk)
    have hne : need' (o2r o) ≠ ∅ := by rw [e]; exact Finset.ne_empty_of_mem (hin k hk)
    have hne0 : need (o2r o) ≠ ∅ := fun e => by
      have := inv.sub (o2r o); rw [e, Finset.subset_empty] at this; exact hne this
    have h1 := inv.done o ho hne
    have h2 := i2 o ho hne0
    rw [← e]
    exact lt_of_le_of_lt (h1.trans h2) ho
  refine ⟨?_, hcol, ?_, ?_⟩ <;> dsimp only
  · intro k hk
    rw [(hrc k hk).1, (hrc k hk).2]
    split_ifs
    · exact Or.inl ⟨rfl, rfl⟩
    · exact Or.inr ⟨rfl, rfl⟩
  · intro i hi hno
    obtain ⟨o, ho, rfl⟩ := hsurj i hi
    apply inv.empty o ho
    by_contra hne
    obtain ⟨j, hj⟩ := Finset.nonempty_iff_ne_empty.mpr hne
    obtain ⟨k, hk, hkk⟩ := (hn0 _ _).mp (inv.sub _ hj)
    apply hno k hk
    rw [(hrc k hk).1]
    rcases hkk with ⟨e1, e2⟩ | ⟨e1, e2⟩
    · rw [e1, e2, if_pos hj]
    · rw [e1, e2]
      split_ifs with hc
      · have hjm : j < m := by rw [← e1]; exact (h k hk).1
        obtain ⟨p, hp, rfl⟩ := hsurj j hjm
        rcases Nat.lt_trichotomy o p with hop | rfl | hop
        · exact absurd hc (inv.once o ho p hop hp hj)
        · rfl
        · exact absurd hj (inv.once p hp o hop ho hc)
      · rfl
  · intro k hk i hi hik hci
    have hk' := hcol k hk
    obtain ⟨o, ho, e⟩ := hsurj _ (hrow k hk)
    obtain ⟨p, hp, rfl⟩ := hsurj i hi
    have hpn : need' (o2r p) ≠ ∅ := fun e => by
      have := inv.empty p hp e
      rw [this] at hci; omega
    rw [← e] at hci hik hk'
    have hop : o ≠ p := by rintro rfl; exact hik rfl
    have := hin k hk
    rw [← e] at this
    exact inv.clash o ho p hp hop (Finset.ne_empty_of_mem this) hpn hci.symm _ this

/-- the hypotheses are met by the pattern of an arrow matrix, in which row 0 is dense -/
example : (∀ i < 3, ∀ j < 3, j ∈ (fun i => if i = 0 then ({0, 1, 2} : Finset ℕ) else {0, i}) i →
      i ∈ (fun i => if i = 0 then ({0, 1, 2} : Finset ℕ) else {0, i}) j) ∧
    (∀ k < 3, (fun _ => 0) k < 3 ∧ (fun k => k) k < 3 ∧
      (fun k => k) k ∈ (fun i => if i = 0 then ({0, 1, 2} : Finset ℕ) else {0, i}) ((fun _ => 0) k)) := by
  decide

end Sym

end CppAD.Color
