import Verif.Util.While
import Verif.Taylor.Loop
import Mathlib.Data.Finset.Sort
import Mathlib.Data.Finset.Image

/-!
# `color_general_cppad`

include/cppad/local/color_general.hpp.  A `SetVector` object is represented by
the sets it holds; that the implementations represent sets, and
iterate over them in increasing order, are the theorems
`pack_setvec_history` and `list_setvec_history`.
-/

namespace CppAD.Color

/-- Specification: a coloring of the rows such that row values can be
recovered.  `P i` are the columns that are possibly non-zero in row `i`,
the requested entries are `(row k, col k)` for `k < K`, color `m` means that the row
does not appear. -/
structure Valid (m K : ℕ) (P : ℕ → Finset ℕ) (row col color : ℕ → ℕ) : Prop where
  /-- a row that is requested has a color -/
  colored : ∀ k < K, color (row k) < m
  /-- a row that is not requested has no color -/
  not : ∀ i < m, (∀ k < K, row k ≠ i) → color i = m
  /-- a requested entry is not disturbed by another row of the same color -/
  recover : ∀ k < K, ∀ i < m, i ≠ row k → color i = color (row k) → col k ∉ P i

/-- color_general.hpp:82-99: rows that appear -/
def rowAppear (K : ℕ) (row : ℕ → ℕ) : ℕ → Bool :=
  forRange 0 K (fun _ => false) fun k a => Function.update a (row k) true

/-- color_general.hpp:87-104: `c2r_appear` (and `r2c_appear` with `row`, `col` exchanged) -/
def appear (K : ℕ) (row col : ℕ → ℕ) : ℕ → Finset ℕ :=
  forRange 0 K (fun _ => ∅) fun k a => Function.update a (col k) (insert (row k) (a (col k)))

/-- color_general.hpp:106-120: for each column, the rows that are non-zero
and do not appear -/
def notAppear (m : ℕ) (P c2r : ℕ → Finset ℕ) : ℕ → Finset ℕ :=
  forRange 0 m (fun _ => ∅) fun i a =>
    ((P i).sort (· ≤ ·)).foldl (fun a j =>
      if i ∈ c2r j then a else Function.update a j (insert i (a j))) a

/-- color_general.hpp:123-130: initial coloring; state is (color, ell) -/
def initial (m : ℕ) (appears : ℕ → Bool) : (ℕ → ℕ) × ℕ :=
  forRange 0 m ((fun _ => 0), 0) fun i s =>
    if appears i then (Function.update s.1 i s.2, s.2 + 1) else (Function.update s.1 i m, s.2)

/-- color_general.hpp:152-166 and 172-187: for each column in `cols`, forbid
the colors of the rows before row `i` in `rows` -/
def forbid (m : ℕ) (color : ℕ → ℕ) (i : ℕ) (cols : Finset ℕ) (rows : ℕ → Finset ℕ)
    (forbidden : ℕ → Bool) : ℕ → Bool :=
  (cols.sort (· ≤ ·)).foldl (fun f j =>
    ((rows j).sort (· ≤ ·)).foldl (fun f r =>
      if r < i ∧ color r < m then Function.update f (color r) true else f) f) forbidden

/-- color_general.hpp:190-194 and color_symmetric.hpp:170-174: the color with
the smallest index -/
def pick (forbidden : ℕ → Bool) : ℕ := whileLoop (σ := ℕ) (fun ell => forbidden ell) (· + 1) 0

/-- color_general.hpp:141-196, body of the main loop; state is
(color, forbidden) -/
def body (m : ℕ) (P c2r r2c na : ℕ → Finset ℕ) (i : ℕ) (s : (ℕ → ℕ) × (ℕ → Bool)) :
    (ℕ → ℕ) × (ℕ → Bool) :=
  if s.1 i < m then
    let f := forRange 0 (s.1 i + 1) s.2 fun ell f => Function.update f ell false
    let f := forbid m s.1 i (P i) c2r f
    let f := forbid m s.1 i (r2c i) na f
    (Function.update s.1 i (pick f), f)
  else s

/-- color_general.hpp:65-198 `color_general_cppad`.  `junk` is the initial
content of the vector `forbidden`. -/
def colorGeneral (m K : ℕ) (P : ℕ → Finset ℕ) (row col : ℕ → ℕ) (junk : ℕ → Bool) : ℕ → ℕ :=
  let c2r := appear K row col
  let r2c := appear K col row
  let na := notAppear m P c2r
  let color := (initial m (rowAppear K row)).1
  (forRange 1 m (color, junk) fun i s => body m P c2r r2c na i s).1

/-! ## proofs -/

theorem rowAppear_iff (K : ℕ) (row : ℕ → ℕ) (i : ℕ) :
    rowAppear K row i = true ↔ ∃ k < K, row k = i := by
  refine forRange_ind (Nat.zero_le K) (P := fun k (a : ℕ → Bool) => a i = true ↔ ∃ q < k, row q = i)
    (by simp) ?_
  intro k a _ _ ih
  by_cases h : i = row k
  · subst h; simp only [Function.update_self, true_iff]; exact ⟨k, by omega, rfl⟩
  · rw [Function.update_of_ne h, ih]
    constructor
    · rintro ⟨q, h1, h2⟩; exact ⟨q, by omega, h2⟩
    · rintro ⟨q, h1, h2⟩
      refine ⟨q, ?_, h2⟩
      rcases Nat.lt_succ_iff_lt_or_eq.mp h1 with h3 | h3
      · exact h3
      · subst h3; exact absurd h2.symm h

theorem mem_appear (K : ℕ) (row col : ℕ → ℕ) (i j : ℕ) :
    i ∈ appear K row col j ↔ ∃ k < K, row k = i ∧ col k = j := by
  refine forRange_ind (Nat.zero_le K)
    (P := fun k (a : ℕ → Finset ℕ) => i ∈ a j ↔ ∃ q < k, row q = i ∧ col q = j) (by simp) ?_
  intro k a _ _ ih
  have key : (∃ q < k + 1, row q = i ∧ col q = j) ↔
      (∃ q < k, row q = i ∧ col q = j) ∨ (row k = i ∧ col k = j) := by
    constructor
    · rintro ⟨q, h1, h2⟩
      rcases Nat.lt_succ_iff_lt_or_eq.mp h1 with h3 | h3
      · exact Or.inl ⟨q, h3, h2⟩
      · subst h3; exact Or.inr h2
    · rintro (⟨q, h1, h2⟩ | h)
      · exact ⟨q, by omega, h2⟩
      · exact ⟨k, by omega, h⟩
  rw [key]
  by_cases h : j = col k
  · subst h
    rw [Function.update_self, Finset.mem_insert, ih, or_comm, eq_comm]; simp
  · rw [Function.update_of_ne h, ih]
    constructor
    · exact Or.inl
    · rintro (h1 | ⟨_, h1⟩)
      · exact h1
      · exact absurd h1.symm h

theorem mem_notAppear {m : ℕ} {P c2r : ℕ → Finset ℕ} {i j : ℕ} :
    i ∈ notAppear m P c2r j ↔ i < m ∧ j ∈ P i ∧ i ∉ c2r j := by
  have inner : ∀ (r : ℕ) (l : List ℕ) (a : ℕ → Finset ℕ),
      i ∈ l.foldl (fun a j => if r ∈ c2r j then a else Function.update a j (insert r (a j))) a j ↔
        i ∈ a j ∨ (i = r ∧ j ∈ l ∧ r ∉ c2r j) := by
    intro r l
    induction l with
    | nil => simp
    | cons b l ih =>
      intro a
      rw [List.foldl_cons, ih]
      by_cases hb : r ∈ c2r b
      · rw [if_pos hb]
        constructor
        · rintro (h | ⟨h1, h2, h3⟩)
          · exact Or.inl h
          · exact Or.inr ⟨h1, by simp [h2], h3⟩
        · rintro (h | ⟨h1, h2, h3⟩)
          · exact Or.inl h
          · rcases List.mem_cons.mp h2 with rfl | h2
            · exact absurd hb h3
            · exact Or.inr ⟨h1, h2, h3⟩
      · rw [if_neg hb]
        by_cases hj : j = b
        · subst hj
          rw [Function.update_self, Finset.mem_insert]
          simp only [List.mem_cons, true_or, true_and]
          tauto
        · rw [Function.update_of_ne hj]
          simp only [List.mem_cons, hj, false_or]
  have := forRange_ind (Nat.zero_le m) (s := fun _ => (∅ : Finset ℕ))
    (f := fun i a => ((P i).sort (· ≤ ·)).foldl (fun a j =>
      if i ∈ c2r j then a else Function.update a j (insert i (a j))) a)
    (P := fun k (a : ℕ → Finset ℕ) => i ∈ a j ↔ i < k ∧ j ∈ P i ∧ i ∉ c2r j) (by simp) (by
      intro k a _ _ ih
      rw [inner, ih]
      constructor
      · rintro (⟨h1, h2⟩ | ⟨rfl, h2, h3⟩)
        · exact ⟨by omega, h2⟩
        · exact ⟨by omega, by simpa using h2, h3⟩
      · rintro ⟨h1, h2, h3⟩
        rcases Nat.lt_succ_iff_lt_or_eq.mp h1 with h4 | h4
        · exact Or.inl ⟨h4, h2, h3⟩
        · subst h4; exact Or.inr ⟨rfl, by simpa using h2, h3⟩)
  exact this

/-- the initial colors of the rows that appear increase with the row -/
theorem initial_ok (m : ℕ) (ap : ℕ → Bool) :
    (∀ i < m, ap i = true → (initial m ap).1 i ≤ i) ∧
    (∀ i < m, ap i = false → (initial m ap).1 i = m) ∧
    (∀ i < m, ∀ r < i, ap i = true → ap r = true → (initial m ap).1 r < (initial m ap).1 i) := by
  have := forRange_ind (Nat.zero_le m) (s := ((fun _ => 0 : ℕ → ℕ), 0))
    (f := fun i (s : (ℕ → ℕ) × ℕ) => if ap i then (Function.update s.1 i s.2, s.2 + 1)
      else (Function.update s.1 i m, s.2))
    (P := fun k (s : (ℕ → ℕ) × ℕ) => s.2 ≤ k ∧ (∀ i < k, ap i = true → s.1 i ≤ i ∧ s.1 i < s.2) ∧
      (∀ i < k, ap i = false → s.1 i = m) ∧
      (∀ i < k, ∀ r < i, ap i = true → ap r = true → s.1 r < s.1 i))
    (by refine ⟨le_rfl, ?_, ?_, ?_⟩ <;> (intro i hi; omega)) (by
      rintro k ⟨c, ell⟩ _ hk ⟨h0, h1, h2, h3⟩
      dsimp only at h0 h1 h2 h3 ⊢
      cases hap : ap k
      · simp only [Bool.false_eq_true, if_false]
        refine ⟨by omega, ?_, ?_, ?_⟩
        · intro i hi hi'
          have hne : i ≠ k := by rintro rfl; rw [hap] at hi'; cases hi'
          rw [Function.update_of_ne hne]; exact h1 i (by omega) hi'
        · intro i hi hi'
          by_cases hik : i = k
          · subst hik; simp
          · rw [Function.update_of_ne hik]; exact h2 i (by omega) hi'
        · intro i hi r hr hi' hr'
          have hne : i ≠ k := by rintro rfl; rw [hap] at hi'; cases hi'
          have hne' : r ≠ k := by rintro rfl; rw [hap] at hr'; cases hr'
          rw [Function.update_of_ne hne, Function.update_of_ne hne']
          exact h3 i (by omega) r hr hi' hr'
      · simp only [if_true]
        refine ⟨by omega, ?_, ?_, ?_⟩
        · intro i hi hi'
          by_cases hik : i = k
          · subst hik; simp [h0]
          · rw [Function.update_of_ne hik]
            have := h1 i (by omega) hi'
            omega
        · intro i hi hi'
          have hne : i ≠ k := by rintro rfl; rw [hap] at hi'; cases hi'
          rw [Function.update_of_ne hne]; exact h2 i (by omega) hi'
        · intro i hi r hr hi' hr'
          have hrk : r ≠ k := by omega
          rw [Function.update_of_ne hrk]
          by_cases hik : i = k
          · subst hik; rw [Function.update_self]; exact (h1 r hr hr').2
          · rw [Function.update_of_ne hik]; exact h3 i (by omega) r hr hi' hr')
  obtain ⟨_, t1, t2, t3⟩ := this
  exact ⟨fun i hi h => (t1 i hi h).1, t2, t3⟩

/-- folding a function that marks entries -/
theorem foldl_mark {α : Type} (l : List α) (g : (ℕ → Bool) → α → (ℕ → Bool)) (Q : α → ℕ → Prop)
    (hg : ∀ f x c, g f x c = true ↔ f c = true ∨ Q x c) (f : ℕ → Bool) (c : ℕ) :
    l.foldl g f c = true ↔ f c = true ∨ ∃ x ∈ l, Q x c := by
  induction l generalizing f with
  | nil => simp
  | cons a l ih =>
    rw [List.foldl_cons, ih, hg]
    simp only [List.mem_cons, exists_eq_or_imp, or_assoc]

theorem mark_one (p : Prop) [Decidable p] (f : ℕ → Bool) (d c : ℕ) :
    (if p then Function.update f d true else f) c = true ↔ f c = true ∨ (p ∧ d = c) := by
  by_cases hp : p
  · rw [if_pos hp]
    by_cases hc : c = d
    · subst hc; simp [hp]
    · rw [Function.update_of_ne hc]
      have : d ≠ c := fun e => hc e.symm
      simp [this]
  · simp [hp]

theorem forbid_iff {m : ℕ} {color : ℕ → ℕ} {i : ℕ} {cols : Finset ℕ} {rows : ℕ → Finset ℕ}
    {f : ℕ → Bool} {c : ℕ} :
    forbid m color i cols rows f c = true ↔
      f c = true ∨ ∃ j ∈ cols, ∃ r ∈ rows j, (r < i ∧ color r < m) ∧ color r = c := by
  unfold forbid
  rw [foldl_mark _ _ (fun j c => ∃ r ∈ (rows j).sort (· ≤ ·), (r < i ∧ color r < m) ∧ color r = c)]
  · simp
  · intro f j c
    rw [foldl_mark _ _ (fun r c => (r < i ∧ color r < m) ∧ color r = c)]
    intro f r c
    exact mark_one _ f _ c

theorem clear_eq (n : ℕ) (f : ℕ → Bool) :
    ∀ c < n, (forRange 0 n f fun ell f => Function.update f ell false) c = false := by
  refine forRange_ind (Nat.zero_le n) (P := fun k (g : ℕ → Bool) => ∀ c < k, g c = false)
    (fun c hc => by omega) ?_
  intro k g _ _ ih c hc
  by_cases h : c = k
  · subst h; simp
  · rw [Function.update_of_ne h]; exact ih c (by omega)

/-- the search ends at or before the first color known to be possible -/
theorem pick_ok {f : ℕ → Bool} {d : ℕ} (hd : f d = false) : pick f ≤ d ∧ f (pick f) = false := by
  unfold pick
  have := whileLoop_rule (c := fun ell => f ell) (b := (· + 1)) (fun ell => ell ≤ d)
    (fun ell => d - ell) (by
      intro ell h1 h2
      have hne : ell ≠ d := by rintro rfl; rw [hd] at h2; cases h2
      show ell + 1 ≤ d ∧ d - (ell + 1) < d - ell
      omega) (s := 0) (Nat.zero_le d)
  exact this

/-- **Colors never merge rows whose requested values collide.**
For every pattern and every requested subset of it, `color_general_cppad`
gives every requested row a color less than the number of rows, gives no color
to the other rows, and no two rows of the same color are both non-zero
in the column of an entry requested for one of them.  In particular the search for
a color ends. -/
theorem color_general_valid (m n K : ℕ) (P : ℕ → Finset ℕ) (row col : ℕ → ℕ) (junk : ℕ → Bool)
    (h : ∀ k < K, row k < m ∧ col k < n ∧ col k ∈ P (row k)) :
    Valid m K P row col (colorGeneral m K P row col junk) := by
  set ap := rowAppear K row with hap
  set c2r := appear K row col with hc2r
  set r2c := appear K col row with hr2c
  set na := notAppear m P c2r with hna
  set c0 := (initial m ap).1 with hc0
  obtain ⟨i1, i2, i3⟩ := initial_ok m ap
  rw [← hc0] at i1 i2 i3
  -- rows i and r, r < i, both appear and are in conflict
  let Conf : ℕ → ℕ → Prop := fun i r => ∃ j, j ∈ P i ∧ j ∈ P r ∧ (i ∈ c2r j ∨ r ∈ c2r j)
  have hPin : ∀ {i j}, i ∈ c2r j → j ∈ P i ∧ i < m ∧ ap i = true := by
    intro i j hij
    obtain ⟨k, hk, rfl, rfl⟩ := (mem_appear K row col i j).mp hij
    exact ⟨(h k hk).2.2, (h k hk).1, (rowAppear_iff K row _).mpr ⟨k, hk, rfl⟩⟩
  have hr2 : ∀ i j, j ∈ r2c i ↔ i ∈ c2r j := by
    intro i j
    rw [hr2c, hc2r, mem_appear, mem_appear]
    constructor <;> (rintro ⟨k, h1, h2, h3⟩; exact ⟨k, h1, h3, h2⟩)
  -- the main loop
  have main : ∀ M, 1 ≤ M → M ≤ m ∨ M = 1 →
      ∀ s, s = (forRange 1 M (c0, junk) fun i s => body m P c2r r2c na i s) →
      (∀ i, M ≤ i → s.1 i = c0 i) ∧
      (∀ i < m, ap i = true → s.1 i ≤ c0 i) ∧
      (∀ i < m, ap i = false → s.1 i = m) ∧
      (∀ i < M, i < m → ∀ r < i, ap i = true → ap r = true → Conf i r → s.1 i ≠ s.1 r) := by
    intro M hM
    induction M, hM using Nat.le_induction with
    | base =>
      rintro _ s rfl
      rw [forRange_of_le le_rfl]
      exact ⟨fun i _ => rfl, fun i _ _ => le_rfl, i2, fun i hi _ r hr => by omega⟩
    | succ M hM ih =>
      rintro hMm s rfl
      have hMm' : M < m := by omega
      rw [forRange_succ hM]
      obtain ⟨a1, a2, a3, a4⟩ := ih (by omega) _ rfl
      revert a1 a2 a3 a4
      generalize (forRange 1 M (c0, junk) fun i s => body m P c2r r2c na i s) = s
      intro a1 a2 a3 a4
      obtain ⟨color, fb⟩ := s
      simp only at a1 a2 a3 a4
      have hcm : color M = c0 M := a1 M le_rfl
      unfold body
      dsimp only
      cases hapM : ap M
      · have hm : color M = m := a3 M hMm' hapM
        rw [if_neg (by omega)]
        refine ⟨fun i hi => a1 i (by omega), a2, a3, ?_⟩
        intro i hi him r hr hi' hr' hc
        have hne : i ≠ M := by rintro rfl; rw [hapM] at hi'; cases hi'
        exact a4 i (by omega) him r hr hi' hr' hc
      · have hlt : color M < m := by have := i1 M hMm' hapM; omega
        rw [if_pos hlt]
        set f1 := forRange 0 (color M + 1) fb fun ell f => Function.update f ell false
        have hf1 : ∀ c ≤ color M, f1 c = false := fun c hc => clear_eq _ fb c (by omega)
        set f2 := forbid m color M (P M) c2r f1 with hf2
        set f3 := forbid m color M (r2c M) na f2 with hf3
        have hcol : ∀ r < M, color r < m → color r < color M := by
          intro r hr hrm
          have hapr : ap r = true := by
            by_contra hc
            have := a3 r (by omega) (by simpa using hc)
            omega
          have h1 := a2 r (by omega) hapr
          have h2 := i3 M hMm' r hr hapM hapr
          omega
        have hfree : f3 (color M) = false := by
          rw [← Bool.not_eq_true, hf3, forbid_iff, hf2, forbid_iff]
          rintro ((h1 | ⟨j, _, r, _, ⟨h2, h3⟩, h4⟩) | ⟨j, _, r, _, ⟨h2, h3⟩, h4⟩)
          · rw [hf1 _ le_rfl] at h1; cases h1
          · have := hcol r h2 h3; omega
          · have := hcol r h2 h3; omega
        obtain ⟨p1, p2⟩ := pick_ok hfree
        dsimp only
        refine ⟨?_, ?_, ?_, ?_⟩
        · intro i hi
          rw [Function.update_of_ne (by omega)]; exact a1 i (by omega)
        · intro i hi hi'
          by_cases hiM : i = M
          · subst hiM; rw [Function.update_self]; omega
          · rw [Function.update_of_ne hiM]; exact a2 i hi hi'
        · intro i hi hi'
          have hne : i ≠ M := by rintro rfl; rw [hapM] at hi'; cases hi'
          rw [Function.update_of_ne hne]; exact a3 i hi hi'
        · intro i hi him r hr hi' hr' hc
          have hrM : r ≠ M := by omega
          rw [Function.update_of_ne hrM]
          by_cases hiM : i = M
          · subst hiM
            rw [Function.update_self]
            intro e
            have hrm : color r < m := by
              have := a2 r (by omega) hr'
              have := i1 r (by omega) hr'
              omega
            have hf : f3 (color r) = true := by
              rw [hf3, forbid_iff, hf2, forbid_iff]
              obtain ⟨j, hj1, hj2, hj3⟩ := hc
              by_cases hrj : r ∈ c2r j
              · exact Or.inl (Or.inr ⟨j, hj1, r, hrj, ⟨hr, hrm⟩, rfl⟩)
              · have hij : i ∈ c2r j := hj3.resolve_right hrj
                exact Or.inr ⟨j, (hr2 i j).mpr hij, r,
                  mem_notAppear.mpr ⟨by omega, hj2, hrj⟩, ⟨hr, hrm⟩, rfl⟩
            rw [← e] at hf
            rw [p2] at hf; cases hf
          · rw [Function.update_of_ne hiM]
            exact a4 i (by omega) him r hr hi' hr' hc
  -- the result
  have hres : (∀ i < m, ap i = true → colorGeneral m K P row col junk i ≤ c0 i) ∧
      (∀ i < m, ap i = false → colorGeneral m K P row col junk i = m) ∧
      (∀ i < m, ∀ r < i, ap i = true → ap r = true → Conf i r →
        colorGeneral m K P row col junk i ≠ colorGeneral m K P row col junk r) := by
    have hdef : colorGeneral m K P row col junk
        = (forRange 1 m (c0, junk) fun i s => body m P c2r r2c na i s).1 := rfl
    rw [hdef]
    rcases Nat.lt_or_ge m 1 with hm | hm
    · refine ⟨?_, ?_, ?_⟩ <;> (intro i hi; omega)
    · obtain ⟨_, b2, b3, b4⟩ := main m hm (Or.inl le_rfl) _ rfl
      exact ⟨b2, b3, fun i hi => b4 i hi hi⟩
  obtain ⟨b2, b3, b4⟩ := hres
  have hapk : ∀ k < K, ap (row k) = true := fun k hk => (rowAppear_iff K row _).mpr ⟨k, hk, rfl⟩
  refine ⟨?_, ?_, ?_⟩
  · intro k hk
    have h1 := b2 (row k) (h k hk).1 (hapk k hk)
    have h2 := i1 (row k) (h k hk).1 (hapk k hk)
    have := (h k hk).1
    omega
  · intro i hi hno
    apply b3 i hi
    by_contra hc
    have : ap i = true := by simpa using hc
    obtain ⟨k, hk, hki⟩ := (rowAppear_iff K row i).mp this
    exact hno k hk hki
  · intro k hk i hi hne hcol hin
    have hrk := (h k hk).1
    have hck : row k ∈ c2r (col k) := (mem_appear K row col _ _).mpr ⟨k, hk, rfl, rfl⟩
    have hapi : ap i = true := by
      by_contra hc
      have h1 := b3 i hi (by simpa using hc)
      have h2 := b2 (row k) hrk (hapk k hk)
      have h3 := i1 (row k) hrk (hapk k hk)
      omega
    rcases Nat.lt_or_ge i (row k) with hlt | hge
    · exact b4 (row k) hrk i hlt (hapk k hk) hapi ⟨col k, (h k hk).2.2, hin, Or.inl hck⟩ hcol.symm
    · exact b4 i hi (row k) (by omega) hapi (hapk k hk)
        ⟨col k, hin, (h k hk).2.2, Or.inr hck⟩ hcol

/-- the hypotheses are met by a pattern with rows that must not be merged -/
example : ∀ k < 3, (fun k => k) k < 3 ∧ (fun k => k % 2) k < 3 ∧
    (fun k => k % 2) k ∈ (fun i => if i = 1 then ({1, 2} : Finset ℕ) else {0, 1}) ((fun k => k) k) := by
  decide

end CppAD.Color
