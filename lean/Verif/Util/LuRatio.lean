import Verif.Util.Lu
import Mathlib.Tactic.IntervalCases

/-! # LU factorization with a measure for the choice of pivots (property C65)

Model of cppad/core/lu_ratio.hpp.  `LuRatio` is meant to be recorded: an element of type `AD<Base>` that depends on the
independent variables is modelled by the function that maps the value `x : X` of the independent variables to its value.
Everything that is decided while the operations are recorded (the comparisons in `AbsGeq`, the exchange of indices and the
comparison of the pivot with zero) is decided at the point `x0` of the recording; `CondExpGt` is evaluated at every point.
That a recording computes these functions is property C06.  Arithmetic is exact, division by zero gives zero. -/

namespace CppAD.Lu

/-- state of LuRatio, lu_ratio.hpp:211-230; `aborted` is true after the return at line 309 -/
structure RState (X : Type) where
  ip : ℕ → ℕ
  jp : ℕ → ℕ
  lu : X → ℕ → ℝ
  ratio : X → ℝ
  sign : ℤ
  aborted : Bool

/-- lu_ratio.hpp:278-284 at one point: CondExpGt(etmp, ratio, etmp, ratio) over the remaining block -/
noncomputable def ratioLoop (n p : ℕ) (ip jp : ℕ → ℕ) (lu : ℕ → ℝ) (emax ratio : ℝ) : ℝ :=
  forRange p n ratio fun i r => forRange p n r fun j r =>
    let etmp := |lu (ip i * n + jp j) / emax|
    if r < etmp then etmp else r

/-- lu_ratio.hpp:259-330, one pivot -/
noncomputable def ratioStep {X : Type} (x0 : X) (n p : ℕ) (s : RState X) : RState X :=
  if s.aborted then s
  else
    let e := findMax absGeq n p s.ip s.jp (s.lu x0)
    let ratio := fun x => ratioLoop n p s.ip s.jp (s.lu x) (s.lu x (s.ip e.1 * n + s.jp e.2.1)) (s.ratio x)
    let ip := exchange s.ip p e.1
    let sign := if e.1 ≠ p then -s.sign else s.sign
    let jp := exchange s.jp p e.2.1
    let sign := if e.2.1 ≠ p then -sign else sign
    if s.lu x0 (ip p * n + jp p) = 0 then ⟨ip, jp, s.lu, ratio, sign, true⟩
    else ⟨ip, jp, fun x => subRows n p ip jp (scaleRow n p ip jp (s.lu x (ip p * n + jp p)) (s.lu x)), ratio, sign, false⟩

/-- lu_ratio.hpp:211-332; `ip0`, `jp0` are the contents of the vectors before the call.  Returns ip, jp, LU, ratio and
the value of the function. -/
noncomputable def luRatio {X : Type} (x0 : X) (n : ℕ) (ip0 jp0 : ℕ → ℕ) (lu : X → ℕ → ℝ) :
    (ℕ → ℕ) × (ℕ → ℕ) × (X → ℕ → ℝ) × (X → ℝ) × ℤ :=
  let ij := forRange 0 n (ip0, jp0) fun i (s : (ℕ → ℕ) × (ℕ → ℕ)) => (Function.update s.1 i i, Function.update s.2 i i)
  let s := forRange 0 n ⟨ij.1, ij.2, lu, fun _ => 1, 1, false⟩ fun p s => ratioStep x0 n p s
  (s.ip, s.jp, s.lu, s.ratio, if s.aborted then 0 else s.sign)

/-! ## Specification -/

/-- *Specification*: element (i, j) of the matrix that is left when the first `q` pivots of the permuted matrix have been
eliminated, `A - L * U` where `L`, `U` have `q` columns and rows (the sub-matrix of lu_ratio.hpp:150-162) -/
def remaining (n : ℕ) (A : ℕ → ℝ) (ip jp : ℕ → ℕ) (lu : ℕ → ℝ) (q i j : ℕ) : ℝ :=
  A (ip i * n + jp j) - ∑ k ∈ Finset.range q, lu (ip i * n + jp k) * lu (ip k * n + jp j)

/-- *Specification*: the elements of the sub-matrix for each of the first `m` pivots, divided by the pivot -/
def ratios (n m : ℕ) (A : ℕ → ℝ) (ip jp : ℕ → ℕ) (lu : ℕ → ℝ) : Set ℝ :=
  {r | ∃ q i j, q < m ∧ q ≤ i ∧ i < n ∧ q ≤ j ∧ j < n ∧
    r = |remaining n A ip jp lu q i j / remaining n A ip jp lu q q q|}

/-! ## Proofs -/

/-- the loops over the remaining block compute a maximum -/
theorem ratioLoop_ok {n p : ℕ} (hp : p ≤ n) (ip jp : ℕ → ℕ) (lu : ℕ → ℝ) (emax ratio : ℝ) :
    IsGreatest (insert ratio {r | ∃ i j, p ≤ i ∧ i < n ∧ p ≤ j ∧ j < n ∧ r = |lu (ip i * n + jp j) / emax|})
      (ratioLoop n p ip jp lu emax ratio) := by
  have inner : ∀ (i : ℕ) (r : ℝ), IsGreatest (insert r {t | ∃ j, p ≤ j ∧ j < n ∧ t = |lu (ip i * n + jp j) / emax|})
      (forRange p n r fun j r => if r < |lu (ip i * n + jp j) / emax| then |lu (ip i * n + jp j) / emax| else r) := by
    intro i r
    refine forRange_ind hp (P := fun m s => IsGreatest (insert r {t | ∃ j, p ≤ j ∧ j < m ∧
      t = |lu (ip i * n + jp j) / emax|}) s) ?_ ?_
    · refine ⟨.inl rfl, ?_⟩
      rintro t (rfl | ⟨j, h1, h2, rfl⟩)
      · exact le_rfl
      · omega
    · intro j s h1 h2 ih
      constructor
      · split_ifs with h
        · exact .inr ⟨j, h1, by omega, rfl⟩
        · rcases ih.1 with h3 | ⟨k, h3, h4, h5⟩
          · exact .inl h3
          · exact .inr ⟨k, h3, by omega, h5⟩
      · have hle : s ≤ (if s < |lu (ip i * n + jp j) / emax| then |lu (ip i * n + jp j) / emax| else s) := by
          split_ifs with h
          · exact h.le
          · exact le_rfl
        rintro t (rfl | ⟨k, h3, h4, rfl⟩)
        · exact (ih.2 (.inl rfl)).trans hle
        · by_cases hk : k = j
          · subst hk
            split_ifs with h
            · exact le_rfl
            · exact not_lt.1 h
          · exact (ih.2 (.inr ⟨k, h3, by omega, rfl⟩)).trans hle
  unfold ratioLoop
  refine forRange_ind hp (P := fun m s => IsGreatest (insert ratio {t | ∃ i j, p ≤ i ∧ i < m ∧ p ≤ j ∧ j < n ∧
      t = |lu (ip i * n + jp j) / emax|}) s) ?_ ?_
  · refine ⟨.inl rfl, ?_⟩
    rintro t (rfl | ⟨i, j, h1, h2, _⟩)
    · exact le_rfl
    · omega
  · intro i s h1 h2 ih
    have hin := inner i s
    constructor
    · rcases hin.1 with h | ⟨j, h3, h4, h5⟩
      · rw [h]
        rcases ih.1 with h3 | ⟨k, j, h3, h4, h5⟩
        · exact .inl h3
        · exact .inr ⟨k, j, h3, by omega, h5⟩
      · exact .inr ⟨i, j, h1, by omega, h3, h4, h5⟩
    · have hle := hin.2 (.inl rfl)
      rintro t (rfl | ⟨k, j, h3, h4, h5, h6, rfl⟩)
      · exact (ih.2 (.inl rfl)).trans hle
      · by_cases hk : k = i
        · subst hk; exact hin.2 (.inr ⟨j, h5, h6, rfl⟩)
        · exact (ih.2 (.inr ⟨k, j, h3, by omega, h5, h6, rfl⟩)).trans hle

/-- at the point of the recording the choices are those of LuFactor -/
theorem luRatio_x0 {X : Type} (x0 : X) (n : ℕ) (ip0 jp0 : ℕ → ℕ) (A : X → ℕ → ℝ) :
    let r := luRatio x0 n ip0 jp0 A
    (r.1, r.2.1, r.2.2.1 x0, r.2.2.2.2) = luFactor absGeq n ip0 jp0 (A x0) := by
  intro r
  have key : ∀ (s : RState X) (m : ℕ), forRange 0 m (⟨s.ip, s.jp, s.lu x0, s.sign, s.aborted⟩ : State ℝ)
      (fun p s => pivotStep absGeq n p s) =
      let t := forRange 0 m s fun p s => ratioStep x0 n p s
      ⟨t.ip, t.jp, t.lu x0, t.sign, t.aborted⟩ := by
    intro s m
    induction m with
    | zero => rfl
    | succ m ih =>
      rw [forRange_succ (Nat.zero_le m), ih, forRange_succ (Nat.zero_le m)]
      dsimp only
      generalize forRange 0 m s (fun p s => ratioStep x0 n p s) = t
      unfold pivotStep ratioStep
      dsimp only
      by_cases h1 : t.aborted = true
      · rw [if_pos h1, if_pos h1]
      · rw [if_neg h1, if_neg h1]
        by_cases h2 : t.lu x0 (exchange t.ip m (findMax absGeq n m t.ip t.jp (t.lu x0)).1 m * n +
            exchange t.jp m (findMax absGeq n m t.ip t.jp (t.lu x0)).2.1 m) = 0
        · rw [if_pos h2, if_pos h2]
        · rw [if_neg h2, if_neg h2]
  have h := key ⟨(forRange 0 n (ip0, jp0) fun i (s : (ℕ → ℕ) × (ℕ → ℕ)) =>
      (Function.update s.1 i i, Function.update s.2 i i)).1, (forRange 0 n (ip0, jp0) fun i (s : (ℕ → ℕ) × (ℕ → ℕ)) =>
      (Function.update s.1 i i, Function.update s.2 i i)).2, A, fun _ => 1, 1, false⟩ n
  simp only [r, luRatio, luFactor]
  dsimp only at h
  rw [h]

open Finset in
theorem Inv.remaining {n p : ℕ} {A : ℕ → ℝ} {s : State ℝ} {σ τ : Equiv.Perm (Fin n)} (h : Inv n p A s σ τ) {i j : ℕ}
    (hi : i < n) (hj : j < n) (hpi : p ≤ i) (hpj : p ≤ j) :
    remaining n A s.ip s.jp s.lu p i j = s.lu (s.ip i * n + s.jp j) := by
  unfold Lu.remaining
  rw [h.fact i hi j hj, if_pos ⟨hpi, hpj⟩, sub_eq_iff_eq_add, add_comm]
  congr 1
  refine sum_congr rfl fun k hk => ?_
  have hk := mem_range.1 hk
  simp only [Lf, Uf]
  rw [if_pos (by omega), if_pos (by omega)]

/-- invariant of the loop over the pivots, for one point: as long as no pivot is zero -/
def RInv (n p : ℕ) (A : ℕ → ℝ) (ip jp : ℕ → ℕ) (lu : ℕ → ℝ) (ratio : ℝ) (sign : ℤ) (σ τ : Equiv.Perm (Fin n)) : Prop :=
  (∀ k < p, lu (ip k * n + jp k) ≠ 0) →
    Inv n p A ⟨ip, jp, lu, sign, false⟩ σ τ ∧ IsGreatest (insert 1 (ratios n p A ip jp lu)) ratio

theorem rinv_step {n p : ℕ} {A : ℕ → ℝ} {ip jp : ℕ → ℕ} {lu : ℕ → ℝ} {ratio : ℝ} {sign : ℤ} {σ τ : Equiv.Perm (Fin n)}
    (hσ : Holds ip σ) (hτ : Holds jp τ)
    (h : RInv n p A ip jp lu ratio sign σ τ) {a b : ℕ} (hp : p < n) (ha : a < n) (hpa : p ≤ a) (hb : b < n) (hpb : p ≤ b) :
    let ip' := exchange ip p a
    let jp' := exchange jp p b
    RInv n (p + 1) A ip' jp' (subRows n p ip' jp' (scaleRow n p ip' jp' (lu (ip' p * n + jp' p)) lu))
      (ratioLoop n p ip jp lu (lu (ip a * n + jp b)) ratio)
      (if b ≠ p then -(if a ≠ p then -sign else sign) else (if a ≠ p then -sign else sign))
      (σ * Equiv.swap ⟨p, hp⟩ ⟨a, ha⟩) (τ * Equiv.swap ⟨p, hp⟩ ⟨b, hb⟩) := by
  intro ip' jp' hd
  set lu' := subRows n p ip' jp' (scaleRow n p ip' jp' (lu (ip' p * n + jp' p)) lu) with hlu'
  have hi' : Holds ip' (σ * Equiv.swap ⟨p, hp⟩ ⟨a, ha⟩) := exchange_holds hσ hp ha
  have hj' : Holds jp' (τ * Equiv.swap ⟨p, hp⟩ ⟨b, hb⟩) := exchange_holds hτ hp hb
  -- entries that do not change
  have keep : ∀ i < n, ∀ j < n, (i < p ∨ j ≤ p) → lu' (ip' i * n + jp' j) = lu (ip' i * n + jp' j) := by
    intro i hi j hj hij
    rw [hlu', subRows_view hi' hj' _ hp hi hj, if_neg (by omega), scaleRow_view hi' hj' _ hp _ hi hj, if_neg (by omega)]
  let f : ℕ → ℕ := fun i => if i = a then p else if i = p then a else i
  let g : ℕ → ℕ := fun j => if j = b then p else if j = p then b else j
  have eip : ∀ i, ip' i = ip (f i) := fun i => exchange_apply ip p a i
  have ejp : ∀ i, jp' i = jp (g i) := fun i => exchange_apply jp p b i
  have hfn : ∀ i < n, f i < n := by intro i hi; simp only [f]; split_ifs <;> omega
  have hgn : ∀ i < n, g i < n := by intro i hi; simp only [g]; split_ifs <;> omega
  have hfq : ∀ q ≤ p, ∀ i, q ≤ i → q ≤ f i := by intro q hq i hi; simp only [f]; split_ifs <;> omega
  have hgq : ∀ q ≤ p, ∀ i, q ≤ i → q ≤ g i := by intro q hq i hi; simp only [g]; split_ifs <;> omega
  have hff : ∀ i, f (f i) = i := by intro i; simp only [f]; split_ifs <;> omega
  have hgg : ∀ i, g (g i) = i := by intro i; simp only [g]; split_ifs <;> omega
  have hfk : ∀ k < p, f k = k := by intro k hk; simp only [f]; rw [if_neg (by omega), if_neg (by omega)]
  have hgk : ∀ k < p, g k = k := by intro k hk; simp only [g]; rw [if_neg (by omega), if_neg (by omega)]
  have hfp : f p = a := by simp only [f]; split_ifs <;> omega
  have hgp : g p = b := by simp only [g]; split_ifs <;> omega
  -- the pivots before this step
  have hd0 : ∀ k < p, lu (ip k * n + jp k) ≠ 0 := by
    intro k hk
    have := hd k (by omega)
    rwa [keep k (by omega) k (by omega) (.inl hk), eip, ejp, hfk k hk, hgk k hk] at this
  have hpiv : lu (ip' p * n + jp' p) ≠ 0 := by
    have := hd p (by omega)
    rwa [keep p hp p hp (.inr le_rfl)] at this
  obtain ⟨h1, h2⟩ := h hd0
  have h3 := inv_swap h1 hp ha hpa hb hpb false
  have h4 := inv_elim h3 hp hpiv false
  refine ⟨h4, ?_⟩
  -- the remaining matrices
  have rem : ∀ q ≤ p, ∀ i < n, ∀ j < n, q ≤ i → q ≤ j →
      remaining n A ip' jp' lu' q i j = remaining n A ip jp lu q (f i) (g j) := by
    intro q hq i hi j hj hqi hqj
    unfold Lu.remaining
    rw [eip, ejp]
    congr 1
    refine Finset.sum_congr rfl fun k hk => ?_
    have hk := Finset.mem_range.1 hk
    rw [← eip, ← ejp]
    rw [keep i hi k (by omega) (.inr (by omega)), keep k (by omega) j hj (.inl (by omega))]
    rw [eip, ejp, eip, ejp, hfk k (by omega), hgk k (by omega)]
  have remp : ∀ i < n, ∀ j < n, p ≤ i → p ≤ j → remaining n A ip jp lu p i j = lu (ip i * n + jp j) :=
    fun i hi j hj hpi hpj => h1.remaining hi hj hpi hpj
  have hset : insert (1 : ℝ) (ratios n (p + 1) A ip' jp' lu') = insert 1 (ratios n p A ip jp lu) ∪
      {r | ∃ i j, p ≤ i ∧ i < n ∧ p ≤ j ∧ j < n ∧ r = |lu (ip i * n + jp j) / lu (ip a * n + jp b)|} := by
    ext r
    constructor
    · rintro (rfl | ⟨q, i, j, hq, hqi, hi, hqj, hj, rfl⟩)
      · exact .inl (.inl rfl)
      · rw [rem q (by omega) i hi j hj hqi hqj, rem q (by omega) q (by omega) q (by omega) le_rfl le_rfl]
        by_cases hqp : q = p
        · subst hqp
          right
          refine ⟨f i, g j, hfq _ le_rfl i hqi, hfn i hi, hgq _ le_rfl j hqj, hgn j hj, ?_⟩
          rw [hfp, hgp, remp _ (hfn i hi) _ (hgn j hj) (hfq _ le_rfl i hqi) (hgq _ le_rfl j hqj), remp a ha b hb hpa hpb]
        · left; right
          rw [hfk q (by omega), hgk q (by omega)]
          exact ⟨q, f i, g j, by omega, hfq q (by omega) i hqi, hfn i hi, hgq q (by omega) j hqj, hgn j hj, rfl⟩
    · rintro ((rfl | ⟨q, i, j, hq, hqi, hi, hqj, hj, rfl⟩) | ⟨i, j, hpi, hi, hpj, hj, rfl⟩)
      · exact .inl rfl
      · right
        refine ⟨q, f i, g j, by omega, hfq q (by omega) i hqi, hfn i hi, hgq q (by omega) j hqj, hgn j hj, ?_⟩
        rw [rem q (by omega) _ (hfn i hi) _ (hgn j hj) (hfq q (by omega) i hqi) (hgq q (by omega) j hqj),
          rem q (by omega) q (by omega) q (by omega) le_rfl le_rfl, hff, hgg, hfk q hq, hgk q hq]
      · right
        refine ⟨p, f i, g j, by omega, hfq _ le_rfl i hpi, hfn i hi, hgq _ le_rfl j hpj, hgn j hj, ?_⟩
        rw [rem p le_rfl _ (hfn i hi) _ (hgn j hj) (hfq _ le_rfl i hpi) (hgq _ le_rfl j hpj),
          rem p le_rfl p hp p hp le_rfl le_rfl, hff, hgg, hfp, hgp, remp i hi j hj hpi hpj, remp a ha b hb hpa hpb]
  rw [hset]
  have h5 := ratioLoop_ok hp.le ip jp lu (lu (ip a * n + jp b)) ratio
  constructor
  · rcases h5.1 with h6 | h6
    · left; rw [h6]; exact h2.1
    · right; exact h6
  · rintro r (h6 | h6)
    · exact (h2.2 h6).trans (h5.2 (.inl rfl))
    · exact h5.2 (.inr h6)

/-- result of the loop over the pivots, when the function did not return zero -/
structure RDone {X : Type} (x0 : X) (n p : ℕ) (A : X → ℕ → ℝ) (s : RState X) : Prop where
  one : s.ratio x0 = 1
  inv : s.aborted = false → ∃ σ τ : Equiv.Perm (Fin n), Holds s.ip σ ∧ Holds s.jp τ ∧
    s.sign = Equiv.Perm.sign σ * Equiv.Perm.sign τ ∧
    ∀ x, RInv n p (A x) s.ip s.jp (s.lu x) (s.ratio x) s.sign σ τ

theorem ratioStep_done {X : Type} (x0 : X) {n p : ℕ} (hp : p < n) {A : X → ℕ → ℝ} {s : RState X}
    (h : RDone x0 n p A s) : RDone x0 n (p + 1) A (ratioStep x0 n p s) := by
  unfold ratioStep
  by_cases hab : s.aborted = true
  · rw [if_pos hab]
    exact ⟨h.one, fun h1 => by rw [hab] at h1; cases h1⟩
  · rw [if_neg hab]
    obtain ⟨a1, a2, b1, b2, he, hmax⟩ := findMax_ok (geq := absGeq) (size := fun x => |x|) (by
      intro x y
      have h : ∀ z : ℝ, (if z ≤ 0 then -z else z) = |z| := by
        intro z; split_ifs with h
        · rw [abs_of_nonpos h]
        · rw [abs_of_pos (not_le.1 h)]
      simp [absGeq, h]) (by simp) hp s.ip s.jp (s.lu x0)
    set e := findMax absGeq n p s.ip s.jp (s.lu x0) with hedef
    have hone : ratioLoop n p s.ip s.jp (s.lu x0) (s.lu x0 (s.ip e.1 * n + s.jp e.2.1)) (s.ratio x0) = 1 := by
      have h5 := ratioLoop_ok hp.le s.ip s.jp (s.lu x0) (s.lu x0 (s.ip e.1 * n + s.jp e.2.1)) (s.ratio x0)
      rw [h.one] at h5 ⊢
      refine le_antisymm ?_ (h5.2 (.inl rfl))
      rcases h5.1 with h6 | ⟨i, j, h1, h2, h3, h4, h6⟩
      · exact h6.le
      · rw [h6, abs_div, ← he]
        exact div_le_one_of_le₀ (hmax i j h1 h2 h3 h4) (abs_nonneg _)
    dsimp only
    by_cases hz : s.lu x0 (exchange s.ip p e.1 p * n + exchange s.jp p e.2.1 p) = 0
    · rw [if_pos hz]
      exact ⟨hone, fun h1 => by cases h1⟩
    · rw [if_neg hz]
      refine ⟨hone, fun _ => ?_⟩
      obtain ⟨σ, τ, hσ, hτ, hs, hall⟩ := h.inv (by simpa using hab)
      refine ⟨σ * Equiv.swap ⟨p, hp⟩ ⟨e.1, a2⟩, τ * Equiv.swap ⟨p, hp⟩ ⟨e.2.1, b2⟩, exchange_holds hσ hp a2,
        exchange_holds hτ hp b2, ?_, fun x => rinv_step hσ hτ (hall x) hp a2 a1 b2 b1⟩
      have hsg : ∀ (q : ℕ) (hq : q < n), (if q ≠ p then -(1 : ℤ) else 1) =
          ((Equiv.Perm.sign (Equiv.swap (⟨p, hp⟩ : Fin n) ⟨q, hq⟩) : ℤˣ) : ℤ) := by
        intro q hq
        by_cases h1 : q = p
        · subst h1; simp
        · have : (⟨p, hp⟩ : Fin n) ≠ ⟨q, hq⟩ := by intro e; exact h1 (congrArg Fin.val e).symm
          rw [if_pos h1, Equiv.Perm.sign_swap this]; simp
      have g1 := hsg e.1 a2
      have g2 := hsg e.2.1 b2
      simp only [Equiv.Perm.sign_mul, Units.val_mul, ← g1, ← g2, hs]
      split_ifs <;> ring

theorem luRatio_done {X : Type} (x0 : X) (n : ℕ) (ip0 jp0 : ℕ → ℕ) (A : X → ℕ → ℝ) :
    ∃ s : RState X, RDone x0 n n A s ∧
      luRatio x0 n ip0 jp0 A = (s.ip, s.jp, s.lu, s.ratio, if s.aborted then 0 else s.sign) := by
  unfold luRatio
  set ij := forRange 0 n (ip0, jp0) fun i (s : (ℕ → ℕ) × (ℕ → ℕ)) => (Function.update s.1 i i, Function.update s.2 i i) with hij
  obtain ⟨h1, h2⟩ := init_ok n ip0 jp0
  refine ⟨_, ?_, rfl⟩
  refine forRange_ind (Nat.zero_le n) (P := fun p s => RDone x0 n p A s) ?_ ?_
  · refine ⟨rfl, fun _ => ⟨1, 1, fun i => h1 i i.2, fun i => h2 i i.2, by simp, fun x _ => ⟨⟨fun i => h1 i i.2,
      fun i => h2 i i.2, by simp, fun k hk => absurd hk (by omega), fun i _ j _ => by simp⟩, .inl rfl, ?_⟩⟩⟩
    rintro r (rfl | ⟨q, i, j, hq, _⟩)
    · exact le_rfl
    · omega
  · intro p s _ hp ih
    exact ratioStep_done x0 hp ih

/-- **C65.**  `LuRatio` recorded at `x0`, for a matrix `A` that depends on `x`.  If the result is zero, the matrix at `x0`
is singular.  Otherwise it is not singular, the ratio at `x0` is one, and for the fixed pivots (the permutations `σ`, `τ`)
and *every* `x` for which these pivots are not zero: `L * U` is the permuted matrix at `x`, the determinant at `x` is the
result times the product of the pivots, and the ratio at `x` is the maximum, over all pivots and over all elements of the
sub-matrix for that pivot, of the absolute value of the element divided by the pivot.  (Real numbers; a point where a
pivot is zero is left out.) -/
theorem luRatio_ok {X : Type} (x0 : X) (n : ℕ) (hn : 0 < n) (ip0 jp0 : ℕ → ℕ) (A : X → ℕ → ℝ)
    (ip jp : ℕ → ℕ) (lu : X → ℕ → ℝ) (ratio : X → ℝ) (sign : ℤ)
    (hr : luRatio x0 n ip0 jp0 A = (ip, jp, lu, ratio, sign)) :
    (sign = 0 ∧ (mat n n (A x0)).det = 0) ∨
      (∃ σ τ : Equiv.Perm (Fin n), sign = Equiv.Perm.sign σ * Equiv.Perm.sign τ ∧ (mat n n (A x0)).det ≠ 0 ∧
        ratio x0 = 1 ∧ (∀ k < n, lu x0 (ip k * n + jp k) ≠ 0) ∧
        ∀ x, (∀ k < n, lu x (ip k * n + jp k) ≠ 0) →
          Factored n (A x) ip jp (lu x) σ τ ∧
          (mat n n (A x)).det = sign * ∏ k : Fin n, lu x (ip k * n + jp k) ∧
          (∀ q < n, remaining n (A x) ip jp (lu x) q q q = lu x (ip q * n + jp q)) ∧
          IsGreatest (ratios n n (A x) ip jp (lu x)) (ratio x)) := by
  obtain ⟨s, hd, hs⟩ := luRatio_done x0 n ip0 jp0 A
  rw [hr] at hs
  obtain ⟨rfl, rfl, rfl, rfl, rfl⟩ : ip = s.ip ∧ jp = s.jp ∧ lu = s.lu ∧ ratio = s.ratio ∧
      sign = if s.aborted then 0 else s.sign := by
    simpa only [Prod.mk.injEq] using hs
  have h0 := luRatio_x0 x0 n ip0 jp0 A
  rw [hr] at h0
  dsimp only at h0
  have hlf := luFactor_ok absGeq_ok n ip0 jp0 (A x0)
  rw [← h0] at hlf
  dsimp only at hlf
  rcases hlf with hlf | ⟨σ', τ', hf', hsg', hdet⟩
  · exact .inl hlf
  · right
    by_cases hab : s.aborted = true
    · rw [if_pos hab] at hsg'
      exfalso
      rcases Int.units_eq_one_or (Equiv.Perm.sign σ') with e1 | e1 <;>
        rcases Int.units_eq_one_or (Equiv.Perm.sign τ') with e2 | e2 <;> simp [e1, e2] at hsg'
    · obtain ⟨σ, τ, hσ, hτ, hsgn, hall⟩ := hd.inv (by simpa using hab)
      rw [if_neg hab] at hsg' ⊢
      refine ⟨σ, τ, hsgn, hdet, hd.one, fun k hk => ?_, fun x hx => ?_⟩
      · have := hf'.diag ⟨k, hk⟩
        simpa [lower] using this
      · obtain ⟨hinv, hg⟩ := hall x hx
        have hf : Factored n (A x) s.ip s.jp (s.lu x) σ τ := by
          refine ⟨hinv.ip, hinv.jp, ?_, fun k => ?_⟩
          · have h3 := hinv.prod le_rfl (fun i j h1 h2 => by omega)
            rw [← h3]
            congr 1
            ext i k
            simp only [lower, Matrix.of_apply, Lf]
            rw [if_pos k.2]
            rfl
          · simpa [lower] using hx k k.2
        have hpiv : ∀ q < n, remaining n (A x) s.ip s.jp (s.lu x) q q q = s.lu x (s.ip q * n + s.jp q) := by
          intro q hq
          have h3 := hinv.fact q hq q hq
          rw [if_neg (by omega), add_zero] at h3
          unfold remaining
          dsimp only at h3
          rw [h3, ← Finset.sum_range_add_sum_Ico _ (Nat.succ_le_of_lt hq), Finset.sum_range_succ]
          rw [Finset.sum_eq_zero (s := Finset.Ico _ _)]
          · rw [add_zero, sub_eq_iff_eq_add, add_comm]
            congr 1
            · simp [Lf, Uf]
            · refine Finset.sum_congr rfl fun k hk => ?_
              have hk := Finset.mem_range.1 hk
              simp only [Lf, Uf]
              rw [if_pos (by omega), if_pos (by omega)]
          · intro k hk
            have hk := Finset.mem_Ico.1 hk
            simp only [Lf]
            rw [if_neg (by omega), zero_mul]
        refine ⟨hf, ?_, hpiv, ?_⟩
        · rw [hf.det, hsgn]; push_cast; rfl
        · have hmem : (1 : ℝ) ∈ ratios n n (A x) s.ip s.jp (s.lu x) := by
            refine ⟨0, 0, 0, hn, le_rfl, hn, le_rfl, hn, ?_⟩
            rw [hpiv 0 hn, div_self (hx 0 hn), abs_one]
          rwa [Set.insert_eq_of_mem hmem] at hg

/-- the matrix with rows `(x, 0)`, `(0, 1)` -/
def exRatioA (x : ℝ) : ℕ → ℝ := fun k => if k = 0 then x else if k = 3 then 1 else 0

/-- the hypotheses are met: the first pivot is `x`, the second is 1.  Recorded at `x = 2` and evaluated at `x = 1/2`,
the ratio is 2. -/
example : ∃ ip jp lu ratio sign, luRatio (2 : ℝ) 2 (fun _ => 0) (fun _ => 0) exRatioA = (ip, jp, lu, ratio, sign) ∧
    sign = 1 ∧ ratio 2 = 1 ∧ ratio (1 / 2) = 2 ∧ ∀ k < 2, lu (1 / 2) (ip k * 2 + jp k) ≠ 0 := by
  refine ⟨_, _, _, _, _, rfl, ?_, ?_, ?_, ?_⟩
  · norm_num [luRatio, ratioStep, findMax, exchange, forRange, List.range', absGeq, exRatioA, scaleRow, subRows, subRow]
  · norm_num [luRatio, ratioStep, findMax, exchange, forRange, List.range', absGeq, exRatioA, scaleRow, subRows, subRow,
      ratioLoop]
  · norm_num [luRatio, ratioStep, findMax, exchange, forRange, List.range', absGeq, exRatioA, scaleRow, subRows, subRow,
      ratioLoop]
  · intro k hk
    interval_cases k <;>
    norm_num [luRatio, ratioStep, findMax, exchange, forRange, List.range', absGeq, exRatioA, scaleRow, subRows, subRow]

end CppAD.Lu
