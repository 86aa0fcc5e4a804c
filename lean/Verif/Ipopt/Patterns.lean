import Verif.Ipopt.Spec
import Verif.AtomEx.VecSparse
import Verif.AtomEx.MatFwd
import Verif.OptVal.Loops
import Verif.Sparsity.Symm

/-!
# The callback object of `ipopt::solve`: the sparsity patterns
-/

open scoped Topology

namespace CppAD.Ipopt

open Sparsity Legacy IndexSort SparseJac SparseHes

/-- conditional assignments in a double loop -/
theorem fill_cond {α : Type*} {n m : ℕ} (y : ℕ → α) (g : ℕ → ℕ → α) (pos : ℕ → ℕ → ℕ) (c : ℕ → ℕ → Prop)
    (body : ℕ → ℕ → (ℕ → α) → ℕ → α)
    (hb : ∀ i j t, i < n → j < m → c i j → body i j t = Function.update t (pos i j) (g i j))
    (hb' : ∀ i j t, i < n → j < m → ¬ c i j → body i j t = t)
    (hpos : ∀ i j i' j', i < n → j < m → i' < n → j' < m → c i j → c i' j' → pos i j = pos i' j' → i = i' ∧ j = j') :
    (∀ i < n, ∀ j < m, c i j → (forRange 0 n y fun i y => forRange 0 m y fun j y => body i j y) (pos i j) = g i j) ∧
    ∀ p, (∀ i < n, ∀ j < m, c i j → p ≠ pos i j) → (forRange 0 n y fun i y => forRange 0 m y fun j y => body i j y) p = y p := by
  refine forRange_ind (s := y) (f := fun i y => forRange 0 m y fun j y => body i j y) (Nat.zero_le n)
    (fun I t => (∀ i < I, ∀ j < m, c i j → t (pos i j) = g i j) ∧ ∀ p, (∀ i < n, ∀ j < m, c i j → p ≠ pos i j) → t p = y p)
    ⟨by intros; omega, fun _ _ => rfl⟩ ?_
  rintro I t _ hI ⟨h1, h2⟩
  have h3 := forRange_ind (s := t) (f := fun j y => body I j y) (Nat.zero_le m)
    (fun J t => (∀ i < I, ∀ j < m, c i j → t (pos i j) = g i j) ∧ (∀ j < J, c I j → t (pos I j) = g I j) ∧
      ∀ p, (∀ i < n, ∀ j < m, c i j → p ≠ pos i j) → t p = y p)
    ⟨h1, by intros; omega, h2⟩ (by
      rintro J u _ hJ ⟨a1, a2, a3⟩
      by_cases hc : c I J
      · rw [hb I J u hI hJ hc]
        refine ⟨fun i hi j hj hcij => ?_, fun j hj hcj => ?_, fun p hp => ?_⟩
        · rw [Function.update_of_ne, a1 i hi j hj hcij]
          intro e
          have := hpos i j I J (by omega) hj hI hJ hcij hc e
          omega
        · by_cases e : j = J
          · subst e; simp
          · rw [Function.update_of_ne, a2 j (by omega) hcj]
            intro e'
            exact e (hpos I j I J hI (by omega) hI hJ hcj hc e').2
        · rw [Function.update_of_ne (hp I hI J hJ hc), a3 p hp]
      · rw [hb' I J u hI hJ hc]
        refine ⟨a1, fun j hj hcj => ?_, a3⟩
        by_cases e : j = J
        · subst e; exact absurd hcj hc
        · exact a2 j (by omega) hcj)
  obtain ⟨b1, b2, b3⟩ := h3
  refine ⟨fun i hi j hj hcij => ?_, b3⟩
  by_cases e : i = I
  · subst e; exact b2 j hj hcij
  · exact b1 i (by omega) j hj hcij

theorem pick_apply (n q i0 : ℕ) (junk : ℕ → Bool) {i j : ℕ} (hi : i < n) (hj : j < q) :
    pick n q i0 junk (i * q + j) = decide (i = i0 + j) := by
  unfold pick
  exact (fill_cond junk (fun i j => decide (i = i0 + j)) (fun i j => i * q + j) (fun _ _ => True)
    (fun i j r => Function.update r (i * q + j) (decide (i = i0 + j))) (fun _ _ _ _ _ _ => rfl)
    (fun _ _ _ _ _ h => absurd trivial h) (fun i j i' j' _ hj _ hj' _ _ e => rowcol_inj hj hj' e)).1 i hi j hj trivial

theorem pickRow_apply (q m i0 : ℕ) (junk : ℕ → Bool) {i j : ℕ} (hi : i < q) (hj : j < m) :
    pickRow q m i0 junk (i * m + j) = decide (i0 + i = j) := by
  unfold pickRow
  exact (fill_cond junk (fun i j => decide (i0 + i = j)) (fun i j => i * m + j) (fun _ _ => True)
    (fun i j r => Function.update r (i * m + j) (decide (i0 + i = j))) (fun _ _ _ _ _ _ => rfl)
    (fun _ _ _ _ _ h => absurd trivial h) (fun i j i' j' _ hj _ hj' _ _ e => rowcol_inj hj hj' e)).1 i hi j hj trivial

theorem copyCols_apply (m q nx i0 : ℕ) (s pat : ℕ → Bool) {i j : ℕ} (hi : i < m) (hj : j < nx) :
    copyCols m q nx i0 s pat (i * nx + j) = if i0 ≤ j ∧ j < i0 + q then s (i * q + (j - i0)) else pat (i * nx + j) := by
  unfold copyCols
  have h := fill_cond (n := m) (m := q) pat (fun i j => s (i * q + j)) (fun i j => i * nx + i0 + j) (fun _ j => i0 + j < nx)
    (fun i j pat => if i0 + j < nx then Function.update pat (i * nx + i0 + j) (s (i * q + j)) else pat)
    (fun _ _ _ _ _ hc => if_pos hc) (fun _ _ _ _ _ hc => if_neg hc)
    (fun i j i' j' _ hj _ hj' hc hc' e => by
      rw [Nat.add_assoc, Nat.add_assoc] at e
      have := rowcol_inj hc hc' e
      omega)
  split_ifs with hc
  · have := h.1 i hi (j - i0) (by omega) (by show i0 + (j - i0) < nx; omega)
    rw [show i * nx + i0 + (j - i0) = i * nx + j by omega] at this
    exact this
  · refine h.2 _ fun i' hi' j' hj' hc' e => hc ?_
    rw [Nat.add_assoc] at e
    have := (rowcol_inj hj hc' e).2
    omega

theorem copyRows_apply (q m nx i0 : ℕ) (s pat : ℕ → Bool) {i j : ℕ} (hi : i < m) (hj : j < nx) :
    copyRows q m nx i0 s pat (i * nx + j) = if i0 ≤ i ∧ i < i0 + q then s ((i - i0) * nx + j) else pat (i * nx + j) := by
  unfold copyRows
  have h := fill_cond (n := q) (m := nx) pat (fun i j => s (i * nx + j)) (fun i j => (i0 + i) * nx + j) (fun i _ => i0 + i < m)
    (fun i j pat => if i0 + i < m then Function.update pat ((i0 + i) * nx + j) (s (i * nx + j)) else pat)
    (fun _ _ _ _ _ hc => if_pos hc) (fun _ _ _ _ _ hc => if_neg hc)
    (fun i j i' j' _ hj _ hj' hc hc' e => by
      have := rowcol_inj hj hj' e
      omega)
  split_ifs with hc
  · have := h.1 (i - i0) (by omega) j hj (by show i0 + (i - i0) < m; omega)
    rw [show i0 + (i - i0) = i by omega] at this
    exact this
  · refine h.2 _ fun i' hi' j' hj' hc' e => hc ?_
    have := (rowcol_inj hj hj' e).1
    omega

theorem div_block {j q l : ℕ} (hq : 0 < q) : (l * q ≤ j ∧ j < l * q + q) ↔ j / q = l := by
  constructor
  · rintro ⟨h1, h2⟩
    exact Nat.div_eq_of_lt_le h1 (by rw [Nat.add_mul]; omega)
  · rintro rfl
    have h1 := Nat.div_add_mod j q
    have h2 := Nat.mod_lt j hq
    rw [Nat.mul_comm] at h1
    omega

theorem sub_block (j q : ℕ) : j - j / q * q = j % q := by
  have := Nat.div_add_mod j q
  rw [Nat.mul_comm] at this
  omega

theorem block_lt {j n q : ℕ} (hj : j < n) : j / q < (n - 1) / q + 1 := by
  have : j / q ≤ (n - 1) / q := Nat.div_le_div_right (by omega)
  omega

theorem blocks_cols (m nx : ℕ) {q : ℕ} (hq : 0 < q) (s : ℕ → ℕ → Bool) (pat : ℕ → Bool) {i j : ℕ} (hi : i < m) (hj : j < nx) :
    (forRange 0 ((nx - 1) / q + 1) pat fun l pat => copyCols m q nx (l * q) (s l) pat) (i * nx + j)
      = s (j / q) (i * q + j % q) := by
  have := forRange_ind (s := pat) (f := fun l pat => copyCols m q nx (l * q) (s l) pat) (Nat.zero_le ((nx - 1) / q + 1))
    (fun L t => j / q < L → t (i * nx + j) = s (j / q) (i * q + j % q)) (fun h => absurd h (Nat.not_lt_zero _)) (by
      intro l t _ _ ih h
      rw [copyCols_apply _ _ _ _ _ _ hi hj]
      split_ifs with hc
      · have e := (div_block hq).1 hc
        subst e
        rw [sub_block]
      · refine ih ?_
        have : ¬ j / q = l := fun e => hc ((div_block hq).2 e)
        omega)
  exact this (block_lt hj)

theorem blocks_rows (m nx : ℕ) {q : ℕ} (hq : 0 < q) (s : ℕ → ℕ → Bool) (pat : ℕ → Bool) {i j : ℕ} (hi : i < m) (hj : j < nx) :
    (forRange 0 ((m - 1) / q + 1) pat fun l pat => copyRows q m nx (l * q) (s l) pat) (i * nx + j)
      = s (i / q) (i % q * nx + j) := by
  have := forRange_ind (s := pat) (f := fun l pat => copyRows q m nx (l * q) (s l) pat) (Nat.zero_le ((m - 1) / q + 1))
    (fun L t => i / q < L → t (i * nx + j) = s (i / q) (i % q * nx + j)) (fun h => absurd h (Nat.not_lt_zero _)) (by
      intro l t _ _ ih h
      rw [copyRows_apply _ _ _ _ _ _ hi hj]
      split_ifs with hc
      · have e := (div_block hq).1 hc
        subst e
        rw [sub_block]
      · refine ih ?_
        have : ¬ i / q = l := fun e => hc ((div_block hq).2 e)
        omega)
  exact this (block_lt hi)

theorem bools_has {s : SetVec} {nr nc i j : ℕ} (hs : s.kind = .bool) (h : s.Has false nr nc i j) : bools s (i * nc + j) = true := by
  cases s with
  | bools v => exact h.2.2
  | sets v => cases hs

theorem mod_block (j q : ℕ) : j / q * q + j % q = j := by
  have := Nat.div_add_mod j q
  rw [Nat.mul_comm] at this
  exact this

/-- the Jacobian pattern contains every entry that is not zero at some point -/
theorem jacPattern_ok {T : Tape} (hT : T.WF) {bits : ℕ} (hb : 0 < bits) (J : Junk) {i j : ℕ} (hi : i < T.dep.length) (hj : j < T.n)
    {x : ℕ → ℝ} (hD : T.Dom x) {v : ℝ} (hv : IsPartial (fun y => T.eval y i) x j v) (hne : v ≠ 0) :
    jacPattern T bits T.dep.length T.n J (i * T.n + j) = true := by
  unfold jacPattern
  have hq := Nat.mod_lt j hb
  have hq' := Nat.mod_lt i hb
  split_ifs with hm
  · rw [blocks_cols T.dep.length T.n hb (fun l => bools (forSparseJac T (J.flags l) bits (.bools (pick T.n bits (l * bits) J.flag)) false false).1)
      J.flag hi hj]
    refine bools_has rfl (for_sparse_jac_ok hT _ bits (.bools (pick T.n bits (j / bits * bits) J.flag)) false false trivial
      (fun k c => if k = j / bits * bits + c then 1 else 0) ?_ x hD i (j % bits) hi hq v ?_ hne)
    · intro k hk c hc h
      refine ⟨hk, hc, ?_⟩
      show pick T.n bits (j / bits * bits) J.flag (k * bits + c) = true
      rw [pick_apply _ _ _ _ hk hc]
      by_contra h'
      apply h
      rw [if_neg (by simpa using h')]
    · rw [mod_block]
      have := update_dir x hj
      unfold IsPartial at hv
      simp only [at_unitVec hj] at this
      refine hv.congr_of_eventuallyEq (Filter.Eventually.of_forall fun t => ?_)
      exact congrFun (congrArg T.eval (this t)) i
  · rw [blocks_rows T.dep.length T.n hb (fun l => bools (revSparseJac T (J.flags l) bits (.bools (pickRow bits T.dep.length (l * bits) J.flag)) false false))
      J.flag hi hj]
    refine bools_has rfl (rev_sparse_jac_ok hT _ bits (.bools (pickRow bits T.dep.length (i / bits * bits) J.flag)) false false trivial (i % bits) j hq' hj (unitVec T.dep.length i) ?_ x hD v ?_ hne)
    · intro k hk h
      refine ⟨hq', hk, ?_⟩
      show pickRow bits T.dep.length (i / bits * bits) J.flag (i % bits * T.dep.length + k) = true
      rw [pickRow_apply _ _ _ _ hq' hk, mod_block]
      rw [at_unitVec hi] at h
      by_contra h'
      apply h
      rw [if_neg (fun e => h' (by simp [e]))]
    · unfold IsPartial at hv ⊢
      simp only [wsum_unit hi]
      exact hv

theorem revSparseHes_has {T : Tape} (junk : ℕ → Bool) (q : ℕ) (J : Sp) (s : SetVec) (hs : s.kind = .bool) {i j : ℕ} (hi : i < T.n) (hj : j < q) :
    bools (revSparseHes T junk q J s true) (i * q + j) = true ↔ j ∈ (revHes J T.ops (T.n + 1) (revFlags T s, fun _ => ∅)).2 (i + 1) := by
  have h := has_readHes s.kind false T.n q (fun j => j + 1) junk (revHes J T.ops (T.n + 1) (revFlags T s, fun _ => ∅)).2 i j
  rw [hs] at h
  have e : revSparseHes T junk q J s true = readHes .bool false T.n q (fun j => j + 1) junk (revHes J T.ops (T.n + 1) (revFlags T s, fun _ => ∅)).2 := by
    unfold revSparseHes
    rw [hs]; rfl
  rw [e]
  constructor
  · intro h1
    exact (h.1 ⟨hi, hj, h1⟩).2.2
  · intro h1
    exact bools_has rfl (h.2 ⟨hi, hj, h1⟩)

theorem allTrue (m : ℕ) (junk : ℕ → Bool) {i : ℕ} (hi : i < m) :
    (forRange 0 m junk fun i s => Function.update s i true) i = true :=
  AtomEx.forRange_assign junk (fun _ => true) _ (fun _ _ _ => rfl) hi

theorem hesPattern_apply {T : Tape} {bits : ℕ} (hb : 0 < bits) (J : Junk) {i j : ℕ} (hi : i < T.n) (hj : j < T.n) :
    hesPattern T bits T.dep.length T.n J (i * T.n + j) =
      bools (revSparseHes T (J.flags (j / bits)) bits
        (forSparseJac T (J.flags (j / bits)) bits (.bools (pick T.n bits (j / bits * bits) J.flag)) false false).2
        (.bools (forRange 0 T.dep.length J.flag fun i s => Function.update s i true)) true) (i * bits + j % bits) :=
  blocks_cols T.n T.n hb (fun l => bools (revSparseHes T (J.flags l) bits
        (forSparseJac T (J.flags l) bits (.bools (pick T.n bits (l * bits) J.flag)) false false).2
        (.bools (forRange 0 T.dep.length J.flag fun i s => Function.update s i true)) true)) J.flag hi hj

/-- the Hessian pattern contains every second partial that is not zero at some point -/
theorem hesPattern_ok {T : Tape} (hT : T.WF) (hna : ∀ op ∈ T.ops, ∀ c, op ≠ .atom c) {bits : ℕ} (hb : 0 < bits) (J : Junk)
    {i j : ℕ} (hi : i < T.n) (hj : j < T.n) {x : ℕ → ℝ} (hD : T.Dom x) {w : List ℝ} {v : ℝ}
    (hv : IsPartial2 (wsum T w) x i j v) (hne : v ≠ 0) :
    hesPattern T bits T.dep.length T.n J (i * T.n + j) = true := by
  have hq := Nat.mod_lt j hb
  rw [hesPattern_apply hb J hi hj]
  have hs : ∀ k < T.dep.length, Selects (.bools (forRange 0 T.dep.length J.flag fun i s => Function.update s i true)) k :=
    fun k hk => allTrue _ _ hk
  have h := rev_sparse_hes_ok_partial hT (J.flags (j / bits)) (J.flags (j / bits)) bits (.bools (pick T.n bits (j / bits * bits) J.flag))
    (.bools (forRange 0 T.dep.length J.flag fun i s => Function.update s i true)) false true false trivial
    (fun k c => if k = j / bits * bits + c then 1 else 0) (fun k hk c hc h => by
      refine ⟨hk, hc, ?_⟩
      show pick T.n bits (j / bits * bits) J.flag (k * bits + c) = true
      rw [pick_apply _ _ _ _ hk hc]
      by_contra h'
      apply h
      rw [if_neg (by simpa using h')])
    w (fun k hk _ => hs k hk) (fun _ k hk k' hk' _ => iff_of_true (hs k hk) (hs k' hk')) (Or.inl hna) x hD i (j % bits) hi hq v
    (by
      rw [mod_block]
      exact isMixed_of_partial2 hv) hne
  rw [← SetVec.Has_flip] at h
  exact bools_has rfl h

/-- the Hessian pattern is symmetric -/
theorem hesPattern_symm {T : Tape} (hT : T.WF) (hna : ∀ op ∈ T.ops, ∀ c, op ≠ .atom c) {bits : ℕ} (hb : 0 < bits) (J : Junk)
    {i j : ℕ} (hi : i < T.n) (hj : j < T.n) (h : hesPattern T bits T.dep.length T.n J (i * T.n + j) = true) :
    hesPattern T bits T.dep.length T.n J (j * T.n + i) = true := by
  obtain ⟨R, hR, hs⟩ := revHes_indep hT hna (revFlags T (.bools (forRange 0 T.dep.length J.flag fun i s => Function.update s i true)))
  have key : ∀ i j, i < T.n → j < T.n → (hesPattern T bits T.dep.length T.n J (i * T.n + j) = true ↔ R i j) := by
    intro i j hi hj
    have hq := Nat.mod_lt j hb
    rw [hesPattern_apply hb J hi hj, revSparseHes_has _ _ _ _ rfl hi hq]
    unfold forSparseJac
    dsimp only
    rw [hs _ i hi]
    have hp : ∀ k < T.n, (j % bits ∈ post false T.n bits (fun j => j + 1) (.bools (pick T.n bits (j / bits * bits) J.flag)) (k + 1) ↔ k = j) := by
      intro k hk
      rw [mem_post false T.n bits (fun j => j + 1) (.bools (pick T.n bits (j / bits * bits) J.flag)) trivial]
      constructor
      · rintro ⟨k', e, h1, h2, h3⟩
        have e : k' = k := by simpa using e
        subst e
        have h3 : pick T.n bits (j / bits * bits) J.flag (k' * bits + j % bits) = true := h3
        rw [pick_apply _ _ _ _ hk hq, mod_block] at h3
        simpa using h3
      · rintro rfl
        refine ⟨k, rfl, hk, hq, ?_⟩
        show pick T.n bits (k / bits * bits) J.flag (k * bits + k % bits) = true
        rw [pick_apply _ _ _ _ hk hq, mod_block]
        simp
    constructor
    · rintro ⟨k, hk, h1, h2⟩
      rw [hp k hk] at h2
      exact h2 ▸ h1
    · intro h
      exact ⟨j, hj, h, (hp j hj).2 rfl⟩
  rw [key j i hj hi]
  exact hR _ _ ((key i j hi hj).1 h)

end CppAD.Ipopt
