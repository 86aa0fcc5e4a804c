import Verif.Taylor.FunSpec

/-! # Memory layout: capacity_order keeps the coefficients -/

namespace CppAD

theorem tab_length (n m : ℕ) (g : ℕ → ℕ → ℝ) : (tab n m g).length = n * m := by simp [tab]

theorem at_tab {n m : ℕ} (g : ℕ → ℕ → ℝ) {i k : ℕ} (hi : i < n) (hk : k < m) :
    at' (tab n m g) (i * m + k) = g i k := by
  have h : i * m + k < n * m := by
    have : (i + 1) * m ≤ n * m := Nat.mul_le_mul_right m hi
    have : (i + 1) * m = i * m + m := by ring
    omega
  unfold at' tab
  rw [List.getD_eq_getElem _ _ (by simpa using h)]
  simp only [List.getElem_map, List.getElem_range]
  rw [Nat.mul_comm i m, Nat.mul_add_div (by omega), Nat.div_eq_of_lt hk, Nat.mul_add_mod,
    Nat.mod_eq_of_lt hk, Nat.add_zero]

theorem unflat_flat {W : ℕ} (s : Tay) {i k : ℕ} (hk : k < W) : unflat W (flat W s) i k = s i k := by
  unfold unflat flat
  rw [Nat.mul_add_div (by omega), Nat.div_eq_of_lt hk, Nat.mul_add_mod, Nat.mod_eq_of_lt hk, Nat.add_zero]

theorem dirIdx_stride {r ell k c : ℕ} (h1 : ell < r) (h2 : k < c) : dirIdx r ell k < stride c r := by
  unfold dirIdx stride
  split
  · omega
  · have : (k - 1 + 1) * r ≤ (c - 1) * r := Nat.mul_le_mul_right r (by omega)
    have : (k - 1 + 1) * r = (k - 1) * r + r := by ring
    omega

theorem dirIdx_inj {r ell ell' k k' : ℕ} (h1 : ell < r) (h2 : ell' < r) (hk : 1 ≤ k) (hk' : 1 ≤ k')
    (h : dirIdx r ell k = dirIdx r ell' k') : k = k' ∧ ell = ell' := by
  unfold dirIdx at h
  rw [if_neg (by omega), if_neg (by omega)] at h
  have h' : (k - 1) * r + ell = (k' - 1) * r + ell' := by omega
  have a : ((k - 1) * r + ell) / r = k - 1 := by
    rw [Nat.mul_comm, Nat.mul_add_div (by omega), Nat.div_eq_of_lt h1, Nat.add_zero]
  have b : ((k' - 1) * r + ell') / r = k' - 1 := by
    rw [Nat.mul_comm, Nat.mul_add_div (by omega), Nat.div_eq_of_lt h2, Nat.add_zero]
  rw [h'] at a
  have c : k - 1 = k' - 1 := by omega
  refine ⟨by omega, ?_⟩
  rw [c] at h'; omega

/-- what the copy loop of capacity_order achieves -/
theorem copyTaylor_ok {N p C R c r : ℕ} (old new : ℕ → ℝ) (hp : 0 < p) (hpc : p ≤ c)
    (hR : 2 ≤ p → r = R) {i : ℕ} (hi : i < N) :
    unflat (stride c r) (copyTaylor N p C R c r old new) i 0 = unflat (stride C R) old i 0 ∧
    ∀ k, 1 ≤ k → k < p → ∀ ell < R,
      unflat (stride c r) (copyTaylor N p C R c r old new) i (dirIdx r ell k)
        = unflat (stride C R) old i (dirIdx R ell k) := by
  have hrow : ∀ (i j o : ℕ), i < j → o < stride c r → stride c r * i + o < stride c r * j := by
    intro i j o hij ho
    have : stride c r * (i + 1) ≤ stride c r * j := Nat.mul_le_mul_left _ hij
    have : stride c r * (i + 1) = stride c r * i + stride c r := by ring
    omega
  -- the specification of one row
  let good (i : ℕ) (m : ℕ → ℝ) (K : ℕ) : Prop :=
    unflat (stride c r) m i 0 = unflat (stride C R) old i 0 ∧
    ∀ k, 1 ≤ k → k < K → ∀ ell < R,
      unflat (stride c r) m i (dirIdx r ell k) = unflat (stride C R) old i (dirIdx R ell k)
  have hdi : ∀ k, 1 ≤ k → k < p → ∀ ell < R, dirIdx r ell k = (k - 1) * r + ell + 1 ∧
      dirIdx R ell k = (k - 1) * R + ell + 1 ∧ dirIdx r ell k < stride c r := by
    intro k h1 h2 ell hell
    have := hR (by omega)
    refine ⟨by rw [dirIdx, if_neg (by omega)], by rw [dirIdx, if_neg (by omega)],
      dirIdx_stride (by omega) (by omega)⟩
  -- inner most loop
  have inner : ∀ i (m : ℕ → ℝ) k, 1 ≤ k → k < p → ∀ L ≤ R,
      let m' := forRange 0 L m fun ell m =>
        Function.update m (((c - 1) * r + 1) * i + (k - 1) * r + ell + 1)
          (old (((C - 1) * R + 1) * i + (k - 1) * R + ell + 1))
      (∀ ell < L, unflat (stride c r) m' i (dirIdx r ell k) = unflat (stride C R) old i (dirIdx R ell k)) ∧
      (∀ a, (∀ ell < L, a ≠ stride c r * i + dirIdx r ell k) → m' a = m a) := by
    intro i m k h1 h2 L hL
    induction L with
    | zero => exact ⟨fun ell h => absurd h (Nat.not_lt_zero _), fun a _ => rfl⟩
    | succ L ih =>
      obtain ⟨i1, i2⟩ := ih (by omega)
      simp only at i1 i2 ⊢
      rw [forRange_succ (Nat.zero_le L)]
      obtain ⟨d1, d2, d3⟩ := hdi k h1 h2 L (by omega)
      have hrR := hR (by omega)
      have ea : ((c - 1) * r + 1) * i + (k - 1) * r + L + 1 = stride c r * i + dirIdx r L k := by
        rw [d1]; unfold stride; omega
      constructor
      · intro ell hell
        rcases Nat.lt_succ_iff_lt_or_eq.mp hell with h | h
        · have := i1 ell h
          unfold unflat at this ⊢
          rw [Function.update_of_ne]
          · exact this
          · rw [ea]
            intro he
            have : dirIdx r ell k = dirIdx r L k := by omega
            have := (dirIdx_inj (by omega) (by omega) h1 h1 this).2
            omega
        · subst h
          unfold unflat
          rw [ea, Function.update_self]
          congr 1
          rw [d2]; unfold stride; omega
      · intro a ha
        rw [Function.update_of_ne (by rw [ea]; exact ha L (by omega))]
        exact i2 a fun ell h => ha ell (by omega)
  -- one row
  have row : ∀ i (m : ℕ → ℝ),
      let m' := forRange 1 p (Function.update m (((c - 1) * r + 1) * i + 0) (old (((C - 1) * R + 1) * i + 0)))
        fun k m => forRange 0 R m fun ell m =>
          Function.update m (((c - 1) * r + 1) * i + (k - 1) * r + ell + 1)
            (old (((C - 1) * R + 1) * i + (k - 1) * R + ell + 1))
      good i m' p ∧ (∀ a, (∀ o < stride c r, a ≠ stride c r * i + o) → m' a = m a) := by
    intro i m
    refine forRange_ind (P := fun K m' => good i m' K ∧
      (∀ a, (∀ o < stride c r, a ≠ stride c r * i + o) → m' a = m a)) hp ?_ ?_
    · refine ⟨⟨?_, fun k h1 h2 => by omega⟩, fun a ha => ?_⟩
      · unfold unflat stride; rw [Function.update_self]
      · exact Function.update_of_ne (ha 0 (by unfold stride; omega)) _ _
    · intro k m' h1 h2 ⟨⟨g1, g2⟩, g3⟩
      obtain ⟨j1, j2⟩ := inner i m' k h1 h2 R le_rfl
      refine ⟨⟨?_, ?_⟩, ?_⟩
      · unfold unflat at g1 ⊢
        rw [j2 _ ?_, g1]
        intro ell hell
        obtain ⟨d1, _, _⟩ := hdi k h1 h2 ell hell
        omega
      · intro k' hk1 hk2 ell hell
        rcases Nat.lt_succ_iff_lt_or_eq.mp hk2 with h | h
        · have := g2 k' hk1 h ell hell
          unfold unflat at this ⊢
          rw [j2 _ ?_, this]
          intro ell' hell' he
          have hrR := hR (by omega)
          have := (dirIdx_inj (r := r) (by omega) (by omega) hk1 h1
            (by omega : dirIdx r ell k' = dirIdx r ell' k)).1
          omega
        · subst h; exact j1 ell hell
      · intro a ha
        rw [j2 a (fun ell hell => ha _ (hdi k h1 h2 ell hell).2.2), g3 a ha]
  -- all rows
  have all : ∀ M ≤ N, ∀ i < M, good i (forRange 0 M new fun i m =>
      let m := Function.update m (((c - 1) * r + 1) * i + 0) (old (((C - 1) * R + 1) * i + 0))
      forRange 1 p m fun k m => forRange 0 R m fun ell m =>
          Function.update m (((c - 1) * r + 1) * i + (k - 1) * r + ell + 1)
            (old (((C - 1) * R + 1) * i + (k - 1) * R + ell + 1))) p := by
    intro M hM
    induction M with
    | zero => intro i hi; omega
    | succ M ih =>
      intro i hi
      rw [forRange_succ (Nat.zero_le M)]
      obtain ⟨r1, r2⟩ := row M (forRange 0 M new fun i m =>
        let m := Function.update m (((c - 1) * r + 1) * i + 0) (old (((C - 1) * R + 1) * i + 0))
        forRange 1 p m fun k m => forRange 0 R m fun ell m =>
          Function.update m (((c - 1) * r + 1) * i + (k - 1) * r + ell + 1)
            (old (((C - 1) * R + 1) * i + (k - 1) * R + ell + 1)))
      rcases Nat.lt_succ_iff_lt_or_eq.mp hi with h | h
      · obtain ⟨g1, g2⟩ := ih (by omega) i h
        have same : ∀ o < stride c r, ∀ o' < stride c r, stride c r * i + o ≠ stride c r * M + o' := by
          intro o ho o' ho'
          have := hrow i M o h ho
          omega
        refine ⟨?_, fun k h1 h2 ell hell => ?_⟩
        · refine Eq.trans ?_ g1
          exact r2 _ (same 0 (by unfold stride; omega))
        · refine Eq.trans ?_ (g2 k h1 h2 ell hell)
          exact r2 _ (same _ (hdi k h1 h2 ell hell).2.2)
      · subst h; exact r1
  have := all N le_rfl i hi
  unfold copyTaylor
  rw [if_neg (by omega)]
  exact this

end CppAD
