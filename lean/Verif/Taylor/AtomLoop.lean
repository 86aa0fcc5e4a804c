import Verif.Taylor.ModelAtom
import Verif.Taylor.Cert

/-! # The loops of the atomic function operators -/

namespace CppAD

theorem vset_self (v : ℕ → ℝ) (i : ℕ) (x : ℝ) : vset v i x i = x := by simp [vset]
theorem vset_ne (v : ℕ → ℝ) {i j : ℕ} (x : ℝ) (h : j ≠ i) : vset v i x j = v j := by simp [vset, h]

theorem vfill (lo hi b : ℕ) (g : ℕ → ℝ) (v : ℕ → ℝ) :
    (∀ k, lo ≤ k → k < hi → forRange lo hi v (fun k v => vset v (b + k) (g k)) (b + k) = g k) ∧
    (∀ i, (∀ k, lo ≤ k → k < hi → i ≠ b + k) → forRange lo hi v (fun k v => vset v (b + k) (g k)) i = v i) := by
  rcases le_total hi lo with h | h
  · rw [forRange_of_le h]; exact ⟨fun k h1 h2 => by omega, fun _ _ => rfl⟩
  · refine forRange_ind (P := fun n (w : ℕ → ℝ) => (∀ k, lo ≤ k → k < n → w (b + k) = g k) ∧
      (∀ i, (∀ k, lo ≤ k → k < n → i ≠ b + k) → w i = v i)) h ⟨fun k h1 h2 => by omega, fun _ _ => rfl⟩ ?_
    rintro n w h1 h2 ⟨h3, h4⟩
    refine ⟨fun k h5 h6 => ?_, fun i hi => ?_⟩
    · by_cases hk : k = n
      · subst hk; exact vset_self _ _ _
      · rw [vset_ne _ _ (by omega)]; exact h3 k h5 (by omega)
    · rw [vset_ne _ _ (hi n h1 (by omega))]; exact h4 i fun k h5 h6 => hi k h5 (by omega)

/-- a step that sets the elements of row `j` (of length `no`) of order less than `hi` to `g j k` -/
def RowStep (no hi : ℕ) (g : ℕ → ℕ → ℝ) (j : ℕ) (F : (ℕ → ℝ) → ℕ → ℝ) : Prop :=
  ∀ v, (∀ k < hi, F v (j * no + k) = g j k) ∧ ∀ i, (∀ k < no, i ≠ j * no + k) → F v i = v i

theorem row_ne {no j j' k k' : ℕ} (h : j ≠ j') (hk : k < no) (hk' : k' < no) : j * no + k ≠ j' * no + k' := by
  intro e
  rcases Nat.lt_or_gt_of_ne h with h | h
  · have : (j + 1) * no ≤ j' * no := Nat.mul_le_mul_right no h
    have : (j + 1) * no = j * no + no := by ring
    omega
  · have : (j' + 1) * no ≤ j * no := Nat.mul_le_mul_right no h
    have : (j' + 1) * no = j' * no + no := by ring
    omega

theorem rowUp {no hi n : ℕ} (hh : hi ≤ no) {g : ℕ → ℕ → ℝ} {F : ℕ → (ℕ → ℝ) → ℕ → ℝ}
    (hF : ∀ j < n, RowStep no hi g j (F j)) (v : ℕ → ℝ) : ∀ j < n, ∀ k < hi, forRange 0 n v F (j * no + k) = g j k := by
  refine forRange_ind (P := fun n' (w : ℕ → ℝ) => ∀ j < n', ∀ k < hi, w (j * no + k) = g j k) (Nat.zero_le n)
    (fun j hj => by omega) ?_
  intro n' w _ h2 ih j hj k hk
  by_cases h : j = n'
  · subst h; exact (hF j h2 w).1 k hk
  · rw [(hF n' h2 w).2 _ (fun k' hk' => row_ne h (by omega) hk')]
    exact ih j (by omega) k hk

theorem rowDown {no hi n : ℕ} (hh : hi ≤ no) {g : ℕ → ℕ → ℝ} {F : ℕ → (ℕ → ℝ) → ℕ → ℝ}
    (hF : ∀ j < n, RowStep no hi g j (F j)) (v : ℕ → ℝ) : ∀ j < n, ∀ k < hi, forDown0 n v F (j * no + k) = g j k := by
  have := forDown0_ind (n := n) (s := v) (f := F)
    (P := fun n' (w : ℕ → ℝ) => ∀ j, n' ≤ j → j < n → ∀ k < hi, w (j * no + k) = g j k) (fun j h1 h2 => by omega)
    (by
      intro n' w h2 ih j hj hjn k hk
      by_cases h : j = n'
      · subst h; exact (hF j h2 w).1 k hk
      · rw [(hF n' h2 w).2 _ (fun k' hk' => row_ne h (by omega) hk')]
        exact ih j (by omega) hjn k hk)
  exact fun j hj => this j (Nat.zero_le j) hj

theorem vfill_head (no p b : ℕ) (c : ℝ) (v : ℕ → ℝ) (hp : 0 < p) (hno : p ≤ no) :
    (∀ k < p, forRange 1 p (vset v (b + 0) c) (fun k v => vset v (b + k) 0) (b + k) = if k = 0 then c else 0) ∧
    (∀ i, (∀ k < no, i ≠ b + k) → forRange 1 p (vset v (b + 0) c) (fun k v => vset v (b + k) 0) i = v i) := by
  obtain ⟨h1, h2⟩ := vfill 1 p b (fun _ => 0) (vset v (b + 0) c)
  refine ⟨fun k hk => ?_, fun i hi => ?_⟩
  · by_cases h : k = 0
    · subst h
      rw [h2 _ (fun k' _ _ => by omega), vset_self, if_pos rfl]
    · rw [h1 k (by omega) hk, if_neg h]
  · rw [h2 i (fun k _ h => hi k (by omega)), vset_ne _ _ (by simpa using hi 0 (by omega))]

theorem atomSetX_row (no : ℕ) (hno : 0 < no) (tay : ℕ → ℕ → ℝ) (x : ℕ → Opd) (j : ℕ) :
    RowStep no no (fun j k => match x j with | .par c => if k = 0 then c else 0 | .var a => tay a k) j
      (atomSetX no tay j (x j)) := by
  intro v
  unfold atomSetX
  beta_reduce
  generalize x j = o
  cases o with
  | par c => exact vfill_head no no (j * no) c v hno le_rfl
  | var a =>
    obtain ⟨h1, h2⟩ := vfill 0 no (j * no) (tay a) v
    exact ⟨fun k hk => h1 k (Nat.zero_le k) hk, fun i hi => h2 i fun k _ hk => hi k hk⟩

theorem atomSetY_row (no p : ℕ) (hp : p ≤ no) (tay : ℕ → ℕ → ℝ) (iy : ℕ → ℕ) (y : ℕ → Option ℝ) (i : ℕ) :
    RowStep no p (fun i k => match y i with | some c => if k = 0 then c else 0 | none => tay (iy i) k) i
      (atomSetY no p tay i (iy i) (y i)) := by
  intro v
  unfold atomSetY
  beta_reduce
  generalize y i = o
  cases o with
  | some c =>
    by_cases h : 0 < p
    · simp only [if_pos h]
      exact vfill_head no p (i * no) c v h hp
    · simp only [if_neg h]
      rw [forRange_of_le (by omega)]
      exact ⟨fun k hk => by omega, fun _ _ => rfl⟩
  | none =>
    obtain ⟨h1, h2⟩ := vfill 0 p (i * no) (tay (iy i)) v
    exact ⟨fun k hk => h1 k (Nat.zero_le k) hk, fun i hi => h2 i fun k _ hk => hi k (by omega)⟩

theorem atomRevY_row (no : ℕ) (hno : 0 < no) (tay : ℕ → ℕ → ℝ) (iy : ℕ → ℕ) (y : ℕ → Option ℝ) (i : ℕ) :
    RowStep no no (fun i k => match y i with | some c => if k = 0 then c else 0 | none => tay (iy i) k) i
      (atomRevY no tay i (iy i) (y i)) := by
  intro v
  unfold atomRevY
  beta_reduce
  generalize y i = o
  cases o with
  | some c => exact vfill_head no no (i * no) c v hno le_rfl
  | none =>
    obtain ⟨h1, h2⟩ := vfill 0 no (i * no) (tay (iy i)) v
    exact ⟨fun k hk => h1 k (Nat.zero_le k) hk, fun i hi => h2 i fun k _ hk => hi k hk⟩

/-! ## indices of the results -/

namespace AtomCall

variable (c : AtomCall)

theorem pos_succ (i : ℕ) : c.pos (i + 1) = c.pos i + if c.selY i then 1 else 0 := by
  unfold pos
  rw [List.range_succ, List.filter_append, List.length_append]
  by_cases h : c.selY i <;> simp [h]

theorem pos_mono {i j : ℕ} (h : i ≤ j) : c.pos i ≤ c.pos j := by
  induction j, h using Nat.le_induction with
  | base => exact le_rfl
  | succ n _ ih => rw [pos_succ]; omega

theorem pos_lt {i j : ℕ} (h : i < j) (hs : c.selY i = true) : c.pos i < c.pos j := by
  have := c.pos_mono h
  rw [Nat.succ_eq_add_one, pos_succ, if_pos hs] at this
  omega

theorem pos_inj {i j : ℕ} (hi : c.selY i = true) (hj : c.selY j = true) (h : c.pos i = c.pos j) : i = j := by
  rcases Nat.lt_trichotomy i j with h1 | h1 | h1
  · have := c.pos_lt h1 hi; omega
  · exact h1
  · have := c.pos_lt h1 hj; omega

/-- the component of the function that is result `r` of the call -/
def comp (r : ℕ) : ℕ := c.out.getD r 0

theorem filter_get (m : ℕ) : ∀ i < m, c.selY i = true → ((List.range m).filter c.selY).getD (c.pos i) 0 = i := by
  induction m with
  | zero => intro i hi; omega
  | succ m ih =>
    intro i hi hs
    rw [List.range_succ, List.filter_append]
    by_cases h : i = m
    · subst h
      unfold pos
      rw [List.getD_append_right _ _ _ _ le_rfl]
      simp [hs]
    · have h1 : i < m := by omega
      rw [List.getD_append _ _ _ _ (c.pos_lt h1 hs)]
      exact ih i h1 hs

theorem exists_comp (m : ℕ) : ∀ r < c.pos m, ∃ i < m, c.selY i = true ∧ c.pos i = r := by
  induction m with
  | zero => intro r hr; simp [pos] at hr
  | succ m ih =>
    intro r hr
    rw [pos_succ] at hr
    by_cases h : r < c.pos m
    · obtain ⟨i, h1, h2⟩ := ih r h
      exact ⟨i, by omega, h2⟩
    · by_cases hs : c.selY m
      · rw [if_pos hs] at hr
        exact ⟨m, by omega, hs, by omega⟩
      · rw [if_neg hs] at hr; omega

theorem comp_pos {i : ℕ} (hi : i < c.A.m) (hs : c.selY i = true) : c.comp (c.pos i) = i := c.filter_get _ i hi hs

theorem comp_spec {r : ℕ} (hr : r < c.nres) : c.comp r < c.A.m ∧ c.selY (c.comp r) = true ∧ c.pos (c.comp r) = r := by
  obtain ⟨i, h1, h2, h3⟩ := c.exists_comp c.A.m r hr
  have := c.comp_pos h1 h2
  rw [h3] at this
  rw [this]
  exact ⟨h1, h2, h3⟩

theorem pos_lt_nres {i : ℕ} (hi : i < c.A.m) (hs : c.selY i = true) : c.pos i < c.nres := c.pos_lt hi hs

theorem nres_pos : 0 < c.nres := by
  obtain ⟨i, hi, hy⟩ := c.some_var
  have := c.pos_lt_nres hi (by simp [selY, hy])
  omega

theorem selY_none {i : ℕ} : c.selY i = true ↔ c.y i = none := by simp [selY]

theorem mem_args {a : ℕ} : a ∈ c.args ↔ ∃ j < c.A.n, c.x j = .var a := by
  unfold args
  simp only [List.mem_flatMap, List.mem_range]
  constructor
  · rintro ⟨j, hj, h⟩
    refine ⟨j, hj, ?_⟩
    cases hx : c.x j with
    | par _ => rw [hx] at h; simp at h
    | var v => rw [hx] at h; simp at h; rw [h]
  · rintro ⟨j, hj, h⟩
    exact ⟨j, hj, by rw [h]; simp⟩

end AtomCall

/-- setting the orders `lo ≤ k < hi` (at position `col k`) of the rows of the results -/
theorem resLoop (c : AtomCall) (nv lo hi : ℕ) (col : ℕ → ℕ) (hcol : ∀ k k', lo ≤ k → k < hi → lo ≤ k' → k' < hi → col k = col k' → k = k')
    (g : ℕ → ℕ → ℝ) (s : Tay) :
    let s' := forRange 0 c.A.m s fun i s =>
      if c.selY i then forRange lo hi s fun k s => s.set (c.idx nv i) (col k) (g i k) else s
    (∀ i < c.A.m, c.selY i = true → ∀ k, lo ≤ k → k < hi → s' (nv + c.pos i) (col k) = g i k) ∧
    (∀ v κ, ¬ ((nv ≤ v ∧ v < nv + c.nres) ∧ ∃ k, lo ≤ k ∧ k < hi ∧ κ = col k) → s' v κ = s v κ) := by
  intro s'
  have inner : ∀ i (s : Tay), (∀ k, lo ≤ k → k < hi →
      forRange lo hi s (fun k s => s.set (c.idx nv i) (col k) (g i k)) (nv + c.pos i) (col k) = g i k) ∧
      (∀ v κ, ¬ (v = nv + c.pos i ∧ ∃ k, lo ≤ k ∧ k < hi ∧ κ = col k) →
        forRange lo hi s (fun k s => s.set (c.idx nv i) (col k) (g i k)) v κ = s v κ) := by
    intro i s
    rcases le_total hi lo with h | h
    · rw [forRange_of_le h]; exact ⟨fun k h1 h2 => by omega, fun _ _ _ => rfl⟩
    · refine forRange_ind (P := fun n (t : Tay) => n ≤ hi → (∀ k, lo ≤ k → k < n → t (nv + c.pos i) (col k) = g i k) ∧
        (∀ v κ, ¬ (v = nv + c.pos i ∧ ∃ k, lo ≤ k ∧ k < hi ∧ κ = col k) → t v κ = s v κ)) h
        (fun _ => ⟨fun k h1 h2 => by omega, fun _ _ _ => rfl⟩) ?_ le_rfl
      intro n t h1 h2 ih _
      obtain ⟨i1, i2⟩ := ih (by omega)
      refine ⟨fun k h3 h4 => ?_, fun v κ hv => ?_⟩
      · by_cases hk : k = n
        · subst hk; exact Tay.set_self _ _ _ _
        · rw [Tay.set_ne_ord _ _ _ _ (fun e => hk (hcol k n h3 (by omega) h1 h2 e))]
          exact i1 k h3 (by omega)
      · rw [Tay.set_apply, if_neg]
        · exact i2 v κ hv
        · rintro ⟨rfl, rfl⟩
          exact hv ⟨rfl, n, h1, h2, rfl⟩
  have key : ∀ m ≤ c.A.m, (∀ i < m, c.selY i = true → ∀ k, lo ≤ k → k < hi →
      forRange 0 m s (fun i s => if c.selY i then forRange lo hi s fun k s => s.set (c.idx nv i) (col k) (g i k) else s)
        (nv + c.pos i) (col k) = g i k) ∧
      (∀ v κ, ¬ ((nv ≤ v ∧ v < nv + c.nres) ∧ ∃ k, lo ≤ k ∧ k < hi ∧ κ = col k) →
        forRange 0 m s (fun i s => if c.selY i then forRange lo hi s fun k s => s.set (c.idx nv i) (col k) (g i k) else s)
          v κ = s v κ) := by
    intro m
    induction m with
    | zero => intro _; rw [forRange_of_le le_rfl]; exact ⟨fun i hi => by omega, fun _ _ _ => rfl⟩
    | succ m ih =>
      intro hm
      obtain ⟨i1, i2⟩ := ih (by omega)
      rw [forRange_succ (Nat.zero_le m)]
      by_cases hs : c.selY m = true
      · simp only [hs, if_true]
        refine ⟨fun i hi hi' k h1 h2 => ?_, fun v κ hv => ?_⟩
        · by_cases h : i = m
          · subst h; exact (inner i _).1 k h1 h2
          · rw [(inner m _).2 _ _ (by
              rintro ⟨e, -⟩
              exact h (c.pos_inj hi' hs (by omega)))]
            exact i1 i (by omega) hi' k h1 h2
        · rw [(inner m _).2 _ _ (by
            rintro ⟨e, h⟩
            have := c.pos_lt_nres (i := m) (by omega) hs
            exact hv ⟨by omega, h⟩)]
          exact i2 v κ hv
      · simp only [hs]
        refine ⟨fun i hi hi' k h1 h2 => ?_, i2⟩
        have : i ≠ m := by rintro rfl; exact hs hi'
        exact i1 i (by omega) hi' k h1 h2
  exact key c.A.m le_rfl

end CppAD
