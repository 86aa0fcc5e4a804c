import Verif.AtomEx.CholDeriv

/-! # C62: the object of the atomic Cholesky factor, call after call -/

open scoped ContDiff Topology
open PowerSeries Filter

namespace CppAD.AtomEx

/-! ### Loops over the lower triangle -/

/-- number of elements of a lower triangle before row `i` -/
def tri (i : ℕ) : ℕ := i * (i + 1) / 2

theorem tri_succ (i : ℕ) : tri (i + 1) = tri i + (i + 1) := by
  unfold tri
  have : (i + 1) * (i + 1 + 1) = i * (i + 1) + 2 * (i + 1) := by ring
  rw [this, Nat.add_mul_div_left _ _ (by norm_num)]

theorem tri_mono {i i' : ℕ} (h : i ≤ i') : tri i ≤ tri i' := by
  induction i', h using Nat.le_induction with
  | base => exact le_rfl
  | succ m _ ih => rw [tri_succ]; omega

theorem tri_inj {i j i' j' : ℕ} (hj : j ≤ i) (hj' : j' ≤ i') (h : tri i + j = tri i' + j') : i = i' ∧ j = j' := by
  rcases lt_trichotomy i i' with hlt | heq | hgt
  · have := tri_mono (Nat.succ_le_of_lt hlt)
    rw [Nat.succ_eq_add_one, tri_succ] at this
    omega
  · subst heq; exact ⟨rfl, by omega⟩
  · have := tri_mono (Nat.succ_le_of_lt hgt)
    rw [Nat.succ_eq_add_one, tri_succ] at this
    omega

/-- rows -/
def triRow {σ : Type*} (idx0 i : ℕ) (s : σ) (body : ℕ → ℕ → ℕ → σ → σ) : σ :=
  forRange 0 (i + 1) s fun j s => body i j (idx0 + tri i + j) s

theorem triLoop_eq {σ : Type*} (nr idx0 : ℕ) (s : σ) (body : ℕ → ℕ → ℕ → σ → σ) :
    triLoop nr idx0 s body = (forRange 0 nr s fun i s => triRow idx0 i s body, idx0 + tri nr) := by
  unfold triLoop
  refine forRange_ind (lo := 0) (hi := nr) (Nat.zero_le _)
    (P := fun I st => st = (forRange 0 I s fun i s => triRow idx0 i s body, idx0 + tri I)) (by
      rw [forRange_of_le le_rfl]; simp [tri]) ?_
  intro I st _ hI hst
  subst hst
  rw [forRange_succ (Nat.zero_le I) s (fun i s => triRow idx0 i s body)]
  generalize forRange 0 I s (fun i s => triRow idx0 i s body) = t
  rw [tri_succ]
  unfold triRow
  have key := forRange_ind (lo := 0) (hi := I + 1) (Nat.zero_le _) (s := (t, idx0 + tri I))
    (f := fun j st => (body I j st.2 st.1, st.2 + 1))
    (P := fun J st => st = (forRange 0 J t fun j s => body I j (idx0 + tri I + j) s, idx0 + tri I + J))
    (by rw [forRange_of_le le_rfl]; simp) (by
      intro J st _ _ hst
      subst hst
      rw [forRange_succ (Nat.zero_le J)]
      rfl)
  rw [key, Nat.add_assoc]

/-- assignments to elements with different positions -/
theorem fill_tri {α : Type*} {n : ℕ} (y : ℕ → α) (g : ℕ → ℕ → α) (pos : ℕ → ℕ → ℕ) (idx0 : ℕ)
    (body : ℕ → ℕ → ℕ → (ℕ → α) → ℕ → α)
    (hb : ∀ i j t, j ≤ i → i < n → body i j (idx0 + tri i + j) t = Function.update t (pos i j) (g i j))
    (hpos : ∀ i j i' j', j ≤ i → j' ≤ i' → pos i j = pos i' j' → i = i' ∧ j = j') :
    (∀ i < n, ∀ j ≤ i, (forRange 0 n y fun i y => triRow idx0 i y body) (pos i j) = g i j) ∧
    ∀ c, (∀ i < n, ∀ j ≤ i, c ≠ pos i j) → (forRange 0 n y fun i y => triRow idx0 i y body) c = y c := by
  refine forRange_ind (lo := 0) (hi := n) (s := y) (f := fun i y => triRow idx0 i y body) (Nat.zero_le n)
    (fun I t => (∀ i < I, ∀ j ≤ i, t (pos i j) = g i j) ∧ ∀ c, (∀ i < n, ∀ j ≤ i, c ≠ pos i j) → t c = y c)
    ⟨by intros; omega, fun _ _ => rfl⟩ ?_
  rintro I t _ hI ⟨h1, h2⟩
  have h3 := forRange_ind (lo := 0) (hi := I + 1) (s := t) (f := fun j y => body I j (idx0 + tri I + j) y) (Nat.zero_le _)
    (fun J t => (∀ i < I, ∀ j ≤ i, t (pos i j) = g i j) ∧ (∀ j < J, t (pos I j) = g I j) ∧
      ∀ c, (∀ i < n, ∀ j ≤ i, c ≠ pos i j) → t c = y c) ⟨h1, by intros; omega, h2⟩ (by
    rintro J t _ hJ ⟨h4, h5, h6⟩
    rw [hb I J t (by omega) hI]
    refine ⟨fun i hi j hj => ?_, fun j hj => ?_, fun c hc => ?_⟩
    · rw [Function.update_of_ne (fun h => by have := hpos i j I J hj (by omega) h; omega)]
      exact h4 i hi j hj
    · by_cases e : j = J
      · subst e; rw [Function.update_self]
      · rw [Function.update_of_ne (fun h => e (hpos I j I J (by omega) (by omega) h).2)]
        exact h5 j (by omega)
    · rw [Function.update_of_ne (hc I hI J (by omega))]
      exact h6 c hc)
  refine ⟨fun i hi j hj => ?_, h3.2.2⟩
  rcases Nat.lt_succ_iff_lt_or_eq.1 hi with h | rfl
  · exact h3.1 i h j hj
  · exact h3.2.1 j (by omega)

/-- positions with the order -/
theorem tri_pos_inj {off no k : ℕ} (hk : k < no) {i j i' j' : ℕ} (hj : j ≤ i) (hj' : j' ≤ i')
    (h : (off + tri i + j) * no + k = (off + tri i' + j') * no + k) : i = i' ∧ j = j' := by
  have := (idx_inj hk hk h).1
  exact tri_inj hj hj' (by omega)

/-! ### Packing and unpacking -/

/-- one order of a packed lower triangle -/
theorem tri_pack_order {nr off no k : ℕ} (hk : k < no) (g : ℕ → ℕ → ℝ) (y : ℕ → ℝ) :
    (∀ i < nr, ∀ j ≤ i, (triLoop nr off y fun i j index y => vset y (index * no + k) (g i j)).1
      ((off + tri i + j) * no + k) = g i j) ∧
    ∀ c, (∀ i < nr, ∀ j ≤ i, c ≠ (off + tri i + j) * no + k) →
      (triLoop nr off y fun i j index y => vset y (index * no + k) (g i j)).1 c = y c := by
  rw [triLoop_eq]
  exact fill_tri (n := nr) y g (fun i j => (off + tri i + j) * no + k) off _
    (fun i j t _ _ => vset_eq_update _ _ _) (fun i j i' j' hj hj' h => tri_pos_inj hk hj hj' h)

theorem cholPack_val {nr : ℕ} (no : ℕ) (R : ℕ → Mat nr) (y : ℕ → ℝ) {i j : Fin nr} (hij : j ≤ i) {k : ℕ} (hk : k < no) :
    cholPack no R y ((tri i + j) * no + k) = R k i j := by
  have key := forRange_ind (lo := 0) (hi := no) (Nat.zero_le _) (s := y)
    (f := fun k y => (triLoop nr 0 y fun i j index y => vset y (index * no + k) (ofMat (R k) i j)).1)
    (P := fun K y => ∀ k < K, k < no → y ((0 + tri i + j) * no + k) = ofMat (R k) i j) (by intros; omega) (by
      intro K y _ hK ih k hk hkn
      obtain ⟨h1, h2⟩ := tri_pack_order (nr := nr) (off := 0) hK (fun i j => ofMat (R K) i j) y
      by_cases e : k = K
      · subst e
        exact h1 i i.isLt j (Fin.le_def.1 hij)
      · refine (h2 _ fun i' _ j' _ h => e (idx_inj hkn hK h).2).trans (ih k (by omega) hkn))
  have h := key k hk hk
  rw [Nat.zero_add, ofMat_val] at h
  exact h

/-- `cholPackX` for one order -/
noncomputable def packXOrder (nr no k : ℕ) (r : ℕ → ℕ → ℝ) (px : ℕ → ℝ) : ℕ → ℝ :=
  (forRange 0 nr (px, 1) fun i st =>
    let st := forRange 0 i st fun j st => (vset st.1 (st.2 * no + k) (2 * r i j), st.2 + 1)
    (vset st.1 (st.2 * no + k) (r i i), st.2 + 1)).1

theorem packXOrder_eq (nr no k : ℕ) (r : ℕ → ℕ → ℝ) (px : ℕ → ℝ) :
    packXOrder nr no k r px = (triLoop nr 1 px fun i j index y =>
      vset y (index * no + k) (if i = j then r i i else 2 * r i j)).1 := by
  unfold packXOrder triLoop
  congr 1
  refine forRange_congr _ fun i st _ _ => ?_
  dsimp only
  rw [forRange_succ (Nat.zero_le i)]
  have e : forRange 0 i st (fun j st => (vset st.1 (st.2 * no + k) (2 * r i j), st.2 + 1))
      = forRange 0 i st fun j st => (vset st.1 (st.2 * no + k) (if i = j then r i i else 2 * r i j), st.2 + 1) := by
    refine forRange_congr _ fun j st _ hj => ?_
    rw [if_neg (by omega)]
  rw [e, if_pos rfl]

theorem cholPackX_eq {nr : ℕ} (no : ℕ) (rA : ℕ → Mat nr) (px : ℕ → ℝ) :
    cholPackX no rA px = forRange 0 no px fun k px => (triLoop nr 1 (vset px (0 * no + k) 0) fun i j index y =>
      vset y (index * no + k) (if i = j then ofMat (rA k) i i else 2 * ofMat (rA k) i j)).1 := by
  unfold cholPackX
  refine forRange_congr _ fun k px _ _ => ?_
  exact packXOrder_eq nr no k (ofMat (rA k)) _

theorem cholPackX_val {nr : ℕ} (no : ℕ) (rA : ℕ → Mat nr) (px : ℕ → ℝ) {k : ℕ} (hk : k < no) :
    (∀ i j : Fin nr, j ≤ i → cholPackX no rA px ((1 + (tri i + j)) * no + k)
      = if i = j then rA k i i else 2 * rA k i j) ∧ cholPackX no rA px k = 0 := by
  rw [cholPackX_eq]
  have key := forRange_ind (lo := 0) (hi := no) (Nat.zero_le _) (s := px)
    (f := fun k px => (triLoop nr 1 (vset px (0 * no + k) 0) fun i j index y =>
      vset y (index * no + k) (if i = j then ofMat (rA k) i i else 2 * ofMat (rA k) i j)).1)
    (P := fun K y => ∀ k < K, k < no → (∀ i < nr, ∀ j ≤ i, y ((1 + tri i + j) * no + k)
      = if i = j then ofMat (rA k) i i else 2 * ofMat (rA k) i j) ∧ y (0 * no + k) = 0) (by intros; omega) (by
      intro K y _ hK ih k hk hkn
      obtain ⟨h1, h2⟩ := tri_pack_order (nr := nr) (off := 1) hK
        (fun i j => if i = j then ofMat (rA K) i i else 2 * ofMat (rA K) i j) (vset y (0 * no + K) 0)
      have hv : ∀ c, c ≠ 0 * no + K → vset y (0 * no + K) 0 c = y c := fun c hc => by
        rw [vset_eq_update, Function.update_of_ne hc]
      by_cases e : k = K
      · subst e
        refine ⟨h1, (h2 _ fun i' _ j' _ h => ?_).trans (by rw [vset_eq_update, Function.update_self])⟩
        have := (idx_inj (a := 0) hkn hK h).1
        omega
      · refine ⟨fun i hi j hj => ?_, ?_⟩
        · refine (h2 _ fun i' _ j' _ h => e (idx_inj hkn hK h).2).trans ?_
          rw [hv _ (fun h => e (idx_inj (b := 0) hkn hK h).2)]
          exact (ih k (by omega) hkn).1 i hi j hj
        · refine (h2 _ fun i' _ j' _ h => e (idx_inj (a := 0) hkn hK h).2).trans ?_
          rw [hv _ (fun h => e (idx_inj (a := 0) (b := 0) hkn hK h).2)]
          exact (ih k (by omega) hkn).2)
  obtain ⟨h1, h2⟩ := key k hk hk
  have e0 : 0 * no + k = k := by rw [Nat.zero_mul, Nat.zero_add]
  refine ⟨fun i j hij => ?_, (congrArg _ e0.symm).trans h2⟩
  have := h1 i i.isLt j (Fin.le_def.1 hij)
  rw [ofMat_val, ofMat_val, Nat.add_assoc] at this
  rw [this]
  by_cases e : i = j
  · subst e; rw [if_pos rfl, if_pos rfl]
  · rw [if_neg e, if_neg (fun h => e (Fin.ext h))]

/-- elements of a two dimensional array that is filled row by row -/
theorem tri_fill2 {nr off : ℕ} (M : Tay) (g : ℕ → ℝ) (i j : ℕ) (hj : j ≤ i) (hi : i < nr) :
    (triLoop nr off M fun i j index M => Tay.set M i j (g index)).1 i j = g (off + tri i + j) := by
  rw [triLoop_eq]
  have key := forRange_ind (lo := 0) (hi := nr) (s := M)
    (f := fun i y => triRow off i y fun i j index M => Tay.set M i j (g index)) (Nat.zero_le _)
    (P := fun I t => ∀ i < I, ∀ j ≤ i, t i j = g (off + tri i + j)) (by intros; omega) (by
      intro I t _ _ ih i hi j hj
      unfold triRow
      have h3 := forRange_ind (lo := 0) (hi := I + 1) (s := t)
        (f := fun j M => Tay.set M I j (g (off + tri I + j))) (Nat.zero_le _)
        (P := fun J t => (∀ i < I, ∀ j ≤ i, t i j = g (off + tri i + j)) ∧ ∀ j < J, t I j = g (off + tri I + j))
        ⟨ih, by intros; omega⟩ (by
          rintro J t _ _ ⟨h4, h5⟩
          refine ⟨fun i hi j hj => ?_, fun j hj => ?_⟩
          · rw [Tay.set_apply, if_neg (by omega)]; exact h4 i hi j hj
          · rw [Tay.set_apply]
            split_ifs with e
            · rw [e.2]
            · exact h5 j (by omega))
      rcases Nat.lt_succ_iff_lt_or_eq.1 hi with h | h
      · exact h3.1 i h j hj
      · subst h; exact h3.2 j (by omega))
  exact key i hi j hj

theorem tri_fill2_upper {nr off : ℕ} (M : Tay) (g : ℕ → ℝ) (i j : ℕ) (hj : i < j) :
    (triLoop nr off M fun i j index M => Tay.set M i j (g index)).1 i j = M i j := by
  rw [triLoop_eq]
  refine forRange_ind (lo := 0) (hi := nr) (s := M)
    (f := fun i y => triRow off i y fun i j index M => Tay.set M i j (g index)) (Nat.zero_le _)
    (P := fun _ t => t i j = M i j) rfl ?_
  intro I t _ _ ih
  unfold triRow
  refine forRange_ind (lo := 0) (hi := I + 1) (s := t)
    (f := fun j M => Tay.set M I j (g (off + tri I + j))) (Nat.zero_le _)
    (P := fun _ t => t i j = M i j) ih ?_
  intro J t _ hJ ih
  rw [Tay.set_apply, if_neg (by omega), ih]

/-- elements of a symmetric two dimensional array that is filled row by row -/
theorem tri_fillS {nr off : ℕ} (M : Tay) (g : ℕ → ℝ) (i j : ℕ) (hj : j ≤ i) (hi : i < nr) :
    (triLoop nr off M fun i j index M => Tay.set (Tay.set M i j (g index)) j i (Tay.set M i j (g index) i j)).1 i j
        = g (off + tri i + j) ∧
    (triLoop nr off M fun i j index M => Tay.set (Tay.set M i j (g index)) j i (Tay.set M i j (g index) i j)).1 j i
        = g (off + tri i + j) := by
  rw [triLoop_eq]
  have hset : ∀ (M : Tay) (I J : ℕ) (v : ℝ) (a b : ℕ), Tay.set (Tay.set M I J v) J I (Tay.set M I J v I J) a b
      = if (a = I ∧ b = J) ∨ (a = J ∧ b = I) then v else M a b := by
    intro M I J v a b
    rw [Tay.set_self, Tay.set_apply, Tay.set_apply]
    by_cases e1 : a = I ∧ b = J
    · rw [if_pos (Or.inl e1)]
      split_ifs <;> rfl
    · by_cases e2 : a = J ∧ b = I
      · rw [if_pos e2, if_pos (Or.inr e2)]
      · rw [if_neg e2, if_neg e1, if_neg (by tauto)]
  have key := forRange_ind (lo := 0) (hi := nr) (s := M)
    (f := fun i y => triRow off i y fun i j index M =>
      Tay.set (Tay.set M i j (g index)) j i (Tay.set M i j (g index) i j)) (Nat.zero_le _)
    (P := fun I t => ∀ i < I, ∀ j ≤ i, t i j = g (off + tri i + j) ∧ t j i = g (off + tri i + j)) (by intros; omega) (by
      intro I t _ _ ih i hi j hj
      unfold triRow
      have h3 := forRange_ind (lo := 0) (hi := I + 1) (s := t)
        (f := fun j M => Tay.set (Tay.set M I j (g (off + tri I + j))) j I (Tay.set M I j (g (off + tri I + j)) I j))
        (Nat.zero_le _)
        (P := fun J t => (∀ i < I, ∀ j ≤ i, t i j = g (off + tri i + j) ∧ t j i = g (off + tri i + j)) ∧
          ∀ j < J, t I j = g (off + tri I + j) ∧ t j I = g (off + tri I + j))
        ⟨ih, by intros; omega⟩ (by
          rintro J t _ hJ ⟨h4, h5⟩
          refine ⟨fun i hi j hj => ?_, fun j hj => ?_⟩
          · rw [hset, if_neg (by omega), hset, if_neg (by omega)]; exact h4 i hi j hj
          · rw [hset, hset]
            by_cases e : j = J
            · subst e
              rw [if_pos (Or.inl ⟨rfl, rfl⟩), if_pos (Or.inr ⟨rfl, rfl⟩)]
              exact ⟨rfl, rfl⟩
            · rw [if_neg (by omega), if_neg (by omega)]
              exact h5 j (by omega))
      rcases Nat.lt_succ_iff_lt_or_eq.1 hi with h | h
      · exact h3.1 i h j hj
      · subst h; exact h3.2 j (by omega))
  exact key i hi j hj

/-! ### Calls of one object -/

/-- *Specification*: `taylor_x` of a call: the size and the coefficients of orders up to `q` of the lower triangle of `F`;
element `(i,j)` is number `i * (i + 1) / 2 + j` -/
def HoldsT (nr q : ℕ) (F : ℝ → Mat nr) (tx : ℕ → ℝ) : Prop :=
  tx 0 = nr ∧ ∀ i j : Fin nr, j ≤ i → ∀ k ≤ q,
    tx ((1 + ((i : ℕ) * (i + 1) / 2 + j)) * (q + 1) + k) = tc (fun t => F t i j) k

/-- *Specification*: `taylor_y` of a call: the coefficients of orders up to `q` of the lower triangle of `Z` -/
def GivesT (nr q : ℕ) (Z : ℝ → Mat nr) (ty : ℕ → ℝ) : Prop :=
  ∀ i j : Fin nr, j ≤ i → ∀ k ≤ q, ty (((i : ℕ) * (i + 1) / 2 + j) * (q + 1) + k) = tc (fun t => Z t i j) k

theorem HoldsT.unpack {nr q : ℕ} {F : ℝ → Mat nr} (hs : ∀ t, (F t).transpose = F t) {tx : ℕ → ℝ} (h : HoldsT nr q F tx) :
    ∀ k ≤ q, cholUnpack nr (q + 1) tx k = tcM F k := by
  intro k hk
  have hv : ∀ i j : Fin nr, j ≤ i → cholUnpack nr (q + 1) tx k i j = tcM F k i j ∧
      cholUnpack nr (q + 1) tx k j i = tcM F k i j := by
    intro i j hij
    have := tri_fillS (nr := nr) (off := 1) (fun _ _ => 0) (fun index => tx (index * (q + 1) + k)) i j (Fin.le_def.1 hij)
      i.isLt
    have hx := h.2 i j hij k hk
    refine ⟨this.1.trans ?_, this.2.trans ?_⟩
    · rw [Nat.add_assoc]; exact hx
    · rw [Nat.add_assoc]; exact hx
  ext i j
  rcases le_total j i with hij | hij
  · exact (hv i j hij).1
  · rw [(hv j i hij).2]
    have : (tcM F k).transpose = tcM F k := by
      rw [← tcM_transpose]
      simp only [hs]
    exact (congrFun (congrFun this i) j)

/-- The object has only been used with matrices of size `nr`. -/
inductive CholHist (nr : ℕ) : MatObj → Prop
  | fresh : CholHist nr MatObj.fresh
  | forward {o o' q tx ty ty'} : CholHist nr o → tx 0 = (nr : ℝ) → o.cholForward q tx ty = some (o', ty') → CholHist nr o'
  | reverse {o o' q tx ty px py px'} : CholHist nr o → tx 0 = (nr : ℝ) → o.cholReverse q tx ty px py = some (o', px') →
      CholHist nr o'

theorem MatObj.cholForward_eq {o : MatObj} {nr q : ℕ} {tx : ℕ → ℝ} (ty : ℕ → ℝ) (h0 : tx 0 = (nr : ℝ))
    (hd : (o.grow nr (q + 1)).dim = nr) : o.cholForward q tx ty
      = some ({ o.grow nr (q + 1) with
          res := fun k => ofMat (cholFor (q + 1) (cholUnpack nr (q + 1) tx) (fun k => toMat nr ((o.grow nr (q + 1)).res k)) k) },
        cholPack (q + 1) (cholFor (q + 1) (cholUnpack nr (q + 1) tx) (fun k => toMat nr ((o.grow nr (q + 1)).res k))) ty) := by
  have e : ⌊tx (0 * (q + 1) + 0)⌋₊ = nr := by
    rw [Nat.zero_mul, Nat.zero_add, h0, Nat.floor_natCast]
  unfold MatObj.cholForward
  dsimp only
  rw [e, if_pos hd]

theorem MatObj.cholForward_dim {o o' : MatObj} {nr q : ℕ} {tx ty ty' : ℕ → ℝ} (h0 : tx 0 = (nr : ℝ))
    (h : o.cholForward q tx ty = some (o', ty')) : (o.grow nr (q + 1)).dim = nr := by
  have e : ⌊tx (0 * (q + 1) + 0)⌋₊ = nr := by
    rw [Nat.zero_mul, Nat.zero_add, h0, Nat.floor_natCast]
  unfold MatObj.cholForward at h
  dsimp only at h
  rw [e] at h
  by_contra hd
  rw [if_neg hd] at h
  exact absurd h (by simp)

theorem MatObj.cholReverse_eq {o : MatObj} {nr q : ℕ} {tx : ℕ → ℝ} (ty px py : ℕ → ℝ) (h0 : tx 0 = (nr : ℝ))
    (hs : q + 1 ≤ o.size) (hd : (o.rgrow nr (q + 1)).dim = nr) :
    o.cholReverse q tx ty px py = some (o.rgrow nr (q + 1),
      cholPackX (q + 1) (cholRev (q + 1) (fun k => toMat nr ((o.rgrow nr (q + 1)).res k)) (cholUnpackY nr (q + 1) py)) px) := by
  have e : ⌊tx (0 * (q + 1) + 0)⌋₊ = nr := by
    rw [Nat.zero_mul, Nat.zero_add, h0, Nat.floor_natCast]
  unfold MatObj.cholReverse
  dsimp only
  rw [e, if_pos hs, if_pos hd]

theorem MatObj.cholReverse_dim {o o' : MatObj} {nr q : ℕ} {tx ty px py px' : ℕ → ℝ} (h0 : tx 0 = (nr : ℝ))
    (h : o.cholReverse q tx ty px py = some (o', px')) : q + 1 ≤ o.size ∧ (o.rgrow nr (q + 1)).dim = nr := by
  have e : ⌊tx (0 * (q + 1) + 0)⌋₊ = nr := by
    rw [Nat.zero_mul, Nat.zero_add, h0, Nat.floor_natCast]
  unfold MatObj.cholReverse at h
  dsimp only at h
  rw [e] at h
  by_cases hs : q + 1 ≤ o.size
  · rw [if_pos hs] at h
    by_cases hd : (o.rgrow nr (q + 1)).dim = nr
    · exact ⟨hs, hd⟩
    · rw [if_neg hd] at h; exact absurd h (by simp)
  · rw [if_neg hs] at h; exact absurd h (by simp)

theorem CholHist.sized {nr : ℕ} {o : MatObj} (h : CholHist nr o) : o.size = 0 ∨ o.dim = nr := by
  induction h with
  | fresh => exact Or.inl rfl
  | @forward o o' q tx ty ty' _ h0 he ih =>
    have hd := MatObj.cholForward_dim h0 he
    rw [MatObj.cholForward_eq ty h0 hd] at he
    have e := (Prod.mk.inj (Option.some.inj he)).1
    subst e
    exact Or.inr hd
  | @reverse o o' q tx ty px py px' _ h0 he ih =>
    obtain ⟨hs, hd⟩ := MatObj.cholReverse_dim h0 he
    rw [MatObj.cholReverse_eq ty px py h0 hs hd] at he
    have e := (Prod.mk.inj (Option.some.inj he)).1
    subst e
    exact Or.inr hd

theorem MatObj.grow_dim' {o : MatObj} {nr no : ℕ} (h : o.size = 0 ∨ o.dim = nr) (hno : 0 < no) : (o.grow nr no).dim = nr := by
  unfold MatObj.grow
  split_ifs with hs
  · rfl
  · rcases h with h | h
    · omega
    · exact h

/-- The last call of `forward` was with the coefficients up to order `q` of the curve `F`; after it there may have been calls
of `reverse`. -/
inductive CholLast (nr q : ℕ) (F : ℝ → Mat nr) : MatObj → Prop
  | forward {o o' tx ty ty'} : CholHist nr o → HoldsT nr q F tx → o.cholForward q tx ty = some (o', ty') → CholLast nr q F o'
  | reverse {o o' q' tx ty px py px'} : CholLast nr q F o → tx 0 = (nr : ℝ) → o.cholReverse q' tx ty px py = some (o', px') →
      CholLast nr q F o'

theorem CholLast.res {nr q : ℕ} {F : ℝ → Mat nr} (hF : SymCurve F) {o : MatObj} (h : CholLast nr q F o) :
    q + 1 ≤ o.size ∧ o.dim = nr ∧ ∀ k ≤ q, toMat nr (o.res k) = tcM (fun t => chol (F t)) k := by
  induction h with
  | @forward o o' tx ty ty' h hx he =>
    have hdim := MatObj.cholForward_dim hx.1 he
    rw [MatObj.cholForward_eq ty hx.1 hdim] at he
    have e := (Prod.mk.inj (Option.some.inj he)).1
    subst e
    refine ⟨o.grow_size nr (q + 1), hdim, fun k hk => ?_⟩
    dsimp only
    rw [toMat_ofMat]
    exact cholFor_ok hF q _ _ (hx.unpack hF.symm) k hk
  | @reverse o o' q' tx ty px py px' _ h0 he ih =>
    obtain ⟨hs, hd'⟩ := MatObj.cholReverse_dim h0 he
    rw [MatObj.cholReverse_eq ty px py h0 hs hd'] at he
    have e := (Prod.mk.inj (Option.some.inj he)).1
    subst e
    obtain ⟨f1, f2, f3⟩ := o.rgrow_f nr (q' + 1)
    rw [f1, f2, f3]
    exact ih

/-- **C62** (Cholesky factor, forward mode) An object that has only been used with matrices of one size computes the Taylor
coefficients of all orders of the Cholesky factor of a curve of symmetric matrices.  Missing: objects that have been used with
matrices of another size (`cholForward_size_wrong`). -/
theorem cholForward_partial {nr : ℕ} {o : MatObj} (ho : CholHist nr o) {q : ℕ} {F : ℝ → Mat nr} (hF : SymCurve F)
    {tx : ℕ → ℝ} (htx : HoldsT nr q F tx) (ty : ℕ → ℝ) :
    ∃ o' ty', o.cholForward q tx ty = some (o', ty') ∧ GivesT nr q (fun t => chol (F t)) ty' := by
  have hdim := MatObj.grow_dim' (no := q + 1) ho.sized (by omega)
  refine ⟨_, _, MatObj.cholForward_eq ty htx.1 hdim, fun i j hij k hk => ?_⟩
  have e := cholPack_val (q + 1) (cholFor (q + 1) (cholUnpack nr (q + 1) tx)
    (fun k => toMat nr ((o.grow nr (q + 1)).res k))) ty hij (k := k) (by omega)
  rw [cholFor_ok hF q _ _ (htx.unpack hF.symm) k hk] at e
  exact e

/-- the weighted sum of results -/
theorem wsum_tri (nr q : ℕ) (py : ℕ → ℝ) (G : ℕ → Mat nr) :
    ∑ i : Fin nr, ∑ j ∈ Finset.Iic i, ∑ l ∈ Finset.range (q + 1), py (((i : ℕ) * (i + 1) / 2 + j) * (q + 1) + l) * G l i j
      = ∑ l ∈ Finset.range (q + 1), inner' (cholUnpackY nr (q + 1) py l) (G l) := by
  have h1 : ∀ l (i : Fin nr), ∑ j, cholUnpackY nr (q + 1) py l i j * G l i j
      = ∑ j ∈ Finset.Iic i, py (((i : ℕ) * (i + 1) / 2 + j) * (q + 1) + l) * G l i j := by
    intro l i
    rw [← Finset.sum_subset (Finset.subset_univ (Finset.Iic i))]
    · refine Finset.sum_congr rfl fun j hj => ?_
      have := tri_fill2 (nr := nr) (off := 0) (fun _ _ => 0) (fun index => py (index * (q + 1) + l)) i j
        (Fin.le_def.1 (Finset.mem_Iic.1 hj)) i.isLt
      have e : cholUnpackY nr (q + 1) py l i j = py (((i : ℕ) * (i + 1) / 2 + j) * (q + 1) + l) := by
        refine this.trans ?_
        rw [Nat.zero_add]
        rfl
      rw [e]
    · intro j _ hj
      have := tri_fill2_upper (nr := nr) (off := 0) (fun _ _ => 0) (fun index => py (index * (q + 1) + l)) i j
        (by rw [Finset.mem_Iic, not_le, Fin.lt_def] at hj; exact hj)
      have e : cholUnpackY nr (q + 1) py l i j = 0 := this
      rw [e, zero_mul]
  unfold inner'
  simp only [h1]
  rw [Finset.sum_comm]
  exact Finset.sum_congr rfl fun i _ => Finset.sum_comm

/-- **C62** (Cholesky factor, reverse mode) When the last call of `forward` was at the same curve, with at least as many
orders, `reverse` computes the derivatives of all weighted sums of the Taylor coefficients of the results, with respect to all
the coefficients of the lower triangle; `h * t ^ k` is added to the elements `(a,b)` and `(b,a)` of the symmetric matrix.  The
derivatives with respect to the size are zero.  Missing: objects whose last call of `forward` was at another point
(`cholReverse_wrong`). -/
theorem cholReverse_partial {nr q1 : ℕ} {F : ℝ → Mat nr} (hF : SymCurve F) {o : MatObj}
    (ho : CholLast nr q1 F o) {q : ℕ} (hq : q ≤ q1) {tx : ℕ → ℝ} (htx : tx 0 = (nr : ℝ)) (ty px py : ℕ → ℝ) :
    ∃ o' px', o.cholReverse q tx ty px py = some (o', px') ∧ (∀ k ≤ q, px' k = 0) ∧ ∀ a b : Fin nr, b ≤ a → ∀ k ≤ q,
      HasDerivAt (fun h => ∑ i : Fin nr, ∑ j ∈ Finset.Iic i, ∑ l ∈ Finset.range (q + 1),
          py (((i : ℕ) * (i + 1) / 2 + j) * (q + 1) + l) * tc (fun t => chol (F t + (h * t ^ k) • symE a b) i j) l)
        (px' ((1 + ((a : ℕ) * (a + 1) / 2 + b)) * (q + 1) + k)) 0 := by
  obtain ⟨hs, hdim, hres⟩ := ho.res hF
  obtain ⟨f1, f2, f3⟩ := o.rgrow_f nr (q + 1)
  have hp := fun {k : ℕ} (hk : k ≤ q) => cholPackX_val (q + 1)
    (cholRev (q + 1) (fun k => toMat nr ((o.rgrow nr (q + 1)).res k)) (cholUnpackY nr (q + 1) py)) px (k := k) (by omega)
  refine ⟨_, _, MatObj.cholReverse_eq ty px py htx (by omega) (by rw [f2, hdim]), fun k hk => (hp hk).2, fun a b hab k hk => ?_⟩
  have e := (hp hk).1 a b hab
  unfold tri at e
  rw [e]
  refine (cholRev_deriv hF q (fun k => toMat nr ((o.rgrow nr (q + 1)).res k)) (cholUnpackY nr (q + 1) py)
    (fun l hl => by rw [f3]; exact hres l (by omega)) hk a b).congr_of_eventuallyEq ?_
  refine Filter.Eventually.of_forall fun h => ?_
  exact wsum_tri nr q py (tcM (fun t => chol (perturbG F k (symE a b) h t)))

end CppAD.AtomEx
