import Verif.AtomEx.InvThm

/-! # C62: the object of the atomic matrix inverse, call after call -/

open scoped ContDiff Topology
open PowerSeries Filter

namespace CppAD.AtomEx

/-- *Specification*: `taylor_x` of a call with a matrix of size `nr`: the size and the coefficients of orders up to `q` of the
curve `F`, in row major order -/
def HoldsM (nr q : ℕ) (F : ℝ → Mat nr) (tx : ℕ → ℝ) : Prop :=
  tx 0 = nr ∧ ∀ i j : Fin nr, ∀ k ≤ q, tx ((1 + (i * nr + j)) * (q + 1) + k) = tc (fun t => F t i j) k

/-- *Specification*: `taylor_y` of a call: the coefficients of orders up to `q` of the curve `Z` -/
def GivesM (nr q : ℕ) (Z : ℝ → Mat nr) (ty : ℕ → ℝ) : Prop :=
  ∀ i j : Fin nr, ∀ k ≤ q, ty ((i * nr + j) * (q + 1) + k) = tc (fun t => Z t i j) k

theorem ofMat_val {n : ℕ} (M : Mat n) (i j : Fin n) : ofMat M i j = M i j := by
  unfold ofMat
  rw [dif_pos ⟨i.isLt, j.isLt⟩]

theorem toMat_ofMat {n : ℕ} (M : Mat n) : toMat n (ofMat M) = M := by
  ext i j
  exact ofMat_val M i j

theorem dataAt_val {n : ℕ} (M : Mat n) (i j : Fin n) : dataAt M (i * n + j) = M i j := by
  unfold dataAt
  rw [(div_mod_idx j.isLt).1, (div_mod_idx j.isLt).2, ofMat_val]

theorem invPack_val {nr : ℕ} (off no : ℕ) (R : ℕ → Mat nr) (y : ℕ → ℝ) (i j : Fin nr) {k : ℕ} (hk : k < no) :
    invPack off no R y ((off + (i * nr + j)) * no + k) = R k i j := by
  have h := (fill_mat (n := no) (m := nr * nr) y (fun k i => dataAt (R k) i) (fun k i => (off + i) * no + k)
    (fun k i y => vset y ((off + i) * no + k) (dataAt (R k) i))
    (fun k i t _ _ => by rw [vset_eq_update])
    (fun a b a' b' ha _ ha' _ h => by
      have := idx_inj (a := off + b) (b := off + b') ha ha' h
      omega)).1 k hk (i * nr + j) (idx_lt i.isLt j.isLt)
  exact h.trans (dataAt_val _ _ _)

/-- elements before the offset are not changed -/
theorem invPack_off {nr : ℕ} (off no : ℕ) (R : ℕ → Mat nr) (y : ℕ → ℝ) {c : ℕ} (hc : c < off * no) :
    invPack off no R y c = y c := by
  refine (fill_mat (n := no) (m := nr * nr) y (fun k i => dataAt (R k) i) (fun k i => (off + i) * no + k)
    (fun k i y => vset y ((off + i) * no + k) (dataAt (R k) i))
    (fun k i t _ _ => by rw [vset_eq_update])
    (fun a b a' b' ha _ ha' _ h => by
      have := idx_inj (a := off + b) (b := off + b') ha ha' h
      omega)).2 c (fun k hk i hi => ?_)
  have : off * no ≤ (off + i) * no := Nat.mul_le_mul_right _ (Nat.le_add_right _ _)
  omega

theorem HoldsM.unpack {nr q : ℕ} {F : ℝ → Mat nr} {tx : ℕ → ℝ} (h : HoldsM nr q F tx) :
    ∀ k ≤ q, invUnpack nr (q + 1) tx k = tcM F k := by
  intro k hk
  ext i j
  exact h.2 i j k hk

/-! ### Calls of one object -/

/-- The object has only been used with matrices of size `nr`. -/
inductive InvHist (nr : ℕ) : MatObj → Prop
  | fresh : InvHist nr MatObj.fresh
  | forward {o o' q tx ty ty'} : InvHist nr o → tx 0 = (nr : ℝ) → o.forward q tx ty = some (o', ty') → InvHist nr o'
  | reverse {o o' q tx ty px py px'} : InvHist nr o → tx 0 = (nr : ℝ) → o.reverse q tx ty px py = some (o', px') → InvHist nr o'

/-- the sizes of the matrices of the object -/
def MatObj.Sized (nr : ℕ) (o : MatObj) : Prop := (o.size = 0 ∨ o.dim = nr) ∧ (o.rsize = 0 ∨ o.rdim = nr)

theorem MatObj.grow_dim {o : MatObj} {nr no : ℕ} (h : o.Sized nr) (hno : 0 < no) : (o.grow nr no).dim = nr := by
  unfold MatObj.grow
  split_ifs with hs
  · rfl
  · rcases h.1 with h | h
    · omega
    · exact h

theorem MatObj.rgrow_dim {o : MatObj} {nr no : ℕ} (h : o.Sized nr) (hno : 0 < no) : (o.rgrow nr no).rdim = nr := by
  unfold MatObj.rgrow
  split_ifs with hs
  · rfl
  · rcases h.2 with h | h
    · omega
    · exact h

theorem MatObj.grow_size (o : MatObj) (nr no : ℕ) : no ≤ (o.grow nr no).size := by
  unfold MatObj.grow
  split_ifs with h
  · exact le_rfl
  · omega

theorem MatObj.grow_r (o : MatObj) (nr no : ℕ) : (o.grow nr no).rsize = o.rsize ∧ (o.grow nr no).rdim = o.rdim := by
  unfold MatObj.grow
  split_ifs <;> exact ⟨rfl, rfl⟩

theorem MatObj.rgrow_f (o : MatObj) (nr no : ℕ) :
    (o.rgrow nr no).size = o.size ∧ (o.rgrow nr no).dim = o.dim ∧ (o.rgrow nr no).res = o.res := by
  unfold MatObj.rgrow
  split_ifs <;> exact ⟨rfl, rfl, rfl⟩

/-- what `forward` does when the sizes agree -/
theorem MatObj.forward_eq {o : MatObj} {nr q : ℕ} {tx : ℕ → ℝ} (ty : ℕ → ℝ) (h0 : tx 0 = (nr : ℝ))
    (hd : (o.grow nr (q + 1)).dim = nr) : o.forward q tx ty
      = some ({ o.grow nr (q + 1) with
          res := fun k => ofMat (invFor (q + 1) (invUnpack nr (q + 1) tx) (fun k => toMat nr ((o.grow nr (q + 1)).res k)) k) },
        invPack 0 (q + 1) (invFor (q + 1) (invUnpack nr (q + 1) tx) (fun k => toMat nr ((o.grow nr (q + 1)).res k))) ty) := by
  have e : ⌊tx (0 * (q + 1) + 0)⌋₊ = nr := by
    rw [Nat.zero_mul, Nat.zero_add, h0, Nat.floor_natCast]
  unfold MatObj.forward
  dsimp only
  rw [e, if_pos hd]

theorem MatObj.forward_dim {o o' : MatObj} {nr q : ℕ} {tx ty ty' : ℕ → ℝ} (h0 : tx 0 = (nr : ℝ))
    (h : o.forward q tx ty = some (o', ty')) : (o.grow nr (q + 1)).dim = nr := by
  have e : ⌊tx (0 * (q + 1) + 0)⌋₊ = nr := by
    rw [Nat.zero_mul, Nat.zero_add, h0, Nat.floor_natCast]
  unfold MatObj.forward at h
  dsimp only at h
  rw [e] at h
  by_contra hd
  rw [if_neg hd] at h
  exact absurd h (by simp)

/-- what `reverse` does when the sizes agree -/
theorem MatObj.reverse_eq {o : MatObj} {nr q : ℕ} {tx : ℕ → ℝ} (ty px py : ℕ → ℝ) (h0 : tx 0 = (nr : ℝ))
    (hs : q + 1 ≤ o.size) (hd : (o.rgrow nr (q + 1)).dim = nr) (hr : (o.rgrow nr (q + 1)).rdim = nr) :
    o.reverse q tx ty px py = some (o.rgrow nr (q + 1),
      invPack 1 (q + 1) (invRev (q + 1) (invUnpack nr (q + 1) tx) (fun k => toMat nr ((o.rgrow nr (q + 1)).res k))
        (invUnpackY nr (q + 1) py)) px) := by
  have e : ⌊tx (0 * (q + 1) + 0)⌋₊ = nr := by
    rw [Nat.zero_mul, Nat.zero_add, h0, Nat.floor_natCast]
  unfold MatObj.reverse
  dsimp only
  rw [e, if_pos hs, if_pos ⟨hd, hr⟩]

theorem MatObj.reverse_dim {o o' : MatObj} {nr q : ℕ} {tx ty px py px' : ℕ → ℝ} (h0 : tx 0 = (nr : ℝ))
    (h : o.reverse q tx ty px py = some (o', px')) :
    q + 1 ≤ o.size ∧ (o.rgrow nr (q + 1)).dim = nr ∧ (o.rgrow nr (q + 1)).rdim = nr := by
  have e : ⌊tx (0 * (q + 1) + 0)⌋₊ = nr := by
    rw [Nat.zero_mul, Nat.zero_add, h0, Nat.floor_natCast]
  unfold MatObj.reverse at h
  dsimp only at h
  rw [e] at h
  by_cases hs : q + 1 ≤ o.size
  · rw [if_pos hs] at h
    by_cases hd : (o.rgrow nr (q + 1)).dim = nr ∧ (o.rgrow nr (q + 1)).rdim = nr
    · exact ⟨hs, hd⟩
    · rw [if_neg hd] at h; exact absurd h (by simp)
  · rw [if_neg hs] at h; exact absurd h (by simp)

theorem InvHist.sized {nr : ℕ} {o : MatObj} (h : InvHist nr o) : o.Sized nr := by
  induction h with
  | fresh => exact ⟨Or.inl rfl, Or.inl rfl⟩
  | @forward o o' q tx ty ty' _ h0 he ih =>
    have hd := MatObj.forward_dim h0 he
    rw [MatObj.forward_eq ty h0 hd] at he
    have e := (Prod.mk.inj (Option.some.inj he)).1
    subst e
    refine ⟨Or.inr hd, ?_⟩
    change (o.grow nr (q + 1)).rsize = 0 ∨ (o.grow nr (q + 1)).rdim = nr
    rw [(o.grow_r nr (q + 1)).1, (o.grow_r nr (q + 1)).2]
    exact ih.2
  | @reverse o o' q tx ty px py px' _ h0 he ih =>
    obtain ⟨hs, hd, hr⟩ := MatObj.reverse_dim h0 he
    rw [MatObj.reverse_eq ty px py h0 hs hd hr] at he
    have e := (Prod.mk.inj (Option.some.inj he)).1
    subst e
    exact ⟨Or.inr hd, Or.inr hr⟩

/-- The last call of `forward` was with the coefficients up to order `q` of the curve `F`; after it there may have been calls
of `reverse`. -/
inductive InvLast (nr q : ℕ) (F : ℝ → Mat nr) : MatObj → Prop
  | forward {o o' tx ty ty'} : InvHist nr o → HoldsM nr q F tx → o.forward q tx ty = some (o', ty') → InvLast nr q F o'
  | reverse {o o' q' tx ty px py px'} : InvLast nr q F o → tx 0 = (nr : ℝ) → o.reverse q' tx ty px py = some (o', px') →
      InvLast nr q F o'

theorem InvLast.hist {nr q : ℕ} {F : ℝ → Mat nr} {o : MatObj} (h : InvLast nr q F o) : InvHist nr o := by
  induction h with
  | forward h hx he => exact .forward h hx.1 he
  | reverse _ h0 he ih => exact .reverse ih h0 he

theorem InvLast.res {nr q : ℕ} {F : ℝ → Mat nr} (hF : SmM F) (hd : (F 0).det ≠ 0) {o : MatObj} (h : InvLast nr q F o) :
    q + 1 ≤ o.size ∧ o.dim = nr ∧ ∀ k ≤ q, toMat nr (o.res k) = tcM (fun t => (F t)⁻¹) k := by
  induction h with
  | @forward o o' tx ty ty' h hx he =>
    have hdim := MatObj.forward_dim hx.1 he
    rw [MatObj.forward_eq ty hx.1 hdim] at he
    have e := (Prod.mk.inj (Option.some.inj he)).1
    subst e
    refine ⟨o.grow_size nr (q + 1), hdim, fun k hk => ?_⟩
    dsimp only
    rw [toMat_ofMat]
    exact invFor_ok hF hd q _ _ hx.unpack k hk
  | @reverse o o' q' tx ty px py px' _ h0 he ih =>
    obtain ⟨hs, hd', hr⟩ := MatObj.reverse_dim h0 he
    rw [MatObj.reverse_eq ty px py h0 hs hd' hr] at he
    have e := (Prod.mk.inj (Option.some.inj he)).1
    subst e
    obtain ⟨f1, f2, f3⟩ := o.rgrow_f nr (q' + 1)
    rw [f1, f2, f3]
    exact ih

/-- **C62** (matrix inverse, forward mode) An object that has only been used with matrices of one size computes the Taylor
coefficients of all orders of the inverse matrix.  Missing: objects that have been used with matrices of another size
(`invForward_size_wrong`). -/
theorem invForward_partial {nr : ℕ} {o : MatObj} (ho : InvHist nr o) {q : ℕ} {F : ℝ → Mat nr} (hF : SmM F)
    (hd : (F 0).det ≠ 0) {tx : ℕ → ℝ} (htx : HoldsM nr q F tx) (ty : ℕ → ℝ) :
    ∃ o' ty', o.forward q tx ty = some (o', ty') ∧ GivesM nr q (fun t => (F t)⁻¹) ty' := by
  have hdim := MatObj.grow_dim (no := q + 1) ho.sized (by omega)
  refine ⟨_, _, MatObj.forward_eq ty htx.1 hdim, fun i j k hk => ?_⟩
  have e := invPack_val 0 (q + 1) (invFor (q + 1) (invUnpack nr (q + 1) tx)
    (fun k => toMat nr ((o.grow nr (q + 1)).res k))) ty i j (k := k) (by omega)
  rw [Nat.zero_add] at e
  rw [e, invFor_ok hF hd q _ _ htx.unpack k hk]
  rfl

/-- the weighted sum of results, as in `reverse_ok` of `Atom` -/
theorem wsum_inner (nr q : ℕ) (py : ℕ → ℝ) (G : ℕ → Mat nr) :
    ∑ i : Fin nr, ∑ j : Fin nr, ∑ l ∈ Finset.range (q + 1), py ((i * nr + j) * (q + 1) + l) * G l i j
      = ∑ l ∈ Finset.range (q + 1), inner' (invUnpackY nr (q + 1) py l) (G l) := by
  unfold inner' invUnpackY
  rw [Finset.sum_comm]
  have : ∀ i : Fin nr, ∑ j : Fin nr, ∑ l ∈ Finset.range (q + 1), py ((i * nr + j) * (q + 1) + l) * G l i j
      = ∑ l ∈ Finset.range (q + 1), ∑ j : Fin nr, py ((i * nr + j) * (q + 1) + l) * G l i j := fun i => Finset.sum_comm
  rw [Finset.sum_comm]
  simp only [this]
  rw [Finset.sum_comm]
  rfl

/-- **C62** (matrix inverse, reverse mode) When the last call of `forward` was at the same curve, with at least as many orders,
`reverse` computes the derivatives of all weighted sums of the Taylor coefficients of the results, with respect to all the
coefficients of the matrix; `h * t ^ k` is added to element `(a,b)`.  There may have been other calls of `reverse` in
between.  Missing: objects whose last call of `forward` was at another point (`invReverse_wrong`). -/
theorem invReverse_partial {nr q1 : ℕ} {F : ℝ → Mat nr} (hF : SmM F) (hd : (F 0).det ≠ 0) {o : MatObj}
    (ho : InvLast nr q1 F o) {q : ℕ} (hq : q ≤ q1) {tx : ℕ → ℝ} (htx : HoldsM nr q F tx) (ty px py : ℕ → ℝ) :
    ∃ o' px', o.reverse q tx ty px py = some (o', px') ∧ ∀ a b : Fin nr, ∀ k ≤ q,
      HasDerivAt (fun h => ∑ i : Fin nr, ∑ j : Fin nr, ∑ l ∈ Finset.range (q + 1),
          py ((i * nr + j) * (q + 1) + l) * tc (fun t => (F t + Matrix.single a b (h * t ^ k))⁻¹ i j) l)
        (px' ((1 + (a * nr + b)) * (q + 1) + k)) 0 := by
  obtain ⟨hs, hdim, hres⟩ := ho.res hF hd
  have hsz := ho.hist.sized
  obtain ⟨f1, f2, f3⟩ := o.rgrow_f nr (q + 1)
  refine ⟨_, _, MatObj.reverse_eq ty px py htx.1 (by omega) (by rw [f2, hdim]) (MatObj.rgrow_dim hsz (by omega)),
    fun a b k hk => ?_⟩
  rw [invPack_val 1 (q + 1) _ px a b (by omega)]
  refine (invRev_deriv hF hd q (invUnpack nr (q + 1) tx) (fun k => toMat nr ((o.rgrow nr (q + 1)).res k))
    (invUnpackY nr (q + 1) py) htx.unpack (fun l hl => by rw [f3]; exact hres l (by omega)) hk a b).congr_of_eventuallyEq ?_
  refine Filter.Eventually.of_forall fun h => ?_
  exact wsum_inner nr q py (tcM (fun t => (perturb F k a b h t)⁻¹))

end CppAD.AtomEx
