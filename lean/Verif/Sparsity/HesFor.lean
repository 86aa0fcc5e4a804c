import Verif.Sparsity.Hes

/-!
# `for_hes_sparsity`
-/

open scoped ContDiff Topology

namespace CppAD.Sparsity

/-- elements of the sets are indices of independent variables -/
def Bdd (np1 : ℕ) (s : Sp) : Prop := ∀ v, ∀ u ∈ s v, u < np1

theorem foldUnionBy_spec (np1 b : ℕ) (hb : np1 ≤ b) (l : List ℕ) : ∀ (s : Sp), (∀ u ∈ l, u < np1) →
    ∀ v, l.foldl (fun s u => s.binaryUnion u u b s) s v = if v ∈ l then s v ∪ s b else s v := by
  induction l with
  | nil => intro s _ v; simp
  | cons u l ih =>
    intro s hl v
    have hu := hl u (by simp)
    rw [List.foldl_cons, ih _ (fun w hw => hl w (by simp [hw]))]
    simp only [bu_apply, if_neg (show b ≠ u by omega)]
    by_cases h1 : v = u
    · subst h1
      simp [Finset.union_assoc]
    · simp [h1]

theorem unionLoop_spec (np1 a b : ℕ) (hb : np1 ≤ b) (s : Sp) (h : Bdd np1 s) (v : ℕ) :
    unionLoop a b s v = if v ∈ s a then s v ∪ s b else s v := by
  unfold unionLoop
  rw [foldUnionBy_spec np1 b hb _ s (fun u hu => h a u ((Finset.mem_sort _).1 hu))]
  simp only [Finset.mem_sort]

/-- what does not change when second order terms are added -/
def Keep (np1 : ℕ) (s s' : Sp) : Prop := (∀ v, np1 ≤ v → s' v = s v) ∧ (∀ v, s v ⊆ s' v) ∧ Bdd np1 s'

theorem Keep.refl {np1 : ℕ} {s : Sp} (h : Bdd np1 s) : Keep np1 s s := ⟨fun _ _ => rfl, fun _ _ h => h, h⟩

theorem unionLoop_keep (np1 a b : ℕ) (hb : np1 ≤ b) {s0 s : Sp} (h : Keep np1 s0 s) :
    Keep np1 s0 (unionLoop a b s) := by
  obtain ⟨h1, h2, h3⟩ := h
  refine ⟨fun v hv => ?_, fun v => ?_, fun v => ?_⟩
  · rw [unionLoop_spec np1 a b hb s h3, if_neg (fun h => by have := h3 a v h; omega)]; exact h1 v hv
  · rw [unionLoop_spec np1 a b hb s h3]
    split_ifs
    · exact subset_trans (h2 v) Finset.subset_union_left
    · exact h2 v
  · rw [unionLoop_spec np1 a b hb s h3]
    split_ifs
    · intro u hu
      rcases Finset.mem_union.1 hu with hu | hu
      · exact h3 _ u hu
      · exact h3 _ u hu
    · exact h3 v

theorem unionLoop_adds (np1 a b : ℕ) (ha : np1 ≤ a) (hb : np1 ≤ b) {s0 s : Sp} (h : Keep np1 s0 s) :
    ∀ u ∈ s0 a, s0 b ⊆ unionLoop a b s u := by
  obtain ⟨h1, h2, h3⟩ := h
  intro u hu
  rw [unionLoop_spec np1 a b hb s h3, if_pos (by rw [h1 a ha]; exact hu), h1 b hb]
  exact Finset.subset_union_right

/-- `unionLoop` only enlarges -/
theorem unionLoop_mono (np1 a b : ℕ) (hb : np1 ≤ b) {s0 s : Sp} (h : Keep np1 s0 s) (v : ℕ) : s v ⊆ unionLoop a b s v := by
  rw [unionLoop_spec np1 a b hb s h.2.2]
  split_ifs
  · exact Finset.subset_union_left
  · exact subset_rfl

/-- effect of one operator of a forward Hessian sweep -/
def FH (np1 : ℕ) (op : Op) (iz : ℕ) (s s' : Sp) : Prop :=
  (∀ v, v ≠ iz → s' (np1 + v) = s (np1 + v)) ∧ (∀ a ∈ jacArgs op, s (np1 + a) ⊆ s' (np1 + iz)) ∧
  (∀ u < np1, s u ⊆ s' u) ∧ (∀ q ∈ hesPairs op, ∀ u ∈ s (np1 + q.1), s (np1 + q.2) ⊆ s' u) ∧ Bdd np1 s'

/-- the operators that the sweep handles -/
def forHesSupported : Op → Bool
  | .cexp _ _ _ _ _ | .zmulpv _ _ => false
  | _ => true

theorem oneVarForHes_spec (np1 iz iv : ℕ) (hv : iv ≠ iz) (lin : Bool) (s : Sp) (hs : Bdd np1 s) :
    let s' := oneVarForHes np1 iz iv lin s
    (∀ v, v ≠ iz → s' (np1 + v) = s (np1 + v)) ∧ (s (np1 + iv) ⊆ s' (np1 + iz)) ∧ (∀ u < np1, s u ⊆ s' u) ∧
    (lin = false → ∀ u ∈ s (np1 + iv), s (np1 + iv) ⊆ s' u) ∧ Bdd np1 s' := by
  intro s'
  set s1 := s.assignment (np1 + iz) (np1 + iv) with hs1
  have e1 : ∀ v, s1 v = if v = np1 + iz then s (np1 + iv) else s v := by
    intro v; rw [hs1]; unfold Sp.assignment; rw [Function.update_apply]
  have b1 : Bdd np1 s1 := by
    intro v u hu; rw [e1] at hu
    split_ifs at hu
    · exact hs _ u hu
    · exact hs _ u hu
  have hs' : s' = if !lin then unionLoop (iv + np1) (iv + np1) s1 else s1 := rfl
  have key : Keep np1 s1 s' ∧ (lin = false → ∀ u ∈ s1 (iv + np1), s1 (iv + np1) ⊆ s' u) := by
    cases lin
    · simp only [Bool.not_false, if_true] at hs'
      rw [hs']
      exact ⟨unionLoop_keep np1 _ _ (by omega) (Keep.refl b1), fun _ => unionLoop_adds np1 _ _ (by omega) (by omega) (Keep.refl b1)⟩
    · simp only [Bool.not_true, Bool.false_eq_true, if_false] at hs'
      rw [hs']
      exact ⟨Keep.refl b1, fun h => (by cases h)⟩
  clear_value s'
  obtain ⟨⟨k1, k2, k3⟩, k4⟩ := key
  have e2 : s1 (iv + np1) = s (np1 + iv) := by rw [e1, if_neg (by omega), Nat.add_comm]
  refine ⟨fun v h => ?_, ?_, fun u hu => ?_, fun h => ?_, k3⟩
  · rw [k1 _ (by omega), e1, if_neg (by omega)]
  · rw [k1 _ (by omega), e1, if_pos rfl]
  · have := k2 u; rwa [e1, if_neg (by omega)] at this
  · rw [← e2]; exact k4 h

theorem twoVarForHes_spec (np1 iz ix iy : ℕ) (hx : ix ≠ iz) (hy : iy ≠ iz) (lx ly lxy : Bool) (s : Sp) (hs : Bdd np1 s) :
    let s' := twoVarForHes np1 iz ix iy lx ly lxy s
    (∀ v, v ≠ iz → s' (np1 + v) = s (np1 + v)) ∧ (s (np1 + ix) ⊆ s' (np1 + iz)) ∧ (s (np1 + iy) ⊆ s' (np1 + iz)) ∧
    (∀ u < np1, s u ⊆ s' u) ∧
    (lx = false → ∀ u ∈ s (np1 + ix), s (np1 + ix) ⊆ s' u) ∧ (ly = false → ∀ u ∈ s (np1 + iy), s (np1 + iy) ⊆ s' u) ∧
    (lxy = false → (∀ u ∈ s (np1 + ix), s (np1 + iy) ⊆ s' u) ∧ ∀ u ∈ s (np1 + iy), s (np1 + ix) ⊆ s' u) ∧ Bdd np1 s' := by
  intro s'
  set s1 := s.binaryUnion (np1 + iz) (np1 + ix) (np1 + iy) s with hs1
  have e1 : ∀ v, s1 v = if v = np1 + iz then s (np1 + ix) ∪ s (np1 + iy) else s v := fun v => bu_apply ..
  have b1 : Bdd np1 s1 := by
    intro v u hu; rw [e1] at hu
    split_ifs at hu
    · rcases Finset.mem_union.1 hu with hu | hu
      · exact hs _ u hu
      · exact hs _ u hu
    · exact hs _ u hu
  have ex : s1 (ix + np1) = s (np1 + ix) := by rw [e1, if_neg (by omega), Nat.add_comm]
  have ey : s1 (iy + np1) = s (np1 + iy) := by rw [e1, if_neg (by omega), Nat.add_comm]
  have ez : s1 (iz + np1) = s (np1 + ix) ∪ s (np1 + iy) := by rw [e1, if_pos (by omega)]
  obtain ⟨s2, hs2⟩ : ∃ t, t = if !lx then unionLoop (ix + np1) (if !lxy then iz + np1 else ix + np1) s1 else s1 := ⟨_, rfl⟩
  obtain ⟨s3, hs3⟩ : ∃ t, t = if !ly then unionLoop (iy + np1) (if !lxy then iz + np1 else iy + np1) s2 else s2 := ⟨_, rfl⟩
  obtain ⟨s4, hs4⟩ : ∃ t, t = if !lxy && lx then unionLoop (ix + np1) (iy + np1) s3 else s3 := ⟨_, rfl⟩
  have hs5 : s' = if !lxy && ly then unionLoop (iy + np1) (ix + np1) s4 else s4 := by
    rw [hs4, hs3, hs2]; rfl
  clear_value s'
  have K2 : Keep np1 s1 s2 := by
    rw [hs2]; split_ifs with h
    · exact unionLoop_keep np1 _ _ (by omega) (Keep.refl b1)
    · exact unionLoop_keep np1 _ _ (by omega) (Keep.refl b1)
    · exact Keep.refl b1
  have K3 : Keep np1 s1 s3 := by
    rw [hs3]; split_ifs with h
    · exact unionLoop_keep np1 _ _ (by omega) K2
    · exact unionLoop_keep np1 _ _ (by omega) K2
    · exact K2
  have K4 : Keep np1 s1 s4 := by
    rw [hs4]; split_ifs with h
    · exact unionLoop_keep np1 _ _ (by omega) K3
    · exact K3
  have K5 : Keep np1 s1 s' := by
    rw [hs5]; split_ifs with h
    · exact unionLoop_keep np1 _ _ (by omega) K4
    · exact K4
  have m3 : ∀ v, s2 v ⊆ s3 v := by
    intro v; rw [hs3]; split_ifs with h
    · exact unionLoop_mono np1 _ _ (by omega) K2 v
    · exact unionLoop_mono np1 _ _ (by omega) K2 v
    · exact subset_rfl
  have m4 : ∀ v, s3 v ⊆ s4 v := by
    intro v; rw [hs4]; split_ifs with h
    · exact unionLoop_mono np1 _ _ (by omega) K3 v
    · exact subset_rfl
  have m5 : ∀ v, s4 v ⊆ s' v := by
    intro v; rw [hs5]; split_ifs with h
    · exact unionLoop_mono np1 _ _ (by omega) K4 v
    · exact subset_rfl
  have x2 : lx = false → ∀ u ∈ s (np1 + ix), s (np1 + ix) ⊆ s2 u ∧ (lxy = false → s (np1 + iy) ⊆ s2 u) := by
    intro h u hu
    rw [h] at hs2
    cases lxy
    · have := unionLoop_adds np1 (ix + np1) (iz + np1) (by omega) (by omega) (Keep.refl b1) u (by rw [ex]; exact hu)
      simp only [Bool.not_false, if_true] at hs2
      rw [← hs2, ez] at this
      exact ⟨subset_trans Finset.subset_union_left this, fun _ => subset_trans Finset.subset_union_right this⟩
    · have := unionLoop_adds np1 (ix + np1) (ix + np1) (by omega) (by omega) (Keep.refl b1) u (by rw [ex]; exact hu)
      simp only [Bool.not_false, if_true, Bool.not_true, Bool.false_eq_true, if_false] at hs2
      rw [← hs2, ex] at this
      exact ⟨this, fun h => (by cases h)⟩
  have y3 : ly = false → ∀ u ∈ s (np1 + iy), s (np1 + iy) ⊆ s3 u ∧ (lxy = false → s (np1 + ix) ⊆ s3 u) := by
    intro h u hu
    rw [h] at hs3
    cases lxy
    · have := unionLoop_adds np1 (iy + np1) (iz + np1) (by omega) (by omega) K2 u (by rw [ey]; exact hu)
      simp only [Bool.not_false, if_true] at hs3
      rw [← hs3, ez] at this
      exact ⟨subset_trans Finset.subset_union_right this, fun _ => subset_trans Finset.subset_union_left this⟩
    · have := unionLoop_adds np1 (iy + np1) (iy + np1) (by omega) (by omega) K2 u (by rw [ey]; exact hu)
      simp only [Bool.not_false, if_true, Bool.not_true, Bool.false_eq_true, if_false] at hs3
      rw [← hs3, ey] at this
      exact ⟨this, fun h => (by cases h)⟩
  have up2 : ∀ v, s2 v ⊆ s' v := fun v => subset_trans (m3 v) (subset_trans (m4 v) (m5 v))
  have up3 : ∀ v, s3 v ⊆ s' v := fun v => subset_trans (m4 v) (m5 v)
  obtain ⟨k1, k2, k3⟩ := K5
  refine ⟨fun v h => ?_, ?_, ?_, fun u hu => ?_, fun h u hu => ?_, fun h u hu => ?_, fun h => ⟨fun u hu => ?_, fun u hu => ?_⟩, k3⟩
  · rw [k1 _ (by omega), e1, if_neg (by omega)]
  · rw [k1 _ (by omega), e1, if_pos rfl]; exact Finset.subset_union_left
  · rw [k1 _ (by omega), e1, if_pos rfl]; exact Finset.subset_union_right
  · have := k2 u; rwa [e1, if_neg (by omega)] at this
  · exact subset_trans (x2 h u hu).1 (up2 u)
  · exact subset_trans (y3 h u hu).1 (up3 u)
  · cases hlx : lx
    · exact subset_trans ((x2 hlx u hu).2 h) (up2 u)
    · rw [h, hlx] at hs4
      have := unionLoop_adds np1 (ix + np1) (iy + np1) (by omega) (by omega) K3 u (by rw [ex]; exact hu)
      simp only [Bool.not_false, Bool.and_true, if_true] at hs4
      rw [← hs4, ey] at this
      exact subset_trans this (m5 u)
  · cases hly : ly
    · exact subset_trans ((y3 hly u hu).2 h) (up3 u)
    · rw [h, hly] at hs5
      have := unionLoop_adds np1 (iy + np1) (ix + np1) (by omega) (by omega) K4 u (by rw [ey]; exact hu)
      simp only [Bool.not_false, Bool.and_true, if_true] at hs5
      rw [← hs5, ex] at this
      exact this

theorem csumForHes_spec (np1 iz : ℕ) (vars : List ℕ) (hv : iz ∉ vars) (s : Sp) (hs : Bdd np1 s) :
    (∀ v, v ≠ np1 + iz → csumForHes np1 iz vars s v = s v) ∧ (∀ a ∈ vars, s (np1 + a) ⊆ csumForHes np1 iz vars s (np1 + iz)) ∧
    Bdd np1 (csumForHes np1 iz vars s) := by
  unfold csumForHes
  have gen : ∀ (vars : List ℕ) (t : Sp), iz ∉ vars → (∀ v, v ≠ np1 + iz → t v = s v) → Bdd np1 t →
      (∀ v, v ≠ np1 + iz → vars.foldl (fun s a => s.binaryUnion (np1 + iz) (np1 + iz) (np1 + a) s) t v = s v) ∧
      t (np1 + iz) ⊆ vars.foldl (fun s a => s.binaryUnion (np1 + iz) (np1 + iz) (np1 + a) s) t (np1 + iz) ∧
      (∀ a ∈ vars, s (np1 + a) ⊆ vars.foldl (fun s a => s.binaryUnion (np1 + iz) (np1 + iz) (np1 + a) s) t (np1 + iz)) ∧
      Bdd np1 (vars.foldl (fun s a => s.binaryUnion (np1 + iz) (np1 + iz) (np1 + a) s) t) := by
    intro vars
    induction vars with
    | nil => intro t _ h1 h2; exact ⟨h1, subset_rfl, by simp, h2⟩
    | cons b vars ih =>
      intro t hn h1 h2
      simp only [List.mem_cons, not_or] at hn
      obtain ⟨i1, i2, i3, i4⟩ := ih (t.binaryUnion (np1 + iz) (np1 + iz) (np1 + b) t) hn.2
        (fun v hv => by rw [bu_apply, if_neg hv]; exact h1 v hv)
        (by
          intro v u hu; rw [bu_apply] at hu
          split_ifs at hu
          · rcases Finset.mem_union.1 hu with hu | hu
            · exact h2 _ u hu
            · exact h2 _ u hu
          · exact h2 _ u hu)
      rw [bu_apply, if_pos rfl] at i2
      refine ⟨i1, subset_trans Finset.subset_union_left i2, fun a ha => ?_, i4⟩
      rcases List.mem_cons.1 ha with rfl | ha
      · have hne : np1 + a ≠ np1 + iz := by
          have := hn.1; omega
        rw [← h1 _ hne]
        exact subset_trans Finset.subset_union_right i2
      · exact i3 a ha
  have ec : ∀ v, s.clear (np1 + iz) v = if v = np1 + iz then ∅ else s v := fun v => by
    unfold Sp.clear; rw [Function.update_apply]
  obtain ⟨h1, _, h3, h4⟩ := gen vars (s.clear (np1 + iz)) hv (fun v hv => by rw [ec, if_neg hv])
    (by intro v u hu; rw [ec] at hu; split_ifs at hu
        · simp at hu
        · exact hs _ u hu)
  exact ⟨h1, h3, h4⟩

theorem forHesOp_elem (np1 : ℕ) (R : Sp) (op : Op) (hna : ∀ c, op ≠ .atom c) (iz : ℕ) (s : Sp) (hz : ∀ a ∈ op.args, a ≠ iz) (hs : Bdd np1 s)
    (hR : 0 ∈ R iz) (hsup : forHesSupported op = true) : FH np1 op iz s (forHesOp np1 R op iz s) := by
  have hmid : ∀ P : Sp → Prop, P (forHesElem np1 R op iz s) → P (forHesOp np1 R op iz s) := by
    intro P hP
    rw [forHesOp_eq hna]; exact hP
  apply hmid
  unfold forHesElem
  rw [if_pos hR]
  have h1 : ∀ (op : Op) ix, jacArgs op = [ix] → ix ≠ iz → (hesPairs op = [] ∨ hesPairs op = [(ix, ix)]) →
      ∀ lin, (hesPairs op = [(ix, ix)] → lin = false) → FH np1 op iz s (oneVarForHes np1 iz ix lin s) := by
    intro op ix hj hne hh lin hl
    obtain ⟨a1, a2, a3, a4, a5⟩ := oneVarForHes_spec np1 iz ix hne lin s hs
    refine ⟨a1, fun a h => ?_, a3, fun q hq => ?_, a5⟩
    · rw [hj, List.mem_singleton] at h; subst h; exact a2
    · rcases hh with hh | hh
      · rw [hh] at hq; simp at hq
      · rw [hh, List.mem_singleton] at hq; subst hq
        exact a4 (hl hh)
  have h2 : ∀ (op : Op) ix iy, jacArgs op = [ix, iy] → ix ≠ iz → iy ≠ iz →
      ∀ lx ly lxy, (∀ q ∈ hesPairs op, (q = (ix, ix) ∧ lx = false) ∨ (q = (iy, iy) ∧ ly = false) ∨
        ((q = (ix, iy) ∨ q = (iy, ix)) ∧ lxy = false)) → FH np1 op iz s (twoVarForHes np1 iz ix iy lx ly lxy s) := by
    intro op ix iy hj hx hy lx ly lxy hl
    obtain ⟨a1, a2, a3, a4, a5, a6, a7, a8⟩ := twoVarForHes_spec np1 iz ix iy hx hy lx ly lxy s hs
    refine ⟨a1, fun a h => ?_, a4, fun q hq => ?_, a8⟩
    · rw [hj] at h
      simp only [List.mem_cons, List.not_mem_nil, or_false] at h
      rcases h with rfl | rfl
      · exact a2
      · exact a3
    · rcases hl q hq with ⟨rfl, h⟩ | ⟨rfl, h⟩ | ⟨rfl | rfl, h⟩
      · exact a5 h
      · exact a6 h
      · exact (a7 h).1
      · exact (a7 h).2
  have h0 : ∀ (op : Op), jacArgs op = [] → hesPairs op = [] → FH np1 op iz s s := by
    intro op hj hh
    refine ⟨fun _ _ => rfl, ?_, fun _ _ _ h => h, ?_, hs⟩
    · rw [hj]; simp
    · rw [hh]; simp
  cases op with
  | cexp c l r t f => cases hsup
  | zmulpv c iy => cases hsup
  | csum c addv subv addp subp =>
    obtain ⟨a1, a2, a3⟩ := csumForHes_spec np1 iz (addv ++ subv) (fun h => hz iz h rfl) s hs
    refine ⟨fun v h => a1 _ (by omega), a2, fun u hu => ?_, by simp [hesPairs], a3⟩
    dsimp only
    rw [a1 u (by omega)]
  | dis fn ix => exact h0 _ rfl rfl
  | sign ix => exact h0 _ rfl rfl
  | par c => exact h0 _ rfl rfl
  | atom c => exact absurd rfl (hna c)
  | addvv ix iy => exact h2 _ ix iy rfl (hz ix (by simp [Op.args])) (hz iy (by simp [Op.args])) _ _ _ (by simp [hesPairs])
  | subvv ix iy => exact h2 _ ix iy rfl (hz ix (by simp [Op.args])) (hz iy (by simp [Op.args])) _ _ _ (by simp [hesPairs])
  | mulvv ix iy => exact h2 _ ix iy rfl (hz ix (by simp [Op.args])) (hz iy (by simp [Op.args])) _ _ _ (by simp [hesPairs])
  | zmulvv ix iy => exact h2 _ ix iy rfl (hz ix (by simp [Op.args])) (hz iy (by simp [Op.args])) _ _ _ (by simp [hesPairs])
  | divvv ix iy => exact h2 _ ix iy rfl (hz ix (by simp [Op.args])) (hz iy (by simp [Op.args])) _ _ _ (by simp [hesPairs])
  | powvv ix iy => exact h2 _ ix iy rfl (hz ix (by simp [Op.args])) (hz iy (by simp [Op.args])) _ _ _ (by simp [hesPairs])
  | _ => exact h1 _ _ rfl (hz _ (by simp [Op.args])) (by simp [hesPairs]) _ (by simp [hesPairs])

/-- the loops of `atomForHes` -/
theorem hesFold_spec (np1 : ℕ) (x : ℕ → ℕ) (l : List (ℕ × ℕ)) (s0 s : Sp) (hk : Keep np1 s0 s) :
    let F := l.foldl (fun s e =>
      let s := unionLoop (np1 + x e.1) (np1 + x e.2) s
      if e.2 ≠ e.1 then unionLoop (np1 + x e.2) (np1 + x e.1) s else s) s
    Keep np1 s0 F ∧ (∀ v, s v ⊆ F v) ∧ ∀ e ∈ l, (∀ u ∈ s0 (np1 + x e.1), s0 (np1 + x e.2) ⊆ F u) ∧
      ∀ u ∈ s0 (np1 + x e.2), s0 (np1 + x e.1) ⊆ F u := by
  intro F
  have hF : F = l.foldl (fun s e =>
      let s := unionLoop (np1 + x e.1) (np1 + x e.2) s
      if e.2 ≠ e.1 then unionLoop (np1 + x e.2) (np1 + x e.1) s else s) s := rfl
  clear_value F
  subst hF
  induction l generalizing s with
  | nil => exact ⟨hk, fun _ _ h => h, by simp⟩
  | cons b l ih =>
    have k1 := unionLoop_keep np1 (np1 + x b.1) (np1 + x b.2) (by omega) hk
    have k2 := unionLoop_keep np1 (np1 + x b.2) (np1 + x b.1) (by omega) k1
    have m1 := unionLoop_mono np1 (np1 + x b.1) (np1 + x b.2) (by omega) hk
    have m2 := unionLoop_mono np1 (np1 + x b.2) (np1 + x b.1) (by omega) k1
    have a1 := unionLoop_adds np1 (np1 + x b.1) (np1 + x b.2) (by omega) (by omega) hk
    have a2 := unionLoop_adds np1 (np1 + x b.2) (np1 + x b.1) (by omega) (by omega) k1
    obtain ⟨t, ht⟩ : ∃ t, t = (if b.2 ≠ b.1 then unionLoop (np1 + x b.2) (np1 + x b.1) (unionLoop (np1 + x b.1) (np1 + x b.2) s)
      else unionLoop (np1 + x b.1) (np1 + x b.2) s) := ⟨_, rfl⟩
    have hstep : Keep np1 s0 t ∧ (∀ v, s v ⊆ t v) ∧ (∀ u ∈ s0 (np1 + x b.1), s0 (np1 + x b.2) ⊆ t u) ∧
        ∀ u ∈ s0 (np1 + x b.2), s0 (np1 + x b.1) ⊆ t u := by
      rw [ht]
      by_cases h : b.2 = b.1
      · rw [if_neg (by simpa using h)]
        refine ⟨k1, m1, a1, ?_⟩
        rw [h] at a1 ⊢
        exact a1
      · rw [if_pos h]
        exact ⟨k2, fun v => subset_trans (m1 v) (m2 v), fun u hu => subset_trans (a1 u hu) (m2 u), a2⟩
    obtain ⟨i1, i2, i3⟩ := ih t hstep.1
    rw [List.foldl_cons]
    dsimp only
    rw [← ht]
    refine ⟨i1, fun v => subset_trans (hstep.2.1 v) (i2 v), fun e he => ?_⟩
    rcases List.mem_cons.1 he with rfl | he
    · exact ⟨fun u hu => subset_trans (hstep.2.2.1 u hu) (i2 u), fun u hu => subset_trans (hstep.2.2.2 u hu) (i2 u)⟩
    · exact i3 e he

theorem atomForHes_spec (np1 : ℕ) (R : Sp) (c : AtomCall) (nv : ℕ) (s : Sp) (hz : ∀ a ∈ c.args, a < nv) (h0 : ∀ a ∈ c.args, a ≠ 0)
    (hs : Bdd np1 s) :
    let s' := atomForHes np1 R c (nv + c.nres - 1) s
    Bdd np1 s' ∧ (∀ v < nv, v ≠ 0 → s' (np1 + v) = s (np1 + v)) ∧ (∀ u < np1, s u ⊆ s' u) ∧
    ∀ r < c.nres, 0 ∈ R (nv + r) →
      (∀ a ∈ c.jacSet r, s (np1 + a) ⊆ s' (np1 + (nv + r))) ∧
      ∀ q ∈ c.hesSet r, ∀ u ∈ s (np1 + q.1), s (np1 + q.2) ⊆ s' u := by
  intro s'
  have hs' : s' = atomForHes np1 R c (nv + c.nres - 1) s := rfl
  clear_value s'
  unfold atomForHes at hs'
  rw [nv_sub c] at hs'
  set sx : ℕ → Bool := fun j => decide (s (np1 + xIdx c j) ≠ ∅) with hsx
  set sy : ℕ → Bool := fun i => decide (R (yIdx c nv i) ≠ ∅) with hsy
  set jac := c.A.jac c.ident false sx sy with hjac
  set hes := c.A.hes c.ident sx sy with hhes
  dsimp only at hs'
  set s1 := (processPost ((List.range c.A.m).map fun i => np1 + yIdx c nv i) s
    (jac.foldl (fun p e => postSet s (np1 + yIdx c nv e.1) (np1 + xIdx c e.2) p) fun _ => ∅)).1 with hs1
  have key : ∀ v e, e ∈ s1 v ↔ e ∈ s v ∨ (v ∈ ((List.range c.A.m).map fun i => np1 + yIdx c nv i) ∧
      ∃ q ∈ jac, np1 + yIdx c nv q.1 = v ∧ e ∈ s (np1 + xIdx c q.2)) := by
    intro v e
    rw [hs1, processPost_mem, postFold_mem s (fun q => np1 + yIdx c nv q.1) (fun q => np1 + xIdx c q.2)]
    simp
  have b1 : Bdd np1 s1 := by
    intro v e he
    rcases (key v e).1 he with h | ⟨_, q, _, _, h⟩
    · exact hs _ _ h
    · exact hs _ _ h
  obtain ⟨⟨k1, k2, k3⟩, m1, a1⟩ := hesFold_spec np1 (xIdx c) hes s1 s1 (Keep.refl b1)
  rw [← hs'] at k1 k2 k3 m1 a1
  have frame : ∀ v < nv, v ≠ 0 → s1 (np1 + v) = s (np1 + v) := by
    intro v hv hv0
    ext e
    rw [key]
    constructor
    · rintro (h | ⟨_, q, hq, h1, _⟩)
      · exact h
      · obtain ⟨⟨hm, _⟩, _⟩ := c.A.jac_sel _ _ _ _ q hq
        have : yIdx c nv q.1 ≠ 0 := by omega
        have := yIdx_range hm this
        omega
    · exact Or.inl
  have frame' : ∀ a ∈ c.args, s1 (np1 + a) = s (np1 + a) := fun a ha => frame a (hz a ha) (h0 a ha)
  refine ⟨k3, fun v hv hv0 => (k1 _ (by omega)).trans (frame v hv hv0), fun u _ e he => m1 u ((key u e).2 (Or.inl he)),
    fun r hr hR => ⟨fun a ha e he => ?_, fun q hq u hu => ?_⟩⟩
  · have hy := yIdx_comp c hr nv
    obtain ⟨j, hj, hm⟩ := atom_jac (dep := false) hr sx sy (a := a) ha
      (by rw [hsy]; dsimp only; rw [hy]; exact decide_eq_true fun h => by rw [h] at hR; simp at hR)
      (fun j _ hj => by rw [hsx]; dsimp only; rw [xIdx_var hj]; exact decide_eq_true fun h => by rw [h] at he; simp at he)
    rw [k1 _ (by omega), key]
    right
    exact ⟨List.mem_map.2 ⟨c.comp r, List.mem_range.2 (c.comp_spec hr).1, by rw [hy]⟩, _, hm, by dsimp only; rw [hy],
      by dsimp only; rw [xIdx_var hj]; exact he⟩
  · have hy := yIdx_comp c hr nv
    by_cases hE : s (np1 + q.2) = ∅
    · rw [hE]; exact Finset.empty_subset _
    · obtain ⟨j, k, hj, hk, X, hX, hd, hne⟩ := hq
      have hyt : sy (c.comp r) = true := by
        rw [hsy]; dsimp only; rw [hy]; exact decide_eq_true fun h => by rw [h] at hR; simp at hR
      have hjt : sx j = true := by
        rw [hsx]; dsimp only; rw [xIdx_var hj]; exact decide_eq_true fun h => by rw [h] at hu; simp at hu
      have hkt : sx k = true := by rw [hsx]; dsimp only; rw [xIdx_var hk]; exact decide_eq_true hE
      have e1 := frame' q.1 (c.mem_args.2 ⟨j, j.2, hj⟩)
      have e2 := frame' q.2 (c.mem_args.2 ⟨k, k.2, hk⟩)
      by_cases m1 : ((j : ℕ), (k : ℕ)) ∈ hes
      · have := (a1 _ m1).1
        dsimp only at this
        rw [xIdx_var hj, xIdx_var hk, e1, e2] at this
        exact this u hu
      · by_cases m2 : ((k : ℕ), (j : ℕ)) ∈ hes
        · have := (a1 _ m2).2
          dsimp only at this
          rw [xIdx_var hj, xIdx_var hk, e1, e2] at this
          exact this u hu
        · exact absurd (c.A.hes_zero c.ident sx sy _ (c.comp_spec hr).1 hyt j k hjt hkt (c.ident_var hj) (c.ident_var hk)
            m1 m2 X hd fun l hl => hX.ident l hl) hne

/-- effect of one operator of a forward Hessian sweep, all results -/
theorem forHesOp_spec (np1 : ℕ) (R : Sp) (op : Op) (nv : ℕ) (s : Sp) (hz : ∀ a ∈ op.args, a < nv) (h0 : ∀ a ∈ op.args, a ≠ 0)
    (hs : Bdd np1 s) (hsup : forHesSupported op = true) :
    let s' := forHesOp np1 R op (nv + op.nres - 1) s
    Bdd np1 s' ∧ (∀ v < nv, v ≠ 0 → s' (np1 + v) = s (np1 + v)) ∧ (∀ u < np1, s u ⊆ s' u) ∧
    ∀ r, op.naux ≤ r → r < op.nres → 0 ∈ R (nv + r) →
      (∀ a ∈ jacSet op r, s (np1 + a) ⊆ s' (np1 + (nv + r))) ∧
      ∀ q ∈ hesSet op r, ∀ u ∈ s (np1 + q.1), s (np1 + q.2) ⊆ s' u := by
  have hpos := op.nres_pos
  rcases atom_or op with ⟨c, rfl⟩ | hna
  · obtain ⟨a1, a2, a3, a4⟩ := atomForHes_spec np1 R c nv s hz h0 hs
    exact ⟨a1, a2, a3, fun r _ hr => a4 r hr⟩
  · by_cases hR : 0 ∈ R (nv + op.nres - 1)
    · obtain ⟨a1, a2, a3, a4, a5⟩ := forHesOp_elem np1 R op hna (nv + op.nres - 1) s (fun a h => by have := hz _ h; omega) hs hR hsup
      refine ⟨a5, fun v hv _ => a1 v (by omega), a3, fun r r1 r2 _ => ?_⟩
      rw [last_elem hna r1 r2, jacSet_elem hna, hesSet_elem hna, show nv + (op.nres - 1) = nv + op.nres - 1 by omega]
      exact ⟨a2, a4⟩
    · have e : forHesOp np1 R op (nv + op.nres - 1) s = s := by
        rw [forHesOp_eq hna]; unfold forHesElem; rw [if_neg hR]
      rw [e]
      refine ⟨hs, fun _ _ _ => rfl, fun _ _ => subset_rfl, fun r r1 r2 h => ?_⟩
      rw [last_elem hna r1 r2, show nv + (op.nres - 1) = nv + op.nres - 1 by omega] at h
      exact absurd h hR

theorem forHesOps_closed (np1 : ℕ) (R : Sp) (ops : List Op) : ∀ (nv : ℕ) (U : Set ℕ) (s : Sp), 0 < nv → (∀ a ∈ U, a ≠ 0) →
    (∀ a ∈ U, a < nv) → WFOps ops nv U →
    (∀ op ∈ ops, forHesSupported op = true) → Bdd np1 s →
    (∀ v < nv, v ≠ 0 → forHesOps np1 R ops nv s (np1 + v) = s (np1 + v)) ∧ (∀ u < np1, s u ⊆ forHesOps np1 R ops nv s u) ∧
    AllOps (fun op r iz => 0 ∈ R iz →
      (∀ a ∈ jacSet op r, forHesOps np1 R ops nv s (np1 + a) ⊆ forHesOps np1 R ops nv s (np1 + iz)) ∧
      ∀ q ∈ hesSet op r, ∀ u < np1, u ∈ forHesOps np1 R ops nv s (np1 + q.1) →
        forHesOps np1 R ops nv s (np1 + q.2) ⊆ forHesOps np1 R ops nv s u) ops nv := by
  induction ops with
  | nil => intro nv U s _ _ _ _ _ _; exact ⟨fun _ _ _ => rfl, fun _ _ => subset_rfl, trivial⟩
  | cons op ops ih =>
    intro nv U s hnv h0 hU hw hsup hs
    have hlt : ∀ a ∈ op.args, a < nv := fun a h => hU a (hw.1 a h)
    have hne : ∀ a ∈ op.args, a ≠ 0 := fun a h => h0 a (hw.1 a h)
    obtain ⟨b1, b2, b3, b4⟩ := forHesOp_spec np1 R op nv s hlt hne hs (hsup op (by simp))
    set s1 := forHesOp np1 R op (nv + op.nres - 1) s with hs1
    obtain ⟨i1, i2, i3⟩ := ih (nv + op.nres) _ s1 (by omega) (addRes_ne hnv h0) (U_insert op hU) hw.2 (fun o ho => hsup o (by simp [ho])) b1
    have eS : forHesOps np1 R (op :: ops) nv s = forHesOps np1 R ops (nv + op.nres) s1 := rfl
    rw [eS]
    refine ⟨fun v hv hv0 => ?_, fun u hu => subset_trans (b3 u hu) (i2 u hu), fun r r1 r2 hR => ?_, i3⟩
    · rw [i1 v (by omega) hv0, b2 v hv hv0]
    · obtain ⟨c2, c4⟩ := b4 r r1 r2 hR
      have stable : ∀ a ∈ op.args, forHesOps np1 R ops (nv + op.nres) s1 (np1 + a) = s (np1 + a) := by
        intro a ha
        have := hlt a ha
        rw [i1 a (by omega) (hne a ha), b2 a this (hne a ha)]
      refine ⟨fun a ha => ?_, fun q hq u hu hmem => ?_⟩
      · rw [stable a (jacSet_sub op r a ha), i1 _ (by omega) (by omega)]
        exact c2 a ha
      · have hq' := hesSet_sub op r2 q hq
        rw [stable _ (jacSet_sub op r _ hq'.1)] at hmem
        rw [stable _ (jacSet_sub op r _ hq'.2)]
        exact subset_trans (c4 q hq u hmem) (i2 u hu)

theorem forHesInv_spec (n : ℕ) (sel : ℕ → Bool) (R : Sp) :
    Bdd (n + 1) (forHesInv n sel R fun _ => ∅) ∧
    ∀ j < n, 0 ∈ R (j + 1) → sel j = true → j + 1 ∈ forHesInv n sel R (fun _ => ∅) (n + 1 + (j + 1)) := by
  have := forRange_ind (Nat.zero_le n) (s := (fun _ => ∅ : Sp))
    (f := fun j s => if 0 ∈ R (j + 1) ∧ sel j = true then Sp.addElement s (n + 1 + (j + 1)) (j + 1) else s)
    (P := fun q (s : Sp) => Bdd (n + 1) s ∧ ∀ j < q, 0 ∈ R (j + 1) → sel j = true → j + 1 ∈ s (n + 1 + (j + 1)))
    ⟨fun v u hu => by simp at hu, fun j hj => by omega⟩
    (by
      rintro q s _ hq ⟨h1, h2⟩
      have ea : ∀ v, Sp.addElement s (n + 1 + (q + 1)) (q + 1) v = if v = n + 1 + (q + 1) then insert (q + 1) (s (n + 1 + (q + 1))) else s v := by
        intro v; unfold Sp.addElement; rw [Function.update_apply]
      split_ifs with hc
      · refine ⟨fun v u hu => ?_, fun j hj h3 h4 => ?_⟩
        · rw [ea] at hu
          split_ifs at hu
          · rcases Finset.mem_insert.1 hu with rfl | hu
            · omega
            · exact h1 _ u hu
          · exact h1 _ u hu
        · rw [ea]
          split_ifs with he
          · have : j = q := by omega
            subst this; simp
          · exact h2 j (by omega) h3 h4
      · refine ⟨h1, fun j hj h3 h4 => ?_⟩
        by_cases he : j = q
        · subst he; exact absurd ⟨h3, h4⟩ hc
        · exact h2 j (by omega) h3 h4)
  exact this

/-- the sets computed by the forward Hessian sweep, for a reverse Jacobian pattern that includes every
dependent variable with a weight that is not zero -/
theorem forHes_covers_partial {T : Tape} (hT : T.WF) (hsup : ∀ op ∈ T.ops, forHesSupported op = true)
    (selDomain : ℕ → Bool) (r0 : Sp) (w : List ℝ) (hinit : ∀ k < T.dep.length, at' w k ≠ 0 → 0 ∈ r0 (T.dep.getD k 0))
    (x : ℕ → ℝ) (hD : T.Dom x) (i j : ℕ) (hi : i < T.n) (hj : j < T.n) (hsi : selDomain i = true) (hsj : selDomain j = true)
    (v : ℝ) (hv : IsPartial2 (wsum T w) x i j v) (hne : v ≠ 0) :
    j + 1 ∈ forHes T.n T.ops selDomain (revJac false T.ops (T.n + 1) r0) (fun _ => ∅) (i + 1) := by
  by_contra hno
  refine hne ?_
  clear hne
  set R := revJac false T.ops (T.n + 1) r0 with hRdef
  set S := forHes T.n T.ops selDomain R (fun _ => ∅) with hS
  obtain ⟨c1, c2⟩ := revJac_closed false T.ops (T.n + 1) T.ind r0 (by omega) ind_ne ind_lt hT.ops
  rw [← hRdef] at c1 c2
  obtain ⟨v1, v2⟩ := forHesInv_spec T.n selDomain R
  obtain ⟨f1, f2, f3⟩ := forHesOps_closed (T.n + 1) R T.ops (T.n + 1) T.ind (forHesInv T.n selDomain R fun _ => ∅) (by omega) ind_ne ind_lt hT.ops hsup v1
  change ∀ v < T.n + 1, v ≠ 0 → S _ = _ at f1
  change AllOps (fun op r iz => 0 ∈ R iz → (∀ a ∈ jacSet op r, S (T.n + 1 + a) ⊆ S (T.n + 1 + iz)) ∧
      ∀ q ∈ hesSet op r, ∀ u < T.n + 1, u ∈ S (T.n + 1 + q.1) → S (T.n + 1 + q.2) ⊆ S u) T.ops (T.n + 1) at f3
  have k1 : ∀ k < T.n, selDomain k = true → ∀ u ∈ usable T.ops (T.n + 1) T.ind, 0 ∈ R u → k + 1 ∉ S (T.n + 1 + u) →
      HasDerivAt (fun t => evalOps T.ops (T.n + 1) (indEnv fun l => x l + t * un k l) u) 0 0 := by
    intro k hk hsel u hu h1 h2
    refine closed_deriv {u | 0 ∈ R u ∧ k + 1 ∉ S (T.n + 1 + u)} T.ops (T.n + 1) T.ind (fun t => indEnv fun l => x l + t * un k l)
      (indEnv (un k)) ind_lt hT.ops (fun v _ => indEnv_line x (un k) v) ?_ ?_ ?_ u hu ⟨h1, h2⟩
    · show domOps _ _ (indEnv fun l => x l + 0 * un k l)
      rw [indEnv_zero x (un k)]; exact hD
    · refine AllOps.mono _ _ (fun op r iz _ _ hr h hz a ha => ?_) (allOps_and _ _ c2 f3)
      exact ⟨h.1 a (jac_sub_depS false op hr a ha) hz.1, fun hm => hz.2 ((h.2 hz.1).1 a ha hm)⟩
    · intro v hv hA
      have hv1 := hv.1
      unfold indEnv un
      rw [if_neg (by omega)]
      by_cases hvj : v - 1 = k
      · exfalso
        have : v = k + 1 := by omega
        subst this
        refine hA.2 ?_
        rw [f1 _ (by omega) (by omega)]
        exact v2 k hk hA.1 hsel
      · simp [hvj]
  refine hes_closed hT hD (un i) (un j) {u | 0 ∈ R u} ?_ w
    (fun k hk h0 => c1 _ (hinit k hk h0)) v (isMixed_of_partial2 hv)
  refine AllOps.mono _ _ (fun op r iz _ _ hr h hz => ?_) (allOps_and _ _ (allOps_and _ _ c2 f3) (allOps_args _ _ _ hT.ops))
  obtain ⟨⟨h2, h3⟩, ha⟩ := h
  refine ⟨fun a ha => h2 a (jac_sub_depS false op hr a ha) hz, fun q hq => ?_⟩
  have hq' := hesSet_sub op hr q hq
  have u1 := ha _ (jacSet_sub op r _ hq'.1)
  have u2 := ha _ (jacSet_sub op r _ hq'.2)
  have l1 := usable_lt T.ops (T.n + 1) T.ind ind_lt _ u1
  have l2 := usable_lt T.ops (T.n + 1) T.ind ind_lt _ u2
  have r1 := h2 _ (jac_sub_depS false op hr _ hq'.1) hz
  have r2 := h2 _ (jac_sub_depS false op hr _ hq'.2) hz
  by_cases hi1 : i + 1 ∈ S (T.n + 1 + q.1)
  · have hj1 : j + 1 ∉ S (T.n + 1 + q.2) := fun h => hno ((h3 hz).2 q hq (i + 1) (by omega) hi1 h)
    have := k1 j hj hsj q.2 u2 r2 hj1
    rw [(two_deriv hT hD (un i) (un j) q.2 l2).2.unique this, mul_zero]
  · have := k1 i hi hsi q.1 u1 r1 hi1
    rw [(two_deriv hT hD (un i) (un j) q.1 l1).1.unique this, zero_mul]

/-- **C17**, forward.  The pattern computed by `for_hes_sparsity` contains every non-zero entry of `G''(x)`
(with row and column selected) where `G` is any weighted sum of the selected components.
Partial: operation sequences with a conditional expression or an absolute zero multiplication with a parameter
as left operand are excluded (see `for_hes_sparsity_wrong_cexp`, `for_hes_sparsity_wrong_zmulpv`). -/
theorem for_hes_sparsity_ok_partial {T : Tape} (hT : T.WF) (hsup : ∀ op ∈ T.ops, forHesSupported op = true)
    (selDomain selRange : ℕ → Bool) (w : List ℝ) (hw : ∀ k < T.dep.length, at' w k ≠ 0 → selRange k = true)
    (x : ℕ → ℝ) (hD : T.Dom x) (i j : ℕ) (hi : i < T.n) (hj : j < T.n) (hsi : selDomain i = true) (hsj : selDomain j = true)
    (v : ℝ) (hv : IsPartial2 (wsum T w) x i j v) (hne : v ≠ 0) :
    Has false (forHesSparsity T selDomain selRange) i j := by
  have hinit : ∀ k < T.dep.length, selRange k = true →
      0 ∈ (forRange 0 T.dep.length (fun _ => ∅) fun i (s : Sp) => if selRange i then Sp.addElement s (T.dep.getD i 0) 0 else s : Sp)
        (T.dep.getD k 0) := by
    have := forRange_ind (Nat.zero_le T.dep.length) (s := (fun _ => ∅ : Sp))
      (f := fun i s => if selRange i then Sp.addElement s (T.dep.getD i 0) 0 else s)
      (P := fun q (s : Sp) => ∀ k < q, selRange k = true → 0 ∈ s (T.dep.getD k 0)) (by intro k hk; omega)
      (by
        intro q s _ hq ih k hk hs
        by_cases hc : selRange q = true
        · rw [if_pos hc]
          unfold Sp.addElement
          rw [Function.update_apply]
          split_ifs with he
          · simp
          · refine ih k ?_ hs
            rcases Nat.lt_succ_iff_lt_or_eq.1 hk with h | rfl
            · exact h
            · exact absurd rfl he
        · rw [if_neg hc]
          refine ih k ?_ hs
          rcases Nat.lt_succ_iff_lt_or_eq.1 hk with h | rfl
          · exact h
          · exact absurd hs hc)
    exact this
  have h := forHes_covers_partial hT hsup selDomain _ w (fun k hk h0 => hinit k hk (hw k hk h0)) x hD i j hi hj hsi hsj v hv hne
  obtain ⟨k, hk, h2⟩ := (has_getInternalPattern false T.n (T.n + 1) (fun j => j + 1) _ i (j + 1)).2 ⟨hi, by omega, h⟩
  refine ⟨k, hk, ?_⟩
  simp only [Bool.false_eq_true, if_false] at h2 ⊢
  refine ⟨h2.1, ?_⟩
  have := h2.2
  unfold forHesSparsity
  dsimp only
  rw [this]
  rfl

end CppAD.Sparsity
