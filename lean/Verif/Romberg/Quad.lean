import Verif.Romberg.Mul

/-! # Nested Romberg rules are finite weighted sums -/

open scoped Nat
open Set

namespace CppAD.Romberg

/-- `L f` is a weighted sum of values of `f` at points of `S`, the sum of the absolute weights is at most `K` -/
def IsQuad {X : Type} (L : (X → ℝ) → ℝ) (S : Set X) (K : ℝ) : Prop :=
  ∃ W : List (ℝ × X), (∀ f, L f = (W.map fun w => w.1 * f w.2).sum) ∧ (∀ w ∈ W, w.2 ∈ S) ∧ (W.map fun w => |w.1|).sum ≤ K

variable {X : Type} {S : Set X}

theorem IsQuad.point {x : X} (h : x ∈ S) : IsQuad (fun f => f x) S 1 := ⟨[(1, x)], by simp, by simpa using h, by simp⟩

theorem IsQuad.zero : IsQuad (fun _ => 0) S 0 := ⟨[], by simp, by simp, by simp⟩

theorem IsQuad.add {L L' : (X → ℝ) → ℝ} {K K' : ℝ} (h : IsQuad L S K) (h' : IsQuad L' S K') : IsQuad (fun f => L f + L' f) S (K + K') := by
  obtain ⟨W, h1, h2, h3⟩ := h
  obtain ⟨W', h1', h2', h3'⟩ := h'
  refine ⟨W ++ W', fun f => by dsimp only; rw [h1, h1']; simp, fun w hw => ?_, by simp; linarith⟩
  rcases List.mem_append.1 hw with h | h
  · exact h2 w h
  · exact h2' w h

theorem IsQuad.mul {L : (X → ℝ) → ℝ} {K : ℝ} (h : IsQuad L S K) (c : ℝ) : IsQuad (fun f => c * L f) S (|c| * K) := by
  obtain ⟨W, h1, h2, h3⟩ := h
  refine ⟨W.map fun w => (c * w.1, w.2), fun f => ?_, fun w hw => ?_, ?_⟩
  · dsimp only
    rw [h1, List.map_map, ← List.sum_map_mul_left]
    simp only [Function.comp_def, mul_assoc]
  · obtain ⟨v, hv, rfl⟩ := List.mem_map.1 hw
    exact h2 v hv
  · rw [List.map_map]
    simp only [Function.comp_def, abs_mul]
    rw [List.sum_map_mul_left]
    exact mul_le_mul_of_nonneg_left h3 (abs_nonneg _)

theorem IsQuad.mono {L : (X → ℝ) → ℝ} {K K' : ℝ} (h : IsQuad L S K) (hK : K ≤ K') : IsQuad L S K' := by
  obtain ⟨W, h1, h2, h3⟩ := h
  exact ⟨W, h1, h2, h3.trans hK⟩

theorem IsQuad.sum {L : ℕ → (X → ℝ) → ℝ} {K : ℝ} (N : ℕ) (h : ∀ k < N, IsQuad (L k) S K) :
    IsQuad (fun f => ∑ k ∈ Finset.range N, L k f) S (N * K) := by
  induction N with
  | zero => simpa using IsQuad.zero
  | succ N ih =>
    have := (ih fun k hk => h k (by omega)).add (h N (by omega))
    simp only [Finset.sum_range_succ]
    exact this.mono (by push_cast; linarith)

theorem IsQuad.nonneg {L : (X → ℝ) → ℝ} {K : ℝ} (h : IsQuad L S K) : 0 ≤ K := by
  obtain ⟨W, -, -, h3⟩ := h
  refine le_trans (List.sum_nonneg ?_) h3
  intro x hx
  obtain ⟨w, -, rfl⟩ := List.mem_map.1 hx
  exact abs_nonneg _

theorem quad_trap {a b : ℝ} (h : a ≤ b) {N : ℕ} (hN : 0 < N) : IsQuad (fun f => trap f a b N) (Icc a b) (b - a) := by
  have hN' : (N : ℝ) ≠ 0 := by positivity
  have hd : 0 ≤ (b - a) / N := div_nonneg (by linarith) (by positivity)
  have : IsQuad (fun f => ∑ k ∈ Finset.range N, (b - a) / N * ((1 / 2 : ℝ) * (f (node a b N k) + f (node a b N (k + 1)))))
      (Icc a b) (N * (|(b - a) / N| * (|1 / 2| * (1 + 1)))) :=
    IsQuad.sum N fun k hk => (((IsQuad.point (node_mem h hk.le)).add (IsQuad.point (node_mem h hk))).mul _).mul _
  convert this.mono (K' := b - a) ?_ using 1
  · funext f
    exact Finset.sum_congr rfl fun k _ => by ring
  · rw [abs_of_nonneg hd, abs_of_nonneg (by norm_num)]
    have : (N : ℝ) * ((b - a) / N * (1 / 2 * (1 + 1))) = b - a := by field_simp; ring
    exact this.le

theorem quad_Rv {a b : ℝ} (h : a ≤ b) : ∀ j i, IsQuad (fun f => Rv (fun i => trap f a b (2 ^ i)) j i) (Icc a b) ((5 / 3) ^ j * (b - a)) := by
  intro j
  induction j with
  | zero => intro i; simpa [Rv] using quad_trap h (N := 2 ^ i) (by positivity)
  | succ j ih =>
    intro i
    have h4 : (4 : ℝ) ≤ 4 ^ (j + 1) := by
      calc (4 : ℝ) = 4 ^ 1 := by norm_num
        _ ≤ _ := pow_le_pow_right₀ (by norm_num) (by omega)
    have h0 : (0 : ℝ) < 4 ^ (j + 1) - 1 := by linarith
    have := (((ih i).mul (4 ^ (j + 1))).add ((ih (i - 1)).mul (-1))).mul (1 / (4 ^ (j + 1) - 1))
    convert this.mono (K' := (5 / 3) ^ (j + 1) * (b - a)) ?_ using 1
    · funext f
      simp only [Rv]
      ring
    · rw [abs_of_pos (by positivity), abs_of_pos (by positivity), abs_neg, abs_one, one_div_mul_eq_div, div_le_iff₀ h0]
      have hw : 0 ≤ (5 / 3 : ℝ) ^ j * (b - a) := mul_nonneg (by positivity) (by linarith)
      have e : (5 / 3 : ℝ) ^ (j + 1) * (b - a) * (4 ^ (j + 1) - 1) = 5 / 3 * ((5 / 3 : ℝ) ^ j * (b - a)) * (4 ^ (j + 1) - 1) := by ring
      rw [e]
      generalize (5 / 3 : ℝ) ^ j * (b - a) = w at *
      generalize (4 : ℝ) ^ (j + 1) = x at *
      nlinarith

/-- the points with coordinates between the limits -/
def box (l : List Dim) : Set (List ℝ) := {z | List.Forall₂ (fun d t => t ∈ Icc d.a d.b) l z}

/-- bound for the sum of the absolute weights -/
noncomputable def bnd : List Dim → ℝ
  | [] => 1
  | d :: l => (5 / 3) ^ d.p * (d.b - d.a) * bnd l

theorem quad_comp {L : (ℝ → ℝ) → ℝ} {L' : (List ℝ → ℝ) → ℝ} {S : Set ℝ} {S' : Set (List ℝ)} {K K' : ℝ} (h : IsQuad L S K) (h' : IsQuad L' S' K') :
    IsQuad (fun f : List ℝ → ℝ => L fun x => L' fun y => f (x :: y)) {z | ∃ x ∈ S, ∃ y ∈ S', z = x :: y} (K * K') := by
  have hK := h.nonneg
  have hK' := h'.nonneg
  obtain ⟨W, h1, h2, h3⟩ := h
  obtain ⟨W', h1', h2', h3'⟩ := h'
  refine ⟨W.flatMap fun w => W'.map fun v => (w.1 * v.1, w.2 :: v.2), fun f => ?_, fun z hz => ?_, ?_⟩
  · dsimp only
    rw [h1]
    simp only [h1']
    clear h1 h2 h3
    induction W with
    | nil => simp
    | cons w W ih =>
      rw [List.map_cons, List.sum_cons, ih, List.flatMap_cons, List.map_append, List.sum_append, List.map_map, ← List.sum_map_mul_left]
      simp only [Function.comp_def, mul_assoc]
  · obtain ⟨w, hw, hz⟩ := List.mem_flatMap.1 hz
    obtain ⟨v, hv, rfl⟩ := List.mem_map.1 hz
    exact ⟨_, h2 w hw, _, h2' v hv, rfl⟩
  · have : ((W.flatMap fun w => W'.map fun v => (w.1 * v.1, w.2 :: v.2)).map fun w : ℝ × List ℝ => |w.1|).sum
        = (W.map fun w => |w.1|).sum * (W'.map fun v => |v.1|).sum := by
      clear h1 h2 h3
      induction W with
      | nil => simp
      | cons w W ih =>
        rw [List.flatMap_cons, List.map_append, List.sum_append, ih, List.map_map, List.map_cons, List.sum_cons, add_mul]
        simp only [Function.comp_def, abs_mul]
        rw [List.sum_map_mul_left]
    rw [this]
    refine mul_le_mul h3 h3' (List.sum_nonneg ?_) hK
    intro x hx
    obtain ⟨w, -, rfl⟩ := List.mem_map.1 hx
    exact abs_nonneg _

theorem quad_nest : ∀ l : List Dim, (∀ d ∈ l, d.a ≤ d.b) → IsQuad (nest l) (box l) (bnd l) := by
  intro l
  induction l with
  | nil => intro _; exact IsQuad.point (x := []) List.Forall₂.nil
  | cons d l ih =>
    intro h
    have hd := h d (by simp)
    have h1 := (quad_Rv hd (min d.p (d.n - 1)) (d.n - 1)).mono (K' := (5 / 3) ^ d.p * (d.b - d.a))
      (mul_le_mul_of_nonneg_right (pow_le_pow_right₀ (by norm_num) (by omega)) (by linarith))
    have h2 := quad_comp h1 (ih fun e he => h e (by simp [he]))
    obtain ⟨W, w1, w2, w3⟩ := h2
    refine ⟨W, w1, fun w hw => ?_, w3⟩
    obtain ⟨x, hx, y, hy, e⟩ := w2 w hw
    rw [e]
    exact List.Forall₂.cons hx hy

end CppAD.Romberg
