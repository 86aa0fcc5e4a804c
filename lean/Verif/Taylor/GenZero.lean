import Verif.Taylor.Gen

/-! # Operators with zero partials do nothing, whatever the Taylor coefficients are -/

open scoped Classical

namespace CppAD.Gen

variable {B : Type} [RevBase B]

omit [RevBase B] in
theorem set_same (P : GTay B) (i k : ℕ) {v : B} (h : v = P i k) : GTay.set P i k v = P := by
  funext i' k'
  unfold GTay.set
  split_ifs with hh
  · obtain ⟨rfl, rfl⟩ := hh; exact h
  · rfl

theorem forRange_id {σ : Type*} {lo hi : ℕ} {s : σ} {f : ℕ → σ → σ} (h : ∀ k, lo ≤ k → k < hi → f k s = s) :
    forRange lo hi s f = s :=
  forRange_inv (lo := lo) (hi := hi) (s := s) (f := f) (fun t : σ => t = s) rfl
    (fun k t h1 h2 ht => by rw [ht]; exact h k h1 h2)

theorem forDown_id {σ : Type*} {n : ℕ} {s : σ} {f : ℕ → σ → σ} (h : ∀ k, k ≠ 0 → k ≤ n → f k s = s) :
    forDown n s f = s := by
  induction n with
  | zero => rfl
  | succ n ih =>
    show forDown n (f (n + 1) s) f = s
    rw [h (n + 1) (by omega) le_rfl]
    exact ih fun k h1 h2 => h k h1 (by omega)

theorem forDown0_id {σ : Type*} {n : ℕ} {s : σ} {f : ℕ → σ → σ} (h : ∀ k, k < n → f k s = s) :
    forDown0 n s f = s := by
  induction n with
  | zero => rfl
  | succ n ih =>
    show forDown0 n (f n s) f = s
    rw [h n (by omega)]
    exact ih fun k h1 => h k (by omega)

theorem azmul_zero (b : B) : azmul (0 : B) b = 0 := by simp [azmul]

variable [RevLaws B]

theorem add_same (P : GTay B) (i k : ℕ) {v : B} (h : v = 0) : GTay.add P i k v = P :=
  set_same P i k (by rw [h, RevLaws.add_zero])

theorem add_zero0 (P : GTay B) (i k : ℕ) : GTay.add P i k 0 = P := add_same P i k rfl

open RevLaws

omit [RevLaws B] in
theorem set_zero {d iz : ℕ} {P : GTay B} (h : allZero d iz P) (k : ℕ) (hk : k ≤ d) : GTay.set P iz k 0 = P :=
  set_same P iz k (h k hk).symm

theorem zero_div_cast' (k : ℕ) (h : 0 < k) : (0 : B) / (k : B) = 0 := zero_div_cast k (by omega)

set_option hygiene false in
/-- rewrite with zero partials `h` of the primary result -/
macro "gz" : tactic => `(tactic| simp (disch := omega) only [h _, set_zero h, azmul_zero, add_zero0, RevLaws.add_zero, RevLaws.neg_zero, cast_mul_zero,
  zero_mul_cast, zero_div_cast', zero_div_two, zero_mul_two, two_mul_zero, sgn_mul_zero])

set_option hygiene false in
/-- the same with zero partials `h'` of an auxiliary result and a factor `hs` -/
macro "gz2" : tactic => `(tactic| simp (disch := omega) only [h _, set_zero h, h' _, set_zero h', hs, azmul_zero, add_zero0, RevLaws.add_zero,
  RevLaws.neg_zero, cast_mul_zero, zero_mul_cast, zero_div_cast', zero_div_two, zero_mul_two, two_mul_zero, sgn_mul_zero])

theorem addvv_zero {ix : ℕ} {iy : ℕ} {d iz : ℕ} {s P : GTay B} (h : allZero d iz P) :
    addvvReverse ix iy d iz s P = P := by
  refine forDown0_id fun k hk => ?_
  gz

theorem addpv_zero {x : B} {iy : ℕ} {d iz : ℕ} {s P : GTay B} (h : allZero d iz P) :
    addpvReverse x iy d iz s P = P := by
  refine forDown0_id fun k hk => ?_
  gz

theorem subvv_zero {ix : ℕ} {iy : ℕ} {d iz : ℕ} {s P : GTay B} (h : allZero d iz P) :
    subvvReverse ix iy d iz s P = P := by
  refine forDown0_id fun k hk => ?_
  gz

theorem subpv_zero {x : B} {iy : ℕ} {d iz : ℕ} {s P : GTay B} (h : allZero d iz P) :
    subpvReverse x iy d iz s P = P := by
  refine forDown0_id fun k hk => ?_
  gz

theorem subvp_zero {ix : ℕ} {y : B} {d iz : ℕ} {s P : GTay B} (h : allZero d iz P) :
    subvpReverse ix y d iz s P = P := by
  refine forDown0_id fun k hk => ?_
  gz

theorem mulpv_zero {x : B} {iy : ℕ} {d iz : ℕ} {s P : GTay B} (h : allZero d iz P) :
    mulpvReverse x iy d iz s P = P := by
  refine forDown0_id fun k hk => ?_
  gz

theorem divvp_zero {ix : ℕ} {y : B} {d iz : ℕ} {s P : GTay B} (h : allZero d iz P) :
    divvpReverse ix y d iz s P = P := by
  refine forDown0_id fun k hk => ?_
  gz

theorem zmulpv_zero {x : B} {iy : ℕ} {d iz : ℕ} {s P : GTay B} (h : allZero d iz P) :
    zmulpvReverse x iy d iz s P = P := by
  refine forDown0_id fun k hk => ?_
  gz

theorem zmulvp_zero {ix : ℕ} {y : B} {d iz : ℕ} {s P : GTay B} (h : allZero d iz P) :
    zmulvpReverse ix y d iz s P = P := by
  refine forDown0_id fun k hk => ?_
  gz

theorem mulvv_zero {ix iy : ℕ} {d iz : ℕ} {s P : GTay B} (h : allZero d iz P) :
    mulvvReverse ix iy d iz s P = P := by
  refine forDown0_id fun j hj => forRange_id fun k _ hk => ?_
  gz

theorem zmulvv_zero {ix iy : ℕ} {d iz : ℕ} {s P : GTay B} (h : allZero d iz P) :
    zmulvvReverse ix iy d iz s P = P := by
  refine forDown0_id fun j hj => forRange_id fun k _ hk => ?_
  gz

theorem neg_zero' {ix : ℕ} {d iz : ℕ} {s P : GTay B} (h : allZero d iz P) :
    negReverse ix d iz s P = P := by
  refine forRange_id fun k _ hk => ?_
  gz

theorem abs_zero {ix : ℕ} {d iz : ℕ} {s P : GTay B} (h : allZero d iz P) :
    absReverse ix d iz s P = P := by
  refine forRange_id fun k _ hk => ?_
  gz

theorem divvv_zero {ix : ℕ} {iy : ℕ} {d iz : ℕ} {s P : GTay B} (h : allZero d iz P) :
    divvvReverse ix iy d iz s P = P := by
  refine forDown0_id fun j hj => ?_
  gz
  rw [forRange_id]
  · gz
  · intro k _ hk
    gz

theorem divpv_zero {x : B} {iy : ℕ} {d iz : ℕ} {s P : GTay B} (h : allZero d iz P) :
    divpvReverse x iy d iz s P = P := by
  refine forDown0_id fun j hj => ?_
  gz
  rw [forRange_id]
  · gz
  · intro k _ hk
    gz

theorem expBody_zero {ix : ℕ} {d iz : ℕ} {s P : GTay B} (h : allZero d iz P) :
    expBody ix d iz s P = P := by
  unfold expBody
  dsimp only
  rw [forDown_id]
  · gz
  · intro j hj hd
    gz
    refine forRange_id fun k _ hk => ?_
    gz

theorem expm1Body_zero {ix : ℕ} {d iz : ℕ} {s P : GTay B} (h : allZero d iz P) :
    expm1Body ix d iz s P = P := by
  unfold expm1Body
  dsimp only
  rw [forDown_id]
  · gz
  · intro j hj hd
    gz
    refine forRange_id fun k _ hk => ?_
    gz

theorem logReverse_zero {ix : ℕ} {d iz : ℕ} {s P : GTay B} (h : allZero d iz P) :
    logReverse ix d iz s P = P := by
  unfold logReverse
  dsimp only
  rw [forDown_id]
  · gz
  · intro j hj hd
    gz
    refine forRange_id fun k _ hk => ?_
    gz

theorem log1pReverse_zero {ix : ℕ} {d iz : ℕ} {s P : GTay B} (h : allZero d iz P) :
    log1pReverse ix d iz s P = P := by
  unfold log1pReverse
  dsimp only
  rw [forDown_id]
  · gz
  · intro j hj hd
    gz
    refine forRange_id fun k _ hk => ?_
    gz

theorem sqrtReverse_zero {ix : ℕ} {d iz : ℕ} {s P : GTay B} (h : allZero d iz P) :
    sqrtReverse ix d iz s P = P := by
  unfold sqrtReverse
  dsimp only
  rw [forDown_id]
  · gz
  · intro j hj hd
    gz
    refine forRange_id fun k _ hk => ?_
    gz

theorem trigReverse_zero {sg : B} {ix d is ic : ℕ} {s P : GTay B} (hs : sg * 0 = 0) (h : allZero d is P)
    (h' : allZero d ic P) : trigReverse sg ix d is ic s P = P := by
  unfold trigReverse
  dsimp only
  rw [forDown_id]
  · gz2
  · intro j hj hd
    gz2
    refine forRange_id fun k _ hk => ?_
    gz2

theorem tanReverseG_zero {sg : B} {ix d iz : ℕ} {s P : GTay B} (hs : sg * 0 = 0) (h : allZero d iz P)
    (h' : allZero d (iz - 1) P) : tanReverseG sg ix d iz s P = P := by
  unfold tanReverseG
  dsimp only
  rw [forDown_id]
  · gz2
  · intro j hj hd
    gz2
    rw [forRange_id (lo := 1) fun k _ hk => ?_]
    · refine forRange_id fun k _ hk => ?_
      gz2
    · gz2

theorem atanReverseG_zero {sg : B} {ix d iz : ℕ} {s P : GTay B} (hs : sg * 0 = 0) (h : allZero d iz P)
    (h' : allZero d (iz - 1) P) : atanReverseG sg ix d iz s P = P := by
  unfold atanReverseG
  dsimp only
  rw [forDown_id]
  · gz2
  · intro j hj hd
    gz2
    refine forRange_id fun k _ hk => ?_
    gz2

theorem asinReverseG_zero {su sz : B} {ix d iz : ℕ} {s P : GTay B} (hs : su * 0 = 0) (hz : sz * 0 = 0) (h : allZero d iz P)
    (h' : allZero d (iz - 1) P) : asinReverseG su sz ix d iz s P = P := by
  unfold asinReverseG
  dsimp only
  rw [forDown_id]
  · gz2
    simp only [hz, azmul_zero, add_zero0]
  · intro j hj hd
    gz2
    simp only [hz, add_zero0]
    gz2
    refine forRange_id fun k _ hk => ?_
    gz2

theorem opdAdd_zero {o : GOpd B} {d : ℕ} {g : ℕ → GTay B → B} {P : GTay B} (h : ∀ j ≤ d, g j P = 0) :
    opdAdd o d g P = P := by
  cases o with
  | par _ => rfl
  | var v =>
    refine forDown0_id fun j hj => ?_
    rw [h j (by omega), add_zero0]

theorem cexp_zero {cop : CompareOp} {l r t f : GOpd B} {d iz : ℕ} {s P : GTay B} (h : allZero d iz P) :
    cexpReverse cop l r t f d iz s P = P := by
  unfold cexpReverse
  dsimp only
  rw [opdAdd_zero (o := t) (fun j hj => by simp only [h j hj, condExp, ite_self])]
  exact opdAdd_zero fun j hj => by simp only [h j hj, condExp, ite_self]

theorem foldl_id {α σ : Type*} {l : List α} {s : σ} {f : σ → α → σ} (h : ∀ a, f s a = s) : l.foldl f s = s := by
  induction l with
  | nil => rfl
  | cons a l ih => rw [List.foldl_cons, h, ih]

theorem csum_zero {addv subv : List ℕ} {d iz : ℕ} {s P : GTay B} (h : allZero d iz P) :
    csumReverse addv subv d iz s P = P := by
  unfold csumReverse
  dsimp only
  rw [foldl_id (l := addv)]
  · exact foldl_id fun x => forDown0_id fun k hk => by gz
  · exact fun x => forDown0_id fun k hk => by gz

omit [RevLaws B] in
theorem expReverse_zero {ix d iz : ℕ} {s P : GTay B} (h : allZero d iz P) : expReverse ix d iz s P = P := if_pos h

/-- the short cut of erf_op.hpp:529-536 agrees with what the rest of the function does -/
theorem erfBody_zero {sg c : B} {ix d iz : ℕ} {s P : GTay B} (hs : sg * 0 = 0)
    (hz : ∀ r ≤ 4, allZero d (iz - 4 + r) P) : erfBody sg c ix d iz s P = P := by
  have h := hz 4 le_rfl
  unfold erfBody
  dsimp only
  rw [forDown_id]
  · have h' := h
    gz2
    rw [mulpv_zero (hz 3 (by omega)), expReverse_zero (hz 2 (by omega)), subpv_zero (hz 1 (by omega)),
      mulvv_zero (hz 0 (by omega))]
  · intro j hj hd
    have h' := h
    gz2
    refine forRange_id fun k _ hk => ?_
    gz2

theorem powvv_zero {ix iy d iz : ℕ} {s P : GTay B} (hz : ∀ r ≤ 2, allZero d (iz - 2 + r) P) :
    powvvReverse ix iy d iz s P = P := by
  unfold powvvReverse
  dsimp only
  rw [expReverse_zero (hz 2 le_rfl), mulvv_zero (hz 1 (by omega)), logReverse_zero (iz := iz - 2) (hz 0 (by omega))]

theorem powpv_zero {iy d iz : ℕ} {s P : GTay B} (hz : ∀ r ≤ 2, allZero d (iz - 2 + r) P) :
    powpvReverse iy d iz s P = P := by
  unfold powpvReverse
  dsimp only
  rw [expReverse_zero (hz 2 le_rfl), mulpv_zero (hz 1 (by omega))]

theorem powvp_zero {ix d iz : ℕ} {y : B} {s P : GTay B} (h : allZero d iz P)
    (hx : s ix 0 = 0 → allZero d ix P) : powvpReverse ix y d iz s P = P := by
  unfold powvpReverse
  dsimp only
  rw [forDown_id]
  · gz
    refine forRange_id fun j _ hj => set_same _ _ _ ?_
    split_ifs with h0
    · exact (hx h0 j (by omega)).symm
    refine Eq.trans (?_ : _ = (if 0 ≤ j ∧ j < d + 1 then P ix j else 0)) (if_pos ⟨by omega, hj⟩)
    refine forRange_ind (lo := 0) (hi := d + 1) (Nat.zero_le _) (fun (n : ℕ) (w : GTay B) =>
      w 0 j = if 0 ≤ j ∧ j < n then P ix j else 0) (by simp) ?_
    intro k w _ _ hw
    unfold GTay.set
    by_cases hjk : j = k
    · subst hjk; simp
    · rw [if_neg (by simp [hjk]), hw]
      refine if_congr ?_ rfl rfl
      omega
  · intro j hj hd
    gz
    rw [forRange_id fun k _ hk => ?_, forRange_id fun k _ hk => ?_]
    · gz
    · gz
    · gz

/-- the derivative of `pow(x, p)` that the code replaces by zero: `pow_op.hpp:657-733` when `x` is zero -/
def GOp.powAtZero (s : GTay B) : GOp B → Prop
  | .powvp ix _ => s ix 0 = 0
  | _ => False

/-- an operator whose results have zero partials leaves all the partials as they are, whatever the Taylor coefficients -/
theorem GOp.rev_zero (op : GOp B) (d nv : ℕ) (s P : GTay B)
    (hx : op.powAtZero s → ∀ v ∈ op.args, ∀ k ≤ d, P v k = 0)
    (hz : ∀ r < op.nres, ∀ k ≤ d, P (nv + r) k = 0) : op.rev d (nv + op.nres - 1) s P = P := by
  have z1 : op.nres = 1 → allZero d (nv + op.nres - 1) P := fun h => by
    intro k hk; have := hz 0 (by omega) k hk; rw [h]; simpa using this
  have zz : ∀ m i, op.nres = m → i < m → ∀ j, j + 1 + i = nv + m → allZero d j P := fun m i h hi j hj k hk => by
    have := hz (m - 1 - i) (by omega) k hk
    rwa [show nv + (m - 1 - i) = j by omega] at this
  have n1 : (-1 : B) * 0 = 0 := neg_one_mul_zero
  have o1 : (1 : B) * 0 = 0 := one_mul_zero
  cases op with
  | abs ix => exact abs_zero (s := s) (z1 rfl)
  | acos ix => exact asinReverseG_zero n1 n1 (zz 2 0 rfl (by omega) _ (by simp [GOp.nres])) (zz 2 1 rfl (by omega) _ (by simp [GOp.nres]))
  | acosh ix => exact asinReverseG_zero o1 o1 (zz 2 0 rfl (by omega) _ (by simp [GOp.nres])) (zz 2 1 rfl (by omega) _ (by simp [GOp.nres]))
  | addpv x iy => exact addpv_zero (x := x) (s := s) (z1 rfl)
  | addvv ix iy => exact addvv_zero (s := s) (z1 rfl)
  | asin ix => exact asinReverseG_zero n1 o1 (zz 2 0 rfl (by omega) _ (by simp [GOp.nres])) (zz 2 1 rfl (by omega) _ (by simp [GOp.nres]))
  | asinh ix => exact asinReverseG_zero o1 o1 (zz 2 0 rfl (by omega) _ (by simp [GOp.nres])) (zz 2 1 rfl (by omega) _ (by simp [GOp.nres]))
  | atan ix => exact atanReverseG_zero o1 (zz 2 0 rfl (by omega) _ (by simp [GOp.nres])) (zz 2 1 rfl (by omega) _ (by simp [GOp.nres]))
  | atanh ix => exact atanReverseG_zero n1 (zz 2 0 rfl (by omega) _ (by simp [GOp.nres])) (zz 2 1 rfl (by omega) _ (by simp [GOp.nres]))
  | cexp cop l r t f => exact cexp_zero (s := s) (z1 rfl)
  | cos ix => exact trigReverse_zero n1 (zz 2 1 rfl (by omega) _ (by simp [GOp.nres])) (zz 2 0 rfl (by omega) _ (by simp [GOp.nres]))
  | cosh ix => exact trigReverse_zero o1 (zz 2 1 rfl (by omega) _ (by simp [GOp.nres])) (zz 2 0 rfl (by omega) _ (by simp [GOp.nres]))
  | csum c addv subv addp subp => exact csum_zero (s := s) (z1 rfl)
  | dis fn ix => rfl
  | divpv x iy => exact divpv_zero (x := x) (s := s) (z1 rfl)
  | divvp ix y => exact divvp_zero (s := s) (z1 rfl)
  | divvv ix iy => exact divvv_zero (s := s) (z1 rfl)
  | erf ix =>
    exact if_pos (zz 5 0 rfl (by omega) _ (by simp [GOp.nres]))
  | erfc ix =>
    exact if_pos (zz 5 0 rfl (by omega) _ (by simp [GOp.nres]))
  | exp ix => exact expReverse_zero (s := s) (z1 rfl)
  | expm1 ix => exact if_pos (z1 rfl)
  | log ix => exact logReverse_zero (s := s) (z1 rfl)
  | log1p ix => exact log1pReverse_zero (s := s) (z1 rfl)
  | mulpv x iy => exact mulpv_zero (s := s) (z1 rfl)
  | mulvv ix iy => exact mulvv_zero (s := s) (z1 rfl)
  | neg ix => exact neg_zero' (s := s) (z1 rfl)
  | par c => rfl
  | powpv x iy => exact powpv_zero fun r hr => zz 3 (2 - r) rfl (by omega) _ (by simp only [GOp.nres]; omega)
  | powvp ix y => exact powvp_zero (s := s) (z1 rfl) fun h => hx h ix (by simp [GOp.args])
  | powvv ix iy => exact powvv_zero fun r hr => zz 3 (2 - r) rfl (by omega) _ (by simp only [GOp.nres]; omega)
  | sign ix => rfl
  | sin ix => exact trigReverse_zero n1 (zz 2 0 rfl (by omega) _ (by simp [GOp.nres])) (zz 2 1 rfl (by omega) _ (by simp [GOp.nres]))
  | sinh ix => exact trigReverse_zero o1 (zz 2 0 rfl (by omega) _ (by simp [GOp.nres])) (zz 2 1 rfl (by omega) _ (by simp [GOp.nres]))
  | sqrt ix => exact sqrtReverse_zero (s := s) (z1 rfl)
  | subpv x iy => exact subpv_zero (x := x) (s := s) (z1 rfl)
  | subvp ix y => exact subvp_zero (y := y) (s := s) (z1 rfl)
  | subvv ix iy => exact subvv_zero (s := s) (z1 rfl)
  | tan ix => exact tanReverseG_zero o1 (zz 2 0 rfl (by omega) _ (by simp [GOp.nres])) (zz 2 1 rfl (by omega) _ (by simp [GOp.nres]))
  | tanh ix => exact tanReverseG_zero n1 (zz 2 0 rfl (by omega) _ (by simp [GOp.nres])) (zz 2 1 rfl (by omega) _ (by simp [GOp.nres]))
  | zmulpv x iy => exact zmulpv_zero (s := s) (z1 rfl)
  | zmulvp ix y => exact zmulvp_zero (s := s) (z1 rfl)
  | zmulvv ix iy => exact zmulvv_zero (s := s) (z1 rfl)

end CppAD.Gen
