import Verif.AbsOpt.MinLinear

/-!
# `min_nso_linear` descends, and stops at approximate minimizers of the approximation
-/

namespace CppAD.AbsOpt

open CppAD.AtomEx (forRange_assign)

/-- *Specification*: the vector `(x, u)` -/
def IsJoin (n s : ℕ) (x u xu : ℕ → ℝ) : Prop := (∀ j < n, xu j = x j) ∧ ∀ j < s, xu (n + j) = u j

/-- *Specification*: the objective `F` with its abs-normal representation: the value of `(x, u)` at `u = a(x)`, component zero -/
def IsObj (n s : ℕ) (fa fg : (ℕ → ℝ) → ℕ → ℝ) (F : (ℕ → ℝ) → ℝ) : Prop := ∀ x xu, IsJoin n s x (fa x) xu → fg xu 0 = F x

theorem nsoJoin_ok (n s : ℕ) (x u junk : ℕ → ℝ) : IsJoin n s x u (nsoJoin n s x u junk) := by
  unfold nsoJoin
  dsimp only
  have h := assign_off s n (forRange 0 n junk fun j v => Function.update v j (x j)) u
  refine ⟨fun j hj => ?_, fun j hj => (h _).1 j hj rfl⟩
  rw [(h _).2 (Or.inl hj)]
  exact forRange_assign (α := ℝ) junk x _ (fun _ _ _ => rfl) hj

/-- the loop that computes the new point and the size of the step -/
theorem stepLoop (n : ℕ) (x d junk : ℕ → ℝ) :
    (∀ j < n, (forRange 0 n (junk, (0 : ℝ)) fun j u => (Function.update u.1 j (x j + d j), max u.2 |d j|)).1 j = x j + d j) ∧
    (∀ j < n, |d j| ≤ (forRange 0 n (junk, (0 : ℝ)) fun j u => (Function.update u.1 j (x j + d j), max u.2 |d j|)).2) ∧
    0 ≤ (forRange 0 n (junk, (0 : ℝ)) fun j u => (Function.update u.1 j (x j + d j), max u.2 |d j|)).2 ∧
    ∀ b, 0 ≤ b → (∀ j < n, |d j| ≤ b) → (forRange 0 n (junk, (0 : ℝ)) fun j u => (Function.update u.1 j (x j + d j), max u.2 |d j|)).2 ≤ b := by
  refine forRange_ind (s := (junk, (0 : ℝ))) (f := fun j u => (Function.update u.1 j (x j + d j), max u.2 |d j|)) (Nat.zero_le n)
    (fun K t => (∀ j < K, t.1 j = x j + d j) ∧ (∀ j < K, |d j| ≤ t.2) ∧ 0 ≤ t.2 ∧ ∀ b, 0 ≤ b → (∀ j < K, |d j| ≤ b) → t.2 ≤ b)
    ⟨by intros; omega, by intros; omega, le_rfl, fun b hb _ => hb⟩ ?_
  rintro k t _ _ ⟨h1, h2, h3, h4⟩
  dsimp only
  refine ⟨fun j hj => ?_, fun j hj => ?_, le_max_of_le_left h3, fun b hb h => max_le (h4 b hb fun j hj => h j (by omega)) (h k (by omega))⟩
  · by_cases e : j = k
    · subst e; rw [Function.update_self]
    · rw [Function.update_of_ne e]; exact h1 j (by omega)
  · by_cases e : j = k
    · subst e; exact le_max_right _ _
    · exact le_max_of_le_left (h2 j (by omega))

/-- *Specification*: the test at which the minimization stops: `d` is what the sub-problem returned at `x` for the bound `b`: it is small
compared with `eps0` and `b`, or the approximation does not decrease by more than `eps1` times the largest component of `d` -/
def IsStop (n s : ℕ) (g gj : ℕ → ℝ) (eps0 eps1 b : ℝ) (d : ℕ → ℝ) : Prop :=
  (∀ j < n, |d j| < b ∧ |d j| < eps0) ∨
  ∃ gt size, IsApprox n 1 s g gj d gt ∧ 0 < size ∧ (∀ j < n, |d j| ≤ size) ∧ (∀ c, 0 ≤ c → (∀ j < n, |d j| ≤ c) → size ≤ c) ∧
    g 0 - eps1 * size < gt 0

theorem nsoLoop_ok {n s : ℕ} {fa fg fj : (ℕ → ℝ) → ℕ → ℝ} {F : (ℕ → ℝ) → ℝ} (hF : IsObj n s fa fg F)
    (sub : (ℕ → ℝ) → (ℕ → ℝ) → ℝ → Option (Bool × (ℕ → ℝ))) {eps0 eps1 : ℝ} (he0 : 0 < eps0) (he1 : 0 ≤ eps1) (junk : ℕ → ℝ)
    (htri : ∀ xu, IsTri n 1 s (fj xu)) (r : ℕ) : ∀ (t : Nso), 0 < t.b → IsJoin n s t.x (fa t.x) t.xu → t.g = fg t.xu → ∀ ok x,
    nsoLoop n s fa fg fj sub eps0 eps1 junk r t = some (ok, x) →
      (∀ j < n, F x + eps1 * |x j - t.x j| ≤ F t.x) ∧ (F x ≤ F t.x) ∧
      (ok = true → ∃ b d xu, 0 < b ∧ b ≤ t.b ∧ IsJoin n s x (fa x) xu ∧ sub (fg xu) (fj xu) b = some (true, d) ∧
        IsStop n s (fg xu) (fj xu) eps0 eps1 b d) := by
  induction r with
  | zero =>
    intro t _ _ _ ok x h
    rw [nsoLoop, Option.some_inj, Prod.mk.injEq] at h
    obtain ⟨rfl, rfl⟩ := h
    exact ⟨fun j _ => by simp, le_rfl, fun h => by cases h⟩
  | succ r ih =>
    intro t hb hj hg ok x h
    have stay : ∀ ok', some (ok', t.x) = some (ok, x) → ok' = ok ∧ (∀ j < n, F x + eps1 * |x j - t.x j| ≤ F t.x) ∧ (F x ≤ F t.x) ∧ x = t.x := by
      intro ok' h
      rw [Option.some_inj, Prod.mk.injEq] at h
      obtain ⟨rfl, rfl⟩ := h
      exact ⟨rfl, fun j _ => by simp, le_rfl, rfl⟩
    rw [nsoLoop.eq_def] at h
    dsimp only at h
    cases hq : sub t.g (fj t.xu) t.b with
    | none => rw [hq] at h; cases h
    | some q =>
      obtain ⟨q1, d⟩ := q
      rw [hq, Option.bind_some] at h
      cases q1 with
      | false =>
        rw [if_neg (by simp)] at h
        obtain ⟨e, h1, h2, _⟩ := stay _ h
        exact ⟨h1, h2, fun h => by rw [← e] at h; cases h⟩
      | true =>
        rw [if_pos rfl] at h
        dsimp only at h
        obtain ⟨hx, hle, hnn, hlub⟩ := stepLoop n t.x d junk
        set u := forRange 0 n (junk, (0 : ℝ)) fun j u => (Function.update u.1 j (t.x j + d j), max u.2 |d j|) with hu
        by_cases hs1 : u.2 < t.b ∧ u.2 < eps0
        · rw [if_pos hs1] at h
          obtain ⟨e, h1, h2, h3⟩ := stay _ h
          subst h3
          refine ⟨h1, h2, fun _ => ⟨t.b, d, t.xu, hb, le_rfl, hj, by rw [← hg]; exact hq, Or.inl fun j hj => ?_⟩⟩
          have := hle j hj
          exact ⟨lt_of_le_of_lt this hs1.1, lt_of_le_of_lt this hs1.2⟩
        · rw [if_neg hs1] at h
          have hpos : 0 < u.2 := by
            by_contra hc
            have : u.2 = 0 := le_antisymm (not_lt.1 hc) hnn
            exact hs1 (by rw [this]; exact ⟨hb, he0⟩)
          obtain ⟨gt, e1, e2⟩ := (absEval_ok n 1 s t.g (fj t.xu) d junk).1 (htri t.xu)
          rw [e1, Option.bind_some] at h
          by_cases hd : (gt 0 - t.g 0) / u.2 ≤ 0
          · rw [if_pos hd] at h
            by_cases hd1 : - eps1 < (gt 0 - t.g 0) / u.2
            · rw [if_pos hd1] at h
              obtain ⟨e, h1, h2, h3⟩ := stay _ h
              subst h3
              refine ⟨h1, h2, fun _ => ⟨t.b, d, t.xu, hb, le_rfl, hj, by rw [← hg]; exact hq, Or.inr ⟨gt, u.2, by rw [← hg]; exact e2, hpos, hle, hlub, ?_⟩⟩⟩
              rw [lt_div_iff₀ hpos] at hd1
              rw [← hg]
              linarith
            · rw [if_neg hd1] at h
              by_cases hr : - eps1 < (fg (nsoJoin n s u.1 (fa u.1) junk) 0 - t.g 0) / u.2
              · rw [if_pos hr] at h
                obtain ⟨h1, h2, h3⟩ := ih ⟨t.x, t.xu, t.g, t.b / 2⟩ (half_pos hb) hj hg ok x h
                refine ⟨h1, h2, fun ho => ?_⟩
                obtain ⟨b, d, xu, k1, k2, k3⟩ := h3 ho
                exact ⟨b, d, xu, k1, le_trans k2 (by dsimp only; linarith), k3⟩
              · rw [if_neg hr] at h
                have hJ := nsoJoin_ok n s u.1 (fa u.1) junk
                obtain ⟨h1, h2, h3⟩ := ih ⟨u.1, nsoJoin n s u.1 (fa u.1) junk, fg (nsoJoin n s u.1 (fa u.1) junk), t.b⟩ hb hJ rfl ok x h
                dsimp only at h1 h2 h3
                rw [hF _ _ hJ, hg, hF _ _ hj, not_lt, div_le_iff₀ hpos] at hr
                have hp := mul_nonneg he1 hpos.le
                refine ⟨fun j hj' => ?_, by linarith, h3⟩
                have k1 := h1 j hj'
                rw [hx j hj'] at k1
                have k2 := hle j hj'
                have k3 : |x j - t.x j| ≤ |x j - (t.x j + d j)| + |d j| := by
                  have := abs_add_le (x j - (t.x j + d j)) (d j)
                  rwa [show x j - (t.x j + d j) + d j = x j - t.x j by ring] at this
                have k4 := mul_le_mul_of_nonneg_left (le_trans k3 (by linarith : _ ≤ |x j - (t.x j + d j)| + u.2)) he1
                rw [mul_add] at k4
                linarith
          · rw [if_neg hd] at h
            cases h

/-- **C59.** `min_nso_linear`: the objective at the result is not greater than at the start, it decreases at least by `eps1` times the distance; and
when it returns true, the sub-problem at the result, for a bound not greater than the initial one, returned a step that satisfies the stopping test. -/
theorem minNso_ok {n s : ℕ} {fa fg fj : (ℕ → ℝ) → ℕ → ℝ} {F : (ℕ → ℝ) → ℝ} (hF : IsObj n s fa fg F)
    (sub : (ℕ → ℝ) → (ℕ → ℝ) → ℝ → ℝ → ℝ → Option (Bool × (ℕ → ℝ))) {eps0 eps1 : ℝ} (he0 : 0 < eps0) (he1 : 0 ≤ eps1) (maxitr : ℕ) (bin : ℝ)
    (junk x0 : ℕ → ℝ) (htri : ∀ xu, IsTri n 1 s (fj xu)) (ok : Bool) (x : ℕ → ℝ)
    (h : minNso n s fa fg fj sub eps0 eps1 maxitr bin junk x0 = some (ok, x)) :
    (∀ j < n, F x + eps1 * |x j - x0 j| ≤ F x0) ∧ (F x ≤ F x0) ∧
    (ok = true → ∃ b d xu, 0 < b ∧ b ≤ bin ∧ IsJoin n s x (fa x) xu ∧ sub (fg xu) (fj xu) b (eps0 / 10) (eps1 / 10) = some (true, d) ∧
      IsStop n s (fg xu) (fj xu) eps0 eps1 b d) := by
  unfold minNso at h
  dsimp only at h
  by_cases hb : eps0 < bin
  · rw [if_pos hb] at h
    exact nsoLoop_ok hF (fun g gj b => sub g gj b (eps0 / 10) (eps1 / 10)) he0 he1 junk htri maxitr _ (lt_trans he0 hb) (nsoJoin_ok n s x0 (fa x0) junk) rfl ok x h
  · rw [if_neg hb] at h; cases h

/-- **C59.** `min_nso_linear` with the solvers of the library.  When it returns true and the approximation at the result is convex (with
Lipschitz constant `K`), zero is an approximate minimizer of the approximation in a trust region with a bound `b` not greater than the initial
bound. -/
theorem minNsoLinear_ok_partial {n s : ℕ} (hs : 0 < s) {fa fg fj : (ℕ → ℝ) → ℕ → ℝ} {F : (ℕ → ℝ) → ℝ} (hF : IsObj n s fa fg F)
    {eps0 eps1 : ℝ} (he0 : 0 < eps0) (he1 : 0 ≤ eps1) (maxitr maxitr1 maxitr2 : ℕ) (bin nan : ℝ) (junk : ℕ → ℝ) (ip jp : ℕ → ℕ) (x0 : ℕ → ℝ)
    (htri : ∀ xu, IsTri n 1 s (fj xu)) (ok : Bool) (x : ℕ → ℝ)
    (h : minNsoLinear n s fa fg fj eps0 eps1 maxitr maxitr1 maxitr2 bin nan junk ip jp x0 = some (ok, x)) :
    (∀ j < n, F x + eps1 * |x j - x0 j| ≤ F x0) ∧ (F x ≤ F x0) ∧
    (ok = true → ∃ b xu, 0 < b ∧ b ≤ bin ∧ IsJoin n s x (fa x) xu ∧
      ∀ f, IsTilde n s (fg xu) (fj xu) f → ConvexOn ℝ Set.univ f →
        (∀ d gt, InBox n (fun _ => b) d → IsApprox n 1 s (fg xu) (fj xu) d gt → NotNested n s (fj xu) gt) →
        ∀ K, 0 ≤ K → (∀ a c, |f a - f c| ≤ K * ∑ j ∈ Finset.range n, |a j - c j|) →
        ∀ y, InBox n (fun _ => b) y →
          f 0 ≤ f y + max (K * n * eps0) (eps1 * b) + max (eps1 / 10 * (2 * n * b)) (2 * K * n * (eps0 / 10))) := by
  obtain ⟨h1, h2, h3⟩ := minNso_ok hF _ he0 he1 maxitr bin junk x0 htri ok x h
  refine ⟨h1, h2, fun ho => ?_⟩
  obtain ⟨b, d, xu, b1, b2, hj, hsub, hstop⟩ := h3 ho
  refine ⟨b, xu, b1, b2, hj, fun f hf hcv hnn K hK hL y hy => ?_⟩
  unfold nsoSub at hsub
  set bound := forRange 0 n junk fun j v => Function.update v j b with hbd
  have hbj : ∀ j < n, bound j = b := fun j hj => forRange_assign (α := ℝ) junk (fun _ => b) _ (fun _ _ _ => rfl) hj
  have hbox : ∀ v : ℕ → ℝ, InBox n bound v ↔ InBox n (fun _ => b) v := fun v =>
    ⟨fun h j hj => by have := h j hj; rwa [hbj j hj] at this, fun h j hj => by rw [hbj j hj]; exact h j hj⟩
  obtain ⟨ok', d', e1, e2, e3⟩ := absMinLinear_ok_partial hs (htri xu) (bound := bound) (fun j hj => by rw [hbj j hj]; exact b1.le) hf (eps0 / 10) (eps1 / 10)
    maxitr1 maxitr2 nan junk ip jp junk
  rw [hsub, Option.some_inj, Prod.mk.injEq] at e1
  obtain ⟨rfl, rfl⟩ := e1
  have k1 := e3 rfl hcv (fun v gt hv => hnn v gt ((hbox v).1 hv)) K hK hL y ((hbox y).2 hy)
  have k2 : ∑ j ∈ Finset.range n, |y j - d j| ≤ 2 * n * b := by
    calc ∑ j ∈ Finset.range n, |y j - d j| ≤ ∑ _j ∈ Finset.range n, 2 * b := Finset.sum_le_sum fun j hj => by
          have a1 := hy j (Finset.mem_range.1 hj)
          have a2 := ((hbox d).1 e2) j (Finset.mem_range.1 hj)
          have a3 := abs_sub (y j) (d j)
          dsimp only at a1 a2
          linarith
      _ = 2 * n * b := by rw [Finset.sum_const, Finset.card_range, nsmul_eq_mul]; ring
  have k3 : max (eps1 / 10 * ∑ j ∈ Finset.range n, |y j - d j|) (2 * K * n * (eps0 / 10)) ≤ max (eps1 / 10 * (2 * n * b)) (2 * K * n * (eps0 / 10)) :=
    max_le_max (mul_le_mul_of_nonneg_left k2 (by positivity)) le_rfl
  have k4 : f 0 ≤ f d + max (K * n * eps0) (eps1 * b) := by
    rcases hstop with hst | ⟨gt, size, g1, g2, g3, g4, g5⟩
    · have a1 := hL 0 d
      have a2 : ∑ j ∈ Finset.range n, |(0 : ℕ → ℝ) j - d j| ≤ n * eps0 := by
        calc ∑ j ∈ Finset.range n, |(0 : ℕ → ℝ) j - d j| ≤ ∑ _j ∈ Finset.range n, eps0 := Finset.sum_le_sum fun j hj => by
              rw [Pi.zero_apply, zero_sub, abs_neg]; exact (hst j (Finset.mem_range.1 hj)).2.le
          _ = n * eps0 := by rw [Finset.sum_const, Finset.card_range, nsmul_eq_mul]
      have a3 := le_abs_self (f 0 - f d)
      have a4 := mul_le_mul_of_nonneg_left a2 hK
      have a5 := le_max_left (K * n * eps0) (eps1 * b)
      rw [← mul_assoc] at a4
      linarith
    · have a1 : gt 0 = f d := by
        obtain ⟨gt', q1, q2⟩ := hf d
        rw [← q2]
        exact isApprox_unique (htri xu) (fun _ _ => rfl) g1 q1 0 (by omega)
      have a2 : fg xu 0 = f 0 := by
        obtain ⟨gt', q1, q2⟩ := hf 0
        rw [← q2]
        refine isApprox_unique (gt := fg xu) (dx := 0) (htri xu) (fun _ _ => rfl) (fun i hi => ?_) q1 0 (by omega)
        unfold lin
        simp
      have a3 := g4 b b1.le fun j hj => ((hbox d).1 e2) j hj
      have a4 := mul_le_mul_of_nonneg_left a3 he1
      have a5 := le_max_right (K * n * eps0) (eps1 * b)
      rw [a1, a2] at g5
      linarith
  linarith

end CppAD.AbsOpt
