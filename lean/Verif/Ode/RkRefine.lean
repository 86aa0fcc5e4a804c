import Verif.Ode.RkLoops
import Verif.Ode.RkCoef

/-! # `Runge45` computes the stages (property C67) -/

namespace CppAD.Rk

/-- the autonomous system in the variables `(t, x)` -/
def auto {n : ℕ} (F : ℝ → (Fin n → ℝ) → Fin n → ℝ) (z : ℝ × (Fin n → ℝ)) : ℝ × (Fin n → ℝ) := (1, F z.1 z.2)

/-- the part of a vector in memory that is used -/
def res (n : ℕ) (x : ℕ → ℝ) : Fin n → ℝ := fun r => x r

theorem rows (j : ℕ) (hj : j < 6) : ∑ k ∈ Finset.range j, bt j k = tabA j := by
  have : ∀ j < 6, ∑ k ∈ Finset.range j, bt j k = tabA j := by decide +kernel
  exact this j hj

variable {n : ℕ} (F : ℝ → (Fin n → ℝ) → Fin n → ℝ)

/-- the value of the variables after `j` stages -/
structure SInv (t h : ℝ) (xf : ℕ → ℝ) (j : ℕ) (s : St ℝ) : Prop where
  zn : s.zn = 0
  one : ∀ k < j, (kf bt (auto F) h (t, res n xf) j k).1 = 1
  fh : ∀ i : Fin n, ∀ k < j, s.fh (i * 6 + k) = (kf bt (auto F) h (t, res n xf) j k).2 i * h
  x4 : ∀ i : Fin n, s.x4 i = xf i + h * ∑ k ∈ Finset.range j, (tabC4 k : ℝ) * (kf bt (auto F) h (t, res n xf) j k).2 i
  x5 : ∀ i : Fin n, s.x5 i = xf i + h * ∑ k ∈ Finset.range j, (tabC5 k : ℝ) * (kf bt (auto F) h (t, res n xf) j k).2 i

theorem stage_inv (t h : ℝ) (xf : ℕ → ℝ) {j : ℕ} (hj : j < 6) {s : St ℝ} (hs : SInv F t h xf j s) :
    SInv F t h xf (j + 1) (stage re n (ode n F) t h xf j s) := by
  set K := kf bt (auto F) h (t, res n xf) with hK
  have hold : ∀ k, k < j → K (j + 1) k = K j k := by
    intro k hk
    rw [hK]
    exact Function.update_of_ne (by omega) _ _
  have hnew : K (j + 1) j = auto F ((t, res n xf) + h • ∑ k ∈ Finset.range j, (bt j k : ℝ) • K j k) :=
    Function.update_self _ _ _
  set xtmp := forRange 0 j xf (fun k x => forRange 0 n x fun i x =>
      Function.update x i (x i + re (tabB ((j - 1) * 5 + k)) * s.fh (i * 6 + k))) with hx
  set ftmp := ode n F (t + re (tabA j) * h) xtmp with hf
  have hzn : forRange 0 n s.zn (fun i z => z * ftmp i) = 0 := by rw [hs.zn]; exact zn_apply ftmp
  have ht : ((t, res n xf) + h • ∑ k ∈ Finset.range j, (bt j k : ℝ) • K j k).1 = t + re (tabA j) * h := by
    have e1 : ∑ k ∈ Finset.range j, ((bt j k : ℝ) • K j k).1 = re (tabA j) := by
      rw [← rows j hj]
      push_cast
      refine Finset.sum_congr rfl fun k hk => ?_
      show (bt j k : ℝ) * (K j k).1 = _
      rw [hs.one k (Finset.mem_range.1 hk), mul_one]
    show t + h * (∑ k ∈ Finset.range j, (bt j k : ℝ) • K j k).1 = _
    rw [Prod.fst_sum, e1, mul_comm]
  have hxt : ((t, res n xf) + h • ∑ k ∈ Finset.range j, (bt j k : ℝ) • K j k).2 = res n xtmp := by
    funext i
    show res n xf i + h * (∑ k ∈ Finset.range j, (bt j k : ℝ) • K j k).2 i = xtmp i
    rw [hx, xtmp_apply s.fh xf j i i.2, Prod.snd_sum, Finset.sum_apply, Finset.mul_sum]
    show xf i + _ = _
    congr 1
    refine Finset.sum_congr rfl fun k hk => ?_
    rw [hs.fh i k (Finset.mem_range.1 hk)]
    show h * ((bt j k : ℝ) * (K j k).2 i) = _
    rw [bt]
    ring
  have hft : ∀ i : Fin n, ftmp i = (K (j + 1) j).2 i := by
    intro i
    rw [hnew, hf, ode, dif_pos i.2]
    show _ = F _ _ i
    rw [ht, hxt]
    rfl
  have st := store_apply (n := n) ftmp h (re (tabC4 j)) (re (tabC5 j)) 0 j hj s.fh s.x4 s.x5
  obtain ⟨s1, s2, s3, s4⟩ := st
  have hsum : ∀ (c : ℕ → ℚ) (i : Fin n), ∑ k ∈ Finset.range (j + 1), (c k : ℝ) * (K (j + 1) k).2 i =
      ∑ k ∈ Finset.range j, (c k : ℝ) * (K j k).2 i + (c j : ℝ) * (K (j + 1) j).2 i := by
    intro c i
    rw [Finset.sum_range_succ]
    congr 1
    exact Finset.sum_congr rfl fun k hk => by rw [hold k (Finset.mem_range.1 hk)]
  have estage : stage re n (ode n F) t h xf j s = ⟨(forRange 0 n (s.fh, s.x4, s.x5) fun i v =>
      (Function.update v.1 (i * 6 + j) (ftmp i * h), Function.update v.2.1 i (v.2.1 i + re (tabC4 j) * (ftmp i * h)),
        Function.update v.2.2 i (v.2.2 i + re (tabC5 j) * (ftmp i * h) + 0))).1,
      (forRange 0 n (s.fh, s.x4, s.x5) fun i v =>
      (Function.update v.1 (i * 6 + j) (ftmp i * h), Function.update v.2.1 i (v.2.1 i + re (tabC4 j) * (ftmp i * h)),
        Function.update v.2.2 i (v.2.2 i + re (tabC5 j) * (ftmp i * h) + 0))).2.1,
      (forRange 0 n (s.fh, s.x4, s.x5) fun i v =>
      (Function.update v.1 (i * 6 + j) (ftmp i * h), Function.update v.2.1 i (v.2.1 i + re (tabC4 j) * (ftmp i * h)),
        Function.update v.2.2 i (v.2.2 i + re (tabC5 j) * (ftmp i * h) + 0))).2.2, 0, ftmp :: s.tr⟩ := by
    rw [stage, ← hx, ← hf]
    simp only [hzn]
  rw [estage]
  refine ⟨rfl, fun k hk => ?_, fun i k hk => ?_, fun i => ?_, fun i => ?_⟩
  · by_cases e : k = j
    · subst e
      rw [← hK, hnew]; rfl
    · rw [← hK, hold k (by omega)]
      exact hs.one k (by omega)
  · by_cases e : k = j
    · subst e
      rw [← hK, ← hft]
      exact s1 i i.2
    · rw [← hK, hold k (by omega), ← hs.fh i k (by omega)]
      exact s2 i i.2 k (by omega) e
  · rw [← hK, hsum, ← hft]
    refine (s3 i i.2).trans ?_
    rw [hs.x4 i]
    ring
  · rw [← hK, hsum, ← hft]
    refine (s4 i i.2).trans ?_
    rw [hs.x5 i]
    ring

/-- all the stages -/
theorem stages_inv (t h : ℝ) (fh0 xf : ℕ → ℝ) (tr : List (ℕ → ℝ)) :
    SInv F t h xf 6 (forRange 0 6 (⟨fh0, xf, xf, 0, tr⟩ : St ℝ) fun j s => stage re n (ode n F) t h xf j s) :=
  forRange_ind (by omega : 0 ≤ 6) (s := (⟨fh0, xf, xf, 0, tr⟩ : St ℝ)) (f := fun j s => stage re n (ode n F) t h xf j s)
    (fun L (s : St ℝ) => SInv F t h xf L s)
    ⟨rfl, by intro k hk; omega, by intro i k hk; omega, by intro i; simp, by intro i; simp⟩
    (by intro L s _ hL ih; exact stage_inv F t h xf hL ih)

/-- one step of the method as a function of `(t, x)` -/
noncomputable def adv (w : ℕ → ℚ) (h : ℝ) (z : ℝ × (Fin n → ℝ)) : ℝ × (Fin n → ℝ) :=
  z + h • ∑ k ∈ Finset.range 6, (w k : ℝ) • kf bt (auto F) h z 6 k

/-- one step of `Runge45` -/
theorem rkStep_ok (M : ℕ) (ti tf : ℝ) (m : ℕ) (o : Out ℝ) (hz : o.zn = 0) :
    let h := (tf - ti) / M
    let t := ti * (((M - m : ℕ) : ℝ) / M) + tf * ((m : ℝ) / M)
    let o' := rkStep re (fun x => |x|) n M (ode n F) ti tf m o
    o'.zn = 0 ∧ res n o'.xf = (adv F tabC5 h (t, res n o.xf)).2 ∧
      (∀ k < 6, (kf bt (auto F) h (t, res n o.xf) 6 k).1 = 1) ∧
      ∀ i : Fin n, o'.e i = o.e i + |h * ∑ k ∈ Finset.range 6, ((tabC5 k - tabC4 k : ℚ) : ℝ) *
        (kf bt (auto F) h (t, res n o.xf) 6 k).2 i| := by
  intro h t o'
  have hh : (tf - ti) / re M = h := by simp [h]
  have htt : ti * (re ((M - m : ℕ) : ℚ) / re M) + tf * (re m / re M) = t := by simp [t]
  set s := forRange 0 6 (⟨o.fh, o.xf, o.xf, 0, o.tr⟩ : St ℝ) fun j s => stage re n (ode n F) t h o.xf j s with hs
  have inv := stages_inv F t h o.fh o.xf o.tr
  rw [← hs] at inv
  have eo : o' = ⟨s.fh, s.x5, forRange 0 n o.e (fun i e => Function.update e i (e i + |s.x5 i - s.x4 i| + s.zn)), s.zn, s.tr⟩ := by
    simp only [o', rkStep, hh, htt, hz, ← hs]
  rw [eo]
  refine ⟨inv.zn, ?_, inv.one, fun i => ?_⟩
  · funext i
    show s.x5 i = _
    rw [inv.x5 i, adv]
    show _ = o.xf i + h * (∑ k ∈ Finset.range 6, (tabC5 k : ℝ) • kf bt (auto F) h (t, res n o.xf) 6 k).2 i
    rw [Prod.snd_sum, Finset.sum_apply]
    rfl
  · have key := forRange_ind (Nat.zero_le n) (s := o.e)
      (f := fun i e => Function.update e i (e i + |s.x5 i - s.x4 i| + s.zn))
      (fun L (y : ℕ → ℝ) => ∀ i, y i = if i < L then o.e i + |s.x5 i - s.x4 i| else o.e i) (by intro i; simp)
      (by
        intro L y _ hL ih i
        by_cases hi : i = L
        · subst hi
          rw [Function.update_self, ih, inv.zn]
          simp
        · rw [Function.update_of_ne hi, ih]
          have : (i < L + 1) ↔ (i < L) := by omega
          simp only [this])
    refine (key i).trans ?_
    rw [if_pos i.2, inv.x5 i, inv.x4 i]
    congr 2
    push_cast
    simp only [sub_mul, Finset.sum_sub_distrib]
    ring

end CppAD.Rk
