import Verif.Taylor.LocLin
import Verif.Taylor.ModelMisc

/-! # Certificates of abs, sign, CExp, CSum, Par, Dis -/

open scoped ContDiff Topology PowerSeries

namespace CppAD

/-- a loop that sets cells `(iz, m + j)` from rows other than `iz` -/
theorem set_loop {lo hi m iz : ℕ} (s : Tay) (g : ℕ → Tay → ℝ)
    (hg : ∀ j s', (∀ v, v ≠ iz → ∀ k, s' v k = s v k) → g j s' = g j s) (v k : ℕ) :
    forRange lo hi s (fun j s => s.set iz (m + j) (g j s)) v k
      = if v = iz ∧ m + lo ≤ k ∧ k < m + hi then g (k - m) s else s v k := by
  rcases le_total hi lo with h | h
  · rw [forRange_of_le h, if_neg (by omega)]
  · have key := forRange_ind (lo := lo) (hi := hi) h (s := s)
      (f := fun j s => s.set iz (m + j) (g j s))
      (P := fun hi t => (∀ v k, t v k
        = if v = iz ∧ m + lo ≤ k ∧ k < m + hi then g (k - m) s else s v k))
      (fun v k => by rw [if_neg (by omega)])
      (fun j t h1 h2 ih v k => by
        have e : g j t = g j s := hg j t fun v hv k => by rw [ih, if_neg (by tauto)]
        rw [Tay.set_apply, ih, e]
        split_ifs <;> first | rfl | (exfalso; omega) | (congr 1; omega))
    exact key v k

theorem set_loop0 {lo hi iz : ℕ} (s : Tay) (g : ℕ → Tay → ℝ)
    (hg : ∀ j s', (∀ v, v ≠ iz → ∀ k, s' v k = s v k) → g j s' = g j s) (v k : ℕ) :
    forRange lo hi s (fun j s => s.set iz j (g j s)) v k
      = if v = iz ∧ lo ≤ k ∧ k < hi then g k s else s v k := by
  have := set_loop (lo := lo) (hi := hi) (m := 0) (iz := iz) s g hg v k
  simpa using this

/-! ## abs and sign -/

theorem sign_nhds {y : ℝ} (h : y ≠ 0) : ∀ᶠ u in 𝓝 y, u ≠ 0 ∧ Real.sign u = Real.sign y := by
  rcases lt_or_gt_of_ne h with h | h
  · filter_upwards [eventually_lt_nhds h] with u hu
    exact ⟨hu.ne, by rw [Real.sign_of_neg hu, Real.sign_of_neg h]⟩
  · filter_upwards [eventually_gt_nhds h] with u hu
    exact ⟨hu.ne', by rw [Real.sign_of_pos hu, Real.sign_of_pos h]⟩

theorem sign_mul_self_abs (x : ℝ) : Real.sign x * x = |x| := by
  rcases lt_trichotomy x 0 with h | h | h
  · rw [Real.sign_of_neg h, abs_of_neg h]; ring
  · simp [h]
  · rw [Real.sign_of_pos h, abs_of_pos h]; ring

noncomputable def absCert (ix : ℕ) : OpCert 1 [ix] (fun e _ => |e ix|) (fun e => e ix ≠ 0)
    (absForward ix) (absDir ix) (absReverse ix) :=
  mkLocLin [ix] (fun e => [(Real.sign (e ix), ix)]) (fun _ => 0) _ _ _ _ _
    (fun e t ht => by simp at ht; simp [ht])
    (fun e e' h => by rw [h ix (by simp)])
    (fun e e' h => rfl)
    (fun e e' h => by rw [h ix (by simp)]; exact id)
    (fun e => by simp [sign_mul_self_abs])
    (fun env x h hd => by
      filter_upwards [(h ix (by simp)).eventually (sign_nhds hd)] with e he
      exact ⟨he.1, by rw [he.2], rfl⟩)
    (fun p q iz s h _ v k => by
      have hx := h ix (by simp)
      rw [absForward, set_loop0 s (fun j s => Real.sign (s ix 0) * s ix j)
        (fun j s' h => by rw [h ix hx, h ix hx])]
      simp only [Nat.lt_succ_iff, locG, linSum_cons, linSum_nil, env0]
      simp)
    (fun q r iz s h _ v k => by
      have hx := h ix (by simp)
      simp only [absDir]
      rw [set_loop s (fun j s => Real.sign (s ix 0) * s ix ((q - 1) * r + 1 + j))
        (fun j s' h => by rw [h ix hx, h ix hx])]
      simp only [add_zero]
      split_ifs with hc
      · simp [linSum, env0, (by omega : (q - 1) * r + 1 + (k - ((q - 1) * r + 1)) = k)]
      · rfl)
    (fun nv n s P δ h => by
      have hx := h ix (by simp)
      rw [absReverse, (Ext.loop (N := nv) (A := fun _ => n + 1) (δ := δ) (P := P)
        (fun k => P nv k * (Real.sign (s ix 0) * δ ix k)) fun k Q _ h2 hQ => ?_).2]
      · simp [linSum, env0]
      · refine (Ext.add _ _ hx h2).val ?_
        rw [hQ nv k (by omega)]; ring)
    (fun nv n s P v hv hx => forRange_row fun k s => add_row (by simpa using hx))

/-- pattern shared by sign, Par and Dis: order zero is set, other orders are zero -/
theorem const_fwd {p q iz : ℕ} (s : Tay) (c : ℝ) (v k : ℕ) :
    forRange (if p = 0 then 1 else p) (q + 1) (if p = 0 then s.set iz 0 c else s)
      (fun j s => s.set iz j 0) v k
      = if v = iz ∧ p ≤ k ∧ k ≤ q then (if k = 0 then c else 0) else s v k := by
  rw [set_loop0 _ (fun _ _ => 0) (fun _ _ _ => rfl)]
  by_cases hp : p = 0
  · simp only [if_pos hp, Tay.set_apply]
    split_ifs <;> first | rfl | (exfalso; omega)
  · simp only [if_neg hp]
    split_ifs <;> first | rfl | (exfalso; omega)

theorem const_dir {q r iz : ℕ} (s : Tay) (v k : ℕ) :
    forRange 0 r s (fun ell s => s.set iz ((q - 1) * r + 1 + ell) 0) v k
      = if v = iz ∧ (q - 1) * r + 1 ≤ k ∧ k < (q - 1) * r + 1 + r then 0 else s v k := by
  rw [set_loop _ (fun _ _ => 0) (fun _ _ _ => rfl)]

/-- certificate of an operator whose result is locally constant -/
noncomputable def mkConst (args : List ℕ) (val : (ℕ → ℝ) → ℝ) (dom : (ℕ → ℝ) → Prop)
    (fwd dir : ℕ → ℕ → ℕ → Tay → Tay) (rev : ℕ → ℕ → Tay → Tay → Tay)
    (val_congr : ∀ e e', (∀ a ∈ args, e a = e' a) → val e = val e')
    (dom_congr : ∀ e e', (∀ a ∈ args, e a = e' a) → dom e → dom e')
    (hopen : ∀ {E : Type} [TopologicalSpace E] (env : E → ℕ → ℝ) (x : E),
      (∀ a ∈ args, ContinuousAt (fun e => env e a) x) → dom (env x) →
      ∀ᶠ e in 𝓝 x, dom (env e) ∧ val (env e) = val (env x))
    (fwd_eq : ∀ p q iz s, (∀ a ∈ args, a ≠ iz) → p ≤ q → ∀ v k, fwd p q iz s v k
      = if v = iz ∧ p ≤ k ∧ k ≤ q then (if k = 0 then val (env0 s) else 0) else s v k)
    (dir_eq : ∀ q r iz s, (∀ a ∈ args, a ≠ iz) → 1 ≤ q → ∀ v m, dir q r iz s v m
      = if v = iz ∧ (q - 1) * r + 1 ≤ m ∧ m < (q - 1) * r + 1 + r then 0 else s v m)
    (rev_eq : ∀ nv n s P, rev n nv s P = P) :
    OpCert 1 args (fun e _ => val e) dom fwd dir rev :=
  mkLocLin args (fun _ => []) val val dom _ _ _ (by simp) (fun _ _ _ => rfl) val_congr dom_congr
    (by simp) (fun env x h hd => (hopen env x h hd).mono fun e he => ⟨he.1, rfl, he.2⟩)
    (fun p q iz s h h' v k => by rw [fwd_eq p q iz s h h']; simp [locG])
    (fun q r iz s h h' v k => by rw [dir_eq q r iz s h h']; simp)
    (fun nv n s P δ h => by rw [rev_eq]; simp)
    (fun nv n s P v hv hx => by rw [rev_eq])

noncomputable def signCert (ix : ℕ) : OpCert 1 [ix] (fun e _ => Real.sign (e ix)) (fun e => e ix ≠ 0)
    (signForward ix) (signDir ix) (signReverse ix) :=
  mkConst [ix] _ _ _ _ _ (fun e e' h => by rw [h ix (by simp)])
    (fun e e' h => by rw [h ix (by simp)]; exact id)
    (fun env x h hd => (h ix (by simp)).eventually (sign_nhds hd))
    (fun p q iz s _ _ v k => const_fwd s _ v k) (fun q r iz s _ _ v k => const_dir s v k)
    (fun _ _ _ _ => rfl)

noncomputable def parCert (c : ℝ) : OpCert 1 [] (fun _ _ => c) (fun _ => True)
    (parForward c) parDir parReverse :=
  mkConst [] _ _ _ _ _ (fun e e' h => rfl) (fun e e' h => id)
    (fun env x h hd => by simp)
    (fun p q iz s _ _ v k => const_fwd s _ v k) (fun q r iz s _ _ v k => const_dir s v k)
    (fun _ _ _ _ => rfl)

noncomputable def disCert (fn : ℝ → ℝ) (ix : ℕ) : OpCert 1 [ix] (fun e _ => fn (e ix))
    (fun e => ∀ᶠ y in 𝓝 (e ix), fn y = fn (e ix))
    (disForward fn ix) (disDir ix) (disReverse ix) :=
  mkConst [ix] _ _ _ _ _ (fun e e' h => by rw [h ix (by simp)])
    (fun e e' h => by rw [h ix (by simp)]; exact id)
    (fun env x h hd => by
      have h1 := (h ix (by simp)).eventually hd
      have h2 := (h ix (by simp)).eventually (eventually_eventually_nhds.mpr hd)
      filter_upwards [h1, h2] with e he1 he2
      refine ⟨?_, he1⟩
      rw [he1]; exact he2)
    (fun p q iz s _ hpq v k => by
      have e : disForward fn ix p q iz s = forRange (if p = 0 then 1 else p) (q + 1)
          (if p = 0 then s.set iz 0 (fn (s ix 0)) else s) (fun j s => s.set iz j 0) := by
        unfold disForward
        rw [forRange_succ le_rfl, forRange_of_le le_rfl]
        refine forRange_congr _ fun j s h1 h2 => ?_
        have : (j - 1) * 1 + 1 + 0 = j := by split at h1 <;> omega
        rw [this]
      rw [e]
      exact const_fwd s _ v k)
    (fun q r iz s _ _ v k => by
      have e : disDir ix q r iz s = forRange 0 r s (fun ell s => s.set iz ((q - 1) * r + 1 + ell) 0) := by
        unfold disDir
        refine forRange_congr _ fun j s h1 h2 => ?_
        rw [forRange_succ le_rfl, forRange_of_le le_rfl]
      rw [e]
      exact const_dir s v k)
    (fun _ _ _ _ => rfl)

/-! ## conditional expression -/

/-- value of an operand in an environment -/
def Opd.val (e : ℕ → ℝ) : Opd → ℝ
  | .par c => c
  | .var v => e v

/-- variables in an operand -/
def Opd.vars : Opd → List ℕ
  | .par _ => []
  | .var v => [v]

def Opd.isPar : Opd → Prop
  | .par _ => True
  | .var _ => False

def Opd.lin : Opd → List (ℝ × ℕ)
  | .par _ => []
  | .var v => [(1, v)]

def Opd.con : Opd → ℝ
  | .par c => c
  | .var _ => 0

theorem Opd.val_congr {e e' : ℕ → ℝ} : ∀ {o : Opd}, (∀ a ∈ o.vars, e a = e' a) → o.val e = o.val e'
  | .par _, _ => rfl
  | .var v, h => h v (by simp [Opd.vars])

theorem Opd.val_eq (e : ℕ → ℝ) (o : Opd) : o.val e = linSum o.lin e + o.con := by
  cases o <;> simp [Opd.val, Opd.lin, Opd.con]

theorem Opd.cont {E : Type} [TopologicalSpace E] (env : E → ℕ → ℝ) (x : E) (o : Opd)
    (h : ∀ a ∈ o.vars, ContinuousAt (fun e => env e a) x) : ContinuousAt (fun e => o.val (env e)) x := by
  cases o with
  | par c => exact continuousAt_const
  | var v => exact h v (by simp [Opd.vars])

/-- the outcome of the comparison does not change near the point -/
def cexpDom (l r : Opd) (e : ℕ → ℝ) : Prop := l.val e ≠ r.val e ∨ (l.isPar ∧ r.isPar)

theorem holds_of_lt {a b a' b' : ℝ} (h : a < b) (h' : a' < b') (c : CompareOp) :
    c.holds a b ↔ c.holds a' b' := by
  cases c <;> simp only [CompareOp.holds] <;> constructor <;> intro _ <;> linarith

theorem holds_of_gt {a b a' b' : ℝ} (h : b < a) (h' : b' < a') (c : CompareOp) :
    c.holds a b ↔ c.holds a' b' := by
  cases c <;> simp only [CompareOp.holds] <;> constructor <;> intro _ <;> linarith

theorem cexp_open (cop : CompareOp) (l r : Opd) {E : Type} [TopologicalSpace E] (env : E → ℕ → ℝ) (x : E)
    (hl : ∀ a ∈ l.vars, ContinuousAt (fun e => env e a) x)
    (hr : ∀ a ∈ r.vars, ContinuousAt (fun e => env e a) x) (hd : cexpDom l r (env x)) :
    ∀ᶠ e in 𝓝 x, cexpDom l r (env e) ∧
      (cop.holds (l.val (env e)) (r.val (env e)) ↔ cop.holds (l.val (env x)) (r.val (env x))) := by
  rcases hd with hd | hd
  · rcases lt_or_gt_of_ne hd with h | h
    · filter_upwards [(l.cont env x hl).eventually_lt (r.cont env x hr) h] with e he
      exact ⟨Or.inl he.ne, holds_of_lt he h cop⟩
    · filter_upwards [(r.cont env x hr).eventually_lt (l.cont env x hl) h] with e he
      exact ⟨Or.inl he.ne', holds_of_gt he h cop⟩
  · refine Filter.Eventually.of_forall fun e => ⟨Or.inr hd, ?_⟩
    cases l with
    | var => exact hd.1.elim
    | par => cases r with
      | var => exact hd.2.elim
      | par => exact Iff.rfl

theorem linSum_opd (s : Tay) (k : ℕ) (o : Opd) : linSum o.lin (fun v => s v k) = o.atk s k := by
  cases o <;> simp [Opd.lin, Opd.atk]

theorem Opd.at0_eq (s : Tay) (o : Opd) : o.at0 s = o.val (env0 s) := by
  cases o <;> rfl

theorem Opd.at0_congr {s s' : Tay} {iz : ℕ} {o : Opd} (h : ∀ v, v ≠ iz → ∀ k, s' v k = s v k)
    (ho : ∀ a ∈ o.vars, a ≠ iz) : o.at0 s' = o.at0 s := by
  cases o with
  | par => rfl
  | var v => exact h v (ho v (by simp [Opd.vars])) 0

theorem Opd.atk_congr {s s' : Tay} {iz k : ℕ} {o : Opd} (h : ∀ v, v ≠ iz → ∀ k, s' v k = s v k)
    (ho : ∀ a ∈ o.vars, a ≠ iz) : o.atk s' k = o.atk s k := by
  cases o with
  | par => rfl
  | var v => exact h v (ho v (by simp [Opd.vars])) k

/-- variables in a conditional expression -/
def cexpArgs (l r t f : Opd) : List ℕ := l.vars ++ r.vars ++ t.vars ++ f.vars

open Classical in
theorem opd_rev {nv n : ℕ} {δ P : Tay} {o : Opd} (ho : ∀ a ∈ o.vars, a < nv) (cnd : Prop)  :
    Ext nv (fun _ => n + 1) δ P (opdAdd o n (fun j P => if cnd then P nv j else 0) P)
      (∑ k ∈ Finset.range (n + 1), P nv k * (if cnd then linSum o.lin (fun v => δ v k) else 0)) := by
  cases o with
  | par c => 
    simp only [Opd.lin, linSum_nil, ite_self, mul_zero, Finset.sum_const_zero]
    exact Ext.refl P
  | var v =>
    have hv := ho v (by simp [Opd.vars])
    have key := forDown0_ind (n := n + 1) (s := P)
      (f := fun j (P : Tay) => P.add v j (if cnd then P nv j else 0))
      (fun j Q => j ≤ n + 1 ∧ Ext nv (fun _ => n + 1) δ P Q (∑ k ∈ Finset.Ico j (n + 1), P nv k * (if cnd then δ v k else 0)))
      ⟨le_rfl, by simpa using Ext.refl P⟩
      (by
        rintro j Q hj ⟨_, hQ⟩
        refine ⟨by omega, (hQ.add_to _ hv (by omega)).val ?_⟩
        rw [Finset.sum_eq_sum_Ico_succ_bot (by omega : j < n + 1), hQ.1 nv j (by omega)]
        split_ifs <;> ring)
    refine key.2.val ?_
    rw [Finset.range_eq_Ico]
    exact Finset.sum_congr rfl fun k _ => by simp [Opd.lin]

open Classical in
noncomputable def cexpCert (cop : CompareOp) (l r t f : Opd) :
    OpCert 1 (cexpArgs l r t f) (fun e _ => condExp cop (l.val e) (r.val e) (t.val e) (f.val e))
    (cexpDom l r) (cexpForward cop l r t f) (cexpDir cop l r t f) (cexpReverse cop l r t f) :=
  mkLocLin (cexpArgs l r t f)
    (fun e => if cop.holds (l.val e) (r.val e) then t.lin else f.lin)
    (fun e => if cop.holds (l.val e) (r.val e) then t.con else f.con) _ _ _ _ _
    (fun e a ha => by
      have : ∀ o : Opd, a ∈ o.lin → a.2 ∈ o.vars := by
        intro o; cases o <;> simp [Opd.lin, Opd.vars]; rintro rfl; rfl
      simp only [cexpArgs, List.mem_append]
      split at ha
      · exact Or.inl (Or.inr (this _ ha))
      · exact Or.inr (this _ ha))
    (fun e e' h => by
      rw [Opd.val_congr (o := l) fun a ha => h a (by simp [cexpArgs, ha]),
        Opd.val_congr (o := r) fun a ha => h a (by simp [cexpArgs, ha])])
    (fun e e' h => by
      rw [Opd.val_congr (o := l) fun a ha => h a (by simp [cexpArgs, ha]),
        Opd.val_congr (o := r) fun a ha => h a (by simp [cexpArgs, ha])])
    (fun e e' h => by
      unfold cexpDom
      rw [Opd.val_congr (o := l) fun a ha => h a (by simp [cexpArgs, ha]),
        Opd.val_congr (o := r) fun a ha => h a (by simp [cexpArgs, ha])]; exact id)
    (fun e => by unfold condExp; split <;> rw [Opd.val_eq])
    (fun env x h hd => by
      filter_upwards [cexp_open cop l r env x (fun a ha => h a (by simp [cexpArgs, ha]))
        (fun a ha => h a (by simp [cexpArgs, ha])) hd] with e he
      refine ⟨he.1, ?_, ?_⟩ <;> simp only [he.2])
    (fun p q iz s h _ v k => by
      have hl : ∀ a ∈ l.vars, a ≠ iz := fun a ha => h a (by simp [cexpArgs, ha])
      have hr : ∀ a ∈ r.vars, a ≠ iz := fun a ha => h a (by simp [cexpArgs, ha])
      have ht : ∀ a ∈ t.vars, a ≠ iz := fun a ha => h a (by simp [cexpArgs, ha])
      have hf : ∀ a ∈ f.vars, a ≠ iz := fun a ha => h a (by simp [cexpArgs, ha])
      unfold cexpForward
      rw [set_loop0 _ (fun d s' => condExp cop (l.at0 s) (r.at0 s) (t.atk s' d) (f.atk s' d))
        (fun j s' h => by rw [Opd.atk_congr h ht, Opd.atk_congr h hf])]
      simp only [locG, ← Opd.at0_eq, condExp]
      have e1 : ∀ o : Opd, (∀ a ∈ o.vars, a ≠ iz) → ∀ c, o.atk (if p = 0 then s.set iz 0 c else s) k = o.atk s k := by
        intro o ho c
        refine Opd.atk_congr (iz := iz) (fun v hv k => ?_) ho
        split
        · rw [Tay.set_ne_row _ _ _ _ hv]
        · rfl
      have e2 : ∀ o : Opd, linSum o.lin (fun v => s v 0) + o.con = o.at0 s := by
        intro o; rw [Opd.at0_eq, Opd.val_eq]; rfl
      rw [e1 t ht, e1 f hf]
      by_cases hp : p = 0
      · subst hp
        simp only [if_true, Tay.set_apply]
        by_cases hk : k = 0
        · subst hk
          by_cases hv : v = iz <;> by_cases hc : cop.holds (l.at0 s) (r.at0 s) <;>
            simp [hv, hc, e2]
        · by_cases hv : v = iz <;> by_cases hc : cop.holds (l.at0 s) (r.at0 s) <;>
            simp [hv, hc, hk, linSum_opd, (by omega : (1 ≤ k)), Nat.lt_succ_iff]
      · simp only [if_neg hp]
        by_cases hv : v = iz ∧ p ≤ k ∧ k ≤ q
        · rw [if_pos (by omega), if_pos hv]
          by_cases hc : cop.holds (l.at0 s) (r.at0 s) <;> simp [hc, linSum_opd] <;> omega
        · rw [if_neg (by omega), if_neg hv])
    (fun q nr iz s h _ v k => by
      have ht : ∀ a ∈ t.vars, a ≠ iz := fun a ha => h a (by simp [cexpArgs, ha])
      have hf : ∀ a ∈ f.vars, a ≠ iz := fun a ha => h a (by simp [cexpArgs, ha])
      unfold cexpDir
      rw [set_loop _ (fun ell s' => condExp cop (l.at0 s) (r.at0 s) (t.atk s' ((q - 1) * nr + 1 + ell))
        (f.atk s' ((q - 1) * nr + 1 + ell)))
        (fun j s' h => by rw [Opd.atk_congr h ht, Opd.atk_congr h hf])]
      simp only [add_zero]
      split_ifs with h1 h2 h2
      · rw [← Opd.at0_eq, ← Opd.at0_eq] at h2
        rw [linSum_opd, condExp, if_pos h2, (by omega : (q - 1) * nr + 1 + (k - ((q - 1) * nr + 1)) = k)]
      · rw [← Opd.at0_eq, ← Opd.at0_eq] at h2
        rw [linSum_opd, condExp, if_neg h2, (by omega : (q - 1) * nr + 1 + (k - ((q - 1) * nr + 1)) = k)]
      · rfl)
    (fun nv n s P δ h => by
      have ht : ∀ a ∈ t.vars, a < nv := fun a ha => h a (by simp [cexpArgs, ha])
      have hf : ∀ a ∈ f.vars, a < nv := fun a ha => h a (by simp [cexpArgs, ha])
      have h1 := opd_rev (n := n) (δ := δ) (P := P) ht (cop.holds (l.at0 s) (r.at0 s))
      have h2 := opd_rev (n := n) (δ := δ) (P := opdAdd t n
          (fun j P => if cop.holds (l.at0 s) (r.at0 s) then P nv j else 0) P) hf
          (¬ cop.holds (l.at0 s) (r.at0 s))
      have h3 := (h1.trans h2).2
      refine Eq.trans ?_ (h3.trans ?_)
      · unfold cexpReverse condExp
        congr 2
        funext j P
        split_ifs <;> simp_all
      · congr 1
        rw [← Finset.sum_add_distrib]
        refine Finset.sum_congr rfl fun k _ => ?_
        rw [h1.1 nv k (by omega)]
        simp only [← Opd.at0_eq]
        split_ifs <;> ring)
    (fun nv n s P v hv hx => by
      simp only [cexpArgs, List.mem_append, not_or] at hx
      unfold cexpReverse
      have key : ∀ (o : Opd) (P : Tay) (g : ℕ → Tay → ℝ), v ∉ o.vars → opdAdd o n g P v = P v := by
        intro o P g ho
        cases o with
        | par => rfl
        | var u => exact forDown0_row fun k s => add_row (by simpa [Opd.vars] using ho)
      rw [key f _ _ hx.2, key t _ _ hx.1.2])

/-! ## cumulative sum -/

theorem csum_step {lo hi iz m x : ℕ} (c : ℝ) (s : Tay) (hx : x ≠ iz) (v k : ℕ) :
    forRange lo hi s (fun j s => s.add iz (m + j) (c * s x (m + j))) v k
      = if v = iz ∧ m + lo ≤ k ∧ k < m + hi then s v k + c * s x k else s v k := by
  rcases le_total hi lo with h | h
  · rw [forRange_of_le h, if_neg (by omega)]
  · have key := forRange_ind (lo := lo) (hi := hi) h (s := s)
      (f := fun j s => s.add iz (m + j) (c * s x (m + j)))
      (P := fun hi t => (∀ v k, t v k
        = if v = iz ∧ m + lo ≤ k ∧ k < m + hi then s v k + c * s x k else s v k))
      (fun v k => by rw [if_neg (by omega)])
      (fun j t h1 h2 ih v k => by
        have e : t x (m + j) = s x (m + j) := by rw [ih, if_neg (by tauto)]
        rw [Tay.add_apply, ih v k, e, ih iz (m + j)]
        by_cases hv : v = iz
        · subst hv
          by_cases hk : k = m + j
          · subst hk
            rw [if_pos ⟨rfl, rfl⟩, if_neg (by omega), if_pos (by omega)]
          · rw [if_neg (by omega)]
            by_cases hk2 : v = v ∧ m + lo ≤ k ∧ k < m + j
            · rw [if_pos hk2, if_pos (by omega)]
            · rw [if_neg hk2, if_neg (by omega)]
        · rw [if_neg (by omega), if_neg (by omega), if_neg (by omega)])
    exact key v k

theorem csum_fold {lo hi iz m : ℕ} (c : ℝ) (xs : List ℕ) (hx : ∀ x ∈ xs, x ≠ iz) (s : Tay) (v k : ℕ) :
    xs.foldl (fun s x => forRange lo hi s (fun j s => s.add iz (m + j) (c * s x (m + j)))) s v k
      = if v = iz ∧ m + lo ≤ k ∧ k < m + hi then s v k + linSum (xs.map fun x => (c, x)) (fun v => s v k)
        else s v k := by
  induction xs generalizing s with
  | nil => simp
  | cons x xs ih =>
    rw [List.foldl_cons, ih (fun x hx' => hx x (by simp [hx']))]
    have hx0 := hx x (by simp)
    have e : linSum (xs.map fun x => (c, x)) (fun v => forRange lo hi s
        (fun j s => s.add iz (m + j) (c * s x (m + j))) v k) = linSum (xs.map fun x => (c, x)) (fun v => s v k) := by
      refine linSum_congr fun t ht => ?_
      obtain ⟨y, hy, rfl⟩ := List.mem_map.mp ht
      have : y ≠ iz := hx y (by simp [hy])
      rw [csum_step _ _ hx0, if_neg (by tauto)]
    rw [e, csum_step _ _ hx0]
    simp only [List.map_cons, linSum_cons]
    split_ifs
    · ring
    · rfl

theorem par_fold (c : ℝ) (ps : List ℝ) (iz : ℕ) (s : Tay) :
    ps.foldl (fun s a => s.add iz 0 (c * a)) s = s.add iz 0 (c * ps.sum) := by
  induction ps generalizing s with
  | nil =>
    funext v k
    simp only [List.foldl_nil, Tay.add_apply, List.sum_nil, mul_zero, add_zero]
    split_ifs with h
    · rw [h.1, h.2]
    · rfl
  | cons a ps ih =>
    rw [List.foldl_cons, ih]
    funext v k
    simp only [Tay.add_apply, List.sum_cons]
    by_cases h : v = iz ∧ k = 0
    · simp [h]; ring
    · simp [h]

theorem linSum_append (a b : List (ℝ × ℕ)) (e : ℕ → ℝ) : linSum (a ++ b) e = linSum a e + linSum b e := by
  simp [linSum]

theorem csum_rev {nv n : ℕ} {δ : Tay} (c : ℝ) (xs : List ℕ) (hx : ∀ x ∈ xs, x < nv) (P : Tay) :
    Ext nv (fun _ => n + 1) δ P
      (xs.foldl (fun P x => forDown0 (n + 1) P fun k P => P.add x k (c * P nv k)) P)
      (∑ k ∈ Finset.range (n + 1), P nv k * linSum (xs.map fun x => (c, x)) (fun v => δ v k)) := by
  induction xs generalizing P with
  | nil => simpa using Ext.refl P
  | cons x xs ih =>
    rw [List.foldl_cons]
    have hv := hx x (by simp)
    have key := forDown0_ind (n := n + 1) (s := P)
      (f := fun j (P : Tay) => P.add x j (c * P nv j))
      (fun j Q => j ≤ n + 1 ∧ Ext nv (fun _ => n + 1) δ P Q (∑ k ∈ Finset.Ico j (n + 1), P nv k * (c * δ x k)))
      ⟨le_rfl, by simpa using Ext.refl P⟩
      (by
        rintro j Q hj ⟨_, hQ⟩
        refine ⟨by omega, (hQ.add_to _ hv (by omega)).val ?_⟩
        rw [Finset.sum_eq_sum_Ico_succ_bot (by omega : j < n + 1), hQ.1 nv j (by omega)]
        ring)
    refine (key.2.trans (ih (fun x h => hx x (by simp [h])) _)).val ?_
    rw [← Finset.range_eq_Ico, ← Finset.sum_add_distrib]
    refine Finset.sum_congr rfl fun k _ => ?_
    rw [key.2.1 nv k (by omega)]
    simp; ring

theorem csum_fold_row {n v : ℕ} (g : ℕ → Tay → ℝ) (xs : List ℕ) (hx : v ∉ xs) (P : Tay) :
    (xs.foldl (fun P x => forDown0 (n + 1) P fun k P => P.add x k (g k P)) P) v = P v := by
  induction xs generalizing P with
  | nil => rfl
  | cons x xs ih =>
    simp only [List.mem_cons, not_or] at hx
    rw [List.foldl_cons, ih hx.2, forDown0_row fun k s => add_row hx.1]

theorem csum_lin {iz : ℕ} (S s : Tay) (c : ℝ) (xs : List ℕ) (hx : ∀ x ∈ xs, x ≠ iz) (k : ℕ)
    (h : ∀ v, v ≠ iz → ∀ k, S v k = s v k) :
    linSum (xs.map fun x => (c, x)) (fun v => S v k) = linSum (xs.map fun x => (c, x)) (fun v => s v k) := by
  refine linSum_congr fun t ht => ?_
  obtain ⟨y, hy, rfl⟩ := List.mem_map.mp ht
  exact h y (hx y hy) k

/-- terms of a cumulative sum -/
def csumTerms (addv subv : List ℕ) : List (ℝ × ℕ) :=
  (addv.map fun x => ((1 : ℝ), x)) ++ subv.map fun x => ((-1 : ℝ), x)

noncomputable def csumCert (c : ℝ) (addv subv : List ℕ) (addp subp : List ℝ) :
    OpCert 1 (addv ++ subv)
      (fun e _ => c + addp.sum - subp.sum + (addv.map e).sum - (subv.map e).sum) (fun _ => True)
      (csumForward c addv subv addp subp) (csumDir addv subv) (csumReverse addv subv) :=
  mkLocLin (addv ++ subv) (fun _ => csumTerms addv subv) (fun _ => c + addp.sum - subp.sum) _ _ _ _ _
    (fun e t ht => by
      simp only [csumTerms, List.mem_append, List.mem_map] at ht ⊢
      rcases ht with ⟨x, hx, rfl⟩ | ⟨x, hx, rfl⟩
      · exact Or.inl hx
      · exact Or.inr hx)
    (fun _ _ _ => rfl) (fun _ _ _ => rfl) (fun _ _ _ => id)
    (fun e => by
      have h1 : linSum (addv.map fun x => ((1 : ℝ), x)) e = (addv.map e).sum := by
        simp [linSum, Function.comp_def]
      have h2 : linSum (subv.map fun x => ((-1 : ℝ), x)) e = - (subv.map e).sum := by
        induction subv with
        | nil => simp
        | cons x xs ih => simp [ih]; ring
      rw [csumTerms, linSum_append, h1, h2]; ring)
    (fun env x _ _ => by simp)
    (fun p q iz s h _ v k => by
      have ha : ∀ x ∈ addv, x ≠ iz := fun x hx => h x (by simp [hx])
      have hb : ∀ x ∈ subv, x ≠ iz := fun x hx => h x (by simp [hx])
      have e1 := fun s => par_fold 1 addp iz s
      have e2 := fun s => par_fold (-1) subp iz s
      have e3 := fun s v k => csum_fold (lo := p) (hi := q + 1) (m := 0) 1 addv ha s v k
      have e4 := fun s v k => csum_fold (lo := p) (hi := q + 1) (m := 0) (-1) subv hb s v k
      simp only [one_mul, neg_mul, zero_add] at e1 e2 e3 e4
      have e0 : ∀ v k, (if p = 0 then
          subp.foldl (fun s a => s.add iz 0 (-a)) (addp.foldl (fun s a => s.add iz 0 a)
            ((forRange p (q + 1) s fun k s => s.set iz k 0).set iz 0 c))
          else (forRange p (q + 1) s fun k s => s.set iz k 0)) v k
          = if v = iz ∧ p ≤ k ∧ k < q + 1 then (if k = 0 then c + addp.sum - subp.sum else 0) else s v k := by
        intro v k
        have h0 : ∀ v k, forRange p (q + 1) s (fun k s => s.set iz k 0) v k
            = if v = iz ∧ p ≤ k ∧ k < q + 1 then 0 else s v k := fun v k =>
          set_loop0 _ (fun _ _ => 0) (fun _ _ _ => rfl) v k
        by_cases hp : p = 0
        · rw [if_pos hp, e1, e2]
          simp only [Tay.add_apply, Tay.set_apply, h0]
          by_cases hv : v = iz ∧ k = 0
          · obtain ⟨rfl, rfl⟩ := hv
            simp [hp]; ring
          · rw [if_neg hv, if_neg hv, if_neg hv]
            by_cases hv2 : v = iz ∧ p ≤ k ∧ k < q + 1
            · rw [if_pos hv2, if_pos hv2, if_neg (by omega)]
            · rw [if_neg hv2, if_neg hv2]
        · rw [if_neg hp, h0]
          by_cases hv : v = iz ∧ p ≤ k ∧ k < q + 1
          · rw [if_pos hv, if_pos hv, if_neg (by omega)]
          · rw [if_neg hv, if_neg hv]
      unfold csumForward
      set S0 := (if p = 0 then
          subp.foldl (fun s a => s.add iz 0 (-a)) (addp.foldl (fun s a => s.add iz 0 a)
            ((forRange p (q + 1) s fun k s => s.set iz k 0).set iz 0 c))
          else (forRange p (q + 1) s fun k s => s.set iz k 0)) with hS0
      have g0 : ∀ v, v ≠ iz → ∀ k, S0 v k = s v k := fun v hv k => by rw [e0, if_neg (by tauto)]
      refine (e4 _ v k).trans ?_
      rw [csum_lin _ s (-1) subv hb k (fun v hv k => by rw [e3, if_neg (by tauto)]; exact g0 v hv k),
        e3 S0, csum_lin S0 s 1 addv ha k g0, e0, locG, csumTerms, linSum_append]
      simp only [Nat.lt_succ_iff]
      by_cases hv : v = iz ∧ p ≤ k ∧ k ≤ q
      · simp only [if_pos hv]
        ring
      · simp only [if_neg hv])
    (fun q r iz s h _ v k => by
      have ha : ∀ x ∈ addv, x ≠ iz := fun x hx => h x (by simp [hx])
      have hb : ∀ x ∈ subv, x ≠ iz := fun x hx => h x (by simp [hx])
      have e3 := fun s v k => csum_fold (lo := 0) (hi := r) (m := (q - 1) * r + 1) 1 addv ha s v k
      have e4 := fun s v k => csum_fold (lo := 0) (hi := r) (m := (q - 1) * r + 1) (-1) subv hb s v k
      simp only [one_mul, neg_mul, add_zero] at e3 e4
      unfold csumDir
      set S0 := forRange 0 r s fun ell s => s.set iz ((q - 1) * r + 1 + ell) 0 with hS0
      have e0 : ∀ v k, S0 v k = _ := fun v k => const_dir (q := q) (r := r) (iz := iz) s v k
      have g0 : ∀ v, v ≠ iz → ∀ k, S0 v k = s v k := fun v hv k => by rw [e0, if_neg (by tauto)]
      refine (e4 _ v k).trans ?_
      rw [csum_lin _ s (-1) subv hb k (fun v hv k => by rw [e3, if_neg (by tauto)]; exact g0 v hv k),
        e3 S0, csum_lin S0 s 1 addv ha k g0, e0, csumTerms, linSum_append]
      by_cases hv : v = iz ∧ (q - 1) * r + 1 ≤ k ∧ k < (q - 1) * r + 1 + r
      · rw [if_pos hv, if_pos hv, if_pos hv, if_pos hv]
        ring
      · rw [if_neg hv, if_neg hv, if_neg hv, if_neg hv])
    (fun nv n s P δ h => by
      have h1 := csum_rev (n := n) (δ := δ) 1 addv (fun x hx => h x (by simp [hx])) P
      have h2 := csum_rev (n := n) (δ := δ) (-1) subv (fun x hx => h x (by simp [hx]))
        (addv.foldl (fun P x => forDown0 (n + 1) P fun k P => P.add x k (1 * P nv k)) P)
      have h3 := (h1.trans h2).2
      simp only [one_mul, neg_mul] at h3
      unfold csumReverse
      rw [h3]
      congr 1
      rw [← Finset.sum_add_distrib]
      refine Finset.sum_congr rfl fun k _ => ?_
      have := h1.1 nv k (by omega)
      simp only [one_mul] at this
      rw [this, csumTerms, linSum_append]; ring)
    (fun nv n s P v hv hx => by
      simp only [List.mem_append, not_or] at hx
      unfold csumReverse
      rw [csum_fold_row (fun k P => - P nv k) subv hx.2, csum_fold_row (fun k P => P nv k) addv hx.1])

end CppAD
