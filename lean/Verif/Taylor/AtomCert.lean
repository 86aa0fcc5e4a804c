import Verif.Taylor.AtomLoop
import Verif.Taylor.Mixed
import Verif.Taylor.Misc
import Mathlib.Analysis.Calculus.FDeriv.Pi
import Mathlib.Analysis.Calculus.Deriv.Pi
import Mathlib.Analysis.Calculus.ContDiff.FTaylorSeries

/-! # Correctness of the operators of an atomic function call -/

open scoped ContDiff Topology

namespace CppAD

namespace AtomCall

variable (c : AtomCall)

/-- values of the arguments of the call -/
def xv (e : ℕ → ℝ) : Fin c.A.n → ℝ := fun j => (c.x j).val e

/-- tangents of the arguments of the call -/
def dv (d : ℕ → ℝ) : Fin c.A.n → ℝ := fun j => match c.x j with
  | .par _ => 0
  | .var a => d a

/-- *Specification*: value of result `r` -/
def val (e : ℕ → ℝ) (r : ℕ) : ℝ := c.A.fn (c.xv e) (c.comp r)

/-- *Specification*: points where the call can be differentiated -/
def dom (e : ℕ → ℝ) : Prop := c.xv e ∈ c.A.dom

/-- the directional derivative -/
noncomputable def linv (e d : ℕ → ℝ) (r : ℕ) : ℝ := fderiv ℝ (fun x => c.A.fn x (c.comp r)) (c.xv e) (c.dv d)

theorem mem_vars {j : Fin c.A.n} {a : ℕ} (h : a ∈ (c.x j).vars) : a ∈ c.args := by
  rw [mem_args]
  refine ⟨j, j.2, ?_⟩
  cases hx : c.x j with
  | par _ => rw [hx] at h; simp [Opd.vars] at h
  | var v => rw [hx] at h; simp [Opd.vars] at h; rw [h]

theorem var_mem {j : Fin c.A.n} {a : ℕ} (h : c.x j = .var a) : a ∈ c.args := c.mem_args.mpr ⟨j, j.2, h⟩

theorem xv_congr {e e' : ℕ → ℝ} (h : ∀ a ∈ c.args, e a = e' a) : c.xv e = c.xv e' := by
  funext j
  exact Opd.val_congr fun a ha => h a (c.mem_vars ha)

theorem dv_congr {e e' : ℕ → ℝ} (h : ∀ a ∈ c.args, e a = e' a) : c.dv e = c.dv e' := by
  funext j
  unfold dv
  cases hx : c.x j with
  | par _ => rfl
  | var a => exact h a (c.var_mem hx)

theorem xv_smooth {E : Type} [NormedAddCommGroup E] [NormedSpace ℝ E] (env : E → ℕ → ℝ) (x : E)
    (h : ∀ a ∈ c.args, ContDiffAt ℝ ∞ (fun e => env e a) x) : ContDiffAt ℝ ∞ (fun e => c.xv (env e)) x := by
  rw [contDiffAt_pi]
  intro j
  unfold xv
  cases hx : c.x j with
  | par _ => exact contDiffAt_const
  | var a => exact h a (c.var_mem hx)

theorem dv_smooth (d : ℝ → ℕ → ℝ) (h : ∀ a ∈ c.args, Sm (fun e => d e a)) : ContDiffAt ℝ ∞ (fun e => c.dv (d e)) 0 := by
  rw [contDiffAt_pi]
  intro j
  unfold dv
  cases hx : c.x j with
  | par _ => exact contDiffAt_const
  | var a => exact h a (c.var_mem hx)

theorem xv_cont {E : Type} [TopologicalSpace E] (env : E → ℕ → ℝ) (x : E)
    (h : ∀ a ∈ c.args, ContinuousAt (fun e => env e a) x) : ContinuousAt (fun e => c.xv (env e)) x := by
  rw [continuousAt_pi]
  intro j
  exact Opd.cont env x _ fun a ha => h a (c.mem_vars ha)

theorem xv_deriv (env : ℝ → ℕ → ℝ) (d : ℕ → ℝ) (t : ℝ) (h : ∀ a ∈ c.args, HasDerivAt (fun u => env u a) (d a) t) :
    HasDerivAt (fun u => c.xv (env u)) (c.dv d) t := by
  rw [hasDerivAt_pi]
  intro j
  unfold xv dv
  cases hx : c.x j with
  | par _ => exact hasDerivAt_const _ _
  | var a => exact h a (c.var_mem hx)

theorem fn_par (e : ℕ → ℝ) {i : ℕ} (hi : i < c.A.m) {p : ℝ} (h : c.y i = some p) : c.A.fn (c.xv e) i = p := by
  rw [← c.par_res e i hi p h]
  congr 1

theorem fn_diff {x : Fin c.A.n → ℝ} (hx : x ∈ c.A.dom) {i : ℕ} (hi : i < c.A.m) :
    DifferentiableAt ℝ (fun x => c.A.fn x i) x := (c.A.smooth x hx i hi).differentiableAt (by simp)

theorem tcX (env : ℝ → ℕ → ℝ) (tay : ℕ → ℕ → ℝ) (q nv : ℕ) (ha : ∀ a ∈ c.args, a < nv)
    (h : ∀ v < nv, ∀ k ≤ q, tay v k = tc (fun t => env t v) k) (j : Fin c.A.n) (k : ℕ) (hk : k ≤ q) :
    (match c.x j with | .par c => if k = 0 then c else 0 | .var a => tay a k) = tc (fun t => c.xv (env t) j) k := by
  unfold xv
  cases hx : c.x j with
  | par p => exact (tc_const p k).symm
  | var a => exact h a (ha a (c.var_mem hx)) k hk

theorem tcY (env : ℝ → ℕ → ℝ) (tay : ℕ → ℕ → ℝ) (p nv : ℕ)
    (hv : ∀ t, ∀ r < c.nres, env t (nv + r) = c.val (env t) r)
    (h : ∀ r < c.nres, ∀ k < p, tay (nv + r) k = tc (fun t => env t (nv + r)) k) (i : ℕ) (hi : i < c.A.m) (k : ℕ) (hk : k < p) :
    (match c.y i with | some c => if k = 0 then c else 0 | none => tay (c.idx nv i) k)
      = tc (fun t => c.A.fn (c.xv (env t)) i) k := by
  cases hy : c.y i with
  | some q =>
    have : (fun t => c.A.fn (c.xv (env t)) i) = fun _ => q := by funext t; exact c.fn_par _ hi hy
    rw [this]; exact (tc_const q k).symm
  | none =>
    have hs : c.selY i = true := c.selY_none.mpr hy
    have hp := c.pos_lt_nres hi hs
    show tay (nv + c.pos i) k = _
    rw [h _ hp k hk]
    congr 1
    funext t
    rw [hv t _ hp, val, c.comp_pos hi hs]

end AtomCall

/-- the coefficients computed by the forward callback -/
theorem atomStep (c : AtomCall) {nv p q : ℕ} (hpq : p ≤ q) (env : ℝ → ℕ → ℝ) (tay : ℕ → ℕ → ℝ) (ha : ∀ a ∈ c.args, a < nv)
    (hs : ∀ v < nv + c.nres, Sm (fun t => env t v)) (hv : ∀ t, ∀ r < c.nres, env t (nv + r) = c.val (env t) r)
    (hd : c.dom (env 0)) (h1 : ∀ v < nv, ∀ k ≤ q, tay v k = tc (fun t => env t v) k)
    (h2 : ∀ r < c.nres, ∀ k < p, tay (nv + r) k = tc (fun t => env t (nv + r)) k) :
    ∀ i < c.A.m, c.selY i = true → ∀ k, p ≤ k → k ≤ q →
      c.A.forward c.selY p q (forRange 0 c.A.n (fun _ => 0) fun j tx => atomSetX (q + 1) tay j (c.x j) tx)
        (forRange 0 c.A.m (fun _ => 0) fun i ty => atomSetY (q + 1) p tay i (c.idx nv i) (c.y i) ty) (i * (q + 1) + k)
        = tc (fun t => env t (nv + c.pos i)) k := by
  intro i hi hsel k hk1 hk2
  have hX : ∀ a ∈ c.args, Sm (fun t => env t a) := fun a h => hs a (by have := ha a h; omega)
  rw [c.A.forward_ok c.selY p q (fun t => c.xv (env t)) _ _ hpq
    (fun j => (contDiffAt_pi.mp (c.xv_smooth env 0 hX)) j) hd ?_ ?_ i hi hsel k hk1 hk2]
  · congr 1
    funext t
    rw [hv t _ (c.pos_lt_nres hi hsel), AtomCall.val, c.comp_pos hi hsel]
  · intro j k hk
    rw [rowUp le_rfl (fun j _ => atomSetX_row (q + 1) (by omega) tay c.x j) (fun _ => 0) j j.2 k (by omega)]
    exact c.tcX env tay q nv ha h1 j k hk
  · intro i hi k hk
    rw [rowUp (by omega) (fun i _ => atomSetY_row (q + 1) p (by omega) tay (c.idx nv) c.y i) (fun _ => 0) i hi k hk]
    exact c.tcY env tay p nv hv h2 i hi k hk

theorem nv_sub (c : AtomCall) (nv : ℕ) : nv + c.nres - 1 + 1 - c.nres = nv := by have := c.nres_pos; omega

theorem atomForward_tc (c : AtomCall) {nv p q : ℕ} (env : ℝ → ℕ → ℝ) (s : Tay) (hpq : p ≤ q) (ha : ∀ a ∈ c.args, a < nv)
    (hs : ∀ v < nv + c.nres, Sm (fun t => env t v)) (hv : ∀ t, ∀ r < c.nres, env t (nv + r) = c.val (env t) r)
    (hd : c.dom (env 0)) (h1 : ∀ v < nv, ∀ k ≤ q, s v k = tc (fun t => env t v) k)
    (h2 : ∀ r < c.nres, ∀ k < p, s (nv + r) k = tc (fun t => env t (nv + r)) k) :
    ∀ r < c.nres, ∀ k, p ≤ k → k ≤ q →
      atomForward c p q (nv + c.nres - 1) s (nv + r) k = tc (fun t => env t (nv + r)) k := by
  intro r hr k hk1 hk2
  obtain ⟨g1, g2, g3⟩ := c.comp_spec hr
  unfold atomForward
  simp only [nv_sub]
  have h := (resLoop c nv p (q + 1) (fun k => k) (fun _ _ _ _ _ _ e => e)
    (fun i k => c.A.forward c.selY p q (forRange 0 c.A.n (fun _ => 0) fun j tx => atomSetX (q + 1) s j (c.x j) tx)
        (forRange 0 c.A.m (fun _ => 0) fun i ty => atomSetY (q + 1) p s i (c.idx nv i) (c.y i) ty) (i * (q + 1) + k)) s).1
    _ g1 g2 k hk1 (by omega)
  have h' := atomStep c hpq env s ha hs hv hd h1 h2 _ g1 g2 k hk1 hk2
  rw [g3] at h h'
  exact h.trans h'

theorem atomForward_frame (c : AtomCall) {nv p q : ℕ} (s : Tay) :
    ∀ v k, ¬ ((nv ≤ v ∧ v < nv + c.nres) ∧ p ≤ k ∧ k ≤ q) → atomForward c p q (nv + c.nres - 1) s v k = s v k := by
  intro v k h
  unfold atomForward
  simp only [nv_sub]
  refine (resLoop c nv p (q + 1) (fun k => k) (fun _ _ _ _ _ _ e => e) _ s).2 v k ?_
  rintro ⟨h1, k', h2, h3, rfl⟩
  exact h ⟨h1, h2, by omega⟩

/-- order zero, at every point -/
theorem atomForward_val (c : AtomCall) {nv q : ℕ} (s : Tay) :
    ∀ r < c.nres, atomForward c 0 q (nv + c.nres - 1) s (nv + r) 0 = c.val (fun v => s v 0) r := by
  intro r hr
  obtain ⟨g1, g2, g3⟩ := c.comp_spec hr
  unfold atomForward
  simp only [nv_sub]
  have h := (resLoop c nv 0 (q + 1) (fun k => k) (fun _ _ _ _ _ _ e => e)
    (fun i k => c.A.forward c.selY 0 q (forRange 0 c.A.n (fun _ => 0) fun j tx => atomSetX (q + 1) s j (c.x j) tx)
        (forRange 0 c.A.m (fun _ => 0) fun i ty => atomSetY (q + 1) 0 s i (c.idx nv i) (c.y i) ty) (i * (q + 1) + k)) s).1
    _ g1 g2 0 le_rfl (by omega)
  rw [g3] at h
  refine h.trans ?_
  refine (congrArg _ (Nat.add_zero _)).trans ?_
  rw [c.A.forward_zero c.selY q _ _ _ g1 g2]
  unfold AtomCall.val
  congr 1
  funext j
  have := rowUp le_rfl (fun j _ => atomSetX_row (q + 1) (by omega) s c.x j) (fun _ => 0) j j.2 0 (by omega)
  refine this.trans ?_
  unfold AtomCall.xv
  cases c.x j <;> simp [Opd.val]

theorem taylorIndex_eq (r ell k : ℕ) : taylorIndex r ell k = dirIdx r ell k := by
  unfold taylorIndex dirIdx
  split_ifs <;> omega

/-- one direction -/
def atomDirStep (c : AtomCall) (nv q r ell : ℕ) (s : Tay) : Tay :=
  forRange 0 c.A.m s fun i s' =>
    if c.selY i then forRange q (q + 1) s' fun k s' => s'.set (c.idx nv i) (taylorIndex r ell k)
      (c.A.forward c.selY q q (forRange 0 c.A.n (fun _ => 0) fun j tx =>
        atomSetX (q + 1) (fun v k => s v (taylorIndex r ell k)) j (c.x j) tx)
        (forRange 0 c.A.m (fun _ => 0) fun i ty =>
        atomSetY (q + 1) q (fun v k => s v (taylorIndex r ell k)) i (c.idx nv i) (c.y i) ty) (i * (q + 1) + k)) else s'

theorem atomDir_eq (c : AtomCall) (nv q r : ℕ) (s : Tay) :
    atomDir c q r (nv + c.nres - 1) s = forRange 0 r s fun ell s => atomDirStep c nv q r ell s := by
  unfold atomDir atomDirStep
  simp only [nv_sub]

theorem atomDirStep_frame (c : AtomCall) {nv q r ell : ℕ} (s : Tay) (v m : ℕ)
    (h : ¬ ((nv ≤ v ∧ v < nv + c.nres) ∧ m = dirIdx r ell q)) : atomDirStep c nv q r ell s v m = s v m := by
  refine (resLoop c nv q (q + 1) (fun k => taylorIndex r ell k) (fun _ _ _ _ _ _ _ => by omega) _ s).2 v m ?_
  rintro ⟨h1, k', h2, h3, rfl⟩
  obtain rfl : k' = q := by omega
  exact h ⟨h1, taylorIndex_eq _ _ _⟩

theorem dirIdx_ne {r ell ell' q : ℕ} (hq : 1 ≤ q) (h : ell ≠ ell') (k : ℕ) (hl : ell < r) (hl' : ell' < r) :
    dirIdx r ell k ≠ dirIdx r ell' q := by
  by_cases hk : k = q
  · subst hk
    unfold dirIdx
    rw [if_neg (by omega), if_neg (by omega)]; omega
  · have := view_frame hq hl hk
    intro e
    rw [e] at this
    unfold dirIdx at this
    rw [if_neg (by omega)] at this
    omega

theorem dirIdx_ne' {r ell q : ℕ} (hq : 1 ≤ q) (k : ℕ) (hl : ell < r) (hk : k ≠ q) :
    dirIdx r ell k ≠ dirIdx r ell q := by
  have := view_frame hq hl hk
  intro e
  rw [e] at this
  unfold dirIdx at this
  rw [if_neg (by omega)] at this
  omega

theorem atomDirStep_tc (c : AtomCall) {nv q r ell : ℕ} (s : Tay) (env : ℝ → ℕ → ℝ) (ha : ∀ a ∈ c.args, a < nv)
    (hs : ∀ v < nv + c.nres, Sm (fun t => env t v)) (hv : ∀ t, ∀ r < c.nres, env t (nv + r) = c.val (env t) r)
    (hd : c.dom (env 0)) (h1 : ∀ v < nv, ∀ k ≤ q, view r ell s v k = tc (fun t => env t v) k)
    (h2 : ∀ r' < c.nres, ∀ k < q, view r ell s (nv + r') k = tc (fun t => env t (nv + r')) k) :
    ∀ r' < c.nres, view r ell (atomDirStep c nv q r ell s) (nv + r') q = tc (fun t => env t (nv + r')) q := by
  intro r' hr
  obtain ⟨g1, g2, g3⟩ := c.comp_spec hr
  have h := (resLoop c nv q (q + 1) (fun k => taylorIndex r ell k) (fun _ _ _ _ _ _ _ => by omega)
    (fun i k => c.A.forward c.selY q q (forRange 0 c.A.n (fun _ => 0) fun j tx =>
        atomSetX (q + 1) (fun v k => s v (taylorIndex r ell k)) j (c.x j) tx)
        (forRange 0 c.A.m (fun _ => 0) fun i ty =>
        atomSetY (q + 1) q (fun v k => s v (taylorIndex r ell k)) i (c.idx nv i) (c.y i) ty) (i * (q + 1) + k)) s).1
    _ g1 g2 q le_rfl (by omega)
  have h' := atomStep c (le_refl q) env (fun v k => s v (taylorIndex r ell k)) ha hs hv hd
    (fun v hv k hk => by rw [taylorIndex_eq]; exact h1 v hv k hk)
    (fun v hv k hk => by rw [taylorIndex_eq]; exact h2 v hv k hk) _ g1 g2 q le_rfl le_rfl
  rw [g3, taylorIndex_eq] at h
  rw [g3] at h'
  exact h.trans h'

theorem atomDir_frame (c : AtomCall) {nv q r : ℕ} (s : Tay) (hq : 1 ≤ q) (v m : ℕ)
    (h : ¬ ((nv ≤ v ∧ v < nv + c.nres) ∧ (q - 1) * r + 1 ≤ m ∧ m < (q - 1) * r + 1 + r)) :
    atomDir c q r (nv + c.nres - 1) s v m = s v m := by
  rw [atomDir_eq]
  refine forRange_ind (P := fun _ (s' : Tay) => s' v m = s v m) (Nat.zero_le r) rfl ?_
  intro ell s' _ hl ih
  rw [atomDirStep_frame c s' v m, ih]
  rintro ⟨h1, rfl⟩
  refine h ⟨h1, ?_⟩
  unfold dirIdx
  rw [if_neg (by omega)]
  omega

theorem atomDir_tc (c : AtomCall) {nv q r ell : ℕ} (s : Tay) (hq : 1 ≤ q) (hell : ell < r) (env : ℝ → ℕ → ℝ)
    (ha : ∀ a ∈ c.args, a < nv)
    (hs : ∀ v < nv + c.nres, Sm (fun t => env t v)) (hv : ∀ t, ∀ r < c.nres, env t (nv + r) = c.val (env t) r)
    (hd : c.dom (env 0)) (h1 : ∀ v < nv, ∀ k ≤ q, view r ell s v k = tc (fun t => env t v) k)
    (h2 : ∀ r' < c.nres, ∀ k < q, view r ell s (nv + r') k = tc (fun t => env t (nv + r')) k) :
    ∀ r' < c.nres, view r ell (atomDir c q r (nv + c.nres - 1) s) (nv + r') q = tc (fun t => env t (nv + r')) q := by
  rw [atomDir_eq]
  have key : ∀ N ≤ r, (N ≤ ell → ∀ v k, view r ell (forRange 0 N s fun ell s => atomDirStep c nv q r ell s) v k = view r ell s v k) ∧
      (ell < N → ∀ r' < c.nres, view r ell (forRange 0 N s fun ell s => atomDirStep c nv q r ell s) (nv + r') q
        = tc (fun t => env t (nv + r')) q) := by
    intro N
    induction N with
    | zero => intro _; rw [forRange_of_le le_rfl]; exact ⟨fun _ _ _ => rfl, fun h => by omega⟩
    | succ N ih =>
      intro hN
      obtain ⟨i1, i2⟩ := ih (by omega)
      rw [forRange_succ (Nat.zero_le N)]
      refine ⟨fun h v k => ?_, fun h => ?_⟩
      · refine (atomDirStep_frame c _ v _ ?_).trans (i1 (by omega) v k)
        rintro ⟨-, e⟩
        exact dirIdx_ne hq (by omega) k hell (by omega) e
      · by_cases hl : ell = N
        · subst hl
          exact atomDirStep_tc c _ env ha hs hv hd (fun v hv k hk => by rw [i1 le_rfl, h1 v hv k hk])
            (fun r' hr k hk => by rw [i1 le_rfl, h2 r' hr k hk])
        · intro r' hr
          refine (atomDirStep_frame c _ _ _ ?_).trans (i2 (by omega) r' hr)
          rintro ⟨-, e⟩
          exact dirIdx_ne hq hl q hell (by omega) e
  exact (key r le_rfl).2 hell

/-! ## reverse mode -/

theorem sum_sel (c : AtomCall) (f : ℕ → ℝ) (m : ℕ) :
    ∑ i ∈ Finset.range m, (if c.selY i = true then f (c.pos i) else 0) = ∑ r ∈ Finset.range (c.pos m), f r := by
  induction m with
  | zero => simp [AtomCall.pos]
  | succ m ih =>
    rw [Finset.sum_range_succ, ih, c.pos_succ]
    by_cases h : c.selY m = true
    · rw [if_pos h, if_pos h, Finset.sum_range_succ]
    · rw [if_neg h, if_neg h, add_zero, add_zero]

theorem atomRev_phi (c : AtomCall) {nv n : ℕ} (ha : ∀ a ∈ c.args, a < nv) (δ P : Tay) (px : ℕ → ℝ) :
    Phi nv (fun _ => n + 1) δ (forRange 0 c.A.n P fun j P =>
      match c.x j with
      | .par _ => P
      | .var a => forRange 0 (n + 1) P fun k P => P.add a k (px (j * (n + 1) + k)))
    = Phi nv (fun _ => n + 1) δ P + ∑ j ∈ Finset.range c.A.n, ∑ k ∈ Finset.range (n + 1), px (j * (n + 1) + k) *
        (match c.x j with | .par _ => 0 | .var a => δ a k) := by
  have inner : ∀ j a (P : Tay), a < nv → ∀ N ≤ n + 1, Phi nv (fun _ => n + 1) δ
      (forRange 0 N P fun k P => P.add a k (px (j * (n + 1) + k)))
      = Phi nv (fun _ => n + 1) δ P + ∑ k ∈ Finset.range N, px (j * (n + 1) + k) * δ a k := by
    intro j a P hav N
    induction N with
    | zero => intro _; rw [forRange_of_le le_rfl]; simp
    | succ N ih =>
      intro hN
      rw [forRange_succ (Nat.zero_le N), Phi_add _ _ _ _ _ hav (by omega), ih (by omega), Finset.sum_range_succ, add_assoc]
  have key : ∀ N ≤ c.A.n, Phi nv (fun _ => n + 1) δ (forRange 0 N P fun j P =>
      match c.x j with
      | .par _ => P
      | .var a => forRange 0 (n + 1) P fun k P => P.add a k (px (j * (n + 1) + k)))
    = Phi nv (fun _ => n + 1) δ P + ∑ j ∈ Finset.range N, ∑ k ∈ Finset.range (n + 1), px (j * (n + 1) + k) *
        (match c.x j with | .par _ => 0 | .var a => δ a k) := by
    intro N
    induction N with
    | zero => intro _; rw [forRange_of_le le_rfl]; simp
    | succ N ih =>
      intro hN
      rw [forRange_succ (Nat.zero_le N), Finset.sum_range_succ, ← add_assoc, ← ih (by omega)]
      cases hx : c.x N with
      | par p => simp
      | var a =>
        exact inner N a _ (ha a (c.mem_args.mpr ⟨N, by omega, hx⟩)) (n + 1) le_rfl
  exact key c.A.n le_rfl

/-- Taylor coefficients of the directional derivative -/
theorem tc_fderiv (c : AtomCall) (X : ℝ → Fin c.A.n → ℝ) (D : ℝ → Fin c.A.n → ℝ) (hX : ContDiffAt ℝ ∞ X 0)
    (hD : ∀ j, Sm (fun t => D t j)) (hd : X 0 ∈ c.A.dom) {i : ℕ} (hi : i < c.A.m) (l n : ℕ) (hl : l ≤ n) :
    tc (fun t => fderiv ℝ (fun x => c.A.fn x i) (X t) (D t)) l
      = ∑ j : Fin c.A.n, ∑ k ∈ Finset.range (n + 1),
        tc (fun t => t ^ k * fderiv ℝ (fun x => c.A.fn x i) (X t) (Pi.single j 1)) l * tc (fun t => D t j) k := by
  have hg : ∀ j : Fin c.A.n, Sm (fun t => fderiv ℝ (fun x => c.A.fn x i) (X t) (Pi.single j 1)) := by
    intro j
    have h1 : ContDiffAt ℝ ∞ (fun x => fderiv ℝ (fun x => c.A.fn x i) x (Pi.single j 1)) (X 0) :=
      ((c.A.smooth _ hd i hi).fderiv_right (m := ∞) (by simp)).clm_apply contDiffAt_const
    exact ContDiffAt.comp (0 : ℝ) h1 hX
  have e1 : (fun t => fderiv ℝ (fun x => c.A.fn x i) (X t) (D t))
      = fun t => ∑ j : Fin c.A.n, D t j * fderiv ℝ (fun x => c.A.fn x i) (X t) (Pi.single j 1) := by
    funext t
    conv_lhs => rw [← Finset.univ_sum_single (D t)]
    rw [map_sum]
    refine Finset.sum_congr rfl fun j _ => ?_
    have : (Pi.single j (D t j) : Fin c.A.n → ℝ) = D t j • Pi.single j 1 := by
      rw [← Pi.single_smul]; simp
    rw [this, map_smul, smul_eq_mul]
  rw [e1, tc_sum _ _ fun j _ => (hD j).mul (hg j)]
  refine Finset.sum_congr rfl fun j _ => ?_
  rw [tc_mul_range (hD j) (hg j)]
  have hsub : Finset.range (l + 1) ⊆ Finset.range (n + 1) := Finset.range_mono (by omega)
  rw [← Finset.sum_subset hsub]
  · refine Finset.sum_congr rfl fun k hk => ?_
    rw [tc_pow_mul' (hg j), if_pos (by simpa [Nat.lt_succ_iff] using hk)]; ring
  · intro k _ hk
    rw [tc_pow_mul' (hg j), if_neg (by simpa [Nat.lt_succ_iff] using hk), zero_mul]

/-- what the reverse callback computes -/
theorem atom_px (c : AtomCall) (X : ℝ → Fin c.A.n → ℝ) (tx ty py : ℕ → ℝ) (n : ℕ) (hX : ContDiffAt ℝ ∞ X 0)
    (hd : X 0 ∈ c.A.dom) (htx : ∀ j : Fin c.A.n, ∀ k ≤ n, tx (j * (n + 1) + k) = tc (fun t => X t j) k)
    (hty : ∀ i < c.A.m, ∀ k ≤ n, ty (i * (n + 1) + k) = tc (fun t => c.A.fn (X t) i) k)
    (j : Fin c.A.n) (hj : c.selX j = true) (k : ℕ) (hk : k ≤ n) :
    c.A.reverse c.selX n tx ty py (j * (n + 1) + k) = ∑ i ∈ Finset.range c.A.m, ∑ l ∈ Finset.range (n + 1),
      py (i * (n + 1) + l) * tc (fun t => t ^ k * fderiv ℝ (fun x => c.A.fn x i) (X t) (Pi.single j 1)) l := by
  have h1 := c.A.reverse_ok c.selX n X tx ty py (fun j => contDiffAt_pi.mp hX j) hd htx hty j hj k hk
  refine h1.unique (HasDerivAt.fun_sum fun i hi => HasDerivAt.fun_sum fun l _ => HasDerivAt.const_mul _ ?_)
  have hi' := Finset.mem_range.mp hi
  set U : ℝ × ℝ → Fin c.A.n → ℝ := fun p => Function.update (X p.2) j (X p.2 j + p.1 * p.2 ^ k) with hU
  have hUe : U = fun p => X p.2 + (p.1 * p.2 ^ k) • (Pi.single j (1 : ℝ) : Fin c.A.n → ℝ) := by
    funext p j'
    simp only [hU, Pi.add_apply, Pi.smul_apply, smul_eq_mul]
    by_cases h : j' = j
    · subst h; simp
    · simp [h]
  have hX2 : ContDiffAt ℝ ∞ (fun p : ℝ × ℝ => X p.2) 0 := ContDiffAt.comp (0 : ℝ × ℝ) hX contDiffAt_snd
  have hUs : ContDiffAt ℝ ∞ U 0 := by
    rw [hUe]
    exact hX2.add ((contDiffAt_fst.mul (contDiffAt_snd.pow k)).smul contDiffAt_const)
  have hU0 : U 0 = X 0 := by rw [hUe]; simp
  have hG : ContDiffAt ℝ ∞ (fun p => c.A.fn (U p) i) 0 := by
    refine ContDiffAt.comp (0 : ℝ × ℝ) (g := fun x => c.A.fn x i) ?_ hUs
    rw [hU0]
    exact c.A.smooth _ hd i hi'
  refine hasDerivAt_tc (G := fun p => c.A.fn (U p) i) hG ?_ l
  have hev : ∀ᶠ t in 𝓝 (0 : ℝ), X t ∈ c.A.dom := hX.continuousAt.eventually (c.A.dom_open.mem_nhds hd)
  filter_upwards [hev] with t ht
  have hdiff := (c.fn_diff ht hi').hasFDerivAt
  have hc : HasDerivAt (fun e : ℝ => U (e, t)) (t ^ k • (Pi.single j (1 : ℝ) : Fin c.A.n → ℝ)) 0 := by
    rw [hUe]
    have : HasDerivAt (fun e : ℝ => e * t ^ k) (t ^ k) 0 := by simpa using (hasDerivAt_id (0 : ℝ)).mul_const (t ^ k)
    exact (this.smul_const (Pi.single j (1 : ℝ) : Fin c.A.n → ℝ)).const_add (X t)
  have hU00 : U (0, t) = X t := by rw [hUe]; simp
  rw [← hU00] at hdiff
  have := HasFDerivAt.comp_hasDerivAt (x := (0 : ℝ)) (l := fun x => c.A.fn x i) hdiff hc
  rw [ContinuousLinearMap.map_smul, smul_eq_mul, hU00] at this
  exact this

theorem atomReverse_ok (c : AtomCall) (nv : ℕ) (env d : ℝ → ℕ → ℝ) (n : ℕ) (s P : Tay) (ha : ∀ a ∈ c.args, a < nv)
    (hs : ∀ v < nv + c.nres, Sm (fun t => env t v)) (hds : ∀ v < nv + c.nres, Sm (fun t => d t v))
    (hv : ∀ t, ∀ r < c.nres, env t (nv + r) = c.val (env t) r)
    (hl : ∀ t, ∀ r < c.nres, d t (nv + r) = c.linv (env t) (d t) r)
    (hd : c.dom (env 0)) (h1 : ∀ v < nv + c.nres, ∀ k ≤ n, s v k = tc (fun t => env t v) k) :
    Phi nv (fun _ => n + 1) (fun v => tc (fun t => d t v)) (atomReverse c n (nv + c.nres - 1) s P)
      = Phi (nv + c.nres) (fun _ => n + 1) (fun v => tc (fun t => d t v)) P := by
  unfold atomReverse
  simp only [nv_sub]
  set ty := forDown0 c.A.m (fun _ => 0) fun i ty => atomRevY (n + 1) s i (c.idx nv i) (c.y i) ty with hty
  set py := forDown0 c.A.m (fun _ => 0) fun i py => atomRevY (n + 1) P i (c.idx nv i) ((c.y i).map fun _ => 0) py with hpy
  set tx := forDown0 c.A.n (fun _ => 0) fun j tx => atomSetX (n + 1) s j (c.x j) tx with htx
  refine Eq.trans (atomRev_phi c ha (fun v => tc fun t => d t v) P (c.A.reverse c.selX n tx ty py)) ?_
  have hX : ContDiffAt ℝ ∞ (fun t => c.xv (env t)) 0 := c.xv_smooth env 0 fun a h => hs a (by have := ha a h; omega)
  have hD : ContDiffAt ℝ ∞ (fun t => c.dv (d t)) 0 := c.dv_smooth d fun a h => hds a (by have := ha a h; omega)
  have etx : ∀ j : Fin c.A.n, ∀ k ≤ n, tx (j * (n + 1) + k) = tc (fun t => c.xv (env t) j) k := by
    intro j k hk
    rw [htx, rowDown le_rfl (fun j _ => atomSetX_row (n + 1) (by omega) s c.x j) (fun _ => 0) j j.2 k (by omega)]
    exact c.tcX env s n nv ha (fun v hv => h1 v (by omega)) j k hk
  have ety : ∀ i < c.A.m, ∀ k ≤ n, ty (i * (n + 1) + k) = tc (fun t => c.A.fn (c.xv (env t)) i) k := by
    intro i hi k hk
    rw [hty, rowDown le_rfl (fun i _ => atomRevY_row (n + 1) (by omega) s (c.idx nv) c.y i) (fun _ => 0) i hi k (by omega)]
    exact c.tcY env s (n + 1) nv hv (fun r hr k hk => h1 _ (by omega) k (by omega)) i hi k (by omega)
  have epy : ∀ i < c.A.m, ∀ k ≤ n, py (i * (n + 1) + k) = if c.selY i = true then P (nv + c.pos i) k else 0 := by
    intro i hi k hk
    rw [hpy, rowDown le_rfl (fun i _ => atomRevY_row (n + 1) (by omega) P (c.idx nv) (fun i => (c.y i).map fun _ => 0) i)
      (fun _ => 0) i hi k (by omega)]
    cases hy : c.y i with
    | some q => simp [AtomCall.selY, hy]
    | none => simp [AtomCall.selY, hy, AtomCall.idx]
  have e1 : ∑ j ∈ Finset.range c.A.n, ∑ k ∈ Finset.range (n + 1), c.A.reverse c.selX n tx ty py (j * (n + 1) + k) *
        (match c.x j with | .par _ => 0 | .var a => tc (fun t => d t a) k)
      = ∑ j : Fin c.A.n, ∑ k ∈ Finset.range (n + 1), (∑ i ∈ Finset.range c.A.m, ∑ l ∈ Finset.range (n + 1),
      py (i * (n + 1) + l) * tc (fun t => t ^ k * fderiv ℝ (fun x => c.A.fn x i) (c.xv (env t)) (Pi.single j 1)) l) *
        tc (fun t => c.dv (d t) j) k := by
    rw [Finset.sum_range fun j => ∑ k ∈ Finset.range (n + 1), c.A.reverse c.selX n tx ty py (j * (n + 1) + k) *
        (match c.x j with | .par _ => 0 | .var a => tc (fun t => d t a) k)]
    refine Finset.sum_congr rfl fun j _ => Finset.sum_congr rfl fun k hk => ?_
    cases hx : c.x j with
    | par p =>
      have : (fun t => c.dv (d t) j) = fun _ => 0 := by funext t; simp [AtomCall.dv, hx]
      rw [this, tc_const]; simp
    | var a =>
      have : (fun t => c.dv (d t) j) = fun t => d t a := by funext t; simp [AtomCall.dv, hx]
      rw [this, atom_px c (fun t => c.xv (env t)) tx ty py n hX hd etx ety j (by simp [AtomCall.selX, hx]) k
        (by simpa [Nat.lt_succ_iff] using hk)]
  rw [e1]
  have e2 : ∀ i ∈ Finset.range c.A.m, ∑ l ∈ Finset.range (n + 1), py (i * (n + 1) + l) *
      tc (fun t => fderiv ℝ (fun x => c.A.fn x i) (c.xv (env t)) (c.dv (d t))) l
      = if c.selY i = true then (fun r => ∑ l ∈ Finset.range (n + 1), P (nv + r) l * tc (fun t => d t (nv + r)) l) (c.pos i) else 0 := by
    intro i hi
    have hi' := Finset.mem_range.mp hi
    by_cases hsel : c.selY i = true
    · rw [if_pos hsel]
      refine Finset.sum_congr rfl fun l hl' => ?_
      rw [epy i hi' l (by simpa [Nat.lt_succ_iff] using hl'), if_pos hsel]
      congr 2
      funext t
      rw [hl t _ (c.pos_lt_nres hi' hsel), AtomCall.linv, c.comp_pos hi' hsel]
    · rw [if_neg hsel]
      refine Finset.sum_eq_zero fun l hl' => ?_
      rw [epy i hi' l (by simpa [Nat.lt_succ_iff] using hl'), if_neg hsel, zero_mul]
  have e3 : ∑ j : Fin c.A.n, ∑ k ∈ Finset.range (n + 1), (∑ i ∈ Finset.range c.A.m, ∑ l ∈ Finset.range (n + 1),
      py (i * (n + 1) + l) * tc (fun t => t ^ k * fderiv ℝ (fun x => c.A.fn x i) (c.xv (env t)) (Pi.single j 1)) l) *
        tc (fun t => c.dv (d t) j) k
      = ∑ i ∈ Finset.range c.A.m, ∑ l ∈ Finset.range (n + 1), py (i * (n + 1) + l) *
      tc (fun t => fderiv ℝ (fun x => c.A.fn x i) (c.xv (env t)) (c.dv (d t))) l := by
    have : ∀ i ∈ Finset.range c.A.m, ∀ l ∈ Finset.range (n + 1), py (i * (n + 1) + l) *
        tc (fun t => fderiv ℝ (fun x => c.A.fn x i) (c.xv (env t)) (c.dv (d t))) l
        = ∑ j : Fin c.A.n, ∑ k ∈ Finset.range (n + 1), py (i * (n + 1) + l) *
          (tc (fun t => t ^ k * fderiv ℝ (fun x => c.A.fn x i) (c.xv (env t)) (Pi.single j 1)) l * tc (fun t => c.dv (d t) j) k) := by
      intro i hi l hl'
      rw [tc_fderiv c _ _ hX (fun j => contDiffAt_pi.mp hD j) hd (Finset.mem_range.mp hi) l n
        (by simpa [Nat.lt_succ_iff] using hl'), Finset.mul_sum]
      exact Finset.sum_congr rfl fun j _ => Finset.mul_sum _ _ _
    rw [Finset.sum_congr rfl fun i hi => Finset.sum_congr rfl fun l hl' => this i hi l hl']
    simp only [Finset.sum_mul]
    rw [Finset.sum_congr rfl fun j _ => Finset.sum_comm, Finset.sum_comm]
    refine Finset.sum_congr rfl fun i _ => ?_
    rw [Finset.sum_congr rfl fun j _ => Finset.sum_comm, Finset.sum_comm]
    refine Finset.sum_congr rfl fun l _ => Finset.sum_congr rfl fun j _ => Finset.sum_congr rfl fun k _ => ?_
    ring
  rw [e3, Finset.sum_congr rfl e2, sum_sel c (fun r => ∑ l ∈ Finset.range (n + 1), P (nv + r) l * tc (fun t => d t (nv + r)) l)]
  unfold Phi
  rw [Finset.sum_range_add]
  rfl

theorem atomReverse_frame (c : AtomCall) (iz n : ℕ) (s P : Tay) (v : ℕ) (h : v ∉ c.args) :
    atomReverse c n iz s P v = P v := by
  unfold atomReverse
  refine forRange_ind (P := fun _ (P' : Tay) => P' v = P v) (Nat.zero_le _) rfl ?_
  intro j P' _ hj ih
  cases hx : c.x j with
  | par p => exact ih
  | var a =>
    refine forRange_ind (P := fun _ (P' : Tay) => P' v = P v) (Nat.zero_le _) ih ?_
    intro k P'' _ _ ih'
    funext k'
    rw [Tay.add_ne_row, ih']
    rintro rfl
    exact h (c.mem_args.mpr ⟨j, hj, hx⟩)

/-- calls of an atomic function that satisfies its contract are correct -/
noncomputable def atomSpec (c : AtomCall) :
    OpSpec c.nres 0 c.args c.val c.dom (atomForward c) (atomDir c) (atomReverse c) where
  lin := c.linv
  naux_lt := c.nres_pos
  val_congr e e' h r := by unfold AtomCall.val; rw [c.xv_congr h]
  dom_congr e e' h hd := by unfold AtomCall.dom; rw [← c.xv_congr h]; exact hd
  lin_congr e e' d d' h r := by
    unfold AtomCall.linv
    rw [c.xv_congr fun a ha => (h a ha).1, c.dv_congr fun a ha => (h a ha).2]
  smooth env x h hd r hr := by
    exact ContDiffAt.comp (g := fun x => c.A.fn x (c.comp r)) x (c.A.smooth _ hd _ (c.comp_spec hr).1) (c.xv_smooth env x h)
  lin_smooth env d h h' hd r hr := by
    have h1 : ContDiffAt ℝ ∞ (fun t => fderiv ℝ (fun x => c.A.fn x (c.comp r)) (c.xv (env t))) 0 :=
      ContDiffAt.comp (0 : ℝ) (((c.A.smooth _ hd _ (c.comp_spec hr).1).fderiv_right (m := ∞) (by simp))) (c.xv_smooth env 0 h)
    exact h1.clm_apply (c.dv_smooth d h')
  dom_open env x h hd := (c.xv_cont env x h).eventually (c.A.dom_open.mem_nhds hd)
  hasDeriv env d t h hd r hr :=
    HasFDerivAt.comp_hasDerivAt (x := t) (l := fun x => c.A.fn x (c.comp r)) (c.fn_diff hd (c.comp_spec hr).1).hasFDerivAt
      (c.xv_deriv env d t h)
  fwd_tc nv p q env s hpq ha hs hv hd h1 h2 := atomForward_tc c env s hpq ha hs hv hd h1 h2
  fwd_frame nv p q s _ _ := atomForward_frame c s
  fwd_zero nv q s _ r hr := by rw [atomForward_val c s r hr, atomForward_val c s r hr]
  dir_tc nv q r ell env s hq hell ha hs hv hd h1 h2 := atomDir_tc c s hq hell env ha hs hv hd h1 h2
  dir_frame nv q r s hq _ := atomDir_frame c s hq
  rev_ok nv env d n s P ha hs hds hv hl hd h1 _ := atomReverse_ok c nv env d n s P ha hs hds hv hl hd h1
  rev_frame nv n s P v _ h := atomReverse_frame c _ n s P v h

end CppAD
