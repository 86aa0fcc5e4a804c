import Verif.Taylor.Loop
import Verif.Taylor.Series

/-! # Proof obligations of one operator

`OpCert` collects what has to be proved about the forward, multiple direction forward and
reverse functions of one operator so that the sweeps over a whole tape are correct.
-/

open scoped ContDiff Topology PowerSeries

namespace CppAD

/-- position of order `k`, direction `ell` in the multiple direction storage of a variable,
`m = (k-1) * r + ell + 1`, order zero is at position `0`;
cppad/local/sweep/forward_dir.hpp:46-75 -/
def dirIdx (r ell k : ℕ) : ℕ := if k = 0 then 0 else (k - 1) * r + ell + 1

/-- single direction coefficients of direction `ell` -/
def view (r ell : ℕ) (s : Tay) : Tay := fun v k => s v (dirIdx r ell k)

/-- `∑_{v < N} ∑_{k < A v} P v k * δ v k` -/
noncomputable def Phi (N : ℕ) (A : ℕ → ℕ) (δ P : Tay) : ℝ :=
  ∑ v ∈ Finset.range N, ∑ k ∈ Finset.range (A v), P v k * δ v k

theorem Phi_set (N : ℕ) (A : ℕ → ℕ) (δ P : Tay) {v k : ℕ} (x : ℝ) (hv : v < N) (hk : k < A v) :
    Phi N A δ (P.set v k x) = Phi N A δ P + (x - P v k) * δ v k := by
  unfold Phi
  rw [← Finset.add_sum_erase _ _ (Finset.mem_range.mpr hv),
    ← Finset.add_sum_erase (a := v) _ _ (Finset.mem_range.mpr hv),
    ← Finset.add_sum_erase _ _ (Finset.mem_range.mpr hk),
    ← Finset.add_sum_erase (a := k) _ _ (Finset.mem_range.mpr hk)]
  have h1 : ∑ j ∈ (Finset.range (A v)).erase k, P.set v k x v j * δ v j
      = ∑ j ∈ (Finset.range (A v)).erase k, P v j * δ v j :=
    Finset.sum_congr rfl fun j hj => by
      rw [Tay.set_ne_ord _ _ _ _ (Finset.ne_of_mem_erase hj)]
  have h2 : ∑ u ∈ (Finset.range N).erase v, ∑ j ∈ Finset.range (A u), P.set v k x u j * δ u j
      = ∑ u ∈ (Finset.range N).erase v, ∑ j ∈ Finset.range (A u), P u j * δ u j :=
    Finset.sum_congr rfl fun u hu => Finset.sum_congr rfl fun j _ => by
      rw [Tay.set_ne_row _ _ _ _ (Finset.ne_of_mem_erase hu)]
  rw [h1, h2, Tay.set_self]; ring

theorem Phi_set_out (N : ℕ) (A : ℕ → ℕ) (δ P : Tay) {v k : ℕ} (x : ℝ) (h : ¬ (v < N ∧ k < A v)) :
    Phi N A δ (P.set v k x) = Phi N A δ P := by
  unfold Phi
  refine Finset.sum_congr rfl fun u hu => Finset.sum_congr rfl fun j hj => ?_
  rw [Tay.set_apply, if_neg]
  rintro ⟨rfl, rfl⟩
  exact h ⟨Finset.mem_range.mp hu, Finset.mem_range.mp hj⟩

theorem Phi_add (N : ℕ) (A : ℕ → ℕ) (δ P : Tay) {v k : ℕ} (x : ℝ) (hv : v < N) (hk : k < A v) :
    Phi N A δ (P.add v k x) = Phi N A δ P + x * δ v k := by
  rw [Tay.add, Phi_set _ _ _ _ _ hv hk]; ring

theorem Phi_add_out (N : ℕ) (A : ℕ → ℕ) (δ P : Tay) {v k : ℕ} (x : ℝ) (h : ¬ (v < N ∧ k < A v)) :
    Phi N A δ (P.add v k x) = Phi N A δ P := by
  rw [Tay.add, Phi_set_out _ _ _ _ _ h]

/-- make the entry `(v, j)` inactive -/
theorem Phi_drop (N : ℕ) (A : ℕ → ℕ) (δ P : Tay) {v j : ℕ} (hv : v < N) (hA : A v = j + 1) :
    Phi N A δ P = Phi N (Function.update A v j) δ P + P v j * δ v j := by
  unfold Phi
  rw [← Finset.add_sum_erase _ _ (Finset.mem_range.mpr hv),
    ← Finset.add_sum_erase (a := v) _ _ (Finset.mem_range.mpr hv)]
  have h2 : ∑ u ∈ (Finset.range N).erase v, ∑ k ∈ Finset.range (Function.update A v j u), P u k * δ u k
      = ∑ u ∈ (Finset.range N).erase v, ∑ k ∈ Finset.range (A u), P u k * δ u k :=
    Finset.sum_congr rfl fun u hu => by
      rw [Function.update_of_ne (Finset.ne_of_mem_erase hu)]
  rw [h2, hA, Finset.sum_range_succ, Function.update_self]; ring

/-- Active orders: `m` for arguments (variables before `nv`), `f v` for results. -/
def act (nv m : ℕ) (f : ℕ → ℕ) : ℕ → ℕ := fun v => if v < nv then m else f v

theorem Phi_congr_A (N : ℕ) {A B : ℕ → ℕ} (δ P : Tay) (h : ∀ v < N, A v = B v) :
    Phi N A δ P = Phi N B δ P := by
  unfold Phi
  exact Finset.sum_congr rfl fun v hv => by rw [h v (Finset.mem_range.mp hv)]

/-- rows with no active order can be removed -/
theorem Phi_shrink (nv n m : ℕ) (A : ℕ → ℕ) (δ P : Tay) (h : ∀ v, nv ≤ v → v < nv + n → A v = 0)
    (h' : ∀ v < nv, A v = m) :
    Phi (nv + n) A δ P = Phi nv (fun _ => m) δ P := by
  unfold Phi
  rw [Finset.sum_range_add]
  have : ∑ x ∈ Finset.range n, ∑ k ∈ Finset.range (A (nv + x)), P (nv + x) k * δ (nv + x) k = 0 :=
    Finset.sum_eq_zero fun x hx => by
      rw [h _ (by omega) (by have := Finset.mem_range.mp hx; omega)]; simp
  rw [this, add_zero]
  exact Finset.sum_congr rfl fun v hv => by rw [h' v (Finset.mem_range.mp hv)]

/-- Certificate that the three functions `fwd`, `dir`, `rev` of an operator with `nres` results and
variable arguments `args` compute Taylor coefficients and partials of the functions `val · r`
(result `r`, `r < nres`) at points satisfying `dom`.
* `fwd p q i_z taylor` : single direction forward, orders `p` to `q`
* `dir q r i_z taylor` : `r` directions, order `q`
* `rev d i_z taylor partial` : reverse mode
where `i_z` is the index of the primary (last) result. -/
structure OpCert (nres : ℕ) (args : List ℕ) (val : (ℕ → ℝ) → ℕ → ℝ) (dom : (ℕ → ℝ) → Prop)
    (fwd dir : ℕ → ℕ → ℕ → Tay → Tay) (rev : ℕ → ℕ → Tay → Tay → Tay) where
  /-- tangent of result `r` given tangents of the variables -/
  lin : (ℕ → ℝ) → (ℕ → ℝ) → ℕ → ℝ
  /-- recurrence relation satisfied by the coefficients of the results at order `j` -/
  Rec : ℕ → Tay → ℕ → Prop
  nres_pos : 0 < nres
  val_congr : ∀ e e', (∀ a ∈ args, e a = e' a) → ∀ r, val e r = val e' r
  dom_congr : ∀ e e', (∀ a ∈ args, e a = e' a) → dom e → dom e'
  lin_congr : ∀ e e' d d', (∀ a ∈ args, e a = e' a ∧ d a = d' a) → ∀ r, lin e d r = lin e' d' r
  smooth : ∀ {E : Type} [NormedAddCommGroup E] [NormedSpace ℝ E] (env : E → ℕ → ℝ) (x : E),
    (∀ a ∈ args, ContDiffAt ℝ ∞ (fun e => env e a) x) → dom (env x) →
    ∀ r < nres, ContDiffAt ℝ ∞ (fun e => val (env e) r) x
  lin_smooth : ∀ (env d : ℝ → ℕ → ℝ),
    (∀ a ∈ args, Sm (fun e => env e a)) → (∀ a ∈ args, Sm (fun e => d e a)) → dom (env 0) →
    ∀ r < nres, Sm (fun e => lin (env e) (d e) r)
  dom_open : ∀ {E : Type} [TopologicalSpace E] (env : E → ℕ → ℝ) (x : E),
    (∀ a ∈ args, ContinuousAt (fun e => env e a) x) → dom (env x) → ∀ᶠ e in 𝓝 x, dom (env e)
  hasDeriv : ∀ (env : ℝ → ℕ → ℝ) (d : ℕ → ℝ) (t : ℝ),
    (∀ a ∈ args, HasDerivAt (fun u => env u a) (d a) t) → dom (env t) →
    ∀ r < nres, HasDerivAt (fun u => val (env u) r) (lin (env t) d r) t
  rec_loc : ∀ nv s s' j, (∀ a ∈ args, a < nv) →
    (∀ v < nv + nres, ∀ k ≤ j, s v k = s' v k) → Rec nv s j → Rec nv s' j
  rec_unique : ∀ nv s s' j, (∀ a ∈ args, a < nv) → (∀ v < nv, ∀ k ≤ j, s v k = s' v k) →
    (∀ r < nres, ∀ k < j, s (nv + r) k = s' (nv + r) k) → Rec nv s j → Rec nv s' j →
    ∀ r < nres, s (nv + r) j = s' (nv + r) j
  fwd_ok : ∀ nv p q s, p ≤ q → (∀ a ∈ args, a < nv) →
    (∀ j, p ≤ j → j ≤ q → Rec nv (fwd p q (nv + nres - 1) s) j) ∧
    (∀ v k, ¬ ((nv ≤ v ∧ v < nv + nres) ∧ p ≤ k ∧ k ≤ q) → fwd p q (nv + nres - 1) s v k = s v k)
  dir_ok : ∀ nv q r s, 1 ≤ q → (∀ a ∈ args, a < nv) →
    (∀ ell < r, Rec nv (view r ell (dir q r (nv + nres - 1) s)) q) ∧
    (∀ v m, ¬ ((nv ≤ v ∧ v < nv + nres) ∧ (q - 1) * r + 1 ≤ m ∧ m < (q - 1) * r + 1 + r) →
      dir q r (nv + nres - 1) s v m = s v m)
  taylor : ∀ nv (env : ℝ → ℕ → ℝ), (∀ a ∈ args, a < nv) →
    (∀ v < nv + nres, Sm (fun t => env t v)) →
    (∀ t, ∀ r < nres, env t (nv + r) = val (env t) r) → dom (env 0) →
    ∀ j, Rec nv (fun v => tc (fun t => env t v)) j
  rev_ok : ∀ nv (env d : ℝ → ℕ → ℝ) n s P, (∀ a ∈ args, a < nv) →
    (∀ v < nv + nres, Sm (fun t => env t v)) → (∀ v < nv + nres, Sm (fun t => d t v)) →
    (∀ t, ∀ r < nres, env t (nv + r) = val (env t) r) →
    (∀ t, ∀ r < nres, d t (nv + r) = lin (env t) (d t) r) →
    dom (env 0) →
    (∀ v < nv + nres, ∀ k ≤ n, s v k = tc (fun t => env t v) k) →
    (∀ r, r + 1 < nres → ∀ k ≤ n, P (nv + r) k = 0) →
    Phi nv (fun _ => n + 1) (fun v => tc (fun t => d t v)) (rev n (nv + nres - 1) s P)
      = Phi (nv + nres) (fun _ => n + 1) (fun v => tc (fun t => d t v)) P
  rev_frame : ∀ nv n s P v, v < nv → v ∉ args → rev n (nv + nres - 1) s P v = P v

/-- What the sweeps need of one operator.  The results `naux ≤ r < nres` can be operands of later operators, the
results `r < naux` are auxiliary.
This follows from `OpCert` for the elementary operators and is proved directly for atomic function calls. -/
structure OpSpec (nres naux : ℕ) (args : List ℕ) (val : (ℕ → ℝ) → ℕ → ℝ) (dom : (ℕ → ℝ) → Prop)
    (fwd dir : ℕ → ℕ → ℕ → Tay → Tay) (rev : ℕ → ℕ → Tay → Tay → Tay) where
  /-- tangent of result `r` given tangents of the variables -/
  lin : (ℕ → ℝ) → (ℕ → ℝ) → ℕ → ℝ
  naux_lt : naux < nres
  val_congr : ∀ e e', (∀ a ∈ args, e a = e' a) → ∀ r, val e r = val e' r
  dom_congr : ∀ e e', (∀ a ∈ args, e a = e' a) → dom e → dom e'
  lin_congr : ∀ e e' d d', (∀ a ∈ args, e a = e' a ∧ d a = d' a) → ∀ r, lin e d r = lin e' d' r
  smooth : ∀ {E : Type} [NormedAddCommGroup E] [NormedSpace ℝ E] (env : E → ℕ → ℝ) (x : E),
    (∀ a ∈ args, ContDiffAt ℝ ∞ (fun e => env e a) x) → dom (env x) →
    ∀ r < nres, ContDiffAt ℝ ∞ (fun e => val (env e) r) x
  lin_smooth : ∀ (env d : ℝ → ℕ → ℝ),
    (∀ a ∈ args, Sm (fun e => env e a)) → (∀ a ∈ args, Sm (fun e => d e a)) → dom (env 0) →
    ∀ r < nres, Sm (fun e => lin (env e) (d e) r)
  dom_open : ∀ {E : Type} [TopologicalSpace E] (env : E → ℕ → ℝ) (x : E),
    (∀ a ∈ args, ContinuousAt (fun e => env e a) x) → dom (env x) → ∀ᶠ e in 𝓝 x, dom (env e)
  hasDeriv : ∀ (env : ℝ → ℕ → ℝ) (d : ℕ → ℝ) (t : ℝ),
    (∀ a ∈ args, HasDerivAt (fun u => env u a) (d a) t) → dom (env t) →
    ∀ r < nres, HasDerivAt (fun u => val (env u) r) (lin (env t) d r) t
  fwd_tc : ∀ nv p q (env : ℝ → ℕ → ℝ) s, p ≤ q → (∀ a ∈ args, a < nv) →
    (∀ v < nv + nres, Sm (fun t => env t v)) →
    (∀ t, ∀ r < nres, env t (nv + r) = val (env t) r) → dom (env 0) →
    (∀ v < nv, ∀ k ≤ q, s v k = tc (fun t => env t v) k) →
    (∀ r < nres, ∀ k < p, s (nv + r) k = tc (fun t => env t (nv + r)) k) →
    ∀ r < nres, ∀ k, p ≤ k → k ≤ q → fwd p q (nv + nres - 1) s (nv + r) k = tc (fun t => env t (nv + r)) k
  fwd_frame : ∀ nv p q s, p ≤ q → (∀ a ∈ args, a < nv) →
    ∀ v k, ¬ ((nv ≤ v ∧ v < nv + nres) ∧ p ≤ k ∧ k ≤ q) → fwd p q (nv + nres - 1) s v k = s v k
  /-- order zero at every point -/
  fwd_zero : ∀ nv q s, (∀ a ∈ args, a < nv) → ∀ r < nres,
    fwd 0 q (nv + nres - 1) s (nv + r) 0 = fwd 0 0 (nv + nres - 1) s (nv + r) 0
  dir_tc : ∀ nv q r ell (env : ℝ → ℕ → ℝ) s, 1 ≤ q → ell < r → (∀ a ∈ args, a < nv) →
    (∀ v < nv + nres, Sm (fun t => env t v)) →
    (∀ t, ∀ r < nres, env t (nv + r) = val (env t) r) → dom (env 0) →
    (∀ v < nv, ∀ k ≤ q, view r ell s v k = tc (fun t => env t v) k) →
    (∀ r' < nres, ∀ k < q, view r ell s (nv + r') k = tc (fun t => env t (nv + r')) k) →
    ∀ r' < nres, view r ell (dir q r (nv + nres - 1) s) (nv + r') q = tc (fun t => env t (nv + r')) q
  dir_frame : ∀ nv q r s, 1 ≤ q → (∀ a ∈ args, a < nv) →
    ∀ v m, ¬ ((nv ≤ v ∧ v < nv + nres) ∧ (q - 1) * r + 1 ≤ m ∧ m < (q - 1) * r + 1 + r) →
      dir q r (nv + nres - 1) s v m = s v m
  rev_ok : ∀ nv (env d : ℝ → ℕ → ℝ) n s P, (∀ a ∈ args, a < nv) →
    (∀ v < nv + nres, Sm (fun t => env t v)) → (∀ v < nv + nres, Sm (fun t => d t v)) →
    (∀ t, ∀ r < nres, env t (nv + r) = val (env t) r) →
    (∀ t, ∀ r < nres, d t (nv + r) = lin (env t) (d t) r) →
    dom (env 0) →
    (∀ v < nv + nres, ∀ k ≤ n, s v k = tc (fun t => env t v) k) →
    (∀ r < naux, ∀ k ≤ n, P (nv + r) k = 0) →
    Phi nv (fun _ => n + 1) (fun v => tc (fun t => d t v)) (rev n (nv + nres - 1) s P)
      = Phi (nv + nres) (fun _ => n + 1) (fun v => tc (fun t => d t v)) P
  rev_frame : ∀ nv n s P v, v < nv → v ∉ args → rev n (nv + nres - 1) s P v = P v

theorem view_frame {r ell q k : ℕ} (hq : 1 ≤ q) (hell : ell < r) (hk : k ≠ q) :
    ¬ ((q - 1) * r + 1 ≤ dirIdx r ell k ∧ dirIdx r ell k < (q - 1) * r + 1 + r) := by
  unfold dirIdx
  split
  · omega
  · rename_i hk0
    rcases Nat.lt_or_gt_of_ne hk with h | h
    · have : (k - 1 + 1) * r ≤ (q - 1) * r := Nat.mul_le_mul_right r (by omega)
      have : (k - 1 + 1) * r = (k - 1) * r + r := by ring
      omega
    · have : (q - 1 + 1) * r ≤ (k - 1) * r := Nat.mul_le_mul_right r (by omega)
      have : (q - 1 + 1) * r = (q - 1) * r + r := by ring
      omega

/-- the certificate of an elementary operator is enough -/
def OpCert.spec {nres : ℕ} {args : List ℕ} {val : (ℕ → ℝ) → ℕ → ℝ} {dom : (ℕ → ℝ) → Prop}
    {fwd dir : ℕ → ℕ → ℕ → Tay → Tay} {rev : ℕ → ℕ → Tay → Tay → Tay}
    (C : OpCert nres args val dom fwd dir rev) : OpSpec nres (nres - 1) args val dom fwd dir rev where
  lin := C.lin
  naux_lt := by have := C.nres_pos; omega
  val_congr := C.val_congr
  dom_congr := C.dom_congr
  lin_congr := C.lin_congr
  smooth := C.smooth
  lin_smooth := C.lin_smooth
  dom_open := C.dom_open
  hasDeriv := C.hasDeriv
  fwd_tc nv p q env s hpq ha hs hv hd h1 h2 := by
    have hf := C.fwd_ok nv p q s hpq ha
    have ht := C.taylor nv env ha hs hv hd
    have hlow : ∀ v < nv, ∀ k ≤ q, fwd p q (nv + nres - 1) s v k = tc (fun t => env t v) k :=
      fun v hv k hk => by rw [hf.2 v k (by omega), h1 v hv k hk]
    have hres : ∀ k, k ≤ q → ∀ r < nres, fwd p q (nv + nres - 1) s (nv + r) k = tc (fun t => env t (nv + r)) k := by
      intro k
      induction k using Nat.strong_induction_on with
      | _ k ih =>
        intro hk r hr
        by_cases hp : k < p
        · rw [hf.2 (nv + r) k (by omega), h2 r hr k hp]
        · exact C.rec_unique nv _ _ k ha (fun v hv j hj => hlow v hv j (by omega))
            (fun r hr j hj => ih j hj (by omega) r hr) (hf.1 k (by omega) hk) (ht k) r hr
    exact fun r hr k _ hk => hres k hk r hr
  fwd_frame nv p q s hpq ha := (C.fwd_ok nv p q s hpq ha).2
  fwd_zero nv q s ha r hr := by
    have h1 := C.fwd_ok nv 0 q s (Nat.zero_le q) ha
    have h2 := C.fwd_ok nv 0 0 s le_rfl ha
    refine C.rec_unique nv _ _ 0 ha ?_ (fun _ _ k hk => by omega) (h1.1 0 le_rfl (Nat.zero_le q))
      (h2.1 0 le_rfl le_rfl) r hr
    intro v hv k _
    rw [h1.2 v k (by omega), h2.2 v k (by omega)]
  dir_tc nv q r ell env s hq hell ha hs hv hd h1 h2 r' hr' := by
    have hf := C.dir_ok nv q r s hq ha
    have ht := C.taylor nv env ha hs hv hd
    have hfr : ∀ v k, (v < nv ∨ nv + nres ≤ v ∨ k ≠ q) →
        view r ell (dir q r (nv + nres - 1) s) v k = view r ell s v k := by
      intro v k h
      refine hf.2 v _ ?_
      rintro ⟨h3, h4⟩
      rcases h with h | h | h
      · omega
      · omega
      · exact view_frame hq hell h h4
    exact C.rec_unique nv _ _ q ha (fun v hv j hj => by rw [hfr v j (Or.inl hv), h1 v hv j hj])
      (fun r' hr j hj => by rw [hfr (nv + r') j (by omega), h2 r' hr j hj]) (hf.1 ell hell) (ht q) r' hr'
  dir_frame nv q r s hq ha := (C.dir_ok nv q r s hq ha).2
  rev_ok nv env d n s P h1 h2 h3 h4 h5 h6 h7 h8 :=
    C.rev_ok nv env d n s P h1 h2 h3 h4 h5 h6 h7 (fun r hr => h8 r (by omega))
  rev_frame := C.rev_frame

end CppAD
