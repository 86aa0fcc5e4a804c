import Verif.Taylor.History

/-! # The drivers Jacobian, ForOne, RevOne, ForTwo, RevTwo and Hessian

Vectors that are only written once per element (`jac`, `hes`, `ddy`, ...) are memories `ℕ → ℝ`
that initially contain arbitrary values. `junk k` is the content of memory allocated by the `k`-th
call of Forward or Reverse. -/

open scoped ContDiff Topology

namespace CppAD

/-- direction vector that is zero except `u[j] = 1`, e.g. core/jacobian.hpp:122-132, for_one.hpp:141-144 -/
def unitVec (n j : ℕ) : List ℝ := (List.replicate n 0).set j 1

/-- The operator that creates variable `v` as primary result, `none` for an independent variable -/
def resOp : List Op → ℕ → ℕ → Option Op
  | [], _, _ => none
  | op :: ops, nv, v => if v = nv + op.nres - 1 then some op else resOp ops (nv + op.nres) v

/-- ADFun::Parameter(i), core/ad_fun.hpp `dep_parameter_[i]`; set in core/dependent.hpp:252-257 where a
parameter dependent variable is recorded with ParOp -/
def Tape.parameter (T : Tape) (i : ℕ) : Bool :=
  match resOp T.ops (T.n + 1) (T.dep.getD i 0) with
  | some (.par _) => true
  | _ => false

/-- core/jacobian.hpp:107-144 -/
noncomputable def jacobianFor (f : ADFun) (junk : ℕ → ℕ → ℝ) (nan : ℝ) (jac : ℕ → ℝ) : ADFun × (ℕ → ℝ) :=
  forRange 0 f.n (f, jac) fun j s =>
    let r := s.1.forward (junk j) nan 1 (unitVec f.n j)
    (r.1, forRange 0 f.dep.length s.2 fun i jac => Function.update jac (i * f.n + j) (at' r.2 i))

/-- core/jacobian.hpp:145-187 -/
noncomputable def jacobianRev (f : ADFun) (junk : ℕ → ℕ → ℝ) (jac : ℕ → ℝ) : ADFun × (ℕ → ℝ) :=
  forRange 0 f.dep.length (f, jac) fun i s =>
    if f.parameter i then (s.1, forRange 0 f.n s.2 fun j jac => Function.update jac (i * f.n + j) 0)
    else
      let r := s.1.reverse (junk i) 1 (unitVec f.dep.length i)
      (r.1, forRange 0 f.n s.2 fun j jac => Function.update jac (i * f.n + j) (at' r.2 j))

/-- ADFun::Jacobian, core/jacobian.hpp:189-226 -/
noncomputable def ADFun.jacobian (f : ADFun) (junk0 : ℕ → ℝ) (junk : ℕ → ℕ → ℝ) (nan : ℝ) (jac : ℕ → ℝ)
    (x : List ℝ) : ADFun × (ℕ → ℝ) :=
  let f := (f.forward junk0 nan 0 x).1
  let workForward := f.n
  let workReverse := ((List.range f.dep.length).filter fun i => ! f.parameter i).length
  if workForward ≤ workReverse then jacobianFor f junk nan jac else jacobianRev f junk jac

/-- ADFun::ForOne, core/for_one.hpp:117-153 -/
noncomputable def ADFun.forOne (f : ADFun) (junk0 junk1 : ℕ → ℝ) (nan : ℝ) (x : List ℝ) (j : ℕ) : ADFun × List ℝ :=
  (f.forward junk0 nan 0 x).1.forward junk1 nan 1 (unitVec f.n j)

/-- ADFun::RevOne, core/rev_one.hpp:120-156 -/
noncomputable def ADFun.revOne (f : ADFun) (junk0 junk1 : ℕ → ℝ) (nan : ℝ) (x : List ℝ) (i : ℕ) : ADFun × List ℝ :=
  (f.forward junk0 nan 0 x).1.reverse junk1 1 (unitVec f.dep.length i)

/-- ADFun::Hessian(x, w), core/hessian.hpp:154-205 -/
noncomputable def ADFun.hessian (f : ADFun) (junk0 : ℕ → ℝ) (junk junk' : ℕ → ℕ → ℝ) (nan : ℝ) (hes : ℕ → ℝ)
    (x w : List ℝ) : ADFun × (ℕ → ℝ) :=
  forRange 0 f.n ((f.forward junk0 nan 0 x).1, hes) fun j s =>
    let f1 := (s.1.forward (junk j) nan 1 (unitVec f.n j)).1
    let r := f1.reverse (junk' j) 2 w
    (r.1, forRange 0 f.n s.2 fun k hes => Function.update hes (k * f.n + j) (at' r.2 (k * 2 + 1)))

/-- ADFun::Hessian(x, l), core/hessian.hpp:136-151 -/
noncomputable def ADFun.hessianIdx (f : ADFun) (junk0 : ℕ → ℝ) (junk junk' : ℕ → ℕ → ℝ) (nan : ℝ) (hes : ℕ → ℝ)
    (x : List ℝ) (l : ℕ) : ADFun × (ℕ → ℝ) :=
  f.hessian junk0 junk junk' nan hes x (unitVec f.dep.length l)

/-- ADFun::RevTwo, core/rev_two.hpp:143-230; the loop state is the object, the flag `first_done` and `ddw` -/
noncomputable def ADFun.revTwo (f : ADFun) (junk0 : ℕ → ℝ) (junk : ℕ → ℕ → ℝ) (junk' : ℕ → ℕ → ℕ → ℝ) (nan : ℝ)
    (ddw : ℕ → ℝ) (x : List ℝ) (ii jj : List ℕ) : ADFun × (ℕ → ℝ) :=
  let p := ii.length
  forRange 0 f.n ((f.forward junk0 nan 0 x).1, ddw) fun j1 s =>
    let s := forRange 0 p (s.1, false, s.2) fun l (s : ADFun × Bool × (ℕ → ℝ)) =>
      if jj.getD l 0 = j1 then
        let f1 := if s.2.1 then s.1 else (s.1.forward (junk j1) nan 1 (unitVec f.n j1)).1
        let r := f1.reverse (junk' j1 l) 2 (unitVec f.dep.length (ii.getD l 0))
        (r.1, true, forRange 0 f.n s.2.2 fun k ddw => Function.update ddw (k * p + l) (at' r.2 (k * 2 + 1)))
      else s
    (s.1, s.2.2)

/-- one diagonal term, core/for_two.hpp:210-220 -/
noncomputable def forTwoDiag (junk junk' : ℕ → ℝ) (nan : ℝ) (n m j1 : ℕ)
    (s : ADFun × (ℕ → Bool) × (ℕ → ℝ)) : ADFun × (ℕ → Bool) × (ℕ → ℝ) :=
  if s.2.1 j1 then s
  else
    let f1 := (s.1.forward junk nan 1 (unitVec n j1)).1
    let r := f1.forward junk' nan 2 (List.replicate n 0)
    (r.1, Function.update s.2.1 j1 true,
      forRange 0 m s.2.2 fun i D => Function.update D (i * n + j1) (at' r.2 i))

/-- ADFun::ForTwo, core/for_two.hpp:142-250 -/
noncomputable def ADFun.forTwo (f : ADFun) (junk0 : ℕ → ℝ) (junk : ℕ → ℕ → ℕ → ℝ) (nan : ℝ) (D ddy : ℕ → ℝ)
    (x : List ℝ) (jj kk : List ℕ) : ADFun × (ℕ → ℝ) :=
  let n := f.n
  let m := f.dep.length
  let p := jj.length
  let s := forRange 0 p ((f.forward junk0 nan 0 x).1, (fun _ => false), D) fun l s =>
    let s := forTwoDiag (junk l 0) (junk l 1) nan n m (jj.getD l 0) s
    forTwoDiag (junk l 2) (junk l 3) nan n m (kk.getD l 0) s
  let D := s.2.2
  forRange 0 p (s.1, ddy) fun l s =>
    let j1 := jj.getD l 0
    let k1 := kk.getD l 0
    if j1 = k1 then
      (s.1, forRange 0 m s.2 fun i ddy => Function.update ddy (i * p + l) (2 * D (i * n + j1)))
    else
      let f1 := (s.1.forward (junk l 4) nan 1 ((unitVec n j1).set k1 1)).1
      let r := f1.forward (junk l 5) nan 2 (List.replicate n 0)
      (r.1, forRange 0 m s.2 fun i ddy =>
        Function.update ddy (i * p + l) (at' r.2 i - D (i * n + j1) - D (i * n + k1)))

/-! ## Specification -/

/-- *Specification*: `d` is the partial derivative of `g` with respect to component `j` at `x` -/
def IsPartial (g : (ℕ → ℝ) → ℝ) (x : ℕ → ℝ) (j : ℕ) (d : ℝ) : Prop :=
  HasDerivAt (fun ε => g (Function.update x j (x j + ε))) d 0

/-- *Specification*: `d` is the second partial derivative of `g` at `x`, first with respect to component
`j` and then with respect to component `k` -/
def IsPartial2 (g : (ℕ → ℝ) → ℝ) (x : ℕ → ℝ) (k j : ℕ) (d : ℝ) : Prop :=
  ∃ dg : (ℕ → ℝ) → ℝ, (∀ᶠ ε in 𝓝 (0 : ℝ), IsPartial g (Function.update x k (x k + ε)) j
      (dg (Function.update x k (x k + ε)))) ∧ IsPartial dg x k d

/-! ## vectors -/

theorem at_unitVec {n j j' : ℕ} (hj : j < n) : at' (unitVec n j) j' = if j' = j then 1 else 0 := by
  unfold at' unitVec
  by_cases h : j' < n
  · rw [List.getD_eq_getElem _ _ (by simpa using h), List.getElem_set]
    by_cases h1 : j = j'
    · simp [h1]
    · rw [if_neg h1, if_neg (fun h => h1 h.symm)]; simp
  · rw [List.getD_eq_default _ _ (by simpa using h), if_neg (by omega)]

theorem unitVec_length (n j : ℕ) : (unitVec n j).length = n := by simp [unitVec]

theorem at_zeros (n j : ℕ) : at' (List.replicate n (0 : ℝ)) j = 0 := by
  unfold at'
  by_cases h : j < n
  · rw [List.getD_eq_getElem _ _ (by simpa using h)]; simp
  · rw [List.getD_eq_default _ _ (by simpa using h)]

/-- loop that writes the cells `c l` for `l < m` -/
theorem write_ok (m : ℕ) (c : ℕ → ℕ) (hc : ∀ a < m, ∀ b < m, c a = c b → a = b) (g : ℕ → ℝ) (M : ℕ → ℝ) :
    (∀ l < m, (forRange 0 m M fun l M => Function.update M (c l) (g l)) (c l) = g l) ∧
    (∀ a, (∀ l < m, a ≠ c l) → (forRange 0 m M fun l M => Function.update M (c l) (g l)) a = M a) := by
  constructor
  · have := forRange_ind (σ := ℕ → ℝ) (lo := 0) (hi := m) (Nat.zero_le m) (s := M)
      (f := fun l M => Function.update M (c l) (g l)) (fun K t => ∀ l < K, t (c l) = g l)
      (fun j hj => by omega)
      (fun K t _ hK ht l hl => by
        rcases Nat.lt_succ_iff_lt_or_eq.mp hl with h | h
        · rw [Function.update_of_ne (fun he => by have := hc l (by omega) K hK he; omega)]; exact ht l h
        · subst h; simp)
    exact this
  · intro a ha
    refine forRange_inv (P := fun t : ℕ → ℝ => t a = M a) rfl ?_
    intro l t _ hl ht
    rw [Function.update_of_ne (ha l hl), ht]

theorem rowcol_inj {n a b j j' : ℕ} (hj : j < n) (hj' : j' < n) (h : a * n + j = b * n + j') : a = b ∧ j = j' := by
  have h1 : (a * n + j) / n = a := by
    rw [Nat.mul_comm, Nat.mul_add_div (by omega), Nat.div_eq_of_lt hj, Nat.add_zero]
  have h2 : (b * n + j') / n = b := by
    rw [Nat.mul_comm, Nat.mul_add_div (by omega), Nat.div_eq_of_lt hj', Nat.add_zero]
  have : a = b := by rw [← h1, ← h2, h]
  subst this
  exact ⟨rfl, by omega⟩

/-! ## single calls in terms of derivatives -/

/-- order zero of `x` is stored -/
def Ready (T : Tape) (f : ADFun) (x : ℕ → ℝ) : Prop :=
  ∃ S, Reach T f S ∧ 1 ≤ S.num ∧ ∀ j < T.n, S.x 0 j 0 = x j

/-- orders zero and one are stored -/
def Ready1 (T : Tape) (f : ADFun) (x u : ℕ → ℝ) : Prop :=
  ∃ S, Reach T f S ∧ S.num = 2 ∧ S.ndir = 1 ∧ ∀ j < T.n, S.x 0 j 0 = x j ∧ S.x 0 j 1 = u j

variable {T : Tape} {f : ADFun} {x u : ℕ → ℝ}

theorem Ready.tape (hT : T.WF) (h : Ready T f x) : f.toTape = T := by
  obtain ⟨S, hr, _⟩ := h; exact (hr.inv hT).2

theorem Ready1.tape (hT : T.WF) (h : Ready1 T f x u) : f.toTape = T := by
  obtain ⟨S, hr, _⟩ := h; exact (hr.inv hT).2

theorem fwd0_ready (hT : T.WF) {S : St} (h : Reach T f S) (junk : ℕ → ℝ) (nan : ℝ) (xv : List ℝ)
    (hl : xv.length = T.n) : Ready T (f.forward junk nan 0 xv).1 (at' xv) := by
  refine ⟨_, Reach.forward junk nan 0 xv h (Or.inl (by simpa using hl)), le_rfl, ?_⟩
  intro j _
  simp [St.forward, hl]

theorem not_all {n l q : ℕ} (hn : 0 < n) (hl : l = n) (hq : 0 < q) : ¬ l = n * (q + 1) := by
  rw [hl]; intro hh
  have : n * 1 = n * (q + 1) := by omega
  have := Nat.eq_of_mul_eq_mul_left hn this
  omega

theorem Y_two (hT : T.WF) (y : ℕ → ℕ → ℝ) (hy0 : ∀ j < T.n, y j 0 = x j) (hy1 : ∀ j < T.n, y j 1 = u j)
    {i : ℕ} (hi : i < T.dep.length) {K : ℕ} (hK : 2 ≤ K) (hD : T.Dom x) :
    HasDerivAt (fun t => T.eval (fun j => x j + t * u j) i) (T.Y K y i 1) 0 := by
  have e1 : T.Y K y i 1 = T.Y 2 (fun j k => if k = 0 then x j else u j) i 1 := by
    rw [T.Y_eq, T.Y_eq]
    refine T.VC_congr hT (by omega) (by omega) (Or.inr (T.Dom_congr hT (fun j hj => (hy0 j hj).symm) hD)) ?_
      (T.dep_lt hT hi)
    intro j hj l hl
    by_cases h0 : l = 0
    · subst h0; simp [hy0 j hj]
    · have : l = 1 := by omega
      subst this; simp [hy1 j hj]
  rw [e1]
  have e2 : (fun t => T.eval (fun j => x j + t * u j) i)
      = fun t => T.eval (curve 2 (fun j k => if k = 0 then x j else u j) t) i := by
    funext t; congr 1; funext j
    simp [curve, Finset.sum_range_succ]; ring
  rw [e2]
  have hs : Sm (fun t => T.eval (curve 2 (fun j k => if k = 0 then x j else u j) t) i) := by
    refine evalOps_smooth (0 : ℝ) T.ops (T.n + 1) T.ind _ T.ind_lt hT.ops (fun v _ => Sm_indEnv _ _ v) ?_ _
      (T.dep_lt hT hi)
    exact T.Dom_curve hT (by omega) (by simpa using hD)
  have hd := (hs.differentiableAt (by simp)).hasDerivAt
  unfold Tape.Y tc
  simpa using hd

/-- `Forward(1, u)` after order zero at `x` -/
theorem fwd1_ok (hT : T.WF) (h : Ready T f x) (junk : ℕ → ℝ) (nan : ℝ) (uv : List ℝ) (hl : uv.length = T.n) :
    Ready1 T (f.forward junk nan 1 uv).1 x (at' uv) ∧
    (T.Dom x → ∀ i < T.dep.length,
      HasDerivAt (fun t => T.eval (fun j => x j + t * at' uv j) i) (at' (f.forward junk nan 1 uv).2 i) 0) := by
  obtain ⟨S, hr, hn, hx⟩ := h
  have hpre : S.preForward T.n 1 uv := Or.inr ⟨hl, hn, Or.inl le_rfl⟩
  refine ⟨⟨_, Reach.forward junk nan 1 uv hr hpre, rfl, rfl, ?_⟩, ?_⟩
  · intro j hj
    unfold St.forward
    simp only
    rw [if_neg (not_all hT.n_pos hl one_pos), if_neg (not_all hT.n_pos hl one_pos)]
    simp [hx j hj]
  · intro hD i hi
    have hD' : T.Dom fun j => if (1 : ℕ) = 0 then at' uv j else S.x 0 j 0 :=
      T.Dom_congr hT (fun j hj => by simp [hx j hj]) hD
    rw [(forward_one_order hT hr junk nan 1 uv hl hn (Or.inl le_rfl)).2 i hi (Or.inr hD')]
    exact Y_two hT (fun j l => if l = 1 then at' uv j else S.x 0 j l) (fun j hj => by simp [hx j hj])
      (fun j hj => by simp) hi le_rfl hD

/-- `Forward(2, 0)` after orders zero and one -/
theorem fwd2_ok (hT : T.WF) (h : Ready1 T f x u) (junk : ℕ → ℝ) (nan : ℝ) :
    Ready T (f.forward junk nan 2 (List.replicate T.n 0)).1 x ∧
    (T.Dom x → ∀ i < T.dep.length,
      at' (f.forward junk nan 2 (List.replicate T.n 0)).2 i = tc (fun t => T.eval (fun j => x j + t * u j) i) 2) := by
  obtain ⟨S, hr, hn, hdir, hx⟩ := h
  have hl : (List.replicate T.n (0 : ℝ)).length = T.n := by simp
  have hpre : S.preForward T.n 2 (List.replicate T.n 0) := Or.inr ⟨hl, by omega, Or.inr hdir⟩
  refine ⟨⟨_, Reach.forward junk nan 2 _ hr hpre, by simp [St.forward], ?_⟩, ?_⟩
  · intro j hj
    unfold St.forward
    simp only
    rw [if_neg (not_all hT.n_pos hl two_pos)]
    simp [(hx j hj).1]
  · intro hD i hi
    have hD' : T.Dom fun j => if (2 : ℕ) = 0 then at' (List.replicate T.n 0) j else S.x 0 j 0 :=
      T.Dom_congr hT (fun j hj => by simp [(hx j hj).1]) hD
    rw [(forward_one_order hT hr junk nan 2 _ hl (by omega) (Or.inr hdir)).2 i hi (Or.inr hD')]
    have e2 : (fun t => T.eval (fun j => x j + t * u j) i)
        = fun t => T.eval (curve 3 (fun j k => if k = 0 then x j else if k = 1 then u j else 0) t) i := by
      funext t; congr 1; funext j
      simp [curve, Finset.sum_range_succ]; ring
    rw [e2]
    refine T.VC_congr hT (by omega) (by omega) (Or.inr ?_) ?_ (T.dep_lt hT hi)
    · exact T.Dom_congr hT (fun j hj => by simp [(hx j hj).1]) hD
    · intro j hj l hl
      by_cases h0 : l = 0
      · subst h0; simp [(hx j hj).1]
      · by_cases h1 : l = 1
        · subst h1; simp [(hx j hj).2]
        · have : l = 2 := by omega
          subst this; simp [at_zeros]

/-- the sum of weighted components -/
noncomputable def wsum (T : Tape) (w : List ℝ) (y : ℕ → ℝ) : ℝ :=
  ∑ i ∈ Finset.range T.dep.length, at' w i * T.eval y i

theorem Y_one (hT : T.WF) (y : ℕ → ℕ → ℝ) {i : ℕ} (hi : i < T.dep.length) {K : ℕ} (hK : 1 ≤ K) :
    T.Y K y i 0 = T.eval (fun j => y j 0) i := by
  unfold Tape.Y
  rw [tc_zero]
  exact T.eval_congr hT (fun j _ => by rw [curve_zero, if_pos (by omega)]) hi

theorem bump_zero (y : ℕ → ℕ → ℝ) (j j' : ℕ) (ε : ℝ) :
    bump y j 0 ε j' 0 = Function.update (fun j => y j 0) j (y j 0 + ε) j' := by
  unfold bump
  by_cases h : j' = j
  · subst h; simp
  · simp [h, Function.update_of_ne h]

/-- `Reverse(1, w)` after order zero -/
theorem rev1_ok (hT : T.WF) (h : Ready T f x) (junk : ℕ → ℝ) (w : List ℝ) (hl : w.length = T.dep.length) :
    Ready T (f.reverse junk 1 w).1 x ∧
    (T.Dom x → ∀ j < T.n, IsPartial (wsum T w) x j (at' (f.reverse junk 1 w).2 j)) := by
  obtain ⟨S, hr, hn, hx⟩ := h
  have hpre : S.preReverse T.dep.length 1 w := ⟨Or.inl hl, one_pos, hn, Or.inl rfl⟩
  refine ⟨⟨_, Reach.reverse junk 1 w hr hpre, ?_, ?_⟩, ?_⟩
  · unfold St.reverse; split
    · exact le_rfl
    · exact hn
  · intro j hj
    unfold St.reverse; split <;> exact hx j hj
  · intro hD j hj
    have hD' := T.Dom_congr hT (fun j hj => (hx j hj).symm) hD
    have := (reverse_derivative_one_weight hT hr junk 1 w hl one_pos hn (Or.inl rfl) hD').2 j hj 0 one_pos
    rw [mul_one, add_zero] at this
    unfold IsPartial
    refine this.congr_of_eventuallyEq (Filter.Eventually.of_forall fun ε => ?_)
    unfold wsum
    refine Finset.sum_congr rfl fun i hi => ?_
    have hi := Finset.mem_range.mp hi
    rw [Y_one hT _ hi le_rfl]
    congr 1
    refine T.eval_congr hT (fun j' hj' => ?_) hi
    rw [bump_zero]
    by_cases h : j' = j
    · subst h; simp [hx _ hj']
    · rw [Function.update_of_ne h, Function.update_of_ne h, hx j' hj']

theorem Dom_update_ev (hT : T.WF) (hD : T.Dom x) (k : ℕ) :
    ∀ᶠ ε in 𝓝 (0 : ℝ), T.Dom (Function.update x k (x k + ε)) := by
  refine domOps_open (0 : ℝ) T.ops (T.n + 1) T.ind (fun ε => indEnv (Function.update x k (x k + ε))) T.ind_lt hT.ops ?_ ?_
  · intro v _
    unfold indEnv
    split
    · exact contDiffAt_const
    · by_cases h : v - 1 = k
      · subst h
        simp only [Function.update_self]
        exact contDiffAt_const.add contDiffAt_id
      · simp only [Function.update_of_ne h]
        exact contDiffAt_const
  · have : Function.update x k (x k + 0) = x := by simp
    rw [this]; exact hD

/-- `Reverse(2, w)` after orders zero and one -/
theorem rev2_ok (hT : T.WF) (h : Ready1 T f x u) (junk : ℕ → ℝ) (w : List ℝ) (hl : w.length = T.dep.length) :
    Ready1 T (f.reverse junk 2 w).1 x u ∧
    (T.Dom x → ∀ k < T.n, ∃ dg : (ℕ → ℝ) → ℝ,
      (∀ y, T.Dom y → HasDerivAt (fun t => wsum T w (fun j => y j + t * u j)) (dg y) 0) ∧
      IsPartial dg x k (at' (f.reverse junk 2 w).2 (k * 2 + 1))) := by
  obtain ⟨S, hr, hn, hdir, hx⟩ := h
  have hpre : S.preReverse T.dep.length 2 w := ⟨Or.inl hl, two_pos, by omega, Or.inr hdir⟩
  refine ⟨⟨_, Reach.reverse junk 2 w hr hpre, ?_, ?_, ?_⟩, ?_⟩
  · unfold St.reverse; rw [if_neg (by omega)]; exact hn
  · unfold St.reverse; rw [if_neg (by omega)]; exact hdir
  · unfold St.reverse; rw [if_neg (by omega)]; exact hx
  · intro hD k hk
    have hD' := T.Dom_congr hT (fun j hj => (hx j hj).1.symm) hD
    have := (reverse_derivative_one_weight hT hr junk 2 w hl two_pos (by omega) (Or.inr hdir) hD').2 k hk 1
      (by omega)
    refine ⟨fun y => ∑ i ∈ Finset.range T.dep.length,
      at' w i * T.Y 2 (fun j l => if l = 0 then y j else u j) i 1, ?_, ?_⟩
    · intro y hy
      unfold wsum
      refine HasDerivAt.fun_sum fun i hi => ?_
      exact (Y_two hT _ (fun j _ => by simp) (fun j _ => by simp) (Finset.mem_range.mp hi) le_rfl hy).const_mul _
    · unfold IsPartial
      refine this.congr_of_eventuallyEq ?_
      filter_upwards [Dom_update_ev hT hD k] with ε hε
      refine Finset.sum_congr rfl fun i hi => ?_
      have hi := Finset.mem_range.mp hi
      congr 1
      rw [T.Y_eq, T.Y_eq]
      refine T.VC_congr hT (by omega) (by omega) (Or.inr (by simpa using hε)) ?_ (T.dep_lt hT hi)
      intro j hj l hl
      by_cases h0 : l = 0
      · subst h0
        rw [if_pos rfl, bump_zero]
        by_cases h : j = k
        · subst h; simp [(hx _ hj).1]
        · rw [Function.update_of_ne h, Function.update_of_ne h, (hx j hj).1]
      · have : l = 1 := by omega
        subst this
        simp [bump, (hx j hj).2]

/-! ## Jacobian -/

theorem update_dir (y : ℕ → ℝ) {n j : ℕ} (hj : j < n) (t : ℝ) :
    (fun j' => y j' + t * at' (unitVec n j) j') = Function.update y j (y j + t) := by
  funext j'
  rw [at_unitVec hj]
  by_cases h : j' = j
  · subst h; simp
  · simp [h]

theorem wsum_unit {i : ℕ} (hi : i < T.dep.length) (y : ℕ → ℝ) :
    wsum T (unitVec T.dep.length i) y = T.eval y i := by
  unfold wsum
  rw [Finset.sum_eq_single i]
  · rw [at_unitVec hi]; simp
  · intro b _ hb; rw [at_unitVec hi, if_neg hb, zero_mul]
  · intro hh; exact absurd (Finset.mem_range.mpr hi) hh

theorem resOp_par (ops : List Op) : ∀ nv (e : ℕ → ℝ) v c, nv ≤ v → resOp ops nv v = some (.par c) →
    evalOps ops nv e v = c := by
  induction ops with
  | nil => intro nv e v c _ h; simp [resOp] at h
  | cons op ops ih =>
    intro nv e v c hv h
    rw [resOp] at h
    have hp := op.nres_pos
    split at h
    · rename_i hh
      simp only [Option.some.injEq] at h
      subst h
      rw [evalOps, evalOps_lt _ _ _ _ (by simp [Op.nres] at hh ⊢; omega)]
      simp [Op.nres] at hh
      subst hh
      have := stepEnv_res (op := Op.par c) (nv := v) (r := 0) e (by simp [Op.nres])
      simp only [add_zero] at this
      rw [this]; rfl
    · rw [evalOps]
      by_cases h1 : nv + op.nres ≤ v
      · exact ih _ _ _ _ h1 h
      · exfalso
        -- auxiliary results are never primary results
        have : ∀ (ops : List Op) (nv : ℕ), v < nv → resOp ops nv v = none := by
          intro ops
          induction ops with
          | nil => intro nv _; rfl
          | cons op ops ih2 =>
            intro nv hlt
            have := op.nres_pos
            rw [resOp, if_neg (by omega)]
            exact ih2 _ (by omega)
        rw [this ops _ (by omega)] at h
        simp at h

theorem Tape.parameter_const (hT : T.WF) {i : ℕ} (hi : i < T.dep.length) (h : T.parameter i = true) :
    ∃ c, ∀ y, T.eval y i = c := by
  unfold Tape.parameter at h
  split at h
  · rename_i c hc
    refine ⟨c, fun y => ?_⟩
    by_cases hv : T.n + 1 ≤ T.dep.getD i 0
    · exact resOp_par _ _ _ _ _ hv hc
    · exfalso
      have : ∀ (ops : List Op) (nv : ℕ), T.dep.getD i 0 < nv → resOp ops nv (T.dep.getD i 0) = none := by
        intro ops
        induction ops with
        | nil => intro nv _; rfl
        | cons op ops ih2 =>
          intro nv hlt
          have := op.nres_pos
          rw [resOp, if_neg (by omega)]
          exact ih2 _ (by omega)
      rw [this _ _ (by omega)] at hc
      simp at hc
  · simp at h

/-- **C36** Jacobian: for every history, point and choice of mode, `jac[i*n+j]` is the partial derivative
of `F_i` with respect to `x_j` at `x`. -/
theorem jacobian_ok (hT : T.WF) {S : St} (h : Reach T f S) (junk0 : ℕ → ℝ) (junk : ℕ → ℕ → ℝ) (nan : ℝ)
    (jac : ℕ → ℝ) (xv : List ℝ) (hl : xv.length = T.n) (hD : T.Dom (at' xv)) :
    ∀ i < T.dep.length, ∀ j < T.n,
      IsPartial (fun y => T.eval y i) (at' xv) j ((f.jacobian junk0 junk nan jac xv).2 (i * T.n + j)) := by
  have h0 := fwd0_ready hT h junk0 nan xv hl
  have ht := h0.tape hT
  unfold ADFun.jacobian
  simp only
  generalize (f.forward junk0 nan 0 xv).1 = g at h0 ht ⊢
  have en : g.n = T.n := by rw [ht]
  have ed : g.dep.length = T.dep.length := by rw [ht]
  split
  · -- forward
    unfold jacobianFor
    rw [en, ed]
    have := forRange_ind (σ := ADFun × (ℕ → ℝ)) (Nat.zero_le T.n) (s := (g, jac))
      (f := fun j s =>
        let r := s.1.forward (junk j) nan 1 (unitVec T.n j)
        (r.1, forRange 0 T.dep.length s.2 fun i jac => Function.update jac (i * T.n + j) (at' r.2 i)))
      (fun J s => Ready T s.1 (at' xv) ∧ ∀ i < T.dep.length, ∀ j < J,
        IsPartial (fun y => T.eval y i) (at' xv) j (s.2 (i * T.n + j)))
      ⟨h0, fun i _ j hj => by omega⟩
      (fun J s _ hJ hs => by
        have h1 := fwd1_ok hT hs.1 (junk J) nan (unitVec T.n J) (unitVec_length _ _)
        obtain ⟨S1, hr1, hn1, _, hx1⟩ := h1.1
        refine ⟨⟨S1, hr1, by omega, fun j hj => (hx1 j hj).1⟩, fun i hi j hj => ?_⟩
        have hw := write_ok T.dep.length (fun i => i * T.n + J)
          (fun a _ b _ hab => (rowcol_inj hJ hJ hab).1)
          (fun i => at' (s.1.forward (junk J) nan 1 (unitVec T.n J)).2 i) s.2
        rcases Nat.lt_succ_iff_lt_or_eq.mp hj with hlt | rfl
        · simp only
          rw [hw.2 _ (fun l _ hh => by have := (rowcol_inj (by omega) hJ hh).2; omega)]
          exact hs.2 i hi j hlt
        · simp only
          rw [hw.1 i hi]
          have := h1.2 hD i hi
          simp only [update_dir _ hJ] at this
          exact this)
    exact this.2
  · unfold jacobianRev
    rw [en, ed]
    have hpar : ∀ i, g.parameter i = T.parameter i := by intro i; rw [ht]
    simp only [hpar]
    have := forRange_ind (σ := ADFun × (ℕ → ℝ)) (Nat.zero_le T.dep.length) (s := (g, jac))
      (f := fun i s =>
        if T.parameter i then (s.1, forRange 0 T.n s.2 fun j jac => Function.update jac (i * T.n + j) 0)
        else
          let r := s.1.reverse (junk i) 1 (unitVec T.dep.length i)
          (r.1, forRange 0 T.n s.2 fun j jac => Function.update jac (i * T.n + j) (at' r.2 j)))
      (fun I s => Ready T s.1 (at' xv) ∧ ∀ i < I, ∀ j < T.n,
        IsPartial (fun y => T.eval y i) (at' xv) j (s.2 (i * T.n + j)))
      ⟨h0, fun i hi => by omega⟩
      (fun I s _ hI hs => by
        have key : ∀ g' : ℕ → ℝ, (∀ j < T.n, IsPartial (fun y => T.eval y I) (at' xv) j (g' j)) →
            ∀ i < I + 1, ∀ j < T.n, IsPartial (fun y => T.eval y i) (at' xv) j
              ((forRange 0 T.n s.2 fun j jac => Function.update jac (I * T.n + j) (g' j)) (i * T.n + j)) := by
          intro g' hg i hi j hj
          have hw := write_ok T.n (fun j => I * T.n + j) (fun a _ b _ hab => by omega) g' s.2
          rcases Nat.lt_succ_iff_lt_or_eq.mp hi with hlt | rfl
          · rw [hw.2 _ (fun l hl hh => by have := (rowcol_inj hj hl hh).1; omega)]
            exact hs.2 i hlt j hj
          · rw [hw.1 j hj]; exact hg j hj
        by_cases hp : T.parameter I = true
        · simp only [hp, if_true]
          refine ⟨hs.1, key (fun _ => 0) ?_⟩
          intro j _
          obtain ⟨c, hc⟩ := T.parameter_const hT hI hp
          unfold IsPartial
          simp only [hc]
          exact hasDerivAt_const _ _
        · simp only [hp]
          have h1 := rev1_ok hT hs.1 (junk I) (unitVec T.dep.length I) (unitVec_length _ _)
          refine ⟨h1.1, key _ ?_⟩
          intro j hj
          have := h1.2 hD j hj
          unfold IsPartial at this ⊢
          simp only [wsum_unit hI] at this
          exact this)
    exact this.2

/-- **C36** ForOne: `dy[i]` is the partial of `F_i` with respect to `x_j`. -/
theorem forOne_ok (hT : T.WF) {S : St} (h : Reach T f S) (junk0 junk1 : ℕ → ℝ) (nan : ℝ) (xv : List ℝ)
    (hl : xv.length = T.n) {j : ℕ} (hj : j < T.n) (hD : T.Dom (at' xv)) :
    ∀ i < T.dep.length, IsPartial (fun y => T.eval y i) (at' xv) j (at' (f.forOne junk0 junk1 nan xv j).2 i) := by
  intro i hi
  have hn : f.n = T.n := by rw [(h.inv hT).2]
  have := (fwd1_ok hT (fwd0_ready hT h junk0 nan xv hl) junk1 nan (unitVec T.n j) (unitVec_length _ _)).2 hD i hi
  simp only [update_dir _ hj] at this
  unfold ADFun.forOne
  rw [hn]; exact this

/-- **C36** RevOne: `dw[j]` is the partial of `F_i` with respect to `x_j`. -/
theorem revOne_ok (hT : T.WF) {S : St} (h : Reach T f S) (junk0 junk1 : ℕ → ℝ) (nan : ℝ) (xv : List ℝ)
    (hl : xv.length = T.n) {i : ℕ} (hi : i < T.dep.length) (hD : T.Dom (at' xv)) :
    ∀ j < T.n, IsPartial (fun y => T.eval y i) (at' xv) j (at' (f.revOne junk0 junk1 nan xv i).2 j) := by
  intro j hj
  have hn : f.dep = T.dep := by rw [(h.inv hT).2]
  have := (rev1_ok hT (fwd0_ready hT h junk0 nan xv hl) junk1 (unitVec T.dep.length i) (unitVec_length _ _)).2 hD j hj
  unfold IsPartial at this ⊢
  simp only [wsum_unit hi] at this
  unfold ADFun.revOne
  rw [hn]; exact this

/-! ## Hessian and RevTwo -/

/-- `Reverse(2, w)` after `Forward(1, e_j)` gives second partials -/
theorem rev2_partial (hT : T.WF) {g : ADFun} {j : ℕ} (hj : j < T.n) (h : Ready1 T g x (at' (unitVec T.n j)))
    (hD : T.Dom x) (junk : ℕ → ℝ) (w : List ℝ) (hl : w.length = T.dep.length) {k : ℕ} (hk : k < T.n) :
    IsPartial2 (wsum T w) x k j (at' (g.reverse junk 2 w).2 (k * 2 + 1)) := by
  obtain ⟨dg, h1, h2⟩ := (rev2_ok hT h junk w hl).2 hD k hk
  refine ⟨dg, ?_, h2⟩
  filter_upwards [Dom_update_ev hT hD k] with ε hε
  have := h1 _ hε
  simp only [update_dir _ hj] at this
  exact this

/-- **C36** Hessian(x, w): `hes[k*n+j]` is the second partial of `∑ w_i F_i` with respect to `x_j` and `x_k`. -/
theorem hessian_ok (hT : T.WF) {S : St} (h : Reach T f S) (junk0 : ℕ → ℝ) (junk junk' : ℕ → ℕ → ℝ) (nan : ℝ)
    (hes : ℕ → ℝ) (xv w : List ℝ) (hl : xv.length = T.n) (hw : w.length = T.dep.length) (hD : T.Dom (at' xv)) :
    ∀ k < T.n, ∀ j < T.n,
      IsPartial2 (wsum T w) (at' xv) k j ((f.hessian junk0 junk junk' nan hes xv w).2 (k * T.n + j)) := by
  have h0 := fwd0_ready hT h junk0 nan xv hl
  have hn : f.n = T.n := by rw [(h.inv hT).2]
  unfold ADFun.hessian
  rw [hn]
  have := forRange_ind (σ := ADFun × (ℕ → ℝ)) (Nat.zero_le T.n) (s := ((f.forward junk0 nan 0 xv).1, hes))
    (f := fun j s =>
      let f1 := (s.1.forward (junk j) nan 1 (unitVec T.n j)).1
      let r := f1.reverse (junk' j) 2 w
      (r.1, forRange 0 T.n s.2 fun k hes => Function.update hes (k * T.n + j) (at' r.2 (k * 2 + 1))))
    (fun J s => Ready T s.1 (at' xv) ∧ ∀ k < T.n, ∀ j < J,
      IsPartial2 (wsum T w) (at' xv) k j (s.2 (k * T.n + j)))
    ⟨h0, fun _ _ j hj => by omega⟩
    (fun J s _ hJ hs => by
      have h1 := (fwd1_ok hT hs.1 (junk J) nan (unitVec T.n J) (unitVec_length _ _)).1
      have h2 := (rev2_ok hT h1 (junk' J) w hw).1
      obtain ⟨S1, hr1, hn1, _, hx1⟩ := h2
      refine ⟨⟨S1, hr1, by omega, fun j hj => (hx1 j hj).1⟩, fun k hk j hj => ?_⟩
      have hw' := write_ok T.n (fun i => i * T.n + J) (fun a _ b _ hab => (rowcol_inj hJ hJ hab).1)
        (fun k => at' ((s.1.forward (junk J) nan 1 (unitVec T.n J)).1.reverse (junk' J) 2 w).2 (k * 2 + 1)) s.2
      rcases Nat.lt_succ_iff_lt_or_eq.mp hj with hlt | rfl
      · simp only
        rw [hw'.2 _ (fun l _ hh => by have := (rowcol_inj (by omega) hJ hh).2; omega)]
        exact hs.2 k hk j hlt
      · simp only
        rw [hw'.1 k hk]
        exact rev2_partial hT hJ h1 hD (junk' j) w hw hk)
  exact this.2

/-- **C36** Hessian(x, l): second partials of component `l`. -/
theorem hessianIdx_ok (hT : T.WF) {S : St} (h : Reach T f S) (junk0 : ℕ → ℝ) (junk junk' : ℕ → ℕ → ℝ) (nan : ℝ)
    (hes : ℕ → ℝ) (xv : List ℝ) (hl : xv.length = T.n) {l : ℕ} (hlm : l < T.dep.length) (hD : T.Dom (at' xv)) :
    ∀ k < T.n, ∀ j < T.n,
      IsPartial2 (fun y => T.eval y l) (at' xv) k j ((f.hessianIdx junk0 junk junk' nan hes xv l).2 (k * T.n + j)) := by
  have hd : f.dep = T.dep := by rw [(h.inv hT).2]
  unfold ADFun.hessianIdx
  rw [hd]
  have e : (fun y => T.eval y l) = wsum T (unitVec T.dep.length l) := by funext y; rw [wsum_unit hlm]
  rw [e]
  exact hessian_ok hT h junk0 junk junk' nan hes xv _ hl (unitVec_length _ _) hD

/-- **C36** RevTwo: `ddw[k*p+l]` is the second partial of `F_{i[l]}` with respect to `x_{j[l]}` and `x_k`. -/
theorem revTwo_ok (hT : T.WF) {S : St} (h : Reach T f S) (junk0 : ℕ → ℝ) (junk : ℕ → ℕ → ℝ) (junk' : ℕ → ℕ → ℕ → ℝ)
    (nan : ℝ) (ddw : ℕ → ℝ) (xv : List ℝ) (ii jj : List ℕ) (hl : xv.length = T.n) (hlen : ii.length = jj.length)
    (hii : ∀ i ∈ ii, i < T.dep.length) (hjj : ∀ j ∈ jj, j < T.n) (hD : T.Dom (at' xv)) :
    ∀ k < T.n, ∀ l < ii.length,
      IsPartial2 (fun y => T.eval y (ii.getD l 0)) (at' xv) k (jj.getD l 0)
        ((f.revTwo junk0 junk junk' nan ddw xv ii jj).2 (k * ii.length + l)) := by
  have h0 := fwd0_ready hT h junk0 nan xv hl
  have hn : f.n = T.n := by rw [(h.inv hT).2]
  have hd : f.dep = T.dep := by rw [(h.inv hT).2]
  have hjl : ∀ l < ii.length, jj.getD l 0 < T.n := fun l hl => by
    rw [List.getD_eq_getElem _ _ (by omega)]; exact hjj _ (List.getElem_mem _)
  have hil : ∀ l < ii.length, ii.getD l 0 < T.dep.length := fun l hl => by
    rw [List.getD_eq_getElem _ _ hl]; exact hii _ (List.getElem_mem _)
  unfold ADFun.revTwo
  simp only [hn, hd]
  let G : ℕ → ADFun × Bool × (ℕ → ℝ) → ℕ → ADFun × Bool × (ℕ → ℝ) := fun l s j1 =>
    if jj.getD l 0 = j1 then
      ((( if s.2.1 then s.1 else (s.1.forward (junk j1) nan 1 (unitVec T.n j1)).1).reverse (junk' j1 l) 2
          (unitVec T.dep.length (ii.getD l 0))).1, true,
        forRange 0 T.n s.2.2 fun k ddw => Function.update ddw (k * ii.length + l)
          (at' ((if s.2.1 then s.1 else (s.1.forward (junk j1) nan 1 (unitVec T.n j1)).1).reverse (junk' j1 l) 2
            (unitVec T.dep.length (ii.getD l 0))).2 (k * 2 + 1)))
    else s
  have := forRange_ind (σ := ADFun × (ℕ → ℝ)) (Nat.zero_le T.n) (s := ((f.forward junk0 nan 0 xv).1, ddw))
    (f := fun j1 s =>
      ((forRange 0 ii.length (s.1, false, s.2) fun l s => G l s j1).1,
        (forRange 0 ii.length (s.1, false, s.2) fun l s => G l s j1).2.2))
    (fun J s => Ready T s.1 (at' xv) ∧ ∀ k < T.n, ∀ l < ii.length, jj.getD l 0 < J →
      IsPartial2 (fun y => T.eval y (ii.getD l 0)) (at' xv) k (jj.getD l 0) (s.2 (k * ii.length + l)))
    ⟨h0, fun _ _ _ _ hj => by omega⟩
    (fun J s _ hJ hs => by
      have inner := forRange_ind (σ := ADFun × Bool × (ℕ → ℝ)) (Nat.zero_le ii.length) (s := (s.1, false, s.2))
        (f := fun l s => G l s J)
        (fun L r => Ready T r.1 (at' xv) ∧ (r.2.1 = true → Ready1 T r.1 (at' xv) (at' (unitVec T.n J))) ∧
          (∀ k < T.n, ∀ l < ii.length, (jj.getD l 0 < J ∨ (jj.getD l 0 = J ∧ l < L)) →
            IsPartial2 (fun y => T.eval y (ii.getD l 0)) (at' xv) k (jj.getD l 0) (r.2.2 (k * ii.length + l))))
        ⟨hs.1, fun h => by simp at h, fun k hk l hl hh => hs.2 k hk l hl (by omega)⟩
        (fun L r _ hL hr => by
          by_cases hc : jj.getD L 0 = J
          · have hG : G L r J = ((( if r.2.1 then r.1 else (r.1.forward (junk J) nan 1 (unitVec T.n J)).1).reverse (junk' J L) 2
                (unitVec T.dep.length (ii.getD L 0))).1, true,
              forRange 0 T.n r.2.2 fun k ddw => Function.update ddw (k * ii.length + L)
                (at' ((if r.2.1 then r.1 else (r.1.forward (junk J) nan 1 (unitVec T.n J)).1).reverse (junk' J L) 2
                  (unitVec T.dep.length (ii.getD L 0))).2 (k * 2 + 1))) := by
              simp only [G]; rw [if_pos hc]
            rw [hG]
            have h1 : Ready1 T (if r.2.1 then r.1 else (r.1.forward (junk J) nan 1 (unitVec T.n J)).1) (at' xv)
                (at' (unitVec T.n J)) := by
              split
              · rename_i hh; exact hr.2.1 hh
              · exact (fwd1_ok hT hr.1 (junk J) nan (unitVec T.n J) (unitVec_length _ _)).1
            generalize (if r.2.1 then r.1 else (r.1.forward (junk J) nan 1 (unitVec T.n J)).1) = f1 at h1 ⊢
            have h2 := (rev2_ok hT h1 (junk' J L) (unitVec T.dep.length (ii.getD L 0)) (unitVec_length _ _)).1
            refine ⟨?_, fun _ => h2, ?_⟩
            · obtain ⟨S1, hr1, hn1, _, hx1⟩ := h2
              exact ⟨S1, hr1, by omega, fun j hj => (hx1 j hj).1⟩
            · intro k hk l hl hh
              have hw := write_ok T.n (fun k => k * ii.length + L) (fun a _ b _ hab => (rowcol_inj hL hL hab).1)
                (fun k => at' (f1.reverse (junk' J L) 2 (unitVec T.dep.length (ii.getD L 0))).2 (k * 2 + 1)) r.2.2
              simp only
              by_cases hlL : l = L
              · subst hlL
                rw [hw.1 k hk, hc]
                have := rev2_partial hT hJ h1 hD (junk' J l) (unitVec T.dep.length (ii.getD l 0)) (unitVec_length _ _) hk
                have e : (fun y => T.eval y (ii.getD l 0)) = wsum T (unitVec T.dep.length (ii.getD l 0)) := by
                  funext y; rw [wsum_unit (hil l hl)]
                rw [e]; exact this
              · rw [hw.2 _ (fun a _ hab => hlL (rowcol_inj hl hL hab).2)]
                exact hr.2.2 k hk l hl (by omega)
          · have hG : G L r J = r := by simp only [G]; rw [if_neg hc]
            rw [hG]
            refine ⟨hr.1, hr.2.1, fun k hk l hl hh => hr.2.2 k hk l hl ?_⟩
            rcases hh with hh | ⟨hh, hlt⟩
            · exact Or.inl hh
            · right
              refine ⟨hh, ?_⟩
              rcases Nat.lt_succ_iff_lt_or_eq.mp hlt with h | h
              · exact h
              · subst h; exact absurd hh hc)
      refine ⟨inner.1, fun k hk l hl hj => inner.2.2 k hk l hl (by omega)⟩)
  intro k hk l hl
  exact this.2 k hk l hl (hjl l hl)

/-- a concrete case: the hypotheses hold for `F(x) = sin(x0 * x1)` -/
example (a b : ℝ) : IsPartial2 (fun y => exTape.eval y 0) (at' [a, b]) 1 0
    (((exTape.initial fun _ => 0).hessianIdx (fun _ => 1) (fun _ _ => 2) (fun _ _ => 3) 4 (fun _ => 5) [a, b] 0).2
      (1 * 2 + 0)) :=
  hessianIdx_ok exTape_WF (Reach.start _ fun _ _ _ => 0) _ _ _ _ _ _ rfl (by decide) (exTape_Dom _) 1 (by decide)
    0 (by decide)

end CppAD
