import Verif.Taylor.FunRev

/-! # Properties of Forward, Reverse and capacity_order for every call history

`Reach T f S` says: after some history of allowed calls the `ADFun` object `f` holds the recording `T`,
and `S` is what a user who follows the documentation believes is stored
(number of orders, number of directions, coefficients of the independent variables).
Uninitialized memory (`junk`) and the initialization value (`nan`) are arbitrary in every call. -/

open scoped ContDiff Topology

namespace CppAD

/-- object just after the recording is stored, core/dependent.hpp:272-281 -/
def Tape.initial (T : Tape) (junk : ℕ → ℝ) : ADFun := { T with taylor := junk, cap := 0, num := 0, ndir := 0 }

/-- Histories of calls.  `newDynamic` is f.new_dynamic(dynamic), core/new_dynamic.hpp:95-128: the operations (which contain
the parameter values) become those of `T'`, and the Taylor coefficients are no longer available
(`num_order_taylor_ = 0`); how `T'` is computed from the recording is in `Verif.Record`. -/
inductive Reach : Tape → ADFun → St → Prop
  | start {T : Tape} (junk : ℕ → ℝ) (x : ℕ → ℕ → ℕ → ℝ) : Reach T (T.initial junk) ⟨0, 0, x⟩
  | forward {T f S} (junk : ℕ → ℝ) (nan : ℝ) (q : ℕ) (xq : List ℝ) : Reach T f S → S.preForward T.n q xq →
      Reach T (f.forward junk nan q xq).1 (S.forward T.n q xq)
  | dirs {T f S} (junk : ℕ → ℝ) (q r : ℕ) (xq : List ℝ) : Reach T f S → S.preDirs T.n q r xq →
      Reach T (f.forwardDirs junk q r xq).1 (S.dirs q r xq)
  | reverse {T f S} (junk : ℕ → ℝ) (q : ℕ) (w : List ℝ) : Reach T f S → S.preReverse T.dep.length q w →
      Reach T (f.reverse junk q w).1 (S.reverse q)
  | capacity {T f S} (junk : ℕ → ℝ) (c : ℕ) : Reach T f S → Reach T (f.capacityOrder junk c) (S.capacityOrder c)
  | newDynamic {T f S} (T' : Tape) : Reach T f S → T.WF → T'.n = T.n →
      Reach T' { f with toTape := T', num := 0 } { S with num := 0 }

theorem Reach.inv {T : Tape} (hT : T.WF) {f : ADFun} {S : St} (h : Reach T f S) : Inv f S ∧ f.toTape = T := by
  induction h with
  | start junk x =>
    exact ⟨⟨hT, rfl, rfl, le_rfl, fun h => absurd h (by simp [Tape.initial]), fun ell hl => absurd hl (by simp [Tape.initial]),
      fun ell hl => absurd hl (by simp [Tape.initial])⟩, rfl⟩
  | forward junk nan q xq _ hpre ih =>
    obtain ⟨hI, rfl⟩ := ih hT
    have := ADFun.forward_ok hI junk nan q xq hpre
    exact ⟨this.1, this.2.1⟩
  | dirs junk q r xq _ hpre ih =>
    obtain ⟨hI, rfl⟩ := ih hT
    have := ADFun.forwardDirs_ok hI junk q r xq hpre
    exact ⟨this.1, this.2.1⟩
  | reverse junk q w _ hpre ih =>
    obtain ⟨hI, rfl⟩ := ih hT
    have := ADFun.reverse_ok hI junk q w hpre
    exact ⟨this.1, this.2.1⟩
  | capacity junk c _ ih =>
    obtain ⟨hI, rfl⟩ := ih hT
    have := ADFun.capacityOrder_ok hI junk c
    exact ⟨this.1, this.2.1⟩
  | newDynamic T' _ hw hn ih =>
    obtain ⟨hI, rfl⟩ := ih hw
    exact ⟨⟨hT, rfl, hI.ndir, Nat.zero_le _, hI.dir_pos,
      fun ell hl j hj => hI.shared ell hl j (by simp only at hj; omega),
      fun ell _ v _ _ k hk => absurd hk (by simp)⟩, rfl⟩

/-! ## C01: Forward(q, xq) returns Taylor coefficients -/

/-- **C01** (all orders given): for every history, every order `q` and all coefficients,
`yq[i*(q+1)+k]` is the order `k` coefficient of `F_i(X(t))`.  Order zero is right at every point,
orders `k ≥ 1` at the points where the operations are smooth. -/
theorem forward_all_orders {T : Tape} (hT : T.WF) {f : ADFun} {S : St} (h : Reach T f S)
    (junk : ℕ → ℝ) (nan : ℝ) (q : ℕ) (xq : List ℝ) (hl : xq.length = T.n * (q + 1)) :
    (f.forward junk nan q xq).2.length = T.dep.length * (q + 1) ∧
    ∀ i < T.dep.length, ∀ k ≤ q, (k = 0 ∨ T.Dom fun j => at' xq ((q + 1) * j)) →
      at' (f.forward junk nan q xq).2 (i * (q + 1) + k)
        = tc (fun t => T.eval (curve (q + 1) (fun j l => at' xq ((q + 1) * j + l)) t) i) k := by
  obtain ⟨hI, rfl⟩ := h.inv hT
  have := (ADFun.forward_ok hI junk nan q xq (Or.inl hl)).2.2.1 hl
  refine ⟨this.1, fun i hi k hk hd => ?_⟩
  have hx : ∀ j l, (S.forward f.n q xq).x 0 j l = at' xq ((q + 1) * j + l) := by
    intro j l; simp [St.forward, hl]
  have hx' : (S.forward f.n q xq).x 0 = fun j l => at' xq ((q + 1) * j + l) := by funext j l; exact hx j l
  have hx0 : (S.forward f.n q xq).x0 = fun j => at' xq ((q + 1) * j) := by
    funext j; exact hx j 0
  rw [this.2 i hi k hk (by rw [hx0]; exact hd), hx']
  rfl

/-- **C01** (one order given): `xq` holds the order `q` coefficients and the lower orders `S.x 0 j l` are
those stored by the history. -/
theorem forward_one_order {T : Tape} (hT : T.WF) {f : ADFun} {S : St} (h : Reach T f S)
    (junk : ℕ → ℝ) (nan : ℝ) (q : ℕ) (xq : List ℝ) (hl : xq.length = T.n) (hq : q ≤ S.num)
    (hdir : q ≤ 1 ∨ S.ndir = 1) :
    (f.forward junk nan q xq).2.length = T.dep.length ∧
    ∀ i < T.dep.length, (q = 0 ∨ T.Dom fun j => if q = 0 then at' xq j else S.x 0 j 0) →
      at' (f.forward junk nan q xq).2 i
        = tc (fun t => T.eval (curve (q + 1) (fun j l => if l = q then at' xq j else S.x 0 j l) t) i) q := by
  obtain ⟨hI, rfl⟩ := h.inv hT
  have := (ADFun.forward_ok hI junk nan q xq (Or.inr ⟨hl, hq, hdir⟩)).2.2.2 hl
  refine ⟨this.1, fun i hi hd => ?_⟩
  have hx : ∀ j l, (S.forward f.n q xq).x 0 j l = if l = q then at' xq j else
      if q = 0 then at' xq (j + l) else S.x 0 j l := by
    intro j l
    simp only [St.forward]
    have hn := hT.n_pos
    by_cases h0 : q = 0
    · subst h0
      rw [if_pos (by rw [hl]; ring)]
      by_cases h1 : l = 0
      · subst h1; simp
      · simp [h1]
    · rw [if_neg, if_neg h0]
      rw [hl]; intro hh
      have : f.n * 1 = f.n * (q + 1) := by omega
      have := Nat.eq_of_mul_eq_mul_left hn this
      omega
  have hx0 : (q = 0 ∨ f.Dom (S.forward f.n q xq).x0) := by
    refine hd.imp_right fun hd => ?_
    have : (S.forward f.n q xq).x0 = fun j => if q = 0 then at' xq j else S.x 0 j 0 := by
      funext j; unfold St.x0; rw [hx]
      by_cases h0 : q = 0
      · simp [h0]
      · simp [h0, Ne.symm h0]
    rw [this]; exact hd
  rw [this.2 i hi hx0]
  rw [f.Y_eq]
  have e : ∀ l ≤ q, ∀ j, (S.forward f.n q xq).x 0 j l = if l = q then at' xq j else S.x 0 j l := by
    intro l hl j
    rw [hx]
    by_cases h0 : q = 0
    · have : l = q := by omega
      simp [this]
    · simp [h0]
  refine f.VC_congr hI.wf (by omega) (by omega) ?_ (fun j _ l hl => e l hl j) (f.dep_lt hI.wf hi)
  exact hx0

/-! ## C02, C03: Reverse(q, w) returns derivatives -/

/-- **C02**: when `w` has a weight for every order, `dw[j*q+c]` is the derivative of
`∑ i k, w[i*q+k] * y_i^(k)` with respect to the coefficient `x_j^(c)` stored by the history. -/
theorem reverse_derivative {T : Tape} (hT : T.WF) {f : ADFun} {S : St} (h : Reach T f S)
    (junk : ℕ → ℝ) (q : ℕ) (w : List ℝ) (hl : w.length = T.dep.length * q) (hq : 0 < q) (hn : q ≤ S.num)
    (hdir : q = 1 ∨ S.ndir = 1) (hD : T.Dom fun j => S.x 0 j 0) :
    (f.reverse junk q w).2.length = T.n * q ∧
    ∀ j < T.n, ∀ c < q,
      HasDerivAt (fun ε => ∑ i ∈ Finset.range T.dep.length, ∑ k ∈ Finset.range q,
          at' w (i * q + k) * T.Y q (bump (S.x 0) j c ε) i k)
        (at' (f.reverse junk q w).2 (j * q + c)) 0 := by
  obtain ⟨hI, rfl⟩ := h.inv hT
  have := ADFun.reverse_ok hI junk q w ⟨Or.inr hl, hq, hn, hdir⟩
  exact ⟨this.2.2.1, this.2.2.2.1 hl hD⟩

/-- **C03**: when `w` has one weight per dependent variable, `dw[j*q+k]` is the derivative of
`∑ i, w[i] * y_i^(k)` with respect to the order zero coefficient `x_j^(0)`. -/
theorem reverse_derivative_one_weight {T : Tape} (hT : T.WF) {f : ADFun} {S : St} (h : Reach T f S)
    (junk : ℕ → ℝ) (q : ℕ) (w : List ℝ) (hl : w.length = T.dep.length) (hq : 0 < q) (hn : q ≤ S.num)
    (hdir : q = 1 ∨ S.ndir = 1) (hD : T.Dom fun j => S.x 0 j 0) :
    (f.reverse junk q w).2.length = T.n * q ∧
    ∀ j < T.n, ∀ k < q,
      HasDerivAt (fun ε => ∑ i ∈ Finset.range T.dep.length, at' w i * T.Y q (bump (S.x 0) j 0 ε) i k)
        (at' (f.reverse junk q w).2 (j * q + k)) 0 := by
  obtain ⟨hI, rfl⟩ := h.inv hT
  have := ADFun.reverse_ok hI junk q w ⟨Or.inl hl, hq, hn, hdir⟩
  exact ⟨this.2.2.1, this.2.2.2.2 hl hD⟩

/-! ## C05: several directions -/

/-- **C05**: Forward(q, r, xq) returns in `yq[i*r+ell]` the order `q` coefficient for direction `ell`:
the coefficients below order `q` are those stored for that direction (order zero is shared),
the order `q` coefficient of variable `j` is `xq[r*j+ell]`. -/
theorem forward_directions {T : Tape} (hT : T.WF) {f : ADFun} {S : St} (h : Reach T f S)
    (junk : ℕ → ℝ) (q r : ℕ) (xq : List ℝ) (hq : 0 < q) (hr : 0 < r) (hl : xq.length = r * T.n) (hn : q ≤ S.num)
    (hdir : q = 1 ∨ S.ndir = r) (hD : T.Dom fun j => S.x 0 j 0) :
    (f.forwardDirs junk q r xq).2.length = T.dep.length * r ∧
    ∀ i < T.dep.length, ∀ ell < r,
      at' (f.forwardDirs junk q r xq).2 (i * r + ell)
        = tc (fun t => T.eval (curve (q + 1) (fun j k => if k = q then at' xq (r * j + ell)
            else if k = 0 then S.x 0 j 0 else S.x ell j k) t) i) q := by
  obtain ⟨hI, rfl⟩ := h.inv hT
  have hok := ADFun.forwardDirs_ok hI junk q r xq ⟨hq, hr, hl, hn, hdir⟩
  have hx0 : (S.dirs q r xq).x0 = fun j => S.x 0 j 0 := by
    funext j; unfold St.x0 St.dirs; simp only
    rw [if_neg (by omega)]; split <;> rfl
  refine ⟨hok.2.2.1, fun i hi ell hell => ?_⟩
  rw [hok.2.2.2 i hi ell hell (by rw [hx0]; exact hD), f.Y_eq]
  have e : ∀ j < f.n, ∀ k ≤ q, (S.dirs q r xq).x ell j k = if k = q then at' xq (r * j + ell)
      else if k = 0 then S.x 0 j 0 else S.x ell j k := by
    intro j hj k hk
    unfold St.dirs; simp only
    by_cases h1 : k = q
    · simp [h1]
    · rw [if_neg h1, if_neg h1]
      by_cases h0 : k = 0
      · subst h0
        rw [if_pos rfl]
        split
        · rename_i hrr
          exact hI.shared ell (by rw [hI.ndir, ← hrr]; exact hell) j hj
        · rfl
      · rw [if_neg h0]
        rw [if_pos]
        omega
  refine f.VC_congr hI.wf (by omega) (by omega) (Or.inr ?_) e (f.dep_lt hI.wf hi)
  refine f.Dom_congr hI.wf (fun j hj => ?_) hD
  rw [e j hj 0 (by omega), if_neg (by omega), if_pos rfl]

/-- **C05** (comparison): the same number is returned by one direction calls of Forward, on any
object `g` (of any history) that holds the coefficients of direction `ell`. -/
theorem forward_directions_eq_single {T : Tape} (hT : T.WF) {f g : ADFun} {S R : St} (h : Reach T f S)
    (h' : Reach T g R) (junk junk' : ℕ → ℝ) (nan : ℝ) (q r : ℕ) (xq uq : List ℝ) (hq : 0 < q) (hr : 0 < r)
    (hl : xq.length = r * T.n) (hn : q ≤ S.num) (hdir : q = 1 ∨ S.ndir = r) (hD : T.Dom fun j => S.x 0 j 0)
    {ell : ℕ} (hell : ell < r)
    (hl' : uq.length = T.n) (hu : ∀ j < T.n, at' uq j = at' xq (r * j + ell))
    (hn' : q ≤ R.num) (hdir' : q ≤ 1 ∨ R.ndir = 1)
    (hR0 : ∀ j < T.n, R.x 0 j 0 = S.x 0 j 0) (hR : ∀ j < T.n, ∀ k, 0 < k → k < q → R.x 0 j k = S.x ell j k) :
    ∀ i < T.dep.length,
      at' (f.forwardDirs junk q r xq).2 (i * r + ell) = at' (g.forward junk' nan q uq).2 i := by
  intro i hi
  have hD' : T.Dom fun j => if q = 0 then at' uq j else R.x 0 j 0 :=
    T.Dom_congr hT (fun j hj => by rw [if_neg (by omega), hR0 j hj]) hD
  rw [(forward_directions hT h junk q r xq hq hr hl hn hdir hD).2 i hi ell hell,
    (forward_one_order hT h' junk' nan q uq hl' hn' hdir').2 i hi (Or.inr hD')]
  refine T.VC_congr hT (by omega) (by omega) (Or.inr ?_) ?_ (T.dep_lt hT hi)
  · refine T.Dom_congr hT (fun j hj => ?_) hD
    rw [if_neg (by omega), if_pos rfl]
  · intro j hj k hk
    by_cases h1 : k = q
    · simp only [h1, if_true]; exact (hu j hj).symm
    · rw [if_neg h1, if_neg h1]
      by_cases h0 : k = 0
      · subst h0; rw [if_pos rfl, hR0 j hj]
      · rw [if_neg h0, hR j hj k (by omega) (by omega)]

/-! ## C04: one order at a time -/

/-- the order `k` part of the vector that holds orders `0 .. q` -/
def orderPart (n q k : ℕ) (xq : List ℝ) : List ℝ := (List.range n).map fun j => at' xq ((q + 1) * j + k)

/-- call Forward(k, x_k) for `k = 0, 1, ..., K - 1`; the memory contents may differ in each call -/
noncomputable def oneAtATime (f : ADFun) (junk : ℕ → ℕ → ℝ) (nan : ℕ → ℝ) (q : ℕ) (xq : List ℝ) : ℕ → ADFun
  | 0 => f
  | k + 1 => ((oneAtATime f junk nan q xq k).forward (junk k) (nan k) k (orderPart f.n q k xq)).1

theorem at_orderPart {n q k : ℕ} (xq : List ℝ) {j : ℕ} (hj : j < n) :
    at' (orderPart n q k xq) j = at' xq ((q + 1) * j + k) := by
  simp [at', orderPart, hj]

theorem oneAtATime_ok {T : Tape} (hT : T.WF) {f : ADFun} {S : St} (h : Reach T f S) (junk : ℕ → ℕ → ℝ) (nan : ℕ → ℝ)
    (q : ℕ) (xq : List ℝ) (k : ℕ) :
    ∃ S', Reach T (oneAtATime f junk nan q xq k) S' ∧ (0 < k → S'.num = k ∧ S'.ndir = 1) ∧
      ∀ j < T.n, ∀ l < k, S'.x 0 j l = at' xq ((q + 1) * j + l) := by
  have hn : f.n = T.n := by rw [(h.inv hT).2]
  induction k with
  | zero => exact ⟨S, h, fun h => absurd h (lt_irrefl 0), fun j _ l hl => by omega⟩
  | succ k ih =>
    obtain ⟨S', h', h1, h2⟩ := ih
    have hlen : (orderPart f.n q k xq).length = T.n := by simp [orderPart, hn]
    refine ⟨_, Reach.forward (junk k) (nan k) k (orderPart f.n q k xq) h' (Or.inr ⟨hlen, ?_, ?_⟩), fun _ => ⟨rfl, rfl⟩, ?_⟩
    · by_cases h0 : k = 0
      · omega
      · have := (h1 (by omega)).1; omega
    · by_cases h0 : k = 0
      · omega
      · exact Or.inr (h1 (by omega)).2
    · intro j hj l hl
      unfold St.forward
      simp only
      by_cases h0 : k = 0
      · subst h0
        obtain rfl : l = 0 := by omega
        rw [if_pos (by rw [hlen]; ring)]
        simp only [Nat.zero_add, one_mul, Nat.add_zero]
        rw [at_orderPart _ (by omega)]; simp
      · rw [if_neg]
        · by_cases h1 : l = k
          · subst h1; rw [if_pos rfl, at_orderPart _ (by omega)]
          · rw [if_neg h1, h2 j hj l (by omega)]
        · rw [hlen]; intro hh
          have : T.n * 1 = T.n * (k + 1) := by omega
          have := Nat.eq_of_mul_eq_mul_left hT.n_pos this
          omega

/-- **C04**: after any histories of two objects `f` and `g`, the values returned by
`f.Forward(0, x0), f.Forward(1, x1), ...` are those returned by one call `g.Forward(q, xq)`. -/
theorem forward_one_at_a_time {T : Tape} (hT : T.WF) {f g : ADFun} {S R : St} (h : Reach T f S) (h' : Reach T g R)
    (junk : ℕ → ℕ → ℝ) (nan : ℕ → ℝ) (junk' : ℕ → ℝ) (nan' : ℝ)
    (q : ℕ) (xq : List ℝ) (hl : xq.length = T.n * (q + 1)) {k : ℕ} (hk : k ≤ q)
    (hd : k = 0 ∨ T.Dom fun j => at' xq ((q + 1) * j)) :
    ∀ i < T.dep.length,
      at' ((oneAtATime f junk nan q xq k).forward (junk k) (nan k) k (orderPart T.n q k xq)).2 i
        = at' (g.forward junk' nan' q xq).2 (i * (q + 1) + k) := by
  intro i hi
  obtain ⟨S', hr, h1, h2⟩ := oneAtATime_ok hT h junk nan q xq k
  have hlen : (orderPart T.n q k xq).length = T.n := by simp [orderPart]
  have hk1 : k ≤ S'.num := by
    by_cases h0 : k = 0
    · omega
    · exact le_of_eq (h1 (by omega)).1.symm
  have hk2 : k ≤ 1 ∨ S'.ndir = 1 := by
    by_cases h0 : k = 0
    · omega
    · exact Or.inr (h1 (by omega)).2
  have e : ∀ j < T.n, ∀ l ≤ k, (if l = k then at' (orderPart T.n q k xq) j else S'.x 0 j l)
      = at' xq ((q + 1) * j + l) := by
    intro j hj l hlk
    by_cases h1 : l = k
    · subst h1; rw [if_pos rfl, at_orderPart _ hj]
    · rw [if_neg h1, h2 j hj l (by omega)]
  have hd' : k = 0 ∨ T.Dom fun j => if k = 0 then at' (orderPart T.n q k xq) j else S'.x 0 j 0 := by
    by_cases h0 : k = 0
    · exact Or.inl h0
    · refine hd.imp_right fun hd => T.Dom_congr hT (fun j hj => ?_) hd
      rw [if_neg h0, h2 j hj 0 (by omega)]; rfl
  rw [(forward_one_order hT hr (junk k) (nan k) k _ hlen hk1 hk2).2 i hi hd',
    (forward_all_orders hT h' junk' nan' q xq hl).2 i hi k hk hd]
  refine T.VC_congr hT (by omega) (by omega) ?_ e (T.dep_lt hT hi)
  refine hd.imp_right fun hd => T.Dom_congr hT (fun j hj => ?_) hd
  exact (e j hj 0 (by omega)).symm

/-! ## C29: order, direction and capacity bookkeeping -/

/-- **C29**: `size_order()` and `size_direction()` always report the specified numbers and never exceed the capacity. -/
theorem size_order_ok {T : Tape} (hT : T.WF) {f : ADFun} {S : St} (h : Reach T f S) :
    f.num = S.num ∧ f.ndir = S.ndir ∧ f.num ≤ f.cap ∧ f.toTape = T :=
  ⟨(h.inv hT).1.num, (h.inv hT).1.ndir, (h.inv hT).1.le_cap, (h.inv hT).2⟩

/-- **C29**: `capacity_order(c)` sets the capacity to `c` and keeps the lowest `c` orders that were stored;
in particular the following one order Forward call returns the same values as without the capacity change. -/
theorem capacity_order_transparent {T : Tape} (hT : T.WF) {f : ADFun} {S : St} (h : Reach T f S)
    (junk junk1 junk2 : ℕ → ℝ) (nan1 nan2 : ℝ) (c q : ℕ) (xq : List ℝ) (hl : xq.length = T.n) (hq : q ≤ S.num) (hqc : q ≤ c)
    (hdir : q ≤ 1 ∨ S.ndir = 1) (hD : T.Dom fun j => if q = 0 then at' xq j else S.x 0 j 0) :
    (f.capacityOrder junk c).cap = c ∧ (f.capacityOrder junk c).num = min S.num c ∧
    ∀ i < T.dep.length, at' ((f.capacityOrder junk c).forward junk1 nan1 q xq).2 i
      = at' (f.forward junk2 nan2 q xq).2 i := by
  have h2 := Reach.capacity junk c h
  have hnum : (S.capacityOrder c).num = min S.num c := by
    unfold St.capacityOrder
    split
    · simp [*]
    · split
      · simp [*]
      · rfl
  have hx : (S.capacityOrder c).x 0 = S.x 0 := by
    unfold St.capacityOrder
    split
    · rfl
    · split <;> rfl
  have hnd : q ≤ 1 ∨ (S.capacityOrder c).ndir = 1 := by
    rcases hdir with h1 | h1
    · exact Or.inl h1
    · unfold St.capacityOrder
      split
      · left; omega
      · split
        · right; rfl
        · right; simp [h1]
  refine ⟨?_, ?_, ?_⟩
  · exact (ADFun.capacityOrder_ok (h.inv hT).1 junk c).2.2
  · rw [← hnum]; exact (h2.inv hT).1.num
  · intro i hi
    rw [(forward_one_order hT h2 junk1 nan1 q xq hl (by rw [hnum]; omega) hnd).2 i hi (Or.inr (by rw [hx]; exact hD)),
      (forward_one_order hT h junk2 nan2 q xq hl hq hdir).2 i hi (Or.inr hD), hx]

/-! ## a concrete case: `F(x) = sin(x0 * x1)` -/

/-- variables: 1, 2 independent; 3 = x0 * x1; 4 = cos, 5 = sin -/
def exTape : Tape := ⟨2, [.mulvv 1 2, .sin 3], [5]⟩

theorem exTape_WF : exTape.WF := by
  refine ⟨by decide, ?_, ?_⟩
  · simp [exTape, WFOps, Tape.ind, Op.args, Op.nres, addRes, Op.naux]
  · intro d hd
    simp only [exTape, List.mem_singleton] at hd
    subst hd
    simp [exTape, usable, Tape.ind, Op.nres, addRes, Op.naux]

theorem exTape_Dom (x : ℕ → ℝ) : exTape.Dom x := by
  simp [Tape.Dom, exTape, domOps, Op.dom]

theorem exTape_eval (x : ℕ → ℝ) : exTape.eval x 0 = Real.sin (x 0 * x 1) := by
  simp [Tape.eval, exTape, evalOps, stepEnv, Op.nres, Op.val, indEnv]

/-- a history with four kinds of calls ends in a state with three orders stored -/
example : ∃ f S, Reach exTape f S ∧ S.num = 3 ∧ S.ndir = 1 ∧ (exTape.Dom fun j => S.x 0 j 0) := by
  have h0 := Reach.start (T := exTape) (fun _ => 0) (fun _ _ _ => 0)
  have h1 := Reach.forward (fun _ => 7) 3 0 [1, 2] h0 (Or.inl rfl)
  have h2 := Reach.dirs (fun _ => 5) 1 2 [1, 0, 0, 1] h1 ⟨by decide, by decide, rfl, le_rfl, Or.inl rfl⟩
  have h3 := Reach.reverse (fun _ => 4) 1 [1] h2 ⟨Or.inl rfl, by decide, by simp [St.dirs], Or.inl rfl⟩
  have h4 := Reach.capacity (fun _ => 6) 5 h3
  have h5 := Reach.forward (fun _ => 7) 3 2 [1, 2, 3, 4, 5, 6] h4 (Or.inl rfl)
  exact ⟨_, _, h5, rfl, rfl, exTape_Dom _⟩

end CppAD
