import Verif.Record.Session

/-! # Recording and replaying: the properties C06, C07, C10, C11, C12

`Session.Hist s P F p f S`: the session `s` recorded the algorithm `P`, and after some calls (Forward, Reverse,
capacity_order, new_dynamic, in any order) the function object is `f`, its current dynamic parameters are `p`. -/

open scoped Classical

namespace CppAD.Record

open CppAD

/-- *Specification*: the order zero coefficients in the argument of `Forward(q, xq)` when all the orders are given -/
noncomputable def zeroPart (n q : ℕ) (xq : List ℝ) : List ℝ := (List.range n).map fun j => at' xq ((q + 1) * j)

/-- ADFun::Forward(q, xq) for a recording, core/forward/forward.hpp:95-314.  When order zero is computed (`p = 0`) the sweeps find the
vector elements that are loaded (`load_op2var`), see `tape_forward_zero` and `tape_forward_any`; otherwise those of the
last sweep that computed order zero are used. -/
noncomputable def Fun.forward (disc : ℕ → ℝ → ℝ) (F : Fun) (f : ADFun) (junk : ℕ → ℝ) (nan : ℝ) (q : ℕ) (xq : List ℝ) : ADFun × List ℝ :=
  (if q + 1 - xq.length / F.n = 0 then { f with toTape := F.tape disc (zeroPart F.n q xq) } else f).forward junk nan q xq

/-- Histories of a function object: ADFun f(x, y) at the end of the recording session (dependent.hpp:232-328), then any
sequence of calls.  `F` is the player (with the current parameter values) and `f` the object seen by the sweeps.  After the recording and
after new_dynamic there is no information about the vector elements (`z` is arbitrary); it is not used before
the next calculation of order zero. -/
inductive Session.Hist (s : Session) (P : Prog) : Fun → List ℝ → ADFun → St → Prop
  | start (junk : ℕ → ℝ) (x : ℕ → ℕ → ℕ → ℝ) (z : List ℝ) : z.length = s.x.length →
      Hist s P (s.fun_ P) s.p (((s.fun_ P).tape s.cfg.disc z).initial junk) ⟨0, 0, x⟩
  | forward {F p f S} (junk : ℕ → ℝ) (nan : ℝ) (q : ℕ) (xq : List ℝ) : Hist s P F p f S → S.preForward s.x.length q xq →
      Hist s P F p (F.forward s.cfg.disc f junk nan q xq).1 (S.forward s.x.length q xq)
  | dirs {F p f S} (junk : ℕ → ℝ) (q r : ℕ) (xq : List ℝ) : Hist s P F p f S → S.preDirs s.x.length q r xq →
      Hist s P F p (f.forwardDirs junk q r xq).1 (S.dirs q r xq)
  | reverse {F p f S} (junk : ℕ → ℝ) (q : ℕ) (w : List ℝ) : Hist s P F p f S →
      S.preReverse (s.recorded P).dep.length q w → Hist s P F p (f.reverse junk q w).1 (S.reverse q)
  | capacity {F p f S} (junk : ℕ → ℝ) (k : ℕ) : Hist s P F p f S →
      Hist s P F p (f.capacityOrder junk k) (S.capacityOrder k)
  | newDynamic {F q f S} (p z : List ℝ) : Hist s P F q f S → p.length = s.p.length → z.length = s.x.length →
      Hist s P (F.newDynamic s.cfg.disc p) p
        { f with toTape := (F.newDynamic s.cfg.disc p).tape s.cfg.disc z, num := 0 } { S with num := 0 }

variable {s : Session} {P : Prog}

theorem zeroPart_length (n q : ℕ) (xq : List ℝ) : (zeroPart n q xq).length = n := by simp [zeroPart]

theorem zeroPart_zero {n : ℕ} {x : List ℝ} (hx : x.length = n) : zeroPart n 0 x = x := by
  unfold zeroPart
  simp only [zero_add, one_mul]
  exact range_map_at' hx

/-- the number of orders that are stored is not used when order zero is computed -/
theorem forward_num {f : ADFun} {q : ℕ} {xq : List ℝ} (h : q + 1 - xq.length / f.n = 0) (T : Tape) (hT : T.n = f.n) (junk : ℕ → ℝ) (nan : ℝ) :
    ADFun.forward { f with toTape := T, num := 0 } junk nan q xq = ADFun.forward { f with toTape := T } junk nan q xq := by
  have e : q + 1 - xq.length / T.n = 0 := by rw [hT]; exact h
  unfold ADFun.forward ADFun.fwdRoom
  simp only [e]
  by_cases hr : f.cap ≤ q ∨ f.ndir ≠ 1
  · simp only [if_pos hr]
  · simp only [if_neg hr]

theorem pre_zero {n q : ℕ} {xq : List ℝ} (hn : 0 < n) (h : xq.length = n * (q + 1)) : q + 1 - xq.length / n = 0 := by
  rw [h, Nat.mul_div_cancel_left _ hn]; omega

theorem Session.Hist.reach (hs : s.Ok) (hf : s.Faithful P) {F : Fun} {p : List ℝ} {f : ADFun} {S : St}
    (h : s.Hist P F p f S) :
    F = s.funAt P p ∧ p.length = s.p.length ∧ ∃ z : List ℝ, z.length = s.x.length ∧
      Reach ((s.funAt P p).tape s.cfg.disc z) f S ∧ (0 < S.num → z = (List.range s.x.length).map fun j => S.x 0 j 0) := by
  have hn0 : 0 < s.x.length := List.length_pos_iff.2 hs.x_pos
  induction h with
  | start junk x z hz =>
    rw [fun_eq hs hf]; exact ⟨rfl, rfl, z, hz, .start junk x, fun h => absurd h (lt_irrefl 0)⟩
  | @forward F p f S junk nan q xq _ hpre ih =>
    obtain ⟨rfl, h2, z, hz, h3, h4⟩ := ih
    refine ⟨rfl, h2, ?_⟩
    have hFn : (s.funAt P p).n = s.x.length := funAt_n hs hf p []
    have hfn : f.n = s.x.length := by rw [(h3.inv (funAt_wf hs hf p z)).2]; exact hFn
    unfold Fun.forward
    rw [hFn]
    by_cases hp : q + 1 - xq.length / s.x.length = 0
    · rw [if_pos hp]
      have hl : xq.length = s.x.length * (q + 1) := by
        rcases hpre with h | ⟨h, -, -⟩
        · exact h
        · rw [h, Nat.div_self hn0] at hp
          have : q = 0 := by omega
          rw [h, this]; omega
      refine ⟨zeroPart s.x.length q xq, zeroPart_length _ _ _, ?_, fun _ => ?_⟩
      · have h5 := Reach.newDynamic ((s.funAt P p).tape s.cfg.disc (zeroPart s.x.length q xq)) h3 (funAt_wf hs hf p z)
          (by rw [funAt_n hs hf, funAt_n hs hf])
        have h6 := Reach.forward junk nan q xq h5 (Or.inl (by rw [funAt_n hs hf]; exact hl))
        rw [forward_num (by rw [hfn]; exact hp) _ (by rw [funAt_n hs hf, hfn]), funAt_n hs hf] at h6
        exact h6
      · unfold zeroPart
        refine List.map_congr_left fun j _ => ?_
        simp [St.forward, hl]
    · rw [if_neg hp]
      have hq : xq.length = s.x.length ∧ q ≤ S.num ∧ q ≠ 0 := by
        rcases hpre with h | ⟨h, h', -⟩
        · exact absurd (pre_zero hn0 h) hp
        · refine ⟨h, h', ?_⟩
          rintro rfl
          rw [h, Nat.div_self hn0] at hp; simp at hp
      refine ⟨z, hz, ?_, fun _ => ?_⟩
      · have h6 := Reach.forward junk nan q xq h3 (by rw [funAt_n hs hf]; exact hpre)
        rw [funAt_n hs hf] at h6
        exact h6
      · rw [h4 (by omega)]
        refine List.map_congr_left fun j _ => ?_
        have : xq.length ≠ s.x.length * (q + 1) := fun h => hp (pre_zero hn0 h)
        simp only [St.forward]
        rw [if_neg this, if_neg (Ne.symm hq.2.2)]
  | @dirs F p f S junk q r xq _ hpre ih =>
    obtain ⟨rfl, h2, z, hz, h3, h4⟩ := ih
    have hpre' := hpre
    rw [← funAt_n hs hf p z] at hpre
    refine ⟨rfl, h2, z, hz, .dirs junk q r xq h3 hpre, fun _ => ?_⟩
    rw [h4 (lt_of_lt_of_le hpre'.1 hpre'.2.2.2.1)]
    refine List.map_congr_left fun j _ => ?_
    have : (0 : ℕ) ≠ q := by have := hpre'.1; omega
    simp only [St.dirs]
    rw [if_neg this]
    split_ifs <;> rfl
  | @reverse F p f S junk q w _ hpre ih =>
    obtain ⟨rfl, h2, z, hz, h3, h4⟩ := ih
    refine ⟨rfl, h2, z, hz, .reverse junk q w h3 hpre, fun _ => ?_⟩
    rw [h4 (lt_of_lt_of_le hpre.2.1 hpre.2.2.1)]
    refine List.map_congr_left fun j _ => ?_
    unfold St.reverse
    split_ifs <;> rfl
  | @capacity F p f S junk k _ ih =>
    obtain ⟨rfl, h2, z, hz, h3, h4⟩ := ih
    refine ⟨rfl, h2, z, hz, .capacity junk k h3, fun h => ?_⟩
    have hx : (S.capacityOrder k).x 0 = S.x 0 ∧ 0 < S.num := by
      unfold St.capacityOrder at h ⊢
      by_cases k0 : k = 0
      · rw [if_pos k0] at h; exact absurd h (lt_irrefl 0)
      · rw [if_neg k0] at h ⊢
        by_cases k1 : k = 1
        · rw [if_pos k1] at h ⊢; exact ⟨rfl, (lt_min_iff.1 h).1⟩
        · rw [if_neg k1] at h ⊢; exact ⟨rfl, (lt_min_iff.1 h).1⟩
    rw [h4 hx.2, hx.1]
  | @newDynamic F q f S p z _ hp hz ih =>
    obtain ⟨rfl, -, z', hz', h3, -⟩ := ih
    rw [newDynamic_eq hs hf]
    exact ⟨rfl, hp, z, hz, .newDynamic _ h3 (funAt_wf hs hf q z') (by rw [funAt_n hs hf, funAt_n hs hf]), fun h => absurd h (lt_irrefl 0)⟩

/-! ## The sweeps execute the recorded operators -/

theorem ind_agree (hs : s.Ok) (hf : s.Faithful P) {z : List ℝ} {t : Tay} (ht : ∀ j < s.x.length, t (j + 1) 0 = at' z j) :
    ∀ v ∈ indSet (s.recorded P).r.n, t v 0 = indEnv (at' z) v := by
  intro v hv
  have hv' : 1 ≤ v ∧ v ≤ (s.recorded P).r.n := hv
  rw [(recorded_ok hs hf).2.1] at hv'
  obtain ⟨j, rfl⟩ := Nat.exists_eq_add_of_le' hv'.1
  rw [ht j (by omega)]
  simp [indEnv]

/-- The sweep forward_0, applied to the recorded operators (with comparisons, loads and stores), computes the same coefficients as the
elementary operations of `Fun.tape` at the current values of the independent variables. -/
theorem tape_forward_zero (hs : s.Ok) (hf : s.Faithful P) (p z : List ℝ) {t : Tay} (ht : ∀ j < s.x.length, t (j + 1) 0 = at' z j)
    (count : ℕ) (k : CmpCount) :
    (sweep0 s.cfg.disc (s.funAt P p).par (s.funAt P p).vecs count (s.funAt P p).ops ((s.funAt P p).n + 1) ((s.funAt P p).n + 1) t
      (initMem (s.funAt P p).vecs) k).1 = forward0 ((s.funAt P p).tape s.cfg.disc z).ops ((s.funAt P p).n + 1) t := by
  obtain ⟨h1, -⟩ := recorded_ok hs hf
  rw [funAt_par p ⟨p, z, z⟩ rfl]
  exact congrArg Prod.fst (sweep0_ok s.cfg.disc _ _ count _ _ _ (indSet (s.recorded P).r.n) t _ k (indEnv (at' z)) (indSet_lt _)
    (h1.wf ⟨p, z, z⟩) h1.cmp (ind_agree hs hf ht))

/-- the same for the sweep forward_any when it computes orders `0` to `q` -/
theorem tape_forward_any (hs : s.Ok) (hf : s.Faithful P) (p z : List ℝ) {t : Tay} (ht : ∀ j < s.x.length, t (j + 1) 0 = at' z j) (q : ℕ) :
    sweepAny0 s.cfg.disc (s.funAt P p).par (s.funAt P p).vecs q (s.funAt P p).ops ((s.funAt P p).n + 1) t
      (initMem (s.funAt P p).vecs) = forwardAny 0 q ((s.funAt P p).tape s.cfg.disc z).ops ((s.funAt P p).n + 1) t := by
  obtain ⟨h1, -⟩ := recorded_ok hs hf
  rw [funAt_par p ⟨p, z, z⟩ rfl]
  exact sweepAny0_ok s.cfg.disc _ _ q _ _ (indSet (s.recorded P).r.n) t _ (indEnv (at' z)) (indSet_lt _)
    (h1.wf ⟨p, z, z⟩) h1.cmp (ind_agree hs hf ht)

/-! ## C06, C07, C12: replay -/

/-- **C06, C07, C12**: after any history the function object represents the recorded operation sequence with the
dynamic parameters of the last `new_dynamic` call and the vector elements selected at the current order zero coefficients.
So C01 to C05 and C29 are about `x ↦ follow P outcomes (old, z, p) (old, x, p)` where `z` are the order zero coefficients. -/
theorem replay_function_partial (hs : s.Ok) (hf : s.Faithful P) {F : Fun} {p : List ℝ} {f : ADFun} {S : St}
    (h : s.Hist P F p f S) :
    ∃ (T : Tape) (z : List ℝ), T.WF ∧ Reach T f S ∧ T.n = s.x.length ∧
      z.length = s.x.length ∧ (0 < S.num → z = (List.range s.x.length).map fun j => S.x 0 j 0) ∧
      T.dep.length = (P.follow s.cfg.disc (s.recorded P).outcomes (s.store s.x p) (s.store s.x p)).length ∧
      ∀ x : ℕ → ℝ, ∀ i < T.dep.length, T.eval x i =
        at' (P.follow s.cfg.disc (s.recorded P).outcomes (s.store z p) (s.store ((List.range s.x.length).map x) p)) i := by
  obtain ⟨rfl, h2, z, hz, h3, h4⟩ := h.reach hs hf
  exact ⟨_, z, funAt_wf hs hf p z, h3, funAt_n hs hf p z, hz, h4, dep_length hs hf _ _, fun x i hi => funAt_eval hs hf h2 hz x hi⟩

/-- Forward with all the orders, in terms of the operations found at its order zero coefficients -/
theorem Session.Hist.forward_reach (hs : s.Ok) (hf : s.Faithful P) {F : Fun} {p : List ℝ} {f : ADFun} {S : St}
    (h : s.Hist P F p f S) (junk : ℕ → ℝ) (nan : ℝ) (q : ℕ) (xq : List ℝ) (hx : xq.length = s.x.length * (q + 1)) :
    ∃ (g : ADFun) (S' : St), Reach ((s.funAt P p).tape s.cfg.disc (zeroPart s.x.length q xq)) g S' ∧
      F.forward s.cfg.disc f junk nan q xq = g.forward junk nan q xq := by
  obtain ⟨rfl, h2, z, hz, h3, h4⟩ := h.reach hs hf
  have hn0 : 0 < s.x.length := List.length_pos_iff.2 hs.x_pos
  have hFn : (s.funAt P p).n = s.x.length := funAt_n hs hf p []
  have hfn : f.n = s.x.length := by rw [(h3.inv (funAt_wf hs hf p z)).2]; exact hFn
  refine ⟨_, _, Reach.newDynamic ((s.funAt P p).tape s.cfg.disc (zeroPart s.x.length q xq)) h3 (funAt_wf hs hf p z)
          (by rw [funAt_n hs hf, funAt_n hs hf]), ?_⟩
  rw [forward_num (by rw [hfn]; exact pre_zero hn0 hx) _ (by rw [funAt_n hs hf, hfn])]
  unfold Fun.forward
  rw [hFn, if_pos (pre_zero hn0 hx)]

/-- **C06, C07, C12**: `f.Forward(0, x)` returns the values obtained by executing the recorded operation sequence directly on
real numbers at `x` and the current dynamic parameters `p`; a VecAD vector is there an array of real numbers, and the index of an element is
what the index expression is at `x` and `p`.  (The hypothesis `Faithful` excludes the two
defects `condExp_constant_wrong` and `pow_zero_wrong`; this is why the theorem is partial.) -/
theorem replay_forward_zero_partial (hs : s.Ok) (hf : s.Faithful P) {F : Fun} {p : List ℝ} {f : ADFun} {S : St}
    (h : s.Hist P F p f S) (junk : ℕ → ℝ) (nan : ℝ) (x : List ℝ) (hx : x.length = s.x.length) :
    (F.forward s.cfg.disc f junk nan 0 x).2 = P.follow s.cfg.disc (s.recorded P).outcomes (s.store x p) (s.store x p) := by
  obtain ⟨g, S', h3, e0⟩ := h.forward_reach hs hf junk nan 0 x (by rw [hx]; simp)
  obtain ⟨-, h2, -⟩ := h.reach hs hf
  rw [zeroPart_zero hx] at h3
  rw [e0]
  have hw := funAt_wf hs hf p x
  have hn := funAt_n hs hf p x
  obtain ⟨k1, k2⟩ := forward_all_orders hw h3 junk nan 0 x (by rw [hn, hx]; simp)
  have hd : ((s.funAt P p).tape s.cfg.disc x).dep.length = (s.recorded P).dep.length := rfl
  rw [hd] at k1 k2
  refine List.ext_getElem (by rw [k1, ← dep_length hs hf]; simp) fun i hi hi' => ?_
  have hi0 : i < (s.recorded P).dep.length := by rw [k1] at hi; simpa using hi
  have e := k2 i hi0 0 le_rfl (Or.inl rfl)
  rw [show i * (0 + 1) + 0 = i by omega, at', List.getD_eq_getElem _ _ hi] at e
  rw [e]
  unfold tc
  rw [iteratedDeriv_zero, Nat.factorial_zero, Nat.cast_one, div_one, funAt_eval hs hf h2 hx _ hi0]
  have hl : (List.range s.x.length).map (curve (0 + 1) (fun j l => at' x ((0 + 1) * j + l)) 0) = x := by
    refine List.ext_getElem (by simp [hx]) fun j h1 h2 => ?_
    simp [curve, at', h2]
  rw [hl, at', List.getD_eq_getElem _ _ hi']

/-- **C06, C07, C12** with derivatives: the Taylor coefficients returned by `f.Forward(q, xq)` are those of the recorded operation sequence
executed along the curve `X(t)`, where the vector elements that are used are those at `X(0)`;
order zero at every point and higher orders where the operations are smooth. -/
theorem replay_forward_partial (hs : s.Ok) (hf : s.Faithful P) {F : Fun} {p : List ℝ} {f : ADFun} {S : St}
    (h : s.Hist P F p f S) (junk : ℕ → ℝ) (nan : ℝ) (q : ℕ) (xq : List ℝ) (hx : xq.length = s.x.length * (q + 1))
    {i : ℕ} (hi : i < (P.follow s.cfg.disc (s.recorded P).outcomes (s.store s.x p) (s.store s.x p)).length) {k : ℕ} (hk : k ≤ q)
    (hdom : k = 0 ∨ (F.tape s.cfg.disc (zeroPart s.x.length q xq)).Dom fun j => at' xq ((q + 1) * j)) :
    at' (F.forward s.cfg.disc f junk nan q xq).2 (i * (q + 1) + k) =
      tc (fun t => at' (P.follow s.cfg.disc (s.recorded P).outcomes (s.store (zeroPart s.x.length q xq) p)
        (s.store ((List.range s.x.length).map (curve (q + 1) (fun j l => at' xq ((q + 1) * j + l)) t)) p)) i) k := by
  obtain ⟨g, S', h3, e0⟩ := h.forward_reach hs hf junk nan q xq hx
  obtain ⟨rfl, h2, -⟩ := h.reach hs hf
  have hw := funAt_wf hs hf p (zeroPart s.x.length q xq)
  have hn := funAt_n hs hf p (zeroPart s.x.length q xq)
  rw [← dep_length hs hf] at hi
  rw [e0, (forward_all_orders hw h3 junk nan q xq (by rw [hn, hx])).2 i hi k hk hdom]
  congr 1
  funext t
  exact funAt_eval hs hf h2 (zeroPart_length _ _ _) _ hi

/-- two stores that differ in the independent variables only have vectors of the same sizes -/
theorem store_sameSize (s : Session) (x x' p : List ℝ) : SameSize (s.store x p) (s.store x' p) := fun _ => rfl

/-- **C12**: the coefficients are those of the algorithm itself along the curve (nothing fixed), if near `X(0)` the
execution uses the same vector elements as at `X(0)`. -/
theorem replay_forward_local_partial (hs : s.Ok) (hf : s.Faithful P) {F : Fun} {p : List ℝ} {f : ADFun} {S : St}
    (h : s.Hist P F p f S) (junk : ℕ → ℝ) (nan : ℝ) (q : ℕ) (xq : List ℝ) (hx : xq.length = s.x.length * (q + 1))
    {i : ℕ} (hi : i < (P.follow s.cfg.disc (s.recorded P).outcomes (s.store s.x p) (s.store s.x p)).length) {k : ℕ} (hk : k ≤ q)
    (hdom : k = 0 ∨ (F.tape s.cfg.disc (zeroPart s.x.length q xq)).Dom fun j => at' xq ((q + 1) * j))
    (X : ℝ → List ℝ) (hX : X = fun t => (List.range s.x.length).map (curve (q + 1) (fun j l => at' xq ((q + 1) * j + l)) t))
    (hloc : ∀ᶠ t in nhds (0 : ℝ), P.accesses s.cfg.disc (s.recorded P).outcomes (s.store (X t) p)
      = P.accesses s.cfg.disc (s.recorded P).outcomes (s.store (X 0) p)) :
    at' (F.forward s.cfg.disc f junk nan q xq).2 (i * (q + 1) + k) =
      tc (fun t => at' (P.follow s.cfg.disc (s.recorded P).outcomes (s.store (X t) p) (s.store (X t) p)) i) k := by
  rw [replay_forward_partial hs hf h junk nan q xq hx hi hk hdom]
  have h0 : X 0 = zeroPart s.x.length q xq := by
    rw [hX]; unfold zeroPart
    refine List.map_congr_left fun j _ => ?_
    unfold curve
    rw [Finset.sum_eq_single 0 (fun b _ hb => by simp [hb]) (fun h => absurd (Finset.mem_range.2 (by omega)) h)]
    simp
  unfold tc
  congr 1
  refine Filter.EventuallyEq.iteratedDeriv_eq k ?_
  filter_upwards [hloc] with t ht
  rw [← h0, ← P.follow_same _ _ (s.store (X 0) p) (s.store (X t) p) (store_sameSize _ _ _ _) rfl ht.symm]
  rw [hX]

/-- **C06**: at the arguments of the recording the result is that of the algorithm itself -/
theorem replay_at_recorded_point_partial (hs : s.Ok) (hf : s.Faithful P) {F : Fun} {f : ADFun} {S : St}
    (h : s.Hist P F s.p f S) (junk : ℕ → ℝ) (nan : ℝ) :
    (F.forward s.cfg.disc f junk nan 0 s.x).2 = P.run s.cfg.disc (s.store s.x s.p) := by
  rw [replay_forward_zero_partial hs hf h junk nan s.x rfl]
  obtain ⟨-, -, -, h4, -⟩ := recorded_ok hs hf
  rw [show s.D s.w0 = s.store s.x s.p from s.D_eq rfl rfl _] at h4
  exact (Prog.run_eq_follow _ _ _ _ h4.symm).symm

/-- **C07**: only the last call to new_dynamic matters, and new_dynamic with the values of the recording restores
the object: it is the same as recording again with the new values (same operation sequence). -/
theorem newDynamic_last (hs : s.Ok) (hf : s.Faithful P) (p q : List ℝ) :
    ((s.fun_ P).newDynamic s.cfg.disc p).newDynamic s.cfg.disc q = (s.fun_ P).newDynamic s.cfg.disc q ∧
    (s.fun_ P).newDynamic s.cfg.disc s.p = s.fun_ P := by
  rw [fun_eq hs hf, newDynamic_eq hs hf, newDynamic_eq hs hf, newDynamic_eq hs hf]
  exact ⟨rfl, newDynamic_eq hs hf _ _⟩

/-! ## Algorithms for which nothing is excluded -/

/-- the instruction is not pow, a conditional expression, or an access to a vector with a size_t index -/
def Instr.plain : Instr → Prop
  | .cexp .. => False
  | .vset .. => False
  | .vget .. => False
  | .bin .pow .. => False
  | _ => True

/-- the algorithm does not use pow, conditional expressions, or a VecAD vector with a size_t index -/
def Prog.plain : Prog → Prop
  | .ret _ => True
  | .instr i k => i.plain ∧ k.plain
  | .branch _ _ _ yes no => yes.plain ∧ no.plain

theorem Prog.plain.faithful {c : Cfg} {P : Prog} (h : P.plain) : ∀ r m, P.Faithful c r m := by
  induction P with
  | ret ys => intros; trivial
  | instr i k ih =>
    intro r m
    refine ⟨?_, ih h.2 _ _⟩
    have := h.1
    unfold Instr.Faithful
    split <;> simp_all [Instr.plain]
  | branch cop i j yes no ihy ihn =>
    intro r m
    unfold Prog.Faithful
    dsimp only
    split_ifs
    · exact ihy h.1 _ _
    · exact ihn h.2 _ _

/-- **C06, C07** without any exclusion for algorithms that do not use `pow` and `CondExp` (and no VecAD vectors with size_t index) -/
theorem replay_plain (hs : s.Ok) (hp : P.plain) {F : Fun} {p : List ℝ} {f : ADFun} {S : St}
    (h : s.Hist P F p f S) (junk : ℕ → ℝ) (nan : ℝ) (x : List ℝ) (hx : x.length = s.x.length) :
    (F.forward s.cfg.disc f junk nan 0 x).2 = P.follow s.cfg.disc (s.recorded P).outcomes (s.store x p) (s.store x p) :=
  replay_forward_zero_partial hs (hp.faithful _ _) h junk nan x hx

/-! ## C10: compare_change -/

theorem countList_ok {count : ℕ} (hc : 0 < count) : ∀ (l : List (ℕ × Bool)) (k : CmpCount),
    (countList count l k).number = k.number + (l.filter (·.2)).length ∧
    (countList count l k).opIndex =
      if k.number < count then (((l.filter (·.2)).map Prod.fst)[count - k.number - 1]?).getD k.opIndex else k.opIndex
  | [], k => by simp [countList]
  | q :: l, k => by
    obtain ⟨h1, h2⟩ := countList_ok hc l (k.add count q.1 q.2)
    have e : countList count (q :: l) k = countList count l (k.add count q.1 q.2) := rfl
    rw [e, h1, h2]
    have hc0 : count ≠ 0 := by omega
    cases hq : q.2 with
    | false => simp [CmpCount.add, hc0, List.filter_cons, hq]
    | true =>
      simp only [CmpCount.add, hc0, if_false, if_true, List.filter_cons, hq, List.length_cons, List.map_cons]
      refine ⟨by omega, ?_⟩
      by_cases h3 : k.number + 1 = count
      · rw [if_neg (by omega), if_pos h3, if_pos (by omega), show count - k.number - 1 = 0 by omega]
        simp
      · by_cases h4 : k.number < count
        · rw [if_pos (by omega), if_pos h4, if_neg h3, show count - k.number - 1 = (count - (k.number + 1) - 1) + 1 by omega,
            List.getElem?_cons_succ]
        · rw [if_neg (by omega), if_neg h4, if_neg h3]

/-- *Specification*: the operator indices of the recorded comparisons whose outcome is different, in order -/
def changedOps : List (Option ℕ) → List Bool → List Bool → List ℕ
  | k :: ks, b :: bs, b' :: bs' => (if b' ≠ b then k.toList else []) ++ changedOps ks bs bs'
  | _, _, _ => []

/-- *Specification*: number of positions at which the outcomes are different -/
def numChanged : List Bool → List Bool → ℕ
  | b :: bs, b' :: bs' => (if b' ≠ b then 1 else 0) + numChanged bs bs'
  | _, _ => 0

theorem changedOps_eq : ∀ (ks : List (Option ℕ)) (bs bs' : List Bool),
    ((cmpPairs ks bs bs').filter (·.2)).map Prod.fst = changedOps ks bs bs'
  | k :: ks, b :: bs, b' :: bs' => by
    rw [cmpPairs, changedOps, List.filter_append, List.map_append, changedOps_eq ks bs bs']
    congr 1
    cases k <;> cases b <;> cases b' <;> rfl
  | [], _, _ => by simp [cmpPairs, changedOps]
  | _ :: _, [], _ => by simp [cmpPairs, changedOps]
  | _ :: _, _ :: _, [] => by simp [cmpPairs, changedOps]

theorem numChanged_eq : ∀ (ks : List (Option ℕ)) (bs bs' : List Bool), ks.length = bs.length →
    (∀ k : ℕ, ks[k]? = some none → bs'[k]? = bs[k]?) → (changedOps ks bs bs').length = numChanged bs bs'
  | k :: ks, b :: bs, b' :: bs', hl, h => by
    rw [changedOps, numChanged, List.length_append,
      numChanged_eq ks bs bs' (by simpa using hl) fun j hj => by simpa using h (j + 1) (by simpa using hj)]
    congr 1
    by_cases hb : b' = b
    · simp [hb]
    · cases k with
      | none => exact absurd (by simpa using h 0 (by simp)) hb
      | some k => simp [hb]
  | [], bs, bs', hl, _ => by
    have : bs = [] := by simpa using hl.symm
    subst this; simp [changedOps, numChanged]
  | _ :: _, [], _, hl, _ => by simp at hl
  | _ :: _, _ :: _, [], _, _ => by simp [changedOps, numChanged]

theorem outcomes_length (disc : ℕ → ℝ → ℝ) (P : Prog) : ∀ (bs : List Bool) (z m z' m' : Vals),
    (P.outcomes disc bs z m).length = (P.outcomes disc bs z' m').length := by
  induction P with
  | ret ys => intros; rfl
  | instr i k ih => intros; exact ih _ _ _ _ _
  | branch cop i j yes no ihy ihn =>
    intro bs z m z' m'
    simp only [Prog.outcomes, List.length_cons]
    split_ifs
    · rw [ihy bs.tail z m z' m']
    · rw [ihn bs.tail z m z' m']

theorem numChanged_zero : ∀ (bs bs' : List Bool), bs.length = bs'.length → numChanged bs bs' = 0 → bs' = bs
  | [], [], _, _ => rfl
  | [], _ :: _, h, _ => by simp at h
  | _ :: _, [], h, _ => by simp at h
  | b :: bs, b' :: bs', h, h' => by
    rw [numChanged] at h'
    have h1 : ¬ b' ≠ b := by
      intro hb; rw [if_pos hb] at h'; omega
    rw [not_not] at h1
    rw [h1, numChanged_zero bs bs' (by simpa using h) (by omega)]

/-- the counter of the zero order sweep -/
theorem compareChange_countList (hs : s.Ok) (hf : s.Faithful P) {p : List ℝ}
    (hp : p.length = s.p.length) (count : ℕ) {x : List ℝ} (hx : x.length = s.x.length) {t : Tay}
    (ht : ∀ j < s.x.length, t (j + 1) 0 = at' x j) :
    (s.funAt P p).compareChange s.cfg.disc count t = countList count
      (cmpPairs (s.recorded P).marks (s.recorded P).outcomes
        (P.outcomes s.cfg.disc (s.recorded P).outcomes (s.store x p) (s.store x p))) ⟨0, 0⟩ := by
  obtain ⟨h1, h2, h3, h4, h5, h6, h7⟩ := recorded_ok hs hf
  have e := h6 ⟨p, x, x⟩
  have hsel : s.D (World.sel ⟨p, x, x⟩) = s.store x p := s.D_eq hx hp x
  rw [hsel, s.D_eq hx hp] at e
  rw [← e]
  unfold Fun.compareChange
  rw [funAt_par p ⟨p, x, x⟩ rfl]
  exact congrArg Prod.snd (sweep0_ok s.cfg.disc _ _ count _ _ _ (indSet (s.recorded P).r.n) t _ _ (indEnv (at' x)) (indSet_lt _)
    (h1.wf ⟨p, x, x⟩) h1.cmp (ind_agree hs hf ht))

/-- **C10**: after `f.Forward(0, x)` with `compare_change_count(count)`, `count > 0`, on an object recorded with
record_compare true, compare_change_number() is the number of comparisons whose outcome (when the recorded operation
sequence is executed at `x` and the current dynamic parameters) is different from the one while recording;
compare_change_op_index() is the operator index of the `count`-th of them (zero if there are less).
`t` are the Taylor coefficients after the independent variables have been set to `x`. -/
theorem compare_change_number_partial (hs : s.Ok) (hf : s.Faithful P) {F : Fun} {p : List ℝ} {f : ADFun} {S : St}
    (h : s.Hist P F p f S) (hrc : s.recordCompare = true) {count : ℕ} (hc : 0 < count) {x : List ℝ} (hx : x.length = s.x.length)
    {t : Tay} (ht : ∀ j < s.x.length, t (j + 1) 0 = at' x j) :
    let bs := (s.recorded P).outcomes
    let bs' := P.outcomes s.cfg.disc bs (s.store x p) (s.store x p)
    let changed := changedOps (s.recorded P).marks bs bs'
    (F.compareChange s.cfg.disc count t).number = numChanged bs bs' ∧ changed.length = numChanged bs bs' ∧
    (F.compareChange s.cfg.disc count t).opIndex = (changed[count - 1]?).getD 0 := by
  obtain ⟨rfl, hp, -⟩ := h.reach hs hf
  obtain ⟨h1, h2, h3, h4, h5, h6, h7⟩ := recorded_ok hs hf
  have e := compareChange_countList hs hf hp count hx ht
  obtain ⟨k1, k2⟩ := countList_ok hc (cmpPairs (s.recorded P).marks (s.recorded P).outcomes
    (P.outcomes s.cfg.disc (s.recorded P).outcomes (s.store x p) (s.store x p))) ⟨0, 0⟩
  have hn := numChanged_eq (s.recorded P).marks (s.recorded P).outcomes
    (P.outcomes s.cfg.disc (s.recorded P).outcomes (s.store x p) (s.store x p)) h3 (fun k hk => by
      have := h7 hrc ⟨p, x, x⟩ k hk
      have hsel : s.D (World.sel ⟨p, x, x⟩) = s.store x p := s.D_eq hx hp x
      rwa [hsel, s.D_eq hx hp] at this)
  rw [← e] at k1 k2
  rw [changedOps_eq] at k2
  refine ⟨?_, hn, ?_⟩
  · rw [k1, zero_add, ← hn, ← changedOps_eq, List.length_map]
  · rw [k2, if_pos hc]; simp

/-- **C10**: if compare_change_number() is zero then the algorithm executed directly at `x` takes the recorded branches and
`f.Forward(0, x)` returns its results. -/
theorem compare_change_zero_partial (hs : s.Ok) (hf : s.Faithful P) {F : Fun} {p : List ℝ} {f : ADFun} {S : St}
    (h : s.Hist P F p f S) (hrc : s.recordCompare = true) {count : ℕ} (hc : 0 < count) {x : List ℝ} (hx : x.length = s.x.length)
    {t : Tay} (ht : ∀ j < s.x.length, t (j + 1) 0 = at' x j)
    (hz : (F.compareChange s.cfg.disc count t).number = 0) (junk : ℕ → ℝ) (nan : ℝ) :
    (F.forward s.cfg.disc f junk nan 0 x).2 = P.run s.cfg.disc (s.store x p) := by
  obtain ⟨k1, -⟩ := compare_change_number_partial hs hf h hrc hc hx ht
  rw [hz] at k1
  rw [replay_forward_zero_partial hs hf h junk nan x hx]
  refine (Prog.run_eq_follow _ _ _ _ ?_).symm
  refine numChanged_zero _ _ ?_ k1.symm
  obtain ⟨-, -, -, h4, -⟩ := recorded_ok hs hf
  conv_lhs => rw [h4]
  exact outcomes_length _ _ _ _ _ _ _

/-! ## C11: conditional expressions, orders greater than zero -/

/-- *Specification*: order `k` Taylor coefficient of an operand -/
def opdCoef (o : Opd) (t : Tay) (k : ℕ) : ℝ :=
  match o with
  | .par c => if k = 0 then c else 0
  | .var v => t v k

/-- *Specification*: the selected branch -/
noncomputable def selected (cop : CompareOp) (l r t f : Opd) (s : Tay) : Opd :=
  if cop.holds (opdCoef l s 0) (opdCoef r s 0) then t else f

/-- **C11**: for every order the coefficients of the result of a conditional expression are those of the branch selected by the order zero
coefficients of `left` and `right`, at every point (also where `left = right`) -/
theorem cexp_forward_selected (cop : CompareOp) (l r t f : Opd) (p q iz : ℕ) (s : Tay)
    (hz : ∀ v, t = .var v ∨ f = .var v → v ≠ iz) {k : ℕ} (hp : p ≤ k) (hk : k ≤ q) :
    cexpForward cop l r t f p q iz s iz k = opdCoef (selected cop l r t f s) s k := by
  have l0 : l.at0 s = opdCoef l s 0 := by cases l <;> simp [Opd.at0, opdCoef]
  have r0 : r.at0 s = opdCoef r s 0 := by cases r <;> simp [Opd.at0, opdCoef]
  have sel0 : condExp cop (l.at0 s) (r.at0 s) (t.at0 s) (f.at0 s) = opdCoef (selected cop l r t f s) s 0 := by
    unfold condExp selected
    rw [l0, r0]
    split_ifs
    · cases t <;> simp [Opd.at0, opdCoef]
    · cases f <;> simp [Opd.at0, opdCoef]
  unfold cexpForward
  set s0 := if p = 0 then s.set iz 0 (condExp cop (l.at0 s) (r.at0 s) (t.at0 s) (f.at0 s)) else s with hs0
  set p0 := if p = 0 then 1 else p with hp0
  have hs0' : ∀ v, v ≠ iz → ∀ d, s0 v d = s v d := by
    intro v hv d; rw [hs0]; split_ifs <;> simp [Tay.set_apply, hv]
  have key : ∀ n, (∀ v, v ≠ iz → ∀ d, (forRange p0 n s0 fun d s' => s'.set iz d
        (condExp cop (l.at0 s) (r.at0 s) (t.atk s' d) (f.atk s' d))) v d = s v d) ∧
      ∀ d, (forRange p0 n s0 fun d s' => s'.set iz d
        (condExp cop (l.at0 s) (r.at0 s) (t.atk s' d) (f.atk s' d))) iz d
          = if p0 ≤ d ∧ d < n then opdCoef (selected cop l r t f s) s d else s0 iz d := by
    intro n
    induction n with
    | zero =>
      rw [forRange_of_le (Nat.zero_le _)]
      exact ⟨hs0', fun d => by rw [if_neg (by omega)]⟩
    | succ n ih =>
      by_cases hn : p0 ≤ n
      · rw [forRange_succ hn]
        set u := forRange p0 n s0 fun d s' => s'.set iz d (condExp cop (l.at0 s) (r.at0 s) (t.atk s' d) (f.atk s' d)) with hu
        have hpos : n ≠ 0 := by rw [hp0] at hn; split_ifs at hn <;> omega
        have ev : condExp cop (l.at0 s) (r.at0 s) (t.atk u n) (f.atk u n) = opdCoef (selected cop l r t f s) s n := by
          unfold condExp selected
          rw [l0, r0]
          split_ifs
          · cases t with
            | par c => simp [Opd.atk, opdCoef, hpos]
            | var v => simp only [Opd.atk, opdCoef]; exact ih.1 v (hz v (Or.inl rfl)) n
          · cases f with
            | par c => simp [Opd.atk, opdCoef, hpos]
            | var v => simp only [Opd.atk, opdCoef]; exact ih.1 v (hz v (Or.inr rfl)) n
        refine ⟨fun v hv d => ?_, fun d => ?_⟩
        · rw [Tay.set_apply, if_neg (by tauto)]; exact ih.1 v hv d
        · rw [Tay.set_apply, ev]
          by_cases hd : d = n
          · subst hd; rw [if_pos ⟨rfl, rfl⟩, if_pos (by omega)]
          · rw [if_neg (by tauto), ih.2 d]
            by_cases h' : p0 ≤ d ∧ d < n
            · rw [if_pos h', if_pos (by omega)]
            · rw [if_neg h', if_neg (by omega)]
      · rw [forRange_of_le (by omega)]
        exact ⟨hs0', fun d => by rw [if_neg (by omega)]⟩
  rw [(key (q + 1)).2 k]
  by_cases h0 : p0 ≤ k
  · rw [if_pos (by omega)]
  · have hp' : p = 0 := by
      by_contra hne; rw [hp0, if_neg hne] at h0; omega
    have hk0 : k = 0 := by rw [hp0, if_pos hp'] at h0; omega
    rw [if_neg (by omega), hs0, if_pos hp', hk0, ← sel0]
    simp [Tay.set_apply]

end CppAD.Record
