import Verif.Taylor.GenFrame
import Verif.Taylor.History

/-! # Zero partials, skipped operators and nan in reverse mode (C39) -/

open scoped Classical

namespace CppAD.Gen

variable {B : Type} [RevBase B]

/-- core/reverse.hpp:133-156: seeding of the partials -/
noncomputable def seed (q : ℕ) (dep : List ℕ) (w : List B) : GTay B :=
  let P : GTay B := fun _ _ => 0
  if w.length = dep.length then
    forRange 0 dep.length P fun i P => GTay.add P (dep.getD i 0) (q - 1) (w.getD i 0)
  else
    forRange 0 dep.length P fun i P => forRange 0 q P fun k P => GTay.add P (dep.getD i 0) k (w.getD (i * q + k) 0)

/-- core/reverse.hpp:83-199 with the Taylor coefficients `s` in memory: `n` independent variables, the recording `ops` and
the dependent variables `dep` -/
noncomputable def reverse (n : ℕ) (ops : List (GOp B)) (dep : List ℕ) (s : GTay B) (q : ℕ) (w : List B) : List B :=
  let P := sweep (q - 1) ops (n + 1) s (seed q dep w)
  if w.length = dep.length then (List.range (n * q)).map fun i => P (i / q + 1) (q - 1 - i % q)
  else (List.range (n * q)).map fun i => P (i / q + 1) (i % q)

/-- the same with the operators whose partials are all zero left out -/
noncomputable def reverseSkip (n : ℕ) (ops : List (GOp B)) (dep : List ℕ) (s : GTay B) (q : ℕ) (w : List B) : List B :=
  let P := sweepSkip (q - 1) ops (n + 1) s (seed q dep w)
  if w.length = dep.length then (List.range (n * q)).map fun i => P (i / q + 1) (q - 1 - i % q)
  else (List.range (n * q)).map fun i => P (i / q + 1) (i % q)

theorem tab_eq (n q : ℕ) (g : ℕ → ℕ → ℝ) : tab n q g = (List.range (n * q)).map fun i => g (i / q) (i % q) := rfl

/-- over the reals this is `ADFun::Reverse` of the model, for one direction -/
theorem reverse_real (f : ADFun) (ops : List (GOp ℝ)) (hops : f.ops = ops.map GOp.toOp) (junk : ℕ → ℝ) (q : ℕ) (w : List ℝ)
    (hd : f.ndir ≤ 1) : (f.reverse junk q w).2 = reverse f.n ops f.dep (unflat f.cap f.taylor) q w := by
  unfold ADFun.reverse
  have hr : f.revRoom junk q = f := if_neg fun h => by omega
  dsimp only
  rw [hr, hops, sweep_real]
  rfl

theorem sweep_zeroP [RevLaws B] (d : ℕ) (ops : List (GOp B)) : ∀ nv (s P : GTay B), (∀ v k, P v k = 0) →
    ∀ v k, sweep d ops nv s P v k = 0 := by
  induction ops with
  | nil => intro nv s P h; exact h
  | cons op ops ih =>
    intro nv s P h
    have h1 := ih (nv + op.nres) s P h
    rw [sweep]
    generalize sweep d ops (nv + op.nres) s P = Q at h1 ⊢
    rw [GOp.rev_zero op d nv s Q (fun _ v _ k _ => h1 v k) fun r _ k _ => h1 _ _]
    exact h1

theorem sweep_skip [RevLaws B] (d : ℕ) (ops : List (GOp B)) : ∀ nv (s P : GTay B), (∀ op ∈ ops, ¬ op.powAtZero s) →
    sweep d ops nv s P = sweepSkip d ops nv s P := by
  induction ops with
  | nil => intros; rfl
  | cons op ops ih =>
    intro nv s P hx
    rw [sweep, sweepSkip, ih _ _ _ fun o ho => hx o (by simp [ho])]
    split_ifs with h
    · exact GOp.rev_zero op d nv s _ (fun hh => absurd hh (hx op (by simp))) h
    · rfl

/-- **C39** leaving out the operators whose partials are all zero does not change the result of `Reverse`, whatever the
Taylor coefficients are (they may be nan).  Missing: the exponent of a power is a parameter and its base is zero; see
`reverse_wrong_pow_zero`. -/
theorem reverse_skip_partial [RevLaws B] (n : ℕ) (ops : List (GOp B)) (dep : List ℕ) (s : GTay B) (q : ℕ) (w : List B)
    (hx : ∀ op ∈ ops, ¬ op.powAtZero s) : reverse n ops dep s q w = reverseSkip n ops dep s q w := by
  unfold reverse reverseSkip
  rw [sweep_skip _ _ _ _ _ hx]

theorem getD_zero {w : List B} (hw : ∀ a ∈ w, a = 0) (i : ℕ) : w.getD i 0 = 0 := by
  by_cases h : i < w.length
  · rw [List.getD_eq_getElem _ _ h]; exact hw _ (List.getElem_mem h)
  · rw [List.getD_eq_default _ _ (by omega)]

/-- the seed is zero off the set `V` when the weights of the dependent variables that are not in `V` are zero -/
theorem seed_zero [RevLaws B] (q : ℕ) (dep : List ℕ) (w : List B) (V : Set ℕ)
    (hw : ∀ i < dep.length, dep.getD i 0 ∉ V →
      if w.length = dep.length then w.getD i 0 = 0 else ∀ k < q, w.getD (i * q + k) 0 = 0) :
    ∀ v, v ∉ V → ∀ k, seed q dep w v k = 0 := by
  unfold seed
  split_ifs with h
  · refine forRange_inv (fun P : GTay B => ∀ v, v ∉ V → ∀ k, P v k = 0) (fun _ _ _ => rfl) ?_
    intro i P _ hi hP v hv k
    by_cases hd : dep.getD i 0 ∈ V
    · rw [add_keep (v := v) fun hh => hv (hh ▸ hd)]; exact hP v hv k
    · have := hw i hi hd
      rw [if_pos h] at this
      rw [this, add_zero0]; exact hP v hv k
  · refine forRange_inv (fun P : GTay B => ∀ v, v ∉ V → ∀ k, P v k = 0) (fun _ _ _ => rfl) ?_
    intro i P _ hi hP
    refine forRange_inv (fun P : GTay B => ∀ v, v ∉ V → ∀ k, P v k = 0) hP ?_
    intro j P _ hj hP v hv k
    by_cases hd : dep.getD i 0 ∈ V
    · rw [add_keep (v := v) fun hh => hv (hh ▸ hd)]; exact hP v hv k
    · have := hw i hi hd
      rw [if_neg h] at this
      rw [this j hj, add_zero0]; exact hP v hv k

/-- **C39** weights that are all zero give derivatives that are all zero, whatever the Taylor coefficients are -/
theorem reverse_zero_weight [RevLaws B] (n : ℕ) (ops : List (GOp B)) (dep : List ℕ) (s : GTay B) (q : ℕ) (w : List B)
    (hw : ∀ a ∈ w, a = 0) : reverse n ops dep s q w = List.replicate (n * q) 0 := by
  have h0 := sweep_zeroP (q - 1) ops (n + 1) s (seed q dep w) fun v k =>
    seed_zero q dep w ∅ (fun i _ _ => by
      split_ifs
      · exact getD_zero hw i
      · exact fun k _ => getD_zero hw _) v (by simp) k
  unfold reverse
  dsimp only
  simp only [h0, ite_self]
  simp [List.map_const']

/-- *Specification*: `V` contains, with a result of an operator, all its results and arguments, and otherwise none of its
results -/
def Closed (V : Set ℕ) : List (GOp B) → ℕ → Prop
  | [], _ => True
  | op :: ops, nv => ((∀ r < op.nres, nv + r ∉ V) ∨ ((∀ r < op.nres, nv + r ∈ V) ∧ ∀ a ∈ op.args, a ∈ V)) ∧
      Closed V ops (nv + op.nres)

theorem sweep_dead [RevLaws B] (d : ℕ) (V : Set ℕ) (ops : List (GOp B)) : ∀ nv (s s' P : GTay B), Closed V ops nv →
    (∀ op ∈ ops, ¬ op.powAtZero s ∧ ¬ op.powAtZero s') → (∀ v ∈ V, s v = s' v) → (∀ v, v ∉ V → ∀ k, P v k = 0) →
    sweep d ops nv s P = sweep d ops nv s' P ∧ ∀ v, v ∉ V → ∀ k, sweep d ops nv s P v k = 0 := by
  induction ops with
  | nil => intro nv s s' P _ _ _ hP; exact ⟨rfl, hP⟩
  | cons op ops ih =>
    intro nv s s' P hc hx hs hP
    obtain ⟨h1, h2⟩ := ih (nv + op.nres) s s' P hc.2 (fun o ho => hx o (by simp [ho])) hs hP
    rw [sweep, sweep, ← h1]
    generalize sweep d ops (nv + op.nres) s P = Q at h2 ⊢
    have hxo := hx op (by simp)
    rcases hc.1 with hd | ⟨hr, ha⟩
    · have hz : ∀ r < op.nres, ∀ k ≤ d, Q (nv + r) k = 0 := fun r hr k _ => h2 _ (hd r hr) k
      rw [GOp.rev_zero op d nv s Q (fun h => absurd h hxo.1) hz, GOp.rev_zero op d nv s' Q (fun h => absurd h hxo.2) hz]
      exact ⟨rfl, h2⟩
    · have hres : ∀ v, nv ≤ v ∧ v < nv + op.nres → v ∈ V := fun v hv => by
        have := hr (v - nv) (by omega)
        rwa [Nat.add_sub_cancel' hv.1] at this
      refine ⟨GOp.rev_read op d nv s s' Q fun v hv => hs v ?_, fun v hv k => ?_⟩
      · rcases hv with hv | hv
        · exact ha v hv
        · exact hres v hv
      · rw [GOp.rev_keep op d nv v s Q (fun h => hv (ha v h)) fun h => hv (hres v h)]
        exact h2 v hv k

/-- **C39** the derivatives depend only on the Taylor coefficients of the variables in `V`, a set that contains, with a
result of an operator, all its results and arguments, when the dependent variables that are not in `V` have zero weights:
a nan or infinity in the calculation of a component of the range that has weight zero does not reach the derivatives.
Missing: as in `reverse_skip_partial`. -/
theorem reverse_dead_values_partial [RevLaws B] (n : ℕ) (ops : List (GOp B)) (dep : List ℕ) (s s' : GTay B) (q : ℕ)
    (w : List B) (V : Set ℕ) (hV : Closed V ops (n + 1)) (hs : ∀ v ∈ V, s v = s' v)
    (hw : ∀ i < dep.length, dep.getD i 0 ∉ V →
      if w.length = dep.length then w.getD i 0 = 0 else ∀ k < q, w.getD (i * q + k) 0 = 0)
    (hx : ∀ op ∈ ops, ¬ op.powAtZero s ∧ ¬ op.powAtZero s') :
    reverse n ops dep s q w = reverse n ops dep s' q w := by
  unfold reverse
  rw [(sweep_dead (q - 1) V ops (n + 1) s s' _ hV hx hs (seed_zero q dep w V hw)).1]

/-- **C39** the test for zero partials at the start of `exp_reverse`, `expm1_reverse` and `erf_reverse`
(exp_op.hpp:137-141, expm1_op.hpp:136-141, erf_op.hpp:529-536) does not change the result -/
theorem shortcut_exp [RevLaws B] (ix d iz : ℕ) (s P : GTay B) : expReverse ix d iz s P = expBody ix d iz s P := by
  unfold expReverse
  split_ifs with h
  · exact (expBody_zero h).symm
  · rfl

/-- the same for `expm1` -/
theorem shortcut_expm1 [RevLaws B] (ix d iz : ℕ) (s P : GTay B) : expm1Reverse ix d iz s P = expm1Body ix d iz s P := by
  unfold expm1Reverse
  split_ifs with h
  · exact (expm1Body_zero h).symm
  · rfl

/-- the same for `erf` and `erfc` when the partials of the auxiliary results are zero, as they are in the sweep -/
theorem shortcut_erf [RevLaws B] (sg c : B) (hs : sg * 0 = 0) (ix d iz : ℕ) (h4 : 4 ≤ iz) (s P : GTay B)
    (hz : ∀ r < 4, allZero d (iz - 4 + r) P) : erfReverse sg c ix d iz s P = erfBody sg c ix d iz s P := by
  unfold erfReverse
  split_ifs with h
  · refine (erfBody_zero hs fun r hr => ?_).symm
    rcases Nat.lt_or_ge r 4 with h' | h'
    · exact hz r h'
    · rwa [show iz - 4 + r = iz by omega]
  · rfl

/-! ## The laws hold for the reals and for a type with nan and infinities -/

instance : RevLaws ℝ where
  add_zero := _root_.add_zero
  neg_zero := _root_.neg_zero
  cast_mul_zero := fun _ => mul_zero _
  zero_mul_cast := fun _ => zero_mul _
  zero_div_cast := fun _ _ => zero_div _
  zero_div_two := zero_div _
  zero_mul_two := zero_mul _
  two_mul_zero := mul_zero _
  one_mul_zero := mul_zero _
  neg_one_mul_zero := mul_zero _
  sgn_mul_zero := fun _ => mul_zero _

/-- real numbers with nan and two infinities: floating point arithmetic without rounding and with one zero -/
inductive Fp | nan | pinf | ninf | fin (r : ℝ)

namespace Fp

noncomputable section

/-- an infinity with the sign of `r` -/
def signed (r : ℝ) : Fp := if r = 0 then nan else if 0 < r then pinf else ninf

def add : Fp → Fp → Fp
  | nan, _ => nan
  | _, nan => nan
  | pinf, ninf => nan
  | ninf, pinf => nan
  | pinf, _ => pinf
  | _, pinf => pinf
  | ninf, _ => ninf
  | _, ninf => ninf
  | fin a, fin b => fin (a + b)

def neg : Fp → Fp
  | nan => nan
  | pinf => ninf
  | ninf => pinf
  | fin a => fin (-a)

def mul : Fp → Fp → Fp
  | nan, _ => nan
  | _, nan => nan
  | fin a, fin b => fin (a * b)
  | pinf, fin a => signed a
  | fin a, pinf => signed a
  | ninf, fin a => signed (-a)
  | fin a, ninf => signed (-a)
  | pinf, pinf => pinf
  | ninf, ninf => pinf
  | pinf, ninf => ninf
  | ninf, pinf => ninf

def inv : Fp → Fp
  | nan => nan
  | pinf => fin 0
  | ninf => fin 0
  | fin a => if a = 0 then pinf else fin (1 / a)

def sgn : Fp → Fp
  | pinf => fin 1
  | fin a => fin (Real.sign a)
  | _ => fin (-1)

def holds (c : CompareOp) : Fp → Fp → Prop
  | fin a, fin b => c.holds a b
  | _, _ => False

instance : RevBase Fp where
  zero := fin 0
  one := fin 1
  add := add
  sub := fun a b => add a (neg b)
  neg := neg
  mul := mul
  div := fun a b => mul a (inv b)
  natCast := fun k => fin k
  ofNat := fin 2
  sgn := sgn
  holds := holds
  erfCon := fin (2 / Real.sqrt Real.pi)

end

theorem zero_def : (0 : Fp) = fin 0 := rfl
theorem one_def : (1 : Fp) = fin 1 := rfl
theorem add_def (a b : Fp) : a + b = add a b := rfl
theorem mul_def (a b : Fp) : a * b = mul a b := rfl
theorem cast_def (k : ℕ) : ((k : ℕ) : Fp) = fin k := rfl

instance : RevLaws Fp where
  add_zero := fun a => by
    show add a (fin 0) = a
    cases a <;> simp [add]
  neg_zero := by show neg (fin 0) = fin 0; simp [neg]
  cast_mul_zero := fun k => by show mul (fin k) (fin 0) = fin 0; simp [mul]
  zero_mul_cast := fun k => by show mul (fin 0) (fin k) = fin 0; simp [mul]
  zero_div_cast := fun k hk => by
    show mul (fin 0) (inv (fin k)) = fin 0
    simp [inv, mul, hk]
  zero_div_two := by show mul (fin 0) (inv (fin 2)) = fin 0; simp [inv, mul]
  zero_mul_two := by show mul (fin 0) (fin 2) = fin 0; simp [mul]
  two_mul_zero := by show mul (fin 2) (fin 0) = fin 0; simp [mul]
  one_mul_zero := by show mul (fin 1) (fin 0) = fin 0; simp [mul]
  neg_one_mul_zero := by show mul (neg (fin 1)) (fin 0) = fin 0; simp [mul, neg]
  sgn_mul_zero := fun a => by
    show mul (sgn a) (fin 0) = fin 0
    cases a <;> simp [mul, sgn]

/-- an ordinary product with a zero factor is nan when the other factor is -/
theorem zero_mul_nan : (0 : Fp) * nan = nan := rfl

/-- the absolute zero product is zero -/
theorem azmul_zero_nan : azmul (0 : Fp) nan = 0 := azmul_zero nan

end Fp

/-- `f(x) = ( x , log(x) )` at `x = 0`: the logarithm is `-inf`, and in general nothing is assumed about the Taylor
coefficients; the derivative with weights `(1, 0)` is `1` -/
theorem log_component (s : GTay Fp) : reverse (B := Fp) 1 [.log 1] [1, 2] s 1 [1, 0] = [1] := by
  rw [reverse_skip_partial 1 [.log 1] [1, 2] s 1 [1, 0] (by simp [GOp.powAtZero])]
  have hP : seed (B := Fp) 1 [1, 2] [1, 0] = fun v k => if v = 1 ∧ k = 0 then 1 else 0 := by
    have h : seed (B := Fp) 1 [1, 2] [1, 0]
      = GTay.add (GTay.add (fun _ _ => 0) 1 0 1) 2 0 0 := rfl
    rw [h, add_zero0]
    funext v k
    simp only [GTay.add, GTay.set]
    refine if_congr Iff.rfl ?_ rfl
    show Fp.add (.fin 0) (.fin 1) = .fin 1
    simp [Fp.add]
  unfold reverseSkip
  simp [hP, sweepSkip, GOp.nres]

/-- the same shape with the general theorem: the logarithm is not in the set `V` -/
example (s s' : GTay Fp) (h : s 1 = s' 1) :
    reverse (B := Fp) 1 [.log 1] [1, 2] s 1 [1, 0] = reverse (B := Fp) 1 [.log 1] [1, 2] s' 1 [1, 0] := by
  refine reverse_dead_values_partial (B := Fp) 1 [.log 1] [1, 2] s s' 1 [1, 0] {1} ?_ ?_ ?_ ?_
  · simp [Closed, GOp.nres]
  · intro v hv; rw [Set.mem_singleton_iff.1 hv]; exact h
  · intro i hi hd
    have hi' : i < 2 := hi
    interval_cases i
    · simp at hd
    · simp
  · simp [GOp.powAtZero]

/-! ## The power with a zero base -/

/-- the recording of `x + pow(x, 2.0)` -/
noncomputable def powTape : Tape := ⟨1, [.powvp 1 2, .addvv 1 2], [3]⟩

/-- **C39** counterexample.  `F(x) = x + pow(x, 2.0)` has derivative `1` at `x = 0`.  `Reverse(1, {1})` after
`Forward(0, {0})` returns `0`: `powvp_reverse` (pow_op.hpp:731-732) replaces the partials of `x` that the other operators
have accumulated by zero. So the result changes when the operator is left out. -/
theorem reverse_wrong_pow_zero (junk : ℕ → ℝ) :
    powTape.WF ∧ (∀ x : ℕ → ℝ, powTape.eval x 0 = x 0 + x 0 ^ (2 : ℝ)) ∧
    HasDerivAt (fun t : ℝ => powTape.eval (fun _ => t) 0) 1 0 ∧
    ((((powTape.initial junk).forward junk 0 0 [0]).1).reverse junk 1 [1]).2 = [0] := by
  refine ⟨?_, ?_, ?_, ?_⟩
  · refine ⟨?_, ?_, ?_⟩
    · simp [powTape]
    · simp [powTape, WFOps, Tape.ind, Op.args, Op.nres, addRes, Op.naux]
    · intro d hd
      simp only [powTape, List.mem_singleton] at hd
      subst hd
      simp [powTape, usable, Tape.ind, Op.nres, addRes, Op.naux]
  · intro x
    simp [Tape.eval, powTape, evalOps, stepEnv, Op.nres, Op.val, indEnv]
  · have h : (fun t : ℝ => powTape.eval (fun _ => t) 0) = fun t => t + t ^ (2 : ℝ) := by
      funext t
      simp [Tape.eval, powTape, evalOps, stepEnv, Op.nres, Op.val, indEnv]
    rw [h]
    have h2 : HasDerivAt (fun t : ℝ => t + t ^ 2) (1 + 2 * 0) 0 := by
      have := (hasDerivAt_id' (0 : ℝ)).fun_add ((hasDerivAt_id' (0 : ℝ)).fun_pow 2)
      simpa using this
    simpa using h2
  · have hc : ((powTape.initial junk).forward junk 0 0 [0]).1.cap = 1 := by
      simp [ADFun.forward, ADFun.fwdRoom, ADFun.capacity2, Tape.initial]
    have hs : unflat 1 ((powTape.initial junk).forward junk 0 0 [0]).1.taylor 1 0 = 0 := by
      simp [ADFun.forward, ADFun.fwdRoom, ADFun.capacity2, Tape.initial, unflat, flat, powTape, forward0, Op.fwd0, Op.nres,
        Tay.set, forRange, at']
    rw [reverse_real _ [.powvp 1 2, .addvv 1 2] rfl junk 1 [1] (by
      simp [ADFun.forward, ADFun.fwdRoom, ADFun.capacity2, Tape.initial]), hc]
    generalize ((powTape.initial junk).forward junk 0 0 [0]).1.taylor = m at hs ⊢
    show reverse 1 _ [3] _ 1 [1] = [0]
    simp [reverse, sweep, GOp.rev, powvpReverse, GOp.nres, hs, forRange, GTay.set]

end CppAD.Gen
