import Verif.Record.Thm2
import Verif.Record.Threads
import Mathlib.Analysis.SpecialFunctions.Complex.Arg
import Mathlib.Analysis.SpecialFunctions.Trigonometric.Arctan

/-! # C60: atan2 of AD objects

`CppAD::atan2(y, x)` is a sequence of AD operations with six conditional expressions.  *Specification*: the angle in `(-π, π]` of the
point `(x, y)`, which is `Complex.arg ⟨x, y⟩`.  The point `(0, 0)`, where the C++ code divides zero by zero, is excluded. -/

open scoped Classical

namespace CppAD.Record.Atan2

open CppAD CppAD.Record Real

/-- `atan2(y, x)` for `AD<Base>`, core/atan2.hpp:83-132.  The arguments are at positions `iy` and `ix`, `n` is the number of objects in the store;
the result is the object `n + 20`. -/
noncomputable def atan2Code (n iy ix : ℕ) : List Instr :=
  [ .con 0,                              -- n: zero, atan2.hpp:86
    .con (2 * Real.arctan 1),            -- n + 1: pi2, atan2.hpp:87
    .con 2,                              -- n + 2
    .bin .mul (n + 2) (n + 1),           -- n + 3: pi, atan2.hpp:88
    .un .neg ix,                         -- n + 4
    .cexp .ge ix n ix (n + 4),           -- n + 5: abs_x, atan2.hpp:92
    .un .neg iy,                         -- n + 6
    .cexp .ge iy n iy (n + 6),           -- n + 7: abs_y, atan2.hpp:93
    .bin .div (n + 7) (n + 5),           -- n + 8
    .un .atan (n + 8),                   -- n + 9: alpha, atan2.hpp:97
    .bin .div (n + 5) (n + 7),           -- n + 10
    .un .atan (n + 10),                  -- n + 11
    .bin .sub (n + 1) (n + 11),          -- n + 12: beta, atan2.hpp:98
    .cexp .gt (n + 5) (n + 7) (n + 9) (n + 12),   -- n + 13: first, atan2.hpp:99
    .bin .sub (n + 3) (n + 13),          -- n + 14: second, atan2.hpp:103
    .un .neg (n + 3),                    -- n + 15
    .bin .add (n + 15) (n + 13),         -- n + 16: third, atan2.hpp:107
    .un .neg (n + 13),                   -- n + 17: fourth, atan2.hpp:111
    .cexp .ge iy n (n + 13) (n + 17),    -- n + 18: alpha, atan2.hpp:115
    .cexp .ge iy n (n + 14) (n + 16),    -- n + 19: beta, atan2.hpp:119
    .cexp .ge ix n (n + 18) (n + 19) ]   -- n + 20: result, atan2.hpp:122

/-- an algorithm that starts with the instructions `l` -/
def after (l : List Instr) (k : Prog) : Prog := l.foldr Prog.instr k

/-! ## The angle -/

theorem arg_unique {x y r θ : ℝ} (hr : 0 < r) (hx : x = r * cos θ) (hy : y = r * sin θ) (h1 : -π < θ) (h2 : θ ≤ π) :
    Complex.arg ⟨x, y⟩ = θ := by
  have := Complex.arg_mul_cos_add_sin_mul_I hr (θ := θ) ⟨h1, h2⟩
  rw [← this]
  congr 1
  apply Complex.ext
  · simp [hx, Complex.cos_ofReal_re, Complex.sin_ofReal_im]
  · simp [hy, Complex.cos_ofReal_im, Complex.sin_ofReal_re]

/-- the angle of the first quadrant -/
noncomputable def quad (a b : ℝ) : ℝ := if b < a then arctan (b / a) else π / 2 - arctan (a / b)

theorem quad_ok {a b : ℝ} (ha : 0 ≤ a) (hb : 0 ≤ b) (h : a ≠ 0 ∨ b ≠ 0) :
    ∃ r > 0, a = r * cos (quad a b) ∧ b = r * sin (quad a b) ∧ 0 ≤ quad a b ∧ quad a b ≤ π / 2 := by
  unfold quad
  by_cases hab : b < a
  · rw [if_pos hab]
    have ha' : 0 < a := lt_of_le_of_lt hb hab
    have hp : 0 < 1 + (b / a) ^ 2 := by positivity
    refine ⟨a * √(1 + (b / a) ^ 2), by positivity, ?_, ?_, ?_, (arctan_lt_pi_div_two _).le⟩
    · rw [cos_arctan]; field_simp
    · rw [sin_arctan]; field_simp
    · exact arctan_nonneg.2 (by positivity)
  · rw [if_neg hab]
    have hb' : 0 < b := by
      rcases hb.lt_or_eq with h' | h'
      · exact h'
      · exfalso
        rcases h with h | h
        · exact h (le_antisymm (by linarith) ha)
        · exact h h'.symm
    have hp : 0 < 1 + (a / b) ^ 2 := by positivity
    refine ⟨b * √(1 + (a / b) ^ 2), by positivity, ?_, ?_, ?_, ?_⟩
    · rw [cos_pi_div_two_sub, sin_arctan]; field_simp
    · rw [sin_pi_div_two_sub, cos_arctan]; field_simp
    · linarith [arctan_lt_pi_div_two (a / b)]
    · linarith [arctan_nonneg.2 (show 0 ≤ a / b by positivity)]

/-- the value computed by the code -/
noncomputable def atan2Val (y x : ℝ) : ℝ :=
  condExp .ge x 0
    (condExp .ge y 0 (quad (condExp .ge x 0 x (-x)) (condExp .ge y 0 y (-y))) (-quad (condExp .ge x 0 x (-x)) (condExp .ge y 0 y (-y))))
    (condExp .ge y 0 (π - quad (condExp .ge x 0 x (-x)) (condExp .ge y 0 y (-y))) (-π + quad (condExp .ge x 0 x (-x)) (condExp .ge y 0 y (-y))))

theorem condExp_abs (x : ℝ) : condExp .ge x 0 x (-x) = |x| := by
  unfold condExp CompareOp.holds
  dsimp only
  split_ifs with h
  · exact (abs_of_nonneg h).symm
  · exact (abs_of_neg (not_le.1 h)).symm

theorem atan2Val_eq {y x : ℝ} (h : x ≠ 0 ∨ y ≠ 0) : atan2Val y x = Complex.arg ⟨x, y⟩ := by
  unfold atan2Val
  rw [condExp_abs, condExp_abs]
  obtain ⟨r, hr, h1, h2, h3, h4⟩ := quad_ok (abs_nonneg x) (abs_nonneg y) (h.imp abs_ne_zero.2 abs_ne_zero.2)
  generalize quad |x| |y| = φ at *
  have hpi := pi_pos
  unfold condExp CompareOp.holds
  dsimp only
  by_cases hx : x ≥ 0 <;> by_cases hy : y ≥ 0
  · rw [if_pos hx, if_pos hy]
    rw [abs_of_nonneg hx] at h1; rw [abs_of_nonneg hy] at h2
    exact (arg_unique hr h1 h2 (by linarith) (by linarith)).symm
  · rw [if_pos hx, if_neg hy]
    rw [abs_of_nonneg hx] at h1; rw [abs_of_neg (not_le.1 hy)] at h2
    exact (arg_unique hr (by rw [cos_neg]; exact h1) (by rw [sin_neg]; linarith) (by linarith) (by linarith)).symm
  · rw [if_neg hx, if_pos hy]
    rw [abs_of_neg (not_le.1 hx)] at h1; rw [abs_of_nonneg hy] at h2
    exact (arg_unique hr (by rw [cos_pi_sub]; linarith) (by rw [sin_pi_sub]; exact h2) (by linarith) (by linarith)).symm
  · rw [if_neg hx, if_neg hy]
    rw [abs_of_neg (not_le.1 hx)] at h1; rw [abs_of_neg (not_le.1 hy)] at h2
    have : φ ≠ 0 := by
      rintro rfl
      rw [sin_zero, mul_zero] at h2
      exact hy (by linarith)
    have hφ : 0 < φ := lt_of_le_of_ne h3 this.symm
    refine (arg_unique hr ?_ ?_ (by linarith) (by linarith)).symm
    · rw [show -π + φ = -(π - φ) by ring, cos_neg, cos_pi_sub]; linarith
    · rw [show -π + φ = -(π - φ) by ring, sin_neg, sin_pi_sub]; linarith

/-! ## Direct execution of the code -/

theorem at_new {m : List ℝ} {n : ℕ} (h : m.length = n) (l : List ℝ) (k : ℕ) : at' (m ++ l) (n + k) = at' l k := by
  subst h
  unfold at'
  rw [List.getD_eq_getElem?_getD, List.getElem?_append_right (by omega), List.getD_eq_getElem?_getD, Nat.add_sub_cancel_left]

theorem at_old {m : List ℝ} {i : ℕ} (h : i < m.length) (l : List ℝ) : at' (m ++ l) i = at' m i := by
  unfold at'
  rw [List.getD_eq_getElem?_getD, List.getElem?_append_left h, List.getD_eq_getElem?_getD]

/-- the values of the objects created by the code -/
noncomputable def atan2Out (y x : ℝ) : List ℝ :=
  [0, 2 * arctan 1, 2, 2 * (2 * arctan 1), -x, condExp .ge x 0 x (-x), -y, condExp .ge y 0 y (-y),
    condExp .ge y 0 y (-y) / condExp .ge x 0 x (-x),
    arctan (condExp .ge y 0 y (-y) / condExp .ge x 0 x (-x)),
    condExp .ge x 0 x (-x) / condExp .ge y 0 y (-y),
    arctan (condExp .ge x 0 x (-x) / condExp .ge y 0 y (-y)),
    2 * arctan 1 - arctan (condExp .ge x 0 x (-x) / condExp .ge y 0 y (-y)),
    quad (condExp .ge x 0 x (-x)) (condExp .ge y 0 y (-y)),
    2 * (2 * arctan 1) - quad (condExp .ge x 0 x (-x)) (condExp .ge y 0 y (-y)),
    -(2 * (2 * arctan 1)),
    -(2 * (2 * arctan 1)) + quad (condExp .ge x 0 x (-x)) (condExp .ge y 0 y (-y)),
    -quad (condExp .ge x 0 x (-x)) (condExp .ge y 0 y (-y)),
    condExp .ge y 0 (quad (condExp .ge x 0 x (-x)) (condExp .ge y 0 y (-y))) (-quad (condExp .ge x 0 x (-x)) (condExp .ge y 0 y (-y))),
    condExp .ge y 0 (2 * (2 * arctan 1) - quad (condExp .ge x 0 x (-x)) (condExp .ge y 0 y (-y)))
      (-(2 * (2 * arctan 1)) + quad (condExp .ge x 0 x (-x)) (condExp .ge y 0 y (-y))),
    atan2Val y x]

/-- running the first `j` instructions -/
theorem atan2_steps (disc : ℕ → ℝ → ℝ) {n iy ix : ℕ} (bs : List Bool) (z s : Vals) (hz : z.m.length = n) (hs : s.m.length = n)
    (hy : iy < n) (hx : ix < n) (j : ℕ) (hj : j ≤ 21) (k : Prog) :
    (after ((atan2Code n iy ix).take j) k).follow disc bs z s =
      k.follow disc bs { z with m := z.m ++ (atan2Out (at' z.m iy) (at' z.m ix)).take j } { s with m := s.m ++ (atan2Out (at' s.m iy) (at' s.m ix)).take j } := by
  have hpi : 2 * arctan 1 = π / 2 := by rw [arctan_one]; ring
  have step : ∀ (i : Instr) (k : Prog) (z s z' s' : Vals), i.run disc z z = z' → i.run disc z s = s' →
      (Prog.instr i k).follow disc bs z s = k.follow disc bs z' s' := by
    rintro i k z s _ _ rfl rfl; rfl
  have run : ∀ (z s : Vals), s.m.length = n → ∀ j (hj : j < 21) ,
      ((atan2Code n iy ix)[j]'(by simpa [atan2Code] using hj)).run disc z { s with m := s.m ++ (atan2Out (at' s.m iy) (at' s.m ix)).take j } =
      { s with m := s.m ++ (atan2Out (at' s.m iy) (at' s.m ix)).take (j + 1) } := by
    intro z s hs j hj
    have o : ∀ l, at' (s.m ++ l) iy = at' s.m iy := at_old (hs ▸ hy)
    have o' : ∀ l, at' (s.m ++ l) ix = at' s.m ix := at_old (hs ▸ hx)
    have w := fun l k => at_new (m := s.m) hs l k
    have w0 : ∀ l, at' (s.m ++ l) n = at' l 0 := fun l => w l 0
    generalize at' s.m iy = y at *
    generalize at' s.m ix = x at *
    interval_cases j <;> simp [atan2Code, atan2Out, Instr.run, o, o', w, w0, -arctan_one] <;> simp [at', UnF.fn, BinF.fn, -arctan_one]
    · unfold quad; rw [hpi]; rfl
    · unfold atan2Val; rw [hpi, show 2 * (π / 2) = π by ring]
  induction j generalizing k with
  | zero => simp [after]
  | succ j ih =>
    have hj' : j < (atan2Code n iy ix).length := by simpa [atan2Code] using hj
    have e : after ((atan2Code n iy ix).take (j + 1)) k = after ((atan2Code n iy ix).take j) (.instr (atan2Code n iy ix)[j] k) := by
      rw [List.take_succ_eq_append_getElem hj']
      unfold after
      rw [List.foldr_append]
      rfl
    rw [e, ih (by omega)]
    exact step _ _ _ _ _ _ (run _ z hz j hj) (run _ s hs j hj)

/-- running the code -/
theorem atan2_follow (disc : ℕ → ℝ → ℝ) {n iy ix : ℕ} (k : Prog) (bs : List Bool) (z s : Vals) (hz : z.m.length = n) (hs : s.m.length = n)
    (hy : iy < n) (hx : ix < n) :
    (after (atan2Code n iy ix) k).follow disc bs z s =
      k.follow disc bs { z with m := z.m ++ atan2Out (at' z.m iy) (at' z.m ix) } { s with m := s.m ++ atan2Out (at' s.m iy) (at' s.m ix) } :=
  atan2_steps disc bs z s hz hs hy hx 21 le_rfl k

theorem atan2Out_get {y x : ℝ} (h : x ≠ 0 ∨ y ≠ 0) : at' (atan2Out y x) 20 = Complex.arg ⟨x, y⟩ := by
  rw [← atan2Val_eq h]; rfl

/-! ## Recording the code -/

variable {c : Cfg}

theorem reg_new {m : List AD} {n : ℕ} (h : m.length = n) (l : List AD) (k : ℕ) : reg (m ++ l) (n + k) = l.getD k (AD.con 0) := by
  subst h
  unfold reg
  rw [List.getD_eq_getElem?_getD, List.getElem?_append_right (by omega), List.getD_eq_getElem?_getD, Nat.add_sub_cancel_left]

theorem reg_old {m : List AD} {i : ℕ} (h : i < m.length) (l : List AD) : reg (m ++ l) i = reg m i := by
  unfold reg
  rw [List.getD_eq_getElem?_getD, List.getElem?_append_left h, List.getD_eq_getElem?_getD]

theorem constant_eq {r r' : Rec} (h : r'.id = r.id) (a : AD) : r'.constant a = r.constant a := by unfold Rec.constant; rw [h]

/-- an instruction that creates one object; `o` tells if the object is a constant, if known -/
def StepOk (c : Cfg) (r : Rec) (s : Objs) (i : Instr) (o : Option Bool) : Prop :=
  i.Faithful r s ∧ ∃ a r', i.record c r s = (r', { s with m := s.m ++ [a] }) ∧ r'.id = r.id ∧ ∀ b, o = some b → r.constant a = b

theorem step_con {r : Rec} (hid : 0 < r.id) (s : Objs) (v : ℝ) : StepOk c r s (.con v) (some true) := by
  refine ⟨trivial, _, _, rfl, rfl, ?_⟩
  rintro b ⟨⟩
  have hne : (0 : ℕ) ≠ r.id := by omega
  simp [Rec.constant, AD.con, hne]

theorem step_un {r : Rec} (hid : 0 < r.id) (s : Objs) (f : UnF) (i : ℕ) {o : Option Bool}
    (h : o = none ∨ (o = some true ∧ r.constant (reg s.m i) = true)) : StepOk c r s (.un f i) o := by
  refine ⟨trivial, _, _, rfl, (Threads.un_good r f _).1, ?_⟩
  rintro b rfl
  rcases h with h | ⟨h, h'⟩
  · cases h
  · cases h
    simp only [Rec.constant, Bool.not_eq_true', decide_eq_false_iff_not] at h' ⊢
    unfold unAD
    dsimp only
    rw [if_pos h']
    simp [AD.con]; omega

theorem step_bin {r : Rec} (hid : 0 < r.id) (s : Objs) (f : BinF) (hf : f ≠ .pow) (i j : ℕ) {o : Option Bool}
    (h : o = none ∨ (o = some true ∧ r.constant (reg s.m i) = true ∧ r.constant (reg s.m j) = true)) : StepOk c r s (.bin f i j) o := by
  refine ⟨?_, _, _, rfl, (Threads.bin_good r f _ _).1, ?_⟩
  · cases f <;> first | trivial | exact absurd rfl hf
  rintro b rfl
  rcases h with h | ⟨h, h1, h2⟩
  · cases h
  · cases h
    simp only [Rec.constant, Bool.not_eq_true', decide_eq_false_iff_not] at h1 h2 ⊢
    have e1 : r.var (reg s.m i) = false := by simp [Rec.var, h1]
    have e2 : r.var (reg s.m j) = false := by simp [Rec.var, h2]
    have e3 : r.dyn (reg s.m i) = false := by simp [Rec.dyn, h1]
    have e4 : r.dyn (reg s.m j) = false := by simp [Rec.dyn, h2]
    have hne : (0 : ℕ) ≠ r.id := by omega
    cases f <;> first | exact absurd rfl hf | simp [binAD, addAD, subAD, mulAD, divAD, azmulAD, e1, e2, e3, e4, AD.con, hne]

theorem step_cexp_var {r : Rec} (s : Objs) (cop : CompareOp) (l rt t f : ℕ) (h : r.constant (reg s.m l) = false) :
    StepOk c r s (.cexp cop l rt t f) (some false) := by
  refine ⟨?_, _, _, rfl, (Threads.cexp_good r cop _ _ _ _).1, ?_⟩
  · intro h'
    have := h.symm.trans h'
    cases this
  rintro b ⟨⟩
  simp only [cexpAD, h, Bool.false_and, Bool.false_eq_true, if_false]
  split_ifs <;> simp [Rec.constant]

theorem step_cexp_con {r : Rec} (hid : 0 < r.id) (s : Objs) (cop : CompareOp) (l rt t f : ℕ) (h1 : r.constant (reg s.m l) = true)
    (h2 : r.constant (reg s.m rt) = true) (h3 : r.constant (reg s.m t) = true) (h4 : r.constant (reg s.m f) = true) :
    StepOk c r s (.cexp cop l rt t f) (some true) := by
  refine ⟨fun _ _ => ⟨h3, h4⟩, _, _, rfl, (Threads.cexp_good r cop _ _ _ _).1, ?_⟩
  rintro b ⟨⟩
  have hne : (0 : ℕ) ≠ r.id := by omega
  have : cexpAD c r cop (reg s.m l) (reg s.m rt) (reg s.m t) (reg s.m f)
      = (r, AD.con (condExp cop (reg s.m l).value (reg s.m rt).value (reg s.m t).value (reg s.m f).value)) := by
    unfold cexpAD
    dsimp only
    rw [h1, h2]
    rfl
  rw [this]
  simp [Rec.constant, AD.con, hne]

/-- what is known about the objects created so far -/
def Known (r : Rec) (l : List AD) (st : List (Option Bool)) : Prop :=
  l.length = st.length ∧ ∀ i b, st[i]? = some (some b) → r.constant (l.getD i (AD.con 0)) = b

/-- a sequence of instructions -/
theorem faithful_after (c : Cfg) (is : List Instr) (st : List (Option Bool)) (hl : is.length = st.length) (k : Prog) (r : Rec) (s : Objs)
    (hstep : ∀ j (hj : j < is.length) r' l, r'.id = r.id → Known r' l (st.take j) → StepOk c r' { s with m := s.m ++ l } is[j] st[j])
    (hk : ∀ r' l, r'.id = r.id → l.length = is.length → k.Faithful c r' { s with m := s.m ++ l }) :
    (after is k).Faithful c r s := by
  have key : ∀ d j, j + d = is.length → ∀ r' l, r'.id = r.id → Known r' l (st.take j) →
      (after (is.drop j) k).Faithful c r' { s with m := s.m ++ l } := by
    intro d
    induction d with
    | zero =>
      intro j hj r' l hid hkn
      rw [List.drop_of_length_le (by omega)]
      refine hk r' l hid ?_
      rw [hkn.1, List.length_take]; omega
    | succ d ih =>
      intro j hj r' l hid hkn
      have hj' : j < is.length := by omega
      rw [List.drop_eq_getElem_cons hj']
      obtain ⟨h1, a, r2, h2, h3, h4⟩ := hstep j hj' r' l hid hkn
      refine ⟨h1, ?_⟩
      dsimp only
      rw [h2]
      dsimp only
      rw [List.append_assoc]
      have hll : l.length = j := by rw [hkn.1, List.length_take]; omega
      refine ih (j + 1) (by omega) r2 (l ++ [a]) (h3.trans hid) ⟨?_, ?_⟩
      · rw [List.length_append, hll, List.length_take, List.length_singleton]; omega
      · intro i b hb
        rw [constant_eq h3]
        rcases Nat.lt_or_ge i j with hi | hi
        · rw [List.getD_append _ _ _ _ (hll ▸ hi)]
          refine hkn.2 i b ?_
          rw [List.getElem?_take_of_lt hi]
          rwa [List.getElem?_take_of_lt (by omega)] at hb
        · have hij : i = j := by
            by_contra hne
            rw [List.getElem?_take_eq_none (by omega)] at hb
            cases hb
          subst hij
          rw [List.getElem?_take_of_lt (by omega), List.getElem?_eq_getElem (hl ▸ hj')] at hb
          rw [List.getD_append_right _ _ _ _ (by omega), hll, Nat.sub_self]
          exact h4 b (Option.some.inj hb)
  have := key is.length 0 (by omega) r [] rfl ⟨by simp, fun i b h => by simp at h⟩
  simpa using this

/-- the types of the objects when both arguments are not constants -/
def stVar : List (Option Bool) :=
  [some true, some true, some true, some true, none, some false, none, some false, none, none, none, none, none, some false, none, none,
    none, none, some false, some false, some false]

/-- the types of the objects when both arguments are constants -/
def stCon : List (Option Bool) := List.replicate 21 (some true)

/-- **C60** the recording of atan2 is faithful when both arguments are constants, or both are not -/
theorem atan2_faithful {n iy ix : ℕ} {r : Rec} (hid : 0 < r.id) {s : Objs} (hn : s.m.length = n) (hy : iy < n) (hx : ix < n)
    (hc : r.constant (reg s.m iy) = r.constant (reg s.m ix)) {k : Prog}
    (hk : ∀ r' l, r'.id = r.id → l.length = 21 → k.Faithful c r' { s with m := s.m ++ l }) :
    (after (atan2Code n iy ix) k).Faithful c r s := by
  have oy : ∀ l, reg (s.m ++ l) iy = reg s.m iy := reg_old (hn ▸ hy)
  have ox : ∀ l, reg (s.m ++ l) ix = reg s.m ix := reg_old (hn ▸ hx)
  have w := fun l k => reg_new (m := s.m) hn l k
  have w0 : ∀ l, reg (s.m ++ l) n = l.getD 0 (AD.con 0) := fun l => w l 0
  cases h : r.constant (reg s.m ix) with
  | false =>
    rw [h] at hc
    refine faithful_after c _ stVar rfl k r s ?_ (fun r' l h1 h2 => hk r' l h1 h2)
    intro j hj r' l h1 h2
    have hid' : 0 < r'.id := by rw [h1]; exact hid
    have cy : r'.constant (reg s.m iy) = false := by rw [constant_eq h1]; exact hc
    have cx : r'.constant (reg s.m ix) = false := by rw [constant_eq h1]; exact h
    have g := fun i b => h2.2 i b
    have hj : j < 21 := hj
    interval_cases j
    · exact step_con hid' _ _
    · exact step_con hid' _ _
    · exact step_con hid' _ _
    · exact step_bin hid' _ _ (by simp) _ _ (Or.inr ⟨rfl, by rw [w]; exact g 2 true rfl, by rw [w]; exact g 1 true rfl⟩)
    · exact step_un hid' _ _ _ (Or.inl rfl)
    · exact step_cexp_var _ _ _ _ _ _ (by rw [ox]; exact cx)
    · exact step_un hid' _ _ _ (Or.inl rfl)
    · exact step_cexp_var _ _ _ _ _ _ (by rw [oy]; exact cy)
    · exact step_bin hid' _ _ (by simp) _ _ (Or.inl rfl)
    · exact step_un hid' _ _ _ (Or.inl rfl)
    · exact step_bin hid' _ _ (by simp) _ _ (Or.inl rfl)
    · exact step_un hid' _ _ _ (Or.inl rfl)
    · exact step_bin hid' _ _ (by simp) _ _ (Or.inl rfl)
    · exact step_cexp_var _ _ _ _ _ _ (by rw [w]; exact g 5 false rfl)
    · exact step_bin hid' _ _ (by simp) _ _ (Or.inl rfl)
    · exact step_un hid' _ _ _ (Or.inl rfl)
    · exact step_bin hid' _ _ (by simp) _ _ (Or.inl rfl)
    · exact step_un hid' _ _ _ (Or.inl rfl)
    · exact step_cexp_var _ _ _ _ _ _ (by rw [oy]; exact cy)
    · exact step_cexp_var _ _ _ _ _ _ (by rw [oy]; exact cy)
    · exact step_cexp_var _ _ _ _ _ _ (by rw [ox]; exact cx)
  | true =>
    rw [h] at hc
    refine faithful_after c _ stCon rfl k r s ?_ (fun r' l h1 h2 => hk r' l h1 h2)
    intro j hj r' l h1 h2
    have hid' : 0 < r'.id := by rw [h1]; exact hid
    have cy : r'.constant (reg s.m iy) = true := by rw [constant_eq h1]; exact hc
    have cx : r'.constant (reg s.m ix) = true := by rw [constant_eq h1]; exact h
    have hj : j < 21 := hj
    have oy' : r'.constant (reg (s.m ++ l) iy) = true := by rw [oy]; exact cy
    have ox' : r'.constant (reg (s.m ++ l) ix) = true := by rw [ox]; exact cx
    have w' : ∀ i < j, r'.constant (reg (s.m ++ l) (n + i)) = true := by
      intro i hi
      rw [w]
      refine h2.2 i true ?_
      rw [List.getElem?_take_of_lt hi, stCon, List.getElem?_replicate, if_pos (by omega)]
    have w0' : 0 < j → r'.constant (reg (s.m ++ l) n) = true := fun hi => w' 0 hi
    interval_cases j
    · exact step_con hid' _ _
    · exact step_con hid' _ _
    · exact step_con hid' _ _
    · exact step_bin hid' _ _ (by simp) _ _ (Or.inr ⟨rfl, w' _ (by norm_num), w' _ (by norm_num)⟩)
    · exact step_un hid' _ _ _ (Or.inr ⟨rfl, ox'⟩)
    · exact step_cexp_con hid' _ _ _ _ _ _ ox' (w0' (by norm_num)) ox' (w' _ (by norm_num))
    · exact step_un hid' _ _ _ (Or.inr ⟨rfl, oy'⟩)
    · exact step_cexp_con hid' _ _ _ _ _ _ oy' (w0' (by norm_num)) oy' (w' _ (by norm_num))
    · exact step_bin hid' _ _ (by simp) _ _ (Or.inr ⟨rfl, w' _ (by norm_num), w' _ (by norm_num)⟩)
    · exact step_un hid' _ _ _ (Or.inr ⟨rfl, w' _ (by norm_num)⟩)
    · exact step_bin hid' _ _ (by simp) _ _ (Or.inr ⟨rfl, w' _ (by norm_num), w' _ (by norm_num)⟩)
    · exact step_un hid' _ _ _ (Or.inr ⟨rfl, w' _ (by norm_num)⟩)
    · exact step_bin hid' _ _ (by simp) _ _ (Or.inr ⟨rfl, w' _ (by norm_num), w' _ (by norm_num)⟩)
    · exact step_cexp_con hid' _ _ _ _ _ _ (w' _ (by norm_num)) (w' _ (by norm_num)) (w' _ (by norm_num)) (w' _ (by norm_num))
    · exact step_bin hid' _ _ (by simp) _ _ (Or.inr ⟨rfl, w' _ (by norm_num), w' _ (by norm_num)⟩)
    · exact step_un hid' _ _ _ (Or.inr ⟨rfl, w' _ (by norm_num)⟩)
    · exact step_bin hid' _ _ (by simp) _ _ (Or.inr ⟨rfl, w' _ (by norm_num), w' _ (by norm_num)⟩)
    · exact step_un hid' _ _ _ (Or.inr ⟨rfl, w' _ (by norm_num)⟩)
    · exact step_cexp_con hid' _ _ _ _ _ _ oy' (w0' (by norm_num)) (w' _ (by norm_num)) (w' _ (by norm_num))
    · exact step_cexp_con hid' _ _ _ _ _ _ oy' (w0' (by norm_num)) (w' _ (by norm_num)) (w' _ (by norm_num))
    · exact step_cexp_con hid' _ _ _ _ _ _ ox' (w0' (by norm_num)) (w' _ (by norm_num)) (w' _ (by norm_num))

/-! ## The function object -/

variable {s : Session}

theorem store0_length (s : Session) : s.store0.m.length = s.old.length + s.x.length + s.p.length := by
  simp [Session.store0, independent, Nat.add_assoc]

theorem store_length (s : Session) (x p : List ℝ) : (s.store x p).m.length = s.old.length + x.length + p.length := by
  simp [Session.store, Nat.add_assoc]

/-- after Independent the constants are the objects that existed before -/
theorem store0_constant (hs : s.Ok) {i : ℕ} (hi : i < s.old.length + s.x.length + s.p.length) :
    s.rec0.constant (reg s.store0.m i) = decide (i < s.old.length) := by
  unfold Rec.constant
  have hid : s.rec0.id = s.id := rfl
  rw [hid]
  by_cases h1 : i < s.old.length
  · have e1 : reg s.store0.m i = s.old[i] := by
      unfold reg Session.store0
      rw [List.append_assoc, List.getD_append _ _ _ _ h1, List.getD_eq_getElem _ _ h1]
    rw [e1, decide_eq_true h1, decide_eq_false (hs.old_id _ (List.getElem_mem h1))]
    rfl
  · have hl : i < s.store0.m.length := by rw [store0_length]; exact hi
    have : (reg s.store0.m i).tapeId = s.id := by
      unfold reg
      rw [List.getD_eq_getElem _ _ hl]
      unfold Session.store0 independent
      simp only [List.append_assoc]
      rw [List.getElem_append_right (by omega)]
      by_cases h2 : i - s.old.length < s.x.length
      · rw [List.getElem_append_left (by simpa using h2)]; simp
      · rw [List.getElem_append_right (by simpa using h2)]; simp
    rw [this, decide_eq_false h1, decide_eq_true rfl]
    rfl

/-- the algorithm `z = atan2(y, x)` followed by `k` -/
noncomputable def atan2Prog (s : Session) (iy ix : ℕ) : Prog :=
  after (atan2Code (s.old.length + s.x.length + s.p.length) iy ix) (.ret [s.old.length + s.x.length + s.p.length + 20])

theorem atan2Prog_faithful (hs : s.Ok) {iy ix : ℕ} (hy : iy < s.old.length + s.x.length + s.p.length)
    (hx : ix < s.old.length + s.x.length + s.p.length) (hc : iy < s.old.length ↔ ix < s.old.length) :
    s.Faithful (atan2Prog s iy ix) := by
  refine atan2_faithful (r := s.rec0) (s := s.store0) hs.id_pos (store0_length s) hy hx ?_ (fun _ _ _ _ => trivial)
  rw [store0_constant hs hy, store0_constant hs hx]
  exact decide_eq_decide.2 hc

/-- **C60** `z = atan2(y, x)`, where `y` and `x` are the objects at positions `iy` and `ix` (constants that existed before, then independent
variables, then dynamic parameters): after any history, `f.Forward(0, x)` returns the angle of the point.  Partial because one
constant and one object that is not constant are excluded, see `atan2_constant_x_wrong`, `atan2_constant_y_wrong`. -/
theorem atan2_forward_partial (hs : s.Ok) {iy ix : ℕ} (hy : iy < s.old.length + s.x.length + s.p.length)
    (hx : ix < s.old.length + s.x.length + s.p.length) (hc : iy < s.old.length ↔ ix < s.old.length)
    {F : Fun} {p : List ℝ} {f : ADFun} {S : St} (h : s.Hist (atan2Prog s iy ix) F p f S) (junk : ℕ → ℝ) (nan : ℝ)
    (x : List ℝ) (hxl : x.length = s.x.length) (h0 : at' (s.store x p).m ix ≠ 0 ∨ at' (s.store x p).m iy ≠ 0) :
    (F.forward s.cfg.disc f junk nan 0 x).2 = [Complex.arg ⟨at' (s.store x p).m ix, at' (s.store x p).m iy⟩] := by
  have hf := atan2Prog_faithful hs hy hx hc
  have hp : p.length = s.p.length := (h.reach hs hf).2.1
  have hl : (s.store x p).m.length = s.old.length + s.x.length + s.p.length := by rw [store_length, hxl, hp]
  rw [replay_forward_zero_partial hs hf h junk nan x hxl]
  unfold atan2Prog
  rw [atan2_follow _ _ _ _ _ hl hl hy hx]
  show [at' (_ ++ _) _] = _
  rw [at_new hl, atan2Out_get h0]

theorem tc_ev {f g : ℝ → ℝ} (k : ℕ) (h : ∀ᶠ t in nhds 0, f t = g t) : tc f k = tc g k := by
  unfold tc
  rw [Filter.EventuallyEq.iteratedDeriv_eq k h]

/-- **C60** with derivatives: the Taylor coefficients are those of the angle along the curve, where the operations of the recording are smooth and
the curve does not meet the origin near zero -/
theorem atan2_taylor_partial (hs : s.Ok) {iy ix : ℕ} (hy : iy < s.old.length + s.x.length + s.p.length)
    (hx : ix < s.old.length + s.x.length + s.p.length) (hc : iy < s.old.length ↔ ix < s.old.length)
    {F : Fun} {p : List ℝ} {f : ADFun} {S : St} (h : s.Hist (atan2Prog s iy ix) F p f S) (junk : ℕ → ℝ) (nan : ℝ)
    (q : ℕ) (xq : List ℝ) (hxl : xq.length = s.x.length * (q + 1)) {k : ℕ} (hk : k ≤ q)
    (hdom : (F.tape s.cfg.disc (zeroPart s.x.length q xq)).Dom fun j => at' xq ((q + 1) * j))
    (X : ℝ → Vals) (hX : X = fun t => s.store ((List.range s.x.length).map (curve (q + 1) (fun j l => at' xq ((q + 1) * j + l)) t)) p)
    (h0 : ∀ᶠ t in nhds 0, at' (X t).m ix ≠ 0 ∨ at' (X t).m iy ≠ 0) :
    at' (F.forward s.cfg.disc f junk nan q xq).2 k = tc (fun t => Complex.arg ⟨at' (X t).m ix, at' (X t).m iy⟩) k := by
  have hf := atan2Prog_faithful hs hy hx hc
  have hp : p.length = s.p.length := (h.reach hs hf).2.1
  have hi : 0 < ((atan2Prog s iy ix).follow s.cfg.disc (s.recorded (atan2Prog s iy ix)).outcomes (s.store s.x p) (s.store s.x p)).length := by
    unfold atan2Prog
    have hl : (s.store s.x p).m.length = s.old.length + s.x.length + s.p.length := by rw [store_length, hp]
    rw [atan2_follow _ _ _ _ _ hl hl hy hx]
    show 0 < ([_] : List ℝ).length
    simp
  have := replay_forward_partial hs hf h junk nan q xq hxl hi hk (Or.inr hdom)
  rw [Nat.zero_mul, Nat.zero_add] at this
  rw [this]
  refine tc_ev k (h0.mono fun t ht => ?_)
  have hl : ∀ x : List ℝ, x.length = s.x.length → (s.store x p).m.length = s.old.length + s.x.length + s.p.length := by
    intro x hx; rw [store_length, hx, hp]
  unfold atan2Prog
  rw [atan2_follow _ _ _ _ _ (hl _ (zeroPart_length _ _ _)) (hl _ (by simp)) hy hx]
  show at' [at' (_ ++ _) _] 0 = _
  rw [at_new (hl _ (by simp))]
  subst hX
  dsimp only at ht ⊢
  rw [atan2Out_get ht]
  rfl

/-- recorded at `(y, x) = (1, 1)`, at `(y, x) = (0, -5)` the result is `π` -/
example (junk : ℕ → ℝ) (nan : ℝ) : ∃ (s : Session) (F : Fun) (f : ADFun) (S : St), s.Ok ∧ s.Hist (atan2Prog s 0 1) F [] f S ∧
    (F.forward s.cfg.disc f junk nan 0 [0, -5]).2 = [π] := by
  have hs : (⟨cfg0, 0, 7, true, [], [1, 1], [], []⟩ : Session).Ok := ⟨by simp, by simp, by simp, by simp⟩
  refine ⟨_, _, _, _, hs, .start (fun _ => 0) (fun _ _ _ => 0) [0, 0] rfl, ?_⟩
  have := atan2_forward_partial hs (iy := 0) (ix := 1) (by simp) (by simp) (by simp)
    (.start (fun _ => 0) (fun _ _ _ => 0) [0, 0] rfl) junk nan [0, -5] rfl (by simp [Session.store, at'])
  refine this.trans ?_
  have e1 : at' ((⟨cfg0, 0, 7, true, [], [1, 1], [], []⟩ : Session).store [0, -5] []).m 1 = -5 := by simp [Session.store, at']
  have e0 : at' ((⟨cfg0, 0, 7, true, [], [1, 1], [], []⟩ : Session).store [0, -5] []).m 0 = 0 := by simp [Session.store, at']
  rw [show (⟨cfg0, 0, 7, true, [], [1, 1], [], []⟩ : Session).p = [] from rfl, e1, e0]
  rw [Complex.arg_eq_pi_iff.2 ⟨by norm_num, rfl⟩]

/-! ## One constant argument -/

/-- effect of a list of instructions on the recorder and the objects -/
noncomputable def recAll (c : Cfg) : List Instr → Rec × Objs → Rec × Objs
  | [], s => s
  | i :: l, s => recAll c l (i.record c s.1 s.2)

theorem recAll_append (c : Cfg) : ∀ (l l' : List Instr) (s : Rec × Objs), recAll c (l ++ l') s = recAll c l' (recAll c l s)
  | [], _, _ => rfl
  | _ :: l, l', _ => recAll_append c l l' _

theorem record_after (c : Cfg) (k : Prog) : ∀ (is : List Instr) (r : Rec) (s : Objs),
    (after is k).record c r s = k.record c (recAll c is (r, s)).1 (recAll c is (r, s)).2
  | [], _, _ => rfl
  | i :: is, r, s => record_after c k is _ _

theorem recAll_known (c : Cfg) (is : List Instr) (st : List (Option Bool)) (hl : is.length = st.length) (r : Rec) (s : Objs)
    (hstep : ∀ j (hj : j < is.length) r' l, r'.id = r.id → Known r' l (st.take j) → StepOk c r' { s with m := s.m ++ l } is[j] st[j]) :
    ∃ r' l, recAll c is (r, s) = (r', { s with m := s.m ++ l }) ∧ r'.id = r.id ∧ Known r' l st := by
  have key : ∀ d j, j + d = is.length → ∀ r' l, r'.id = r.id → Known r' l (st.take j) →
      ∃ r2 l2, recAll c (is.drop j) (r', { s with m := s.m ++ l }) = (r2, { s with m := s.m ++ l2 }) ∧ r2.id = r.id ∧ Known r2 l2 st := by
    intro d
    induction d with
    | zero =>
      intro j hj r' l hid hkn
      rw [List.drop_of_length_le (by omega)]
      rw [List.take_of_length_le (by omega)] at hkn
      exact ⟨r', l, rfl, hid, hkn⟩
    | succ d ih =>
      intro j hj r' l hid hkn
      have hj' : j < is.length := by omega
      rw [List.drop_eq_getElem_cons hj']
      obtain ⟨h1, a, r2, h2, h3, h4⟩ := hstep j hj' r' l hid hkn
      unfold recAll
      dsimp only
      rw [h2]
      dsimp only
      rw [List.append_assoc]
      have hll : l.length = j := by rw [hkn.1, List.length_take]; omega
      refine ih (j + 1) (by omega) r2 (l ++ [a]) (h3.trans hid) ⟨?_, ?_⟩
      · rw [List.length_append, hll, List.length_take, List.length_singleton]; omega
      · intro i b hb
        rw [constant_eq h3]
        rcases Nat.lt_or_ge i j with hi | hi
        · rw [List.getD_append _ _ _ _ (hll ▸ hi)]
          refine hkn.2 i b ?_
          rw [List.getElem?_take_of_lt hi]
          rwa [List.getElem?_take_of_lt (by omega)] at hb
        · have hij : i = j := by
            by_contra hne
            rw [List.getElem?_take_eq_none (by omega)] at hb
            cases hb
          subst hij
          rw [List.getElem?_take_of_lt (by omega), List.getElem?_eq_getElem (hl ▸ hj')] at hb
          rw [List.getD_append_right _ _ _ _ (by omega), hll, Nat.sub_self]
          exact h4 b (Option.some.inj hb)
  have := key is.length 0 (by omega) r [] rfl ⟨by simp, fun i b h => by simp at h⟩
  simpa using this

theorem step_cexp_right {r : Rec} (s : Objs) (cop : CompareOp) (l rt t f : ℕ) (h : r.constant (reg s.m rt) = false) :
    StepOk c r s (.cexp cop l rt t f) none := by
  refine ⟨?_, _, _, rfl, (Threads.cexp_good r cop _ _ _ _).1, by intro b hb; cases hb⟩
  intro _ h'
  have := h.symm.trans h'
  cases this

/-- the types of the first 20 objects when `x` is a constant and `y` is not -/
def stX : List (Option Bool) :=
  [some true, some true, some true, some true, some true, some true, none, some false, none, none, none, none, none, none, none, none,
    none, none, some false, some false]

theorem known_x {n iy ix : ℕ} {r : Rec} (hid : 0 < r.id) {s : Objs} (hn : s.m.length = n) (hy : iy < n) (hx : ix < n)
    (cy0 : r.constant (reg s.m iy) = false) (cx0 : r.constant (reg s.m ix) = true) :
    ∀ j (hj : j < ((atan2Code n iy ix).take 20).length) r' l, r'.id = r.id → Known r' l (stX.take j) →
      StepOk c r' { s with m := s.m ++ l } ((atan2Code n iy ix).take 20)[j] (stX[j]'hj) := by
  have oy : ∀ l, reg (s.m ++ l) iy = reg s.m iy := reg_old (hn ▸ hy)
  have ox : ∀ l, reg (s.m ++ l) ix = reg s.m ix := reg_old (hn ▸ hx)
  have w := fun l k => reg_new (m := s.m) hn l k
  have w0 : ∀ l, reg (s.m ++ l) n = l.getD 0 (AD.con 0) := fun l => w l 0
  intro j hj r' l h1 h2
  have hid' : 0 < r'.id := by rw [h1]; exact hid
  have cy : r'.constant (reg s.m iy) = false := by rw [constant_eq h1]; exact cy0
  have cx : r'.constant (reg s.m ix) = true := by rw [constant_eq h1]; exact cx0
  have g := fun i b => h2.2 i b
  have hj : j < 20 := hj
  interval_cases j
  · exact step_con hid' _ _
  · exact step_con hid' _ _
  · exact step_con hid' _ _
  · exact step_bin hid' _ _ (by simp) _ _ (Or.inr ⟨rfl, by rw [w]; exact g 2 true rfl, by rw [w]; exact g 1 true rfl⟩)
  · exact step_un hid' _ _ _ (Or.inr ⟨rfl, by rw [ox]; exact cx⟩)
  · exact step_cexp_con hid' _ _ _ _ _ _ (by rw [ox]; exact cx) (by rw [w0]; exact g 0 true rfl) (by rw [ox]; exact cx)
      (by rw [w]; exact g 4 true rfl)
  · exact step_un hid' _ _ _ (Or.inl rfl)
  · exact step_cexp_var _ _ _ _ _ _ (by rw [oy]; exact cy)
  · exact step_bin hid' _ _ (by simp) _ _ (Or.inl rfl)
  · exact step_un hid' _ _ _ (Or.inl rfl)
  · exact step_bin hid' _ _ (by simp) _ _ (Or.inl rfl)
  · exact step_un hid' _ _ _ (Or.inl rfl)
  · exact step_bin hid' _ _ (by simp) _ _ (Or.inl rfl)
  · exact step_cexp_right _ _ _ _ _ _ (by rw [w]; exact g 7 false rfl)
  · exact step_bin hid' _ _ (by simp) _ _ (Or.inl rfl)
  · exact step_un hid' _ _ _ (Or.inl rfl)
  · exact step_bin hid' _ _ (by simp) _ _ (Or.inl rfl)
  · exact step_un hid' _ _ _ (Or.inl rfl)
  · exact step_cexp_var _ _ _ _ _ _ (by rw [oy]; exact cy)
  · exact step_cexp_var _ _ _ _ _ _ (by rw [oy]; exact cy)

/-- the types of the first 18 objects when `y` is a constant and `x` is not -/
def stY : List (Option Bool) :=
  [some true, some true, some true, some true, none, some false, some true, some true, none, none, none, none, none, some false, none, none,
    none, none]

theorem known_y {n iy ix : ℕ} {r : Rec} (hid : 0 < r.id) {s : Objs} (hn : s.m.length = n) (hy : iy < n) (hx : ix < n)
    (cy0 : r.constant (reg s.m iy) = true) (cx0 : r.constant (reg s.m ix) = false) :
    ∀ j (hj : j < ((atan2Code n iy ix).take 18).length) r' l, r'.id = r.id → Known r' l (stY.take j) →
      StepOk c r' { s with m := s.m ++ l } ((atan2Code n iy ix).take 18)[j] (stY[j]'hj) := by
  have oy : ∀ l, reg (s.m ++ l) iy = reg s.m iy := reg_old (hn ▸ hy)
  have ox : ∀ l, reg (s.m ++ l) ix = reg s.m ix := reg_old (hn ▸ hx)
  have w := fun l k => reg_new (m := s.m) hn l k
  have w0 : ∀ l, reg (s.m ++ l) n = l.getD 0 (AD.con 0) := fun l => w l 0
  intro j hj r' l h1 h2
  have hid' : 0 < r'.id := by rw [h1]; exact hid
  have cy : r'.constant (reg s.m iy) = true := by rw [constant_eq h1]; exact cy0
  have cx : r'.constant (reg s.m ix) = false := by rw [constant_eq h1]; exact cx0
  have g := fun i b => h2.2 i b
  have hj : j < 18 := hj
  interval_cases j
  · exact step_con hid' _ _
  · exact step_con hid' _ _
  · exact step_con hid' _ _
  · exact step_bin hid' _ _ (by simp) _ _ (Or.inr ⟨rfl, by rw [w]; exact g 2 true rfl, by rw [w]; exact g 1 true rfl⟩)
  · exact step_un hid' _ _ _ (Or.inl rfl)
  · exact step_cexp_var _ _ _ _ _ _ (by rw [ox]; exact cx)
  · exact step_un hid' _ _ _ (Or.inr ⟨rfl, by rw [oy]; exact cy⟩)
  · exact step_cexp_con hid' _ _ _ _ _ _ (by rw [oy]; exact cy) (by rw [w0]; exact g 0 true rfl) (by rw [oy]; exact cy)
      (by rw [w]; exact g 6 true rfl)
  · exact step_bin hid' _ _ (by simp) _ _ (Or.inl rfl)
  · exact step_un hid' _ _ _ (Or.inl rfl)
  · exact step_bin hid' _ _ (by simp) _ _ (Or.inl rfl)
  · exact step_un hid' _ _ _ (Or.inl rfl)
  · exact step_bin hid' _ _ (by simp) _ _ (Or.inl rfl)
  · exact step_cexp_var _ _ _ _ _ _ (by rw [w]; exact g 5 false rfl)
  · exact step_bin hid' _ _ (by simp) _ _ (Or.inl rfl)
  · exact step_un hid' _ _ _ (Or.inl rfl)
  · exact step_bin hid' _ _ (by simp) _ _ (Or.inl rfl)
  · exact step_un hid' _ _ _ (Or.inl rfl)

/-- histories only depend on what has been recorded -/
theorem hist_congr {P P' : Prog} (h : s.recorded P = s.recorded P') {F : Fun} {p : List ℝ} {f : ADFun} {S : St} (hh : s.Hist P F p f S) :
    s.Hist P' F p f S := by
  have e : s.fun_ P = s.fun_ P' := by unfold Session.fun_; rw [h]
  induction hh with
  | start junk x z hz => rw [e]; exact .start junk x z hz
  | forward junk nan q xq _ h1 ih => exact .forward junk nan q xq ih h1
  | dirs junk q r xq _ h1 ih => exact .dirs junk q r xq ih h1
  | reverse junk q w _ h1 ih => exact .reverse junk q w ih (h ▸ h1)
  | capacity junk k _ ih => exact .capacity junk k ih
  | newDynamic p z _ h1 h2 ih => exact .newDynamic p z ih h1 h2

theorem cexp_con_record {r : Rec} (s : Objs) (cop : CompareOp) (l rt t f : ℕ) (h1 : r.constant (reg s.m l) = true)
    (h2 : r.constant (reg s.m rt) = true) :
    (Instr.cexp cop l rt t f).record c r s
      = (Instr.con (condExp cop (reg s.m l).value (reg s.m rt).value (reg s.m t).value (reg s.m f).value)).record c r s := by
  have : cexpAD c r cop (reg s.m l) (reg s.m rt) (reg s.m t) (reg s.m f)
      = (r, AD.con (condExp cop (reg s.m l).value (reg s.m rt).value (reg s.m t).value (reg s.m f).value)) := by
    unfold cexpAD
    dsimp only
    rw [h1, h2]
    rfl
  show (_, _) = _
  rw [this]
  rfl

/-- **C60 fails** when `x` is a constant and `y` is not: `atan2(y, x)` is recorded as a constant.  After any history `f.Forward(0, .)` returns the same
value, whatever the arguments. -/
theorem atan2_constant_x_wrong (hs : s.Ok) {iy ix : ℕ} (hy : iy < s.old.length + s.x.length + s.p.length) (hy' : s.old.length ≤ iy)
    (hx : ix < s.old.length) :
    ∃ v : ℝ, ∀ (F : Fun) (p : List ℝ) (f : ADFun) (S : St), s.Hist (atan2Prog s iy ix) F p f S → ∀ (junk : ℕ → ℝ) (nan : ℝ)
      (x : List ℝ), x.length = s.x.length → (F.forward s.cfg.disc f junk nan 0 x).2 = [v] := by
  obtain ⟨n, hn⟩ : ∃ n, n = s.old.length + s.x.length + s.p.length := ⟨_, rfl⟩
  have hy1 : iy < n := hn ▸ hy
  have hx1 : ix < n := by omega
  have hm : s.store0.m.length = n := by rw [store0_length, hn]
  have cy : s.rec0.constant (reg s.store0.m iy) = false := by rw [store0_constant hs hy]; exact decide_eq_false (by omega)
  have cx : s.rec0.constant (reg s.store0.m ix) = true := by rw [store0_constant hs (by omega)]; exact decide_eq_true hx
  have hst := known_x (c := s.cfg) hs.id_pos hm hy1 hx1 cy cx
  obtain ⟨r', l, h1, h2, h3⟩ := recAll_known s.cfg _ stX rfl s.rec0 s.store0 hst
  obtain ⟨v, hv⟩ : ∃ v : ℝ, (Instr.cexp .ge ix n (n + 18) (n + 19)).record s.cfg r' { s.store0 with m := s.store0.m ++ l }
      = (Instr.con v).record s.cfg r' { s.store0 with m := s.store0.m ++ l } := by
    refine ⟨_, cexp_con_record _ _ _ _ _ _ ?_ ?_⟩
    · show r'.constant (reg (s.store0.m ++ l) ix) = true
      rw [reg_old (by omega), constant_eq h2]; exact cx
    · show r'.constant (reg (s.store0.m ++ l) n) = true
      exact (congrArg r'.constant (reg_new hm l 0)).trans (h3.2 0 true rfl)
  refine ⟨v, fun F p f S hh junk nan x hxl => ?_⟩
  obtain ⟨P', hP'⟩ : ∃ P' : Prog, P' = after ((atan2Code n iy ix).take 20) (.instr (.con v) (.ret [n + 20])) := ⟨_, rfl⟩
  have hrec : s.recorded (atan2Prog s iy ix) = s.recorded P' := by
    have e1 : s.recorded (atan2Prog s iy ix)
        = (after ((atan2Code n iy ix).take 20) (.instr (.cexp .ge ix n (n + 18) (n + 19)) (.ret [n + 20]))).record s.cfg s.rec0 s.store0 := by
      unfold atan2Prog; rw [← hn]; rfl
    have e2 : s.recorded P' = P'.record s.cfg s.rec0 s.store0 := rfl
    rw [e1, e2, hP', record_after, record_after, h1]
    unfold Prog.record
    dsimp only
    rw [hv]
  have hf : s.Faithful P' := by
    rw [hP']
    exact faithful_after s.cfg _ stX rfl _ s.rec0 s.store0 hst (fun _ _ _ _ => ⟨trivial, trivial⟩)
  have hh' := hist_congr hrec hh
  have hp : p.length = s.p.length := (hh'.reach hs hf).2.1
  have hl : (s.store x p).m.length = n := by rw [store_length, hxl, hp, hn]
  rw [replay_forward_zero_partial hs hf hh' junk nan x hxl]
  conv_lhs => rw [hP']
  rw [atan2_steps _ _ _ _ hl hl hy1 hx1 20 (by norm_num)]
  show [at' ((_ ++ _) ++ [v]) (n + 20)] = [v]
  rw [List.append_assoc, at_new hl]
  rfl

/-- **C60 fails** when `y` is a constant and `x` is not: `atan2(y, x)` is recorded as a function that only depends on the sign of `x`. -/
theorem atan2_constant_y_wrong (hs : s.Ok) {iy ix : ℕ} (hx : ix < s.old.length + s.x.length + s.p.length) (hx' : s.old.length ≤ ix)
    (hy : iy < s.old.length) :
    ∃ v v' : ℝ, ∀ (F : Fun) (p : List ℝ) (f : ADFun) (S : St), s.Hist (atan2Prog s iy ix) F p f S → ∀ (junk : ℕ → ℝ) (nan : ℝ)
      (x : List ℝ), x.length = s.x.length →
      (F.forward s.cfg.disc f junk nan 0 x).2 = [if 0 ≤ at' (s.store x p).m ix then v else v'] := by
  obtain ⟨n, hn⟩ : ∃ n, n = s.old.length + s.x.length + s.p.length := ⟨_, rfl⟩
  have hx1 : ix < n := hn ▸ hx
  have hy1 : iy < n := by omega
  have hm : s.store0.m.length = n := by rw [store0_length, hn]
  have cx : s.rec0.constant (reg s.store0.m ix) = false := by rw [store0_constant hs hx]; exact decide_eq_false (by omega)
  have cy : s.rec0.constant (reg s.store0.m iy) = true := by rw [store0_constant hs (by omega)]; exact decide_eq_true hy
  have hst := known_y (c := s.cfg) hs.id_pos hm hy1 hx1 cy cx
  obtain ⟨r', l, h1, h2, h3⟩ := recAll_known s.cfg _ stY rfl s.rec0 s.store0 hst
  have cy' : ∀ l', r'.constant (reg (s.store0.m ++ l') iy) = true := by
    intro l'; rw [reg_old (by omega), constant_eq h2]; exact cy
  have c0 : ∀ l', r'.constant (reg (s.store0.m ++ (l ++ l')) n) = true := by
    intro l'
    refine (congrArg r'.constant (reg_new hm _ 0)).trans ?_
    rw [List.getD_append _ _ _ _ (by rw [h3.1]; exact Nat.succ_pos _)]
    exact h3.2 0 true rfl
  obtain ⟨v, hv⟩ : ∃ v : ℝ, (Instr.cexp .ge iy n (n + 13) (n + 17)).record s.cfg r' { s.store0 with m := s.store0.m ++ l }
      = (Instr.con v).record s.cfg r' { s.store0 with m := s.store0.m ++ l } := by
    refine ⟨_, cexp_con_record _ _ _ _ _ _ (cy' l) ?_⟩
    have := c0 []
    rwa [List.append_nil] at this
  obtain ⟨v', hv'⟩ : ∃ v' : ℝ, (Instr.cexp .ge iy n (n + 14) (n + 16)).record s.cfg r' { s.store0 with m := s.store0.m ++ l ++ [AD.con v] }
      = (Instr.con v').record s.cfg r' { s.store0 with m := s.store0.m ++ l ++ [AD.con v] } := by
    refine ⟨_, cexp_con_record _ _ _ _ _ _ ?_ ?_⟩
    · show r'.constant (reg (s.store0.m ++ l ++ [AD.con v]) iy) = true
      rw [List.append_assoc]; exact cy' _
    · show r'.constant (reg (s.store0.m ++ l ++ [AD.con v]) n) = true
      rw [List.append_assoc]; exact c0 _
  refine ⟨v, v', fun F p f S hh junk nan x hxl => ?_⟩
  obtain ⟨k, hk⟩ : ∃ k : Prog, k = .instr (.cexp .ge ix n (n + 18) (n + 19)) (.ret [n + 20]) := ⟨_, rfl⟩
  obtain ⟨P', hP'⟩ : ∃ P' : Prog, P' = after ((atan2Code n iy ix).take 18) (.instr (.con v) (.instr (.con v') k)) := ⟨_, rfl⟩
  have hrec : s.recorded (atan2Prog s iy ix) = s.recorded P' := by
    have e1 : s.recorded (atan2Prog s iy ix)
        = (after ((atan2Code n iy ix).take 18) (.instr (.cexp .ge iy n (n + 13) (n + 17)) (.instr (.cexp .ge iy n (n + 14) (n + 16)) k))).record
          s.cfg s.rec0 s.store0 := by
      unfold atan2Prog; rw [← hn, hk]; rfl
    have e2 : s.recorded P' = P'.record s.cfg s.rec0 s.store0 := rfl
    have step : ∀ (i : Instr) (k : Prog) (r : Rec) (o : Objs), (Prog.instr i k).record s.cfg r o
      = k.record s.cfg (i.record s.cfg r o).1 (i.record s.cfg r o).2 := fun _ _ _ _ => rfl
    rw [e1, e2, hP', record_after, record_after, h1]
    dsimp only
    rw [step, step, hv]
    rw [step (.con v), step (.con v')]
    have : (Instr.con v).record s.cfg r' { s.store0 with m := s.store0.m ++ l } = (r', { s.store0 with m := s.store0.m ++ l ++ [AD.con v] }) := rfl
    rw [this]
    dsimp only
    rw [hv']
  have hf : s.Faithful P' := by
    rw [hP', hk]
    refine faithful_after s.cfg _ stY rfl _ s.rec0 s.store0 hst (fun r2 l2 hid2 _ => ⟨trivial, trivial, ?_, trivial⟩)
    intro hc
    exfalso
    have e : r2.constant (reg (s.store0.m ++ l2 ++ [AD.con v] ++ [AD.con v']) ix) = true := hc
    rw [List.append_assoc, List.append_assoc, reg_old (by omega), constant_eq hid2, cx] at e
    cases e
  have hh' := hist_congr hrec hh
  have hp : p.length = s.p.length := (hh'.reach hs hf).2.1
  have hl : (s.store x p).m.length = n := by rw [store_length, hxl, hp, hn]
  rw [replay_forward_zero_partial hs hf hh' junk nan x hxl]
  conv_lhs => rw [hP', hk]
  rw [atan2_steps _ _ _ _ hl hl hy1 hx1 18 (by norm_num)]
  obtain ⟨o, ho⟩ : ∃ o, o = (atan2Out (at' (s.store x p).m iy) (at' (s.store x p).m ix)).take 18 := ⟨_, rfl⟩
  have o18 : o.length = 18 := by rw [ho]; rfl
  have o0 : at' o 0 = 0 := by rw [ho]; rfl
  rw [← ho]
  generalize (s.store x p).m = m at *
  show [at' (m ++ o ++ [v] ++ [v'] ++ [condExp .ge (at' (m ++ o ++ [v] ++ [v']) ix) (at' (m ++ o ++ [v] ++ [v']) n)
    (at' (m ++ o ++ [v] ++ [v']) (n + 18)) (at' (m ++ o ++ [v] ++ [v']) (n + 19))]) (n + 20)] = _
  have e (l : List ℝ) (i : ℕ) : at' (o ++ l) (18 + i) = at' l i := at_new o18 l i
  simp only [List.append_assoc]
  have f0 : at' (m ++ (o ++ ([v] ++ [v']))) n = 0 :=
    ((at_new hl _ 0 : at' (m ++ (o ++ ([v] ++ [v']))) n = _).trans (at_old (by omega) _)).trans o0
  have f1 : at' (m ++ (o ++ ([v] ++ [v']))) ix = at' m ix := at_old (by omega) _
  have f2 : at' (m ++ (o ++ ([v] ++ [v']))) (n + 18) = v := (at_new hl _ 18).trans (e _ 0)
  have f3 : at' (m ++ (o ++ ([v] ++ [v']))) (n + 19) = v' := (at_new hl _ 19).trans (e _ 1)
  rw [f0, f1, f2, f3, at_new hl, e _ 2]
  rfl

/-- the two theorems apply: `atan2(y, 1)` and `atan2(1, x)` with an independent variable -/
example : ∃ s : Session, s.Ok ∧ s.old = [AD.con 1] ∧ s.x.length = 1 ∧ 1 < s.old.length + s.x.length + s.p.length ∧
    ∃ (F : Fun) (f : ADFun) (S : St), s.Hist (atan2Prog s 1 0) F [] f S :=
  ⟨⟨cfg0, 0, 7, true, [AD.con 1], [1], [], []⟩, ⟨by simp, by simp [AD.con], by simp, by simp⟩, rfl, rfl, by simp, _, _, _,
    .start (fun _ => 0) (fun _ _ _ => 0) [0] rfl⟩

end CppAD.Record.Atan2
