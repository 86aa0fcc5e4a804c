import Verif.Romberg.One

/-! # `RombergMul` in terms of nested one dimensional rules -/

open scoped Nat
open Set

namespace CppAD.Romberg

/-- one dimension: the limits `a[i]`, `b[i]` and `n[i]`, `p[i]` -/
structure Dim where
  a : ℝ
  b : ℝ
  n : ℕ
  p : ℕ

/-- the restrictions on `n[i]` and `p[i]` for which the conversions to `int` do not overflow -/
def Dim.Ok (d : Dim) : Prop := 2 ≤ d.n ∧ d.n ≤ 31 ∧ d.p ≤ 15

/-- the value of `RombergOne` -/
noncomputable def romOne (d : Dim) (f : ℝ → ℝ) : ℝ := Rv (fun i => trap f d.a d.b (2 ^ i)) (min d.p (d.n - 1)) (d.n - 1)

/-- nested rules, the first dimension is the outermost one -/
noncomputable def nest : List Dim → (List ℝ → ℝ) → ℝ
  | [], f => f []
  | d :: l, f => romOne d fun x => nest l fun y => f (x :: y)

theorem nest_append (d : Dim) : ∀ (l : List Dim) (f : List ℝ → ℝ), nest (l ++ [d]) f = nest l fun x => romOne d fun t => f (x ++ [t]) := by
  intro l
  induction l with
  | nil => intro f; rfl
  | cons e l ih => intro f; simp only [List.cons_append, nest, ih]

theorem nest_congr : ∀ (l : List Dim) {f g : List ℝ → ℝ}, (∀ x, x.length = l.length → f x = g x) → nest l f = nest l g := by
  intro l
  induction l with
  | nil => intro f g h; exact h [] rfl
  | cons d l ih =>
    intro f g h
    rw [nest, nest]
    congr 1
    funext x
    exact ih fun y hy => h _ (by simp [hy])

/-- the arguments of `RombergMul` as a list of dimensions -/
def dims (m : ℕ) (a b : List ℝ) (n p : List ℕ) : List Dim := (List.range m).map fun i => ⟨a.getD i 0, b.getD i 0, n.getD i 0, p.getD i 0⟩

theorem dims_succ (m : ℕ) (a b : List ℝ) (n p : List ℕ) :
    dims (m + 1) a b n p = dims m a b n p ++ [⟨a.getD m 0, b.getD m 0, n.getD m 0, p.getD m 0⟩] := by
  simp [dims, List.range_succ]

theorem integrateLast_ok {σ : Type} {F : List ℝ → σ → ℝ × σ} {f : List ℝ → ℝ} (hF : ∀ x s, (F x s).1 = f x) (c : σ → ℕ) (k : ℕ)
    (hc : ∀ x s, c (F x s).2 = c s + k) (last : ℕ) (a b : List ℝ) (n p : List ℕ)
    (hd : (⟨a.getD last 0, b.getD last 0, n.getD last 0, p.getD last 0⟩ : Dim).Ok) (x : List ℝ) (s : ℝ × ℕ × σ) :
    (integrateLast F last a b n p x s).1 = romOne ⟨a.getD last 0, b.getD last 0, n.getD last 0, p.getD last 0⟩ (fun t => f (x.take last ++ [t])) ∧
    (integrateLast F last a b n p x s).2.2.1 = s.2.1 + 1 ∧
    c (integrateLast F last a b n p x s).2.2.2 = c s.2.2 + k * (2 ^ (n.getD last 0 - 1) + 1) := by
  obtain ⟨h1, h2, h3⟩ := hd
  obtain ⟨r1, -, r3⟩ := rombergOne_ok (F := fun t => F (x.take last ++ [t])) (f := fun t => f (x.take last ++ [t])) (fun _ _ => hF _ _)
    (a.getD last 0) (b.getD last 0) h1 h2 h3 c k (fun _ _ => hc _ _) s.2.2
  exact ⟨r1, rfl, r3⟩

/-- the number of evaluations for the dimensions in a list -/
def evals : List Dim → ℕ
  | [] => 1
  | d :: l => (2 ^ (d.n - 1) + 1) * evals l

theorem evals_append (d : Dim) : ∀ l, evals (l ++ [d]) = evals l * (2 ^ (d.n - 1) + 1) := by
  intro l
  induction l with
  | nil => simp [evals]
  | cons e l ih => simp only [List.cons_append, evals, ih]; ring

theorem evals_pos : ∀ l, 0 < evals l := by
  intro l
  induction l with
  | nil => simp [evals]
  | cons e l ih => exact Nat.mul_pos (by positivity) ih

/-- the product of the number of intervals -/
def pows : List Dim → ℕ
  | [] => 1
  | d :: l => 2 ^ (d.n - 1) * pows l

theorem pows_append (d : Dim) : ∀ l, pows (l ++ [d]) = pows l * 2 ^ (d.n - 1) := by
  intro l
  induction l with
  | nil => simp [pows]
  | cons e l ih => simp only [List.cons_append, pows, ih]; ring

theorem pows_pos : ∀ l, 0 < pows l := by
  intro l
  induction l with
  | nil => simp [pows]
  | cons e l ih => exact Nat.mul_pos (by positivity) ih

theorem pow2_loop (n : List ℕ) (a b : List ℝ) (p : List ℕ) : ∀ m,
    forRange 0 m 1 (fun i q => forRange 0 (n.getD i 0 - 1) q fun _ q => q * 2) = pows (dims m a b n p) := by
  intro m
  induction m with
  | zero => simp [forRange_of_le, dims, pows]
  | succ m ih =>
    rw [forRange_succ (Nat.zero_le m), ih, dims_succ, pows_append]
    exact forRange_ind (Nat.zero_le _) (P := fun k q => q = pows (dims m a b n p) * 2 ^ k) (by simp)
      (by rintro k q - - rfl; ring)

theorem evals_gt : ∀ l : List Dim, 2 ≤ l.length → pows l + 1 < evals l := by
  intro l
  induction l with
  | nil => intro h; simp at h
  | cons d l ih =>
    intro h
    simp only [evals, pows]
    have hd : 0 < 2 ^ (d.n - 1) := by positivity
    have h1 := pows_pos l
    have h2 : pows l + 1 ≤ evals l := by
      cases l with
      | nil => simp at h
      | cons e l =>
        cases l with
        | nil => simp [evals, pows]
        | cons e' l => exact (ih (by simp)).le
    nlinarith

/-- what `RombergMul` computes -/
theorem rombergMul_ok : ∀ (m : ℕ) {σ : Type} {F : List ℝ → σ → ℝ × σ} {f : List ℝ → ℝ} (_ : ∀ x s, (F x s).1 = f x) (c : σ → ℕ) (k : ℕ)
    (_ : ∀ x s, c (F x s).2 = c s + k) (a b : List ℝ) (n p : List ℕ) (_ : ∀ d ∈ dims (m + 1) a b n p, d.Ok) (s : σ),
    (rombergMul (m + 1) F a b n p s).r = nest (dims (m + 1) a b n p) f ∧
    c (rombergMul (m + 1) F a b n p s).state = c s + k * evals (dims (m + 1) a b n p) ∧
    ((rombergMul (m + 1) F a b n p s).asserts = true ↔ m + 1 ≤ 2) := by
  intro m
  induction m with
  | zero =>
    intro σ F f hF c k hc a b n p hd s
    obtain ⟨h1, h2, h3⟩ := integrateLast_ok hF c k hc 0 a b n p (hd _ (by simp [dims])) a (0, 0, s)
    refine ⟨h1, h3.trans ?_, ?_⟩
    · simp [dims, evals]
    · show decide ((integrateLast F 0 a b n p a (0, 0, s)).2.2.1 = 1) = true ↔ _
      rw [h2]
      simp
  | succ m ih =>
    intro σ F f hF c k hc a b n p hd s
    have hlast : (⟨a.getD (m + 1) 0, b.getD (m + 1) 0, n.getD (m + 1) 0, p.getD (m + 1) 0⟩ : Dim).Ok :=
      hd _ (by simp [dims]; exact ⟨m + 1, by omega, rfl, rfl, rfl, rfl⟩)
    have hd' : ∀ d ∈ dims (m + 1) a b n p, d.Ok := fun d h => hd d (by rw [dims_succ]; exact List.mem_append_left _ h)
    have hI := integrateLast_ok hF c k hc (m + 1) a b n p hlast
    obtain ⟨h1, h2, h3⟩ := ih (F := integrateLast F (m + 1) a b n p) (f := _) (fun x s => (hI x s).1) (fun s => s.2.1) 1 (fun x s => (hI x s).2.1)
      a b n p hd' (0, 0, s)
    obtain ⟨-, h2', -⟩ := ih (F := integrateLast F (m + 1) a b n p) (f := _) (fun x s => (hI x s).1) (fun s => c s.2.2) _ (fun x s => (hI x s).2.2)
      a b n p hd' (0, 0, s)
    refine ⟨h1.trans ?_, h2'.trans ?_, ?_⟩
    · rw [dims_succ (m + 1), nest_append]
      refine nest_congr _ fun x hx => ?_
      have : x.length = m + 1 := by rw [hx]; simp [dims]
      rw [← this, List.take_length]
    · rw [dims_succ (m + 1), evals_append]
      ring
    · show (_ && _) = true ↔ _
      rw [Bool.and_eq_true, h3, decide_eq_true_iff]
      dsimp only at h2
      rw [h2, pow2_loop n a b p]
      have hl : (dims (m + 1) a b n p).length = m + 1 := by simp [dims]
      constructor
      · rintro ⟨-, h⟩
        by_contra hm
        have := evals_gt _ (show 2 ≤ (dims (m + 1) a b n p).length by omega)
        omega
      · intro hm
        have : m = 0 := by omega
        subst this
        refine ⟨by omega, ?_⟩
        simp [dims, evals, pows]

end CppAD.Romberg
