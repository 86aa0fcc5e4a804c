import Verif.Sparsity.VecHes
import Verif.Record.Thm2

/-! # Sparsity patterns of recorded algorithms

The theorems of `VecJac` and `VecHes` for the functions that result from a recording, stated in terms of the values the algorithm
computes (`Prog.follow`: the algorithm with the outcomes of the comparisons that were recorded). -/

namespace CppAD.Sparsity.Vec

open CppAD.Record

variable {s : Session} {P : Prog}

/-- the values that the recorded algorithm computes at `x` with dynamic parameters `p` -/
noncomputable def algo (s : Session) (P : Prog) (p x : List ℝ) : List ℝ :=
  P.follow s.cfg.disc (s.recorded P).outcomes (s.store x p) (s.store x p)

theorem tape_eval (hs : s.Ok) (hf : s.Faithful P) {p x : List ℝ} (hp : p.length = s.p.length) (hx : x.length = s.x.length) {i : ℕ}
    (hi : i < (s.recorded P).dep.length) : ((s.funAt P p).tape s.cfg.disc x).eval (at' x) i = at' (algo s P p x) i := by
  rw [funAt_eval hs hf hp hx (at' x) hi]
  unfold algo
  congr 3
  refine List.ext_getElem (by simp [hx]) fun j h1 h2 => ?_
  simp only [List.getElem_map, List.getElem_range]
  exact (List.getD_eq_getElem _ _ h2)

/-- **C15** dependency patterns, for every recorded algorithm including those that load and store `VecAD` elements: if a change of
the independent variables whose components are in column `j` of the seed pattern changes the value of component `i`, the pattern
returned by `for_jac_sparsity` with `dependency = true` contains `(i, j)`.  Partial: `Faithful` (see C06). -/
theorem recorded_for_dependency_partial (hs : s.Ok) (hf : s.Faithful P) {p : List ℝ} (hp : p.length = s.p.length) (ell : ℕ)
    (pat : Pattern) (transpose : Bool) (i j : ℕ) (hj : j < ell) (x x' : List ℝ) (hx : x.length = s.x.length)
    (hx' : x'.length = s.x.length) (hd : ∀ k < s.x.length, at' x k ≠ at' x' k → Has transpose pat k j)
    (hne : at' (algo s P p x) i ≠ at' (algo s P p x') i) :
    Has transpose (forJacSparsity s.cfg.disc (s.funAt P p) ell pat transpose true).1 i j := by
  have hi : i < (s.recorded P).dep.length := by
    by_contra h
    have h1 : (algo s P p x).length ≤ i := by unfold algo; rw [← dep_length hs hf]; omega
    have h2 : (algo s P p x').length ≤ i := by unfold algo; rw [← dep_length hs hf]; omega
    exact hne (by simp [at', List.getElem?_eq_none h1, List.getElem?_eq_none h2])
  have hn : (s.funAt P p).n = s.x.length := funAt_n hs hf p []
  refine vec_for_jac_sparsity_dependency (funOk_session hs hf p) ell pat transpose i j hi hj x x' (by rw [hn]; exact hd) ?_
  rw [tape_eval hs hf hp hx hi, tape_eval hs hf hp hx' hi]
  exact hne

/-- **C16** dependency patterns, reverse mode, for every recorded algorithm.  Partial: `Faithful` (see C06). -/
theorem recorded_rev_dependency_partial (hs : s.Ok) (hf : s.Faithful P) {p : List ℝ} (hp : p.length = s.p.length) (ell : ℕ)
    (pat : Pattern) (transpose : Bool) (i j k : ℕ) (hi : i < ell) (hj : j < s.x.length) (hR : Has transpose pat i k)
    (x x' : List ℝ) (hx : x.length = s.x.length) (hx' : x'.length = s.x.length) (hd : ∀ l < s.x.length, l ≠ j → at' x l = at' x' l)
    (hne : at' (algo s P p x) k ≠ at' (algo s P p x') k) :
    Has transpose (revJacSparsity s.cfg.disc (s.funAt P p) ell pat transpose true) i j := by
  have hk : k < (s.recorded P).dep.length := by
    by_contra h
    have h1 : (algo s P p x).length ≤ k := by unfold algo; rw [← dep_length hs hf]; omega
    have h2 : (algo s P p x').length ≤ k := by unfold algo; rw [← dep_length hs hf]; omega
    exact hne (by simp [at', List.getElem?_eq_none h1, List.getElem?_eq_none h2])
  have hn : (s.funAt P p).n = s.x.length := funAt_n hs hf p []
  refine vec_rev_jac_sparsity_dependency (funOk_session hs hf p) ell pat transpose i j k hi (by rw [hn]; exact hj) hk hR x x'
    (by rw [hn]; exact hd) ?_
  rw [tape_eval hs hf hp hx hk, tape_eval hs hf hp hx' hk]
  exact hne

/-! ## the hypotheses are met

`VecAD V = {10, 20, 30}; V[x0] = x1; y = V[2] * x1` recorded at `(0, 5)`: the value of `y` depends on `x0` only through the index of
a store.  Its partial with respect to `x0` is zero wherever it exists, so only a dependency pattern contains the entry. -/

theorem vecProg_faithful : vecSession.Faithful vecProg := vecProg_plain.faithful _ _

theorem vecIndex_zero : vecIndex 3 0 = some 0 := by
  unfold vecIndex
  norm_num

theorem vec_algo (x : List ℝ) (h : x = [0, 5] ∨ x = [2, 5]) : algo vecSession vecProg [] x = if x = [0, 5] then [150] else [25] := by
  unfold algo
  rcases h with rfl | rfl
  · simp [vecProg, Prog.follow, Instr.run, Session.store, vecSession, at', BinF.fn, vecGet, vecSet, vecIndex_two, vecIndex_zero]
    norm_num
  · simp [vecProg, Prog.follow, Instr.run, Session.store, vecSession, at', BinF.fn, vecGet, vecSet, vecIndex_two]
    norm_num

/-- the entry `(0, 0)` is in the forward dependency pattern -/
example : Has false (forJacSparsity vecSession.cfg.disc (vecSession.funAt vecProg []) 1 ⟨1, fun _ => 0, fun _ => 0⟩ false true).1 0 0 := by
  refine recorded_for_dependency_partial vecSession_ok vecProg_faithful (p := []) rfl 1 _ false 0 0 (by omega) [0, 5] [2, 5] rfl rfl ?_ ?_
  · intro k hk h
    have hk : k < 2 := hk
    interval_cases k
    · exact ⟨0, by simp, rfl, rfl⟩
    · simp [at'] at h
  · rw [vec_algo _ (Or.inl rfl), vec_algo _ (Or.inr rfl)]
    simp [at']

/-- and in the reverse dependency pattern -/
example : Has false (revJacSparsity vecSession.cfg.disc (vecSession.funAt vecProg []) 1 ⟨1, fun _ => 0, fun _ => 0⟩ false true) 0 0 := by
  refine recorded_rev_dependency_partial vecSession_ok vecProg_faithful (p := []) rfl 1 _ false 0 0 0 (by omega)
    (by simp [vecSession]) ⟨0, by simp, rfl, rfl⟩ [0, 5] [2, 5] rfl rfl ?_ ?_
  · intro k hk h
    have hk : k < 2 := hk
    interval_cases k
    · exact absurd rfl h
    · simp [at']
  · rw [vec_algo _ (Or.inl rfl), vec_algo _ (Or.inr rfl)]
    simp [at']

/-- the function that results from this recording meets the hypothesis of `vec_for_jac_sparsity_ok`, `vec_rev_jac_sparsity_ok`,
`vec_rev_hes_sparsity_ok_partial` and `vec_for_hes_sparsity_ok_partial` -/
example : FunOk vecSession.cfg.disc (vecSession.funAt vecProg []) := funOk_session vecSession_ok vecProg_faithful _

end CppAD.Sparsity.Vec
