import Verif.Ipopt.Spec

/-!
# The derivative calculations keep the zero order Taylor coefficients
-/

namespace CppAD.Ipopt

open Sparsity Legacy IndexSort SparseJac SparseHes

variable {T : Tape} {f : ADFun} {x : ℕ → ℝ}

theorem ready1_ready {u : ℕ → ℝ} (h : Ready1 T f x u) : Ready T f x := by
  obtain ⟨S, hr, hn, _, hx⟩ := h
  exact ⟨S, hr, by omega, fun j hj => (hx j hj).1⟩

theorem hessian_keep (hT : T.WF) {S : St} (h : Reach T f S) (junk0 : ℕ → ℝ) (junk junk' : ℕ → ℕ → ℝ) (nan : ℝ)
    (hes : ℕ → ℝ) (xv w : List ℝ) (hl : xv.length = T.n) (hw : w.length = T.dep.length) :
    Ready T (f.hessian junk0 junk junk' nan hes xv w).1 (at' xv) := by
  have h0 := fwd0_ready hT h junk0 nan xv hl
  have hn : f.n = T.n := by rw [(h.inv hT).2]
  unfold ADFun.hessian
  rw [hn]
  refine forRange_inv (fun s : ADFun × (ℕ → ℝ) => Ready T s.1 (at' xv)) h0 ?_
  intro j s _ _ hs
  have h1 := (fwd1_ok hT hs (junk j) nan (unitVec T.n j) (unitVec_length _ _)).1
  exact ready1_ready (rev2_ok hT h1 (junk' j) w hw).1

theorem sparseJacobianForward_keep (hT : T.WF) {S : St} (h : Reach T f S) {sort : List (Element ℕ) → List (Element ℕ)}
    (hs : StdSort Element.lt sort) (junk0 : ℕ → ℝ) (junk : ℕ → ℕ → ℝ) (fjunk : ℕ → Bool) (nan : ℝ)
    {maxR : ℕ} (hg : 0 < maxR) (xv : List ℝ) (hl : xv.length = T.n)
    (p : SetVec) (hp : p.Ok false T.dep.length T.n) {K : ℕ} (hK : K ≠ 0) (row col : ℕ → ℕ) (val : ℕ → ℝ)
    (hin : Inside T.dep.length T.n K row col (p.Has false T.dep.length T.n))
    (work : Option Work) (hw : ∀ w, work = some w → Legacy.GoodFor T.n K row col (user2internal true T.n T.dep.length p) w) :
    Ready T (sparseJacobianForward sort f junk0 junk fjunk nan maxR xv p K row col val work).1 (at' xv) ∧
    (∀ w, (sparseJacobianForward sort f junk0 junk fjunk nan maxR xv p K row col val work).2.2.2 = some w →
      Legacy.GoodFor T.n K row col (user2internal true T.n T.dep.length p) w) := by
  have h0 := fwd0_ready hT h junk0 nan xv hl
  have hn : f.n = T.n := by rw [(h.inv hT).2]
  have hd : f.dep.length = T.dep.length := by rw [(h.inv hT).2]
  have he := mem_user2internal true T.n T.dep.length p ((SetVec.Ok_flip false T.n T.dep.length p).2 hp)
  unfold sparseJacobianForward
  simp only [hn, hd]
  rw [if_neg hK]
  unfold sparseJacobianFor
  simp only [hn]
  generalize (f.forward junk0 nan 0 xv).1 = f0 at h0
  rw [if_neg hK]
  have hin' : ∀ k < K, row k ∈ user2internal true T.n T.dep.length p (col k) := fun k hk =>
    (he (col k) (row k)).2 ((SetVec.Has_flip false T.n T.dep.length p (col k) (row k)).2 (hin k hk).2.2)
  generalize hpt : user2internal true T.n T.dep.length p = pt at hw hin' ⊢
  generalize hps : (if work.isNone = true then pt else fun _ => ∅) = ps
  have hwg : Legacy.GoodFor T.n K row col pt (work.getD (⟨Color.colorGeneral T.n K ps col row fjunk,
      colorOrder sort K (Color.colorGeneral T.n K ps col row fjunk) col⟩ : Work)) := by
    cases work with
    | none =>
      have hps : pt = ps := hps
      rw [← hps]
      exact ⟨Color.color_general_valid T.n T.dep.length K _ col row fjunk fun k hk => ⟨(hin k hk).2.1, (hin k hk).1, hin' k hk⟩,
        colorOrder_ok hs K _ col⟩
    | some w => exact hw w rfl
  generalize Option.getD work _ = w at hwg ⊢
  refine ⟨?_, fun w' e => by cases e; exact hwg⟩
  have main := whileLoop_rule (c := fun s => decide (s.1.2 < nColor T.n w.color))
    (b := dirGroup T.n K maxR (nColor T.n w.color) junk row col w)
    (fun s => Ready T s.1.1 (at' xv))
    (fun s => nColor T.n w.color - s.1.2) (by
      rintro ⟨⟨g, cc⟩, s2⟩ hr hc
      simp only [decide_eq_true_eq] at hc
      dsimp only at hr
      unfold dirGroup
      dsimp only
      have hgs1 : 0 < min maxR (nColor T.n w.color - cc) := by omega
      refine ⟨(dirs_ok hT hr (junk cc) hgs1 _ ?_).1, by omega⟩
      rw [tab_length, Nat.mul_comm])
    (s := ((f0, 0), 0, forRange 0 K val fun k v => Function.update v k 0)) h0
  exact main.1

theorem sparseJacobianReverse_keep (hT : T.WF) {S : St} (h : Reach T f S) {sort : List (Element ℕ) → List (Element ℕ)}
    (hs : StdSort Element.lt sort) (junk0 : ℕ → ℝ) (junk : ℕ → ℕ → ℝ) (fjunk : ℕ → Bool) (nan : ℝ)
    (xv : List ℝ) (hl : xv.length = T.n)
    (p : SetVec) (hp : p.Ok false T.dep.length T.n) {K : ℕ} (hK : K ≠ 0) (row col : ℕ → ℕ) (val : ℕ → ℝ)
    (hin : Inside T.dep.length T.n K row col (p.Has false T.dep.length T.n))
    (work : Option Work) (hw : ∀ w, work = some w → Legacy.GoodRev T.dep.length K row col (user2internal false T.dep.length T.n p) w) :
    Ready T (sparseJacobianReverse sort f junk0 junk fjunk nan xv p K row col val work).1 (at' xv) ∧
    (∀ w, (sparseJacobianReverse sort f junk0 junk fjunk nan xv p K row col val work).2.2.2 = some w →
      Legacy.GoodRev T.dep.length K row col (user2internal false T.dep.length T.n p) w) := by
  have h0 := fwd0_ready hT h junk0 nan xv hl
  have hn : f.n = T.n := by rw [(h.inv hT).2]
  have hd : f.dep.length = T.dep.length := by rw [(h.inv hT).2]
  have he := mem_user2internal false T.dep.length T.n p hp
  unfold sparseJacobianReverse
  simp only [hn, hd]
  rw [if_neg hK]
  unfold sparseJacobianRev
  simp only [hd]
  generalize (f.forward junk0 nan 0 xv).1 = f0 at h0
  rw [if_neg hK]
  have hin' : ∀ k < K, col k ∈ user2internal false T.dep.length T.n p (row k) := fun k hk =>
    (he (row k) (col k)).2 (hin k hk).2.2
  generalize hpt : user2internal false T.dep.length T.n p = pt at hw hin' ⊢
  generalize hps : (if work.isNone = true then pt else fun _ => ∅) = ps
  have hwg : Legacy.GoodRev T.dep.length K row col pt (work.getD (⟨Color.colorGeneral T.dep.length K ps row col fjunk,
      colorOrder sort K (Color.colorGeneral T.dep.length K ps row col fjunk) row⟩ : Work)) := by
    cases work with
    | none =>
      have hps : pt = ps := hps
      rw [← hps]
      exact ⟨Color.color_general_valid T.dep.length T.n K _ row col fjunk fun k hk => ⟨(hin k hk).1, (hin k hk).2.1, hin' k hk⟩,
        colorOrder_ok hs K _ row⟩
    | some w => exact hw w rfl
  generalize Option.getD work _ = w at hwg ⊢
  refine ⟨?_, fun w' e => by cases e; exact hwg⟩
  refine forRange_inv (fun s : ADFun × ℕ × (ℕ → ℝ) => Ready T s.1 (at' xv)) h0 ?_
  intro ell s _ _ hr
  exact (rev1_ok hT hr (junk ell) (tab T.dep.length 1 fun i _ => if w.color i = ell then 1 else 0) (by rw [tab_length, Nat.mul_one])).1

theorem sparseHessianWork_keep (hT : T.WF) {S : St} (h : Reach T f S) {sort : List (Element ℕ) → List (Element ℕ)}
    (hs : StdSort Element.lt sort) (junk0 : ℕ → ℝ) (junk junk' : ℕ → ℕ → ℝ) (fjunk : ℕ → Bool) (nan : ℝ)
    (xv wt : List ℝ) (hl : xv.length = T.n) (hwt : wt.length = T.dep.length)
    (p : SetVec) (hp : p.Ok false T.n T.n) {K : ℕ} (hK : K ≠ 0) (row col : ℕ → ℕ) (val : ℕ → ℝ)
    (hin : Inside T.n T.n K row col (p.Has false T.n T.n)) (coloring : Coloring)
    (hsym : coloring = .symmetric → ∀ i j, p.Has false T.n T.n i j → p.Has false T.n T.n j i)
    (work : Option HWork) (hw : ∀ w, work = some w → GoodHes T.n K row col (user2internal false T.n T.n p) coloring w) :
    Ready T (sparseHessianWork sort f junk0 junk junk' fjunk nan xv wt p K row col val coloring work).1 (at' xv) ∧
    (∀ w, (sparseHessianWork sort f junk0 junk junk' fjunk nan xv wt p K row col val coloring work).2.2.2 = some w →
      GoodHes T.n K row col (user2internal false T.n T.n p) coloring w) := by
  have h0 := fwd0_ready hT h junk0 nan xv hl
  have hn : f.n = T.n := by rw [(h.inv hT).2]
  have he := mem_user2internal false T.n T.n p hp
  unfold sparseHessianWork
  simp only [hn]
  rw [if_neg hK]
  unfold sparseHessianCompute
  simp only [hn]
  generalize (f.forward junk0 nan 0 xv).1 = f0 at h0
  rw [if_neg hK]
  have hin' := inside_congr (fun i _ j _ => (he i j).symm) hin
  have hsym' : coloring = .symmetric → ∀ i < T.n, ∀ j < T.n, j ∈ user2internal false T.n T.n p i → i ∈ user2internal false T.n T.n p j :=
    fun e i _ j _ h => (he j i).2 (hsym e i j ((he i j).1 h))
  generalize hpt : user2internal false T.n T.n p = pt at hw hin' hsym' ⊢
  have hwg : GoodHes T.n K row col pt coloring (work.getD (hesWork sort T.n K row col (if work.isNone then pt else fun _ => ∅) fjunk coloring)) := by
    cases work with
    | none => exact hesWork_good hs hin' fjunk hsym'
    | some w => exact hw w rfl
  generalize Option.getD work _ = w at hwg ⊢
  refine ⟨?_, fun w' e => by cases e; exact hwg⟩
  refine forRange_inv (fun s : ADFun × ℕ × (ℕ → ℝ) => Ready T s.1 (at' xv)) h0 ?_
  intro ell s _ _ hr
  split_ifs with c1 c2
  · exact hr
  · exact hr
  · have h1 := (fwd1_ok hT hr (junk ell) nan (tab T.n 1 fun i _ => if w.color i = ell then 1 else 0)
      (by rw [tab_length, Nat.mul_one])).1
    exact ready1_ready (rev2_ok hT h1 (junk' ell) wt hwt).1

end CppAD.Ipopt
