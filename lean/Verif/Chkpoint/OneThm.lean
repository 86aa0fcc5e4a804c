import Verif.Chkpoint.OneModel
import Verif.Legacy.Jac
import Verif.AtomEx.VecSparse
import Verif.AtomEx.MatFwd

/-! # Properties of `checkpoint` (chkpoint_one) -/

open scoped ContDiff Topology

namespace CppAD.Chkpoint

open CppAD.Sparsity CppAD.Legacy

variable {T : Tape}

/-! ## Specification -/

/-- *Specification*: a Jacobian pattern contains every partial derivative that is not zero somewhere -/
def CovJac (T : Tape) (s : ℕ → ℕ → Prop) : Prop :=
  ∀ i < T.dep.length, ∀ j < T.n, ∀ x, T.Dom x → ∀ d, IsPartial (fun y => T.eval y i) x j d → d ≠ 0 → s i j

/-- *Specification*: a Jacobian pattern contains `(i, j)` whenever result `i` changes with argument `j` -/
def DepJac (T : Tape) (s : ℕ → ℕ → Prop) : Prop :=
  ∀ i < T.dep.length, ∀ j < T.n, ∀ x x' : ℕ → ℝ, (∀ l < T.n, x l ≠ x' l → l = j) → T.eval x i ≠ T.eval x' i → s i j

/-- *Specification*: a Hessian pattern contains the second partial derivatives of every weighted sum of the results -/
def CovHes (T : Tape) (h : ℕ → ℕ → Prop) : Prop :=
  ∀ a < T.n, ∀ b < T.n, ∀ (w : List ℝ) (x : ℕ → ℝ), T.Dom x → ∀ d, IsPartial2 (wsum T w) x a b d → d ≠ 0 → h a b

theorem DepJac.cov {s : ℕ → ℕ → Prop} (h : DepJac T s) : CovJac T s := by
  intro i hi j hj x _ d hd hne
  by_contra hs
  refine hne ?_
  have h2 : IsPartial (fun y => T.eval y i) x j 0 := by
    unfold IsPartial
    have : (fun ε => T.eval (Function.update x j (x j + ε)) i) = fun _ => T.eval x i := by
      funext ε
      by_contra hc
      refine hs (h i hi j hj _ _ (fun l _ hl => ?_) hc)
      by_contra hne
      exact hl (Function.update_of_ne hne _ _)
    rw [this]
    exact hasDerivAt_const _ _
  exact HasDerivAt.unique hd h2

/-- a result only depends on the arguments in its row of the pattern -/
theorem DepJac.many {s : ℕ → ℕ → Prop} (hs : DepJac T s) (hT : T.WF) {i : ℕ} (hi : i < T.dep.length) (x x' : ℕ → ℝ)
    (h : ∀ j < T.n, x j ≠ x' j → ¬ s i j) : T.eval x i = T.eval x' i := by
  have key : ∀ K ≤ T.n, T.eval (fun j => if j < K then x' j else x j) i = T.eval x i := by
    intro K
    induction K with
    | zero => intro _; rfl
    | succ K ih =>
      intro hK
      rw [← ih (by omega)]
      by_cases he : x K = x' K
      · congr 1
        funext j
        by_cases h1 : j = K
        · subst h1; simp [he]
        · have : j < K + 1 ↔ j < K := by omega
          simp [this]
      · by_contra hc
        refine h K (by omega) he (hs i hi K (by omega) _ _ (fun l _ hl => ?_) hc)
        by_contra h1
        refine hl ?_
        have : l < K + 1 ↔ l < K := by omega
        simp [this]
  rw [← key T.n le_rfl]
  refine T.eval_congr hT (fun j hj => ?_) hi
  simp [hj]

/-! ## loops -/

theorem mem_visit (s : ℕ → Finset ℕ) (i n j : ℕ) : j ∈ visit s i n ↔ j ∈ s i ∧ j < n := mem_takeWhile_sort _ _ _

theorem or_loop (n : ℕ) (b0 : Bool) (p : ℕ → Bool) :
    forRange 0 n b0 (fun j b => b || p j) = true ↔ b0 = true ∨ ∃ j < n, p j = true := by
  refine forRange_ind (Nat.zero_le n) (s := b0) (f := fun j b => b || p j)
    (P := fun N (b : Bool) => b = true ↔ b0 = true ∨ ∃ j < N, p j = true) (by simp) ?_
  intro k b _ _ ih
  rw [Bool.or_eq_true, ih]
  constructor
  · rintro ((h | ⟨j, hj, h⟩) | h)
    · exact Or.inl h
    · exact Or.inr ⟨j, by omega, h⟩
    · exact Or.inr ⟨k, by omega, h⟩
  · rintro (h | ⟨j, hj, h⟩)
    · exact Or.inl (Or.inl h)
    · rcases Nat.lt_succ_iff_lt_or_eq.1 hj with h' | rfl
      · exact Or.inl (Or.inr ⟨j, h', h⟩)
      · exact Or.inr h

theorem mulBools_iff (m n q : ℕ) (J r s : ℕ → Bool) {i k : ℕ} (hi : i < m) (hk : k < q) :
    mulBools m n q J r s (i * q + k) = true ↔ ∃ j < n, J (i * n + j) = true ∧ r (j * q + k) = true := by
  have := (AtomEx.fill_mat (n := m) (m := q) s (fun i k => forRange 0 n false fun j b => b || (J (i * n + j) && r (j * q + k)))
    (fun i k => i * q + k) (fun i k s => Function.update s (i * q + k) (forRange 0 n false fun j b => b || (J (i * n + j) && r (j * q + k))))
    (fun _ _ _ _ _ => rfl) (fun i j i' j' _ hj _ hj' h => AtomEx.idx_inj hj hj' h)).1 i hi k hk
  unfold mulBools
  rw [this, or_loop]
  simp

theorem mem_mulSets (m n : ℕ) (J r : ℕ → Finset ℕ) (i k : ℕ) :
    k ∈ mulSets m n J r i ↔ i < m ∧ ∃ j ∈ J i, j < n ∧ k ∈ r j := by
  unfold mulSets
  have h1 : ∀ a (s : Sp) v c, c ∈ ((visit J a n).foldl (fun s j => ((r j).sort (· ≤ ·)).foldl (fun s k => Sp.addElement s a k) s) s) v ↔
      c ∈ s v ∨ ∃ j ∈ visit J a n, ∃ k ∈ (r j).sort (· ≤ ·), v = a ∧ c = k := by
    intro a s v c
    exact foldl_mem (f := fun s j => ((r j).sort (· ≤ ·)).foldl (fun s k => Sp.addElement s a k) s)
      (Q := fun j v c => ∃ k ∈ (r j).sort (· ≤ ·), v = a ∧ c = k)
      (fun j s v c => foldl_mem (f := fun s k => Sp.addElement s a k) (fun k s v c => mem_addElement s a k v c) s v c) s v c
  rw [forRange_mem (fun a _ s v c => h1 a s v c) (Nat.zero_le _)]
  simp only [mem_visit, Finset.mem_sort, Finset.notMem_empty, false_or]
  constructor
  · rintro ⟨a, _, ha, j, hj, c, hc, rfl, rfl⟩
    exact ⟨ha, j, hj.1, hj.2, hc⟩
  · rintro ⟨ha, j, h1, h2, h3⟩
    exact ⟨i, by omega, ha, j, ⟨h1, h2⟩, k, h3, rfl, rfl⟩

/-! ## the caches -/

theorem identitySets_has (n i j : ℕ) : (identitySets n).Has false n n i j ↔ i < n ∧ j = i := by
  unfold identitySets SetVec.Has
  dsimp only
  rw [if_neg (by simp)]
  rw [forRange_mem (fun a _ s v c => mem_addElement s a a v c) (Nat.zero_le _)]
  simp only [Finset.notMem_empty, false_or]
  constructor
  · rintro ⟨h1, _, a, _, _, rfl, rfl⟩; exact ⟨h1, rfl⟩
  · rintro ⟨h1, rfl⟩; exact ⟨h1, h1, j, by omega, h1, rfl, rfl⟩

theorem identitySets_ok (n : ℕ) : (identitySets n).Ok false n n := by
  unfold identitySets SetVec.Ok
  dsimp only
  rw [if_neg (by simp)]
  intro i hi j hj
  rw [forRange_mem (fun a _ s v c => mem_addElement s a a v c) (Nat.zero_le _)] at hj
  simp only [Finset.notMem_empty, false_or] at hj
  obtain ⟨a, _, h, _, rfl⟩ := hj
  exact h

theorem has_toSets {v : SetVec} {nr nc i j : ℕ} (hk : v.kind = .set) (h : v.Has false nr nc i j) : j ∈ toSets v i := by
  cases v with
  | bools b => exact absurd hk (by simp [SetVec.kind])
  | sets s => simpa [toSets] using h.2.2

theorem has_toSets_true {v : SetVec} {nr nc i j : ℕ} (hk : v.kind = .set) (h : v.Has true nr nc i j) : i ∈ toSets v j := by
  cases v with
  | bools b => exact absurd hk (by simp [SetVec.kind])
  | sets s => simpa [toSets] using h.2.2

theorem has_toBools {v : SetVec} {nr nc i j : ℕ} (hk : v.kind = .bool) (h : v.Has false nr nc i j) : toBools v (i * nc + j) = true := by
  cases v with
  | sets b => exact absurd hk (by simp [SetVec.kind])
  | bools s => simpa [toBools] using h.2.2

theorem has_toBools_true {v : SetVec} {nr nc i j : ℕ} (hk : v.kind = .bool) (h : v.Has true nr nc i j) : toBools v (j * nr + i) = true := by
  cases v with
  | sets b => exact absurd hk (by simp [SetVec.kind])
  | bools s => simpa [toBools] using h.2.2

theorem bools_ok (b : ℕ → Bool) (tr : Bool) (nr nc : ℕ) : (SetVec.bools b).Ok tr nr nc := trivial

theorem jac_dep (hT : T.WF) (junk : ℕ → Bool) (id1 id2 : SetVec) (h1 : ∀ i j, id1.Has false T.n T.n i j ↔ i < T.n ∧ j = i)
    (h2 : ∀ i j, id2.Has false T.dep.length T.dep.length i j ↔ i < T.dep.length ∧ j = i) (o1 : id1.Ok false T.n T.n)
    (o2 : id2.Ok false T.dep.length T.dep.length) :
    DepJac T fun i j => (if T.n ≤ T.dep.length then (forSparseJac T junk T.n id1 false true).1
      else revSparseJac T junk T.dep.length id2 false true).Has false T.dep.length T.n i j := by
  intro i hi j hj x x' hx hne
  split_ifs
  · exact for_sparse_jac_dependency hT junk T.n id1 false o1 i j hi hj x x' (fun k hk h => (h1 k j).2 ⟨hk, (hx k hk h).symm⟩) hne
  · exact rev_sparse_jac_dependency hT junk T.dep.length id2 false o2 i j i hi hj hi ((h2 i i).2 ⟨hi, rfl⟩) x x' hx hne

theorem setJacSet_ok (hT : T.WF) (o : One) (ho : o.f.toTape = T) (junk : ℕ → Bool) :
    ∃ s, (o.setJacSet junk).jacSet = some s ∧ DepJac T fun i j => j ∈ s i := by
  subst ho
  refine ⟨_, rfl, fun i hi j hj x x' hx hne => has_toSets ?_ (jac_dep hT junk _ _ (identitySets_has _) (identitySets_has _)
    (identitySets_ok _) (identitySets_ok _) i hi j hj x x' hx hne)⟩
  split_ifs <;> rfl

theorem setJacBool_ok (hT : T.WF) (o : One) (ho : o.f.toTape = T) (junk ijunk : ℕ → Bool) :
    ∃ s, (o.setJacBool junk ijunk).jacBool = some s ∧ DepJac T fun i j => s (i * T.n + j) = true := by
  subst ho
  refine ⟨_, rfl, fun i hi j hj x x' hx hne => has_toBools ?_ (jac_dep hT junk _ _ (identityBools_has _ ijunk) (identityBools_has _ ijunk)
    (bools_ok _ _ _ _) (bools_ok _ _ _ _) i hi j hj x x' hx hne)⟩
  split_ifs <;> rfl

theorem all_flags (T : Tape) (w : List ℝ) : ∀ k < T.dep.length, at' w k ≠ 0 → revFlags T (.bools fun _ => true) (T.dep.getD k 0) = true :=
  fun k hk _ => revFlags_bools (fun _ => true) (fun _ _ _ _ _ => rfl) k hk

theorem partial2_symm (hT : T.WF) {x : ℕ → ℝ} (hD : T.Dom x) {w : List ℝ} {a b : ℕ} {d : ℝ} (h : IsPartial2 (wsum T w) x a b d) :
    IsPartial2 (wsum T w) x b a d := by
  obtain ⟨d', h1, h2⟩ := wsum_mixed hT hD w a b
  rw [isPartial2_unique h h1]
  exact h2

theorem hes_cov (hT : T.WF) (junk : ℕ → Bool) (id1 : SetVec) (h1 : ∀ i j, id1.Has false T.n T.n i j ↔ i < T.n ∧ j = i)
    (o1 : id1.Ok false T.n T.n) :
    CovHes T fun a b => b < T.n ∧ a ∈ (revHes (forSparseJac T junk T.n id1 false false).2 T.ops (T.n + 1)
      (revFlags T (.bools fun _ => true), fun _ => ∅)).2 (b + 1) := by
  intro a ha b hb w x hD d hd hne
  refine ⟨hb, ?_⟩
  rw [forSparseJac_sets junk T.n id1 false false o1]
  refine revHes_covers hT T.n _ false false (fun k j => un j k) (fun k hk j hj h => ?_) _ w (all_flags T w)
    (Or.inr fun k hk => ⟨k, (has_toPattern ..).2 ((h1 k k).2 ⟨hk, rfl⟩)⟩) x hD b a ha d (isMixed_of_partial2 (partial2_symm hT hD hd)) hne
  refine (has_toPattern ..).2 ((h1 k j).2 ⟨hk, ?_⟩)
  by_contra hkj
  exact h (by unfold un; rw [if_neg fun e => hkj e.symm])

theorem setHesSet_ok (hT : T.WF) (o : One) (ho : o.f.toTape = T) (junk : ℕ → Bool) :
    (∃ s, (o.setHesSet junk).hesSet = some s ∧ CovHes T fun a b => b ∈ s a) ∧
    ∃ s, (o.setHesSet junk).jacSet = some s ∧ CovJac T fun i j => j ∈ s i := by
  subst ho
  refine ⟨⟨_, rfl, fun a ha b hb w x hD d hd hne => ?_⟩, ⟨_, rfl, fun i hi j hj x hD d hd hne => ?_⟩⟩
  · have := hes_cov hT junk _ (identitySets_has _) (identitySets_ok _) a ha b hb w x hD d hd hne
    refine has_toSets (nr := o.f.n) (nc := o.f.n) rfl ?_
    have h2 := (has_readHes .set true o.f.n o.f.n (fun j => j + 1) junk (revHes (forSparseJac o.f.toTape junk o.f.n
      (identitySets o.f.n) false false).2 o.f.ops (o.f.n + 1) (revFlags o.f.toTape (.bools fun _ => true), fun _ => ∅)).2 b a).2 ⟨hb, ha, this.2⟩
    exact (SetVec.Has_flip false o.f.n o.f.n _ b a).1 h2
  · refine has_toSets (nr := o.f.dep.length) (nc := o.f.n) rfl ?_
    refine for_sparse_jac_ok hT junk o.f.n _ false false (identitySets_ok _) (fun k j => un j k) (fun k hk j hj h => ?_) x hD i j hi hj d ?_ hne
    · refine (identitySets_has _ _ _).2 ⟨hk, ?_⟩
      by_contra hkj
      exact h (by unfold un; rw [if_neg fun e => hkj e.symm])
    · unfold IsPartial at hd
      simpa only [upd_un] using hd

theorem setHesBool_ok (hT : T.WF) (o : One) (ho : o.f.toTape = T) (junk ijunk : ℕ → Bool) :
    ∃ s, (o.setHesBool junk ijunk).hesBool = some s ∧ CovHes T fun a b => s (a * T.n + b) = true := by
  subst ho
  refine ⟨_, rfl, fun a ha b hb w x hD d hd hne => ?_⟩
  have := hes_cov hT junk _ (identityBools_has _ ijunk) (bools_ok _ _ _ _) a ha b hb w x hD d hd hne
  refine has_toBools (nr := o.f.n) (nc := o.f.n) rfl ?_
  unfold revSparseHes
  dsimp only
  have h2 := (has_readHes .bool true o.f.n o.f.n (fun j => j + 1) junk (revHes (forSparseJac o.f.toTape junk o.f.n
    (identityBools o.f.n ijunk) false false).2 o.f.ops (o.f.n + 1) (revFlags o.f.toTape (.bools fun _ => true), fun _ => ∅)).2 b a).2 ⟨hb, ha, this.2⟩
  exact (SetVec.Has_flip false o.f.n o.f.n _ b a).1 h2

end CppAD.Chkpoint
