import Verif.Taylor.Zero

/-! # Forward mode: the member functions refine the specification -/

open scoped ContDiff Topology

namespace CppAD

/-! ## the phantom variable does not matter -/

theorem evalOps_congrU (ops : List Op) : ∀ nv U (e e' : ℕ → ℝ), (∀ a ∈ U, a < nv) → WFOps ops nv U →
    (∀ v ∈ U, e v = e' v) → ∀ v < numVar ops nv, (v ∈ U ∨ nv ≤ v) →
    evalOps ops nv e v = evalOps ops nv e' v := by
  induction ops with
  | nil =>
    intro nv U e e' _ _ h v hv h'
    rcases h' with h' | h'
    · exact h v h'
    · simp only [numVar] at hv; omega
  | cons op ops ih =>
    intro nv U e e' hU hw h v hv h'
    have hp := op.nres_pos
    have hval : ∀ r, op.val e r = op.val e' r := op.cert.val_congr _ _ (fun a ha => h a (hw.1 a ha))
    by_cases hlt : v < nv + op.nres
    · rw [evalOps, evalOps, evalOps_lt _ _ _ _ hlt, evalOps_lt _ _ _ _ hlt]
      unfold stepEnv
      rw [hval]
      split
      · rfl
      · rcases h' with h' | h'
        · exact h v h'
        · omega
    · refine ih _ _ _ _ (U_insert op hU) hw.2 ?_ v hv (Or.inr (by omega))
      intro u hu
      unfold stepEnv
      rw [hval]
      split
      · rfl
      · rename_i hn
        rcases hu with hr | hu
        · have := hr.1; have := hr.2; omega
        · exact h u hu

theorem domOps_congrU (ops : List Op) : ∀ nv U (e e' : ℕ → ℝ), (∀ a ∈ U, a < nv) → WFOps ops nv U →
    (∀ v ∈ U, e v = e' v) → domOps ops nv e → domOps ops nv e' := by
  induction ops with
  | nil => intro nv U e e' _ _ _ _; trivial
  | cons op ops ih =>
    intro nv U e e' hU hw h hd
    have hp := op.nres_pos
    refine ⟨op.cert.dom_congr _ _ (fun a ha => h a (hw.1 a ha)) hd.1, ?_⟩
    refine ih _ _ _ _ (U_insert op hU) hw.2 ?_ hd.2
    intro v hv
    unfold stepEnv
    rw [op.cert.val_congr _ _ (fun a ha => h a (hw.1 a ha))]
    split
    · rfl
    · rename_i hn
      rcases hv with hr | hv
      · have := hr.1; have := hr.2; omega
      · exact h v hv

/-- curve of the independent variables together with coefficients `ph` for the phantom variable -/
noncomputable def phEnv (K : ℕ) (x : ℕ → ℕ → ℝ) (ph : ℕ → ℝ) (t : ℝ) (v : ℕ) : ℝ :=
  if v = 0 then curve K (fun _ => ph) t 0 else curve K x t (v - 1)

theorem Sm_phEnv (K : ℕ) (x : ℕ → ℕ → ℝ) (ph : ℕ → ℝ) (v : ℕ) : Sm (fun t => phEnv K x ph t v) := by
  unfold phEnv; split <;> exact Sm_curve _ _ _

theorem tc_phEnv (K : ℕ) (x : ℕ → ℕ → ℝ) (ph : ℕ → ℝ) (v : ℕ) {k : ℕ} (hk : k < K) :
    tc (fun t => phEnv K x ph t v) k = if v = 0 then ph k else x (v - 1) k := by
  unfold phEnv; split <;> rw [tc_curve, if_pos hk]

theorem Tape.ind_ph (f : Tape) (K : ℕ) (x : ℕ → ℕ → ℝ) (ph : ℕ → ℝ) (t : ℝ) :
    ∀ v ∈ f.ind, phEnv K x ph t v = indEnv (curve K x t) v := by
  intro v hv
  have : v ≠ 0 := by have := hv.1; omega
  simp [phEnv, indEnv, this]

theorem Tape.VC_ph {f : Tape} (h : f.WF) (K : ℕ) (x : ℕ → ℕ → ℝ) (ph : ℕ → ℝ) {v : ℕ} (hv : v < f.numVar)
    (h1 : 1 ≤ v) (k : ℕ) :
    tc (fun t => evalOps f.ops (f.n + 1) (phEnv K x ph t) v) k = f.VC K x v k := by
  unfold Tape.VC
  congr 1
  funext t
  refine evalOps_congrU _ _ _ _ _ f.ind_lt h.ops (f.ind_ph K x ph t) v hv ?_
  by_cases h2 : v ≤ f.n
  · exact Or.inl ⟨h1, h2⟩
  · exact Or.inr (by omega)

theorem Tape.dom_ph {f : Tape} (h : f.WF) {K : ℕ} {x : ℕ → ℕ → ℝ} (ph : ℕ → ℝ) (hK : 0 < K)
    (hd : f.Dom (fun j => x j 0)) : domOps f.ops (f.n + 1) (phEnv K x ph 0) :=
  domOps_congrU _ _ _ _ _ f.ind_lt h.ops (fun v hv => (f.ind_ph K x ph 0 v hv).symm) (f.Dom_curve h hK hd)

theorem Tape.dep_pos {f : Tape} (h : f.WF) {i : ℕ} (hi : i < f.dep.length) : 1 ≤ f.dep.getD i 0 := by
  rw [List.getD_eq_getElem _ _ hi]
  by_contra h0
  have h0 : f.dep[i] = 0 := by omega
  have hm := h.dep _ (List.getElem_mem hi)
  rw [h0] at hm
  have := usable_old _ _ _ 0 (by omega) hm
  exact absurd this.1 (by omega)

/-! ## specification state and invariant -/

/-- *Specification*: what a user has stored in an `ADFun` object: the number of orders, the number of
directions, and the coefficients of the independent variables `x dir j k`. -/
structure St where
  num : ℕ
  ndir : ℕ
  x : ℕ → ℕ → ℕ → ℝ

/-- zero order argument -/
def St.x0 (S : St) : ℕ → ℝ := fun j => S.x 0 j 0

/-- the members of the `ADFun` object represent the specification state -/
structure Inv (f : ADFun) (S : St) : Prop where
  wf : f.toTape.WF
  num : f.num = S.num
  ndir : f.ndir = S.ndir
  le_cap : f.num ≤ f.cap
  dir_pos : 0 < f.cap → 0 < f.ndir
  shared : ∀ ell < f.ndir, ∀ j < f.n, S.x ell j 0 = S.x 0 j 0
  mem : ∀ ell < f.ndir, ∀ v, 1 ≤ v → v < f.numVar → ∀ k < f.num, (k = 0 ∨ f.Dom S.x0) →
    view f.ndir ell (unflat (stride f.cap f.ndir) f.taylor) v k = f.VC f.num (S.x ell) v k

theorem Inv.dom_ell {f : ADFun} {S : St} (h : Inv f S) {ell : ℕ} (hl : ell < f.ndir) (hd : f.Dom S.x0) :
    f.Dom (fun j => S.x ell j 0) :=
  f.Dom_congr h.wf (fun j hj => (h.shared ell hl j hj).symm) hd

theorem Inv.shrink {f : ADFun} {S : St} (h : Inv f S) {p : ℕ} (hp : p ≤ f.num) :
    Inv { f with num := p } { S with num := p } where
  wf := h.wf
  num := rfl
  ndir := h.ndir
  le_cap := le_trans hp h.le_cap
  dir_pos := h.dir_pos
  shared := h.shared
  mem := fun ell hl v hv1 hv k hk hd => by
    have hk : k < p := hk
    have := h.mem ell hl v hv1 hv k (by omega) hd
    simp only at this ⊢
    rw [this]
    exact f.VC_congr h.wf (by omega) hk (hd.imp_right (h.dom_ell hl)) (fun _ _ _ _ => rfl) hv

theorem Inv.capacity2 {f : ADFun} {S : St} (h : Inv f S) (junk : ℕ → ℝ) {c r : ℕ} (hc : 0 < c) (hr : 0 < r)
    (hrr : r = f.ndir ∨ f.num ≤ 1) :
    Inv (f.capacity2 junk c r) ⟨min S.num c, r, if r = S.ndir then S.x else fun _ => S.x 0⟩ := by
  unfold ADFun.capacity2
  split
  · rename_i hh
    obtain ⟨rfl, rfl⟩ := hh
    have : min S.num f.cap = S.num := by rw [← h.num]; exact min_eq_left h.le_cap
    rw [this, if_pos h.ndir, h.ndir]
    exact h
  · rw [if_neg (by omega)]
    have hx0 : (if r = S.ndir then S.x else fun _ => S.x 0) 0 = S.x 0 := by split <;> rfl
    have hsh : ∀ ell < r, ∀ j < f.n, (if r = S.ndir then S.x else fun _ => S.x 0) ell j 0 = S.x 0 j 0 := by
      intro ell hl j hj
      split
      · rename_i hh; exact h.shared ell (by rw [h.ndir, ← hh]; exact hl) j hj
      · rfl
    refine ⟨h.wf, by simp only; rw [h.num], rfl, min_le_right _ _, fun _ => hr, ?_, ?_⟩
    · intro ell hl j hj
      simp only
      rw [hx0]; exact hsh ell hl j hj
    · intro ell hl v hv1 hv k hk hd
      simp only at hl hk hd ⊢
      have hk' : k < f.num := lt_of_lt_of_le hk (min_le_left _ _)
      have hcap : 0 < f.cap := by have := h.le_cap; omega
      have hdirp := h.dir_pos hcap
      have hd' : k = 0 ∨ f.Dom S.x0 := by
        refine hd.imp_right ?_
        unfold St.x0; simp only [hx0]; exact id
      have hok := copyTaylor_ok (N := f.numVar) (p := min f.num c) (C := f.cap) (R := f.ndir) (c := c) (r := r)
        f.taylor junk (by omega) (min_le_right _ _)
        (fun h2 => by rcases hrr with h3 | h3
                      · exact h3
                      · have : min f.num c ≤ f.num := min_le_left _ _
                        omega) (show v < f.numVar from hv)
      by_cases hk0 : k = 0
      · subst hk0
        have := h.mem 0 hdirp v hv1 hv 0 hk' (Or.inl rfl)
        simp only [view, dirIdx_zero] at this ⊢
        rw [hok.1, this]
        exact f.VC_congr h.wf hk' hk (Or.inl rfl) (fun j hj l hl0 => by
          obtain rfl : l = 0 := by omega
          exact (hsh ell hl j hj).symm) hv
      · have hrn : r = f.ndir := by
          rcases hrr with h3 | h3
          · exact h3
          · omega
        subst hrn
        have := h.mem ell hl v hv1 hv k hk' hd'
        rw [if_pos h.ndir]
        simp only [view] at this ⊢
        rw [hok.2 k (by omega) hk ell hl, this]
        exact f.VC_congr h.wf hk' hk (hd'.imp_right (h.dom_ell hl)) (fun _ _ _ _ => rfl) hv

theorem capacity2_tape (f : ADFun) (junk : ℕ → ℝ) (c r : ℕ) : (f.capacity2 junk c r).toTape = f.toTape := by
  unfold ADFun.capacity2; split
  · rfl
  · split <;> rfl

theorem capacity2_cap (f : ADFun) (junk : ℕ → ℝ) {c : ℕ} (r : ℕ) (hc : 0 < c) : (f.capacity2 junk c r).cap = c := by
  unfold ADFun.capacity2; split
  · rename_i h; exact h.1.symm
  · rw [if_neg (by omega)]

/-! ## loops that set coefficients -/

theorem fill_ok (N p q : ℕ) (s : Tay) (nan : ℝ) :
    ∀ v k, k < p → (forRange 0 N s fun j s => forRange p (q + 1) s fun k s => s.set j k nan) v k = s v k := by
  intro v k hk
  refine forRange_inv (P := fun t : Tay => t v k = s v k) rfl ?_
  intro j t _ _ ht
  refine forRange_inv (P := fun t : Tay => t v k = s v k) ht ?_
  intro k' t h1 _ ht
  rw [Tay.set_ne_ord _ _ _ _ (by omega), ht]

/-- setting one cell in each of the rows `1 .. n` -/
theorem setRow_ok (n c : ℕ) (s : Tay) (g : ℕ → ℝ) :
    (∀ j < n, (forRange 0 n s fun j s => s.set (j + 1) c (g j)) (j + 1) c = g j) ∧
    (∀ v k, k ≠ c → (forRange 0 n s fun j s => s.set (j + 1) c (g j)) v k = s v k) := by
  constructor
  · have := forRange_ind (σ := Tay) (lo := 0) (hi := n) (Nat.zero_le n) (s := s)
      (f := fun j s => s.set (j + 1) c (g j)) (fun m t => ∀ j < m, t (j + 1) c = g j)
      (fun j hj => by omega)
      (fun m t _ _ ht j hj => by
        rcases Nat.lt_succ_iff_lt_or_eq.mp hj with h | h
        · rw [Tay.set_ne_row _ _ _ _ (by omega)]; exact ht j h
        · subst h; simp)
    exact this
  · intro v k hk
    refine forRange_inv (P := fun t : Tay => t v k = s v k) rfl ?_
    intro j t _ _ ht
    rw [Tay.set_ne_ord _ _ _ _ hk, ht]

/-- setting `m` cells at columns `c ell` in each of the rows `1 .. n` -/
theorem setRows_ok (n m : ℕ) (c : ℕ → ℕ) (hc : ∀ a < m, ∀ b < m, c a = c b → a = b) (s : Tay) (g : ℕ → ℕ → ℝ) :
    (∀ j < n, ∀ l < m, (forRange 0 n s fun j s => forRange 0 m s fun l s => s.set (j + 1) (c l) (g j l))
      (j + 1) (c l) = g j l) ∧
    (∀ v k, (∀ l < m, k ≠ c l) →
      (forRange 0 n s fun j s => forRange 0 m s fun l s => s.set (j + 1) (c l) (g j l)) v k = s v k) := by
  have inner : ∀ j (s : Tay), (∀ l < m, (forRange 0 m s fun l s => s.set (j + 1) (c l) (g j l)) (j + 1) (c l) = g j l) ∧
      (∀ v k, v ≠ j + 1 → (forRange 0 m s fun l s => s.set (j + 1) (c l) (g j l)) v k = s v k) ∧
      (∀ v k, (∀ l < m, k ≠ c l) → (forRange 0 m s fun l s => s.set (j + 1) (c l) (g j l)) v k = s v k) := by
    intro j s
    refine ⟨?_, ?_, ?_⟩
    · have := forRange_ind (σ := Tay) (lo := 0) (hi := m) (Nat.zero_le m) (s := s)
        (f := fun l s => s.set (j + 1) (c l) (g j l)) (fun M t => ∀ l < M, t (j + 1) (c l) = g j l)
        (fun j hj => by omega)
        (fun M t _ hM ht l hl => by
          rcases Nat.lt_succ_iff_lt_or_eq.mp hl with h | h
          · rw [Tay.set_ne_ord _ _ _ _ (fun he => by have := hc l (by omega) M hM he; omega)]; exact ht l h
          · subst h; simp)
      exact this
    · intro v k hv
      refine forRange_inv (P := fun t : Tay => t v k = s v k) rfl ?_
      intro j t _ _ ht
      rw [Tay.set_ne_row _ _ _ _ hv, ht]
    · intro v k hk
      refine forRange_inv (P := fun t : Tay => t v k = s v k) rfl ?_
      intro l t _ h2 ht
      rw [Tay.set_ne_ord _ _ _ _ (hk l h2), ht]
  constructor
  · have := forRange_ind (σ := Tay) (lo := 0) (hi := n) (Nat.zero_le n) (s := s)
      (f := fun j s => forRange 0 m s fun l s => s.set (j + 1) (c l) (g j l))
      (fun M t => ∀ j < M, ∀ l < m, t (j + 1) (c l) = g j l)
      (fun j hj => by omega)
      (fun M t _ _ ht j hj l hl => by
        rcases Nat.lt_succ_iff_lt_or_eq.mp hj with h | h
        · rw [(inner M t).2.1 _ _ (by omega)]; exact ht j h l hl
        · subst h; exact (inner j t).1 l hl)
    exact this
  · intro v k hk
    refine forRange_inv (P := fun t : Tay => t v k = s v k) rfl ?_
    intro j t _ _ ht
    rw [(inner j t).2.2 v k hk, ht]

theorem view_one (s : Tay) : view 1 0 s = s := by
  funext v k
  unfold view dirIdx
  split
  · rename_i h; rw [h]
  · congr 1; omega

theorem stride_one {c : ℕ} (h : 0 < c) : stride c 1 = c := by unfold stride; omega

/-! ## Forward(q, xq) -/

/-- *Specification*: conditions on a call of Forward(q, xq), core/forward/forward.hpp:117-142 -/
def St.preForward (S : St) (n q : ℕ) (xq : List ℝ) : Prop :=
  (xq.length = n * (q + 1)) ∨ (xq.length = n ∧ q ≤ S.num ∧ (q ≤ 1 ∨ S.ndir = 1))

open Classical in
/-- *Specification*: the coefficients stored after Forward(q, xq): either all orders are given,
or only order `q` is given and the lower orders (of direction zero) are kept. -/
noncomputable def St.forward (S : St) (n q : ℕ) (xq : List ℝ) : St where
  num := q + 1
  ndir := 1
  x := fun _ j k => if xq.length = n * (q + 1) then at' xq ((q + 1) * j + k)
    else if k = q then at' xq j else S.x 0 j k

theorem fwdRoom_ok {f : ADFun} {S : St} (h : Inv f S) (junk : ℕ → ℝ) {p q : ℕ}
    (hp : p = 0 ∨ (p = q ∧ q ≤ S.num ∧ (q ≤ 1 ∨ S.ndir = 1))) :
    ∃ S1 : St, Inv (f.fwdRoom junk p q) S1 ∧ S1.x 0 = S.x 0 ∧ p ≤ S1.num ∧ S1.ndir = 1 ∧
      q < (f.fwdRoom junk p q).cap ∧ (f.fwdRoom junk p q).toTape = f.toTape := by
  unfold ADFun.fwdRoom
  split
  · have hle : (if p = 0 then 0 else q) ≤ f.num := by
      split
      · omega
      · rw [h.num]; omega
    have hi := (h.shrink hle).capacity2 junk (c := max (q + 1) f.cap) (r := 1) (by omega) one_pos (by
      simp only
      rcases hp with rfl | ⟨rfl, h2, h3⟩
      · simp
      · rw [h.ndir]
        by_cases hp0 : p = 0
        · simp [hp0]
        · rw [if_neg hp0]; omega)
    refine ⟨_, hi, ?_, ?_, rfl, ?_, capacity2_tape _ _ _ _⟩
    · simp only; split <;> rfl
    · simp only
      rcases hp with rfl | ⟨rfl, h2, h3⟩
      · exact Nat.zero_le _
      · split <;> omega
    · rw [capacity2_cap _ _ _ (by omega)]; omega
  · refine ⟨S, h, rfl, ?_, ?_, ?_, rfl⟩
    · rcases hp with rfl | ⟨rfl, h2, h3⟩ <;> omega
    · rw [← h.ndir]; omega
    · omega

/-- length of `yq` and its elements -/
theorem ADFun.forward_ok {f : ADFun} {S : St} (h : Inv f S) (junk : ℕ → ℝ) (nan : ℝ) (q : ℕ) (xq : List ℝ)
    (hpre : S.preForward f.n q xq) :
    Inv (f.forward junk nan q xq).1 (S.forward f.n q xq) ∧
    (f.forward junk nan q xq).1.toTape = f.toTape ∧
    (xq.length = f.n * (q + 1) → (f.forward junk nan q xq).2.length = f.dep.length * (q + 1) ∧
      ∀ i < f.dep.length, ∀ k ≤ q, (k = 0 ∨ f.Dom (S.forward f.n q xq).x0) →
      at' (f.forward junk nan q xq).2 (i * (q + 1) + k) = f.Y (q + 1) ((S.forward f.n q xq).x 0) i k) ∧
    (xq.length = f.n → (f.forward junk nan q xq).2.length = f.dep.length ∧
      ∀ i < f.dep.length, (q = 0 ∨ f.Dom (S.forward f.n q xq).x0) →
      at' (f.forward junk nan q xq).2 i = f.Y (q + 1) ((S.forward f.n q xq).x 0) i q) := by
  have hn := h.wf.n_pos
  set p := q + 1 - xq.length / f.n with hp_def
  have hp : p = 0 ∨ (p = q ∧ q ≤ S.num ∧ (q ≤ 1 ∨ S.ndir = 1)) := by
    rcases hpre with h1 | ⟨h1, h2, h3⟩
    · left; rw [hp_def, h1, Nat.mul_div_cancel_left _ hn]; omega
    · right; rw [hp_def, h1, Nat.div_self hn]; exact ⟨by omega, h2, h3⟩
  have hlen0 : xq.length = f.n * (q + 1) ↔ p = 0 := by
    constructor
    · intro h1; rw [hp_def, h1, Nat.mul_div_cancel_left _ hn]; omega
    · intro h1
      rcases hpre with h2 | ⟨h2, _⟩
      · exact h2
      · rw [hp_def, h2, Nat.div_self hn] at h1
        have : q = 0 := by omega
        subst this; simpa using h2
  have hlenq : xq.length = f.n → p = q := by
    intro h1; rw [hp_def, h1, Nat.div_self hn]; omega
  have hpq : p ≤ q := by omega
  obtain ⟨S1, hI, hx, hpS, hdir, hcap, htape⟩ := fwdRoom_ok h junk hp
  -- name the intermediate states
  set f1 := f.fwdRoom junk p q with hf1
  have en : f1.n = f.n := by rw [htape]
  have eops : f1.ops = f.ops := by rw [htape]
  have edep : f1.dep = f.dep := by rw [htape]
  have enum : f1.numVar = f.numVar := by unfold Tape.numVar; rw [htape]
  have hdir1 : f1.ndir = 1 := by rw [hI.ndir, hdir]
  let s0 := unflat f1.cap f1.taylor
  let s1 := forRange 0 f1.numVar s0 fun j s => forRange p (q + 1) s fun k s => s.set j k nan
  let s2 := if p = q then forRange 0 f1.n s1 fun j s => s.set (j + 1) q (at' xq j)
    else forRange 0 f1.n s1 fun j s => forRange 0 (q + 1) s fun k s => s.set (j + 1) k (at' xq ((q + 1) * j + k))
  let s3 := if q = 0 then forward0 f1.ops (f1.n + 1) s2 else forwardAny p q f1.ops (f1.n + 1) s2
  have hres : f.forward junk nan q xq = ({ f1 with taylor := flat f1.cap s3, num := q + 1 },
      if p = q then f1.dep.map fun d => s3 d q
      else tab f1.dep.length (q + 1) fun i k => s3 (f1.dep.getD i 0) k) := rfl
  set S' := S.forward f.n q xq with hS'
  -- coefficients of independent variables
  have hlow : ∀ v k, k < p → s2 v k = s0 v k := by
    intro v k hk
    have hpp : p = q := by omega
    simp only [s2, if_pos hpp]
    rw [(setRow_ok f1.n q s1 _).2 v k (by omega)]
    exact fill_ok _ _ _ _ _ v k hk
  have hxS : ∀ j k, S'.x 0 j k = if p = 0 then at' xq ((q + 1) * j + k) else if k = q then at' xq j else S.x 0 j k := by
    intro j k
    rw [hS']; unfold St.forward; simp only
    by_cases h1 : xq.length = f.n * (q + 1)
    · rw [if_pos h1, if_pos (hlen0.mp h1)]
    · rw [if_neg h1, if_neg (fun h2 => h1 (hlen0.mpr h2))]
  have hind : ∀ j < f.n, ∀ k, p ≤ k → k ≤ q → s2 (j + 1) k = S'.x 0 j k := by
    intro j hj k h1 h2
    rw [hxS]
    by_cases hpp : p = q
    · obtain rfl : k = q := by omega
      simp only [s2, if_pos hpp]
      rw [(setRow_ok f1.n k s1 (fun j => at' xq j)).1 j (by omega)]
      by_cases hp0 : p = 0
      · rw [if_pos hp0]
        have : k = 0 := by omega
        subst this; simp
      · simp [hp0]
    · have hp0 : p = 0 := by omega
      simp only [s2, if_neg hpp]
      rw [if_pos hp0]
      exact (setRows_ok f1.n (q + 1) id (fun a _ b _ => id) s1 (fun j k => at' xq ((q + 1) * j + k))).1 j
        (by omega) k (by omega)
  -- the stored lower orders
  have hmem0 : ∀ v, 1 ≤ v → v < f.numVar → ∀ k < p, (k = 0 ∨ f.Dom S'.x0) → s0 v k = f.VC (q + 1) (S'.x 0) v k := by
    intro v hv1 hv k hk hd
    have hq0 : ¬ p = 0 := by omega
    have hpp : p = q := by omega
    have h0eq : S'.x0 = S1.x0 := by
      funext j; unfold St.x0; rw [hxS, if_neg hq0, if_neg (by omega), hx]
    have hm := hI.mem 0 (by omega) v hv1 (by rw [enum]; exact hv) k (by rw [hI.num]; omega)
      (by rw [h0eq] at hd; rw [htape]; exact hd)
    rw [hdir1, view_one, stride_one (by omega)] at hm
    have hm' : s0 v k = f1.VC f1.num (S1.x 0) v k := hm
    rw [hm', htape]
    refine f.VC_congr h.wf (by rw [hI.num]; omega) (by omega) ?_ ?_ hv
    · refine hd.imp_right ?_
      rw [h0eq]; exact id
    · intro j hj l hl
      rw [hx, hxS, if_neg hq0, if_neg (by omega)]
  have hzero : p = 0 → ∀ v, 1 ≤ v → v < f.numVar →
      evalOps f.ops (f.n + 1) (fun v => s2 v 0) v = f.VC (q + 1) (S'.x 0) v 0 := by
    intro hp0 v hv1 hv
    unfold Tape.VC
    rw [tc_zero]
    refine evalOps_congrU _ _ _ _ _ f.ind_lt h.wf.ops ?_ v hv ?_
    · intro u hu
      have hu1 := hu.1
      have hu2 := hu.2
      obtain ⟨j, rfl⟩ : ∃ j, u = j + 1 := ⟨u - 1, by omega⟩
      rw [hind j (by omega) 0 (by omega) (by omega)]
      unfold indEnv
      rw [if_neg (by omega), curve_zero, if_pos (by omega)]; rfl
    · by_cases h2 : v ≤ f.n
      · exact Or.inl ⟨hv1, h2⟩
      · exact Or.inr (by omega)
  -- all coefficients after the sweep
  have hall : ∀ v, 1 ≤ v → v < f.numVar → ∀ k ≤ q, (k = 0 ∨ f.Dom S'.x0) → s3 v k = f.VC (q + 1) (S'.x 0) v k := by
    intro v hv1 hv k hk hd
    have hnv : v < CppAD.numVar f1.ops (f1.n + 1) := by rw [eops, en]; exact hv
    by_cases hq0 : q = 0
    · have hk0 : k = 0 := by omega
      have hp0 : p = 0 := by omega
      subst hk0
      simp only [s3, if_pos hq0]
      rw [(forward0_ok f1.ops (f1.n + 1) f1.ind s2 f1.ind_lt hI.wf.ops).1 v hnv, eops, en]
      exact hzero hp0 v hv1 hv
    · simp only [s3, if_neg hq0]
      -- orders below p are not changed
      by_cases hkp : k < p
      · rw [forwardAny_frame p q hpq f1.ops (f1.n + 1) f1.ind s2 f1.ind_lt hI.wf.ops v k (by omega),
          hlow v k hkp]
        exact hmem0 v hv1 hv k hkp hd
      · have hkp : p ≤ k := by omega
        by_cases hk0 : k = 0
        · -- order zero needs no smoothness
          subst hk0
          have hp0 : p = 0 := by omega
          rw [hp0, forwardAny_zero q f1.ops (f1.n + 1) f1.ind s2 f1.ind_lt hI.wf.ops v hnv, eops, en]
          exact hzero hp0 v hv1 hv
        · have hD : f.Dom S'.x0 := by
            rcases hd with h1 | h1
            · exact absurd h1 hk0
            · exact h1
          rw [← f.VC_ph h.wf (q + 1) (S'.x 0) (s2 0) hv hv1 k, eops, en]
          refine forwardAny_ok p q hpq f.ops (f.n + 1) f.ind (fun t => phEnv (q + 1) (S'.x 0) (s2 0) t) s2 f.ind_lt h.wf.ops
            (fun v _ => Sm_phEnv _ _ _ v) (f.dom_ph h.wf _ (by omega) hD) ?_ ?_ v hv k hk
          · intro u hu l hl
            rw [tc_phEnv _ _ _ _ (by omega)]
            by_cases hu0 : u = 0
            · subst hu0; simp
            · rw [if_neg hu0]
              obtain ⟨j, rfl⟩ : ∃ j, u = j + 1 := ⟨u - 1, by omega⟩
              by_cases hlp : l < p
              · rw [hlow _ _ hlp, hmem0 (j + 1) (by omega)
                  (by have := le_numVar f.ops (f.n + 1); unfold Tape.numVar; omega) l hlp (Or.inr hD)]
                unfold Tape.VC
                simp only [evalOps_lt f.ops (f.n + 1) _ _ hu]
                rw [tc_indEnv, if_neg (by omega), if_pos (by omega)]
              · rw [hind j (by omega) l (by omega) hl]; rfl
          · intro u hu l hl
            by_cases hu0 : u = 0
            · subst hu0
              simp only [evalOps_lt f.ops (f.n + 1) _ 0 (by omega)]
              rw [tc_phEnv _ _ _ _ (by omega)]; simp
            · rw [f.VC_ph h.wf _ _ _ hu (by omega) l, hlow _ _ hl]
              exact hmem0 u (by omega) hu l hl (Or.inr hD)
  have hdep : ∀ i < f.dep.length, ∀ k ≤ q, (k = 0 ∨ f.Dom S'.x0) →
      s3 (f.dep.getD i 0) k = f.Y (q + 1) (S'.x 0) i k := by
    intro i hi k hk hd
    rw [f.Y_eq]
    exact hall _ (f.dep_pos h.wf hi) (f.dep_lt h.wf hi) k hk hd
  rw [hres]
  refine ⟨?_, ?_, ?_, ?_⟩
  · refine ⟨by simp only; rw [htape]; exact h.wf, rfl, by simp only; rw [hdir1]; rfl, by simp only; omega,
      fun _ => by simp only; omega, ?_, ?_⟩
    · intro ell hl j hj
      rfl
    · intro ell hl v hv1 hv k hk hd
      simp only [hdir1] at hl hk hd ⊢
      obtain rfl : ell = 0 := by omega
      rw [view_one, stride_one (by omega)]
      have hv' : v < f.numVar := by rw [← enum]; exact hv
      rw [unflat_flat _ (by omega)]
      rw [hall v hv1 hv' k (by omega) (by rw [htape] at hd; exact hd), htape]
  · simp only; exact htape
  · intro hl
    have hp0 := hlen0.mp hl
    simp only [edep]
    by_cases hpp : p = q
    · rw [if_pos hpp]
      have hq0 : q = 0 := by omega
      refine ⟨by simp [hq0], ?_⟩
      intro i hi k hk hd
      have hk0 : k = 0 := by omega
      have : i * (q + 1) + k = i := by rw [hq0, hk0]; ring
      rw [this]
      rw [← hdep i hi k hk hd, hk0, hq0]
      simp [at', List.getD_eq_getElem, hi]
    · rw [if_neg hpp]
      refine ⟨by rw [tab_length], ?_⟩
      intro i hi k hk hd
      rw [at_tab _ hi (by omega)]
      exact hdep i hi k hk hd
  · intro hl
    have hpp := hlenq hl
    simp only [edep]
    rw [if_pos hpp]
    refine ⟨by simp, ?_⟩
    intro i hi hd
    rw [← hdep i hi q le_rfl hd]
    simp [at', List.getD_eq_getElem, hi]

end CppAD
