import Verif.Taylor.FunProof

/-! # Forward mode in multiple directions, capacity_order -/

open scoped ContDiff Topology

namespace CppAD

/-- *Specification*: conditions on a call of Forward(q, r, xq), core/forward/forward.hpp:424-440.
The code does not check `r > 0`; with `r = 0` nothing is computed. -/
def St.preDirs (S : St) (n q r : ℕ) (xq : List ℝ) : Prop :=
  0 < q ∧ 0 < r ∧ xq.length = r * n ∧ q ≤ S.num ∧ (q = 1 ∨ S.ndir = r)

/-- *Specification*: the coefficients stored after Forward(q, r, xq) -/
noncomputable def St.dirs (S : St) (q r : ℕ) (xq : List ℝ) : St where
  num := q + 1
  ndir := r
  x := fun ell j k => if k = q then at' xq (r * j + ell) else if r = S.ndir then S.x ell j k else S.x 0 j k

theorem dirRoom_ok {f : ADFun} {S : St} (h : Inv f S) (junk : ℕ → ℝ) {q r : ℕ} (hq : 0 < q) (hr : 0 < r)
    (hS : q ≤ S.num) (hp : q = 1 ∨ S.ndir = r) :
    ∃ S1 : St, Inv (f.dirRoom junk q r) S1 ∧ S1.x = (if r = S.ndir then S.x else fun _ => S.x 0) ∧ q ≤ S1.num ∧
      S1.ndir = r ∧ q < (f.dirRoom junk q r).cap ∧ (f.dirRoom junk q r).toTape = f.toTape := by
  unfold ADFun.dirRoom
  split
  · have hle : (if f.ndir ≠ r then 1 else f.num) ≤ f.num := by
      split
      · rw [h.num]; omega
      · exact le_rfl
    have hi := (h.shrink hle).capacity2 junk (c := max (q + 1) f.cap) (r := r) (by omega) hr (by
      simp only
      by_cases h1 : f.ndir = r
      · exact Or.inl h1.symm
      · right; rw [if_pos h1])
    refine ⟨_, hi, rfl, ?_, rfl, ?_, capacity2_tape _ _ _ _⟩
    · simp only
      by_cases h1 : f.ndir = r
      · rw [if_neg (by simpa using h1), h.num]; omega
      · rw [if_pos h1]
        have : S.ndir ≠ r := by rw [← h.ndir]; exact h1
        omega
    · rw [capacity2_cap _ _ _ (by omega)]; omega
  · have hnd : f.ndir = r := by omega
    refine ⟨S, h, ?_, hS, ?_, ?_, rfl⟩
    · rw [if_pos (by rw [← h.ndir, hnd])]
    · rw [← h.ndir]; exact hnd
    · omega

theorem ADFun.forwardDirs_ok {f : ADFun} {S : St} (h : Inv f S) (junk : ℕ → ℝ) (q r : ℕ) (xq : List ℝ)
    (hpre : S.preDirs f.n q r xq) :
    Inv (f.forwardDirs junk q r xq).1 (S.dirs q r xq) ∧
    (f.forwardDirs junk q r xq).1.toTape = f.toTape ∧
    (f.forwardDirs junk q r xq).2.length = f.dep.length * r ∧
    ∀ i < f.dep.length, ∀ ell < r, f.Dom (S.dirs q r xq).x0 →
      at' (f.forwardDirs junk q r xq).2 (i * r + ell) = f.Y (q + 1) ((S.dirs q r xq).x ell) i q := by
  obtain ⟨hq, hr, hlen, hnum, hdir⟩ := hpre
  have hn := h.wf.n_pos
  obtain ⟨S1, hI, hx, hqS, hd1, hcap, htape⟩ := dirRoom_ok h junk hq hr hnum hdir
  set f1 := f.dirRoom junk q r with hf1
  have en : f1.n = f.n := by rw [htape]
  have eops : f1.ops = f.ops := by rw [htape]
  have edep : f1.dep = f.dep := by rw [htape]
  have enum : f1.numVar = f.numVar := by unfold Tape.numVar; rw [htape]
  have hdir1 : f1.ndir = r := by rw [hI.ndir, hd1]
  let W := (f1.cap - 1) * r + 1
  let s0 := unflat W f1.taylor
  let s1 := forRange 0 f1.n s0 fun j s => forRange 0 r s fun ell s =>
    s.set (j + 1) ((q - 1) * r + ell + 1) (at' xq (r * j + ell))
  let s2 := forwardDir q r f1.ops (f1.n + 1) s1
  have hres : f.forwardDirs junk q r xq = ({ f1 with taylor := flat W s2, num := q + 1 },
      tab f1.dep.length r fun i ell => s2 (f1.dep.getD i 0) ((q - 1) * r + ell + 1)) := rfl
  set S' := S.dirs q r xq with hS'
  have hcol : ∀ ell, dirIdx r ell q = (q - 1) * r + ell + 1 := by
    intro ell; unfold dirIdx; rw [if_neg (by omega)]
  have hset := setRows_ok f1.n r (fun ell => (q - 1) * r + ell + 1) (fun a _ b _ hab => by omega) s0
    (fun j ell => at' xq (r * j + ell))
  have hlow : ∀ ell < r, ∀ v k, k < q → view r ell s1 v k = view r ell s0 v k := by
    intro ell hl v k hk
    unfold view
    refine hset.2 v _ (fun l hl' => ?_)
    have := view_frame (r := r) (ell := ell) (q := q) (k := k) hq hl (by omega)
    omega
  have hxS : ∀ ell, ∀ j k, k ≠ q → S'.x ell j k = S1.x ell j k := by
    intro ell j k hk
    rw [hS']; unfold St.dirs; simp only
    rw [if_neg hk, hx]
    split <;> rfl
  have hind : ∀ ell < r, ∀ j < f.n, view r ell s1 (j + 1) q = S'.x ell j q := by
    intro ell hl j hj
    unfold view
    rw [hcol]
    have := hset.1 j (by omega) ell hl
    refine Eq.trans this ?_
    rw [hS']; unfold St.dirs; simp
  have h0eq : S'.x0 = S1.x0 := by
    funext j; unfold St.x0; exact hxS 0 j 0 (by omega)
  have hmem0 : ∀ ell < r, ∀ v, 1 ≤ v → v < f.numVar → ∀ k < q, (k = 0 ∨ f.Dom S'.x0) →
      view r ell s0 v k = f.VC (q + 1) (S'.x ell) v k := by
    intro ell hl v hv1 hv k hk hd
    have hm := hI.mem ell (by omega) v hv1 (by rw [enum]; exact hv) k (by rw [hI.num]; omega)
      (by rw [h0eq] at hd; rw [htape]; exact hd)
    rw [hdir1] at hm
    have hm' : view r ell s0 v k = f1.VC f1.num (S1.x ell) v k := hm
    rw [hm', htape]
    refine f.VC_congr h.wf (by rw [hI.num]; omega) (by omega) ?_ ?_ hv
    · refine hd.imp_right ?_
      rw [h0eq]; intro hd0
      have := hI.dom_ell (ell := ell) (by omega) (by rw [htape]; exact hd0)
      rw [htape] at this; exact this
    · intro j hj l hl'
      rw [hxS ell j l (by omega)]
  have hall : ∀ ell < r, ∀ v, 1 ≤ v → v < f.numVar → ∀ k ≤ q, (k = 0 ∨ f.Dom S'.x0) →
      view r ell s2 v k = f.VC (q + 1) (S'.x ell) v k := by
    intro ell hl v hv1 hv k hk hd
    by_cases hkq : k < q
    · have hfr := forwardDir_frame q r hq f1.ops (f1.n + 1) f1.ind s1 f1.ind_lt hI.wf.ops v (dirIdx r ell k)
        (fun hh => view_frame (r := r) (ell := ell) (q := q) (k := k) hq hl (by omega) hh.2)
      have : view r ell s2 v k = view r ell s1 v k := hfr
      rw [this, hlow ell hl v k hkq]
      exact hmem0 ell hl v hv1 hv k hkq hd
    · have hkq : k = q := by omega
      have hD : f.Dom S'.x0 := by
        rcases hd with h1 | h1
        · omega
        · exact h1
      have hDl : f.Dom (fun j => S'.x ell j 0) := by
        have h2 := hI.dom_ell (ell := ell) (by omega) (by rw [htape]; rw [h0eq] at hD; exact hD)
        rw [htape] at h2
        refine f.Dom_congr h.wf (fun j hj => ?_) h2
        rw [hxS ell j 0 (by omega)]
      rw [← f.VC_ph h.wf (q + 1) (S'.x ell) (fun k => view r ell s1 0 k) hv hv1 k]
      simp only [s2]
      rw [eops, en]
      refine forwardDir_ok q r ell hq hl f.ops (f.n + 1) f.ind
        (fun t => phEnv (q + 1) (S'.x ell) (fun k => view r ell s1 0 k) t) s1 f.ind_lt h.wf.ops
        (fun v _ => Sm_phEnv _ _ _ v) (f.dom_ph h.wf _ (by omega) hDl) ?_ ?_ v hv k hk
      · intro u hu l hl'
        rw [tc_phEnv _ _ _ _ (by omega)]
        by_cases hu0 : u = 0
        · subst hu0; simp
        · rw [if_neg hu0]
          obtain ⟨j, rfl⟩ : ∃ j, u = j + 1 := ⟨u - 1, by omega⟩
          by_cases hlp : l < q
          · rw [hlow ell hl _ _ hlp, hmem0 ell hl (j + 1) (by omega)
              (by have := le_numVar f.ops (f.n + 1); unfold Tape.numVar; omega) l hlp (Or.inr hD)]
            unfold Tape.VC
            simp only [evalOps_lt f.ops (f.n + 1) _ _ hu]
            rw [tc_indEnv, if_neg (by omega), if_pos (by omega)]
          · obtain rfl : l = q := by omega
            rw [hind ell hl j (by omega)]; rfl
      · intro u hu l hl'
        by_cases hu0 : u = 0
        · subst hu0
          simp only [evalOps_lt f.ops (f.n + 1) _ 0 (by omega)]
          rw [tc_phEnv _ _ _ _ (by omega)]; simp
        · rw [f.VC_ph h.wf _ _ _ hu (by omega) l, hlow ell hl _ _ hl']
          exact hmem0 ell hl u (by omega) hu l hl' (Or.inr hD)
  rw [hres]
  refine ⟨?_, ?_, ?_, ?_⟩
  · refine ⟨by simp only; rw [htape]; exact h.wf, rfl, by simp only; rw [hdir1]; rfl, by simp only; omega,
      fun _ => by simp only; omega, ?_, ?_⟩
    · intro ell hl j hj
      simp only at hl hj
      rw [hxS ell j 0 (by omega), hxS 0 j 0 (by omega)]
      exact hI.shared ell hl j hj
    · intro ell hl v hv1 hv k hk hd
      simp only [hdir1] at hl hk hd ⊢
      have hv' : v < f.numVar := by rw [← enum]; exact hv
      have hst : view r ell (unflat (stride f1.cap r) (flat W s2)) v k = view r ell s2 v k := by
        unfold view
        exact unflat_flat _ (dirIdx_stride hl (by omega))
      rw [hst, hall ell hl v hv1 hv' k (by omega) (by rw [htape] at hd; exact hd), htape]
  · simp only; exact htape
  · simp only [edep]; rw [tab_length]
  · intro i hi ell hl hD
    simp only [edep]
    rw [at_tab _ hi hl, f.Y_eq]
    have := hall ell hl _ (f.dep_pos h.wf hi) (f.dep_lt h.wf hi) q le_rfl (Or.inr hD)
    rw [← this]
    unfold view
    rw [hcol]

/-! ## capacity_order -/

/-- *Specification*: state after `capacity_order(c)`, core/capacity_order.hpp:234-249 -/
def St.capacityOrder (S : St) (c : ℕ) : St :=
  if c = 0 then ⟨0, 0, S.x⟩
  else if c = 1 then ⟨min S.num 1, 1, fun _ => S.x 0⟩
  else ⟨min S.num c, if S.ndir = 0 then 1 else S.ndir, S.x⟩

theorem Inv.congr {f : ADFun} {S S' : St} (h : Inv f S) (h1 : S.num = S'.num) (h2 : S.ndir = S'.ndir)
    (hx : ∀ ell < S.ndir, S.x ell = S'.x ell) (h0 : S.x 0 = S'.x 0) : Inv f S' := by
  have hx' : ∀ ell < f.ndir, S.x ell = S'.x ell := by rw [h.ndir]; exact hx
  have h00 : S.x0 = S'.x0 := by unfold St.x0; rw [h0]
  refine ⟨h.wf, by rw [h.num, h1], by rw [h.ndir, h2], h.le_cap, h.dir_pos, ?_, ?_⟩
  · intro ell hl j hj
    rw [← hx' ell hl, ← h0]; exact h.shared ell hl j hj
  · intro ell hl v hv1 hv k hk hd
    rw [← hx' ell hl]
    rw [← h00] at hd
    exact h.mem ell hl v hv1 hv k hk hd

theorem ADFun.capacityOrder_ok {f : ADFun} {S : St} (h : Inv f S) (junk : ℕ → ℝ) (c : ℕ) :
    Inv (f.capacityOrder junk c) (S.capacityOrder c) ∧ (f.capacityOrder junk c).toTape = f.toTape ∧
      (f.capacityOrder junk c).cap = c := by
  unfold ADFun.capacityOrder St.capacityOrder
  by_cases h0 : c = 0
  · subst h0
    simp only [true_or, if_true]
    unfold ADFun.capacity2
    split
    · rename_i hh
      refine ⟨⟨h.wf, ?_, hh.2.symm, h.le_cap, h.dir_pos, h.shared, ?_⟩, rfl, hh.1.symm⟩
      · have := h.le_cap; simp only; omega
      · intro ell hl; omega
    · simp only [if_true]
      refine ⟨⟨h.wf, rfl, rfl, le_rfl, fun h => absurd h (by simp), fun ell hl => absurd hl (by simp),
        fun ell hl => absurd hl (by simp)⟩, trivial, trivial⟩
  · by_cases h1 : c = 1
    · subst h1
      simp only [or_true, if_true, if_neg h0]
      refine ⟨?_, capacity2_tape _ _ _ _, capacity2_cap _ _ _ one_pos⟩
      by_cases hr : 1 = f.ndir
      · refine (h.capacity2 junk one_pos one_pos (Or.inl hr)).congr rfl rfl ?_ ?_
        · intro ell hl
          simp only at hl ⊢
          obtain rfl : ell = 0 := by omega
          split <;> rfl
        · simp only; split <;> rfl
      · -- the number of directions changes and only one order is kept
        by_cases hn : f.num ≤ 1
        · refine (h.capacity2 junk one_pos one_pos (Or.inr hn)).congr rfl rfl ?_ ?_
          · intro ell hl
            simp only at hl ⊢
            obtain rfl : ell = 0 := by omega
            split <;> rfl
          · simp only; split <;> rfl
        · -- same as first dropping the orders above zero
          have hsame : f.capacity2 junk 1 1 = { f with num := 1 }.capacity2 junk 1 1 := by
            unfold ADFun.capacity2
            have e1 : min f.num 1 = 1 := by omega
            have hcond : ¬ (1 = f.cap ∧ 1 = f.ndir) := fun hh => hr hh.2
            rw [if_neg hcond, if_neg (by simp), if_neg (by simpa using hcond), if_neg (by simp)]
            simp only [e1, min_self]
          rw [hsame]
          refine ((h.shrink (p := 1) (by omega)).capacity2 junk one_pos one_pos (Or.inr le_rfl)).congr ?_ rfl ?_ ?_
          · simp only; rw [h.num] at hn; omega
          · intro ell hl
            simp only at hl ⊢
            obtain rfl : ell = 0 := by omega
            split <;> rfl
          · simp only; split <;> rfl
    · have hc : ¬ (c = 0 ∨ c = 1) := by omega
      rw [if_neg hc, if_neg h0, if_neg h1]
      refine ⟨?_, capacity2_tape _ _ _ _, capacity2_cap _ _ _ (by omega)⟩
      by_cases hd : f.ndir = 0
      · have hcap : f.cap = 0 := by
          by_contra hh; have := h.dir_pos (by omega); omega
        have hnum : f.num = 0 := by have := h.le_cap; omega
        rw [if_pos hd, if_pos (by rw [← h.ndir]; exact hd)]
        have hi := h.capacity2 junk (c := c) (r := 1) (by omega) one_pos (Or.inr (by omega))
        refine ⟨hi.wf, hi.num, hi.ndir, hi.le_cap, hi.dir_pos, ?_, ?_⟩
        · intro ell hl j hj
          have : ell < 1 := by have := hi.ndir; simp only at this; omega
          obtain rfl : ell = 0 := by omega
          rfl
        · intro ell hl v hv1 hv k hk
          have := hi.num
          simp only at this
          have := h.num
          omega
      · rw [if_neg hd, if_neg (by rw [← h.ndir]; exact hd)]
        refine (h.capacity2 junk (c := c) (r := f.ndir) (by omega) (by omega) (Or.inl rfl)).congr rfl h.ndir ?_ ?_
        · intro ell _
          simp only
          rw [if_pos h.ndir]
        · simp only
          rw [if_pos h.ndir]

end CppAD
