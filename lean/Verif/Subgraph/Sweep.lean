import Verif.Subgraph.Sparsity

/-! # The reverse sweep over a subgraph transposes the tangent map restricted to the subgraph -/

open scoped ContDiff Topology

namespace CppAD.Subgraph

/-- reverse sweep that only processes operators `i` with `keep i`; `i` is the index of the first operator in the list -/
noncomputable def revKeep (d : ℕ) (keep : ℕ → Bool) : List Op → ℕ → ℕ → Tay → Tay → Tay
  | [], _, _, _, P => P
  | op :: ops, i, nv, s, P =>
    let R := revKeep d keep ops (i + 1) (nv + op.nres) s P
    if keep i then op.rev d (nv + op.nres - 1) s R else R

theorem revKeep_frame (d : ℕ) (keep : ℕ → Bool) (ops : List Op) : ∀ i nv U (s P : Tay), (∀ a ∈ U, a < nv) →
    WFOps ops nv U → ∀ v < nv, v ∉ U → revKeep d keep ops i nv s P v = P v := by
  induction ops with
  | nil => intro i nv U s P _ _ v _ _; rfl
  | cons op ops ih =>
    intro i nv U s P hU hw v hv hn
    have hp := op.nres_pos
    have h1 := ih (i + 1) _ _ s P (U_insert op hU) hw.2 v (by omega) (by
      rintro (h | h)
      · have := h.1; omega
      · exact hn h)
    rw [revKeep]
    split
    · rw [op.cert.rev_frame nv d s _ v hv (fun h => hn (hw.1 v h)), h1]
    · exact h1

/-- `δ` on `S`, zero elsewhere -/
noncomputable def mask (S : ℕ → Prop) [DecidablePred S] (δ : Tay) : Tay := fun v k => if S v then δ v k else 0

/-- one operator -/
theorem Phi_mask_step {S : ℕ → Prop} [DecidablePred S] {nv n m : ℕ} {A : List ℕ} {δ P R : Tay}
    (hR : ∀ v < nv, v ∉ A → R v = P v) (hA : ∀ a ∈ A, S a ∨ ∀ k < m, δ a k = 0) (hres : ∀ r < n, S (nv + r))
    (h : Phi nv (fun _ => m) δ R = Phi (nv + n) (fun _ => m) δ P) :
    Phi nv (fun _ => m) (mask S δ) R = Phi (nv + n) (fun _ => m) (mask S δ) P := by
  have e1 : Phi nv (fun _ => m) δ R - Phi nv (fun _ => m) δ P
      = Phi nv (fun _ => m) (mask S δ) R - Phi nv (fun _ => m) (mask S δ) P := by
    unfold Phi
    rw [← Finset.sum_sub_distrib, ← Finset.sum_sub_distrib]
    refine Finset.sum_congr rfl fun v hv => ?_
    rw [← Finset.sum_sub_distrib, ← Finset.sum_sub_distrib]
    refine Finset.sum_congr rfl fun k hk => ?_
    have hv := Finset.mem_range.mp hv
    have hk := Finset.mem_range.mp hk
    by_cases hS : S v
    · simp [mask, hS]
    · by_cases hvA : v ∈ A
      · have := (hA v hvA).resolve_left hS k hk
        simp [mask, hS, this]
      · rw [hR v hv hvA]; ring
  have e2 : Phi (nv + n) (fun _ => m) δ P - Phi nv (fun _ => m) δ P
      = Phi (nv + n) (fun _ => m) (mask S δ) P - Phi nv (fun _ => m) (mask S δ) P := by
    unfold Phi
    rw [Finset.sum_range_add, Finset.sum_range_add, add_sub_cancel_left, add_sub_cancel_left]
    refine Finset.sum_congr rfl fun r hr => Finset.sum_congr rfl fun k _ => ?_
    simp [mask, hres r (Finset.mem_range.mp hr)]
  linarith

/-- an operator none of whose results is in `S` -/
theorem Phi_mask_skip {S : ℕ → Prop} [DecidablePred S] {nv n m : ℕ} {δ P : Tay} (hres : ∀ r < n, ¬ S (nv + r)) :
    Phi nv (fun _ => m) (mask S δ) P = Phi (nv + n) (fun _ => m) (mask S δ) P := by
  unfold Phi
  rw [Finset.sum_range_add]
  have : ∑ x ∈ Finset.range n, ∑ k ∈ Finset.range m, P (nv + x) k * mask S δ (nv + x) k = 0 :=
    Finset.sum_eq_zero fun x hx => Finset.sum_eq_zero fun k hk => by
      simp [mask, hres x (Finset.mem_range.mp hx)]
  rw [this, add_zero]

/-- The sweep over the operators in `keep` preserves the pairing of partials with tangents on the results of these operators. -/
theorem revKeep_ok (d : ℕ) (keep : ℕ → Bool) (S : ℕ → Prop) [DecidablePred S] (ops : List Op) :
    ∀ i nv U (env dd : ℝ → ℕ → ℝ) (s P : Tay) (δ : Tay),
    (∀ a ∈ U, a < nv) → WFOps ops nv U →
    (∀ v < nv, Sm (fun t => env t v)) → (∀ v < nv, Sm (fun t => dd t v)) → domOps ops nv (env 0) →
    (∀ v < numVar ops nv, ∀ k ≤ d, s v k = tc (fun t => evalOps ops nv (env t) v) k) →
    (∀ v, nv ≤ v → v < numVar ops nv → S v → v ∉ usable ops nv U → ∀ k ≤ d, P v k = 0) →
    (∀ v < numVar ops nv, δ v = tc (fun t => linOps ops nv (env t) (dd t) v)) →
    (∀ k op, ops[k]? = some op → 
      (keep (i + k) = true → (∀ r < op.nres, S (numVar (ops.take k) nv + r)) ∧ ∀ a ∈ op.args, S a ∨ ∀ l < d + 1, δ a l = 0) ∧
      (keep (i + k) = false → ∀ r < op.nres, ¬ S (numVar (ops.take k) nv + r))) →
    Phi nv (fun _ => d + 1) (mask S δ) (revKeep d keep ops i nv s P)
      = Phi (numVar ops nv) (fun _ => d + 1) (mask S δ) P := by
  induction ops with
  | nil => intros; rfl
  | cons op ops ih =>
    intro i nv U env dd s P δ hU hw hs hsd hd h1 h2 hδ hkeep
    have ha : ∀ a ∈ op.args, a < nv := fun a h => hU a (hw.1 a h)
    have hle := le_numVar ops (nv + op.nres)
    have hse := stepEnv_smooth env 0 ha hs hd.1
    have hsl := stepLin_smooth env dd ha hs hsd hd.1
    have hi := ih (i + 1) (nv + op.nres) _ (fun t => stepEnv op nv (env t)) (fun t => stepLin op nv (env t) (dd t))
      s P δ (U_insert op hU) hw.2 hse hsl hd.2 h1
      (fun v hv1 hv2 hv3 hv4 => h2 v (by omega) hv2 hv3 hv4) hδ
      (fun k o hk => by
        have := hkeep (k + 1) o (by simpa using hk)
        rw [show i + (k + 1) = i + 1 + k by omega] at this
        exact this)
    have hk0 := hkeep 0 op (by simp)
    simp only [Nat.add_zero, List.take_zero, numVar] at hk0
    rw [revKeep, numVar]
    set R := revKeep d keep ops (i + 1) (nv + op.nres) s P with hRdef
    rw [← hi]
    by_cases hkp : keep i = true
    · rw [if_pos hkp]
      obtain ⟨hS, hA⟩ := hk0.1 hkp
      refine Phi_mask_step (A := op.args) (fun v hv hn => op.cert.rev_frame nv d s _ v hv hn) hA hS ?_
      have hr := op.cert.rev_ok nv (fun t => stepEnv op nv (env t)) (fun t => stepLin op nv (env t) (dd t)) d s
        R ha hse hsl
        (fun t r hr => stepEnv_val _ ha hr) (fun t r hr => stepLin_val _ _ ha hr) (stepEnv_dom _ ha hd.1)
        (fun v hv k hk => by
          rw [h1 v (by simp only [numVar]; omega) k hk]
          simp only [evalOps, evalOps_lt ops (nv + op.nres) _ v hv])
        (fun r hr k hk => by
          have hlt := op.naux_lt
          have hnot : nv + r ∉ addRes op nv U := by
            rintro (h | h)
            · have := h.1; omega
            · have := hU _ h; omega
          rw [hRdef, revKeep_frame d keep ops _ _ _ s P (U_insert op hU) hw.2 (nv + r) (by omega) hnot]
          exact h2 (nv + r) (by omega) (by simp only [numVar]; omega) (hS r (by omega))
            (fun h => hnot (usable_old ops _ _ _ (by omega) h)) k hk)
      have hδ' : ∀ v < nv + op.nres, δ v = tc (fun t => stepLin op nv (env t) (dd t) v) := by
        intro v hv
        rw [hδ v (by simp only [numVar]; omega)]
        congr 1
        funext t
        rw [linOps, linOps_lt _ _ _ _ _ hv]
      have c : ∀ (N : ℕ) (Q : Tay), N ≤ nv + op.nres → Phi N (fun _ => d + 1) δ Q
          = Phi N (fun _ => d + 1) (fun v => tc (fun t => stepLin op nv (env t) (dd t) v)) Q := by
        intro N Q hN
        unfold Phi
        refine Finset.sum_congr rfl fun v hv => Finset.sum_congr rfl fun k _ => ?_
        rw [hδ' v (by have := Finset.mem_range.mp hv; omega)]
      rw [c nv _ (by omega), c _ _ le_rfl]
      exact hr
    · have hkf : keep i = false := by simpa using hkp
      rw [if_neg hkp]
      exact Phi_mask_skip (hk0.2 hkf)

/-! ## tangents of operators that do not depend on the direction -/

theorem lin_zero {op : Op} {e d : ℕ → ℝ} (hd : op.dom e) (h0 : ∀ a ∈ op.args, d a = 0) {r : ℕ} (hr : r < op.nres) :
    op.cert.lin e d r = 0 := by
  have h := op.cert.hasDeriv (fun _ => e) d 0 (fun a ha => by rw [h0 a ha]; exact hasDerivAt_const _ _) hd r hr
  exact h.unique (hasDerivAt_const _ _)

theorem linOps_zero (Z : ℕ → Prop) (ops : List Op) : ∀ nv U (e d : ℕ → ℝ), (∀ a ∈ U, a < nv) → WFOps ops nv U →
    domOps ops nv e → (∀ v < nv, Z v → d v = 0) →
    (∀ k op, ops[k]? = some op → (∀ r < op.nres, ¬ Z (numVar (ops.take k) nv + r)) ∨ ∀ a ∈ op.args, Z a) →
    ∀ v < numVar ops nv, Z v → linOps ops nv e d v = 0 := by
  induction ops with
  | nil => intro nv U e d _ _ _ h _; exact h
  | cons op ops ih =>
    intro nv U e d hU hw hd h hz
    have ha : ∀ a ∈ op.args, a < nv := fun a h => hU a (hw.1 a h)
    refine ih (nv + op.nres) _ _ _ (U_insert op hU) hw.2 hd.2 ?_ ?_
    · intro v hv hZ
      by_cases hlt : v < nv
      · rw [stepLin_lt _ _ hlt]; exact h v hlt hZ
      · obtain ⟨r, rfl⟩ := Nat.exists_eq_add_of_le (Nat.not_lt.mp hlt)
        have hr : r < op.nres := by omega
        rw [stepLin_res _ _ hr]
        rcases hz 0 op (by simp) with h0 | h0
        · exact absurd hZ (h0 r hr)
        · exact lin_zero hd.1 (fun a haa => h a (ha a haa) (h0 a haa)) hr
    · intro k o hk
      exact hz (k + 1) o (by simpa using hk)

/-! ## the sorted list of operators -/

/-- a sorted list of different numbers below `N` -/
theorem sorted_eq_filter {l : List ℕ} {N : ℕ} (h : l.Pairwise (· < ·)) (hN : ∀ i ∈ l, i < N) :
    l = (List.range N).filter fun i => decide (i ∈ l) := by
  have hp : (List.range N).Pairwise (· < ·) := List.pairwise_lt_range
  refine List.Perm.eq_of_pairwise (le := (· < ·)) ?_ h (hp.filter _) ?_
  · intro a b _ _ h1 h2; omega
  · refine (List.perm_ext_iff_of_nodup (h.imp (fun h => Nat.ne_of_lt h)) (List.nodup_range.filter _)).mpr ?_
    intro a
    simp only [List.mem_filter, List.mem_range, decide_eq_true_eq]
    exact ⟨fun h => ⟨hN a h, h⟩, fun h => h.2⟩

variable {T : Tape}

theorem foldr_filter {β : Type} (p : ℕ → Bool) (f : ℕ → β → β) (b : β) (l : List ℕ) :
    (l.filter p).foldr f b = l.foldr (fun i x => if p i then f i x else x) b := by
  induction l with
  | nil => rfl
  | cons a l ih =>
    by_cases h : p a = true
    · rw [List.filter_cons_of_pos h, List.foldr_cons, List.foldr_cons, ih, if_pos h]
    · rw [List.filter_cons_of_neg h, List.foldr_cons, ih, if_neg h]

/-- the sweep with the subgraph iterator -/
theorem sweep_eq {rnd : Rnd} (hr : Right T rnd) (d : ℕ) (s : Tay) {sub : List ℕ} (hs : sub.Pairwise (· < ·))
    (hN : ∀ i ∈ sub, i < numOp T) (P : Tay) :
    sweep T rnd d s sub P = revKeep d (fun i => decide (i ∈ sub)) T.ops (T.n + 1) (T.n + 1) s P := by
  let g : ℕ → Tay → Tay := fun i x => if decide (i ∈ sub) then (opAt T i).elim x fun op => op.rev d (rnd.op2var i) s x else x
  have h1 : sweep T rnd d s sub P = (List.range (numOp T)).foldr g P := by
    unfold sweep
    conv_lhs => rw [sorted_eq_filter hs hN]
    rw [foldr_filter]
  rw [h1]
  -- from the end of the operators
  have h2 : ∀ m ≤ T.ops.length, (List.range' (T.n + 1 + (T.ops.length - m)) (m + 1)).foldr g P
      = revKeep d (fun i => decide (i ∈ sub)) (T.ops.drop (T.ops.length - m)) (T.n + 1 + (T.ops.length - m))
        (before T (T.n + 1 + (T.ops.length - m))) s P := by
    intro m
    induction m with
    | zero =>
      intro _
      rw [Nat.sub_zero, List.drop_length]
      have hn : opAt T (T.n + 1 + T.ops.length) = none := by
        rw [opAt_op]; exact List.getElem?_eq_none (le_refl T.ops.length)
      simp [revKeep, g, hn]
    | succ m ih =>
      intro hm
      have ih := ih (by omega)
      set k := T.ops.length - (m + 1) with hk
      have e : T.ops.length - m = k + 1 := by omega
      rw [e] at ih
      have hkl : k < T.ops.length := by omega
      have hget : T.ops[k]? = some T.ops[k] := List.getElem?_eq_getElem hkl
      rw [List.range'_succ, List.foldr_cons, List.drop_eq_getElem_cons hkl, revKeep,
        show T.n + 1 + k + 1 = T.n + 1 + (k + 1) by omega, ih]
      have hb : before T (T.n + 1 + (k + 1)) = before T (T.n + 1 + k) + T.ops[k].nres := by
        rw [← Nat.add_assoc, before, nres_op hget]
      rw [hb]
      simp only [g, opAt_op, hget, Option.elim]
      rw [(hr (T.n + 1 + k) (by omega)).1]
      unfold pv
      rw [show T.n + 1 + k + 1 = T.n + 1 + (k + 1) by omega, hb]
  have h3 := h2 T.ops.length le_rfl
  rw [Nat.sub_self, List.drop_zero, Nat.add_zero, before_low le_rfl] at h3
  rw [← h3]
  have h4 : List.range (numOp T) = List.range' 0 (T.n + 1) ++ List.range' (T.n + 1) (T.ops.length + 1) := by
    have := List.range'_append (s := 0) (m := T.n + 1) (n := T.ops.length + 1) (step := 1)
    rw [Nat.one_mul, Nat.zero_add] at this
    rw [List.range_eq_range', this]; unfold numOp; congr 1
  rw [h4, List.foldr_append]
  generalize (List.range' (T.n + 1) (T.ops.length + 1)).foldr g P = Q
  have h5 : ∀ l : List ℕ, (∀ i ∈ l, i ≤ T.n) → l.foldr g Q = Q := by
    intro l
    induction l with
    | nil => intro _; rfl
    | cons a l ih =>
      intro hl
      rw [List.foldr_cons, ih (fun i hi => hl i (by simp [hi]))]
      simp only [g, opAt, if_pos (hl a (by simp)), Option.elim]
      simp
  exact h5 _ (fun i hi => by have := List.mem_range'_1.mp hi; omega)

/-- the operator of a variable is unique -/
theorem owner_unique {i j v : ℕ} (h1 : before T i ≤ v) (h2 : v < before T (i + 1)) (h3 : before T j ≤ v)
    (h4 : v < before T (j + 1)) : i = j := by
  rcases Nat.lt_trichotomy i j with h | h | h
  · have := before_mono (T := T) (show i + 1 ≤ j from h); omega
  · exact h
  · have := before_mono (T := T) (show j + 1 ≤ i from h); omega

/-- zeroPartial sets the partials of the results of the operators in the list -/
theorem zeroPartial_ok {rnd : Rnd} (hr : Right T rnd) (q : ℕ) (sub : List ℕ) : ∀ P : Tay,
    (∀ i ∈ sub, i ≠ 0 → i < T.n + 1 + T.ops.length → ∀ v, before T i ≤ v → v < before T (i + 1) → ∀ k < q,
      zeroPartial T rnd q sub P v k = 0) ∧
    (∀ v k, P v k = 0 → zeroPartial T rnd q sub P v k = 0) := by
  induction sub with
  | nil => intro P; exact ⟨by simp, fun v k h => h⟩
  | cons i sub ih =>
    intro P
    -- one operator
    set P1 := (if nres T i = 0 then P
      else if i ≠ 0 then
        forRange (rnd.op2var i + 1 - nres T i) (rnd.op2var i + 1) P fun v P => forRange 0 q P fun k P => P.set v k 0
      else P) with hP1
    have hz : zeroPartial T rnd q (i :: sub) P = zeroPartial T rnd q sub P1 := rfl
    rw [hz]
    have inner : ∀ (Q : Tay) v m, m ≤ q → 
        (∀ k < m, forRange 0 m Q (fun k P => P.set v k 0) v k = 0) ∧
        (∀ u k, Q u k = 0 → forRange 0 m Q (fun k P => P.set v k 0) u k = 0) := by
      intro Q v m _
      refine forRange_ind (Nat.zero_le m) (s := Q) (f := fun k P => P.set v k 0)
        (fun m (R : Tay) => (∀ k < m, R v k = 0) ∧ ∀ u k, Q u k = 0 → R u k = 0)
        ⟨fun k h => absurd h (Nat.not_lt_zero _), fun u k h => h⟩ ?_
      rintro m R _ _ ⟨h1, h2⟩
      refine ⟨fun k hk => ?_, fun u k h => ?_⟩
      · rw [Tay.set_apply]; split
        · rfl
        · exact h1 k (by omega)
      · rw [Tay.set_apply]; split
        · rfl
        · exact h2 u k h
    have hpres : ∀ v k, P v k = 0 → P1 v k = 0 := by
      intro v k h
      rw [hP1]
      split
      · exact h
      · split
        · exact forRange_inv (P := fun Q : Tay => Q v k = 0) h (fun m Q _ _ hQ => (inner Q m q le_rfl).2 v k hQ)
        · exact h
    refine ⟨?_, fun v k h => (ih P1).2 v k (hpres v k h)⟩
    intro j hj hj0 hjL v hv1 hv2 k hk
    rcases List.mem_cons.mp hj with rfl | hj
    · refine (ih P1).2 v k ?_
      have hn := nres_pos hjL
      have e : before T (j + 1) = before T j + nres T j := rfl
      have e2 : rnd.op2var j = before T (j + 1) - 1 := (hr j hjL).1
      rw [hP1, if_neg (by omega), if_pos hj0]
      have := forRange_ind (lo := rnd.op2var j + 1 - nres T j) (hi := rnd.op2var j + 1) (by omega) (s := P)
        (f := fun v P => forRange 0 q P fun k P => P.set v k 0)
        (fun m (Q : Tay) => ∀ v, before T j ≤ v → v < m → ∀ k < q, Q v k = 0)
        (fun v h1 h2 => by omega) (fun m Q _ _ hQ => by
          intro v h1 h2 k hk
          by_cases em : v = m
          · subst em; exact (inner Q v q le_rfl).1 k hk
          · exact (inner Q m q le_rfl).2 v k (hQ v h1 (by omega) k hk))
      exact this v hv1 (by omega) k hk
    · exact (ih P1).1 j hj hj0 hjL v hv1 hv2 k hk

end CppAD.Subgraph
