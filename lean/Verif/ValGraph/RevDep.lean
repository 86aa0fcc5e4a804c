/-
What `rev_depend` computes, and lemmas about putting an operator at the end of a tape.
-/
import Verif.ValGraph.Renumber

namespace CppAD.ValGraph
open Classical

/-! ### the use cases -/

/-- how a change of `val_use_case` by operator `i` is limited to its arguments -/
structure UseStep (nOp i : ℕ) (args : List ℕ) (u u' : ℕ → ℕ) : Prop where
  mono : ∀ a, u a ≠ 0 → u' a ≠ 0
  frame : ∀ a, a ∉ args → u' a = u a
  tag : ∀ a, u' a = u a ∨ u' a = i ∨ u' a = nOp

theorem UseStep.refl (nOp i : ℕ) (args : List ℕ) (u : ℕ → ℕ) : UseStep nOp i args u u :=
  ⟨fun _ h => h, fun _ _ => rfl, fun _ => Or.inl rfl⟩

theorem UseStep.trans {nOp i : ℕ} {args : List ℕ} {u u' u'' : ℕ → ℕ}
    (h1 : UseStep nOp i args u u') (h2 : UseStep nOp i args u' u'') : UseStep nOp i args u u'' := by
  refine ⟨fun a h => h2.mono a (h1.mono a h), fun a h => by rw [h2.frame a h, h1.frame a h],
    fun a => ?_⟩
  rcases h2.tag a with h | h | h
  · rw [h]; exact h1.tag a
  · right; left; exact h
  · right; right; exact h

theorem incUse_step {nOp i : ℕ} (hn : 0 < nOp) {args : List ℕ} (u : ℕ → ℕ) {v : ℕ}
    (hv : v ∈ args) : UseStep nOp i args u (incUse nOp u v i) := by
  refine ⟨fun a h => ?_, fun a h => ?_, fun a => ?_⟩
  · by_cases ha : a = v
    · subst ha; simp [incUse, h]; omega
    · simp [incUse, Function.update_of_ne ha, h]
  · have : a ≠ v := fun h' => h (h' ▸ hv)
    simp [incUse, Function.update_of_ne this]
  · by_cases ha : a = v
    · subst ha
      simp only [incUse, Function.update_self]
      split_ifs <;> simp
    · left; simp [incUse, Function.update_of_ne ha]

theorem incUse_self {nOp i : ℕ} (hn : 0 < nOp) (hi : 0 < i) (u : ℕ → ℕ) (v : ℕ) :
    incUse nOp u v i v ≠ 0 := by
  simp only [incUse, Function.update_self]
  split_ifs <;> omega

theorem foldl_incUse {nOp i : ℕ} (hn : 0 < nOp) (hi : 0 < i) {args : List ℕ} (l : List ℕ)
    (hl : ∀ a ∈ l, a ∈ args) (u : ℕ → ℕ) :
    UseStep nOp i args u (l.foldl (fun u v => incUse nOp u v i) u) ∧
      ∀ a ∈ l, l.foldl (fun u v => incUse nOp u v i) u a ≠ 0 := by
  induction l generalizing u with
  | nil => exact ⟨UseStep.refl _ _ _ _, by simp⟩
  | cons b l ih =>
    obtain ⟨h1, h2⟩ := ih (fun a ha => hl a (List.mem_cons_of_mem _ ha)) (incUse nOp u b i)
    refine ⟨(incUse_step hn u (hl b List.mem_cons_self)).trans h1, ?_⟩
    intro a ha
    rcases List.mem_cons.mp ha with rfl | ha
    · exact h1.mono _ (incUse_self hn hi u _)
    · exact h2 a ha

/-- one step of `rev_depend` for an operator that is not operator zero -/
theorem depStep_ok {T : VTape} {P : Prim} (hp : T.Plain) {i : ℕ} (hi : i < T.nOp) (h0 : 0 < i)
    (ha : (T.node i).kind.arityOk (T.node i).args.length) (s : DepSt) :
    UseStep T.nOp i (T.node i).args s.use (depStep T P s i).use ∧
    ((T.node i).nres ≠ 0 → (∀ a id n, (T.node i).kind ≠ .call a id n) → s.use (T.res i) ≠ 0 →
      ∀ a ∈ (T.node i).args, (depStep T P s i).use a ≠ 0) ∧
    (∀ a id n, (T.node i).kind = .call a id n → (T.node i).nres ≠ 0 →
      ∀ k, k < (T.node i).args.length →
        P.depX a id ((T.node i).args.map (rd (T.nanVal P)))
          ((List.range n).map (fun k => decide (s.use (T.res i + k) ≠ 0))) k = true →
        (depStep T P s i).use ((T.node i).args.getD k 0) ≠ 0) := by
  have hpl := hp _ (node_mem T hi)
  have hn : 0 < T.nOp := by omega
  by_cases hz : (T.node i).nres = 0
  · have e : depStep T P s i = s := by simp [depStep, hz]
    rw [e]
    exact ⟨UseStep.refl _ _ _ _, fun h => absurd hz h, fun _ _ _ _ h => absurd hz h⟩
  by_cases hcall : ∃ a id n, (T.node i).kind = .call a id n
  · obtain ⟨a, id, n, hk⟩ := hcall
    set conX := (T.node i).args.map (rd (T.nanVal P))
    set depY := (List.range n).map (fun k => decide (s.use (T.res i + k) ≠ 0))
    have e : (depStep T P s i).use = forRange 0 (T.node i).args.length s.use (fun k use =>
        if P.depX a id conX depY k = true then incUse T.nOp use ((T.node i).args.getD k 0) i
        else use) := by
      unfold depStep; simp only [hz, if_false]; rw [hk]
    rw [e]
    have key := forRange_ind (Nat.zero_le (T.node i).args.length) (s := s.use)
      (f := fun k use => if P.depX a id conX depY k = true then
        incUse T.nOp use ((T.node i).args.getD k 0) i else use)
      (P := fun m u => UseStep T.nOp i (T.node i).args s.use u ∧
        ∀ k, k < m → P.depX a id conX depY k = true → u ((T.node i).args.getD k 0) ≠ 0)
      ⟨UseStep.refl _ _ _ _, by intro k hk; omega⟩ (by
        intro m u _ hm ⟨h1, h2⟩
        split_ifs with hd
        · have hs := incUse_step (i := i) hn u (getD_mem hm)
          refine ⟨h1.trans hs, fun k hk hdk => ?_⟩
          rcases Nat.lt_succ_iff_lt_or_eq.mp hk with h | h
          · exact hs.mono _ (h2 k h hdk)
          · subst h; exact incUse_self hn h0 u _
        · refine ⟨h1, fun k hk hdk => ?_⟩
          rcases Nat.lt_succ_iff_lt_or_eq.mp hk with h | h
          · exact h2 k h hdk
          · subst h; exact absurd hdk hd)
    refine ⟨key.1, fun _ h => absurd hk (h a id n), ?_⟩
    intro a' id' n' hk' _ k hk2 hd
    rw [hk] at hk'
    cases hk'
    exact key.2 k hk2 hd
  · push Not at hcall
    refine ⟨?_, ?_, fun a id n h => absurd h (hcall a id n)⟩
    · unfold depStep
      simp only [hz, if_false]
      generalize hnd : T.node i = nd at *
      obtain ⟨k, l⟩ := nd
      have fin : UseStep T.nOp i l s.use (if s.use (T.res i) = 0 then s
          else if k.isBinary = true then
            { s with use := if l.getD 0 0 ≠ l.getD 1 0 then
                incUse T.nOp (incUse T.nOp s.use (l.getD 0 0) i) (l.getD 1 0) i
              else incUse T.nOp s.use (l.getD 0 0) i }
          else { s with use := l.foldl (fun u v => incUse T.nOp u v i) s.use }).use := by
        split_ifs with h1 h2 h3
        · exact UseStep.refl _ _ _ _
        · have hl : l.length = 2 := by cases k <;> simp_all [Kind.isBinary, Kind.arityOk]
          exact (incUse_step hn _ (getD_mem (by omega))).trans
            (incUse_step hn _ (getD_mem (by omega)))
        · have hl : l.length = 2 := by cases k <;> simp_all [Kind.isBinary, Kind.arityOk]
          exact incUse_step hn _ (getD_mem (by omega))
        · exact (foldl_incUse hn h0 l (fun _ h => h) s.use).1
      cases k <;> first | exact fin | (simp [Kind.isVector] at hpl; done) | (exact absurd rfl (hcall _ _ _))
    · intro _ _ hu
      unfold depStep
      simp only [hz, if_false]
      generalize hnd : T.node i = nd at *
      obtain ⟨k, l⟩ := nd
      have fin : ∀ a ∈ l, (if s.use (T.res i) = 0 then s
          else if k.isBinary = true then
            { s with use := if l.getD 0 0 ≠ l.getD 1 0 then
                incUse T.nOp (incUse T.nOp s.use (l.getD 0 0) i) (l.getD 1 0) i
              else incUse T.nOp s.use (l.getD 0 0) i }
          else { s with use := l.foldl (fun u v => incUse T.nOp u v i) s.use }).use a ≠ 0 := by
        rw [if_neg hu]
        by_cases h2 : k.isBinary = true
        · rw [if_pos h2]
          have hl : l.length = 2 := by cases k <;> simp_all [Kind.isBinary, Kind.arityOk]
          match l, hl with
          | [a, b], _ =>
            intro c hc
            have hc' : c = a ∨ c = b := by simpa using hc
            simp only [List.getD_cons_zero, List.getD_cons_succ]
            split_ifs with h3
            · rcases hc' with rfl | rfl
              · exact (incUse_step (args := [c, b]) hn _ (by simp)).mono _
                  (incUse_self hn h0 _ _)
              · exact incUse_self hn h0 _ _
            · push Not at h3
              subst h3
              rcases hc' with rfl | rfl <;> exact incUse_self hn h0 _ _
        · rw [if_neg h2]; exact (foldl_incUse hn h0 l (fun _ h => h) s.use).2
      cases k <;> first | exact fin | (simp [Kind.isVector] at hpl; done) | (exact absurd rfl (hcall _ _ _))

/-- what holds of `val_use_case` after the operators with index at least `j` were handled -/
structure DepInv (T : VTape) (P : Prim) (j : ℕ) (u : ℕ → ℕ) : Prop where
  dep : ∀ a ∈ T.dep, u a ≠ 0
  arg : ∀ i, j ≤ i → i < T.nOp → (T.node i).nres ≠ 0 → (∀ a id n, (T.node i).kind ≠ .call a id n) →
    u (T.res i) ≠ 0 → ∀ a ∈ (T.node i).args, u a ≠ 0
  call : ∀ i, j ≤ i → i < T.nOp → ∀ a id n, (T.node i).kind = .call a id n → (T.node i).nres ≠ 0 →
    ∀ k, k < (T.node i).args.length →
      P.depX a id ((T.node i).args.map (rd (T.nanVal P)))
        ((List.range n).map (fun k => decide (u (T.res i + k) ≠ 0))) k = true →
      u ((T.node i).args.getD k 0) ≠ 0
  tag : ∀ a, u a = 0 ∨ u a = T.nOp ∨ u a < T.nOp ∧ a ∈ (T.node (u a)).args

theorem revDepend_inv {T : VTape} (P : Prim) (hw : T.WF) (hp : T.Plain) :
    DepInv T P 0 (revDepend T P).use := by
  obtain ⟨l0, hl0⟩ := hw.head
  have h0 : 0 < T.nOp := by simp [VTape.nOp, hl0]
  have hn0 : T.node 0 = ⟨.con none, []⟩ := by simp [VTape.node, hl0]
  unfold revDepend
  refine forDown0_ind (P := fun j (s : DepSt) => DepInv T P j s.use) ?_ ?_
  · refine ⟨fun a ha => by simp [depInit, ha]; omega, fun i h1 h2 => by omega,
      fun i h1 h2 => by omega, fun a => ?_⟩
    by_cases h : a ∈ T.dep <;> simp [depInit, h]
  · intro i s hi H
    by_cases hz : i = 0
    · subst hz
      have e : (depStep T P s 0).use = s.use := by
        unfold depStep
        rw [hn0]
        simp [Node.nres, Kind.nres, Kind.isBinary]
      rw [e]
      refine ⟨H.dep, fun j h1 h2 hr hc hu => ?_, fun j h1 h2 a id n hk => ?_, H.tag⟩
      · by_cases hj : j = 0
        · subst hj; rw [hn0]; simp
        · exact H.arg j (by omega) h2 hr hc hu
      · by_cases hj : j = 0
        · subst hj; rw [hn0] at hk; simp at hk
        · exact H.call j (by omega) h2 a id n hk
    · obtain ⟨hs, harg, hcall⟩ := depStep_ok (P := P) hp hi (by omega) (hw.arity i hi) s
      have frame : ∀ j k, i ≤ j → (depStep T P s i).use (T.res j + k) = s.use (T.res j + k) := by
        intro j k hj
        apply hs.frame
        intro hm
        have h1 := hw.args i hi _ hm
        have h2 := res_mono T hj
        omega
      have frame0 : ∀ j, i ≤ j → (depStep T P s i).use (T.res j) = s.use (T.res j) :=
        fun j hj => frame j 0 hj
      refine ⟨fun a ha => hs.mono a (H.dep a ha), ?_, ?_, ?_⟩
      · intro j h1 h2 hr hc hu a ha
        rw [frame0 j h1] at hu
        by_cases hj : j = i
        · subst hj; exact harg hr hc hu a ha
        · exact hs.mono a (H.arg j (by omega) h2 hr hc hu a ha)
      · intro j h1 h2 a id n hk hr k hk2 hd
        simp only [frame j _ h1] at hd
        by_cases hj : j = i
        · subst hj; exact hcall a id n hk hr k hk2 hd
        · exact hs.mono _ (H.call j (by omega) h2 a id n hk hr k hk2 hd)
      · intro a
        by_cases ha : a ∈ (T.node i).args
        · rcases hs.tag a with h | h | h
          · rw [h]; exact H.tag a
          · rw [h]; right; right; exact ⟨hi, ha⟩
          · right; left; exact h
        · rw [hs.frame a ha]; exact H.tag a

/-! ### putting an operator at the end of a tape -/

section
variable (T : VTape) (nd : Node)

theorem push_nOp : (T.push nd).1.nOp = T.nOp + 1 := by simp [VTape.push, VTape.nOp]

theorem push_node {i : ℕ} (h : i < T.nOp) : (T.push nd).1.node i = T.node i := by
  simp only [VTape.push, VTape.node, List.getD_eq_getElem?_getD]
  rw [List.getElem?_append_left h]

theorem push_last : (T.push nd).1.node T.nOp = nd := by
  simp [VTape.push, VTape.node, VTape.nOp]

theorem push_res {i : ℕ} (h : i ≤ T.nOp) : (T.push nd).1.res i = T.res i := by
  simp only [VTape.push, VTape.res]
  rw [List.take_append_of_le_length h]

theorem push_nVal : (T.push nd).1.nVal = T.nVal + nd.nres := by
  simp [VTape.push, VTape.nVal, nresSum_append, nresSum, Nat.add_assoc]

theorem push_snd : (T.push nd).2 = T.nVal := rfl

variable {T nd}

theorem push_wf (hw : T.WF) (ha : ∀ a ∈ nd.args, a < T.nVal)
    (hk : nd.kind.arityOk nd.args.length) : (T.push nd).1.WF := by
  obtain ⟨l, hl⟩ := hw.head
  refine ⟨⟨l ++ [nd], by simp [VTape.push, hl]⟩, ?_, ?_, ?_⟩
  · intro i hi
    rw [push_nOp] at hi
    rcases Nat.lt_succ_iff_lt_or_eq.mp hi with h | h
    · rw [push_node T nd h, push_res T nd h.le]; exact hw.args i h
    · subst h; rw [push_last, push_res T nd le_rfl, res_nOp]; exact ha
  · intro i hi
    rw [push_nOp] at hi
    rcases Nat.lt_succ_iff_lt_or_eq.mp hi with h | h
    · rw [push_node T nd h]; exact hw.arity i h
    · subst h; rw [push_last]; exact hk
  · intro d hd
    rw [push_nVal]
    have := hw.dep d hd
    omega

theorem push_plain (hp : T.Plain) (hk : nd.kind.isVector = false) : (T.push nd).1.Plain := by
  intro m hm
  simp only [VTape.push, List.mem_append, List.mem_singleton] at hm
  rcases hm with h | h
  · exact hp m h
  · rw [h]; exact hk

/-- the equations of the longer tape are those of the tape and the one of the new operator -/
theorem push_sol {P : Prim} {x : List V} {w : ℕ → V} (h : Sol (T.push nd).1 P x w) :
    Sol T P x w ∧ ∀ k, k < nd.nres → w (T.nVal + k) = rd (nd.kind.out P (nd.args.map w)) k := by
  refine ⟨⟨h.1, fun i hi k hk => ?_⟩, fun k hk => ?_⟩
  · have := h.2 i (by rw [push_nOp]; omega) k (by rw [push_node T nd hi]; exact hk)
    rwa [push_node T nd hi, push_res T nd hi.le] at this
  · have := h.2 T.nOp (by rw [push_nOp]; omega) k (by rw [push_last]; exact hk)
    rwa [push_last, push_res T nd le_rfl, res_nOp] at this

end

theorem setInd_wf (n : ℕ) (a b : Bool) : (setInd n a b).WF := by
  refine ⟨⟨[], rfl⟩, ?_, ?_, by simp [setInd]⟩
  · intro i hi
    have : i = 0 := by simp [VTape.nOp, setInd] at hi; omega
    subst this; simp [VTape.node, setInd]
  · intro i hi
    have : i = 0 := by simp [VTape.nOp, setInd] at hi; omega
    subst this; simp [VTape.node, setInd, Kind.arityOk]

theorem setInd_plain (n : ℕ) (a b : Bool) : (setInd n a b).Plain := by
  intro nd h
  simp [setInd] at h
  subst h; rfl

theorem setInd_nVal (n : ℕ) (a b : Bool) : (setInd n a b).nVal = n + 1 := by
  simp [VTape.nVal, setInd, nresSum, Node.nres, Kind.nres]

end CppAD.ValGraph
