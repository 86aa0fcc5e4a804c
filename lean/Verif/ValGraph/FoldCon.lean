/-
`fold_con` preserves the function that a value graph represents.
-/
import Verif.ValGraph.RevDep

namespace CppAD.ValGraph
open Classical

/-! ### specification -/

/-- `for_type` of every atomic function is right: a result that it says is constant does not change
when the arguments that are not constant change.  `conX` has the values of the constant arguments
(and of the other arguments at nan); `conB` tells which arguments are constant. -/
def Prim.ForTypeOk (P : Prim) : Prop :=
  ∀ a id conX conB xs, xs.length = conX.length →
    (∀ m, m < conX.length → conB.getD m false = true → rd xs m = rd conX m) →
    ∀ j, P.conY a id conX conB j = true → P.atom a id xs j = P.atom a id conX j

/-! ### proof -/

theorem recordCon_mem {T : VTape} (c : V) :
    ∀ nd ∈ (T.recordCon c).1.nodes, nd ∈ T.nodes ∨ nd = ⟨.con c, []⟩ := by
  intro nd h
  unfold VTape.recordCon at h
  split_ifs at h
  · exact Or.inl h
  · simpa [VTape.push] using h

theorem recordCon_ok {T : VTape} (c : V) (hw : T.WF) (hp : T.Plain) :
    (T.recordCon c).1.WF ∧ (T.recordCon c).1.Plain ∧ (T.recordCon c).1.nInd = T.nInd ∧
      (T.recordCon c).1.dep = T.dep ∧
      T.nVal ≤ (T.recordCon c).1.nVal ∧ (T.recordCon c).2 < (T.recordCon c).1.nVal ∧
      ∀ P x w, Sol (T.recordCon c).1 P x w → Sol T P x w ∧ w (T.recordCon c).2 = c := by
  unfold VTape.recordCon
  split_ifs with h
  · subst h
    refine ⟨hw, hp, rfl, rfl, le_rfl, ?_, fun P x w h => ⟨h, sol_nan hw h⟩⟩
    obtain ⟨l, hl⟩ := hw.head
    simp [VTape.nVal, hl, nresSum, Node.nres, Kind.nres]
  · refine ⟨push_wf hw (by simp) (by simp [Kind.arityOk]), push_plain hp rfl, rfl, rfl, ?_, ?_, ?_⟩
    · rw [push_nVal]; omega
    · rw [push_nVal, push_snd]; simp [Node.nres, Kind.nres]
    · intro P x w hs
      obtain ⟨h1, h2⟩ := push_sol hs
      have := h2 0 (by simp [Node.nres, Kind.nres])
      refine ⟨h1, ?_⟩
      rw [push_snd]
      simpa [Kind.out, rd] using this

/-- loop invariant of `fold_con` when the values with index less than `b` were handled -/
structure FoldInv (T : VTape) (P : Prim) (b : ℕ) (s : FoldSt) : Prop where
  nInd : s.new.nInd = T.nInd
  dep : s.new.dep = []
  wf : s.new.WF
  plain : s.new.Plain
  one : ∀ nd ∈ s.new.nodes, ∀ x w, ¬ FalseAt w nd ∧ printAt x w nd = none
  lt : ∀ a, a < b → s.idx a < s.new.nVal
  late : ∀ a, b ≤ a → s.isCon a = false
  con : ∀ x v, Sol T P x v → ∀ a, s.isCon a = true → v a = rd (T.nanVal P) a
  val : ∀ x v w, Sol T P x v → Sol s.new P x w → ∀ a, a < b → w (s.idx a) = v a

theorem nanVal_sol {T : VTape} (P : Prim) (hw : T.WF) (hp : T.Plain) :
    Sol T P (List.replicate T.nInd none) (rd (T.nanVal P)) :=
  run_sol hp hw (by simp)

/-- value `b` is replaced by a constant -/
theorem fold_con_one {T : VTape} {P : Prim} {b : ℕ} {s : FoldSt} (H : FoldInv T P b s)
    (hc : ∀ x v, Sol T P x v → v b = rd (T.nanVal P) b) :
    FoldInv T P (b + 1) ⟨(s.new.recordCon (rd (T.nanVal P) b)).1, Function.update s.isCon b true,
      Function.update s.idx b (s.new.recordCon (rd (T.nanVal P) b)).2⟩ := by
  obtain ⟨w1, w2, w3, w4, w5, w6, w7⟩ := recordCon_ok (rd (T.nanVal P) b) H.wf H.plain
  refine ⟨by rw [w3, H.nInd], by rw [w4, H.dep], w1, w2, ?_, ?_, ?_, ?_, ?_⟩
  · intro nd hnd x w
    rcases recordCon_mem _ nd hnd with h | h
    · exact H.one nd h x w
    · subst h; simp [FalseAt, printAt]
  · intro a ha
    by_cases hab : a = b
    · subst hab; simp only [Function.update_self]; exact w6
    · simp only [Function.update_of_ne hab]
      have := H.lt a (by omega)
      show s.idx a < (s.new.recordCon (rd (T.nanVal P) b)).1.nVal
      omega
  · intro a ha
    show Function.update s.isCon b true a = false
    rw [Function.update_of_ne (by omega)]; exact H.late a (by omega)
  · intro x v hv a ha
    by_cases hab : a = b
    · subst hab; exact hc x v hv
    · simp only [Function.update_of_ne hab] at ha; exact H.con x v hv a ha
  · intro x v w hv hw a ha
    obtain ⟨h1, h2⟩ := w7 P x w hw
    by_cases hab : a = b
    · subst hab
      simp only [Function.update_self]
      rw [h2, hc x v hv]
    · simp only [Function.update_of_ne hab]
      exact H.val x v w hv h1 a (by omega)

theorem push_one_ok {T : VTape} {P : Prim} {b : ℕ} {s : FoldSt} (H : FoldInv T P b s) {nd : Node}
    (ha : ∀ a ∈ nd.args, a < s.new.nVal) (har : nd.kind.arityOk nd.args.length)
    (hpl : nd.kind.isVector = false) (hq : ∀ x w, ¬ FalseAt w nd ∧ printAt x w nd = none) :
    FoldInv T P b ⟨(s.new.push nd).1, s.isCon, s.idx⟩ := by
  refine ⟨H.nInd, H.dep, push_wf H.wf ha har, push_plain H.plain hpl, ?_, ?_, H.late, H.con, ?_⟩
  · intro m hm x w
    simp only [VTape.push, List.mem_append, List.mem_singleton] at hm
    rcases hm with h | h
    · exact H.one m h x w
    · rw [h]; exact hq x w
  · intro a ha
    have := H.lt a ha
    show s.idx a < (s.new.push nd).1.nVal
    rw [push_nVal]; omega
  · intro x v w hv hw
    exact H.val x v w hv (push_sol hw).1

/-- value `b` is value `c` of the new tape -/
theorem fold_old {T : VTape} {P : Prim} {b : ℕ} {s : FoldSt} (H : FoldInv T P b s) (f : ℕ → Bool)
    (hf : ∀ a, f a = s.isCon a) {c : ℕ} (hlt : c < s.new.nVal)
    (hv : ∀ x v w, Sol T P x v → Sol s.new P x w → w c = v b) :
    FoldInv T P (b + 1) ⟨s.new, f, Function.update s.idx b c⟩ := by
  have hf' : f = s.isCon := funext hf
  subst hf'
  refine ⟨H.nInd, H.dep, H.wf, H.plain, H.one, ?_, ?_, H.con, ?_⟩
  · intro a ha
    by_cases hab : a = b
    · subst hab; simp only [Function.update_self]; exact hlt
    · simp only [Function.update_of_ne hab]; exact H.lt a (by omega)
  · intro a ha; exact H.late a (by omega)
  · intro x v w h1 h2 a ha
    by_cases hab : a = b
    · subst hab; simp only [Function.update_self]; exact hv x v w h1 h2
    · simp only [Function.update_of_ne hab]; exact H.val x v w h1 h2 a (by omega)

theorem foldStep_ok {T : VTape} {P : Prim} (hw : T.WF) (hp : T.Plain) (hP : P.ForTypeOk) {i : ℕ}
    (hi : i < T.nOp) {s s' : FoldSt} (H : FoldInv T P (T.res i) s)
    (hs : foldStep T P s i = some s') :
    FoldInv T P (T.res (i + 1)) s' ∧ (∀ w, ¬ FalseAt w (T.node i)) ∧
      ∀ n w, printAt n w (T.node i) = none := by
  have hpl := hp _ (node_mem T hi)
  have hr := res_succ T hi
  have hnan := nanVal_sol P hw hp
  have hmap : ∀ x v w, Sol T P x v → Sol s.new P x w →
      ((T.node i).args.map s.idx).map w = (T.node i).args.map v := by
    intro x v w h1 h2
    rw [List.map_map]
    exact List.map_congr_left fun a ha => H.val x v w h1 h2 a (hw.args i hi a ha)
  have hlt : ∀ a ∈ (T.node i).args.map s.idx, a < s.new.nVal := by
    intro a ha
    simp only [List.mem_map] at ha
    obtain ⟨b, hb, rfl⟩ := ha
    exact H.lt b (hw.args i hi b hb)
  have har := hw.arity i hi
  -- one result
  have one : (T.node i).nres = 1 → (∀ x w, ∀ l, ¬ FalseAt w ⟨(T.node i).kind, l⟩ ∧
        printAt x w ⟨(T.node i).kind, l⟩ = none) →
      FoldInv T P (T.res (i + 1)) (if ∀ v ∈ (T.node i).args, s.isCon v = true then
        ⟨(s.new.recordCon (rd (T.nanVal P) (T.res i))).1, Function.update s.isCon (T.res i) true,
          Function.update s.idx (T.res i) (s.new.recordCon (rd (T.nanVal P) (T.res i))).2⟩
      else ⟨(s.new.push ⟨(T.node i).kind, (T.node i).args.map s.idx⟩).1, s.isCon,
        Function.update s.idx (T.res i)
          (s.new.push ⟨(T.node i).kind, (T.node i).args.map s.idx⟩).2⟩) := by
    intro h1 hq
    rw [hr, h1]
    by_cases hc : ∀ v ∈ (T.node i).args, s.isCon v = true
    · rw [if_pos hc]
      refine fold_con_one H fun x v hv => ?_
      have e1 := hv.2 i hi 0 (by omega)
      have e2 := hnan.2 i hi 0 (by omega)
      rw [Nat.add_zero] at e1 e2
      rw [e1, e2]
      congr 2
      exact List.map_congr_left fun a ha => H.con x v hv a (hc a ha)
    · rw [if_neg hc]
      have H' := push_one_ok H (nd := ⟨(T.node i).kind, (T.node i).args.map s.idx⟩) hlt
        (by simpa using har) hpl (fun x w => hq x w _)
      refine fold_old H' s.isCon (fun _ => rfl) ?_ ?_
      · show s.new.nVal < (s.new.push _).1.nVal
        rw [push_nVal]
        show s.new.nVal < s.new.nVal + (T.node i).nres
        omega
      · intro x v w h2 h3
        obtain ⟨h4, h5⟩ := push_sol h3
        have := h5 0 (by show 0 < (T.node i).nres; omega)
        rw [push_snd]
        rw [Nat.add_zero] at this
        rw [this, hmap x v w h2 h4]
        have e := h2.2 i hi 0 (by omega)
        rw [Nat.add_zero] at e
        exact e.symm
  have hs0 := hs
  unfold foldStep at hs
  cases hk : (T.node i).kind with
  | con c =>
    have hn : (T.node i).nres = 1 := by simp [Node.nres, hk, Kind.nres]
    simp only [hk] at hs
    injection hs with hs
    subst hs
    refine ⟨?_, by simp [FalseAt, hk], by simp [printAt, hk]⟩
    rw [hr, hn]
    refine fold_con_one H fun x v hv => ?_
    have e1 := hv.2 i hi 0 (by omega)
    have e2 := hnan.2 i hi 0 (by omega)
    rw [Nat.add_zero] at e1 e2
    rw [e1, e2, hk]; rfl
  | call a id n =>
    have hn : (T.node i).nres = n := by simp [Node.nres, hk, Kind.nres]
    refine ⟨?_, by simp [FalseAt, hk], by simp [printAt, hk]⟩
    simp only [hk] at hs
    by_cases h1 : n = 1
    · have := one (by omega) (by simp [hk, FalseAt, printAt])
      simp only [hk] at this
      rw [if_pos h1] at hs
      split_ifs at hs this <;> (injection hs with hs; subst hs; exact this)
    · rw [if_neg h1] at hs
      injection hs with hs
      subst hs
      have H' := push_one_ok H (nd := ⟨.call a id n, (T.node i).args.map s.idx⟩) hlt
        (by rw [hk] at har; simpa using har) rfl (by simp [FalseAt, printAt])
      set conX := (T.node i).args.map (rd (T.nanVal P)) with hconX
      set conY := P.conY a id conX ((T.node i).args.map s.isCon) with hconY
      set new' := (s.new.push ⟨.call a id n, (T.node i).args.map s.idx⟩).1 with hnew'
      have hres : s.new.nVal + n ≤ new'.nVal := by
        rw [hnew', push_nVal]; simp [Node.nres, Kind.nres]
      have hval : ∀ x v w, Sol T P x v → Sol new' P x w → ∀ m, m < n →
          w (s.new.nVal + m) = v (T.res i + m) := by
        intro x v w h2 h3 m hm
        obtain ⟨h4, h5⟩ := push_sol h3
        rw [h5 m (by simpa [Node.nres, Kind.nres] using hm)]
        rw [h2.2 i hi m (by omega), hk]
        simp only
        rw [hmap x v w h2 h4]
      have hcon : ∀ m, m < n → conY m = true → ∀ x v, Sol T P x v →
          v (T.res i + m) = rd (T.nanVal P) (T.res i + m) := by
        intro m hm hy x v hv
        rw [hv.2 i hi m (by omega), hnan.2 i hi m (by omega), hk]
        simp only [Kind.out]
        have hrm : ∀ f : ℕ → V, rd ((List.range n).map f) m = f m := by
          intro f; simp [rd, List.getD_eq_getElem?_getD, hm]
        rw [hrm, hrm]
        refine hP a id conX ((T.node i).args.map s.isCon) _ (by simp [hconX]) ?_ m hy
        intro k hk' hb
        rw [hconX, List.length_map] at hk'
        rw [getD_map_V _ _ hk', hconX, getD_map_V _ _ hk']
        apply H.con x v hv
        simpa [List.getD_eq_getElem?_getD, hk'] using hb
      have key := forRange_ind (Nat.zero_le n) (s := (⟨new', s.isCon, s.idx⟩ : FoldSt))
        (f := fun k (t : FoldSt) =>
          if conY k = true then
            let p := t.new.recordCon (rd (T.nanVal P) (T.res i + k))
            ⟨p.1, Function.update t.isCon (T.res i + k) true,
              Function.update t.idx (T.res i + k) p.2⟩
          else
            ⟨t.new, Function.update t.isCon (T.res i + k) false,
              Function.update t.idx (T.res i + k) (s.new.nVal + k)⟩)
        (P := fun k t => FoldInv T P (T.res i + k) t ∧ s.new.nVal + n ≤ t.new.nVal ∧
          ∀ x w, Sol t.new P x w → Sol new' P x w) ⟨H', hres, fun _ _ h => h⟩ (by
        intro k t _ hkn ⟨K1, K2, K3⟩
        by_cases hy : conY k = true
        · simp only [hy, if_true]
          obtain ⟨_, _, _, _, w5, _, w7⟩ :=
            recordCon_ok (rd (T.nanVal P) (T.res i + k)) K1.wf K1.plain
          refine ⟨?_, by omega, fun x w h => K3 x w (w7 P x w h).1⟩
          exact fold_con_one K1 (hcon k hkn hy)
        · rw [if_neg hy]
          refine ⟨?_, K2, K3⟩
          refine fold_old K1 _ ?_ (by omega) ?_
          · intro m
            by_cases hm : m = T.res i + k
            · subst hm; rw [Function.update_self, K1.late _ le_rfl]
            · rw [Function.update_of_ne hm]
          · intro x v w h2 h3
            exact hval x v w h2 (K3 x w h3) k hkn)
      rw [hr, hn]
      exact key.1
  | comp c => simp only [hk] at hs; exact absurd hs (by simp)
  | pri b a => simp only [hk] at hs; exact absurd hs (by simp)
  | vec w => rw [hk] at hpl; simp [Kind.isVector] at hpl
  | load w => rw [hk] at hpl; simp [Kind.isVector] at hpl
  | store w => rw [hk] at hpl; simp [Kind.isVector] at hpl
  | _ =>
    refine ⟨?_, by simp [FalseAt, hk], by simp [printAt, hk]⟩
    have := one (by simp [Node.nres, hk, Kind.nres]) (by simp [hk, FalseAt, printAt])
    simp only [hk] at hs this
    split_ifs at hs this <;> (injection hs with hs; subst hs; exact this)

/-- **`fold_con` preserves the function, for every tape without dynamic vectors and every point
(including points with nan), when `for_type` of the atomic functions is right.**  It is an error
(`none`) when the tape has an operator that has no result; so there is nothing to say about
comparisons and prints but that there are none. -/
theorem fold_con_ok {T T' : VTape} {P : Prim} (hw : T.WF) (hp : T.Plain) (hP : P.ForTypeOk)
    (hf : foldCon T P = some T') {x : List V} (hx : x.length = T.nInd) :
    T'.nInd = T.nInd ∧ T'.eval P x = T.eval P x ∧
      T'.compareFalse P x = 0 ∧ T.compareFalse P x = 0 ∧
      T'.printed P x = [] ∧ T.printed P x = [] := by
  obtain ⟨l0, hl0⟩ := hw.head
  have h0 : 0 < T.nOp := by simp [VTape.nOp, hl0]
  have hn0 : T.node 0 = ⟨.con none, []⟩ := by simp [VTape.node, hl0]
  have hr1 : T.res 1 = T.nInd + 1 := by
    have h1 := res_succ T h0
    rw [hn0, res_zero] at h1
    simpa [Node.nres, Kind.nres] using h1
  unfold foldCon at hf
  simp only [Option.map_eq_some_iff] at hf
  obtain ⟨s, hs, hT⟩ := hf
  have key := forRange_ind (show 1 ≤ T.nOp from h0)
    (s := (some ⟨setInd T.nInd true true, fun i => decide (i = T.nInd), fun i => i⟩ :
      Option FoldSt))
    (f := fun i s => s.bind (fun s => foldStep T P s i))
    (P := fun i o => ∀ s, o = some s → FoldInv T P (T.res i) s ∧
      ∀ j, j < i → (∀ w, ¬ FalseAt w (T.node j)) ∧ ∀ n w, printAt n w (T.node j) = none) ?_ ?_
  · obtain ⟨H, hq⟩ := key s hs
    have hw' : T'.WF := by
      subst hT
      refine ⟨H.wf.head, H.wf.args, H.wf.arity, ?_⟩
      intro a ha
      simp only [List.mem_map] at ha
      obtain ⟨b, hb, rfl⟩ := ha
      exact H.lt b (by rw [res_nOp]; exact hw.dep b hb)
    have hp' : T'.Plain := by subst hT; exact H.plain
    have hn' : T'.nInd = T.nInd := by subst hT; exact H.nInd
    have hx' : x.length = T'.nInd := by rw [hn', hx]
    have s1 := run_sol (P := P) hp hw hx
    have s2 := run_sol (P := P) hp' hw' hx'
    obtain ⟨c1, o1⟩ := run_cf_out hp hw hx s1
    obtain ⟨c2, o2⟩ := run_cf_out hp' hw' hx' s2
    have hnodes : T'.nodes = s.new.nodes := by subst hT; rfl
    have hqT : ∀ nd ∈ T.nodes, (∀ w, ¬ FalseAt w nd) ∧ ∀ n w, printAt n w nd = none := by
      intro nd hnd
      rw [nodes_eq_range] at hnd
      simp only [List.mem_map, List.mem_range] at hnd
      obtain ⟨j, hj, rfl⟩ := hnd
      exact hq j hj
    refine ⟨hn', ?_, ?_, ?_, ?_, ?_⟩
    · rw [eval_eq hp' hw' hx' s2, eval_eq hp hw hx s1]
      have hd : T'.dep = T.dep.map s.idx := by subst hT; rfl
      rw [hd, List.map_map]
      apply List.map_congr_left
      intro b hb
      refine H.val x _ _ s1 ?_ b (by rw [res_nOp]; exact hw.dep b hb)
      subst hT; exact s2
    · rw [c2, hnodes, List.countP_eq_zero]
      intro nd hnd
      simpa using (H.one nd hnd 0 _).1
    · rw [c1, List.countP_eq_zero]
      intro nd hnd
      simpa using (hqT nd hnd).1 _
    · rw [o2, hnodes, List.filterMap_eq_nil_iff]
      intro nd hnd
      exact (H.one nd hnd _ _).2
    · rw [o1, List.filterMap_eq_nil_iff]
      intro nd hnd
      exact (hqT nd hnd).2 _ _
  · intro s hs
    injection hs with hs
    subst hs
    refine ⟨⟨rfl, rfl, setInd_wf _ _ _, setInd_plain _ _ _, ?_, ?_, ?_, ?_, ?_⟩, ?_⟩
    · intro nd hnd x w
      simp only [setInd, List.mem_singleton] at hnd
      subst hnd; simp [FalseAt, printAt]
    · intro a ha
      simp only [setInd_nVal]; omega
    · intro a ha
      simp only [decide_eq_false_iff_not]; omega
    · intro x v hv a ha
      have : a = T.nInd := by simpa using ha
      subst this
      rw [sol_nan hw hv, sol_nan hw (nanVal_sol P hw hp)]
    · intro x v w h1 h3 a ha
      by_cases hai : a < T.nInd
      · simp only []
        rw [h1.1 a hai]; exact h3.1 a hai
      · have hae : a = T.nInd := by omega
        subst hae
        rw [sol_nan hw h1]
        exact sol_nan (T := setInd T.nInd true true) (setInd_wf _ _ _) h3
    · intro j hj
      have : j = 0 := by omega
      subst this
      rw [hn0]; simp [FalseAt, printAt]
  · intro i o hi1 hi H s' hs'
    simp only [Option.bind_eq_some_iff] at hs'
    obtain ⟨t, ht, hs'⟩ := hs'
    obtain ⟨H1, H2⟩ := H t ht
    obtain ⟨K1, K2, K3⟩ := foldStep_ok hw hp hP hi H1 hs'
    refine ⟨K1, fun j hj => ?_⟩
    rcases Nat.lt_succ_iff_lt_or_eq.mp hj with h | h
    · exact H2 j h
    · subst h; exact ⟨K2, K3⟩

end CppAD.ValGraph
