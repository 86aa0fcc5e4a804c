import Verif.SetVec.SvecThm

/-! # Legal histories in which `svec_setvec` loses an element -/

namespace CppAD.SetVec.SV

/-- Eleven elements are posted to set 0, so that its posts are moved to a
larger block; 3 and 4 are posted to set 1; nine more elements are posted to
set 0, the last one being 1. -/
def growth : List Cmd :=
  [.resize 0 2 30] ++ (List.range 11).map (fun x => Cmd.post 0 0 x) ++ [.post 0 1 3, .post 0 1 4] ++
  (List.range 7).map (fun x => Cmd.post 0 0 (x + 20)) ++ [.post 0 0 1]

theorem growth_state :
    (impl.runAll (fun _ => fresh) growth 0).start 1 = 0 ∧
    (impl.runAll (fun _ => fresh) growth 0).post 1 = 33 ∧
    (impl.runAll (fun _ => fresh) growth 0).val 33 = 1 ∧
    (impl.runAll (fun _ => fresh) growth 0).val 34 = 10 ∧
    (impl.runAll (fun _ => fresh) growth 0).val 35 = 3 ∧
    (impl.runAll (fun _ => fresh) growth 0).last = 30 ∧
    (impl.runAll (fun _ => fresh) growth 0).size = 45 ∧
    (impl.runAll (fun _ => fresh) growth 0).notUsed = 13 ∧
    (impl.runAll (fun _ => fresh) growth 0).nSet = 2 := by
  decide +kernel

theorem not_agrees {s : SV} {a : Abs} {i x y : ℕ} (h1 : i < a.nSet) (h2 : x < a.last) (h3 : a.posts i = ∅)
    (h4 : x ∈ a.sets i) (h5 : impl.isElement s i x = true ↔ y = x) (h6 : y ≠ x) : ¬ impl.Agrees s a :=
  fun h => h6 (h5.mp ((h.isElement i h1 h3 x h2).mpr h4))

theorem run_process (w : ℕ → SV) (o i : ℕ) : impl.run w (.process o i) o = (w o).process i :=
  Function.update_self _ _ _

theorem run_add (w : ℕ → SV) (o i x : ℕ) : impl.run w (.add o i x) o = (w o).add i x :=
  Function.update_self _ _ _

theorem run_clear (w : ℕ → SV) (o i : ℕ) : impl.run w (.clear o i) o = (w o).clear i :=
  Function.update_self _ _ _

theorem postMerge_one (s : SV) (c : ℕ) {v e : ℕ} (hv : v < e) :
    postMerge e ⟨e, c, [v], s⟩ = ⟨e, c, [], s.push v⟩ := by
  unfold postMerge
  rw [whileLoop_true (by simp)]
  dsimp only [List.headD_cons]
  rw [if_neg (show ¬ (e = v) by omega), if_neg (show ¬ (e < v) by omega), whileLoop_false (by simp [skipEqual])]
  simp [skipEqual]

/-- `process_post` of an empty set for which one element is recorded as posted -/
theorem process_one {s : SV} {i p v cap : ℕ} (h1 : s.start i = 0) (h2 : s.post i = p) (hp : p ≠ 0)
    (h3 : s.val p = 1) (h4 : s.val (p + 1) = cap) (h5 : s.val (p + 2) = v) (hv : v < s.last) (h0 : 0 < s.size)
    (hq : s.notUsed + (cap + 2) < (s.size + 4) / 2 + 100) (x : ℕ) :
    (s.process i).isElement i x = true ↔ v = x := by
  have hd : s.drop i = (0, s) := by
    unfold SV.drop refCount
    simp [h1]
  have hposts : ((List.range 1).map fun j => s.val (p + 2 + j)).insertionSort (· ≤ ·) = [v] := by
    simp [List.range_succ, h5]
  have key : s.process i = { s with
      notUsed := s.notUsed + (0 + (cap + 2)),
      size := s.size + 4,
      start := Function.update s.start i s.size,
      post := Function.update s.post i 0,
      val := Function.update (Function.update (Function.update (Function.update s.val s.size 1) (s.size + 2) v)
        (s.size + 3) s.last) (s.size + 1) 1 } := by
    unfold process
    dsimp only
    rw [h2, if_neg hp, h3, hposts, h1, if_pos rfl, hd, h4]
    rw [if_neg (by simp)]
    dsimp only
    rw [if_pos rfl]
    have hlast : (((s.extend 2).setStart i s.size).setVal s.size 1).last = s.last := rfl
    rw [hlast, postMerge_one _ _ hv]
    unfold lost collect
    rw [if_pos (by simpa [setPost, push, extend, setVal, setStart] using hq)]
    simp [setPost, push, extend, setVal, setStart, show s.size + 2 + 1 + 1 - (s.size + 3) = 1 by omega]
  rw [key]
  unfold isElement
  simp only [Function.update_self]
  rw [if_neg (by omega)]
  simp [Function.update, List.range_succ]

/-- after the posts above, `process_post(1)` -/
theorem growth_process (x : ℕ) :
    impl.isElement (impl.runAll (fun _ => fresh) (growth ++ [.process 0 1]) 0) 1 x = true ↔ 3 = x := by
  obtain ⟨g1, g2, g3, g4, g5, g6, g7, g8, g9⟩ := growth_state
  unfold Impl.runAll at *
  rw [List.foldl_append]
  revert g1 g2 g3 g4 g5 g6 g7 g8 g9
  generalize List.foldl impl.run (fun _ => fresh) growth = w
  intro g1 g2 g3 g4 g5 g6 g7 g8 g9
  rw [List.foldl_cons, List.foldl_nil, run_process]
  exact process_one g1 g2 (by simp) g3 g4 g5 (by rw [g6]; simp) (by rw [g7]; simp) (by rw [g7, g8]; simp) x

/-- **A defect.**  When more than ten elements are posted to a set the posts
are moved to a block that is two cells too small, and later posts overwrite
the posts of another set: in this legal history the elements 3 and 4 are
posted to set 1 and processed, and afterwards 4 is not in set 1. -/
theorem svec_setvec_wrong_growth :
    ∃ cs, Legal (fun _ => Abs.fresh) cs ∧ 4 ∈ (SetVec.runAll (fun _ => Abs.fresh) cs 0).sets 1 ∧
      ¬ impl.Agrees (impl.runAll (fun _ => fresh) cs 0) (SetVec.runAll (fun _ => Abs.fresh) cs 0) := by
  have hr : (SetVec.runAll (fun _ => Abs.fresh) (growth ++ [.process 0 1]) 0).nSet = 2 ∧
      (SetVec.runAll (fun _ => Abs.fresh) (growth ++ [.process 0 1]) 0).last = 30 ∧
      (SetVec.runAll (fun _ => Abs.fresh) (growth ++ [.process 0 1]) 0).posts 1 = ∅ ∧
      4 ∈ (SetVec.runAll (fun _ => Abs.fresh) (growth ++ [.process 0 1]) 0).sets 1 := by
    simp [SetVec.runAll, growth, Cmd.run, Abs.fresh, Abs.put, List.range_succ]
  have hl : Legal (fun _ => Abs.fresh) (growth ++ [.process 0 1]) := by
    simp [growth, Legal, Cmd.Pre, Cmd.run, Abs.fresh, Abs.put, List.range_succ]
  have hw := growth_process 4
  revert hr hl hw
  generalize growth ++ [Cmd.process 0 1] = cs
  intro hr hl hw
  exact ⟨cs, hl, hr.2.2.2, not_agrees (by rw [hr.1]; simp) (by rw [hr.2.1]; simp) hr.2.2.1 hr.2.2.2 hw (by simp)⟩

/-! ## compaction -/

/-- after this the posts of set 1 are at address 1, and nothing else is stored -/
structure Idle (k : ℕ) (s : SV) : Prop where
  nSet : s.nSet = 2
  last : s.last = 9
  start : ∀ i, s.start i = 0
  post0 : s.post 0 = 0
  post1 : s.post 1 = 1
  size : s.size = 13 + 4 * k
  notUsed : s.notUsed = 1 + 4 * k

/-- an element is added to set 0 and set 0 is cleared -/
theorem Idle.addClear {k : ℕ} {s : SV} (h : Idle k s) :
    ((s.add 0 3).clear 0) = SV.collect { s with
      start := Function.update (Function.update s.start 0 s.size) 0 0
      size := s.size + 4
      notUsed := s.notUsed + 4
      val := Function.update (Function.update (Function.update (Function.update (Function.update s.val s.size 1)
        (s.size + 1) 1) (s.size + 2) 3) (s.size + 3) 9) s.size 0 } := by
  have hs := h.size
  have ha : s.add 0 3 = { s with
      start := Function.update s.start 0 s.size
      size := s.size + 4
      val := (Function.update (Function.update (Function.update (Function.update s.val s.size 1)
        (s.size + 1) 1) (s.size + 2) 3) (s.size + 3) 9) } := by
    unfold add isElement
    simp [h.start, setVal, setStart, extend, h.last]
  rw [ha]
  unfold clear SV.drop refCount
  have hne : s.size ≠ 0 := by omega
  simp [Function.update_self, hne, setVal, setStart, h.post0, lost]

theorem Idle.step {k : ℕ} {s : SV} (h : Idle k s) (hk : k + 1 < 53) : Idle (k + 1) ((s.add 0 3).clear 0) := by
  rw [h.addClear, collect_quiet]
  · refine ⟨h.nSet, h.last, fun i => ?_, h.post0, h.post1, ?_, ?_⟩
    · show Function.update (Function.update s.start 0 s.size) 0 0 i = 0
      by_cases hi : i = 0
      · subst hi; simp
      · simp [hi, h.start]
    · show s.size + 4 = _; rw [h.size]; ring
    · show s.notUsed + 4 = _; rw [h.notUsed]; ring
  · show s.notUsed + 4 < (s.size + 4) / 2 + 100
    rw [h.size, h.notUsed]; omega

/-- the data is compacted: the posts of set 1 are still thought to be at address 1, which is now free -/
theorem Idle.compact {s : SV} (h : Idle 52 s) :
    ((s.add 0 3).clear 0).nSet = 2 ∧ ((s.add 0 3).clear 0).last = 9 ∧ (∀ i < 2, ((s.add 0 3).clear 0).start i = 0) ∧
    ((s.add 0 3).clear 0).post 1 = 1 ∧ ((s.add 0 3).clear 0).size = 1 ∧ ((s.add 0 3).clear 0).notUsed = 1 := by
  rw [h.addClear]
  unfold SV.collect
  have hq : ¬ (s.notUsed + 4 < (s.size + 4) / 2 + 100) := by rw [h.size, h.notUsed]; omega
  dsimp only
  rw [if_neg hq, h.nSet]
  simp only [forRange, List.range', List.foldl, gcBody]
  simp [h.start, h.last, h.post1]
  intro i hi
  have : i = 0 ∨ i = 1 := by omega
  rcases this with rfl | rfl <;> simp [Function.update]

/-- one element is posted to set 1; 53 times an element is added to set 0 and
the set cleared; an element is added to set 0 -/
def compaction : List Cmd :=
  [.resize 0 2 9, .post 0 1 5] ++ (List.replicate 53 [Cmd.add 0 0 3, .clear 0 0]).flatten ++ [.add 0 0 3]

theorem idle_start : Idle 0 (((fresh.resize 2 9)).postElement 1 5) := by
  unfold resize postElement
  simp [fresh, forRange, List.range', setPost, setStart, setVal, extend, collect]
  constructor <;> simp [Function.update]

theorem run_cycles (m : ℕ) : ∀ (w : ℕ → SV) (k : ℕ), Idle k (w 0) → k + m < 53 →
    Idle (k + m) (((List.replicate m [Cmd.add 0 0 3, .clear 0 0]).flatten).foldl impl.run w 0) := by
  induction m with
  | zero => intro w k h _; exact h
  | succ m ih =>
    intro w k h hk
    rw [List.replicate_succ, List.flatten_cons, List.foldl_append]
    have h1 : (List.foldl impl.run w [Cmd.add 0 0 3, .clear 0 0]) 0 = ((w 0).add 0 3).clear 0 := by
      rw [List.foldl_cons, List.foldl_cons, List.foldl_nil, run_clear, run_add]
    have := ih (List.foldl impl.run w [Cmd.add 0 0 3, .clear 0 0]) (k + 1) (by rw [h1]; exact h.step (by omega)) (by omega)
    rw [show k + (m + 1) = k + 1 + m by omega]
    exact this

theorem compaction_process (x : ℕ) :
    impl.isElement (impl.runAll (fun _ => fresh) (compaction ++ [.process 0 1]) 0) 1 x = true ↔ 3 = x := by
  have h52 := run_cycles 52 (List.foldl impl.run (fun _ => fresh) [.resize 0 2 9, .post 0 1 5]) 0 idle_start (by omega)
  have hc := h52.compact
  have hsplit : compaction ++ [Cmd.process 0 1] = [.resize 0 2 9, .post 0 1 5] ++
      (List.replicate 52 [Cmd.add 0 0 3, .clear 0 0]).flatten ++ [.add 0 0 3, .clear 0 0] ++ [.add 0 0 3, .process 0 1] := by
    unfold compaction
    rw [show 53 = 52 + 1 from rfl, List.replicate_succ', List.flatten_append]
    simp
  unfold Impl.runAll
  rw [hsplit, List.foldl_append, List.foldl_append, List.foldl_append]
  revert hc
  rw [Nat.zero_add] at h52
  generalize List.foldl impl.run (List.foldl impl.run (fun _ => fresh) [.resize 0 2 9, .post 0 1 5])
    (List.replicate 52 [Cmd.add 0 0 3, .clear 0 0]).flatten = w
  rintro ⟨c1, c2, c3, c4, c5, c6⟩
  simp only [List.foldl_cons, List.foldl_nil]
  rw [run_process, run_add, run_clear, run_add]
  revert c1 c2 c3 c4 c5 c6
  generalize ((w 0).add 0 3).clear 0 = s
  intro c1 c2 c3 c4 c5 c6
  have ha : s.add 0 3 = { s with
      start := Function.update s.start 0 1
      size := 5
      val := (Function.update (Function.update (Function.update (Function.update s.val 1 1) 2 1) 3 3) 4 9) } := by
    unfold add isElement
    simp [c3, setVal, setStart, extend, c2, c5]
  rw [ha]
  exact process_one (p := 1) (v := 3) (cap := 1) (by simp [c3]) (by simpa using c4) (by simp) (by simp [Function.update])
    (by simp [Function.update]) (by simp [Function.update]) (by simp [c2]) (by simp) (by simp [c6]) x

theorem abs_cycles (m : ℕ) : ∀ a : ℕ → Abs, (a 0).nSet = 2 → (a 0).last = 9 → (a 0).posts 1 = {5} →
    Legal a ((List.replicate m [Cmd.add 0 0 3, .clear 0 0]).flatten ++ [.add 0 0 3] ++ [.process 0 1]) ∧
    (SetVec.runAll a ((List.replicate m [Cmd.add 0 0 3, .clear 0 0]).flatten ++ [.add 0 0 3] ++ [.process 0 1]) 0).nSet = 2 ∧
    (SetVec.runAll a ((List.replicate m [Cmd.add 0 0 3, .clear 0 0]).flatten ++ [.add 0 0 3] ++ [.process 0 1]) 0).last = 9 ∧
    (SetVec.runAll a ((List.replicate m [Cmd.add 0 0 3, .clear 0 0]).flatten ++ [.add 0 0 3] ++ [.process 0 1]) 0).posts 1 = ∅ ∧
    5 ∈ (SetVec.runAll a ((List.replicate m [Cmd.add 0 0 3, .clear 0 0]).flatten ++ [.add 0 0 3] ++ [.process 0 1]) 0).sets 1 := by
  induction m with
  | zero =>
    intro a h1 h2 h3
    simp [Legal, Cmd.Pre, Cmd.run, SetVec.runAll, Abs.put, h1, h2, h3]
  | succ m ih =>
    intro a h1 h2 h3
    obtain ⟨i1, i2⟩ := ih (Cmd.run (Cmd.run a (.add 0 0 3)) (.clear 0 0)) (by simp [Cmd.run, Abs.put, h1])
      (by simp [Cmd.run, Abs.put, h2]) (by simp [Cmd.run, Abs.put, h3])
    rw [List.replicate_succ, List.flatten_cons, List.append_assoc, List.append_assoc, ← List.append_assoc _ [Cmd.add 0 0 3]]
    refine ⟨⟨by simp [Cmd.Pre, h1, h2], by simp [Cmd.Pre, Cmd.run, h1], i1⟩, ?_⟩
    have : ∀ l, SetVec.runAll a ([Cmd.add 0 0 3, .clear 0 0] ++ l) =
        SetVec.runAll (Cmd.run (Cmd.run a (.add 0 0 3)) (.clear 0 0)) l := fun l => by
      unfold SetVec.runAll; rw [List.foldl_append]; rfl
    rw [this]
    exact i2

/-- **A defect.**  The compaction of the data does not move what is posted: in
this legal history 5 is posted to set 1 and processed, set 0 is only changed by
`add_element` and `clear`, and afterwards 5 is not in set 1. -/
theorem svec_setvec_wrong_compaction :
    ∃ cs, Legal (fun _ => Abs.fresh) cs ∧ 5 ∈ (SetVec.runAll (fun _ => Abs.fresh) cs 0).sets 1 ∧
      ¬ impl.Agrees (impl.runAll (fun _ => fresh) cs 0) (SetVec.runAll (fun _ => Abs.fresh) cs 0) := by
  obtain ⟨h1, h2, h3, h4, h5⟩ := abs_cycles 53
    (Cmd.run (Cmd.run (fun _ => Abs.fresh) (.resize 0 2 9)) (.post 0 1 5)) (by simp [Cmd.run]) (by simp [Cmd.run]) (by simp [Cmd.run])
  have hrun : SetVec.runAll (fun _ => Abs.fresh) (compaction ++ [.process 0 1]) =
      SetVec.runAll (Cmd.run (Cmd.run (fun _ => Abs.fresh) (.resize 0 2 9)) (.post 0 1 5))
        ((List.replicate 53 [Cmd.add 0 0 3, .clear 0 0]).flatten ++ [.add 0 0 3] ++ [.process 0 1]) := by
    unfold SetVec.runAll compaction
    rw [List.append_assoc, List.append_assoc, List.foldl_append, ← List.append_assoc]; rfl
  rw [← hrun] at h2 h3 h4 h5
  have hl : Legal (fun _ => Abs.fresh) (compaction ++ [.process 0 1]) := by
    have e : compaction ++ [.process 0 1] = .resize 0 2 9 :: .post 0 1 5 ::
        ((List.replicate 53 [Cmd.add 0 0 3, .clear 0 0]).flatten ++ [.add 0 0 3] ++ [.process 0 1]) := by
      unfold compaction; rw [List.append_assoc, List.append_assoc, ← List.append_assoc _ [Cmd.add 0 0 3]]; rfl
    rw [e]
    exact ⟨by simp [Cmd.Pre], by simp [Cmd.Pre, Cmd.run], h1⟩
  have hw := compaction_process 5
  revert h2 h3 h4 h5 hl hw
  generalize compaction ++ [Cmd.process 0 1] = cs
  intro h2 h3 h4 h5 hl hw
  exact ⟨cs, hl, h5, not_agrees (by rw [h2]; simp) (by rw [h3]; simp) h4 h5 hw (by simp)⟩

end CppAD.SetVec.SV
