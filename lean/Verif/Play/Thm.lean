import Verif.Play.Model

/-!
# Playing back an operation sequence gives what was recorded
-/

namespace CppAD.Play

/-! ## specification -/

/-- *Specification*: the arguments of an operation as they are documented, op_code_var.hpp:20-190, var_op/csum_op.hpp:40-120,
var_op/cskip_op.hpp:20-110 -/
def Instr.args : Instr → List ℕ
  | .nul _ => []
  | .un _ x => [x]
  | .bin _ x y => [x, y]
  | .tri _ x y z => [x, y, z]
  | .afun a b c d => [a, b, c, d]
  | .pri a b c d e => [a, b, c, d, e]
  | .cexp a b c d e f => [a, b, c, d, e, f]
  | .csum c av sv ad sd =>
    [c, 5 + av.length, 5 + av.length + sv.length, 5 + av.length + sv.length + ad.length,
      5 + av.length + sv.length + ad.length + sd.length] ++ (av ++ sv ++ ad ++ sd) ++
      [6 + av.length + sv.length + ad.length + sd.length]
  | .cskip cop flag l r sT sF => [cop, flag, l, r, sT.length, sF.length] ++ (sT ++ sF) ++ [7 + sT.length + sF.length]

/-- *Specification*: number of variables that are results of the first `k` operations -/
def nvar (l : List Instr) (k : ℕ) : ℕ := ((l.take k).map fun i => numRes i.code).sum

/-- *Specification*: the operation sequence of a function object starts with BeginOp and ends with EndOp -/
structure Valid (l : List Instr) : Prop where
  begin_ : ∃ x, l[0]? = some (.un .begin_ x)
  end_ : l[l.length - 1]? = some (.nul .end_)

/-! ## recording -/

/-- the arguments before those of CSkipOp are set -/
def Instr.jargs (junk : ℕ → ℕ) : Instr → List ℕ
  | .cskip _ _ _ _ sT sF => (List.range (7 + sT.length + sF.length)).map junk
  | i => i.args

theorem jargs_length (junk : ℕ → ℕ) (i : Instr) : (i.jargs junk).length = i.args.length := by
  cases i <;> simp [Instr.jargs, Instr.args] <;> omega

theorem foldl_putArg (a : List ℕ) (r : Rec) : a.foldl (fun r v => r.putArg [v]) r = r.putArg a := by
  induction a generalizing r with
  | nil => simp [Rec.putArg]
  | cons v vs ih => rw [List.foldl_cons, ih]; simp [Rec.putArg]

theorem put_ok (r : Rec) (junk : ℕ → ℕ) (i : Instr) :
    (r.put junk i).1 = ⟨r.ops ++ [i.code], r.args ++ i.jargs junk, r.numVar + numRes i.code⟩ ∧
    (r.put junk i).2.1 = r.numVar + numRes i.code - 1 ∧
    ((∃ a b c d sT sF, i = .cskip a b c d sT sF) → (r.put junk i).2.2 = r.args.length) := by
  cases i with
  | csum c av sv ad sd =>
    refine ⟨?_, ?_, fun h => ?_⟩
    · simp only [Rec.put, foldl_putArg]
      simp only [Rec.putArg, Rec.putOp, Instr.code, Instr.jargs, Instr.args, Rec.mk.injEq, true_and, and_true]
      simp only [List.append_assoc, List.cons_append, List.nil_append]
      rw [show av.length + 5 = 5 + av.length by omega, show 5 + av.length + sv.length + ad.length + sd.length + 1
        = 6 + av.length + sv.length + ad.length + sd.length by omega]
    · simp only [Rec.put, foldl_putArg]; rfl
    · obtain ⟨_, _, _, _, _, _, h⟩ := h; cases h
  | cskip a b c d sT sF => refine ⟨rfl, rfl, fun _ => rfl⟩
  | _ =>
    refine ⟨?_, rfl, fun h => ?_⟩
    · simp [Rec.put, Rec.putOp, Rec.putArg, Instr.code, Instr.jargs, Instr.args]
    · obtain ⟨_, _, _, _, _, _, h⟩ := h; cases h

theorem putAll_ok (junk : ℕ → ℕ) (l : List Instr) (r : Rec) :
    (putAll junk l r).1 = ⟨r.ops ++ l.map Instr.code, r.args ++ l.flatMap (Instr.jargs junk),
      r.numVar + (l.map fun i => numRes i.code).sum⟩ := by
  induction l generalizing r with
  | nil => simp [putAll]
  | cons i is ih =>
    simp only [putAll]
    rw [ih, (put_ok r junk i).1]
    simp [Nat.add_assoc]

theorem putAll_length (junk : ℕ → ℕ) (l : List Instr) (r : Rec) : (putAll junk l r).2.length = l.length := by
  induction l generalizing r with
  | nil => rfl
  | cons i is ih => simp [putAll, ih]

theorem replaceAll_ok (ops : List Code) (nv : ℕ) (pre old new post : List ℕ) (h : old.length = new.length) :
    (Rec.mk ops (pre ++ (old ++ post)) nv).replaceAll pre.length new = ⟨ops, pre ++ (new ++ post), nv⟩ := by
  induction new generalizing pre old with
  | nil =>
    have : old = [] := List.length_eq_zero_iff.1 h
    subst this; rfl
  | cons v vs ih =>
    cases old with
    | nil => simp at h
    | cons o os =>
      simp only [Rec.replaceAll, Rec.replace]
      have e : (pre ++ (o :: os ++ post)).set pre.length v = (pre ++ [v]) ++ (os ++ post) := by
        rw [List.set_append_right _ _ (le_refl _)]
        simp
      rw [e, show pre.length + 1 = (pre ++ [v]).length by simp, ih (pre ++ [v]) os (by simpa using h)]
      simp

theorem fix_ok (junk : ℕ → ℕ) (ops : List Code) (nv : ℕ) (pre post : List ℕ) (i : Instr) (p : ℕ)
    (hp : (∃ a b c d sT sF, i = .cskip a b c d sT sF) → p = pre.length) :
    (Rec.mk ops (pre ++ (i.jargs junk ++ post)) nv).fix p i = ⟨ops, pre ++ (i.args ++ post), nv⟩ := by
  cases i with
  | cskip a b c d sT sF =>
    rw [hp ⟨_, _, _, _, _, _, rfl⟩]
    simp only [Rec.fix]
    rw [replaceAll_ok]
    · simp [Instr.args]
    · simp [Instr.jargs]; omega
  | _ => rfl

theorem fixAll_ok (junk : ℕ → ℕ) (l : List Instr) (r' : Rec) (ops : List Code) (nv : ℕ) (pre : List ℕ) (h : r'.args.length = pre.length) :
    fixAll ⟨ops, pre ++ l.flatMap (Instr.jargs junk), nv⟩ (l.zip ((putAll junk l r').2.map Prod.snd)) =
      ⟨ops, pre ++ l.flatMap Instr.args, nv⟩ := by
  induction l generalizing r' pre with
  | nil => rfl
  | cons i is ih =>
    simp only [putAll, List.map_cons, List.zip_cons_cons, fixAll, List.foldl_cons, List.flatMap_cons]
    rw [fix_ok junk ops nv pre _ i _ (fun hc => by rw [(put_ok r' junk i).2.2 hc, h])]
    have := ih (r'.put junk i).1 (pre ++ i.args) (by rw [(put_ok r' junk i).1]; simp [jargs_length, h])
    unfold fixAll at this
    rw [List.append_assoc] at this
    rw [this]
    simp

/-- **C46** The vectors of a recording are the codes, and the documented arguments one after the other, of the operations. -/
theorem record_ok (junk : ℕ → ℕ) (l : List Instr) :
    record junk l = ⟨l.map Instr.code, l.flatMap Instr.args, (l.map fun i => numRes i.code).sum⟩ := by
  unfold record
  dsimp only
  rw [putAll_ok]
  have := fixAll_ok junk l ⟨[], [], 0⟩ (l.map Instr.code) (l.map fun i => numRes i.code).sum [] rfl
  simpa using this

/-- **C46** The variable index that the user's AD object gets is the index of the last result of the operation. -/
theorem record_taddr (junk : ℕ → ℕ) (l : List Instr) (k : ℕ) (hk : k < l.length) :
    ((putAll junk l ⟨[], [], 0⟩).2.getD k (0, 0)).1 = nvar l (k + 1) - 1 := by
  suffices h : ∀ (l : List Instr) (r : Rec) (k : ℕ), k < l.length →
      ((putAll junk l r).2.getD k (0, 0)).1 = r.numVar + nvar l (k + 1) - 1 by
    have := h l ⟨[], [], 0⟩ k hk
    simpa using this
  intro l
  induction l with
  | nil => intro r k hk; simp at hk
  | cons i is ih =>
    intro r k hk
    cases k with
    | zero => simp [putAll, (put_ok r junk i).2.1, nvar]
    | succ k =>
      have := ih (r.put junk i).1 k (by simpa using hk)
      simp only [putAll, List.getD_cons_succ]
      rw [this, (put_ok r junk i).1]
      simp [nvar, Nat.add_assoc]

/-! ## positions -/

/-- position of the arguments of operation `k` -/
def off (l : List Instr) (k : ℕ) : ℕ := ((l.take k).flatMap Instr.args).length

theorem take_succ_of {l : List Instr} {k : ℕ} {i : Instr} (h : l[k]? = some i) : l.take (k + 1) = l.take k ++ [i] := by
  rw [List.take_add_one, h]; rfl

theorem off_succ {l : List Instr} {k : ℕ} {i : Instr} (h : l[k]? = some i) : off l (k + 1) = off l k + i.args.length := by
  unfold off
  rw [take_succ_of h]
  simp

theorem nvar_succ {l : List Instr} {k : ℕ} {i : Instr} (h : l[k]? = some i) : nvar l (k + 1) = nvar l k + numRes i.code := by
  unfold nvar
  rw [take_succ_of h]
  simp

theorem split_at {l : List Instr} {k : ℕ} {i : Instr} (h : l[k]? = some i) : l = l.take k ++ i :: l.drop (k + 1) := by
  obtain ⟨hk, e⟩ := List.getElem?_eq_some_iff.1 h
  conv_lhs => rw [← List.take_append_drop k l]
  rw [List.drop_eq_getElem_cons hk, e]

theorem args_drop {l : List Instr} {k : ℕ} {i : Instr} (h : l[k]? = some i) :
    (l.flatMap Instr.args).drop (off l k) = i.args ++ (l.drop (k + 1)).flatMap Instr.args := by
  conv_lhs => rw [split_at h]
  rw [List.flatMap_append, List.flatMap_cons, off, List.drop_left']
  rw [take_append_eq h]
where
  take_append_eq {l : List Instr} {k : ℕ} {i : Instr} (h : l[k]? = some i) :
      ((l.take k ++ i :: l.drop (k + 1)).take k).flatMap Instr.args = (l.take k).flatMap Instr.args := by
    rw [← split_at h]

theorem at_args {l : List Instr} {k : ℕ} {i : Instr} (h : l[k]? = some i) {r : Rec} (hr : r.args = l.flatMap Instr.args) (j : ℕ)
    (hj : j < i.args.length) : r.at (off l k + j) = i.args.getD j 0 := by
  have e := args_drop h
  unfold Rec.at
  rw [hr, List.getD_eq_getElem?_getD, List.getD_eq_getElem?_getD, ← List.getElem?_drop, e, List.getElem?_append_left hj]

theorem numArg_ok (i : Instr) (h1 : i.code ≠ .csum) (h2 : i.code ≠ .cskip) : numArg i.code = i.args.length := by
  cases i with
  | nul c => cases c <;> rfl
  | un c => cases c <;> rfl
  | bin c => cases c <;> rfl
  | tri c => cases c <;> rfl
  | csum => exact absurd rfl h1
  | cskip => exact absurd rfl h2
  | _ => rfl

theorem code_csum (i : Instr) (h : i.code = .csum) : ∃ c av sv ad sd, i = .csum c av sv ad sd := by
  cases i with
  | nul c => cases c <;> cases h
  | un c => cases c <;> cases h
  | bin c => cases c <;> cases h
  | tri c => cases c <;> cases h
  | csum c av sv ad sd => exact ⟨_, _, _, _, _, rfl⟩
  | _ => cases h

theorem code_cskip (i : Instr) (h : i.code = .cskip) : ∃ a b c d sT sF, i = .cskip a b c d sT sF := by
  cases i with
  | nul c => cases c <;> cases h
  | un c => cases c <;> cases h
  | bin c => cases c <;> cases h
  | tri c => cases c <;> cases h
  | cskip a b c d sT sF => exact ⟨_, _, _, _, _, _, rfl⟩
  | _ => cases h

/-- the number of arguments of CSumOp and CSkipOp can be computed from the first arguments, and is the last argument -/
theorem csum_args (c : ℕ) (av sv ad sd : List ℕ) : let i : Instr := .csum c av sv ad sd
    4 < i.args.length ∧ i.args.getD 4 0 + 1 = i.args.length ∧ i.args.getD (i.args.length - 1) 0 = i.args.length := by
  intro i
  have hl : i.args.length = 6 + av.length + sv.length + ad.length + sd.length := by
    simp [i, Instr.args]; omega
  refine ⟨by omega, ?_, ?_⟩
  · rw [hl]; simp [i, Instr.args]; omega
  · have : i.args = ([c, 5 + av.length, 5 + av.length + sv.length, 5 + av.length + sv.length + ad.length,
      5 + av.length + sv.length + ad.length + sd.length] ++ (av ++ sv ++ ad ++ sd)) ++
      [6 + av.length + sv.length + ad.length + sd.length] := rfl
    rw [hl, this, List.getD_append_right _ _ _ _ (by simp; omega)]
    simp
    rw [show 6 + av.length + sv.length + ad.length + sd.length - 1 - (av.length + (sv.length + (ad.length + sd.length)) + 1 + 1 + 1 + 1 + 1) = 0 by omega]
    rfl

theorem cskip_args (a b c d : ℕ) (sT sF : List ℕ) : let i : Instr := .cskip a b c d sT sF
    5 < i.args.length ∧ 7 + i.args.getD 4 0 + i.args.getD 5 0 = i.args.length ∧ i.args.getD (i.args.length - 1) 0 = i.args.length := by
  intro i
  have hl : i.args.length = 7 + sT.length + sF.length := by
    simp [i, Instr.args]; omega
  refine ⟨by omega, ?_, ?_⟩
  · rw [hl]; simp [i, Instr.args]
  · have : i.args = ([a, b, c, d, sT.length, sF.length] ++ (sT ++ sF)) ++ [7 + sT.length + sF.length] := rfl
    rw [hl, this, List.getD_append_right _ _ _ _ (by simp; omega)]
    simp
    rw [show 7 + sT.length + sF.length - 1 - (sT.length + sF.length + 1 + 1 + 1 + 1 + 1 + 1) = 0 by omega]
    rfl

/-! ## sequential iterator -/

/-- the iterator is at operation `k` -/
structure At (l : List Instr) (k : ℕ) (i : Instr) (t : Itr) : Prop where
  get : l[k]? = some i
  cur : t.cur = k
  op : t.op = i.code
  arg : t.arg = off l k
  var : t.var + 1 = nvar l (k + 1)

theorem code_at {l : List Instr} {k : ℕ} {i : Instr} (h : l[k]? = some i) {r : Rec} (hr : r.ops = l.map Instr.code) : r.code k = i.code := by
  unfold Rec.code
  rw [hr, List.getD_eq_getElem?_getD, List.getElem?_map, h]; rfl

theorem next_ok {l : List Instr} {r : Rec} (hr : r = ⟨l.map Instr.code, l.flatMap Instr.args, (l.map fun i => numRes i.code).sum⟩)
    {k : ℕ} {i : Instr} {t : Itr} (h : At l k i t) {i' : Instr} (h' : l[k + 1]? = some i') : At l (k + 1) i' (t.next r) := by
  have hops : r.ops = l.map Instr.code := by rw [hr]
  have hargs : r.args = l.flatMap Instr.args := by rw [hr]
  obtain ⟨hg, hc, ho, ha, hv⟩ := h
  have hcode := code_at h' hops
  unfold Itr.next
  by_cases h1 : t.op = .csum
  · rw [if_pos (Or.inl h1)]
    obtain ⟨c, av, sv, ad, sd, rfl⟩ := code_csum i (ho ▸ h1)
    obtain ⟨e1, e2, e3⟩ := csum_args c av sv ad sd
    have hf : t.fixInc r = { t with arg := t.arg + (r.at (t.arg + 4) + 1) } := by unfold Itr.fixInc; rw [h1]
    rw [hf]
    refine ⟨h', ?_, ?_, ?_, ?_⟩
    · show t.cur + 1 = _; rw [hc]
    · show r.code (t.cur + 1) = _; rw [hc]; exact hcode
    · show t.arg + (r.at (t.arg + 4) + 1) + numArg t.op = _
      rw [h1, ha, at_args hg hargs 4 e1, e2, off_succ hg]; rfl
    · show t.var + numRes (r.code (t.cur + 1)) + 1 = _
      rw [hc, hcode, nvar_succ h', ← hv]; omega
  · by_cases h2 : t.op = .cskip
    · rw [if_pos (Or.inr h2)]
      obtain ⟨a, b, c, d, sT, sF, rfl⟩ := code_cskip i (ho ▸ h2)
      obtain ⟨e1, e2, e3⟩ := cskip_args a b c d sT sF
      have hf : t.fixInc r = { t with arg := t.arg + (7 + r.at (t.arg + 4) + r.at (t.arg + 5)) } := by unfold Itr.fixInc; rw [h2]
      rw [hf]
      refine ⟨h', ?_, ?_, ?_, ?_⟩
      · show t.cur + 1 = _; rw [hc]
      · show r.code (t.cur + 1) = _; rw [hc]; exact hcode
      · show t.arg + (7 + r.at (t.arg + 4) + r.at (t.arg + 5)) + numArg t.op = _
        rw [h2, ha, at_args hg hargs 4 (by omega), at_args hg hargs 5 e1, e2, off_succ hg]; rfl
      · show t.var + numRes (r.code (t.cur + 1)) + 1 = _
        rw [hc, hcode, nvar_succ h', ← hv]; omega
    · rw [if_neg (by simp [h1, h2])]
      refine ⟨h', ?_, ?_, ?_, ?_⟩
      · show t.cur + 1 = _; rw [hc]
      · show r.code (t.cur + 1) = _; rw [hc]; exact hcode
      · show t.arg + numArg t.op = _
        rw [ho, numArg_ok i (ho ▸ h1) (ho ▸ h2), ha, off_succ hg]
      · show t.var + numRes (r.code (t.cur + 1)) + 1 = _
        rw [hc, hcode, nvar_succ h', ← hv]; omega

theorem nvar_pos {l : List Instr} (hl : Valid l) (k : ℕ) : 0 < nvar l (k + 1) := by
  induction k with
  | zero =>
    obtain ⟨x, h⟩ := hl.begin_
    rw [nvar_succ h]
    have : numRes (Instr.un .begin_ x).code = 1 := rfl
    omega
  | succ k ih =>
    cases h : l[k + 1]? with
    | none =>
      have : l.length ≤ k + 1 := List.getElem?_eq_none_iff.1 h
      unfold nvar at *
      rw [List.take_of_length_le (by omega)] at *
      exact ih
    | some i => rw [nvar_succ h]; omega

theorem prev_ok {l : List Instr} (hl : Valid l) {r : Rec}
    (hr : r = ⟨l.map Instr.code, l.flatMap Instr.args, (l.map fun i => numRes i.code).sum⟩)
    {k : ℕ} {i' : Instr} {t : Itr} (h : At l (k + 1) i' t) {i : Instr} (hg : l[k]? = some i) : At l k i (t.prev r) := by
  have hops : r.ops = l.map Instr.code := by rw [hr]
  have hargs : r.args = l.flatMap Instr.args := by rw [hr]
  obtain ⟨hg', hc, ho, ha, hv⟩ := h
  have hcode := code_at hg hops
  have hcur : t.cur - 1 = k := by omega
  have hvar : t.var - numRes t.op + 1 = nvar l (k + 1) := by
    rw [nvar_succ hg', ← ho] at hv
    have := nvar_pos hl k
    omega
  have hdec : t.dec r = ⟨k, t.arg - numArg i.code, t.var - numRes t.op, i.code⟩ := by
    unfold Itr.dec
    dsimp only
    rw [hcur, hcode]
  unfold Itr.prev
  dsimp only
  rw [hdec]
  dsimp only
  have hoff := off_succ hg
  by_cases h1 : i.code = .csum
  · rw [if_pos (Or.inl h1)]
    obtain ⟨c, av, sv, ad, sd, rfl⟩ := code_csum i h1
    obtain ⟨e1, e2, e3⟩ := csum_args c av sv ad sd
    refine ⟨hg, rfl, rfl, ?_, hvar⟩
    show t.arg - 0 - r.at (t.arg - 0 - 1) = _
    rw [Nat.sub_zero, ha, hoff, Nat.add_sub_assoc (m := _) (n := off l k) (k := 1) (by omega), at_args hg hargs _ (by omega), e3]
    omega
  · by_cases h2 : i.code = .cskip
    · rw [if_pos (Or.inr h2)]
      obtain ⟨a, b, c, d, sT, sF, rfl⟩ := code_cskip i h2
      obtain ⟨e1, e2, e3⟩ := cskip_args a b c d sT sF
      refine ⟨hg, rfl, rfl, ?_, hvar⟩
      show t.arg - 0 - r.at (t.arg - 0 - 1) = _
      rw [Nat.sub_zero, ha, hoff, Nat.add_sub_assoc (m := _) (n := off l k) (k := 1) (by omega), at_args hg hargs _ (by omega), e3]
      omega
    · rw [if_neg (by simp [h1, h2])]
      refine ⟨hg, rfl, rfl, ?_, hvar⟩
      show t.arg - numArg i.code = _
      rw [numArg_ok i h1 h2, ha, hoff]; omega

/-- Histories of an iterator on a recording: it starts at the first or the last operator and goes to the next or the previous. -/
inductive Walk (r : Rec) : Itr → ℕ → Prop
  | first : Walk r (.first r) 0
  | last : Walk r (.last r) (r.ops.length - 1)
  | next {t k} : Walk r t k → k + 1 < r.ops.length → Walk r (t.next r) (k + 1)
  | prev {t k} : Walk r t (k + 1) → Walk r (t.prev r) k

theorem walk_at {junk : ℕ → ℕ} {l : List Instr} (hl : Valid l) {t : Itr} {k : ℕ} (h : Walk (record junk l) t k) :
    ∃ i, At l k i t := by
  have hr := record_ok junk l
  have hops : (record junk l).ops = l.map Instr.code := by rw [hr]
  induction h with
  | first =>
    obtain ⟨x, h⟩ := hl.begin_
    exact ⟨_, h, rfl, code_at h hops, rfl, by rw [nvar_succ h]; rfl⟩
  | last =>
    have h := hl.end_
    have hlen : (record junk l).ops.length = l.length := by rw [hops]; simp
    have hpos : 0 < l.length := by
      obtain ⟨x, h⟩ := hl.begin_
      obtain ⟨h, _⟩ := List.getElem?_eq_some_iff.1 h
      exact h
    refine ⟨.nul .end_, by rw [hlen]; exact h, rfl, by show (record junk l).code _ = _; rw [hlen]; exact code_at h hops, ?_, ?_⟩
    · show (record junk l).args.length = _
      rw [hlen, hr]
      have := off_succ h
      rw [show l.length - 1 + 1 = l.length by omega] at this
      rw [show (Instr.nul .end_).args.length = 0 from rfl, Nat.add_zero] at this
      rw [← this]
      unfold off
      rw [List.take_length]
    · show (record junk l).numVar - 1 + 1 = _
      have hp := nvar_pos hl (l.length - 1)
      rw [show l.length - 1 + 1 = l.length by omega] at hp
      rw [hlen, show l.length - 1 + 1 = l.length by omega]
      have : (record junk l).numVar = nvar l l.length := by
        rw [hr]; unfold nvar; rw [List.take_length]
      omega
  | next _ hk ih =>
    obtain ⟨i, ih⟩ := ih
    rw [hops, List.length_map] at hk
    exact ⟨_, next_ok hr ih (List.getElem?_eq_getElem hk)⟩
  | @prev t k _ ih =>
    obtain ⟨i, ih⟩ := ih
    have hk : k < l.length := by
      have := (List.getElem?_eq_some_iff.1 ih.get).1
      omega
    exact ⟨_, prev_ok hl hr ih (List.getElem?_eq_getElem hk)⟩

/-- **C46** For every recording and every history of a sequential iterator: when it is at operation `k`, `op_info` gives the code of
the recorded operation, a pointer to its arguments (the vector of all arguments, from there, starts with them) and the index of its last
result. -/
theorem sequential_ok (junk : ℕ → ℕ) {l : List Instr} (hl : Valid l) {t : Itr} {k : ℕ} (h : Walk (record junk l) t k) :
    ∃ i, l[k]? = some i ∧ t.cur = k ∧ t.op = i.code ∧ i.args <+: (record junk l).args.drop t.arg ∧ t.var = nvar l (k + 1) - 1 := by
  obtain ⟨i, h1, h2, h3, h4, h5⟩ := walk_at hl h
  refine ⟨i, h1, h2, h3, ?_, by omega⟩
  rw [h4, record_ok]
  dsimp only
  rw [args_drop h1]
  exact List.prefix_append _ _

/-- every operation is reached by the forward walk from the first operator, and by the backward walk from the last operator -/
theorem forward_reach (junk : ℕ → ℕ) {l : List Instr} (k : ℕ) (hk : k < l.length) :
    Walk (record junk l) ((Itr.next (record junk l))^[k] (.first (record junk l))) k := by
  induction k with
  | zero => exact .first
  | succ k ih =>
    rw [Function.iterate_succ_apply']
    refine .next (ih (by omega)) ?_
    rw [record_ok]; simpa using hk

theorem backward_reach (junk : ℕ → ℕ) {l : List Instr} (k : ℕ) (hk : k < l.length) :
    Walk (record junk l) ((Itr.prev (record junk l))^[k] (.last (record junk l))) (l.length - 1 - k) := by
  induction k with
  | zero =>
    have := Walk.last (r := record junk l)
    rw [show (record junk l).ops.length = l.length by rw [record_ok]; simp] at this
    exact this
  | succ k ih =>
    rw [Function.iterate_succ_apply']
    refine .prev ?_
    rw [show l.length - 1 - (k + 1) + 1 = l.length - 1 - k by omega]
    exact ih (by omega)

/-! ## random access -/

/-- **C46** Random access: for every operation `op_info` gives the same code, arguments and (if it has results) last result as
the sequential iterator, and the operator of a last result is the operation. -/
theorem random_ok (junk junk1 junk2 junk3 : ℕ → ℕ) (l : List Instr) (k : ℕ) (i : Instr) (hg : l[k]? = some i) :
    let r := record junk l
    let t := randomSetup r junk1 junk2 junk3
    r.code k = i.code ∧ i.args <+: r.args.drop (t.op2arg k) ∧
    (0 < numRes i.code → t.op2var k = nvar l (k + 1) - 1 ∧ t.var2op (nvar l (k + 1) - 1) = k) := by
  intro r t
  have hr : r = _ := record_ok junk l
  have hops : r.ops = l.map Instr.code := by rw [hr]
  have hargs : r.args = l.flatMap Instr.args := by rw [hr]
  have hlen : r.ops.length = l.length := by rw [hops]; simp
  have main : t.argIndex = off l l.length ∧ t.varIndex = nvar l l.length ∧
      (∀ j i, j < l.length → l[j]? = some i → t.op2arg j = off l j ∧
        (0 < numRes i.code → t.op2var j = nvar l (j + 1) - 1 ∧ t.var2op (nvar l (j + 1) - 1) = j)) := by
    show (randomSetup r junk1 junk2 junk3).argIndex = _ ∧ _
    unfold t randomSetup
    rw [hlen]
    refine forRange_ind (Nat.zero_le l.length) (P := fun q (t : Tables) => t.argIndex = off l q ∧ t.varIndex = nvar l q ∧
      (∀ j i, j < q → l[j]? = some i → t.op2arg j = off l j ∧
        (0 < numRes i.code → t.op2var j = nvar l (j + 1) - 1 ∧ t.var2op (nvar l (j + 1) - 1) = j))) ⟨rfl, rfl, fun j i hj => by omega⟩ ?_
    rintro q t _ hq ⟨h1, h2, h3⟩
    obtain ⟨i, hi⟩ : ∃ i, l[q]? = some i := ⟨_, List.getElem?_eq_getElem hq⟩
    have hcode := code_at hi hops
    have hoff := off_succ hi
    have hnv := nvar_succ hi
    refine ⟨?_, ?_, ?_⟩
    · unfold Tables.step
      dsimp only
      rw [hcode]
      by_cases c1 : i.code = .csum
      · obtain ⟨c, av, sv, ad, sd, rfl⟩ := code_csum i c1
        obtain ⟨e1, e2, e3⟩ := csum_args c av sv ad sd
        rw [if_pos c1, if_neg (by rw [c1]; decide)]
        rw [show numArg (Instr.csum c av sv ad sd).code = 0 from rfl, Nat.add_zero, h1, at_args hi hargs 4 e1, e2, hoff]
      · rw [if_neg c1]
        by_cases c2 : i.code = .cskip
        · obtain ⟨a, b, c, d, sT, sF, rfl⟩ := code_cskip i c2
          obtain ⟨e1, e2, e3⟩ := cskip_args a b c d sT sF
          rw [if_pos c2]
          rw [show numArg (Instr.cskip a b c d sT sF).code = 0 from rfl, Nat.add_zero, h1, at_args hi hargs 4 (by omega),
            at_args hi hargs 5 e1, e2, hoff]
        · rw [if_neg c2, numArg_ok i c1 c2, h1, hoff]
    · show t.varIndex + numRes (r.code q) = _
      rw [hcode, h2, hnv]
    · intro j i' hj hi'
      unfold Tables.step
      dsimp only
      rw [hcode, h1, h2, ← hnv]
      by_cases hjq : j = q
      · subst hjq
        rw [hi] at hi'
        cases hi'
        refine ⟨Function.update_self .., fun hp => ?_⟩
        rw [if_pos hp, if_pos hp]
        exact ⟨Function.update_self .., Function.update_self ..⟩
      · obtain ⟨a1, a2⟩ := h3 j i' (by omega) hi'
        refine ⟨by rw [Function.update_of_ne hjq]; exact a1, fun hp => ?_⟩
        obtain ⟨b1, b2⟩ := a2 hp
        refine ⟨?_, ?_⟩
        · split_ifs
          · rw [Function.update_of_ne hjq]; exact b1
          · exact b1
        · split_ifs with hp2
          · rw [Function.update_of_ne]
            · exact b2
            · have hm : nvar l (j + 1) ≤ nvar l q := by
                unfold nvar
                rw [show l.take q = l.take (j + 1) ++ (l.drop (j + 1)).take (q - (j + 1)) by
                  rw [← List.take_add]; congr 1; omega]
                simp
              have := nvar_succ hi'
              omega
          · exact b2
  obtain ⟨hk, _⟩ := List.getElem?_eq_some_iff.1 hg
  obtain ⟨a1, a2⟩ := main.2.2 k i hk hg
  refine ⟨code_at hg hops, ?_, a2⟩
  rw [a1, hargs, args_drop hg]
  exact List.prefix_append _ _

/-! ## operators with a variable number of arguments -/

theorem at_prefix {r : Rec} {a : List ℕ} {p : ℕ} (h : a <+: r.args.drop p) (j : ℕ) (hj : j < a.length) : r.at (p + j) = a.getD j 0 := by
  obtain ⟨s, hs⟩ := h
  unfold Rec.at
  rw [List.getD_eq_getElem?_getD, List.getD_eq_getElem?_getD, ← List.getElem?_drop, ← hs, List.getElem?_append_left hj]

theorem range_prefix {r : Rec} {pre mid post : List ℕ} {p : ℕ} (h : pre ++ mid ++ post <+: r.args.drop p) (lo hi : ℕ) (hlo : lo = pre.length)
    (hhi : hi = lo + mid.length) : r.range p lo hi = mid := by
  subst hlo hhi
  unfold Rec.range
  apply List.ext_getElem
  · simp
  · intro n h1 h2
    simp only [List.getElem_map, List.getElem_range']
    rw [at_prefix h _ (by simp; omega), List.getD_eq_getElem _ _ (by simp; omega)]
    rw [List.getElem_append_left (by simp; omega), List.getElem_append_right (by omega)]
    simp

/-- **C46** What the sweeps read at the arguments of a CSumOp is what was recorded. -/
theorem readCsum_ok (r : Rec) (p : ℕ) (c : ℕ) (av sv ad sd : List ℕ) (h : (Instr.csum c av sv ad sd).args <+: r.args.drop p) :
    r.readCsum p = (c, av, sv, ad, sd) := by
  have a0 := at_prefix h 0 (by simp [Instr.args])
  have a1 := at_prefix h 1 (by simp [Instr.args])
  have a2 := at_prefix h 2 (by simp [Instr.args])
  have a3 := at_prefix h 3 (by simp [Instr.args])
  have a4 := at_prefix h 4 (by simp [Instr.args])
  simp [Instr.args] at a0 a1 a2 a3 a4
  unfold Rec.readCsum
  rw [a0, a1, a2, a3, a4]
  set hd := [c, 5 + av.length, 5 + av.length + sv.length, 5 + av.length + sv.length + ad.length,
      5 + av.length + sv.length + ad.length + sd.length] with hhd
  have hlen : hd.length = 5 := rfl
  have h' : hd ++ (av ++ (sv ++ (ad ++ (sd ++ [6 + av.length + sv.length + ad.length + sd.length])))) <+: r.args.drop p := by
    simpa [Instr.args, hhd] using h
  refine Prod.ext rfl (Prod.ext ?_ (Prod.ext ?_ (Prod.ext ?_ ?_)))
  · exact range_prefix (pre := hd) (mid := av) (post := _) (by rw [List.append_assoc]; exact h') _ _ rfl rfl
  · exact range_prefix (pre := hd ++ av) (mid := sv) (post := _) (by simpa [List.append_assoc] using h') _ _ (by simp [hlen]) (by omega)
  · exact range_prefix (pre := hd ++ av ++ sv) (mid := ad) (post := _) (by simpa [List.append_assoc] using h') _ _ (by simp [hlen]; omega) (by omega)
  · exact range_prefix (pre := hd ++ av ++ sv ++ ad) (mid := sd) (post := _) (by simpa [List.append_assoc] using h') _ _ (by simp [hlen]; omega) (by omega)

/-- **C46** What the sweeps read at the arguments of a CSkipOp is what was recorded. -/
theorem readCskip_ok (r : Rec) (p : ℕ) (a b c d : ℕ) (sT sF : List ℕ) (h : (Instr.cskip a b c d sT sF).args <+: r.args.drop p) :
    r.readCskip p = (a, b, c, d, sT, sF) := by
  have a0 := at_prefix h 0 (by simp [Instr.args])
  have a1 := at_prefix h 1 (by simp [Instr.args])
  have a2 := at_prefix h 2 (by simp [Instr.args])
  have a3 := at_prefix h 3 (by simp [Instr.args])
  have a4 := at_prefix h 4 (by simp [Instr.args])
  have a5 := at_prefix h 5 (by simp [Instr.args])
  simp [Instr.args] at a0 a1 a2 a3 a4 a5
  unfold Rec.readCskip
  rw [a0, a1, a2, a3, a4, a5]
  have hT : (List.range sT.length).map (fun i => r.at (p + (6 + i))) = r.range p 6 (6 + sT.length) := by
    unfold Rec.range
    rw [Nat.add_sub_cancel_left, List.range'_eq_map_range, List.map_map]
    rfl
  have hF : (List.range sF.length).map (fun i => r.at (p + (6 + sT.length + i))) = r.range p (6 + sT.length) (6 + sT.length + sF.length) := by
    unfold Rec.range
    rw [Nat.add_sub_cancel_left, List.range'_eq_map_range, List.map_map]
    rfl
  rw [hT, hF]
  refine Prod.ext rfl (Prod.ext rfl (Prod.ext rfl (Prod.ext rfl (Prod.ext ?_ ?_))))
  · exact range_prefix (pre := [a, b, c, d, sT.length, sF.length]) (mid := sT) (post := sF ++ [7 + sT.length + sF.length])
      (by simpa [Instr.args] using h) _ _ rfl rfl
  · exact range_prefix (pre := [a, b, c, d, sT.length, sF.length] ++ sT) (mid := sF) (post := [7 + sT.length + sF.length])
      (by simpa [Instr.args] using h) _ _ (by simp; omega) rfl

/-! ## examples -/

/-- `x_0 * x_1`, a conditional skip, a sum and a load -/
def exInstrs : List Instr :=
  [.un .begin_ 0, .nul .inv, .nul .inv, .bin .mulvv 1 2, .cskip 1 3 1 2 [5] [6, 7], .csum 4 [1, 3] [2] [] [5], .tri .ldp 1 0 0, .un .sin 4,
    .nul .end_]

theorem exInstrs_valid : Valid exInstrs := ⟨⟨0, rfl⟩, rfl⟩

/-- the reverse walk from the end: after four steps it is at the CSkipOp -/
example (junk : ℕ → ℕ) : ∃ i, exInstrs[4]? = some i ∧ ((Itr.prev (record junk exInstrs))^[4] (.last (record junk exInstrs))).op = i.code ∧
    (record junk exInstrs).readCskip ((Itr.prev (record junk exInstrs))^[4] (.last (record junk exInstrs))).arg = (1, 3, 1, 2, [5], [6, 7]) := by
  obtain ⟨i, h1, _, h3, h4, _⟩ := sequential_ok junk exInstrs_valid (backward_reach junk (l := exInstrs) 4 (by decide))
  cases h1
  exact ⟨_, rfl, h3, readCskip_ok _ _ _ _ _ _ _ _ h4⟩

/-- the last result of the last operator with results -/
example : nvar exInstrs 8 - 1 = 7 := rfl

example (junk junk1 junk2 junk3 : ℕ → ℕ) : (randomSetup (record junk exInstrs) junk1 junk2 junk3).var2op 7 = 7 :=
  ((random_ok junk junk1 junk2 junk3 exInstrs 7 _ rfl).2.2 (by decide)).2

/-! ## text -/

/-- **C46** The text of PrintFor is read back, whatever else is recorded before and after. -/
theorem getTxt_ok (buf text : List ℕ) (h : ∀ c ∈ text, c ≠ 0) (post : List ℕ) :
    getTxt ((putTxt buf text).1 ++ post) (putTxt buf text).2 = text := by
  unfold getTxt putTxt
  dsimp only
  rw [List.append_assoc, List.drop_left, List.append_assoc, List.takeWhile_append_of_pos (by simpa using h)]
  simp

/-! ## the operators of the sweeps -/

/-- the code of an operator of the sweeps in `Verif.Taylor.Op`, which is a call to an atomic function if there is none -/
def codeOf : Op → Option Code
  | .abs _ => some .abs
  | .acos _ => some .acos
  | .acosh _ => some .acosh
  | .addpv _ _ => some .addpv
  | .addvv _ _ => some .addvv
  | .asin _ => some .asin
  | .asinh _ => some .asinh
  | .atan _ => some .atan
  | .atanh _ => some .atanh
  | .atom _ => none
  | .cexp _ _ _ _ _ => some .cexp
  | .cos _ => some .cos
  | .cosh _ => some .cosh
  | .csum _ _ _ _ _ => some .csum
  | .dis _ _ => some .dis
  | .divpv _ _ => some .divpv
  | .divvp _ _ => some .divvp
  | .divvv _ _ => some .divvv
  | .erf _ => some .erf
  | .erfc _ => some .erfc
  | .exp _ => some .exp
  | .expm1 _ => some .expm1
  | .log _ => some .log
  | .log1p _ => some .log1p
  | .mulpv _ _ => some .mulpv
  | .mulvv _ _ => some .mulvv
  | .neg _ => some .neg
  | .par _ => some .par
  | .powpv _ _ => some .powpv
  | .powvp _ _ => some .powvp
  | .powvv _ _ => some .powvv
  | .sign _ => some .sign
  | .sin _ => some .sin
  | .sinh _ => some .sinh
  | .sqrt _ => some .sqrt
  | .subpv _ _ => some .subpv
  | .subvp _ _ => some .subvp
  | .subvv _ _ => some .subvv
  | .tan _ => some .tan
  | .tanh _ => some .tanh
  | .zmulpv _ _ => some .zmulpv
  | .zmulvp _ _ => some .zmulvp
  | .zmulvv _ _ => some .zmulvv

/-- **C46** The number of results in the table is the number of results that the sweeps compute for the operator. -/
theorem numRes_ok (op : Op) (c : Code) (h : codeOf op = some c) : numRes c = op.nres := by
  cases op <;> cases h <;> rfl

end CppAD.Play
