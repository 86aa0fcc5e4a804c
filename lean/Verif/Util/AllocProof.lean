import Verif.Util.Alloc
import Mathlib.Data.List.Pairwise

/-! # thread_alloc: proofs (property C28) -/

namespace CppAD.Alloc

/-- `l` is the list of the nodes that are linked starting at `r` -/
inductive Chain (next : ℕ → ℕ) : ℕ → List ℕ → Prop
  | nil : Chain next 0 []
  | cons {a l} : a ≠ 0 → Chain next (next a) l → Chain next a (a :: l)

theorem Chain.congr {next next' : ℕ → ℕ} {r : ℕ} {l : List ℕ} (h : Chain next r l) (e : ∀ a ∈ l, next' a = next a) :
    Chain next' r l := by
  induction h with
  | nil => exact .nil
  | cons ha _ ih =>
    refine .cons ha ?_
    rw [e _ (by simp)]
    exact ih fun a h => e a (by simp [h])

theorem Chain.head {next : ℕ → ℕ} {r : ℕ} {l : List ℕ} (h : Chain next r l) (hr : r ≠ 0) :
    ∃ l', l = r :: l' ∧ Chain next (next r) l' := by
  cases h with
  | nil => exact absurd rfl hr
  | cons _ h => exact ⟨_, rfl, h⟩

theorem Chain.uncons {next : ℕ → ℕ} {r a : ℕ} {l : List ℕ} (h : Chain next r (a :: l)) :
    a = r ∧ r ≠ 0 ∧ Chain next (next r) l := by
  generalize hm : a :: l = m at h
  cases h with
  | nil => simp at hm
  | cons h0 h =>
    obtain ⟨rfl, rfl⟩ := List.cons.inj hm
    exact ⟨rfl, h0, h⟩

theorem Chain.zero {next : ℕ → ℕ} {l : List ℕ} (h : Chain next 0 l) : l = [] := by
  cases h with
  | nil => rfl
  | cons h _ => exact absurd rfl h

theorem Chain.of_nil {next : ℕ → ℕ} {r : ℕ} (h : Chain next r []) : r = 0 := by
  cases h; rfl

theorem Chain.ne_zero {next : ℕ → ℕ} {r : ℕ} {l : List ℕ} (h : Chain next r l) {a : ℕ} (ha : a ∈ l) : a ≠ 0 := by
  induction h with
  | nil => simp at ha
  | cons h0 _ ih =>
    rcases List.mem_cons.1 ha with rfl | ha
    · exact h0
    · exact ih ha

/-- remove a node that is not the first one -/
theorem Chain.remove {next : ℕ → ℕ} {r p x : ℕ} {l1 l2 : List ℕ} (h : Chain next r (l1 ++ p :: x :: l2))
    (hn : (l1 ++ p :: x :: l2).Nodup) : Chain (Function.update next p (next x)) r (l1 ++ p :: l2) := by
  induction l1 generalizing r with
  | nil =>
    cases h with
    | cons hp h =>
      obtain ⟨e1, _, h'⟩ := h.uncons
      simp only [List.nil_append] at hn
      refine .cons hp ?_
      rw [Function.update_self, e1]
      refine h'.congr fun a ha => Function.update_of_ne ?_ _ _
      rintro rfl
      simp [ha] at hn
  | cons b l1 ih =>
    obtain ⟨l', e, h'⟩ := h.head (by cases h; assumption)
    have e1 : b = r := (List.cons.inj e).1
    have e2 := (List.cons.inj e).2
    subst e1
    rw [← e2] at h'
    have hn' := (List.nodup_cons.1 hn)
    refine .cons (by cases h; assumption) ?_
    rw [Function.update_of_ne]
    · exact ih h' hn'.2
    · rintro rfl; exact hn'.1 (by simp)

theorem findPrev_go {s : State} {info : Info} {c node r : ℕ} {l1 l2 : List ℕ} (h : Chain s.next r (l1 ++ node :: l2))
    (hn : node ∉ l1) (prev : Option ℕ) (hp : nextOf s info c prev = r) :
    whileLoop (fun prev => nextOf s info c prev != 0 && nextOf s info c prev != node)
      (fun prev => some (nextOf s info c prev)) prev = (match l1.getLast? with | none => prev | some p => some p) := by
  induction l1 generalizing r prev with
  | nil =>
    obtain ⟨l', e, _⟩ := h.head (by cases h; assumption)
    have e1 : node = r := (List.cons.inj e).1
    rw [whileLoop_false]
    · rfl
    · simp [hp, e1]
  | cons b l1 ih =>
    obtain ⟨l', e, h'⟩ := h.head (by cases h; assumption)
    have e1 : b = r := (List.cons.inj e).1
    have e2 := (List.cons.inj e).2
    subst e1
    rw [← e2] at h'
    have hb : b ≠ 0 := by cases h; assumption
    have hbn : b ≠ node := by rintro rfl; exact hn (by simp)
    rw [whileLoop_true (by simp [hp, hb, hbn])]
    rw [hp, ih h' (fun hh => hn (by simp [hh])) (some b) rfl]
    cases l1 with
    | nil => rfl
    | cons d l1 =>
      rw [List.getLast?_cons_cons]
      cases hl : (d :: l1).getLast? with
      | none => simp at hl
      | some _ => rfl

theorem findPrev_none {s : State} {info : Info} {c node r : ℕ} {l : List ℕ} (h : Chain s.next r l)
    (hn : node ∉ l) (h0 : node ≠ 0) (prev : Option ℕ) (hp : nextOf s info c prev = r) :
    nextOf s info c (whileLoop (fun prev => nextOf s info c prev != 0 && nextOf s info c prev != node)
      (fun prev => some (nextOf s info c prev)) prev) ≠ node := by
  induction h generalizing prev with
  | nil =>
    rw [whileLoop_false (by simp [hp]), hp]
    exact h0.symm
  | @cons a l ha h ih =>
    have hbn : a ≠ node := by rintro rfl; exact hn (by simp)
    rw [whileLoop_true (by simp [hp, ha, hbn])]
    rw [hp]
    exact ih (fun hh => hn (by simp [hh])) (some a) rfl

/-! ### Invariant -/

variable {cfg : Cfg}

/-- address of the header of a block -/
def nd (cfg : Cfg) (b : Blk) : ℕ := b.ptr - cfg.hdr

/-- the nodes of the blocks in a list that have one value of tc_index_ -/
def lst (cfg : Cfg) (tc : ℕ → ℕ) (l : List Blk) (k : ℕ) : List ℕ := (l.filter fun b => tc (nd cfg b) = k).map (nd cfg)

structure Inv (cfg : Cfg) (s : State) (h : Hist) : Prop where
  blk : ∀ b ∈ h.used ++ h.held, cfg.hdr < b.ptr ∧ b.thread < cfg.maxThreads ∧
    ∃ c < cfg.num, s.tc (nd cfg b) = b.thread * cfg.num + c ∧ b.cap = cfg.cap c
  nodup : ((h.used ++ h.held).map (nd cfg)).Nodup
  live : s.live.Perm ((h.used ++ h.held).map fun b => (nd cfg b, cfg.hdr + b.cap))
  disj : s.live.Pairwise fun x y => x.1 + x.2 ≤ y.1 ∨ y.1 + y.2 ≤ x.1
  avail : ∀ t, ∀ c < cfg.num, Chain s.next ((s.getInfo t).rootAvail c) (lst cfg s.tc h.held (t * cfg.num + c))
  inuse : cfg.debug = true → ∀ t, ∀ c < cfg.num,
    Chain s.next ((s.getInfo t).rootInuse c) (lst cfg s.tc h.used (t * cfg.num + c))
  nInuse : ∀ t, (s.getInfo t).inuse = total h.used t
  nAvail : ∀ t, (s.getInfo t).avail = total h.held t
  hold : s.hold = h.hold

theorem getInfo_setInfo (s : State) (t : ℕ) (i : Info) (u : ℕ) :
    (s.setInfo t i).getInfo u = if u = t then i else s.getInfo u := by
  unfold State.setInfo State.getInfo
  by_cases h : u = t
  · subst h; simp
  · simp [h]

theorem mem_lst {tc : ℕ → ℕ} {l : List Blk} {k a : ℕ} : a ∈ lst cfg tc l k ↔ ∃ b ∈ l, tc (nd cfg b) = k ∧ nd cfg b = a := by
  simp [lst, and_assoc]

theorem lst_tc {tc : ℕ → ℕ} {l : List Blk} {k a : ℕ} (h : a ∈ lst cfg tc l k) : tc a = k := by
  obtain ⟨b, _, h1, rfl⟩ := mem_lst.1 h
  exact h1

theorem lst_cons (tc : ℕ → ℕ) (b : Blk) (l : List Blk) (k : ℕ) :
    lst cfg tc (b :: l) k = if tc (nd cfg b) = k then nd cfg b :: lst cfg tc l k else lst cfg tc l k := by
  unfold lst
  by_cases h : tc (nd cfg b) = k <;> simp [h]

theorem lst_filter (tc : ℕ → ℕ) (l : List Blk) (k x : ℕ) (p : Blk → Bool)
    (hp : ∀ b ∈ l, p b = true ↔ nd cfg b ≠ x) :
    lst cfg tc (l.filter p) k = (lst cfg tc l k).filter fun a => a ≠ x := by
  induction l with
  | nil => rfl
  | cons b l ih =>
    have ih := ih fun b hb => hp b (by simp [hb])
    have hb := hp b (by simp)
    by_cases h1 : nd cfg b = x
    · have : p b = false := by
        cases h : p b with
        | false => rfl
        | true => exact absurd h1 (hb.1 h)
      rw [List.filter_cons_of_neg (by simp [this]), ih, lst_cons]
      split_ifs
      · rw [List.filter_cons_of_neg (by simp [h1])]
      · rfl
    · rw [List.filter_cons_of_pos (hb.2 h1), lst_cons, ih, lst_cons]
      split_ifs
      · rw [List.filter_cons_of_pos (by simp [h1])]
      · rfl

theorem lst_congr {tc tc' : ℕ → ℕ} {l : List Blk} (h : ∀ b ∈ l, tc' (nd cfg b) = tc (nd cfg b)) (k : ℕ) :
    lst cfg tc' l k = lst cfg tc l k := by
  unfold lst
  congr 1
  refine List.filter_congr fun b hb => ?_
  rw [h b hb]

theorem lst_nodup {tc : ℕ → ℕ} {l : List Blk} (h : (l.map (nd cfg)).Nodup) (k : ℕ) : (lst cfg tc l k).Nodup :=
  h.sublist (List.Sublist.map _ List.filter_sublist)

theorem filter_ne_self {l : List ℕ} {x : ℕ} (h : x ∉ l) : l.filter (fun a => a ≠ x) = l := by
  rw [List.filter_eq_self]
  intro a ha
  simp only [decide_not, Bool.not_eq_eq_eq_not, Bool.not_true, decide_eq_false_iff_not]
  rintro rfl; exact h ha

theorem total_cons (b : Blk) (l : List Blk) (t : ℕ) :
    total (b :: l) t = (if b.thread = t then b.cap else 0) + total l t := by
  unfold total
  by_cases h : b.thread = t <;> simp [h]

theorem total_append (l m : List Blk) (t : ℕ) : total (l ++ m) t = total l t + total m t := by
  unfold total; simp

theorem total_filter (l : List Blk) (p : Blk → Bool) (t : ℕ) :
    total l t = total (l.filter p) t + total (l.filter fun b => !p b) t := by
  induction l with
  | nil => rfl
  | cons b l ih =>
    cases h : p b
    · rw [List.filter_cons_of_neg (by simp [h]), List.filter_cons_of_pos (by simp [h]), total_cons, total_cons, ih]
      omega
    · rw [List.filter_cons_of_pos h, List.filter_cons_of_neg (by simp [h]), total_cons, total_cons, ih]
      omega

theorem total_filter_perm {l : List Blk} {b : Blk} {x : ℕ} (hn : (l.map (nd cfg)).Nodup) (hb : b ∈ l) (hx : nd cfg b = x)
    (p : Blk → Bool) (hp : ∀ b ∈ l, p b = true ↔ nd cfg b ≠ x) (t : ℕ) :
    total l t = (if b.thread = t then b.cap else 0) + total (l.filter p) t := by
  induction l with
  | nil => simp at hb
  | cons d l ih =>
    have hn' := List.nodup_cons.1 (by simpa using hn : (nd cfg d :: l.map (nd cfg)).Nodup)
    rcases List.mem_cons.1 hb with rfl | hb
    · have h1 : p b = false := by
        cases h : p b with
        | false => rfl
        | true => exact absurd hx ((hp b (by simp)).1 h)
      have h2 : l.filter p = l := by
        rw [List.filter_eq_self]
        intro a ha
        refine (hp a (by simp [ha])).2 ?_
        rintro rfl
        exact hn'.1 (by rw [hx]; exact List.mem_map_of_mem ha)
      rw [List.filter_cons_of_neg (by simp [h1]), h2, total_cons]
    · have h1 : p d = true := by
        refine (hp d (by simp)).2 ?_
        intro e
        refine hn'.1 ?_
        rw [e, ← hx]
        exact List.mem_map_of_mem hb
      rw [List.filter_cons_of_pos h1, total_cons, total_cons, ih hn'.2 hb fun b hb => hp b (by simp [hb])]
      omega

theorem num_div {t c : ℕ} (hc : c < cfg.num) : (t * cfg.num + c) / cfg.num = t := by
  rw [Nat.add_comm, Nat.add_mul_div_right _ _ (by omega), Nat.div_eq_of_lt hc, Nat.zero_add]

theorem num_mod {t c : ℕ} (hc : c < cfg.num) : (t * cfg.num + c) % cfg.num = c := by
  rw [Nat.add_comm, Nat.add_mul_mod_self_right, Nat.mod_eq_of_lt hc]

theorem tc_inj {t c u d : ℕ} (hc : c < cfg.num) (hd : d < cfg.num) (h : t * cfg.num + c = u * cfg.num + d) :
    t = u ∧ c = d := by
  have h1 := num_div (t := t) hc
  have h2 := num_mod (t := t) hc
  rw [h, num_div hd] at h1
  rw [h, num_mod hd] at h2
  exact ⟨h1.symm, h2.symm⟩

theorem Inv.init : Inv cfg State.init ⟨[], [], false⟩ := by
  refine ⟨by simp, by simp, by simp [State.init], by simp [State.init], fun t c _ => ?_, fun _ t c _ => ?_, fun t => rfl,
    fun t => rfl, rfl⟩
  · exact .nil
  · exact .nil

theorem caps_pos_from (limit cap : ℕ) : ∀ v ∈ capsFrom limit cap, 0 < v ∧ v < limit := by
  induction cap using capsFrom.induct limit with
  | case1 cap h ih =>
    rw [capsFrom, dif_pos h]
    intro v hv
    rcases List.mem_cons.1 hv with rfl | hv
    · exact h
    · exact ih v hv
  | case2 cap h =>
    rw [capsFrom, dif_neg h]
    simp

theorem cap_mem {c : ℕ} (hc : c < cfg.num) : cfg.cap c ∈ cfg.caps := by
  unfold Cfg.cap
  rw [List.getD_eq_getElem?_getD, List.getElem?_eq_getElem hc]
  exact List.getElem_mem hc

theorem cap_pos {c : ℕ} (hc : c < cfg.num) : 0 < cfg.cap c := (caps_pos_from _ _ _ (cap_mem hc)).1

theorem caps_sorted_from (limit cap : ℕ) : (∀ v ∈ capsFrom limit cap, cap ≤ v) ∧ (capsFrom limit cap).Pairwise (· < ·) := by
  induction cap using capsFrom.induct limit with
  | case1 cap h ih =>
    rw [capsFrom, dif_pos h]
    refine ⟨fun v hv => ?_, List.pairwise_cons.2 ⟨fun v hv => ?_, ih.2⟩⟩
    · rcases List.mem_cons.1 hv with rfl | hv
      · exact le_rfl
      · have := ih.1 v hv; omega
    · have := ih.1 v hv; omega
  | case2 cap h =>
    rw [capsFrom, dif_neg h]
    simp

theorem cap_inj {c d : ℕ} (hc : c < cfg.num) (hd : d < cfg.num) (h : cfg.cap c = cfg.cap d) : c = d := by
  have hn : cfg.caps.Nodup := (caps_sorted_from _ _).2.imp fun h => by omega
  unfold Cfg.cap at h
  have hc : c < cfg.caps.length := hc
  have hd : d < cfg.caps.length := hd
  rw [List.getD_eq_getElem?_getD, List.getD_eq_getElem?_getD, List.getElem?_eq_getElem hc, List.getElem?_eq_getElem hd] at h
  exact (List.Nodup.getElem_inj_iff hn).1 h

theorem Inv.isLive {s : State} {h : Hist} (hi : Inv cfg s h) {b : Blk} (hb : b ∈ h.used ++ h.held) :
    s.isLive (nd cfg b) = true := by
  unfold State.isLive
  rw [List.any_eq_true]
  refine ⟨(nd cfg b, cfg.hdr + b.cap), hi.live.mem_iff.2 ?_, by simp⟩
  exact List.mem_map.2 ⟨b, hb, rfl⟩

theorem Inv.nd_inj {s : State} {h : Hist} (hi : Inv cfg s h) {b d : Blk} (hb : b ∈ h.used ++ h.held) (hd : d ∈ h.used ++ h.held)
    (e : nd cfg b = nd cfg d) : b = d := List.inj_on_of_nodup_map hi.nodup hb hd e

theorem Inv.ptr {s : State} {h : Hist} (hi : Inv cfg s h) {b : Blk} (hb : b ∈ h.used ++ h.held) :
    nd cfg b + cfg.hdr = b.ptr := by
  have := (hi.blk b hb).1
  unfold nd; omega


theorem find_cap {l : List ℕ} {m : ℕ} (h : ∃ v ∈ l, m ≤ v) :
    l.findIdx (fun v => ¬ v < m) < l.length ∧ m ≤ l.getD (l.findIdx fun v => ¬ v < m) 0 ∧
      l.getD (l.findIdx fun v => ¬ v < m) 0 = (l.find? fun v => m ≤ v).getD 0 := by
  induction l with
  | nil => simp at h
  | cons a l ih =>
    by_cases ha : m ≤ a
    · have : ¬ a < m := by omega
      simp [List.findIdx_cons, ha]
    · have : a < m := by omega
      obtain ⟨v, hv, hm⟩ := h
      rcases List.mem_cons.1 hv with rfl | hv
      · omega
      · obtain ⟨i1, i2, i3⟩ := ih ⟨v, hv, hm⟩
        simp only [List.findIdx_cons, this, not_true_eq_false, decide_false, cond_false, List.length_cons, List.getD_cons_succ,
          List.find?_cons, ha]
        exact ⟨by omega, i2, i3⟩

theorem filter_head {l : List ℕ} {x : ℕ} (h : (x :: l).Nodup) : (x :: l).filter (fun a => a ≠ x) = l := by
  rw [List.filter_cons_of_neg (by simp), filter_ne_self (List.nodup_cons.1 h).1]

theorem Inv.used_nodup {s : State} {h : Hist} (hi : Inv cfg s h) : (h.used.map (nd cfg)).Nodup := by
  have := hi.nodup; rw [List.map_append] at this; exact (List.nodup_append.1 this).1

theorem Inv.held_nodup {s : State} {h : Hist} (hi : Inv cfg s h) : (h.held.map (nd cfg)).Nodup := by
  have := hi.nodup; rw [List.map_append] at this; exact (List.nodup_append.1 this).2.1

theorem Inv.apart {s : State} {h : Hist} (hi : Inv cfg s h) {b d : Blk} (hb : b ∈ h.used) (hd : d ∈ h.held) :
    nd cfg b ≠ nd cfg d := by
  have := hi.nodup; rw [List.map_append] at this
  exact (List.nodup_append.1 this).2.2 _ (List.mem_map_of_mem hb) _ (List.mem_map_of_mem hd)

theorem Inv.ptr_ne {s : State} {h : Hist} (hi : Inv cfg s h) {b d : Blk} (hb : b ∈ h.used ++ h.held)
    (hd : d ∈ h.used ++ h.held) : d.ptr ≠ b.ptr ↔ nd cfg d ≠ nd cfg b := by
  have h1 := hi.ptr hb
  have h2 := hi.ptr hd
  omega

/-- list of blocks after a block is moved -/
theorem move_perm {l : List Blk} {b : Blk} (hn : (l.map (nd cfg)).Nodup) (hb : b ∈ l) (p : Blk → Bool)
    (hp : ∀ d ∈ l, p d = true ↔ nd cfg d ≠ nd cfg b) : l.Perm (b :: l.filter p) := by
  induction l with
  | nil => simp at hb
  | cons d l ih =>
    have hn' := List.nodup_cons.1 (by simpa using hn : (nd cfg d :: l.map (nd cfg)).Nodup)
    rcases List.mem_cons.1 hb with rfl | hb
    · have h1 : p b = false := by
        cases h : p b with
        | false => rfl
        | true => exact absurd rfl ((hp b (by simp)).1 h)
      have h2 : l.filter p = l := by
        rw [List.filter_eq_self]
        intro a ha
        refine (hp a (by simp [ha])).2 ?_
        intro e
        exact hn'.1 (by rw [← e]; exact List.mem_map_of_mem ha)
      rw [List.filter_cons_of_neg (by simp [h1]), h2]
    · have h1 : p d = true := by
        refine (hp d (by simp)).2 ?_
        intro e
        refine hn'.1 ?_
        rw [e]
        exact List.mem_map_of_mem hb
      rw [List.filter_cons_of_pos h1]
      exact ((ih hn'.2 hb fun b hb => hp b (by simp [hb])).cons d).trans (List.Perm.swap _ _ _)

/-- the invariant after a held block becomes a block in use -/
theorem Inv.reuse {s s' : State} {h : Hist} (hi : Inv cfg s h) {b : Blk} (hb : b ∈ h.held) {t c : ℕ} (hbt : b.thread = t)
    (hc : c < cfg.num) (htcb : s.tc (nd cfg b) = t * cfg.num + c) (hcap : b.cap = cfg.cap c)
    {l' : List ℕ} (hl : lst cfg s.tc h.held (t * cfg.num + c) = nd cfg b :: l')
    (hch : Chain s.next (s.next (nd cfg b)) l')
    (hlive : s'.live = s.live) (htc : s'.tc = s.tc) (hhold : s'.hold = s.hold)
    (hnext : ∀ x, x ≠ nd cfg b → s'.next x = s.next x)
    (hother : ∀ u, u ≠ t → s'.getInfo u = s.getInfo u)
    (hA : (s'.getInfo t).rootAvail = Function.update (s.getInfo t).rootAvail c (s.next (nd cfg b)))
    (hU : cfg.debug = true → (s'.getInfo t).rootInuse = Function.update (s.getInfo t).rootInuse c (nd cfg b) ∧
      s'.next (nd cfg b) = (s.getInfo t).rootInuse c)
    (hn1 : (s'.getInfo t).inuse = (s.getInfo t).inuse + cfg.cap c)
    (hn2 : (s'.getInfo t).avail = (s.getInfo t).avail - cfg.cap c) :
    Inv cfg s' ⟨b :: h.used, h.held.filter fun d => d.ptr ≠ b.ptr, h.hold⟩ := by
  have hbm : b ∈ h.used ++ h.held := by simp [hb]
  have hpf : ∀ d ∈ h.held, (decide (d.ptr ≠ b.ptr)) = true ↔ nd cfg d ≠ nd cfg b := fun d hd => by
      simpa using hi.ptr_ne hbm (by simp [hd])
  have hperm : (h.used ++ h.held).Perm (b :: h.used ++ h.held.filter fun d => d.ptr ≠ b.ptr) := by
    refine ((move_perm hi.held_nodup hb _ hpf).append_left h.used).trans ?_
    exact List.perm_middle
  have hn0 : nd cfg b ≠ 0 := by have := hi.ptr hbm; have := (hi.blk b hbm).1; omega
  have havl : ∀ u, ∀ d < cfg.num, lst cfg s.tc (h.held.filter fun d => d.ptr ≠ b.ptr) (u * cfg.num + d) =
      if u = t ∧ d = c then l' else lst cfg s.tc h.held (u * cfg.num + d) := by
    intro u d hd
    rw [lst_filter s.tc h.held _ (nd cfg b) _ hpf]
    by_cases hx : u = t ∧ d = c
    · obtain ⟨rfl, rfl⟩ := hx
      rw [if_pos ⟨rfl, rfl⟩, hl]
      refine filter_head ?_
      rw [← hl]; exact lst_nodup hi.held_nodup _
    · rw [if_neg hx]
      refine filter_ne_self fun hm => hx ?_
      have := lst_tc hm
      rw [htcb] at this
      obtain ⟨e1, e2⟩ := tc_inj hc hd this
      exact ⟨e1.symm, e2.symm⟩
  have hnotin : nd cfg b ∉ l' := by
    have := lst_nodup (cfg := cfg) (tc := s.tc) hi.held_nodup (t * cfg.num + c)
    rw [hl] at this; exact (List.nodup_cons.1 this).1
  refine ⟨fun d hd => ?_, ?_, ?_, ?_, fun u d hd => ?_, fun hdb u d hd => ?_, fun u => ?_, fun u => ?_, ?_⟩
  · have := hi.blk d (hperm.mem_iff.2 hd)
    rw [htc]; exact this
  · exact (hperm.map _).nodup_iff.1 hi.nodup
  · rw [hlive]; exact hi.live.trans (hperm.map _)
  · rw [hlive]; exact hi.disj
  · rw [htc, havl u d hd]
    by_cases hx : u = t
    · subst hx
      rw [hA]
      by_cases hy : d = c
      · subst hy
        rw [if_pos ⟨rfl, rfl⟩, Function.update_self]
        exact hch.congr fun a ha => hnext a (by rintro rfl; exact hnotin ha)
      · rw [if_neg (by tauto), Function.update_of_ne hy]
        refine (hi.avail u d hd).congr fun a ha => hnext a ?_
        rintro rfl
        have := lst_tc ha
        rw [htcb] at this
        exact hy (tc_inj hc hd this).2.symm
    · rw [if_neg (by tauto), hother u hx]
      refine (hi.avail u d hd).congr fun a ha => hnext a ?_
      rintro rfl
      have := lst_tc ha
      rw [htcb] at this
      exact hx (tc_inj hc hd this).1.symm
  · have hused : ∀ a ∈ lst cfg s.tc h.used (u * cfg.num + d), s'.next a = s.next a := by
      intro a ha
      refine hnext a ?_
      rintro rfl
      obtain ⟨b', hb', _, e⟩ := mem_lst.1 ha
      exact hi.apart hb' hb e
    simp only []
    rw [htc, lst_cons, htcb]
    by_cases hx : u = t
    · subst hx
      by_cases hy : d = c
      · subst hy
        rw [if_pos rfl, (hU hdb).1, Function.update_self]
        refine .cons hn0 ?_
        rw [(hU hdb).2]
        exact (hi.inuse hdb u d hd).congr hused
      · rw [if_neg (by intro e; exact hy (tc_inj hc hd e).2.symm), (hU hdb).1, Function.update_of_ne hy]
        exact (hi.inuse hdb u d hd).congr hused
    · rw [if_neg (by intro e; exact hx (tc_inj hc hd e).1.symm), hother u hx]
      exact (hi.inuse hdb u d hd).congr hused
  · simp only []
    rw [total_cons]
    by_cases hx : u = t
    · subst hx
      rw [hn1, hi.nInuse, if_pos hbt, hcap, Nat.add_comm]
    · rw [hother u hx, hi.nInuse, if_neg (by rw [hbt]; exact fun e => hx e.symm), Nat.zero_add]
  · simp only []
    have := total_filter_perm hi.held_nodup hb rfl _ hpf u
    by_cases hx : u = t
    · subst hx
      rw [hn2, hi.nAvail, this, if_pos hbt, hcap]; omega
    · rw [hother u hx, hi.nAvail, this, if_neg (by rw [hbt]; exact fun e => hx e.symm), Nat.zero_add]
  · rw [hhold]; exact hi.hold

/-- the invariant after a block is obtained from the system -/
theorem Inv.fresh {s s' : State} {h : Hist} (hi : Inv cfg s h) {a t c : ℕ} (ht : t < cfg.maxThreads) (hc : c < cfg.num)
    (hf : SysFresh s a (cfg.hdr + cfg.cap c))
    (hlive : s'.live = (a, cfg.hdr + cfg.cap c) :: s.live) (htc : s'.tc = Function.update s.tc a (t * cfg.num + c))
    (hhold : s'.hold = s.hold) (hnext : ∀ x, x ≠ a → s'.next x = s.next x)
    (hother : ∀ u, u ≠ t → s'.getInfo u = s.getInfo u)
    (hA : (s'.getInfo t).rootAvail = (s.getInfo t).rootAvail)
    (hU : cfg.debug = true → (s'.getInfo t).rootInuse = Function.update (s.getInfo t).rootInuse c a ∧
      s'.next a = (s.getInfo t).rootInuse c)
    (hn1 : (s'.getInfo t).inuse = (s.getInfo t).inuse + cfg.cap c)
    (hn2 : (s'.getInfo t).avail = (s.getInfo t).avail) :
    Inv cfg s' ⟨⟨a + cfg.hdr, t, cfg.cap c⟩ :: h.used, h.held, h.hold⟩ := by
  have hnd : nd cfg ⟨a + cfg.hdr, t, cfg.cap c⟩ = a := by simp [nd]
  have hnew : ∀ b ∈ h.used ++ h.held, nd cfg b ≠ a := by
    rintro b hb rfl
    have hmem : (nd cfg b, cfg.hdr + b.cap) ∈ s.live := hi.live.mem_iff.2 (List.mem_map.2 ⟨b, hb, rfl⟩)
    have := hf.2 _ hmem
    have := cfg.hdr_pos
    simp only at *
    omega
  have htc' : ∀ b ∈ h.used ++ h.held, s'.tc (nd cfg b) = s.tc (nd cfg b) := by
    intro b hb
    rw [htc, Function.update_of_ne (hnew b hb)]
  have hx1 : ∀ k, ∀ x ∈ lst cfg s.tc h.held k, s'.next x = s.next x := by
    intro k x hx
    obtain ⟨b, hb, _, rfl⟩ := mem_lst.1 hx
    exact hnext _ (hnew b (by simp [hb]))
  have hx2 : ∀ k, ∀ x ∈ lst cfg s.tc h.used k, s'.next x = s.next x := by
    intro k x hx
    obtain ⟨b, hb, _, rfl⟩ := mem_lst.1 hx
    exact hnext _ (hnew b (by simp [hb]))
  refine ⟨fun d hd => ?_, ?_, ?_, ?_, fun u d hd => ?_, fun hdb u d hd => ?_, fun u => ?_, fun u => ?_, ?_⟩
  · simp only [List.cons_append, List.mem_cons] at hd
    rcases hd with rfl | hd
    · refine ⟨?_, ht, c, hc, ?_, rfl⟩
      · have := hf.1; simp only; omega
      · rw [hnd, htc, Function.update_self]
    · rw [htc' d hd]; exact hi.blk d hd
  · simp only [List.cons_append, List.map_cons, List.nodup_cons]
    refine ⟨?_, hi.nodup⟩
    rw [hnd]
    intro hm
    obtain ⟨b, hb, e⟩ := List.mem_map.1 hm
    exact hnew b hb e
  · simp only [List.cons_append, List.map_cons]
    rw [hlive, hnd]
    exact hi.live.cons _
  · rw [hlive]
    refine List.pairwise_cons.2 ⟨fun x hx => ?_, hi.disj⟩
    exact hf.2 x hx
  · have e1 : lst cfg s'.tc h.held (u * cfg.num + d) = lst cfg s.tc h.held (u * cfg.num + d) :=
      lst_congr (fun b hb => htc' b (by simp [hb])) _
    simp only []
    rw [e1]
    have e2 : (s'.getInfo u).rootAvail = (s.getInfo u).rootAvail := by
      by_cases hx : u = t
      · subst hx; exact hA
      · rw [hother u hx]
    rw [e2]
    exact (hi.avail u d hd).congr (hx1 _)
  · have e1 : lst cfg s'.tc h.used (u * cfg.num + d) = lst cfg s.tc h.used (u * cfg.num + d) :=
      lst_congr (fun b hb => htc' b (by simp [hb])) _
    simp only []
    rw [lst_cons, hnd, e1]
    have e3 : s'.tc a = t * cfg.num + c := by rw [htc, Function.update_self]
    rw [e3]
    by_cases hx : u = t
    · subst hx
      by_cases hy : d = c
      · subst hy
        rw [if_pos rfl, (hU hdb).1, Function.update_self]
        refine .cons (by have := hf.1; omega) ?_
        rw [(hU hdb).2]
        exact (hi.inuse hdb u d hd).congr (hx2 _)
      · rw [if_neg (by intro e; exact hy (tc_inj hc hd e).2.symm), (hU hdb).1, Function.update_of_ne hy]
        exact (hi.inuse hdb u d hd).congr (hx2 _)
    · rw [if_neg (by intro e; exact hx (tc_inj hc hd e).1.symm), hother u hx]
      exact (hi.inuse hdb u d hd).congr (hx2 _)
  · simp only []
    rw [total_cons]
    by_cases hx : u = t
    · subst hx
      rw [hn1, hi.nInuse, if_pos rfl, Nat.add_comm]
    · rw [hother u hx, hi.nInuse, if_neg (fun e => hx e.symm), Nat.zero_add]
  · simp only []
    by_cases hx : u = t
    · subst hx; rw [hn2, hi.nAvail]
    · rw [hother u hx, hi.nAvail]
  · rw [hhold]; exact hi.hold

/-- get_memory when a block is available -/
theorem getMemory_reuse {s : State} {h : Hist} (hi : Inv cfg s h) {t m : ℕ} (a : ℕ) (hm : ∃ v ∈ cfg.caps, m ≤ v)
    (hne : (s.getInfo t).rootAvail (cfg.caps.findIdx fun v => ¬ v < m) ≠ 0) :
    ∃ b ∈ h.held, b.thread = t ∧ b.cap = cfg.capFor m ∧ m ≤ b.cap ∧ ∃ s', getMemory cfg t m a s = .ok (b.ptr, b.cap, s') ∧
      s'.live = s.live ∧ Inv cfg s' ⟨b :: h.used, h.held.filter fun d => d.ptr ≠ b.ptr, h.hold⟩ := by
  obtain ⟨c1, c2, c3⟩ := find_cap hm
  have hc := rfl (a := cfg.caps.findIdx fun v => ¬ v < m)
  generalize hcdef : (cfg.caps.findIdx fun v => ¬ v < m) = c at c1 c2 c3 hne hc
  have c1 : c < cfg.num := c1
  have hlt : m < cfg.maxSize / 2 := by
    obtain ⟨v, hv, hmv⟩ := hm
    have := (caps_pos_from _ _ _ hv).2
    omega
  have hch := hi.avail t c c1
  obtain ⟨l', hl, hch'⟩ := hch.head hne
  obtain ⟨b, hb, hbtc, hbn⟩ := mem_lst.1
    (show (s.getInfo t).rootAvail c ∈ lst cfg s.tc h.held (t * cfg.num + c) by rw [hl]; simp)
  have hbm : b ∈ h.used ++ h.held := by simp [hb]
  obtain ⟨p1, p2, c', p3, p4, p5⟩ := hi.blk b hbm
  obtain ⟨e1, e2⟩ := tc_inj (cfg := cfg) p3 c1 (p4.symm.trans hbtc)
  rw [e2] at p5
  have hptr := hi.ptr hbm
  have hcap : b.cap = cfg.capFor m := by rw [p5]; exact c3
  have hpf : ∀ d ∈ h.held, (decide (d.ptr ≠ b.ptr)) = true ↔ nd cfg d ≠ nd cfg b := fun d hd => by
      simpa using hi.ptr_ne hbm (by simp [hd])
  have hav : ¬ (s.getInfo t).avail < cfg.cap c := by
    rw [hi.nAvail t, total_filter_perm hi.held_nodup hb rfl _ hpf t, if_pos e1, p5]
    omega
  refine ⟨b, hb, e1, hcap, by rw [p5]; exact c2, ?_⟩
  unfold getMemory
  rw [if_neg (by simpa using hlt)]
  simp only []
  rw [hcdef, if_neg (by simpa using c1), if_pos hne, if_neg (by rw [← hbn, hi.isLive hbm]; simp),
    if_neg (by rw [← hbn, hbtc]; simp), if_neg hav]
  refine ⟨_, by rw [← hbn, hptr, p5], by simp only [State.setInfo]; split_ifs <;> rfl, ?_⟩
  rw [← hbn] at hl hch'
  refine hi.reuse hb e1 c1 hbtc p5 hl hch' ?_ ?_ ?_ ?_ ?_ ?_ ?_ ?_ ?_
  · simp only [State.setInfo]; split_ifs <;> rfl
  · simp only [State.setInfo]; split_ifs <;> rfl
  · simp only [State.setInfo]; split_ifs <;> rfl
  · intro x hx
    simp only [State.setInfo]
    split_ifs
    · exact Function.update_of_ne hx _ _
    · rfl
  · intro u hu
    rw [getInfo_setInfo, if_neg hu]
    unfold State.getInfo
    split_ifs <;> rfl
  · rw [getInfo_setInfo, if_pos rfl, hbn]
    split_ifs <;> rfl
  · intro hdb
    rw [getInfo_setInfo, if_pos rfl, hbn]
    simp only [State.setInfo, hdb, if_true]
    exact ⟨trivial, Function.update_self _ _ _⟩
  · rw [getInfo_setInfo, if_pos rfl]
    split_ifs <;> rfl
  · rw [getInfo_setInfo, if_pos rfl]
    split_ifs <;> rfl

/-- get_memory when no block is available -/
theorem getMemory_fresh {s : State} {h : Hist} (hi : Inv cfg s h) {t m a : ℕ} (ht : t < cfg.maxThreads)
    (hm : ∃ v ∈ cfg.caps, m ≤ v) (hf : SysFresh s a (cfg.hdr + cfg.capFor m))
    (hne : (s.getInfo t).rootAvail (cfg.caps.findIdx fun v => ¬ v < m) = 0) :
    (¬ ∃ b ∈ h.held, b.thread = t ∧ b.cap = cfg.capFor m) ∧ m ≤ cfg.capFor m ∧
    ∃ s', getMemory cfg t m a s = .ok (a + cfg.hdr, cfg.capFor m, s') ∧
      s'.live = (a, cfg.hdr + cfg.capFor m) :: s.live ∧
      Inv cfg s' ⟨⟨a + cfg.hdr, t, cfg.capFor m⟩ :: h.used, h.held, h.hold⟩ := by
  obtain ⟨c1, c2, c3⟩ := find_cap hm
  generalize hcdef : (cfg.caps.findIdx fun v => ¬ v < m) = c at c1 c2 c3 hne
  have c1 : c < cfg.num := c1
  have hcf : cfg.capFor m = cfg.cap c := c3.symm
  have hlt : m < cfg.maxSize / 2 := by
    obtain ⟨v, hv, hmv⟩ := hm
    have := (caps_pos_from _ _ _ hv).2
    omega
  rw [hcf] at hf ⊢
  refine ⟨?_, c2, ?_⟩
  · rintro ⟨b, hb, e1, e2⟩
    obtain ⟨p1, p2, c', p3, p4, p5⟩ := hi.blk b (by simp [hb])
    have hcc : c' = c := cap_inj p3 c1 (p5.symm.trans e2)
    subst hcc
    have hch := hi.avail t c' c1
    rw [hne] at hch
    have := hch.zero
    have hmem : nd cfg b ∈ lst cfg s.tc h.held (t * cfg.num + c') := mem_lst.2 ⟨b, hb, by rw [p4, e1], rfl⟩
    rw [this] at hmem
    simp at hmem
  · unfold getMemory
    rw [if_neg (by simpa using hlt)]
    simp only []
    rw [hcdef, if_neg (by simpa using c1), if_neg (by simpa using hne)]
    refine ⟨_, rfl, by simp only [State.setInfo]; split_ifs <;> rfl, ?_⟩
    refine hi.fresh ht c1 hf ?_ ?_ ?_ ?_ ?_ ?_ ?_ ?_ ?_
    · simp only [State.setInfo]; split_ifs <;> rfl
    · simp only [State.setInfo]; split_ifs <;> rfl
    · simp only [State.setInfo]; split_ifs <;> rfl
    · intro x hx
      simp only [State.setInfo]
      split_ifs
      · exact Function.update_of_ne hx _ _
      · rfl
    · intro u hu
      rw [getInfo_setInfo, if_neg hu]
      unfold State.getInfo
      split_ifs <;> rfl
    · rw [getInfo_setInfo, if_pos rfl]
      split_ifs <;> rfl
    · intro hdb
      rw [getInfo_setInfo, if_pos rfl]
      simp only [State.setInfo, hdb, if_true]
      exact ⟨trivial, Function.update_self _ _ _⟩
    · rw [getInfo_setInfo, if_pos rfl]
      split_ifs <;> rfl
    · rw [getInfo_setInfo, if_pos rfl]
      split_ifs <;> rfl

/-- the part of the state that belongs to the threads other than `t` is the same -/
def Frame (cfg : Cfg) (t : ℕ) (h : Hist) (s s' : State) : Prop :=
  (∀ u, u ≠ t → s'.getInfo u = s.getInfo u) ∧
    ∀ b ∈ h.used ++ h.held, b.thread ≠ t → s'.next (nd cfg b) = s.next (nd cfg b) ∧ s'.tc (nd cfg b) = s.tc (nd cfg b)

/-! ### return_memory -/

theorem filter_map_live (l : List Blk) (x : ℕ) (p : Blk → Bool) (hp : ∀ b ∈ l, p b = true ↔ nd cfg b ≠ x) :
    (l.map fun b => (nd cfg b, cfg.hdr + b.cap)).filter (fun y => y.1 ≠ x) =
      (l.filter p).map fun b => (nd cfg b, cfg.hdr + b.cap) := by
  induction l with
  | nil => rfl
  | cons b l ih =>
    have ih := ih fun b hb => hp b (by simp [hb])
    have hb := hp b (by simp)
    by_cases h1 : nd cfg b = x
    · have : p b = false := by
        cases h : p b with
        | false => rfl
        | true => exact absurd h1 (hb.1 h)
      rw [List.filter_cons_of_neg (by simp [this]), List.map_cons, List.filter_cons_of_neg (by simp [h1]), ih]
    · rw [List.filter_cons_of_pos (hb.2 h1), List.map_cons, List.filter_cons_of_pos (by simp [h1]), ih, List.map_cons]

theorem filter_single {l : List Blk} {b : Blk} (hn : (l.map (nd cfg)).Nodup) (hb : b ∈ l) (p : Blk → Bool)
    (hp : ∀ d ∈ l, p d = true ↔ nd cfg d = nd cfg b) : l.filter p = [b] := by
  induction l with
  | nil => simp at hb
  | cons d l ih =>
    have hn' := List.nodup_cons.1 (by simpa using hn : (nd cfg d :: l.map (nd cfg)).Nodup)
    rcases List.mem_cons.1 hb with rfl | hb
    · rw [List.filter_cons_of_pos ((hp b (by simp)).2 rfl)]
      congr 1
      rw [List.filter_eq_nil_iff]
      intro a ha h
      have := (hp a (by simp [ha])).1 h
      exact hn'.1 (by rw [← this]; exact List.mem_map_of_mem ha)
    · rw [List.filter_cons_of_neg, ih hn'.2 hb fun b hb => hp b (by simp [hb])]
      intro h
      have := (hp d (by simp)).1 h
      exact hn'.1 (by rw [this]; exact List.mem_map_of_mem hb)

/-- the end of return_memory: a block in use is deleted or becomes a held block.  `s1`, `info` is the state after the
node is removed from the in use list. -/
theorem finishReturn_ok {s s1 : State} {h : Hist} (hi : Inv cfg s h) {b : Blk} (hb : b ∈ h.used) {t c : ℕ} (hbt : b.thread = t)
    (hc : c < cfg.num) (htcb : s.tc (nd cfg b) = t * cfg.num + c) (hcap : b.cap = cfg.cap c) {info : Info}
    (h1 : s1.live = s.live) (h2 : s1.tc = s.tc) (h3 : s1.hold = s.hold) (h4 : s1.info = s.info)
    (h5 : info.rootAvail = (s.getInfo t).rootAvail) (h6 : info.inuse = (s.getInfo t).inuse)
    (h7 : info.avail = (s.getInfo t).avail)
    (h8 : ∀ x, (∀ b' ∈ h.used, b'.thread = t → nd cfg b' ≠ x) → s1.next x = s.next x)
    (h9 : cfg.debug = true → ∀ u, ∀ d < cfg.num, Chain s1.next ((if u = t then info else s.getInfo u).rootInuse d)
      ((lst cfg s.tc h.used (u * cfg.num + d)).filter fun a => a ≠ nd cfg b)) :
    ∃ s', finishReturn cfg (nd cfg b) t c s1 info = .ok s' ∧
      Inv cfg s' ⟨h.used.filter fun d => d.ptr ≠ b.ptr, if h.hold then b :: h.held else h.held, h.hold⟩ ∧
      Frame cfg b.thread h s s' := by
  have hbm : b ∈ h.used ++ h.held := by simp [hb]
  have hpf : ∀ d ∈ h.used, (decide (d.ptr ≠ b.ptr)) = true ↔ nd cfg d ≠ nd cfg b := fun d hd => by
      simpa using hi.ptr_ne hbm (by simp [hd])
  have hn0 : nd cfg b ≠ 0 := by have := hi.ptr hbm; have := (hi.blk b hbm).1; omega
  have hnu : ¬ info.inuse < cfg.cap c := by
    rw [h6, hi.nInuse, total_filter_perm hi.used_nodup hb rfl _ hpf t, if_pos hbt, hcap]; omega
  have hperm := move_perm hi.used_nodup hb _ hpf
  have hgi : ∀ u, s1.getInfo u = s.getInfo u := by intro u; unfold State.getInfo; rw [h4]
  have hheld : ∀ k, ∀ x ∈ lst cfg s.tc h.held k, s1.next x = s.next x := by
    intro k x hx
    obtain ⟨d, hd, _, rfl⟩ := mem_lst.1 hx
    exact h8 _ fun b' hb' _ => hi.apart hb' hd
  have hlu : ∀ k, lst cfg s.tc (h.used.filter fun d => d.ptr ≠ b.ptr) k =
      (lst cfg s.tc h.used k).filter fun a => a ≠ nd cfg b := fun k => lst_filter _ _ _ _ _ hpf
  have hfr : ∀ d ∈ h.used ++ h.held, d.thread ≠ t → s1.next (nd cfg d) = s.next (nd cfg d) := by
    intro d hd hne
    refine h8 _ fun b' hb' ht e => hne ?_
    rw [← hi.nd_inj (b := b') (by simp [hb']) hd e]; exact ht
  unfold finishReturn
  simp only []
  rw [if_neg hnu]
  by_cases hh : h.hold = true
  · have hh' : s1.hold = true := by rw [h3, hi.hold, hh]
    rw [if_pos hh, if_neg (by simp [hh'])]
    have hgs : ∀ u, (({ s1 with next := Function.update s1.next (nd cfg b) (info.rootAvail c) } : State).setInfo t
        ⟨info.inuse - cfg.cap c, info.avail + cfg.cap c, Function.update info.rootAvail c (nd cfg b), info.rootInuse⟩).getInfo u = if u = t then
        ⟨info.inuse - cfg.cap c, info.avail + cfg.cap c, Function.update info.rootAvail c (nd cfg b), info.rootInuse⟩ else s.getInfo u := by
      intro u
      rw [getInfo_setInfo]
      split_ifs
      · rfl
      · exact hgi u
    refine ⟨({ s1 with next := Function.update s1.next (nd cfg b) (info.rootAvail c) } : State).setInfo t
        ⟨info.inuse - cfg.cap c, info.avail + cfg.cap c, Function.update info.rootAvail c (nd cfg b), info.rootInuse⟩, rfl, ?_, ?_⟩
    rotate_left
    · refine ⟨fun u hu => by rw [hgs, if_neg (by rwa [hbt] at hu)], fun d hd hne => ⟨?_, ?_⟩⟩
      · rw [hbt] at hne
        refine (Function.update_of_ne ?_ _ _).trans (hfr d hd hne)
        intro e
        rw [hi.nd_inj hd hbm e] at hne
        exact hne hbt
      · exact congrFun h2 _
    have hpm : (h.used ++ h.held).Perm ((h.used.filter fun d => d.ptr ≠ b.ptr) ++ b :: h.held) := by
      refine (hperm.append_right h.held).trans ?_
      exact (List.perm_middle (a := b)).symm
    have hused : ∀ x, (∀ k, x ∈ (lst cfg s.tc h.used k).filter (fun a => a ≠ nd cfg b) →
        Function.update s1.next (nd cfg b) (info.rootAvail c) x = s1.next x) := by
      intro x k hx
      refine Function.update_of_ne ?_ _ _
      have := (List.mem_filter.1 hx).2
      simpa using this
    refine ⟨fun d hd => ?_, ?_, ?_, ?_, fun u d hd => ?_, fun hdb u d hd => ?_, fun u => ?_, fun u => ?_, ?_⟩
    · have := hi.blk d (hpm.mem_iff.2 hd)
      simp only [State.setInfo, h2]; exact this
    · exact (hpm.map _).nodup_iff.1 hi.nodup
    · simp only [State.setInfo, h1]; exact hi.live.trans (hpm.map _)
    · simp only [State.setInfo, h1]; exact hi.disj
    · rw [hgs]
      simp only [State.setInfo, h2]
      rw [lst_cons, htcb]
      have hout : ∀ k, ∀ x ∈ lst cfg s.tc h.held k,
          Function.update s1.next (nd cfg b) (info.rootAvail c) x = s.next x := by
        intro k x hx
        rw [Function.update_of_ne, hheld k x hx]
        obtain ⟨d, hd, _, rfl⟩ := mem_lst.1 hx
        exact (hi.apart hb hd).symm
      by_cases hx : u = t
      · subst hx
        rw [if_pos rfl]
        by_cases hy : d = c
        · subst hy
          rw [if_pos rfl]
          simp only [Function.update_self]
          refine .cons hn0 ?_
          rw [Function.update_self]
          have e5 : info.rootAvail d = (s.getInfo u).rootAvail d := by rw [h5]
          conv => enter [2]; rw [e5]
          exact (hi.avail u d hd).congr (hout _)
        · rw [if_neg (by intro e; exact hy (tc_inj hc hd e).2.symm)]
          simp only [Function.update_of_ne hy]
          have e5 : info.rootAvail d = (s.getInfo u).rootAvail d := by rw [h5]
          rw [e5]
          exact (hi.avail u d hd).congr (hout _)
      · have hne : ¬ (t * cfg.num + c = u * cfg.num + d) := fun e => hx (tc_inj hc hd e).1.symm
        rw [if_neg hne, if_neg hx]
        exact (hi.avail u d hd).congr (hout _)
    · rw [hgs]
      simp only [State.setInfo, h2]
      rw [hlu]
      have := (h9 hdb u d hd).congr fun x hx => hused x _ hx
      by_cases hx : u = t
      · rw [if_pos hx]; rw [if_pos hx] at this; exact this
      · rw [if_neg hx]; rw [if_neg hx] at this
        exact this
    · rw [hgs]
      have := total_filter_perm hi.used_nodup hb rfl _ hpf u
      by_cases hx : u = t
      · subst hx
        rw [if_pos rfl]
        simp only []
        rw [h6, hi.nInuse, this, if_pos hbt, hcap]; omega
      · rw [if_neg hx]
        rw [if_neg (by rw [hbt]; exact fun e => hx e.symm), Nat.zero_add] at this
        exact (hi.nInuse u).trans this
    · rw [hgs]
      simp only []
      rw [total_cons]
      by_cases hx : u = t
      · subst hx
        rw [if_pos rfl, if_pos hbt]
        simp only []
        rw [h7, hi.nAvail, hcap]; omega
      · rw [if_neg hx, if_neg (by rw [hbt]; exact fun e => hx e.symm), Nat.zero_add]
        exact hi.nAvail u
    · exact hh'.trans hh.symm
  · have hh : h.hold = false := by simpa using hh
    have hh' : s1.hold = false := by rw [h3, hi.hold, hh]
    simp only [hh', hh, Bool.not_false, if_true, Bool.false_eq_true, if_false]
    refine ⟨_, rfl, ?_⟩
    have hsub : ∀ d ∈ (h.used.filter fun d => d.ptr ≠ b.ptr) ++ h.held, d ∈ h.used ++ h.held := by
      intro d hd
      rcases List.mem_append.1 hd with hd | hd
      · exact List.mem_append.2 (.inl (List.mem_filter.1 hd).1)
      · exact List.mem_append.2 (.inr hd)
    have hgs : ∀ u, ((s1.setInfo t { info with inuse := info.inuse - cfg.cap c }).sysDelete (nd cfg b)).getInfo u =
        if u = t then { info with inuse := info.inuse - cfg.cap c } else s.getInfo u := by
      intro u
      have : ((s1.setInfo t { info with inuse := info.inuse - cfg.cap c }).sysDelete (nd cfg b)).getInfo u =
        (s1.setInfo t { info with inuse := info.inuse - cfg.cap c }).getInfo u := rfl
      rw [this, getInfo_setInfo, hgi]
    refine ⟨?_, fun u hu => by rw [hgs, if_neg (by rwa [hbt] at hu)], fun d hd hne => ⟨?_, congrFun h2 _⟩⟩
    rotate_left
    · rw [hbt] at hne
      exact hfr d hd hne
    refine ⟨fun d hd => ?_, ?_, ?_, ?_, fun u d hd => ?_, fun hdb u d hd => ?_, fun u => ?_, fun u => ?_, ?_⟩
    · have := hi.blk d (hsub d hd)
      simp only [State.setInfo, State.sysDelete, h2]; exact this
    · refine hi.nodup.sublist (List.Sublist.map _ (List.Sublist.append List.filter_sublist (List.Sublist.refl _)))
    · simp only [State.setInfo, State.sysDelete, h1]
      refine (hi.live.filter _).trans ?_
      rw [List.map_append, List.filter_append, filter_map_live _ _ _ hpf, List.map_append]
      have : ((h.held.map fun b => (nd cfg b, cfg.hdr + b.cap)).filter fun y => y.1 ≠ nd cfg b) =
          h.held.map fun b => (nd cfg b, cfg.hdr + b.cap) := by
        rw [List.filter_eq_self]
        intro x hx
        obtain ⟨d, hd, rfl⟩ := List.mem_map.1 hx
        simpa using (hi.apart hb hd).symm
      rw [this]
    · simp only [State.setInfo, State.sysDelete, h1]; exact hi.disj.filter _
    · rw [hgs]
      simp only [State.setInfo, State.sysDelete, h2]
      by_cases hx : u = t
      · subst hx
        rw [if_pos rfl]
        simp only [h5]
        exact (hi.avail u d hd).congr (hheld _)
      · rw [if_neg hx]
        exact (hi.avail u d hd).congr (hheld _)
    · rw [hgs]
      simp only [State.setInfo, State.sysDelete, h2]
      rw [hlu]
      have := h9 hdb u d hd
      by_cases hx : u = t
      · rw [if_pos hx]; rw [if_pos hx] at this; exact this
      · rw [if_neg hx]; rw [if_neg hx] at this; exact this
    · rw [hgs]
      have := total_filter_perm hi.used_nodup hb rfl _ hpf u
      by_cases hx : u = t
      · subst hx
        rw [if_pos rfl]
        simp only []
        rw [h6, hi.nInuse, this, if_pos hbt, hcap]; omega
      · rw [if_neg hx]
        rw [if_neg (by rw [hbt]; exact fun e => hx e.symm), Nat.zero_add] at this
        exact (hi.nInuse u).trans this
    · rw [hgs]
      by_cases hx : u = t
      · subst hx
        rw [if_pos rfl]
        simp only []
        rw [h7, hi.nAvail]
      · rw [if_neg hx]
        exact hi.nAvail u
    · exact hh'

theorem returnMemory_ok {s : State} {h : Hist} (hi : Inv cfg s h) {b : Blk} (hb : b ∈ h.used) {cur : ℕ} {par : Bool}
    (hpar : par = true → b.thread = cur) :
    ∃ s', returnMemory cfg cur par b.ptr s = .ok s' ∧
      Inv cfg s' ⟨h.used.filter fun d => d.ptr ≠ b.ptr, if h.hold then b :: h.held else h.held, h.hold⟩ ∧
      Frame cfg b.thread h s s' := by
  have hbm : b ∈ h.used ++ h.held := by simp [hb]
  obtain ⟨p1, p2, c, p3, p4, p5⟩ := hi.blk b hbm
  unfold returnMemory
  have hnd : b.ptr - cfg.hdr = nd cfg b := rfl
  simp only []
  rw [hnd, if_neg (by rw [hi.isLive hbm]; simp), p4, num_div p3, num_mod p3, if_neg (by simpa using p2),
    if_neg (by rintro ⟨q1, q2⟩; exact q1 (hpar q2))]
  by_cases hdb : cfg.debug = true
  · rw [if_pos hdb]
    have hch := hi.inuse hdb b.thread c p3
    have hmem : nd cfg b ∈ lst cfg s.tc h.used (b.thread * cfg.num + c) := mem_lst.2 ⟨b, hb, p4, rfl⟩
    have hnl := lst_nodup (cfg := cfg) (tc := s.tc) hi.used_nodup (b.thread * cfg.num + c)
    obtain ⟨l1, l2, hl⟩ := List.append_of_mem hmem
    have hn1 : nd cfg b ∉ l1 := by
      rw [hl] at hnl
      intro hm
      exact (List.nodup_append.1 hnl).2.2 _ hm _ (by simp) rfl
    have hfl : (lst cfg s.tc h.used (b.thread * cfg.num + c)).filter (fun a => a ≠ nd cfg b) = l1 ++ l2 := by
      rw [hl, List.filter_append, filter_ne_self hn1, filter_head]
      rw [hl] at hnl
      exact (List.nodup_append.1 hnl).2.1
    rw [hl] at hch
    have hfp : findPrev s (s.getInfo b.thread) c (nd cfg b) = l1.getLast? := by
      unfold findPrev
      rw [findPrev_go hch hn1 none rfl]
      cases l1.getLast? <;> rfl
    -- chains of other lists
    have other : ∀ u, ∀ d < cfg.num, ¬ (u = b.thread ∧ d = c) →
        (lst cfg s.tc h.used (u * cfg.num + d)).filter (fun a => a ≠ nd cfg b) = lst cfg s.tc h.used (u * cfg.num + d) := by
      intro u d hd hne
      refine filter_ne_self fun hm => hne ?_
      have := lst_tc hm
      rw [p4] at this
      obtain ⟨e1, e2⟩ := tc_inj p3 hd this
      exact ⟨e1.symm, e2.symm⟩
    rcases List.eq_nil_or_concat l1 with rfl | ⟨l1', p, rfl⟩
    · rw [show findPrev s (s.getInfo b.thread) c (nd cfg b) = none from hfp]
      simp only []
      obtain ⟨q1, q2, q3⟩ := Chain.uncons hch
      have hq : ¬ (nextOf s (s.getInfo b.thread) c none ≠ nd cfg b) := by simp only [nextOf]; rw [q1]; simp
      rw [if_neg hq]
      rw [← q1] at q3
      refine finishReturn_ok hi hb rfl p3 p4 p5 rfl rfl rfl rfl rfl rfl rfl (fun _ _ => rfl) ?_
      intro _ u d hd
      by_cases hx : u = b.thread ∧ d = c
      · obtain ⟨rfl, rfl⟩ := hx
        rw [if_pos rfl, hfl]
        simp only [Function.update_self, List.nil_append]
        exact q3
      · rw [other u d hd hx]
        by_cases hy : u = b.thread
        · subst hy
          have hdc : d ≠ c := fun e => hx ⟨rfl, e⟩
          rw [if_pos rfl]
          simp only [Function.update_of_ne hdc]
          exact hi.inuse hdb _ d hd
        · rw [if_neg hy]
          exact hi.inuse hdb u d hd
    · simp only [List.concat_eq_append] at *
      rw [show findPrev s (s.getInfo b.thread) c (nd cfg b) = some p by rw [hfp]; simp]
      simp only []
      have hp : p ∈ lst cfg s.tc h.used (b.thread * cfg.num + c) := by rw [hl]; simp
      have hnx : s.next p = nd cfg b := by
        clear hfp hfl hl
        have hch' := hch
        revert hch'
        clear hch hmem hnl
        generalize (s.getInfo b.thread).rootInuse c = r
        clear hn1
        intro hch
        induction l1' generalizing r with
        | nil =>
          simp only [List.nil_append, List.cons_append] at hch
          obtain ⟨e1, _, h3⟩ := hch.uncons
          obtain ⟨e2, _, _⟩ := h3.uncons
          rw [e1, e2]
        | cons x l ih =>
          simp only [List.cons_append] at hch
          exact ih _ hch.uncons.2.2
      have hq : ¬ (nextOf s (s.getInfo b.thread) c (some p) ≠ nd cfg b) := by simp only [nextOf]; rw [hnx]; simp
      rw [if_neg hq]
      have hrm : Chain (Function.update s.next p (s.next (nd cfg b))) ((s.getInfo b.thread).rootInuse c) (l1' ++ p :: l2) := by
        refine Chain.remove ?_ ?_
        · simpa using hch
        · rw [hl] at hnl; simpa using hnl
      obtain ⟨bp, hbp, hbp1, hbp2⟩ := mem_lst.1 hp
      refine finishReturn_ok hi hb rfl p3 p4 p5 rfl rfl rfl rfl rfl rfl rfl (fun x hx => ?_) ?_
      · refine Function.update_of_ne ?_ _ _
        rintro rfl
        refine hx bp hbp ?_ hbp2
        obtain ⟨_, _, c', r3, r4, _⟩ := hi.blk bp (by simp [hbp])
        exact (tc_inj r3 p3 (r4.symm.trans hbp1)).1
      intro _ u d hd
      by_cases hx : u = b.thread ∧ d = c
      · obtain ⟨rfl, rfl⟩ := hx
        rw [if_pos rfl, hfl]
        simpa using hrm
      · rw [other u d hd hx]
        have : Chain (Function.update s.next p (s.next (nd cfg b))) ((s.getInfo u).rootInuse d)
            (lst cfg s.tc h.used (u * cfg.num + d)) := by
          refine (hi.inuse hdb u d hd).congr fun x hx' => Function.update_of_ne ?_ _ _
          rintro rfl
          have e1 := lst_tc hp
          rw [lst_tc hx'] at e1
          exact hx (tc_inj hd p3 e1)
        by_cases hy : u = b.thread
        · rw [if_pos hy, ← hy]; exact this
        · rw [if_neg hy]; exact this
  · rw [if_neg hdb]
    refine finishReturn_ok hi hb rfl p3 p4 p5 rfl rfl rfl rfl rfl rfl rfl (fun _ _ => rfl) ?_
    intro h; exact absurd h hdb

/-! ### free_available -/

/-- the loop that frees one list -/
theorem freeLoop (capacity : ℕ) (l : List ℕ) : ∀ (s : State) (n r : ℕ), Chain s.next r l → l.Nodup →
    (∀ a ∈ l, s.isLive a = true) → l.length * capacity ≤ n →
    whileLoop (fun x : State × ℕ × ℕ × Bool => x.2.2.1 != 0 && !x.2.2.2) (freeStep capacity) (s, n, r, false) =
      ({ s with live := s.live.filter fun x => x.1 ∉ l }, n - l.length * capacity, 0, false) := by
  induction l with
  | nil =>
    intro s n r hc _ _ _
    have hr : r = 0 := hc.of_nil
    subst hr
    rw [whileLoop_false (by simp)]
    simp
  | cons a l ih =>
    intro s n r hc hn hl hcap
    obtain ⟨e, h0, hc'⟩ := hc.uncons
    subst e
    have hn' := List.nodup_cons.1 hn
    rw [List.length_cons, Nat.add_mul, Nat.one_mul] at hcap
    rw [whileLoop_true (by simp [h0])]
    have hstep : freeStep capacity (s, n, a, false) = (s.sysDelete a, n - capacity, s.next a, false) := by
      unfold freeStep
      simp only [hl a (by simp), Bool.not_true, Bool.false_eq_true, if_false]
      rw [if_neg (by omega)]
    rw [hstep]
    have := ih (s.sysDelete a) (n - capacity) (s.next a) hc' hn'.2 (fun x hx => ?_) (by omega)
    · rw [this]
      refine Prod.ext ?_ (Prod.ext ?_ rfl)
      · simp only [State.sysDelete, List.filter_filter, State.mk.injEq, and_true]
        refine List.filter_congr fun x _ => ?_
        simp only [List.mem_cons, decide_not, not_or, Bool.decide_and]
        rw [Bool.and_comm]
      · simp only [List.length_cons, Nat.add_mul, Nat.one_mul]; omega
    · have := hl x (by simp [hx])
      unfold State.isLive State.sysDelete at *
      rw [List.any_eq_true] at *
      obtain ⟨y, hy, hy2⟩ := this
      have hy2' : y.1 = x := by simpa using hy2
      refine ⟨y, List.mem_filter.2 ⟨hy, ?_⟩, hy2⟩
      simp only [decide_not, Bool.not_eq_eq_eq_not, Bool.not_true, decide_eq_false_iff_not, hy2']
      rintro rfl; exact hn'.1 hx

theorem filter_map_mem (l : List Blk) (m : List ℕ) (p : Blk → Bool) (hp : ∀ b ∈ l, p b = true ↔ nd cfg b ∉ m) :
    (l.map fun b => (nd cfg b, cfg.hdr + b.cap)).filter (fun y => y.1 ∉ m) =
      (l.filter p).map fun b => (nd cfg b, cfg.hdr + b.cap) := by
  induction l with
  | nil => rfl
  | cons b l ih =>
    have ih := ih fun b hb => hp b (by simp [hb])
    have hb := hp b (by simp)
    by_cases h1 : nd cfg b ∈ m
    · have : p b = false := by
        cases h : p b with
        | false => rfl
        | true => exact absurd h1 (hb.1 h)
      rw [List.filter_cons_of_neg (by simp [this]), List.map_cons, List.filter_cons_of_neg (by simp [h1]), ih]
    · rw [List.filter_cons_of_pos (hb.2 h1), List.map_cons, List.filter_cons_of_pos (by simp [h1]), ih, List.map_cons]

theorem lst_filter_tc (tc : ℕ → ℕ) (l : List Blk) (k j : ℕ) :
    lst cfg tc (l.filter fun b => tc (nd cfg b) ≠ j) k = if k = j then [] else lst cfg tc l k := by
  unfold lst
  rw [List.filter_filter]
  split_ifs with h
  · subst h
    simp
  · congr 1
    refine List.filter_congr fun b _ => ?_
    by_cases hb : tc (nd cfg b) = k
    · simp [hb, h]
    · simp [hb]

theorem total_tc {s : State} {h : Hist} (hi : Inv cfg s h) {t c : ℕ} (hc : c < cfg.num) (l : List Blk)
    (hl : ∀ b ∈ l, b ∈ h.used ++ h.held) (u : ℕ) :
    total l u = total (l.filter fun b => s.tc (nd cfg b) ≠ t * cfg.num + c) u +
      if u = t then (lst cfg s.tc l (t * cfg.num + c)).length * cfg.cap c else 0 := by
  induction l with
  | nil => simp [total, lst]
  | cons b l ih =>
    have ih := ih fun b hb => hl b (by simp [hb])
    obtain ⟨_, _, c', p3, p4, p5⟩ := hi.blk b (hl b (by simp))
    rw [total_cons, ih, lst_cons]
    by_cases hb : s.tc (nd cfg b) = t * cfg.num + c
    · obtain ⟨e1, e2⟩ := tc_inj p3 hc (p4.symm.trans hb)
      subst e2
      rw [List.filter_cons_of_neg (by simp [hb]), if_pos hb, e1, p5]
      by_cases hu : u = t
      · subst hu; simp only [if_pos, List.length_cons]; ring
      · rw [if_neg hu, if_neg hu, if_neg (fun e => hu e.symm)]; omega
    · rw [List.filter_cons_of_pos (by simpa using hb), if_neg hb, total_cons]
      omega

theorem freeCap_ok {s : State} {h : Hist} (hi : Inv cfg s h) {t c : ℕ} (hc : c < cfg.num) :
    ∃ s', freeCap cfg t s c = .ok s' ∧ s'.tc = s.tc ∧ s'.next = s.next ∧
      (∀ u, u ≠ t → s'.getInfo u = s.getInfo u) ∧
      Inv cfg s' { h with held := h.held.filter fun b => s.tc (nd cfg b) ≠ t * cfg.num + c } := by
  have htot := total_tc hi (t := t) hc h.held (fun b hb => by simp [hb])
  have hloop := freeLoop (cfg.cap c) (lst cfg s.tc h.held (t * cfg.num + c)) s (s.getInfo t).avail ((s.getInfo t).rootAvail c)
    (hi.avail t c hc) (lst_nodup hi.held_nodup _) (fun a ha => ?_) ?_
  · unfold freeCap
    simp only []
    rw [hloop]
    simp only [Bool.false_eq_true, if_false]
    refine ⟨_, rfl, rfl, rfl, fun u hu => by rw [getInfo_setInfo, if_neg hu]; rfl, ?_⟩
    set l := lst cfg s.tc h.held (t * cfg.num + c) with hl
    have hgs : ∀ u, (State.setInfo { s with live := s.live.filter fun x => x.1 ∉ l } t
        ⟨(s.getInfo t).inuse, (s.getInfo t).avail - l.length * cfg.cap c,
          Function.update (s.getInfo t).rootAvail c 0, (s.getInfo t).rootInuse⟩).getInfo u = if u = t then
        ⟨(s.getInfo t).inuse, (s.getInfo t).avail - l.length * cfg.cap c,
          Function.update (s.getInfo t).rootAvail c 0, (s.getInfo t).rootInuse⟩ else s.getInfo u := by
      intro u
      rw [getInfo_setInfo]
      rfl
    have hsub : (h.used ++ h.held.filter fun b => s.tc (nd cfg b) ≠ t * cfg.num + c).Sublist (h.used ++ h.held) :=
      List.Sublist.append (List.Sublist.refl _) List.filter_sublist
    refine ⟨fun d hd => hi.blk d (hsub.subset hd), hi.nodup.sublist (hsub.map _), ?_, hi.disj.filter _, fun u d hd => ?_,
      fun hdb u d hd => ?_, fun u => ?_, fun u => ?_, hi.hold⟩
    · refine (hi.live.filter _).trans ?_
      rw [List.map_append, List.filter_append, List.map_append]
      refine List.Perm.append ?_ ?_
      · rw [List.filter_eq_self.2]
        intro x hx
        obtain ⟨b, hb, rfl⟩ := List.mem_map.1 hx
        simp only [decide_not, Bool.not_eq_eq_eq_not, Bool.not_true, decide_eq_false_iff_not]
        intro hm
        obtain ⟨b', hb', _, e⟩ := mem_lst.1 hm
        exact hi.apart hb hb' e.symm
      · rw [filter_map_mem _ _ (fun b => decide (s.tc (nd cfg b) ≠ t * cfg.num + c))]
        intro b hb
        simp only [decide_eq_true_eq]
        refine not_congr ⟨fun e => mem_lst.2 ⟨b, hb, e, rfl⟩, fun hm => lst_tc hm⟩
    · rw [hgs]
      simp only []
      rw [show (State.setInfo { s with live := s.live.filter fun x => x.1 ∉ l } t
        ⟨(s.getInfo t).inuse, (s.getInfo t).avail - l.length * cfg.cap c,
          Function.update (s.getInfo t).rootAvail c 0, (s.getInfo t).rootInuse⟩).tc = s.tc from rfl, lst_filter_tc]
      by_cases hx : u = t
      · subst hx
        rw [if_pos rfl]
        by_cases hy : d = c
        · subst hy
          simp only [if_true, Function.update_self]
          exact .nil
        · rw [if_neg (by intro e; exact hy (tc_inj hd hc e).2)]
          simp only [Function.update_of_ne hy]
          exact hi.avail u d hd
      · rw [if_neg hx, if_neg (by intro e; exact hx (tc_inj hd hc e).1)]
        exact hi.avail u d hd
    · rw [hgs]
      have := hi.inuse hdb u d hd
      by_cases hx : u = t
      · subst hx; rw [if_pos rfl]; exact this
      · rw [if_neg hx]; exact this
    · rw [hgs]
      by_cases hx : u = t
      · subst hx; rw [if_pos rfl]; exact hi.nInuse u
      · rw [if_neg hx]; exact hi.nInuse u
    · rw [hgs]
      have := htot u
      by_cases hx : u = t
      · subst hx
        rw [if_pos rfl]
        rw [if_pos rfl] at this
        simp only []
        rw [hi.nAvail, this]; omega
      · rw [if_neg hx]
        rw [if_neg hx, Nat.add_zero] at this
        exact (hi.nAvail u).trans this
  · obtain ⟨b, hb, _, rfl⟩ := mem_lst.1 ha
    exact hi.isLive (by simp [hb])
  · have := htot t
    rw [if_pos rfl] at this
    rw [hi.nAvail]; omega

theorem total_zero {l : List Blk} {t : ℕ} (hp : ∀ b ∈ l, 0 < b.cap) : total l t = 0 ↔ ∀ b ∈ l, b.thread ≠ t := by
  induction l with
  | nil => simp [total]
  | cons b l ih =>
    rw [total_cons, Nat.add_eq_zero_iff, ih fun b hb => hp b (by simp [hb])]
    have := hp b (by simp)
    constructor
    · rintro ⟨h1, h2⟩ d hd
      rcases List.mem_cons.1 hd with rfl | hd
      · intro e; rw [if_pos e] at h1; omega
      · exact h2 d hd
    · intro h
      exact ⟨if_neg (h b (by simp)), fun d hd => h d (by simp [hd])⟩

theorem freeAvailable_ok {s : State} {h : Hist} (hi : Inv cfg s h) {cur t : ℕ} {par : Bool} (ht : t < cfg.maxThreads)
    (hpar : par = true → t = cur) :
    ∃ s', freeAvailable cfg cur par t s = .ok s' ∧ Inv cfg s' { h with held := h.held.filter fun b => b.thread ≠ t } ∧
      Frame cfg t h s s' := by
  have hfold : ∀ k, k ≤ cfg.num → ∃ s', (List.range k).foldlM (freeCap cfg t) s = .ok s' ∧ s'.tc = s.tc ∧ s'.next = s.next ∧
      (∀ u, u ≠ t → s'.getInfo u = s.getInfo u) ∧ Inv cfg s' { h with held := h.held.filter fun b => ∀ c < k, s.tc (nd cfg b) ≠ t * cfg.num + c } := by
    intro k
    induction k with
    | zero =>
      intro _
      refine ⟨s, rfl, rfl, rfl, fun _ _ => rfl, ?_⟩
      simpa using hi
    | succ k ih =>
      intro hk
      obtain ⟨s1, h1, h2, hnx, hgi, h3⟩ := ih (by omega)
      obtain ⟨s2, g1, g2, gnx, ggi, g3⟩ := freeCap_ok h3 (t := t) (c := k) (by omega)
      refine ⟨s2, ?_, g2.trans h2, gnx.trans hnx, fun u hu => (ggi u hu).trans (hgi u hu), ?_⟩
      · rw [List.range_succ, List.foldlM_append, h1]
        simp only [List.foldlM_cons, List.foldlM_nil]
        change (freeCap cfg t s1 k >>= _) = _
        rw [g1]; rfl
      · simp only [h2, List.filter_filter] at g3
        have e : (h.held.filter fun b => decide (s.tc (nd cfg b) ≠ t * cfg.num + k) &&
            decide (∀ c < k, s.tc (nd cfg b) ≠ t * cfg.num + c)) =
            h.held.filter fun b => decide (∀ c < k + 1, s.tc (nd cfg b) ≠ t * cfg.num + c) := by
          refine List.filter_congr fun b _ => ?_
          rw [← Bool.decide_and, decide_eq_decide]
          constructor
          · rintro ⟨h1, h2⟩ c hc
            by_cases e : c = k
            · subst e; exact h1
            · exact h2 c (by omega)
          · intro h
            exact ⟨h k (by omega), fun c hc => h c (by omega)⟩
        rw [e] at g3
        exact g3
  obtain ⟨s1, h1, h2, hnx, hgi, h3⟩ := hfold cfg.num le_rfl
  have e : (h.held.filter fun b => decide (∀ c < cfg.num, s.tc (nd cfg b) ≠ t * cfg.num + c)) =
      h.held.filter fun b => decide (b.thread ≠ t) := by
    refine List.filter_congr fun b hb => ?_
    rw [decide_eq_decide]
    obtain ⟨_, _, c', p3, p4, p5⟩ := hi.blk b (by simp [hb])
    constructor
    · intro h e; exact h c' p3 (by rw [p4, e])
    · intro h c hc e; exact h (tc_inj p3 hc (p4.symm.trans e)).1
  rw [e] at h3
  have hcp : ∀ b ∈ h.used ++ h.held, 0 < b.cap := by
    intro b hb
    obtain ⟨_, _, c', p3, p4, p5⟩ := hi.blk b hb
    rw [p5]; exact cap_pos p3
  have hav : (s1.getInfo t).avail = 0 := by
    rw [h3.nAvail]
    simp only []
    refine (total_zero fun b hb => hcp b ?_).2 fun b hb => ?_
    · have := (List.mem_filter.1 hb).1; simp [this]
    · simpa using (List.mem_filter.1 hb).2
  unfold freeAvailable
  rw [if_neg (by simpa using ht), if_neg (by rintro ⟨q1, q2⟩; exact q1 (hpar q2)), h1]
  change ∃ s', (if (s1.getInfo t).avail ≠ 0 then Except.error Err.assert
    else if (s1.getInfo t).inuse = 0 then .ok { s1 with info := Function.update s1.info t none } else .ok s1) = .ok s' ∧ _
  have hav' : ¬ (s1.getInfo t).avail ≠ 0 := by simp [hav]
  rw [if_neg hav']
  by_cases hin : (s1.getInfo t).inuse = 0
  · rw [if_pos hin]
    refine ⟨_, rfl, ?_⟩
    have hgs : ∀ u, State.getInfo { s1 with info := Function.update s1.info t none } u =
        if u = t then Info.zero else s1.getInfo u := by
      intro u
      unfold State.getInfo
      by_cases hx : u = t
      · subst hx; simp
      · simp [hx]
    refine ⟨?_, fun u hu => by rw [hgs, if_neg hu]; exact hgi u hu, fun d _ _ => ⟨congrFun hnx _, congrFun h2 _⟩⟩
    have hu0 : ∀ b ∈ h.used, b.thread ≠ t := by
      rw [h3.nInuse] at hin
      exact (total_zero fun b hb => hcp b (by simp [hb])).1 hin
    have hnil : ∀ (l : List Blk), (∀ b ∈ l, b ∈ h.used ++ h.held) → (∀ b ∈ l, b.thread ≠ t) → ∀ d < cfg.num,
        lst cfg s1.tc l (t * cfg.num + d) = [] := by
      intro l hl1 hl2 d hd
      rw [List.eq_nil_iff_forall_not_mem]
      intro a ha
      obtain ⟨b, hb, e1, _⟩ := mem_lst.1 ha
      obtain ⟨_, _, c', p3, p4, p5⟩ := hi.blk b (hl1 b hb)
      rw [h2, p4] at e1
      exact hl2 b hb (tc_inj p3 hd e1).1
    refine ⟨h3.blk, h3.nodup, h3.live, h3.disj, fun u d hd => ?_, fun hdb u d hd => ?_, fun u => ?_, fun u => ?_, h3.hold⟩
    · rw [hgs]
      by_cases hx : u = t
      · subst hx
        rw [if_pos rfl]
        have := hnil (h.held.filter fun b => b.thread ≠ u) (fun b hb => by simp [(List.mem_filter.1 hb).1])
          (fun b hb => by simpa using (List.mem_filter.1 hb).2) d hd
        simp only []
        rw [this]
        exact .nil
      · rw [if_neg hx]; exact h3.avail u d hd
    · rw [hgs]
      by_cases hx : u = t
      · subst hx
        rw [if_pos rfl]
        have := hnil h.used (fun b hb => by simp [hb]) hu0 d hd
        simp only []
        rw [this]
        exact .nil
      · rw [if_neg hx]; exact h3.inuse hdb u d hd
    · rw [hgs]
      by_cases hx : u = t
      · subst hx
        rw [if_pos rfl]
        have := h3.nInuse u
        rw [hin] at this
        exact this
      · rw [if_neg hx]; exact h3.nInuse u
    · rw [hgs]
      by_cases hx : u = t
      · subst hx
        rw [if_pos rfl]
        have := h3.nAvail u
        rw [hav] at this
        exact this
      · rw [if_neg hx]; exact h3.nAvail u
  · rw [if_neg hin]
    exact ⟨s1, rfl, h3, hgi, fun d _ _ => ⟨congrFun hnx _, congrFun h2 _⟩⟩

theorem freeAll_ok {s : State} {h : Hist} (hi : Inv cfg s h) (cur : ℕ) :
    ∃ s', freeAll cfg cur s = .ok (decide (h.used = []), s') ∧ Inv cfg s' { h with held := [] } := by
  -- threads `k ≤ t < maxThreads` have been processed
  have hfold : ∀ n k, n + k = cfg.maxThreads → ∃ s', ((List.range cfg.maxThreads).reverse.take n).foldlM (fun x t => do
      let s ← freeAvailable cfg cur false t x.2
      pure (x.1 && (inuse x.2 t == 0), s)) (true, s) = .ok (decide (∀ b ∈ h.used, b.thread < k), s') ∧
      Inv cfg s' { h with held := h.held.filter fun b => b.thread < k } := by
    intro n
    induction n with
    | zero =>
      intro k hk
      have hall : ∀ b ∈ h.used ++ h.held, b.thread < k := by
        intro b hb
        have := (hi.blk b hb).2.1
        omega
      refine ⟨s, ?_, ?_⟩
      · simp only [List.take_zero, List.foldlM_nil]
        have : decide (∀ b ∈ h.used, b.thread < k) = true := by simpa using fun b hb => hall b (by simp [hb])
        rw [this]; rfl
      · have : (h.held.filter fun b => decide (b.thread < k)) = h.held :=
          List.filter_eq_self.2 fun b hb => by simpa using hall b (by simp [hb])
        rw [this]; exact hi
    | succ n ih =>
      intro k hk
      obtain ⟨s1, h1, h2⟩ := ih (k + 1) (by omega)
      have hkm : k < cfg.maxThreads := by omega
      obtain ⟨s2, g1, g2, _⟩ := freeAvailable_ok h2 (cur := cur) (t := k) (par := false) hkm (by simp)
      refine ⟨s2, ?_, ?_⟩
      · have hlen : n < (List.range cfg.maxThreads).reverse.length := by simp; omega
        rw [← List.take_concat_get' _ _ hlen, List.foldlM_append, h1]
        have hget : (List.range cfg.maxThreads).reverse[n] = k := by
          rw [List.getElem_reverse, List.getElem_range]; simp; omega
        simp only [List.foldlM_cons, List.foldlM_nil, hget]
        change ((freeAvailable cfg cur false k s1 >>= fun s => pure (_, s)) >>= fun x => pure x) = _
        rw [g1]
        change Except.ok (decide (∀ b ∈ h.used, b.thread < k + 1) && (inuse s1 k == 0), s2) = _
        congr 2
        have hin : inuse s1 k = total h.used k := h2.nInuse k
        rw [hin, Bool.eq_iff_iff]
        simp only [Bool.and_eq_true, decide_eq_true_eq, beq_iff_eq]
        rw [total_zero fun b hb => ?_]
        · constructor
          · rintro ⟨q1, q2⟩ b hb
            have := q1 b hb; have := q2 b hb; omega
          · intro q
            exact ⟨fun b hb => by have := q b hb; omega, fun b hb => by have := q b hb; omega⟩
        · obtain ⟨_, _, c', p3, p4, p5⟩ := hi.blk b (by simp [hb])
          rw [p5]; exact cap_pos p3
      · simp only [List.filter_filter] at g2
        have e : (h.held.filter fun b => decide (b.thread ≠ k) && decide (b.thread < k + 1)) =
            h.held.filter fun b => decide (b.thread < k) := by
          refine List.filter_congr fun b _ => ?_
          rw [← Bool.decide_and, decide_eq_decide]
          omega
        rw [e] at g2
        exact g2
  obtain ⟨s', h1, h2⟩ := hfold cfg.maxThreads 0 (by omega)
  refine ⟨s', ?_, ?_⟩
  · unfold freeAll
    rw [List.take_of_length_le (by simp)] at h1
    rw [h1]
    congr 2
    rw [decide_eq_decide]
    constructor
    · intro q
      rw [List.eq_nil_iff_forall_not_mem]
      intro b hb
      have := q b hb; omega
    · intro q; rw [q]; simp
  · simpa using h2

theorem Reach.inv {s : State} {h : Hist} (hr : Reach cfg s h) : Inv cfg s h := by
  induction hr with
  | init => exact Inv.init
  | @step s h call out s' _ hv he hi =>
    cases call with
    | get t m a =>
      obtain ⟨v1, v2, v3⟩ := hv
      simp only [exec] at he
      by_cases hne : (s.getInfo t).rootAvail (cfg.caps.findIdx fun v => ¬ v < m) = 0
      · obtain ⟨q1, _, s1, g1, _, g3⟩ := getMemory_fresh hi v1 v2 v3 hne
        rw [g1] at he
        cases he
        simp only [Hist.update]
        have : (h.held.filter fun b => b.ptr ≠ a + cfg.hdr) = h.held := by
          rw [List.filter_eq_self]
          intro b hb
          have := g3.nodup
          simp only [List.cons_append, List.map_cons, List.nodup_cons] at this
          have h2 := hi.ptr (b := b) (by simp [hb])
          simp only [decide_not, Bool.not_eq_eq_eq_not, Bool.not_true, decide_eq_false_iff_not]
          intro e
          refine this.1 (List.mem_map.2 ⟨b, by simp [hb], ?_⟩)
          unfold nd; simp only; omega
        rw [this]; exact g3
      · obtain ⟨b, hb, e1, _, _, s1, g1, _, g3⟩ := getMemory_reuse hi a v2 hne
        rw [g1] at he
        cases he
        simp only [Hist.update]
        subst e1
        exact g3
    | ret cur par ptr =>
      obtain ⟨b, hb, rfl, hp⟩ := hv
      obtain ⟨s1, g1, g2, _⟩ := returnMemory_ok hi hb hp
      simp only [exec] at he
      rw [g1] at he
      cases he
      simp only [Hist.update]
      have : h.used.filter (fun d => d.ptr = b.ptr) = [b] := by
        refine filter_single hi.used_nodup hb _ fun d hd => ?_
        have := hi.ptr_ne (b := b) (d := d) (by simp [hb]) (by simp [hd])
        simp only [decide_eq_true_eq]
        exact not_iff_not.1 this
      rw [this]
      exact g2
    | hold v =>
      simp only [exec] at he
      cases he
      exact ⟨hi.blk, hi.nodup, hi.live, hi.disj, hi.avail, hi.inuse, hi.nInuse, hi.nAvail, rfl⟩
    | free cur par t =>
      obtain ⟨s1, g1, g2, _⟩ := freeAvailable_ok hi hv.1 hv.2
      simp only [exec] at he
      rw [g1] at he
      cases he
      exact g2
    | freeAll cur =>
      obtain ⟨s1, g1, g2⟩ := freeAll_ok hi cur
      simp only [exec] at he
      rw [g1] at he
      cases he
      exact g2

/-! ## Theorems -/

/-- **C28.**  No sequence of valid calls leads to an error: assertions hold and only memory that is allocated is accessed. -/
theorem no_error {s : State} {h : Hist} (hr : Reach cfg s h) {call : Call} (hv : call.Valid cfg s h) :
    ∃ out s', exec cfg s call = .ok (out, s') := by
  have hi := hr.inv
  cases call with
  | get t m a =>
    obtain ⟨v1, v2, v3⟩ := hv
    by_cases hne : (s.getInfo t).rootAvail (cfg.caps.findIdx fun v => ¬ v < m) = 0
    · obtain ⟨_, _, s1, g1, _, _⟩ := getMemory_fresh hi v1 v2 v3 hne
      exact ⟨_, _, by simp only [exec]; rw [g1]; rfl⟩
    · obtain ⟨b, _, _, _, _, s1, g1, _, _⟩ := getMemory_reuse hi a v2 hne
      exact ⟨_, _, by simp only [exec]; rw [g1]; rfl⟩
  | ret cur par ptr =>
    obtain ⟨b, hb, rfl, hp⟩ := hv
    obtain ⟨s1, g1, _⟩ := returnMemory_ok hi hb hp
    exact ⟨_, _, by simp only [exec]; rw [g1]; rfl⟩
  | hold v => exact ⟨_, _, rfl⟩
  | free cur par t =>
    obtain ⟨s1, g1, _⟩ := freeAvailable_ok hi hv.1 hv.2
    exact ⟨_, _, by simp only [exec]; rw [g1]; rfl⟩
  | freeAll cur =>
    obtain ⟨s1, g1, _⟩ := freeAll_ok hi cur
    exact ⟨_, _, by simp only [exec]; rw [g1]; rfl⟩

theorem Inv.blk_disjoint {s : State} {h : Hist} (hi : Inv cfg s h) {b d : Blk} (hb : b ∈ h.used ++ h.held)
    (hd : d ∈ h.used ++ h.held) (hne : b ≠ d) : b.Disjoint d := by
  have hb1 : (nd cfg b, cfg.hdr + b.cap) ∈ s.live := hi.live.mem_iff.2 (List.mem_map.2 ⟨b, hb, rfl⟩)
  have hd1 : (nd cfg d, cfg.hdr + d.cap) ∈ s.live := hi.live.mem_iff.2 (List.mem_map.2 ⟨d, hd, rfl⟩)
  have hsym : Std.Symm (fun x y : ℕ × ℕ => x.1 + x.2 ≤ y.1 ∨ y.1 + y.2 ≤ x.1) := ⟨fun x y h => h.symm⟩
  have := hi.disj.forall hb1 hd1 (by
    intro e
    exact hne (hi.nd_inj hb hd (congrArg Prod.fst e)))
  have h1 := hi.ptr hb
  have h2 := hi.ptr hd
  unfold Blk.Disjoint
  simp only at this
  omega

/-- **C28.**  get_memory returns at least the requested number of bytes; the block does not overlap a block in use (or a block that
stays held for quick use), and its bytes are part of memory obtained from the system and not returned to it. -/
theorem get_memory_ok {s : State} {h : Hist} (hr : Reach cfg s h) {t m a : ℕ} (hv : (Call.get t m a).Valid cfg s h)
    {p c : ℕ} {s' : State} (he : exec cfg s (.get t m a) = .ok (.mem p c, s')) :
    m ≤ c ∧ c = cfg.capFor m ∧ (∀ b ∈ h.used, Blk.Disjoint ⟨p, t, c⟩ b) ∧
      (∀ b ∈ h.held, b.ptr ≠ p → Blk.Disjoint ⟨p, t, c⟩ b) ∧
      (∃ x ∈ s'.live, x.1 + cfg.hdr = p ∧ x.1 + x.2 = p + c) := by
  have hi' := (Reach.step hr hv he).inv
  have hi := hr.inv
  have hcap : m ≤ c ∧ c = cfg.capFor m := by
    obtain ⟨v1, v2, v3⟩ := hv
    simp only [exec] at he
    by_cases hne : (s.getInfo t).rootAvail (cfg.caps.findIdx fun v => ¬ v < m) = 0
    · obtain ⟨_, q, s1, g1, _, _⟩ := getMemory_fresh hi v1 v2 v3 hne
      rw [g1] at he
      cases he
      exact ⟨q, rfl⟩
    · obtain ⟨b, _, _, q1, q2, s1, g1, _, _⟩ := getMemory_reuse hi a v2 hne
      rw [g1] at he
      cases he
      exact ⟨q2, q1⟩
  simp only [Hist.update] at hi'
  have hnew : (⟨p, t, c⟩ : Blk) ∈ (⟨p, t, c⟩ :: h.used) ++ h.held.filter (fun b => b.ptr ≠ p) := by simp
  refine ⟨hcap.1, hcap.2, fun b hb => ?_, fun b hb hne => ?_, ?_⟩
  · refine hi'.blk_disjoint hnew (by simp [hb]) ?_
    rintro rfl
    have := hi'.nodup
    simp only [List.cons_append, List.map_cons, List.nodup_cons] at this
    exact this.1 (List.mem_map.2 ⟨_, by simp [hb], rfl⟩)
  · refine hi'.blk_disjoint hnew (by simp [hb, hne]) ?_
    rintro rfl
    exact hne rfl
  · refine ⟨(nd cfg ⟨p, t, c⟩, cfg.hdr + c), hi'.live.mem_iff.2 (List.mem_map.2 ⟨_, hnew, rfl⟩), ?_, ?_⟩
    · exact hi'.ptr hnew
    · have := hi'.ptr hnew
      simp only at this ⊢
      omega

/-- **C28.**  A block held for the thread with the required capacity is used before memory is obtained from the system. -/
theorem get_memory_reuses {s : State} {h : Hist} (hr : Reach cfg s h) {t m a : ℕ} (hv : (Call.get t m a).Valid cfg s h)
    {p c : ℕ} {s' : State} (he : exec cfg s (.get t m a) = .ok (.mem p c, s')) :
    if ∃ b ∈ h.held, b.thread = t ∧ b.cap = cfg.capFor m then (⟨p, t, c⟩ : Blk) ∈ h.held ∧ s'.live = s.live
    else p = a + cfg.hdr ∧ s'.live = (a, cfg.hdr + c) :: s.live := by
  have hi := hr.inv
  obtain ⟨v1, v2, v3⟩ := hv
  simp only [exec] at he
  by_cases hne : (s.getInfo t).rootAvail (cfg.caps.findIdx fun v => ¬ v < m) = 0
  · obtain ⟨q0, q, s1, g1, g2, _⟩ := getMemory_fresh hi v1 v2 v3 hne
    rw [if_neg q0]
    rw [g1] at he
    cases he
    exact ⟨rfl, g2⟩
  · obtain ⟨b, hb, q0, q1, q2, s1, g1, g2, _⟩ := getMemory_reuse hi a v2 hne
    rw [if_pos ⟨b, hb, q0, q1⟩]
    rw [g1] at he
    cases he
    subst q0
    exact ⟨hb, g2⟩

/-- **C28.**  inuse(thread) and available(thread) are the number of bytes in use by, and held for, the thread. -/
theorem counts_ok {s : State} {h : Hist} (hr : Reach cfg s h) (t : ℕ) :
    inuse s t = total h.used t ∧ available s t = total h.held t := ⟨hr.inv.nInuse t, hr.inv.nAvail t⟩

/-- **C28.**  Blocks in use and held blocks never overlap, no block is both, and they account for all the memory that was obtained from
the system and not returned to it. -/
theorem blocks_ok {s : State} {h : Hist} (hr : Reach cfg s h) :
    (h.used ++ h.held).Pairwise Blk.Disjoint ∧ (h.used ++ h.held).Nodup ∧
      s.live.Perm ((h.used ++ h.held).map fun b => (b.ptr - cfg.hdr, cfg.hdr + b.cap)) := by
  have hi := hr.inv
  have hnd : (h.used ++ h.held).Nodup := hi.nodup.of_map
  refine ⟨?_, hnd, hi.live⟩
  refine List.Pairwise.imp_of_mem (R := (· ≠ ·)) ?_ hnd
  intro b d hb hd hne
  exact hi.blk_disjoint hb hd hne

/-- **C28.**  free_all returns true exactly when no memory is in use. -/
theorem free_all_ok {s : State} {h : Hist} (hr : Reach cfg s h) (cur : ℕ) :
    ∃ s', exec cfg s (.freeAll cur) = .ok (.bool (decide (h.used = [])), s') := by
  obtain ⟨s', g1, _⟩ := freeAll_ok hr.inv cur
  exact ⟨s', by simp only [exec]; rw [g1]; rfl⟩

/-- **C28.**  In debug mode, returning memory a second time, while it is held for quick use, is reported to the user. -/
theorem double_return {s : State} {h : Hist} (hr : Reach cfg s h) (hdb : cfg.debug = true) {b : Blk} (hb : b ∈ h.held)
    (cur : ℕ) (par : Bool) : returnMemory cfg cur par b.ptr s = .error .user := by
  have hi := hr.inv
  have hbm : b ∈ h.used ++ h.held := by simp [hb]
  obtain ⟨p1, p2, c, p3, p4, p5⟩ := hi.blk b hbm
  unfold returnMemory
  have hnd : b.ptr - cfg.hdr = nd cfg b := rfl
  simp only []
  rw [hnd, if_neg (by rw [hi.isLive hbm]; simp), p4, num_div p3, num_mod p3, if_neg (by simpa using p2)]
  split_ifs with h1 h2
  · rfl
  · rfl
  · exfalso
    have hne : nd cfg b ≠ 0 := by unfold nd; omega
    refine findPrev_none (hi.inuse hdb b.thread c p3) ?_ hne none rfl (not_not.1 h2)
    intro hm
    obtain ⟨b', hb', _, e⟩ := mem_lst.1 hm
    exact hi.apart hb' hb e

theorem getMemory_frame {s : State} {t m a p c : ℕ} {s' : State} (he : getMemory cfg t m a s = .ok (p, c, s')) :
    (∀ u, u ≠ t → s'.getInfo u = s.getInfo u) ∧
      ∀ x, x ≠ p - cfg.hdr → s'.next x = s.next x ∧ s'.tc x = s.tc x := by
  unfold getMemory at he
  simp only [] at he
  by_cases h1 : ¬ m < cfg.maxSize / 2
  · rw [if_pos h1] at he; cases he
  rw [if_neg h1] at he
  by_cases h2 : ¬ (cfg.caps.findIdx fun v => decide ¬ v < m) < cfg.num
  · rw [if_pos h2] at he; cases he
  rw [if_neg h2] at he
  by_cases h3 : (s.getInfo t).rootAvail (cfg.caps.findIdx fun v => decide ¬ v < m) ≠ 0
  · rw [if_pos h3] at he
    split_ifs at he with h4 h5 h6 h7
    all_goals
      cases he
      refine ⟨fun u hu => by rw [getInfo_setInfo, if_neg hu] <;> rfl, fun x hx => ?_⟩
      simp only [Nat.add_sub_cancel] at hx
    · exact ⟨Function.update_of_ne hx _ _, rfl⟩
    · exact ⟨rfl, rfl⟩
  · rw [if_neg h3] at he
    by_cases h7 : cfg.debug = true
    · simp only [h7, if_true] at he
      cases he
      refine ⟨fun u hu => by rw [getInfo_setInfo, if_neg hu]; rfl, fun x hx => ?_⟩
      simp only [Nat.add_sub_cancel] at hx
      exact ⟨Function.update_of_ne hx _ _, Function.update_of_ne hx _ _⟩
    · simp only [h7] at he
      cases he
      refine ⟨fun u hu => by rw [getInfo_setInfo, if_neg hu]; rfl, fun x hx => ?_⟩
      simp only [Nat.add_sub_cancel] at hx
      exact ⟨rfl, Function.update_of_ne hx _ _⟩

/-- the thread that executes a call in parallel mode -/
def Call.By (t : ℕ) : Call → Prop
  | .get u _ _ => u = t
  | .ret cur par _ => cur = t ∧ par = true
  | .free cur par _ => cur = t ∧ par = true
  | _ => False

/-- **C28, parallel mode.**  A call in parallel mode by thread `t` does not change the record of another
thread, nor the header of a block that belongs to another thread; so calls by different threads do not interfere. -/
theorem frame {s : State} {h : Hist} (hr : Reach cfg s h) {call : Call} (hv : call.Valid cfg s h) {t : ℕ} (hby : call.By t)
    {out : Out} {s' : State} (he : exec cfg s call = .ok (out, s')) : Frame cfg t h s s' := by
  have hi := hr.inv
  cases call with
  | get u m a =>
    have hby : u = t := hby
    subst hby
    have hv0 := hv
    obtain ⟨v1, v2, v3⟩ := hv
    simp only [exec] at he
    by_cases hne : (s.getInfo u).rootAvail (cfg.caps.findIdx fun v => ¬ v < m) = 0
    · obtain ⟨_, _, s1, g1, _, g3⟩ := getMemory_fresh hi v1 v2 v3 hne
      have hf := getMemory_frame g1
      rw [g1] at he
      cases he
      refine ⟨hf.1, fun b hb _ => hf.2 _ ?_⟩
      intro e
      have := g3.nodup
      simp only [List.cons_append, List.map_cons, List.nodup_cons] at this
      refine this.1 (List.mem_map.2 ⟨b, hb, ?_⟩)
      rw [e]; rfl
    · obtain ⟨b, hb, e1, _, _, s1, g1, _, _⟩ := getMemory_reuse hi a v2 hne
      have hf := getMemory_frame g1
      rw [g1] at he
      cases he
      refine ⟨hf.1, fun d hd hdt => hf.2 _ ?_⟩
      intro e
      have : d = b := hi.nd_inj hd (by simp [hb]) e
      rw [this] at hdt
      exact hdt e1
  | ret cur par ptr =>
    obtain ⟨rfl, hp⟩ := hby
    obtain ⟨b, hb, rfl, hpar⟩ := hv
    obtain ⟨s1, g1, _, g3⟩ := returnMemory_ok hi hb hpar
    simp only [exec] at he
    rw [g1] at he
    cases he
    rw [hpar hp] at g3
    exact g3
  | free cur par u =>
    obtain ⟨rfl, hp⟩ := hby
    obtain ⟨s1, g1, _, g3⟩ := freeAvailable_ok hi hv.1 hv.2
    simp only [exec] at he
    rw [g1] at he
    cases he
    rw [hv.2 hp] at g3
    exact g3
  | hold v => exact absurd hby (by simp [Call.By])
  | freeAll cur => exact absurd hby (by simp [Call.By])

/-! ## Concrete cases -/

/-- sizes of a 64 bit system, thread_alloc.hpp:35-41 -/
def cfg64 (debug : Bool) : Cfg := ⟨2 ^ 64 - 1, 128, 32, 48, debug, by norm_num⟩

theorem caps64_cons (d : Bool) : ∃ l, (cfg64 d).caps = 128 :: 192 :: l := by
  refine ⟨capsFrom ((2 ^ 64 - 1) / 2) 288, ?_⟩
  show capsFrom ((2 ^ 64 - 1) / 2) 128 = _
  rw [capsFrom, dif_pos (by norm_num)]
  rw [capsFrom, dif_pos (by norm_num)]

/-- the first request of 150 bytes gets 192 bytes, after it is returned with hold_memory on, it is held, and the next
request gets the same block: the hypotheses of the theorems are met by this history -/
example (d : Bool) : ∃ s h, Reach (cfg64 d) s h ∧ h.used = [⟨1032, 3, 192⟩] ∧ h.held = [] ∧ inuse s 3 = 192 := by
  obtain ⟨l, hl⟩ := caps64_cons d
  have hcf : (cfg64 d).capFor 150 = 192 := by unfold Cfg.capFor; rw [hl]; rfl
  have hex : ∃ v ∈ (cfg64 d).caps, 150 ≤ v := ⟨192, by rw [hl]; simp, by norm_num⟩
  have hhdr : (cfg64 d).hdr = 32 := rfl
  have r0 : Reach (cfg64 d) _ _ := .init
  -- get
  have v1 : (Call.get 3 150 1000).Valid (cfg64 d) State.init ⟨[], [], false⟩ :=
    ⟨show 3 < 48 by norm_num, hex, by norm_num, by simp [State.init]⟩
  obtain ⟨o1, s1, e1⟩ := no_error r0 v1
  have ho1 : o1 = .mem 1032 192 := by
    cases o1 with
    | mem p c =>
      have a := get_memory_reuses r0 v1 e1
      have b := get_memory_ok r0 v1 e1
      rw [if_neg (by simp)] at a
      rw [a.1, b.2.1, hcf, hhdr]
    | none => simp only [exec] at e1; cases hh : getMemory (cfg64 d) 3 150 1000 State.init <;> rw [hh] at e1 <;> cases e1
    | bool b => simp only [exec] at e1; cases hh : getMemory (cfg64 d) 3 150 1000 State.init <;> rw [hh] at e1 <;> cases e1
  subst ho1
  have r1 := Reach.step r0 v1 e1
  -- hold
  have r2 := Reach.step r1 (call := .hold true) trivial rfl
  -- return
  have v3 : (Call.ret 3 true 1032).Valid (cfg64 d) (holdMemory true s1)
      ⟨[⟨1032, 3, 192⟩], [], true⟩ := ⟨⟨1032, 3, 192⟩, by simp, rfl, fun _ => rfl⟩
  obtain ⟨o3, s3, e3⟩ := no_error r2 v3
  have r3 : Reach (cfg64 d) s3 ⟨[], [⟨1032, 3, 192⟩], true⟩ := Reach.step r2 v3 e3
  -- get again
  have v4 : (Call.get 3 130 5000).Valid (cfg64 d) s3 ⟨[], [⟨1032, 3, 192⟩], true⟩ := by
    refine ⟨show 3 < 48 by norm_num, ⟨192, by rw [hl]; simp, by norm_num⟩, by norm_num, ?_⟩
    intro x hx
    have := (blocks_ok r3).2.2.mem_iff.1 hx
    simp only [List.nil_append, List.map_cons, List.map_nil, List.mem_singleton, hhdr] at this
    subst this
    right; norm_num
  obtain ⟨o4, s4, e4⟩ := no_error r3 v4
  have hcf' : (cfg64 d).capFor 130 = 192 := by unfold Cfg.capFor; rw [hl]; rfl
  have ho4 : o4 = .mem 1032 192 := by
    cases o4 with
    | mem p c =>
      have a := get_memory_reuses r3 v4 e4
      rw [if_pos ⟨⟨1032, 3, 192⟩, by simp, rfl, hcf'.symm⟩] at a
      simpa using a.1
    | none => simp only [exec] at e4; cases hh : getMemory (cfg64 d) 3 130 5000 s3 <;> rw [hh] at e4 <;> cases e4
    | bool b => simp only [exec] at e4; cases hh : getMemory (cfg64 d) 3 130 5000 s3 <;> rw [hh] at e4 <;> cases e4
  subst ho4
  have r4 : Reach (cfg64 d) s4 ⟨[⟨1032, 3, 192⟩], [], true⟩ := Reach.step r3 v4 e4
  exact ⟨s4, _, r4, rfl, rfl, by rw [(counts_ok r4 3).1]; rfl⟩

/-! ## a defect: requests that pass the check of the argument and have no capacity -/

/-- thread_alloc.hpp:766-786: the check of the argument is `min_bytes < max / 2`, but the capacities may all be less -/
theorem getMemory_tooLarge {cfg : Cfg} {t m a : ℕ} (s : State) (h1 : m < cfg.maxSize / 2) (h2 : ∀ v ∈ cfg.caps, v < m) :
    getMemory cfg t m a s = .error .assert := by
  unfold getMemory
  simp only []
  rw [if_neg (not_not.2 h1), if_pos]
  unfold Cfg.num
  rw [not_lt, List.findIdx_eq_length.2]
  intro v hv
  simpa using h2 v hv

/-- the first `n` steps of `capsFrom` -/
def capsFuel (limit : ℕ) : ℕ → ℕ → List ℕ
  | 0, _ => []
  | n + 1, cap => if 0 < cap ∧ cap < limit then cap :: capsFuel limit n (3 * ((cap + 1) / 2)) else []

theorem capsFuel_eq (limit : ℕ) : ∀ n cap, (capsFuel limit n cap).length < n → capsFuel limit n cap = capsFrom limit cap
  | 0, _, h => by simp at h
  | n + 1, cap, h => by
    rw [capsFrom]
    unfold capsFuel at h ⊢
    split_ifs with hc
    · rw [if_pos hc] at h
      rw [capsFuel_eq limit n _ (by simpa using h)]
    · rfl

/-- With a 64 bit size_t there is a request that satisfies the documented condition on `min_bytes` and for which no state
and no system allocator avoids the failure of an assertion that reports an error in CppAD.  (With NDEBUG defined the same
code indexes past the last capacity.) -/
theorem request_too_large (d : Bool) :
    ∃ m, m < (cfg64 d).maxSize / 2 ∧ ∀ s t a, getMemory (cfg64 d) t m a s = .error .assert := by
  refine ⟨(2 ^ 64 - 1) / 2 - 1, show _ < (2 ^ 64 - 1) / 2 by norm_num, fun s t a => getMemory_tooLarge s ?_ ?_⟩
  · show _ < (2 ^ 64 - 1) / 2
    norm_num
  · have h : (cfg64 d).caps = capsFuel ((2 ^ 64 - 1) / 2) 120 128 := by
      rw [capsFuel_eq _ _ _ (by decide +kernel)]
      rfl
    rw [h]
    decide +kernel

end CppAD.Alloc
