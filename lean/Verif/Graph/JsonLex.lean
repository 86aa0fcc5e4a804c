import Verif.Graph.Json

/-! # The lexer on the text of the writer -/

namespace CppAD.Graph

open CppAD CppAD.Record CppAD.Optim

theorem chk_hit (c a : Char) (t : Txt) (h : isSpace c = false) : (chk c).run (a :: c :: t) = some ((), c :: t) := by
  simp [chk, StateT.run, adv, List.dropWhile_cons, h]

theorem chk_sp (c a b : Char) (t : Txt) (h : isSpace b = true) : (chk c).run (a :: b :: t) = (chk c).run (b :: t) := by
  simp [chk, StateT.run, adv, List.dropWhile_cons, h]

theorem tok_sp (p : Char → Bool) (a b : Char) (t : Txt) (h : isSpace b = true) : (tok p).run (a :: b :: t) = (tok p).run (b :: t) := by
  simp [tok, StateT.run, adv, List.dropWhile_cons, h]

theorem str_sp (a b : Char) (t : Txt) (h : isSpace b = true) : str.run (a :: b :: t) = str.run (b :: t) := by
  simp [str, StateT.run, adv, List.dropWhile_cons, h]

theorem key_sp (e : Txt) (a b : Char) (t : Txt) (h : isSpace b = true) : (key e).run (a :: b :: t) = (key e).run (b :: t) := by
  have := str_sp a b t h
  simp only [StateT.run] at this
  simp only [key, StateT.run, this]

theorem int_sp (J : JCfg) (a b : Char) (t : Txt) (h : isSpace b = true) : J.int.run (a :: b :: t) = J.int.run (b :: t) := by
  have := tok_sp Char.isDigit a b t h
  simp only [StateT.run] at this
  simp only [JCfg.int, StateT.run, this]

theorem flt_sp (J : JCfg) (a b : Char) (t : Txt) (h : isSpace b = true) : J.flt.run (a :: b :: t) = J.flt.run (b :: t) := by
  have := tok_sp isFlt a b t h
  simp only [StateT.run] at this
  simp only [JCfg.flt, StateT.run, this]

theorem dep_sp (J : JCfg) (a b : Char) (t : Txt) (h : isSpace b = true) : J.dep.run (a :: b :: t) = J.dep.run (b :: t) := by
  have := tok_sp isFlt a b t h
  simp only [StateT.run] at this
  simp only [JCfg.dep, StateT.run, this]

theorem takeWhile_stop {p : Char → Bool} {w t : Txt} {c : Char} (hw : ∀ x ∈ w, p x = true) (hc : p c = false) :
    (w ++ c :: t).takeWhile p = w ∧ (w ++ c :: t).dropWhile p = c :: t := by
  induction w with
  | nil => simp [hc]
  | cons x w ih =>
    have hx := hw x (by simp)
    have := ih fun y hy => hw y (by simp [hy])
    simp [hx, this.1, this.2]

theorem str_hit (a : Char) (s t : Txt) (h : Clean s) : str.run (a :: '"' :: (s ++ '"' :: t)) = some (s, '"' :: t) := by
  have := takeWhile_stop (p := fun c => c != '"') (w := s) (t := t) (c := '"') (fun x hx => by simpa using (h x hx).2) (by simp)
  have e : isSpace '"' = false := by decide
  simp [str, StateT.run, adv, List.dropWhile_cons, e, this.1, this.2]

theorem key_hit (a : Char) (e t : Txt) (h : Clean e) : (key e).run (a :: '"' :: (e ++ '"' :: t)) = some ((), '"' :: t) := by
  have := str_hit a e t h
  simp only [StateT.run] at this
  simp only [key, StateT.run, this]
  simp

theorem tok_hit (p : Char → Bool) (a c : Char) (w t : Txt) (h0 : w ≠ []) (hw : ∀ x ∈ w, p x = true ∧ isSpace x = false) (hc : p c = false) :
    (tok p).run (a :: (w ++ c :: t)) = some (w, w.getLast h0 :: c :: t) := by
  obtain ⟨x, w, rfl⟩ := List.exists_cons_of_ne_nil h0
  have hx := hw x (by simp)
  have ha : adv (a :: (x :: w ++ c :: t)) = x :: w ++ c :: t := by
    simp [adv, List.dropWhile_cons, hx.2]
  have ht := (takeWhile_stop (t := t) (fun y hy => (hw y hy).1) hc).1
  simp only [tok, StateT.run, ha, ht]
  congr 2
  have : ∀ (l : Txt) (x : Char), (x :: l ++ c :: t).drop l.length = (x :: l).getLast (by simp) :: c :: t := by
    intro l
    induction l with
    | nil => intro x; rfl
    | cons y l ih => intro x; simpa using ih y
  exact this w x

theorem dec_ne (n : ℕ) : dec n ≠ [] := Nat.toDigits_ne_nil

theorem dec_digit {n : ℕ} {c : Char} (h : c ∈ dec n) : c.isDigit = true := Nat.isDigit_of_mem_toDigits (by decide) (by decide) h

theorem digit_not_space {c : Char} (h : c.isDigit = true) : isSpace c = false := by
  rw [Char.isDigit_iff_toNat] at h
  have key : ∀ d : Char, d.toNat < 48 → (c == d) = false := by
    intro d hd
    rw [beq_eq_false_iff_ne]
    rintro rfl
    have := h.1
    simp at this
    omega
  have e : ∀ d ∈ [' ', '\n', '\t', '\r', '\x0b', '\x0c'], (c == d) = false := by
    intro d hd
    apply key
    simp only [List.mem_cons, List.not_mem_nil, or_false] at hd
    rcases hd with rfl | rfl | rfl | rfl | rfl | rfl <;> decide
  simp only [isSpace]
  simp only [List.mem_cons, forall_eq_or_imp, List.not_mem_nil] at e
  simp [e.1, e.2.1, e.2.2.1, e.2.2.2.1, e.2.2.2.2.1, e.2.2.2.2.2.1]

theorem flt_not_space {c : Char} (h : isFlt c = true) : isSpace c = false := by
  simp only [isFlt, Bool.or_eq_true, beq_iff_eq] at h
  rcases h with ((((h | rfl) | rfl) | rfl) | rfl) | rfl
  · exact digit_not_space h
  all_goals decide

theorem atoi_dec (J : JCfg) {n : ℕ} (h : n < 2 ^ 31) : J.atoi (dec n) = n := by
  have e : Nat.ofDigitChars 10 (dec n) 0 = n := Nat.ofDigitChars_toDigits (by decide) (by decide)
  unfold JCfg.atoi
  rw [if_pos ⟨by rw [List.all_eq_true]; exact fun c hc => dec_digit hc, by rw [e]; exact h⟩, e]

/-- last character of a number -/
def lst (n : ℕ) : Char := (dec n).getLast (dec_ne n)

theorem int_hit (J : JCfg) (a c : Char) (t : Txt) {n : ℕ} (h : n < 2 ^ 31) (hc : c.isDigit = false) :
    J.int.run (a :: (dec n ++ c :: t)) = some (n, lst n :: c :: t) := by
  have := tok_hit Char.isDigit a c (dec n) t (dec_ne n) (fun x hx => ⟨dec_digit hx, digit_not_space (dec_digit hx)⟩) hc
  simp only [StateT.run] at this
  simp only [JCfg.int, StateT.run, this]
  simp [atoi_dec J h, lst]

theorem dep_hit (J : JCfg) (a c : Char) (t : Txt) {n : ℕ} (h : n < 2 ^ 31) (hc : isFlt c = false) :
    J.dep.run (a :: (dec n ++ c :: t)) = some (n, lst n :: c :: t) := by
  have := tok_hit isFlt a c (dec n) t (dec_ne n) (fun x hx => ⟨by simp [isFlt, dec_digit hx], digit_not_space (dec_digit hx)⟩) hc
  simp only [StateT.run] at this
  simp only [JCfg.dep, StateT.run, this]
  simp [atoi_dec J h, lst]

theorem flt_hit (J : JCfg) (a c : Char) (t w : Txt) (h0 : w ≠ []) (hw : ∀ x ∈ w, isFlt x = true) (hc : isFlt c = false) :
    J.flt.run (a :: (w ++ c :: t)) = some (J.atof w, w.getLast h0 :: c :: t) := by
  have := tok_hit isFlt a c w t h0 (fun x hx => ⟨hw x hx, flt_not_space (hw x hx)⟩) hc
  simp only [StateT.run] at this
  simp only [JCfg.flt, StateT.run, this]
  simp

/-! ## Quotes -/

theorem quote_clean {s : Txt} (h : Clean s) : s.map quote = s := by
  conv_rhs => rw [← List.map_id s]
  refine List.map_congr_left fun c hc => ?_
  simp [quote, (h c hc).1]

theorem digit_ne_quote {c : Char} (h : isFlt c = true) : c ≠ '\'' ∧ c ≠ '"' := by
  constructor <;> rintro rfl <;> revert h <;> decide

theorem dec_clean (n : ℕ) : Clean (dec n) := fun c hc => digit_ne_quote (by simp [isFlt, dec_digit hc])

@[simp] theorem quote_dec (n : ℕ) : (dec n).map quote = dec n := quote_clean (dec_clean n)

theorem map_joinSep (f : Char → Char) (s : Txt) (l : List Txt) : (joinSep s l).map f = joinSep (s.map f) (l.map (List.map f)) := by
  induction l with
  | nil => rfl
  | cons x l ih =>
    cases l with
    | nil => rfl
    | cons y l => simp only [joinSep, List.map_append, List.map_cons, ih] at *

/-! ## Loops -/

/-- The loop reads items that were written with a separator which consists of a comma and white space.  Each item can be read
when it is followed by a character for which `stop` is true. -/
theorem sepBy_run {α : Type} {p : P α} (stop : Char → Bool) (hcomma : stop ',' = true) (w : Char) (hw : isSpace w = true)
    (txt : List Txt) (vals : List α) (hl : txt.length = vals.length)
    (hsp : ∀ a b t, isSpace b = true → p.run (a :: b :: t) = p.run (b :: t))
    (hp : ∀ i (hi : i < txt.length) a c t, stop c = true → ∃ a', p.run (a :: (txt[i] ++ c :: t)) = some (vals[i]'(hl ▸ hi), a' :: c :: t))
    (a c : Char) (t : Txt) (hc : stop c = true) :
    ∃ a', (sepBy p vals.length).run (a :: (joinSep [',', w] txt ++ c :: t)) = some (vals, a' :: c :: t) := by
  induction txt generalizing vals a with
  | nil =>
    cases vals with
    | nil => exact ⟨a, rfl⟩
    | cons => simp at hl
  | cons x txt ih =>
    cases vals with
    | nil => simp at hl
    | cons v vals =>
      cases txt with
      | nil =>
        cases vals with
        | cons => simp at hl
        | nil =>
          obtain ⟨a', h⟩ := hp 0 (by simp) a c t hc
          simp only [List.getElem_cons_zero] at h
          refine ⟨a', ?_⟩
          simp [joinSep, sepBy, h]
      | cons y txt =>
        cases vals with
        | nil => simp at hl
        | cons u vals =>
          obtain ⟨a', h⟩ := hp 0 (by simp) a ',' (w :: (joinSep [',', w] (y :: txt) ++ c :: t)) hcomma
          simp only [List.getElem_cons_zero] at h
          obtain ⟨a'', h2⟩ := ih (u :: vals) (by simpa using hl)
            (fun i hi a c t hc => hp (i + 1) (Nat.succ_lt_succ hi) a c t hc) w
          refine ⟨a'', ?_⟩
          have hs : (sepBy p (u :: vals).length).run (',' :: w :: (joinSep [',', w] (y :: txt) ++ c :: t)) =
              (sepBy p (u :: vals).length).run (w :: (joinSep [',', w] (y :: txt) ++ c :: t)) := by
            cases vals with
            | nil => simp only [List.length_cons, List.length_nil, sepBy, StateT.run_bind, hsp _ _ _ hw]
            | cons => simp only [List.length_cons, sepBy, StateT.run_bind, hsp _ _ _ hw]
          have e : joinSep [',', w] (x :: y :: txt) ++ c :: t = x ++ ',' :: w :: (joinSep [',', w] (y :: txt) ++ c :: t) := by
            simp [joinSep]
          rw [e]
          show (sepBy p (vals.length + 2)).run _ = _
          simp only [sepBy, StateT.run_bind, h, Option.bind_eq_bind, Option.bind_some, chk_hit ',' a' _ (by decide)]
          rw [List.length_cons] at hs h2
          rw [hs, h2]
          simp

end CppAD.Graph
