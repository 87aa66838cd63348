/-
C84 The JSON grammar reads the longest JSON document at the position of the scanner.
-/
import Verif.Props.C48
import Verif.Props.C57

namespace Tok
open Spec PExp

namespace Json

theorem digit_iff {c : Char} : JsonText .digit [c] ↔ isDigit c.toNat :=
  ⟨fun h => by obtain ⟨d, e, hd⟩ := want h; cases e; exact hd, fun h => JsonText.digit_of (by unfold isDigit at h; omega)⟩

theorem head_or {p : Nat → Prop} (cs : List Char) : Avoid p cs ∨ ∃ c cs', cs = c :: cs' ∧ p c.toNat := by
  cases cs with
  | nil => exact .inl .nil
  | cons c cs =>
    by_cases h : p c.toNat
    · exact .inr ⟨c, cs, rfl, h⟩
    · exact .inl (.cons h)

/-! ### longer texts -/

theorem digits_snoc {ds : List Char} {c : Char} (h : JsonText .digits ds) (hc : isDigit c.toNat) : JsonText .digits (ds ++ [c]) := by
  generalize hA : JsonSym.digits = A at h
  induction h with
  | digits_one h => exact .digits_more h (.digits_one (digit_iff.mpr hc))
  | digits_more h _ _ ih => rw [List.append_assoc]; exact .digits_more h (ih hA)
  | _ => cases hA

theorem digits_all {ds : List Char} (h : JsonText .digits ds) : ∀ c ∈ ds, isDigit c.toNat := by
  generalize hA : JsonSym.digits = A at h
  induction h with
  | digits_one h =>
    obtain ⟨d, rfl, hd⟩ := want h
    intro c hc
    rw [List.mem_singleton] at hc
    subst hc; exact hd
  | digits_more h _ _ ih =>
    obtain ⟨d, rfl, hd⟩ := want h
    intro c hc
    rcases List.mem_append.mp hc with hc | hc
    · rw [List.mem_singleton] at hc
      subst hc; exact hd
    · exact ih hA c hc
  | _ => cases hA

/-- An integer is a zero, with or without sign, or can be continued by any digit. -/
theorem integer_snoc {is : List Char} (h : JsonText .integer is) :
    is = ['0'] ∨ is = ['-', '0'] ∨ ∀ c : Char, isDigit c.toNat → JsonText .integer (is ++ [c]) := by
  cases h with
  | integer_digit h =>
    cases h with
    | digit_zero => exact .inl rfl
    | digit_onenine h => exact .inr (.inr fun c hc => .integer_digits h (.digits_one (digit_iff.mpr hc)))
  | integer_digits h h' =>
    refine .inr (.inr fun c hc => ?_)
    rw [List.append_assoc]
    exact .integer_digits h (digits_snoc h' hc)
  | integer_minus_digit h =>
    cases h with
    | digit_zero => exact .inr (.inl rfl)
    | digit_onenine h => exact .inr (.inr fun c hc => .integer_minus_digits h (.digits_one (digit_iff.mpr hc)))
  | integer_minus_digits h h' =>
    refine .inr (.inr fun c hc => ?_)
    rw [List.cons_append, List.append_assoc]
    exact .integer_minus_digits h (digits_snoc h' hc)

theorem fraction_snoc {fs : List Char} (h : JsonText .fraction fs) : fs = [] ∨ ∀ c : Char, isDigit c.toNat → JsonText .fraction (fs ++ [c]) := by
  cases h with
  | fraction_none => exact .inl rfl
  | fraction h => exact .inr fun c hc => .fraction (digits_snoc h hc)

theorem exponent_snoc {es : List Char} (h : JsonText .exponent es) : es = [] ∨ ∀ c : Char, isDigit c.toNat → JsonText .exponent (es ++ [c]) := by
  cases h with
  | exponent_none => exact .inl rfl
  | exponent_upper h h' =>
    refine .inr fun c hc => ?_
    rw [List.cons_append, List.append_assoc]
    exact .exponent_upper h (digits_snoc h' hc)
  | exponent_lower h h' =>
    refine .inr fun c hc => ?_
    rw [List.cons_append, List.append_assoc]
    exact .exponent_lower h (digits_snoc h' hc)

theorem ws_snoc {cs : List Char} {c : Char} (h : JsonText .ws cs) (hc : isWS c.toNat) : JsonText .ws (cs ++ [c]) := by
  generalize hA : JsonSym.ws = A at h
  induction h with
  | ws_none =>
    refine JsonText.ws_of fun d hd => ?_
    rw [List.nil_append, List.mem_singleton] at hd
    subst hd
    rcases hc with h | h | h | h
    · exact .inl (Char.toNat_inj.mp h)
    · exact .inr (.inl (Char.toNat_inj.mp h))
    · exact .inr (.inr (.inl (Char.toNat_inj.mp h)))
    · exact .inr (.inr (.inr (Char.toNat_inj.mp h)))
  | ws_space _ ih => exact .ws_space (ih hA)
  | ws_lf _ ih => exact .ws_lf (ih hA)
  | ws_cr _ ih => exact .ws_cr (ih hA)
  | ws_tab _ ih => exact .ws_tab (ih hA)
  | _ => cases hA

/-! ### numbers that cannot be continued -/

theorem digits_no {cs : List Char} (h : Avoid isDigit cs) : Peg Json.env.peg (.nt 19) (img cs) none :=
  .nt (e := .seq (one (fun r => 48 ≤ r ∧ r ≤ 57)) (.star (one (fun r => 48 ≤ r ∧ r ≤ 57)))) rfl
    (.seqNo (peg_one_no (h.imp fun n hn => by unfold isDigit; omega)))

/-- The rule Integer stops where no longer integer begins. -/
theorem integer_max {is rest : List Char} (h : JsonText .integer is) (hm : ∀ c r, rest = c :: r → isDigit c.toNat → ¬ JsonText .integer (is ++ [c])) :
    Peg Json.env.peg (.nt 14) (img (is ++ rest)) (some (img rest)) := by
  rcases integer_snoc h with rfl | rfl | h'
  · refine .nt (e := chain [.alt (cls (fun r => r = 45)) .eps, choice [cls (fun r => r = 48), chain [.nt 17, .alt (.nt 19) .eps]]]) rfl ?_
    exact .seq (.altNo (peg_ru_no (n := 45) (.cons (by decide)) (by decide)) .eps) (.seq (.alt (peg_ru_yes '0' rfl)) .eps)
  · refine .nt (e := chain [.alt (cls (fun r => r = 45)) .eps, choice [cls (fun r => r = 48), chain [.nt 17, .alt (.nt 19) .eps]]]) rfl ?_
    exact .seq (.alt (peg_ru_yes '-' rfl)) (.seq (.alt (peg_ru_yes '0' rfl)) .eps)
  · exact (want h).2 rest fun c r e hc => hm c r e hc (h' c hc)

theorem fraction_max {fs rest : List Char} (h : JsonText .fraction fs) (hm : ∀ u v, rest = u ++ v → JsonText .fraction (fs ++ u) → u = []) :
    Peg Json.env.peg (.nt 15) (img (fs ++ rest)) (some (img rest)) := by
  refine .nt (e := .alt (chain [cls (fun r => r = 46), .nt 19]) .eps) rfl ?_
  cases h with
  | fraction_none =>
    refine .altNo ?_ .eps
    rcases head_or (p := (· = 46)) rest with h | ⟨c, r, rfl, h⟩
    · exact .seqNo (peg_ru_no (n := 46) h (by decide))
    · refine .seq (peg_ru_yes c (by omega)) (.seqNo (digits_no fun d r' e hd => ?_))
      subst e
      have hc : c = '.' := Char.toNat_inj.mp h
      subst hc
      have := hm ['.', d] r' rfl (.fraction (.digits_one (digit_iff.mpr hd)))
      cases this
  | @fraction cs h =>
    refine .alt (.seq (peg_ru_yes '.' rfl) (.seq ((want h).2.1 rest fun c r e hc => ?_) .eps))
    have := hm [c] r e (.fraction (digits_snoc h hc))
    cases this

theorem sign_or (rest : List Char) : ∃ ss r, rest = ss ++ r ∧ JsonText .sign ss ∧ Peg Json.env.peg (.nt 20) (img rest) (some (img r)) := by
  rcases head_or (p := fun n => n = 43 ∨ n = 45) rest with h | ⟨c, r, rfl, h⟩
  · exact ⟨[], rest, rfl, .sign_none, want .sign_none rest h⟩
  · refine ⟨[c], r, rfl, ?_, .nt (e := .alt (cls (RuneIn b!"+-")) .eps) rfl (.alt (peg_in_yes (mem_sign.mpr h)))⟩
    rcases h with h | h
    · rw [show c = '+' from Char.toNat_inj.mp h]; exact .sign_plus
    · rw [show c = '-' from Char.toNat_inj.mp h]; exact .sign_minus

theorem exponent_max {es rest : List Char} (h : JsonText .exponent es) (hm : ∀ u v, rest = u ++ v → JsonText .exponent (es ++ u) → u = []) :
    Peg Json.env.peg (.nt 16) (img (es ++ rest)) (some (img rest)) := by
  refine .nt (e := .alt (chain [cls (RuneIn b!"eE"), .nt 20, .nt 19]) .eps) rfl ?_
  cases h with
  | exponent_none =>
    refine .altNo ?_ .eps
    rcases head_or (p := fun n => n = 101 ∨ n = 69) rest with h | ⟨c, r, rfl, h⟩
    · exact .seqNo (peg_in_no (h.imp fun n h => mem_e.mp h) (by decide))
    · obtain ⟨ss, r', rfl, h1, h2⟩ := sign_or r
      refine .seq (peg_in_yes (mem_e.mpr h)) (.seq h2 (.seqNo (digits_no fun d r'' e hd => ?_)))
      subst e
      have : JsonText .exponent (c :: (ss ++ [d])) := by
        rcases h with h | h
        · rw [show c = 'e' from Char.toNat_inj.mp h]; exact .exponent_lower h1 (.digits_one (digit_iff.mpr hd))
        · rw [show c = 'E' from Char.toNat_inj.mp h]; exact .exponent_upper h1 (.digits_one (digit_iff.mpr hd))
      have := hm (c :: (ss ++ [d])) r'' (by simp) this
      cases this
  | @exponent_upper ss ds h1 h2 =>
    simp only [List.cons_append, List.append_assoc]
    refine .alt (.seq (peg_in_yes (by decide)) (.seq (want h1 _ ((want h2).1.append.avoid fun n => by unfold isDigit; omega))
      (.seq ((want h2).2.1 rest fun c r e hc => ?_) .eps)))
    have := hm [c] r e (by rw [List.cons_append, List.append_assoc]; exact .exponent_upper h1 (digits_snoc h2 hc))
    cases this
  | @exponent_lower ss ds h1 h2 =>
    simp only [List.cons_append, List.append_assoc]
    refine .alt (.seq (peg_in_yes (by decide)) (.seq (want h1 _ ((want h2).1.append.avoid fun n => by unfold isDigit; omega))
      (.seq ((want h2).2.1 rest fun c r e hc => ?_) .eps)))
    have := hm [c] r e (by rw [List.cons_append, List.append_assoc]; exact .exponent_lower h1 (digits_snoc h2 hc))
    cases this

theorem fraction_head {fs : List Char} (h : JsonText .fraction fs) : fs = [] ∨ Head (· = 46) fs := (want h).1
theorem exponent_head {es : List Char} (h : JsonText .exponent es) : es = [] ∨ Head (fun n => n = 101 ∨ n = 69) es := (want h).1

/-- The rule Number stops where no longer number begins. -/
theorem number_max {cs rest : List Char} (h : JsonText .number cs) (hm : ∀ u v, rest = u ++ v → JsonText .number (cs ++ u) → u = []) :
    Peg Json.env.peg (.nt 13) (img (cs ++ rest)) (some (img rest)) := by
  cases h with
  | @number is fs es h1 h2 h3 =>
    simp only [List.append_assoc]
    refine .nt (e := chain [.nt 14, .nt 15, .nt 16]) rfl (.seq (integer_max h1 ?_) (.seq (fraction_max h2 ?_) (.seq (exponent_max h3 ?_) .eps)))
    · intro c r e hd hi
      unfold isDigit at hd
      rcases fraction_head h2 with rfl | ⟨d, fs', rfl, hh⟩
      · rcases exponent_head h3 with rfl | ⟨d, es', rfl, hh⟩
        · have := hm [c] r e (by simpa using JsonText.number hi .fraction_none .exponent_none)
          cases this
        · cases e; omega
      · cases e; omega
    · intro u v e hf
      rcases exponent_head h3 with rfl | ⟨d, es', rfl, hh⟩
      · refine hm u v e ?_
        have := JsonText.number h1 hf .exponent_none
        simpa using this
      · cases u with
        | nil => rfl
        | cons c u =>
          have hc : d = c := (List.cons.inj e).1
          subst hc
          rcases fraction_head hf with h | ⟨x, y, h, hx⟩
          · simp at h
          · rcases fraction_head h2 with rfl | ⟨x', y', rfl, hx'⟩
            · cases h; omega
            · exact absurd (want hf).2 (fun k => by
                cases h2 with
                | fraction h2 =>
                  cases hf with
                  | fraction hf =>
                    exact digits_all hf d (by simp) |> fun h => by unfold isDigit at h; omega)
    · intro u v e he
      refine hm u v e ?_
      have := JsonText.number h1 h2 he
      simpa using this

/-! ### documents that cannot be continued -/

/-- The rule Value stops where no longer number begins. -/
theorem value_max {cs rest : List Char} (h : JsonText .value cs)
    (hm : JsonText .number cs → ∀ u v, rest = u ++ v → JsonText .number (cs ++ u) → u = []) :
    Peg Json.env.peg (.nt 0) (img (cs ++ rest)) (some (img rest)) := by
  have hw := want h
  cases h with
  | value_object h => exact .nt rfl (.alt ((want h).2 rest trivial))
  | value_array h =>
    exact .nt rfl (.altNo (object_no ((want h).1.append.avoid fun n h => by omega)) (.alt ((want h).2 rest trivial)))
  | value_string h =>
    exact .nt rfl (.altNo (object_no ((want h).1.append.avoid fun n h => by omega)) (.altNo (array_no ((want h).1.append.avoid fun n h => by omega))
      (.alt ((want h).2.1 rest trivial))))
  | value_number h =>
    have hh := (want h).1.append (ds := rest)
    refine .nt rfl (.altNo (object_no (hh.avoid ?_)) (.altNo (array_no (hh.avoid ?_)) (.altNo (string_no (hh.avoid ?_)) (.alt (number_max h (hm h)))))) <;>
    · intro n h; unfold isDigit at h; omega
  | value_true =>
    refine .nt rfl (.altNo (object_no ?_) (.altNo (array_no ?_) (.altNo (string_no ?_) (.altNo (number_no ?_) (.alt ?_)))))
    · exact .cons (by decide)
    · exact .cons (by decide)
    · exact .cons (by decide)
    · exact .cons (by unfold isDigit; decide)
    · exact .nt (e := choice [litExp (encText ['t', 'r', 'u', 'e']), litExp (encText ['f', 'a', 'l', 's', 'e'])]) rfl (.alt (peg_lit_yes _))
  | value_false =>
    refine .nt rfl (.altNo (object_no ?_) (.altNo (array_no ?_) (.altNo (string_no ?_) (.altNo (number_no ?_) (.alt ?_)))))
    · exact .cons (by decide)
    · exact .cons (by decide)
    · exact .cons (by decide)
    · exact .cons (by unfold isDigit; decide)
    · exact .nt (e := choice [litExp (encText ['t', 'r', 'u', 'e']), litExp (encText ['f', 'a', 'l', 's', 'e'])]) rfl
        (.altNo (peg_lit_no 't' (.cons (by decide))) (.alt (peg_lit_yes _)))
  | value_null =>
    refine .nt rfl (.altNo (object_no ?_) (.altNo (array_no ?_) (.altNo (string_no ?_) (.altNo (number_no ?_) (.altNo (bool_no ?_) (.alt ?_))))))
    · exact .cons (by decide)
    · exact .cons (by decide)
    · exact .cons (by decide)
    · exact .cons (by unfold isDigit; decide)
    · exact .cons (by decide)
    · exact .nt (e := litExp (encText ['n', 'u', 'l', 'l'])) rfl (peg_lit_yes _)

/-- The rule Element stops where no longer document ends. -/
theorem element_max {cs rest : List Char} (h : JsonDoc cs) (hm : ∀ u v, rest = u ++ v → JsonDoc (cs ++ u) → u = []) :
    Peg Json.env.peg (.nt 7) (img (cs ++ rest)) (some (img rest)) := by
  unfold JsonDoc at h hm
  cases h with
  | @element us cs vs h1 h2 h3 =>
    have hws : Avoid isWS rest := fun c r e hc => by
      have := hm [c] r e (by simpa using JsonText.element h1 h2 (ws_snoc h3 hc))
      cases this
    simp only [List.append_assoc]
    refine .nt (e := chain [.nt 23, .nt 0, .nt 23]) rfl
      (.seq ((want h1).2.1 _ ((want h2).1.append.avoid ?_)) (.seq ?_ (.seq ((want h3).2.1 _ hws) .eps)))
    · intro n; unfold isHead isWS isDigit; omega
    · rcases (want h3).1 with rfl | hv
      · refine value_max h2 fun hn u v e hu => hm u v e ?_
        simpa using JsonText.element h1 (.value_number hu) .ws_none
      · exact (want h2).2 _ (hv.append.avoid fun n => by unfold inNum isWS isDigit; omega)

end Json

/-- A document that is no part of a longer one. -/
theorem Json.longest_of {ds : List Char} : ∀ (k : Nat) (u v : List Char), v.length ≤ k → JsonDoc (ds ++ u) →
    ∃ u' v', u ++ v = u' ++ v' ∧ u.length ≤ u'.length ∧ JsonDoc (ds ++ u') ∧ ∀ x y, v' = x ++ y → JsonDoc (ds ++ u' ++ x) → x = [] := by
  intro k
  induction k with
  | zero =>
    intro u v hv hd
    refine ⟨u, v, rfl, Nat.le_refl _, hd, fun x y e _ => ?_⟩
    have := congrArg List.length e
    rw [List.length_append] at this
    exact List.eq_nil_of_length_eq_zero (by omega)
  | succ k ih =>
    intro u v hv hd
    by_cases h : ∀ x y, v = x ++ y → JsonDoc (ds ++ u ++ x) → x = []
    · exact ⟨u, v, rfl, Nat.le_refl _, hd, h⟩
    · simp only [not_forall] at h
      obtain ⟨x, y, rfl, h1, h2⟩ := h
      have hx : 0 < x.length := List.length_pos_iff.mpr h2
      rw [List.length_append] at hv
      obtain ⟨u', v', h3, h4, h5, h6⟩ := ih (u ++ x) y (by omega) (by rw [← List.append_assoc]; exact h1)
      exact ⟨u', v', by rw [← h3, List.append_assoc], by rw [List.length_append] at h4; omega, h5, h6⟩

theorem Json.longest_read (rt : Rt) (s : Scanner) (h : Bytes) (ds es : List Char) (hb : Between s h (encText (ds ++ es))) (hd : JsonDoc ds)
    (hm : ∀ u v, es = u ++ v → JsonDoc (ds ++ u) → u = []) :
    ∃ n s', (∀ m, n ≤ m → read rt Json.env m Json.reader s = .ret (none, s')) ∧ Between s' (h ++ encText ds) (encText es) := by
  obtain ⟨n, s', x, t', h1, h2, h3, h4⟩ := (C34_success_partial (srch := false) rt _ Json.pegOk Json.keeps Json.reader Json.reader_pegOk s h _ hb _
    (pieces_encText (ds ++ es)) (by simp) (img es)).mp (Json.element_max hd hm)
  have h5 := pieces_chars h4
  subst h5
  have h6 : x = encText ds := by
    rw [encText, List.flatMap_append] at h2
    exact (List.append_cancel_right h2).symm
  rw [← h6]
  exact ⟨n, s', fun m hm => read_mono hm h1, h3⟩

theorem front_of_le {α : Type} {a b c d : List α} (h : a ++ b = c ++ d) (hl : a.length ≤ c.length) : ∃ x, c = a ++ x :=
  (List.prefix_of_prefix_length_le ⟨b, h⟩ ⟨d, rfl⟩ hl).imp fun _ h => h.symm

theorem encText_len {ds : List Char} (h : (encText ds).length = 0) : ds = [] := by
  cases ds with
  | nil => rfl
  | cons d ds =>
    rw [encText_cons, List.length_append] at h
    have : enc d ≠ [] := enc_ne_nil d
    exact absurd (List.eq_nil_of_length_eq_zero (by omega)) this

/-- The JSON grammar stops behind `ds` exactly if `ds` is the longest JSON document that begins at the position of the scanner. -/
theorem C84_longest (rt : Rt) (s : Scanner) (h : Bytes) (ds es : List Char) (hb : Between s h (encText (ds ++ es))) :
    (∃ n s', read rt Json.env n Json.reader s = .ret (none, s') ∧ Between s' (h ++ encText ds) (encText es)) ↔
      JsonDoc ds ∧ ∀ u v, es = u ++ v → JsonDoc (ds ++ u) → u = [] := by
  constructor
  · rintro ⟨n, s', h1, h2⟩
    have same : ∀ ds' es' s'', Between s'' (h ++ encText ds') (encText es') → s'' = s' → ds ++ es = ds' ++ es' → ds.length ≤ ds'.length → ds' = ds := by
      rintro ds' es' s'' h3 rfl h4 h5
      have h6 := h3.2.symm.trans h2.2
      rw [List.length_append, List.length_append] at h6
      obtain ⟨x, rfl⟩ : ∃ x, ds' = ds ++ x := front_of_le h4 h5
      rw [encText_append, List.length_append] at h6
      rw [encText_len (ds := x) (by omega), List.append_nil]
    obtain ⟨ds', es', h3, h4, h5⟩ := C47_text rt s s' h _ hb n h1
    have hd : JsonDoc ds := by
      have h6 := h4.2.symm.trans h2.2
      rcases Nat.le_total ds.length ds'.length with hl | hl
      · rw [← same ds' es' s' h4 rfl h3 hl]; exact h5
      · obtain ⟨x, rfl⟩ : ∃ x, ds = ds' ++ x := front_of_le h3.symm hl
        rw [encText_append] at h6
        simp only [List.length_append] at h6
        rw [encText_len (ds := x) (by omega), List.append_nil]
        exact h5
    refine ⟨hd, fun u v e hu => ?_⟩
    obtain ⟨u', v', h6, h7, h8, h9⟩ := Json.longest_of v.length u v (Nat.le_refl _) hu
    subst e
    obtain ⟨m, s'', h10, h11⟩ := Json.longest_read rt s h (ds ++ u') v' (by rw [List.append_assoc, ← h6]; exact hb) h8 h9
    have h12 := (read_mono (Nat.le_max_left n m) h1).symm.trans (h10 _ (Nat.le_max_right n m))
    have h13 : s'' = s' := by cases h12; rfl
    have h14 := same _ _ s'' h11 h13 (by rw [h6, List.append_assoc]) (by simp)
    have h15 : u' = [] := by simpa using h14
    subst h15
    exact List.eq_nil_of_length_eq_zero (by simpa using h7)
  · rintro ⟨h1, h2⟩
    obtain ⟨n, s', h3, h4⟩ := Json.longest_read rt s h ds es hb h1 h2
    exact ⟨n, s', h3 n (Nat.le_refl _), h4⟩

/-- If a JSON document begins at the position of the scanner, whatever follows it, the JSON grammar ends without error,
and what it has read is the longest such document. -/
theorem C84_reads (rt : Rt) (s : Scanner) (h : Bytes) (cs es : List Char) (hb : Between s h (encText (cs ++ es))) (hd : JsonDoc cs) :
    ∃ n s' ds fs, (∀ m, n ≤ m → read rt Json.env m Json.reader s = .ret (none, s')) ∧ cs ++ es = ds ++ fs ∧
      Between s' (h ++ encText ds) (encText fs) ∧ JsonDoc ds ∧ ∀ u v, cs ++ es = u ++ v → JsonDoc u → u.length ≤ ds.length := by
  obtain ⟨u', v', h1, h2, h3, h4⟩ := Json.longest_of (ds := []) es.length cs es (Nat.le_refl _) hd
  rw [List.nil_append] at h3
  rw [h1] at hb
  obtain ⟨n, s', h5, h6⟩ := Json.longest_read rt s h u' v' hb h3 h4
  refine ⟨n, s', u', v', h5, h1, h6, h3, fun u v e hu => ?_⟩
  rcases Nat.le_total u.length u'.length with hl | hl
  · exact hl
  · rw [h1] at e
    obtain ⟨x, rfl⟩ : ∃ x, u = u' ++ x := front_of_le e hl
    rw [List.append_assoc] at e
    rw [h4 x v (List.append_cancel_left e) hu, List.append_nil]

/-- The program json-stack prints a stack for a file of characters exactly if the file begins with a JSON document. -/
theorem C84_prints (rt : Rt) (filename : Bytes) (cs : List Char) :
    (∃ fuel out, jsonStack rt fuel filename (encText cs) = .ret (some out)) ↔ ∃ ds es, cs = ds ++ es ∧ JsonDoc ds := by
  constructor
  · rintro ⟨fuel, out, h⟩
    exact C57_text_partial rt fuel filename cs out h
  · rintro ⟨ds, es, rfl, hd⟩
    obtain ⟨n, s', _, _, h1, _⟩ := C84_reads rt (Json.start (encText (ds ++ es))) [] ds es (Json.start_between _) hd
    obtain ⟨N, o, h2, h3⟩ := Json.ends_of_reads rt filename _ (h1 n (Nat.le_refl _))
    rcases o with _ | out
    · cases h2
    · exact ⟨N, out, h3 N (Nat.le_refl _)⟩

/-- `1.5e7.2` : the grammar reads `1.5e7`, though `1`, `1.5` and others are documents, too. -/
example : ∃ n s', read exRt Json.env n Json.reader (.new (encText ['1', '.', '5', 'e', '7', '.', '2']) Heap.empty) = .ret (none, s') ∧ s'.pos = 5 :=
  ⟨60, _, rfl, rfl⟩

/-- `1.5e+x`: it reads `1.5`. -/
example : ∃ n s', read exRt Json.env n Json.reader (.new (encText ['1', '.', '5', 'e', '+', 'x']) Heap.empty) = .ret (none, s') ∧ s'.pos = 3 :=
  ⟨60, _, rfl, rfl⟩

/-- `-0` is a document, and `-01` begins with no longer one. -/
theorem Json.minus_zero : JsonDoc ['-', '0'] :=
  .element (us := []) (cs := ['-', '0']) (vs := []) .ws_none
    (.value_number (.number (is := ['-', '0']) (fs := []) (es := []) (.integer_minus_digit .digit_zero) .fraction_none .exponent_none)) .ws_none

example (rt : Rt) : ∃ n s' ds fs, (∀ m, n ≤ m → read rt Json.env m Json.reader (.new (encText ['-', '0', '1']) Heap.empty) = .ret (none, s')) ∧
    ['-', '0', '1'] = ds ++ fs ∧ Between s' ([] ++ encText ds) (encText fs) ∧ JsonDoc ds ∧
    ∀ u v, ['-', '0', '1'] = u ++ v → JsonDoc u → u.length ≤ ds.length :=
  C84_reads rt _ [] ['-', '0'] ['1'] ⟨rfl, rfl⟩ Json.minus_zero

/-- `-01`: json-stack prints a stack. -/
example (rt : Rt) : ∃ fuel out, jsonStack rt fuel b!"f" (encText ['-', '0', '1']) = .ret (some out) :=
  (C84_prints rt b!"f" _).mpr ⟨_, ['1'], rfl, Json.minus_zero⟩

end Tok
