/-
C47 The JSON reader is sound.
-/
import Verif.Proofs.PegChars
import Verif.Spec.Json
import Verif.Props.C49

namespace Tok
open Spec PExp

theorem clang_ru {M : Nat → List Char → Prop} (d : Char) {n : Int} {cs : List Char} (h : (cls (fun r => r = n)).clang M cs)
    (hn : n = d.toNat) (hd : n ≠ 0xFFFD) : cs = [d] := by
  rcases clang_cls h with ⟨c, rfl, hc⟩ | ⟨_, hc⟩
  · have hc : (c.toNat : Int) = n := hc
    rw [hn] at hc
    have : c.toNat = d.toNat := by omega
    rw [Char.toNat_inj.mp this]
  · exact absurd hc.symm hd

theorem clang_anyRune {M : Nat → List Char → Prop} {str : Bytes} {cs : List Char} (h : (cls (RuneIn str)).clang M cs)
    (hs : (0xFFFD : Int) ∉ runesOf str) : ∃ c : Char, cs = [c] ∧ (c.toNat : Int) ∈ runesOf str := by
  rcases clang_cls h with ⟨c, rfl, hc⟩ | ⟨_, hc⟩
  · exact ⟨c, rfl, (runeIn_iff _ _).mp hc⟩
  · exact absurd ((runeIn_iff _ _).mp hc) hs

theorem char_of {c d : Char} (h : (c.toNat : Int) = d.toNat) : c = d := Char.toNat_inj.mp (by omega)

theorem JsonText.ws_of {cs : List Char} (h : ∀ c ∈ cs, c = ' ' ∨ c = '\r' ∨ c = '\n' ∨ c = '\t') : JsonText .ws cs := by
  induction cs with
  | nil => exact .ws_none
  | cons c cs ih =>
    have h1 := ih fun c hc => h c (List.mem_cons_of_mem _ hc)
    rcases h c List.mem_cons_self with rfl | rfl | rfl | rfl
    · exact .ws_space h1
    · exact .ws_cr h1
    · exact .ws_lf h1
    · exact .ws_tab h1

theorem JsonText.digit_of {c : Char} (h : (48 : Int) ≤ c.toNat ∧ (c.toNat : Int) ≤ 57) : JsonText .digit [c] := by
  by_cases h0 : c.toNat = 48
  · have : c = '0' := Char.toNat_inj.mp h0
    subst this; exact .digit_zero
  · refine .digit_onenine (.onenine ?_ ?_)
    · show 49 ≤ c.toNat; omega
    · show c.toNat ≤ 57; omega

theorem JsonText.digits_of {l : List (List Char)} : ∀ {cs : List Char}, JsonText .digit cs → (∀ u ∈ l, JsonText .digit u) → JsonText .digits (cs ++ l.flatten) := by
  induction l with
  | nil => intro cs h _; simpa using .digits_one h
  | cons u l ih =>
    intro cs h hl
    exact .digits_more h (ih (hl u List.mem_cons_self) fun v hv => hl v (List.mem_cons_of_mem _ hv))

theorem JsonText.members_of {l : List (List Char)} : ∀ {cs : List Char}, JsonText .member cs → (∀ u ∈ l, ∃ ds, u = ',' :: ds ∧ JsonText .member ds) →
    JsonText .members (cs ++ l.flatten) := by
  induction l with
  | nil => intro cs h _; simpa using .members_one h
  | cons u l ih =>
    intro cs h hl
    obtain ⟨ds, rfl, h1⟩ := hl u List.mem_cons_self
    have := ih h1 fun v hv => hl v (List.mem_cons_of_mem _ hv)
    exact .members_more h this

theorem JsonText.elements_of {l : List (List Char)} : ∀ {cs : List Char}, JsonText .element cs → (∀ u ∈ l, ∃ ds, u = ',' :: ds ∧ JsonText .element ds) →
    JsonText .elements (cs ++ l.flatten) := by
  induction l with
  | nil => intro cs h _; simpa using .elements_one h
  | cons u l ih =>
    intro cs h hl
    obtain ⟨ds, rfl, h1⟩ := hl u List.mem_cons_self
    have := ih h1 fun v hv => hl v (List.mem_cons_of_mem _ hv)
    exact .elements_more h this

/-- What the rules of the JSON grammar take. -/
def Json.means : Nat → List Char → Prop
  | 0 => JsonText .value
  | 1 => JsonText .object
  | 2 => JsonText .members
  | 3 => JsonText .member
  | 4 => JsonText .string
  | 5 => JsonText .array
  | 6 => JsonText .elements
  | 7 => JsonText .element
  | 8 => JsonText .string
  | 9 => JsonText .characters
  -- The rule `Character` also takes nothing at the end of the text.
  | 10 => fun cs => cs = [] ∨ JsonText .character cs
  | 11 => JsonText .escape
  | 12 => JsonText .hex
  | 13 => JsonText .number
  | 14 => JsonText .integer
  | 15 => JsonText .fraction
  | 16 => JsonText .exponent
  | 17 => JsonText .onenine
  | 18 => JsonText .digit
  | 19 => JsonText .digits
  | 20 => JsonText .sign
  | 21 => fun cs => cs = ['t', 'r', 'u', 'e'] ∨ cs = ['f', 'a', 'l', 's', 'e']
  | 22 => fun cs => cs = ['n', 'u', 'l', 'l']
  | 23 => JsonText .ws
  | _ => fun _ => True

theorem Json.means_string {cs : List Char} (h : (chain [cls (fun r => r = 34), .nt 9, cls (fun r => r = 34)]).clang Json.means cs) :
    JsonText .string cs := by
  obtain ⟨_, _, rfl, h1, _, _, rfl, h2, _, _, rfl, h3, rfl⟩ := h
  rw [clang_ru '"' h1 rfl (by decide), clang_ru '"' h3 rfl (by decide)]
  exact .string h2

theorem Json.means_closed : ∀ i e, Json.env.peg i = some e → ∀ cs, e.clang Json.means cs → Json.means i cs := by
  intro i e hi cs h
  match i, hi with
  | 0, hi =>
    have he : choice [.nt 1, .nt 5, .nt 8, .nt 13, .nt 21, .nt 22] = e := Option.some.inj hi
    subst he
    rcases h with h | h | h | h | h | h | h
    · exact .value_object h
    · exact .value_array h
    · exact .value_string h
    · exact .value_number h
    · rcases h with rfl | rfl
      · exact .value_true
      · exact .value_false
    · have h : cs = _ := h
      rw [h]; exact .value_null
    · exact absurd rfl h.2
  | 1, hi =>
    have he : chain [cls (fun r => r = 123), choice [.nt 2, .nt 23], cls (fun r => r = 125)] = e := Option.some.inj hi
    subst he
    obtain ⟨_, _, rfl, h1, _, _, rfl, h2, _, _, rfl, h3, rfl⟩ := h
    rw [clang_ru '{' h1 rfl (by decide), clang_ru '}' h3 rfl (by decide)]
    rcases h2 with h | h | h
    · exact .object_members h
    · exact .object_ws h
    · exact absurd rfl h.2
  | 2, hi =>
    have he : chain [.nt 3, .star (chain [cls (fun r => r = 44), .nt 3])] = e := Option.some.inj hi
    subst he
    obtain ⟨_, _, rfl, h1, _, _, rfl, ⟨l, rfl, h2⟩, rfl⟩ := h
    rw [List.append_nil]
    refine JsonText.members_of h1 fun u hu => ?_
    obtain ⟨_, _, rfl, h1, ds, _, rfl, h2, rfl⟩ := h2 u hu
    rw [clang_ru ',' h1 rfl (by decide), List.append_nil]
    exact ⟨ds, rfl, h2⟩
  | 3, hi =>
    have he : chain [.nt 23, .nt 4, .nt 23, cls (fun r => r = 58), .nt 7] = e := Option.some.inj hi
    subst he
    obtain ⟨_, _, rfl, h1, _, _, rfl, h2, _, _, rfl, h3, _, _, rfl, h4, _, _, rfl, h5, rfl⟩ := h
    rw [clang_ru ':' h4 rfl (by decide), List.append_nil]
    exact .member h1 h2 h3 h5
  | 4, hi =>
    have he : chain [cls (fun r => r = 34), .nt 9, cls (fun r => r = 34)] = e := Option.some.inj hi
    subst he
    exact Json.means_string h
  | 5, hi =>
    have he : chain [cls (fun r => r = 91), choice [.nt 6, .nt 23], cls (fun r => r = 93)] = e := Option.some.inj hi
    subst he
    obtain ⟨_, _, rfl, h1, _, _, rfl, h2, _, _, rfl, h3, rfl⟩ := h
    rw [clang_ru '[' h1 rfl (by decide), clang_ru ']' h3 rfl (by decide)]
    rcases h2 with h | h | h
    · exact .array_elements h
    · exact .array_ws h
    · exact absurd rfl h.2
  | 6, hi =>
    have he : chain [.nt 7, .star (chain [cls (fun r => r = 44), .nt 7])] = e := Option.some.inj hi
    subst he
    obtain ⟨_, _, rfl, h1, _, _, rfl, ⟨l, rfl, h2⟩, rfl⟩ := h
    rw [List.append_nil]
    refine JsonText.elements_of h1 fun u hu => ?_
    obtain ⟨_, _, rfl, h1, ds, _, rfl, h2, rfl⟩ := h2 u hu
    rw [clang_ru ',' h1 rfl (by decide), List.append_nil]
    exact ⟨ds, rfl, h2⟩
  | 7, hi =>
    have he : chain [.nt 23, .nt 0, .nt 23] = e := Option.some.inj hi
    subst he
    obtain ⟨_, _, rfl, h1, _, _, rfl, h2, _, _, rfl, h3, rfl⟩ := h
    rw [List.append_nil]
    exact .element h1 h2 h3
  | 8, hi =>
    have he : chain [cls (fun r => r = 34), .nt 9, cls (fun r => r = 34)] = e := Option.some.inj hi
    subst he
    exact Json.means_string h
  | 9, hi =>
    have he : .star (.nt 10) = e := Option.some.inj hi
    subst he
    obtain ⟨l, rfl, h⟩ := h
    show JsonText .characters _
    induction l with
    | nil => exact .characters_none
    | cons u l ih =>
      have ih := ih fun v hv => h v (List.mem_cons_of_mem _ hv)
      rcases h u List.mem_cons_self with rfl | h
      · exact ih
      · exact .characters_more h ih
  | 10, hi =>
    have he : choice [cls (fun r => (32 ≤ r ∧ r ≤ maxRune) ∧ ¬ RuneIn b!"\"\\" r), chain [cls (fun r => r = 92), .nt 11]] = e := Option.some.inj hi
    subst he
    rcases h with h | h | h
    · rcases clang_cls h with ⟨c, rfl, h1, h2⟩ | ⟨h, _⟩
      · have h2 : ¬ (c.toNat : Int) ∈ [(34 : Int), 92] := fun h => h2 ((runeIn_iff _ _).mpr h)
        have h1 : (32 : Int) ≤ c.toNat ∧ (c.toNat : Int) ≤ 0x10FFFF := h1
        refine .inr (.character_plain (by omega) (by omega) ?_ ?_)
        · rintro rfl; exact h2 (by decide)
        · rintro rfl; exact h2 (by decide)
      · exact .inl h
    · obtain ⟨_, _, rfl, h1, _, _, rfl, h2, rfl⟩ := h
      rw [clang_ru '\\' h1 rfl (by decide), List.append_nil]
      exact .inr (.character_escape h2)
    · exact absurd rfl h.2
  | 11, hi =>
    have he : choice [cls (RuneIn b!"\"\\/bfnrt"), chain [cls (fun r => r = 117), PExp.times (.nt 12) 4]] = e := Option.some.inj hi
    subst he
    rcases h with h | h | h
    · obtain ⟨c, rfl, hc⟩ := clang_anyRune h (by decide)
      refine .escape_one ?_
      have hc : (c.toNat : Int) ∈ [(34 : Int), 92, 47, 98, 102, 110, 114, 116] := hc
      simp only [List.mem_cons, List.not_mem_nil, or_false] at hc
      rcases hc with h | h | h | h | h | h | h | h
      · rw [char_of (d := '"') h]; decide
      · rw [char_of (d := '\\') h]; decide
      · rw [char_of (d := '/') h]; decide
      · rw [char_of (d := 'b') h]; decide
      · rw [char_of (d := 'f') h]; decide
      · rw [char_of (d := 'n') h]; decide
      · rw [char_of (d := 'r') h]; decide
      · rw [char_of (d := 't') h]; decide
    · obtain ⟨_, _, rfl, h1, _, _, rfl, h2, rfl⟩ := h
      obtain ⟨_, _, rfl, h3, _, _, rfl, h4, _, _, rfl, h5, _, _, rfl, h6, rfl⟩ := h2
      rw [clang_ru 'u' h1 rfl (by decide)]
      show JsonText .escape _
      simpa using JsonText.escape_u h3 h4 h5 h6
    · exact absurd rfl h.2
  | 12, hi =>
    have he : .alt (one (fun r => ∃ ab ∈ [((48 : Int), (57 : Int)), (97, 102), (65, 70)], ab.1 ≤ r ∧ r ≤ ab.2)) (cls (RuneIn [])) = e := Option.some.inj hi
    subst he
    rcases h with h | h
    · obtain ⟨c, rfl, hc⟩ := clang_one h
      simp only [List.mem_cons, List.not_mem_nil, or_false, exists_eq_or_imp, exists_eq_left] at hc
      rcases hc with h | h | h
      · exact .hex_digit (JsonText.digit_of h)
      · exact .hex_lower (by show 97 ≤ c.toNat; omega) (by show c.toNat ≤ 102; omega)
      · exact .hex_upper (by show 65 ≤ c.toNat; omega) (by show c.toNat ≤ 70; omega)
    · obtain ⟨c, _, h⟩ := clang_anyRune h (by decide)
      exact absurd h (by simp [runesOf, rangeStr, rangeGo])
  | 13, hi =>
    have he : chain [.nt 14, .nt 15, .nt 16] = e := Option.some.inj hi
    subst he
    obtain ⟨_, _, rfl, h1, _, _, rfl, h2, _, _, rfl, h3, rfl⟩ := h
    rw [List.append_nil]
    exact .number h1 h2 h3
  | 14, hi =>
    have he : chain [.alt (cls (fun r => r = 45)) .eps, choice [cls (fun r => r = 48), chain [.nt 17, .alt (.nt 19) .eps]]] = e := Option.some.inj hi
    subst he
    obtain ⟨u, _, rfl, h1, v, _, rfl, h2, rfl⟩ := h
    rw [List.append_nil]
    have h3 : JsonText .digit v ∨ ∃ cs ds, v = cs ++ ds ∧ JsonText .onenine cs ∧ JsonText .digits ds := by
      rcases h2 with h | h | h
      · rw [clang_ru '0' h rfl (by decide)]; exact .inl .digit_zero
      · obtain ⟨_, _, rfl, h1, _, _, rfl, h2, rfl⟩ := h
        rcases h2 with h | h
        · exact .inr ⟨_, _, rfl, h1, by rw [List.append_nil]; exact h⟩
        · have h : _ = [] := h
          subst h
          exact .inl (by simpa using JsonText.digit_onenine h1)
      · exact absurd rfl h.2
    rcases h1 with h | rfl
    · rw [clang_ru '-' h rfl (by decide)]
      rcases h3 with h | ⟨cs, ds, rfl, h1, h2⟩
      · exact .integer_minus_digit h
      · show JsonText .integer _
        simpa using JsonText.integer_minus_digits h1 h2
    · rcases h3 with h | ⟨cs, ds, rfl, h1, h2⟩
      · exact .integer_digit h
      · show JsonText .integer _
        simpa using JsonText.integer_digits h1 h2
  | 15, hi =>
    have he : .alt (chain [cls (fun r => r = 46), .nt 19]) .eps = e := Option.some.inj hi
    subst he
    rcases h with h | rfl
    · obtain ⟨_, _, rfl, h1, _, _, rfl, h2, rfl⟩ := h
      rw [clang_ru '.' h1 rfl (by decide), List.append_nil]
      exact .fraction h2
    · exact .fraction_none
  | 16, hi =>
    have he : .alt (chain [cls (RuneIn b!"eE"), .nt 20, .nt 19]) .eps = e := Option.some.inj hi
    subst he
    rcases h with h | rfl
    · obtain ⟨_, _, rfl, h1, _, _, rfl, h2, _, _, rfl, h3, rfl⟩ := h
      obtain ⟨c, rfl, hc⟩ := clang_anyRune h1 (by decide)
      rw [List.append_nil]
      have hc : (c.toNat : Int) ∈ [(101 : Int), 69] := hc
      simp only [List.mem_cons, List.not_mem_nil, or_false] at hc
      rcases hc with h | h
      · rw [char_of (d := 'e') h]; show JsonText .exponent _; simpa using JsonText.exponent_lower h2 h3
      · rw [char_of (d := 'E') h]; show JsonText .exponent _; simpa using JsonText.exponent_upper h2 h3
    · exact .exponent_none
  | 17, hi =>
    have he : one (fun r => 49 ≤ r ∧ r ≤ 57) = e := Option.some.inj hi
    subst he
    obtain ⟨c, rfl, hc⟩ := clang_one h
    have hc : (49 : Int) ≤ c.toNat ∧ (c.toNat : Int) ≤ 57 := hc
    exact .onenine (by show 49 ≤ c.toNat; omega) (by show c.toNat ≤ 57; omega)
  | 18, hi =>
    have he : one (fun r => 48 ≤ r ∧ r ≤ 57) = e := Option.some.inj hi
    subst he
    obtain ⟨c, rfl, hc⟩ := clang_one h
    exact JsonText.digit_of hc
  | 19, hi =>
    have he : .seq (one (fun r => 48 ≤ r ∧ r ≤ 57)) (.star (one (fun r => 48 ≤ r ∧ r ≤ 57))) = e := Option.some.inj hi
    subst he
    have dig : ∀ cs, (one (fun r => 48 ≤ r ∧ r ≤ 57)).clang Json.means cs → JsonText .digit cs := by
      intro cs h
      obtain ⟨c, rfl, hc⟩ := clang_one h
      exact JsonText.digit_of hc
    obtain ⟨_, _, rfl, h1, l, rfl, h2⟩ := h
    exact JsonText.digits_of (dig _ h1) fun u hu => dig _ (h2 u hu)
  | 20, hi =>
    have he : .alt (cls (RuneIn b!"+-")) .eps = e := Option.some.inj hi
    subst he
    rcases h with h | rfl
    · obtain ⟨c, rfl, hc⟩ := clang_anyRune h (by decide)
      have hc : (c.toNat : Int) ∈ [(43 : Int), 45] := hc
      simp only [List.mem_cons, List.not_mem_nil, or_false] at hc
      rcases hc with h | h
      · rw [char_of (d := '+') h]; exact .sign_plus
      · rw [char_of (d := '-') h]; exact .sign_minus
    · exact .sign_none
  | 21, hi =>
    have he : choice [litExp (encText ['t', 'r', 'u', 'e']), litExp (encText ['f', 'a', 'l', 's', 'e'])] = e := Option.some.inj hi
    subst he
    rcases h with h | h | h
    · exact .inl (clang_lit h)
    · exact .inr (clang_lit h)
    · exact absurd rfl h.2
  | 22, hi =>
    have he : litExp (encText ['n', 'u', 'l', 'l']) = e := Option.some.inj hi
    subst he
    exact clang_lit h
  | 23, hi =>
    have he : .star (cls (RuneIn b!" \r\n\t")) = e := Option.some.inj hi
    subst he
    obtain ⟨l, rfl, h⟩ := h
    refine JsonText.ws_of fun c hc => ?_
    obtain ⟨u, hu, hc⟩ := List.mem_flatten.mp hc
    obtain ⟨d, rfl, hd⟩ := clang_anyRune (h u hu) (by decide)
    have hc : c = d := by simpa using hc
    subst hc
    have hc : (c.toNat : Int) ∈ [(32 : Int), 13, 10, 9] := hd
    simp only [List.mem_cons, List.not_mem_nil, or_false] at hc
    rcases hc with h | h | h | h
    · exact .inl (char_of h)
    · exact .inr (.inl (char_of h))
    · exact .inr (.inr (.inl (char_of h)))
    · exact .inr (.inr (.inr (char_of h)))
  | n + 24, hi => trivial

/-- The division of a front part into runes. -/
theorem Pieces.front {zs ys : List Piece} : ∀ {t : Bytes}, Pieces t (zs ++ ys) → Pieces (bytesOf zs) zs := by
  induction zs with
  | nil => intro t _; exact .nil
  | cons z zs ih =>
    intro t h
    cases h with
    | @cons _ p u r _ hs he ht =>
      have h1 := ih ht
      refine .cons (t := bytesOf zs) ?_ rfl h1
      have h2 : u = bytesOf zs ++ bytesOf ys := pieces_split ht
      cases hs with
      | char c t => exact .char c _
      | bad b t hb =>
        refine .bad b _ fun c hc => hb c ?_
        have : t = u := (List.cons.inj he).2
        rw [this, h2]
        exact List.IsPrefix.trans hc (by show _ <+: b :: (_ ++ _); exact ⟨bytesOf ys, rfl⟩)

/-- Every text and position: what the JSON grammar reads without error, with malformed bytes
read as U+FFFD, is a JSON element.  The full claim does not speak of malformed bytes; it is
false, see `C47_violated`. -/
theorem C47_runes_partial (rt : Rt) (s s' : Scanner) (h t : Bytes) (hb : Between s h t) (n : Nat)
    (hr : read rt Json.env n Json.reader s = .ret (none, s')) :
    ∃ x t' zs cs, t = x ++ t' ∧ Between s' (h ++ x) t' ∧ Pieces x zs ∧ zs.map (·.2) = cs.map (fun c => (c.toNat : Int)) ∧
      JsonDoc cs := by
  obtain ⟨x, t', h1, h2⟩ : ∃ x t', t = x ++ t' ∧ Between s' (h ++ x) t' := by
    have hnw : Json.env.Every (fun r => r.noWrap = true) := Env.everyB_sound (by decide)
    obtain ⟨⟨ok, st'⟩, h5, h6, h7⟩ := (read_eat rt Json.env hnw n Json.reader (Reader.everyB_sound Reader.noWrap Json.reader (by decide))
      s.full s _ (sees_between hb)).left hr
    obtain ⟨x', hx', hb'⟩ := between_sees hb h7 (eat_shrinks rt Json.env n _ _ _ h5)
    exact ⟨x', _, hx', hb'⟩
  obtain ⟨xs, hp⟩ := Pieces.exists t
  obtain ⟨ys, hq⟩ := Pieces.exists t'
  have hpeg := (C34_success_partial (srch := false) rt _ Json.pegOk Json.keeps _ Json.reader_pegOk s h t hb xs hp (by simp) ys).mpr
    ⟨n, s', x, t', hr, h1, h2, hq⟩
  obtain ⟨zs, rfl, h3⟩ := Peg.clang Json.means_closed hpeg
  have hx : bytesOf zs = x := by
    have h4 := pieces_split hp
    rw [hq.bytes, h1] at h4
    exact (List.append_cancel_right h4).symm
  have hz := Pieces.front hp
  rw [hx] at hz
  obtain ⟨cs, hcs⟩ := Runs.of_pieces hz
  exact ⟨x, t', zs, cs, h1, h2, hz, hcs.runes, h3 cs hcs⟩

theorem chars_inj {cs ds : List Char} (h : cs.map (fun c => (c.toNat : Int)) = ds.map (fun c => (c.toNat : Int))) : cs = ds := by
  induction cs generalizing ds with
  | nil => cases ds with
    | nil => rfl
    | cons d ds => simp at h
  | cons c cs ih =>
    cases ds with
    | nil => simp at h
    | cons d ds =>
      simp only [List.map_cons, List.cons.injEq] at h
      rw [char_of h.1, ih h.2]

/-- Every text and position: if what the JSON grammar has read is UTF-8 text, it is a JSON
element. -/
theorem C47_sound_partial (rt : Rt) (s s' : Scanner) (h t : Bytes) (hb : Between s h t) (n : Nat)
    (hr : read rt Json.env n Json.reader s = .ret (none, s')) :
    ∃ x t', t = x ++ t' ∧ Between s' (h ++ x) t' ∧ ∀ cs, x = encText cs → JsonDoc cs := by
  obtain ⟨x, t', zs, cs, h1, h2, h3, h4, h5⟩ := C47_runes_partial rt s s' h t hb n hr
  refine ⟨x, t', h1, h2, fun ds hd => ?_⟩
  subst hd
  have := Pieces.unique h3 (pieces_encText ds)
  subst this
  rw [List.map_map] at h4
  have h6 : ds = cs := chars_inj h4
  rw [h6]
  exact h5

/-- Every text of characters: what the JSON grammar reads is a JSON element, and it ends between two characters. -/
theorem C47_text (rt : Rt) (s s' : Scanner) (h : Bytes) (cs : List Char) (hb : Between s h (encText cs)) (n : Nat)
    (hr : read rt Json.env n Json.reader s = .ret (none, s')) :
    ∃ ds es, cs = ds ++ es ∧ Between s' (h ++ encText ds) (encText es) ∧ JsonDoc ds := by
  obtain ⟨x, t', h1, h2, h3⟩ := C47_sound_partial rt s s' h _ hb n hr
  obtain ⟨ys, hq⟩ := Pieces.exists t'
  have hpeg := (C34_success_partial (srch := false) rt _ Json.pegOk Json.keeps _ Json.reader_pegOk s h _ hb _ (pieces_encText cs) (by simp) ys).mpr
    ⟨n, s', x, t', hr, h1, h2, hq⟩
  obtain ⟨zs, h4, _⟩ := Peg.clang Json.means_closed hpeg
  obtain ⟨ds, es, rfl, rfl, rfl⟩ := List.map_eq_append_iff.mp h4
  have h5 := pieces_chars hq
  subst h5
  have h6 : x = encText ds := by
    rw [encText, List.flatMap_append] at h1
    exact (List.append_cancel_right h1).symm
  subst h6
  exact ⟨ds, es, rfl, h2, h3 ds rfl⟩

/-- A text that is read with a rest. -/
example (rt : Rt) : ∃ s', read rt Json.env 60 Json.reader (.new b!" [1, \"a\\u00e4\"] x" Heap.empty) = .ret (none, s') ∧ s'.pos = 16 :=
  ⟨_, rfl, rfl⟩

/-- The byte 0xFF is read as part of a string, though it is not part of any JSON document. -/
theorem C47_violated (rt : Rt) : ∃ s', read rt Json.env 30 Json.reader (.new [0x22, 0xFF, 0x22] Heap.empty) = .ret (none, s') ∧ s'.pos = 3 ∧
    ¬ ∃ cs, ([0x22, 0xFF, 0x22] : Bytes) = encText cs := by
  refine ⟨_, rfl, rfl, ?_⟩
  rintro ⟨cs, h⟩
  have h1 : Pieces [0x22, 0xFF, 0x22] [([0x22], 34), ([0xFF], 0xFFFD), ([0x22], 34)] :=
    .cons (step_iff.mpr ⟨by simp, rfl, ⟨_, rfl⟩⟩) rfl (.cons (step_iff.mpr ⟨by simp, rfl, ⟨_, rfl⟩⟩) rfl
      (.cons (step_iff.mpr ⟨by simp, rfl, ⟨_, rfl⟩⟩) rfl .nil))
  rw [h] at h1
  have h2 := Pieces.unique h1 (pieces_encText cs)
  match cs, h2 with
  | [c], h2 => simp at h2
  | c :: d :: cs, h2 =>
    simp only [List.map_cons, List.cons.injEq, Prod.mk.injEq] at h2
    have hd : d = '�' := char_of h2.2.1.2.symm
    subst hd
    exact absurd h2.2.1.1 (by decide)

end Tok
