/-
C18 ScanString, C20 ReadRune and RevReadRune, C21 ReadBool.
-/
import Verif.Props.C05
import Verif.Proofs.BackScan

namespace Tok
open Spec

theorem getPrefix_of {t : Bytes} {ps : List (Bytes × Int)} (hps : Pieces t ps) (n : Int) :
    Scanner.getPrefix t n = if 0 ≤ n ∧ n < ps.length then (bytesOf (ps.take n.toNat), true) else (t, false) := by
  unfold Scanner.getPrefix
  by_cases h0 : n < 0
  · rw [if_pos h0, if_neg (by omega)]
  · rw [if_neg h0, rangeStr_pieces hps, offsets_getElem?]
    by_cases h1 : n < ps.length
    · have hlt : n.toNat < ps.length := by omega
      rw [List.getElem?_eq_getElem hlt, if_pos ⟨by omega, h1⟩]
      simp only [Option.map_some, Nat.zero_add]
      have hps' := hps
      rw [← List.take_append_drop n.toNat ps] at hps'
      have ht := pieces_split hps'
      have htake : t.take (bytesOf (ps.take n.toNat)).length = bytesOf (ps.take n.toNat) := by
        conv_lhs => rw [ht]
        exact List.take_left
      rw [htake]
    · rw [List.getElem?_eq_none (by omega), if_neg (by omega)]
      rfl

/-- `ScanString(n)` returns the first `n` runes and moves over them when more than `n`
runes are left, and does not move when fewer are left (or `n` is negative).

Missing for the full property: exactly `n` runes left, where it fails although it
should succeed (`C18_violated`). -/
theorem C18_scanString_partial (s : Scanner) (h t : Bytes) (ps : List (Bytes × Int)) (hb : Between s h t)
    (hps : Pieces t ps) (n : Int) :
    (0 ≤ n → n < ps.length → ∃ s', s.scanString n = .ret ((bytesOf (ps.take n.toNat), true), s') ∧
      Reaches s s' (h ++ bytesOf (ps.take n.toNat)) (bytesOf (ps.drop n.toNat))) ∧
    (n < 0 ∨ (ps.length : Int) < n → ∃ sub, s.scanString n = .ret ((sub, false), s)) := by
  unfold Scanner.scanString
  rw [tail_of hb]
  simp only [Exec.bind_ret, Exec.pure_eq, getPrefix_of hps]
  constructor
  · intro h0 h1
    simp only [h0, h1, and_self, if_true]
    have hps' := hps
    rw [← List.take_append_drop n.toNat ps] at hps'
    rw [pieces_split hps'] at hb
    obtain ⟨s', h2, h3⟩ := move_fwd hb
    exact ⟨s', by simp [h2], h3⟩
  · intro hc
    have : ¬ (0 ≤ n ∧ n < ps.length) := by omega
    simp only [this, if_false]
    exact ⟨t, by simp⟩

/-- When exactly `n` runes are left, `ScanString(n)` reports failure and does not move
(it still returns the `n` runes). -/
theorem C18_violated (s : Scanner) (h t : Bytes) (ps : List (Bytes × Int)) (hb : Between s h t)
    (hps : Pieces t ps) : s.scanString (ps.length : Int) = .ret ((t, false), s) := by
  unfold Scanner.scanString
  rw [tail_of hb]
  simp only [Exec.bind_ret, Exec.pure_eq, getPrefix_of hps]
  simp

/-- C20: `ReadRune` returns the next character and moves over it. -/
theorem C20_readRune (s : Scanner) (h t : Bytes) (c : Char) (hc : c.toNat ≠ 0xFFFD) (hb : Between s h (enc c ++ t)) :
    ∃ s', s.readRune = .ret (((c.toNat : Int), none), s') ∧ Reaches s s' (h ++ enc c) t := by
  obtain ⟨s', h1, h2⟩ := move_fwd hb
  refine ⟨s', ?_, h2⟩
  unfold Scanner.readRune
  rw [tail_of hb]
  simp only [Exec.bind_ret, decodeRune_enc, h1]
  have hne : ¬ (((c.toNat : Int) == runeError) = true) := by
    simpa using fun he : (c.toNat : Int) = runeError => hc (Int.ofNat.inj he)
  rw [if_neg hne]
  rfl

/-- C20: `ReadRune` fails without moving when no character other than U+FFFD is encoded at
the position. -/
theorem C20_readRune_fail (s : Scanner) (h t : Bytes) (hb : Between s h t)
    (hno : ∀ c : Char, c.toNat ≠ 0xFFFD → ¬ enc c <+: t) :
    s.readRune = .ret ((0xFFFD, some (.read s.pos b!"rune")), s) := by
  unfold Scanner.readRune
  rw [tail_of hb]
  simp only [Exec.bind_ret]
  have : (decodeRune t).1 = runeError := by
    rcases decodeRune_cases t with ⟨_, h2⟩ | ⟨_, h2, _⟩ | ⟨c, t', rfl, h2⟩
    · rw [h2]
    · rw [h2]
    · rw [h2]
      by_contra hne
      exact hno c (fun he => hne (by show (c.toNat : Int) = runeError; rw [he]; rfl)) (List.prefix_append _ _)
  rw [if_pos (by simpa using this)]
  rfl

/-- C20: `RevReadRune` returns the character before the position and moves back over it. -/
theorem C20_revReadRune (s : Scanner) (h t : Bytes) (c : Char) (hc : c.toNat ≠ 0xFFFD) (hb : Between s (h ++ enc c) t) :
    ∃ s', s.revReadRune = .ret (((c.toNat : Int), none), s') ∧ Reaches s s' h (enc c ++ t) := by
  obtain ⟨s', h1, h2⟩ := move_back hb
  refine ⟨s', ?_, h2⟩
  unfold Scanner.revReadRune
  rw [head_of hb]
  simp only [Exec.bind_ret, decodeLastRune_enc, h1]
  have hne : ¬ (((c.toNat : Int) == runeError) = true) := by
    simpa using fun he : (c.toNat : Int) = runeError => hc (Int.ofNat.inj he)
  rw [if_neg hne]
  rfl

/-- C20: `RevReadRune` fails without moving when the text before the position does not end
in a character other than U+FFFD. -/
theorem C20_revReadRune_fail (s : Scanner) (h t : Bytes) (hb : Between s h t)
    (hno : ∀ c : Char, c.toNat ≠ 0xFFFD → ¬ enc c <:+ h) :
    s.revReadRune = .ret ((0xFFFD, some (.read s.pos b!"rune")), s) := by
  unfold Scanner.revReadRune
  rw [head_of hb]
  simp only [Exec.bind_ret]
  have : (decodeLastRune h).1 = runeError := by
    rw [← stuck_iff]
    intro c hc
    exact hno c (fun he => hc (char_ext (by rw [he]; rfl)))
  rw [if_pos (by simpa using this), this]
  rfl

/-- The spellings `ReadBool` accepts, by format: from the documentation of the method. -/
inductive BoolSpelling : Bytes → Bytes → Bool → Prop
  | lowerT {f} : f ∈ [b!"l", b!"*", b!""] → BoolSpelling f b!"true" true
  | lowerF {f} : f ∈ [b!"l", b!"*", b!""] → BoolSpelling f b!"false" false
  | upperT {f} : f ∈ [b!"U", b!"*", b!""] → BoolSpelling f b!"TRUE" true
  | upperF {f} : f ∈ [b!"U", b!"*", b!""] → BoolSpelling f b!"FALSE" false
  | camelT {f} : f ∈ [b!"Cc", b!"*", b!""] → BoolSpelling f b!"True" true
  | camelF {f} : f ∈ [b!"Cc", b!"*", b!""] → BoolSpelling f b!"False" false

/-- C21: `ReadBool` reads a spelling selected by the format and returns its value. -/
theorem C21_readBool (s : Scanner) (h t f sp : Bytes) (v : Bool) (hb : Between s h (sp ++ t))
    (hs : BoolSpelling f sp v) :
    ∃ s', s.readBool f = .ret ((v, none), s') ∧ Reaches s s' (h ++ sp) t := by
  have hnp : ∀ (a b : Bytes) (t : Bytes), a ≠ [] → a.length ≤ b.length → ¬ a <+: b → ¬ a <+: b ++ t := by
    intro a b t _ hl hn hp
    exact hn (List.prefix_of_prefix_length_le hp (List.prefix_append _ _) hl)
  have hnp2 : ∀ (b1 b2 : UInt8) (a b : Bytes), b1 ≠ b2 → ¬ (b1 :: a) <+: (b2 :: b) := by
    intro b1 b2 a b hne ⟨u, hu⟩
    exact hne (List.cons.inj hu).1
  have hnp3 : ∀ (c b1 b2 : UInt8) (a b : Bytes), b1 ≠ b2 → ¬ (c :: b1 :: a) <+: (c :: b2 :: b) := by
    intro c b1 b2 a b hne ⟨u, hu⟩
    exact hne (List.cons.inj (List.cons.inj hu).2).1
  unfold Scanner.readBool
  cases hs with
  | lowerT hf =>
    simp only [List.mem_cons, List.not_mem_nil, or_false] at hf
    obtain ⟨s1, h1, h2⟩ := C05_if_match s h _ t hb
    obtain ⟨s2, h3, h4⟩ := C05_ifAny_match s h t [] _ [b!"True", b!"TRUE"] hb (by simp)
    rcases hf with rfl | rfl | rfl
    · refine ⟨s1, ?_, h2⟩
      rw [if_neg (by decide), if_pos (by decide)]; simp [h1]
    · refine ⟨s2, ?_, h4⟩
      rw [if_pos (by decide)]; simp only [List.nil_append] at h3; simp [h3]
    · refine ⟨s2, ?_, h4⟩
      rw [if_pos (by decide)]; simp only [List.nil_append] at h3; simp [h3]
  | lowerF hf =>
    simp only [List.mem_cons, List.not_mem_nil, or_false] at hf
    have h0 := C05_if_nomatch s h _ b!"true" hb (by apply hnp2; decide)
    have h0' := C05_ifAny_nomatch s h _ [b!"true", b!"True", b!"TRUE"] hb (by
      simp only [List.mem_cons, List.not_mem_nil, or_false]
      rintro x (rfl | rfl | rfl) <;> (apply hnp2; decide))
    obtain ⟨s1, h1, h2⟩ := C05_if_match s h _ t hb
    obtain ⟨s2, h3, h4⟩ := C05_ifAny_match s h t [] _ [b!"False", b!"FALSE"] hb (by simp)
    rcases hf with rfl | rfl | rfl
    · refine ⟨s1, ?_, h2⟩
      rw [if_neg (by decide), if_pos (by decide)]; simp [h0, h1]
    · refine ⟨s2, ?_, h4⟩
      rw [if_pos (by decide)]; simp only [List.nil_append] at h3; simp [h0', h3]
    · refine ⟨s2, ?_, h4⟩
      rw [if_pos (by decide)]; simp only [List.nil_append] at h3; simp [h0', h3]
  | upperT hf =>
    simp only [List.mem_cons, List.not_mem_nil, or_false] at hf
    obtain ⟨s1, h1, h2⟩ := C05_if_match s h _ t hb
    obtain ⟨s2, h3, h4⟩ := C05_ifAny_match s h t [b!"true", b!"True"] _ [] hb (by
      simp only [List.mem_cons, List.not_mem_nil, or_false]
      rintro x (rfl | rfl)
      · apply hnp2; decide
      · apply hnp3; decide)
    rcases hf with rfl | rfl | rfl
    · refine ⟨s1, ?_, h2⟩
      rw [if_neg (by decide), if_neg (by decide), if_pos (by decide)]; simp [h1]
    · refine ⟨s2, ?_, h4⟩
      rw [if_pos (by decide)]; simp only [List.cons_append, List.nil_append] at h3; simp [h3]
    · refine ⟨s2, ?_, h4⟩
      rw [if_pos (by decide)]; simp only [List.cons_append, List.nil_append] at h3; simp [h3]
  | upperF hf =>
    simp only [List.mem_cons, List.not_mem_nil, or_false] at hf
    have h0 := C05_if_nomatch s h _ b!"TRUE" hb (by apply hnp2; decide)
    have h0' := C05_ifAny_nomatch s h _ [b!"true", b!"True", b!"TRUE"] hb (by
      simp only [List.mem_cons, List.not_mem_nil, or_false]
      rintro x (rfl | rfl | rfl) <;> (apply hnp2; decide))
    obtain ⟨s1, h1, h2⟩ := C05_if_match s h _ t hb
    obtain ⟨s2, h3, h4⟩ := C05_ifAny_match s h t [b!"false", b!"False"] _ [] hb (by
      simp only [List.mem_cons, List.not_mem_nil, or_false]
      rintro x (rfl | rfl)
      · apply hnp2; decide
      · apply hnp3; decide)
    rcases hf with rfl | rfl | rfl
    · refine ⟨s1, ?_, h2⟩
      rw [if_neg (by decide), if_neg (by decide), if_pos (by decide)]; simp [h0, h1]
    · refine ⟨s2, ?_, h4⟩
      rw [if_pos (by decide)]; simp only [List.cons_append, List.nil_append] at h3; simp [h0', h3]
    · refine ⟨s2, ?_, h4⟩
      rw [if_pos (by decide)]; simp only [List.cons_append, List.nil_append] at h3; simp [h0', h3]
  | camelT hf =>
    simp only [List.mem_cons, List.not_mem_nil, or_false] at hf
    obtain ⟨s1, h1, h2⟩ := C05_if_match s h _ t hb
    obtain ⟨s2, h3, h4⟩ := C05_ifAny_match s h t [b!"true"] _ [b!"TRUE"] hb (by
      simp only [List.mem_cons, List.not_mem_nil, or_false]
      rintro x rfl
      apply hnp2; decide)
    rcases hf with rfl | rfl | rfl
    · refine ⟨s1, ?_, h2⟩
      rw [if_neg (by decide), if_neg (by decide), if_neg (by decide), if_pos (by decide)]; simp [h1]
    · refine ⟨s2, ?_, h4⟩
      rw [if_pos (by decide)]; simp only [List.cons_append, List.nil_append] at h3; simp [h3]
    · refine ⟨s2, ?_, h4⟩
      rw [if_pos (by decide)]; simp only [List.cons_append, List.nil_append] at h3; simp [h3]
  | camelF hf =>
    simp only [List.mem_cons, List.not_mem_nil, or_false] at hf
    have h0 := C05_if_nomatch s h _ b!"True" hb (by apply hnp2; decide)
    have h0' := C05_ifAny_nomatch s h _ [b!"true", b!"True", b!"TRUE"] hb (by
      simp only [List.mem_cons, List.not_mem_nil, or_false]
      rintro x (rfl | rfl | rfl) <;> (apply hnp2; decide))
    obtain ⟨s1, h1, h2⟩ := C05_if_match s h _ t hb
    obtain ⟨s2, h3, h4⟩ := C05_ifAny_match s h t [b!"false"] _ [b!"FALSE"] hb (by
      simp only [List.mem_cons, List.not_mem_nil, or_false]
      rintro x rfl
      apply hnp2; decide)
    rcases hf with rfl | rfl | rfl
    · refine ⟨s1, ?_, h2⟩
      rw [if_neg (by decide), if_neg (by decide), if_neg (by decide), if_pos (by decide)]; simp [h0, h1]
    · refine ⟨s2, ?_, h4⟩
      rw [if_pos (by decide)]; simp only [List.cons_append, List.nil_append] at h3; simp [h0', h3]
    · refine ⟨s2, ?_, h4⟩
      rw [if_pos (by decide)]; simp only [List.cons_append, List.nil_append] at h3; simp [h0', h3]

/-- C21: with no accepted spelling at the position, or an unknown format, `ReadBool`
returns an error and does nothing. -/
theorem C21_readBool_fail (s : Scanner) (h t f : Bytes) (hb : Between s h t)
    (hno : ∀ sp v, BoolSpelling f sp v → ¬ sp <+: t) :
    ∃ e, s.readBool f = .ret ((false, some e), s) := by
  unfold Scanner.readBool
  by_cases h1 : f = [] ∨ f = b!"*"
  · have hf : (f == [] || f == b!"*") = true := by simpa using h1
    rw [if_pos hf]
    have hm : f ∈ [b!"l", b!"*", b!""] ∧ f ∈ [b!"U", b!"*", b!""] ∧ f ∈ [b!"Cc", b!"*", b!""] := by
      rcases h1 with rfl | rfl <;> decide
    rw [C05_ifAny_nomatch s h t _ hb (by
        simp only [List.mem_cons, List.not_mem_nil, or_false]
        rintro x (rfl | rfl | rfl)
        · exact hno _ _ (.lowerT hm.1)
        · exact hno _ _ (.camelT hm.2.2)
        · exact hno _ _ (.upperT hm.2.1))]
    simp only [Exec.bind_ret, Bool.false_eq_true, if_false]
    rw [C05_ifAny_nomatch s h t _ hb (by
        simp only [List.mem_cons, List.not_mem_nil, or_false]
        rintro x (rfl | rfl | rfl)
        · exact hno _ _ (.lowerF hm.1)
        · exact hno _ _ (.camelF hm.2.2)
        · exact hno _ _ (.upperF hm.2.1))]
    exact ⟨_, rfl⟩
  · have hf : ¬ (f == [] || f == b!"*") = true := by simpa using h1
    rw [if_neg hf]
    by_cases hl : f = b!"l"
    · subst hl
      rw [if_pos (by decide)]
      simp only
      rw [C05_if_nomatch s h t _ hb (hno _ _ (.lowerT (by decide)))]
      simp only [Exec.bind_ret, Bool.false_eq_true, if_false]
      rw [C05_if_nomatch s h t _ hb (hno _ _ (.lowerF (by decide)))]
      exact ⟨_, rfl⟩
    · rw [if_neg (by simpa using hl)]
      by_cases hU : f = b!"U"
      · subst hU
        rw [if_pos (by decide)]
        simp only
        rw [C05_if_nomatch s h t _ hb (hno _ _ (.upperT (by decide)))]
        simp only [Exec.bind_ret, Bool.false_eq_true, if_false]
        rw [C05_if_nomatch s h t _ hb (hno _ _ (.upperF (by decide)))]
        exact ⟨_, rfl⟩
      · rw [if_neg (by simpa using hU)]
        by_cases hC : f = b!"Cc"
        · subst hC
          rw [if_pos (by decide)]
          simp only
          rw [C05_if_nomatch s h t _ hb (hno _ _ (.camelT (by decide)))]
          simp only [Exec.bind_ret, Bool.false_eq_true, if_false]
          rw [C05_if_nomatch s h t _ hb (hno _ _ (.camelF (by decide)))]
          exact ⟨_, rfl⟩
        · rw [if_neg (by simpa using hC)]
          exact ⟨_, rfl⟩

-- Instances: "x|éa", three runes of "aéb", an unknown format, "TRUE!" under "*".
example : Pieces b!"aéb" [([97], 97), ([0xC3, 0xA9], 0xE9), ([98], 98)] := pieces_encText ['a', 'é', 'b']
example : (Scanner.new b!"aéb" Heap.empty).scanString 2 = .ret ((b!"aé", true), ⟨b!"aéb", 3, none, Heap.empty⟩) := rfl
example : Between ⟨b!"xéa", 1, none, Heap.empty⟩ b!"x" (enc 'é' ++ b!"a") := by decide +kernel
example : ∀ sp v, ¬ BoolSpelling b!"?" sp v := by
  intro sp v h
  cases h <;> rename_i h <;> revert h <;> decide
example : BoolSpelling b!"*" b!"TRUE" true := .upperT (by decide)

end Tok
