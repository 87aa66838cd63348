/-
Backward decoding, and membership of runes in texts.
-/
import Mathlib.Data.List.Induction
import Verif.Proofs.Pieces

namespace Tok
open Spec

/-- Shape of an encoding: a first byte that is no continuation byte, followed by
continuation bytes; a single byte is below 0x80. -/
theorem enc_shape (c : Char) : ∃ b cs, enc c = b :: cs ∧ isCont b = false ∧ (∀ x ∈ cs, isCont x = true) ∧
    (cs = [] → b.toNat < 0x80 ∧ c.toNat = b.toNat) ∧ (cs ≠ [] → 0x80 ≤ b.toNat) ∧ cs.length ≤ 3 := by
  have hv := char_range c
  have hc : c.toNat = c.val.toNat := rfl
  rw [hc]
  unfold enc String.utf8EncodeChar
  generalize c.val.toNat = n at *
  simp only
  split_ifs with h1 h2 h3
  · have e0 : (UInt8.ofNat n).toNat = n := u8 (by omega)
    refine ⟨_, _, rfl, ?_, by simp, ?_, by simp, by simp⟩
    · simp only [isCont, e0]; simp; omega
    · rw [e0]; omega
  · have e0 : (UInt8.ofNat (n / 64 % 32 + 192)).toNat = n / 64 % 32 + 192 := u8 (by omega)
    have e1 : (UInt8.ofNat (n % 64 + 128)).toNat = n % 64 + 128 := u8 (by omega)
    refine ⟨_, _, rfl, ?_, ?_, by simp, ?_, by simp⟩
    · simp only [isCont, e0]; simp; try omega
    · simp only [List.mem_singleton, forall_eq, isCont, e1]; simp; try omega
    · omega
  · have e0 : (UInt8.ofNat (n / 4096 % 16 + 224)).toNat = n / 4096 % 16 + 224 := u8 (by omega)
    have e1 : (UInt8.ofNat (n / 64 % 64 + 128)).toNat = n / 64 % 64 + 128 := u8 (by omega)
    have e2 : (UInt8.ofNat (n % 64 + 128)).toNat = n % 64 + 128 := u8 (by omega)
    refine ⟨_, _, rfl, ?_, ?_, by simp, ?_, by simp⟩
    · simp only [isCont, e0]; simp; try omega
    · simp only [List.mem_cons, List.not_mem_nil, or_false, forall_eq_or_imp, forall_eq, isCont, e1, e2]
      simp; try omega
    · omega
  · have e0 : (UInt8.ofNat (n / 262144 % 8 + 240)).toNat = n / 262144 % 8 + 240 := u8 (by omega)
    have e1 : (UInt8.ofNat (n / 4096 % 64 + 128)).toNat = n / 4096 % 64 + 128 := u8 (by omega)
    have e2 : (UInt8.ofNat (n / 64 % 64 + 128)).toNat = n / 64 % 64 + 128 := u8 (by omega)
    have e3 : (UInt8.ofNat (n % 64 + 128)).toNat = n % 64 + 128 := u8 (by omega)
    refine ⟨_, _, rfl, ?_, ?_, by simp, ?_, by simp⟩
    · simp only [isCont, e0]; simp; try omega
    · simp only [List.mem_cons, List.not_mem_nil, or_false, forall_eq_or_imp, forall_eq, isCont, e1, e2, e3]
      simp; try omega
    · omega

theorem lastStart_cont (t : Bytes) (b : UInt8) (cs post : Bytes) (k : Nat) (hk : cs.length < k)
    (hb : isCont b = false) (hcs : ∀ x ∈ cs, isCont x = true) :
    lastStart (t ++ b :: cs ++ post) k (t.length + 1 + cs.length) = t.length := by
  induction cs using List.reverseRecOn generalizing k post with
  | nil =>
    rcases k with _ | k
    · simp at hk
    · rw [List.length_nil, Nat.add_zero, lastStart]
      simp [runeStart, hb]
  | append_singleton cs x ih =>
    rcases k with _ | k
    · simp at hk
    · simp only [List.length_append, List.length_cons, List.length_nil] at hk ⊢
      have : t.length + 1 + (cs.length + (0 + 1)) = (t.length + 1 + cs.length) + 1 := by omega
      rw [this, lastStart]
      have hx : (t ++ b :: (cs ++ [x]) ++ post)[t.length + 1 + cs.length]? = some x := by
        have : t ++ b :: (cs ++ [x]) ++ post = (t ++ b :: cs) ++ x :: post := by simp
        rw [this, List.getElem?_append_right (by simp; omega)]
        have : t.length + 1 + cs.length - (t ++ b :: cs).length = 0 := by simp; omega
        rw [this]; rfl
      rw [hx]
      simp only [runeStart, hcs x (by simp), Bool.not_true, Bool.false_eq_true, if_false]
      have e : t ++ b :: (cs ++ [x]) ++ post = t ++ b :: cs ++ (x :: post) := by simp
      rw [e]
      exact ih (x :: post) k (by omega) (fun y hy => hcs y (by simp [hy]))

theorem decodeLastRune_nil : decodeLastRune [] = (runeError, 0) := rfl

/-- Decoding backward from the end of an encoded character gives that character,
whatever comes before. -/
theorem decodeLastRune_enc (t : Bytes) (c : Char) :
    decodeLastRune (t ++ enc c) = ((c.toNat : Int), (enc c).length) := by
  obtain ⟨b, cs, he, hb, hcs, h1, h2, h3⟩ := enc_shape c
  have hdec := decodeRune_enc c []
  rw [List.append_nil] at hdec
  by_cases hnil : cs = []
  · subst hnil
    obtain ⟨hlt, hn⟩ := h1 rfl
    have : (t ++ enc c).getLast? = some b := by rw [he]; simp
    simp only [decodeLastRune, this]
    rw [if_pos (by simpa using hlt), he, hn]
    rfl
  · obtain ⟨cs', x, rfl⟩ : ∃ cs' x, cs = cs' ++ [x] := ⟨cs.dropLast, cs.getLast hnil, (List.dropLast_concat_getLast hnil).symm⟩
    have : (t ++ enc c).getLast? = some x := by
      rw [he, show t ++ b :: (cs' ++ [x]) = (t ++ b :: cs') ++ [x] by simp, List.getLast?_concat]
    simp only [decodeLastRune, this]
    have hx := hcs x (by simp)
    rw [if_neg (by simp [isCont] at hx; omega)]
    have hst : lastStart (t ++ enc c) 3 ((t ++ enc c).length - 1) = t.length := by
      have e1 : (t ++ enc c).length - 1 = t.length + 1 + cs'.length := by rw [he]; simp; omega
      have e2 : t ++ enc c = t ++ b :: cs' ++ [x] := by rw [he]; simp
      rw [e1, e2]
      simp only [List.length_append, List.length_cons, List.length_nil] at h3
      exact lastStart_cont t b cs' [x] 3 (by omega) hb (fun y hy => hcs y (by simp [hy]))
    rw [hst, List.drop_left, hdec]
    simp

theorem decodeLastRune_cases (s : Bytes) :
    (s = [] ∧ decodeLastRune s = (runeError, 0)) ∨
    (s ≠ [] ∧ decodeLastRune s = (runeError, 1) ∧ ∀ c, ¬ enc c <:+ s) ∨
    (∃ c t, s = t ++ enc c ∧ decodeLastRune s = ((c.toNat : Int), (enc c).length)) := by
  by_cases hs : s = []
  · left; subst hs; exact ⟨rfl, rfl⟩
  right
  by_cases hc : ∃ c t, s = t ++ enc c
  · right
    obtain ⟨c, t, h⟩ := hc
    exact ⟨c, t, h, by rw [h, decodeLastRune_enc]⟩
  left
  refine ⟨hs, ?_, ?_⟩
  swap
  · rintro c ⟨t, h⟩
    exact hc ⟨c, t, h.symm⟩
  unfold decodeLastRune
  simp only [List.getLast?_eq_some_getLast hs]
  by_cases h1 : (s.getLast hs).toNat < 0x80
  · exfalso
    apply hc
    obtain ⟨c, hc'⟩ := mkChar (n := (s.getLast hs).toNat) (by omega)
    refine ⟨c, s.dropLast, ?_⟩
    have : enc c = [s.getLast hs] := by
      unfold enc String.utf8EncodeChar
      simp only [hc']
      rw [if_pos (by omega)]
      simp
    rw [this, List.dropLast_concat_getLast hs]
  · rw [if_neg h1]
    generalize hst : lastStart s 3 (s.length - 1) = st
    rcases decodeRune_cases (s.drop st) with ⟨h2, h3⟩ | ⟨h2, h3, _⟩ | ⟨c, t, h2, h3⟩
    · rw [h3]
      simp only
      split_ifs with h4
      · exfalso
        have hb : ∀ k i, lastStart s k i ≤ i := by
          intro k
          induction k with
          | zero => intro i; simp [lastStart]
          | succ k ih =>
            intro i
            rcases i with _ | i
            · simp [lastStart]
            · simp only [lastStart]
              split
              · split_ifs
                · omega
                · have := ih i; omega
              · omega
        have := hb 3 (s.length - 1)
        have : 0 < s.length := List.length_pos_iff.mpr hs
        omega
      · rfl
    · rw [h3]
      simp only
      split_ifs <;> rfl
    · rw [h3]
      simp only
      split_ifs with h4
      · exfalso
        apply hc
        have hl := congrArg List.length h2
        simp only [List.length_drop, List.length_append] at hl
        have ht : t = [] := by
          apply List.length_eq_zero_iff.mp; omega
        subst ht
        refine ⟨c, s.take st, ?_⟩
        rw [List.append_nil] at h2
        rw [← h2, List.take_append_drop]
      · rfl

theorem enc_suffix_inj {c c' : Char} {t t' : Bytes} (h : t ++ enc c = t' ++ enc c') : c = c' ∧ t = t' := by
  have h1 := decodeLastRune_enc t c
  rw [h, decodeLastRune_enc] at h1
  have : c = c' := by
    apply char_ext
    exact (Int.ofNat.inj (congrArg Prod.fst h1)).symm
  subst this
  exact ⟨rfl, List.append_cancel_right h⟩

theorem encText_nil : encText [] = [] := rfl
theorem encText_cons (c : Char) (cs : List Char) : encText (c :: cs) = enc c ++ encText cs := by
  simp [encText]
theorem encText_append (cs ds : List Char) : encText (cs ++ ds) = encText cs ++ encText ds := by
  simp [encText]
theorem encText_singleton (c : Char) : encText [c] = enc c := by simp [encText]

/-- Division of a well-formed text. -/
theorem pieces_encText (cs : List Char) :
    Pieces (encText cs) (cs.map fun c => (enc c, (c.toNat : Int))) := by
  induction cs with
  | nil => exact Pieces.nil
  | cons c cs ih =>
    rw [encText_cons]
    exact Pieces.cons (Step.char c _) rfl ih

/-- The replacement character U+FFFD. -/
def fffd : Char := Char.ofNat 0xFFFD

theorem fffd_toNat : fffd.toNat = 0xFFFD := by decide

theorem toNat_ne_fffd {c : Char} : (c.toNat : Int) ≠ runeError ↔ c ≠ fffd := by
  constructor
  · rintro h rfl; exact h (by decide)
  · intro h h'
    apply h
    apply char_ext
    rw [fffd_toNat]
    exact Int.ofNat.inj h'

/-- `revItr` cannot step back over the end of `s`: `s` is empty, or ends in U+FFFD,
or does not end in the encoding of a character. -/
def Stuck (s : Bytes) : Prop := ∀ c, c ≠ fffd → ¬ enc c <:+ s

theorem stuck_iff (s : Bytes) : Stuck s ↔ (decodeLastRune s).1 = runeError := by
  rcases decodeLastRune_cases s with ⟨h1, h2⟩ | ⟨_, h1, h2⟩ | ⟨c, t, h1, h2⟩
  · rw [h2]
    simp only [iff_true]
    rintro c _ ⟨t, ht⟩
    subst h1
    simp [enc_ne_nil] at ht
  · rw [h1]
    simp only [iff_true]
    intro c _
    exact h2 c
  · rw [h2]
    simp only
    constructor
    · intro h
      by_contra hne
      exact h c (toNat_ne_fffd.mp hne) ⟨t, h1.symm⟩
    · rintro h c' hc' ⟨t', ht'⟩
      rw [h1] at ht'
      obtain ⟨rfl, _⟩ := enc_suffix_inj ht'
      exact toNat_ne_fffd.mpr hc' h

theorem stuck_nil : Stuck [] := (stuck_iff []).mpr rfl

/-- The steps of `revItr` over `rest ++ encText cs`, `cs` given reversed. -/
def revSteps (rest : Bytes) : List Char → List (Bytes × Rune)
  | [] => []
  | c :: rcs => (rest ++ encText (c :: rcs).reverse, (c.toNat : Int)) :: revSteps rest rcs

theorem revItrGo_spec {rest : Bytes} (hr : Stuck rest) (rcs : List Char) (hc : ∀ c ∈ rcs, c ≠ fffd)
    (fuel : Nat) (hf : rcs.length < fuel) :
    revItrGo fuel (rest ++ encText rcs.reverse) = (revSteps rest rcs, rest) := by
  induction rcs generalizing fuel with
  | nil =>
    rcases fuel with _ | fuel
    · simp at hf
    · simp only [List.reverse_nil, encText_nil, List.append_nil, revItrGo, revSteps]
      rw [if_pos (by simpa using (stuck_iff rest).mp hr)]
  | cons c rcs ih =>
    rcases fuel with _ | fuel
    · simp at hf
    · simp only [List.length_cons] at hf
      have hd := decodeLastRune_enc (rest ++ encText rcs.reverse) c
      have e : rest ++ encText (c :: rcs).reverse = rest ++ encText rcs.reverse ++ enc c := by
        simp [encText_append, encText_singleton]
      rw [revItrGo, e, hd]
      simp only
      rw [if_neg (by simpa using toNat_ne_fffd.mpr (hc c (by simp)))]
      have e2 : (rest ++ encText rcs.reverse ++ enc c).length - (enc c).length = (rest ++ encText rcs.reverse).length := by
        simp only [List.length_append]; omega
      rw [e2, List.take_left, ih (fun x hx => hc x (by simp [hx])) fuel (by omega)]
      simp only [revSteps, e]

theorem encText_length_ge (cs : List Char) : cs.length ≤ (encText cs).length := by
  induction cs with
  | nil => simp
  | cons c cs ih =>
    have := enc_length_pos c
    rw [encText_cons, List.length_append, List.length_cons]
    omega

theorem revItr_spec {rest : Bytes} (hr : Stuck rest) (rcs : List Char) (hc : ∀ c ∈ rcs, c ≠ fffd) :
    revItr (rest ++ encText rcs.reverse) = (revSteps rest rcs, rest) := by
  apply revItrGo_spec hr rcs hc
  have := encText_length_ge rcs.reverse
  simp only [List.length_append, List.length_reverse] at *
  omega

/-- Every text has the shape `rest ++ encText rcs.reverse` on which `revItr` is
understood. -/
theorem exists_revDecomp (s : Bytes) : ∃ rest rcs, s = rest ++ encText (List.reverse rcs) ∧ Stuck rest ∧
    ∀ c ∈ rcs, c ≠ fffd := by
  induction hn : s.length using Nat.strongRecOn generalizing s with
  | _ n ih =>
    by_cases h : Stuck s
    · exact ⟨s, [], by simp [encText_nil], h, by simp⟩
    · unfold Stuck at h
      push Not at h
      obtain ⟨c, hc, t, ht⟩ := h
      have hl := congrArg List.length ht
      have := enc_length_pos c
      simp only [List.length_append] at hl
      obtain ⟨rest, rcs, h1, h2, h3⟩ := ih t.length (by omega) t rfl
      refine ⟨rest, c :: rcs, ?_, h2, ?_⟩
      · rw [← ht, h1]; simp [encText_append, encText_singleton]
      · intro x hx
        rcases List.mem_cons.mp hx with rfl | hx
        · exact hc
        · exact h3 x hx

/-! ### membership -/

theorem index_eq_some {s sub : Bytes} {i : Nat} : index s sub = some i →
    sub <+: s.drop i ∧ ∀ j < i, ¬ sub <+: s.drop j := by
  induction s generalizing i with
  | nil =>
    intro h
    simp only [index] at h
    split_ifs at h with h1
    simp only [Option.some.injEq] at h
    subst h
    simp only [List.isEmpty_iff] at h1
    subst h1
    exact ⟨List.nil_prefix, by omega⟩
  | cons b t ih =>
    intro h
    rw [index] at h
    by_cases h1 : hasPrefix (b :: t) sub = true
    · rw [if_pos h1] at h
      rw [hasPrefix, List.isPrefixOf_iff_prefix] at h1
      simp only [Option.some.injEq] at h
      subst h
      exact ⟨by simpa using h1, by omega⟩
    · rw [if_neg h1] at h
      rw [hasPrefix, List.isPrefixOf_iff_prefix] at h1
      simp only [Option.map_eq_some_iff] at h
      obtain ⟨k, hk, rfl⟩ := h
      obtain ⟨h2, h3⟩ := ih hk
      refine ⟨by simpa using h2, ?_⟩
      intro j hj
      rcases j with _ | j
      · simpa [List.isPrefixOf_iff_prefix] using h1
      · simpa using h3 j (by omega)

theorem index_eq_none {s sub : Bytes} : index s sub = none → ∀ j, j ≤ s.length → ¬ sub <+: s.drop j := by
  induction s with
  | nil =>
    intro h j _
    simp only [index] at h
    split_ifs at h with h1
    intro h2
    simp at h2
    simp [h2] at h1
  | cons b t ih =>
    intro h j hj
    rw [index] at h
    by_cases h1 : hasPrefix (b :: t) sub = true
    · rw [if_pos h1] at h; cases h
    rw [if_neg h1] at h
    rw [hasPrefix, List.isPrefixOf_iff_prefix] at h1
    simp only [Option.map_eq_none_iff] at h
    rcases j with _ | j
    · simpa [List.isPrefixOf_iff_prefix] using h1
    · simpa using ih h j (by simpa using hj)

theorem index_isSome {s sub : Bytes} : (index s sub).isSome ↔ sub <:+: s := by
  cases h : index s sub with
  | none =>
    simp only [Option.isSome_none, Bool.false_eq_true, false_iff]
    rintro ⟨a, b, rfl⟩
    refine index_eq_none h a.length (by simp) ?_
    simp
  | some i =>
    simp only [Option.isSome_some, true_iff]
    obtain ⟨⟨t, ht⟩, _⟩ := index_eq_some h
    exact ⟨s.take i, t, by rw [List.append_assoc, ht, List.take_append_drop]⟩

/-- An encoded character inside a text is one of its pieces. -/
theorem pieces_of_infix {s : Bytes} {ps : List (Bytes × Int)} (h : Pieces s ps) {a b : Bytes} {c : Char}
    (hs : s = a ++ (enc c ++ b)) :
    ∃ pre post, ps = pre ++ (enc c, (c.toNat : Int)) :: post ∧ bytesOf pre = a := by
  induction h generalizing a with
  | nil =>
    simp [enc_ne_nil] at hs
  | @cons s p t r ps hst he ht ih =>
    by_cases ha : a = []
    · subst ha
      rw [List.nil_append] at hs
      rw [hs] at hst
      obtain ⟨rfl, rfl⟩ := Step.unique hst (Step.char c b)
      exact ⟨[], ps, rfl, rfl⟩
    · by_cases hle : p.length ≤ a.length
      · have hpa : p <+: a := by
          have h1 : p <+: a ++ (enc c ++ b) := ⟨t, by rw [← he, hs]⟩
          exact List.prefix_of_prefix_length_le h1 (List.prefix_append _ _) hle
        obtain ⟨a', rfl⟩ := hpa
        rw [he, List.append_assoc] at hs
        obtain ⟨pre, post, h1, h2⟩ := ih (List.append_cancel_left hs)
        refine ⟨(p, r) :: pre, post, by rw [h1]; rfl, ?_⟩
        simp only [bytesOf, List.flatMap_cons] at *
        rw [h2]
      · exfalso
        have hap : 0 < a.length := List.length_pos_iff.mpr ha
        -- the piece is a multi-byte character and `enc c` starts inside it
        obtain ⟨b0, cs, hb0, hb1, _⟩ := enc_shape c
        have hget : s[a.length]? = some b0 := by
          rw [hs, hb0, List.getElem?_append_right (Nat.le_refl _)]; simp
        have hget2 : p[a.length]? = some b0 := by
          rw [← hget, he, List.getElem?_append_left (by omega)]
        cases hst with
        | bad x y hx => simp at hle; exact ha hle
        | char c' t' =>
          obtain ⟨b0', cs', hb0', _, hcs', _⟩ := enc_shape c'
          rw [hb0'] at hget2
          obtain ⟨k, hk⟩ : ∃ k, a.length = k + 1 := ⟨a.length - 1, by omega⟩
          rw [hk, List.getElem?_cons_succ] at hget2
          have := hcs' b0 (List.mem_of_getElem? hget2)
          rw [hb1] at this
          exact absurd this (by simp)

theorem piece_valid {s : Bytes} {ps : List (Bytes × Int)} (h : Pieces s ps) :
    ∀ x ∈ ps, (∃ c : Char, x = (enc c, (c.toNat : Int))) ∨ x.2 = runeError := by
  induction h with
  | nil => simp
  | cons hst he ht ih =>
    intro x hx
    rcases List.mem_cons.mp hx with rfl | hx
    · cases hst with
      | char c t => exact Or.inl ⟨c, rfl⟩
      | bad b t h => exact Or.inr rfl
    · exact ih x hx

theorem validRune_iff (r : Rune) : validRune r = true ↔ ∃ c : Char, r = (c.toNat : Int) := by
  constructor
  · intro h
    have : (0 ≤ r ∧ r < 0xD800) ∨ (0xDFFF < r ∧ r ≤ 0x10FFFF) := by
      simp only [validRune, Bool.or_eq_true, Bool.and_eq_true, decide_eq_true_eq] at h; exact h
    obtain ⟨c, hc⟩ := mkChar (n := r.toNat) (by omega)
    refine ⟨c, ?_⟩
    show r = ((c.val.toNat : Nat) : Int)
    rw [hc]; omega
  · rintro ⟨c, rfl⟩
    have := char_range c
    have hc : c.toNat = c.val.toNat := rfl
    rw [hc]
    simp only [validRune, Bool.or_eq_true, Bool.and_eq_true, decide_eq_true_eq]
    simp only [maxRune]
    omega

theorem encodeRune_char (c : Char) : encodeRune (c.toNat : Int) = enc c := by
  have hv := (validRune_iff (c.toNat : Int)).mpr ⟨c, rfl⟩
  have hr := char_range c
  unfold encodeRune enc String.utf8EncodeChar
  rw [hv]
  have hc : ((c.toNat : Int)).toNat = c.val.toNat := rfl
  simp only [if_true, hc]
  generalize c.val.toNat = n at *
  split_ifs with h1 h2 h3
  · rfl
  · rw [show n / 64 % 32 + 192 = 0xC0 + n / 64 by omega, show n % 64 + 128 = 0x80 + n % 64 by omega]
  · rw [show n / 4096 % 16 + 224 = 0xE0 + n / 4096 by omega, show n / 64 % 64 + 128 = 0x80 + n / 64 % 64 by omega,
      show n % 64 + 128 = 0x80 + n % 64 by omega]
  · rw [show n / 262144 % 8 + 240 = 0xF0 + n / 262144 by omega,
      show n / 4096 % 64 + 128 = 0x80 + n / 4096 % 64 by omega,
      show n / 64 % 64 + 128 = 0x80 + n / 64 % 64 by omega, show n % 64 + 128 = 0x80 + n % 64 by omega]

/-- `strings.ContainsRune` is membership in the runes of the text. -/
theorem containsRune_iff (s : Bytes) (r : Rune) : containsRune s r = true ↔ r ∈ runesOf s := by
  obtain ⟨ps, hps⟩ := Pieces.exists s
  rw [runesOf_pieces hps]
  have hin : ∀ c : Char, enc c <:+: s → (c.toNat : Int) ∈ ps.map (·.2) := by
    rintro c ⟨a, b, hab⟩
    obtain ⟨pre, post, h1, _⟩ := pieces_of_infix hps (a := a) (b := b) (c := c) (by rw [← hab]; simp)
    rw [h1]; simp
  have hout : ∀ c : Char, (c.toNat : Int) ∈ ps.map (·.2) → c ≠ fffd → enc c <:+: s := by
    intro c hc hne
    obtain ⟨x, hx, hxc⟩ := List.mem_map.mp hc
    rcases piece_valid hps x hx with ⟨c', rfl⟩ | hre
    · have : c' = c := char_ext (Int.ofNat.inj hxc)
      subst this
      obtain ⟨pre, post, rfl⟩ := List.append_of_mem hx
      rw [← hps.bytes]
      exact ⟨bytesOf pre, bytesOf post, by simp [bytesOf]⟩
    · rw [hre] at hxc
      exact absurd hxc.symm (toNat_ne_fffd.mpr hne)
  unfold containsRune indexRune
  split_ifs with h1 h2 h3
  · simp only [Bool.and_eq_true, decide_eq_true_eq] at h1
    obtain ⟨c, hc⟩ := mkChar (n := r.toNat) (by omega)
    have hrc : r = (c.toNat : Int) := by
      show r = ((c.val.toNat : Nat) : Int); rw [hc]; omega
    have henc : enc c = [UInt8.ofNat r.toNat] := by
      unfold enc String.utf8EncodeChar
      simp only [hc]
      rw [if_pos (by omega)]
    have hu : (UInt8.ofNat r.toNat).toNat = r.toNat := u8 (by omega)
    have hiff : (indexByte s r).isSome = true ↔ enc c <:+: s := by
      unfold indexByte
      rw [List.findIdx?_isSome, henc, List.any_eq_true]
      constructor
      · rintro ⟨b, hb, hbr⟩
        have : b = UInt8.ofNat r.toNat := by
          apply u8_eq
          have : (b.toNat : Int) = r := by simpa using hbr
          omega
        subst this
        obtain ⟨l1, l2, rfl⟩ := List.append_of_mem hb
        exact ⟨l1, l2, by simp⟩
      · rintro ⟨l1, l2, rfl⟩
        refine ⟨UInt8.ofNat r.toNat, by simp, ?_⟩
        rw [hu]
        simp
        omega
    rw [hiff]
    constructor
    · intro h; rw [hrc]; exact hin c h
    · intro h
      apply hout c (hrc ▸ h)
      rw [← toNat_ne_fffd, ← hrc]
      simp only [runeError]
      omega
  · have hr : r = runeError := by simpa using h2
    subst hr
    rw [rangeStr_pieces hps]
    simp only [Option.isSome_map, List.find?_isSome]
    constructor
    · rintro ⟨x, hx, hxr⟩
      rw [← offsets_runes 0]
      exact List.mem_map.mpr ⟨x, hx, by simpa using hxr⟩
    · intro h
      rw [← offsets_runes 0] at h
      obtain ⟨x, hx, hxr⟩ := List.mem_map.mp h
      exact ⟨x, hx, by simpa using hxr⟩
  · simp only [Bool.not_eq_true', Option.isSome_none, Bool.false_eq_true, false_iff] at *
    intro h
    obtain ⟨x, hx, hxr⟩ := List.mem_map.mp h
    rcases piece_valid hps x hx with ⟨c', rfl⟩ | hre
    · have := (validRune_iff r).mpr ⟨c', hxr.symm⟩
      rw [h3] at this
      exact absurd this (by simp)
    · rw [hre] at hxr
      simp [hxr] at h2
  · simp only [Bool.not_eq_true, Bool.not_eq_false'] at h3
    obtain ⟨c, rfl⟩ := (validRune_iff r).mp (by simpa using h3)
    rw [encodeRune_char, index_isSome]
    constructor
    · exact hin c
    · intro h
      apply hout c h
      rw [← toNat_ne_fffd]
      simpa using h2

end Tok
