/-
`strconv.QuoteToGraphic`, `strconv.QuoteRuneToGraphic` and decimal numbers can be read back.
-/
import Verif.Proofs.Pieces
import Verif.Proofs.Back

namespace Tok
open Spec

/-- The value of a lower-case hexadecimal digit. -/
def hexVal (b : UInt8) : Nat := if b.toNat < 58 then b.toNat - 48 else b.toNat - 87

/-- The value of hexadecimal digits. -/
def hexNum (l : Bytes) : Nat := l.foldl (fun a b => 16 * a + hexVal b) 0

theorem hexVal_hexDigit (n : Nat) (h : n < 16) : hexVal (hexDigit n) = n := by
  unfold hexVal hexDigit
  rw [UInt8.toNat_ofNat']
  split <;> split <;> omega

theorem hexPad_length (k n : Nat) : (hexPad k n).length = k := by
  induction k generalizing n with
  | zero => rfl
  | succ k ih => simp [hexPad, ih]

theorem hexNum_hexPad (k n : Nat) (h : n < 16 ^ k) : hexNum (hexPad k n) = n := by
  induction k generalizing n with
  | zero => simp only [Nat.pow_zero] at h; simp [hexPad, hexNum]; omega
  | succ k ih =>
    have h1 : n / 16 < 16 ^ k := by
      rw [Nat.pow_succ] at h
      omega
    have := ih (n / 16) h1
    unfold hexNum at this ⊢
    rw [hexPad, List.foldl_append, this, List.foldl_cons, List.foldl_nil, hexVal_hexDigit _ (by omega)]
    omega

/-- What an escape letter stands for (other bytes for themselves). -/
def unescape (b : UInt8) : UInt8 :=
  if b = 97 then 7 else if b = 98 then 8 else if b = 102 then 12 else if b = 110 then 10 else if b = 114 then 13
  else if b = 116 then 9 else if b = 118 then 11 else b

/-- Reads one word of a quoted string back: the bytes it stands for and the rest. -/
def unquote1 : Bytes → Bytes × Bytes
  | 92 :: b :: t =>
    if b = 120 then ([UInt8.ofNat (hexNum (t.take 2))], t.drop 2)
    else if b = 117 then (encodeRune (hexNum (t.take 4) : Nat), t.drop 4)
    else if b = 85 then (encodeRune (hexNum (t.take 8) : Nat), t.drop 8)
    else ([unescape b], t)
  | s => (s.take (decodeRune s).2, s.drop (decodeRune s).2)

theorem unquote1_char {c : Char} (hc : c.toNat ≠ 92) (t : Bytes) : unquote1 (enc c ++ t) = (enc c, t) := by
  have key : ∀ s : Bytes, s.head? ≠ some 92 → unquote1 s = (s.take (decodeRune s).2, s.drop (decodeRune s).2) := by
    intro s hs
    rcases s with _ | ⟨b, _ | ⟨b', s⟩⟩
    · rfl
    · rw [unquote1]
      simp
    · rw [unquote1]
      intro b1 t1 h1
      simp only [List.cons.injEq] at h1
      exact hs (by rw [h1.1]; rfl)
  rw [key, decodeRune_enc]
  · simp
  · intro h
    have h2 := decodeRune_enc c t
    rcases hs : enc c ++ t with _ | ⟨b, s⟩
    · rw [hs] at h; simp at h
    · rw [hs] at h h2
      simp only [List.head?_cons, Option.some.injEq] at h
      subst h
      have h3 : decodeRune (92 :: s) = (92, 1) := rfl
      rw [h3] at h2
      simp only [Prod.mk.injEq] at h2
      omega

/-- The bytes of a short word. -/
theorem enc_low {c : Char} {n : Nat} (h : c.toNat = n) (hn : n < 128) : enc c = [UInt8.ofNat n] := by
  have h2 : c.toNat = c.val.toNat := rfl
  subst h
  unfold enc String.utf8EncodeChar
  simp only
  rw [if_pos (by omega)]
  rfl

/-- A byte that no character starts with is not ASCII. -/
theorem bad_high {b : UInt8} {t : Bytes} (h : ∀ c, ¬ enc c <+: (b :: t)) : 128 ≤ b.toNat := by
  by_contra hlt
  have hv : (Char.ofNat b.toNat).toNat = b.toNat := by
    have hval : b.toNat.isValidChar := .inl (by omega)
    rw [Char.ofNat, dif_pos hval]
    rfl
  exact h (Char.ofNat b.toNat) ⟨t, by rw [enc_low hv (by omega)]; simp⟩

/-- The word of a character in a quoted string can be read back. -/
theorem unquote1_escape (rt : Rt) (q : UInt8) (hq : q = 34 ∨ q = 39) (c : Char) (t : Bytes) :
    unquote1 (escapeRune rt q (c.toNat : Int) ++ t) = (enc c, t) := by
  have hr := char_range c
  have hcv : c.toNat = c.val.toNat := rfl
  unfold escapeRune
  simp only [Bool.or_eq_true, Bool.and_eq_true, beq_iff_eq, decide_eq_true_eq]
  have hqn : q.toNat = 34 ∨ q.toNat = 39 := by rcases hq with rfl | rfl <;> simp
  by_cases h1 : ((c.toNat : Int) = (q.toNat : Int) ∨ (c.toNat : Int) = 92)
  · rw [if_pos h1, enc_low rfl (by omega), Int.toNat_natCast]
    have hcase : c.toNat = 34 ∨ c.toNat = 39 ∨ c.toNat = 92 := by omega
    rcases hcase with h | h | h <;> rw [h] <;> rfl
  rw [if_neg h1]
  by_cases h2 : ((32 : Int) ≤ c.toNat ∧ (c.toNat : Int) ≤ 126 ∨ (128 : Int) ≤ c.toNat ∧ rt.graphic c.toNat = true)
  · rw [if_pos h2, encodeRune_char, unquote1_char (by omega)]
  rw [if_neg h2]
  have low : ∀ (n : Nat) (b : UInt8), n < 128 → (b ≠ 120 ∧ b ≠ 117 ∧ b ≠ 85) → unescape b = UInt8.ofNat n → (c.toNat : Int) = (n : Int) →
      unquote1 ([92, b] ++ t) = (enc c, t) := by
    intro n b hn hb hu hc
    rw [enc_low (n := n) (by omega) hn]
    show unquote1 (92 :: b :: t) = _
    rw [unquote1, if_neg hb.1, if_neg hb.2.1, if_neg hb.2.2, hu]
  by_cases h3 : (c.toNat : Int) = 7
  · rw [if_pos h3]; exact low 7 _ (by decide) (by decide) (by decide) h3
  rw [if_neg h3]
  by_cases h3 : (c.toNat : Int) = 8
  · rw [if_pos h3]; exact low 8 _ (by decide) (by decide) (by decide) h3
  rw [if_neg h3]
  by_cases h3 : (c.toNat : Int) = 12
  · rw [if_pos h3]; exact low 12 _ (by decide) (by decide) (by decide) h3
  rw [if_neg h3]
  by_cases h3 : (c.toNat : Int) = 10
  · rw [if_pos h3]; exact low 10 _ (by decide) (by decide) (by decide) h3
  rw [if_neg h3]
  by_cases h3 : (c.toNat : Int) = 13
  · rw [if_pos h3]; exact low 13 _ (by decide) (by decide) (by decide) h3
  rw [if_neg h3]
  by_cases h3 : (c.toNat : Int) = 9
  · rw [if_pos h3]; exact low 9 _ (by decide) (by decide) (by decide) h3
  rw [if_neg h3]
  by_cases h3 : (c.toNat : Int) = 11
  · rw [if_pos h3]; exact low 11 _ (by decide) (by decide) (by decide) h3
  rw [if_neg h3]
  by_cases h3 : ((c.toNat : Int) < 32 ∨ (c.toNat : Int) = 127)
  · have hlt : c.toNat < 128 := by omega
    rw [if_pos h3, enc_low rfl hlt, Int.toNat_natCast]
    show unquote1 (92 :: 120 :: (hexPad 2 c.toNat ++ t)) = _
    rw [unquote1, if_pos rfl, List.take_left' (hexPad_length _ _), List.drop_left' (hexPad_length _ _), hexNum_hexPad _ _ (by omega)]
  rw [if_neg h3]
  by_cases h4 : (c.toNat : Int) < 65536
  · rw [if_pos h4, Int.toNat_natCast]
    show unquote1 (92 :: 117 :: (hexPad 4 c.toNat ++ t)) = _
    rw [unquote1, if_neg (by decide), if_pos rfl, List.take_left' (hexPad_length _ _), List.drop_left' (hexPad_length _ _), hexNum_hexPad _ _ (by omega), encodeRune_char]
  · rw [if_neg h4, Int.toNat_natCast]
    show unquote1 (92 :: 85 :: (hexPad 8 c.toNat ++ t)) = _
    rw [unquote1, if_neg (by decide), if_neg (by decide), if_pos rfl, List.take_left' (hexPad_length _ _), List.drop_left' (hexPad_length _ _),
      hexNum_hexPad _ _ (by omega), encodeRune_char]

theorem escape_inj {rt : Rt} {q : UInt8} (hq : q = 34 ∨ q = 39) {c c' : Char} {t t' : Bytes}
    (h : escapeRune rt q (c.toNat : Int) ++ t = escapeRune rt q (c'.toNat : Int) ++ t') : c = c' ∧ t = t' := by
  have h1 := unquote1_escape rt q hq c t
  rw [h, unquote1_escape rt q hq] at h1
  simp only [Prod.mk.injEq] at h1
  exact ⟨(enc_append_inj (t := []) (t' := []) (by rw [List.append_nil, List.append_nil, h1.1])).1.symm, h1.2.symm⟩

/-- A word does not start with the quote. -/
theorem escape_head (rt : Rt) (q : UInt8) (hq : q = 34 ∨ q = 39) (c : Char) (t u : Bytes) :
    escapeRune rt q (c.toNat : Int) ++ t ≠ q :: u := by
  intro h
  have h1 := unquote1_escape rt q hq c t
  have h2 : unquote1 (q :: u) = ([q], u) := by rcases hq with rfl | rfl <;> rfl
  rw [h, h2] at h1
  simp only [Prod.mk.injEq] at h1
  have hc : (c.toNat : Int) = (q.toNat : Int) := by
    have := decodeRune_enc c []
    rw [← h1.1] at this
    have h3 : decodeRune ([q] ++ []) = ((q.toNat : Int), 1) := by rcases hq with rfl | rfl <;> rfl
    rw [h3] at this
    simp only [Prod.mk.injEq] at this
    exact this.1.symm
  unfold escapeRune at h
  rw [if_pos (by simp [hc])] at h
  rcases hq with rfl | rfl <;> simp at h

/-- The words of `QuoteToGraphic`. -/
def quoteWord (rt : Rt) (x : Bytes × Int) : Bytes :=
  match x.1 with
  | [b] => if 128 ≤ b.toNat then b!"\\x" ++ hexPad 2 b.toNat else escapeRune rt 34 x.2
  | _ => escapeRune rt 34 x.2

theorem quoteGo_skip (rt : Rt) (k : Nat) (s : Bytes) (h : k ≤ s.length) : quoteGo rt k s = quoteGo rt 0 (s.drop k) := by
  induction k generalizing s with
  | zero => rfl
  | succ k ih =>
    rcases s with _ | ⟨b, t⟩
    · simp at h
    · rw [quoteGo, ih t (by simpa using h)]
      rfl

theorem quoteGo_pieces (rt : Rt) {s : Bytes} {ps : List (Bytes × Int)} (h : Pieces s ps) :
    quoteGo rt 0 s = ps.flatMap (quoteWord rt) := by
  induction h with
  | nil => rfl
  | @cons s p t r ps hs he ht ih =>
    rw [List.flatMap_cons, ← ih]
    cases hs with
    | char c t' =>
      have : t' = t := List.append_cancel_left he
      subst this
      obtain ⟨b, u, hb⟩ := List.exists_cons_of_ne_nil (l := enc c) (by
        intro h; have := enc_length_pos c; rw [h] at this; simp at this)
      have hl : (enc c).length = u.length + 1 := by rw [hb]; rfl
      have h1 : quoteGo rt 0 (enc c ++ t') = escapeRune rt 34 (c.toNat : Int) ++ quoteGo rt 0 t' := by
        have hd := decodeRune_enc c t'
        rw [hb] at hd ⊢
        rw [List.cons_append] at hd ⊢
        rw [quoteGo, hd]
        simp only
        rw [if_neg ?_, List.length_cons, Nat.add_sub_cancel, quoteGo_skip _ _ _ (by simp), List.drop_left]
        rintro ⟨h1, h2⟩
        rw [List.length_cons] at h1
        have hn : c.toNat = 0xFFFD := Int.ofNat.inj h2
        have hcv : c.toNat = c.val.toNat := rfl
        have : (enc c).length = 3 := by
          unfold enc String.utf8EncodeChar
          simp only
          rw [if_neg (by omega), if_neg (by omega), if_pos (by omega)]
          rfl
        omega
      rw [h1]
      congr 1
      unfold quoteWord
      simp only
      split
      · rename_i b' hb'
        rw [if_neg]
        intro hge
        have hd := decodeRune_enc c []
        rw [hb'] at hd
        have : (enc c).length = 1 := by rw [hb']; rfl
        have hcv : c.toNat = c.val.toNat := rfl
        by_cases hlt : c.toNat < 128
        · rw [enc_low rfl hlt] at hb'
          have := congrArg (fun l => (l.headD 0).toNat) hb'
          simp only [List.headD_cons, UInt8.toNat_ofNat'] at this
          omega
        · have : 2 ≤ (enc c).length := by
            unfold enc String.utf8EncodeChar
            simp only
            rw [if_neg (by omega)]
            split
            · simp
            · split <;> simp
          omega
      · rfl
    | bad b t' hbad =>
      have hcons : b :: t' = b :: t := he
      simp only [List.cons.injEq, true_and] at hcons
      subst hcons
      have hge : 128 ≤ b.toNat := bad_high hbad
      have hd : decodeRune (b :: t') = (runeError, 1) := by
        rcases decodeRune_cases (b :: t') with ⟨h, _⟩ | ⟨_, h, _⟩ | ⟨c, u, h, _⟩
        · cases h
        · exact h
        · exact absurd ⟨u, h.symm⟩ (hbad c)
      rw [quoteGo, hd]
      simp only [Nat.sub_self, and_self, if_true]
      congr 1
      unfold quoteWord
      simp only
      rw [if_pos hge]

theorem unquote1_word (rt : Rt) {s p : Bytes} {r : Int} (h : Step s r p) (t : Bytes) : unquote1 (quoteWord rt (p, r) ++ t) = (p, t) := by
  have hx : ∀ b : UInt8, 128 ≤ b.toNat → unquote1 (b!"\\x" ++ hexPad 2 b.toNat ++ t) = ([b], t) := by
    intro b _
    have := b.toNat_lt
    show unquote1 (92 :: 120 :: (hexPad 2 b.toNat ++ t)) = _
    rw [unquote1, if_pos rfl, List.take_left' (hexPad_length _ _), List.drop_left' (hexPad_length _ _), hexNum_hexPad _ _ (by omega)]
    simp
  cases h with
  | char c t' =>
    unfold quoteWord
    simp only
    split
    · rename_i b hb
      split_ifs with hge
      · rw [hx b hge, hb]
      · rw [unquote1_escape rt 34 (.inl rfl)]
    · rw [unquote1_escape rt 34 (.inl rfl)]
  | bad b t' hbad =>
    have hge : 128 ≤ b.toNat := bad_high hbad
    unfold quoteWord
    simp only
    rw [if_pos hge, hx b hge]

theorem quoteWord_head (rt : Rt) {s p : Bytes} {r : Int} (h : Step s r p) (t u : Bytes) : quoteWord rt (p, r) ++ t ≠ 34 :: u := by
  cases h with
  | char c t' =>
    unfold quoteWord
    simp only
    split
    · split_ifs
      · exact fun h => by simp at h
      · exact escape_head rt 34 (.inl rfl) c t u
    · exact escape_head rt 34 (.inl rfl) c t u
  | bad b t' hbad =>
    unfold quoteWord
    simp only
    split_ifs
    · exact fun h => by simp at h
    · rename_i hge
      exact absurd (bad_high hbad) hge

/-- A quoted string can be read back, whatever follows it. -/
theorem quote_inj (rt : Rt) {s s' x y : Bytes} (h : quoteToGraphic rt s ++ x = quoteToGraphic rt s' ++ y) : s = s' ∧ x = y := by
  obtain ⟨ps, hps⟩ := Spec.Pieces.exists s
  obtain ⟨ps', hps'⟩ := Spec.Pieces.exists s'
  unfold quoteToGraphic at h
  rw [quoteGo_pieces rt hps, quoteGo_pieces rt hps'] at h
  simp only [List.append_assoc, List.cons_append, List.nil_append, List.cons.injEq, true_and] at h
  clear * - hps hps' h
  induction hps generalizing s' ps' with
  | nil =>
    cases hps' with
    | nil => simpa using h
    | @cons s p t r ps hs he ht =>
      exfalso
      simp only [List.flatMap_nil, List.nil_append, List.flatMap_cons, List.append_assoc] at h
      exact quoteWord_head rt hs _ _ h.symm
  | @cons s p t r ps hs he ht ih =>
    cases hps' with
    | nil =>
      exfalso
      simp only [List.flatMap_nil, List.nil_append, List.flatMap_cons, List.append_assoc] at h
      exact quoteWord_head rt hs _ _ h
    | @cons s' p' t' r' ps' hs' he' ht' =>
      simp only [List.flatMap_cons, List.append_assoc] at h
      have h1 := unquote1_word rt hs (ps.flatMap (quoteWord rt) ++ 34 :: x)
      rw [h, unquote1_word rt hs'] at h1
      simp only [Prod.mk.injEq] at h1
      obtain ⟨h2, h3⟩ := ih _ ht' h1.2.symm
      exact ⟨by rw [he, he', h1.1, h2], h3⟩

end Tok
