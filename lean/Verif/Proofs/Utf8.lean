/-
Facts about the modelled UTF-8 functions.
-/
import Mathlib.Tactic.Common
import Verif.Model.Strings
import Verif.Spec.Text

namespace Tok
open Spec

theorem seqLen_cases (b : UInt8) :
    (b.toNat < 0x80 ∧ seqLen b = 1) ∨ (0x80 ≤ b.toNat ∧ b.toNat < 0xC2 ∧ seqLen b = 0) ∨
    (0xC2 ≤ b.toNat ∧ b.toNat < 0xE0 ∧ seqLen b = 2) ∨ (0xE0 ≤ b.toNat ∧ b.toNat < 0xF0 ∧ seqLen b = 3) ∨
    (0xF0 ≤ b.toNat ∧ b.toNat < 0xF5 ∧ seqLen b = 4) ∨ (0xF5 ≤ b.toNat ∧ seqLen b = 0) := by
  unfold seqLen
  simp only
  split_ifs <;> omega

theorem decodeRune_one {b : UInt8} (h : b.toNat < 0x80) (t : Bytes) :
    decodeRune (b :: t) = ((b.toNat : Int), 1) := by
  have : seqLen b = 1 := by have := seqLen_cases b; omega
  simp [decodeRune, this]

theorem decodeRune_two {b b1 : UInt8} (h : seqLen b = 2) (t : Bytes) :
    decodeRune (b :: b1 :: t) = if secondOk b b1 then
        ((((b.toNat - 0xC0) * 64 + (b1.toNat - 0x80) : Nat) : Int), 2)
      else (runeError, 1) := by
  simp [decodeRune, h]

theorem decodeRune_three {b b1 b2 : UInt8} (h : seqLen b = 3) (t : Bytes) :
    decodeRune (b :: b1 :: b2 :: t) = if secondOk b b1 && isCont b2 then
        ((((b.toNat - 0xE0) * 4096 + (b1.toNat - 0x80) * 64 + (b2.toNat - 0x80) : Nat) : Int), 3)
      else (runeError, 1) := by
  simp [decodeRune, h]

theorem decodeRune_four {b b1 b2 b3 : UInt8} (h : seqLen b = 4) (t : Bytes) :
    decodeRune (b :: b1 :: b2 :: b3 :: t) = if secondOk b b1 && isCont b2 && isCont b3 then
        ((((b.toNat - 0xF0) * 262144 + (b1.toNat - 0x80) * 4096
            + (b2.toNat - 0x80) * 64 + (b3.toNat - 0x80) : Nat) : Int), 4)
      else (runeError, 1) := by
  simp [decodeRune, h]

theorem char_range (c : Char) : c.val.toNat < 0xD800 ∨ (0xDFFF < c.val.toNat ∧ c.val.toNat < 0x110000) := by
  have := c.valid
  simp only [UInt32.isValidChar, Nat.isValidChar] at this
  exact this

theorem u8 {n : Nat} (h : n < 256) : (UInt8.ofNat n).toNat = n := by
  simp [UInt8.toNat_ofNat', Nat.mod_eq_of_lt h]

/-- Decoding the encoding of a character gives it back. -/
theorem decodeRune_enc (c : Char) (t : Bytes) :
    decodeRune (enc c ++ t) = ((c.toNat : Int), (enc c).length) := by
  have hv := char_range c
  have hc : c.toNat = c.val.toNat := rfl
  rw [hc]
  unfold enc String.utf8EncodeChar
  generalize c.val.toNat = n at *
  simp only
  split_ifs with h1 h2 h3
  · have : (UInt8.ofNat n).toNat = n := u8 (by omega)
    simp only [List.cons_append, List.nil_append, List.length_cons, List.length_nil]
    rw [decodeRune_one (by omega), this]
  · have e0 : (UInt8.ofNat (n / 64 % 32 + 192)).toNat = n / 64 % 32 + 192 := u8 (by omega)
    have e1 : (UInt8.ofNat (n % 64 + 128)).toNat = n % 64 + 128 := u8 (by omega)
    simp only [List.cons_append, List.nil_append, List.length_cons, List.length_nil]
    rw [decodeRune_two (by have := seqLen_cases (UInt8.ofNat (n / 64 % 32 + 192)); omega)]
    simp only [secondOk, e0, e1]
    rw [if_pos]
    · exact Prod.ext (congrArg Int.ofNat (by omega)) rfl
    · split_ifs <;> simp <;> omega
  · have e0 : (UInt8.ofNat (n / 4096 % 16 + 224)).toNat = n / 4096 % 16 + 224 := u8 (by omega)
    have e1 : (UInt8.ofNat (n / 64 % 64 + 128)).toNat = n / 64 % 64 + 128 := u8 (by omega)
    have e2 : (UInt8.ofNat (n % 64 + 128)).toNat = n % 64 + 128 := u8 (by omega)
    simp only [List.cons_append, List.nil_append, List.length_cons, List.length_nil]
    rw [decodeRune_three (by have := seqLen_cases (UInt8.ofNat (n / 4096 % 16 + 224)); omega)]
    simp only [secondOk, isCont, e0, e1, e2]
    rw [if_pos]
    · exact Prod.ext (congrArg Int.ofNat (by omega)) rfl
    · split_ifs <;> simp <;> omega
  · have e0 : (UInt8.ofNat (n / 262144 % 8 + 240)).toNat = n / 262144 % 8 + 240 := u8 (by omega)
    have e1 : (UInt8.ofNat (n / 4096 % 64 + 128)).toNat = n / 4096 % 64 + 128 := u8 (by omega)
    have e2 : (UInt8.ofNat (n / 64 % 64 + 128)).toNat = n / 64 % 64 + 128 := u8 (by omega)
    have e3 : (UInt8.ofNat (n % 64 + 128)).toNat = n % 64 + 128 := u8 (by omega)
    simp only [List.cons_append, List.nil_append, List.length_cons, List.length_nil]
    rw [decodeRune_four (by have := seqLen_cases (UInt8.ofNat (n / 262144 % 8 + 240)); omega)]
    simp only [secondOk, isCont, e0, e1, e2, e3]
    rw [if_pos]
    · exact Prod.ext (congrArg Int.ofNat (by omega)) rfl
    · split_ifs <;> simp <;> omega

theorem mkChar {n : Nat} (h : n < 0xD800 ∨ (0xDFFF < n ∧ n < 0x110000)) : ∃ c : Char, c.val.toNat = n := by
  refine ⟨⟨UInt32.ofNat n, ?_⟩, ?_⟩
  · simp only [UInt32.isValidChar, Nat.isValidChar]
    have : (UInt32.ofNat n).toNat = n := by
      simp [UInt32.toNat_ofNat']; omega
    rw [this]; exact h
  · simp [UInt32.toNat_ofNat']; omega

theorem u8_eq {b : UInt8} {n : Nat} (h : b.toNat = n) : b = UInt8.ofNat n := by
  subst h; simp

/-- Whatever is decoded other than `(RuneError, ≤ 1)` is the encoding of a
character. -/
theorem decodeRune_cases (s : Bytes) :
    (s = [] ∧ decodeRune s = (runeError, 0)) ∨
    (s ≠ [] ∧ decodeRune s = (runeError, 1) ∧ ∀ c, ¬ enc c <+: s) ∨
    (∃ c t, s = enc c ++ t ∧ decodeRune s = ((c.toNat : Int), (enc c).length)) := by
  rcases s with _ | ⟨b0, t⟩
  · left; simp [decodeRune]
  right
  by_cases hc : ∃ c t', (b0 :: t) = enc c ++ t'
  · right
    obtain ⟨c, t', h⟩ := hc
    exact ⟨c, t', h, by rw [h, decodeRune_enc]⟩
  left
  refine ⟨by simp, ?_, ?_⟩
  swap
  · rintro c ⟨t', h⟩
    exact hc ⟨c, t', h.symm⟩
  push Not at hc
  have key : ∀ n : Nat, (n < 0xD800 ∨ (0xDFFF < n ∧ n < 0x110000)) → ∀ t', 
      (b0 :: t) ≠ (let v := n
        if v ≤ 0x7f then [UInt8.ofNat v] else if v ≤ 0x7ff then
          [UInt8.ofNat (v / 64 % 32 + 192), UInt8.ofNat (v % 64 + 128)]
        else if v ≤ 0xffff then [UInt8.ofNat (v / 4096 % 16 + 224), UInt8.ofNat (v / 64 % 64 + 128), UInt8.ofNat (v % 64 + 128)]
        else [UInt8.ofNat (v / 262144 % 8 + 240), UInt8.ofNat (v / 4096 % 64 + 128), UInt8.ofNat (v / 64 % 64 + 128), UInt8.ofNat (v % 64 + 128)]) ++ t' := by
    intro n hn t'
    obtain ⟨c, rfl⟩ := mkChar hn
    exact hc c t'
  have hb := seqLen_cases b0
  have h0 := b0.toNat_lt
  rcases hb with ⟨h, _⟩ | ⟨h, h', hl⟩ | ⟨h, h', hl⟩ | ⟨h, h', hl⟩ | ⟨h, h', hl⟩ | ⟨h, hl⟩
  · exfalso
    refine key b0.toNat (by omega) t ?_
    simp only
    rw [if_pos (by omega)]
    simp
  · simp [decodeRune, hl]
  · rcases t with _ | ⟨b1, t⟩
    · simp [decodeRune, hl]
    · rw [decodeRune_two hl, if_neg]
      intro hok
      have h1 := b1.toNat_lt
      have : 0x80 ≤ b1.toNat ∧ b1.toNat ≤ 0xBF := by
        simp only [secondOk] at hok
        split_ifs at hok <;> simp at hok <;> omega
      refine key ((b0.toNat - 0xC0) * 64 + (b1.toNat - 0x80)) (by omega) t ?_
      simp only
      rw [if_neg (by omega), if_pos (by omega)]
      simp only [List.cons_append, List.nil_append, List.cons.injEq, and_true]
      exact ⟨u8_eq (by omega), u8_eq (by omega)⟩
  · rcases t with _ | ⟨b1, _ | ⟨b2, t⟩⟩
    · simp [decodeRune, hl]
    · simp [decodeRune, hl]
    · rw [decodeRune_three hl, if_neg]
      intro hok
      have h1 := b1.toNat_lt
      have h2 := b2.toNat_lt
      simp only [Bool.and_eq_true] at hok
      have h2' : 0x80 ≤ b2.toNat ∧ b2.toNat ≤ 0xBF := by
        have := hok.2; simp [isCont] at this; omega
      have : 0x80 ≤ b1.toNat ∧ b1.toNat ≤ 0xBF ∧ (b0.toNat = 0xE0 → 0xA0 ≤ b1.toNat) ∧ (b0.toNat = 0xED → b1.toNat ≤ 0x9F) := by
        have hok := hok.1
        simp only [secondOk] at hok
        split_ifs at hok <;> simp at hok <;> omega
      refine key ((b0.toNat - 0xE0) * 4096 + (b1.toNat - 0x80) * 64 + (b2.toNat - 0x80)) (by omega) t ?_
      simp only
      rw [if_neg (by omega), if_neg (by omega), if_pos (by omega)]
      simp only [List.cons_append, List.nil_append, List.cons.injEq, and_true]
      exact ⟨u8_eq (by omega), u8_eq (by omega), u8_eq (by omega)⟩
  · rcases t with _ | ⟨b1, _ | ⟨b2, _ | ⟨b3, t⟩⟩⟩
    · simp [decodeRune, hl]
    · simp [decodeRune, hl]
    · simp [decodeRune, hl]
    · rw [decodeRune_four hl, if_neg]
      intro hok
      have h1 := b1.toNat_lt
      have h2 := b2.toNat_lt
      have h3 := b3.toNat_lt
      simp only [Bool.and_eq_true] at hok
      have h2' : 0x80 ≤ b2.toNat ∧ b2.toNat ≤ 0xBF := by
        have := hok.1.2; simp [isCont] at this; omega
      have h3' : 0x80 ≤ b3.toNat ∧ b3.toNat ≤ 0xBF := by
        have := hok.2; simp [isCont] at this; omega
      have : 0x80 ≤ b1.toNat ∧ b1.toNat ≤ 0xBF ∧ (b0.toNat = 0xF0 → 0x90 ≤ b1.toNat) ∧ (b0.toNat = 0xF4 → b1.toNat ≤ 0x8F) := by
        have hok := hok.1.1
        simp only [secondOk] at hok
        split_ifs at hok <;> simp at hok <;> omega
      refine key ((b0.toNat - 0xF0) * 262144 + (b1.toNat - 0x80) * 4096 + (b2.toNat - 0x80) * 64 + (b3.toNat - 0x80)) (by omega) t ?_
      simp only
      rw [if_neg (by omega), if_neg (by omega), if_neg (by omega)]
      simp only [List.cons_append, List.nil_append, List.cons.injEq, and_true]
      exact ⟨u8_eq (by omega), u8_eq (by omega), u8_eq (by omega), u8_eq (by omega)⟩
  · simp [decodeRune, hl]

end Tok
