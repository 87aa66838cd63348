/-
C67 The texts of tokens, segments and errors.
-/
import Verif.Props.C61
import Verif.Props.C28

namespace Tok
open Spec

/-- The decimal digits of a natural number, without a leading zero. -/
inductive Decimal : Bytes → Nat → Prop
  | one {d : Nat} : d < 10 → Decimal [UInt8.ofNat (48 + d)] d
  | more {ds : Bytes} {n d : Nat} : Decimal ds n → 0 < n → d < 10 → Decimal (ds ++ [UInt8.ofNat (48 + d)]) (10 * n + d)

/-- The decimal text of an integer. -/
inductive Numeral : Bytes → Int → Prop
  | pos {ds : Bytes} {n : Nat} : Decimal ds n → Numeral ds n
  | neg {ds : Bytes} {n : Nat} : Decimal ds n → 0 < n → Numeral (45 :: ds) (-n)

theorem digitChar_byte {d : Nat} (h : d < 10) : UInt8.ofNat d.digitChar.toNat = UInt8.ofNat (48 + d) := by
  have : ∀ d < 10, UInt8.ofNat d.digitChar.toNat = UInt8.ofNat (48 + d) := by decide
  exact this d h

theorem decimal_natDigits (n : Nat) : Decimal (natDigits n) n := by
  induction n using Nat.strongRecOn with
  | ind n ih =>
    unfold natDigits
    by_cases h : n < 10
    · rw [Nat.toDigits_of_lt_base h, List.map_singleton, digitChar_byte h]
      exact .one h
    · have h1 : n % 10 < 10 := Nat.mod_lt _ (by omega)
      rw [Nat.toDigits_of_base_le (by omega) (by omega), List.map_append, List.map_singleton, digitChar_byte h1]
      have := Decimal.more (ih (n / 10) (by omega)) (by omega) h1
      rwa [Nat.div_add_mod] at this

theorem numeral_itoa : ∀ n : Int, Numeral (itoa n) n
  | .ofNat n => .pos (decimal_natDigits n)
  | .negSucc n => .neg (decimal_natDigits (n + 1)) (by omega)

/-- The parts of a text around a byte that only the first part lacks. -/
theorem split_first {c : UInt8} {a b u v : Bytes} (ha : c ∉ a) (hb : c ∉ b) (h : a ++ c :: u = b ++ c :: v) : a = b ∧ u = v := by
  induction a generalizing b with
  | nil =>
    cases b with
    | nil => simpa using h
    | cons y b =>
      simp only [List.nil_append, List.cons_append, List.cons.injEq] at h
      exact absurd (List.mem_cons.mpr (.inl h.1)) hb
  | cons x a ih =>
    cases b with
    | nil =>
      simp only [List.nil_append, List.cons_append, List.cons.injEq] at h
      exact absurd (List.mem_cons.mpr (.inl h.1.symm)) ha
    | cons y b =>
      simp only [List.cons_append, List.cons.injEq] at h
      obtain ⟨h1, h2⟩ := ih (fun hm => ha (List.mem_cons_of_mem _ hm)) (fun hm => hb (List.mem_cons_of_mem _ hm)) h.2
      exact ⟨by rw [h.1, h1], h2⟩

theorem split_last {c : UInt8} {a b u v : Bytes} (hu : c ∉ u) (hv : c ∉ v) (h : a ++ c :: u = b ++ c :: v) : a = b ∧ u = v := by
  have h' := congrArg List.reverse h
  simp only [List.reverse_append, List.reverse_cons, List.append_assoc, List.singleton_append] at h'
  obtain ⟨h1, h2⟩ := split_first (by simpa using hu) (by simpa using hv) h'
  exact ⟨List.reverse_injective h2, List.reverse_injective h1⟩

theorem itoa_lacks (n : Int) (c : UInt8) (h : c ≠ 45) (h' : c.toNat < 48 ∨ 57 < c.toNat) : c ∉ itoa n := by
  have : ∀ n, c ∉ natDigits n := fun n hm => by have := natDigits_mem hm; omega
  cases n with
  | ofNat n => exact this n
  | negSucc n =>
    show c ∉ ([45] ++ natDigits (n + 1) : Bytes)
    rw [List.mem_append, not_or]
    exact ⟨by simpa using h, this _⟩

theorem natDigits_minus (n : Nat) : (45 : UInt8) ∉ natDigits n := fun h => absurd (natDigits_mem h) (by decide)

/-- A number followed by a minus sign. -/
theorem itoa_minus {n m : Int} {u v : Bytes} (h : itoa n ++ 45 :: u = itoa m ++ 45 :: v) : n = m ∧ u = v := by
  have mixed : ∀ (n m : Nat) (u v : Bytes), natDigits n ++ 45 :: u ≠ 45 :: (natDigits m ++ 45 :: v) := by
    intro n m u v h
    obtain ⟨d, w, e⟩ := List.exists_cons_of_ne_nil (natDigits_ne n)
    rw [e] at h
    simp only [List.cons_append, List.cons.injEq] at h
    exact natDigits_minus n (by rw [e, h.1]; exact List.mem_cons_self)
  cases n with
  | ofNat n =>
    cases m with
    | ofNat m =>
      obtain ⟨h1, h2⟩ := split_first (natDigits_minus n) (natDigits_minus m) h
      exact ⟨by rw [natDigits_inj h1], h2⟩
    | negSucc m => exact absurd h (mixed n (m + 1) u v)
  | negSucc n =>
    cases m with
    | ofNat m => exact absurd h.symm (mixed m (n + 1) v u)
    | negSucc m =>
      obtain ⟨h1, h2⟩ := split_first (natDigits_minus (n + 1)) (natDigits_minus (m + 1)) (List.cons.inj h).2
      have := natDigits_inj h1
      exact ⟨by congr 1; omega, h2⟩

/-- The text of a token: its two numbers in decimal. -/
theorem C67_token (t : Token) : ∃ a b, Numeral a t.frm ∧ Numeral b t.to ∧ t.string = b!"[" ++ a ++ b!"-" ++ b ++ b!")" :=
  ⟨_, _, numeral_itoa _, numeral_itoa _, rfl⟩

/-- Tokens with the same text are the same. -/
theorem C67_token_inj (t t' : Token) (h : t.string = t'.string) : t = t' := by
  obtain ⟨a, b⟩ := t
  obtain ⟨a', b'⟩ := t'
  unfold Token.string at h
  simp only [List.append_assoc, List.append_cancel_left_eq] at h
  obtain ⟨h1, h2⟩ := itoa_minus h
  have h3 := itoa_inj (List.append_cancel_right h2)
  rw [h1, h3]

/-- The text of a segment: its info and the text of its token. -/
theorem C67_segment (v : Segment) : ∃ a b, Numeral a v.tok.frm ∧ Numeral b v.tok.to ∧ v.string = v.info ++ (b!"[" ++ a ++ b!"-" ++ b ++ b!")") :=
  ⟨_, _, numeral_itoa _, numeral_itoa _, rfl⟩

/-- Segments with the same text are the same. -/
theorem C67_segment_inj (v v' : Segment) (h : v.string = v'.string) : v = v' := by
  obtain ⟨i, t⟩ := v
  obtain ⟨i', t'⟩ := v'
  have lacks : ∀ t : Token, (91 : UInt8) ∉ (itoa t.frm ++ b!"-" ++ itoa t.to ++ b!")") := by
    intro t
    simp only [List.mem_append, not_or]
    exact ⟨⟨⟨itoa_lacks _ _ (by decide) (by decide), by decide⟩, itoa_lacks _ _ (by decide) (by decide)⟩, by decide⟩
  have h' : i ++ 91 :: (itoa t.frm ++ b!"-" ++ itoa t.to ++ b!")") = i' ++ 91 :: (itoa t'.frm ++ b!"-" ++ itoa t'.to ++ b!")") := by
    simpa [Segment.string, Token.string] using h
  obtain ⟨h1, h2⟩ := split_last (lacks t) (lacks t') h'
  have h3 := C67_token_inj t t' (by simpa [Token.string] using h2)
  rw [h1, h3]

/-- The text of a read error: what was not read, and where in decimal. -/
theorem C67_error (m : Int) (what : Bytes) : ∃ a, Numeral a m ∧ (Err.read m what).text = b!"not able to read " ++ what ++ b!" at " ++ a :=
  ⟨_, numeral_itoa _, rfl⟩

/-- Read errors with the same text are the same, whatever the names of the readers are. -/
theorem C67_error_inj (m m' : Int) (what what' : Bytes) (h : (Err.read m what).text = (Err.read m' what').text) : m = m' ∧ what = what' := by
  have h' : (b!"not able to read " ++ what ++ b!" at") ++ 32 :: itoa m = (b!"not able to read " ++ what' ++ b!" at") ++ 32 :: itoa m' := by
    simpa [Err.text] using h
  obtain ⟨h1, h2⟩ := split_last (itoa_lacks m _ (by decide) (by decide)) (itoa_lacks m' _ (by decide) (by decide)) h'
  exact ⟨itoa_inj h2, List.append_cancel_left (List.append_cancel_right h1)⟩

/-- `ErrorFor` states the name and where the scanner is. -/
theorem C67_errorFor (s : Scanner) (name : Bytes) : ∃ a, Numeral a s.pos ∧ (s.errorFor name).text = b!"not able to read " ++ name ++ b!" at " ++ a :=
  ⟨_, numeral_itoa _, rfl⟩

example : (⟨b!"num", ⟨7, 120⟩⟩ : Segment).string = b!"num[7-120)" := by decide
example : (Err.read 10 b!"'a' at 1").text = b!"not able to read 'a' at 1 at 10" := by decide

end Tok
