/-
Names, numerals and short literal strings of Lua 5.4 (manual, section 3.1), on bytes.
-/
import Verif.Spec.Text

namespace Tok.Spec

/-- `x` is the longest beginning of `t` that is in `L`. -/
def Longest (L : Bytes → Prop) (t x : Bytes) : Prop := x <+: t ∧ L x ∧ ∀ y, y <+: t → L y → y.length ≤ x.length

/-- A letter of the Latin alphabet or an underscore. -/
def NameStart (b : UInt8) : Prop := (97 ≤ b ∧ b ≤ 122) ∨ (65 ≤ b ∧ b ≤ 90) ∨ b = 95

def DecDigit (b : UInt8) : Prop := 48 ≤ b ∧ b ≤ 57

def HexDigit (b : UInt8) : Prop := (48 ≤ b ∧ b ≤ 57) ∨ (97 ≤ b ∧ b ≤ 102) ∨ (65 ≤ b ∧ b ≤ 70)

/-! ### names -/

/-- Letters, digits and underscores, not beginning with a digit. -/
def LuaIdent (x : Bytes) : Prop := ∃ b y, x = b :: y ∧ NameStart b ∧ ∀ c ∈ y, NameStart c ∨ DecDigit c

/-- The reserved words. -/
def luaKeywords : List Bytes :=
  [b!"and", b!"break", b!"do", b!"else", b!"elseif", b!"end", b!"false", b!"for", b!"function", b!"goto", b!"if", b!"in",
   b!"local", b!"nil", b!"not", b!"or", b!"repeat", b!"return", b!"then", b!"true", b!"until", b!"while"]

/-- Names. -/
def LuaName (x : Bytes) : Prop := LuaIdent x ∧ x ∉ luaKeywords

/-! ### numerals -/

/-- At least one digit. -/
def Digits (D : UInt8 → Prop) (x : Bytes) : Prop := x ≠ [] ∧ ∀ b ∈ x, D b

/-- Digits with an optional radix point; the part in front of the point or the part behind it may be missing. -/
def Mantissa (D : UInt8 → Prop) (x : Bytes) : Prop :=
  Digits D x ∨ ∃ a b, x = a ++ 46 :: b ∧ (∀ c ∈ a, D c) ∧ (∀ c ∈ b, D c) ∧ (a ≠ [] ∨ b ≠ [])

/-- An exponent marked by `m` or `M`, in decimal. -/
def Exponent (m M : UInt8) (x : Bytes) : Prop :=
  ∃ c s d, x = c :: (s ++ d) ∧ (c = m ∨ c = M) ∧ (s = [] ∨ s = [43] ∨ s = [45]) ∧ Digits DecDigit d

def Decimal (x : Bytes) : Prop := ∃ m e, x = m ++ e ∧ Mantissa DecDigit m ∧ (e = [] ∨ Exponent 101 69 e)

def Hexadecimal (x : Bytes) : Prop :=
  ∃ c m e, x = 48 :: c :: (m ++ e) ∧ (c = 120 ∨ c = 88) ∧ Mantissa HexDigit m ∧ (e = [] ∨ Exponent 112 80 e)

/-- Numerals. -/
def LuaNumeral (x : Bytes) : Prop := Decimal x ∨ Hexadecimal x

/-- Digits, and with a radix point also digits behind it. -/
def FullMantissa (D : UInt8 → Prop) (x : Bytes) : Prop :=
  Digits D x ∨ ∃ a b, x = a ++ 46 :: b ∧ Digits D a ∧ Digits D b

/-- Numerals with digits on both sides of a radix point. -/
def FullNumeral (x : Bytes) : Prop :=
  (∃ m e, x = m ++ e ∧ FullMantissa DecDigit m ∧ (e = [] ∨ Exponent 101 69 e)) ∨
  ∃ c m e, x = 48 :: c :: (m ++ e) ∧ (c = 120 ∨ c = 88) ∧ FullMantissa HexDigit m ∧ (e = [] ∨ Exponent 112 80 e)

/-! ### short literal strings -/

/-- The value of decimal digits. -/
def decimalValue (ds : Bytes) : Nat := ds.foldl (fun n b => 10 * n + (b.toNat - 48)) 0

def hexDigitValue (b : UInt8) : Nat := if b.toNat ≤ 57 then b.toNat - 48 else if b.toNat ≤ 70 then b.toNat - 55 else b.toNat - 87

/-- The value of hexadecimal digits. -/
def hexadecimalValue (ds : Bytes) : Nat := ds.foldl (fun n b => 16 * n + hexDigitValue b) 0

/-- What may stand between two quotes `q`. -/
inductive LuaChars (q : UInt8) : Bytes → Prop
  | nil : LuaChars q []
  /-- Any byte but the quote, the backslash and line breaks. -/
  | plain {b : UInt8} {x : Bytes} : b ≠ q → b ≠ 92 → b ≠ 10 → b ≠ 13 → LuaChars q x → LuaChars q (b :: x)
  | simple {c : UInt8} {x : Bytes} : c ∈ b!"abfnrtv\\\"'" → LuaChars q x → LuaChars q (92 :: c :: x)
  /-- A backslash and a line break. -/
  | newline {n x : Bytes} : n ∈ [[10], [13], [13, 10], [10, 13]] → LuaChars q x → LuaChars q (92 :: (n ++ x))
  /-- `\z` skips the white space behind it. -/
  | skip {w x : Bytes} : (∀ b ∈ w, b = 32 ∨ 9 ≤ b ∧ b ≤ 13) → LuaChars q x → LuaChars q (92 :: 122 :: (w ++ x))
  | hex {a b : UInt8} {x : Bytes} : HexDigit a → HexDigit b → LuaChars q x → LuaChars q (92 :: 120 :: a :: b :: x)
  /-- Up to three decimal digits. -/
  | dec {ds x : Bytes} : Digits DecDigit ds → ds.length ≤ 3 → decimalValue ds ≤ 255 → (ds.length = 3 ∨ ∀ d y, x = d :: y → ¬ DecDigit d) → LuaChars q x →
    LuaChars q (92 :: (ds ++ x))
  | utf {ds x : Bytes} : Digits HexDigit ds → hexadecimalValue ds < 2 ^ 31 → LuaChars q x → LuaChars q (92 :: 117 :: 123 :: (ds ++ 125 :: x))

/-- A short literal string. -/
def LuaShort (x : Bytes) : Prop := ∃ q y, (q = 34 ∨ q = 39) ∧ x = q :: (y ++ [q]) ∧ LuaChars q y

/-- Escape sequences as the grammar has them: the next character, a digit, two hexadecimal digits, any number of hexadecimal digits. -/
inductive TokEscape : Bytes → Prop
  | simple {c : UInt8} : c ∈ b!"abfnrtvz\"'\\" → TokEscape [92, c]
  | digit {d : UInt8} : DecDigit d → TokEscape [92, d]
  | hex {a b : UInt8} : HexDigit a → HexDigit b → TokEscape [92, 120, a, b]
  | utf {ds : Bytes} : Digits HexDigit ds → TokEscape (92 :: 117 :: 123 :: (ds ++ [125]))

/-- What the grammar has between two quotes: no control characters at all. -/
inductive TokChars (q : UInt8) : Bytes → Prop
  | nil : TokChars q []
  | plain {b : UInt8} {x : Bytes} : 32 ≤ b → b ≠ q → b ≠ 92 → TokChars q x → TokChars q (b :: x)
  | esc {e x : Bytes} : TokEscape e → TokChars q x → TokChars q (e ++ x)

end Tok.Spec
