/-
Lua with relaxed rules for words, strings and comments: the syntax is that of the manual (Spec/LuaGrammar), but reserved words count as names, tokens need not be kept apart, and
the ends of long brackets and comments are told less exactly.
-/
import Verif.Spec.LuaGrammar

namespace Tok.Spec

/-- Long brackets with any text between them; the closing bracket has the level of the opening one or no level. -/
def LooseLong (x : Bytes) : Prop :=
  ∃ (k m : Nat) (y : Bytes), x = 91 :: (List.replicate k 61 ++ 91 :: (y ++ 93 :: (List.replicate m 61 ++ [93]))) ∧ (m = k ∨ m = 0)

/-- Literal strings: characters and escape sequences of the grammar between quotes (`TokChars`), or long brackets. -/
def LooseString (x : Bytes) : Prop := (∃ q y, (q = 34 ∨ q = 39) ∧ x = q :: (y ++ [q]) ∧ TokChars q y) ∨ LooseLong x

/-- White space and comments.  If the text of a comment of one line is UTF-8, then there is no line feed in it. -/
inductive LooseGap : Bytes → Prop
  | nil : LooseGap []
  | white {b : UInt8} {g : Bytes} : b = 32 ∨ b = 9 ∨ b = 10 ∨ b = 13 → LooseGap g → LooseGap (b :: g)
  | line {y g : Bytes} : (∀ cs, y = encText cs → '\n' ∉ cs) → LooseGap g → LooseGap (b!"--" ++ (y ++ 10 :: g))
  | long {x g : Bytes} : LooseLong x → LooseGap g → LooseGap (b!"--" ++ (x ++ g))

/-- The text is made of these tokens in this order, with white space and comments between them or not. -/
inductive Spelt : List Bytes → Bytes → Prop
  | nil : Spelt [] []
  | gap {g x : Bytes} {ks : List Bytes} : LooseGap g → Spelt ks x → Spelt ks (g ++ x)
  | tok {k x : Bytes} {ks : List Bytes} : Spelt ks x → Spelt (k :: ks) (k ++ x)

/-- A Lua chunk, relaxed. -/
def LooseLua (x : Bytes) : Prop := ∃ ks, LuaSyn LuaIdent LooseString .block ks ∧ Spelt ks x

/-! ### an upper bound of Lua -/

/-- White space, and anything behind two minus signs. -/
inductive AnyGap : Bytes → Prop
  | nil : AnyGap []
  | white {b : UInt8} {g : Bytes} : b = 32 ∨ 9 ≤ b ∧ b ≤ 13 → AnyGap g → AnyGap (b :: g)
  | note {y g : Bytes} : AnyGap g → AnyGap (b!"--" ++ (y ++ g))

/-- Begins with a quote or like a long bracket. -/
def StringLike (k : Bytes) : Prop := ∃ b y, k = b :: y ∧ (b = 34 ∨ b = 39 ∨ b = 91 ∧ y ≠ [])

/-- The text is made of these tokens with gaps between them or not; behind a word is no letter, digit or underscore. -/
inductive Kept : List Bytes → Bytes → Prop
  | nil : Kept [] []
  | gap {g x : Bytes} {ks : List Bytes} : AnyGap g → Kept ks x → Kept ks (g ++ x)
  | tok {k x : Bytes} {ks : List Bytes} : (LuaIdent k → ∀ b y, x = b :: y → ¬ (NameStart b ∨ DecDigit b)) → Kept ks x → Kept (k :: ks) (k ++ x)

/-- Texts that may be Lua chunks: the syntax is that of the manual, names are not reserved words, and words are kept apart; strings and gaps may be anything that begins like them. -/
def AlmostLua (x : Bytes) : Prop := ∃ ks, LuaSyn LuaName StringLike .block ks ∧ Kept ks x

end Tok.Spec
