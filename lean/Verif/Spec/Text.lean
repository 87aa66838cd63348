/-
Specification vocabulary for texts, independent of the model: Lean's own Unicode
scalar values (`Char`) and their UTF-8 encoding (`String.utf8EncodeChar`).
-/
import Verif.Model.Base

namespace Tok.Spec

/-- The UTF-8 encoding of a character. -/
def enc (c : Char) : Bytes := String.utf8EncodeChar c

/-- The UTF-8 text made of the given characters. -/
def encText (cs : List Char) : Bytes := cs.flatMap enc

/-- One reading step at the front of a text: either the text starts with the
encoding of a character, or it does not start with any and one byte is taken as
U+FFFD.  `Step s r p` reads "the first rune of `s` is `r` and occupies `p`". -/
inductive Step : Bytes → Int → Bytes → Prop
  | char (c : Char) (t : Bytes) : Step (enc c ++ t) (c.toNat : Int) (enc c)
  | bad (b : UInt8) (t : Bytes) (h : ∀ c, ¬ enc c <+: (b :: t)) : Step (b :: t) 0xFFFD [b]

/-- The division of a text into runes, from front to back: each rune with the
bytes it occupies. -/
inductive Pieces : Bytes → List (Bytes × Int) → Prop
  | nil : Pieces [] []
  | cons {s p t : Bytes} {r : Int} {ps : List (Bytes × Int)}
      (hs : Step s r p) (he : s = p ++ t) (ht : Pieces t ps) : Pieces s ((p, r) :: ps)

/-- The bytes occupied by a list of pieces. -/
def bytesOf (ps : List (Bytes × Int)) : Bytes := ps.flatMap (·.1)

end Tok.Spec
