/-
What is missing where a text does not begin with a JSON document.
-/
import Verif.Spec.Json
import Verif.Model.Strings

namespace Tok.Spec

/-- The longest text of the symbol `A` at the beginning of `cs` is `x`. -/
def JsonMost (A : JsonSym) (cs x : List Char) : Prop := JsonText A x ∧ x <+: cs ∧ ∀ y, JsonText A y → y <+: cs → y.length ≤ x.length

/-- No text of the symbol `A` is at the beginning of `cs`. -/
def NoJson (A : JsonSym) (cs : List Char) : Prop := ∀ y, JsonText A y → ¬ y <+: cs

/-- `cs` does not begin with one of these characters. -/
def NotIn (l cs : List Char) : Prop := ∀ c r, cs = c :: r → c ∉ l

/-- What can be missing: a value, a digit behind a minus sign, what ends a string, an array, an object. -/
inductive JsonMissing
  | value
  | digit
  | quote
  | bracket
  | brace

/-- How a message names it. -/
def JsonMissing.words : JsonMissing → Bytes
  | .value => b!"\"null\""
  | .digit => b!"<19>"
  | .quote => b!"'\"'"
  | .bracket => b!"']'"
  | .brace => b!"'}'"

/-- `JsonFault cs f m`: the text `cs` does not begin with a JSON document; what is missing is `m`, and it is missing behind `f`. -/
inductive JsonFault (cs : List Char) : List Char → JsonMissing → Prop
  | value {us r} : cs = us ++ r → JsonText .ws us →
      NotIn [' ', '\n', '\r', '\t', '{', '[', '"', '-', '0', '1', '2', '3', '4', '5', '6', '7', '8', '9'] r →
      ¬ ['t', 'r', 'u', 'e'] <+: r → ¬ ['f', 'a', 'l', 's', 'e'] <+: r → ¬ ['n', 'u', 'l', 'l'] <+: r → JsonFault cs us .value
  | digit {us r} : cs = us ++ '-' :: r → JsonText .ws us → NotIn ['0', '1', '2', '3', '4', '5', '6', '7', '8', '9'] r → JsonFault cs (us ++ ['-']) .digit
  /-- The text goes on behind `x`, with something that is no character of a string. -/
  | quote {us x r} : cs = us ++ '"' :: (x ++ r) → JsonText .ws us → JsonText .characters x → r ≠ [] → NoJson .character r → NotIn ['"'] r →
      JsonFault cs (us ++ '"' :: x) .quote
  /-- The elements that are there can be read and no comma with another element follows, but no bracket either. -/
  | elements {us x r} : cs = us ++ '[' :: (x ++ r) → JsonText .ws us → ¬ JsonCut .elements (x ++ r) → JsonMost .elements (x ++ r) x → NotIn [']'] r →
      JsonFault cs (us ++ '[' :: x) .bracket
  /-- The first element cannot be read. -/
  | element {us x r} : cs = us ++ '[' :: (x ++ r) → JsonText .ws us → ¬ JsonCut .elements (x ++ r) → NoJson .element (x ++ r) → JsonMost .ws (x ++ r) x →
      NotIn [']'] r → JsonFault cs (us ++ '[' :: x) .bracket
  | members {us x r} : cs = us ++ '{' :: (x ++ r) → JsonText .ws us → ¬ JsonCut .members (x ++ r) → JsonMost .members (x ++ r) x → NotIn ['}'] r →
      JsonFault cs (us ++ '{' :: x) .brace
  /-- The first member cannot be read. -/
  | member {us x r} : cs = us ++ '{' :: (x ++ r) → JsonText .ws us → ¬ JsonCut .members (x ++ r) → NoJson .member (x ++ r) → JsonMost .ws (x ++ r) x →
      NotIn ['}'] r → JsonFault cs (us ++ '{' :: x) .brace

end Tok.Spec
