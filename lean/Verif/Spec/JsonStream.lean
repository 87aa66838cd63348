/-
Several JSON documents in one text.
-/
import Verif.Spec.Json

namespace Tok.Spec

/-- JSON values one after the other, each with the white space behind it.  Without white space behind a number the next value does not begin with a digit. -/
inductive JsonStream : List (List Char) → Prop
  | nil : JsonStream []
  | cons {v w : List Char} {ds : List (List Char)} : JsonText .value v → JsonText .ws w →
      (w = [] → JsonText .number v → ∀ c cs, ds.flatten = c :: cs → ¬ ('0'.toNat ≤ c.toNat ∧ c.toNat ≤ '9'.toNat)) → JsonStream ds → JsonStream ((v ++ w) :: ds)

/-- The text `cs` begins with these documents, each of them the longest one that the text from there on begins with, and `es` is left. -/
def JsonRow : List (List Char) → List Char → List Char → Prop
  | [], cs, es => cs = es
  | d :: ds, cs, es => ∃ fs, cs = d ++ fs ∧ JsonDoc d ∧ (∀ u v, fs = u ++ v → JsonDoc (d ++ u) → u = []) ∧ JsonRow ds fs es

end Tok.Spec
