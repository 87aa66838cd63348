/-
How deep the brackets of a text are nested, where brackets inside of quoted strings do not count.
Nothing here refers to the readers.
-/
import Verif.Spec.Text

namespace Tok.Spec

/-- Outside of a string, inside of a string, behind a backslash inside of a string. -/
inductive Place where
  | out | str | esc

/-- The number of `[` and `{` less the number of `]` and `}` in the beginning of the text where this is greatest. -/
def peak : Place → Bytes → Nat
  | _, [] => 0
  | .out, b :: t =>
    if b == 91 || b == 123 then peak .out t + 1
    else if b == 93 || b == 125 then peak .out t - 1
    else if b == 34 then peak .str t
    else peak .out t
  | .str, b :: t => if b == 92 then peak .esc t else if b == 34 then peak .out t else peak .str t
  | .esc, _ :: t => peak .str t

/-- The greatest number of brackets that are open at the same time. -/
def nesting (t : Bytes) : Nat := peak .out t

example : nesting b!"{\"a]\\\"}[[\": [1, [2, {}]], \"b\": [[]]}" = 4 := by decide
example : nesting b!"[][][[]]" = 2 := by decide

end Tok.Spec
