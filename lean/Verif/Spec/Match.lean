/-
What a reader does with a text of its own: the vocabulary for readers that look for
something (`At`, `Not`, `To`, `Past`, `Body`, `BodyTail`).
-/
import Verif.Spec.Scan
import Verif.Model.Reader
import Mathlib.Logic.Relation

namespace Tok.Spec

/-- Run on the text `t` alone the reader succeeds, has read `x`, and `u` is left. -/
def Matches (rt : Rt) (G : Env) (r : Reader) (t x u : Bytes) : Prop :=
  ∃ n s', read rt G n r (.new t Heap.empty) = .ret (none, s') ∧ t = x ++ u ∧ Between s' x u

/-- Run on the text `t` alone the reader fails. -/
def Rejects (rt : Rt) (G : Env) (r : Reader) (t : Bytes) : Prop :=
  ∃ n e s', read rt G n r (.new t Heap.empty) = .ret (some e, s')

/-- Run on the text `t` alone the reader fails, has gone over `x`, and `m` is left. -/
def FailsOver (rt : Rt) (G : Env) (r : Reader) (t x m : Bytes) : Prop :=
  ∃ n e s', read rt G n r (.new t Heap.empty) = .ret (some e, s') ∧ t = x ++ m ∧ Between s' x m

/-- One step of a search on a text that need not be UTF-8: over the first character; a byte that
does not begin a character is passed together with the two bytes behind it. -/
inductive Hop : Bytes → Bytes → Prop
  | char (c : Char) (u : Bytes) : Hop (enc c ++ u) u
  | junk (b b1 b2 : UInt8) (u : Bytes) (h : ∀ c, ¬ enc c <+: b :: b1 :: b2 :: u) : Hop (b :: b1 :: b2 :: u) u

/-- The last two bytes of the text are ASCII, as far as there are two. -/
def AsciiEnd (t : Bytes) : Prop := ∀ e, e <:+ t → e.length ≤ 2 → ∀ b ∈ e, b.toNat < 0x80

/-- From one place at which `To(r)` tries `r` to the next: `r` fails, and one step is made from
where it has stopped. -/
def ToNext (rt : Rt) (G : Env) (r : Reader) (t u : Bytes) : Prop := ∃ x m, FailsOver rt G r t x m ∧ Hop m u

/-- From one place at which `Past(r)` tries `r` to the next: as for `To`, but there is no try at the
end of the text, and where no step is possible the next try is made where `r` has stopped. -/
def PastNext (rt : Rt) (G : Env) (r : Reader) (t u : Bytes) : Prop :=
  t ≠ [] ∧ ∃ x m, FailsOver rt G r t x m ∧ (Hop m u ∨ (¬ ∃ v, Hop m v) ∧ u = m)

/-- `u` is reached from `t`, in any number of steps. -/
abbrev Reached (R : Bytes → Bytes → Prop) (t u : Bytes) : Prop := Relation.ReflTransGen R t u

end Tok.Spec
