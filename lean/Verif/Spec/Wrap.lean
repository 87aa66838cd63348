/-
Wrap readers: functions of the client in the place of readers.
-/
import Mathlib.Data.List.Forall2
import Verif.Spec.Law

namespace Tok.Spec

/-- How a read ends: it returns, or it panics. -/
def Ends (rt : Rt) (G : Env) (r : Reader) (s : Scanner) (x : Exec (Option Err × Scanner)) : Prop := x ≠ .timeout ∧ ∃ n, read rt G n r s = x

/-- The function does what the reader does, with every scanner and every memory: it returns the same, panics where a read panics, and
goes on for ever where a read does. -/
def Stands (rt : Rt) (G : Env) (f : ReadFunc) (r : Reader) : Prop := ∀ s x, x ≠ .timeout → (f s = x ↔ Ends rt G r s x)

/-- A Wrap reader, and the reader for which its function stands, under the same name. -/
inductive WrapFor (rt : Rt) (G : Env) : Reader → Reader → Prop
  | mk {w : Bytes} {f : ReadFunc} {r : Reader} : Stands rt G f r → WrapFor rt G (.wrap w f) (.named w r)

/-- The second grammar is the first one with some parts of its rules exchanged. -/
def RulesExchanged (R : Reader → Reader → Prop) : Env → Env → Prop :=
  List.Forall₂ fun x y => x.name = y.name ∧
    (x.reader = none ∧ y.reader = none ∨ ∃ a b, x.reader = some a ∧ y.reader = some b ∧ Exchanged R a b)

end Tok.Spec
