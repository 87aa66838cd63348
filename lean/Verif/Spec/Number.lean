/-
Specification of positional numerals, independent of the model.
-/
import Verif.Model.Base
import Mathlib.Data.List.Forall2

namespace Tok.Spec

/-- The byte `b` is the digit of value `v` in the given base. -/
def IsDigit (base : Nat) (b : UInt8) (v : Nat) : Prop :=
  v < base ∧ (b!"0123456789abcdef"[v]? = some b ∨ b!"0123456789ABCDEF"[v]? = some b)

instance (base : Nat) (b : UInt8) (v : Nat) : Decidable (IsDigit base b v) :=
  inferInstanceAs (Decidable (_ ∧ (_ ∨ _)))

/-- The value of a list of digit values, most significant first. -/
def positional (base : Nat) : List Nat → Nat
  | [] => 0
  | v :: vs => v * base ^ vs.length + positional base vs

/-- The bytes `ds` are a numeral of value `v`. -/
def Numeral (base : Nat) (ds : Bytes) (v : Nat) : Prop :=
  ds ≠ [] ∧ ∃ vs, List.Forall₂ (IsDigit base) ds vs ∧ positional base vs = v

/-- `ds` is the longest numeral at the front of `t` whose value is at most `max`. -/
def LongestNumeral (base max : Nat) (t ds : Bytes) (v : Nat) : Prop :=
  ds <+: t ∧ Numeral base ds v ∧ v ≤ max ∧
  ∀ ds' v', ds' <+: t → Numeral base ds' v' → v' ≤ max → ds'.length ≤ ds.length

end Tok.Spec
