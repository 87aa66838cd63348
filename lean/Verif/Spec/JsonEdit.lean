/-
A client that changes the strings, numbers and so on of a JSON document, with a basket and `Segmentate`.
-/
import Verif.Spec.JsonValue
import Verif.Model.Demo

namespace Tok.Spec

/-! ### the client -/

/-- The JSON grammar after `Pick(basket)` of the rules with these names. -/
def _root_.Tok.Json.editEnv (names : List Bytes) : Env := Json.env.map fun rl => if names.contains rl.name then rl.pick 0 else rl

/-- The texts of the parts, read with `Get` and put together, where `f` changes the texts of those that are `Known()`. -/
def editText (s : Scanner) (f : Bytes → Bytes → Bytes) : List Segment → Exec Bytes
  | [] => pure []
  | p :: ps => do
    let t ← s.get p.tok
    let ts ← editText s f ps
    pure ((if p.known then f p.info t else t) ++ ts)

/-- The client: it reads the text as JSON with a basket for the rules with these names, hands what was picked to `Segmentate` and writes the text anew,
with `f` for the parts that are known.  `none` if the text cannot be read or `Segmentate` refuses. -/
def jsonEdit (rt : Rt) (fuel : Nat) (names : List Bytes) (f : Bytes → Bytes → Bytes) (text : Bytes) : Exec (Option Bytes) := do
  let (err, s) ← ((Scanner.new text Heap.empty).newBasket 0).use (read rt (Json.editEnv names) fuel Json.reader)
  match err with
  | some _ => pure none
  | none =>
    match s.segmentate (s.heap.baskets 0) with
    | (_, some _) => pure none
    | (parts, none) => do
      let out ← editText s f parts
      pure (some out)

/-! ### what it is about -/

/-- The rules that the client may pick: no text of one contains a text of another. -/
def jsonLeaves : List Bytes := [b!"key", b!"string", b!"number", b!"bool", b!"null"]

/-- The name of the rule for a value that has no parts. -/
def JVal.kind : JVal → Option Bytes
  | .null => some b!"null"
  | .bool _ => some b!"bool"
  | .num _ => some b!"number"
  | .str _ => some b!"string"
  | .arr _ => none
  | .obj _ => none

mutual
/-- The value with other values (`g`) in the place of those without parts, and other keys (`k`). -/
def JVal.edit (g : JVal → JVal) (k : List Nat → List Nat) : JVal → JVal
  | .arr vs => .arr (JVal.edits g k vs)
  | .obj ms => .obj (JVal.editMembers g k ms)
  | .null => g .null
  | .bool b => g (.bool b)
  | .num cs => g (.num cs)
  | .str us => g (.str us)
/-- The same for a list of values. -/
def JVal.edits (g : JVal → JVal) (k : List Nat → List Nat) : List JVal → List JVal
  | [] => []
  | v :: vs => JVal.edit g k v :: JVal.edits g k vs
/-- The same for members. -/
def JVal.editMembers (g : JVal → JVal) (k : List Nat → List Nat) : List (List Nat × JVal) → List (List Nat × JVal)
  | [] => []
  | (u, v) :: ms => (k u, JVal.edit g k v) :: JVal.editMembers g k ms
end

/-- The function does to the texts with these names what `g` and `k` do to the values and keys they mean; `g` and `k` leave the others as they are. -/
structure Edits (names : List Bytes) (f : Bytes → Bytes → Bytes) (g : JVal → JVal) (k : List Nat → List Nat) : Prop where
  value : ∀ v nm cs, v.kind = some nm → nm ∈ names → JsonValue v cs → ∃ ds, f nm (encText cs) = encText ds ∧ JsonValue (g v) ds
  other : ∀ v nm, v.kind = some nm → nm ∉ names → g v = v
  key : b!"key" ∈ names → ∀ us cs, JsonUnits us cs → ∃ ds, f b!"key" (encText ('"' :: (cs ++ ['"']))) = encText ('"' :: (ds ++ ['"'])) ∧ JsonUnits (k us) ds
  otherKey : b!"key" ∉ names → ∀ us, k us = us

end Tok.Spec
