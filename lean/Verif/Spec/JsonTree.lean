/-
The tree of a JSON text that demo/json-stack is about: a node for every key, object, array, string, number,
boolean and null, with the bytes it occupies, and below each object and array what it contains.
-/
import Verif.Spec.Json
import Verif.Model.Graph

namespace Tok.Spec

/-- The bytes that a text occupies, if it begins at the byte `p`. -/
def spanAt (p : Nat) (cs : List Char) : Token := ⟨p, p + (encText cs).length⟩

/-- A node without children. -/
def leafAt (name : Bytes) (p : Nat) (cs : List Char) : Node := .mk ⟨name, spanAt p cs⟩ []

/-- `JsonTree A p cs ns`: the characters `cs`, beginning at the byte `p`, are derived from the symbol `A` of the JSON grammar (as
`JsonText A cs`), and `ns` are the topmost nodes of this derivation, in text order. -/
inductive JsonTree : JsonSym → Nat → List Char → List Node → Prop
  -- value
  | value_object {p cs ns} : JsonTree .object p cs ns → JsonTree .value p cs ns
  | value_array {p cs ns} : JsonTree .array p cs ns → JsonTree .value p cs ns
  | value_string {p cs} : JsonText .string cs → JsonTree .value p cs [leafAt b!"string" p cs]
  | value_number {p cs} : JsonText .number cs → JsonTree .value p cs [leafAt b!"number" p cs]
  | value_true {p} : JsonTree .value p ['t', 'r', 'u', 'e'] [leafAt b!"bool" p ['t', 'r', 'u', 'e']]
  | value_false {p} : JsonTree .value p ['f', 'a', 'l', 's', 'e'] [leafAt b!"bool" p ['f', 'a', 'l', 's', 'e']]
  | value_null {p} : JsonTree .value p ['n', 'u', 'l', 'l'] [leafAt b!"null" p ['n', 'u', 'l', 'l']]
  -- object
  | object_ws {p cs} : JsonText .ws cs → JsonTree .object p ('{' :: (cs ++ ['}'])) [leafAt b!"object" p ('{' :: (cs ++ ['}']))]
  | object_members {p cs ns} : JsonTree .members (p + 1) cs ns →
      JsonTree .object p ('{' :: (cs ++ ['}'])) [.mk ⟨b!"object", spanAt p ('{' :: (cs ++ ['}']))⟩ ns]
  -- members
  | members_one {p cs ns} : JsonTree .member p cs ns → JsonTree .members p cs ns
  | members_more {p cs ds ns ms} : JsonTree .member p cs ns → JsonTree .members (p + (encText cs).length + 1) ds ms →
      JsonTree .members p (cs ++ ',' :: ds) (ns ++ ms)
  -- member
  | member {p us cs vs ds ns} : JsonText .ws us → JsonText .string cs → JsonText .ws vs →
      JsonTree .element (p + (encText us).length + (encText cs).length + (encText vs).length + 1) ds ns →
      JsonTree .member p (us ++ (cs ++ (vs ++ ':' :: ds))) (leafAt b!"key" (p + (encText us).length) cs :: ns)
  -- array
  | array_ws {p cs} : JsonText .ws cs → JsonTree .array p ('[' :: (cs ++ [']'])) [leafAt b!"array" p ('[' :: (cs ++ [']']))]
  | array_elements {p cs ns} : JsonTree .elements (p + 1) cs ns →
      JsonTree .array p ('[' :: (cs ++ [']'])) [.mk ⟨b!"array", spanAt p ('[' :: (cs ++ [']']))⟩ ns]
  -- elements
  | elements_one {p cs ns} : JsonTree .element p cs ns → JsonTree .elements p cs ns
  | elements_more {p cs ds ns ms} : JsonTree .element p cs ns → JsonTree .elements (p + (encText cs).length + 1) ds ms →
      JsonTree .elements p (cs ++ ',' :: ds) (ns ++ ms)
  -- element
  | element {p us cs vs ns} : JsonText .ws us → JsonTree .value (p + (encText us).length) cs ns → JsonText .ws vs →
      JsonTree .element p (us ++ (cs ++ vs)) ns

/-- The symbols that have nodes. -/
def JsonSym.inner : JsonSym → Bool
  | .value | .object | .members | .member | .array | .elements | .element => true
  | _ => false

/-- Every derivation has nodes. -/
theorem JsonText.tree {A : JsonSym} {cs : List Char} (h : JsonText A cs) : A.inner = true → ∀ p, ∃ ns, JsonTree A p cs ns := by
  induction h with
  | value_object _ ih => exact fun _ p => (ih rfl p).imp fun _ h => .value_object h
  | value_array _ ih => exact fun _ p => (ih rfl p).imp fun _ h => .value_array h
  | value_string h _ => exact fun _ p => ⟨_, .value_string h⟩
  | value_number h _ => exact fun _ p => ⟨_, .value_number h⟩
  | value_true => exact fun _ p => ⟨_, .value_true⟩
  | value_false => exact fun _ p => ⟨_, .value_false⟩
  | value_null => exact fun _ p => ⟨_, .value_null⟩
  | object_ws h _ => exact fun _ p => ⟨_, .object_ws h⟩
  | object_members _ ih => exact fun _ p => let ⟨_, h⟩ := ih rfl (p + 1); ⟨_, .object_members h⟩
  | members_one _ ih => exact fun _ p => (ih rfl p).imp fun _ h => .members_one h
  | members_more _ _ ih1 ih2 => exact fun _ p => let ⟨_, h1⟩ := ih1 rfl p; let ⟨_, h2⟩ := ih2 rfl _; ⟨_, .members_more h1 h2⟩
  | member h1 h2 h3 _ _ _ _ ih => exact fun _ p => let ⟨_, h⟩ := ih rfl _; ⟨_, .member h1 h2 h3 h⟩
  | array_ws h _ => exact fun _ p => ⟨_, .array_ws h⟩
  | array_elements _ ih => exact fun _ p => let ⟨_, h⟩ := ih rfl (p + 1); ⟨_, .array_elements h⟩
  | elements_one _ ih => exact fun _ p => (ih rfl p).imp fun _ h => .elements_one h
  | elements_more _ _ ih1 ih2 => exact fun _ p => let ⟨_, h1⟩ := ih1 rfl p; let ⟨_, h2⟩ := ih2 rfl _; ⟨_, .elements_more h1 h2⟩
  | element h1 _ h3 _ ih _ => exact fun _ p => let ⟨_, h⟩ := ih rfl _; ⟨_, .element h1 h h3⟩
  | _ => exact fun h => by cases h

/-- Only derivations have nodes. -/
theorem JsonTree.text {A : JsonSym} {p : Nat} {cs : List Char} {ns : List Node} (h : JsonTree A p cs ns) : JsonText A cs := by
  induction h with
  | value_object _ ih => exact .value_object ih
  | value_array _ ih => exact .value_array ih
  | value_string h => exact .value_string h
  | value_number h => exact .value_number h
  | value_true => exact .value_true
  | value_false => exact .value_false
  | value_null => exact .value_null
  | object_ws h => exact .object_ws h
  | object_members _ ih => exact .object_members ih
  | members_one _ ih => exact .members_one ih
  | members_more _ _ ih1 ih2 => exact .members_more ih1 ih2
  | member h1 h2 h3 _ ih => exact .member h1 h2 h3 ih
  | array_ws h => exact .array_ws h
  | array_elements _ ih => exact .array_elements ih
  | elements_one _ ih => exact .elements_one ih
  | elements_more _ _ ih1 ih2 => exact .elements_more ih1 ih2
  | element h1 _ h3 ih => exact .element h1 ih h3

mutual
/-- The segments of a node, children first. -/
def _root_.Tok.Node.post : Node → List Segment
  | .mk s ns => Node.postList ns ++ [s]
/-- The segments of a list of nodes, children first. -/
def _root_.Tok.Node.postList : List Node → List Segment
  | [] => []
  | n :: ns => Node.post n ++ Node.postList ns
end

end Tok.Spec
