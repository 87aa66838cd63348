/-
What JSON texts mean, and a client that finds it out with the graph of the picked segments.
-/
import Verif.Spec.JsonTree
import Verif.Model.Scanner

namespace Tok.Spec

/-- Values.  A string is a list of UTF-16 code units, as \u escapes denote them; a number is kept as it is written; an object is a list of members in their order. -/
inductive JVal where
  | null
  | bool (b : Bool)
  | num (cs : List Char)
  | str (us : List Nat)
  | arr (vs : List JVal)
  | obj (ms : List (List Nat × JVal))

/-- The code units of a character. -/
def unitsOf (n : Nat) : List Nat := if n < 0x10000 then [n] else [0xD800 + (n - 0x10000) / 0x400, 0xDC00 + (n - 0x10000) % 0x400]

/-- The value of a hexadecimal digit. -/
def HexIs (c : Char) (x : Nat) : Prop :=
  (48 ≤ c.toNat ∧ c.toNat ≤ 57 ∧ x = c.toNat - 48) ∨ (65 ≤ c.toNat ∧ c.toNat ≤ 70 ∧ x = c.toNat - 55) ∨ (97 ≤ c.toNat ∧ c.toNat ≤ 102 ∧ x = c.toNat - 87)

/-- What stands between the quotes of a string. -/
inductive JsonUnits : List Nat → List Char → Prop
  | nil : JsonUnits [] []
  | plain {c : Char} {us cs} : 0x20 ≤ c.toNat → c ≠ '"' → c ≠ '\\' → JsonUnits us cs → JsonUnits (unitsOf c.toNat ++ us) (c :: cs)
  | short {c : Char} {u : Nat} {us cs} : (c, u) ∈ [('"', 34), ('\\', 92), ('/', 47), ('b', 8), ('f', 12), ('n', 10), ('r', 13), ('t', 9)] →
      JsonUnits us cs → JsonUnits (u :: us) ('\\' :: c :: cs)
  | hex {a b c d : Char} {x y z w : Nat} {us cs} : HexIs a x → HexIs b y → HexIs c z → HexIs d w →
      JsonUnits us cs → JsonUnits ((4096 * x + 256 * y + 16 * z + w) :: us) ('\\' :: 'u' :: a :: b :: c :: d :: cs)

mutual

/-- A value without white space around it. -/
inductive JsonValue : JVal → List Char → Prop
  | null : JsonValue .null ['n', 'u', 'l', 'l']
  | yes : JsonValue (.bool true) ['t', 'r', 'u', 'e']
  | no : JsonValue (.bool false) ['f', 'a', 'l', 's', 'e']
  | num {cs} : JsonText .number cs → JsonValue (.num cs) cs
  | str {us cs} : JsonUnits us cs → JsonValue (.str us) ('"' :: (cs ++ ['"']))
  | arrNone {cs} : JsonText .ws cs → JsonValue (.arr []) ('[' :: (cs ++ [']']))
  | arr {vs cs} : JsonElements vs cs → JsonValue (.arr vs) ('[' :: (cs ++ [']']))
  | objNone {cs} : JsonText .ws cs → JsonValue (.obj []) ('{' :: (cs ++ ['}']))
  | obj {ms cs} : JsonMembers ms cs → JsonValue (.obj ms) ('{' :: (cs ++ ['}']))

/-- A value with white space around it: a document. -/
inductive JsonElement : JVal → List Char → Prop
  | mk {v us cs vs} : JsonText .ws us → JsonValue v cs → JsonText .ws vs → JsonElement v (us ++ (cs ++ vs))

/-- The elements of an array. -/
inductive JsonElements : List JVal → List Char → Prop
  | one {v cs} : JsonElement v cs → JsonElements [v] cs
  | more {v vs cs ds} : JsonElement v cs → JsonElements vs ds → JsonElements (v :: vs) (cs ++ ',' :: ds)

/-- A member of an object. -/
inductive JsonMember : List Nat × JVal → List Char → Prop
  | mk {k v us cs vs ds} : JsonText .ws us → JsonUnits k cs → JsonText .ws vs → JsonElement v ds →
      JsonMember (k, v) (us ++ (('"' :: (cs ++ ['"'])) ++ (vs ++ ':' :: ds)))

/-- The members of an object. -/
inductive JsonMembers : List (List Nat × JVal) → List Char → Prop
  | one {m cs} : JsonMember m cs → JsonMembers [m] cs
  | more {m ms cs ds} : JsonMember m cs → JsonMembers ms ds → JsonMembers (m :: ms) (cs ++ ',' :: ds)

end

/-! ### the client -/

/-- A hexadecimal digit. -/
def hexUnit (r : Rune) : Option Nat :=
  if 48 ≤ r ∧ r ≤ 57 then some (r - 48).toNat else if 65 ≤ r ∧ r ≤ 70 then some (r - 55).toNat else if 97 ≤ r ∧ r ≤ 102 then some (r - 87).toNat else none

/-- What is behind a backslash, if it is not a `u`. -/
def shortUnit (r : Rune) : Nat :=
  if r = 98 then 8 else if r = 102 then 12 else if r = 110 then 10 else if r = 114 then 13 else if r = 116 then 9 else r.toNat

/-- The code units that are meant by the runes between the quotes. -/
def jsonUnescape : List Rune → Option (List Nat)
  | [] => some []
  | 92 :: 117 :: a :: b :: c :: d :: rs =>
    (hexUnit a).bind fun x => (hexUnit b).bind fun y => (hexUnit c).bind fun z => (hexUnit d).bind fun w =>
      (jsonUnescape rs).map fun us => (4096 * x + 256 * y + 16 * z + w) :: us
  | 92 :: r :: rs => (jsonUnescape rs).map fun us => shortUnit r :: us
  | r :: rs => (jsonUnescape rs).map fun us => unitsOf r.toNat ++ us

/-- The text of a node: `s.Get(node.Token)`. -/
def nodeText (s : Scanner) (n : Node) : Option Bytes :=
  match s.get n.seg.tok with
  | .ret t => some t
  | _ => none

/-- The string of a node: its text without the quotes. -/
def stringOf (s : Scanner) (n : Node) : Option (List Nat) :=
  (nodeText s n).bind fun t => jsonUnescape (runesOf (t.drop 1).dropLast)

/-- The characters of a numeral. -/
def numeralOf (s : Scanner) (n : Node) : Option (List Char) :=
  (nodeText s n).map fun t => t.map fun b => Char.ofNat b.toNat

mutual
/-- The value of a node. -/
def valueOf (s : Scanner) : Node → Option JVal
  | .mk seg ns =>
    if seg.info = b!"null" then some .null
    else if seg.info = b!"bool" then (nodeText s (.mk seg ns)).map fun t => .bool (t == b!"true")
    else if seg.info = b!"number" then (numeralOf s (.mk seg ns)).map .num
    else if seg.info = b!"string" then (stringOf s (.mk seg ns)).map .str
    else if seg.info = b!"array" then (valuesOf s ns).map .arr
    else if seg.info = b!"object" then (membersOf s ns).map .obj
    else none
/-- The values of the nodes below an array. -/
def valuesOf (s : Scanner) : List Node → Option (List JVal)
  | [] => some []
  | n :: ns => (valueOf s n).bind fun v => (valuesOf s ns).map fun vs => v :: vs
/-- The nodes below an object: keys and values by turns. -/
def membersOf (s : Scanner) : List Node → Option (List (List Nat × JVal))
  | [] => some []
  | k :: n :: ns => (stringOf s k).bind fun k => (valueOf s n).bind fun v => (membersOf s ns).map fun ms => (k, v) :: ms
  | [_] => none
end

/-- What the graph of a document tells: the value of the node below the root. -/
def documentOf (s : Scanner) (g : Graph) : Option JVal :=
  match g.root with
  | .mk _ [n] => valueOf s n
  | _ => none

/-! ### a writer -/

/-- A hexadecimal digit. -/
def hexChar (n : Nat) : Char := Char.ofNat (if n < 10 then 48 + n else 87 + n)

/-- A code unit: printable ASCII as it is, but for quotes and backslashes, all others as escapes. -/
def writeUnit (u : Nat) : List Char :=
  if 0x20 ≤ u ∧ u < 0x7F ∧ u ≠ 34 ∧ u ≠ 92 then [Char.ofNat u]
  else ['\\', 'u', hexChar (u / 4096), hexChar (u / 256 % 16), hexChar (u / 16 % 16), hexChar (u % 16)]

/-- A string. -/
def writeString (us : List Nat) : List Char := '"' :: (us.flatMap writeUnit ++ ['"'])

mutual
/-- A value, without white space. -/
def writeValue : JVal → List Char
  | .null => ['n', 'u', 'l', 'l']
  | .bool true => ['t', 'r', 'u', 'e']
  | .bool false => ['f', 'a', 'l', 's', 'e']
  | .num cs => cs
  | .str us => writeString us
  | .arr [] => ['[', ']']
  | .arr (v :: vs) => '[' :: (writeValue v ++ writeMore vs ++ [']'])
  | .obj [] => ['{', '}']
  | .obj (m :: ms) => '{' :: (writeMember m ++ writeMembers ms ++ ['}'])
/-- The further elements of an array. -/
def writeMore : List JVal → List Char
  | [] => []
  | v :: vs => ',' :: (writeValue v ++ writeMore vs)
/-- A member of an object. -/
def writeMember : List Nat × JVal → List Char
  | (k, v) => writeString k ++ ':' :: writeValue v
/-- The further members of an object. -/
def writeMembers : List (List Nat × JVal) → List Char
  | [] => []
  | m :: ms => ',' :: (writeMember m ++ writeMembers ms)
end

mutual
/-- Numbers are numerals of JSON, and code units have 16 bits. -/
inductive JVal.Fits : JVal → Prop
  | null : JVal.Fits .null
  | bool (b) : JVal.Fits (.bool b)
  | num {cs} : JsonText .number cs → JVal.Fits (.num cs)
  | str {us} : (∀ u ∈ us, u < 0x10000) → JVal.Fits (.str us)
  | arr {vs} : JVal.AllFit vs → JVal.Fits (.arr vs)
  | obj {ms} : JVal.MembersFit ms → JVal.Fits (.obj ms)
/-- The same of a list of values. -/
inductive JVal.AllFit : List JVal → Prop
  | nil : JVal.AllFit []
  | cons {v vs} : JVal.Fits v → JVal.AllFit vs → JVal.AllFit (v :: vs)
/-- The same of members. -/
inductive JVal.MembersFit : List (List Nat × JVal) → Prop
  | nil : JVal.MembersFit []
  | cons {k v ms} : (∀ u ∈ k, u < 0x10000) → JVal.Fits v → JVal.MembersFit ms → JVal.MembersFit ((k, v) :: ms)
end

end Tok.Spec
