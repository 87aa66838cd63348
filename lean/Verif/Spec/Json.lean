/-
The JSON grammar in McKeeman form as printed on https://www.json.org (the grammar that
grammar/json.go:8 refers to), production by production.  `JsonText A cs`: the characters `cs` are
derived from the symbol `A`.  Nothing here refers to the readers.
-/
import Verif.Spec.Text

namespace Tok.Spec

/-- The symbols of the grammar. -/
inductive JsonSym where
  | value | object | members | member | array | elements | element | string | characters | character
  | escape | hex | number | integer | digits | digit | onenine | fraction | exponent | sign | ws

inductive JsonText : JsonSym → List Char → Prop
  -- value
  | value_object {cs} : JsonText .object cs → JsonText .value cs
  | value_array {cs} : JsonText .array cs → JsonText .value cs
  | value_string {cs} : JsonText .string cs → JsonText .value cs
  | value_number {cs} : JsonText .number cs → JsonText .value cs
  | value_true : JsonText .value ['t', 'r', 'u', 'e']
  | value_false : JsonText .value ['f', 'a', 'l', 's', 'e']
  | value_null : JsonText .value ['n', 'u', 'l', 'l']
  -- object
  | object_ws {cs} : JsonText .ws cs → JsonText .object ('{' :: (cs ++ ['}']))
  | object_members {cs} : JsonText .members cs → JsonText .object ('{' :: (cs ++ ['}']))
  -- members
  | members_one {cs} : JsonText .member cs → JsonText .members cs
  | members_more {cs ds} : JsonText .member cs → JsonText .members ds → JsonText .members (cs ++ ',' :: ds)
  -- member
  | member {us cs vs ds} : JsonText .ws us → JsonText .string cs → JsonText .ws vs → JsonText .element ds →
      JsonText .member (us ++ (cs ++ (vs ++ ':' :: ds)))
  -- array
  | array_ws {cs} : JsonText .ws cs → JsonText .array ('[' :: (cs ++ [']']))
  | array_elements {cs} : JsonText .elements cs → JsonText .array ('[' :: (cs ++ [']']))
  -- elements
  | elements_one {cs} : JsonText .element cs → JsonText .elements cs
  | elements_more {cs ds} : JsonText .element cs → JsonText .elements ds → JsonText .elements (cs ++ ',' :: ds)
  -- element
  | element {us cs vs} : JsonText .ws us → JsonText .value cs → JsonText .ws vs → JsonText .element (us ++ (cs ++ vs))
  -- string
  | string {cs} : JsonText .characters cs → JsonText .string ('"' :: (cs ++ ['"']))
  -- characters
  | characters_none : JsonText .characters []
  | characters_more {cs ds} : JsonText .character cs → JsonText .characters ds → JsonText .characters (cs ++ ds)
  -- character
  | character_plain {c : Char} : 0x20 ≤ c.toNat → c.toNat ≤ 0x10FFFF → c ≠ '"' → c ≠ '\\' → JsonText .character [c]
  | character_escape {cs} : JsonText .escape cs → JsonText .character ('\\' :: cs)
  -- escape
  | escape_one {c : Char} : c ∈ ['"', '\\', '/', 'b', 'f', 'n', 'r', 't'] → JsonText .escape [c]
  | escape_u {as bs cs ds} : JsonText .hex as → JsonText .hex bs → JsonText .hex cs → JsonText .hex ds →
      JsonText .escape ('u' :: (as ++ (bs ++ (cs ++ ds))))
  -- hex
  | hex_digit {cs} : JsonText .digit cs → JsonText .hex cs
  | hex_upper {c : Char} : 'A'.toNat ≤ c.toNat → c.toNat ≤ 'F'.toNat → JsonText .hex [c]
  | hex_lower {c : Char} : 'a'.toNat ≤ c.toNat → c.toNat ≤ 'f'.toNat → JsonText .hex [c]
  -- number
  | number {is fs es} : JsonText .integer is → JsonText .fraction fs → JsonText .exponent es → JsonText .number (is ++ (fs ++ es))
  -- integer
  | integer_digit {cs} : JsonText .digit cs → JsonText .integer cs
  | integer_digits {cs ds} : JsonText .onenine cs → JsonText .digits ds → JsonText .integer (cs ++ ds)
  | integer_minus_digit {cs} : JsonText .digit cs → JsonText .integer ('-' :: cs)
  | integer_minus_digits {cs ds} : JsonText .onenine cs → JsonText .digits ds → JsonText .integer ('-' :: (cs ++ ds))
  -- digits
  | digits_one {cs} : JsonText .digit cs → JsonText .digits cs
  | digits_more {cs ds} : JsonText .digit cs → JsonText .digits ds → JsonText .digits (cs ++ ds)
  -- digit
  | digit_zero : JsonText .digit ['0']
  | digit_onenine {cs} : JsonText .onenine cs → JsonText .digit cs
  -- onenine
  | onenine {c : Char} : '1'.toNat ≤ c.toNat → c.toNat ≤ '9'.toNat → JsonText .onenine [c]
  -- fraction
  | fraction_none : JsonText .fraction []
  | fraction {cs} : JsonText .digits cs → JsonText .fraction ('.' :: cs)
  -- exponent
  | exponent_none : JsonText .exponent []
  | exponent_upper {ss ds} : JsonText .sign ss → JsonText .digits ds → JsonText .exponent ('E' :: (ss ++ ds))
  | exponent_lower {ss ds} : JsonText .sign ss → JsonText .digits ds → JsonText .exponent ('e' :: (ss ++ ds))
  -- sign
  | sign_none : JsonText .sign []
  | sign_plus : JsonText .sign ['+']
  | sign_minus : JsonText .sign ['-']
  -- ws
  | ws_none : JsonText .ws []
  | ws_space {cs} : JsonText .ws cs → JsonText .ws (' ' :: cs)
  | ws_lf {cs} : JsonText .ws cs → JsonText .ws ('\n' :: cs)
  | ws_cr {cs} : JsonText .ws cs → JsonText .ws ('\r' :: cs)
  | ws_tab {cs} : JsonText .ws cs → JsonText .ws ('\t' :: cs)

/-- json: element. -/
def JsonDoc (cs : List Char) : Prop := JsonText .element cs

/-- `JsonCut A cs`: `cs` is the beginning of a text of the symbol `A`, cut off inside of a string
between two characters of the string (where an escape sequence is one character). -/
inductive JsonCut : JsonSym → List Char → Prop
  | string {cs} : JsonText .characters cs → JsonCut .string ('"' :: cs)
  | value_string {cs} : JsonCut .string cs → JsonCut .value cs
  | value_object {cs} : JsonCut .object cs → JsonCut .value cs
  | value_array {cs} : JsonCut .array cs → JsonCut .value cs
  | object {cs} : JsonCut .members cs → JsonCut .object ('{' :: cs)
  | members_first {cs} : JsonCut .member cs → JsonCut .members cs
  | members_next {cs ds} : JsonText .member cs → JsonCut .members ds → JsonCut .members (cs ++ ',' :: ds)
  | member_key {us cs} : JsonText .ws us → JsonCut .string cs → JsonCut .member (us ++ cs)
  | member_value {us cs vs ds} : JsonText .ws us → JsonText .string cs → JsonText .ws vs → JsonCut .element ds →
      JsonCut .member (us ++ (cs ++ (vs ++ ':' :: ds)))
  | array {cs} : JsonCut .elements cs → JsonCut .array ('[' :: cs)
  | elements_first {cs} : JsonCut .element cs → JsonCut .elements cs
  | elements_next {cs ds} : JsonText .element cs → JsonCut .elements ds → JsonCut .elements (cs ++ ',' :: ds)
  | element {us cs} : JsonText .ws us → JsonCut .value cs → JsonCut .element (us ++ cs)

end Tok.Spec
