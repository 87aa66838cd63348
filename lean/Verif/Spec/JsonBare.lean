/-
JSON without white space, and a client that takes it out with a basket and `Segmentate`.
-/
import Verif.Spec.JsonValue
import Verif.Model.Demo

namespace Tok.Spec

/-- Where a character stands: outside of a string, in one, or in one behind a backslash. -/
inductive JsonPlace where
  | outside | inside | escaped

/-- The text without the spaces, line breaks and tabulators outside of strings. -/
def squeeze : JsonPlace → List Char → List Char
  | _, [] => []
  | .outside, c :: cs =>
    if c ∈ [' ', '\n', '\r', '\t'] then squeeze .outside cs else c :: squeeze (if c = '"' then .inside else .outside) cs
  | .inside, c :: cs => c :: squeeze (if c = '"' then .outside else if c = '\\' then .escaped else .inside) cs
  | .escaped, c :: cs => c :: squeeze .inside cs

/-! ### the client -/

/-- The JSON grammar after `reader.WS.Pick(basket)`. -/
def _root_.Tok.Json.wsEnv : Env := Env.pickSome [Json.iWS] 0 0 Json.env

/-- The texts of the parts that are not `Known()`, read with `Get` and put together. -/
def unknownText (s : Scanner) : List Segment → Exec Bytes
  | [] => pure []
  | p :: ps => if p.known then unknownText s ps else do
    let t ← s.get p.tok
    let ts ← unknownText s ps
    pure (t ++ ts)

/-- The client: it reads the text as JSON with a basket for white space, hands what was picked to `Segmentate` and puts the parts together that are not
known.  `none` if the text cannot be read or `Segmentate` refuses. -/
def jsonMinify (rt : Rt) (fuel : Nat) (text : Bytes) : Exec (Option Bytes) := do
  let (err, s) ← ((Scanner.new text Heap.empty).newBasket 0).use (read rt Json.wsEnv fuel Json.reader)
  match err with
  | some _ => pure none
  | none =>
    match s.segmentate (s.heap.baskets 0) with
    | (_, some _) => pure none
    | (parts, none) => do
      let out ← unknownText s parts
      pure (some out)

end Tok.Spec
