/-
A client that changes what a grammar picks and leaves the rest of the text as it is.
-/
import Verif.Spec.JsonEdit

namespace Tok.Spec

/-- The client: it reads the text with a basket, hands what was picked to `Segmentate` and writes the text anew, with `f` for the parts that are known.
`none` if the text cannot be read or `Segmentate` refuses. -/
def rewriteText (rt : Rt) (fuel : Nat) (G : Env) (r : Reader) (b : Nat) (f : Bytes → Bytes → Bytes) (text : Bytes) : Exec (Option Bytes) := do
  let (err, s) ← ((Scanner.new text Heap.empty).newBasket b).use (read rt G fuel r)
  match err with
  | some _ => pure none
  | none =>
    match s.segmentate (s.heap.baskets b) with
    | (_, some _) => pure none
    | (parts, none) => do
      let out ← editText s f parts
      pure (some out)

/-- The bytes from `a` to `b`. -/
def bytesFrom (t : Bytes) (a b : Int) : Bytes := (t.drop a.toNat).take (b - a).toNat

/-- The text from the byte `a` on, with `f` for the bytes of the segments; a segment without info stays as it is. -/
def splice (f : Bytes → Bytes → Bytes) (t : Bytes) : Int → List Segment → Bytes
  | a, [] => t.drop a.toNat
  | a, g :: l =>
    bytesFrom t a g.tok.frm ++
      ((if g.info = [] then bytesFrom t g.tok.frm g.tok.to else f g.info (bytesFrom t g.tok.frm g.tok.to)) ++ splice f t g.tok.to l)

end Tok.Spec
