/-
The parsing expression that a reader stands for.  The alphabet is the division of a text
into runes (`Pieces`): a symbol is a rune together with the bytes it occupies.

The translation follows what the readers do, which differs from the documented meaning in
three places, all at the end of the text: a rune test that accepts U+FFFD succeeds there
without moving (`cls`), `Not` succeeds there, and `Past` does not try its reader there.
-/
import Verif.Spec.Peg
import Verif.Spec.Scan
import Verif.Model.Reader

namespace Tok
open Spec PExp

/-- A symbol: the bytes and the rune. -/
abbrev Piece := Bytes × Int

open Classical in
/-- One rune that passes a test; at the end of the text the test is applied to U+FFFD. -/
noncomputable def cls (p : Int → Prop) : PExp Piece :=
  if p 0xFFFD then .alt (.chr (fun x => decide (p x.2))) (.neg dot) else .chr (fun x => decide (p x.2))

/-- One rune that passes a test. -/
noncomputable def one (p : Int → Prop) : PExp Piece := open Classical in .chr (fun x => decide (p x.2))

/-- The characters of a text one after the other. -/
def charsExp (cs : List Char) : PExp Piece := chain (cs.map fun c => .chr (fun x => x.1 == enc c))

open Classical in
/-- A literal that is a UTF-8 text. -/
noncomputable def litExp (str : Bytes) : PExp Piece :=
  if h : ∃ cs, str = encText cs then charsExp h.choose else fail

/-- The texts accepted by `Bool` with a format. -/
def boolLits (format : Bytes) : List Bytes :=
  if format = [] ∨ format = b!"*" then [b!"true", b!"True", b!"TRUE", b!"false", b!"False", b!"FALSE"]
  else if format = b!"l" then [b!"true", b!"false"]
  else if format = b!"U" then [b!"TRUE", b!"FALSE"]
  else if format = b!"Cc" then [b!"True", b!"False"]
  else []

/-- Go on until `a` matches or the text ends (`a` is not tried at the end). -/
def until_ (a : PExp Piece) : PExp Piece := .star (.seq (amp dot) (.seq (.neg a) dot))

mutual
/-- The parsing expression of a reader.  `Fold`, `Int`, `Uint`, `Janus` and `Wrap` are not
expressed. -/
noncomputable def Reader.peg : Reader → PExp Piece
  | .any rs => choice (Reader.pegs rs)
  | .anyRune str => cls (RuneIn str)
  | .at_ c => amp c.peg
  | .atEnd => .neg dot
  | .between a b => one (fun r => a ≤ r ∧ r ≤ b)
  | .betweenAny ranges singles => .alt (one (fun r => ∃ ab ∈ ranges, ab.1 ≤ r ∧ r ≤ ab.2)) (cls (RuneIn singles))
  | .body b t => .find b.peg t.peg false []
  | .bodyTail b t => .find b.peg t.peg true []
  | .bool _ f => choice ((boolLits f).map litExp)
  | .fold _ => fail
  | .holey a b holes => cls (fun r => (a ≤ r ∧ r ≤ b) ∧ ¬ RuneIn holes r)
  | .int _ _ _ => fail
  | .janusBegin _ _ _ => fail
  | .janusEnd _ _ => fail
  | .invalid _ => fail
  | .lit str => litExp str
  | .many c => .seq c.peg (.star c.peg)
  | .map _ c => c.peg
  | .match_ _ f => one (fun r => f r = true)
  | .named _ c => c.peg
  | .not c => .seq (.neg c.peg) (.alt dot .eps)
  | .opt c => .alt c.peg .eps
  | .past c => .seq (until_ c.peg) (.seq (amp dot) c.peg)
  | .rune c => cls (fun r => r = c)
  | .seq rs => chain (Reader.pegs rs)
  | .skipSeq sk rs => .seq sk.peg (chain ((Reader.pegs rs).map fun e => .seq e sk.peg))
  | .times k c => PExp.times c.peg k.toNat
  | .to c => .seq (until_ c.peg) (amp c.peg)
  | .uint _ _ _ => fail
  | .wrap _ _ => fail
  | .zom c => .star c.peg
  | .pick _ _ c => c.peg
  | .monitor _ _ c => c.peg
  | .rule i => .nt i
  | .ruleName c => c.peg
  | .grammar _ c => c.peg
/-- The parsing expressions of a list of readers. -/
noncomputable def Reader.pegs : List Reader → List (PExp Piece)
  | [] => []
  | r :: rs => r.peg :: Reader.pegs rs
end

/-- The expressions of the rules of a grammar. -/
noncomputable def Env.peg (G : Env) : Nat → Option (PExp Piece) := fun i => (G[i]?.bind (·.reader)).map Reader.peg

mutual
/-- The parsing expression of a reader as documented: a rune test needs a rune, `Not` is
`!e .`, `Past` is `(!e .)* e`. -/
noncomputable def Reader.doc : Reader → PExp Piece
  | .any rs => choice (Reader.docs rs)
  | .anyRune str => one (RuneIn str)
  | .at_ c => amp c.doc
  | .atEnd => .neg dot
  | .between a b => one (fun r => a ≤ r ∧ r ≤ b)
  | .betweenAny ranges singles => .alt (one (fun r => ∃ ab ∈ ranges, ab.1 ≤ r ∧ r ≤ ab.2)) (one (RuneIn singles))
  | .body b t => .find b.doc t.doc false []
  | .bodyTail b t => .find b.doc t.doc true []
  | .bool _ f => choice ((boolLits f).map litExp)
  | .fold _ => fail
  | .holey a b holes => one (fun r => (a ≤ r ∧ r ≤ b) ∧ ¬ RuneIn holes r)
  | .int _ _ _ => fail
  | .janusBegin _ _ _ => fail
  | .janusEnd _ _ => fail
  | .invalid _ => fail
  | .lit str => litExp str
  | .many c => .seq c.doc (.star c.doc)
  | .map _ c => c.doc
  | .match_ _ f => one (fun r => f r = true)
  | .named _ c => c.doc
  | .not c => .seq (.neg c.doc) dot
  | .opt c => .alt c.doc .eps
  | .past c => .seq (until_ c.doc) c.doc
  | .rune c => one (fun r => r = c)
  | .seq rs => chain (Reader.docs rs)
  | .skipSeq sk rs => .seq sk.doc (chain ((Reader.docs rs).map fun e => .seq e sk.doc))
  | .times k c => PExp.times c.doc k.toNat
  | .to c => .seq (until_ c.doc) (amp c.doc)
  | .uint _ _ _ => fail
  | .wrap _ _ => fail
  | .zom c => .star c.doc
  | .pick _ _ c => c.doc
  | .monitor _ _ c => c.doc
  | .rule i => .nt i
  | .ruleName c => c.doc
  | .grammar _ c => c.doc
/-- The documented expressions of a list of readers. -/
noncomputable def Reader.docs : List Reader → List (PExp Piece)
  | [] => []
  | r :: rs => r.doc :: Reader.docs rs
end

/-- The documented expressions of the rules of a grammar. -/
noncomputable def Env.doc (G : Env) : Nat → Option (PExp Piece) := fun i => (G[i]?.bind (·.reader)).map Reader.doc

end Tok
