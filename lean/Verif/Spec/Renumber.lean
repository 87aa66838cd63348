/-
Other numbers for the same rules.
-/
import Verif.Model.Reader

namespace Tok.Spec

mutual

/-- The same reader, with `f i` for every reference to the rule `i`.  In Go a reference is a pointer, so this is the same grammar at
other addresses. -/
def Reader.renum (f : Nat → Nat) : Reader → Reader
  | .any rs => .any (Reader.renums f rs)
  | .at_ a => .at_ (Reader.renum f a)
  | .body a b => .body (Reader.renum f a) (Reader.renum f b)
  | .bodyTail a b => .bodyTail (Reader.renum f a) (Reader.renum f b)
  | .janusBegin i w a => .janusBegin i w (Reader.renum f a)
  | .many a => .many (Reader.renum f a)
  | .map k a => .map k (Reader.renum f a)
  | .named w a => .named w (Reader.renum f a)
  | .not a => .not (Reader.renum f a)
  | .opt a => .opt (Reader.renum f a)
  | .past a => .past (Reader.renum f a)
  | .seq rs => .seq (Reader.renums f rs)
  | .skipSeq a rs => .skipSeq (Reader.renum f a) (Reader.renums f rs)
  | .times k a => .times k (Reader.renum f a)
  | .to a => .to (Reader.renum f a)
  | .zom a => .zom (Reader.renum f a)
  | .pick w b a => .pick w b (Reader.renum f a)
  | .monitor w l a => .monitor w l (Reader.renum f a)
  | .rule i => .rule (f i)
  | .ruleName a => .ruleName (Reader.renum f a)
  | .grammar w a => .grammar w (Reader.renum f a)
  | .anyRune str => .anyRune str
  | .atEnd => .atEnd
  | .between a b => .between a b
  | .betweenAny a b => .betweenAny a b
  | .bool c w => .bool c w
  | .fold w => .fold w
  | .holey a b h => .holey a b h
  | .int c b k => .int c b k
  | .janusEnd i w => .janusEnd i w
  | .invalid w => .invalid w
  | .lit w => .lit w
  | .match_ w p => .match_ w p
  | .rune c => .rune c
  | .uint c b k => .uint c b k
  | .wrap w g => .wrap w g

/-- The readers of a list. -/
def Reader.renums (f : Nat → Nat) : List Reader → List Reader
  | [] => []
  | r :: rs => Reader.renum f r :: Reader.renums f rs

end

/-- The same rule. -/
def Rule.renum (f : Nat → Nat) (r : Rule) : Rule := ⟨r.name, r.reader.map (Reader.renum f)⟩

/-- The reader is no reference to a rule outside of `K`. -/
def Reader.within (K : Nat → Prop) : Reader → Prop
  | .rule i => K i
  | _ => True

end Tok.Spec
