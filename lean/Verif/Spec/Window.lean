/-
How far a reader looks.
-/
import Verif.Model.Reader

namespace Tok.Spec

/-- How many bytes in front of the scanner a reader looks at in one step, not counting what its parts look at: a rune has at most four
bytes, a literal as many as it has, the words of `Bool` at most five.  `To`, `Past`, `Not` and the body readers step over one rune.
A number has no longest one, but the scanner steps over its digits, and what ends it is the rune behind them.
For `JanusEnd`, which compares with a text that was read before, and for functions of the client there is no such number. -/
def Reader.sight : Reader → Option Nat
  | .anyRune _ | .between _ _ | .betweenAny _ _ | .holey _ _ _ | .match_ _ _ | .rune _ => some 4
  | .not _ | .past _ | .to _ | .body _ _ | .bodyTail _ _ => some 4
  | .atEnd => some 1
  | .lit str => some str.length
  | .fold str => some str.length
  | .bool _ _ => some 5
  | .int _ _ _ | .uint _ _ _ => some 4
  | .janusEnd _ _ | .wrap _ _ => none
  | _ => some 0

/-- The reader looks at no more than `w` bytes in one step. -/
def Reader.seesB (w : Nat) (r : Reader) : Bool :=
  match Reader.sight r with
  | some k => decide (k ≤ w)
  | none => false

/-- The second reader of a Janus pair. -/
def _root_.Tok.Reader.isJanusEnd : Reader → Bool
  | .janusEnd _ _ => true
  | _ => false

/-- A function of the client that sees no more than `w` bytes: on texts with the same beginning `p` it does the same, unless it tells the
tracker a place that is less than `w` bytes in front of the end of `p`.  It leaves the text, the tracker and the texts of the Janus
readers alone, and if it goes to another place, it tells so. -/
structure Nearsighted (w : Nat) (f : ReadFunc) : Prop where
  tells : ∀ id s e s', f s = .ret (e, s') → ∀ m ∈ s.heap.tracks id, m ∈ s'.heap.tracks id
  keeps : ∀ s e s', f s = .ret (e, s') → s'.full = s.full ∧ s'.tracker = s.tracker ∧ s'.heap.janus = s.heap.janus
  near : ∀ id p x y s e s', s.full = p ++ x → s.tracker = some (.custom id) → s.pos + w ≤ (p.length : Int) → f s = .ret (e, s') →
    (∃ m ∈ s'.heap.tracks id, (p.length : Int) < m + w) ∨
    (s'.pos = s.pos ∨ s'.pos ∈ s'.heap.tracks id) ∧ f { s with full := p ++ y } = .ret (e, { s' with full := p ++ y })

/-- The reader looks at no more than `w` bytes in one step, or it is `JanusEnd`. -/
def Reader.Sees (w : Nat) (r : Reader) : Prop := Reader.seesB w r = true ∨ r.isJanusEnd = true ∨ ∃ nm f, r = .wrap nm f ∧ Nearsighted w f

end Tok.Spec
