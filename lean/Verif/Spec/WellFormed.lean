/-
Well-formed grammars: no left recursion and no repetition of a reader that can succeed
without consuming (after B. Ford, POPL 2004, section 3.6).
-/
import Verif.Spec.PegReader
import Verif.Proofs.Exec

namespace Tok
open Spec

section
variable (nul : Nat → Bool)

mutual
/-- The reader may succeed without consuming; `nul` says so of the rules. -/
def Reader.null : Reader → Bool
  | .any rs => Reader.nullSome rs
  | .anyRune str => (runesOf str).contains 0xFFFD
  | .at_ _ => true
  | .atEnd => true
  | .between _ _ => false
  | .betweenAny _ str => (runesOf str).contains 0xFFFD
  | .body _ _ => true
  | .bodyTail _ t => t.null
  | .bool _ _ => false
  | .fold v => v.isEmpty
  | .holey a b holes => decide (a ≤ 0xFFFD) && decide (0xFFFD ≤ b) && !(runesOf holes).contains 0xFFFD
  | .int _ _ _ => false
  | .janusBegin _ _ c => c.null
  | .janusEnd _ _ => true
  | .invalid _ => false
  | .lit str => str.isEmpty
  | .many _ => false
  | .map _ c => c.null
  | .match_ _ _ => false
  | .named _ c => c.null
  | .not _ => true
  | .opt _ => true
  | .past c => c.null
  | .rune c => decide (c = 0xFFFD)
  | .seq rs => Reader.nullAll rs
  | .skipSeq sk rs => sk.null && Reader.nullAll rs
  | .times k c => decide (k ≤ 0) || c.null
  | .to _ => true
  | .uint _ _ _ => false
  | .wrap _ _ => true
  | .zom _ => true
  | .pick _ _ c => c.null
  | .monitor _ _ c => c.null
  | .rule i => nul i
  | .ruleName c => c.null
  | .grammar _ c => c.null
def Reader.nullSome : List Reader → Bool
  | [] => false
  | r :: rs => r.null || Reader.nullSome rs
def Reader.nullAll : List Reader → Bool
  | [] => true
  | r :: rs => r.null && Reader.nullAll rs
end

mutual
/-- The rules that may be read before anything was consumed. -/
def Reader.left : Reader → List Nat
  | .any rs => Reader.leftAny rs
  | .at_ c => c.left
  | .body _ t => t.left
  | .bodyTail _ t => t.left
  | .janusBegin _ _ c => c.left
  | .many c => c.left
  | .map _ c => c.left
  | .named _ c => c.left
  | .not c => c.left
  | .opt c => c.left
  | .past c => c.left
  | .seq rs => Reader.leftSeq rs
  | .skipSeq sk rs => sk.left ++ if sk.null nul then Reader.leftSeq rs else []
  | .times _ c => c.left
  | .to c => c.left
  | .zom c => c.left
  | .pick _ _ c => c.left
  | .monitor _ _ c => c.left
  | .rule i => [i]
  | .ruleName c => c.left
  | .grammar _ c => c.left
  | .anyRune _ => []
  | .atEnd => []
  | .between _ _ => []
  | .betweenAny _ _ => []
  | .bool _ _ => []
  | .fold _ => []
  | .holey _ _ _ => []
  | .int _ _ _ => []
  | .janusEnd _ _ => []
  | .invalid _ => []
  | .lit _ => []
  | .match_ _ _ => []
  | .rune _ => []
  | .uint _ _ _ => []
  | .wrap _ _ => []
def Reader.leftAny : List Reader → List Nat
  | [] => []
  | r :: rs => r.left ++ Reader.leftAny rs
def Reader.leftSeq : List Reader → List Nat
  | [] => []
  | r :: rs => r.left ++ if r.null nul then Reader.leftSeq rs else []
end

/-- Repetitions make progress: only readers that cannot succeed without consuming are
repeated; no `Wrap`.  The readers `Past`, `Body` and `BodyTail` are admitted with `srch`. -/
def Reader.progress (srch : Bool) : Reader → Prop
  | .zom c => c.null nul = false
  | .many c => c.null nul = false
  | .past _ => srch = true
  | .body _ _ => srch = true
  | .bodyTail _ _ => srch = true
  | .wrap _ _ => False
  | _ => True

/-- `Past`, `Body` and `BodyTail` go forward rune by rune and need a well-formed text, so with
`srch` every other reader has to go over whole characters: literals are UTF-8 texts, no
`Fold`, `Int`, `Uint`. -/
def Reader.whole (srch : Bool) : Reader → Prop
  | .lit str => srch = true → ∃ cs, str = encText cs
  | .fold _ => srch = false
  | .int _ _ _ => srch = false
  | .uint _ _ _ => srch = false
  | _ => True

/-- A well-formed grammar: `nul` is right about the rules, and `rank` shows that there is no
left recursion. -/
structure Env.WF (G : Env) (srch : Bool) (rank : Nat → Nat) : Prop where
  progress : G.Every (Reader.progress nul srch)
  whole : G.Every (Reader.whole srch)
  nulls : ∀ (i : Nat) (nm : Bytes) (c : Reader), G[i]? = some ⟨nm, some c⟩ → c.null nul = true → nul i = true
  ranks : ∀ (i : Nat) (nm : Bytes) (c : Reader), G[i]? = some ⟨nm, some c⟩ → ∀ j ∈ c.left nul, rank j < rank i

end

end Tok
