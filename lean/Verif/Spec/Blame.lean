/-
The error of a failed read by rules: whose error it is, what it names and where.
-/
import Verif.Spec.Picks

namespace Tok.Spec

/-- The readers whose error is their own, not that of a part of them. -/
def _root_.Tok.Reader.owns : Reader → Bool
  | .any _ | .at_ _ | .seq _ | .skipSeq _ _ | .times _ _ | .janusBegin _ _ _ | .map _ _ | .pick _ _ _ | .monitor _ _ _ | .named _ _ | .rule _
  | .grammar _ _ | .wrap _ _ => false
  | _ => true

/-- The error of such a reader that has failed and stands at `p`; the strings of the Janus readers are `j`. -/
def complaint (rt : Rt) (G : Env) (j : Nat → Bytes) (p : Int) : Reader → Err
  | .bool _ f => if f ∈ [b!"", b!"*", b!"l", b!"U", b!"Cc"] then .read p b!"bool" else .other b!"invalid format"
  | .int _ b z => if b ∉ [8, 10, 16] then .other (b!"invalid base value " ++ itoa b) else
      if z ∉ [8, 16, 32, 64] then .other (b!"invalid bitSize value " ++ itoa z) else .read p b!"integer"
  | .uint _ b z => if b ∉ [8, 10, 16] then .other (b!"invalid base value " ++ itoa b) else
      if z ∉ [8, 16, 32, 64] then .other (b!"invalid bitSize value " ++ itoa z) else .read p b!"unsigned integer"
  | .invalid w => .other (b!"INVALID-READER: " ++ w)
  | .janusEnd i _ => .read p (quoteToGraphic rt (j i))
  | .not c => .read p (c.what rt G)
  | r => .read p (r.what rt G)

/-- The error that an `Any` takes from those of its parts: of the read errors furthest in the text the last one.
Without a read error there is one without a name at the beginning of the text. -/
def Deepest (es : List Err) (e : Err) : Prop :=
  (∃ pre m w post, es = pre ++ .read m w :: post ∧ e = .read m w ∧ (∀ m' w', .read m' w' ∈ pre → m' ≤ m) ∧ ∀ m' w', .read m' w' ∈ post → m' < m) ∨
  (∀ m w, .read m w ∉ es) ∧ e = .read 0 []

/-- What fails: a reader, or all of some readers one after the other. -/
inductive Ask
  | read (r : Reader)
  | alts (rs : List Reader)

section
variable (rt : Rt) (G : Env) (O : Reader → St → Bool × St → Prop) (L : Nat)

/-- `Blames … L (.read r) st [e]`: reading with `r` at the place `st` of a text of length `L` fails, and the error is `e`.
`O` tells what comes of reads. -/
inductive Blames : Ask → St → List Err → Prop
  | self {r st m} : r.owns = true → O r st (false, m) → Blames (.read r) st [complaint rt G st.jan (spot L m) r]
  | altsNil {st} : Blames (.alts []) st []
  | altsCons {r rs st m e es} : Blames (.read r) st [e] → O r st (false, m) → Blames (.alts rs) m es → Blames (.alts (r :: rs)) st (e :: es)
  | any {rs st es e} : Blames (.alts rs) st es → Deepest es e → Blames (.read (.any rs)) st [e]
  | at_ {c st e} : Blames (.read c) st [e] → Blames (.read (.at_ c)) st [e]
  | seqFail {r rs st e} : Blames (.read r) st [e] → Blames (.read (.seq (r :: rs))) st [e]
  | seqCons {r rs st m e} : O r st (true, m) → Blames (.read (.seq rs)) m [e] → Blames (.read (.seq (r :: rs))) st [e]
  | skipFail {sk rs st e} : Blames (.read sk) st [e] → Blames (.read (.skipSeq sk rs)) st [e]
  | skipStop {sk r rs st m e} : O sk st (true, m) → Blames (.read r) m [e] → Blames (.read (.skipSeq sk (r :: rs))) st [e]
  | skipCons {sk r rs st m m' e} : O sk st (true, m) → O r m (true, m') → Blames (.read (.skipSeq sk rs)) m' [e] →
      Blames (.read (.skipSeq sk (r :: rs))) st [e]
  | timesFail {k c st e} : 0 < k → Blames (.read c) st [e] → Blames (.read (.times k c)) st [e]
  | timesCons {k c st m e} : 0 ≤ k → O c st (true, m) → Blames (.read (.times k c)) m [e] → Blames (.read (.times (k + 1) c)) st [e]
  | janusBegin {id nm c st e} : Blames (.read c) st [e] → Blames (.read (.janusBegin id nm c)) st [e]
  | map {f c st e} : Blames (.read c) st [e] → Blames (.read (.map f c)) st [e]
  | pick {info b c st e} : Blames (.read c) st [e] → Blames (.read (.pick info b c)) st [e]
  | monitor {info l c st e} : Blames (.read c) st [e] → Blames (.read (.monitor info l c)) st [e]
  | named {nm c st e} : Blames (.read c) st [e] → Blames (.read (.named nm c)) st [e]
  | rule {i nm c st e} : G[i]? = some ⟨nm, some c⟩ → Blames (.read c) st [e] → Blames (.read (.rule i)) st [e]
  | grammar {w c st e} : Blames (.read c) st [e] → Blames (.read (.grammar w c)) st [.other (w ++ b!" parse error: " ++ e.text)]

end

end Tok.Spec
