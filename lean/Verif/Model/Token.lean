/-
Model of /repo/token.go (Token), /repo/segment.go (Segment, Segmentate) and
/repo/error.go (ReadError).
-/
import Verif.Model.Strings

namespace Tok

/-- token.go:8-11 `Token`; markers are integers (scanner.go:369 `type Marker int`). -/
structure Token where
  frm : Int
  to : Int
  deriving Repr, DecidableEq

/-- token.go:14-20 `MakeToken`. -/
def makeToken (a b : Int) : Token :=
  if a > b then ⟨b, a⟩ else ⟨a, b⟩

namespace Token

/-- token.go:23-25 `After`. -/
def after (t oth : Token) : Bool := decide (t.frm ≥ oth.to)
/-- token.go:28-30 `Before`. -/
def before (t oth : Token) : Bool := decide (t.to ≤ oth.frm)
/-- token.go:32-34 `Len`. -/
def len (t : Token) : Int := t.to - t.frm
/-- token.go:37-45 `Merge`. -/
def merge (t oth : Token) : Token :=
  ⟨if t.frm > oth.frm then oth.frm else t.frm, if t.to < oth.to then oth.to else t.to⟩
/-- token.go:53-55 `Covers`. -/
def covers (t sub : Token) : Bool := decide (t.frm ≤ sub.frm) && decide (t.to ≥ sub.to)
/-- token.go:48-50 `Clashes`. -/
def clashes (t oth : Token) : Bool :=
  !t.before oth && !t.after oth && !t.covers oth && !oth.covers t
/-- token.go:58-60 `Split`. -/
def split (t sep : Token) : Token × Token :=
  (makeToken t.frm sep.frm, makeToken sep.to t.to)
/-- token.go:63-65 `String`. -/
def string (t : Token) : Bytes := b!"[" ++ itoa t.frm ++ b!"-" ++ itoa t.to ++ b!")"

end Token

/-- segment.go:10-13 `Segment`. -/
structure Segment where
  info : Bytes
  tok : Token
  deriving Repr, DecidableEq

namespace Segment

/-- segment.go:16-18 `Known`. -/
def known (s : Segment) : Bool := !s.info.isEmpty
/-- segment.go:21-24 `Split`. -/
def split (v sep : Segment) : Segment × Segment :=
  (⟨v.info, (v.tok.split sep.tok).1⟩, ⟨v.info, (v.tok.split sep.tok).2⟩)
/-- segment.go:27-29 `String`. -/
def string (v : Segment) : Bytes := v.info ++ v.tok.string

/-- The loop of segment.go:93-102, with `res` accumulated in front.  The result
is the segments produced so far together with the remaining segment, or with the
offending segment when one is not covered by the rest (segment.go:94-96). -/
def segmentateLoop (rest : Segment) : List Segment → List Segment → List Segment × Except Segment Segment
  | res, [] => (res, .ok rest)
  | res, seg :: segs =>
    if !rest.tok.covers seg.tok then (res, .error seg)
    else
      let (left, rest') := rest.split seg
      let res := if left.tok.len > 0 then res ++ [left] else res
      segmentateLoop rest' (res ++ [seg]) segs

/-- segment.go:89-107 `Segment.Segmentate`: the produced segments and the
offending segment, if any, named by the error. -/
def segmentate (s : Segment) (segments : List Segment) : List Segment × Option Segment :=
  match segmentateLoop s [] segments with
  | (res, .error seg) => (res, some seg)
  | (res, .ok rest) => (if rest.tok.len > 0 then res ++ [rest] else res, none)

end Segment

/-- A Go `error` value that is not nil: a `ReadError` (error.go:6-9) or an error
made with `fmt.Errorf`. -/
inductive Err where
  | read (marker : Int) (what : Bytes)
  | other (msg : Bytes)
  deriving Repr, DecidableEq

/-- error.go:17-19 `ReadError.Error`; `%v` of an error. -/
def Err.text : Err → Bytes
  | .read m what => b!"not able to read " ++ what ++ b!" at " ++ itoa m
  | .other msg => msg

end Tok
