/-
Other names for the same readers.
-/
import Mathlib.Data.List.Forall2
import Verif.Model.Reader

namespace Tok.Spec

variable (I : Bytes → Bytes → Prop)

/-- Both are errors of a read, at the same place, or both are errors of another kind.  What they say may differ. -/
def ErrAside : Err → Err → Prop
  | .read m _, .read m' _ => m' = m
  | .other _, .other _ => True
  | _, _ => False

/-- No error in both cases, or two errors that differ in wording only. -/
def ResAside : Option Err → Option Err → Prop
  | none, none => True
  | some e, some e' => ErrAside e e'
  | _, _ => False

/-- The same segment of the text, with related infos. -/
def SegAside (x y : Segment) : Prop := y.tok = x.tok ∧ I x.info y.info

/-- The same entry of a log, but for the infos and the wording of the error. -/
structure EntryAside (x y : LogEntry) : Prop where
  enterAt : y.enterAt = x.enterAt
  info : I x.info y.info
  level : y.level = x.level
  exitAt : y.exitAt = x.exitAt
  err : ResAside x.err y.err

/-- The same log, but for that. -/
structure LogAside (x y : Log) : Prop where
  entries : List.Forall₂ (EntryAside I) x.entries y.entries
  cap : y.cap = x.cap
  gen : y.gen = x.gen
  level : y.level = x.level

/-- The same text, position, tracker and memory, but for the infos in baskets and logs and the wording of the errors in logs. -/
structure Aside (s t : Scanner) : Prop where
  full : t.full = s.full
  pos : t.pos = s.pos
  tracker : t.tracker = s.tracker
  cells : t.heap.cells = s.heap.cells
  janus : t.heap.janus = s.heap.janus
  tracks : t.heap.tracks = s.heap.tracks
  maps : t.heap.maps = s.heap.maps
  baskets : ∀ i, List.Forall₂ (SegAside I) (s.heap.baskets i) (t.heap.baskets i)
  logs : ∀ i, LogAside I (s.heap.logs i) (t.heap.logs i)

/-- The two functions do the same, but for names. -/
def SameAside (f g : ReadFunc) : Prop := ∀ s t, Aside I s t → match f s, g t with
  | .ret (e, s'), .ret (e', t') => ResAside e e' ∧ Aside I s' t'
  | .panic, .panic => True
  | .timeout, .timeout => True
  | _, _ => False

mutual

/-- The second reader is the first one with other names: of `Named`, `Match`, `Wrap`, Janus pairs and grammars, in the messages of
invalid readers, and, as far as `I` allows, in the infos of `Pick` and `Monitor`.  Rules are numbers, so their names are not part
of a reader. -/
inductive Renamed : Reader → Reader → Prop
  | any {rs rs'} : RenamedL rs rs' → Renamed (.any rs) (.any rs')
  | anyRune (str) : Renamed (.anyRune str) (.anyRune str)
  | at_ {a b} : Renamed a b → Renamed (.at_ a) (.at_ b)
  | atEnd : Renamed .atEnd .atEnd
  | between (x y) : Renamed (.between x y) (.between x y)
  | betweenAny (x y) : Renamed (.betweenAny x y) (.betweenAny x y)
  | body {a b c d} : Renamed a b → Renamed c d → Renamed (.body a c) (.body b d)
  | bodyTail {a b c d} : Renamed a b → Renamed c d → Renamed (.bodyTail a c) (.bodyTail b d)
  | bool (c f) : Renamed (.bool c f) (.bool c f)
  | fold (v) : Renamed (.fold v) (.fold v)
  | holey (x y h) : Renamed (.holey x y h) (.holey x y h)
  | int (c b k) : Renamed (.int c b k) (.int c b k)
  | janusBegin (i w w') {a b} : Renamed a b → Renamed (.janusBegin i w a) (.janusBegin i w' b)
  | janusEnd (i w w') : Renamed (.janusEnd i w) (.janusEnd i w')
  | invalid (w w') : Renamed (.invalid w) (.invalid w')
  | lit (v) : Renamed (.lit v) (.lit v)
  | many {a b} : Renamed a b → Renamed (.many a) (.many b)
  | map (f) {a b} : Renamed a b → Renamed (.map f a) (.map f b)
  | match_ (w w' f) : Renamed (.match_ w f) (.match_ w' f)
  | named (w w') {a b} : Renamed a b → Renamed (.named w a) (.named w' b)
  | not {a b} : Renamed a b → Renamed (.not a) (.not b)
  | opt {a b} : Renamed a b → Renamed (.opt a) (.opt b)
  | past {a b} : Renamed a b → Renamed (.past a) (.past b)
  | rune (c) : Renamed (.rune c) (.rune c)
  | seq {rs rs'} : RenamedL rs rs' → Renamed (.seq rs) (.seq rs')
  | skipSeq {a b rs rs'} : Renamed a b → RenamedL rs rs' → Renamed (.skipSeq a rs) (.skipSeq b rs')
  | times (k) {a b} : Renamed a b → Renamed (.times k a) (.times k b)
  | to {a b} : Renamed a b → Renamed (.to a) (.to b)
  | uint (c b k) : Renamed (.uint c b k) (.uint c b k)
  | wrap (w w') {f g} : SameAside I f g → Renamed (.wrap w f) (.wrap w' g)
  | zom {a b} : Renamed a b → Renamed (.zom a) (.zom b)
  | pick {i i'} (k) {a b} : I i i' → Renamed a b → Renamed (.pick i k a) (.pick i' k b)
  | monitor {i i'} (k) {a b} : I i i' → Renamed a b → Renamed (.monitor i k a) (.monitor i' k b)
  | rule (i) : Renamed (.rule i) (.rule i)
  | ruleName {a b} : Renamed a b → Renamed (.ruleName a) (.ruleName b)
  | grammar (w w') {a b} : Renamed a b → Renamed (.grammar w a) (.grammar w' b)

/-- The same of two lists of readers. -/
inductive RenamedL : List Reader → List Reader → Prop
  | nil : RenamedL [] []
  | cons {a b rs rs'} : Renamed a b → RenamedL rs rs' → RenamedL (a :: rs) (b :: rs')

end

/-- Two grammars with the same rules under other names. -/
def RenamedRules : Env → Env → Prop :=
  List.Forall₂ fun x y => x.reader = none ∧ y.reader = none ∨ ∃ a b, x.reader = some a ∧ y.reader = some b ∧ Renamed I a b

end Tok.Spec
