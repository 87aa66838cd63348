/-
When a read goes on for ever: the calls a `Read` method makes, and the loops that do not get on.
-/
import Verif.Spec.Law
import Verif.Spec.Place

namespace Tok.Spec

/-- What comes of a read of `r` at a place: success or not, and the place after it. -/
def Outcome (rt : Rt) (G : Env) (r : Reader) (st : St) (x : Bool × St) : Prop :=
  x.2.rest <:+ st.rest ∧
    Comes rt G r (.new st.rest { Heap.empty with janus := st.jan }) x.1 (st.rest.length - x.2.rest.length) x.2.jan

/-- `MoveRunes(1)` at the start of a text: success or not, and the text ahead after it. -/
def onward (t : Bytes) : Bool × Bytes :=
  match (Scanner.new t Heap.empty).moveRunes 1 with
  | .ret (ok, s) => (ok, t.drop s.pos.toNat)
  | _ => (false, t)

section
variable (G : Env) (O : Reader → St → Bool × St → Prop)

/-- All of the readers fail, one after the other. -/
inductive Falls : List Reader → St → St → Prop
  | nil (st) : Falls [] st st
  | cons {r rs st st' st''} : O r st (false, st') → Falls rs st' st'' → Falls (r :: rs) st st''

/-- All of the readers succeed, one after the other. -/
inductive Passes : List Reader → St → St → Prop
  | nil (st) : Passes [] st st
  | cons {r rs st st' st''} : O r st (true, st') → Passes rs st' st'' → Passes (r :: rs) st st''

/-- The search for `r` gets from one place to another: at every place on the way there is text
ahead, `r` fails and the search goes on by one rune. -/
inductive Searches (r : Reader) : St → St → Prop
  | refl (st) : Searches r st st
  | step {st st' st''} : st.rest ≠ [] → O r st (false, st') → Searches r ⟨(onward st'.rest).2, st'.jan⟩ st'' → Searches r st st''

/-- The same for `To`, which goes on only if `MoveRunes` succeeds. -/
inductive Seeks (r : Reader) : St → St → Prop
  | refl (st) : Seeks r st st
  | step {st st' st''} : O r st (false, st') → (onward st'.rest).1 = true → Seeks r ⟨(onward st'.rest).2, st'.jan⟩ st'' → Seeks r st st''

/-- The readers of a `SkipSeq` in the order in which they are read. -/
def weave (sk : Reader) (rs : List Reader) : List Reader := sk :: rs.flatMap fun r => [r, sk]

/-- The `Read` of the first reader at the first place calls the `Read` of the second reader at
the second place.  `O` tells what came of the calls before. -/
inductive Calls : Reader → St → Reader → St → Prop
  | any {pre c post st st'} : Falls O pre st st' → Calls (.any (pre ++ c :: post)) st c st'
  | at_ {c st} : Calls (.at_ c) st c st
  | bodySearch {b t st st'} : Searches O t st st' → st'.rest ≠ [] → Calls (.body b t) st t st'
  | bodyFirst {b t st st' st''} : Searches O t st st' → st'.rest ≠ [] → O t st' (true, st'') →
      Calls (.body b t) st b ⟨st.rest.take (st.rest.length - st'.rest.length), st''.jan⟩
  | bodyTailSearch {b t st st'} : Searches O t st st' → st'.rest ≠ [] → Calls (.bodyTail b t) st t st'
  | bodyTailFirst {b t st st' st''} : Searches O t st st' → st'.rest ≠ [] → O t st' (true, st'') →
      Calls (.bodyTail b t) st b ⟨st.rest.take (st.rest.length - st'.rest.length), st''.jan⟩
  | janusBegin {id nm c st} : Calls (.janusBegin id nm c) st c st
  | many {i c st st'} : Passes O (.replicate i c) st st' → Calls (.many c) st c st'
  | map {f c st} : Calls (.map f c) st c st
  | named {nm c st} : Calls (.named nm c) st c st
  | not {c st} : Calls (.not c) st c st
  | opt {c st} : Calls (.opt c) st c st
  | past {c st st'} : Searches O c st st' → st'.rest ≠ [] → Calls (.past c) st c st'
  | seq {pre c post st st'} : Passes O pre st st' → Calls (.seq (pre ++ c :: post)) st c st'
  | skipSeq {sk rs pre c post st st'} : weave sk rs = pre ++ c :: post → Passes O pre st st' → Calls (.skipSeq sk rs) st c st'
  | times {k : Int} {i : Nat} {c st st'} : (i : Int) < k → Passes O (.replicate i c) st st' → Calls (.times k c) st c st'
  | to {c st st'} : Seeks O c st st' → Calls (.to c) st c st'
  | zom {i c st st'} : Passes O (.replicate i c) st st' → Calls (.zom c) st c st'
  | pick {i l c st} : Calls (.pick i l c) st c st
  | monitor {i l c st} : Calls (.monitor i l c) st c st
  | rule {i nm c st} : G[i]? = some ⟨nm, some c⟩ → Calls (.rule i) st c st
  | ruleName {c st} : Calls (.ruleName c) st c st
  | grammar {w c st} : Calls (.grammar w c) st c st

/-- The calls that are made, directly or not. -/
inductive GetsTo : Reader → St → Reader → St → Prop
  | refl (r st) : GetsTo r st r st
  | call {r st r' st' r'' st''} : Calls G O r st r' st' → GetsTo r' st' r'' st'' → GetsTo r st r'' st''

/-- `c` succeeds again and again without going over anything. -/
def Repeats (c : Reader) (st : St) : Prop :=
  ∃ f : Nat → St, f 0 = st ∧ ∀ i, O c (f i) (true, f (i + 1)) ∧ (f i).rest = st.rest

/-- `c` fails again and again and the search does not get on. -/
def Stalls (c : Reader) (st : St) : Prop :=
  st.rest ≠ [] ∧ ∃ f g : Nat → St, f 0 = st ∧ ∀ i, O c (f i) (false, g i) ∧ f (i + 1) = ⟨(onward (g i).rest).2, (g i).jan⟩ ∧ (f i).rest = st.rest

/-- The loop of a repeating or searching reader gets to a place where it stays for ever. -/
inductive Spins : Reader → St → Prop
  | zom {i c st st'} : Passes O (.replicate i c) st st' → Repeats O c st' → Spins (.zom c) st
  | many {i c st st'} : Passes O (.replicate i c) st st' → Repeats O c st' → Spins (.many c) st
  | past {c st st'} : Searches O c st st' → Stalls O c st' → Spins (.past c) st
  | body {b t st st'} : Searches O t st st' → Stalls O t st' → Spins (.body b t) st
  | bodyTail {b t st st'} : Searches O t st st' → Stalls O t st' → Spins (.bodyTail b t) st

/-- The calls go on for ever without going over anything: left recursion. -/
def Circles (r : Reader) (st : St) : Prop :=
  ∃ (f : Nat → Reader) (g : Nat → St), f 0 = r ∧ g 0 = st ∧ ∀ i, Calls G O (f i) (g i) (f (i + 1)) (g (i + 1)) ∧ (g i).rest = st.rest

end

end Tok.Spec
