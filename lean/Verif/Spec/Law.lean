/-
When two readers may be exchanged.
-/
import Verif.Model.Reader
import Verif.Spec.Scan

namespace Tok.Spec

/-- What comes of reading `r` with the scanner `s`: success or not, the position and the
strings of the Janus readers.  Nothing comes of it if the read goes on forever or panics. -/
def Comes (rt : Rt) (G : Env) (r : Reader) (s : Scanner) (ok : Bool) (p : Int) (j : Nat → Bytes) : Prop :=
  ∃ n e s', read rt G n r s = .ret (e, s') ∧ e.isNone = ok ∧ s'.pos = p ∧ s'.heap.janus = j

/-- The same comes of both readers, in every text, at every place. -/
def Swappable (rt : Rt) (G : Env) (a b : Reader) : Prop :=
  ∀ s h t, Between s h t → ∀ ok p j, Comes rt G a s ok p j ↔ Comes rt G b s ok p j

/-- A read that fails leaves the scanner where it was. -/
def GoesBack (rt : Rt) (G : Env) (r : Reader) : Prop :=
  ∀ s h t, Between s h t → ∀ p j, Comes rt G r s false p j → p = s.pos

/-- A read that succeeds gets on. -/
def GetsOn (rt : Rt) (G : Env) (r : Reader) : Prop :=
  ∀ s h t, Between s h t → ∀ p j, Comes rt G r s true p j → s.pos < p

/-- A read leaves the strings of the Janus readers alone. -/
def KeepsJanus (rt : Rt) (G : Env) (r : Reader) : Prop :=
  ∀ s h t, Between s h t → ∀ ok p j, Comes rt G r s ok p j → j = s.heap.janus

/-- Where one reader succeeds, the other one fails. -/
def Excludes (rt : Rt) (G : Env) (a b : Reader) : Prop :=
  ∀ s h t, Between s h t → ∀ p j, Comes rt G a s true p j → ∃ p' j', Comes rt G b s false p' j'

mutual
/-- `b` is `a` with some parts exchanged as `R` says. -/
inductive Exchanged (R : Reader → Reader → Prop) : Reader → Reader → Prop
  | refl (r) : Exchanged R r r
  | here {a b} : R a b → Exchanged R a b
  | any {rs rs'} : ExchangedL R rs rs' → Exchanged R (.any rs) (.any rs')
  | at_ {a b} : Exchanged R a b → Exchanged R (.at_ a) (.at_ b)
  | body {a b c d} : Exchanged R a b → Exchanged R c d → Exchanged R (.body a c) (.body b d)
  | bodyTail {a b c d} : Exchanged R a b → Exchanged R c d → Exchanged R (.bodyTail a c) (.bodyTail b d)
  | janusBegin {a b} (id nm) : Exchanged R a b → Exchanged R (.janusBegin id nm a) (.janusBegin id nm b)
  | many {a b} : Exchanged R a b → Exchanged R (.many a) (.many b)
  | map {a b} (f) : Exchanged R a b → Exchanged R (.map f a) (.map f b)
  | named {a b} (nm) : Exchanged R a b → Exchanged R (.named nm a) (.named nm b)
  | not {a b} : Exchanged R a b → Exchanged R (.not a) (.not b)
  | opt {a b} : Exchanged R a b → Exchanged R (.opt a) (.opt b)
  | past {a b} : Exchanged R a b → Exchanged R (.past a) (.past b)
  | seq {rs rs'} : ExchangedL R rs rs' → Exchanged R (.seq rs) (.seq rs')
  | skipSeq {a b rs rs'} : Exchanged R a b → ExchangedL R rs rs' → Exchanged R (.skipSeq a rs) (.skipSeq b rs')
  | times {a b} (k) : Exchanged R a b → Exchanged R (.times k a) (.times k b)
  | to {a b} : Exchanged R a b → Exchanged R (.to a) (.to b)
  | zom {a b} : Exchanged R a b → Exchanged R (.zom a) (.zom b)
  | pick {a b} (i l) : Exchanged R a b → Exchanged R (.pick i l a) (.pick i l b)
  | monitor {a b} (i l) : Exchanged R a b → Exchanged R (.monitor i l a) (.monitor i l b)
  | ruleName {a b} : Exchanged R a b → Exchanged R (.ruleName a) (.ruleName b)
  | grammar {a b} (w) : Exchanged R a b → Exchanged R (.grammar w a) (.grammar w b)
/-- The same for lists. -/
inductive ExchangedL (R : Reader → Reader → Prop) : List Reader → List Reader → Prop
  | nil : ExchangedL R [] []
  | cons {a b as bs} : Exchanged R a b → ExchangedL R as bs → ExchangedL R (a :: as) (b :: bs)
end

end Tok.Spec
