/-
Specification vocabulary for scanner calls.  Nothing here mentions the decoding,
searching or moving functions of the model, only the observable state of a
scanner (text, position, tracker, reachable objects).
-/
import Verif.Model.Scanner
import Verif.Spec.Text

namespace Tok.Spec

/-- The scanner stands between `h` and `t`: `Head()` is `h` and `Tail()` is `t`. -/
def Between (s : Scanner) (h t : Bytes) : Prop := s.full = h ++ t ∧ s.pos = h.length

instance (s : Scanner) (h t : Bytes) : Decidable (Between s h t) :=
  inferInstanceAs (Decidable (_ ∧ _))

/-- The scanner `s'` is `s` after it was moved to stand between `h` and `t`.  A
tracker may have been told; without a tracker nothing else changed. -/
def Reaches (s s' : Scanner) (h t : Bytes) : Prop :=
  Between s' h t ∧ s'.full = s.full ∧ s'.tracker = s.tracker ∧ (s.tracker = none → s'.heap = s.heap)

/-- `r` is one of the runes of the text `str`. -/
def RuneIn (str : Bytes) (r : Int) : Prop := ∃ ps, Pieces str ps ∧ r ∈ ps.map (·.2)

/-- A scanner call that reports success as a boolean. -/
abbrev Call := Scanner → Exec (Bool × Scanner)

/-- Reading one rune: the call moves over the first rune if that is accepted, and
otherwise reports failure and does nothing. -/
def OverOne (f : Call) (q : Int → Prop) (s : Scanner) : Prop := ∀ h t, Between s h t →
  (∀ r p t', Step t r p → t = p ++ t' → q r → ∃ s', f s = .ret (true, s') ∧ Reaches s s' (h ++ p) t') ∧
  ((∀ r p, Step t r p → ¬ q r) → f s = .ret (false, s))

/-- Searching: the call moves to the first accepted rune, and reports failure and
does nothing if there is none. -/
def ToFirst (f : Call) (q : Int → Prop) (s : Scanner) : Prop := ∀ h t ps, Between s h t → Pieces t ps →
  (∀ pre x post, ps = pre ++ x :: post → (∀ y ∈ pre, ¬ q y.2) → q x.2 →
    ∃ s', f s = .ret (true, s') ∧ Reaches s s' (h ++ bytesOf pre) (bytesOf (x :: post))) ∧
  ((∀ x ∈ ps, ¬ q x.2) → f s = .ret (false, s))

/-- `pre` is the longest run of accepted runes at the front of `ps`. -/
def Run (q : Int → Prop) (pre post : List (Bytes × Int)) : Prop :=
  (∀ x ∈ pre, q x.2) ∧ ∀ x l, post = x :: l → ¬ q x.2

/-- Skipping: the call moves over the longest run of accepted runes. -/
def OverRun (f : Call) (q : Int → Prop) (s : Scanner) : Prop := ∀ h t pre post, Between s h t →
  Pieces t (pre ++ post) → Run q pre post →
  ∃ b s', f s = .ret (b, s') ∧ Reaches s s' (h ++ bytesOf pre) (bytesOf post)

/-- The boolean of a call tells whether the scanner moved. -/
def TellsMoved (f : Call) (s : Scanner) : Prop := ∀ b s', f s = .ret (b, s') → (b = true ↔ s'.pos ≠ s.pos)

/-! ### backward -/

/-- One reading step at the end of a text: `BackStep s r p` reads "the last rune of
`s` is `r` and occupies `p`". -/
inductive BackStep : Bytes → Int → Bytes → Prop
  | char (c : Char) (t : Bytes) : BackStep (t ++ enc c) (c.toNat : Int) (enc c)
  | bad (b : UInt8) (t : Bytes) (h : ∀ c, ¬ enc c <:+ (t ++ [b])) : BackStep (t ++ [b]) 0xFFFD [b]

/-- The division of a text into runes, from back to front: the last rune comes
first in the list. -/
inductive BackPieces : Bytes → List (Bytes × Int) → Prop
  | nil : BackPieces [] []
  | cons {s p t : Bytes} {r : Int} {ps : List (Bytes × Int)}
      (hs : BackStep s r p) (he : s = t ++ p) (ht : BackPieces t ps) : BackPieces s ((p, r) :: ps)

/-- The bytes occupied by pieces listed from back to front. -/
def bytesOfBack (ps : List (Bytes × Int)) : Bytes := bytesOf ps.reverse

/-- Mirror image of `OverOne`. -/
def BackOverOne (f : Call) (q : Int → Prop) (s : Scanner) : Prop := ∀ h t, Between s h t →
  (∀ r p h', BackStep h r p → h = h' ++ p → q r → ∃ s', f s = .ret (true, s') ∧ Reaches s s' h' (p ++ t)) ∧
  ((∀ r p, BackStep h r p → ¬ q r) → f s = .ret (false, s))

/-- Mirror image of `ToFirst`: the call moves back until just behind the last
accepted rune. -/
def BackToLast (f : Call) (q : Int → Prop) (s : Scanner) : Prop := ∀ h t ps, Between s h t → BackPieces h ps →
  (∀ pre x post, ps = pre ++ x :: post → (∀ y ∈ pre, ¬ q y.2) → q x.2 →
    ∃ s', f s = .ret (true, s') ∧ Reaches s s' (bytesOfBack (x :: post)) (bytesOfBack pre ++ t)) ∧
  ((∀ x ∈ ps, ¬ q x.2) → f s = .ret (false, s))

/-- Mirror image of `OverRun`. -/
def BackOverRun (f : Call) (q : Int → Prop) (s : Scanner) : Prop := ∀ h t pre post, Between s h t →
  BackPieces h (pre ++ post) → Run q pre post →
  ∃ b s', f s = .ret (b, s') ∧ Reaches s s' (bytesOfBack post) (bytesOfBack pre ++ t)

end Tok.Spec
