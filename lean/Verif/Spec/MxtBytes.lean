/-
MXT files as the searches of the grammar see them.  A file need not be UTF-8; a search passes
characters one by one, and a byte that begins no character together with the two bytes behind it.
-/
import Verif.Spec.Match

namespace Tok.Spec

/-- From `t` a search for `P` comes to `u`, the first of its stops at which `P` holds. -/
inductive Finds (P : Bytes → Prop) : Bytes → Bytes → Prop
  | here {t : Bytes} : P t → Finds P t t
  | hop {t u v : Bytes} : ¬ P t → Hop t u → Finds P u v → Finds P t v

/-- A search for `P` that starts at `t` finds nothing and makes no further step from `e`. -/
inductive Misses (P : Bytes → Prop) : Bytes → Bytes → Prop
  | stop {t : Bytes} : ¬ P t → (¬ ∃ u, Hop t u) → Misses P t t
  | hop {t u e : Bytes} : ¬ P t → Hop t u → Misses P u e → Misses P t e

/-- A chunk, see `MxtChunk`. -/
structure MxtPart where
  mark : Bytes
  gap : Nat
  name : Bytes
  note : Bytes
  pre : Nat
  salt : Bytes
  post : Nat
  body : Option (Bool × Bytes)

namespace MxtB

def nl (crlf : Bool) : Bytes := if crlf then b!"\r\n" else b!"\n"

def spaces (n : Nat) : Bytes := List.replicate n 32

/-- Words are made of bytes from `!` on, whether they make up characters or not. -/
def Words (x : Bytes) : Prop := ∀ b ∈ x, 0x21 ≤ b.toNat

def Arrow (u : Bytes) : Prop := b!"-->" <+: u

/-- The marker of the next chunk, for the salt `x`. -/
def Next (x u : Bytes) : Prop := ∃ l v, u = nl l ++ (b!"//" ++ (x ++ v))

/-- The end of a chunk. -/
def Close (x u : Bytes) : Prop := u = [] ∨ Next x u

end MxtB
open MxtB

def MxtPart.lead (c : MxtPart) : Bytes := b!"//" ++ (c.mark ++ spaces (c.gap + 1))

def MxtPart.saltText (c : MxtPart) : Bytes := if c.salt = [] then spaces c.pre else spaces (c.pre + 1) ++ (c.salt ++ spaces c.post)

def MxtPart.headText (c : MxtPart) : Bytes := c.lead ++ (c.name ++ (c.note ++ (b!"-->" ++ c.saltText)))

def MxtPart.bodyText (c : MxtPart) : Bytes :=
  match c.body with
  | none => []
  | some (l, cs) => nl l ++ cs

def MxtPart.text (c : MxtPart) : Bytes := c.headText ++ c.bodyText

/-- The header of `c` may stand in front of `u`. -/
structure MxtPart.HeadAt (c : MxtPart) (u : Bytes) : Prop where
  mark : Words c.mark
  name : Words c.name
  salt : Words c.salt
  name_ne : c.name ≠ []
  note_head : ∃ d ds, c.note = d :: ds ∧ d.toNat < 0x21
  /-- A search from the name on finds this arrow. -/
  first : Finds Arrow (c.note ++ (b!"-->" ++ (c.saltText ++ u))) (b!"-->" ++ (c.saltText ++ u))

/-- The chunk `c` stands in front of `u`. -/
structure MxtPart.StandsAt (c : MxtPart) (u : Bytes) : Prop where
  head : c.HeadAt (c.bodyText ++ u)
  close : Close c.salt u
  /-- A search from the line below the header on finds this end, and the content does not end above that line. -/
  content : ∀ l cs, c.body = some (l, cs) → ¬ Next c.salt (nl l ++ (cs ++ u)) ∧ Finds (Close c.salt) (cs ++ u) u

def partsText : List (Bool × MxtPart) → Bytes
  | [] => []
  | (l, c) :: cs => nl l ++ (c.text ++ partsText cs)

/-- The chunks stand in front of `rest`. -/
def PartsAt : MxtPart → List (Bool × MxtPart) → Bytes → Prop
  | c, [], rest => c.StandsAt rest
  | c, (l, d) :: cs, rest => c.StandsAt (nl l ++ (d.text ++ (partsText cs ++ rest))) ∧ PartsAt d cs rest

/-- A chunk stands here. -/
def PartHere (q : Bytes) : Prop := ∃ (c : MxtPart) (u : Bytes), q = c.text ++ u ∧ c.StandsAt u

/-- A marker, spaces and the name stand here, in front of `u`. -/
structure NameHere (q mark : Bytes) (gap : Nat) (name u : Bytes) : Prop where
  text : q = b!"//" ++ (mark ++ (spaces (gap + 1) ++ (name ++ u)))
  markW : Words mark
  nameW : Words name
  name_ne : name ≠ []
  stop : ∀ b v, u = b :: v → b.toNat < 0x21

/-- A name stands here, and the search for the arrow behind it neither finds one nor comes to the end of the text. -/
def StuckHere (q : Bytes) : Prop := ∃ mark gap name u e, NameHere q mark gap name u ∧ Misses Arrow u e ∧ e ≠ []

/-- What the map functions are given, see `MxtChunk.yields`. -/
def MxtPart.yields (c : MxtPart) : List (Nat × Bytes) := [(0, c.name), match c.body with | none => (1, []) | some (_, cs) => (2, cs)]

def partsYield (c : MxtPart) (cs : List (Bool × MxtPart)) : List (Nat × Bytes) := c.yields ++ cs.flatMap fun d => d.2.yields

/-- No further chunk follows. -/
def PartsOver (rest : Bytes) : Prop := rest = [] ∨ ∃ l q, rest = nl l ++ q ∧ ¬ PartHere q

/-- The name of a chunk that cannot be read, if there is one in the line below. -/
def HalfPart (rest : Bytes) (names : List Bytes) : Prop :=
  (names = [] ∧ ∀ l q mark gap name u, rest = nl l ++ q → ¬ NameHere q mark gap name u) ∨
  ∃ l q mark gap name u, rest = nl l ++ q ∧ NameHere q mark gap name u ∧ names = [name]

/-- A name at the beginning, or below a number of chunks, behind which the search for the arrow does not come to an end. -/
def MxtHangs (t : Bytes) : Prop := StuckHere t ∨ ∃ c cs l q, t = c.text ++ (partsText cs ++ (nl l ++ q)) ∧ PartsAt c cs (nl l ++ q) ∧ StuckHere q

end Tok.Spec
