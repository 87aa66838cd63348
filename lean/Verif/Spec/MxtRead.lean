/-
Beginnings of MXT documents, for texts that are not or not wholly documents.
-/
import Verif.Spec.Mxt

namespace Tok.Spec
open Mxt

/-- The text of a chunk without its content. -/
def MxtChunk.header (c : MxtChunk) : List Char := slashes ++ (c.mark ++ (spaces (c.gap + 1) ++ (c.name ++ (c.note ++ (arrowText ++ c.saltText)))))

/-- The text begins with a header, followed by a line break or the end of the text. -/
def MxtStarts (q : List Char) : Prop := ∃ c : MxtChunk, c.Head ∧ ∃ u, q = c.header ++ u ∧ (u = [] ∨ ∃ l v, u = nl l ++ v)

/-- The text begins with a marker, spaces and the name. -/
def MxtNamed (q name : List Char) : Prop := ∃ mark gap u, q = slashes ++ (mark ++ (spaces (gap + 1) ++ (name ++ u))) ∧ Words mark ∧ Words name ∧ name ≠ [] ∧
  ∀ c v, u = c :: v → c.toNat < 0x21

/-- The last chunk of a document. -/
def mxtLast : MxtChunk → List (Bool × MxtChunk) → MxtChunk
  | c, [] => c
  | _, (_, d) :: cs => mxtLast d cs

/-- What may stand behind a document: nothing, or a line that looks like the marker of another chunk, but does not begin one. -/
def MxtTail (c : MxtChunk) (rest : List Char) : Prop :=
  rest = [] ∨ ∃ l u, rest = nl l ++ (slashes ++ (c.salt ++ u)) ∧ ¬ MxtStarts (slashes ++ (c.salt ++ u))

/-- The name in such a line. -/
def MxtHalf (rest : List Char) (names : List (List Char)) : Prop :=
  (names = [] ∧ ∀ l q name, rest = nl l ++ q → ¬ MxtNamed q name) ∨ ∃ l q name, rest = nl l ++ q ∧ MxtNamed q name ∧ names = [name]

end Tok.Spec
