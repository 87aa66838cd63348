/-
Documents of the MXT format (https://mxt.aiq.dk/, the sample of grammar/mxt_test.go).
-/
import Verif.Spec.Text

namespace Tok.Spec

/-- A document is a list of chunks.  A chunk is

    //mark  name note--> salt
    content

where `note` is everything between the name and the arrow, line breaks included. -/
structure MxtChunk where
  mark : List Char
  /-- Spaces between marker and name, one more than this number. -/
  gap : Nat
  name : List Char
  note : List Char
  /-- Spaces behind the arrow, before the salt one more than this number. -/
  pre : Nat
  salt : List Char
  /-- Spaces behind the salt. -/
  post : Nat
  /-- The line break below the header and the content. -/
  body : Option (Bool × List Char)

namespace Mxt

/-- Line feed, or carriage return and line feed. -/
def nl (crlf : Bool) : List Char := if crlf then ['\r', '\n'] else ['\n']

def spaces (n : Nat) : List Char := List.replicate n ' '

/-- Words are made of characters from `!` on. -/
def Words (cs : List Char) : Prop := ∀ c ∈ cs, 0x21 ≤ c.toNat

def slashes : List Char := ['/', '/']
def arrowText : List Char := ['-', '-', '>']

end Mxt

open Mxt

def MxtChunk.saltText (c : MxtChunk) : List Char :=
  if c.salt = [] then spaces c.pre else spaces (c.pre + 1) ++ (c.salt ++ spaces c.post)

def MxtChunk.bodyText (c : MxtChunk) : List Char :=
  match c.body with
  | none => []
  | some (l, cs) => nl l ++ cs

def MxtChunk.text (c : MxtChunk) : List Char :=
  slashes ++ (c.mark ++ (spaces (c.gap + 1) ++ (c.name ++ (c.note ++ (arrowText ++ (c.saltText ++ c.bodyText))))))

/-- The header is well-formed. -/
structure MxtChunk.Head (c : MxtChunk) : Prop where
  mark : Words c.mark
  name : Words c.name
  salt : Words c.salt
  /-- There is a name. -/
  name_ne : c.name ≠ []
  /-- A character that cannot be part of it ends the name. -/
  note_head : ∃ d ds, c.note = d :: ds ∧ d.toNat < 0x21
  /-- The arrow is the first one. -/
  first : ∀ pre post, c.note ++ arrowText = pre ++ arrowText ++ post → post = []

/-- No line of the content starts with `//` and the salt `x`. -/
def MxtChunk.Clean (c : MxtChunk) (x : List Char) : Prop :=
  ∀ l cs, c.body = some (l, cs) → ∀ pre post, nl l ++ cs ≠ pre ++ ('\n' :: '/' :: '/' :: x) ++ post

/-- The chunk is well-formed. -/
structure MxtChunk.Ok (c : MxtChunk) : Prop extends c.Head where
  clean : c.Clean c.salt

/-- The next chunk may follow: its marker starts with the salt, and the content does not end with the
first half of the line break. -/
structure MxtChunk.Before (c : MxtChunk) (l : Bool) (d : MxtChunk) : Prop where
  salt : c.salt <+: d.mark
  break_ : ∀ l' cs, c.body = some (l', cs) → l = false → cs.getLast? ≠ some '\r'

/-- The chunks behind a chunk, each with the line break before it. -/
def mxtRest : List (Bool × MxtChunk) → List Char
  | [] => []
  | (l, c) :: cs => nl l ++ (c.text ++ mxtRest cs)

def MxtOk : MxtChunk → List (Bool × MxtChunk) → Prop
  | c, [] => c.Ok
  | c, (l, d) :: cs => c.Ok ∧ c.Before l d ∧ MxtOk d cs

/-- What the three map functions of names (0), empty contents (1) and contents (2) shall be given for a chunk. -/
def MxtChunk.yields (c : MxtChunk) : List (Nat × List Char) :=
  [(0, c.name), match c.body with | none => (1, []) | some (_, cs) => (2, cs)]

def mxtYields (c : MxtChunk) (cs : List (Bool × MxtChunk)) : List (Nat × List Char) :=
  c.yields ++ cs.flatMap fun d => d.2.yields

end Tok.Spec
