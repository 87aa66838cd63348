/-
Writing an MXT document.
-/
import Verif.Spec.Mxt

namespace Tok.Spec
open Mxt

/-- The chunk of one file: `//salt name --> salt`, a line break and the content. -/
def mxtFile (salt name content : List Char) : List Char :=
  "//".toList ++ salt ++ " ".toList ++ name ++ " --> ".toList ++ salt ++ "\n".toList ++ content

/-- The document with these files, a name and a content each. -/
def mxtWrite (salt : List Char) : List (List Char × List Char) → List Char
  | [] => []
  | [f] => mxtFile salt f.1 f.2
  | f :: g :: fs => mxtFile salt f.1 f.2 ++ "\r\n".toList ++ mxtWrite salt (g :: fs)

/-- The salt `k` keeps the files apart: no line of a content begins with two slashes and the salt. -/
structure MxtFits (k : List Char) (fs : List (List Char × List Char)) : Prop where
  salt : Words k
  salt_ne : k ≠ []
  names : ∀ f ∈ fs, Words f.1 ∧ f.1 ≠ []
  apart : ∀ f ∈ fs, ¬ ("\n//".toList ++ k) <:+: '\n' :: f.2

end Tok.Spec
