/-
MXT files with other names and contents.
-/
import Verif.Spec.MxtBytes
import Verif.Model.Demo

namespace Tok.Spec

/-- The MXT grammar with `Pick` (grammar.go:112-114) called for the rules `name` and `content`, with the same basket. -/
def mxtEditEnv : Env := Env.pickSome [Mxt.iName, Mxt.iContent] 0 0 Mxt.env

/-- The chunk with another name and another content. -/
def MxtPart.edit (f : Bytes → Bytes → Bytes) (c : MxtPart) : MxtPart :=
  { c with name := f b!"name" c.name, body := c.body.map fun b => (b.1, f b!"content" b.2) }

/-- The same for the chunks behind it. -/
def editParts (f : Bytes → Bytes → Bytes) (cs : List (Bool × MxtPart)) : List (Bool × MxtPart) := cs.map fun c => (c.1, c.2.edit f)

end Tok.Spec
