/-
A place in a text.
-/
import Verif.Model.Base

namespace Tok

/-- The text ahead and the strings of the Janus readers. -/
structure St where
  rest : Bytes
  jan : Nat → Bytes

end Tok
