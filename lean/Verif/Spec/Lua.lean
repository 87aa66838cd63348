/-
Long brackets of Lua (manual, section 3.1).
-/
import Verif.Spec.Text

namespace Tok.Spec

/-- `[`, the level as equal signs, `[`. -/
def luaOpen (k : Nat) : List Char := '[' :: (List.replicate k '=' ++ ['['])

/-- `]`, the level as equal signs, `]`. -/
def luaClose (k : Nat) : List Char := ']' :: (List.replicate k '=' ++ [']'])

/-- The closing bracket behind `cs` is the first one of its level. -/
def FirstClose (k : Nat) (cs : List Char) : Prop :=
  ∀ pre post, cs ++ luaClose k = pre ++ luaClose k ++ post → post = []

/-- Nowhere in `cs` begins a `]` with at least as many equal signs as the level. -/
def NoHalf (k : Nat) (cs : List Char) : Prop :=
  ∀ pre post, cs ++ luaClose k = pre ++ (']' :: List.replicate k '=') ++ post → pre = cs

end Tok.Spec
