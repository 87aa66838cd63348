/-
Comments in texts of Lua (manual, section 3.1).  Comments are given as text in UTF-8.
-/
import Verif.Spec.LuaGrammar
import Verif.Spec.Lua

namespace Tok.Spec

/-- White space and comments.  A comment of one line ends at the line break; a comment at the end of the text without a line break is left out here. -/
inductive LuaGap : Bytes → Prop
  | nil : LuaGap []
  | white {b : UInt8} {g : Bytes} : b = 32 ∨ b = 9 ∨ b = 10 ∨ b = 13 → LuaGap g → LuaGap (b :: g)
  | line {cs : List Char} {b : UInt8} {g : Bytes} : (∀ k, ¬ luaOpen k <+: cs) → '\n' ∉ cs → '\r' ∉ cs → b = 10 ∨ b = 13 → LuaGap g → LuaGap (b!"--" ++ encText cs ++ b :: g)
  | long {k : Nat} {cs : List Char} {g : Bytes} : FirstClose k cs → LuaGap g → LuaGap (b!"--" ++ encText (luaOpen k ++ cs ++ luaClose k) ++ g)

/-- The same with the comments that the package takes for what they are (C53): a line ends with a line feed, and in a long comment of level 1 or more is no `]` with too many
equal signs. -/
inductive PlainGap : Bytes → Prop
  | nil : PlainGap []
  | white {b : UInt8} {g : Bytes} : b = 32 ∨ b = 9 ∨ b = 10 ∨ b = 13 → PlainGap g → PlainGap (b :: g)
  | line {cs : List Char} {e g : Bytes} : (∀ k, ¬ luaOpen k <+: cs) → '\n' ∉ cs → '\r' ∉ cs → e = [10] ∨ e = [13, 10] → PlainGap g → PlainGap (b!"--" ++ encText cs ++ (e ++ g))
  | zero {cs : List Char} {g : Bytes} : FirstClose 0 cs → PlainGap g → PlainGap (b!"--" ++ encText (luaOpen 0 ++ cs ++ luaClose 0) ++ g)
  | level {k : Nat} {cs : List Char} {g : Bytes} : NoHalf k cs → PlainGap g → PlainGap (b!"--" ++ encText (luaOpen k ++ cs ++ luaClose k) ++ g)

/-- The text is made of these tokens; behind each of them is something that `N` allows behind it, and what comes there does not join the token. -/
inductive Noted (N : Bytes → Bytes → Prop) : List Bytes → Bytes → Prop
  | nil : Noted N [] []
  | cons {k w x : Bytes} {ks : List Bytes} : LuaToken k → N k w → (∀ b y, w ++ x = b :: y → ¬ Joins k b) → Noted N ks x → Noted N (k :: ks) (k ++ (w ++ x))

def luaOpeners : List Bytes := [b!"(", b!")", b!"{", b!"}", b!"[", b!"]", b!"do", b!"then", b!"else", b!"repeat", b!"not", b!"#"]

/-- The tokens behind which comments may be wherever they stand: brackets, the words in front of blocks, two unary operators, and names with a dot or a colon in front of them
without space. -/
def luaOpener (k : Bytes) : Bool :=
  luaOpeners.contains k || match k with
    | 46 :: b :: _ => b != 46
    | 58 :: b :: _ => b != 58
    | _ => false

/-- White space behind every token, comments behind some. -/
def OpenGap (k w : Bytes) : Prop := White w ∨ luaOpener k = true ∧ PlainGap w

/-- The text is a Lua chunk with white space and comments. -/
def LuaSource (x : Bytes) : Prop := ∃ w ks y, x = w ++ y ∧ LuaGap w ∧ Lua54 .block ks ∧ Noted (fun _ => LuaGap) ks y

end Tok.Spec
