/-
Parsing expression grammars (B. Ford, POPL 2004) over an arbitrary alphabet, with one more
operator for the body readers.
-/
import Verif.Spec.Text

namespace Tok.Spec

/-- Parsing expressions. -/
inductive PExp (α : Type) where
  | eps
  | chr (p : α → Bool)
  | nt (i : Nat)
  | seq (a b : PExp α)
  | alt (a b : PExp α)
  | star (a : PExp α)
  | neg (a : PExp α)
  /-- Look for the first place, before the end, where `t` matches; everything before it,
  with `w` in front, has to be matched by `b` completely.  Go behind the match of `t` if
  `keep` is set. -/
  | find (b t : PExp α) (keep : Bool) (w : List α)

/-- `Peg P e xs (some ys)`: `e` matches at the front of `xs` and `ys` is left.
`Peg P e xs none`: `e` does not match.  `P` gives the expression of each nonterminal.
Nothing is derivable where matching would go on forever. -/
inductive Peg {α : Type} (P : Nat → Option (PExp α)) : PExp α → List α → Option (List α) → Prop
  | eps {xs} : Peg P .eps xs (some xs)
  | chr {p x xs} (h : p x = true) : Peg P (.chr p) (x :: xs) (some xs)
  | chrNo {p x xs} (h : p x = false) : Peg P (.chr p) (x :: xs) none
  | chrEnd {p} : Peg P (.chr p) [] none
  | nt {i e xs r} (h : P i = some e) (h1 : Peg P e xs r) : Peg P (.nt i) xs r
  | seq {a b xs ys r} (h1 : Peg P a xs (some ys)) (h2 : Peg P b ys r) : Peg P (.seq a b) xs r
  | seqNo {a b xs} (h1 : Peg P a xs none) : Peg P (.seq a b) xs none
  | alt {a b xs ys} (h1 : Peg P a xs (some ys)) : Peg P (.alt a b) xs (some ys)
  | altNo {a b xs r} (h1 : Peg P a xs none) (h2 : Peg P b xs r) : Peg P (.alt a b) xs r
  | star {a xs ys r} (h1 : Peg P a xs (some ys)) (h2 : Peg P (.star a) ys r) : Peg P (.star a) xs r
  | starEnd {a xs} (h1 : Peg P a xs none) : Peg P (.star a) xs (some xs)
  | neg {a xs} (h1 : Peg P a xs none) : Peg P (.neg a) xs (some xs)
  | negNo {a xs ys} (h1 : Peg P a xs (some ys)) : Peg P (.neg a) xs none
  | findEnd {b t keep w} : Peg P (.find b t keep w) [] none
  | find {b t keep w x xs ys} (h1 : Peg P t (x :: xs) (some ys)) (h2 : Peg P b w (some [])) :
      Peg P (.find b t keep w) (x :: xs) (some (if keep then ys else x :: xs))
  | findNo {b t keep w x xs ys r} (h1 : Peg P t (x :: xs) (some ys)) (h2 : Peg P b w r) (h : r ≠ some []) :
      Peg P (.find b t keep w) (x :: xs) none
  | findNext {b t keep w x xs r} (h1 : Peg P t (x :: xs) none) (h2 : Peg P (.find b t keep (w ++ [x])) xs r) :
      Peg P (.find b t keep w) (x :: xs) r

namespace PExp
variable {α : Type}

/-- Any symbol. -/
def dot : PExp α := .chr (fun _ => true)
/-- No match. -/
def fail : PExp α := .neg .eps
/-- Match without going on. -/
def amp (a : PExp α) : PExp α := .neg (.neg a)
/-- One after the other, `k` times. -/
def times (a : PExp α) : Nat → PExp α
  | 0 => .eps
  | k + 1 => .seq a (times a k)
/-- The first of a list that matches. -/
def choice : List (PExp α) → PExp α
  | [] => fail
  | a :: as => .alt a (choice as)
/-- One after the other. -/
def chain : List (PExp α) → PExp α
  | [] => .eps
  | a :: as => .seq a (chain as)

end PExp
end Tok.Spec
