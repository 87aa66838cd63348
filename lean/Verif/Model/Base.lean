/-
Base notions of the model of aiq/tok: Go strings as byte lists, runes, and the
three ways a Go call can end (return, run-time panic, or still running when the
step budget is used up).
-/
import Lean.Elab.Term

namespace Tok

/-- A Go `string` (and a Go `[]byte`) is a finite sequence of bytes. -/
macro "Bytes" : term => `(List UInt8)

/-- A Go `rune` is an `int32`.  The code only compares runes and subtracts
constants inside checked ranges, so the 32-bit bound is not modelled. -/
macro "Rune" : term => `(Int)

/-- `b!"abc"` is the byte list of the UTF-8 text `abc`, expanded when the file is
elaborated, so that the kernel sees explicit bytes. -/
macro:max "b!" s:str : term => do
  let bytes := s.getString.toUTF8.toList
  let elems ← bytes.toArray.mapM fun b => do
    let n := Lean.Syntax.mkNumLit (toString b.toNat)
    `(($n : UInt8))
  `(([$elems,*] : Bytes))

/-- How a modelled Go call ends: it returns a value, it panics (slice bounds,
nil dereference), or it had not returned when the step budget ran out. -/
inductive Exec (α : Type) where
  | ret (a : α)
  | panic
  | timeout
  deriving Repr, DecidableEq

namespace Exec

/-- Sequencing of Go statements: a panic or an exhausted budget ends everything. -/
@[inline] def bind {α β : Type} (x : Exec α) (f : α → Exec β) : Exec β :=
  match x with
  | .ret a => f a
  | .panic => .panic
  | .timeout => .timeout

instance : Monad Exec where
  pure := .ret
  bind := Exec.bind

@[simp] theorem bind_ret {α β : Type} (a : α) (f : α → Exec β) :
    (Exec.ret a >>= f) = f a := rfl
@[simp] theorem bind_panic {α β : Type} (f : α → Exec β) :
    (Exec.panic >>= f) = Exec.panic := rfl
@[simp] theorem bind_timeout {α β : Type} (f : α → Exec β) :
    (Exec.timeout >>= f) = Exec.timeout := rfl
@[simp] theorem pure_eq {α : Type} (a : α) : (pure a : Exec α) = Exec.ret a := rfl

theorem bind_eq_ret {α β : Type} {x : Exec α} {f : α → Exec β} {b : β} :
    (x >>= f) = Exec.ret b ↔ ∃ a, x = Exec.ret a ∧ f a = Exec.ret b := by
  cases x <;> simp

end Exec

/-- Decimal digits of a natural number (`strconv.Itoa`, `%d`). -/
def natDigits (n : Nat) : Bytes :=
  (Nat.toDigits 10 n).map (fun c => UInt8.ofNat c.toNat)

/-- Decimal text of an integer (`%d`). -/
def itoa : Int → Bytes
  | .ofNat n => natDigits n
  | .negSucc n => b!"-" ++ natDigits (n + 1)

end Tok
