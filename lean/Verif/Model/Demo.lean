/-
Model of /repo/demo/json-stack/main.go and /repo/demo/full-lua-stack/main.go, from the contents of the file on.
-/
import Verif.Model.Grammars
import Verif.Model.Graph

namespace Tok

/-- The given rules of a grammar with `Pick(basket)` (one call `reader.X.Pick(basket)` for each). -/
def Env.pickSome (picked : List Nat) (basket : Nat) : Nat → Env → Env
  | _, [] => []
  | i, r :: rs => (if picked.contains i then r.pick basket else r) :: Env.pickSome picked basket (i + 1) rs

/-- The part of both programs after the scanner, the grammar and the basket were made (demo/json-stack/main.go:33-38,
demo/full-lua-stack/main.go:26-31): `none` if the program ends with `log.Fatalf`, else what it prints. -/
def printStack (rt : Rt) (fuel : Nat) (filename : Bytes) (G : Env) (grammar : Reader) (s : Scanner) : Exec (Option Bytes) := do
  let (err, s) ← s.use (read rt G fuel grammar)
  match err with
  | some _ => pure none
  | none => do
    let g ← Graph.build fuel filename (s.heap.baskets 0)
    pure (some g.flameStack)

/-- The rules of the JSON grammar as changed by demo/json-stack/main.go:26-32. -/
def Json.stackEnv : Env :=
  Env.pickSome [Json.iKey, Json.iObject, Json.iArray, Json.iString, Json.iNumber, Json.iBool, Json.iNull] 0 0 Json.env

/-- demo/json-stack/main.go:23-38 on a file with this name and contents. -/
def jsonStack (rt : Rt) (fuel : Nat) (filename text : Bytes) : Exec (Option Bytes) :=
  printStack rt fuel filename Json.stackEnv Json.reader ((Scanner.new text Heap.empty).newBasket 0)

/-- demo/full-lua-stack/main.go:23-31 on a file with this name and contents. -/
def luaStack (rt : Rt) (fuel : Nat) (filename text : Bytes) : Exec (Option Bytes) :=
  printStack rt fuel filename (Lua.env.pickAll 0) Lua.reader ((Scanner.new text Heap.empty).newBasket 0)

end Tok
