/-
Model of the parts of /repo/grammar.go, /repo/tracker.go and /repo/monitor.go that look at the
fields of a grammar struct by reflection, and of the calls that wrap the rules of such a struct.

A grammar is a pointer to a struct (a `Grammar` that is not a pointer makes `Elem` panic and is not
represented).  A field has a name, the flag that `reflect` keeps for unexported fields, the value that
`Tag.Get("name")` returns, and its value if its type is `Rule`.  Fields of other types — also
pointers to rules and embedded structs with rules — are all alike here: none of the functions looks into them.
-/
import Verif.Model.Grammars

namespace Tok

/-- The value of a field: of type `Rule`, or of another type. -/
inductive FieldVal where
  | rule (r : Rule)
  | other

structure Field where
  name : Bytes
  exported : Bool
  tag : Bytes
  val : FieldVal

abbrev Struct := List Field

/-- grammar.go:59-71 `CollectRules`; a pointer to a field is the index of the field.  `Interface`
panics for a value that was obtained from an unexported field, whatever its type. -/
def collectRules : Struct → Nat → Exec (List Nat)
  | [], _ => .ret []
  | f :: fs, i =>
    if f.exported then do
      let ps ← collectRules fs (i + 1)
      match f.val with
      | .rule _ => pure (i :: ps)
      | .other => pure ps
    else .panic

/-- grammar.go:28-48 `SetRuleNames`.  `Set` panics for a value that was obtained from an
unexported field. -/
def setStructNames (rt : Rt) (fuel : Nat) : Struct → Exec (Option Err × Struct)
  | [] => .ret (none, [])
  | f :: fs =>
    match f.val with
    | .other => do
      let (e, fs') ← setStructNames rt fuel fs
      pure (e, f :: fs')
    | .rule r =>
      if f.tag == [] then do
        let (e, fs') ← setStructNames rt fuel fs
        pure (e, f :: fs')
      else do
        let e ← checkRuleName rt fuel f.tag
        match e with
        | some e => pure (some (.other (b!"invalid name for " ++ f.name ++ b!": " ++ e.text)), f :: fs)
        | none =>
          if f.exported then do
            let (e, fs') ← setStructNames rt fuel fs
            pure (e, { f with val := .rule { r with name := f.tag } } :: fs')
          else .panic

/-- A nil `Reader` inside a wrapper: reading it panics.  (`What` of a nil reader panics too; here it
is the empty text.) -/
def nilReader : Reader := .wrap [] fun _ => .panic

/-- grammar.go:112-114 `Rule.Pick`, also for a rule without a reader. -/
def Rule.pickAt (basket : Nat) (r : Rule) : Rule :=
  { r with reader := some (.pick r.name basket (r.reader.getD nilReader)) }

/-- grammar.go:107-109 `Rule.Monitor`, also for a rule without a reader. -/
def Rule.monitorAt (log : Nat) (r : Rule) : Rule :=
  { r with reader := some (.monitor r.name log (r.reader.getD nilReader)) }

/-- A write to the rule in a field. -/
def Field.write (f : Rule → Rule) (x : Field) : Field :=
  match x.val with
  | .rule r => { x with val := .rule (f r) }
  | .other => x

/-- A write through the pointer to the rule in field `i`. -/
def writeRule (f : Rule → Rule) : Struct → Nat → Struct
  | [], _ => []
  | x :: fs, 0 => x.write f :: fs
  | x :: fs, i + 1 => x :: writeRule f fs i

/-- A loop over pointers to rules (tracker.go:65-69, monitor.go:49-53). -/
def writeRules (f : Rule → Rule) (g : Struct) (ps : List Nat) : Struct := ps.foldl (writeRule f) g

/-- tracker.go:21-26 `NewBasketFor`, for a grammar whose `Grammar` method is
`CollectRules` (json.go:81-83, mxt.go:63-65, lua.go:232-234). -/
def newBasketFor (s : Scanner) (basket : Nat) (g : Struct) : Exec (Scanner × Struct) := do
  let ps ← collectRules g 0
  pure (s.newBasket basket, writeRules (Rule.pickAt basket) g ps)

/-- monitor.go:26-30 `MonitorGrammar`, likewise; a fresh log is an unused id. -/
def monitorStruct (log : Nat) (g : Struct) : Exec Struct := do
  let ps ← collectRules g 0
  pure (writeRules (Rule.monitorAt log) g ps)

/-- What the pointers point to. -/
def rulesAt (g : Struct) (ps : List Nat) : List Rule :=
  ps.filterMap fun i => match g[i]? with
    | some (Field.mk _ _ _ (.rule r)) => some r
    | _ => none

/-- The struct of a shipped grammar: its fields with their tags, and the rules. -/
def structOf (fields : List (Bytes × Bytes × Bytes)) (rules : List Rule) : Struct :=
  (fields.zip rules).map fun x => ⟨x.1.1, true, x.1.2.1, .rule x.2⟩

end Tok
