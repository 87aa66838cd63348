/-
Model of the printing part of /repo/monitor.go.
-/
import Verif.Model.Grammars

namespace Tok

/-- monitor.go:17-19 `LogEntry.String`.  `strings.Repeat` panics on a negative count. -/
def LogEntry.string (e : LogEntry) : Exec Bytes :=
  if e.level < 0 then .panic
  else pure (itoa e.level ++ List.replicate e.level.toNat 46 ++ b!"@ " ++ itoa e.enterAt ++ b!" " ++ e.info)

/-- The loop of `Log.Print`: what is written to the standard output. -/
def printEntries : List LogEntry → Exec Bytes
  | [] => pure []
  | e :: es => do
    let line ← e.string
    let rest ← printEntries es
    pure (line ++ b!"\n" ++ rest)

/-- monitor.go:55-59 `Log.Print`. -/
def Log.print (l : Log) : Exec Bytes := printEntries l.entries

/-- The loop of `Log.PrintWithPreview`.  `quote` is `strconv.Quote`. -/
def previewEntries (quote : Bytes → Bytes) (str : Bytes) (n : Int) : List LogEntry → Exec Bytes
  | [] => pure []
  | e :: es => do
    let line ← e.string
    let rest ← previewEntries quote str n es
    pure (line ++ b!" > " ++ quote (Scanner.subStringFrom str e.enterAt n) ++ b!"\n" ++ rest)

/-- monitor.go:61-65 `Log.PrintWithPreview`. -/
def Log.printWithPreview (quote : Bytes → Bytes) (l : Log) (str : Bytes) (n : Int) : Exec Bytes :=
  previewEntries quote str n l.entries

/-- monitor.go:26-30 `MonitorGrammar`: a new log (an unused id) and the rules that write to it. -/
def monitorGrammar (G : Env) (h : Heap) (id : Nat) : Env × Heap :=
  (G.monitorAll id, { h with logs := upd h.logs id Log.empty })

end Tok
