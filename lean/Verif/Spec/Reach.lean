/-
The rules that are called when a reader reads a text.
-/
import Verif.Model.Demo

namespace Tok.Spec

/-- The environment with one rule whose `Reader` was never set (`nil` in Go, whose `Read` panics). -/
def _root_.Tok.Env.without (G : Env) (i : Nat) : Env := G.modify i fun rl => ⟨rl.name, none⟩

/-- The rule is called when the reader reads the text: without its reader the program panics. -/
def Called (rt : Rt) (fuel : Nat) (G : Env) (r : Reader) (i : Nat) (text : Bytes) : Prop :=
  read rt (G.without i) fuel r (Scanner.new text Heap.empty) = .panic

end Tok.Spec
