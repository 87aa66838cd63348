/-
C100 Grammars can be put together.
-/
import Verif.Proofs.Renumber
import Verif.Props.C48
import Verif.Model.Grammars

namespace Tok

open Spec Renumber

/-- `K` is a set of rules that refer to each other only.  If a grammar has these rules, too, at whatever numbers and among whatever
others, a reader that uses them does exactly the same there, and is shown by the same text: same errors, same position, same memory, the
same number of steps, on every text. -/
theorem C100_renumber (rt : Rt) (G G' : Env) (f : Nat → Nat) (K : Nat → Prop) (hG : ∀ i, K i → G'[f i]? = G[i]?.map (Rule.renum f))
    (hK : ∀ i nm c, K i → G[i]? = some ⟨nm, some c⟩ → c.Every (Reader.within K)) (r : Reader) (hr : r.Every (Reader.within K)) :
    (∀ n s, read rt G' n (Reader.renum f r) s = read rt G n r s) ∧ (Reader.renum f r).what rt G' = r.what rt G :=
  ⟨fun n s => congrFun (read_renum hG hK n r hr) s, what_renum hG r hr⟩

/-- The grammar at other numbers, in the middle of another one. -/
def Spec.Env.inside (A G B : Env) : Env := A ++ G.map (Rule.renum (· + A.length)) ++ B

/-- A grammar that is part of a larger one reads as it does alone. -/
theorem C100_inside (rt : Rt) (A G B : Env) (hG : G.Every (Reader.within (· < G.length))) (r : Reader) (hr : r.Every (Reader.within (· < G.length))) :
    (∀ n s, read rt (Spec.Env.inside A G B) n (Reader.renum (· + A.length) r) s = read rt G n r s) ∧
      (Reader.renum (· + A.length) r).what rt (Spec.Env.inside A G B) = r.what rt G := by
  refine C100_renumber rt G _ (· + A.length) (· < G.length) (fun i hi => ?_) (fun i nm c _ h => hG.get h) r hr
  unfold Spec.Env.inside
  rw [List.append_assoc, List.getElem?_append_right (by omega), Nat.add_sub_cancel, List.getElem?_append_left (by simpa using hi), List.getElem?_map]

/-- With the identity, rules may be added behind a grammar. -/
theorem C100_behind (rt : Rt) (G B : Env) (hG : G.Every (Reader.within (· < G.length))) (r : Reader) (hr : r.Every (Reader.within (· < G.length))) (n : Nat) (s : Scanner) :
    read rt (G ++ B) n r s = read rt G n r s := by
  have hid : ∀ r : Reader, Reader.renum (fun i => i) r = r := renum_id
  have := (C100_renumber rt G (G ++ B) (fun i => i) (· < G.length) (fun i hi => by
    rw [List.getElem?_append_left hi]
    cases G[i]? with
    | none => rfl
    | some rl => obtain ⟨nm, _ | c⟩ := rl <;> simp [Rule.renum, hid]) (fun i nm c _ h => hG.get h) r hr).1 n s
  rwa [hid] at this

/-- A rule that cannot be reached from a reader can be anything: the rules of two grammars need only agree in a set `K` of rules that
contains those the reader names and is closed under references. -/
theorem C100_reachable (rt : Rt) (G G' : Env) (K : Nat → Prop) (h : ∀ i, K i → G'[i]? = G[i]?)
    (hK : ∀ i nm c, K i → G[i]? = some ⟨nm, some c⟩ → c.Every (Reader.within K)) (r : Reader) (hr : r.Every (Reader.within K)) (n : Nat) (s : Scanner) :
    read rt G' n r s = read rt G n r s := by
  have hid : ∀ r : Reader, Reader.renum (fun i => i) r = r := renum_id
  have := (C100_renumber rt G G' (fun i => i) K (fun i hi => by
    rw [h i hi]
    cases G[i]? with
    | none => rfl
    | some rl => obtain ⟨nm, _ | c⟩ := rl <;> simp [Rule.renum, hid]) hK r hr).1 n s
  rwa [hid] at this

def Reader.belowB (k : Nat) : Reader → Bool
  | .rule i => decide (i < k)
  | _ => true

theorem Reader.belowB_within {k : Nat} (r : Reader) (h : r.belowB k = true) : Reader.within (· < k) r := by
  cases r <;> first | exact trivial | exact (of_decide_eq_true h : _ < k)

/-- The three shipped grammars and their readers are closed, so each of them can be a part of another grammar. -/
theorem C100_shipped : (Json.env.Every (Reader.within (· < Json.env.length)) ∧ Json.reader.Every (Reader.within (· < Json.env.length))) ∧
    (Mxt.env.Every (Reader.within (· < Mxt.env.length)) ∧ Mxt.reader.Every (Reader.within (· < Mxt.env.length))) ∧
    Lua.env.Every (Reader.within (· < Lua.env.length)) ∧ Lua.reader.Every (Reader.within (· < Lua.env.length)) :=
  ⟨⟨(Env.everyB_sound (by decide)).imp Reader.belowB_within, (Reader.everyB_sound _ _ (by decide)).imp Reader.belowB_within⟩,
    ⟨(Env.everyB_sound (by decide)).imp Reader.belowB_within, (Reader.everyB_sound _ _ (by decide)).imp Reader.belowB_within⟩,
    (Env.everyB_sound (by decide +kernel)).imp Reader.belowB_within, (Reader.everyB_sound _ _ (by decide)).imp Reader.belowB_within⟩

/-- So all that is proved about the JSON reader holds inside of any grammar. -/
theorem C100_json (rt : Rt) (A B : Env) (n : Nat) (s : Scanner) :
    read rt (Spec.Env.inside A Json.env B) n (Reader.renum (· + A.length) Json.reader) s = read rt Json.env n Json.reader s :=
  (C100_inside rt A Json.env B C100_shipped.1.1 Json.reader C100_shipped.1.2).1 n s

/-- For example: wherever the host grammar uses the JSON reader, every JSON document that is all the text ahead is read to its end. -/
theorem C100_json_complete (rt : Rt) (A B : Env) (s : Scanner) (h : Bytes) (cs : List Char) (hb : Between s h (encText cs)) (hd : JsonDoc cs) :
    ∃ n s', (∀ m, n ≤ m → read rt (Spec.Env.inside A Json.env B) m (Reader.renum (· + A.length) Json.reader) s = .ret (none, s')) ∧ Between s' (h ++ encText cs) [] := by
  obtain ⟨n, s', h1, h2⟩ := C48_complete rt s h cs hb hd
  exact ⟨n, s', fun m hm => by rw [C100_json]; exact h1 m hm, h2⟩

theorem C100_mxt (rt : Rt) (A B : Env) (n : Nat) (s : Scanner) :
    read rt (Spec.Env.inside A Mxt.env B) n (Reader.renum (· + A.length) Mxt.reader) s = read rt Mxt.env n Mxt.reader s :=
  (C100_inside rt A Mxt.env B C100_shipped.2.1.1 Mxt.reader C100_shipped.2.1.2).1 n s

theorem C100_lua (rt : Rt) (A B : Env) (n : Nat) (s : Scanner) :
    read rt (Spec.Env.inside A Lua.env B) n (Reader.renum (· + A.length) Lua.reader) s = read rt Lua.env n Lua.reader s :=
  (C100_inside rt A Lua.env B C100_shipped.2.2.1 Lua.reader C100_shipped.2.2.2).1 n s

/-- A grammar of settings with JSON values, the values being read by the rules of the JSON grammar: `x=[1]`. -/
def exHost : Env := [⟨b!"setting", some (.seq [.rule 1, .lit b!"=", Reader.renum (· + 2) Json.reader])⟩, ⟨b!"key", some (.many (.between 97 122))⟩]

example (rt : Rt) : ∃ s', read rt (Spec.Env.inside exHost Json.env []) 60 (.rule 0) (Scanner.new b!"x=[1]" Heap.empty) = .ret (none, s') ∧ s'.pos = 5 := ⟨_, rfl, rfl⟩

/-- If the rules refer to others it is not the same: rule 0 is an empty pointer in the first grammar and a rule in the second. -/
example (rt : Rt) : ∃ s', read rt [⟨b!"a", some (.rule 1)⟩] 9 (.rule 0) (Scanner.new b!"x" Heap.empty) = .panic ∧
    read rt ([⟨b!"a", some (.rule 1)⟩] ++ [⟨b!"b", some (.rune 120)⟩]) 9 (.rule 0) (Scanner.new b!"x" Heap.empty) = .ret (none, s') := ⟨_, rfl, rfl⟩

end Tok
