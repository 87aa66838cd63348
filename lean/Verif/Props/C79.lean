/-
C79 What a grammar has read before does not change what it reads.
-/
import Verif.Proofs.Memory
import Verif.Props.C35
import Verif.Props.C52
import Verif.Props.C54

namespace Tok
open Spec

/-- The scanner, with the Janus pairs of the grammar holding the strings `j`, as earlier reads may have left them. -/
def Scanner.remember (s : Scanner) (j : Nat → Bytes) : Scanner := { s with heap := { s.heap with janus := j } }

/-- The two runs are the same: both time out, both panic, or both return the same error and the same scanner with the same
baskets, logs, values and calls of map functions; only the strings that the Janus pairs hold at the end may differ. -/
def SameButMemory (x y : Exec (Option Err × Scanner)) : Prop :=
  (x = .timeout ↔ y = .timeout) ∧ (x = .panic ↔ y = .panic) ∧ ∀ e s, x = .ret (e, s) → ∃ j, y = .ret (e, s.remember j)

theorem Rem.eq {K : Nat → Prop} {s t : Scanner} (h : Rem K s t) : t = s.remember t.heap.janus := by
  obtain ⟨f, p, tr, ⟨b, k, j, l, m, c⟩⟩ := s
  obtain ⟨f', p', tr', ⟨b', k', j', l', m', c'⟩⟩ := t
  obtain ⟨h1, h2, h3, h4, h5, h6, h7, h8, h9⟩ := h
  cases h1; cases h2; cases h3; cases h4; cases h5; cases h6; cases h7; cases h8
  rfl

/-- For every grammar and reader without `Wrap`, every text, position and step budget: two reads with different memories that agree on the
Janus pairs whose second reader may come before the first are the same. -/
theorem C79_memory (rt : Rt) (G : Env) (J : Nat → Prop) (hG : G.Every (fun r => r.noWrap = true))
    (hN : ∀ (i : Nat) (nm : Bytes) (c : Reader), G[i]? = some ⟨nm, some c⟩ → ∀ id ∈ c.needs, J id) (r : Reader) (hr : r.Every (fun r => r.noWrap = true))
    (hn : ∀ id ∈ r.needs, J id) (n : Nat) (s : Scanner) (j : Nat → Bytes) (hj : ∀ id, J id → j id = s.heap.janus id) :
    SameButMemory (read rt G n r s) (read rt G n r (s.remember j)) := by
  have h := read_step rt G hG hN n J r (fun _ h => h) hn hr s (s.remember j) ⟨rfl, rfl, rfl, rfl, rfl, rfl, rfl, rfl, hj⟩
  refine ⟨h.timeout_iff, h.panic_iff, fun e s1 h1 => ?_⟩
  obtain ⟨⟨e2, s2⟩, h2, h3, h4, -⟩ := h.left h1
  have h5 : s2 = s1.remember s2.heap.janus := h4.eq
  have h6 : e2 = e := h3
  exact ⟨s2.heap.janus, by rw [h2, h6, ← h5]⟩

/-- Nothing is looked at before it is set in the JSON grammar (it has no Janus pair) and in the Lua grammar (two pairs). -/
theorem Json.needs : ∀ (i : Nat) (nm : Bytes) (c : Reader), Json.env[i]? = some ⟨nm, some c⟩ → ∀ id ∈ c.needs, False := by
  have h : Json.env.all (fun rl => (rl.reader.map Reader.needs).getD [] == []) = true := by decide
  intro i nm c hi id hid
  have := List.all_eq_true.mp h _ (List.mem_of_getElem? hi)
  simp at this
  rw [this] at hid
  cases hid

theorem Lua.needs : ∀ (i : Nat) (nm : Bytes) (c : Reader), Lua.env[i]? = some ⟨nm, some c⟩ → ∀ id ∈ c.needs, False := by
  have h : Lua.env.all (fun rl => (rl.reader.map Reader.needs).getD [] == []) = true := by decide
  intro i nm c hi id hid
  have := List.all_eq_true.mp h _ (List.mem_of_getElem? hi)
  simp at this
  rw [this] at hid
  cases hid

theorem Mxt.needs : ∀ (i : Nat) (nm : Bytes) (c : Reader), Mxt.env[i]? = some ⟨nm, some c⟩ → ∀ id ∈ c.needs, id = 0 := by
  have h : Mxt.env.all (fun rl => ((rl.reader.map Reader.needs).getD []).all (· == 0)) = true := by decide
  intro i nm c hi id hid
  have := List.all_eq_true.mp h _ (List.mem_of_getElem? hi)
  simp at this
  exact this id hid

/-- C79 for JSON. -/
theorem C79_json (rt : Rt) (n : Nat) (s : Scanner) (j : Nat → Bytes) : SameButMemory (read rt Json.env n Json.reader s) (read rt Json.env n Json.reader (s.remember j)) :=
  C79_memory rt Json.env (fun _ => False) (Env.everyB_sound (by decide)) Json.needs Json.reader (Reader.everyB_sound Reader.noWrap Json.reader (by decide)) (by decide) n s j (by simp)

/-- C79 for Lua, and for each of its rules: what the long strings and comments of other texts have left in the grammar has no influence. -/
theorem C79_lua (rt : Rt) (n : Nat) (s : Scanner) (j : Nat → Bytes) : SameButMemory (read rt Lua.env n Lua.reader s) (read rt Lua.env n Lua.reader (s.remember j)) :=
  C79_memory rt Lua.env (fun _ => False) Lua.noWrap Lua.needs Lua.reader (Reader.everyB_sound Reader.noWrap Lua.reader (by decide)) (by decide) n s j (by simp)

theorem C79_lua_rule (rt : Rt) (i n : Nat) (s : Scanner) (j : Nat → Bytes) : SameButMemory (read rt Lua.env n (.rule i) s) (read rt Lua.env n (.rule i) (s.remember j)) :=
  C79_memory rt Lua.env (fun _ => False) Lua.noWrap Lua.needs (.rule i) (rule_noWrap i) (by simp [Reader.needs]) n s j (by simp)

/-- C79 for MXT holds only if the memory of the salt is the same. -/
theorem C79_mxt_partial (rt : Rt) (n : Nat) (s : Scanner) (j : Nat → Bytes) (hj : j 0 = s.heap.janus 0) :
    SameButMemory (read rt Mxt.env n Mxt.reader s) (read rt Mxt.env n Mxt.reader (s.remember j)) :=
  C79_memory rt Mxt.env (· = 0) (Env.everyB_sound (by decide)) Mxt.needs Mxt.reader (Reader.everyB_sound Reader.noWrap Mxt.reader (by decide)) (by decide) n s j
    (fun id h => h ▸ hj)

/-! ### MXT: the salt of a document stays -/

namespace Mxt

/-- `// d -->`, line break, `w`. -/
def exD : MxtChunk := ⟨[], 0, ['d'], [' '], 0, [], 0, some (false, ['w'])⟩

theorem exD_ok : exD.Ok where
  mark := by simp [exD, Spec.Mxt.Words]
  name := by simp [exD, Spec.Mxt.Words]
  salt := by simp [exD, Spec.Mxt.Words]
  name_ne := by simp [exD]
  note_head := ⟨' ', [], rfl, by decide⟩
  first := exB_ok.first
  clean := clean_bool rfl (by decide)

/-- Behind the slashes stands a space, so the next marker is hidden from every salt. -/
theorem exBD_clean {x : List Char} (hx : Spec.Mxt.Words x) (hne : x ≠ []) : exBD.Clean x := by
  obtain ⟨c, x, rfl⟩ := List.exists_cons_of_ne_nil hne
  have hc : 0x21 ≤ c.toNat := hx c List.mem_cons_self
  intro l cs e pre post he
  cases e
  have hb : ∀ i < 14, List.isPrefixOf ['\n', '/', '/'] ((Spec.Mxt.nl false ++ "v\n// d -->\nw".toList).drop i) = true →
      ((Spec.Mxt.nl false ++ "v\n// d -->\nw".toList).drop i)[3]? = some ' ' := by decide
  have hl := congrArg List.length he
  have hd : (Spec.Mxt.nl false ++ "v\n// d -->\nw".toList).drop pre.length = '\n' :: '/' :: '/' :: c :: (x ++ post) := by
    rw [he, List.append_assoc, List.drop_left]
    rfl
  have h14 : (Spec.Mxt.nl false ++ "v\n// d -->\nw".toList).length = 13 := by decide
  rw [h14] at hl
  simp only [List.length_append, List.length_cons] at hl
  have := hb pre.length (by omega) (by rw [hd]; rfl)
  rw [hd] at this
  simp only [List.getElem?_cons_succ, List.getElem?_cons_zero, Option.some.injEq] at this
  rw [this] at hc
  exact absurd hc (by decide)

end Mxt

/-- C79 for MXT is false, for every salt: after any document of one chunk with a salt the grammar reads the two chunks of another document
as one, which a new grammar does not. -/
theorem C79_mxt_violated (rt : Rt) (c : MxtChunk) (hc : c.Ok) (hs : c.salt ≠ []) :
    ∃ n s1, read rt Mxt.mapped n Mxt.reader (.new (encText c.text) Heap.empty) = .ret (none, s1) ∧
      Yields rt (.new b!"// b -->\nv\n// d -->\nw" s1.heap) b!"// b -->\nv\n// d -->\nw" [(0, ['b']), (2, "v\n// d -->\nw".toList)] ∧
      Yields rt (.new b!"// b -->\nv\n// d -->\nw" Heap.empty) b!"// b -->\nv\n// d -->\nw" [(0, ['b']), (2, ['v']), (0, ['d']), (2, ['w'])] := by
  obtain ⟨n, s1, h1, h2⟩ := C54_left rt (.new (encText c.text) Heap.empty) [] c hc hs ⟨rfl, rfl⟩
  refine ⟨n, s1, h1 n (Nat.le_refl n), C54_swallowed rt (.new _ s1.heap) [] c.salt hc.salt h2 Mxt.exBD Mxt.exBD_head ⟨rfl, rfl⟩ (Mxt.exBD_clean hc.salt hs) ⟨rfl, rfl⟩, ?_⟩
  exact C54_document rt _ [] Mxt.exB [(false, Mxt.exD)] ⟨Mxt.exB_ok, ⟨by simp [Mxt.exB], by intro l cs e; cases e; simp⟩, Mxt.exD_ok⟩ rfl ⟨rfl, rfl⟩

/-! ### concrete cases -/

/-- The Lua grammar after it was left inside a long string: `[==[x` has set the string of the pair to `==`, and the next
text is read as by a new grammar. -/
example (rt : Rt) : ∃ e s1, read rt Lua.env 60 (.rule Lua.iLiteralString) (.new b!"[==[x" Heap.empty) = .ret (some e, s1) ∧ s1.heap.janus 0 = b!"==" ∧
    ∃ s2, read rt Lua.env 60 (.rule Lua.iLiteralString) (.new b!"[[a]]" s1.heap) = .ret (none, s2) ∧ s2.pos = 5 :=
  ⟨_, _, rfl, rfl, _, rfl, rfl⟩

end Tok
