/-
C108 The strings, numbers and so on of a JSON document can be changed with a basket and `Segmentate`.
-/
import Verif.Proofs.JsonEdit
import Verif.Props.C98
import Verif.Props.C103Flat

namespace Tok
open Spec Less

namespace Json

theorem pickSome_fewer (drop : Bytes → Bool) (P : List Nat) : ∀ (G : Env) (k : Nat), G.Every Reader.pickless →
    (∀ j rl, G[j]? = some rl → (k + j) ∉ P → drop rl.name = true) →
    Env.fewer ⟨0, drop⟩ (Env.pickSome P 0 k G) = G.map fun rl => if drop rl.name then rl else rl.pick 0
  | [], _, _, _ => rfl
  | r :: G, k, hp, h => by
    have ih := pickSome_fewer drop P G (k + 1) (fun rl hrl => hp rl (List.mem_cons_of_mem _ hrl)) fun j rl hj hP =>
      h (j + 1) rl (by simpa using hj) (by rwa [show k + (j + 1) = k + 1 + j by omega])
    unfold Env.fewer at ih ⊢
    rw [Env.pickSome, List.map_cons, List.map_cons, ih]
    congr 1
    obtain ⟨nm, c⟩ := r
    have h0 := h 0 ⟨nm, c⟩ rfl
    have hq : ∀ c', c = some c' → Reader.fewer ⟨0, drop⟩ c' = c' := fun c' hc => fewer_pickless (hp _ List.mem_cons_self c' hc)
    simp only [Nat.add_zero] at h0
    cases c with
    | none =>
      by_cases hP : P.contains k = true <;> by_cases hd : drop nm = true <;> simp [hP, hd, Rule.pick]
    | some c =>
      by_cases hP : k ∈ P
      · by_cases hd : drop nm = true <;> simp [hP, hd, Rule.pick, Reader.fewer, Leave.out, hq c rfl]
      · have hd := h0 hP
        simp [hP, hd, hq c rfl]

/-- The grammar of the client is that of demo/json-stack without the other picks. -/
theorem edit_fewer {names : List Bytes} (hn : ∀ nm ∈ names, nm ∈ jsonLeaves) : Env.fewer ⟨0, fun nm => !names.contains nm⟩ stackEnv = editEnv names := by
  unfold stackEnv editEnv
  rw [pickSome_fewer]
  · refine List.map_congr_left fun rl _ => ?_
    by_cases h : names.contains rl.name = true <;> simp [h]
  · exact (Env.everyB_sound (p := Reader.plainPickB) (by decide)).imp fun _ h => (plain_of_B (q := ⟨0, fun _ => true⟩) h).2
  · intro j rl hj hP
    have key : (List.range env.length).all (fun j => [iKey, iObject, iArray, iString, iNumber, iBool, iNull].contains (0 + j) ||
        match env[j]? with | some rl => !jsonLeaves.contains rl.name | none => true) = true := by decide
    have hl : j < env.length := by
      rcases Nat.lt_or_ge j env.length with h | h
      · exact h
      · rw [List.getElem?_eq_none h] at hj; cases hj
    have := List.all_eq_true.mp key j (List.mem_range.mpr hl)
    rw [hj] at this
    simp only [Bool.or_eq_true, List.contains_iff_mem] at this
    rcases this with h | h
    · exact absurd h hP
    · simp only [Bool.not_eq_true', List.contains_eq_mem, decide_eq_false_iff_not] at h ⊢
      exact fun h' => h (hn _ h')

theorem stack_plain (q : Leave) : stackEnv.Every (Reader.plainPick q) :=
  (Env.everyB_sound (p := fun r => r.tameB && match r with | .body _ _ => false | .bodyTail _ _ => false | _ => true) (by decide)).imp fun r h => by
    simp only [Bool.and_eq_true] at h
    have := tame_of_B h.1
    cases r <;> first | exact this | exact False.elim this | exact Bool.noConfusion (show false = true from h.2)

theorem reader_plain (q : Leave) : reader.Every (Reader.plainPick q) :=
  .mk (r := .grammar _ _) trivial (by simpa [Reader.subs] using .mk (r := .rule _) trivial (by simp [Reader.subs]))

end Json

/-- Let `f` do to the texts of the picked rules what `g` and `k` do to the values and keys that these texts mean.  Then the client gives for every JSON
document, also one followed by something that cannot continue it, a document that means the changed value, followed by what follows. -/
theorem C108_edit (rt : Rt) (names : List Bytes) (hn : ∀ nm ∈ names, nm ∈ jsonLeaves) (f : Bytes → Bytes → Bytes) (g : JVal → JVal)
    (k : List Nat → List Nat) (he : Edits names f g k) (v : JVal) (cs ds : List Char) (hv : JsonElement v cs)
    (hf : ∀ c ds', ds = c :: ds' → c ∉ [' ', '\n', '\r', '\t', '.', 'e', 'E', '0', '1', '2', '3', '4', '5', '6', '7', '8', '9']) :
    ∃ out, JsonElement (v.edit g k) out ∧
      ∃ N, ∀ fuel, N ≤ fuel → jsonEdit rt fuel names f (encText (cs ++ ds)) = .ret (some (encText (out ++ ds))) := by
  obtain ⟨ns, out, ht, hs, ho⟩ := element_swaps he hn hv 0
  obtain ⟨n, s', h1, h2, h3, h4⟩ := C56_basket rt cs ds ns ht hf
  have hF : Fewer ⟨0, fun nm => !names.contains nm⟩ ((Scanner.new (encText (cs ++ ds)) Heap.empty).newBasket 0)
      ((Scanner.new (encText (cs ++ ds)) Heap.empty).newBasket 0) := by
    refine ⟨rfl, rfl, ⟨0, rfl, ?_, ?_⟩, rfl, rfl, rfl, rfl, rfl, rfl, fun _ _ => rfl, ?_⟩ <;> simp [Scanner.newBasket, upd_self, Leave.rest]
  obtain ⟨t', h5, h6⟩ := C102_less_partial rt ⟨0, fun nm => !names.contains nm⟩ Json.stackEnv (Json.stack_plain _) (restoresB_env (by decide)) Json.reader
    (Json.reader_plain _) _ _ ⟨Int.le_refl _, by simp [Scanner.newBasket, Scanner.new]⟩ hF n none s' (h1 n (Nat.le_refl _))
  rw [Json.edit_fewer hn, show Reader.fewer _ Json.reader = Json.reader from rfl] at h5
  have hb : t'.heap.baskets 0 = chosen names ns := by
    rw [h6.kept, h3]
    simp [Leave.rest, chosen]
  have hi : ∀ x ∈ chosen names ns, x.info ≠ [] := fun x hx => by
    have := (List.mem_filter.mp hx).2
    intro h0
    rw [h0] at this
    have := hn [] (by simpa using this)
    exact absurd this (by decide)
  obtain ⟨parts, h7, h8⟩ := segmentate_swaps (s := t') hs hi (encText ds) (by rw [h6.full]; simpa using h2.1)
  refine ⟨out, ho, n, fun fuel hfu => ?_⟩
  unfold jsonEdit Scanner.use
  simp only [read_mono hfu h5, Exec.bind_ret, Option.isSome_none, Bool.false_eq_true, if_false, Exec.pure_eq, hb, h7, h8]
  rw [encText_append]

namespace Json

/-- The rules inside of keys, strings and numbers. -/
def stillRules : List Nat := [9, 10, 11, 12, 14, 15, 16, 17, 18, 19, 20]

/-- A reader that picks nothing, also in the rules it uses. -/
def stillB (r : Reader) : Bool :=
  r.everyB (fun r => r.trackedB && match r with
    | .pick _ _ _ => false
    | .rule i => stillRules.contains i
    | _ => true)

/-- The same as a condition on one reader. -/
def Still (r : Reader) : Prop := (r.noPick 0 ∧ r.trackedB = true) ∧ ∀ i, r = .rule i → i ∈ stillRules

theorem still_of_B {r : Reader} (h : stillB r = true) : r.Every Still :=
  (Reader.everyB_sound _ _ h).imp fun r h => by
    simp only [Bool.and_eq_true] at h
    refine ⟨⟨?_, h.1⟩, ?_⟩
    · cases r <;> first | trivial | (cases h.2; done) | (cases h.1; done)
    · rintro i rfl
      simpa using h.2

theorem still_rules {names : List Bytes} (hn : ∀ nm ∈ names, nm ∈ jsonLeaves) (i : Nat) (nm : Bytes) (c : Reader) (h : Still (.rule i))
    (hi : (editEnv names)[i]? = some ⟨nm, some c⟩) : c.Every Still := by
  have h := h.2 i rfl
  have key : stillRules.all (fun i => match env[i]? with | some ⟨nm, some c⟩ => stillB c && !jsonLeaves.contains nm | _ => true) = true := by decide
  have := List.all_eq_true.mp key i h
  unfold editEnv at hi
  rw [List.getElem?_map] at hi
  rcases hx : env[i]? with _ | ⟨nm', c'⟩
  · rw [hx] at hi; cases hi
  · rw [hx] at hi this
    cases c' with
    | none =>
      simp only [Option.map_some, Option.some.injEq] at hi
      split at hi <;> cases hi
    | some c' =>
      simp only [Bool.and_eq_true, Bool.not_eq_true', List.contains_eq_mem, decide_eq_false_iff_not] at this
      have hno : names.contains nm' = false := by
        simp only [List.contains_eq_mem, decide_eq_false_iff_not]
        exact fun h' => this.2 (hn _ h')
      simp only [Option.map_some, hno, Bool.false_eq_true, if_false] at hi
      cases hi
      exact still_of_B this.1

theorem edit_flat {names : List Bytes} (hn : ∀ nm ∈ names, nm ∈ jsonLeaves) : (editEnv names).Every (fun r => r.trackedB = true ∧ r.picksOnly 0 Still) := by
  have key : env.all (fun rl => match rl.reader with
      | some c => c.everyB (fun r => r.trackedB && match r with | .pick _ _ _ => false | _ => true) && (!jsonLeaves.contains rl.name || stillB c)
      | none => true) = true := by decide
  intro rl hrl c hc
  obtain ⟨⟨nm, c'⟩, hm, rfl⟩ := List.mem_map.mp hrl
  have := List.all_eq_true.mp key _ hm
  cases c' with
  | none => dsimp only at hc; split at hc <;> cases hc
  | some c' =>
    simp only [Bool.and_eq_true, Bool.or_eq_true, Bool.not_eq_true'] at this
    have h1 : c'.Every (fun r => r.trackedB = true ∧ r.picksOnly 0 Still) := (Reader.everyB_sound _ _ this.1).imp fun r h => by
      simp only [Bool.and_eq_true] at h
      refine ⟨h.1, ?_⟩
      cases r <;> first | trivial | (cases h.2; done)
    dsimp only at hc
    split at hc
    · rename_i h
      cases hc
      refine .mk (r := .pick _ _ _) ⟨rfl, fun _ => ?_⟩ fun x hx => List.mem_singleton.mp hx ▸ h1
      rcases this.2 with h' | h'
      · simp only [List.contains_eq_mem, decide_eq_false_iff_not] at h'
        exact absurd (hn nm (by simpa using h)) h'
      · exact still_of_B h'
    · cases hc
      exact h1

end Json

theorem edit_ends {s : Scanner} (f : Bytes → Bytes → Bytes) {out : List Segment} {parts : List Bytes} (h : List.Forall₂ (fun x p => s.get x.tok = .ret p) out parts) :
    (∃ t, editText s f out = .ret t) ∧ ((∀ nm t, f nm t = t) → editText s f out = .ret parts.flatten) := by
  induction h with
  | nil => exact ⟨⟨[], rfl⟩, fun _ => rfl⟩
  | @cons x p xs ps hx _ ih =>
    obtain ⟨⟨t, ht⟩, h2⟩ := ih
    constructor
    · exact ⟨_, by rw [editText, hx]; simp only [Exec.bind_ret, ht, Exec.pure_eq]; rfl⟩
    · intro hf
      rw [editText, hx]
      simp only [Exec.bind_ret, h2 hf, Exec.pure_eq, hf, List.flatten_cons]
      split <;> rfl

/-- Whatever the text and the function: once the text was read, `Segmentate` does not refuse what was picked, so the client gives something exactly if the
text can be read; and if the function changes nothing, the client gives the text. -/
theorem C108_reads (rt : Rt) (names : List Bytes) (hn : ∀ nm ∈ names, nm ∈ jsonLeaves) (f : Bytes → Bytes → Bytes) (fuel : Nat) (t : Bytes) (e : Option Err)
    (s : Scanner) (h : read rt (Json.editEnv names) fuel Json.reader ((Scanner.new t Heap.empty).newBasket 0) = .ret (e, s)) :
    ∃ o, jsonEdit rt fuel names f t = .ret o ∧ o.isNone = e.isSome ∧ ((∀ nm t, f nm t = t) → e = none → o = some t) := by
  have hE : Json.reader.Every (fun r => r.trackedB = true ∧ r.picksOnly 0 Json.Still) :=
    .mk (r := .grammar _ _) ⟨rfl, trivial⟩ (by simpa [Reader.subs] using .mk (r := .rule _) ⟨rfl, trivial⟩ (by simp [Reader.subs]))
  have hrow : Rowing rt (Json.editEnv names) 0 Json.Still s := .read fuel Json.reader _ e s (.start _ (new_inside _ _)) (hE.imp fun _ h => ⟨rows_of_B h.1, h.2⟩) h
  obtain ⟨out, h1, _, _, parts, h2, h3⟩ := C103_flat rt (Json.editEnv names) 0 Json.Still (fun _ h => ⟨h.1.1, tracked_of_B h.1.2⟩) (Json.still_rules hn) ((Json.edit_flat hn).imp fun _ h => ⟨rows_of_B h.1, h.2⟩) s hrow
  have hfull : s.full = t := by
    have hT : (Json.editEnv names).Every (Reader.safeHere True (Json.editEnv names)) := (Json.edit_flat hn).imp fun r h => by
      cases r <;> first | exact trivial | exact .inl trivial | (cases h.1; done)
    have := (read_safe rt (Json.editEnv names) hT fuel Json.reader (.mk (r := .grammar _ _) trivial (by
      simpa [Reader.subs] using .mk (r := .rule _) (.inl trivial) (by simp [Reader.subs]))) ((Scanner.new t Heap.empty).newBasket 0) (new_inside t Heap.empty)).2
    exact (this _ h).2.1
  obtain ⟨⟨u, hu⟩, hid⟩ := edit_ends f h2
  rcases e with _ | e
  · refine ⟨some u, ?_, rfl, fun hf _ => ?_⟩
    · unfold jsonEdit Scanner.use
      simp only [h, Exec.bind_ret, Option.isSome_none, Bool.false_eq_true, if_false, Exec.pure_eq, h1, hu]
    · have := hid hf
      rw [hu, h3, hfull] at this
      cases this
      rfl
  · refine ⟨none, ?_, rfl, fun _ he => by cases he⟩
    unfold jsonEdit Scanner.use
    simp only [h, Exec.bind_ret, Option.isSome_some, if_true, Exec.pure_eq]

/-! ### a client that takes out strings and numbers -/

/-- Strings and numbers become null. -/
def blank : JVal → JVal
  | .str _ => .null
  | .num _ => .null
  | v => v

theorem blank_edits : Edits [b!"string", b!"number"] (fun _ _ => b!"null") blank id where
  value v nm cs hk hm _ := by
    refine ⟨['n', 'u', 'l', 'l'], by decide, ?_⟩
    cases v with
    | str us => exact .null
    | num cs => exact .null
    | null => cases hk; exact absurd hm (by decide)
    | bool b => cases hk; exact absurd hm (by decide)
    | arr vs => cases hk
    | obj ms => cases hk
  other v nm hk hm := by
    cases v with
    | str us => cases hk; exact absurd (by decide) hm
    | num cs => cases hk; exact absurd (by decide) hm
    | _ => rfl
  key h := absurd h (by decide)
  otherKey _ _ := rfl

/-- Every document becomes one with null in the place of all strings and numbers; the keys stay. -/
theorem C108_blank (rt : Rt) (v : JVal) (cs : List Char) (hv : JsonElement v cs) :
    ∃ out, JsonElement (v.edit blank id) out ∧
      ∃ N, ∀ fuel, N ≤ fuel → jsonEdit rt fuel [b!"string", b!"number"] (fun _ _ => b!"null") (encText cs) = .ret (some (encText out)) := by
  have := C108_edit rt [b!"string", b!"number"] (by decide) _ blank id blank_edits v cs [] hv (by simp)
  simpa using this

example : jsonEdit exRt 200 [b!"string", b!"number"] (fun _ _ => b!"null") b!"{ \"a\" : [-1.5e3, \"x]\\\"\"], \"b\": true }" =
    .ret (some b!"{ \"a\" : [null, null], \"b\": true }") := by decide +kernel

/-- Keys and values can be changed at once: here all become longer. -/
example : jsonEdit exRt 200 [b!"key", b!"bool"] (fun nm t => if nm = b!"key" then b!"\"k" ++ t.drop 1 else b!"[" ++ t ++ b!"]") b!"[{\"a\":true},false]x" =
    .ret (some b!"[{\"ka\":[true]},[false]]x") := by decide +kernel

/-- With a rule whose texts contain those of another `Segmentate` refuses. -/
theorem C108_nested_violated : ∃ (names : List Bytes) (cs : List Char), JsonDoc cs ∧ jsonEdit exRt 200 names (fun _ t => t) (encText cs) = .ret none := by
  refine ⟨[b!"array", b!"number"], ['[', '1', ']'], (C98_meaning _).mpr ⟨.arr [.num ['1']], ?_⟩, by decide +kernel⟩
  have h1 : JsonText .number ['1'] := by
    have := JsonText.number (.integer_digit (.digit_onenine (.onenine (c := '1') (by decide) (by decide)))) .fraction_none .exponent_none
    simpa using this
  have h2 := JsonElement.mk (us := []) (vs := []) .ws_none (.num h1) .ws_none
  have h3 := JsonElement.mk (us := []) (vs := []) .ws_none (.arr (.one h2)) .ws_none
  simpa using h3

end Tok
