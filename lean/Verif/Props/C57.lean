/-
C57 demo/json-stack and files that are not JSON documents.
-/
import Verif.Props.C56
import Verif.Props.C49Exact
import Verif.Props.C44
import Mathlib.Data.List.Infix

namespace Tok
open Spec PExp

namespace Json

/-- The rules with a `Pick`. -/
def stackPicks (i : Nat) : List Decor :=
  if [iKey, iObject, iArray, iString, iNumber, iBool, iNull].contains i then [.pick 0] else []

theorem stackEnv_dress : stackEnv = dress stackPicks env := rfl

/-- The calls of `Pick` in the program change nothing about the reading. -/
theorem stack_same (rt : Rt) (s : Scanner) (hs : Inside s) (e : Option Err) (pos : Int) :
    (∃ n s', read rt env n reader s = .ret (e, s') ∧ s'.pos = pos) ↔ ∃ n s', read rt stackEnv n reader s = .ret (e, s') ∧ s'.pos = pos := by
  rw [stackEnv_dress]
  refine C44_rules_partial rt env ((Env.everyB_sound (p := Reader.tameB) (by decide)).imp fun _ => tame_of_B) (restoresB_env (by decide))
    stackPicks reader (.mk trivial ?_) s hs e pos
  intro r hr
  simp [reader, Reader.subs] at hr
  subst hr
  exact .mk trivial (by simp [Reader.subs])

/-- The scanner of the program. -/
def start (t : Bytes) : Scanner := (Scanner.new t Heap.empty).newBasket 0

theorem start_between (t : Bytes) : Between (start t) [] t := ⟨rfl, rfl⟩
theorem start_inside (t : Bytes) : Inside (start t) := new_inside t Heap.empty

/-- If the program prints something, then the grammar without `Pick` reads the file. -/
theorem reads_of_prints {rt : Rt} {fuel : Nat} {name t out : Bytes} (h : jsonStack rt fuel name t = .ret (some out)) :
    ∃ n s', read rt env n reader (start t) = .ret (none, s') := by
  unfold jsonStack printStack Scanner.use at h
  rw [Exec.bind_eq_ret] at h
  obtain ⟨⟨e, s'⟩, h1, h2⟩ := h
  rcases e with _ | e
  · rw [Exec.bind_eq_ret] at h1
    obtain ⟨⟨e1, s1⟩, h3, h4⟩ := h1
    rcases e1 with _ | e1
    · obtain ⟨n, s2, h5, _⟩ := (stack_same rt (start t) (start_inside t) none s1.pos).mpr ⟨fuel, s1, h3, rfl⟩
      exact ⟨n, s2, h5⟩
    · simp at h4
  · simp at h2

end Json

/-- Something is printed only if the file begins with a JSON document (with unreadable bytes taken as the replacement character). -/
theorem C57_prints_partial (rt : Rt) (fuel : Nat) (filename t out : Bytes) (h : jsonStack rt fuel filename t = .ret (some out)) :
    ∃ x t' zs cs, t = x ++ t' ∧ Pieces x zs ∧ zs.map (·.2) = cs.map (fun c => (c.toNat : Int)) ∧ JsonDoc cs := by
  obtain ⟨n, s', hr⟩ := Json.reads_of_prints h
  obtain ⟨x, t', zs, cs, h1, _, h3, h4, h5⟩ := C47_runes_partial rt _ s' [] t (Json.start_between t) n hr
  exact ⟨x, t', zs, cs, h1, h3, h4, h5⟩

/-- For a file of characters: something is printed only if the file begins with a JSON document. -/
theorem C57_text_partial (rt : Rt) (fuel : Nat) (filename : Bytes) (cs : List Char) (out : Bytes)
    (h : jsonStack rt fuel filename (encText cs) = .ret (some out)) : ∃ ds es, cs = ds ++ es ∧ JsonDoc ds := by
  obtain ⟨n, s', hr⟩ := Json.reads_of_prints h
  obtain ⟨ds, es, h1, _, h2⟩ := C47_text rt _ s' [] cs (Json.start_between _) n hr
  exact ⟨ds, es, h1, h2⟩

/-- The program ends if the grammar without `Pick` ends, and prints a stack if that succeeds. -/
theorem Json.ends_of_reads (rt : Rt) (filename t : Bytes) {n : Nat} {e : Option Err} {s' : Scanner}
    (hr : read rt Json.env n Json.reader (Json.start t) = .ret (e, s')) :
    ∃ N o, o.isNone = e.isSome ∧ ∀ fuel, N ≤ fuel → jsonStack rt fuel filename t = .ret o := by
  obtain ⟨m, u, h3, _⟩ := (Json.stack_same rt (Json.start t) (Json.start_inside t) e s'.pos).mp ⟨n, s', hr, rfl⟩
  have h3 := fun fuel (hf : m ≤ fuel) => read_mono hf h3
  rcases e with _ | e
  · obtain ⟨g, N, h4, _⟩ := C42_graph_partial rt _ 0 Json.stack_tracked u (.read m Json.reader _ _ u (.start _ (new_inside _ _))
      (.mk (r := .grammar _ _) trivial (by simpa [Reader.subs] using .mk (r := .rule _) trivial (by simp [Reader.subs]))) (h3 m (Nat.le_refl _))) filename
    refine ⟨max m N, some g.flameStack, rfl, fun fuel hf => ?_⟩
    unfold jsonStack printStack Scanner.use
    have h3 : read rt Json.stackEnv fuel Json.reader ((Scanner.new t Heap.empty).newBasket 0) = _ := h3 fuel (by omega)
    simp only [h3, Exec.bind_ret, Option.isSome_none, Bool.false_eq_true, if_false, Exec.pure_eq]
    rw [h4 fuel (by omega)]
    rfl
  · refine ⟨m, none, rfl, fun fuel hf => ?_⟩
    unfold jsonStack printStack Scanner.use
    have h3 : read rt Json.stackEnv fuel Json.reader ((Scanner.new t Heap.empty).newBasket 0) = _ := h3 fuel (by omega)
    simp only [h3, Exec.bind_ret, Option.isSome_some, if_true, Exec.pure_eq]

/-- The program comes to an end for every file whose last byte is a control character, for instance a line break. -/
theorem C57_ends_partial (rt : Rt) (filename t : Bytes) (ht : ∀ y b, t = y ++ [b] → b.toNat < 32) :
    ∃ N o, ∀ fuel, N ≤ fuel → jsonStack rt fuel filename t = .ret o := by
  obtain ⟨n, h1, h2⟩ := C49_terminates_partial rt (Json.start t) [] t (Json.start_between t) ht
  rcases hr : read rt Json.env n Json.reader (Json.start t) with ⟨e, s'⟩ | _ | _
  · obtain ⟨N, o, _, h⟩ := Json.ends_of_reads rt filename t hr
    exact ⟨N, o, h⟩
  · exact absurd hr (C32_no_panic_partial rt _ _ Json.safe ((Reader.everyB_sound (Reader.safeB Json.env) Json.reader (by decide)).imp fun _ => safeHere_of_safeB) n _
      (Json.start_inside t))
  · exact absurd hr h1

/-- Together: a file of characters that ends with a line break and does not begin with a JSON document is rejected. -/
theorem C57_rejects_partial (rt : Rt) (filename : Bytes) (cs : List Char)
    (hn : ∀ ds es, cs ++ ['\n'] = ds ++ es → ¬ JsonDoc ds) :
    ∃ N, ∀ fuel, N ≤ fuel → jsonStack rt fuel filename (encText (cs ++ ['\n'])) = .ret none := by
  obtain ⟨N, o, h⟩ := C57_ends_partial rt filename (encText (cs ++ ['\n'])) (fun y b e => by
    rw [encText, List.flatMap_append] at e
    have e := (List.append_inj_right' e rfl).symm
    have e : [b] = [10] := e
    rw [List.cons.injEq] at e
    rw [e.1]; decide)
  rcases o with _ | out
  · exact ⟨N, h⟩
  · obtain ⟨ds, es, h1, h2⟩ := C57_text_partial rt N filename _ out (h N (Nat.le_refl _))
    exact absurd h2 (hn ds es h1)

/-- Texts that the grammar does not read to the end are no documents. -/
theorem Json.not_doc {cs : List Char} (h : ∃ e s', read exRt Json.env 40 Json.reader (.new (encText cs) Heap.empty) = .ret (e, s') ∧
    (e.isSome || !s'.atEnd) = true) : ¬ JsonDoc cs := by
  intro hd
  obtain ⟨n, s', h1, h2⟩ := (C48_exact exRt _).mp hd
  obtain ⟨e, s'', h3, h4⟩ := h
  have := (read_mono (Nat.le_max_left n 40) h1).symm.trans (read_mono (Nat.le_max_right n 40) h3)
  simp only [Exec.ret.injEq, Prod.mk.injEq] at this
  rw [← this.1, ← this.2, h2] at h4
  cases h4

/-- `[1,]` is rejected. -/
example (rt : Rt) (filename : Bytes) : ∃ N, ∀ fuel, N ≤ fuel → jsonStack rt fuel filename b!"[1,]\n" = .ret none := by
  refine C57_rejects_partial rt filename ['[', '1', ',', ']'] fun ds es h => ?_
  have hm : ds ∈ (['[', '1', ',', ']', '\n'] : List Char).inits := (List.mem_inits _ _).mpr ⟨es, h.symm⟩
  simp only [List.inits, List.map_cons, List.map_nil, List.mem_cons, List.not_mem_nil, or_false] at hm
  rcases hm with rfl | rfl | rfl | rfl | rfl | rfl <;> exact Json.not_doc ⟨_, _, rfl, rfl⟩

/-- The full claim, that every file that is no JSON document is rejected, fails: text after the document is not looked at. -/
theorem C57_trailing_violated (rt : Rt) : ¬ JsonDoc "{} x".toList ∧ ∃ N, ∀ fuel, N ≤ fuel →
    jsonStack rt fuel b!"f" (encText "{} x".toList) = .ret (some b!"1.f[0-2) 2\n1.f[0-2);1.object[0-2) 2\n") := by
  constructor
  · exact Json.not_doc ⟨_, _, rfl, rfl⟩
  · refine C56_followed rt b!"f" ['{', '}', ' '] ['x'] (leafAt b!"object" 0 ['{', '}']) ?_ (fun c ds' e => by
      rw [List.cons.injEq] at e; rw [← e.1]; decide)
    exact .element (us := []) (cs := ['{', '}']) (vs := [' ']) .ws_none (.value_object (.object_ws (cs := []) .ws_none)) (.ws_space .ws_none)

theorem Json.hangs_of {rt : Rt} {t : Bytes} (h : ∀ n, read rt Json.env n Json.reader (Json.start t) = .timeout) (filename : Bytes) (fuel : Nat) :
    jsonStack rt fuel filename t = .timeout := by
  have key : ∀ n, read rt Json.stackEnv n Json.reader (Json.start t) = .timeout := fun n => by
    rcases hr : read rt Json.stackEnv n Json.reader (Json.start t) with ⟨e, s'⟩ | _ | _
    · obtain ⟨m, s'', h1, _⟩ := (Json.stack_same rt _ (Json.start_inside _) e s'.pos).mpr ⟨n, s', hr, rfl⟩
      rw [h m] at h1
      cases h1
    · exact absurd hr (C32_no_panic_partial rt _ _ Json.stack_safe
        ((Reader.everyB_sound (Reader.safeB Json.stackEnv) Json.reader (by decide)).imp fun _ => safeHere_of_safeB) n _ (Json.start_inside _))
    · rfl
  have := key fuel
  unfold Json.start at this
  unfold jsonStack printStack Scanner.use
  rw [this]
  rfl

/-- What the program does with every file.  Let `cs` be the characters of the file, with malformed
bytes read as U+FFFD.  The program prints a stack exactly if the file begins with a JSON document, it
does not come to an end exactly if the file is cut off in a string, and it reports an error in all other cases. -/
theorem C57_exact_partial (rt : Rt) (filename t : Bytes) (zs : List Piece) (hp : Pieces t zs) (cs : List Char)
    (hc : zs.map (·.2) = cs.map (fun c => (c.toNat : Int))) :
    ((∃ N out, ∀ fuel, N ≤ fuel → jsonStack rt fuel filename t = .ret (some out)) ↔ ∃ ds es, cs = ds ++ es ∧ JsonDoc ds) ∧
    ((∀ fuel, jsonStack rt fuel filename t = .timeout) ↔ JsonCut .element cs) ∧
    ((∃ N, ∀ fuel, N ≤ fuel → jsonStack rt fuel filename t = .ret none) ↔ (∀ ds es, cs = ds ++ es → ¬ JsonDoc ds) ∧ ¬ JsonCut .element cs) := by
  have h1 := C48_begins rt (Json.start t) [] t (Json.start_between t) zs hp cs hc
  have h2 := C49_exact_partial rt (Json.start t) [] t (Json.start_between t) (Json.start_inside t) zs hp cs hc
  have h3 := C49_error_partial rt (Json.start t) [] t (Json.start_between t) (Json.start_inside t) zs hp cs hc
  have a1 : (∃ ds es, cs = ds ++ es ∧ JsonDoc ds) → ∃ N out, ∀ fuel, N ≤ fuel → jsonStack rt fuel filename t = .ret (some out) := fun h => by
    obtain ⟨n, s', hr⟩ := h1.mpr h
    obtain ⟨N, o, ho, h⟩ := Json.ends_of_reads rt filename t hr
    cases o with
    | none => cases ho
    | some out => exact ⟨N, out, h⟩
  have a3 : ((∀ ds es, cs = ds ++ es → ¬ JsonDoc ds) ∧ ¬ JsonCut .element cs) → ∃ N, ∀ fuel, N ≤ fuel → jsonStack rt fuel filename t = .ret none := fun h => by
    obtain ⟨n, e, s', hr⟩ := h3.mpr h
    obtain ⟨N, o, ho, h⟩ := Json.ends_of_reads rt filename t hr
    cases o with
    | none => exact ⟨N, h⟩
    | some out => cases ho
  have a2 : JsonCut .element cs → ∀ fuel, jsonStack rt fuel filename t = .timeout := fun h => Json.hangs_of (h2.mpr h) filename
  have cut_no : JsonCut .element cs → ¬ ∃ ds es, cs = ds ++ es ∧ JsonDoc ds := fun hcut h => by
    obtain ⟨N, out, h⟩ := a1 h
    cases (h N (Nat.le_refl _)).symm.trans (a2 hcut N)
  refine ⟨⟨fun ⟨N, out, h⟩ => ?_, a1⟩, ⟨fun h => ?_, a2⟩, ⟨fun ⟨N, h⟩ => ⟨fun ds es e hd => ?_, fun hcut => ?_⟩, a3⟩⟩
  · by_contra hn
    by_cases hcut : JsonCut .element cs
    · cases (h N (Nat.le_refl _)).symm.trans (a2 hcut N)
    · obtain ⟨M, h'⟩ := a3 ⟨fun ds es e hd => hn ⟨ds, es, e, hd⟩, hcut⟩
      cases (h (max N M) (Nat.le_max_left _ _)).symm.trans (h' (max N M) (Nat.le_max_right _ _))
  · by_contra hcut
    by_cases hd : ∃ ds es, cs = ds ++ es ∧ JsonDoc ds
    · obtain ⟨N, out, h'⟩ := a1 hd
      cases (h N).symm.trans (h' N (Nat.le_refl _))
    · obtain ⟨N, h'⟩ := a3 ⟨fun ds es e hd' => hd ⟨ds, es, e, hd'⟩, hcut⟩
      cases (h N).symm.trans (h' N (Nat.le_refl _))
  · obtain ⟨M, out, h'⟩ := a1 ⟨ds, es, e, hd⟩
    cases (h (max N M) (Nat.le_max_left _ _)).symm.trans (h' (max N M) (Nat.le_max_right _ _))
  · cases (h N (Nat.le_refl _)).symm.trans (a2 hcut N)

/-- And for an unterminated string the program does not come to an end. -/
theorem C57_hangs_violated (rt : Rt) (filename : Bytes) (cs : List Char) (h : ∀ c ∈ cs, 32 ≤ c.toNat ∧ c ≠ '"' ∧ c ≠ '\\') (fuel : Nat) :
    jsonStack rt fuel filename (b!"\"" ++ encText cs) = .timeout := by
  refine Json.hangs_of (fun m => ?_) filename fuel
  have sim := fun s hs => read_eat rt Json.env (Env.everyB_sound (by decide)) m Json.reader (Reader.everyB_sound Reader.noWrap Json.reader (by decide))
    (b!"\"" ++ encText cs) s ⟨b!"\"" ++ encText cs, Heap.empty.janus⟩ hs
  have h2 := (sim (.new _ Heap.empty) ⟨rfl, ⟨[], rfl, rfl⟩, rfl⟩).timeout_iff.mp (C49_violated rt cs h m)
  exact (sim (Json.start _) ⟨rfl, ⟨[], rfl, rfl⟩, rfl⟩).timeout_iff.mpr h2

end Tok
