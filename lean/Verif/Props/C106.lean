/-
C106 JSON documents can be minified with a basket and `Segmentate`.
-/
import Verif.Proofs.JsonTrim
import Verif.Props.C57
import Verif.Props.C103Flat
import Verif.Props.C98

namespace Tok
open Spec

theorem Json.ws_picks : Json.wsEnv.Every (Reader.picksIn 0 (· ≠ [])) :=
  (Env.everyB_sound (p := Reader.picksInB) (by decide +kernel)).imp fun _ => picksIn_of_B

theorem doc_bare {cs : List Char} (h : JsonDoc cs) : JsonBare .element cs (squeeze .outside cs) := by
  obtain ⟨bs, hb⟩ := JsonText.bare h rfl
  have := hb.squeeze []
  simp only [List.append_nil, squeeze] at this
  rwa [this]

/-- The client gives for every JSON document, also one followed by something that cannot continue it, the document without the white space outside of its
strings, followed by what follows. -/
theorem C106_minify (rt : Rt) (cs ds : List Char) (hd : JsonDoc cs)
    (hf : ∀ c ds', ds = c :: ds' → c ∉ [' ', '\n', '\r', '\t', '.', 'e', 'E', '0', '1', '2', '3', '4', '5', '6', '7', '8', '9']) :
    ∃ N, ∀ fuel, N ≤ fuel → jsonMinify rt fuel (encText (cs ++ ds)) = .ret (some (encText (squeeze .outside cs ++ ds))) := by
  have hs : Coupled 0 ((Scanner.new (encText (cs ++ ds)) Heap.empty).newBasket 0) := (Follows.start (new_inside _ _) 0).toCoupled
  obtain ⟨k, s', l, h1, h2, h3, h4, h5⟩ := Json.bares (rt := rt) (doc_bare hd) ds (Json.avoid_of_notin hf) _ [] ⟨rfl, rfl⟩ hs
  have h4 : s'.heap.baskets 0 = l := by simpa [Scanner.newBasket, upd] using h4
  have hp : Picking rt Json.wsEnv 0 (· ≠ []) s' := .read k (.rule Json.iElement) _ _ s' (.start _ (new_inside _ _))
    (.mk (r := .rule _) trivial (by simp [Reader.subs])) h1
  have hi := (Picking.lies Json.ws_picks hp).2.2
  rw [h4] at hi
  obtain ⟨parts, h6, h7⟩ := segmentate_cuts (s := s') h5 hi (encText ds) (by simpa using h2.1)
  have hr : read rt Json.wsEnv (k + 1) Json.reader ((Scanner.new (encText (cs ++ ds)) Heap.empty).newBasket 0) = .ret (none, s') := by
    show (read rt Json.wsEnv k (.rule Json.iElement) _).bind _ = _
    rw [h1]
    rfl
  refine ⟨k + 1, fun fuel hfu => ?_⟩
  unfold jsonMinify Scanner.use
  simp only [read_mono hfu hr, Exec.bind_ret, Option.isSome_none, Bool.false_eq_true, if_false, Exec.pure_eq, h4, h6, h7]
  rw [encText_append]

/-- What the client gives is a JSON document again, and it means the same. -/
theorem C106_value (cs : List Char) (v : JVal) : JsonElement v cs → JsonElement v (squeeze .outside cs) := by
  intro h
  obtain ⟨bs, h1, h2⟩ := element_bare h
  have := h1.squeeze []
  simp only [List.append_nil, squeeze] at this
  rwa [this]

/-- So it is the same for two documents only if they mean the same. -/
theorem C106_same (cs cs' : List Char) (hd : JsonDoc cs) (hd' : JsonDoc cs') (he : squeeze .outside cs = squeeze .outside cs') (v : JVal) :
    JsonElement v cs ↔ JsonElement v cs' := by
  obtain ⟨w, hw⟩ := (C98_meaning cs).mp hd
  obtain ⟨w', hw'⟩ := (C98_meaning cs').mp hd'
  have e : w = w' := C98_unique _ w w' (C106_value cs w hw) (he ▸ C106_value cs' w' hw')
  subst e
  exact ⟨fun h => C98_unique cs v w h hw ▸ hw', fun h => C98_unique cs' v w h hw' ▸ hw⟩

/-- Minifying once more changes nothing. -/
theorem C106_again (rt : Rt) (cs : List Char) (hd : JsonDoc cs) :
    ∃ N, ∀ fuel, N ≤ fuel → ∃ out, jsonMinify rt fuel (encText cs) = .ret (some out) ∧ jsonMinify rt fuel out = .ret (some out) := by
  have hb := doc_bare hd
  have hq := hb.again.squeeze []
  simp only [List.append_nil, squeeze] at hq
  obtain ⟨N, h1⟩ := C106_minify rt cs [] hd (by simp)
  obtain ⟨M, h2⟩ := C106_minify rt (squeeze .outside cs) [] hb.again.text (by simp)
  rw [List.append_nil, List.append_nil] at h1 h2
  rw [hq] at h2
  exact ⟨max N M, fun fuel hf => ⟨_, h1 fuel (by omega), h2 fuel (by omega)⟩⟩

/-- The values of C98 are written without white space: minifying what `writeValue` writes changes nothing. -/
theorem C106_written (rt : Rt) (v : JVal) (hv : v.Fits) :
    ∃ N, ∀ fuel, N ≤ fuel → jsonMinify rt fuel (encText (writeValue v)) = .ret (some (encText (writeValue v))) := by
  have hb := bare_element_of (bare_value hv)
  have hq := hb.squeeze []
  simp only [List.append_nil, squeeze] at hq
  have := C106_minify rt (writeValue v) [] hb.text (by simp)
  rw [List.append_nil, List.append_nil, hq] at this
  exact this

namespace Json

/-- The rules with a `Pick`. -/
def wsPicks (i : Nat) : List Decor := if i = iWS then [.pick 0] else []

/-- The call of `Pick` changes nothing about the reading. -/
theorem ws_same (rt : Rt) (s : Scanner) (hs : Inside s) (e : Option Err) (pos : Int) :
    (∃ n s', read rt env n reader s = .ret (e, s') ∧ s'.pos = pos) ↔ ∃ n s', read rt wsEnv n reader s = .ret (e, s') ∧ s'.pos = pos := by
  rw [show wsEnv = dress wsPicks env from rfl]
  refine C44_rules_partial rt env ((Env.everyB_sound (p := Reader.tameB) (by decide)).imp fun _ => tame_of_B) (restoresB_env (by decide))
    wsPicks reader (.mk trivial ?_) s hs e pos
  intro r hr
  simp [reader, Reader.subs] at hr
  subst hr
  exact .mk trivial (by simp [Reader.subs])

/-- No white space is picked inside of white space. -/
theorem ws_flat : wsEnv.Every (fun r => r.trackedB = true ∧ r.picksOnly 0 Dry) :=
  (Env.everyB_sound (p := fun r => r.trackedB && match r with | .pick _ _ c => dryB c | _ => true) (by decide)).imp fun r h => by
    simp only [Bool.and_eq_true] at h
    refine ⟨h.1, ?_⟩
    cases r <;> first | trivial | skip
    exact fun _ => dry_of_B h.2

end Json

theorem unknown_ends {s : Scanner} {out : List Segment} {parts : List Bytes} (h : List.Forall₂ (fun x p => s.get x.tok = .ret p) out parts) :
    ∃ t, unknownText s out = .ret t := by
  induction h with
  | nil => exact ⟨[], rfl⟩
  | @cons x p xs ps hx _ ih =>
    obtain ⟨t, ht⟩ := ih
    rw [unknownText]
    split
    · exact ⟨t, ht⟩
    · exact ⟨p ++ t, by simp [hx, ht, bind, pure, Exec.bind]⟩

/-- Whatever the text: once it was read, `Segmentate` does not refuse what was picked, so the client gives something exactly if the text can be read. -/
theorem C106_reads (rt : Rt) (fuel : Nat) (t : Bytes) (e : Option Err) (s : Scanner)
    (h : read rt Json.wsEnv fuel Json.reader ((Scanner.new t Heap.empty).newBasket 0) = .ret (e, s)) :
    ∃ o, jsonMinify rt fuel t = .ret o ∧ o.isNone = e.isSome := by
  have hE : Json.reader.Every (fun r => r.trackedB = true ∧ r.picksOnly 0 Json.Dry) :=
    .mk (r := .grammar _ _) ⟨rfl, trivial⟩ (by simpa [Reader.subs] using .mk (r := .rule _) ⟨rfl, trivial⟩ (by simp [Reader.subs]))
  obtain ⟨out, h1, _, _, parts, h2, _⟩ := C103_flat rt Json.wsEnv 0 Json.Dry (fun _ h => ⟨h.1.1, tracked_of_B h.1.2⟩) Json.dry_rules (Json.ws_flat.imp fun _ h => ⟨rows_of_B h.1, h.2⟩) s
    (.read fuel Json.reader _ e s (.start _ (new_inside _ _)) (hE.imp fun _ h => ⟨rows_of_B h.1, h.2⟩) h)
  obtain ⟨u, hu⟩ := unknown_ends h2
  rcases e with _ | e
  · refine ⟨some u, ?_, rfl⟩
    unfold jsonMinify Scanner.use
    simp only [h, Exec.bind_ret, Option.isSome_none, Bool.false_eq_true, if_false, Exec.pure_eq, h1, hu]
  · refine ⟨none, ?_, rfl⟩
    unfold jsonMinify Scanner.use
    simp only [h, Exec.bind_ret, Option.isSome_some, if_true, Exec.pure_eq]

theorem Json.minify_hangs {rt : Rt} {t : Bytes} (h : ∀ n, read rt Json.env n Json.reader (Json.start t) = .timeout) (fuel : Nat) :
    jsonMinify rt fuel t = .timeout := by
  have key : ∀ n, read rt Json.wsEnv n Json.reader (Json.start t) = .timeout := fun n => by
    rcases hr : read rt Json.wsEnv n Json.reader (Json.start t) with ⟨e, s'⟩ | _ | _
    · obtain ⟨m, s'', h1, _⟩ := (Json.ws_same rt _ (Json.start_inside _) e s'.pos).mpr ⟨n, s', hr, rfl⟩
      rw [h m] at h1
      cases h1
    · exact absurd hr (C32_no_panic_partial rt _ _ ((Env.everyB_sound (p := Reader.safeB Json.wsEnv) (by decide)).imp fun _ => safeHere_of_safeB)
        ((Reader.everyB_sound (Reader.safeB Json.wsEnv) Json.reader (by decide)).imp fun _ => safeHere_of_safeB) n _ (Json.start_inside _))
    · rfl
  have := key fuel
  unfold Json.start at this
  unfold jsonMinify Scanner.use
  rw [this]
  rfl

/-- What the client does with every text.  Let `cs` be its characters, with malformed bytes read as U+FFFD.  The client gives a text exactly if its own
begins with a JSON document, it does not come to an end exactly if the text is cut off in a string, and it gives nothing in all other cases. -/
theorem C106_exact (rt : Rt) (t : Bytes) (zs : List Piece) (hp : Pieces t zs) (cs : List Char)
    (hc : zs.map (·.2) = cs.map (fun c => (c.toNat : Int))) :
    ((∃ N, ∀ fuel, N ≤ fuel → ∃ out, jsonMinify rt fuel t = .ret (some out)) ↔ ∃ ds es, cs = ds ++ es ∧ JsonDoc ds) ∧
    ((∀ fuel, jsonMinify rt fuel t = .timeout) ↔ JsonCut .element cs) ∧
    ((∃ N, ∀ fuel, N ≤ fuel → jsonMinify rt fuel t = .ret none) ↔ (∀ ds es, cs = ds ++ es → ¬ JsonDoc ds) ∧ ¬ JsonCut .element cs) := by
  have h1 := C48_begins rt (Json.start t) [] t (Json.start_between t) zs hp cs hc
  have h2 := C49_exact_partial rt (Json.start t) [] t (Json.start_between t) (Json.start_inside t) zs hp cs hc
  have h3 := C49_error_partial rt (Json.start t) [] t (Json.start_between t) (Json.start_inside t) zs hp cs hc
  have ends : ∀ {n e s'}, read rt Json.env n Json.reader (Json.start t) = .ret (e, s') →
      ∃ N, ∀ fuel, N ≤ fuel → ∃ o, jsonMinify rt fuel t = .ret o ∧ o.isNone = e.isSome := fun {n e s'} hr => by
    obtain ⟨m, u, h, _⟩ := (Json.ws_same rt (Json.start t) (Json.start_inside t) e s'.pos).mp ⟨n, s', hr, rfl⟩
    exact ⟨m, fun fuel hf => C106_reads rt fuel t e u (read_mono hf h)⟩
  have a1 : (∃ ds es, cs = ds ++ es ∧ JsonDoc ds) → ∃ N, ∀ fuel, N ≤ fuel → ∃ out, jsonMinify rt fuel t = .ret (some out) := fun h => by
    obtain ⟨n, s', hr⟩ := h1.mpr h
    obtain ⟨N, h⟩ := ends hr
    refine ⟨N, fun fuel hf => ?_⟩
    obtain ⟨o, h4, h5⟩ := h fuel hf
    cases o with
    | none => cases h5
    | some out => exact ⟨out, h4⟩
  have a3 : ((∀ ds es, cs = ds ++ es → ¬ JsonDoc ds) ∧ ¬ JsonCut .element cs) → ∃ N, ∀ fuel, N ≤ fuel → jsonMinify rt fuel t = .ret none := fun h => by
    obtain ⟨n, e, s', hr⟩ := h3.mpr h
    obtain ⟨N, h⟩ := ends hr
    refine ⟨N, fun fuel hf => ?_⟩
    obtain ⟨o, h4, h5⟩ := h fuel hf
    cases o with
    | none => exact h4
    | some out => cases h5
  have a2 : JsonCut .element cs → ∀ fuel, jsonMinify rt fuel t = .timeout := fun h => Json.minify_hangs (h2.mpr h)
  refine ⟨⟨fun ⟨N, h⟩ => ?_, a1⟩, ⟨fun h => ?_, a2⟩, ⟨fun ⟨N, h⟩ => ⟨fun ds es e hd => ?_, fun hcut => ?_⟩, a3⟩⟩
  · by_contra hn
    by_cases hcut : JsonCut .element cs
    · obtain ⟨out, h⟩ := h N (Nat.le_refl _)
      cases h.symm.trans (a2 hcut N)
    · obtain ⟨M, h'⟩ := a3 ⟨fun ds es e hd => hn ⟨ds, es, e, hd⟩, hcut⟩
      obtain ⟨out, h⟩ := h (max N M) (Nat.le_max_left _ _)
      cases h.symm.trans (h' (max N M) (Nat.le_max_right _ _))
  · by_contra hcut
    by_cases hd : ∃ ds es, cs = ds ++ es ∧ JsonDoc ds
    · obtain ⟨N, h'⟩ := a1 hd
      obtain ⟨out, h'⟩ := h' N (Nat.le_refl _)
      cases (h N).symm.trans h'
    · obtain ⟨N, h'⟩ := a3 ⟨fun ds es e hd' => hd ⟨ds, es, e, hd'⟩, hcut⟩
      cases (h N).symm.trans (h' N (Nat.le_refl _))
  · obtain ⟨M, h'⟩ := a1 ⟨ds, es, e, hd⟩
    obtain ⟨out, h'⟩ := h' (max N M) (Nat.le_max_right _ _)
    cases (h (max N M) (Nat.le_max_left _ _)).symm.trans h'
  · cases (h N (Nat.le_refl _)).symm.trans (a2 hcut N)

/-! ### an example -/

/-- `{ "a b" : [ 1 , [ ] ],\n"c\" ": [] }  x` -/
def exWide : List Char := "{ \"a b\" : [ 1 , [ ] ],\n\"c\\\" \": [] }  ".toList

example : squeeze .outside exWide = "{\"a b\":[1,[]],\"c\\\" \":[]}".toList := by decide

example : jsonMinify exRt 200 (encText (exWide ++ ['x'])) = .ret (some (encText "{\"a b\":[1,[]],\"c\\\" \":[]}x".toList)) := by decide +kernel

end Tok
