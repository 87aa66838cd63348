/-
C108 with any text: when the client gives a text, when it gives nothing and when it does not end.
-/
import Verif.Props.C106
import Verif.Props.C109

namespace Tok
open Spec

namespace Json

/-- The client picks the rules with these names. -/
def namePicks (names : List Bytes) (i : Nat) : List Decor := match env[i]? with
  | some rl => if names.contains rl.name then [.pick 0] else []
  | none => []

theorem edit_dress (names : List Bytes) : editEnv names = dress (namePicks names) env := by
  refine List.ext_getElem? fun i => ?_
  unfold editEnv dress
  rw [List.getElem?_map, List.getElem?_mapIdx]
  unfold namePicks
  cases env[i]? with
  | none => rfl
  | some rl =>
    simp only [Option.map_some]
    by_cases h : names.contains rl.name = true
    · rw [if_pos h, if_pos h]; rfl
    · rw [if_neg h, if_neg h]; rfl

theorem edit_same (rt : Rt) (names : List Bytes) (s : Scanner) (hs : Inside s) (e : Option Err) (pos : Int) :
    (∃ n s', read rt env n reader s = .ret (e, s') ∧ s'.pos = pos) ↔ ∃ n s', read rt (editEnv names) n reader s = .ret (e, s') ∧ s'.pos = pos := by
  rw [edit_dress]
  refine C44_rules_partial rt env ((Env.everyB_sound (p := Reader.tameB) (by decide)).imp fun _ => tame_of_B) (restoresB_env (by decide))
    _ reader (.mk trivial ?_) s hs e pos
  intro r hr
  simp [reader, Reader.subs] at hr
  subst hr
  exact .mk trivial (by simp [Reader.subs])

theorem edit_safeHere (names : List Bytes) {r : Reader} (h : r.safeHere False env) (hw : ∀ w f, r ≠ .wrap w f) : r.safeHere False (editEnv names) := by
  cases r with
  | rule i =>
    rcases h with h | ⟨nm, c, h⟩
    · exact h.elim
    · refine .inr ?_
      unfold editEnv
      rw [List.getElem?_map, h]
      simp only [Option.map_some]
      split
      · exact ⟨_, _, rfl⟩
      · exact ⟨_, _, rfl⟩
  | wrap w f => exact absurd rfl (hw w f)
  | _ => exact h

theorem edit_safe (names : List Bytes) : (editEnv names).Every (Reader.safeHere False (editEnv names)) := by
  have h0 : env.Every (Reader.safeHere False (editEnv names)) := by
    have h1 : env.Every (fun r => r.trackedB = true) := Env.everyB_sound (p := Reader.trackedB) (by decide)
    exact fun rl hrl r hr => (((safe (p := False)) rl hrl r hr).and (h1 rl hrl r hr)).imp fun r h => edit_safeHere names h.1 fun w f e => by
      subst e
      cases h.2
  intro rl hrl r hr
  obtain ⟨⟨nm, c⟩, hm, rfl⟩ := List.mem_map.mp hrl
  dsimp only at hr
  split at hr
  · cases c with
    | none => cases hr
    | some c =>
      cases hr
      exact .mk trivial fun d hd => by
        cases List.mem_singleton.mp hd
        exact h0 _ hm c rfl
  · exact h0 _ hm r hr

theorem edit_no_panic (rt : Rt) (names : List Bytes) (n : Nat) (t : Bytes) : read rt (editEnv names) n reader (start t) ≠ .panic := by
  refine C32_no_panic_partial rt _ _ (edit_safe names) (.mk (r := .grammar _ _) trivial ?_) n _ (start_inside _)
  intro r hr
  simp [reader, Reader.subs] at hr
  subst hr
  refine .mk (edit_safeHere names (.inr ⟨_, _, rfl⟩) (by simp)) (by simp [Reader.subs])

end Json

/-- What the client does with every text, whatever leaves are picked and whatever the function.  Let `cs` be the characters of the text, with malformed
bytes read as U+FFFD.  The client gives a text exactly if its own begins with a JSON document, it does not come to an end exactly if the text is cut off in
a string, and it gives nothing in all other cases. -/
theorem C108_exact (rt : Rt) (names : List Bytes) (hn : ∀ nm ∈ names, nm ∈ jsonLeaves) (f : Bytes → Bytes → Bytes) (t : Bytes) (zs : List Piece)
    (hp : Pieces t zs) (cs : List Char) (hc : zs.map (·.2) = cs.map (fun c => (c.toNat : Int))) :
    ((∃ N, ∀ fuel, N ≤ fuel → ∃ out, jsonEdit rt fuel names f t = .ret (some out)) ↔ ∃ ds es, cs = ds ++ es ∧ JsonDoc ds) ∧
    ((∀ fuel, jsonEdit rt fuel names f t = .timeout) ↔ JsonCut .element cs) ∧
    ((∃ N, ∀ fuel, N ≤ fuel → jsonEdit rt fuel names f t = .ret none) ↔ (∀ ds es, cs = ds ++ es → ¬ JsonDoc ds) ∧ ¬ JsonCut .element cs) := by
  have h1 := C48_begins rt (Json.start t) [] t (Json.start_between t) zs hp cs hc
  have h2 := C49_exact_partial rt (Json.start t) [] t (Json.start_between t) (Json.start_inside t) zs hp cs hc
  have h3 := C49_error_partial rt (Json.start t) [] t (Json.start_between t) (Json.start_inside t) zs hp cs hc
  have ends : ∀ {n e s'}, read rt Json.env n Json.reader (Json.start t) = .ret (e, s') →
      ∃ N, ∀ fuel, N ≤ fuel → ∃ o, jsonEdit rt fuel names f t = .ret o ∧ o.isNone = e.isSome := fun {n e s'} hr => by
    obtain ⟨m, u, h, _⟩ := (Json.edit_same rt names (Json.start t) (Json.start_inside t) e s'.pos).mp ⟨n, s', hr, rfl⟩
    refine ⟨m, fun fuel hf => ?_⟩
    obtain ⟨o, h4, h5, _⟩ := C108_reads rt names hn f fuel t e u (read_mono hf h)
    exact ⟨o, h4, h5⟩
  have a1 : (∃ ds es, cs = ds ++ es ∧ JsonDoc ds) → ∃ N, ∀ fuel, N ≤ fuel → ∃ out, jsonEdit rt fuel names f t = .ret (some out) := fun h => by
    obtain ⟨n, s', hr⟩ := h1.mpr h
    obtain ⟨N, h⟩ := ends hr
    refine ⟨N, fun fuel hf => ?_⟩
    obtain ⟨o, h4, h5⟩ := h fuel hf
    cases o with
    | none => cases h5
    | some out => exact ⟨out, h4⟩
  have a3 : ((∀ ds es, cs = ds ++ es → ¬ JsonDoc ds) ∧ ¬ JsonCut .element cs) → ∃ N, ∀ fuel, N ≤ fuel → jsonEdit rt fuel names f t = .ret none := fun h => by
    obtain ⟨n, e, s', hr⟩ := h3.mpr h
    obtain ⟨N, h⟩ := ends hr
    refine ⟨N, fun fuel hf => ?_⟩
    obtain ⟨o, h4, h5⟩ := h fuel hf
    cases o with
    | none => exact h4
    | some out => cases h5
  have a2 : JsonCut .element cs → ∀ fuel, jsonEdit rt fuel names f t = .timeout := fun h fuel => by
    have key : read rt (Json.editEnv names) fuel Json.reader (Json.start t) = .timeout := by
      rcases hr : read rt (Json.editEnv names) fuel Json.reader (Json.start t) with ⟨e, s'⟩ | _ | _
      · obtain ⟨m, s'', h4, _⟩ := (Json.edit_same rt names _ (Json.start_inside _) e s'.pos).mpr ⟨fuel, s', hr, rfl⟩
        rw [h2.mpr h m] at h4
        cases h4
      · exact absurd hr (Json.edit_no_panic rt names fuel t)
      · rfl
    unfold Json.start at key
    unfold jsonEdit Scanner.use
    rw [key]
    rfl
  refine ⟨⟨fun ⟨N, h⟩ => ?_, a1⟩, ⟨fun h => ?_, a2⟩, ⟨fun ⟨N, h⟩ => ⟨fun ds es e hd => ?_, fun hcut => ?_⟩, a3⟩⟩
  · by_contra hn
    by_cases hcut : JsonCut .element cs
    · obtain ⟨out, h⟩ := h N (Nat.le_refl _)
      cases h.symm.trans (a2 hcut N)
    · obtain ⟨M, h'⟩ := a3 ⟨fun ds es e hd => hn ⟨ds, es, e, hd⟩, hcut⟩
      obtain ⟨out, h⟩ := h (max N M) (Nat.le_max_left _ _)
      cases h.symm.trans (h' (max N M) (Nat.le_max_right _ _))
  · by_contra hcut
    by_cases hd : ∃ ds es, cs = ds ++ es ∧ JsonDoc ds
    · obtain ⟨N, h'⟩ := a1 hd
      obtain ⟨out, h'⟩ := h' N (Nat.le_refl _)
      cases (h N).symm.trans h'
    · obtain ⟨N, h'⟩ := a3 ⟨fun ds es e hd' => hd ⟨ds, es, e, hd'⟩, hcut⟩
      cases (h N).symm.trans (h' N (Nat.le_refl _))
  · obtain ⟨M, h'⟩ := a1 ⟨ds, es, e, hd⟩
    obtain ⟨out, h'⟩ := h' (max N M) (Nat.le_max_right _ _)
    cases (h (max N M) (Nat.le_max_left _ _)).symm.trans h'
  · cases (h N (Nat.le_refl _)).symm.trans (a2 hcut N)

/-- A text that is cut off in a string: a client that only wants to change numbers does not end. -/
example (rt : Rt) (f : Bytes → Bytes → Bytes) (fuel : Nat) : jsonEdit rt fuel [b!"number"] f b!"[\"" = .timeout := by
  refine (C108_exact rt [b!"number"] (by decide) f b!"[\"" _ (pieces_encText ['[', '"']) ['[', '"'] (by decide)).2.1.mpr ?_ fuel
  exact .element (us := []) .ws_none (.value_array (.array (.elements_first (.element (us := []) .ws_none (.value_string (.string .characters_none))))))

end Tok
