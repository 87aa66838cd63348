/-
C109 Changing what a grammar with `Body` picks.
-/
import Verif.Props.C109
import Verif.Props.C102Body

namespace Tok
open Spec

namespace Mxt

/-- The rules of the MXT grammar that are not made of each other. -/
def leafNames : List Bytes := [b!"marker", b!"name", b!"comment", b!"arrow", b!"salt", b!"content"]

/-- What these are made of. -/
def leafRules : List Nat := [iNextMarker, iWord, iWordChar, iNL]

def silentB : Reader → Bool
  | .pick _ _ _ => false
  | .wrap _ _ => false
  | .rule i => i == iWordChar
  | _ => true

/-- Nothing is picked, and the bodies use no rule but `wordchar`. -/
def quietB : Reader → Bool
  | .pick _ _ _ => false
  | .wrap _ _ => false
  | .body c _ => c.everyB silentB
  | .bodyTail c _ => c.everyB silentB
  | _ => true

def leafB (r : Reader) : Bool := quietB r && match r with | .rule i => leafRules.contains i | _ => true

variable {drop : Bytes → Bool} (hd : ∀ nm, drop nm = false → nm ∈ leafNames)
include hd

theorem kept_get {i : Nat} {nm : Bytes} {c : Reader} (hi : Mxt.env[i]? = some ⟨nm, some c⟩) (hn : nm ∉ leafNames) :
    (Mxt.env.pickOnly 0 drop)[i]? = some ⟨nm, some c⟩ := by
  unfold Env.pickOnly
  rw [List.getElem?_map, hi]
  have : drop nm = true := by
    cases h : drop nm
    · exact absurd (hd nm h) hn
    · rfl
  simp [this]

theorem silent_ok {c : Reader} (h : c.everyB silentB = true) : ∃ Q : Reader → Prop, (∀ r, Q r → r.noPick 0) ∧ c.Every Q ∧
    ∀ (i : Nat) (nm : Bytes) (d : Reader), Q (.rule i) → (Mxt.env.pickOnly 0 drop)[i]? = some ⟨nm, some d⟩ → d.Every Q := by
  refine ⟨fun r => silentB r = true, fun r h => ?_, Reader.everyB_sound _ _ h, fun i nm d hi hg => ?_⟩
  · cases r <;> first | trivial | cases h
  · obtain rfl : i = iWordChar := by simpa [silentB] using hi
    rw [kept_get hd (i := iWordChar) rfl (by decide)] at hg
    cases hg
    exact .mk rfl (by simp [Reader.subs])

theorem quiet_ok {r : Reader} (h : quietB r = true) : r.noPick 0 ∧ r.tracked (Mxt.env.pickOnly 0 drop) 0 := by
  cases r <;> first | exact ⟨trivial, trivial⟩ | exact ⟨trivial, silent_ok hd h⟩ | cases h

theorem quiet_rows {r : Reader} {D : Reader → Prop} (h : quietB r = true) : r.rows (Mxt.env.pickOnly 0 drop) 0 ∧ r.picksOnly 0 D := by
  cases r <;> first | exact ⟨trivial, trivial⟩ | exact ⟨silent_ok hd h, trivial⟩ | cases h

end Mxt

/-- A client that changes the markers, names, comments, arrows, salts and contents of MXT files, or some of these: whatever the text, it gives the text with
exactly these bytes changed if the grammar reads it, and nothing otherwise. -/
theorem C109_mxt (rt : Rt) (drop : Bytes → Bool) (hd : ∀ nm, drop nm = false → nm ∈ Mxt.leafNames) (f : Bytes → Bytes → Bytes) (fuel : Nat) (t : Bytes) :
    rewriteText rt fuel (Mxt.env.pickOnly 0 drop) Mxt.reader 0 f t =
      match read rt (Mxt.env.pickOnly 0 drop) fuel Mxt.reader ((Scanner.new t Heap.empty).newBasket 0) with
      | .ret (none, s) => .ret (some (splice f t 0 (s.heap.baskets 0)))
      | .ret (some _, _) => .ret none
      | .panic => .panic
      | .timeout => .timeout := by
  have hq : Mxt.env.Every fun r => Mxt.quietB r = true := Env.everyB_sound (by decide +kernel)
  refine C109_client_partial rt _ 0 (fun r => Mxt.leafB r = true) (fun r h => Mxt.quiet_ok hd (Bool.and_eq_true_iff.mp h).1) (fun i nm c hi hg => ?_) (fun rl hrl c hc => ?_)
    Mxt.reader ((Reader.everyB_sound Mxt.quietB _ (by decide)).imp fun _ h => Mxt.quiet_rows hd h) f fuel t
  · have hi : i ∈ Mxt.leafRules := List.contains_iff_mem.mp (Bool.and_eq_true_iff.mp hi).2
    simp only [Mxt.leafRules, List.mem_cons, List.not_mem_nil, or_false] at hi
    rcases hi with rfl | rfl | rfl | rfl
    · rw [Mxt.kept_get hd (i := Mxt.iNextMarker) rfl (by decide)] at hg
      cases hg
      exact Reader.everyB_sound _ _ (by decide)
    · rw [Mxt.kept_get hd (i := Mxt.iWord) rfl (by decide)] at hg
      cases hg
      exact Reader.everyB_sound _ _ (by decide)
    · rw [Mxt.kept_get hd (i := Mxt.iWordChar) rfl (by decide)] at hg
      cases hg
      exact Reader.everyB_sound _ _ (by decide)
    · rw [Mxt.kept_get hd (i := Mxt.iNL) rfl (by decide)] at hg
      cases hg
      exact Reader.everyB_sound _ _ (by decide)
  · obtain ⟨r, hr, rfl⟩ := List.mem_map.mp hrl
    split at hc
    · exact (hq r hr c hc).imp fun _ h => Mxt.quiet_rows hd h
    · rename_i h0
      obtain ⟨c', hc', rfl⟩ := Option.map_eq_some_iff.mp hc
      have hn := hd r.name (by simpa using h0)
      have hl : ∀ rl ∈ Mxt.env, rl.name ∈ Mxt.leafNames → ∀ c, rl.reader = some c → c.everyB Mxt.leafB = true := by
        intro rl hrl hn c hc
        have := List.all_eq_true.mp (show Mxt.env.all (fun rl => !Mxt.leafNames.contains rl.name || match rl.reader with | some c => c.everyB Mxt.leafB | none => true) = true by
          decide +kernel) rl hrl
        rw [List.contains_iff_mem.mpr hn, hc] at this
        simpa using this
      refine .mk ⟨trivial, fun _ => Reader.everyB_sound _ _ (hl r hr hn c' hc')⟩ fun x hx => ?_
      rw [List.mem_singleton.mp hx]
      exact (hq r hr c' hc').imp fun _ h => Mxt.quiet_rows hd h

/-- Other comments. -/
example : rewriteText exRt 80 (Mxt.env.pickOnly 0 fun nm => nm != b!"comment") Mxt.reader 0 (fun _ _ => b!" new ") b!"// a old -->\nc\n// b -->\nd" =
    .ret (some b!"// a new -->\nc\n// b new -->\nd") := by decide +kernel

/-- A function of the client that reads with such readers may stand in a `Wrap`. -/
theorem C109_calls (rt : Rt) (G : Env) (b : Nat) (D : Reader → Prop) (hD : ∀ r, D r → r.noPick b ∧ r.tracked G b)
    (hR : ∀ (i : Nat) (nm : Bytes) (c : Reader), D (.rule i) → G[i]? = some ⟨nm, some c⟩ → c.Every D)
    (hG : G.Every (fun r => r.rows G b ∧ r.picksOnly b D)) (r : Reader) (hr : r.Every (fun r => r.rows G b ∧ r.picksOnly b D)) (n : Nat) (what : Bytes) (G' : Env) :
    (Reader.wrap what (read rt G n r)).rows G' b ∧ (Reader.wrap what (read rt G n r)).picksOnly b D :=
  ⟨⟨fun s hs => (grew_frame rt G b).read (fun _ _ _ _ hi => (hG.get hi).imp fun _ h => rows_tracked h.1) n r (hr.imp fun _ h => rows_tracked h.1) s hs,
    fun s hs hrow x hx => ((rowed_frame rt G b D hD hR).read (fun _ _ _ _ hi => hG.get hi) n r hr s ⟨hs, hrow⟩ x hx).2⟩, trivial⟩

/-- A pick in a body: its segment has positions in the body, `Segmentate` refuses the basket, and the client does not give the text. -/
theorem C109_body_violated : ∃ (r : Reader) (t : Bytes) (s : Scanner),
    read exRt [] 30 r ((Scanner.new t Heap.empty).newBasket 0) = .ret (none, s) ∧ s.heap.baskets 0 = [⟨b!"A", ⟨0, 1⟩⟩, ⟨b!"B", ⟨0, 1⟩⟩] ∧
    (s.segmentate (s.heap.baskets 0)).2.isSome = true ∧ rewriteText exRt 30 [] r 0 (fun _ x => x) t ≠ .ret (some t) := by
  refine ⟨.seq [.pick b!"A" 0 (.rune 122), .bodyTail (.pick b!"B" 0 (.rune 121)) (.rune 59)], b!"zy;", _, rfl, rfl, by decide +kernel, ?_⟩
  have : rewriteText exRt 30 [] (.seq [.pick b!"A" 0 (.rune 122), .bodyTail (.pick b!"B" 0 (.rune 121)) (.rune 59)]) 0 (fun _ x => x) b!"zy;" = .ret none := by
    decide +kernel
  rw [this]
  intro h
  cases h

end Tok
