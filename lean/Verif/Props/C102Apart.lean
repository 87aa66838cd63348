/-
C102 Picking some of the rules, into a basket that does not track the scanner.
-/
import Verif.Proofs.FewerFree
import Verif.Props.C102

namespace Tok

open Spec Less Free

/-- What is inside a `Map` or `Pick` goes back on failure, and a function of the client (`Wrap`) only moves forward and does the same whatever was left out
of the basket. -/
def Reader.tamePick (q : Leave) : Reader → Prop
  | .wrap _ f => Safe True f ∧ DoesSame (FewerApart q) f
  | r => r.tame

theorem pickyApart_of_tame {rt : Rt} {G : Env} (q : Leave) (hG : G.Every (Reader.tamePick q)) (hk : ∀ rl ∈ G, ∀ c, rl.reader = some c → c.keeps) {r : Reader}
    (hr : r.Every (Reader.tamePick q)) : r.Every (Reader.pickyApart rt G q) := by
  have safe : ∀ r : Reader, r.tamePick q → r.safeHere True G := fun r h => by
    cases r <;> first | exact h.elim | exact .inl trivial | exact trivial | exact h.1
  have hS := hG.imp safe
  induction hr with
  | @mk r hp hs ih =>
    refine .mk ⟨safe r hp, ?_⟩ ih
    cases r with
    | wrap w f => exact hp.2
    | pick i b c => exact fun _ n => read_restores rt G hS hk n c ((hs c (by simp [Reader.subs])).imp safe) hp
    | _ => trivial

/-- A scanner that tells no basket: a read with a grammar, and with the same grammar without some of the picks, gives the same error or none at the same position,
nothing else differs, and the basket has afterwards the segments of the other picks, `Body` included.

Missing: functions of the client that look at the basket (`C102_looks_violated`). -/
theorem C102_apart_partial (rt : Rt) (q : Leave) (G : Env) (hG : G.Every (Reader.tamePick q)) (hk : ∀ rl ∈ G, ∀ c, rl.reader = some c → c.keeps)
    (r : Reader) (hr : r.Every (Reader.tamePick q)) (s t : Scanner) (hs : Inside s) (h : FewerApart q s t) :
    (∀ n e s', read rt G n r s = .ret (e, s') → ∃ t', read rt (Env.fewer q G) n (Reader.fewer q r) t = .ret (e, t') ∧ FewerApart q s' t') ∧
    (∀ m e t', read rt (Env.fewer q G) m (Reader.fewer q r) t = .ret (e, t') → ∃ n s', read rt G n r s = .ret (e, s') ∧ FewerApart q s' t') := by
  have hG' : G.Every (Reader.pickyApart rt G q) := fun rl hrl c hc => pickyApart_of_tame q hG hk (hG rl hrl c hc)
  have hr' := pickyApart_of_tame (rt := rt) q hG hk hr
  constructor
  · intro n e s' hrd
    obtain ⟨e', t', h1, h2, h3⟩ := apart_ret rt G hG' hr' hs h hrd
    obtain rfl := h2.eq
    exact ⟨t', h1, h3⟩
  · intro m e t' hrd
    obtain ⟨n, e', s', h1, h2, h3⟩ := apart_ret' rt G hG' hr' hs h hrd
    obtain rfl := h2.eq
    exact ⟨n, s', h1, h3⟩

/-- A grammar whose rules were picked for a basket reads another text with a scanner that knows nothing of the basket: the segments in a basket for some rules
are those of the basket for all rules that have the names of these rules, in the same order. -/
theorem C102_second_partial (rt : Rt) (b : Nat) (drop : Bytes → Bool) (G : Env) (hp : G.Every Reader.pickless) (hG : G.Every (Reader.tamePick ⟨b, drop⟩)) (hk : ∀ rl ∈ G, ∀ c, rl.reader = some c → c.keeps)
    (r : Reader) (hr : r.Every (Reader.tamePick ⟨b, drop⟩)) (hpr : r.Every Reader.pickless) (text : Bytes) (hp0 : Heap) (hb : hp0.baskets b = [])
    (tr : Option TrackerRef) (htr : ∀ b, tr ≠ some (.basket b)) (e : Option Err) (pos : Int) (l : List Segment) :
    (∃ n t', read rt (G.pickOnly b drop) n r ⟨text, 0, tr, hp0⟩ = .ret (e, t') ∧ t'.pos = pos ∧ t'.heap.baskets b = l) ↔
      ∃ n s', read rt (G.pickAll b) n r ⟨text, 0, tr, hp0⟩ = .ret (e, s') ∧ s'.pos = pos ∧ (s'.heap.baskets b).filter (fun g => !drop g.info) = l := by
  have hG' : (G.pickAll b).Every (Reader.tamePick ⟨b, drop⟩) := fun rl hrl c hc => by
    obtain ⟨r, hr, rfl⟩ := List.mem_map.mp hrl
    obtain ⟨c', hc', rfl⟩ := Option.map_eq_some_iff.mp hc
    exact .mk (hk r hr c' hc') fun x hx => List.mem_singleton.mp hx ▸ hG r hr c' hc'
  have hk' : ∀ rl ∈ G.pickAll b, ∀ c, rl.reader = some c → c.keeps := fun rl hrl c hc => by
    obtain ⟨r, hr, rfl⟩ := List.mem_map.mp hrl
    obtain ⟨c', hc', rfl⟩ := Option.map_eq_some_iff.mp hc
    exact trivial
  have hf : FewerApart ⟨b, drop⟩ ⟨text, 0, tr, hp0⟩ ⟨text, 0, tr, hp0⟩ :=
    ⟨rfl, rfl, htr, rfl, rfl, rfl, rfl, rfl, fun _ _ => rfl, by simp [hb, Leave.rest]⟩
  have hs : Inside ⟨text, 0, tr, hp0⟩ := ⟨Int.le_refl _, by simp⟩
  obtain ⟨less, more⟩ := C102_apart_partial rt ⟨b, drop⟩ _ hG' hk' r hr _ _ hs hf
  constructor
  · rintro ⟨n, t', h1, h2, h3⟩
    rw [← fewer_pickAll hp] at h1
    have e1 := fewer_pickless (q := ⟨b, drop⟩) hpr
    obtain ⟨m, s', h4, h5⟩ := more n e t' (by rw [e1]; exact h1)
    exact ⟨m, s', h4, h5.pos.symm.trans h2, h5.kept.symm.trans h3⟩
  · rintro ⟨n, s', h1, h2, h3⟩
    obtain ⟨t', h4, h5⟩ := less n e s' h1
    rw [fewer_pickAll hp, fewer_pickless (q := ⟨b, drop⟩) hpr] at h4
    exact ⟨n, t', h4, h5.pos.trans h2, h5.kept.trans h3⟩

/-- Boolean tests for the hypotheses. -/
def Reader.tamePickB : Reader → Bool
  | .pick _ _ _ => false
  | r => r.tameB

theorem tamePick_of_B {q : Leave} {r : Reader} (h : r.tamePickB = true) : r.tamePick q ∧ r.pickless := by
  cases r <;> first | cases (show false = true from h) | exact ⟨tame_of_B (r := _) h, trivial⟩ | exact ⟨keeps_of_restoresB h, trivial⟩ | exact ⟨trivial, trivial⟩

/-- The three shipped grammars, with a scanner that knows nothing of the basket. -/
theorem C102_second_shipped (rt : Rt) (b : Nat) (drop : Bytes → Bool) (text : Bytes) (hp0 : Heap) (hb : hp0.baskets b = [])
    (tr : Option TrackerRef) (htr : ∀ b, tr ≠ some (.basket b)) (e : Option Err) (pos : Int)
    (l : List Segment) (G : Env) (r : Reader)
    (h : (G = Json.env ∧ r = Json.reader) ∨ (G = Lua.env ∧ r = Lua.reader) ∨ (G = Mxt.env ∧ r = Mxt.reader)) :
    (∃ n t', read rt (G.pickOnly b drop) n r ⟨text, 0, tr, hp0⟩ = .ret (e, t') ∧ t'.pos = pos ∧ t'.heap.baskets b = l) ↔
      ∃ n s', read rt (G.pickAll b) n r ⟨text, 0, tr, hp0⟩ = .ret (e, s') ∧ s'.pos = pos ∧ (s'.heap.baskets b).filter (fun g => !drop g.info) = l := by
  have hG : G.Every fun r => r.tamePickB = true := by
    rcases h with ⟨rfl, _⟩ | ⟨rfl, _⟩ | ⟨rfl, _⟩
    · exact Env.everyB_sound (by decide)
    · exact Env.everyB_sound (by decide +kernel)
    · exact Env.everyB_sound (by decide +kernel)
  have hr : r.Every fun r => r.tamePickB = true := by
    rcases h with ⟨_, rfl⟩ | ⟨_, rfl⟩ | ⟨_, rfl⟩ <;> exact Reader.everyB_sound _ _ (by decide)
  have hk : ∀ rl ∈ G, ∀ c, rl.reader = some c → c.keeps := by
    rcases h with ⟨rfl, _⟩ | ⟨rfl, _⟩ | ⟨rfl, _⟩
    · exact (C76_shipped _ (.inl rfl)).2.2.1
    · exact (C76_shipped _ (.inr rfl)).2.2.1
    · intro rl hrl c hc
      have := List.all_eq_true.mp (show Mxt.env.all (fun rl => match rl.reader with | some c => c.restoresB | none => true) = true from rfl) rl hrl
      simp only [hc] at this
      exact keeps_of_restoresB this
  exact C102_second_partial rt b drop G (hG.imp fun _ h => (tamePick_of_B (q := ⟨b, drop⟩) h).2) (hG.imp fun _ h => (tamePick_of_B h).1) hk r
    (hr.imp fun _ h => (tamePick_of_B h).1) (hr.imp fun _ h => (tamePick_of_B (q := ⟨b, drop⟩) h).2) text hp0 hb tr htr e pos l

/-- What `C102_violated` shows for a tracked scanner does not happen here: the segment `A`, which was rolled back, stays, with and without the other pick. -/
example : basketAfter 0 (read exRt [] 30 exBodyPick (.new b!"zxxy;" Heap.empty)) = some (true, 5, [⟨b!"A", ⟨1, 3⟩⟩, ⟨b!"in", ⟨0, 1⟩⟩]) ∧
    basketAfter 0 (read exRt [] 30 (Reader.fewer ⟨0, fun i => i == b!"in"⟩ exBodyPick) (.new b!"zxxy;" Heap.empty)) = some (true, 5, [⟨b!"A", ⟨1, 3⟩⟩]) := by
  constructor <;> decide +kernel

/-- A picked reader that does not go back on failure: with the pick the scanner is at 0, without it at 1. -/
theorem C102_times_violated : ∃ (r : Reader) (drop : Bytes → Bool) (text : Bytes),
    basketAfter 0 (read exRt [] 30 r (.new text Heap.empty)) = some (true, 0, []) ∧
    basketAfter 0 (read exRt [] 30 (Reader.fewer ⟨0, drop⟩ r) (.new text Heap.empty)) = some (true, 1, []) := by
  refine ⟨.opt (.pick b!"A" 0 (.times 2 (.rune 97))), fun _ => true, b!"ab", ?_, ?_⟩ <;> decide +kernel

/-- What a tracker of the client was told is not the same: a pick that fails goes back to where the scanner is, and the tracker is told. -/
theorem C102_told_violated : ∃ (r : Reader) (drop : Bytes → Bool) (text : Bytes) (s s' : Scanner),
    read exRt [] 30 r ⟨text, 0, some (.custom 0), Heap.empty⟩ = .ret (none, s) ∧
    read exRt [] 30 (Reader.fewer ⟨0, drop⟩ r) ⟨text, 0, some (.custom 0), Heap.empty⟩ = .ret (none, s') ∧
    s.heap.tracks 0 = [0] ∧ s'.heap.tracks 0 = [] :=
  ⟨.opt (.pick b!"A" 0 (.rune 97)), fun _ => true, b!"b", _, _, rfl, rfl, rfl, rfl⟩

/-- A basket of the client that has a segment behind the scanner loses it, or not. -/
theorem C102_other_violated : ∃ (r : Reader) (drop : Bytes → Bool) (text : Bytes) (hp : Heap) (s s' : Scanner),
    read exRt [] 30 r ⟨text, 0, some (.basket 1), hp⟩ = .ret (none, s) ∧
    read exRt [] 30 (Reader.fewer ⟨0, drop⟩ r) ⟨text, 0, some (.basket 1), hp⟩ = .ret (none, s') ∧
    s.heap.baskets 1 = [] ∧ s'.heap.baskets 1 = [⟨b!"B", ⟨0, 1⟩⟩] :=
  ⟨.opt (.pick b!"A" 0 (.rune 97)), fun _ => true, b!"b", { Heap.empty with baskets := fun i => if i = 1 then [⟨b!"B", ⟨0, 1⟩⟩] else [] }, _, _, rfl, rfl, rfl, rfl⟩

/-- A function of the client that reads with readers of the library, none of whose picks is left out, may stand in a `Wrap`. -/
theorem C102_calls_apart (rt : Rt) (q : Leave) (G : Env) (hG : G.Every fun r => r.tamePick q ∧ q.gone r = false)
    (hk : ∀ rl ∈ G, ∀ c, rl.reader = some c → c.keeps) (r : Reader) (hr : r.Every fun r => r.tamePick q ∧ q.gone r = false) (n : Nat) (what : Bytes) :
    (Reader.wrap what (read rt G n r)).tamePick q := by
  have h1 := hG.imp fun _ h => h.1
  have h2 := hr.imp fun _ h => h.1
  have pG : G.Every (Reader.pickyApart rt G q) := fun rl hrl c hc => pickyApart_of_tame q h1 hk (h1 rl hrl c hc)
  have pr := pickyApart_of_tame (rt := rt) q h1 hk h2
  refine ⟨pickyApart_safe pG pr n, .of_sim fun s t hs hR => ?_⟩
  have := apart_equal rt G (fun rl hrl c hc => (pG rl hrl c hc).and ((hG rl hrl c hc).imp fun _ h => h.2)) n r (pr.and (hr.imp fun _ h => h.2)) s t hs hR
  rw [fewer_ungone (hr.imp fun _ h => h.2), fewerEnv_ungone (hG.imp fun _ h => h.2)] at this
  exact this.mono fun a b _ _ hab => ⟨hab.1.eq, hab.2.1⟩

/-- Without a tracker a function that looks at the basket does not do the same either. -/
theorem C102_looks_apart_violated : ∃ (r : Reader) (drop : Bytes → Bool) (text : Bytes),
    basketAfter 0 (read exRt [] 30 r (.new text Heap.empty)) = some (false, 0, [⟨b!"A", ⟨0, 1⟩⟩]) ∧
    basketAfter 0 (read exRt [] 30 (Reader.fewer ⟨0, drop⟩ r) (.new text Heap.empty)) = some (true, 1, []) := by
  refine ⟨.seq [.pick b!"A" 0 (.rune 97), .wrap b!"looks" (looksIn 0)], fun _ => true, b!"a", ?_, ?_⟩ <;> decide +kernel

/-- A body in a function of the client, with a scanner that knows nothing of the basket. -/
example : basketAfter 0 (read exRt [] 30 (.seq [.pick b!"A" 0 (.rune 97), .wrap b!"body" (read exRt [] 9 (.bodyTail (.pick b!"B" 0 (.rune 98)) (.rune 59)))])
      (.new b!"ab;" Heap.empty)) = some (true, 3, [⟨b!"A", ⟨0, 1⟩⟩, ⟨b!"B", ⟨0, 1⟩⟩]) ∧
    basketAfter 0 (read exRt [] 30 (Reader.fewer exCallsLeave (.seq [.pick b!"A" 0 (.rune 97),
        .wrap b!"body" (read exRt [] 9 (.bodyTail (.pick b!"B" 0 (.rune 98)) (.rune 59)))])) (.new b!"ab;" Heap.empty)) = some (true, 3, [⟨b!"B", ⟨0, 1⟩⟩]) := by
  constructor <;> decide +kernel

end Tok
