/-
C101 Every instance of a grammar reads alike.
-/
import Verif.Proofs.Relocate
import Verif.Model.Grammars

namespace Tok

open Spec Relocate

/-- Another instance of a grammar and of a reader, with its own Janus pairs, baskets, trackers, logs, values and map functions: the
outcome is the same, with the same error at the same position after the same number of steps, and each of its objects is afterwards
what the object of the first instance is. -/
theorem C101_alike (rt : Rt) (p : Places) (hp : p.Apart) (G : Env) (hG : G.Every (Reader.wrapAlike p)) (r : Reader) (hr : r.Every (Reader.wrapAlike p)) (n : Nat)
    (s t : Scanner) (h : Paired p s t) : PairedE p (read rt G n r s) (read rt (G.map (Rule.reloc p)) n (Reader.reloc p r) t) :=
  of_abreast (read_alike hp rt hG n r hr) h

/-- They are shown by the same text. -/
theorem C101_what (rt : Rt) (p : Places) (G : Env) (r : Reader) : (Reader.reloc p r).what rt (G.map (Rule.reloc p)) = r.what rt G :=
  what_reloc rfl r

/-- Nothing was done yet with the objects of the other instance. -/
structure Spec.Unused (p : Places) (k : Heap) : Prop where
  janus : ∀ i, k.janus (p.janus i) = []
  baskets : ∀ i, k.baskets (p.baskets i) = []
  tracks : ∀ i, k.tracks (p.tracks i) = []
  logs : ∀ i, k.logs (p.logs i) = Log.empty
  cells : ∀ i, k.cells (p.cells i) = .unset

/-- So an instance made later does, whatever was read before with other instances, what the first one did when nothing had been read. -/
theorem C101_new (rt : Rt) (p : Places) (hp : p.Apart) (G : Env) (hG : G.Every (Reader.wrapAlike p)) (r : Reader) (hr : r.Every (Reader.wrapAlike p)) (n : Nat)
    (text : Bytes) (k : Heap) (hk : Unused p k) (hb : k.maps = p.before) :
    PairedE p (read rt G n r (Scanner.new text Heap.empty)) (read rt (G.map (Rule.reloc p)) n (Reader.reloc p r) (Scanner.new text k)) :=
  C101_alike rt p hp G hG r hr n _ _ ⟨⟨hk.janus, hk.baskets, hk.tracks, hk.logs, hk.cells, by simpa [Heap.empty, Scanner.new] using hb⟩, rfl, rfl, rfl⟩

/-- Without functions of `Wrap`. -/
theorem C101_plain (p : Places) (r : Reader) (h : r.Every fun c => c.noWrap = true) : r.Every (Reader.wrapAlike p) :=
  h.imp fun c hc => by cases c <;> first | exact trivial | simp [Reader.noWrap] at hc

/-- The two calls of a constructor of a shipped grammar. -/
theorem C101_shipped (rt : Rt) (p : Places) (hp : p.Apart) (n : Nat) (s t : Scanner) (h : Paired p s t) :
    PairedE p (read rt Json.env n Json.reader s) (read rt (Json.env.map (Rule.reloc p)) n (Reader.reloc p Json.reader) t) ∧
    PairedE p (read rt Mxt.env n Mxt.reader s) (read rt (Mxt.env.map (Rule.reloc p)) n (Reader.reloc p Mxt.reader) t) ∧
    PairedE p (read rt Lua.env n Lua.reader s) (read rt (Lua.env.map (Rule.reloc p)) n (Reader.reloc p Lua.reader) t) := by
  have hw : ∀ c : Reader, c.noWrap = true → Reader.wrapAlike p c := fun c hc => by cases c <;> first | exact trivial | simp [Reader.noWrap] at hc
  exact ⟨C101_alike rt p hp _ ((Env.everyB_sound (by decide)).imp hw) _ ((Reader.everyB_sound _ _ (by decide)).imp hw) n s t h,
    C101_alike rt p hp _ ((Env.everyB_sound (by decide)).imp hw) _ ((Reader.everyB_sound _ _ (by decide)).imp hw) n s t h,
    C101_alike rt p hp _ ((Env.everyB_sound (by decide +kernel)).imp hw) _ ((Reader.everyB_sound _ _ (by decide)).imp hw) n s t h⟩

/-- Quotes of any length: as many apostrophes as at the beginning end the text.  `k` is the number of the Janus pair, `b` of the basket. -/
def exQuote (k b : Nat) : Reader := .pick b!"quoted" b (.seq [.janusBegin k b!"q" (.many (.rune 39)), .lit b!"x", .janusEnd k b!"q"])

/-- The second instance has the pair 5 and the basket 2. -/
def exPlaces : Places := ⟨(· + 5), (· + 2), id, id, id, id, id, []⟩

example : exPlaces.Apart := ⟨fun a b h => by simpa [exPlaces] using h, fun a b h => by simpa [exPlaces] using h, fun _ _ h => h, fun _ _ h => h, fun _ _ h => h⟩

example : Reader.reloc exPlaces (exQuote 0 0) = exQuote 5 2 := rfl

example (rt : Rt) : ∃ s' t', read rt [] 30 (exQuote 0 0) (Scanner.new b!"''x''" Heap.empty) = .ret (none, s') ∧
    read rt [] 30 (exQuote 5 2) (Scanner.new b!"''x''" Heap.empty) = .ret (none, t') ∧ s'.heap.baskets 0 = [⟨b!"quoted", ⟨0, 5⟩⟩] ∧
    t'.heap.baskets 2 = [⟨b!"quoted", ⟨0, 5⟩⟩] ∧ t'.heap.baskets 0 = [] := ⟨_, _, rfl, rfl, rfl, rfl, rfl⟩

/-- Two pairs, one inside of the other. -/
def exNested (i j : Nat) : Reader :=
  .seq [.janusBegin i b!"a" (.lit b!"1"), .janusBegin j b!"b" (.lit b!"2"), .janusEnd j b!"b", .janusEnd i b!"a"]

/-- If different objects do not stay different, the claim is false: with one pair in place of both, the last reader expects the empty string
and the read ends before the second `1`. -/
theorem C101_merged_violated : ∃ (p : Places) (r : Reader) (s : Scanner), Paired p s s ∧ r.Every (Reader.wrapAlike p) ∧
    ∀ rt, ¬ PairedE p (read rt [] 9 r s) (read rt [] 9 (Reader.reloc p r) s) := by
  refine ⟨⟨fun _ => 0, id, id, id, id, id, id, []⟩, exNested 0 1, Scanner.new b!"1221" Heap.empty,
    ⟨⟨fun _ => rfl, fun _ => rfl, fun _ => rfl, fun _ => rfl, fun _ => rfl, rfl⟩, rfl, rfl, rfl⟩, ?_, fun rt h => ?_⟩
  · exact C101_plain _ _ (Reader.everyB_sound _ _ (by decide))
  · have : ∃ s' t', read rt [] 9 (exNested 0 1) (Scanner.new b!"1221" Heap.empty) = .ret (none, s') ∧ s'.pos = 4 ∧
        read rt [] 9 (exNested 0 0) (Scanner.new b!"1221" Heap.empty) = .ret (none, t') ∧ t'.pos = 3 := ⟨_, _, rfl, rfl, rfl, rfl⟩
    obtain ⟨s', t', h1, h2, h3, h4⟩ := this
    have h5 : Reader.reloc ⟨fun _ => 0, id, id, id, id, id, id, []⟩ (exNested 0 1) = exNested 0 0 := rfl
    rw [h5, h1, h3] at h
    have := h.2.pos
    rw [h2, h4] at this
    omega

end Tok
