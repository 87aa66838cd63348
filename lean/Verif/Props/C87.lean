/-
C87: what a read tells the outside.
-/
import Verif.Proofs.Trace2

namespace Tok
open Spec

theorem leaf_every {r : Reader} (h : r.leaf = true) : r.Every (fun r => r.noWrap = true) := by
  cases r <;> first | (simp [Reader.leaf] at h; done) | exact .mk rfl (fun c hc => by cases hc)

section
variable {rt : Rt} {G : Env}

theorem trace_of_e (hG : G.Every (fun r => r.noWrap = true)) {L : Nat} {task : Task} {st : St} {x : Bool × St} {es : List Event}
    (h : Trace G (E rt G) L task st x es) : Trace G (Outcome rt G) L task st x es :=
  trace_mono (fun _ _ _ hl h => (outcome_iff hG (leaf_every hl)).mpr h) h

theorem trace_to_e (hG : G.Every (fun r => r.noWrap = true)) {L : Nat} {task : Task} {st : St} {x : Bool × St} {es : List Event}
    (h : Trace G (Outcome rt G) L task st x es) : Trace G (E rt G) L task st x es :=
  trace_mono (fun _ _ _ hl h => (outcome_iff hG (leaf_every hl)).mp h) h

end

/-- From the heap `h` to `h'` the map functions were called, the segments given to baskets that do not track the scanner and the lines
put into the logs as the events `es` say, in their order, and nothing else. -/
structure ToldBy (es : List Event) (tr : Option TrackerRef) (h h' : Heap) : Prop where
  maps : h'.maps = h.maps ++ es.filterMap Event.mapped
  picks : ∀ b, tr ≠ some (.basket b) → h'.baskets b = h.baskets b ++ es.filterMap (Event.picked b)
  logs : ∀ l, lines (h'.logs l) = es.foldl (Event.note l) (lines (h.logs l))
  cells : ∀ k, h'.cells k = es.foldl (Event.kept k) (h.cells k)

/-- Whatever comes of a read, the rules of `Trace` lead there, and what the read has told is what the events of the rules say. -/
theorem C87_trace (rt : Rt) (G : Env) (hG : G.Every (fun r => r.noWrap = true)) (r : Reader) (hr : r.Every (fun r => r.noWrap = true))
    (s : Scanner) (h t : Bytes) (hs : Between s h t) (n : Nat) (e : Option Err) (s' : Scanner) (hrd : read rt G n r s = .ret (e, s')) :
    ∃ h' t' es, Between s' h' t' ∧ h' ++ t' = h ++ t ∧
      Trace G (Outcome rt G) (h ++ t).length (.read r) ⟨t, s.heap.janus⟩ (e.isNone, ⟨t', s'.heap.janus⟩) es ∧
      ToldBy es s.tracker s.heap s'.heap := by
  have hin := hs.inside
  obtain ⟨es, h1, h2⟩ := read_does rt G hG n r hr s hin _ hrd
  have hst : s.st = ⟨t, s.heap.janus⟩ := st_of_sees (sees_between hs)
  have hl : s.full = h ++ t := hs.1
  rw [hst, hl] at h1
  have hi := h2.inside
  refine ⟨s'.full.take s'.pos.toNat, s'.full.drop s'.pos.toNat, es, ⟨(List.take_append_drop _ _).symm, ?_⟩, ?_, trace_of_e hG h1, h2.maps, h2.picks, h2.logs, h2.cells⟩
  · have a := hi.1
    have b := hi.2
    simp only at a b
    rw [List.length_take]
    omega
  · rw [List.take_append_drop, ← hl]
    exact h2.full

/-- The rules leave one way only: one outcome, and one list of events. -/
theorem C87_unique (rt : Rt) (G : Env) (hG : G.Every (fun r => r.noWrap = true)) (r : Reader) (L : Nat) (st : St) (x y : Bool × St) (es es' : List Event)
    (h : Trace G (Outcome rt G) L (.read r) st x es) (h' : Trace G (Outcome rt G) L (.read r) st y es') : x = y ∧ es = es' :=
  trace_unique (trace_to_e hG h') (trace_to_e hG h)

/-- Where the rules lead, a read gets to, and tells what they say. -/
theorem C87_complete (rt : Rt) (G : Env) (hG : G.Every (fun r => r.noWrap = true)) (r : Reader) (hr : r.Every (fun r => r.noWrap = true))
    (s : Scanner) (h t : Bytes) (hs : Between s h t) (ok : Bool) (st' : St) (es : List Event)
    (htr : Trace G (Outcome rt G) (h ++ t).length (.read r) ⟨t, s.heap.janus⟩ (ok, st') es) :
    ∃ n e s' h', read rt G n r s = .ret (e, s') ∧ e.isNone = ok ∧ Between s' h' st'.rest ∧ s'.heap.janus = st'.jan ∧ ToldBy es s.tracker s.heap s'.heap := by
  obtain ⟨n, he⟩ := trace_sound (trace_to_e hG htr)
  have hsees : Sees s.full s ⟨t, s.heap.janus⟩ := sees_between hs
  obtain ⟨⟨e, s'⟩, h1, h2, h3⟩ := (read_eat rt G hG n r hr _ s _ hsees).right he
  obtain ⟨h', t', es', k1, k2, k3, k4⟩ := C87_trace rt G hG r hr s h t hs n e s' h1
  obtain ⟨e1, rfl⟩ := C87_unique rt G hG r _ _ _ _ _ _ k3 htr
  cases e1
  exact ⟨n, e, s', h', h1, rfl, k1, rfl, k4⟩

/-- A failed read may have told something: the map function of the first alternative is called although the alternative does not read,
and the monitored reader puts a line into the log. -/
def exTell : Reader := .any [.seq [.map 0 (.rune 97), .rune 98], .monitor b!"second" 0 (.map 1 (.seq [.rune 97, .pick b!"c" 0 (.rune 99)]))]

/-- The events of reading `ac` with it. -/
example : Trace [] (Outcome exRt []) 2 (.read exTell) ⟨b!"ac", Heap.empty.janus⟩ (true, ⟨[], Heap.empty.janus⟩)
      [.map 0 ⟨0, 1⟩, .enter 0 b!"second" 0, .pick 0 ⟨b!"c", ⟨1, 2⟩⟩, .map 1 ⟨0, 2⟩, .leave 0 true 2] ∧
    exTell.Every (fun r => r.noWrap = true) := by
  have hr : exTell.Every (fun r => r.noWrap = true) := Reader.everyB_sound Reader.noWrap _ rfl
  have hG : Env.Every (fun r => r.noWrap = true) [] := fun _ h => by cases h
  refine ⟨trace_of_e hG ?_, hr⟩
  have h1 : Trace [] (E exRt []) 2 (.read (.seq [.map 0 (.rune 97), .rune 98])) ⟨b!"ac", Heap.empty.janus⟩ (false, ⟨b!"ac", Heap.empty.janus⟩)
      ([] ++ [.map 0 ⟨0, 1⟩] ++ []) :=
    .seqCons (m := ⟨b!"c", Heap.empty.janus⟩) (.map (.leaf rfl ⟨20, rfl⟩)) (.seqFail (m := ⟨b!"c", Heap.empty.janus⟩) (.leaf rfl ⟨20, rfl⟩))
  have h2 : Trace [] (E exRt []) 2 (.read (.seq [.rune 97, .pick b!"c" 0 (.rune 99)])) ⟨b!"ac", Heap.empty.janus⟩ (true, ⟨[], Heap.empty.janus⟩)
      ([] ++ ([] ++ [.pick 0 ⟨b!"c", ⟨1, 2⟩⟩] ++ [])) :=
    .seqCons (m := ⟨b!"c", Heap.empty.janus⟩) (.leaf rfl ⟨20, rfl⟩) (.seqCons (m := ⟨[], Heap.empty.janus⟩) (.pick (.leaf rfl ⟨20, rfl⟩)) .seqNil)
  exact .anyNext h1 (.anyHere (.monitor (.map h2)))

/-- What was told, as in the code. -/
def toldAfter : Exec (Option Err × Scanner) → Option (Bool × List (Nat × Token) × List Segment × (Int × List (Int × Bytes × Int)))
  | .ret (e, s) => some (e.isNone, s.heap.maps, s.heap.baskets 0, lines (s.heap.logs 0))
  | _ => none

example : toldAfter (read exRt [] 20 exTell (Scanner.new b!"ac" Heap.empty)) =
    some (true, [(0, ⟨0, 1⟩), (1, ⟨0, 2⟩)], [⟨b!"c", ⟨1, 2⟩⟩], (0, [(1, b!"second", 0)])) := by rfl

/-- A field holds what was put into it last, also if this was in vain. -/
theorem C87_last {es es' : List Event} {tr : Option TrackerRef} {h h' : Heap} {k : Nat} {v : Cell} (ht : ToldBy (es ++ .store k v :: es') tr h h')
    (hn : ∀ w, Event.store k w ∉ es') : h'.cells k = v := by
  have key : ∀ (es' : List Event) (v : Cell), (∀ w, Event.store k w ∉ es') → es'.foldl (Event.kept k) v = v := by
    intro es' v hn
    induction es' with
    | nil => rfl
    | cons a es' ih =>
      have : Event.kept k v a = v := by
        cases a with
        | store j w =>
          show (if j = k then w else v) = v
          split
          next e => exact absurd (e ▸ List.mem_cons_self) (hn w)
          next => rfl
        | _ => rfl
      rw [List.foldl_cons, this]
      exact ih fun w hw => hn w (List.mem_cons_of_mem _ hw)
  rw [ht.cells k, List.foldl_append, List.foldl_cons, key es' _ hn]
  exact if_pos rfl

/-- A list of numbers of one field: the last attempt fails and puts zero into it. -/
def exValues : Reader := .many (.seq [.uint 5 10 8, .opt (.rune 44)])

/-- The events of reading `7,12`. -/
example : Trace [] (Outcome exRt []) 4 (.read exValues) ⟨b!"7,12", Heap.empty.janus⟩ (true, ⟨[], Heap.empty.janus⟩)
    [.store 5 (.uint 7), .store 5 (.uint 12), .store 5 (.uint 0)] := by
  have hG : Env.Every (fun r => r.noWrap = true) [] := fun _ h => by cases h
  refine trace_of_e hG ?_
  have h1 : Trace [] (E exRt []) 4 (.read (.seq [.uint 5 10 8, .opt (.rune 44)])) ⟨b!"7,12", Heap.empty.janus⟩ (true, ⟨b!"12", Heap.empty.janus⟩)
      ([.store 5 (.uint 7)] ++ ([] ++ [])) :=
    .seqCons (m := ⟨b!",12", Heap.empty.janus⟩) (.leaf rfl ⟨20, rfl⟩) (.seqCons (m := ⟨b!"12", Heap.empty.janus⟩) (.opt (x := (true, ⟨b!"12", Heap.empty.janus⟩)) (.leaf rfl ⟨20, rfl⟩)) .seqNil)
  have h2 : Trace [] (E exRt []) 4 (.read (.seq [.uint 5 10 8, .opt (.rune 44)])) ⟨b!"12", Heap.empty.janus⟩ (true, ⟨[], Heap.empty.janus⟩)
      ([.store 5 (.uint 12)] ++ ([] ++ [])) :=
    .seqCons (m := ⟨[], Heap.empty.janus⟩) (.leaf rfl ⟨20, rfl⟩)
      (.seqCons (m := ⟨[], Heap.empty.janus⟩) (.opt (x := (false, ⟨[], Heap.empty.janus⟩)) (.leaf rfl ⟨20, rfl⟩)) .seqNil)
  have h3 : Trace [] (E exRt []) 4 (.read (.seq [.uint 5 10 8, .opt (.rune 44)])) ⟨[], Heap.empty.janus⟩ (false, ⟨[], Heap.empty.janus⟩)
      [.store 5 (.uint 0)] := .seqFail (m := ⟨[], Heap.empty.janus⟩) (.leaf rfl ⟨20, rfl⟩)
  exact .many (.zomCons h1 (.zomCons h2 (.zomNil h3)))

end Tok
