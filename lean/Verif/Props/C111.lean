/-
C111 The functions that are given to Map only hear.
-/
import Verif.Proofs.Muted
import Verif.Props.C54
import Verif.Props.C76

namespace Tok

open Spec Mute

/-- What is inside a `Map` that is left out goes back on failure, and a function of the client (`Wrap`) only moves forward and does the same whichever calls
were left out. -/
def Reader.plainMap (d : Nat → Bool) : Reader → Prop
  | .map f c => d f = true → c.keeps
  | .wrap _ f => Safe True f ∧ ∀ x, DoesSame (MutedStep d x) f
  | _ => True

theorem fine_of_plain {rt : Rt} {G : Env} (d : Nat → Bool) (hG : G.Every (Reader.plainMap d)) (hk : ∀ rl ∈ G, ∀ c, rl.reader = some c → c.keeps) {r : Reader}
    (hr : r.Every (Reader.plainMap d)) : r.Every (fine rt G d) := by
  have safe : ∀ r : Reader, r.plainMap d → r.safeHere True G := fun r h => by
    cases r <;> first | exact .inl trivial | exact trivial | exact h.1
  have hS := hG.imp safe
  induction hr with
  | @mk r hp hs ih =>
    refine .mk ⟨safe r hp, ?_⟩ ih
    cases r with
    | wrap w f => exact hp.2
    | map f c => exact fun hd n => read_restores rt G hS hk n c ((hs c (by simp [Reader.subs])).imp safe) (hp hd)
    | _ => trivial

/-- A read, and the same read with a grammar in which some functions are not given to `Map`: the same error or none at the same position, nothing else differs,
the basket included, and the other functions are called with the same tokens in the same order.

Missing: what is inside such a `Map` goes back on failure, without which the claim is false (`C111_violated`); functions of the client that look at the calls; and
how often a tracker of the client is told its position, which does differ (`C111_told_violated`). -/
theorem C111_less_partial (rt : Rt) (d : Nat → Bool) (G : Env) (hG : G.Every (Reader.plainMap d)) (hk : ∀ rl ∈ G, ∀ c, rl.reader = some c → c.keeps)
    (r : Reader) (hr : r.Every (Reader.plainMap d)) (x : Option (Nat × Int)) (s t : Scanner) (hs : Inside s) (h : MutedStep d x s t) (n : Nat) (e : Option Err) (s' : Scanner)
    (hrd : read rt G n r s = .ret (e, s')) :
    ∃ t', read rt (Env.mute d G) n (Reader.mute d r) t = .ret (e, t') ∧ MutedStep d x s' t' := by
  obtain ⟨e', t', h1, h2, h3⟩ := mute_ret rt G (fun rl hrl c hc => fine_of_plain d hG hk (hG rl hrl c hc)) (fine_of_plain d hG hk hr) hs h hrd
  obtain rfl := h2.eq
  exact ⟨t', h1, h3⟩

/-- The other way round: a read that ends without these functions ends with them. -/
theorem C111_more_partial (rt : Rt) (d : Nat → Bool) (G : Env) (hG : G.Every (Reader.plainMap d)) (hk : ∀ rl ∈ G, ∀ c, rl.reader = some c → c.keeps)
    (r : Reader) (hr : r.Every (Reader.plainMap d)) (x : Option (Nat × Int)) (s t : Scanner) (hs : Inside s) (h : MutedStep d x s t) (m : Nat) (e : Option Err) (t' : Scanner)
    (hrd : read rt (Env.mute d G) m (Reader.mute d r) t = .ret (e, t')) :
    ∃ n s', read rt G n r s = .ret (e, s') ∧ MutedStep d x s' t' := by
  obtain ⟨n, e', s', h1, h2, h3⟩ := mute_ret' rt G (fun rl hrl c hc => fine_of_plain d hG hk (hG rl hrl c hc)) (fine_of_plain d hG hk hr) hs h hrd
  obtain rfl := h2.eq
  exact ⟨n, s', h1, h3⟩

/-- A new scanner with a new basket, or without one. -/
def newWith (text : Bytes) : Option Nat → Scanner
  | none => Scanner.new text Heap.empty
  | some b => (Scanner.new text Heap.empty).newBasket b

theorem newWith_inside (text : Bytes) (b : Option Nat) : Inside (newWith text b) := by
  cases b <;> exact ⟨Int.le_refl _, by simp [newWith, Scanner.newBasket, Scanner.new]⟩

theorem newWith_step (d : Nat → Bool) (text : Bytes) (b : Option Nat) : ∃ x, MutedStep d x (newWith text b) (newWith text b) := by
  have hm : ∀ s : Scanner, s.heap.maps = [] → Muted d s s := fun s h => ⟨rfl, rfl, rfl, rfl, rfl, rfl, rfl, by rw [h]; rfl⟩
  cases b with
  | none => exact ⟨some (0, text.length), hm _ rfl, fun b => by simp [newWith, Scanner.new], Int.le_refl _, by simp [newWith, EndsBy, Heap.empty, Scanner.new]⟩
  | some b => exact ⟨none, hm _ rfl, b, rfl, by simp [newWith, EndsBy, Scanner.newBasket, upd_self]⟩

/-- Scanning a text with all functions, and with some of them: the same error or none at the same position, the same baskets and log records, and the functions that
are left are called with the same tokens in the same order. -/
theorem C111_new_partial (rt : Rt) (d : Nat → Bool) (G : Env) (hG : G.Every (Reader.plainMap d)) (hk : ∀ rl ∈ G, ∀ c, rl.reader = some c → c.keeps)
    (r : Reader) (hr : r.Every (Reader.plainMap d)) (text : Bytes) (b : Option Nat) (e : Option Err) (pos : Int) (bs : Nat → List Segment) (ls : Nat → Log) (calls : List (Nat × Token)) :
    (∃ n t', read rt (Env.mute d G) n (Reader.mute d r) (newWith text b) = .ret (e, t') ∧ t'.pos = pos ∧ t'.heap.baskets = bs ∧ t'.heap.logs = ls ∧ t'.heap.maps = calls) ↔
      ∃ n s', read rt G n r (newWith text b) = .ret (e, s') ∧ s'.pos = pos ∧ s'.heap.baskets = bs ∧ s'.heap.logs = ls ∧ (s'.heap.maps.filter fun c => !d c.1) = calls := by
  obtain ⟨x, hx⟩ := newWith_step d text b
  constructor
  · rintro ⟨n, t', h1, h2, h3, h4, h5⟩
    obtain ⟨m, s', h6, h7⟩ := C111_more_partial rt d G hG hk r hr x _ _ (newWith_inside text b) hx n e t' h1
    exact ⟨m, s', h6, h7.pos.symm.trans h2, h7.baskets.symm.trans h3, h7.logs.symm.trans h4, h7.maps.symm.trans h5⟩
  · rintro ⟨n, s', h1, h2, h3, h4, h5⟩
    obtain ⟨t', h6, h7⟩ := C111_less_partial rt d G hG hk r hr x _ _ (newWith_inside text b) hx n e s' h1
    exact ⟨n, t', h6, h7.pos.trans h2, h7.baskets.trans h3, h7.logs.trans h4, h7.maps.trans h5⟩

/-- A boolean test for the hypothesis. -/
def Reader.plainMapB : Reader → Bool
  | .map _ c => c.restoresB
  | .wrap _ _ => false
  | _ => true

theorem plainMap_of_B {d : Nat → Bool} {r : Reader} (h : r.plainMapB = true) : r.plainMap d := by
  cases r <;> first | trivial | exact fun _ => keeps_of_restoresB h | cases (show false = true from h)

/-- The three functions of the MXT client (C54), or some of them. -/
theorem C111_mxt (rt : Rt) (d : Nat → Bool) (text : Bytes) (b : Option Nat) (e : Option Err) (pos : Int) (bs : Nat → List Segment) (ls : Nat → Log) (calls : List (Nat × Token)) :
    (∃ n t', read rt (Env.mute d Mxt.mapped) n Mxt.reader (newWith text b) = .ret (e, t') ∧ t'.pos = pos ∧ t'.heap.baskets = bs ∧ t'.heap.logs = ls ∧ t'.heap.maps = calls) ↔
      ∃ n s', read rt Mxt.mapped n Mxt.reader (newWith text b) = .ret (e, s') ∧ s'.pos = pos ∧ s'.heap.baskets = bs ∧ s'.heap.logs = ls ∧
        (s'.heap.maps.filter fun c => !d c.1) = calls := by
  have hG : Mxt.mapped.Every (Reader.plainMap d) := (Env.everyB_sound (p := Reader.plainMapB) (by decide)).imp fun _ h => plainMap_of_B h
  have hr : Mxt.reader.Every (Reader.plainMap d) := (Reader.everyB_sound Reader.plainMapB _ (by decide)).imp fun _ h => plainMap_of_B h
  have hk : ∀ rl ∈ Mxt.mapped, ∀ c, rl.reader = some c → c.keeps := fun rl hrl c hc => by
    have : ∀ rl ∈ Mxt.mapped, ∀ c ∈ rl.reader, c.restoresB = true := by decide
    exact keeps_of_restoresB (this rl hrl c hc)
  exact C111_new_partial rt d _ hG hk _ hr text b e pos bs ls calls

/-- Without all three it is the grammar as it is shipped, and a client that wants only the names does not give the other two. -/
theorem C111_mxt_grammars : Env.mute (fun _ => true) Mxt.mapped = Mxt.env ∧ Env.mute (fun f => f != 0) Mxt.mapped = Mxt.env.modify Mxt.iName (Rule.map 0) := ⟨rfl, rfl⟩

/-- `Rule.Map` (grammar.go:102-105) called for some rules, each with its own function. -/
def Env.mapSome (w : Nat → Bool) : Nat → Env → Env
  | _, [] => []
  | i, rl :: G => (if w i then rl.map i else rl) :: Env.mapSome w (i + 1) G

/-- No `Map` occurs in the grammar. -/
def Reader.mapless : Reader → Bool
  | .map _ _ => false
  | _ => true

theorem mutes_eq {d : Nat → Bool} : ∀ {rs : List Reader}, (∀ r ∈ rs, Reader.mute d r = r) → Reader.mutes d rs = rs
  | [], _ => rfl
  | r :: rs, h => by rw [Reader.mutes, h r (by simp), mutes_eq fun r hr => h r (by simp [hr])]

theorem mute_mapless {d : Nat → Bool} {r : Reader} (h : r.Every fun r => r.mapless = true) : Reader.mute d r = r := by
  induction h with
  | @mk r hp hs ih =>
    cases r with
    | map f c => cases (show false = true from hp)
    | any rs => rw [Reader.mute, mutes_eq (rs := rs) ih]
    | seq rs => rw [Reader.mute, mutes_eq (rs := rs) ih]
    | skipSeq sk rs => rw [Reader.mute, ih sk (by simp [Reader.subs]), mutes_eq fun r hr => ih r (by simp [Reader.subs, hr])]
    | body b t => rw [Reader.mute, ih b (by simp [Reader.subs]), ih t (by simp [Reader.subs])]
    | bodyTail b t => rw [Reader.mute, ih b (by simp [Reader.subs]), ih t (by simp [Reader.subs])]
    | _ => first | rfl | exact congrArg _ (ih _ (by simp [Reader.subs]))

theorem mute_mapSome {v w : Nat → Bool} (hv : ∀ i, v i = true → w i = true) : ∀ (i : Nat) {G : Env}, (G.Every fun r => r.mapless = true) →
    Env.mute (fun f => !v f) (Env.mapSome w i G) = Env.mapSome v i G
  | _, [], _ => rfl
  | i, ⟨nm, c⟩ :: G, h => by
    have ih := mute_mapSome hv (i + 1) (G := G) fun rl hrl c hc => h rl (by simp [hrl]) c hc
    unfold Env.mute at ih ⊢
    rw [Env.mapSome, Env.mapSome, List.map_cons, ih]
    congr 1
    cases c with
    | none => by_cases h1 : w i = true <;> by_cases h2 : v i = true <;> simp [h1, h2, Rule.map]
    | some c =>
      have hc := mute_mapless (d := fun f => !v f) (h ⟨nm, some c⟩ (by simp) c rfl)
      by_cases h2 : v i = true
      · simp [hv i h2, h2, Rule.map, Reader.mute, hc]
      · by_cases h1 : w i = true <;> simp [h1, h2, Rule.map, Reader.mute, hc]

theorem mapSome_mem {w : Nat → Bool} : ∀ {i : Nat} {G : Env} {rl : Rule}, rl ∈ Env.mapSome w i G → ∃ rl0 ∈ G, rl = rl0 ∨ ∃ f, rl = rl0.map f
  | i, rl0 :: G, rl, h => by
    rw [Env.mapSome] at h
    rcases List.mem_cons.mp h with h | h
    · refine ⟨rl0, by simp, ?_⟩
      split at h
      · exact .inr ⟨i, h⟩
      · exact .inl h
    · obtain ⟨a, ha, hb⟩ := mapSome_mem h
      exact ⟨a, by simp [ha], hb⟩

/-- A client of a grammar that has no `Map` gives functions to some of the rules (`w`), or to fewer (`v`): the same error or none at the same position, the same
baskets and log records, and the functions of the fewer rules are called with the same tokens in the same order. -/
theorem C111_rules (rt : Rt) (v w : Nat → Bool) (hv : ∀ i, v i = true → w i = true) (G : Env) (hG : G.Every fun r => (r.mapless && r.plainMapB) = true)
    (hk : ∀ rl ∈ G, ∀ c, rl.reader = some c → c.restoresB = true) (r : Reader) (hr : r.Every fun r => (r.mapless && r.plainMapB) = true)
    (text : Bytes) (b : Option Nat) (e : Option Err) (pos : Int) (bs : Nat → List Segment) (ls : Nat → Log) (calls : List (Nat × Token)) :
    (∃ n t', read rt (Env.mapSome v 0 G) n r (newWith text b) = .ret (e, t') ∧ t'.pos = pos ∧ t'.heap.baskets = bs ∧ t'.heap.logs = ls ∧ t'.heap.maps = calls) ↔
      ∃ n s', read rt (Env.mapSome w 0 G) n r (newWith text b) = .ret (e, s') ∧ s'.pos = pos ∧ s'.heap.baskets = bs ∧ s'.heap.logs = ls ∧
        (s'.heap.maps.filter fun c => v c.1) = calls := by
  have hml : ∀ r : Reader, (r.mapless && r.plainMapB) = true → r.mapless = true := fun r h => (Bool.and_eq_true _ _ ▸ h).1
  have hpl : ∀ r : Reader, (r.mapless && r.plainMapB) = true → r.plainMap fun f => !v f := fun r h => plainMap_of_B (Bool.and_eq_true _ _ ▸ h).2
  have h1 := C111_new_partial rt (fun f => !v f) (Env.mapSome w 0 G) (fun rl hrl c hc => by
      obtain ⟨rl0, h0, rfl | ⟨f, rfl⟩⟩ := mapSome_mem hrl
      · exact (hG rl h0 c hc).imp hpl
      · obtain ⟨c', hc', rfl⟩ := Option.map_eq_some_iff.mp hc
        exact .mk (fun _ => keeps_of_restoresB (hk rl0 h0 c' hc')) fun x hx => List.mem_singleton.mp hx ▸ (hG rl0 h0 c' hc').imp hpl)
    (fun rl hrl c hc => by
      obtain ⟨rl0, h0, rfl | ⟨f, rfl⟩⟩ := mapSome_mem hrl
      · exact keeps_of_restoresB (hk rl h0 c hc)
      · obtain ⟨c', hc', rfl⟩ := Option.map_eq_some_iff.mp hc
        exact trivial) r (hr.imp hpl) text b e pos bs ls calls
  rw [mute_mapSome hv 0 (hG.imp hml), mute_mapless (hr.imp hml)] at h1
  simpa using h1

/-- The shipped grammars. -/
theorem C111_shipped (rt : Rt) (v w : Nat → Bool) (hv : ∀ i, v i = true → w i = true) (G : Env) (r : Reader)
    (h : (G = Json.env ∧ r = Json.reader) ∨ (G = Mxt.env ∧ r = Mxt.reader) ∨ (G = Lua.env ∧ r = Lua.reader))
    (text : Bytes) (b : Option Nat) (e : Option Err) (pos : Int) (bs : Nat → List Segment) (ls : Nat → Log) (calls : List (Nat × Token)) :
    (∃ n t', read rt (Env.mapSome v 0 G) n r (newWith text b) = .ret (e, t') ∧ t'.pos = pos ∧ t'.heap.baskets = bs ∧ t'.heap.logs = ls ∧ t'.heap.maps = calls) ↔
      ∃ n s', read rt (Env.mapSome w 0 G) n r (newWith text b) = .ret (e, s') ∧ s'.pos = pos ∧ s'.heap.baskets = bs ∧ s'.heap.logs = ls ∧
        (s'.heap.maps.filter fun c => v c.1) = calls := by
  have hG : G.Every fun r => (r.mapless && r.plainMapB) = true := by
    rcases h with ⟨rfl, _⟩ | ⟨rfl, _⟩ | ⟨rfl, _⟩ <;> exact Env.everyB_sound (by decide +kernel)
  have hr : r.Every fun r => (r.mapless && r.plainMapB) = true := by
    rcases h with ⟨_, rfl⟩ | ⟨_, rfl⟩ | ⟨_, rfl⟩ <;> exact Reader.everyB_sound _ _ (by decide)
  have hk : ∀ rl ∈ G, ∀ c ∈ rl.reader, c.restoresB = true := by
    rcases h with ⟨rfl, _⟩ | ⟨rfl, _⟩ | ⟨rfl, _⟩ <;> decide +kernel
  exact C111_rules rt v w hv G hG hk r hr text b e pos bs ls calls

/-- How a read ended, where, and the calls of the functions. -/
def callsAfter : Exec (Option Err × Scanner) → Option (Bool × Int × List (Nat × Token))
  | .ret (e, s) => some (e.isNone, s.pos, s.heap.maps)
  | _ => none

/-- Functions for the numbers and the arrays of a JSON text, and only for the numbers. -/
example : callsAfter (read exRt (Env.mapSome (fun i => i == Json.iNumber || i == Json.iArray) 0 Json.env) 80 Json.reader (newWith b!"[1, 23]" none)) =
      some (true, 7, [(Json.iNumber, ⟨1, 2⟩), (Json.iNumber, ⟨4, 6⟩), (Json.iArray, ⟨0, 7⟩)]) ∧
    callsAfter (read exRt (Env.mapSome (fun i => i == Json.iNumber) 0 Json.env) 80 Json.reader (newWith b!"[1, 23]" none)) =
      some (true, 7, [(Json.iNumber, ⟨1, 2⟩), (Json.iNumber, ⟨4, 6⟩)]) := by
  constructor <;> decide +kernel

/-- `Times` stays where it failed, and `Map` goes back; so leaving the function out lets the text be read. -/
theorem C111_violated : ∃ (r : Reader) (text : Bytes), callsAfter (read exRt [] 20 r (newWith text none)) = some (false, 0, []) ∧
    callsAfter (read exRt [] 20 (Reader.mute (fun _ => true) r) (newWith text none)) = some (true, 2, []) :=
  ⟨.any [.map 0 (.times 2 (.lit b!"a")), .lit b!"b"], b!"ab", by decide +kernel, by decide +kernel⟩

/-- What the tracker 0 of the client was told. -/
def toldClient : Exec (Option Err × Scanner) → Option (List Int)
  | .ret (_, s) => some (s.heap.tracks 0)
  | _ => none

/-- `Map` goes back to where the reader failed, though it did not move, and the tracker is told so. -/
theorem C111_told_violated : ∃ (r : Reader) (text : Bytes),
    toldClient (read exRt [] 20 r { Scanner.new text Heap.empty with tracker := some (.custom 0) }) = some [0, 1] ∧
    toldClient (read exRt [] 20 (Reader.mute (fun _ => true) r) { Scanner.new text Heap.empty with tracker := some (.custom 0) }) = some [1] :=
  ⟨.any [.map 0 (.lit b!"b"), .lit b!"a"], b!"a", by decide +kernel, by decide +kernel⟩

end Tok
