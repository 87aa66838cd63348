/-
C93 Reading while others use the same memory.
-/
import Verif.Proofs.Disturb
import Verif.Props.C81

namespace Tok
open Spec

/-- The second read ends as the first one, with the same error or none, at the same position, and what belongs to the client is the same. -/
structure Own.Alike (O : Own) (x y : Exec (Option Err × Scanner)) : Prop where
  timeout : x = .timeout ↔ y = .timeout
  panic : x = .panic ↔ y = .panic
  ret : ∀ e s, x = .ret (e, s) → ∃ t, y = .ret (e, t) ∧ t.full = s.full ∧ t.pos = s.pos ∧ t.tracker = s.tracker ∧ O.Agree s.heap t.heap

/-- Whatever others do to the memory before and after every single step, a read takes its course, if they leave alone the strings of the
Janus pairs that are read, and what else the client calls its own. -/
theorem C93_undisturbed (rt : Rt) (G : Env) (O : Own) (hG : G.Every (Reader.minds O)) (r : Reader) (hr : r.Every (Reader.minds O))
    (I : Nat → Scanner → Heap) (hI : ∀ n s, O.Agree s.heap (I n s)) (n : Nat) (s : Scanner) : O.Alike (read rt G n r s) (readAmong rt G I n r s) := by
  have h := among_like rt G I hI hG n r hr s s ⟨.refl _, rfl, rfl, rfl⟩
  refine ⟨h.timeout_iff, h.panic_iff, fun e s1 h1 => ?_⟩
  obtain ⟨⟨e2, s2⟩, h2, h3, h4⟩ := h.left h1
  cases h3
  exact ⟨s2, h2, h4.full, h4.pos, h4.tracker, h4.toAgree⟩

/-- A memory as others may leave it, who have read any number of texts with readers that have nothing of the client's. -/
inductive Busy (rt : Rt) (O : Own) : Heap → Heap → Prop
  | idle (h : Heap) : Busy rt O h h
  | read {G : Env} {r : Reader} {n : Nat} {s s' : Scanner} {e : Option Err} {k : Heap} : G.Every (Reader.alien O) → r.Every (Reader.alien O) → Inside s →
      O.alien s.tracker → read rt G n r s = .ret (e, s') → Busy rt O s'.heap k → Busy rt O s.heap k

theorem Busy.agree {rt : Rt} {O : Own} {h k : Heap} (hb : Busy rt O h k) : O.Agree h k := by
  induction hb with
  | idle h => exact .refl h
  | read hG hr hs ht h _ ih => exact (((alien_frame rt _ O).read (fun _ _ _ _ hi => hG.get hi) _ _ hr _ ⟨hs, ht⟩ _ h).2.2).trans ih

/-- Clients whose readers have nothing in common do not disturb each other. -/
theorem C93_apart (rt : Rt) (G : Env) (O : Own) (hG : G.Every (Reader.minds O)) (r : Reader) (hr : r.Every (Reader.minds O))
    (I : Nat → Scanner → Heap) (hI : ∀ n s, Busy rt O s.heap (I n s)) (n : Nat) (s : Scanner) : O.Alike (read rt G n r s) (readAmong rt G I n r s) :=
  C93_undisturbed rt G O hG r hr I (fun n s => (hI n s).agree) n s

/-- Nothing is anybody's own. -/
def Own.nothing : Own := ⟨fun _ => false, fun _ => false, fun _ => false, fun _ => false, fun _ => false, fun _ => false⟩

/-- The strings of these Janus pairs are the client's own. -/
def Own.pairs (l : List Nat) : Own := { Own.nothing with janus := fun i => l.contains i }

def Reader.within (l : List Nat) : Reader → Bool
  | .janusEnd i _ => l.contains i
  | .wrap _ _ => false
  | _ => true

theorem within_minds {l : List Nat} {r : Reader} (h : r.within l = true) : r.minds (.pairs l) := by
  cases r <;> first | exact trivial | exact h | exact absurd h (by simp [Reader.within])

theorem pairs_agree {l : List Nat} {h k : Heap} (hj : ∀ i ∈ l, k.janus i = h.janus i) : (Own.pairs l).Agree h k :=
  ⟨fun i hi => hj i (by simpa [Own.pairs] using hi), by simp [Own.pairs, Own.nothing], by simp [Own.pairs, Own.nothing], by simp [Own.pairs, Own.nothing],
    by simp [Own.pairs, Own.nothing], by simp [Own.pairs, Own.nothing]⟩

/-- One JSON grammar can be used by any number of readers at the same time. -/
theorem C93_json (rt : Rt) (I : Nat → Scanner → Heap) (n : Nat) (s : Scanner) : (Own.pairs []).Alike (read rt Json.env n Json.reader s) (readAmong rt Json.env I n Json.reader s) :=
  C93_undisturbed rt Json.env _ ((Env.everyB_sound (p := Reader.within []) (by decide)).imp fun _ => within_minds) Json.reader
    ((Reader.everyB_sound (Reader.within []) Json.reader (by decide)).imp fun _ => within_minds) I (fun _ _ => pairs_agree (by simp)) n s

/-- The Lua grammar has two Janus pairs, for long strings and for long comments, the MXT grammar one, for the salt.  They must be left alone; for MXT `C79_mxt_violated` shows what happens otherwise. -/
theorem C93_lua_partial (rt : Rt) (I : Nat → Scanner → Heap) (hI : ∀ n s, (I n s).janus 0 = s.heap.janus 0 ∧ (I n s).janus 1 = s.heap.janus 1) (n : Nat) (s : Scanner) :
    (Own.pairs [0, 1]).Alike (read rt Lua.env n Lua.reader s) (readAmong rt Lua.env I n Lua.reader s) :=
  C93_undisturbed rt Lua.env _ ((Env.everyB_sound (p := Reader.within [0, 1]) (by decide)).imp fun _ => within_minds) Lua.reader
    ((Reader.everyB_sound (Reader.within [0, 1]) Lua.reader (by decide)).imp fun _ => within_minds) I
    (fun n s => pairs_agree (by simpa using hI n s)) n s

theorem C93_mxt_partial (rt : Rt) (I : Nat → Scanner → Heap) (hI : ∀ n s, (I n s).janus 0 = s.heap.janus 0) (n : Nat) (s : Scanner) :
    (Own.pairs [0]).Alike (read rt Mxt.env n Mxt.reader s) (readAmong rt Mxt.env I n Mxt.reader s) :=
  C93_undisturbed rt Mxt.env _ ((Env.everyB_sound (p := Reader.within [0]) (by decide)).imp fun _ => within_minds) Mxt.reader
    ((Reader.everyB_sound (Reader.within [0]) Mxt.reader (by decide)).imp fun _ => within_minds) I
    (fun n s => pairs_agree (by simpa using hI n s)) n s

/-- What somebody leaves who reads `[[y]]` with the long brackets of the same Lua grammar from beginning to end. -/
theorem C93_other (rt : Rt) (h : Heap) : ∃ s', read rt [] 40 (Lua.long 0 (.rune 91)) (.new b!"[[y]]" h) = .ret (none, s') ∧ s'.heap = { h with janus := upd h.janus 0 [] } := by
  refine ⟨_, rfl, ?_⟩
  show Heap.mk _ _ (upd (upd h.janus 0 []) 0 []) _ _ _ = _
  congr 1
  funext i
  simp only [upd]
  split <;> rfl

/-- That happens when the first reader is at `p`. -/
def meanwhile (p : Int) (_ : Nat) (s : Scanner) : Heap := if s.pos = p then { s.heap with janus := upd s.heap.janus 0 [] } else s.heap

/-- The error of a read that returned one. -/
def errorOf : Exec (Option Err × Scanner) → Option Err
  | .ret (e, _) => e
  | _ => none

/-- Two readers of one Lua grammar: the long string `[=[x]=]` is read by itself, but not if somebody reads `[[y]]` when the `x` has been read. -/
theorem C93_lua_violated (rt : Rt) : (∃ s', read rt [] 40 (Lua.long 0 (.rune 91)) (.new b!"[=[x]=]" Heap.empty) = .ret (none, s') ∧ s'.pos = 7) ∧
    ∃ e s', readAmong rt [] (meanwhile 4) 20 (Lua.long 0 (.rune 91)) (.new b!"[=[x]=]" Heap.empty) = .ret (some e, s') := by
  refine ⟨⟨_, rfl, rfl⟩, ?_⟩
  have h : (errorOf (readAmong rt [] (meanwhile 4) 20 (Lua.long 0 (.rune 91)) (.new b!"[=[x]=]" Heap.empty))).isSome = true := rfl
  revert h
  generalize readAmong rt [] (meanwhile 4) 20 (Lua.long 0 (.rune 91)) (.new b!"[=[x]=]" Heap.empty) = x
  intro h
  rcases x with ⟨_ | e, s'⟩ | _ | _
  · cases h
  · exact ⟨e, s', rfl⟩
  · cases h
  · cases h

/-- A client with the basket 0 and a Janus pair 0; somebody else picks into basket 1. -/
example : (Reader.pick b!"a" 0 (.seq [.janusBegin 0 [] (.rune 97), .janusEnd 0 []])).Every (Reader.minds { Own.pairs [0] with baskets := fun b => b == 0 }) := by
  refine .mk trivial fun c hc => ?_
  rw [List.mem_singleton.mp hc]
  refine .mk trivial fun c hc => ?_
  rcases List.mem_pair.mp hc with rfl | rfl
  · exact .mk trivial fun c hc => by rw [List.mem_singleton.mp hc]; exact .mk trivial (by simp [Reader.subs])
  · exact .mk rfl (by simp [Reader.subs])

example (h : Heap) : Busy exRt { Own.pairs [0] with baskets := fun b => b == 0 } h { h with baskets := upd h.baskets 1 (h.baskets 1 ++ [⟨b!"b", ⟨0, 1⟩⟩]) } :=
  .read (G := []) (r := .pick b!"b" 1 (.rune 120)) (n := 5) (s := .new b!"x" h) (e := none) (s' := ⟨b!"x", 1, none, _⟩)
    (by intro i hi; cases hi) (.mk rfl fun c hc => by rw [List.mem_singleton.mp hc]; exact .mk trivial (by simp [Reader.subs])) (new_inside _ _) trivial rfl (.idle _)

end Tok
