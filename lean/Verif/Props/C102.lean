/-
C102 Picking some of the rules picks of them what picking all rules does.
-/
import Verif.Proofs.Fewer
import Verif.Props.C76

namespace Tok

open Spec Less

/-- `Body` does not occur, what is inside a `Map` or `Pick` goes back on failure, and a function of the client (`Wrap`) only moves forward and does the
same whatever was left out of the basket. -/
def Reader.plainPick (q : Leave) : Reader → Prop
  | .body _ _ => False
  | .bodyTail _ _ => False
  | .wrap _ f => Safe True f ∧ DoesSame (Fewer q) f
  | r => r.tame

theorem picky_of_plain {rt : Rt} {G : Env} (q : Leave) (hG : G.Every (Reader.plainPick q)) (hk : ∀ rl ∈ G, ∀ c, rl.reader = some c → c.keeps) {r : Reader}
    (hr : r.Every (Reader.plainPick q)) : r.Every (Reader.picky rt G q) := by
  have safe : ∀ r : Reader, r.plainPick q → r.safeHere True G := fun r h => by
    cases r <;> first | exact h.elim | exact .inl trivial | exact trivial | exact h.1
  have hS := hG.imp safe
  induction hr with
  | @mk r hp hs ih =>
    refine .mk ⟨safe r hp, ?_⟩ ih
    cases r with
    | wrap w f => exact hp.2
    | body b t => exact hp.elim
    | bodyTail b t => exact hp.elim
    | pick i b c => exact fun _ n => read_restores rt G hS hk n c ((hs c (by simp [Reader.subs])).imp safe) hp
    | _ => trivial

/-- A read with a grammar, and with the same grammar without some of the picks: the same error or none at the same position, nothing
else differs, and the basket has afterwards the segments of the other picks.

Missing: `Body`, for which the claim is false (`C102_violated`), functions of the client that look at the basket (`C102_looks_violated`), and a basket that does not track the scanner (`C102_apart_partial`). -/
theorem C102_less_partial (rt : Rt) (q : Leave) (G : Env) (hG : G.Every (Reader.plainPick q)) (hk : ∀ rl ∈ G, ∀ c, rl.reader = some c → c.keeps)
    (r : Reader) (hr : r.Every (Reader.plainPick q)) (s t : Scanner) (hs : Inside s) (h : Fewer q s t) (n : Nat) (e : Option Err) (s' : Scanner)
    (hrd : read rt G n r s = .ret (e, s')) :
    ∃ t', read rt (Env.fewer q G) n (Reader.fewer q r) t = .ret (e, t') ∧ Fewer q s' t' := by
  obtain ⟨e', t', h1, h2, h3⟩ := fewer_ret rt G (fun rl hrl c hc => picky_of_plain q hG hk (hG rl hrl c hc)) (picky_of_plain q hG hk hr) hs h hrd
  obtain rfl := h2.eq
  exact ⟨t', h1, h3⟩

/-- The other way round: a read that ends with fewer picks ends with all of them. -/
theorem C102_more_partial (rt : Rt) (q : Leave) (G : Env) (hG : G.Every (Reader.plainPick q)) (hk : ∀ rl ∈ G, ∀ c, rl.reader = some c → c.keeps)
    (r : Reader) (hr : r.Every (Reader.plainPick q)) (s t : Scanner) (hs : Inside s) (h : Fewer q s t) (m : Nat) (e : Option Err) (t' : Scanner)
    (hrd : read rt (Env.fewer q G) m (Reader.fewer q r) t = .ret (e, t')) :
    ∃ n s', read rt G n r s = .ret (e, s') ∧ Fewer q s' t' := by
  obtain ⟨n, e', s', h1, h2, h3⟩ := fewer_ret' rt G (fun rl hrl c hc => picky_of_plain q hG hk (hG rl hrl c hc)) (picky_of_plain q hG hk hr) hs h hrd
  obtain rfl := h2.eq
  exact ⟨n, s', h1, h3⟩

/-- `PickWith` (tracker.go:65-69) called for the rules whose names are not dropped. -/
def Env.pickOnly (b : Nat) (drop : Bytes → Bool) (G : Env) : Env := G.map fun rl => if drop rl.name then rl else rl.pick b

/-- No pick occurs in the grammar. -/
def Reader.pickless : Reader → Prop
  | .pick _ _ _ => False
  | _ => True

theorem fewers_eq {q : Leave} : ∀ {rs : List Reader}, (∀ r ∈ rs, Reader.fewer q r = r) → Reader.fewers q rs = rs
  | [], _ => rfl
  | r :: rs, h => by rw [Reader.fewers, h r (by simp), fewers_eq fun r hr => h r (by simp [hr])]

theorem fewer_pickless {q : Leave} {r : Reader} (h : r.Every Reader.pickless) : Reader.fewer q r = r := by
  induction h with
  | @mk r hp hs ih =>
    cases r with
    | pick i b c => exact hp.elim
    | any rs => rw [Reader.fewer, fewers_eq (rs := rs) ih]
    | seq rs => rw [Reader.fewer, fewers_eq (rs := rs) ih]
    | skipSeq sk rs => rw [Reader.fewer, ih sk (by simp [Reader.subs]), fewers_eq fun r hr => ih r (by simp [Reader.subs, hr])]
    | body b t => rw [Reader.fewer, ih b (by simp [Reader.subs]), ih t (by simp [Reader.subs])]
    | bodyTail b t => rw [Reader.fewer, ih b (by simp [Reader.subs]), ih t (by simp [Reader.subs])]
    | _ => first | rfl | exact congrArg _ (ih _ (by simp [Reader.subs]))

theorem fewer_pickAll {b : Nat} {drop : Bytes → Bool} {G : Env} (h : G.Every Reader.pickless) : Env.fewer ⟨b, drop⟩ (G.pickAll b) = G.pickOnly b drop := by
  unfold Env.fewer Env.pickAll Env.pickOnly
  rw [List.map_map]
  refine List.map_congr_left fun rl hrl => ?_
  obtain ⟨nm, c⟩ := rl
  cases c with
  | none => simp [Rule.pick]
  | some c =>
    have := h _ hrl c rfl
    simp only [Function.comp, Rule.pick, Option.map_some, Reader.fewer, Leave.out, beq_self_eq_true, Bool.true_and, fewer_pickless this]
    by_cases hd : drop nm = true <;> simp [hd]

/-- Scanning a text with a new basket (`b`) for all rules of a grammar, and with one for some of them, where the scanner tracks it or another new one (`c`): the same error or none and the same
position, and the segments in the second basket are those of the first that have the names of its rules, in the same order. -/
theorem C102_new_partial (rt : Rt) (b c : Nat) (drop : Bytes → Bool) (G : Env) (hp : G.Every Reader.pickless) (hG : G.Every (Reader.plainPick ⟨b, drop⟩)) (hk : ∀ rl ∈ G, ∀ c, rl.reader = some c → c.keeps)
    (r : Reader) (hr : r.Every (Reader.plainPick ⟨b, drop⟩)) (hpr : r.Every Reader.pickless) (text : Bytes) (e : Option Err) (pos : Int)
    (l : List Segment) :
    (∃ n t', read rt (G.pickOnly b drop) n r ((Scanner.new text Heap.empty).newBasket c) = .ret (e, t') ∧ t'.pos = pos ∧ t'.heap.baskets b = l) ↔
      ∃ n s', read rt (G.pickAll b) n r ((Scanner.new text Heap.empty).newBasket c) = .ret (e, s') ∧ s'.pos = pos ∧
        (s'.heap.baskets b).filter (fun g => !drop g.info) = l := by
  have hG' : (G.pickAll b).Every (Reader.plainPick ⟨b, drop⟩) := fun rl hrl c hc => by
    obtain ⟨r, hr, rfl⟩ := List.mem_map.mp hrl
    obtain ⟨c', hc', rfl⟩ := Option.map_eq_some_iff.mp hc
    exact .mk (hk r hr c' hc') fun x hx => List.mem_singleton.mp hx ▸ hG r hr c' hc'
  have hk' : ∀ rl ∈ G.pickAll b, ∀ c, rl.reader = some c → c.keeps := fun rl hrl c hc => by
    obtain ⟨r, hr, rfl⟩ := List.mem_map.mp hrl
    obtain ⟨c', hc', rfl⟩ := Option.map_eq_some_iff.mp hc
    exact trivial
  have hf : Fewer ⟨b, drop⟩ ((Scanner.new text Heap.empty).newBasket c) ((Scanner.new text Heap.empty).newBasket c) := by
    refine ⟨rfl, rfl, ⟨c, rfl, ?_, ?_⟩, rfl, rfl, rfl, rfl, rfl, rfl, fun _ _ => rfl, ?_⟩
    · simp [Scanner.newBasket, upd_self]
    · simp [Scanner.newBasket, upd_self]
    · have : ((Scanner.new text Heap.empty).newBasket c).heap.baskets b = [] := by simp [Scanner.newBasket, Scanner.new, upd, Heap.empty]
      simp [this, Leave.rest]
  have hs : Inside ((Scanner.new text Heap.empty).newBasket c) := ⟨Int.le_refl _, by simp [Scanner.newBasket, Scanner.new]⟩
  constructor
  · rintro ⟨n, t', h1, h2, h3⟩
    rw [← fewer_pickAll hp] at h1
    have e1 := fewer_pickless (q := ⟨b, drop⟩) hpr
    obtain ⟨m, s', h4, h5⟩ := C102_more_partial rt ⟨b, drop⟩ _ hG' hk' r hr _ _ hs hf n e t' (by rw [e1]; exact h1)
    exact ⟨m, s', h4, h5.pos.symm.trans h2, h5.kept.symm.trans h3⟩
  · rintro ⟨n, s', h1, h2, h3⟩
    obtain ⟨t', h4, h5⟩ := C102_less_partial rt ⟨b, drop⟩ _ hG' hk' r hr _ _ hs hf n e s' h1
    rw [fewer_pickAll hp, fewer_pickless (q := ⟨b, drop⟩) hpr] at h4
    exact ⟨n, t', h4, h5.pos.trans h2, h5.kept.trans h3⟩

/-- Boolean tests for the hypotheses. -/
def Reader.plainPickB : Reader → Bool
  | .body _ _ => false
  | .bodyTail _ _ => false
  | .pick _ _ _ => false
  | r => r.tameB

theorem plain_of_B {q : Leave} {r : Reader} (h : r.plainPickB = true) : r.plainPick q ∧ r.pickless := by
  cases r <;> first | cases (show false = true from h) | exact ⟨tame_of_B (r := _) h, trivial⟩ | exact ⟨keeps_of_restoresB h, trivial⟩ | exact ⟨trivial, trivial⟩

/-- The JSON and the Lua grammar. -/
theorem C102_shipped (rt : Rt) (b c : Nat) (drop : Bytes → Bool) (text : Bytes) (e : Option Err) (pos : Int) (l : List Segment) (G : Env) (r : Reader)
    (h : (G = Json.env ∧ r = Json.reader) ∨ (G = Lua.env ∧ r = Lua.reader)) :
    (∃ n t', read rt (G.pickOnly b drop) n r ((Scanner.new text Heap.empty).newBasket c) = .ret (e, t') ∧ t'.pos = pos ∧ t'.heap.baskets b = l) ↔
      ∃ n s', read rt (G.pickAll b) n r ((Scanner.new text Heap.empty).newBasket c) = .ret (e, s') ∧ s'.pos = pos ∧
        (s'.heap.baskets b).filter (fun g => !drop g.info) = l := by
  have hG : G.Every fun r => r.plainPickB = true := by
    rcases h with ⟨rfl, _⟩ | ⟨rfl, _⟩
    · exact Env.everyB_sound (by decide)
    · exact Env.everyB_sound (by decide +kernel)
  have hr : r.Every fun r => r.plainPickB = true := by
    rcases h with ⟨_, rfl⟩ | ⟨_, rfl⟩ <;> exact Reader.everyB_sound _ _ (by decide)
  have hk : ∀ rl ∈ G, ∀ c, rl.reader = some c → c.keeps := (C76_shipped G (h.imp (·.1) (·.1))).2.2.1
  exact C102_new_partial rt b c drop G (hG.imp fun _ h => (plain_of_B (q := ⟨b, drop⟩) h).2) (hG.imp fun _ h => (plain_of_B h).1) hk r
    (hr.imp fun _ h => (plain_of_B h).1) (hr.imp fun _ h => (plain_of_B (q := ⟨b, drop⟩) h).2) text e pos l

/-- Only the numbers of a JSON array. -/
example : basketAfter 0 (read exRt (Json.env.pickOnly 0 fun nm => nm != b!"number") 80 Json.reader ((Scanner.new b!"[1, 23]" Heap.empty).newBasket 0)) =
    some (true, 7, [⟨b!"number", ⟨1, 2⟩⟩, ⟨b!"number", ⟨4, 6⟩⟩]) := by
  decide +kernel

/-- The scanner tells another basket, 1. -/
example : basketAfter 0 (read exRt (Json.env.pickOnly 0 fun nm => nm != b!"number") 80 Json.reader ((Scanner.new b!"[1, 23]" Heap.empty).newBasket 1)) =
    some (true, 7, [⟨b!"number", ⟨1, 2⟩⟩, ⟨b!"number", ⟨4, 6⟩⟩]) := by
  decide +kernel

/-- A segment of a body has positions in the body.  When it is picked, going back to 1 stops at it and leaves the segment `A`, which lies
behind 1, in the basket; when it is not picked, `A` is taken out. -/
def exBodyPick : Reader := .seq [.rune 122, .any [.seq [.pick b!"A" 0 (.lit b!"xx"), .bodyTail (.pick b!"in" 0 (.rune 121)) (.rune 59), .rune 33], .lit b!"xxy;"]]

theorem C102_violated : ∃ (r : Reader) (drop : Bytes → Bool) (text : Bytes),
    (r.Every fun c => c.tameB = true) ∧
    basketAfter 0 (read exRt [] 30 r ((Scanner.new text Heap.empty).newBasket 0)) = some (true, 5, [⟨b!"A", ⟨1, 3⟩⟩, ⟨b!"in", ⟨0, 1⟩⟩]) ∧
    basketAfter 0 (read exRt [] 30 (Reader.fewer ⟨0, drop⟩ r) ((Scanner.new text Heap.empty).newBasket 0)) = some (true, 5, []) ∧
    (!drop b!"A") = true := by
  refine ⟨exBodyPick, fun i => i == b!"in", b!"zxxy;", Reader.everyB_sound _ _ (by decide), ?_, ?_, ?_⟩ <;> decide +kernel

theorem fewer_ungone {q : Leave} {r : Reader} (h : r.Every fun r => q.gone r = false) : Reader.fewer q r = r := by
  induction h with
  | @mk r hp hs ih =>
    cases r with
    | pick i b c =>
      have : q.out i b = false := hp
      rw [Reader.fewer, this, ih c (by simp [Reader.subs])]
      rfl
    | any rs => rw [Reader.fewer, fewers_eq (rs := rs) ih]
    | seq rs => rw [Reader.fewer, fewers_eq (rs := rs) ih]
    | skipSeq sk rs => rw [Reader.fewer, ih sk (by simp [Reader.subs]), fewers_eq fun r hr => ih r (by simp [Reader.subs, hr])]
    | body b t => rw [Reader.fewer, ih b (by simp [Reader.subs]), ih t (by simp [Reader.subs])]
    | bodyTail b t => rw [Reader.fewer, ih b (by simp [Reader.subs]), ih t (by simp [Reader.subs])]
    | _ => first | rfl | exact congrArg _ (ih _ (by simp [Reader.subs]))

theorem fewerEnv_ungone {q : Leave} {G : Env} (h : G.Every fun r => q.gone r = false) : Env.fewer q G = G := by
  unfold Env.fewer
  conv_rhs => rw [← List.map_id G]
  refine List.map_congr_left fun rl hrl => ?_
  obtain ⟨nm, c⟩ := rl
  cases c with
  | none => rfl
  | some c => simp [fewer_ungone (h _ hrl c rfl)]

/-- A function of the client that reads with readers of the library, none of whose picks is left out, may stand in a `Wrap`. -/
theorem C102_calls (rt : Rt) (q : Leave) (G : Env) (hG : G.Every fun r => r.plainPick q ∧ q.gone r = false)
    (hk : ∀ rl ∈ G, ∀ c, rl.reader = some c → c.keeps) (r : Reader) (hr : r.Every fun r => r.plainPick q ∧ q.gone r = false) (n : Nat) (what : Bytes) :
    (Reader.wrap what (read rt G n r)).plainPick q := by
  have h1 := hG.imp fun _ h => h.1
  have h2 := hr.imp fun _ h => h.1
  have pG : G.Every (Reader.picky rt G q) := fun rl hrl c hc => picky_of_plain q h1 hk (h1 rl hrl c hc)
  have pr := picky_of_plain (rt := rt) q h1 hk h2
  refine ⟨picky_safe pG pr n, .of_sim fun s t hs hR => ?_⟩
  have := fewer_equal rt G (fun rl hrl c hc => (pG rl hrl c hc).and ((hG rl hrl c hc).imp fun _ h => h.2)) n r (pr.and (hr.imp fun _ h => h.2)) s t hs hR
  rw [fewer_ungone (hr.imp fun _ h => h.2), fewerEnv_ungone (hG.imp fun _ h => h.2)] at this
  exact this.mono fun a b _ _ hab => ⟨hab.1.eq, hab.2.1⟩

/-- One function after the other, the second only if the first gave no error. -/
def thenCall (f g : ReadFunc) : ReadFunc := fun s => do
  let (e, s) ← f s
  match e with
  | none => g s
  | some e => return (some e, s)

/-- So may two such functions, one after the other. -/
theorem C102_then (q : Leave) (what what' : Bytes) (f g : ReadFunc) (hf : (Reader.wrap what f).plainPick q) (hg : (Reader.wrap what' g).plainPick q) :
    (Reader.wrap what (thenCall f g)).plainPick q := by
  constructor
  · intro s hs
    refine (hf.1 s hs).bind fun a _ ha => ?_
    obtain ⟨e, s'⟩ := a
    cases e with
    | none => exact (hg.1 s' ha.1).mono fun b _ hb => ha.trans hb
    | some e => exact .ret ha
  · refine .of_sim fun s t hs hR => ?_
    refine (hf.2.sim hs hR).bind fun a b hx _ hab => ?_
    obtain ⟨e, s'⟩ := a
    obtain ⟨e', t'⟩ := b
    obtain ⟨h1, h2⟩ := hab
    obtain rfl : e' = e := h1
    cases e' with
    | none => exact hg.2.sim ((hf.1 s hs).2 _ hx).1 h2
    | some e => exact .ret ⟨rfl, h2⟩

/-- A function that looks whether the basket is empty. -/
def looksIn (b : Nat) : ReadFunc := fun s => .ret (if (s.heap.baskets b).isEmpty then none else some (.other b!"not empty"), s)

/-- A function that looks at the basket does not do the same. -/
theorem C102_looks_violated : ∃ (r : Reader) (drop : Bytes → Bool) (text : Bytes),
    basketAfter 0 (read exRt [] 30 r ((Scanner.new text Heap.empty).newBasket 0)) = some (false, 0, []) ∧
    basketAfter 0 (read exRt [] 30 (Reader.fewer ⟨0, drop⟩ r) ((Scanner.new text Heap.empty).newBasket 0)) = some (true, 1, []) := by
  refine ⟨.seq [.pick b!"A" 0 (.rune 97), .wrap b!"looks" (looksIn 0)], fun _ => true, b!"a", ?_, ?_⟩ <;> decide +kernel

/-- A function of the client that reads a comma and then a name, which is picked. -/
def exCalls : Reader := .wrap b!"name" (thenCall (read exRt [] 5 (.rune 44)) (read exRt [] 5 (.pick b!"B" 0 (.lit b!"xy"))))

/-- Picks named `A` are left out. -/
def exCallsLeave : Leave := ⟨0, fun i => i == b!"A"⟩

theorem exCalls_plain : exCalls.plainPick exCallsLeave := by
  have nil : Env.Every (fun r => r.plainPick exCallsLeave ∧ exCallsLeave.gone r = false) [] := by simp [Env.Every]
  have leaf : ∀ r : Reader, r.subs = [] → r.plainPick exCallsLeave → exCallsLeave.gone r = false →
      r.Every fun r => r.plainPick exCallsLeave ∧ exCallsLeave.gone r = false := fun r h1 h2 h3 => .mk ⟨h2, h3⟩ (by simp [h1])
  have lit := leaf (.lit b!"xy") rfl trivial rfl
  have pick : (Reader.pick b!"B" 0 (.lit b!"xy")).Every fun r => r.plainPick exCallsLeave ∧ exCallsLeave.gone r = false :=
    .mk ⟨trivial, by decide⟩ fun c hc => List.mem_singleton.mp hc ▸ lit
  exact C102_then exCallsLeave _ b!"" _ _ (C102_calls exRt exCallsLeave [] nil (by simp) _ (leaf (.rune 44) rfl trivial rfl) 5 _)
    (C102_calls exRt exCallsLeave [] nil (by simp) _ pick 5 _)

example : basketAfter 0 (read exRt [] 30 (.seq [.pick b!"A" 0 (.rune 97), exCalls]) ((Scanner.new b!"a,xy" Heap.empty).newBasket 0)) =
      some (true, 4, [⟨b!"A", ⟨0, 1⟩⟩, ⟨b!"B", ⟨2, 4⟩⟩]) ∧
    basketAfter 0 (read exRt [] 30 (Reader.fewer exCallsLeave (.seq [.pick b!"A" 0 (.rune 97), exCalls])) ((Scanner.new b!"a,xy" Heap.empty).newBasket 0)) =
      some (true, 4, [⟨b!"B", ⟨2, 4⟩⟩]) := by
  constructor <;> decide +kernel

end Tok
