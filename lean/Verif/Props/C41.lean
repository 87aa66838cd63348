/-
C41 Basket contents follow the scanner, C42 picked segments never clash.
-/
import Verif.Proofs.Picks
import Verif.Props.C28
import Verif.Props.C32
import Verif.Props.C17

namespace Tok
open Spec

/-! ### C41: the basket alone -/

/-- What happens to a basket: a segment is added, or it is told a new position. -/
inductive BasketEvent
  | add (seg : Segment)
  | update (m : Int)

/-- The contents of the basket after some events (tracker.go:37-50 `Add`, `Update`). -/
def runBasket : List Segment → List BasketEvent → List Segment
  | l, [] => l
  | l, .add seg :: evs => runBasket (l ++ [seg]) evs
  | l, .update m :: evs => runBasket (basketUpdate m l) evs

/-- Every segment is added when the position is its end. -/
def Tracks : Int → List BasketEvent → Prop
  | _, [] => True
  | p, .add seg :: evs => seg.tok.to = p ∧ Tracks p evs
  | _, .update m :: evs => Tracks m evs

/-- No later position lies before `x`. -/
def NeverBelow (x : Int) : List BasketEvent → Bool
  | [] => true
  | .add _ :: evs => NeverBelow x evs
  | .update m :: evs => decide (x ≤ m) && NeverBelow x evs

/-- The added segments such that no later position lies before their end, in the order of the additions. -/
def remaining : List BasketEvent → List Segment
  | [] => []
  | .add seg :: evs => if NeverBelow seg.tok.to evs then seg :: remaining evs else remaining evs
  | .update _ :: evs => remaining evs

theorem runBasket_eq : ∀ (evs : List BasketEvent) (p : Int) (l : List Segment), (∀ g ∈ l, g.tok.to ≤ p) →
    l.Pairwise (fun a c => a.tok.to ≤ c.tok.to) → Tracks p evs →
    runBasket l evs = l.filter (fun g => NeverBelow g.tok.to evs) ++ remaining evs
  | [], _, l, _, _, _ => by simp [runBasket, NeverBelow, remaining]
  | .add seg :: evs, p, l, h1, h2, h3 => by
    show runBasket (l ++ [seg]) evs = _
    rw [runBasket_eq evs p (l ++ [seg]) ?_ ?_ h3.2, List.filter_append, List.append_assoc]
    · show _ = _ ++ (if NeverBelow seg.tok.to evs then seg :: remaining evs else remaining evs)
      congr 1
      cases hn : NeverBelow seg.tok.to evs <;> simp [hn]
    · intro g hg
      rcases List.mem_append.mp hg with hg | hg
      · exact h1 g hg
      · rw [List.mem_singleton.mp hg]; exact Int.le_of_eq h3.1
    · rw [List.pairwise_append]
      refine ⟨h2, by simp, fun a ha c hc => ?_⟩
      rw [List.mem_singleton.mp hc, h3.1]
      exact h1 a ha
  | .update m :: evs, p, l, h1, h2, h3 => by
    show runBasket (basketUpdate m l) evs = _
    have hu : basketUpdate m l = l.filter (fun g => g.tok.to ≤ m) := by
      have := basketUpdate_append (m := m) (p := []) (l := l) (by simp) h2
      simpa using this
    rw [hu, runBasket_eq evs m _ ?_ (h2.sublist List.filter_sublist) h3, List.filter_filter]
    · congr 1
      congr 1
      funext g
      show _ = (decide (g.tok.to ≤ m) && _)
      exact Bool.and_comm _ _
    · intro g hg
      simpa using (List.mem_filter.mp hg).2

/-- A basket that follows positions, and gets every segment when the position is its end, contains
exactly the segments such that the position was never before their end since then, in the order of their addition. -/
theorem C41_basket (p : Int) (evs : List BasketEvent) (h : Tracks p evs) : runBasket [] evs = remaining evs := by
  have := runBasket_eq evs p [] (by simp) .nil h
  simpa using this

/-- `a` is picked, `b` is picked and rolled back, `c` is picked. -/
example : runBasket [] [.update 2, .add ⟨b!"a", ⟨0, 2⟩⟩, .update 4, .add ⟨b!"b", ⟨2, 4⟩⟩, .update 2, .update 3, .add ⟨b!"c", ⟨2, 3⟩⟩] =
    [⟨b!"a", ⟨0, 2⟩⟩, ⟨b!"c", ⟨2, 3⟩⟩] := by
  rw [C41_basket 0 _ (by simp [Tracks])]
  rfl

/-! ### C41: scanners -/

/-- The state of a coupled basket: the picked segments lie between the start of the text and
the position, ordered by their end, and each comes after or covers the ones picked before. -/
structure Follows (b : Nat) (s : Scanner) : Prop where
  inside : Inside s
  coupled : s.tracker = some (.basket b)
  within : ∀ g ∈ s.heap.baskets b, 0 ≤ g.tok.frm ∧ g.tok.frm ≤ g.tok.to ∧ g.tok.to ≤ s.pos
  nested : (s.heap.baskets b).Pairwise Nest

theorem Follows.start {s : Scanner} (hs : Inside s) (b : Nat) : Follows b (s.newBasket b) := by
  have h : (s.newBasket b).heap.baskets b = [] := if_pos rfl
  exact ⟨hs, rfl, by simp [h], by simp [h]⟩

theorem Follows.toCoupled {b : Nat} {s : Scanner} (h : Follows b s) : Coupled b s :=
  ⟨h.inside, h.coupled, fun g hg => (h.within g hg).2.2⟩

theorem Follows.grew {b : Nat} {s s' : Scanner} (h : Follows b s) (hg : Grew b s s') : Follows b s' := by
  obtain ⟨f, t, new, e1, p1, q1⟩ := hg
  have hf := f.2.2
  have h0 := h.inside.1
  refine ⟨f.1, t.trans h.coupled, fun g hg => ?_, ?_⟩
  · rw [e1] at hg
    rcases List.mem_append.mp hg with hg | hg
    · have := h.within g hg; omega
    · have := p1 g hg; omega
  · rw [e1, List.pairwise_append]
    refine ⟨h.nested, q1, fun a ha c hc => ?_⟩
    have := h.within a ha
    have := p1 c hc
    exact ⟨by omega, .inl (by omega)⟩

theorem Follows.move_to {b : Nat} {s : Scanner} (h : Follows b s) {m : Int} (h0 : 0 ≤ m) (h1 : m ≤ (s.full.length : Int)) :
    Follows b (s.at m) ∧ (s.at m).heap.baskets b = (s.heap.baskets b).filter (fun g => g.tok.to ≤ m) := by
  have hb : (s.at m).heap.baskets b = (s.heap.baskets b).filter (fun g => g.tok.to ≤ m) := by
    rw [at_basket h.coupled]
    show upd _ _ _ b = _
    rw [upd_self]
    have := basketUpdate_append (m := m) (p := []) (by simp) (h.nested.imp fun h => h.1)
    simpa using this
  have hp : (s.at m).pos = m := notify_pos _
  refine ⟨⟨⟨by rw [hp]; exact h0, ?_⟩, (notify_tracker _).trans h.coupled, ?_, ?_⟩, hb⟩
  · rw [hp]
    show m ≤ ((Scanner.notify _).full.length : Int)
    rw [notify_full]
    exact h1
  · intro g hg
    rw [hb, List.mem_filter, decide_eq_true_eq] at hg
    have := h.within g hg.1
    rw [hp]
    omega
  · rw [hb]
    exact h.nested.sublist List.filter_sublist

/-- A history of a scanner since its basket was made: reads, moves and jumps to markers in the text. -/
inductive History (rt : Rt) (G : Env) (b : Nat) : Scanner → Prop
  | start (s : Scanner) : Inside s → History rt G b (s.newBasket b)
  | read (n : Nat) (r : Reader) (s : Scanner) (e : Option Err) (s' : Scanner) : History rt G b s → r.Every (Reader.tracked G b) →
      read rt G n r s = .ret (e, s') → History rt G b s'
  | move (s : Scanner) (k : Int) : History rt G b s → History rt G b (s.move k).2
  | jump (s : Scanner) (m : Int) : History rt G b s → 0 ≤ m → m ≤ (s.full.length : Int) → History rt G b (s.toMarker m).2

theorem History.follows {rt : Rt} {G : Env} {b : Nat} (hG : G.Every (Reader.tracked G b)) {s : Scanner}
    (h : History rt G b s) : Follows b s := by
  induction h with
  | start s hs => exact .start hs b
  | read n r s e s' _ hr hrd ih =>
    exact ih.grew ((grew_frame rt G b).read (fun _ _ _ _ hi => hG.get hi) n r hr s ih.toCoupled _ hrd)
  | move s k _ ih =>
    unfold Scanner.move
    simp only
    split
    · exact ih
    · next h =>
      simp only [Bool.or_eq_true, decide_eq_true_eq, not_or] at h
      exact (ih.move_to (by omega) (by omega)).1
  | jump s m _ h0 h1 ih =>
    rw [toMarker_at h0]
    exact (ih.move_to h0 h1).1

/-- At every moment of a history the picked segments end at or before the position, are ordered by
their end and lie inside the text.  (Partial: the readers of the history and the rules must not pick inside the first part
of a `Body` or `BodyTail`, and have no `Wrap` that breaks the rules.) -/
theorem C41_always_partial (rt : Rt) (G : Env) (b : Nat) (hG : G.Every (Reader.tracked G b)) (s : Scanner)
    (h : History rt G b s) :
    (∀ g ∈ s.heap.baskets b, 0 ≤ g.tok.frm ∧ g.tok.frm ≤ g.tok.to ∧ g.tok.to ≤ s.pos ∧ g.tok.to ≤ (s.full.length : Int)) ∧
      (s.heap.baskets b).Pairwise (fun a c => a.tok.to ≤ c.tok.to) := by
  have hf := h.follows hG
  refine ⟨fun g hg => ?_, hf.nested.imp fun h => h.1⟩
  have := hf.within g hg
  have := hf.inside.2
  omega

/-- Going to a marker drops exactly the segments that end behind it. -/
theorem C41_marker_partial (rt : Rt) (G : Env) (b : Nat) (hG : G.Every (Reader.tracked G b)) (s : Scanner)
    (h : History rt G b s) (m : Int) (h0 : 0 ≤ m) (h1 : m ≤ (s.full.length : Int)) :
    (s.toMarker m).2.heap.baskets b = (s.heap.baskets b).filter (fun g => g.tok.to ≤ m) := by
  rw [toMarker_at h0]
  exact ((h.follows hG).move_to h0 h1).2

/-- A read keeps what was picked before it and adds segments that lie in the text between the old and
the new position. -/
theorem C41_read_partial (rt : Rt) (G : Env) (b : Nat) (hG : G.Every (Reader.tracked G b)) (s : Scanner)
    (h : History rt G b s) (r : Reader) (hr : r.Every (Reader.tracked G b)) (n : Nat) (e : Option Err) (s' : Scanner)
    (hrd : read rt G n r s = .ret (e, s')) :
    ∃ new, s'.heap.baskets b = s.heap.baskets b ++ new ∧ ∀ g ∈ new, s.pos ≤ g.tok.frm ∧ g.tok.frm ≤ g.tok.to ∧ g.tok.to ≤ s'.pos := by
  obtain ⟨_, _, new, e1, p1, _⟩ :=
    (grew_frame rt G b).read (fun _ _ _ _ hi => hG.get hi) n r hr s (h.follows hG).toCoupled _ hrd
  exact ⟨new, e1, p1⟩

/-- After a failed read that restored the position everything picked by it is gone, but for empty segments at that position. -/
theorem C41_failed_partial (rt : Rt) (G : Env) (b : Nat) (hG : G.Every (Reader.tracked G b)) (s : Scanner)
    (h : History rt G b s) (r : Reader) (hr : r.Every (Reader.tracked G b)) (n : Nat) (e : Err) (s' : Scanner)
    (hrd : read rt G n r s = .ret (some e, s')) (hpos : s'.pos = s.pos) :
    ∃ new, s'.heap.baskets b = s.heap.baskets b ++ new ∧ ∀ g ∈ new, g.tok = ⟨s.pos, s.pos⟩ := by
  obtain ⟨new, e1, p1⟩ := C41_read_partial rt G b hG s h r hr n _ s' hrd
  refine ⟨new, e1, fun g hg => ?_⟩
  have := p1 g hg
  obtain ⟨i, ⟨x, y⟩⟩ := g
  simp only at this
  rw [Token.mk.injEq]
  omega

/-- A pick that reads adds last exactly the token read. -/
theorem C41_pick_partial (rt : Rt) (G : Env) (b : Nat) (hG : G.Every (Reader.tracked G b)) (s : Scanner)
    (h : History rt G b s) (info : Bytes) (c : Reader) (hc : c.Every (Reader.tracked G b)) (n : Nat) (s' : Scanner)
    (hrd : read rt G (n + 1) (.pick info b c) s = .ret (none, s')) :
    ∃ s1, read rt G n c s = .ret (none, s1) ∧ s'.pos = s1.pos ∧
      s'.heap.baskets b = s1.heap.baskets b ++ [⟨info, ⟨s.pos, s'.pos⟩⟩] := by
  have hfw := ((grew_frame rt G b).read (fun _ _ _ _ hi => hG.get hi) n c hc s (h.follows hG).toCoupled)
  unfold read at hrd
  simp only [Scanner.tokenizeUse] at hrd
  cases hx : read rt G n c s with
  | panic => rw [hx] at hrd; simp at hrd
  | timeout => rw [hx] at hrd; simp at hrd
  | ret x =>
    obtain ⟨e, s1⟩ := x
    rw [hx] at hrd
    have hp := (hfw _ hx).1.2.2
    simp only at hp
    cases e with
    | none =>
      simp only [Exec.bind_ret, Option.isNone_none, if_true, Exec.pure_eq, Exec.ret.injEq, Prod.mk.injEq, true_and] at hrd
      subst hrd
      refine ⟨s1, rfl, rfl, ?_⟩
      show upd s1.heap.baskets b (s1.heap.baskets b ++ [(⟨info, makeToken s.pos s1.pos⟩ : Segment)]) b =
        s1.heap.baskets b ++ [(⟨info, ⟨s.pos, s1.pos⟩⟩ : Segment)]
      rw [upd_self]
      unfold makeToken
      rw [if_neg (show ¬ s.pos > s1.pos by omega)]
    | some e => simp at hrd

/-- A boolean test for `Reader.tracked`. -/
def Reader.trackedB : Reader → Bool
  | .body _ _ => false
  | .bodyTail _ _ => false
  | .wrap _ _ => false
  | _ => true

theorem tracked_of_B {G : Env} {b : Nat} {r : Reader} (h : r.trackedB = true) : r.tracked G b := by
  cases r <;> trivial

/-- A rule with a pick. -/
theorem pick_every {P : Reader → Prop} {info : Bytes} {b : Nat} {c : Reader} (hp : P (.pick info b c)) (hc : c.Every P) :
    (Reader.pick info b c).Every P :=
  .mk hp fun d hd => by rw [List.mem_singleton.mp hd]; exact hc

theorem trackedB_every {G : Env} {b : Nat} (h : G.everyB Reader.trackedB = true) (H : Env) : G.Every (Reader.tracked H b) :=
  (Env.everyB_sound h).imp fun _ => tracked_of_B

/-- `Basket.PickWith` on the rules of the JSON and the Lua grammar: the theorems apply. -/
theorem C41_shipped (b : Nat) :
    (Json.env.pickAll b).Every (Reader.tracked (Json.env.pickAll b) b) ∧ (Lua.env.pickAll b).Every (Reader.tracked (Lua.env.pickAll b) b) :=
  ⟨trackedB_every rfl _, trackedB_every rfl _⟩

/-- Segments picked inside a part of the parse that was rolled back are gone, all others are kept: after a
successful read the basket contains what it contained before and the segments of the picks on the way of a parse of
the text read, not counting empty segments.  (Partial: no `Wrap`, no `Times` with two or more
repetitions where the read goes on after its failure, no picks inside the first part of `Body` or `BodyTail`, and not for empty segments.) -/
theorem C41_parse_partial (rt : Rt) (G : Env) (b : Nat) (hG : G.Every (Reader.transact G b))
    (hK : ∀ rl ∈ G, ∀ c, rl.reader = some c → c.keeps) (s : Scanner)
    (h : History rt G b s) (r : Reader) (hr : r.Every (Reader.transact G b)) (n : Nat) (s' : Scanner)
    (hrd : read rt G n r s = .ret (none, s')) :
    ∃ l, Picks G (Outcome rt G) b s.full.length r s.st s'.st l ∧
      (s'.heap.baskets b).filter (fun g => g.tok.frm < g.tok.to) =
        (s.heap.baskets b).filter (fun g => g.tok.frm < g.tok.to) ++ l.filter (fun g => g.tok.frm < g.tok.to) := by
  obtain ⟨l, h1, h2⟩ := (read_takes rt G b s.full hG hK n r hr s (h.follows (fun rl hrl c hc => (hG rl hrl c hc).imp fun _ h => h.1)).toCoupled rfl _ hrd).1.ok rfl
  have hGw : G.Every (fun r => r.noWrap = true) := fun rl hrl c hc => (hG rl hrl c hc).imp fun _ h => h.2.1
  exact ⟨l, picks_mono hGw (fun c hc st x h => (outcome_iff hGw hc).mpr h) h1 (hr.imp fun _ h => h.2.1), h2⟩

/-- A boolean test for `Reader.keeps`. -/
def Reader.restoresB : Reader → Bool
  | .wrap _ _ => false
  | .times k _ => decide (k ≤ 0)
  | .named _ r => r.restoresB
  | .monitor _ _ r => r.restoresB
  | .ruleName r => r.restoresB
  | .grammar _ r => r.restoresB
  | _ => true

theorem keeps_of_restoresB : ∀ {r : Reader}, r.restoresB = true → r.keeps
  | .named _ r, h => keeps_of_restoresB (r := r) h
  | .monitor _ _ r, h => keeps_of_restoresB (r := r) h
  | .ruleName r, h => keeps_of_restoresB (r := r) h
  | .grammar _ r, h => keeps_of_restoresB (r := r) h
  | .times _ _, h => .inl (of_decide_eq_true h)
  | .wrap _ _, h => nomatch h
  | .any _, _ | .anyRune _, _ | .at_ _, _ | .atEnd, _ | .between _ _, _ | .betweenAny _ _, _ | .body _ _, _ | .bodyTail _ _, _ | .bool _ _, _
  | .fold _, _ | .holey _ _ _, _ | .int _ _ _, _ | .janusBegin _ _ _, _ | .janusEnd _ _, _ | .invalid _, _ | .lit _, _ | .many _, _ | .map _ _, _
  | .match_ _ _, _ | .not _, _ | .opt _, _ | .past _, _ | .rune _, _ | .seq _, _ | .skipSeq _ _, _ | .to _, _ | .uint _ _ _, _ | .zom _, _
  | .pick _ _ _, _ | .rule _, _ => trivial

/-- A boolean test for `Reader.transact`. -/
def Reader.transactB (r : Reader) : Bool := r.trackedB && r.tries.all Reader.restoresB

theorem transact_of_B {G : Env} {b : Nat} {r : Reader} (h : r.transactB = true) : r.transact G b := by
  unfold Reader.transactB at h
  rw [Bool.and_eq_true, List.all_eq_true] at h
  refine ⟨tracked_of_B h.1, ?_, fun c hc => keeps_of_restoresB (h.2 c hc)⟩
  have := h.1
  cases r <;> first | rfl | cases this

theorem restoresB_env {G : Env} (h : G.all (fun rl => match rl.reader with | some c => c.restoresB | none => true) = true) :
    ∀ rl ∈ G, ∀ c, rl.reader = some c → c.keeps := by
  intro rl hrl c hc
  have := List.all_eq_true.mp h rl hrl
  simp only [hc] at this
  exact keeps_of_restoresB this

/-- The JSON and the Lua grammar with all rules picked: the theorem applies. -/
theorem C41_parse_shipped (b : Nat) (G : Env) (hG : G = Json.env ∨ G = Lua.env) : (G.pickAll b).Every (Reader.transact (G.pickAll b) b) ∧
    ∀ rl ∈ G.pickAll b, ∀ c, rl.reader = some c → c.keeps := by
  rcases hG with rfl | rfl
  · exact ⟨(Env.everyB_sound (p := Reader.transactB) rfl).imp fun _ => transact_of_B, restoresB_env rfl⟩
  · exact ⟨(Env.everyB_sound (p := Reader.transactB) rfl).imp fun _ => transact_of_B, restoresB_env rfl⟩

/-- Whether a read succeeded, the position after it, and the segments in a basket. -/
def basketAfter (b : Nat) : Exec (Option Err × Scanner) → Option (Bool × Int × List Segment)
  | .ret (e, s) => some (e.isNone, s.pos, s.heap.baskets b)
  | _ => none

/-- `7 x` and `[1,tru` with all rules of the JSON grammar picked. -/
example : basketAfter 0 (read exRt (Json.env.pickAll 0) 40 (.rule Json.iElement) ((Scanner.new b!"7 x" Heap.empty).newBasket 0)) =
    some (true, 2, [⟨b!"ws", ⟨0, 0⟩⟩, ⟨b!"onenine", ⟨0, 1⟩⟩, ⟨b!"integer", ⟨0, 1⟩⟩, ⟨b!"fraction", ⟨1, 1⟩⟩, ⟨b!"exponent", ⟨1, 1⟩⟩,
      ⟨b!"number", ⟨0, 1⟩⟩, ⟨b!"value", ⟨0, 1⟩⟩, ⟨b!"ws", ⟨1, 2⟩⟩, ⟨b!"element", ⟨0, 2⟩⟩]) := by decide +kernel
example : basketAfter 0 (read exRt (Json.env.pickAll 0) 80 Json.reader ((Scanner.new b!"[1,tru" Heap.empty).newBasket 0)) =
    some (false, 0, [⟨b!"ws", ⟨0, 0⟩⟩]) := by decide +kernel

/-- The segment of the alternative that fails is dropped, that of the one that reads is kept. -/
example : basketAfter 0 (read exRt [] 9 (.any [.seq [.pick b!"p" 0 (.rune 97), .rune 99], .seq [.pick b!"q" 0 (.rune 97), .rune 98]])
    ((Scanner.new b!"ab" Heap.empty).newBasket 0)) = some (true, 2, [⟨b!"q", ⟨0, 1⟩⟩]) := by decide +kernel

/-- The claim fails.  An empty segment survives the rollback of the part of the parse that picked it: the
JSON grammar with all rules picked fails on `[1,tru` and the basket contains a segment; so does the
successful read of `b` with `Any(Seq(Pick(Zom('a')), 'c'), 'b')`, with a segment of the first alternative.  Segments
picked in the first part of `BodyTail` have positions of another text, and are kept when they are rolled back: the MXT
grammar with all rules picked reads the header `// a --x-->` with word characters at 0, 1 and 2 that are picked twice, behind
the name that ends at 4. -/
theorem C41_violated :
    basketAfter 0 (read exRt (Json.env.pickAll 0) 80 Json.reader ((Scanner.new b!"[1,tru" Heap.empty).newBasket 0)) =
      some (false, 0, [⟨b!"ws", ⟨0, 0⟩⟩]) ∧
    basketAfter 0 (read exRt [] 9 (.any [.seq [.pick b!"p" 0 (.zom (.rune 97)), .rune 99], .rune 98])
      ((Scanner.new b!"b" Heap.empty).newBasket 0)) = some (true, 1, [⟨b!"p", ⟨0, 0⟩⟩]) ∧
    basketAfter 0 (read exRt (Mxt.env.pickAll 0) 40 Mxt.reader ((Scanner.new b!"// a --x-->" Heap.empty).newBasket 0)) =
      some (true, 11, [⟨b!"marker", ⟨0, 2⟩⟩, ⟨b!"wordchar", ⟨3, 4⟩⟩, ⟨b!"word", ⟨3, 4⟩⟩, ⟨b!"name", ⟨3, 4⟩⟩, ⟨b!"wordchar", ⟨0, 1⟩⟩,
        ⟨b!"wordchar", ⟨1, 2⟩⟩, ⟨b!"wordchar", ⟨2, 3⟩⟩, ⟨b!"comment", ⟨4, 5⟩⟩, ⟨b!"wordchar", ⟨0, 1⟩⟩, ⟨b!"wordchar", ⟨1, 2⟩⟩,
        ⟨b!"wordchar", ⟨2, 3⟩⟩, ⟨b!"arrow", ⟨5, 11⟩⟩, ⟨b!"header", ⟨0, 11⟩⟩, ⟨b!"empty-content", ⟨11, 11⟩⟩, ⟨b!"chunk", ⟨0, 11⟩⟩,
        ⟨b!"chunks", ⟨0, 11⟩⟩]) := by
  refine ⟨?_, ?_, ?_⟩ <;> decide +kernel

end Tok
