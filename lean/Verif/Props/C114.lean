/-
C114 What is picked is in the log.
-/
import Verif.Props.C43
import Verif.Props.C44
import Verif.Props.C103
import Verif.Props.C113

namespace Tok
open Spec

/-- The names and positions in a log, in the order of the calls. -/
def called (l : Log) : List (Bytes × Int) := l.entries.map fun en => (en.info, en.enterAt)

/-- What is picked for the basket `b` is monitored by the log `l`, under the same name: `Pick` around `Monitor`.  The functions of `Wrap` readers go forward, leave
the log as it is and put nothing into the basket. -/
def Reader.seen (l b : Nat) : Reader → Prop
  | .pick info k c => k = b → ∃ c', c = .monitor info l c'
  | .wrap _ f => ∀ s, Inside s → RetE (fun x => Forward s x.2 ∧ x.2.heap.logs l = s.heap.logs l ∧ ∀ g ∈ x.2.heap.baskets b, g ∈ s.heap.baskets b) (f s)
  | _ => True

/-- Between two states the log gets new lines, and every new segment of the basket has one of them. -/
def Seen (l b : Nat) (s s' : Scanner) : Prop :=
  Forward s s' ∧ ∃ new, called (s'.heap.logs l) = called (s.heap.logs l) ++ new ∧
    ∀ g ∈ s'.heap.baskets b, g ∈ s.heap.baskets b ∨ (g.info, g.tok.frm) ∈ new

theorem called_exit (l : Log) (p : EntryPtr) (pos : Int) (e : Option Err) : called (l.exit p pos e) = called l := by
  unfold called Log.exit
  simp only
  split
  · apply List.ext_getElem?
    intro i
    simp only [List.getElem?_map, List.getElem?_modify]
    cases l.entries[i]? with
    | none => rfl
    | some en => simp only [Option.map_some, Option.map_map]; split <;> rfl
  · rfl

theorem called_enter (rt : Rt) (l : Log) (info : Bytes) (pos : Int) : called (l.enter rt info pos).2 = called l ++ [(info, pos)] := by
  unfold called Log.enter
  simp only
  split <;> simp

theorem every_deep {p : Reader → Prop} {r : Reader} (h : r.Every p) : r.Every (fun r => p r ∧ r.Every p) := by
  induction h with
  | mk h hs ih => exact .mk ⟨h, .mk h hs⟩ ih

theorem noLog_of_seen {l b : Nat} {r : Reader} (h : Reader.seen l b r) : Reader.noLog l r := by
  cases r with
  | wrap w f => exact fun s hs => (h s hs).mono fun _ _ h => ⟨h.1, h.2.1⟩
  | _ => trivial

theorem seen_frame (rt : Rt) (G : Env) (l b : Nat) (hG : G.Every (Reader.seen l b)) :
    Frame rt G (fun r => Reader.seen l b r ∧ r.Every (Reader.seen l b)) Inside (Seen l b) where
  inside h := h
  fwd _ h := h.1
  inv _ h := h.1.1
  refl h := ⟨.refl h, [], by simp, fun _ h => .inl h⟩
  trans _ h h' := by
    obtain ⟨f, new, e, p⟩ := h
    obtain ⟨f', new', e', p'⟩ := h'
    refine ⟨f.trans f', new ++ new', by rw [e', e, List.append_assoc], fun g hg => ?_⟩
    rcases p' g hg with hg | hg
    · exact (p g hg).imp id fun h => List.mem_append_left _ h
    · exact .inr (List.mem_append_right _ hg)
  go {s m} h h1 h2 := ⟨forward_go h h1 h2, [], by rw [at_logs]; simp, fun g hg => .inl (at_baskets hg)⟩
  back h h' := by
    obtain ⟨f, new, e, p⟩ := h'
    exact ⟨forward_at h f, new, by rw [at_logs]; exact e, fun g hg => p g (at_baskets hg)⟩
  cells _ _ _ _ h := h
  janus _ _ _ _ h := h
  pick {s s' info k c n} hp hs hr h := by
    obtain ⟨f, new, e, p⟩ := h
    refine ⟨f, new, e, fun g hg => ?_⟩
    have hg : g ∈ upd s'.heap.baskets k (s'.heap.baskets k ++ [⟨info, makeToken s.pos s'.pos⟩]) b := hg
    by_cases hk : b = k
    · subst hk
      rw [upd_self] at hg
      rcases List.mem_append.mp hg with hg | hg
      · exact p g hg
      · right
        cases List.mem_singleton.mp hg
        obtain ⟨c', rfl⟩ := hp.1 rfl
        have hc' : c'.Every (Reader.noLog l) := ((hp.2.sub (c := .monitor info l c') (by simp [Reader.subs])).sub (c := c') (by simp [Reader.subs])).imp fun _ => noLog_of_seen
        cases n with
        | zero => cases hr
        | succ n =>
          obtain ⟨en, inner, _, h1, h2, h3, _⟩ := C43_call rt G l info c' (hG.imp fun _ => noLog_of_seen) hc' n s s' hs none hr
          have h4 : called (s.heap.logs l) ++ new = called (s.heap.logs l) ++ (en.info, en.enterAt) :: inner.map fun en => (en.info, en.enterAt) := by
            rw [← e]
            unfold called
            rw [h1]
            simp
          rw [List.append_cancel_left h4, h2, h3]
          have hle := f.2.2
          unfold makeToken
          rw [if_neg (by omega)]
          exact List.mem_cons_self
    · rw [upd_ne _ _ hk] at hg
      exact p g hg
  map _ _ h := h
  enter _ h := h
  leave {s s' info k c n e} _ hs _ h := by
    obtain ⟨f, new, e1, p⟩ := h
    by_cases hk : l = k
    · subst hk
      refine ⟨f, (info, s.pos) :: new, ?_, fun g hg => (p g hg).imp id (List.mem_cons_of_mem _)⟩
      show called (upd _ _ _ l) = _
      rw [upd_self, called_exit, e1]
      show called (upd _ _ _ l) ++ _ = _
      rw [upd_self, called_enter]
      simp
    · refine ⟨f, new, ?_, p⟩
      show called (upd _ _ _ l) = _
      rw [upd_ne _ _ hk, e1]
      show called (upd _ _ _ l) ++ _ = _
      rw [upd_ne _ _ hk]
  wrap hp hs := (hp.1 _ hs).mono fun _ _ h => ⟨h.1, [], by rw [h.2.1, List.append_nil], fun g hg => .inl (h.2.2 g hg)⟩
  body {s s' c t n str e sub} _ hs h _ _ h3 := by
    obtain ⟨f, new, e1, p⟩ := h
    obtain ⟨f', new', e2, p'⟩ := h3 (new_inside _ _)
    have key : ∀ g, g ∈ sub.heap.baskets b → g ∈ s.heap.baskets b ∨ (g.info, g.tok.frm) ∈ new ++ new' := fun g hg => by
      rcases p' g hg with hg | hg
      · exact (p g hg).imp id fun h => List.mem_append_left _ h
      · exact .inr (List.mem_append_right _ hg)
    refine ⟨⟨f, new ++ new', ?_, key⟩, fun _ => ⟨f, new ++ new', ?_, fun g hg => key g (at_baskets hg)⟩⟩
    · show called (sub.heap.logs l) = _
      rw [e2, ← List.append_assoc, ← e1]
      rfl
    · show called ((sub.at 0).heap.logs l) = _
      rw [at_logs, e2, ← List.append_assoc, ← e1]
      rfl

/-- After a read, successful or not, of readers whose picked parts are monitored: the log holds what it held and new lines, and for every segment that was
not in the basket before there is a new line with its name and its start. -/
theorem C114_seen (rt : Rt) (G : Env) (l b : Nat) (hG : G.Every (Reader.seen l b)) (r : Reader) (hr : r.Every (Reader.seen l b)) (n : Nat) (s s' : Scanner) (hs : Inside s)
    (e : Option Err) (h : read rt G n r s = .ret (e, s')) :
    ∃ new, called (s'.heap.logs l) = called (s.heap.logs l) ++ new ∧ ∀ g ∈ s'.heap.baskets b, g ∈ s.heap.baskets b ∨ (g.info, g.tok.frm) ∈ new :=
  ((seen_frame rt G l b hG).read (fun _ _ _ _ hi => every_deep (hG.get hi)) n r (every_deep hr) s hs _ h).2

theorem seen_rules {l b : Nat} {G : Env} (hG : G.Every (Reader.seen l b)) : ((G.monitorAll l).pickAll b).Every (Reader.seen l b) := by
  intro rl hrl c hc
  obtain ⟨rl', hrl', rfl⟩ := List.mem_map.mp hrl
  obtain ⟨⟨nm, _ | c'⟩, hr', rfl⟩ := List.mem_map.mp hrl'
  · cases hc
  · cases hc
    refine .mk (r := .pick nm b (.monitor nm l c')) (fun _ => ⟨c', rfl⟩) fun x hx => ?_
    rw [List.mem_singleton.mp hx]
    refine .mk (r := .monitor nm l c') trivial fun x hx => ?_
    rw [List.mem_singleton.mp hx]
    exact hG _ hr' c' rfl

/-- Monitor all rules of a grammar, then pick them all: with a new log and a new basket, every picked segment is in the log. -/
theorem C114_rules (rt : Rt) (G : Env) (l b : Nat) (hG : G.Every (Reader.seen l b)) (i n : Nat) (text : Bytes) (h : Heap) (h0 : h.logs l = Log.empty) (e : Option Err)
    (s' : Scanner) (hr : read rt ((G.monitorAll l).pickAll b) n (.rule i) ((Scanner.new text h).newBasket b) = .ret (e, s')) :
    ∀ g ∈ s'.heap.baskets b, ∃ en ∈ (s'.heap.logs l).entries, en.info = g.info ∧ en.enterAt = g.tok.frm := by
  intro g hg
  obtain ⟨new, h1, h2⟩ := C114_seen rt _ l b (seen_rules hG) (.rule i) (.mk trivial (by simp [Reader.subs])) n _ s' (show Inside ((Scanner.new text h).newBasket b) from new_inside text h) e hr
  have h3 : called (((Scanner.new text h).newBasket b).heap.logs l) = [] := by
    show called (h.logs l) = []
    rw [h0]
    rfl
  rw [h3, List.nil_append] at h1
  have h4 : ((Scanner.new text h).newBasket b).heap.baskets b = [] := upd_self _ _ _
  have h5 : (g.info, g.tok.frm) ∈ called (s'.heap.logs l) := by
    rw [h1]
    refine (h2 g hg).resolve_left fun hn => ?_
    rw [h4] at hn
    cases hn
  obtain ⟨en, h6, h7⟩ := List.mem_map.mp h5
  exact ⟨en, h6, (Prod.mk.inj h7).1, (Prod.mk.inj h7).2⟩

/-- Readers other than `Pick` and `Wrap`. -/
def Reader.keepsQuiet : Reader → Bool
  | .pick _ _ _ | .wrap _ _ => false
  | _ => true

/-- The shipped grammars. -/
theorem C114_shipped (rt : Rt) (G : Env) (hG : G = Json.env ∨ G = Mxt.env ∨ G = Lua.env) (l b i n : Nat) (text : Bytes) (h : Heap) (h0 : h.logs l = Log.empty) (e : Option Err)
    (s' : Scanner) (hr : read rt ((G.monitorAll l).pickAll b) n (.rule i) ((Scanner.new text h).newBasket b) = .ret (e, s')) :
    ∀ g ∈ s'.heap.baskets b, ∃ en ∈ (s'.heap.logs l).entries, en.info = g.info ∧ en.enterAt = g.tok.frm := by
  have hq : G.Every (fun r => r.keepsQuiet = true) := by rcases hG with rfl | rfl | rfl <;> exact Env.everyB_sound (by decide)
  exact C114_rules rt G l b (hq.imp fun r h => by cases r <;> trivial) i n text h h0 e s' hr

/-! ### the order of Monitor and Pick -/

/-- Only picks. -/
def Spec.Del.onlyPick : Del := ⟨false, true, false, false⟩

/-- Two grammars that are the same without `Monitor` and the same without `Pick` read alike, with the same baskets and the same logs. -/
theorem C114_order (rt : Rt) (G G' : Env) (hG : G.Every Reader.tame) (hk : ∀ rl ∈ G, ∀ c, rl.reader = some c → c.keeps)
    (hG' : G'.Every Reader.tame) (hk' : ∀ rl ∈ G', ∀ c, rl.reader = some c → c.keeps) (r r' : Reader) (hr : r.Every Reader.tame) (hr' : r'.Every Reader.tame)
    (h1 : stripEnv .onlyMonitor G = stripEnv .onlyMonitor G') (h2 : stripEnv .onlyPick G = stripEnv .onlyPick G')
    (h3 : strip .onlyMonitor r = strip .onlyMonitor r') (h4 : strip .onlyPick r = strip .onlyPick r') (s : Scanner) (hs : Inside s) (n : Nat) (e : Option Err) (s' : Scanner)
    (h : read rt G n r s = .ret (e, s')) : ∃ m, read rt G' m r' s = .ret (e, s') := by
  have same (d : Del) : Alike d s s := ⟨rfl, rfl, rfl, rfl, rfl, fun _ _ => rfl, fun _ _ => rfl, fun _ => rfl, fun _ _ => rfl⟩
  have off (d : Del) (r : Reader) (hr : r.Every Reader.tame) := plain_of_tame (rt := rt) d hG hk hr
  have off' (d : Del) (r : Reader) (hr : r.Every Reader.tame) := plain_of_tame (rt := rt) d hG' hk' hr
  have eoff (d : Del) : G.Every (Reader.offhand rt G d) := fun rl hrl c hc => off d c (hG rl hrl c hc)
  have eoff' (d : Del) : G'.Every (Reader.offhand rt G' d) := fun rl hrl c hc => off' d c (hG' rl hrl c hc)
  obtain ⟨e1, t, a1, a2, a3⟩ := strip_ret rt G (eoff .onlyMonitor) (off _ r hr) hs (same _) h
  rw [h1, h3] at a1
  obtain ⟨m, e2, u, a4, a5, a6⟩ := strip_ret' rt G' (eoff' .onlyMonitor) (off' _ r' hr') hs (same _) a1
  obtain ⟨e3, t', b1, b2, b3⟩ := strip_ret rt G (eoff .onlyPick) (off _ r hr) hs (same _) h
  rw [h2, h4] at b1
  obtain ⟨m', e4, u', b4, b5, b6⟩ := strip_ret' rt G' (eoff' .onlyPick) (off' _ r' hr') hs (same _) b1
  cases read_det a4 b4
  have he : e2 = e := (a5.eq rfl).symm.trans (a2.eq rfl)
  have hu : u = s' := by
    obtain ⟨f, p, tr, ⟨hb, hkk, j, l, ms, c⟩⟩ := u
    obtain ⟨f', p', tr', ⟨hb', hkk', j', l', ms', c'⟩⟩ := s'
    have q1 := a6.full.symm.trans a3.full
    have q2 := a6.pos.symm.trans a3.pos
    have q3 := a6.tracker.symm.trans a3.tracker
    have q4 := a6.cells.symm.trans a3.cells
    have q5 := a6.janus.symm.trans a3.janus
    have q6 := (a6.baskets rfl rfl).symm.trans (a3.baskets rfl rfl)
    have q7 := (a6.tracks rfl rfl).symm.trans (a3.tracks rfl rfl)
    have q8 := (a6.maps rfl).symm.trans (a3.maps rfl)
    have q9 := (b6.logs rfl rfl).symm.trans (b3.logs rfl rfl)
    simp only at q1 q2 q3 q4 q5 q6 q7 q8 q9
    subst q1 q2 q3 q4 q5 q6 q7 q8 q9
    rfl
  exact ⟨m, by rw [a4, he, hu]⟩

theorem tame_both {l b : Nat} {G : Env} (hG : G.Every Reader.tame) (hk : ∀ rl ∈ G, ∀ c, rl.reader = some c → c.keeps) :
    (G.monitorAll l).Every Reader.tame ∧ (∀ rl ∈ G.monitorAll l, ∀ c, rl.reader = some c → c.keeps) ∧
    (G.pickAll b).Every Reader.tame ∧ ∀ rl ∈ G.pickAll b, ∀ c, rl.reader = some c → c.keeps := by
  refine ⟨?_, ?_, ?_, ?_⟩ <;> intro rl hrl c hc <;> obtain ⟨⟨nm, _ | c'⟩, hr', rfl⟩ := List.mem_map.mp hrl <;> cases hc
  · exact .mk (r := .monitor _ _ _) trivial fun x hx => List.mem_singleton.mp hx ▸ hG _ hr' c' rfl
  · exact hk _ hr' c' rfl
  · exact .mk (r := .pick _ _ _) (hk _ hr' c' rfl) fun x hx => List.mem_singleton.mp hx ▸ hG _ hr' c' rfl
  · trivial

/-- Whether all rules are monitored first or picked first, a read ends with the same error or none and the same scanner, basket and log. -/
theorem C114_either (rt : Rt) (G : Env) (hG : G.Every Reader.tame) (hk : ∀ rl ∈ G, ∀ c, rl.reader = some c → c.keeps) (l b : Nat) (r : Reader) (hr : r.Every Reader.tame)
    (s : Scanner) (hs : Inside s) (e : Option Err) (s' : Scanner) :
    (∃ n, read rt ((G.monitorAll l).pickAll b) n r s = .ret (e, s')) ↔ ∃ n, read rt ((G.pickAll b).monitorAll l) n r s = .ret (e, s') := by
  obtain ⟨m1, m2, p1, p2⟩ := tame_both (l := l) (b := b) hG hk
  obtain ⟨_, _, x1, x2⟩ := tame_both (l := l) (b := b) m1 m2
  obtain ⟨y1, y2, _, _⟩ := tame_both (l := l) (b := b) p1 p2
  have key (d : Del) (hd : d = .onlyMonitor ∨ d = .onlyPick) : stripEnv d ((G.monitorAll l).pickAll b) = stripEnv d ((G.pickAll b).monitorAll l) := by
    unfold stripEnv Env.monitorAll Env.pickAll
    simp only [List.map_map]
    refine List.map_congr_left fun rl _ => ?_
    obtain ⟨nm, _ | c⟩ := rl
    · rfl
    · show (⟨nm, some (strip d (.pick nm b (.monitor nm l c)))⟩ : Rule) = ⟨nm, some (strip d (.monitor nm l (.pick nm b c)))⟩
      rcases hd with rfl | rfl <;> simp [strip, Del.onlyMonitor, Del.onlyPick]
  constructor
  · rintro ⟨n, h⟩
    exact C114_order rt _ _ x1 x2 y1 y2 r r hr hr (key _ (.inl rfl)) (key _ (.inr rfl)) rfl rfl s hs n e s' h
  · rintro ⟨n, h⟩
    exact C114_order rt _ _ y1 y2 x1 x2 r r hr hr (key _ (.inl rfl)).symm (key _ (.inr rfl)).symm rfl rfl s hs n e s' h

/-- So what is picked is in the log in the other order too. -/
theorem C114_shipped_other (rt : Rt) (G : Env) (hG : G = Json.env ∨ G = Mxt.env ∨ G = Lua.env) (l b i n : Nat) (text : Bytes) (h : Heap) (h0 : h.logs l = Log.empty)
    (e : Option Err) (s' : Scanner) (hr : read rt ((G.pickAll b).monitorAll l) n (.rule i) ((Scanner.new text h).newBasket b) = .ret (e, s')) :
    ∀ g ∈ s'.heap.baskets b, ∃ en ∈ (s'.heap.logs l).entries, en.info = g.info ∧ en.enterAt = g.tok.frm := by
  have hT : G.Every Reader.tame := by rcases hG with rfl | rfl | rfl <;> exact (Env.everyB_sound (p := Reader.tameB) (by decide)).imp fun _ => tame_of_B
  have hK : ∀ rl ∈ G, ∀ c, rl.reader = some c → c.keeps := by rcases hG with rfl | rfl | rfl <;> exact restoresB_env (by decide)
  obtain ⟨m, hm⟩ := (C114_either rt G hT hK l b (.rule i) (.mk trivial (by simp [Reader.subs])) _ (show Inside ((Scanner.new text h).newBasket b) from new_inside text h) e s').mpr ⟨n, hr⟩
  exact C114_shipped rt G hG l b i m text h h0 e s' hm

/-! ### a case -/

/-- The names and starts in the basket 0, and the names and positions in the log 0. -/
def bothAfter (x : Exec (Option Err × Scanner)) : Option (Bool × List (Bytes × Int) × List (Bytes × Int)) :=
  match x with
  | .ret (e, s) => some (e.isNone, (s.heap.baskets 0).map (fun g => (g.info, g.tok.frm)), called (s.heap.logs 0))
  | _ => none

/-- `[[x]]`: the segments come from the inside out, the lines from the outside in. -/
example : bothAfter (read exRt ((exNest.monitorAll 0).pickAll 0) 40 (.rule 0) ((Scanner.new b!"[[x]]" Heap.empty).newBasket 0)) =
    some (true, [(b!"word", 2), (b!"item", 2), (b!"list", 1), (b!"item", 1), (b!"list", 0)],
      [(b!"list", 0), (b!"item", 1), (b!"word", 1), (b!"list", 1), (b!"item", 2), (b!"word", 2)]) := by rfl

example : bothAfter (read exRt ((exNest.pickAll 0).monitorAll 0) 40 (.rule 0) ((Scanner.new b!"[[x]]" Heap.empty).newBasket 0)) =
    some (true, [(b!"word", 2), (b!"item", 2), (b!"list", 1), (b!"item", 1), (b!"list", 0)],
      [(b!"list", 0), (b!"item", 1), (b!"word", 1), (b!"list", 1), (b!"item", 2), (b!"word", 2)]) := by rfl

/-- A function that goes to the end of the text. -/
example (l b : Nat) : Reader.seen l b (.wrap b!"rest" fun s => .ret (none, s.at (s.full.length : Int))) :=
  fun _ hs => .ret ⟨forward_go hs hs.2 (Int.le_refl _), congrFun (at_logs _ _) l, fun _ hg => at_baskets hg⟩

/-- Where the calls in the log 0 end. -/
def leftAt (x : Exec (Option Err × Scanner)) : Option (List Int) :=
  match x with
  | .ret (_, s) => some ((s.heap.logs 0).entries.map LogEntry.exitAt)
  | _ => none

/-- The order matters for a rule that does not go back when it fails, as `Times`: picked first, the call ends where it began, monitored first, where it failed. -/
theorem C114_order_violated :
    leftAt (read exRt ((Env.pickAll 0 [⟨b!"two", some (.times 2 (.rune 97))⟩]).monitorAll 0) 20 (.rule 0) (Scanner.new b!"ab" Heap.empty)) = some [0] ∧
    leftAt (read exRt ((Env.monitorAll 0 [⟨b!"two", some (.times 2 (.rune 97))⟩]).pickAll 0) 20 (.rule 0) (Scanner.new b!"ab" Heap.empty)) = some [1] :=
  ⟨by rfl, by rfl⟩

/-- The other way around it is false: the log also has what failed, here the word at 1. -/
theorem C114_converse_violated : ∃ s', read exRt ((exNest.monitorAll 0).pickAll 0) 40 (.rule 0) ((Scanner.new b!"[[x]]" Heap.empty).newBasket 0) = .ret (none, s') ∧
    (b!"word", (1 : Int)) ∈ called (s'.heap.logs 0) ∧ ∀ g ∈ s'.heap.baskets 0, (g.info, g.tok.frm) ≠ (b!"word", 1) :=
  ⟨_, rfl, by decide, by decide⟩

/-- The start in a `Body` is counted from the start of the body, in the basket as in the log. -/
example : bothAfter (read exRt [] 40 (.seq [.lit b!"--", .body (.pick b!"x" 0 (.monitor b!"x" 0 (.lit b!"ab"))) (.lit b!";")]) ((Scanner.new b!"--ab;" Heap.empty).newBasket 0)) =
    some (true, [(b!"x", 0)], [(b!"x", 0)]) := by rfl

end Tok
