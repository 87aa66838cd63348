/-
C76: one grammar for several baskets.
-/
import Verif.Props.C44

namespace Tok
open Spec

/-- `NewBasketFor` (tracker.go:21-26) called with the same grammar once for every basket of a list, the last one first in the list. -/
def Env.pickFor : List Nat → Env → Env
  | [], G => G
  | b :: bs, G => (Env.pickFor bs G).pickAll b

theorem pickFor_dress (bs : List Nat) (G : Env) : G.pickFor bs = dress (fun _ => bs.map Decor.pick) G := by
  induction bs with
  | nil =>
    refine List.ext_getElem? fun i => ?_
    simp [Env.pickFor, dress, dressRule]
  | cons b bs ih =>
    unfold Env.pickFor
    rw [ih]
    unfold Env.pickAll dress
    refine List.ext_getElem? fun i => ?_
    simp only [List.getElem?_map, List.getElem?_mapIdx, Option.map_map, List.map_cons]
    rfl

/-- What the theorems need of every rule: no `Wrap`, no `Body`, and readers that go back when they fail. -/
def Env.orderly (G : Env) : Prop := ∀ rl ∈ G, ∀ c, rl.reader = some c → c.Every (fun r => r.transactB = true) ∧ c.restoresB = true

theorem orderly_pick {G : Env} (b : Nat) (h : G.orderly) : (G.pickAll b).orderly := by
  intro rl hrl c hc
  obtain ⟨r, hr, rfl⟩ := List.mem_map.mp hrl
  obtain ⟨c', hc', rfl⟩ := Option.map_eq_some_iff.mp hc
  exact ⟨pick_every rfl (h r hr c' hc').1, rfl⟩

theorem orderly_for {G : Env} (bs : List Nat) (h : G.orderly) : (G.pickFor bs).orderly := by
  induction bs with
  | nil => exact h
  | cons b bs ih => exact orderly_pick b ih

theorem noWrap_of_B {r : Reader} (h : r.transactB = true) : r.noWrap = true := by
  cases r <;> first | rfl | (simp [Reader.transactB, Reader.trackedB] at h)

/-- Each scanner is read as if the grammar was only used for it: the same error or none and the same
position, however many baskets the rules are already picked with. -/
theorem C76_reads (rt : Rt) (G : Env) (hG : G.Every Reader.tame) (hk : ∀ rl ∈ G, ∀ c, rl.reader = some c → c.keeps) (bs : List Nat)
    (r : Reader) (hr : r.Every Reader.tame) (s : Scanner) (hs : Inside s) (e : Option Err) (pos : Int) :
    (∃ n s', read rt G n r s = .ret (e, s') ∧ s'.pos = pos) ↔ ∃ n s', read rt (G.pickFor bs) n r s = .ret (e, s') ∧ s'.pos = pos := by
  rw [pickFor_dress]
  exact C44_rules_partial rt G hG hk _ r hr s hs e pos

/-- The basket that tracks the scanner gets the segments of the parse, although the rules pick for other baskets as well. -/
theorem C76_own_partial (rt : Rt) (G : Env) (hG : G.orderly) (bs : List Nat) (b : Nat) (s : Scanner) (h : History rt (G.pickFor bs) b s)
    (i n : Nat) (s' : Scanner) (hrd : read rt (G.pickFor bs) n (.rule i) s = .ret (none, s')) :
    ∃ l, Picks (G.pickFor bs) (Outcome rt (G.pickFor bs)) b s.full.length (.rule i) s.st s'.st l ∧
      (s'.heap.baskets b).filter (fun g => g.tok.frm < g.tok.to) =
        (s.heap.baskets b).filter (fun g => g.tok.frm < g.tok.to) ++ l.filter (fun g => g.tok.frm < g.tok.to) :=
  have ho := orderly_for bs hG
  C41_parse_partial rt _ b (fun rl hrl c hc => (ho rl hrl c hc).1.imp fun _ => transact_of_B)
    (fun rl hrl c hc => keeps_of_restoresB (ho rl hrl c hc).2) s h _ (.mk (transact_of_B rfl) (by simp [Reader.subs])) n s' hrd

/-- A basket that does not track the scanner has what it had, and possibly more behind it. -/
def Kept (b : Nat) (s s' : Scanner) : Prop := Forward s s' ∧ s'.tracker = s.tracker ∧ s.heap.baskets b <+: s'.heap.baskets b

theorem at_other {s : Scanner} {b : Nat} (h : s.tracker ≠ some (.basket b)) (m : Int) : (s.at m).heap.baskets b = s.heap.baskets b := by
  unfold Scanner.at Scanner.notify
  rcases ht : s.tracker with _ | ⟨k | k⟩
  · rfl
  · have : b ≠ k := fun e => h (by rw [ht, e])
    show upd _ _ _ b = _
    rw [upd_ne _ _ this]
  · rfl

theorem kept_frame (rt : Rt) (G : Env) (b : Nat) :
    Frame rt G (fun r => r.noWrap = true) (fun s => Inside s ∧ s.tracker ≠ some (.basket b)) (Kept b) where
  inside h := h.1
  fwd _ h := h.1
  inv h h' := ⟨h'.1.1, by rw [h'.2.1]; exact h.2⟩
  refl h := ⟨.refl h.1, rfl, List.prefix_refl _⟩
  trans _ h h' := ⟨h.1.trans h'.1, h'.2.1.trans h.2.1, h.2.2.trans h'.2.2⟩
  go h h1 h2 := ⟨forward_go h.1 h1 h2, notify_tracker _, by rw [at_other h.2]; exact List.prefix_refl _⟩
  back h h' := ⟨forward_at h.1 h'.1, (notify_tracker _).trans h'.2.1, by rw [at_other (by rw [h'.2.1]; exact h.2)]; exact h'.2.2⟩
  cells _ _ _ _ h := h
  janus _ _ _ _ h := h
  pick {s s' info k c n} _ _ _ h := by
    refine ⟨h.1, h.2.1, ?_⟩
    show _ <+: upd _ _ _ b
    by_cases hk : b = k
    · subst hk
      rw [upd_self]
      exact h.2.2.trans (List.prefix_append _ _)
    · rw [upd_ne _ _ hk]
      exact h.2.2
  map _ _ h := h
  enter _ h := h
  leave _ _ _ h := h
  wrap hp _ := by cases hp
  body _ h h' _ _ h3 := by
    have hsub := h3 ⟨new_inside _ _, nofun⟩
    refine ⟨⟨h'.1, h'.2.1, h'.2.2.trans hsub.2.2⟩, fun _ => ⟨h'.1, h'.2.1, ?_⟩⟩
    show _ <+: (Scanner.at _ 0).heap.baskets b
    rw [at_none (by rw [hsub.2.1]; rfl)]
    exact h'.2.2.trans hsub.2.2

/-- Nothing is ever taken out of the basket of another scanner, whether a read succeeds or fails. -/
theorem C76_grows (rt : Rt) (G : Env) (hG : G.Every (fun r => r.noWrap = true)) (b : Nat) (s : Scanner) (hs : Inside s)
    (ht : s.tracker ≠ some (.basket b)) (r : Reader) (hr : r.Every (fun r => r.noWrap = true)) (n : Nat) (e : Option Err) (s' : Scanner)
    (hrd : read rt G n r s = .ret (e, s')) : s.heap.baskets b <+: s'.heap.baskets b :=
  ((kept_frame rt G b).read (fun _ _ _ _ hi => hG.get hi) n r hr s ⟨hs, ht⟩ _ hrd).2.2

/-- A successful read of a pick: the reader inside succeeded and ended at the same place, and the segment is added. -/
theorem read_pick {rt : Rt} {G : Env} {n : Nat} {info : Bytes} {b : Nat} {c : Reader} {s s' : Scanner}
    (h : read rt G n (.pick info b c) s = .ret (none, s')) :
    ∃ m s1, read rt G m c s = .ret (none, s1) ∧ s' = s1.addPick info b (makeToken s.pos s1.pos) := by
  cases n with
  | zero => cases h
  | succ n =>
    simp only [read, Scanner.tokenizeUse] at h
    obtain ⟨⟨⟨tk, err⟩, s1⟩, ha, hb⟩ := Exec.bind_eq_ret.mp h
    obtain ⟨⟨err', s2⟩, ha', hb'⟩ := Exec.bind_eq_ret.mp ha
    simp only [Exec.pure_eq, Exec.ret.injEq, Prod.mk.injEq] at hb'
    obtain ⟨⟨rfl, rfl⟩, rfl⟩ := hb'
    cases err' with
    | none =>
      simp only [Option.isNone_none, if_true] at hb
      cases hb
      exact ⟨n, s2, ha', rfl⟩
    | some e => cases hb

theorem pickFor_get {bs : List Nat} {G : Env} {i : Nat} {nm : Bytes} {c : Reader} (hi : G[i]? = some ⟨nm, some c⟩) :
    (G.pickFor bs)[i]? = some ⟨nm, some (bs.foldr (Reader.pick nm) c)⟩ := by
  induction bs with
  | nil => exact hi
  | cons b bs ih =>
    unfold Env.pickFor Env.pickAll
    rw [List.getElem?_map, ih]
    rfl

theorem picks_all {rt : Rt} {G : Env} {nm : Bytes} {c : Reader} : ∀ (bs : List Nat) {n : Nat} {s s' : Scanner},
    read rt G n (bs.foldr (Reader.pick nm) c) s = .ret (none, s') → ∀ b ∈ bs, ⟨nm, makeToken s.pos s'.pos⟩ ∈ s'.heap.baskets b
  | [], _, _, _, _, _, hb => nomatch hb
  | k :: bs, _, s, s', h, b, hb => by
    obtain ⟨m, s1, h1, rfl⟩ := read_pick h
    have ih := picks_all bs h1
    show _ ∈ upd _ _ _ b
    by_cases hk : b = k
    · subst hk
      rw [upd_self]
      exact List.mem_append_right _ (List.mem_singleton.mpr rfl)
    · rw [upd_ne _ _ hk]
      rcases List.mem_cons.mp hb with hb | hb
      · exact absurd hb hk
      · exact ih b hb

/-- The claim fails for every grammar and every text: a rule that reads puts its segment, with positions in the text of
this scanner, into each basket that was ever made for the grammar. -/
theorem C76_leaks_violated (rt : Rt) (G : Env) (bs : List Nat) (i : Nat) (nm : Bytes) (c : Reader) (hi : G[i]? = some ⟨nm, some c⟩) (n : Nat)
    (s s' : Scanner) (h : read rt (G.pickFor bs) n (.rule i) s = .ret (none, s')) (b : Nat) (hb : b ∈ bs) :
    ⟨nm, makeToken s.pos s'.pos⟩ ∈ s'.heap.baskets b := by
  cases n with
  | zero => cases h
  | succ n =>
    simp only [read, pickFor_get hi] at h
    exact picks_all bs h b hb

/-- The JSON and the Lua grammar meet the hypotheses. -/
theorem C76_shipped (G : Env) (hG : G = Json.env ∨ G = Lua.env) : G.orderly ∧ G.Every Reader.tame ∧ (∀ rl ∈ G, ∀ c, rl.reader = some c → c.keeps) ∧
    ∀ bs, (G.pickFor bs).Every (fun r => r.noWrap = true) := by
  have h : G.orderly := by
    rcases hG with rfl | rfl
    · exact fun rl hrl c hc => ⟨(Env.everyB_sound (p := Reader.transactB) rfl) rl hrl c hc,
        by have := List.all_eq_true.mp (show Json.env.all (fun rl => match rl.reader with | some c => c.restoresB | none => true) = true from rfl) rl hrl
           simpa only [hc] using this⟩
    · exact fun rl hrl c hc => ⟨(Env.everyB_sound (p := Reader.transactB) rfl) rl hrl c hc,
        by have := List.all_eq_true.mp (show Lua.env.all (fun rl => match rl.reader with | some c => c.restoresB | none => true) = true from rfl) rl hrl
           simpa only [hc] using this⟩
  refine ⟨h, ?_, fun rl hrl c hc => keeps_of_restoresB (h rl hrl c hc).2,
    fun bs rl hrl c hc => (orderly_for bs h rl hrl c hc).1.imp fun _ => noWrap_of_B⟩
  rcases hG with rfl | rfl <;> exact (Env.everyB_sound (p := Reader.tameB) (by decide)).imp fun _ => tame_of_B

/-- Two scanners, one grammar with the rules `r = 'a'` and `t = r 'b'`: after the first read the basket of the first scanner has its segment; the
second scanner reads with the grammar that is picked for both. -/
def twice (first second : Bytes) : Option (List Segment × List Segment × List Segment) :=
  let G : Env := [⟨b!"r", some (.rune 97)⟩, ⟨b!"t", some (.seq [.rule 0, .rune 98])⟩]
  match read exRt (G.pickFor [0]) 9 (.rule 1) ((Scanner.new first Heap.empty).newBasket 0) with
  | .ret (_, s) => match read exRt (G.pickFor [1, 0]) 9 (.rule 1) ((Scanner.new second s.heap).newBasket 1) with
    | .ret (_, s') => some (s.heap.baskets 0, s'.heap.baskets 0, s'.heap.baskets 1)
    | _ => none
  | _ => none

/-- The claim fails: the basket of the first scanner also gets the segments of the second, and keeps even those
of a read that failed and was rolled back in the second basket. -/
theorem C76_violated :
    twice b!"ab" b!"ab" = some ([⟨b!"r", ⟨0, 1⟩⟩, ⟨b!"t", ⟨0, 2⟩⟩], [⟨b!"r", ⟨0, 1⟩⟩, ⟨b!"t", ⟨0, 2⟩⟩, ⟨b!"r", ⟨0, 1⟩⟩, ⟨b!"t", ⟨0, 2⟩⟩],
      [⟨b!"r", ⟨0, 1⟩⟩, ⟨b!"t", ⟨0, 2⟩⟩]) ∧
    twice b!"ab" b!"ac" = some ([⟨b!"r", ⟨0, 1⟩⟩, ⟨b!"t", ⟨0, 2⟩⟩], [⟨b!"r", ⟨0, 1⟩⟩, ⟨b!"t", ⟨0, 2⟩⟩, ⟨b!"r", ⟨0, 1⟩⟩], []) := by
  constructor <;> decide +kernel

/-- The number `1` read with the JSON grammar that is picked for three baskets; the scanner is tracked by the last one. -/
example : (match read exRt (Json.env.pickFor [2, 1, 0]) 40 (.rule Json.iNumber) ((Scanner.new b!"1" Heap.empty).newBasket 2) with
    | .ret (none, s) => some ((s.heap.baskets 0).map Segment.info, (s.heap.baskets 2).map Segment.info)
    | _ => none) = some ([b!"onenine", b!"integer", b!"fraction", b!"exponent", b!"number"], [b!"onenine", b!"integer", b!"fraction", b!"exponent", b!"number"]) := by
  decide +kernel

/-- The hypotheses of `C76_own_partial`. -/
example (n : Nat) (s' : Scanner)
    (h : read exRt (Json.env.pickFor [1, 0]) n (.rule Json.iNumber) ((Scanner.new b!"1" Heap.empty).newBasket 1) = .ret (none, s')) :=
  C76_own_partial exRt Json.env (C76_shipped _ (.inl rfl)).1 [1, 0] 1 _ (.start _ (new_inside _ _)) _ n s' h

/-- The hypotheses of `C76_grows`. -/
example (n : Nat) (e : Option Err) (s' : Scanner)
    (h : read exRt (Json.env.pickFor [1, 0]) n (.rule Json.iNumber) ((Scanner.new b!"1" Heap.empty).newBasket 1) = .ret (e, s')) :=
  C76_grows exRt _ ((C76_shipped Json.env (.inl rfl)).2.2.2 [1, 0]) 0 ((Scanner.new b!"1" Heap.empty).newBasket 1) (new_inside b!"1" Heap.empty)
    (by simp [Scanner.newBasket]) (.rule Json.iNumber) (.mk rfl (by simp [Reader.subs])) n e s' h

end Tok
