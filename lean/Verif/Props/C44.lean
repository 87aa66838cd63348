/-
C44 Map, Pick, Monitor and Named are transparent.
-/
import Verif.Props.C43

namespace Tok
open Spec

/-! ### one wrapper -/

/-- `Map`: the result is that of the reader; on success the function is called once more, with the token that was read and after all calls made by the
reader, and nothing else differs; after a failure it is not called and the scanner is back at the start. -/
theorem C44_map (rt : Rt) (G : Env) (f : Nat) (r : Reader) (hG : G.Every (Reader.safeHere True G)) (hr : r.Every (Reader.safeHere True G))
    (n : Nat) (s s' : Scanner) (hs : Inside s) (e : Option Err) :
    read rt G (n + 1) (.map f r) s = .ret (e, s') ↔ ∃ s1, read rt G n r s = .ret (e, s1) ∧
      match e with
      | none => s.pos ≤ s1.pos ∧ s' = { s1 with heap := { s1.heap with maps := s1.heap.maps ++ [(f, ⟨s.pos, s1.pos⟩)] } }
      | some _ => s' = s1.at s.pos := by
  have key : ∀ e1 s1, read rt G n r s = .ret (e1, s1) → (read rt G (n + 1) (.map f r) s = .ret (e, s') ↔ e = e1 ∧ match e1 with
      | none => s' = { s1 with heap := { s1.heap with maps := s1.heap.maps ++ [(f, ⟨s.pos, s1.pos⟩)] } }
      | some _ => s' = s1.at s.pos) := by
    intro e1 s1 h1
    have hf := ((read_safe rt G hG n r hr s hs).2 _ h1).2.2
    simp only at hf
    simp only [read, Scanner.tokenizeUse, h1, Exec.bind_ret]
    cases e1 with
    | none =>
      have : makeToken s.pos s1.pos = ⟨s.pos, s1.pos⟩ := by
        unfold makeToken; split
        · omega
        · rfl
      simp only [Option.isSome_none, Bool.false_eq_true, if_false, Scanner.mark, this, Exec.pure_eq, Exec.bind_ret, Option.isNone_none, if_true,
        Exec.ret.injEq, Prod.mk.injEq]
      exact ⟨fun h => ⟨h.1.symm, h.2.symm⟩, fun h => ⟨h.1.symm, h.2.symm⟩⟩
    | some e1 =>
      simp only [Option.isSome_some, if_true, Scanner.mark, toMarker_at hs.1, Exec.pure_eq, Exec.bind_ret, Option.isNone_some, Bool.false_eq_true, if_false,
        Exec.ret.injEq, Prod.mk.injEq]
      exact ⟨fun h => ⟨h.1.symm, h.2.symm⟩, fun h => ⟨h.1.symm, h.2.symm⟩⟩
  constructor
  · intro h
    have h' := h
    simp only [read, Scanner.tokenizeUse] at h'
    obtain ⟨a, h1, _⟩ := Exec.bind_eq_ret.mp h'
    obtain ⟨⟨e1, s1⟩, h2, _⟩ := Exec.bind_eq_ret.mp h1
    obtain ⟨rfl, h3⟩ := (key e1 s1 h2).mp h
    refine ⟨s1, h2, ?_⟩
    cases e with
    | none => exact ⟨((read_safe rt G hG n r hr s hs).2 _ h2).2.2, h3⟩
    | some e => exact h3
  · rintro ⟨s1, h1, h2⟩
    refine (key e s1 h1).mpr ⟨rfl, ?_⟩
    cases e with
    | none => exact h2.2
    | some e => exact h2

/-- `Pick`: the result is that of the reader; on success the token that was read is put into the basket. -/
theorem C44_pick (rt : Rt) (G : Env) (info : Bytes) (b : Nat) (r : Reader) (hG : G.Every (Reader.safeHere True G)) (hr : r.Every (Reader.safeHere True G))
    (n : Nat) (s s' : Scanner) (hs : Inside s) (e : Option Err) :
    read rt G (n + 1) (.pick info b r) s = .ret (e, s') ↔ ∃ s1, read rt G n r s = .ret (e, s1) ∧
      match e with
      | none => s.pos ≤ s1.pos ∧ s' = { s1 with heap := { s1.heap with baskets := upd s1.heap.baskets b (s1.heap.baskets b ++ [⟨info, ⟨s.pos, s1.pos⟩⟩]) } }
      | some _ => s' = s1.at s.pos := by
  have key : ∀ e1 s1, read rt G n r s = .ret (e1, s1) → (read rt G (n + 1) (.pick info b r) s = .ret (e, s') ↔ e = e1 ∧ match e1 with
      | none => s' = { s1 with heap := { s1.heap with baskets := upd s1.heap.baskets b (s1.heap.baskets b ++ [⟨info, ⟨s.pos, s1.pos⟩⟩]) } }
      | some _ => s' = s1.at s.pos) := by
    intro e1 s1 h1
    have hf := ((read_safe rt G hG n r hr s hs).2 _ h1).2.2
    simp only at hf
    simp only [read, Scanner.tokenizeUse, h1, Exec.bind_ret]
    cases e1 with
    | none =>
      have : makeToken s.pos s1.pos = ⟨s.pos, s1.pos⟩ := by
        unfold makeToken; split
        · omega
        · rfl
      simp only [Option.isSome_none, Bool.false_eq_true, if_false, Scanner.mark, this, Exec.pure_eq, Exec.bind_ret, Option.isNone_none, if_true,
        Exec.ret.injEq, Prod.mk.injEq]
      exact ⟨fun h => ⟨h.1.symm, h.2.symm⟩, fun h => ⟨h.1.symm, h.2.symm⟩⟩
    | some e1 =>
      simp only [Option.isSome_some, if_true, Scanner.mark, toMarker_at hs.1, Exec.pure_eq, Exec.bind_ret, Option.isNone_some, Bool.false_eq_true, if_false,
        Exec.ret.injEq, Prod.mk.injEq]
      exact ⟨fun h => ⟨h.1.symm, h.2.symm⟩, fun h => ⟨h.1.symm, h.2.symm⟩⟩
  constructor
  · intro h
    have h' := h
    simp only [read, Scanner.tokenizeUse] at h'
    obtain ⟨a, h1, _⟩ := Exec.bind_eq_ret.mp h'
    obtain ⟨⟨e1, s1⟩, h2, _⟩ := Exec.bind_eq_ret.mp h1
    obtain ⟨rfl, h3⟩ := (key e1 s1 h2).mp h
    refine ⟨s1, h2, ?_⟩
    cases e with
    | none => exact ⟨((read_safe rt G hG n r hr s hs).2 _ h2).2.2, h3⟩
    | some e => exact h3
  · rintro ⟨s1, h1, h2⟩
    refine (key e s1 h1).mpr ⟨rfl, ?_⟩
    cases e with
    | none => exact h2.2
    | some e => exact h2

/-- `Named` reads exactly what the reader reads. -/
theorem C44_named (rt : Rt) (G : Env) (name : Bytes) (r : Reader) (n : Nat) (s : Scanner) :
    read rt G (n + 1) (.named name r) s = read rt G n r s := rfl

/-- `Monitor` returns what the reader returns, and nothing but the logs differs. -/
theorem C44_monitor (rt : Rt) (G : Env) (info : Bytes) (l : Nat) (r : Reader) (hG : G.Every Reader.ignoresLogs) (hr : r.Every Reader.ignoresLogs)
    (s : Scanner) (hs : Inside s) :
    (∀ n e s', read rt G n (.monitor info l r) s = .ret (e, s') → ∃ m t', read rt G m r s = .ret (e, t') ∧ ButLogs s' t') ∧
    (∀ m e t', read rt G m r s = .ret (e, t') → ∃ n s', read rt G n (.monitor info l r) s = .ret (e, s') ∧ ButLogs s' t') := by
  have hm : (Reader.monitor info l r).Every Reader.ignoresLogs := .mk trivial fun c hc => List.mem_singleton.mp hc ▸ hr
  have h1 := C43_transparent rt G (.monitor info l r) hG hm s s hs rfl
  have h2 := C43_transparent rt G r hG hr s s hs rfl
  have hst : strip .onlyMonitor (.monitor info l r) = strip .onlyMonitor r := by rw [strip, if_pos (by rfl)]
  rw [hst] at h1
  have tr : ∀ {a b c : Scanner}, ButLogs a b → ButLogs c b → ButLogs a c := by
    intro a b c hab hcb
    unfold ButLogs at *
    rw [hab] at hcb
    obtain ⟨f, p, t, h⟩ := a
    obtain ⟨f', p', t', h'⟩ := c
    simp only [Scanner.mk.injEq, Heap.mk.injEq, and_true] at hcb ⊢
    obtain ⟨rfl, rfl, rfl, h1, h2, h3, h5, h6⟩ := hcb
    obtain ⟨⟩ := h
    obtain ⟨⟩ := h'
    simp_all
  constructor
  · intro n e s' h
    obtain ⟨m, t', h3, h4⟩ := h1.1 n e s' h
    obtain ⟨k, u, h5, h6⟩ := h2.2 m e t' h3
    exact ⟨k, u, h5, tr h4 h6⟩
  · intro m e t' h
    obtain ⟨k, u, h3, h4⟩ := h2.1 m e t' h
    obtain ⟨n, s', h5, h6⟩ := h1.2 k e u h3
    exact ⟨n, s', h5, tr h6 h4⟩

/-! ### wrappers on the rules of a grammar -/

/-- What can be put on a rule: `Rule.Map`, `Rule.Pick` and `Rule.Monitor`. -/
inductive Decor where
  | map (f : Nat)
  | pick (b : Nat)
  | monitor (l : Nat)

/-- One more wrapper on a rule. -/
def Decor.on : Decor → Rule → Rule
  | .map f => Rule.map f
  | .pick b => Rule.pick b
  | .monitor l => Rule.monitor l

/-- Any number of wrappers on a rule, and on every rule `i` of a grammar those of `ds i`. -/
def dressRule (ds : List Decor) (rl : Rule) : Rule := ds.foldr Decor.on rl
def dress (ds : Nat → List Decor) (G : Env) : Env := G.mapIdx fun i rl => dressRule (ds i) rl

/-- `Wrap` does not occur, and what is inside a `Map` or `Pick` goes back on failure. -/
def Reader.tame : Reader → Prop
  | .wrap _ _ => False
  | .map _ c => c.keeps
  | .pick _ _ c => c.keeps
  | _ => True

/-- All but names. -/
def Spec.Del.observers : Del := ⟨true, true, true, false⟩

theorem dressRule_facts (ds : List Decor) (rl : Rule) (c : Reader) (hc : rl.reader = some c) (ht : c.Every Reader.tame) (hk : c.keeps) :
    ∃ c', (dressRule ds rl) = ⟨rl.name, some c'⟩ ∧ c'.Every Reader.tame ∧ c'.keeps ∧ strip .observers c' = strip .observers c := by
  induction ds with
  | nil => exact ⟨c, by rw [← hc]; rfl, ht, hk, rfl⟩
  | cons d ds ih =>
    obtain ⟨c', h1, h2, h3, h4⟩ := ih
    have h5 : dressRule (d :: ds) rl = d.on ⟨rl.name, some c'⟩ := by rw [← h1]; rfl
    rw [h5]
    cases d with
    | map f =>
      refine ⟨.map f c', rfl, .mk h3 fun x hx => List.mem_singleton.mp hx ▸ h2, trivial, ?_⟩
      rw [strip, if_pos (by rfl), h4]
    | pick b =>
      refine ⟨.pick rl.name b c', rfl, .mk h3 fun x hx => List.mem_singleton.mp hx ▸ h2, trivial, ?_⟩
      rw [strip, if_pos (by rfl), h4]
    | monitor l =>
      refine ⟨.monitor rl.name l c', rfl, .mk trivial fun x hx => List.mem_singleton.mp hx ▸ h2, h3, ?_⟩
      rw [strip, if_pos (by rfl), h4]

theorem dressRule_none (ds : List Decor) (rl : Rule) (hc : rl.reader = none) : dressRule ds rl = rl := by
  induction ds with
  | nil => rfl
  | cons d ds ih =>
    show d.on (dressRule ds rl) = rl
    rw [ih]
    obtain ⟨nm, _⟩ := rl
    cases hc
    cases d <;> rfl

theorem plain_of_tame {rt : Rt} {G : Env} (d : Del) (hG : G.Every Reader.tame) (hk : ∀ rl ∈ G, ∀ c, rl.reader = some c → c.keeps) {r : Reader}
    (hr : r.Every Reader.tame) : r.Every (Reader.offhand rt G d) := by
  have safe : ∀ r : Reader, r.tame → r.safeHere True G := fun r h => by
    cases r <;> first | exact h.elim | exact .inl trivial | exact trivial
  have hS := hG.imp safe
  induction hr with
  | @mk r hp hs ih =>
    refine .mk ⟨safe r hp, ?_⟩ ih
    cases r with
    | wrap w f => exact hp.elim
    | map f c => exact fun _ n => read_restores rt G hS hk n c ((hs c (by simp [Reader.subs])).imp safe) hp
    | pick i b c => exact fun _ n => read_restores rt G hS hk n c ((hs c (by simp [Reader.subs])).imp safe) hp
    | _ => trivial

/-- Map, Pick and Monitor on any rules of a grammar, any number of times and in any order: a rule returns the same error (or none) and ends
at the same position, if `Wrap` does not occur and rules go back on failure.  The full claim has no condition; `C44_violated` shows that the second one is needed. -/
theorem C44_rules_partial (rt : Rt) (G : Env) (hG : G.Every Reader.tame) (hk : ∀ rl ∈ G, ∀ c, rl.reader = some c → c.keeps)
    (ds : Nat → List Decor) (r : Reader) (hr : r.Every Reader.tame) (s : Scanner) (hs : Inside s) (e : Option Err) (pos : Int) :
    (∃ n s', read rt G n r s = .ret (e, s') ∧ s'.pos = pos) ↔ ∃ n s', read rt (dress ds G) n r s = .ret (e, s') ∧ s'.pos = pos := by
  have hD : (dress ds G).Every Reader.tame ∧ ∀ rl ∈ dress ds G, ∀ c, rl.reader = some c → c.keeps := by
    constructor
    · intro rl hrl c hc
      obtain ⟨i, hi, rfl⟩ := List.mem_mapIdx.mp hrl
      rcases hx : G[i].reader with _ | c0
      · rw [dressRule_none _ _ hx, hx] at hc; cases hc
      · obtain ⟨c', h1, h2, _⟩ := dressRule_facts (ds i) G[i] c0 hx (hG _ (List.getElem_mem hi) c0 hx) (hk _ (List.getElem_mem hi) c0 hx)
        rw [h1] at hc; cases hc; exact h2
    · intro rl hrl c hc
      obtain ⟨i, hi, rfl⟩ := List.mem_mapIdx.mp hrl
      rcases hx : G[i].reader with _ | c0
      · rw [dressRule_none _ _ hx, hx] at hc; cases hc
      · obtain ⟨c', h1, _, h2, _⟩ := dressRule_facts (ds i) G[i] c0 hx (hG _ (List.getElem_mem hi) c0 hx) (hk _ (List.getElem_mem hi) c0 hx)
        rw [h1] at hc; cases hc; exact h2
  have hE : stripEnv .observers (dress ds G) = stripEnv .observers G := by
    refine List.ext_getElem? fun i => ?_
    rw [stripEnv_get, stripEnv_get]
    unfold dress
    rw [List.getElem?_mapIdx]
    rcases hi : G[i]? with _ | rl
    · rfl
    · have hm := List.mem_of_getElem? hi
      simp only [Option.map_some]
      rcases hx : rl.reader with _ | c0
      · rw [dressRule_none _ _ hx, hx]
      · obtain ⟨c', h1, _, _, h2⟩ := dressRule_facts (ds i) rl c0 hx (hG _ hm c0 hx) (hk _ hm c0 hx)
        rw [h1]
        simp only [Option.map_some, h2]
  have pG : G.Every (Reader.offhand rt G .observers) := fun rl hrl c hc => plain_of_tame _ hG hk (hG rl hrl c hc)
  have pD : (dress ds G).Every (Reader.offhand rt (dress ds G) .observers) := fun rl hrl c hc => plain_of_tame _ hD.1 hD.2 (hD.1 rl hrl c hc)
  constructor
  · rintro ⟨n, s', h, rfl⟩
    obtain ⟨e', t', h1, h2, h3⟩ := strip_ret rt G pG (plain_of_tame _ hG hk hr) hs (.refl s) h
    rw [← hE] at h1
    obtain ⟨m, e'', u, h4, h5, h6⟩ := strip_ret' rt (dress ds G) pD (plain_of_tame _ hD.1 hD.2 hr) hs (.refl s) h1
    rw [← h5.eq rfl, h2.eq rfl] at h4
    exact ⟨m, u, h4, h6.pos.symm.trans h3.pos⟩
  · rintro ⟨n, s', h, rfl⟩
    obtain ⟨e', t', h1, h2, h3⟩ := strip_ret rt (dress ds G) pD (plain_of_tame _ hD.1 hD.2 hr) hs (.refl s) h
    rw [hE] at h1
    obtain ⟨m, e'', u, h4, h5, h6⟩ := strip_ret' rt G pG (plain_of_tame _ hG hk hr) hs (.refl s) h1
    rw [← h5.eq rfl, h2.eq rfl] at h4
    exact ⟨m, u, h4, h6.pos.symm.trans h3.pos⟩

/-- A boolean test for `Reader.tame`. -/
def Reader.tameB : Reader → Bool
  | .wrap _ _ => false
  | .map _ c => c.restoresB
  | .pick _ _ c => c.restoresB
  | _ => true

theorem tame_of_B {r : Reader} (h : r.tameB = true) : r.tame := by
  cases r <;> first | trivial | exact keeps_of_restoresB h | (simp [Reader.tameB] at h)

/-- The shipped grammars. -/
theorem C44_shipped (rt : Rt) (G : Env) (hG : G = Json.env ∨ G = Mxt.env ∨ G = Lua.env) (ds : Nat → List Decor) (i : Nat) (s : Scanner)
    (hs : Inside s) (e : Option Err) (pos : Int) : (∃ n s', read rt G n (.rule i) s = .ret (e, s') ∧ s'.pos = pos) ↔
      ∃ n s', read rt (dress ds G) n (.rule i) s = .ret (e, s') ∧ s'.pos = pos := by
  refine C44_rules_partial rt G ?_ ?_ ds (.rule i) (.mk trivial (by simp [Reader.subs])) s hs e pos
  · rcases hG with rfl | rfl | rfl <;> exact (Env.everyB_sound (p := Reader.tameB) (by decide)).imp fun _ => tame_of_B
  · rcases hG with rfl | rfl | rfl <;> exact restoresB_env (by decide)

/-- The kind of the error, with its position if it has one. -/
def failure : Option Err → Option (Option Int)
  | none => none
  | some (.read k _) => some (some k)
  | some (.other _) => some none

/-- Taking `Named` (and any other of the wrappers) out of a grammar: the success and the position stay the same; after a failure the kind of the
error and its position as well, but not always its wording. -/
theorem C44_strip_partial (rt : Rt) (G : Env) (d : Del) (hG : G.Every Reader.tame) (hk : ∀ rl ∈ G, ∀ c, rl.reader = some c → c.keeps)
    (r : Reader) (hr : r.Every Reader.tame) (s : Scanner) (hs : Inside s) (pos : Int) (m : Option (Option Int)) :
    (∃ n e s', read rt G n r s = .ret (e, s') ∧ s'.pos = pos ∧ failure e = m) ↔
    ∃ n e s', read rt (stripEnv d G) n (strip d r) s = .ret (e, s') ∧ s'.pos = pos ∧
      failure e = m := by
  have pG : G.Every (Reader.offhand rt G d) := fun rl hrl c hc => plain_of_tame _ hG hk (hG rl hrl c hc)
  have same : ∀ e e', ResAlike d e e' → failure e = failure e' := by
    intro e e' h
    rcases e with _ | ⟨_ | _⟩ <;> rcases e' with _ | ⟨_ | _⟩ <;> simp_all [ResAlike, ErrAlike, failure]
  constructor
  · rintro ⟨n, e, s', h, rfl, rfl⟩
    obtain ⟨e', t', h1, h2, h3⟩ := strip_ret rt G pG (plain_of_tame _ hG hk hr) hs (.refl s) h
    exact ⟨n, e', t', h1, h3.pos, (same _ _ h2).symm⟩
  · rintro ⟨n, e, s', h, rfl, rfl⟩
    obtain ⟨m, e', t', h1, h2, h3⟩ := strip_ret' rt G pG (plain_of_tame _ hG hk hr) hs (.refl s) h
    exact ⟨m, e', t', h1, h3.pos.symm, same _ _ h2⟩

/-- The calls of a map function after reading `12` with `Many(Map(digit, f))`. -/
example : (match read exRt [] 9 (.many (.map 7 (.between 48 57))) (.new b!"12" Heap.empty) with
    | .ret (_, s) => some s.heap.maps
    | _ => none) = some [(7, ⟨0, 1⟩), (7, ⟨1, 2⟩)] := by decide +kernel

/-- A rule with three wrappers. -/
example : dressRule [.map 1, .monitor 2, .pick 3] ⟨b!"r", some (.rune 97)⟩ = ⟨b!"r", some (.map 1 (.monitor b!"r" 2 (.pick b!"r" 3 (.rune 97))))⟩ := rfl

/-- The claim fails for readers that do not go back on failure: on `ab` the reader `Opt(Times(2, 'a'))` consumes `a`, with `Map` or `Pick` around `Times` it
consumes nothing. -/
theorem C44_violated :
    basketAfter 0 (read exRt [] 9 (.opt (.times 2 (.rune 97))) (.new b!"ab" Heap.empty)) = some (true, 1, []) ∧
    basketAfter 0 (read exRt [] 9 (.opt (.map 0 (.times 2 (.rune 97)))) (.new b!"ab" Heap.empty)) = some (true, 0, []) ∧
    basketAfter 0 (read exRt [] 9 (.opt (.pick [] 0 (.times 2 (.rune 97)))) (.new b!"ab" Heap.empty)) = some (true, 0, []) := by
  refine ⟨?_, ?_, ?_⟩ <;> decide +kernel

end Tok
