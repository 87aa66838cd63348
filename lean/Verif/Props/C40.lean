/-
C40 At, Not, To, Past and AtEnd.
-/
import Verif.Proofs.SearchAll

namespace Tok
open Spec

/-! ### At -/

/-- `At(r)` never moves, and it succeeds or fails with the error of `r`, for every reader. -/
theorem C40_at (rt : Rt) (G : Env) (r : Reader) (hG : G.Every (Reader.safeHere True G)) (hr : r.Every (Reader.safeHere True G)) (n : Nat)
    (s : Scanner) (hs : Inside s) (e : Option Err) :
    ((∃ s', read rt G (n + 1) (.at_ r) s = .ret (e, s')) ↔ ∃ s', read rt G n r s = .ret (e, s')) ∧
    ∀ s', read rt G (n + 1) (.at_ r) s = .ret (e, s') → s'.full = s.full ∧ s'.pos = s.pos := by
  refine ⟨⟨?_, ?_⟩, ?_⟩
  · rintro ⟨s', h⟩
    simp only [read] at h
    obtain ⟨⟨e1, s1⟩, ha, hb⟩ := Exec.bind_eq_ret.mp h
    cases hb
    exact ⟨s1, ha⟩
  · rintro ⟨s', h⟩
    refine ⟨(s'.toMarker s.mark).2, ?_⟩
    simp only [read]
    rw [h]
    rfl
  · intro s' h
    simp only [read] at h
    obtain ⟨⟨e1, s1⟩, ha, hb⟩ := Exec.bind_eq_ret.mp h
    have hf := (read_safe rt G hG n r hr s hs).2 _ ha
    cases hb
    exact ⟨(Forward.back hs hf).2.1, back_pos hs hf⟩

/-- `At('a')` on `ab` and on `b`. -/
example : ∃ s', read exRt [] 2 (.at_ (.rune 97)) (.new b!"ab" Heap.empty) = .ret (none, s') ∧ s'.pos = 0 := ⟨_, rfl, rfl⟩
example : ∃ e s', read exRt [] 2 (.at_ (.rune 97)) (.new b!"b" Heap.empty) = .ret (some e, s') ∧ s'.pos = 0 := ⟨_, _, rfl, rfl⟩

/-! ### Not -/

/-- Where `r` matches, `Not(r)` fails and stays. -/
theorem C40_not_fails (rt : Rt) (G : Env) (r : Reader) (hG : G.Every (Reader.safeHere True G)) (hr : r.Every (Reader.safeHere True G)) (n : Nat)
    (s s1 : Scanner) (h t : Bytes) (hb : Between s h t) (h1 : read rt G n r s = .ret (none, s1)) :
    ∃ e s', read rt G (n + 1) (.not r) s = .ret (some e, s') ∧ Between s' h t := by
  have hf := (read_safe rt G hG n r hr s hb.inside).2 _ h1
  simp only [read]
  rw [h1]
  exact ⟨_, _, rfl, hb.back hf.2.1⟩

theorem moveRunes_char {s : Scanner} {h u : Bytes} {c : Char} (hb : Between s h (enc c ++ u)) :
    ∃ s', s.moveRunes 1 = .ret (true, s') ∧ Between s' (h ++ enc c) u := by
  obtain ⟨⟨ok, s'⟩, h1, h2, h3⟩ := (moveRunes_sim (sees_between hb)).right (b := (true, ⟨u, s.heap.janus⟩)) (by
    unfold lift; simp only [eatStep_char])
  obtain ⟨x, hx, hb'⟩ := between_sees hb h3 ⟨enc c, rfl⟩
  simp only at hx h2 hb'
  have : x = enc c := List.append_cancel_right hx.symm
  subst this h2
  exact ⟨s', h1, hb'⟩

/-- Where `r` fails and a character is left, `Not(r)` succeeds and goes over the character, no
matter where `r` has stopped.  The full claim speaks of runes: `C40_violated` shows what
happens on malformed bytes and at the end of the text. -/
theorem C40_not_partial (rt : Rt) (G : Env) (r : Reader) (hG : G.Every (Reader.safeHere True G)) (hr : r.Every (Reader.safeHere True G)) (n : Nat)
    (s s1 : Scanner) (h : Bytes) (c : Char) (u : Bytes) (hb : Between s h (enc c ++ u)) (e : Err) (h1 : read rt G n r s = .ret (some e, s1)) :
    ∃ s', read rt G (n + 1) (.not r) s = .ret (none, s') ∧ Between s' (h ++ enc c) u := by
  have hf := (read_safe rt G hG n r hr s hb.inside).2 _ h1
  have hb2 := hb.back hf.2.1
  obtain ⟨s', h2, h3⟩ := moveRunes_char hb2
  simp only [read]
  rw [h1]
  simp only [Exec.bind_ret, Option.isNone_some, Bool.false_eq_true, if_false]
  unfold Scanner.mark
  rw [h2]
  exact ⟨s', rfl, h3⟩

/-- `Not(r)` runs exactly when `r` does. -/
theorem C40_not_runs (rt : Rt) (G : Env) (r : Reader) (n : Nat) (s s' : Scanner) (e : Option Err)
    (h : read rt G (n + 1) (.not r) s = .ret (e, s')) : ∃ e1 s1, read rt G n r s = .ret (e1, s1) ∧ e1.isNone = e.isSome := by
  simp only [read] at h
  obtain ⟨⟨e1, s1⟩, ha, hb⟩ := Exec.bind_eq_ret.mp h
  refine ⟨e1, s1, ha, ?_⟩
  cases e1 with
  | none => cases hb; rfl
  | some e1 =>
    simp only [Option.isNone_some, Bool.false_eq_true, if_false] at hb
    obtain ⟨_, _, hc⟩ := Exec.bind_eq_ret.mp hb
    cases hc
    rfl

/-- `Not('a')` on `éa`. -/
example : ∃ s', read exRt [] 2 (.not (.rune 97)) (.new [0xC3, 0xA9, 97] Heap.empty) = .ret (none, s') ∧ s'.pos = 2 := ⟨_, rfl, rfl⟩
example : Between (.new [0xC3, 0xA9, 97] Heap.empty) [] (enc 'é' ++ [97]) := ⟨by decide, rfl⟩

/-! ### To and Past -/

section
variable {rt : Rt} {G : Env} (hG : G.Every Reader.stateless) (hK : ∀ rl ∈ G, ∀ c, rl.reader = some c → c.keeps)
  {r : Reader} (hr : r.Every Reader.stateless) (hk : r.keeps)
include hG hr

theorem hitAt_iff (j : Nat → Bytes) (t : Bytes) : (∃ u, HitAt (fun n => eat rt G n r) j t u) ↔ ∃ x u, Matches rt G r t x u :=
  ⟨fun ⟨u, n, h⟩ => (matches_ex hG hr j).mpr ⟨n, u, h⟩, fun h => by
    obtain ⟨n, u, h⟩ := (matches_ex hG hr j).mp h
    exact ⟨u, n, h⟩⟩

include hK hk
theorem missAt_iff (j : Nat → Bytes) (t : Bytes) : MissAt (fun n => eat rt G n r) j t ↔ Rejects rt G r t := by
  rw [rejects_iff hG hr j]
  constructor
  · rintro ⟨n, h⟩; exact ⟨n, t, h⟩
  · rintro ⟨n, u, h⟩
    have : u = t := (eat_steady rt G hG hK r hr hk).back h
    subst this
    exact ⟨n, h⟩
omit hK hk

theorem search_every {q : Reader} (hq : q.subs = [r]) (h : q.noWrap = true) (h' : q.janIn fun _ => False) : q.Every Reader.stateless :=
  .mk ⟨h, h'⟩ fun c hc => by
    rw [hq, List.mem_singleton] at hc
    subst hc
    exact hr
end

section
variable (rt : Rt) (G : Env) (hG : G.Every Reader.stateless) (hK : ∀ rl ∈ G, ∀ c, rl.reader = some c → c.keeps)
  (r : Reader) (hr : r.Every Reader.stateless) (hk : r.keeps) (s : Scanner) (h : Bytes) (cs : List Char) (hb : Between s h (encText cs))
include hG hK hr hk hb

/-- A successful `To(r)` stops at a place between two characters where `r` matches, and `r` fails at all
places before it.  Here and in the following theorems `r` is a reader without Janus readers
and `Wrap` that goes back when it fails, and the text ahead is well-formed UTF-8; the full claim
has no such conditions. -/
theorem C40_to_success_partial (n : Nat) (s' : Scanner) (hret : read rt G n (.to r) s = .ret (none, s')) :
    ∃ pre post, cs = pre ++ post ∧ Between s' (h ++ encText pre) (encText post) ∧ (∃ x u, Matches rt G r (encText post) x u) ∧
      ∀ a b, cs = a ++ b → a.length < pre.length → Rejects rt G r (encText b) := by
  have hq : (Reader.to r).Every Reader.stateless := search_every hG hr rfl rfl trivial
  obtain ⟨x, u, h1, h2, h3⟩ := eat_of_read hG hq hb hret
  cases n with
  | zero => cases h1
  | succ n =>
    simp only [eat] at h1
    obtain ⟨y, h4, h5⟩ := Exec.bind_eq_ret.mp h1
    rcases eatTo_run (eat_steady rt G hG hK r hr hk) n n cs _ y h4 with ⟨pre, post, v, rfl, h6, h7, h8⟩ | ⟨h6, _⟩
    · simp only [orBack, if_true, Exec.pure_eq, Exec.ret.injEq, Prod.mk.injEq, St.mk.injEq] at h5
      obtain ⟨_, rfl, _⟩ := h5
      have : x = encText pre := by
        rw [h6, encText_append] at h2
        exact List.append_cancel_right h2.symm
      subst this
      exact ⟨pre, post, h6, h3, (hitAt_iff hG hr _ _).mp ⟨v, h7⟩, fun a b hab hl => (missAt_iff hG hK hr hk _ _).mp (h8 a b hab hl)⟩
    · simp only [orBack, h6, Bool.false_eq_true, if_false, Exec.pure_eq, Exec.ret.injEq, Prod.mk.injEq] at h5
      exact absurd h5.1 (by simp)

/-- `To(r)` gets to the first place where `r` matches. -/
theorem C40_to_finds_partial (pre post : List Char) (hcs : cs = pre ++ post) (hm : ∃ x u, Matches rt G r (encText post) x u)
    (hrej : ∀ a b, cs = a ++ b → a.length < pre.length → Rejects rt G r (encText b)) :
    ∃ n s', read rt G n (.to r) s = .ret (none, s') ∧ Between s' (h ++ encText pre) (encText post) := by
  have hq : (Reader.to r).Every Reader.stateless := search_every hG hr rfl rfl trivial
  obtain ⟨v, h7⟩ := (hitAt_iff hG hr s.heap.janus _).mpr hm
  obtain ⟨N, hN⟩ := eatTo_hit (eat_steady rt G hG hK r hr hk) s.heap.janus cs pre post v
    ⟨hcs, h7, fun a b hab hl => (missAt_iff hG hK hr hk _ _).mpr (hrej a b hab hl)⟩
  have he : eat rt G (N + 1) (.to r) ⟨encText cs, s.heap.janus⟩ = .ret (true, ⟨encText post, s.heap.janus⟩) := by
    simp only [eat]
    rw [hN N (Nat.le_refl _)]
    rfl
  obtain ⟨e, s', x, h1, h2, h3, h4⟩ := read_of_eat hG hq hb he
  cases e with
  | some e => cases h2
  | none =>
    simp only at h3 h4
    rw [hcs, encText_append] at h3
    have := List.append_cancel_right h3
    subst this
    exact ⟨_, s', h1, h4⟩

/-- `To(r)` fails exactly when `r` fails at every place up to the end, and then it stays. -/
theorem C40_to_failure_partial :
    ((∃ n e s', read rt G n (.to r) s = .ret (some e, s')) ↔ ∀ a b, cs = a ++ b → Rejects rt G r (encText b)) ∧
    ∀ n e s', read rt G n (.to r) s = .ret (some e, s') → Between s' h (encText cs) := by
  have hq : (Reader.to r).Every Reader.stateless := search_every hG hr rfl rfl trivial
  have hst := eat_steady rt G hG hK r hr hk
  refine ⟨⟨?_, ?_⟩, ?_⟩
  · rintro ⟨n, e, s', hret⟩ a b hab
    obtain ⟨x, u, h1, h2, h3⟩ := eat_of_read hG hq hb hret
    cases n with
    | zero => cases h1
    | succ n =>
      simp only [eat] at h1
      obtain ⟨y, h4, h5⟩ := Exec.bind_eq_ret.mp h1
      rcases eatTo_run hst n n cs _ y h4 with ⟨pre, post, v, rfl, h6, h7, h8⟩ | ⟨h6, h7, h8⟩
      · simp [orBack] at h5
      · exact (missAt_iff hG hK hr hk _ _).mp (h8 a b hab)
  · intro hall
    obtain ⟨N, hN⟩ := eatTo_miss hst s.heap.janus cs fun a b hab => (missAt_iff hG hK hr hk _ _).mpr (hall a b hab)
    obtain ⟨st, hst⟩ := hN N (Nat.le_refl _)
    have he : eat rt G (N + 1) (.to r) ⟨encText cs, s.heap.janus⟩ = .ret (false, ⟨encText cs, st.jan⟩) := by
      simp only [eat]
      rw [hst]
      rfl
    obtain ⟨e, s', x, h1, h2, h3, h4⟩ := read_of_eat hG hq hb he
    cases e with
    | none => cases h2
    | some e => exact ⟨_, e, s', h1⟩
  · intro n e s' hret
    obtain ⟨x, u, h1, h2, h3⟩ := eat_of_read hG hq hb hret
    have : u = encText cs := (eat_steady rt G hG hK (.to r) hq trivial).back h1
    subst this
    have : x = [] := List.append_cancel_right (by rw [← h2]; rfl)
    subst this
    rw [List.append_nil] at h3
    exact h3

/-- A successful `Past(r)` stops behind a match of `r` at a place before the end of the text,
and `r` fails at all places before it. -/
theorem C40_past_success_partial (n : Nat) (s' : Scanner) (hret : read rt G n (.past r) s = .ret (none, s')) :
    ∃ pre post x u, cs = pre ++ post ∧ post ≠ [] ∧ Matches rt G r (encText post) x u ∧ Between s' (h ++ encText pre ++ x) u ∧
      ∀ a b, cs = a ++ b → a.length < pre.length → Rejects rt G r (encText b) := by
  have hq : (Reader.past r).Every Reader.stateless := search_every hG hr rfl rfl trivial
  obtain ⟨x, u, h1, h2, h3⟩ := eat_of_read hG hq hb hret
  cases n with
  | zero => cases h1
  | succ n =>
    simp only [eat] at h1
    obtain ⟨y, h4, h5⟩ := Exec.bind_eq_ret.mp h1
    rcases eatPast_run (eat_steady rt G hG hK r hr hk) n n cs _ y h4 with ⟨pre, post, v, rfl, hp, h6, ⟨m, h7⟩, h8⟩ | ⟨h6, _⟩
    · simp only [orBack, if_true, Exec.pure_eq, Exec.ret.injEq, Prod.mk.injEq, St.mk.injEq] at h5
      obtain ⟨_, rfl, _⟩ := h5
      obtain ⟨x', hx'⟩ := eat_shrinks rt G m r _ _ h7
      simp only at hx'
      have : x = encText pre ++ x' := by
        rw [h6, encText_append, ← hx', ← List.append_assoc] at h2
        exact List.append_cancel_right h2.symm
      subst this
      exact ⟨pre, post, x', v, h6, hp, (matches_iff hG hr _ hx'.symm).mpr ⟨m, h7⟩, by rw [List.append_assoc]; exact h3,
        fun a b hab hl => (missAt_iff hG hK hr hk _ _).mp (h8 a b hab hl)⟩
    · simp only [orBack, h6, Bool.false_eq_true, if_false, Exec.pure_eq, Exec.ret.injEq, Prod.mk.injEq] at h5
      exact absurd h5.1 (by simp)

/-- `Past(r)` gets behind the first match of `r`, if that is before the end of the text. -/
theorem C40_past_finds_partial (pre post : List Char) (x u : Bytes) (hcs : cs = pre ++ post) (hp : post ≠ []) (hm : Matches rt G r (encText post) x u)
    (hrej : ∀ a b, cs = a ++ b → a.length < pre.length → Rejects rt G r (encText b)) :
    ∃ n s', read rt G n (.past r) s = .ret (none, s') ∧ Between s' (h ++ encText pre ++ x) u := by
  have hq : (Reader.past r).Every Reader.stateless := search_every hG hr rfl rfl trivial
  have hx : encText post = x ++ u := by obtain ⟨_, _, _, h, _⟩ := hm; exact h
  obtain ⟨m, h7⟩ := (matches_iff hG hr s.heap.janus hx).mp hm
  obtain ⟨N, hN⟩ := eatPast_hit (eat_steady rt G hG hK r hr hk) s.heap.janus cs pre post u hp
    ⟨hcs, ⟨m, h7⟩, fun a b hab hl => (missAt_iff hG hK hr hk _ _).mpr (hrej a b hab hl)⟩
  have he : eat rt G (N + 1) (.past r) ⟨encText cs, s.heap.janus⟩ = .ret (true, ⟨u, s.heap.janus⟩) := by
    simp only [eat]
    rw [hN N (Nat.le_refl _)]
    rfl
  obtain ⟨e, s', x', h1, h2, h3, h4⟩ := read_of_eat hG hq hb he
  cases e with
  | some e => cases h2
  | none =>
    simp only at h3 h4
    rw [hcs, encText_append, hx, ← List.append_assoc] at h3
    have := List.append_cancel_right h3
    subst this
    exact ⟨_, s', h1, by rw [List.append_assoc]; exact h4⟩

/-- `Past(r)` fails exactly when `r` fails at every place before the end, and then it
stays. -/
theorem C40_past_failure_partial :
    ((∃ n e s', read rt G n (.past r) s = .ret (some e, s')) ↔ ∀ a b, cs = a ++ b → b ≠ [] → Rejects rt G r (encText b)) ∧
    ∀ n e s', read rt G n (.past r) s = .ret (some e, s') → Between s' h (encText cs) := by
  have hq : (Reader.past r).Every Reader.stateless := search_every hG hr rfl rfl trivial
  have hst := eat_steady rt G hG hK r hr hk
  refine ⟨⟨?_, ?_⟩, ?_⟩
  · rintro ⟨n, e, s', hret⟩ a b hab hne
    obtain ⟨x, u, h1, h2, h3⟩ := eat_of_read hG hq hb hret
    cases n with
    | zero => cases h1
    | succ n =>
      simp only [eat] at h1
      obtain ⟨y, h4, h5⟩ := Exec.bind_eq_ret.mp h1
      rcases eatPast_run hst n n cs _ y h4 with ⟨pre, post, v, rfl, h6, h7, h8⟩ | ⟨h6, h7, h8⟩
      · simp [orBack] at h5
      · exact (missAt_iff hG hK hr hk _ _).mp (h8 a b hab hne)
  · intro hall
    obtain ⟨N, hN⟩ := eatPast_miss hst s.heap.janus cs fun a b hab hne => (missAt_iff hG hK hr hk _ _).mpr (hall a b hab hne)
    obtain ⟨st, hst⟩ := hN N (Nat.le_refl _)
    have he : eat rt G (N + 1) (.past r) ⟨encText cs, s.heap.janus⟩ = .ret (false, ⟨encText cs, st.jan⟩) := by
      simp only [eat]
      rw [hst]
      rfl
    obtain ⟨e, s', x, h1, h2, h3, h4⟩ := read_of_eat hG hq hb he
    cases e with
    | none => cases h2
    | some e => exact ⟨_, e, s', h1⟩
  · intro n e s' hret
    obtain ⟨x, u, h1, h2, h3⟩ := eat_of_read hG hq hb hret
    have : u = encText cs := (eat_steady rt G hG hK (.past r) hq trivial).back h1
    subst this
    have : x = [] := List.append_cancel_right (by rw [← h2]; rfl)
    subst this
    rw [List.append_nil] at h3
    exact h3
end

/-- `Past("bc")` on `aébbcd`: behind the match. -/
example : ∃ s', read exRt [] 9 (.past (.lit b!"bc")) (.new [97, 0xC3, 0xA9, 98, 98, 99, 100] Heap.empty) = .ret (none, s') ∧ s'.pos = 6 :=
  ⟨_, rfl, rfl⟩
example : (Reader.lit b!"bc").Every Reader.stateless ∧ (Reader.lit b!"bc").keeps :=
  ⟨.mk ⟨rfl, trivial⟩ (by simp [Reader.subs]), trivial⟩
example : Matches exRt [] (.lit b!"bc") (encText ['b', 'c', 'd']) b!"bc" b!"d" ∧ Rejects exRt [] (.lit b!"bc") (encText ['b', 'b', 'c', 'd']) :=
  ⟨⟨1, _, rfl, rfl, rfl, rfl⟩, ⟨1, _, _, rfl⟩⟩
/-- The JSON grammar meets the conditions on `G`. -/
example : Json.env.Every Reader.stateless := Json.stateless

/-! ### on every text -/

section
variable (rt : Rt) (G : Env) (hG : G.Every Reader.stateless) (r : Reader) (hr : r.Every Reader.stateless) (s : Scanner) (h t : Bytes) (hb : Between s h t)
include hG hr hb

/-- `Not(r)` on every text: it succeeds exactly where `r` fails, and then it makes one step if
one is possible. -/
theorem C40_not_exact (x u : Bytes) (hx : t = x ++ u) : (∃ n s', read rt G n (.not r) s = .ret (none, s') ∧ Between s' (h ++ x) u) ↔
    Rejects rt G r t ∧ (Hop t u ∨ (¬ ∃ v, Hop t v) ∧ u = t) := by
  have hq : (Reader.not r).Every Reader.stateless := search_every hG hr rfl rfl trivial
  constructor
  · rintro ⟨n, s', h1, h2⟩
    obtain ⟨x', u', h3, h4, h5⟩ := eat_of_read hG hq hb h1
    have hu : u' = u := (between_inj h5 h2).2
    subst hu
    cases n with
    | zero => cases h3
    | succ n =>
      simp only [eat] at h3
      obtain ⟨⟨ok, st⟩, h6, h7⟩ := Exec.bind_eq_ret.mp h3
      obtain ⟨h8, _⟩ := (eat_calm hG hr).ends h6
      cases ok with
      | true => simp at h7
      | false =>
        simp only [Bool.false_eq_true, if_false, Exec.pure_eq, Exec.ret.injEq, Prod.mk.injEq, St.mk.injEq] at h7
        obtain ⟨m, h8⟩ := h8
        refine ⟨(rejects_iff hG hr _).mpr ⟨m, _, h8⟩, ?_⟩
        rcases eatStep_cases t with ⟨v, h9, h10⟩ | ⟨h9, h10⟩
        · rw [h10] at h7; exact .inl (h7.2.1 ▸ h9)
        · rw [h10] at h7; exact .inr ⟨h9, h7.2.1.symm⟩
  · rintro ⟨h1, h2⟩
    obtain ⟨n, v, h3⟩ := (rejects_iff hG hr s.heap.janus).mp h1
    have he : eat rt G (n + 1) (.not r) ⟨t, s.heap.janus⟩ = .ret (true, ⟨u, s.heap.janus⟩) := by
      simp only [eat]
      rw [h3]
      simp only [Exec.bind_ret, Bool.false_eq_true, if_false, eatStep_next h2]
      rfl
    obtain ⟨e, s', x', h4, h5, h6, h7⟩ := read_of_eat hG hq hb he
    cases e with
    | some e => cases h5
    | none =>
      simp only at h6 h7
      rw [hx] at h6
      have := List.append_cancel_right h6
      subst this
      exact ⟨_, s', h4, h7⟩

/-- `To(r)` on every text and for a reader that stops anywhere when it fails: it succeeds exactly
if the search reaches a place where `r` matches, and it stops there. -/
theorem C40_to_exact (x u : Bytes) (hx : t = x ++ u) : (∃ n s', read rt G n (.to r) s = .ret (none, s') ∧ Between s' (h ++ x) u) ↔
    Reached (ToNext rt G r) t u ∧ ∃ y v, Matches rt G r u y v := by
  have hq : (Reader.to r).Every Reader.stateless := search_every hG hr rfl rfl trivial
  rw [← toStep_iff hG hr s.heap.janus, ← ends_hit hG hr s.heap.janus]
  constructor
  · rintro ⟨n, s', h1, h2⟩
    obtain ⟨x', u', h3, h4, h5⟩ := eat_of_read hG hq hb h1
    have hu : u' = u := (between_inj h5 h2).2
    subst hu
    cases n with
    | zero => cases h3
    | succ n =>
      simp only [eat] at h3
      obtain ⟨y, h6, h7⟩ := Exec.bind_eq_ret.mp h3
      obtain ⟨_, v, h9, ⟨h10, h11, h12⟩ | ⟨h10, _⟩⟩ := eatTo_all (eat_calm hG hr) n _ n _ y h6
      · obtain ⟨ok, st⟩ := y
        simp only at h10 h11
        subst h10 h11
        have h7 : st = ⟨u', s.heap.janus⟩ := by simpa [orBack] using h7
        subst h7
        exact ⟨h9, h12⟩
      · simp [orBack, h10] at h7
  · rintro ⟨h1, v, h2⟩
    obtain ⟨N, hN⟩ := eatTo_reach (eat_calm hG hr) h1 h2 (fun h => nomatch h)
    obtain ⟨w, h3, h4⟩ := hN N (Nat.le_refl _) N (Nat.le_refl _)
    obtain rfl := h4 rfl
    have he : eat rt G (N + 1) (.to r) ⟨t, s.heap.janus⟩ = .ret (true, ⟨w, s.heap.janus⟩) := by
      simp only [eat]
      rw [h3]
      rfl
    obtain ⟨e, s', x', h4, h5, h6, h7⟩ := read_of_eat hG hq hb he
    cases e with
    | some e => cases h5
    | none =>
      simp only at h6 h7
      rw [hx] at h6
      have := List.append_cancel_right h6
      subst this
      exact ⟨_, s', h4, h7⟩

/-- It fails exactly if the search reaches a place where `r` fails and leaves a text in which no
step is possible: the end of the text, or one or two malformed bytes. -/
theorem C40_to_fails_exact : (∃ n e s', read rt G n (.to r) s = .ret (some e, s')) ↔
    ∃ u x m, Reached (ToNext rt G r) t u ∧ FailsOver rt G r u x m ∧ ¬ ∃ v, Hop m v := by
  have hq : (Reader.to r).Every Reader.stateless := search_every hG hr rfl rfl trivial
  rw [← toStep_iff hG hr s.heap.janus]
  constructor
  · rintro ⟨n, e, s', h1⟩
    obtain ⟨x', u', h3, h4, h5⟩ := eat_of_read hG hq hb h1
    cases n with
    | zero => cases h3
    | succ n =>
      simp only [eat] at h3
      obtain ⟨y, h6, h7⟩ := Exec.bind_eq_ret.mp h3
      obtain ⟨_, v, h9, ⟨h10, h11, h12⟩ | ⟨h10, m, h11, h12⟩⟩ := eatTo_all (eat_calm hG hr) n _ n _ y h6
      · obtain ⟨ok, st⟩ := y
        simp only at h10
        subst h10
        simp [orBack] at h7
      · obtain ⟨x, h13⟩ := (ends_false_ex hG hr _).mp h11
        exact ⟨v, x, m, h9, h13, h12⟩
  · rintro ⟨u, x, m, h1, h2, h3⟩
    obtain ⟨N, hN⟩ := eatTo_reach (eat_calm hG hr) h1 ((ends_false_ex hG hr _).mpr ⟨x, h2⟩) (fun _ => h3)
    obtain ⟨w, h4, _⟩ := hN N (Nat.le_refl _) N (Nat.le_refl _)
    have he : eat rt G (N + 1) (.to r) ⟨t, s.heap.janus⟩ = .ret (false, ⟨t, s.heap.janus⟩) := by
      simp only [eat]
      rw [h4]
      rfl
    obtain ⟨e, s', x', h4, h5, _⟩ := read_of_eat hG hq hb he
    cases e with
    | none => cases h5
    | some e => exact ⟨_, e, s', h4⟩

/-- `Past(r)` on every text: it succeeds exactly if the search reaches a place before the end where
`r` matches, and it stops behind that match. -/
theorem C40_past_exact (x v : Bytes) (hx : t = x ++ v) : (∃ n s', read rt G n (.past r) s = .ret (none, s') ∧ Between s' (h ++ x) v) ↔
    ∃ u y, Reached (PastNext rt G r) t u ∧ u ≠ [] ∧ Matches rt G r u y v := by
  have hq : (Reader.past r).Every Reader.stateless := search_every hG hr rfl rfl trivial
  rw [← pastStep_iff hG hr s.heap.janus]
  constructor
  · rintro ⟨n, s', h1, h2⟩
    obtain ⟨x', u', h3, h4, h5⟩ := eat_of_read hG hq hb h1
    have hu : u' = v := (between_inj h5 h2).2
    subst hu
    cases n with
    | zero => cases h3
    | succ n =>
      simp only [eat] at h3
      obtain ⟨y, h6, h7⟩ := Exec.bind_eq_ret.mp h3
      obtain ⟨_, ⟨h10, w, h9, h11, m, h12⟩ | ⟨h10, _⟩⟩ := eatPast_all (eat_calm hG hr) n _ n _ y h6
      · obtain ⟨ok, st⟩ := y
        simp only at h10
        subst h10
        have h7 : st = ⟨u', s.heap.janus⟩ := by simpa [orBack] using h7
        subst h7
        obtain ⟨z, hz⟩ := eat_shrinks rt G m r _ _ h12
        exact ⟨w, z, h9, h11, (matches_iff hG hr _ hz.symm).mpr ⟨m, h12⟩⟩
      · simp [orBack, h10] at h7
  · rintro ⟨u, y, h1, h2, h3⟩
    have hy : u = y ++ v := by obtain ⟨_, _, _, h, _⟩ := h3; exact h
    obtain ⟨N, hN⟩ := eatPast_reach (eat_calm hG hr) h1 (eatPast_hit' (eat_calm hG hr) h2 ((ends_true hG hr _ hy).mpr h3))
    have he : eat rt G (N + 1) (.past r) ⟨t, s.heap.janus⟩ = .ret (true, ⟨v, s.heap.janus⟩) := by
      simp only [eat]
      rw [hN N (Nat.le_refl _) N (Nat.le_refl _)]
      rfl
    obtain ⟨e, s', x', h4, h5, h6, h7⟩ := read_of_eat hG hq hb he
    cases e with
    | some e => cases h5
    | none =>
      simp only at h6 h7
      rw [hx] at h6
      have := List.append_cancel_right h6
      subst this
      exact ⟨_, s', h4, h7⟩

/-- It fails exactly if the search reaches the end of the text. -/
theorem C40_past_fails_exact : (∃ n e s', read rt G n (.past r) s = .ret (some e, s')) ↔ Reached (PastNext rt G r) t [] := by
  have hq : (Reader.past r).Every Reader.stateless := search_every hG hr rfl rfl trivial
  rw [← pastStep_iff hG hr s.heap.janus]
  constructor
  · rintro ⟨n, e, s', h1⟩
    obtain ⟨x', u', h3, h4, h5⟩ := eat_of_read hG hq hb h1
    cases n with
    | zero => cases h3
    | succ n =>
      simp only [eat] at h3
      obtain ⟨y, h6, h7⟩ := Exec.bind_eq_ret.mp h3
      obtain ⟨_, ⟨h10, _⟩ | ⟨h10, h11⟩⟩ := eatPast_all (eat_calm hG hr) n _ n _ y h6
      · obtain ⟨ok, st⟩ := y
        simp only at h10
        subst h10
        simp [orBack] at h7
      · exact h11
  · intro h1
    obtain ⟨N, hN⟩ := eatPast_reach (eat_calm hG hr) h1 eatPast_nil
    have he : eat rt G (N + 1) (.past r) ⟨t, s.heap.janus⟩ = .ret (false, ⟨t, s.heap.janus⟩) := by
      simp only [eat]
      rw [hN N (Nat.le_refl _) N (Nat.le_refl _)]
      rfl
    obtain ⟨e, s', x', h4, h5, _⟩ := read_of_eat hG hq hb he
    cases e with
    | none => cases h5
    | some e => exact ⟨_, e, s', h4⟩

/-- Hence `Past(r)` does not end if the search reaches one or two malformed bytes at the end of the
text that `r` refuses without moving. -/
theorem C40_past_hangs (u : Bytes) (hu : Reached (PastNext rt G r) t u) (hne : u ≠ []) (hrej : FailsOver rt G r u [] u) (hno : ¬ ∃ v, Hop u v) :
    ∀ n e s', read rt G n (.past r) s ≠ .ret (e, s') := by
  have hdet : ∀ {a b c}, PastNext rt G r a b → PastNext rt G r a c → b = c := by
    rintro a b c ⟨_, x1, m1, h1, h2⟩ ⟨_, x2, m2, h3, h4⟩
    have : m1 = m2 := by
      obtain ⟨k1, f1⟩ := (ends_false_ex hG hr s.heap.janus).mpr ⟨x1, h1⟩
      obtain ⟨k2, f2⟩ := (ends_false_ex hG hr s.heap.janus).mpr ⟨x2, h3⟩
      have := eat_det f1 f2
      simpa using this
    subst this
    rw [← eatStep_next h2, ← eatStep_next h4]
  have hloop : PastNext rt G r u u := ⟨hne, [], u, hrej, .inr ⟨hno, rfl⟩⟩
  have stays : ∀ v, Reached (PastNext rt G r) u v → v = u := by
    intro v hv
    induction hv with
    | refl => rfl
    | tail _ h ih => subst ih; exact hdet h hloop
  have either : ∀ v, Reached (PastNext rt G r) t v → Reached (PastNext rt G r) v u := by
    intro v hv
    rcases Relation.ReflTransGen.total_of_right_unique (r := PastNext rt G r) (fun _ _ _ h1 h2 => hdet h1 h2) hu hv with h | h
    · rw [stays v h]
    · exact h
  intro n e s' hret
  cases e with
  | some e =>
    have h1 := either [] ((C40_past_fails_exact rt G hG r hr s h t hb).mp ⟨n, e, s', hret⟩)
    rcases Relation.ReflTransGen.cases_head h1 with h1 | ⟨_, ⟨h1, _⟩, _⟩
    · exact hne h1.symm
    · exact h1 rfl
  | none =>
    have hq : (Reader.past r).Every Reader.stateless := search_every hG hr rfl rfl trivial
    obtain ⟨x, v, h1, h2, h3⟩ := eat_of_read hG hq hb hret
    obtain ⟨w, y, h4, h5, h6⟩ := (C40_past_exact rt G hG r hr s h t hb x v h2).mp ⟨n, s', hret, h3⟩
    have hw : ∃ x m, FailsOver rt G r w x m := by
      rcases Relation.ReflTransGen.cases_head (either w h4) with h1 | ⟨_, ⟨_, x, m, h1, _⟩, _⟩
      · subst h1; exact ⟨_, _, hrej⟩
      · exact ⟨x, m, h1⟩
    obtain ⟨x2, m2, h7⟩ := hw
    obtain ⟨v1, k1, f1⟩ := (ends_hit hG hr s.heap.janus).mpr ⟨y, v, h6⟩
    obtain ⟨k2, f2⟩ := (ends_false_ex hG hr s.heap.janus).mpr ⟨x2, h7⟩
    have := eat_det f1 f2
    simp at this
end

/-- `To("b")` on a text with a malformed byte: the `b` behind the byte is passed over, the next one
is found. -/
example : Hop [0xFF, 98, 99, 100, 98] [100, 98] := eatStep_hop.mpr (by decide +kernel)
example : ∃ s', read exRt [] 9 (.to (.rune 98)) (.new [0xFF, 98, 99, 100, 98] Heap.empty) = .ret (none, s') ∧ s'.pos = 4 := ⟨_, rfl, rfl⟩
/-- `Past("b")` on `a` and a malformed byte: the search reaches the byte and stays there. -/
example : Reached (PastNext exRt [] (.rune 98)) [97, 0xFF] [0xFF] ∧ FailsOver exRt [] (.rune 98) [0xFF] [] [0xFF] ∧ ¬ ∃ v, Hop [0xFF] v :=
  ⟨.single ⟨by decide, [], [97, 0xFF], ⟨1, _, _, rfl, rfl, rfl, rfl⟩, .inl (.char 'a' _)⟩, ⟨1, _, _, rfl, rfl, rfl, rfl⟩,
    fun ⟨_, h⟩ => by have h1 := eatStep_hop.mp h; rw [show eatStep [0xFF] = (false, [0xFF]) by decide +kernel] at h1; cases h1⟩
example : FailsOver exRt [] (.rune 98) [0xFF, 98, 99, 100, 98] [] [0xFF, 98, 99, 100, 98] := ⟨1, _, _, rfl, rfl, rfl, rfl⟩

/-! ### AtEnd -/

/-- `AtEnd` succeeds exactly at the end of the text, and never moves. -/
theorem C40_atEnd (rt : Rt) (G : Env) (n : Nat) (s : Scanner) (h t : Bytes) (hb : Between s h t) :
    ∃ e, read rt G (n + 1) .atEnd s = .ret (e, s) ∧ (e = none ↔ t = []) := by
  obtain ⟨h1, h2⟩ := hb
  have hl : s.atEnd = true ↔ t = [] := by
    unfold Scanner.atEnd
    rw [decide_eq_true_eq, h1, h2, List.length_append, ← List.length_eq_zero_iff]
    omega
  refine ⟨_, rfl, ?_⟩
  unfold Scanner.errorIfFalse
  rw [← hl]
  cases s.atEnd <;> simp
example : Between (.new b!"a" Heap.empty) [] b!"a" := ⟨rfl, rfl⟩

/-! ### what fails -/

/-- The claim fails in these cases: `Not('a')` succeeds at the end of the text without moving;
where a malformed byte stands it moves over three bytes, or not at all when fewer are left; `Past` does
not find a match at the end of the text; `To` misses a match behind a malformed byte; and if
`r` moves when it fails, `To(r)` misses matches. -/
theorem C40_violated (rt : Rt) :
    (∃ s', read rt [] 2 (.not (.rune 97)) (.new [] Heap.empty) = .ret (none, s') ∧ s'.pos = 0) ∧
    (∃ s', read rt [] 2 (.not (.rune 97)) (.new [0xFF, 98, 99, 100] Heap.empty) = .ret (none, s') ∧ s'.pos = 3) ∧
    (∃ s', read rt [] 2 (.not (.rune 97)) (.new [0xFF, 98] Heap.empty) = .ret (none, s') ∧ s'.pos = 0) ∧
    (Matches rt [] .atEnd [] [] [] ∧ ∃ e s', read rt [] 4 (.past .atEnd) (.new b!"a" Heap.empty) = .ret (some e, s')) ∧
    (Matches rt [] (.rune 98) b!"bcd" b!"b" b!"cd" ∧ ∃ e s', read rt [] 4 (.to (.rune 98)) (.new [0xFF, 98, 99, 100] Heap.empty) = .ret (some e, s')) ∧
    (Matches rt [] (.times 2 (.lit b!"aba")) b!"abaaba" b!"abaaba" [] ∧
      ∃ e s', read rt [] 10 (.to (.times 2 (.lit b!"aba"))) (.new b!"ababaaba" Heap.empty) = .ret (some e, s')) := by
  refine ⟨⟨_, rfl, rfl⟩, ⟨_, rfl, rfl⟩, ⟨_, rfl, rfl⟩, ⟨⟨1, _, rfl, rfl, rfl, rfl⟩, _, _, rfl⟩, ⟨⟨1, _, rfl, rfl, rfl, rfl⟩, _, _, rfl⟩,
    ⟨⟨4, _, rfl, rfl, rfl, rfl⟩, _, _, rfl⟩⟩

end Tok
