/-
C39 Body and BodyTail.
-/
import Verif.Props.C40

namespace Tok
open Spec

/-- The condition under which `Body(b, t)` and `BodyTail(b, t)` succeed on the text `cs`: `t` matches at
the end of `pre` with `x` read and `u` left, before the end of the text, and at no place before, and `b` reads exactly `pre`. -/
structure Framed (rt : Rt) (G : Env) (b t : Reader) (cs pre post : List Char) (x u : Bytes) : Prop where
  split : cs = pre ++ post
  left : post ≠ []
  tail : Matches rt G t (encText post) x u
  first : ∀ a d, cs = a ++ d → a.length < pre.length → Rejects rt G t (encText d)
  body : Matches rt G b (encText pre) (encText pre) []

/-- The condition under which they fail: there is no such match of `t`, or `b` does not read exactly
the text before the first one. -/
def Unframed (rt : Rt) (G : Env) (b t : Reader) (cs : List Char) : Prop :=
  (∀ a d, cs = a ++ d → d ≠ [] → Rejects rt G t (encText d)) ∨
  ∃ pre post x u, cs = pre ++ post ∧ post ≠ [] ∧ Matches rt G t (encText post) x u ∧
    (∀ a d, cs = a ++ d → a.length < pre.length → Rejects rt G t (encText d)) ∧
    (Rejects rt G b (encText pre) ∨ ∃ y v, Matches rt G b (encText pre) y v ∧ v ≠ [])

section
variable {rt : Rt} {G : Env} (hG : G.Every Reader.stateless) (hK : ∀ rl ∈ G, ∀ c, rl.reader = some c → c.keeps)
  {b t : Reader} (hbr : b.Every Reader.stateless) (ht : t.Every Reader.stateless) (hkt : t.keeps)
include hG hbr ht

theorem body_every : (Reader.body b t).Every Reader.stateless ∧ (Reader.bodyTail b t).Every Reader.stateless := by
  have key : ∀ c ∈ [b, t], c.Every Reader.stateless := by
    intro c hc
    simp only [List.mem_cons, List.not_mem_nil, or_false] at hc
    rcases hc with rfl | rfl
    · exact hbr
    · exact ht
  exact ⟨.mk ⟨rfl, trivial⟩ key, .mk ⟨rfl, trivial⟩ key⟩

include hK hkt

/-- What the loop of both readers finds. -/
theorem bodyLoop_finds (n : Nat) (cs : List Char) (j : Nat → Bytes) (x : Option Bytes × St)
    (h : eatBody (eat rt G n b) (eat rt G n t) (encText cs) n ⟨encText cs, j⟩ = .ret x) :
    x.2.jan = j ∧ ((∃ pre post y, x.1 = some (encText post) ∧ encText post = y ++ x.2.rest ∧ Framed rt G b t cs pre post y x.2.rest) ∨
      x.1 = none ∧ Unframed rt G b t cs) := by
  have hst := eat_steady rt G hG hK t ht hkt
  obtain ⟨h1, h2⟩ := eatBody_run (b := fun n => eat rt G n b) hst (fun h => eat_jan hG hbr h) n n [] cs j x h
  refine ⟨h1, ?_⟩
  rcases h2 with ⟨pre, post, u, h3, rfl, h4, ⟨h5, ⟨m, h6⟩, h7⟩, h8⟩ | ⟨h3, h4 | ⟨pre, post, u, ok, v, h4, ⟨h5, ⟨m, h6⟩, h7⟩, h8, h9⟩⟩
  · obtain ⟨y, hy⟩ := eat_shrinks rt G m t _ _ h6
    exact .inl ⟨pre, post, y, h3, hy.symm, h5, h4, (matches_iff hG ht j hy.symm).mpr ⟨m, h6⟩,
      fun a d had hl => (missAt_iff hG hK ht hkt _ _).mp (h7 a d had hl), (matches_iff hG hbr j (by simp)).mpr h8⟩
  · exact .inr ⟨h3, .inl fun a d had hd => (missAt_iff hG hK ht hkt _ _).mp (h4 a d had hd)⟩
  · obtain ⟨y, hy⟩ := eat_shrinks rt G m t _ _ h6
    refine .inr ⟨h3, .inr ⟨pre, post, y, u, h5, h4, (matches_iff hG ht j hy.symm).mpr ⟨m, h6⟩,
      fun a d had hl => (missAt_iff hG hK ht hkt _ _).mp (h7 a d had hl), ?_⟩⟩
    cases ok with
    | false => exact .inl ((rejects_iff hG hbr j).mpr ⟨n, v, h8⟩)
    | true =>
      obtain ⟨z, hz⟩ := eat_shrinks rt G n b _ _ h8
      exact .inr ⟨z, v, (matches_iff hG hbr j hz.symm).mpr ⟨n, h8⟩, h9 rfl⟩

theorem bodyLoop_framed (cs : List Char) (j : Nat → Bytes) (pre post : List Char) (y u : Bytes) (h : Framed rt G b t cs pre post y u) :
    ∃ N, eatBody (eat rt G N b) (eat rt G N t) (encText cs) N ⟨encText cs, j⟩ = .ret (some (encText post), ⟨u, j⟩) := by
  obtain ⟨h1, h2, h3, h4, h5⟩ := h
  have hy : encText post = y ++ u := by obtain ⟨_, _, _, h, _⟩ := h3; exact h
  obtain ⟨N, hN⟩ := eatBody_hit (b := fun n => eat rt G n b) (eat_steady rt G hG hK t ht hkt) (fun h st => eat_le rt G _ _ h b st) j true [] cs [] pre post u h2
    ⟨h1, (matches_iff hG ht j hy).mp h3, fun a d had hl => (missAt_iff hG hK ht hkt _ _).mpr (h4 a d had hl)⟩
    ((matches_iff hG hbr j (by simp)).mp h5)
  exact ⟨N, hN N (Nat.le_refl _)⟩

theorem bodyLoop_unframed (cs : List Char) (j : Nat → Bytes) (h : Unframed rt G b t cs) :
    ∃ N st, eatBody (eat rt G N b) (eat rt G N t) (encText cs) N ⟨encText cs, j⟩ = .ret (none, st) := by
  have hst := eat_steady rt G hG hK t ht hkt
  rcases h with h | ⟨pre, post, y, u, h1, h2, h3, h4, h5⟩
  · obtain ⟨N, hN⟩ := eatBody_miss (b := fun n => eat rt G n b) hst (fun h st => eat_le rt G _ _ h b st) j (encText cs) cs
      fun a d had hd => (missAt_iff hG hK ht hkt _ _).mpr (h a d had hd)
    obtain ⟨st, hN⟩ := hN N (Nat.le_refl _)
    exact ⟨N, st, hN⟩
  · have hy : encText post = y ++ u := by obtain ⟨_, _, _, h, _⟩ := h3; exact h
    have key : ∃ ok v, (ok && v.isEmpty) = false ∧ ∃ n, eat rt G n b ⟨encText pre, j⟩ = .ret (ok, ⟨v, j⟩) := by
      rcases h5 with h5 | ⟨z, v, h5, h6⟩
      · obtain ⟨n, v, h6⟩ := (rejects_iff hG hbr j).mp h5
        exact ⟨false, v, rfl, n, h6⟩
      · have hz : encText pre = z ++ v := by obtain ⟨_, _, _, h, _⟩ := h5; exact h
        refine ⟨true, v, ?_, (matches_iff hG hbr j hz).mp h5⟩
        cases v with
        | nil => exact absurd rfl h6
        | cons => rfl
    obtain ⟨ok, v, hov, hn⟩ := key
    obtain ⟨N, hN⟩ := eatBody_hit (b := fun n => eat rt G n b) hst (fun h st => eat_le rt G _ _ h b st) j ok v cs [] pre post u h2
      ⟨h1, (matches_iff hG ht j hy).mp h3, fun a d had hl => (missAt_iff hG hK ht hkt _ _).mpr (h4 a d had hl)⟩ hn
    have := hN N (Nat.le_refl _)
    rw [hov] at this
    exact ⟨N, _, this⟩
end

section
variable (rt : Rt) (G : Env) (hG : G.Every Reader.stateless) (hK : ∀ rl ∈ G, ∀ c, rl.reader = some c → c.keeps)
  (b t : Reader) (hbr : b.Every Reader.stateless) (ht : t.Every Reader.stateless) (hkt : t.keeps)
  (s : Scanner) (h : Bytes) (cs : List Char) (hb : Between s h (encText cs))
include hG hK hbr ht hkt hb

/-- `Body(b, t)` succeeds exactly when `t` matches somewhere before the end of the text and `b` reads
exactly what is before the first match; it stops before that match.  Here and in the following
theorems `b` and `t` keep no state, `t` goes back when it fails, and the text
ahead is well-formed UTF-8; the full claim has no such conditions. -/
theorem C39_body_partial (n : Nat) (s' : Scanner) (hret : read rt G n (.body b t) s = .ret (none, s')) :
    ∃ pre post x u, Framed rt G b t cs pre post x u ∧ Between s' (h ++ encText pre) (encText post) := by
  have hq := (body_every hG hbr ht).1
  obtain ⟨x, u, h1, h2, h3⟩ := eat_of_read hG hq hb hret
  cases n with
  | zero => cases h1
  | succ n =>
    simp only [eat] at h1
    obtain ⟨⟨res, st⟩, h4, h5⟩ := Exec.bind_eq_ret.mp h1
    obtain ⟨_, ⟨pre, post, y, h6, h7, h8⟩ | ⟨h6, _⟩⟩ := bodyLoop_finds hG hK hbr ht hkt n cs _ _ h4
    · simp only at h6
      subst h6
      simp only [Exec.pure_eq, Exec.ret.injEq, Prod.mk.injEq, St.mk.injEq] at h5
      obtain ⟨_, rfl, _⟩ := h5
      rw [h8.split, encText_append] at h2
      have := List.append_cancel_right h2
      subst this
      exact ⟨pre, post, y, _, h8, h3⟩
    · simp only at h6
      subst h6
      cases h5

/-- `BodyTail(b, t)` stops behind that match. -/
theorem C39_bodyTail_partial (n : Nat) (s' : Scanner) (hret : read rt G n (.bodyTail b t) s = .ret (none, s')) :
    ∃ pre post x u, Framed rt G b t cs pre post x u ∧ Between s' (h ++ encText pre ++ x) u := by
  have hq := (body_every hG hbr ht).2
  obtain ⟨x, u, h1, h2, h3⟩ := eat_of_read hG hq hb hret
  cases n with
  | zero => cases h1
  | succ n =>
    simp only [eat] at h1
    obtain ⟨⟨res, st⟩, h4, h5⟩ := Exec.bind_eq_ret.mp h1
    obtain ⟨_, ⟨pre, post, y, h6, h7, h8⟩ | ⟨h6, _⟩⟩ := bodyLoop_finds hG hK hbr ht hkt n cs _ _ h4
    · simp only at h6
      subst h6
      cases h5
      rw [h8.split, encText_append, h7, ← List.append_assoc] at h2
      have := List.append_cancel_right h2
      subst this
      exact ⟨pre, post, y, _, h8, by rw [List.append_assoc]; exact h3⟩
    · simp only at h6
      subst h6
      cases h5

/-- Whenever there is such a match, both readers find it. -/
theorem C39_finds_partial (pre post : List Char) (x u : Bytes) (hf : Framed rt G b t cs pre post x u) :
    (∃ n s', read rt G n (.body b t) s = .ret (none, s') ∧ Between s' (h ++ encText pre) (encText post)) ∧
    ∃ n s', read rt G n (.bodyTail b t) s = .ret (none, s') ∧ Between s' (h ++ encText pre ++ x) u := by
  have hq := body_every hG hbr ht
  have hy : encText post = x ++ u := by obtain ⟨_, _, _, h, _⟩ := hf.tail; exact h
  obtain ⟨N, hN⟩ := bodyLoop_framed hG hK hbr ht hkt cs s.heap.janus pre post x u hf
  constructor
  · have he : eat rt G (N + 1) (.body b t) ⟨encText cs, s.heap.janus⟩ = .ret (true, ⟨encText post, s.heap.janus⟩) := by
      simp only [eat]
      rw [hN]
      rfl
    obtain ⟨e, s', y, h1, h2, h3, h4⟩ := read_of_eat hG hq.1 hb he
    cases e with
    | some e => cases h2
    | none =>
      simp only at h3 h4
      rw [hf.split, encText_append] at h3
      have := List.append_cancel_right h3
      subst this
      exact ⟨_, s', h1, h4⟩
  · have he : eat rt G (N + 1) (.bodyTail b t) ⟨encText cs, s.heap.janus⟩ = .ret (true, ⟨u, s.heap.janus⟩) := by
      simp only [eat]
      rw [hN]
      rfl
    obtain ⟨e, s', y, h1, h2, h3, h4⟩ := read_of_eat hG hq.2 hb he
    cases e with
    | some e => cases h2
    | none =>
      simp only at h3 h4
      rw [hf.split, encText_append, hy, ← List.append_assoc] at h3
      have := List.append_cancel_right h3
      subst this
      exact ⟨_, s', h1, by rw [List.append_assoc]; exact h4⟩

/-- Both fail exactly when there is no match of `t` or `b` does not read exactly what is before the
first one, and then they stay. -/
theorem C39_failure_partial (q : Reader) (hq : q = .body b t ∨ q = .bodyTail b t) :
    ((∃ n e s', read rt G n q s = .ret (some e, s')) ↔ Unframed rt G b t cs) ∧
    ∀ n e s', read rt G n q s = .ret (some e, s') → Between s' h (encText cs) := by
  have hev : q.Every Reader.stateless := by rcases hq with rfl | rfl; exacts [(body_every hG hbr ht).1, (body_every hG hbr ht).2]
  have hkq : q.keeps := by rcases hq with rfl | rfl <;> trivial
  have back : ∀ n e s', read rt G n q s = .ret (some e, s') → Between s' h (encText cs) := by
    intro n e s' hret
    obtain ⟨x, u, h1, h2, h3⟩ := eat_of_read hG hev hb hret
    have : u = encText cs := (eat_steady rt G hG hK q hev hkq).back h1
    subst this
    have : x = [] := List.append_cancel_right (by rw [← h2]; rfl)
    subst this
    rw [List.append_nil] at h3
    exact h3
  refine ⟨⟨?_, ?_⟩, back⟩
  · rintro ⟨n, e, s', hret⟩
    obtain ⟨x, u, h1, h2, h3⟩ := eat_of_read hG hev hb hret
    cases n with
    | zero => cases h1
    | succ n =>
      rcases hq with rfl | rfl <;>
      · simp only [eat] at h1
        obtain ⟨⟨res, st⟩, h4, h5⟩ := Exec.bind_eq_ret.mp h1
        obtain ⟨_, ⟨pre, post, y, h6, h7, h8⟩ | ⟨h6, h7⟩⟩ := bodyLoop_finds hG hK hbr ht hkt n cs _ _ h4
        · simp only at h6
          subst h6
          cases h5
        · exact h7
  · intro hu
    obtain ⟨N, st, hN⟩ := bodyLoop_unframed hG hK hbr ht hkt cs s.heap.janus hu
    have he : eat rt G (N + 1) q ⟨encText cs, s.heap.janus⟩ = .ret (false, ⟨encText cs, st.jan⟩) := by
      rcases hq with rfl | rfl <;>
      · simp only [eat]
        rw [hN]
        rfl
    obtain ⟨e, s', x, h1, h2, h3, h4⟩ := read_of_eat hG hev hb he
    cases e with
    | none => cases h2
    | some e => exact ⟨_, e, s', h1⟩
end

/-- `Body(Many('a'), 'b')` on `aab`, read before the tail. -/
example : ∃ s', read exRt [] 8 (.body (.many (.rune 97)) (.rune 98)) (.new b!"aab" Heap.empty) = .ret (none, s') ∧ s'.pos = 2 := ⟨_, rfl, rfl⟩
example : Framed exRt [] (.many (.rune 97)) (.rune 98) ['a', 'a', 'b'] ['a', 'a'] ['b'] b!"b" [] where
  split := rfl
  left := by simp
  tail := ⟨1, _, rfl, rfl, rfl, rfl⟩
  first := by
    intro a d had hl
    match a, had, hl with
    | [], had, _ => cases had; exact ⟨1, _, _, rfl⟩
    | [x], had, _ => cases had; exact ⟨1, _, _, rfl⟩
    | _ :: _ :: _, _, hl => exact absurd hl (by simp)
  body := ⟨5, _, rfl, rfl, rfl, rfl⟩

/-! ### on every text -/

section
variable (rt : Rt) (G : Env) (hG : G.Every Reader.stateless) (b t : Reader) (hbr : b.Every Reader.stateless) (ht : t.Every Reader.stateless)
  (s : Scanner) (h w : Bytes) (hb : Between s h w)
include hG hbr ht hb

/-- `Body(b, t)` and `BodyTail(b, t)` on every text and for a tail that stops anywhere when it fails:
they succeed exactly if the search reaches a place `u` before the end where `t` matches and `b` reads exactly the text
`p` before it; the first stops at `u`, the second behind the match. -/
theorem C39_exact (p v : Bytes) :
    ((∃ n s', read rt G n (.body b t) s = .ret (none, s') ∧ Between s' (h ++ p) v) ↔
      w = p ++ v ∧ v ≠ [] ∧ Reached (PastNext rt G t) w v ∧ (∃ x u, Matches rt G t v x u) ∧ Matches rt G b p p []) ∧
    ((∃ n s', read rt G n (.bodyTail b t) s = .ret (none, s') ∧ Between s' (h ++ p) v) ↔
      ∃ a x, p = a ++ x ∧ w = a ++ (x ++ v) ∧ x ++ v ≠ [] ∧ Reached (PastNext rt G t) w (x ++ v) ∧ Matches rt G t (x ++ v) x v ∧ Matches rt G b a a []) := by
  have hq := body_every hG hbr ht
  rw [← pastStep_iff hG ht s.heap.janus]
  have suf : ∀ {u}, Relation.ReflTransGen (PastStep (fun n => eat rt G n t) s.heap.janus) w u → u <:+ w := by
    intro u hu
    rw [pastStep_iff hG ht] at hu
    exact reached_suffix pastNext_suffix hu
  -- what the loop finds
  have fwd : ∀ n res st, eatBody (eat rt G n b) (eat rt G n t) w n ⟨w, s.heap.janus⟩ = .ret (some res, st) →
      ∃ a x, w = a ++ res ∧ res = x ++ st.rest ∧ res ≠ [] ∧ Relation.ReflTransGen (PastStep (fun n => eat rt G n t) s.heap.janus) w res ∧
        Matches rt G t res x st.rest ∧ Matches rt G b a a [] := by
    intro n res st hret
    obtain ⟨_, ⟨u, v, ok, y, h1, h2, ⟨m, h3⟩, h4, h5, h6⟩ | ⟨h1, _⟩⟩ := eatBody_all (eat_calm hG ht) (eat_calm hG hbr) n _ w n w _ hret
    · simp only at h4 h6
      cases hc : ok && y.isEmpty with
      | false => rw [hc] at h6; cases h6
      | true =>
        rw [hc] at h6
        simp only [if_true, Option.some.injEq] at h6
        subst h6 h4
        obtain ⟨rfl, hy⟩ := Bool.and_eq_true _ _ ▸ hc
        rw [List.isEmpty_iff] at hy
        subst hy
        obtain ⟨a, ha⟩ := suf h1
        have hta : w.take (w.length - res.length) = a := by rw [← ha]; simp
        rw [hta] at h5
        obtain ⟨x, hx⟩ := eat_shrinks rt G m t _ _ h3
        exact ⟨a, x, ha.symm, hx.symm, h2, h1, (matches_iff hG ht _ hx.symm).mpr ⟨m, h3⟩, (ends_true hG hbr _ (by simp)).mp h5⟩
    · cases h1
  have bwd : ∀ a x v, w = a ++ (x ++ v) → x ++ v ≠ [] → Relation.ReflTransGen (PastStep (fun n => eat rt G n t) s.heap.janus) w (x ++ v) →
      Matches rt G t (x ++ v) x v → Matches rt G b a a [] →
      ∃ N, eatBody (eat rt G N b) (eat rt G N t) w N ⟨w, s.heap.janus⟩ = .ret (some (x ++ v), ⟨v, s.heap.janus⟩) := by
    intro a x v h1 h2 h3 h4 h5
    have hta : w.take (w.length - (x ++ v).length) = a := by rw [h1]; simp
    obtain ⟨N, hN⟩ := eatBody_reach (b := fun n => eat rt G n b) (eat_calm hG ht) h3 (eatBody_hit' (eat_calm hG ht) (eat_calm hG hbr) (t0 := w) h2
      ((ends_true hG ht _ rfl).mpr h4) (by rw [hta]; exact (ends_true hG hbr _ (by simp)).mpr h5))
    exact ⟨N, hN N (Nat.le_refl _) N (Nat.le_refl _)⟩
  refine ⟨⟨?_, ?_⟩, ⟨?_, ?_⟩⟩
  · rintro ⟨n, s', h1, h2⟩
    obtain ⟨x', u', h3, h4, h5⟩ := eat_of_read hG hq.1 hb h1
    obtain ⟨hx, hu⟩ := between_inj h5 h2
    have hx := List.append_cancel_left hx
    subst hu hx
    cases n with
    | zero => cases h3
    | succ n =>
      simp only [eat] at h3
      obtain ⟨⟨res, st⟩, h6, h7⟩ := Exec.bind_eq_ret.mp h3
      cases res with
      | none => cases h7
      | some res =>
        simp only [Exec.pure_eq, Exec.ret.injEq, Prod.mk.injEq, St.mk.injEq] at h7
        obtain ⟨_, rfl, _⟩ := h7
        obtain ⟨a, x, h8, h9, h10, h11, h12, h13⟩ := fwd n _ _ h6
        have := List.append_cancel_right (h4.symm.trans h8)
        subst this
        exact ⟨h4, h10, h11, ⟨x, _, h12⟩, h13⟩
  · rintro ⟨h1, h2, h3, ⟨x, u, h4⟩, h5⟩
    have hv : v = x ++ u := by obtain ⟨_, _, _, h, _⟩ := h4; exact h
    subst hv
    obtain ⟨N, hN⟩ := bwd p x u h1 h2 h3 h4 h5
    have he : eat rt G (N + 1) (.body b t) ⟨w, s.heap.janus⟩ = .ret (true, ⟨x ++ u, s.heap.janus⟩) := by
      simp only [eat]
      rw [hN]
      rfl
    obtain ⟨e, s', y, h6, h7, h8, h9⟩ := read_of_eat hG hq.1 hb he
    cases e with
    | some e => cases h7
    | none =>
      simp only at h8 h9
      have := List.append_cancel_right (h1.symm.trans h8)
      subst this
      exact ⟨_, s', h6, h9⟩
  · rintro ⟨n, s', h1, h2⟩
    obtain ⟨x', u', h3, h4, h5⟩ := eat_of_read hG hq.2 hb h1
    obtain ⟨hx, hu⟩ := between_inj h5 h2
    have hx := List.append_cancel_left hx
    subst hu hx
    cases n with
    | zero => cases h3
    | succ n =>
      simp only [eat] at h3
      obtain ⟨⟨res, st⟩, h6, h7⟩ := Exec.bind_eq_ret.mp h3
      cases res with
      | none => cases h7
      | some res =>
        simp only [Exec.pure_eq, Exec.ret.injEq, Prod.mk.injEq] at h7
        obtain ⟨_, rfl⟩ := h7
        obtain ⟨a, x, h8, h9, h10, h11, h12, h13⟩ := fwd n _ _ h6
        simp only at h9 h12
        subst h9
        refine ⟨a, x, ?_, h8, h10, h11, h12, h13⟩
        rw [h8, ← List.append_assoc] at h4
        exact (List.append_cancel_right h4).symm
  · rintro ⟨a, x, rfl, h1, h2, h3, h4, h5⟩
    obtain ⟨N, hN⟩ := bwd a x v h1 h2 h3 h4 h5
    have he : eat rt G (N + 1) (.bodyTail b t) ⟨w, s.heap.janus⟩ = .ret (true, ⟨v, s.heap.janus⟩) := by
      simp only [eat]
      rw [hN]
      rfl
    obtain ⟨e, s', y, h6, h7, h8, h9⟩ := read_of_eat hG hq.2 hb he
    cases e with
    | some e => cases h7
    | none =>
      simp only at h8 h9
      rw [h1, ← List.append_assoc] at h8
      have := List.append_cancel_right h8
      subst this
      exact ⟨_, s', h6, h9⟩

/-- They fail exactly if the search reaches the end of the text, or a place where `t` matches and `b`
does not read exactly the text before it. -/
theorem C39_fails_exact (q : Reader) (hq : q = .body b t ∨ q = .bodyTail b t) : (∃ n e s', read rt G n q s = .ret (some e, s')) ↔
    Reached (PastNext rt G t) w [] ∨ ∃ p u, w = p ++ u ∧ u ≠ [] ∧ Reached (PastNext rt G t) w u ∧ (∃ x v, Matches rt G t u x v) ∧
      (Rejects rt G b p ∨ ∃ y z, Matches rt G b p y z ∧ z ≠ []) := by
  have hev : q.Every Reader.stateless := by rcases hq with rfl | rfl; exacts [(body_every hG hbr ht).1, (body_every hG hbr ht).2]
  have suf : ∀ {u}, Relation.ReflTransGen (PastStep (fun n => eat rt G n t) s.heap.janus) w u → u <:+ w := by
    intro u hu
    rw [pastStep_iff hG ht] at hu
    exact reached_suffix pastNext_suffix hu
  rw [← pastStep_iff hG ht s.heap.janus]
  constructor
  · rintro ⟨n, e, s', hret⟩
    obtain ⟨x, u, h1, h2, h3⟩ := eat_of_read hG hev hb hret
    cases n with
    | zero => cases h1
    | succ n =>
      have key : ∃ st, eatBody (eat rt G n b) (eat rt G n t) w n ⟨w, s.heap.janus⟩ = .ret (none, st) := by
        rcases hq with rfl | rfl <;>
        · simp only [eat] at h1
          obtain ⟨⟨res, st⟩, h4, h5⟩ := Exec.bind_eq_ret.mp h1
          cases res with
          | some res => cases h5
          | none => exact ⟨st, h4⟩
      obtain ⟨st, h4⟩ := key
      obtain ⟨_, ⟨u, v, ok, y, h5, h6, h7, h8, ⟨m, h9⟩, h10⟩ | ⟨_, h5⟩⟩ := eatBody_all (eat_calm hG ht) (eat_calm hG hbr) n _ w n w _ h4
      · obtain ⟨a, ha⟩ := suf h5
        have hta : w.take (w.length - u.length) = a := by rw [← ha]; simp
        rw [hta] at h9
        refine .inr ⟨a, u, ha.symm, h6, h5, (ends_hit hG ht _).mp ⟨v, h7⟩, ?_⟩
        cases ok with
        | false => exact .inl ((rejects_iff hG hbr _).mpr ⟨m, y, h9⟩)
        | true =>
          obtain ⟨z, hz⟩ := eat_shrinks rt G m b _ _ h9
          refine .inr ⟨z, y, (matches_iff hG hbr _ hz.symm).mpr ⟨m, h9⟩, ?_⟩
          rintro rfl
          cases h10
      · exact .inl h5
  · intro hu
    have key : ∃ N st, eatBody (eat rt G N b) (eat rt G N t) w N ⟨w, s.heap.janus⟩ = .ret (none, st) := by
      rcases hu with hu | ⟨p, u, h1, h2, h3, h4, h5⟩
      · obtain ⟨N, hN⟩ := eatBody_reach (b := fun n => eat rt G n b) (t0 := w) (eat_calm hG ht) hu eatBody_nil
        exact ⟨N, _, hN N (Nat.le_refl _) N (Nat.le_refl _)⟩
      · obtain ⟨v, h4⟩ := (ends_hit hG ht s.heap.janus).mpr h4
        have hta : w.take (w.length - u.length) = p := by rw [h1]; simp
        have : ∃ ok z, (ok && z.isEmpty) = false ∧ Ends (fun n => eat rt G n b) s.heap.janus ok p z := by
          rcases h5 with h5 | ⟨y, z, h5, h6⟩
          · obtain ⟨n, v, h6⟩ := (rejects_iff hG hbr s.heap.janus).mp h5
            exact ⟨false, v, rfl, n, h6⟩
          · have hz : p = y ++ z := by obtain ⟨_, _, _, h, _⟩ := h5; exact h
            refine ⟨true, z, ?_, (ends_true hG hbr _ hz).mpr h5⟩
            cases z with
            | nil => exact absurd rfl h6
            | cons => rfl
        obtain ⟨ok, z, h6, h7⟩ := this
        obtain ⟨N, hN⟩ := eatBody_reach (b := fun n => eat rt G n b) (eat_calm hG ht) h3 (eatBody_hit' (eat_calm hG ht) (eat_calm hG hbr) (t0 := w) h2 h4
          (by rw [hta]; exact h7))
        refine ⟨N, ⟨v, s.heap.janus⟩, ?_⟩
        rw [hN N (Nat.le_refl _) N (Nat.le_refl _), h6]
        rfl
    obtain ⟨N, st, hN⟩ := key
    have he : eat rt G (N + 1) q ⟨w, s.heap.janus⟩ = .ret (false, ⟨w, st.jan⟩) := by
      rcases hq with rfl | rfl <;>
      · simp only [eat]
        rw [hN]
        rfl
    obtain ⟨e, s', x, h1, h2, h3, h4⟩ := read_of_eat hG hev hb he
    cases e with
    | none => cases h2
    | some e => exact ⟨_, e, s', h1⟩
end

/-- `BodyTail('a', "bc")` on `abc` and a malformed byte. -/
example : ∃ s', read exRt [] 8 (.bodyTail (.rune 97) (.lit b!"bc")) (.new [97, 98, 99, 0xFF] Heap.empty) = .ret (none, s') ∧ s'.pos = 3 := ⟨_, rfl, rfl⟩
example : Reached (PastNext exRt [] (.lit b!"bc")) [97, 98, 99, 0xFF] [98, 99, 0xFF] ∧ Matches exRt [] (.lit b!"bc") [98, 99, 0xFF] b!"bc" [0xFF] ∧
    Matches exRt [] (.rune 97) b!"a" b!"a" [] :=
  ⟨.single ⟨by decide, [], _, ⟨1, _, _, rfl, rfl, rfl, rfl⟩, .inl (.char 'a' _)⟩, ⟨1, _, rfl, rfl, rfl, rfl⟩, ⟨1, _, rfl, rfl, rfl, rfl⟩⟩

/-- The claim fails: what `b` picks gets positions in the text between, not in the scanned
text — `Body(Pick('a'), 'b')` at position 1 of `xab` picks `0..1`, where `Pick('a')` at that place
picks `1..2`; a match at the end of the text is not found; and a match behind a malformed
byte is missed. -/
theorem C39_violated (rt : Rt) :
    (∃ s', read rt [] 5 (.body (.pick b!"p" 0 (.rune 97)) (.rune 98)) { Scanner.new b!"xab" Heap.empty with pos := 1 } = .ret (none, s') ∧
      s'.heap.baskets 0 = [⟨b!"p", ⟨0, 1⟩⟩]) ∧
    (∃ s', read rt [] 5 (.pick b!"p" 0 (.rune 97)) { Scanner.new b!"xab" Heap.empty with pos := 1 } = .ret (none, s') ∧
      s'.heap.baskets 0 = [⟨b!"p", ⟨1, 2⟩⟩]) ∧
    (Matches rt [] (.rune 97) b!"a" b!"a" [] ∧ Matches rt [] .atEnd [] [] [] ∧
      ∃ e s', read rt [] 6 (.body (.rune 97) .atEnd) (.new b!"a" Heap.empty) = .ret (some e, s')) ∧
    (Matches rt [] (.rune 0xFFFD) [0xFF] [0xFF] [] ∧ Matches rt [] (.rune 98) b!"bcd" b!"b" b!"cd" ∧
      ∃ e s', read rt [] 6 (.body (.rune 0xFFFD) (.rune 98)) (.new [0xFF, 98, 99, 100] Heap.empty) = .ret (some e, s')) :=
  ⟨⟨_, rfl, rfl⟩, ⟨_, rfl, rfl⟩, ⟨⟨1, _, rfl, rfl, rfl, rfl⟩, ⟨1, _, rfl, rfl, rfl, rfl⟩, _, _, rfl⟩,
    ⟨⟨1, _, rfl, rfl, rfl, rfl⟩, ⟨1, _, rfl, rfl, rfl, rfl⟩, _, _, rfl⟩⟩

end Tok
