/-
C58 Reading Lua: exactly when it does not end.
-/
import Verif.Props.C58Bytes
import Verif.Props.C85

namespace Tok
open Spec

namespace Lua

/-- The search for the closing long bracket (grammar/lua.go:38 and 47). -/
def closer (id : Nat) : Reader := mkSeq [ru ']', rd (mkJanus id [] (mkZom (.str b!"="))).2, ru ']']

/-- The parts of the grammar as far as loops are concerned. -/
def Part (nul : Nat → Bool) : Reader → Prop
  | .zom c => c.null nul = false ∨ ∃ q, (q = 34 ∨ q = 39) ∧ c = item q
  | .many c => c.null nul = false
  | .past c => c = closer 0 ∨ c = closer 1
  | .body _ _ => False
  | .bodyTail _ _ => False
  | _ => True

def partB (nul : Nat → Bool) : Reader → Bool
  | .zom c => !c.null nul
  | .many c => !c.null nul
  | .past _ => false
  | .body _ _ => false
  | .bodyTail _ _ => false
  | _ => true

theorem part_of_B {nul : Nat → Bool} {r : Reader} (h : partB nul r = true) : Part nul r := by
  cases r <;> first
    | trivial
    | (simp only [partB, Bool.not_eq_true'] at h; first | exact .inl h | exact h)
    | (simp only [partB, Bool.false_eq_true] at h)

theorem part_long {nul : Nat → Bool} {id : Nat} (hid : id = 0 ∨ id = 1) {beg : Arg} (hb : (mkSeq [beg, rd (mkJanus id [] (mkZom (.str b!"="))).1, ru '[']).Every (Part nul)) :
    (long id beg).Every (Part nul) := by
  refine .mk trivial fun c hc => ?_
  rcases List.mem_cons.mp (show c ∈ [mkSeq [beg, rd (mkJanus id [] (mkZom (.str b!"="))).1, ru '['], .past (closer id)] from hc) with rfl | hc
  · exact hb
  · rw [List.mem_singleton.mp hc]
    refine .mk (show closer id = closer 0 ∨ closer id = closer 1 by rcases hid with rfl | rfl <;> simp) fun c hc => ?_
    have hc := List.mem_singleton.mp (show c ∈ [closer id] from hc)
    subst hc
    exact (Reader.everyB_sound (partB nul) (closer id) (by rfl)).imp fun _ => part_of_B

theorem part_short {nul : Nat → Bool} {q : UInt8} (hq : q = 34 ∨ q = 39) (hi : (item q).everyB (partB nul) = true) : (shortReader q).Every (Part nul) := by
  refine .mk trivial fun c hc => ?_
  simp only [shortReader, Reader.subs, List.mem_cons, List.not_mem_nil, or_false] at hc
  rcases hc with rfl | rfl | rfl
  · exact .mk trivial fun c hc => by cases hc
  · refine .mk (.inr ⟨q, hq, rfl⟩) fun c hc => ?_
    rw [List.mem_singleton.mp (show c ∈ [item q] from hc)]
    exact (Reader.everyB_sound (partB nul) _ hi).imp fun _ => part_of_B
  · exact .mk trivial fun c hc => by cases hc

theorem parts : env.Every (Part (nulOf nul)) := by
  have h : Env.everyB (partB (nulOf nul)) (env.take 3 ++ env.drop 5) = true := by decide +kernel
  have h := (Env.everyB_sound h).imp fun r => part_of_B (nul := nulOf nul) (r := r)
  intro rl hrl r hr
  have : env = env.take 3 ++ (mkRule b!"LiteralString" string :: mkRule b!"Comment" comment :: env.drop 5) := rfl
  rw [this, List.mem_append, List.mem_cons, List.mem_cons] at hrl
  rcases hrl with hrl | rfl | rfl | hrl
  · exact h rl (List.mem_append_left _ hrl) r hr
  · have hr := Option.some.inj hr
    subst hr
    refine .mk trivial fun c hc => ?_
    rcases List.mem_cons.mp (show c ∈ [shortReader 34, shortReader 39, long 0 (ru '[')] from hc) with rfl | hc
    · exact part_short (.inl rfl) (by decide +kernel)
    rcases List.mem_cons.mp hc with rfl | hc
    · exact part_short (.inr rfl) (by decide +kernel)
    · rw [List.mem_singleton.mp hc]
      exact part_long (.inl rfl) ((Reader.everyB_sound (partB (nulOf nul)) _ (by decide +kernel)).imp fun _ => part_of_B)
  · have hr := Option.some.inj hr
    subst hr
    refine .mk trivial fun c hc => ?_
    rcases List.mem_cons.mp (show c ∈ [long 1 (.str b!"--["), mkSeq [.str b!"--", rd (mkTo (ru '\n'))]] from hc) with rfl | hc
    · exact part_long (.inr rfl) ((Reader.everyB_sound (partB (nulOf nul)) _ (by decide +kernel)).imp fun _ => part_of_B)
    · rw [List.mem_singleton.mp hc]
      exact (Reader.everyB_sound (partB (nulOf nul)) _ (by decide +kernel)).imp fun _ => part_of_B
  · exact h rl (List.mem_append_right _ hrl) r hr

theorem ranks : ∀ (i : Nat) (nm : Bytes) (c : Reader), env[i]? = some ⟨nm, some c⟩ → ∀ j ∈ c.left (nulOf nul), rankOf rank j < rankOf rank i := by
  have h : Env.soundB (nulOf nul) true true (rankOf rank) (fun _ => true) (fun i => i == 3) 0 env = true := by decide +kernel
  intro i nm c hi
  by_cases h3 : i = 3
  · subst h3
    have : c = string := by
      have h' : env[3]? = some (mkRule b!"LiteralString" string) := rfl
      rw [h'] at hi
      exact (Option.some.inj (Rule.mk.inj (Option.some.inj hi)).2).symm
    subst this
    have : string.left (nulOf nul) = [] := by decide +kernel
    rw [this]
    exact fun j hj => by cases hj
  · have := (soundB_sound h i nm c hi).2 rfl (by simp [h3])
    rw [Nat.zero_add] at this
    exact this.2

/-- Text is left, at most two bytes, and no character begins here. -/
def Stray (t : Bytes) : Prop := t ≠ [] ∧ t.length ≤ 2 ∧ ¬ ∃ c u, t = enc c ++ u

theorem stray_onward {t : Bytes} : Stray t ↔ t ≠ [] ∧ (onward t).2 = t := by
  rw [C85_onward]
  exact ⟨fun h => ⟨h.1, .inr h.2⟩, fun h => ⟨h.1, h.2.resolve_left h.1⟩⟩

section
variable {rt : Rt}

theorem closer_stray {id : Nat} {st : St} (h : Stray st.rest) : E rt env (closer id) st (false, st) := by
  obtain ⟨t, j⟩ := st
  refine ⟨2, ?_⟩
  have h1 : eat rt env 1 (.rune 93) ⟨t, j⟩ = .ret (false, ⟨t, j⟩) := by
    cases t with
    | nil => exact absurd rfl h.1
    | cons b u =>
      refine rune_no (b := 93) (by decide) (fun e => h.2.2 ?_) u j
      subst e
      exact ⟨']', u, rfl⟩
  show (eatSeq (eat rt env 1) [.rune 93, .janusEnd id [], .rune 93] ⟨t, j⟩).bind _ = _
  rw [eatSeq, h1]
  rfl

theorem past_spins {id : Nat} {st : St} : Spins (E rt env) (.past (closer id)) st ↔ ∃ st', Searches (E rt env) (closer id) st st' ∧ Stray st'.rest := by
  constructor
  · intro h
    cases h with
    | past h1 h2 =>
      refine ⟨_, h1, stray_onward.mpr ?_⟩
      obtain ⟨hn, f, g, rfl, h⟩ := h2
      obtain ⟨h3, h4, _⟩ := h 0
      refine ⟨hn, ?_⟩
      have h5 : (onward (g 0).rest).2 = (f 0).rest := by rw [← (h 1).2.2, h4]
      have h6 : (g 0).rest = (f 0).rest :=
        h3.suffix'.eq_of_length (Nat.le_antisymm h3.suffix'.length_le (by have := (onward_suffix (g 0).rest).length_le; rw [h5] at this; exact this))
      rwa [h6] at h5
  · rintro ⟨st', h1, h2⟩
    have h3 := stray_onward.mp h2
    exact .past h1 ⟨h3.1, fun _ => st', fun _ => st', rfl, fun _ => ⟨closer_stray h2, by simp only; rw [h3.2], rfl⟩⟩

theorem chars_noEnd {q : UInt8} (hq : q = 34 ∨ q = 39) {st : St} : NoEnd rt env (.zom (item q)) st ↔ TokChars q st.rest := by
  obtain ⟨t, j⟩ := st
  have short : NoEnd rt env (.zom (item q)) ⟨t, j⟩ → TokChars q t := fun h => by
    rcases chars_split (rt := rt) (G := env) hq t j with ⟨y, u, h1, h2, h3, h4, n, hn⟩ | ⟨h1, _⟩
    · have := h (n + 1)
      rw [show eat rt env (n + 1) (.zom (item q)) ⟨t, j⟩ = (eatZom (eat rt env n (item q)) n ⟨t, j⟩).bind _ from rfl,
        hn n n (Nat.le_refl _) (Nat.le_refl _)] at this
      cases this
    · exact h1
  refine ⟨short, fun h n => ?_⟩
  rcases chars_split (rt := rt) (G := env) hq t j with ⟨y, u, h1, h2, h3, h4, n, hn⟩ | ⟨_, h2⟩
  · have h : TokChars q t := h
    rw [h1] at h
    exact absurd (chars_unique h2 h h4 noItem_nil (by simp)).2 h3
  · cases n with
    | zero => rfl
    | succ n =>
      show (eatZom (eat rt env n (item q)) n ⟨t, j⟩).bind _ = _
      rw [h2]; rfl

theorem noEnd_lua {r : Reader} (hr : r.Every (Part (nulOf nul))) {st : St} : NoEnd rt env r st ↔
    (∃ q es j, (q = 34 ∨ q = 39) ∧ TokChars q es ∧ GetsTo env (E rt env) r st (.zom (item q)) ⟨es, j⟩) ∨
    (∃ id st' st'', (id = 0 ∨ id = 1) ∧ GetsTo env (E rt env) r st (.past (closer id)) st' ∧ Searches (E rt env) (closer id) st' st'' ∧ Stray st''.rest) := by
  constructor
  · rw [noEnd_iff]
    rintro ⟨r', st', hg, hs | hc⟩
    · have hp := (getsTo_every parts hg hr).here
      have idle : ∀ {c : Reader} {s : St}, c.null (nulOf nul) = false → ¬ Repeats (E rt env) c s := by
        rintro c s hn ⟨f, rfl, h⟩
        obtain ⟨⟨n, h1⟩, _⟩ := h 0
        have := eat_eats rt env nulls n c hn _ _ h1 rfl
        simp only at this
        rw [(h 1).2] at this
        omega
      have hne := spins_noEnd hs
      cases hs with
      | zom h1 h2 =>
        rcases hp with hp | ⟨q, hq, rfl⟩
        · exact absurd h2 (idle hp)
        · exact .inl ⟨q, st'.rest, st'.jan, hq, (chars_noEnd hq).mp hne, hg⟩
      | many h1 h2 => exact absurd h2 (idle hp)
      | past h1 h2 =>
        obtain ⟨id, hid, rfl⟩ : ∃ id, (id = 0 ∨ id = 1) ∧ _ = closer id := by
          rcases hp with hp | hp
          · exact ⟨0, .inl rfl, hp⟩
          · exact ⟨1, .inr rfl, hp⟩
        obtain ⟨st'', h3, h4⟩ := past_spins.mp (.past h1 h2)
        exact .inr ⟨id, st', st'', hid, hg, h3, h4⟩
      | body h1 h2 => exact hp.elim
      | bodyTail h1 h2 => exact hp.elim
    · exact absurd hc (no_circles nulls ranks)
  · rintro (⟨q, es, j, hq, h1, h2⟩ | ⟨id, st', st'', hid, h1, h2, h3⟩)
    · exact getsTo_noEnd h2 ((chars_noEnd hq).mpr h1)
    · exact getsTo_noEnd h1 (spins_noEnd (past_spins.mpr ⟨st'', h2, h3⟩))

end
end Lua

/-- Reading Lua does not end exactly if it gets to the characters of a string with nothing but such characters up to the end of the text, or, in the
search for a closing long bracket, to a place where no character begins and at most two bytes are left.  For every text of any bytes and every place. -/
theorem C58_exact_partial (rt : Rt) (s : Scanner) (h t : Bytes) (hb : Between s h t) :
    (∀ n, read rt Lua.env n Lua.reader s = .timeout) ↔
    (∃ q es j, (q = 34 ∨ q = 39) ∧ TokChars q es ∧
      GetsTo Lua.env (Outcome rt Lua.env) Lua.reader ⟨t, s.heap.janus⟩ (.zom (Lua.item q)) ⟨es, j⟩) ∨
    (∃ id st' st'', (id = 0 ∨ id = 1) ∧ GetsTo Lua.env (Outcome rt Lua.env) Lua.reader ⟨t, s.heap.janus⟩ (.past (Lua.closer id)) st' ∧
      Searches (Outcome rt Lua.env) (Lua.closer id) st' st'' ∧ Lua.Stray st''.rest) := by
  have hr : Lua.reader.Every (fun r => r.noWrap = true) := Reader.everyB_sound Reader.noWrap Lua.reader (by decide)
  have hp : Lua.reader.Every (Lua.Part (nulOf Lua.nul)) := (Reader.everyB_sound (Lua.partB (nulOf Lua.nul)) Lua.reader (by decide)).imp fun _ => Lua.part_of_B
  have hs : ∀ id st' st'', Searches (Outcome rt Lua.env) (Lua.closer id) st' st'' ↔ Searches (E rt Lua.env) (Lua.closer id) st' st'' := fun id st' st'' => by
    have hc : (Lua.closer id).Every (fun r => r.noWrap = true) := Reader.everyB_sound Reader.noWrap _ (by rfl)
    exact ⟨searches_mono fun _ _ => (outcome_iff Lua.noWraps hc).mp, searches_mono fun _ _ => (outcome_iff Lua.noWraps hc).mpr⟩
  rw [noEnd_read Lua.noWraps hr hb, Lua.noEnd_lua hp]
  simp only [getsTo_outcome Lua.noWraps hr, hs]

/-- On a UTF-8 text only the strings are left. -/
theorem C58_chars_partial (rt : Rt) (s : Scanner) (h : Bytes) (cs : List Char) (hb : Between s h (encText cs)) (hj : ∀ i, ∃ cs, s.heap.janus i = encText cs) :
    (∀ n, read rt Lua.env n Lua.reader s = .timeout) ↔
    ∃ q es j, (q = 34 ∨ q = 39) ∧ TokChars q es ∧
      GetsTo Lua.env (Outcome rt Lua.env) Lua.reader ⟨encText cs, s.heap.janus⟩ (.zom (Lua.item q)) ⟨es, j⟩ := by
  rw [C58_exact_partial rt s h _ hb]
  refine or_iff_left ?_
  rintro ⟨id, st', st'', hid, h1, h2, h3⟩
  have hr : Lua.reader.Every (fun r => r.noWrap = true) := Reader.everyB_sound Reader.noWrap Lua.reader (by decide)
  have hw : Lua.env.Every (Reader.whole true) := (Env.everyB_sound Lua.wholes).imp fun _ => whole_of_B
  have hrw : Lua.reader.Every (Reader.whole true) := (Reader.everyB_sound (Reader.wholeB true) Lua.reader (by decide)).imp fun _ => whole_of_B
  have hc : (Lua.closer id).Every (fun r => r.noWrap = true) := Reader.everyB_sound Reader.noWrap _ (by rfl)
  have hcw : (Lua.closer id).Every (Reader.whole true) := (getsTo_every hw h1 hrw).sub (by simp [Reader.subs])
  have h4 := getsTo_good hw hrw ((getsTo_outcome Lua.noWraps hr).mp h1) ⟨⟨cs, rfl⟩, hj⟩
  have h5 := (searches_moves hw hcw (searches_mono (fun _ _ => (outcome_iff Lua.noWraps hc).mp) h2) h4).1
  obtain ⟨ds, hd⟩ := h5.1
  rw [hd] at h3
  cases ds with
  | nil => exact h3.1 rfl
  | cons d ds => exact h3.2.2 ⟨d, encText ds, encText_cons d ds⟩

/-- The unfinished string of `a"x` is reached. -/
example (rt : Rt) : ∃ q es j, (q = 34 ∨ q = 39) ∧ TokChars q es ∧
    GetsTo Lua.env (Outcome rt Lua.env) Lua.reader ⟨b!"a\"x", Heap.empty.janus⟩ (.zom (Lua.item q)) ⟨es, j⟩ :=
  (C58_chars_partial rt (.new b!"a\"x" Heap.empty) [] ['a', '"', 'x'] ⟨rfl, rfl⟩ (fun _ => ⟨[], rfl⟩)).mp
    (C58_unfinished_violated rt b!"x" (.plain (by decide) (by decide) (by decide) .nil))

end Tok
