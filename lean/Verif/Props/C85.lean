/-
C85 What makes a read go on for ever.
-/
import Verif.Proofs.ForeverRead
import Verif.Props.C36

namespace Tok
open Spec

/-- A read goes on for ever exactly if its calls, direct or not, get to a repeating or searching reader whose loop comes to stay at one place, or into
calls that stay at one place: for every grammar, every reader without `Wrap`, every text and every place in it. -/
theorem C85_forever (rt : Rt) (G : Env) (hG : G.Every (fun r => r.noWrap = true)) (r : Reader) (hr : r.Every (fun r => r.noWrap = true))
    (s : Scanner) (h t : Bytes) (hb : Between s h t) :
    (∀ n, read rt G n r s = .timeout) ↔
      ∃ r' st', GetsTo G (Outcome rt G) r ⟨t, s.heap.janus⟩ r' st' ∧ (Spins (Outcome rt G) r' st' ∨ Circles G (Outcome rt G) r' st') := by
  rw [noEnd_read hG hr hb, noEnd_iff]
  refine exists_congr fun r' => exists_congr fun st' => ?_
  rw [← getsTo_outcome hG hr]
  refine and_congr_right fun hg => ?_
  have hr' := getsTo_every hG hg hr
  rw [spins_outcome hG hr', circles_outcome hG hr']

/-- With a grammar without left recursion only the loops are left. -/
theorem C85_loops (rt : Rt) (G : Env) (hG : G.Every (fun r => r.noWrap = true)) (nul : Nat → Bool) (rank : Nat → Nat)
    (hnul : ∀ (i : Nat) (nm : Bytes) (c : Reader), G[i]? = some ⟨nm, some c⟩ → c.null nul = true → nul i = true)
    (hrank : ∀ (i : Nat) (nm : Bytes) (c : Reader), G[i]? = some ⟨nm, some c⟩ → ∀ j ∈ c.left nul, rank j < rank i)
    (r : Reader) (hr : r.Every (fun r => r.noWrap = true)) (s : Scanner) (h t : Bytes) (hb : Between s h t) :
    (∀ n, read rt G n r s = .timeout) ↔ ∃ r' st', GetsTo G (Outcome rt G) r ⟨t, s.heap.janus⟩ r' st' ∧ Spins (Outcome rt G) r' st' := by
  rw [C85_forever rt G hG r hr s h t hb]
  refine exists_congr fun r' => exists_congr fun st' => and_congr_right fun hg => or_iff_left ?_
  rw [circles_outcome hG (getsTo_every hG hg hr)]
  exact no_circles hnul hrank

/-- In a text of characters a search does get on, if the readers go over whole characters: only repetitions are left. -/
theorem C85_chars (rt : Rt) (G : Env) (hG : G.Every (fun r => r.noWrap = true)) (hw : G.Every (Reader.whole true)) (nul : Nat → Bool) (rank : Nat → Nat)
    (hnul : ∀ (i : Nat) (nm : Bytes) (c : Reader), G[i]? = some ⟨nm, some c⟩ → c.null nul = true → nul i = true)
    (hrank : ∀ (i : Nat) (nm : Bytes) (c : Reader), G[i]? = some ⟨nm, some c⟩ → ∀ j ∈ c.left nul, rank j < rank i)
    (r : Reader) (hr : r.Every (fun r => r.noWrap = true)) (hrw : r.Every (Reader.whole true)) (s : Scanner) (h : Bytes) (cs : List Char)
    (hb : Between s h (encText cs)) (hj : ∀ i, ∃ cs, s.heap.janus i = encText cs) :
    (∀ n, read rt G n r s = .timeout) ↔ ∃ c i st' st'', (GetsTo G (Outcome rt G) r ⟨encText cs, s.heap.janus⟩ (.zom c) st' ∨
        GetsTo G (Outcome rt G) r ⟨encText cs, s.heap.janus⟩ (.many c) st') ∧
      Passes (Outcome rt G) (.replicate i c) st' st'' ∧ Repeats (Outcome rt G) c st'' := by
  rw [C85_loops rt G hG nul rank hnul hrank r hr s h _ hb]
  constructor
  · rintro ⟨r', st', h1, h2⟩
    have h0 := (getsTo_outcome hG hr).mp h1
    have h4 := getsTo_good hw hrw h0 ⟨⟨cs, rfl⟩, hj⟩
    have h5 := getsTo_every hw h0 hrw
    have h6 := getsTo_every hG h0 hr
    have quiet : ∀ {c : Reader} {st'' : St}, c ∈ r'.subs → Searches (Outcome rt G) c st' st'' → ¬ Stalls (Outcome rt G) c st'' := fun hc hs hst =>
      no_stalls hw (h5.sub hc) (searches_mono (fun _ _ => (outcome_iff hG (h6.sub hc)).mp) hs) h4
        (stalls_mono (fun _ _ => (outcome_iff hG (h6.sub hc)).mp) hst)
    cases h2 with
    | zom h2 h3 => exact ⟨_, _, _, _, .inl h1, h2, h3⟩
    | many h2 h3 => exact ⟨_, _, _, _, .inr h1, h2, h3⟩
    | past h2 h3 => exact absurd h3 (quiet (by simp [Reader.subs]) h2)
    | body h2 h3 => exact absurd h3 (quiet (by simp [Reader.subs]) h2)
    | bodyTail h2 h3 => exact absurd h3 (quiet (by simp [Reader.subs]) h2)
  · rintro ⟨c, i, st', st'', h1 | h1, h2, h3⟩
    · exact ⟨_, _, h1, .zom h2 h3⟩
    · exact ⟨_, _, h1, .many h2 h3⟩

/-! ### what it means to stay at one place -/

/-- `MoveRunes(1)` does not get on exactly at the end and where no character begins and at most two bytes are left. -/
theorem C85_onward (t : Bytes) : (onward t).2 = t ↔ t = [] ∨ t.length ≤ 2 ∧ ¬ ∃ c u, t = enc c ++ u := by
  rw [onward_eq]
  by_cases ht : t = []
  · subst ht; simp [eatStep_nil]
  · obtain ⟨r, p, hs⟩ := Step.exists ht
    have hd := (step_iff.mp hs).2.1
    cases hs with
    | char c u =>
      have h1 : (eatStep (enc c ++ u)).2 ≠ enc c ++ u := by
        rw [eatStep_char]
        intro h
        have := congrArg List.length h
        have := enc_length_pos c
        simp only [List.length_append] at *
        omega
      exact iff_of_false h1 fun h => h.elim ht fun h => h.2 ⟨c, u, rfl⟩
    | bad b u hbad =>
      have hl : runeLen 0xFFFD = 3 := by decide
      unfold eatStep
      rw [hd]
      simp only
      rw [hl]
      by_cases hlen : (3 : Int) ≤ (b :: u).length
      · rw [if_pos ⟨ht, hlen⟩]
        refine iff_of_false (fun h => ?_) fun h => ?_
        · have := congrArg List.length h
          simp only [List.length_drop, List.length_cons] at *
          omega
        · rcases h with h | ⟨h, _⟩
          · exact ht h
          · omega
      · rw [if_neg (fun h => hlen h.2)]
        refine iff_of_true rfl (.inr ⟨by omega, ?_⟩)
        rintro ⟨c, v, hc⟩
        exact hbad c ⟨v, hc.symm⟩

/-- A repetition stays at one place exactly if its reader succeeds there without going over anything; for readers that leave the Janus strings alone. -/
theorem C85_repeats (rt : Rt) (G : Env) (c : Reader)
    (hj : KeepsJanus rt G c) (st : St) : Repeats (Outcome rt G) c st ↔ Outcome rt G c st (true, st) := by
  constructor
  · rintro ⟨f, rfl, h⟩
    have h1 := (h 0).1
    have h2 : (f 1).jan = (f 0).jan := hj _ _ _ (show Between _ [] (f 0).rest from ⟨rfl, rfl⟩) _ _ _ h1.2
    have h3 : f 1 = f 0 := by
      have := (h 1).2
      cases h4 : f 1
      cases h5 : f 0
      rw [h4, h5] at this h2
      simp only at this h2
      rw [this, h2]
    rwa [h3] at h1
  · exact fun h => ⟨fun _ => st, rfl, fun _ => ⟨h, rfl⟩⟩

/-- A search stays at one place exactly if its reader fails there and `MoveRunes(1)` does not get on. -/
theorem C85_stalls (rt : Rt) (G : Env) (c : Reader)
    (hj : KeepsJanus rt G c) (st : St) :
    Stalls (Outcome rt G) c st ↔ st.rest ≠ [] ∧ Outcome rt G c st (false, st) ∧ (onward st.rest).2 = st.rest := by
  constructor
  · rintro ⟨hn, f, g, rfl, h⟩
    obtain ⟨h1, h2, _⟩ := h 0
    have h3 : (g 0).jan = (f 0).jan := hj _ _ _ (show Between _ [] (f 0).rest from ⟨rfl, rfl⟩) _ _ _ h1.2
    have h4 : (onward (g 0).rest).2 = (f 0).rest := by rw [← (h 1).2.2, h2]
    have h5 : (g 0).rest = (f 0).rest :=
      h1.1.eq_of_length (Nat.le_antisymm h1.1.length_le (by have := (onward_suffix (g 0).rest).length_le; rw [h4] at this; exact this))
    have h6 : g 0 = f 0 := by
      cases h4 : g 0
      cases h7 : f 0
      rw [h4, h7] at h5 h3
      simp only at h5 h3
      rw [h5, h3]
    rw [h6] at h1 h4
    exact ⟨hn, h1, h4⟩
  · rintro ⟨h1, h2, h3⟩
    exact ⟨h1, fun _ => st, fun _ => st, rfl, fun _ => ⟨h2, by simp only; rw [h3], rfl⟩⟩

/-- Left recursion: the calls of the rule `A: A` stay at one place. -/
example (rt : Rt) (t : Bytes) : ∀ n, read rt [⟨b!"A", some (.rule 0)⟩] n (.rule 0) (.new t Heap.empty) = .timeout :=
  (C85_forever rt _ (Env.everyB_sound (by decide)) _ (Reader.everyB_sound Reader.noWrap _ (by decide)) _ [] t ⟨rfl, rfl⟩).mpr
    ⟨_, _, .refl _ _, .inr ⟨fun _ => .rule 0, fun _ => ⟨t, Heap.empty.janus⟩, rfl, rfl, fun _ => ⟨.rule rfl, rfl⟩⟩⟩

/-- `Past('a')` on the byte FF gets to a loop that stays at one place. -/
example (rt : Rt) : ∃ r' st', GetsTo [] (Outcome rt []) (.past (.rune 97)) ⟨[0xFF], Heap.empty.janus⟩ r' st' ∧ Spins (Outcome rt []) r' st' :=
  (C85_loops rt [] (fun _ h => by cases h) (fun _ => false) (fun _ => 0) (fun _ _ _ h => by cases h) (fun _ _ _ h => by cases h) _
    (Reader.everyB_sound Reader.noWrap _ (by decide)) (.new [0xFF] Heap.empty) [] _ ⟨rfl, rfl⟩).mp (C36_violated rt).1

end Tok
