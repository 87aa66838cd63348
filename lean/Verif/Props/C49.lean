/-
C49 The JSON reader terminates.
-/
import Verif.Proofs.TermText
import Verif.Props.C36

namespace Tok
open Spec

/-! ### a computable form of the conditions of `eat_halts` -/

def Reader.soundB (nul : Nat → Bool) (adm srch : Bool) (vis : Nat → Bool) (r : Reader) : Bool :=
  r.progressB nul adm && r.wholeB srch && (match r with | .body _ _ => false | .bodyTail _ _ => false | .rule i => vis i | _ => true)

theorem sound_of_B {nul : Nat → Bool} {adm srch : Bool} {vis : Nat → Bool} {r : Reader} (h : r.soundB nul adm srch vis = true) :
    r.sound nul adm srch (fun _ => False) (fun i => vis i = true) := by
  simp only [Reader.soundB, Bool.and_eq_true] at h
  refine ⟨progress_of_B h.1.1, whole_of_B h.1.2, ?_⟩
  cases r <;> first | trivial | exact h.2 | (cases h.2; done)

/-- The rules picked by `vis` and not by `base`. -/
def Env.soundB (nul : Nat → Bool) (adm srch : Bool) (rank : Nat → Nat) (vis base : Nat → Bool) : Nat → List Rule → Bool
  | _, [] => true
  | i, ⟨_, none⟩ :: rs => Env.soundB nul adm srch rank vis base (i + 1) rs
  | i, ⟨_, some c⟩ :: rs => (!c.null nul || nul i) &&
      (!vis i || base i || (c.everyB (Reader.soundB nul adm srch vis) && (c.left nul).all (fun j => rank j < rank i))) &&
      Env.soundB nul adm srch rank vis base (i + 1) rs

theorem soundB_sound {nul : Nat → Bool} {adm srch : Bool} {rank : Nat → Nat} {vis base : Nat → Bool} :
    ∀ {l : List Rule} {k : Nat}, Env.soundB nul adm srch rank vis base k l = true →
    ∀ (i : Nat) (nm : Bytes) (c : Reader), l[i]? = some ⟨nm, some c⟩ →
      (c.null nul = true → nul (k + i) = true) ∧
      (vis (k + i) = true → ¬ base (k + i) = true → c.Every (Reader.sound nul adm srch (fun _ => False) (fun i => vis i = true)) ∧
        ∀ j ∈ c.left nul, rank j < rank (k + i))
  | [], _, _, i, nm, c, hi => by simp at hi
  | ⟨nm', none⟩ :: l, k, h, i, nm, c, hi => by
    cases i with
    | zero => simp at hi
    | succ i =>
      simp only [List.getElem?_cons_succ] at hi
      have := soundB_sound (k := k + 1) (l := l) h i nm c hi
      rwa [show k + 1 + i = k + (i + 1) by omega] at this
  | ⟨nm', some c'⟩ :: l, k, h, i, nm, c, hi => by
    simp only [Env.soundB, Bool.and_eq_true] at h
    cases i with
    | zero =>
      simp only [List.getElem?_cons_zero, Option.some.injEq, Rule.mk.injEq] at hi
      obtain ⟨_, hc⟩ := hi
      subst hc
      simp only [Bool.or_eq_true, Bool.not_eq_true', List.all_eq_true, decide_eq_true_eq, Bool.and_eq_true] at h
      refine ⟨fun hn => ?_, fun hv hb => ?_⟩
      · rcases h.1.1 with h | h
        · rw [hn] at h; cases h
        · exact h
      · rcases h.1.2 with (h | h) | h
        · rw [Nat.add_zero] at hv; rw [hv] at h; cases h
        · exact absurd h hb
        · exact ⟨(Reader.everyB_sound _ _ h.1).imp fun _ => sound_of_B, h.2⟩
    | succ i =>
      simp only [List.getElem?_cons_succ] at hi
      have := soundB_sound (k := k + 1) (l := l) h.2 i nm c hi
      rwa [show k + 1 + i = k + (i + 1) by omega] at this

/-- Reading ends where it ends for the rules `base`. -/
theorem halts_of_soundC (rt : Rt) {G : Env} {nul : List Bool} {adm srch : Bool} {rank : List Nat} {K : Bytes → Prop} {vis base : Nat → Bool}
    (hK : Closed K) (hgo : adm = true → Goes srch K) (hG : Env.soundB (nulOf nul) adm srch (rankOf rank) vis base 0 G = true) (hw : G.everyB (Reader.wholeB srch) = true)
    (hbase : ∀ i, base i = true → ∀ st, OkSt srch K st → Halts (fun k => eat rt G k (.rule i) st))
    {r : Reader} (hr : r.everyB (Reader.soundB (nulOf nul) adm srch vis) = true) (st : St) (hs : OkSt srch K st) :
    Halts (fun k => eat rt G k r st) := by
  have key := soundB_sound hG
  simp only [Nat.zero_add] at key
  have : ∃ R, ∀ j ∈ r.left (nulOf nul), rankOf rank j < R := by
    generalize r.left (nulOf nul) = l
    induction l with
    | nil => exact ⟨0, by simp⟩
    | cons x l ih =>
      obtain ⟨R, hR⟩ := ih
      refine ⟨max R (rankOf rank x + 1), fun j hj => ?_⟩
      rcases List.mem_cons.mp hj with rfl | hj
      · omega
      · have := hR j hj; omega
  obtain ⟨R, hR⟩ := this
  exact eat_halts rt (bod := fun _ => False) (vis := fun i => vis i = true) (base := fun i => base i = true) hK hgo (fun _ h => h.elim)
    (fun i nm c hi hv hb => ((key i nm c hi).2 hv hb).1) ((Env.everyB_sound hw).imp fun _ => whole_of_B)
    (fun i nm c hi => (key i nm c hi).1) (fun i nm c hi hv hb => ((key i nm c hi).2 hv hb).2) hbase _ R r
    ((Reader.everyB_sound _ _ hr).imp fun _ => sound_of_B) hR st hs (Nat.le_refl _)

theorem halts_of_soundB (rt : Rt) {G : Env} {nul : List Bool} {srch : Bool} {rank : List Nat} {K : Bytes → Prop} {vis base : Nat → Bool}
    (hK : Closed K) (hG : Env.soundB (nulOf nul) srch srch (rankOf rank) vis base 0 G = true) (hw : G.everyB (Reader.wholeB srch) = true)
    (hbase : ∀ i, base i = true → ∀ st, OkSt srch K st → Halts (fun k => eat rt G k (.rule i) st))
    {r : Reader} (hr : r.everyB (Reader.soundB (nulOf nul) srch srch vis) = true) (st : St) (hs : OkSt srch K st) :
    Halts (fun k => eat rt G k r st) :=
  halts_of_soundC rt hK (fun e => by subst e; exact goes_chars _) hG hw hbase hr st hs

def Json.nul : List Bool := [false, false, false, false, false, false, false, false, false, true, true, false, false, false, false, true, true,
  false, false, false, true, false, false, true]
def Json.rank : List Nat := [3, 0, 2, 1, 0, 0, 5, 4, 0, 1, 0, 0, 0, 2, 1, 0, 0, 0, 0, 0, 0, 0, 0, 0]

/-- One character of a JSON string. -/
theorem Json.character_halts (rt : Rt) (st : St) : Halts (fun k => eat rt Json.env k (.rule Json.iCharacter) st) :=
  halts_of_soundB rt (nul := Json.nul) (srch := false) (rank := Json.rank) (K := fun _ => True)
    (vis := fun i => i == 10 || i == 11 || i == 12) (base := fun _ => false) (fun _ _ _ _ => trivial) (by decide) (by decide)
    (fun _ h => by cases h) (by decide) st ⟨by simp, trivial⟩

theorem Json.nulls : ∀ (i : Nat) (nm : Bytes) (c : Reader), Json.env[i]? = some ⟨nm, some c⟩ → c.null (nulOf Json.nul) = true →
    nulOf Json.nul i = true := by
  have h : Env.soundB (nulOf Json.nul) false false (rankOf Json.rank) (fun _ => false) (fun _ => false) 0 Json.env = true := by decide
  intro i nm c hi
  have := (soundB_sound h i nm c hi).1
  rwa [Nat.zero_add] at this

theorem Json.character_keeps (rt : Rt) (k : Nat) : Keeps (eat rt Json.env k (.rule Json.iCharacter)) := by
  have vis : ∀ r : Reader, r.everyB (fun r => r.high && (match r with | .rule i => i == 10 || i == 11 || i == 12 | _ => true)) = true →
      r.Every (fun r => r.high = true ∧ ∀ i, r = .rule i → (i == 10 || i == 11 || i == 12) = true) := fun r h =>
    (Reader.everyB_sound _ _ h).imp fun r h => by
      simp only [Bool.and_eq_true] at h
      refine ⟨h.1, fun i e => ?_⟩
      subst e
      exact h.2
  refine eat_keeps rt Json.env (vis := fun i => (i == 10 || i == 11 || i == 12) = true) (fun i nm c hi hv => ?_) k _ (vis _ (by decide))
  simp only [Bool.or_eq_true, beq_iff_eq] at hv
  rcases hv with (rfl | rfl) | rfl <;> cases hi <;> exact vis _ (by decide)

theorem Json.characters_halts (rt : Rt) (st : St) (hs : LowEnd st.rest) : Halts (fun k => eat rt Json.env k (.rule Json.iCharacters) st) := by
  refine Halts.shift (Halts.shift ?_)
  refine Halts.bind (Halts2.diag (eatZom_halts_low (F := fun k => eat rt Json.env k (.rule Json.iCharacter)) (Json.character_keeps rt) ?_
    (fun st _ => Json.character_halts rt st) _ st hs (Nat.le_refl _))) fun _ _ _ => .ret
  intro k st hs x hx h1
  cases k with
  | zero => cases hx
  | succ k => exact eatAny_holey Json.nulls (by decide) hs.ne_nil hx h1

theorem Json.string_halts (rt : Rt) (st : St) (hs : LowEnd? st.rest) : Halts (fun k => eat rt Json.env k (.rule Json.iString) st) :=
  Halts.shift (eatString_halts rt Json.env (q := 34) (by decide) (by decide) (Json.characters_halts rt) st hs)

theorem Json.key_halts (rt : Rt) (st : St) (hs : LowEnd? st.rest) : Halts (fun k => eat rt Json.env k (.rule Json.iKey) st) :=
  Halts.shift (eatString_halts rt Json.env (q := 34) (by decide) (by decide) (Json.characters_halts rt) st hs)

/-- Reading JSON ends on every text (any bytes) that ends with a control character, such as a
line feed.  The full claim is about every text; it is false, see `C49_violated`. -/
theorem C49_terminates_partial (rt : Rt) (s : Scanner) (h t : Bytes) (hb : Between s h t)
    (ht : ∀ y b, t = y ++ [b] → b.toNat < 32) :
    ∃ n, read rt Json.env n Json.reader s ≠ .timeout ∧ ∀ m, n ≤ m → read rt Json.env m Json.reader s = read rt Json.env n Json.reader s := by
  have hnw : Json.env.Every (fun r => r.noWrap = true) := Env.everyB_sound (by decide)
  refine halts_read hnw (Reader.everyB_sound Reader.noWrap Json.reader (by decide)) hb ?_
  refine halts_of_soundB rt (nul := Json.nul) (srch := false) (rank := Json.rank) (K := LowEnd?)
    (vis := fun i => i != 9) (base := fun i => i == 4 || i == 8) lowEnd?_closed (by decide) (by decide)
    (fun i hi st hs => ?_) (by decide) _ ⟨by simp, ?_⟩
  · simp only [Bool.or_eq_true, beq_iff_eq] at hi
    rcases hi with rfl | rfl
    · exact Json.key_halts rt st hs.2
    · exact Json.string_halts rt st hs.2
  · by_cases he : t = []
    · exact .inl he
    · refine .inr ⟨t.dropLast, t.getLast he, (List.dropLast_concat_getLast he).symm, ?_⟩
      exact ht _ _ (List.dropLast_concat_getLast he).symm

example (rt : Rt) : ∃ n, read rt Json.env n Json.reader (.new b!"[\"abc\n" Heap.empty) ≠ .timeout := by
  obtain ⟨n, h, _⟩ := C49_terminates_partial rt (.new b!"[\"abc\n" Heap.empty) [] _ ⟨rfl, rfl⟩ (fun y b h => by
    have : b!"[\"abc\n" = b!"[\"abc" ++ [10] := rfl
    rw [this] at h
    have := (List.append_inj' h rfl).2
    cases this
    decide)
  exact ⟨n, h⟩

/-! ### the claim for all texts is false -/

/-- The read never ends. -/
def NoEnd (rt : Rt) (G : Env) (r : Reader) (st : St) : Prop := ∀ n, eat rt G n r st = .timeout

theorem eat_or {rt : Rt} {G : Env} {n : Nat} {r : Reader} {st : St} {x : Bool × St} (h : eat rt G n r st = .ret x) (m : Nat) :
    eat rt G m r st = .timeout ∨ eat rt G m r st = .ret x := by
  rcases Nat.le_total n m with hm | hm
  · exact .inr (eat_mono hm h)
  · rcases eat_le rt G m n hm r st with h' | h'
    · exact .inl h'
    · exact .inr (h'.trans h)

theorem NoEnd.rule {rt : Rt} {G : Env} {i : Nat} {nm : Bytes} {c : Reader} {st : St} (hi : G[i]? = some ⟨nm, some c⟩) (h : NoEnd rt G c st) :
    NoEnd rt G (.rule i) st
  | 0 => rfl
  | n + 1 => by simp only [eat, hi]; exact h n

theorem stuck_seq {rt : Rt} {G : Env} {st : St} {r : Reader} {rs : List Reader} (h : ∀ n, eatSeq (eat rt G n) (r :: rs) st = .timeout) :
    NoEnd rt G (.seq (r :: rs)) st
  | 0 => rfl
  | n + 1 => by simp only [eat]; rw [h n]; rfl

theorem stuck_any {rt : Rt} {G : Env} {st : St} {r : Reader} {rs : List Reader} (h : ∀ n, eatAny (eat rt G n) (r :: rs) st = .timeout) :
    NoEnd rt G (.any (r :: rs)) st
  | 0 => rfl
  | n + 1 => by simp only [eat]; rw [h n]; rfl

theorem eatSeq_stuck {rt : Rt} {G : Env} {st : St} {r : Reader} {rs : List Reader} (h : NoEnd rt G r st) (n : Nat) :
    eatSeq (eat rt G n) (r :: rs) st = .timeout := by
  unfold eatSeq; rw [h n]; rfl

theorem eatAny_stuck {rt : Rt} {G : Env} {st : St} {r : Reader} {rs : List Reader} (h : NoEnd rt G r st) (n : Nat) :
    eatAny (eat rt G n) (r :: rs) st = .timeout := by
  unfold eatAny; rw [h n]; rfl

theorem eatSeq_past {rt : Rt} {G : Env} {st st' : St} {r : Reader} {rs : List Reader} {m : Nat} (h : eat rt G m r st = .ret (true, st'))
    (h' : ∀ n, eatSeq (eat rt G n) rs st' = .timeout) (n : Nat) : eatSeq (eat rt G n) (r :: rs) st = .timeout := by
  unfold eatSeq
  rcases eat_or h n with h | h
  · rw [h]; rfl
  · rw [h]; exact h' n

theorem eatAny_past {rt : Rt} {G : Env} {st st' : St} {r : Reader} {rs : List Reader} {m : Nat} (h : eat rt G m r st = .ret (false, st'))
    (h' : ∀ n, eatAny (eat rt G n) rs st' = .timeout) (n : Nat) : eatAny (eat rt G n) (r :: rs) st = .timeout := by
  unfold eatAny
  rcases eat_or h n with h | h
  · rw [h]; rfl
  · rw [h]; exact h' n

/-- Repetition over a text and on at its end. -/
theorem eatZom_through {f : EatFunc} {j : Nat → Bytes} {P : Char → Prop}
    (h1 : ∀ c t, P c → f ⟨enc c ++ t, j⟩ = .timeout ∨ f ⟨enc c ++ t, j⟩ = .ret (true, ⟨t, j⟩))
    (h2 : f ⟨[], j⟩ = .timeout ∨ f ⟨[], j⟩ = .ret (true, ⟨[], j⟩)) :
    ∀ n cs, (∀ c ∈ cs, P c) → eatZom f n ⟨encText cs, j⟩ = .timeout
  | 0, _, _ => rfl
  | n + 1, [], _ => eatZom_spin h2 (n + 1)
  | n + 1, c :: cs, h => by
    unfold eatZom
    rw [show encText (c :: cs) = enc c ++ encText cs from rfl]
    rcases h1 c (encText cs) (h c List.mem_cons_self) with e | e
    · rw [e]; rfl
    · rw [e]
      exact eatZom_through h1 h2 n cs fun c hc => h c (List.mem_cons_of_mem _ hc)

/-- The range of string characters without two holes, on one character and at the end. -/
theorem eat_holey_char (rt : Rt) (G : Env) {c : Char} {q : Nat} {holes : Bytes} (hh : runesOf holes = [(q : Int), 92])
    (h : 32 ≤ c.toNat ∧ c.toNat ≠ q ∧ c.toNat ≠ 92) (n : Nat)
    (t : Bytes) (j : Nat → Bytes) : eat rt G (n + 1) (.holey 32 maxRune holes) ⟨enc c ++ t, j⟩ = .ret (true, ⟨t, j⟩) := by
  have hr := char_range c
  have hd := decodeRune_enc c t
  have hc : containsRune holes (c.toNat : Int) = false := by
    rw [Bool.eq_false_iff]
    intro hc
    rw [containsRune_iff, hh] at hc
    simp only [List.mem_cons, List.not_mem_nil, or_false] at hc
    omega
  have hi : Scanner.inRange 32 (c.toNat : Int) maxRune = true := by
    have : c.toNat = c.val.toNat := rfl
    have hm : maxRune = 0x10FFFF := rfl
    simp only [Scanner.inRange, Bool.and_eq_true, decide_eq_true_eq, hm]
    omega
  simp only [eat, lift, eatOne, hd, hi, hc]
  simp

/-- A text that starts a string and does not end it is read for ever: a quote and any number
of plain characters. -/
theorem C49_violated (rt : Rt) (cs : List Char) (h : ∀ c ∈ cs, 32 ≤ c.toNat ∧ c ≠ '"' ∧ c ≠ '\\') :
    Diverges rt Json.env Json.reader (b!"\"" ++ encText cs) := by
  refine diverges_of (Env.everyB_sound (by decide)) (Reader.everyB_sound Reader.noWrap Json.reader (by decide)) ?_
  generalize Heap.empty.janus = j
  have hc : ∀ c : Char, (32 ≤ c.toNat ∧ c ≠ '"' ∧ c ≠ '\\') → ∀ t n,
      eat rt Json.env n (.rule Json.iCharacter) ⟨enc c ++ t, j⟩ = .timeout ∨
      eat rt Json.env n (.rule Json.iCharacter) ⟨enc c ++ t, j⟩ = .ret (true, ⟨t, j⟩) := fun c hc t => by
    refine eat_or (n := 3) ?_
    have h' : 32 ≤ c.toNat ∧ c.toNat ≠ 34 ∧ c.toNat ≠ 92 :=
      ⟨hc.1, fun e => hc.2.1 (Char.ext (UInt32.toNat_inj.mp e)), fun e => hc.2.2 (Char.ext (UInt32.toNat_inj.mp e))⟩
    have := eat_holey_char rt Json.env (holes := b!"\"\\") (by decide) h' 0 t j
    show (do let x ← eatAny (eat rt Json.env 1) _ _; Exec.ret (orBack _ x)) = _
    rw [eatAny, show Reader.holey _ _ _ = Reader.holey 32 maxRune b!"\"\\" from rfl, this]
    rfl
  have hz : NoEnd rt Json.env (.rule Json.iCharacters) ⟨encText cs, j⟩ := .rule rfl fun n => by
    cases n with
    | zero => rfl
    | succ n =>
      show (do let x ← eatZom (eat rt Json.env n (.rule Json.iCharacter)) n _; Exec.ret (true, x)) = _
      rw [eatZom_through (fun c t hp => hc c hp t n) (eat_or (n := 3) rfl n) n cs h]
      rfl
  have hs : NoEnd rt Json.env (.rule Json.iString) ⟨b!"\"" ++ encText cs, j⟩ :=
    .rule rfl (stuck_seq (eatSeq_past (m := 1) rfl (eatSeq_stuck hz)))
  have hv : NoEnd rt Json.env (.rule Json.iValue) ⟨b!"\"" ++ encText cs, j⟩ :=
    .rule rfl (stuck_any (eatAny_past (m := 3) rfl (eatAny_past (m := 3) rfl (eatAny_stuck hs))))
  have he : NoEnd rt Json.env (.rule Json.iElement) ⟨b!"\"" ++ encText cs, j⟩ :=
    .rule rfl (stuck_seq (eatSeq_past (m := 3) rfl (eatSeq_stuck hv)))
  intro n
  cases n with
  | zero => rfl
  | succ n => simp only [Json.reader, eat]; exact he n

example (rt : Rt) : Diverges rt Json.env Json.reader b!"\"abc" := C49_violated rt ['a', 'b', 'c'] (by decide)

end Tok
