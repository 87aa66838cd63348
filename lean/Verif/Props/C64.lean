/-
C64 Short literal strings of the Lua grammar.
-/
import Verif.Props.C63
import Verif.Props.C58

namespace Tok
open Spec

namespace Lua

/-! ### escape sequences -/

def simpleB (c : UInt8) : Bool := b!"abfnrtvz\"'\\".contains c

theorem ascii_simple : Ascii (containsRune b!"abfnrtvz\"'\\") simpleB :=
  ascii_contains (by decide +kernel) (bytes_all (by decide +kernel)) (bytes_all (by decide +kernel))

theorem ascii_two : Ascii (fun v => Scanner.inRange 48 v 50) (fun b => 48 ≤ b && b ≤ 50) where
  low := bytes_all (by decide +kernel)
  high := bytes_all (by decide +kernel)
  none v hv := by simp [Scanner.inRange]; omega

def escB : Bytes → Option Bytes := anyB [
  seqB [oneB (· == 92), oneB simpleB],
  anyB [seqB [oneB (· == 92), oneB digitB], seqB [oneB (· == 92), seqB (List.replicate 2 (oneB digitB))],
    seqB [oneB (· == 92), oneB (fun b => 48 ≤ b && b ≤ 50), seqB (List.replicate 2 (oneB digitB))]],
  seqB [litB b!"\\x", seqB (List.replicate 2 (oneB hexB))],
  seqB [litB b!"\\u{", manyB hexB, litB b!"}"]]

theorem esc_does (rt : Rt) (G : Env) : Does rt G escapeSequence escB := by
  have bs : Does rt G (.rune 92) (oneB (· == 92)) := does_rune (ascii_rune 92 (by decide))
  have d2 : Tries rt G (.times 2 mkDigit) (seqB (List.replicate 2 (oneB digitB))) := tries_times digit_does 2
  have h2 : Tries rt G (.times 2 mkHexDigit) (seqB (List.replicate 2 (oneB hexB))) := tries_times hex_does 2
  exact does_any (.cons (does_seq (.cons bs (.cons (does_anyRune ascii_simple) .nil)))
    (.cons (does_any (.cons (does_seq (.cons bs (.cons digit_does .nil))) (.cons (tries_seq (.cons bs.tries (.cons d2 .nil)))
      (.cons (tries_seq (.cons bs.tries (.cons (does_between ascii_two).tries (.cons d2 .nil)))) .nil))))
    (.cons (tries_seq (.cons (does_lit _).tries (.cons h2 .nil)))
    (.cons (does_seq (.cons (does_lit _) (.cons (does_many hex_does) (.cons (does_lit _) .nil)))) .nil))))

theorem oneB_some {p : UInt8 → Bool} {t u : Bytes} (h : oneB p t = some u) : ∃ b, t = b :: u ∧ p b = true := by
  cases t with
  | nil => cases h
  | cons b t =>
    simp only [oneB] at h
    split at h
    · next hp => cases h; exact ⟨b, rfl, hp⟩
    · cases h

theorem litB_some {x t u : Bytes} (h : litB x t = some u) : t = x ++ u := by
  unfold litB at h
  split at h
  · next hp =>
    cases h
    obtain ⟨z, rfl⟩ := (hasPrefix_iff t x).mp hp
    simp
  · cases h

theorem litB_append (x u : Bytes) : litB x (x ++ u) = some u := by
  unfold litB
  rw [if_pos ((hasPrefix_iff _ _).mpr (List.prefix_append x u))]
  simp

theorem or_some {a b : Option Bytes} {z : Bytes} (h : a.or b = some z) : a = some z ∨ b = some z := by
  cases a with
  | none => exact .inr h
  | some v => exact .inl h

theorem escB_sound {t z : Bytes} (h : escB t = some z) : ∃ e, t = e ++ z ∧ TokEscape e := by
  simp only [escB, anyB, Option.or_none] at h
  rcases or_some h with h | h
  · simp only [seqB, Option.bind_eq_some_iff] at h
    obtain ⟨u, h1, v, h2, h3⟩ := h
    cases h3
    obtain ⟨b, rfl, hb⟩ := oneB_some h1
    obtain ⟨c, rfl, hc⟩ := oneB_some h2
    rw [beq_iff_eq] at hb
    subst hb
    exact ⟨[92, c], rfl, .simple (by simpa [simpleB] using hc)⟩
  rcases or_some h with h | h
  · have : ∃ d, t = 92 :: d :: z ∧ digitB d = true := by
      rcases h1 : seqB [oneB (· == 92), oneB digitB] t with _ | v
      · exfalso
        rw [h1, Option.none_or] at h
        have hd : ∀ {f : List (Bytes → Option Bytes)} {u : Bytes} {p : UInt8 → Bool}, (∀ b, p b = true → digitB b = true) → seqB (oneB (· == 92) :: oneB p :: f) t = some u → False := by
          intro f u p hp h2
          simp only [seqB, Option.bind_eq_some_iff] at h2
          obtain ⟨u, h3, v, h4, h5⟩ := h2
          obtain ⟨b, rfl, hb⟩ := oneB_some h3
          obtain ⟨c, rfl, hc⟩ := oneB_some h4
          simp [seqB, oneB, hb, hp c hc] at h1
        rcases or_some h with h | h
        · simp only [seqB, List.replicate, Option.bind_eq_some_iff] at h
          obtain ⟨u, h3, v, ⟨w, h4, h5⟩, h6⟩ := h
          obtain ⟨b, rfl, hb⟩ := oneB_some h3
          obtain ⟨c, rfl, hc⟩ := oneB_some h4
          simp [seqB, oneB, hb, hc] at h1
        · exact hd (p := fun b => 48 ≤ b && b ≤ 50) (bytes_all (by decide +kernel)) h
      · rw [h1, Option.some_or] at h
        cases h
        simp only [seqB, Option.bind_eq_some_iff] at h1
        obtain ⟨u, h3, v, h4, h5⟩ := h1
        cases h5
        obtain ⟨b, rfl, hb⟩ := oneB_some h3
        obtain ⟨c, rfl, hc⟩ := oneB_some h4
        rw [beq_iff_eq] at hb
        subst hb
        exact ⟨c, rfl, hc⟩
    obtain ⟨d, rfl, hd⟩ := this
    exact ⟨[92, d], rfl, .digit ((digitB_iff d).mp hd)⟩
  rcases or_some h with h | h
  · simp only [seqB, List.replicate, Option.bind_eq_some_iff] at h
    obtain ⟨u, h1, v, ⟨w, h2, w', h3, h4⟩, h5⟩ := h
    cases h5
    cases h4
    have := litB_some h1
    obtain ⟨a, rfl, ha⟩ := oneB_some h2
    obtain ⟨b, rfl, hb⟩ := oneB_some h3
    exact ⟨[92, 120, a, b], this, .hex ((hexB_iff a).mp ha) ((hexB_iff b).mp hb)⟩
  · simp only [seqB, Option.bind_eq_some_iff] at h
    obtain ⟨u, h1, v, h2, w, h3, h4⟩ := h
    cases h4
    have e1 := litB_some h1
    have e3 := litB_some h3
    obtain ⟨ds, e2, hl⟩ := (greedy_many hexB_iff).some h2
    refine ⟨92 :: 117 :: 123 :: (ds ++ [125]), ?_, .utf hl.2.1⟩
    rw [e1, e2, e3]
    simp

theorem escB_complete {e : Bytes} (h : TokEscape e) (z : Bytes) : escB (e ++ z) = some z := by
  cases h with
  | @simple c hc =>
    have : simpleB c = true := by simpa [simpleB] using hc
    simp [escB, anyB, seqB, oneB, this]
  | @digit d hd =>
    have h1 := (digitB_iff d).mpr hd
    have h2 : ∀ d, digitB d = true → simpleB d = false := bytes_all (by decide +kernel)
    simp [escB, anyB, seqB, oneB, h1, h2 d h1]
  | @hex a b ha hb =>
    have h1 : simpleB 120 = false := by decide +kernel
    have h2 : digitB 120 = false := by decide
    have h3 : litB b!"\\x" (92 :: 120 :: a :: b :: z) = some (a :: b :: z) := litB_append b!"\\x" (a :: b :: z)
    simp [escB, anyB, seqB, oneB, h1, h2, h3, (hexB_iff a).mpr ha, (hexB_iff b).mpr hb]
  | @utf ds hd =>
    have h1 : simpleB 117 = false := by decide +kernel
    have h2 : digitB 117 = false := by decide
    have h3 : litB b!"\\u{" (92 :: 117 :: 123 :: (ds ++ 125 :: z)) = some (ds ++ 125 :: z) := litB_append b!"\\u{" (ds ++ 125 :: z)
    have h4 : litB b!"\\x" (92 :: 117 :: 123 :: (ds ++ 125 :: z)) = none := by simp [litB, hasPrefix]
    have h5 : manyB hexB (ds ++ 125 :: z) = some (125 :: z) := by
      refine ((greedy_many hexB_iff).iff rfl).mpr ⟨List.prefix_append _ _, hd, ?_⟩
      intro y hy hD
      rcases Nat.lt_or_ge ds.length y.length with hl | hl
      · obtain ⟨d, w, h6, h7⟩ := prefix_split (b := 125 :: z) hy (List.prefix_refl _) hl
        rcases h7 with h7 | ⟨w', h7⟩
        · cases h7
        · injection h7 with h7 _
          subst h7
          have := hD.2 125 (by rw [h6]; simp)
          exact absurd this (by unfold HexDigit; decide)
      · exact hl
    have h6 : litB b!"}" (125 :: z) = some z := litB_append b!"}" z
    simp [escB, anyB, seqB, oneB, h1, h2, h3, h4, h5, h6]

/-! ### the characters between the quotes -/

/-- The bytes of a rune that begins with a high byte are high. -/
theorem decode_bytes {b : UInt8} (hb : 128 ≤ b.toNat) (t : Bytes) : ∃ y u, b :: t = y ++ u ∧ y ≠ [] ∧ (∀ c ∈ y, 128 ≤ c.toNat) ∧
    (b :: t).drop (decodeRune (b :: t)).2 = u ∧ (decodeRune (b :: t)).1 ≤ 1114111 := by
  rcases decodeRune_cases (b :: t) with ⟨h, _⟩ | ⟨_, h, _⟩ | ⟨c, u, h, h2⟩
  · cases h
  · rw [h]
    exact ⟨[b], t, rfl, by simp, by simpa using hb, rfl, by simp [runeError]⟩
  · rw [h2]
    refine ⟨enc c, u, h, enc_ne_nil c, ?_, by rw [h]; simp, ?_⟩
    · obtain ⟨b', cs, e1, e2, e3, e4, e5, e6⟩ := enc_shape c
      rw [e1] at h ⊢
      injection h with h _
      subst h
      intro x hx
      rcases List.mem_cons.mp hx with rfl | hx
      · exact hb
      · have := e3 x hx
        simp only [isCont, Bool.and_eq_true, decide_eq_true_eq] at this
        omega
    · have := char_range c
      have e : c.val.toNat = c.toNat := rfl
      simp only
      omega

def item (q : UInt8) : Reader := .any [.holey 32 maxRune [q, 92], escapeSequence]

/-- No character begins here. -/
def NoItem (q : UInt8) (t : Bytes) : Prop := (∀ b u, t = b :: u → 32 ≤ b → b ≠ q → b ≠ 92 → False) ∧ ∀ e z, t = e ++ z → ¬ TokEscape e

theorem inRange_iff (a v b : Int) : Scanner.inRange a v b = true ↔ a ≤ v ∧ v ≤ b := by simp [Scanner.inRange]

variable {rt : Rt} {G : Env} {q : UInt8}

theorem holes_iff (hq : q = 34 ∨ q = 39) (v : Int) : containsRune [q, 92] v = true ↔ v = q.toNat ∨ v = 92 := by
  have : runesOf [q, 92] = [(q.toNat : Int), 92] := by rcases hq with rfl | rfl <;> decide
  rw [containsRune_iff, this]
  simp

/-- A plain character. -/
theorem item_plain (hq : q = 34 ∨ q = 39) {b : UInt8} {t : Bytes} (h1 : 32 ≤ b) (h2 : b ≠ q) (h3 : b ≠ 92) (j : Nat → Bytes) :
    ∃ y u, b :: t = y ++ u ∧ y ≠ [] ∧ TokChars q y ∧ (∀ v, TokChars q v → TokChars q (y ++ v)) ∧
      eat rt G 2 (item q) ⟨b :: t, j⟩ = .ret (true, ⟨u, j⟩) := by
  have hm : maxRune = 1114111 := rfl
  have key : ∀ y u, b :: t = y ++ u → y ≠ [] → (∀ c ∈ y, 32 ≤ c ∧ c ≠ q ∧ c ≠ 92) → (b :: t).drop (decodeRune (b :: t)).2 = u →
      (32 ≤ (decodeRune (b :: t)).1 ∧ (decodeRune (b :: t)).1 ≤ 1114111) → ¬ ((decodeRune (b :: t)).1 = q.toNat ∨ (decodeRune (b :: t)).1 = 92) →
      ∃ y u, b :: t = y ++ u ∧ y ≠ [] ∧ TokChars q y ∧ (∀ v, TokChars q v → TokChars q (y ++ v)) ∧
      eat rt G 2 (item q) ⟨b :: t, j⟩ = .ret (true, ⟨u, j⟩) := by
    intro y u e1 e2 e3 e4 e5 e6
    have app : ∀ v, TokChars q v → TokChars q (y ++ v) := by
      intro v hv
      clear e1 e2
      induction y with
      | nil => exact hv
      | cons c y ih =>
        have := e3 c List.mem_cons_self
        exact .plain this.1 this.2.1 this.2.2 (ih fun d hd => e3 d (List.mem_cons_of_mem _ hd))
    refine ⟨y, u, e1, e2, by simpa using app [] .nil, app, ?_⟩
    have hP : (Scanner.inRange 32 (decodeRune (b :: t)).1 maxRune && !containsRune [q, 92] (decodeRune (b :: t)).1) = true := by
      rw [Bool.and_eq_true, inRange_iff, hm, Bool.not_eq_true', ← Bool.not_eq_true, holes_iff hq]
      exact ⟨e5, e6⟩
    show (do let x ← eatAny (eat rt G 1) [.holey 32 maxRune [q, 92], escapeSequence] ⟨b :: t, j⟩; Exec.ret (orBack (b :: t) x)) = _
    have : eat rt G 1 (.holey 32 maxRune [q, 92]) ⟨b :: t, j⟩ = .ret (true, ⟨u, j⟩) := by
      show lift (eatOne _) _ = _
      unfold lift eatOne
      simp only [hP, if_true, e4]
    rw [eatAny, this]
    rfl
  have hqb : q.toNat < 128 := by rcases hq with rfl | rfl <;> decide
  by_cases hb : b.toNat < 128
  · refine key [b] t rfl (by simp) (by simpa using ⟨h1, h2, h3⟩) ?_ ?_ ?_
    · rw [decodeRune_one hb]; rfl
    · rw [decodeRune_one hb]
      have := UInt8.le_iff_toNat_le.mp h1
      simp at this
      simp only
      omega
    · rw [decodeRune_one hb]
      have e1 : b.toNat ≠ q.toNat := fun e => h2 (UInt8.toNat_inj.mp e)
      have e2 : b.toNat ≠ 92 := fun e => h3 (UInt8.toNat_inj.mp e)
      simp only
      omega
  · obtain ⟨y, u, e1, e2, e3, e4, e5⟩ := decode_bytes (b := b) (by omega) t
    have e6 := decode_high (b := b) (by omega) t
    refine key y u e1 e2 ?_ e4 ⟨by omega, e5⟩ (by omega)
    intro c hc
    have := e3 c hc
    refine ⟨UInt8.le_iff_toNat_le.mpr (by simp; omega), ?_, ?_⟩
    · rintro rfl; omega
    · rintro rfl; revert this; decide

/-- `Holey` does not go over the quote, the backslash or a control character. -/
theorem holey_no (hq : q = 34 ∨ q = 39) {b : UInt8} {t : Bytes} (h : ¬ (32 ≤ b ∧ b ≠ q ∧ b ≠ 92)) (j : Nat → Bytes) :
    eat rt G 1 (.holey 32 maxRune [q, 92]) ⟨b :: t, j⟩ = .ret (false, ⟨b :: t, j⟩) := by
  have hqb : q.toNat < 128 := by rcases hq with rfl | rfl <;> decide
  have hb : b.toNat < 128 := by
    by_contra hc
    refine h ⟨UInt8.le_iff_toNat_le.mpr (by simp; omega), ?_, ?_⟩
    · rintro rfl; omega
    · rintro rfl; exact hc (by decide)
  have hP : (Scanner.inRange 32 (decodeRune (b :: t)).1 maxRune && !containsRune [q, 92] (decodeRune (b :: t)).1) = false := by
    rw [← Bool.not_eq_true, Bool.and_eq_true, inRange_iff, Bool.not_eq_true', ← Bool.not_eq_true, holes_iff hq, decodeRune_one hb]
    simp only
    rintro ⟨⟨e1, _⟩, e3⟩
    refine h ⟨UInt8.le_iff_toNat_le.mpr (by simp; omega), ?_, ?_⟩
    · rintro rfl; exact e3 (.inl rfl)
    · rintro rfl; exact e3 (.inr rfl)
  show lift (eatOne _) _ = _
  unfold lift eatOne
  simp only [hP, Bool.false_eq_true, if_false]

theorem item_esc (hq : q = 34 ∨ q = 39) {e : Bytes} (he : TokEscape e) (z : Bytes) (j : Nat → Bytes) :
    ∃ n, eat rt G n (item q) ⟨e ++ z, j⟩ = .ret (true, ⟨z, j⟩) := by
  obtain ⟨n, hn⟩ := esc_does rt G (e ++ z) j
  rw [escB_complete he] at hn
  obtain ⟨y, hy⟩ : ∃ y, e = 92 :: y := by cases he <;> exact ⟨_, rfl⟩
  refine ⟨n + 1 + 1, ?_⟩
  show (do let x ← eatAny (eat rt G (n + 1)) [.holey 32 maxRune [q, 92], escapeSequence] ⟨e ++ z, j⟩; Exec.ret (orBack (e ++ z) x)) = _
  have h1 : eat rt G 1 (.holey 32 maxRune [q, 92]) ⟨e ++ z, j⟩ = .ret (false, ⟨e ++ z, j⟩) := by
    rw [hy]; exact holey_no hq (fun h => h.2.2 rfl) j
  rw [eatAny, eat_mono (Nat.le_add_left 1 n) h1]
  simp only [Exec.bind_ret, Bool.false_eq_true, if_false]
  rw [eatAny, eat_mono (Nat.le_succ n) hn]
  rfl

theorem item_no (hq : q = 34 ∨ q = 39) {t : Bytes} (ht : t ≠ []) (h : NoItem q t) (j : Nat → Bytes) :
    ∃ n, eat rt G n (item q) ⟨t, j⟩ = .ret (false, ⟨t, j⟩) := by
  obtain ⟨n, hn⟩ := esc_does rt G t j
  have h0 : escB t = none := by
    cases h2 : escB t with
    | none => rfl
    | some z =>
      obtain ⟨e, h3, h4⟩ := escB_sound h2
      exact absurd h4 (h.2 e z h3)
  rw [h0] at hn
  refine ⟨n + 1 + 1, ?_⟩
  show (do let x ← eatAny (eat rt G (n + 1)) [.holey 32 maxRune [q, 92], escapeSequence] ⟨t, j⟩; Exec.ret (orBack t x)) = _
  have h1 : eat rt G 1 (.holey 32 maxRune [q, 92]) ⟨t, j⟩ = .ret (false, ⟨t, j⟩) := by
    cases t with
    | nil => exact absurd rfl ht
    | cons b u => exact holey_no hq (fun hh => h.1 b u rfl hh.1 hh.2.1 hh.2.2) j
  rw [eatAny, eat_mono (Nat.le_add_left 1 n) h1]
  simp only [Exec.bind_ret, Bool.false_eq_true, if_false]
  rw [eatAny, eat_mono (Nat.le_succ n) hn]
  rfl

/-- At the end of the text a character is always read, without going on. -/
theorem item_end (hq : q = 34 ∨ q = 39) (j : Nat → Bytes) : eat rt G 2 (item q) ⟨[], j⟩ = .ret (true, ⟨[], j⟩) := by
  rcases hq with rfl | rfl <;> rfl

/-- Where the characters end. -/
theorem chars_split (hq : q = 34 ∨ q = 39) (t : Bytes) (j : Nat → Bytes) :
    (∃ y u, t = y ++ u ∧ TokChars q y ∧ u ≠ [] ∧ NoItem q u ∧ ∃ n, ∀ k l, n ≤ k → n ≤ l → eatZom (eat rt G k (item q)) l ⟨t, j⟩ = .ret ⟨u, j⟩) ∨
    TokChars q t ∧ ∀ k l, eatZom (eat rt G k (item q)) l ⟨t, j⟩ = .timeout := by
  have step : ∀ (t y v : Bytes) (m : Nat), t = y ++ v → y ≠ [] → (∀ w, TokChars q w → w <+: v → TokChars q (y ++ w)) →
      eat rt G m (item q) ⟨t, j⟩ = .ret (true, ⟨v, j⟩) →
      ((∃ y u, v = y ++ u ∧ TokChars q y ∧ u ≠ [] ∧ NoItem q u ∧ ∃ n, ∀ k l, n ≤ k → n ≤ l → eatZom (eat rt G k (item q)) l ⟨v, j⟩ = .ret ⟨u, j⟩) ∨
        TokChars q v ∧ ∀ k l, eatZom (eat rt G k (item q)) l ⟨v, j⟩ = .timeout) →
      (∃ y u, t = y ++ u ∧ TokChars q y ∧ u ≠ [] ∧ NoItem q u ∧ ∃ n, ∀ k l, n ≤ k → n ≤ l → eatZom (eat rt G k (item q)) l ⟨t, j⟩ = .ret ⟨u, j⟩) ∨
        TokChars q t ∧ ∀ k l, eatZom (eat rt G k (item q)) l ⟨t, j⟩ = .timeout := by
    intro t y v m e1 e2 e3 e4 ih
    subst e1
    rcases ih with ⟨y', u, rfl, h2, h3, h4, n, hn⟩ | ⟨h1, h2⟩
    · refine .inl ⟨y ++ y', u, by simp, e3 y' h2 (List.prefix_append _ _), h3, h4, max m n + 1, fun k l hk hl => ?_⟩
      obtain ⟨l, rfl⟩ : ∃ l', l = l' + 1 := ⟨l - 1, by omega⟩
      rw [eatZom, eat_mono (by omega) e4]
      simp only [Exec.bind_ret, if_true]
      exact hn k l (by omega) (by omega)
    · refine .inr ⟨e3 v h1 (List.prefix_refl _), fun k l => ?_⟩
      cases l with
      | zero => rfl
      | succ l =>
        rw [eatZom]
        rcases eat_or e4 k with h | h
        · rw [h]; rfl
        · rw [h]
          simp only [Exec.bind_ret, if_true]
          exact h2 k l
  induction hl : t.length using Nat.strong_induction_on generalizing t with
  | _ n ih =>
    subst hl
    by_cases ht : t = []
    · subst ht
      refine .inr ⟨.nil, fun k l => ?_⟩
      induction l with
      | zero => rfl
      | succ l ih =>
        rw [eatZom]
        rcases eat_or (item_end (rt := rt) (G := G) hq j) k with h | h
        · rw [h]; rfl
        · rw [h]
          simp only [Exec.bind_ret, if_true]
          exact ih
    by_cases he : ∃ e z, t = e ++ z ∧ TokEscape e
    · obtain ⟨e, z, rfl, he⟩ := he
      obtain ⟨m, hm⟩ := item_esc (rt := rt) (G := G) hq he z j
      have hne : e ≠ [] := by cases he <;> simp
      have := List.length_pos_iff.mpr hne
      exact step _ e z m rfl hne (fun w hw _ => .esc he hw) hm (ih z.length (by simp; omega) z rfl)
    by_cases hp : ∃ b u, t = b :: u ∧ 32 ≤ b ∧ b ≠ q ∧ b ≠ 92
    · obtain ⟨b, u, rfl, h1, h2, h3⟩ := hp
      obtain ⟨y, v, e1, e2, e3, e4, e5⟩ := item_plain (rt := rt) (G := G) (t := u) hq h1 h2 h3 j
      have := List.length_pos_iff.mpr e2
      have hle : v.length < (b :: u).length := by rw [e1, List.length_append]; omega
      exact step _ y v 2 e1 e2 (fun w hw _ => e4 w hw) e5 (ih v.length hle v rfl)
    · refine .inl ⟨[], t, rfl, .nil, ht, ⟨fun b u e h1 h2 h3 => hp ⟨b, u, e, h1, h2, h3⟩, fun e z h h' => he ⟨e, z, h, h'⟩⟩, ?_⟩
      obtain ⟨m, hm⟩ := item_no (rt := rt) (G := G) hq ht ⟨fun b u e h1 h2 h3 => hp ⟨b, u, e, h1, h2, h3⟩, fun e z h h' => he ⟨e, z, h, h'⟩⟩ j
      refine ⟨m + 1, fun k l hk hl => ?_⟩
      obtain ⟨l, rfl⟩ : ∃ l', l = l' + 1 := ⟨l - 1, by omega⟩
      rw [eatZom, eat_mono (by omega) hm]
      rfl

/-! ### the whole string -/

theorem esc_split {e e' z z' : Bytes} (h : TokEscape e) (h' : TokEscape e') (heq : e ++ z = e' ++ z') : e = e' ∧ z = z' := by
  have h1 := escB_complete h z
  rw [heq, escB_complete h' z'] at h1
  injection h1 with h1
  subst h1
  exact ⟨List.append_cancel_right heq, rfl⟩

theorem esc_shape {e : Bytes} (h : TokEscape e) : ∃ c y, e = 92 :: c :: y ∧ 32 ≤ c := by
  cases h with
  | simple h =>
    refine ⟨_, _, rfl, ?_⟩
    simp only [List.mem_cons, List.not_mem_nil, or_false] at h
    rcases h with rfl | rfl | rfl | rfl | rfl | rfl | rfl | rfl | rfl | rfl | rfl <;> decide
  | digit h => exact ⟨_, _, rfl, UInt8.le_trans (by decide) h.1⟩
  | hex => exact ⟨_, _, rfl, by decide⟩
  | utf => exact ⟨_, _, rfl, by decide⟩

/-- The characters are told from what is behind them. -/
theorem chars_unique {y y' u u' : Bytes} (h : TokChars q y) (h' : TokChars q y') (hu : NoItem q u) (hu' : NoItem q u')
    (he : y ++ u = y' ++ u') : y = y' ∧ u = u' := by
  induction h generalizing y' with
  | nil =>
    cases h' with
    | nil => exact ⟨rfl, he⟩
    | plain h1 h2 h3 _ => exact (hu.1 _ _ he h1 h2 h3).elim
    | esc h1 _ => exact (hu.2 _ _ (by simpa using he) h1).elim
  | plain h1 h2 h3 _ ih =>
    cases h' with
    | nil => exact (hu'.1 _ _ he.symm h1 h2 h3).elim
    | plain _ _ _ h4 =>
      simp only [List.cons_append, List.cons.injEq] at he
      obtain ⟨rfl, he⟩ := he
      obtain ⟨rfl, rfl⟩ := ih h4 he
      exact ⟨rfl, rfl⟩
    | esc h4 _ =>
      obtain ⟨c, y, rfl, _⟩ := esc_shape h4
      simp only [List.cons_append, List.cons.injEq] at he
      exact absurd he.1 h3
  | esc h1 _ ih =>
    cases h' with
    | nil => exact (hu'.2 _ _ (by simpa using he.symm) h1).elim
    | plain _ _ h3 _ =>
      obtain ⟨c, y, rfl, _⟩ := esc_shape h1
      simp only [List.cons_append, List.cons.injEq] at he
      exact absurd he.1.symm h3
    | esc h4 h5 =>
      simp only [List.append_assoc] at he
      obtain ⟨rfl, he'⟩ := esc_split h1 h4 he
      obtain ⟨rfl, rfl⟩ := ih h5 he'
      exact ⟨rfl, rfl⟩

theorem noItem_nil : NoItem q [] := ⟨fun _ _ h => (by cases h), fun e z h he => by
  obtain ⟨c, y, rfl, _⟩ := esc_shape he
  cases h⟩

theorem noItem_cons {b : UInt8} {u : Bytes} (h : ¬ (32 ≤ b ∧ b ≠ q ∧ b ≠ 92)) (hb : b ≠ 92) : NoItem q (b :: u) := by
  refine ⟨fun c v e h1 h2 h3 => ?_, fun e z h he => ?_⟩
  · injection e with e
    subst e
    exact h ⟨h1, h2, h3⟩
  · obtain ⟨c, y, rfl, _⟩ := esc_shape he
    injection h with h
    exact hb h

theorem noItem_quote (hq : q = 34 ∨ q = 39) (u : Bytes) : NoItem q (q :: u) :=
  noItem_cons (fun h => h.2.1 rfl) (by rcases hq with rfl | rfl <;> decide)

def shortReader (q : UInt8) : Reader := .seq [.rune q.toNat, .zom (item q), .rune q.toNat]

theorem rune_yes {b : UInt8} (hb : b.toNat < 128) (u : Bytes) (j : Nat → Bytes) : eat rt G 1 (.rune b.toNat) ⟨b :: u, j⟩ = .ret (true, ⟨u, j⟩) := by
  show lift (eatOne _) _ = _
  unfold lift eatOne
  rw [decodeRune_one hb]
  simp

theorem rune_no {b c : UInt8} (hb : b.toNat < 128) (hc : c ≠ b) (u : Bytes) (j : Nat → Bytes) :
    eat rt G 1 (.rune b.toNat) ⟨c :: u, j⟩ = .ret (false, ⟨c :: u, j⟩) := by
  show lift (eatOne _) _ = _
  unfold lift eatOne
  by_cases h : c.toNat < 128
  · rw [decodeRune_one h]
    have : c.toNat ≠ b.toNat := fun e => hc (UInt8.toNat_inj.mp e)
    have : ((c.toNat : Int) == b.toNat) = false := by simp; omega
    simp [this]
  · have h6 := decode_high (b := c) (by omega) u
    have : ((decodeRune (c :: u)).1 == (b.toNat : Int)) = false := by simp; omega
    simp only [this, Bool.false_eq_true, if_false]

/-- The three outcomes for a text behind a quote. -/
theorem short_cases (hq : q = 34 ∨ q = 39) (t : Bytes) (j : Nat → Bytes) :
    (∃ y v, t = y ++ q :: v ∧ TokChars q y ∧ ∃ n, eat rt G n (shortReader q) ⟨q :: t, j⟩ = .ret (true, ⟨v, j⟩)) ∨
    (∃ y c v, t = y ++ c :: v ∧ TokChars q y ∧ NoItem q (c :: v) ∧ c ≠ q ∧ ∃ n, eat rt G n (shortReader q) ⟨q :: t, j⟩ = .ret (false, ⟨q :: t, j⟩)) ∨
    TokChars q t ∧ NoEnd rt G (shortReader q) ⟨q :: t, j⟩ := by
  have hq' : q.toNat < 128 := by rcases hq with rfl | rfl <;> decide
  rcases chars_split (rt := rt) (G := G) hq t j with ⟨y, u, h1, h2, h3, h4, n, hn⟩ | ⟨h1, h2⟩
  · have hz : eat rt G (n + 1) (.zom (item q)) ⟨t, j⟩ = .ret (true, ⟨u, j⟩) := by
      show (do let x ← eatZom (eat rt G n (item q)) n ⟨t, j⟩; Exec.ret (true, x)) = _
      rw [hn n n (Nat.le_refl _) (Nat.le_refl _)]
      rfl
    have step : ∀ z, eat rt G 1 (.rune q.toNat) ⟨u, j⟩ = .ret z → eat rt G (n + 2) (shortReader q) ⟨q :: t, j⟩ = .ret (orBack (q :: t) z) := by
      rintro ⟨ok, z⟩ hz'
      show (do let x ← eatSeq (eat rt G (n + 1)) [.rune q.toNat, .zom (item q), .rune q.toNat] ⟨q :: t, j⟩; Exec.ret (orBack (q :: t) x)) = _
      rw [eatSeq, eat_mono (Nat.le_add_left 1 n) (rune_yes hq' t j)]
      simp only [Exec.bind_ret, if_true]
      rw [eatSeq, hz]
      simp only [Exec.bind_ret, if_true]
      rw [eatSeq, eat_mono (Nat.le_add_left 1 n) hz']
      cases ok <;> rfl
    cases u with
    | nil => exact absurd rfl h3
    | cons c v =>
      by_cases hc : c = q
      · subst hc
        exact .inl ⟨y, v, h1, h2, n + 2, step _ (rune_yes hq' v j)⟩
      · exact .inr (.inl ⟨y, c, v, h1, h2, h4, hc, n + 2, step _ (rune_no hq' hc v j)⟩)
  · refine .inr (.inr ⟨h1, stuck_seq (eatSeq_past (rune_yes hq' t j) (eatSeq_stuck fun n => ?_))⟩)
    cases n with
    | zero => rfl
    | succ n =>
      show (do let x ← eatZom (eat rt G n (item q)) n ⟨t, j⟩; Exec.ret (true, x)) = _
      rw [h2]
      rfl

/-- The same for the rule. -/
theorem literal_cases (rt : Rt) (hq : q = 34 ∨ q = 39) (t : Bytes) (j : Nat → Bytes) :
    (∃ y v, t = y ++ q :: v ∧ TokChars q y ∧ ∃ n, eat rt env n (.rule iLiteralString) ⟨q :: t, j⟩ = .ret (true, ⟨v, j⟩)) ∨
    (∃ y c v, t = y ++ c :: v ∧ TokChars q y ∧ NoItem q (c :: v) ∧ c ≠ q ∧ ∃ n, eat rt env n (.rule iLiteralString) ⟨q :: t, j⟩ = .ret (false, ⟨q :: t, j⟩)) ∨
    TokChars q t ∧ NoEnd rt env (.rule iLiteralString) ⟨q :: t, j⟩ := by
  have pass : ∀ m st z, eatAny (eat rt env m) [normalString, charString, long 0 (ru '[')] st = .ret z →
      eat rt env (m + 2) (.rule iLiteralString) st = .ret (orBack st.rest z) := by
    intro m st z h
    show (do let x ← eatAny (eat rt env m) [normalString, charString, long 0 (ru '[')] st; Exec.ret (orBack st.rest x)) = _
    rw [h]; rfl
  rcases hq with rfl | rfl
  · have e2 : eat rt env 9 charString ⟨34 :: t, j⟩ = .ret (false, ⟨34 :: t, j⟩) := rfl
    have e3 : eat rt env 9 (long 0 (ru '[')) ⟨34 :: t, j⟩ = .ret (false, ⟨34 :: t, j⟩) := rfl
    rcases short_cases (rt := rt) (G := env) (.inl rfl) t j with ⟨y, v, h1, h2, n, hn⟩ | ⟨y, c, v, h1, h2, h3, h4, n, hn⟩ | ⟨h1, h2⟩
    · refine .inl ⟨y, v, h1, h2, n + 2, pass n _ (true, ⟨v, j⟩) ?_⟩
      rw [eatAny, show normalString = shortReader 34 from rfl, hn]
      rfl
    · refine .inr (.inl ⟨y, c, v, h1, h2, h3, h4, n + 9 + 2, pass _ _ (false, ⟨34 :: t, j⟩) ?_⟩)
      rw [eatAny, show normalString = shortReader 34 from rfl, eat_mono (Nat.le_add_right n 9) hn]
      simp only [Exec.bind_ret, Bool.false_eq_true, if_false]
      rw [eatAny, eat_mono (Nat.le_add_left 9 n) e2]
      simp only [Exec.bind_ret, Bool.false_eq_true, if_false]
      rw [eatAny, eat_mono (Nat.le_add_left 9 n) e3]
      rfl
    · exact .inr (.inr ⟨h1, .rule rfl (stuck_any (eatAny_stuck h2))⟩)
  · have e1 : eat rt env 9 normalString ⟨39 :: t, j⟩ = .ret (false, ⟨39 :: t, j⟩) := rfl
    have e3 : eat rt env 9 (long 0 (ru '[')) ⟨39 :: t, j⟩ = .ret (false, ⟨39 :: t, j⟩) := rfl
    rcases short_cases (rt := rt) (G := env) (.inr rfl) t j with ⟨y, v, h1, h2, n, hn⟩ | ⟨y, c, v, h1, h2, h3, h4, n, hn⟩ | ⟨h1, h2⟩
    · refine .inl ⟨y, v, h1, h2, n + 9 + 2, pass _ _ (true, ⟨v, j⟩) ?_⟩
      rw [eatAny, eat_mono (Nat.le_add_left 9 n) e1]
      simp only [Exec.bind_ret, Bool.false_eq_true, if_false]
      rw [eatAny, show charString = shortReader 39 from rfl, eat_mono (Nat.le_add_right n 9) hn]
      rfl
    · refine .inr (.inl ⟨y, c, v, h1, h2, h3, h4, n + 9 + 2, pass _ _ (false, ⟨39 :: t, j⟩) ?_⟩)
      rw [eatAny, eat_mono (Nat.le_add_left 9 n) e1]
      simp only [Exec.bind_ret, Bool.false_eq_true, if_false]
      rw [eatAny, show charString = shortReader 39 from rfl, eat_mono (Nat.le_add_right n 9) hn]
      simp only [Exec.bind_ret, Bool.false_eq_true, if_false]
      rw [eatAny, eat_mono (Nat.le_add_left 9 n) e3]
      rfl
    · exact .inr (.inr ⟨h1, .rule rfl (stuck_any (eatAny_past e1 (eatAny_stuck h2)))⟩)

end Lua

theorem read_stuck {rt : Rt} {G : Env} {r : Reader} (hG : G.Every (fun r => r.noWrap = true)) (hr : r.Every (fun r => r.noWrap = true))
    {s : Scanner} {h t : Bytes} (hb : Between s h t) (hn : NoEnd rt G r ⟨t, s.heap.janus⟩) (n : Nat) : read rt G n r s = .timeout :=
  (read_eat rt G hG n r hr s.full s _ (sees_between hb)).timeout_iff.mpr (hn n)

theorem Lua.short_outcome (rt : Rt) {s : Scanner} {h t : Bytes} {q : UInt8} (hq : q = 34 ∨ q = 39) (hb : Between s h (q :: t)) :
    (∃ y v, t = y ++ q :: v ∧ TokChars q y ∧ ¬ TokChars q t ∧ ∃ n s', read rt Lua.env n (.rule Lua.iLiteralString) s = .ret (none, s') ∧
      Between s' (h ++ q :: (y ++ [q])) v) ∨
    ((¬ ∃ y v, t = y ++ q :: v ∧ TokChars q y) ∧ ¬ TokChars q t ∧ ∃ n e s', read rt Lua.env n (.rule Lua.iLiteralString) s = .ret (some e, s')) ∨
    (¬ ∃ y v, t = y ++ q :: v ∧ TokChars q y) ∧ TokChars q t ∧ ∀ n, read rt Lua.env n (.rule Lua.iLiteralString) s = .timeout := by
  rcases Lua.literal_cases rt hq t s.heap.janus with ⟨y, v, rfl, h2, n, hn⟩ | ⟨y, c, v, rfl, h2, h3, h4, n, hn⟩ | ⟨h1, h2⟩
  · have e : q :: (y ++ q :: v) = (q :: (y ++ [q])) ++ v := by simp
    rw [e] at hb hn
    obtain ⟨s', h5, h6⟩ := readsOver_of_eat Lua.noWraps (Lua.rule_noWrap _) hb hn
    refine .inl ⟨y, v, rfl, h2, fun h7 => ?_, n, s', h5 n (Nat.le_refl n), h6⟩
    have := (Lua.chars_unique h2 h7 (Lua.noItem_quote hq v) Lua.noItem_nil (by simp)).2
    cases this
  · obtain ⟨e, s', x, h5, h6, _⟩ := read_by_eat Lua.noWraps (Lua.rule_noWrap _) hb hn
    cases e with
    | none => cases h6
    | some e =>
      refine .inr (.inl ⟨?_, fun h7 => ?_, n, e, s', h5⟩)
      · rintro ⟨y', v', h7, h8⟩
        have := (Lua.chars_unique h2 h8 h3 (Lua.noItem_quote hq v') h7).2
        injection this with this
        exact h4 this
      · have := (Lua.chars_unique h2 h7 h3 Lua.noItem_nil (by simp)).2
        cases this
  · refine .inr (.inr ⟨?_, h1, read_stuck Lua.noWraps (Lua.rule_noWrap _) hb h2⟩)
    rintro ⟨y, v, rfl, h8⟩
    have := (Lua.chars_unique h8 h1 (Lua.noItem_quote hq v) Lua.noItem_nil (by simp)).2
    cases this

/-- At a quote the reader goes over exactly the quote, the characters of the grammar and the same quote. -/
theorem C64_reads (rt : Rt) (s : Scanner) (h x u t : Bytes) (q : UInt8) (hq : q = 34 ∨ q = 39) (hb : Between s h (q :: t)) (ht : q :: t = x ++ u) :
    (∃ n s', read rt Lua.env n (.rule Lua.iLiteralString) s = .ret (none, s') ∧ Between s' (h ++ x) u) ↔ ∃ y, x = q :: (y ++ [q]) ∧ TokChars q y := by
  rcases Lua.short_outcome rt hq hb with ⟨y, v, rfl, h2, _, n, s', h3, h4⟩ | ⟨h1, _, n, e, s', h2⟩ | ⟨h1, _, h2⟩
  · constructor
    · rintro ⟨n', s2, h5, h6⟩
      obtain ⟨_, rfl⟩ : (none : Option Err) = none ∧ s2 = s' := by simpa using read_det h5 h3
      obtain ⟨e1, rfl⟩ := between_inj h4 h6
      exact ⟨y, (List.append_cancel_left e1).symm, h2⟩
    · rintro ⟨y', rfl, h5⟩
      have e : y ++ q :: v = y' ++ q :: u := by simpa using ht
      obtain ⟨rfl, e2⟩ := Lua.chars_unique h2 h5 (Lua.noItem_quote hq v) (Lua.noItem_quote hq u) e
      injection e2 with _ e2
      subst e2
      exact ⟨n, s', h3, h4⟩
  · constructor
    · rintro ⟨n', s2, h5, _⟩
      have := read_det h5 h2
      simp at this
    · rintro ⟨y, rfl, h5⟩
      exact absurd ⟨y, u, by simpa using ht, h5⟩ h1
  · constructor
    · rintro ⟨n', s2, h5, _⟩
      rw [h2] at h5
      cases h5
    · rintro ⟨y, rfl, h5⟩
      exact absurd ⟨y, u, by simpa using ht, h5⟩ h1

/-- It does not end exactly if the whole text behind the quote are such characters. -/
theorem C64_loops (rt : Rt) (s : Scanner) (h t : Bytes) (q : UInt8) (hq : q = 34 ∨ q = 39) (hb : Between s h (q :: t)) :
    (∀ n, read rt Lua.env n (.rule Lua.iLiteralString) s = .timeout) ↔ TokChars q t := by
  rcases Lua.short_outcome rt hq hb with ⟨y, v, _, _, h1, n, s', h3, _⟩ | ⟨_, h1, n, e, s', h2⟩ | ⟨_, h1, h2⟩
  · refine ⟨fun h5 => ?_, fun h5 => absurd h5 h1⟩
    rw [h5] at h3
    cases h3
  · refine ⟨fun h5 => ?_, fun h5 => absurd h5 h1⟩
    rw [h5] at h2
    cases h2
  · exact ⟨fun _ => h1, fun _ => h2⟩

/-- In all other cases it reports an error. -/
theorem C64_fails (rt : Rt) (s : Scanner) (h t : Bytes) (q : UInt8) (hq : q = 34 ∨ q = 39) (hb : Between s h (q :: t)) :
    (∃ n e s', read rt Lua.env n (.rule Lua.iLiteralString) s = .ret (some e, s')) ↔ ¬ TokChars q t ∧ ¬ ∃ y v, t = y ++ q :: v ∧ TokChars q y := by
  rcases Lua.short_outcome rt hq hb with ⟨y, v, h1, h2, _, n, s', h3, _⟩ | ⟨h1, h2, n, e, s', h3⟩ | ⟨_, h1, h2⟩
  · refine ⟨fun ⟨n', e, s2, h5⟩ => ?_, fun h5 => absurd ⟨y, v, h1, h2⟩ h5.2⟩
    have := read_det h5 h3
    simp at this
  · exact ⟨fun _ => ⟨h2, h1⟩, fun _ => ⟨n, e, s', h3⟩⟩
  · refine ⟨fun ⟨n', e, s2, h5⟩ => ?_, fun h5 => absurd h1 h5.1⟩
    rw [h2] at h5
    cases h5

namespace Lua

theorem plain_append {q : UInt8} {w x : Bytes} (h : ∀ b ∈ w, 32 ≤ b ∧ b ≠ q ∧ b ≠ 92) (hx : TokChars q x) : TokChars q (w ++ x) := by
  induction w with
  | nil => exact hx
  | cons b w ih =>
    have := h b List.mem_cons_self
    exact .plain this.1 this.2.1 this.2.2 (ih fun c hc => h c (List.mem_cons_of_mem _ hc))

theorem dec_plain {q : UInt8} (hq : q = 34 ∨ q = 39) {d : UInt8} (h : DecDigit d) : 32 ≤ d ∧ d ≠ q ∧ d ≠ 92 := by
  have h1 := UInt8.le_iff_toNat_le.mp h.1
  have h2 := UInt8.le_iff_toNat_le.mp h.2
  simp at h1 h2
  refine ⟨UInt8.le_iff_toNat_le.mpr (by simp; omega), ?_, ?_⟩
  · rcases hq with rfl | rfl <;> rintro rfl <;> simp at h1
  · rintro rfl; simp at h2

/-- The grammar has all the characters of Lua without control characters. -/
theorem chars_tok {q : UInt8} (hq : q = 34 ∨ q = 39) {y : Bytes} (h : LuaChars q y) (hc : ∀ b ∈ y, 32 ≤ b) : TokChars q y := by
  induction h with
  | nil => exact .nil
  | plain h1 h2 _ _ _ ih => exact .plain (hc _ List.mem_cons_self) h1 h2 (ih fun b hb => hc b (List.mem_cons_of_mem _ hb))
  | @simple c x h1 _ ih =>
    refine .esc (e := [92, c]) (.simple ?_) (ih fun b hb => hc b (by simp [hb]))
    revert h1
    simp only [List.mem_cons, List.not_mem_nil, or_false]
    tauto
  | @newline n x h1 _ _ =>
    have : ∀ b ∈ n, 32 ≤ b := fun b hb => hc b (by simp [hb])
    simp only [List.mem_cons, List.not_mem_nil, or_false] at h1
    rcases h1 with rfl | rfl | rfl | rfl <;> exact absurd (this _ List.mem_cons_self) (by decide)
  | @skip w x h1 _ ih =>
    refine .esc (e := [92, 122]) (.simple (by decide)) (plain_append (fun b hb => ?_) (ih fun b hb => hc b (by simp [hb])))
    have h2 := hc b (by simp [hb])
    rcases h1 b hb with rfl | ⟨_, h3⟩
    · rcases hq with rfl | rfl <;> decide
    · exact absurd (UInt8.le_trans h2 h3) (by decide)
  | @hex a b x h1 h2 _ ih => exact .esc (e := [92, 120, a, b]) (.hex h1 h2) (ih fun b hb => hc b (by simp [hb]))
  | @dec ds x h1 _ _ _ _ ih =>
    obtain ⟨h1, h2⟩ := h1
    cases ds with
    | nil => exact absurd rfl h1
    | cons d ds =>
      refine .esc (e := [92, d]) (.digit (h2 d List.mem_cons_self)) (plain_append (fun b hb => dec_plain hq (h2 b (List.mem_cons_of_mem _ hb))) (ih fun b hb => hc b (by simp [hb])))
  | @utf ds x h1 _ _ ih =>
    have := TokChars.esc (q := q) (.utf h1) (ih fun b hb => hc b (by simp [hb]))
    simpa using this

end Lua

/-- Every short literal string of Lua without control characters is read over.  The full claim is without this condition; it is false, see `C64_control_violated`. -/
theorem C64_string_partial (rt : Rt) (s : Scanner) (h x u : Bytes) (hb : Between s h (x ++ u)) (hx : LuaShort x) (hc : ∀ b ∈ x, 32 ≤ b) :
    ∃ n s', read rt Lua.env n (.rule Lua.iLiteralString) s = .ret (none, s') ∧ Between s' (h ++ x) u := by
  obtain ⟨q, y, hq, rfl, hy⟩ := hx
  exact (C64_reads rt s h _ u _ q hq hb rfl).mpr ⟨y, rfl, Lua.chars_tok hq hy fun b hb => hc b (by simp [hb])⟩

example (rt : Rt) : ∃ n s', read rt Lua.env n (.rule Lua.iLiteralString) (.new b!"'a\"\\065\\'\\z  b' .. x" Heap.empty) = .ret (none, s') ∧
    Between s' b!"'a\"\\065\\'\\z  b'" b!" .. x" :=
  C64_string_partial rt _ [] b!"'a\"\\065\\'\\z  b'" b!" .. x" ⟨rfl, rfl⟩
    ⟨39, b!"a\"\\065\\'\\z  b", .inr rfl, rfl, .plain (by decide) (by decide) (by decide) (by decide) (.plain (by decide) (by decide) (by decide) (by decide)
      (.dec (ds := b!"065") ⟨by decide, by unfold DecDigit; decide⟩ (by decide) (by decide) (.inl rfl)
        (.simple (c := 39) (by decide) (.skip (w := b!"  ") (by decide) (.plain (by decide) (by decide) (by decide) (by decide) .nil)))))⟩ (by decide)

example (rt : Rt) (n : Nat) : read rt Lua.env n (.rule Lua.iLiteralString) (.new b!"\"a\\\"" Heap.empty) = .timeout :=
  (C64_loops rt _ [] b!"a\\\"" 34 (.inl rfl) ⟨rfl, rfl⟩).mpr (.plain (by decide) (by decide) (by decide) (.esc (e := [92, 34]) (.simple (by decide)) .nil)) n

/-! ### the claim is false -/

namespace Lua

/-- What stands before a place the grammar has no character for. -/
def Breaks (q : UInt8) (y : Bytes) : Prop := ∀ z, ∃ a c v, y ++ z = a ++ c :: v ∧ TokChars q a ∧ NoItem q (c :: v) ∧ c ≠ q

theorem Breaks.front {q : UInt8} {w y : Bytes} (hw : ∀ x, TokChars q x → TokChars q (w ++ x)) (h : TokChars q y ∨ Breaks q y) :
    TokChars q (w ++ y) ∨ Breaks q (w ++ y) := by
  rcases h with h | h
  · exact .inl (hw _ h)
  · refine .inr fun z => ?_
    obtain ⟨a, c, v, h1, h2, h3⟩ := h z
    exact ⟨w ++ a, c, v, by simp [h1], hw _ h2, h3⟩

theorem Breaks.low {q : UInt8} (hq : q = 34 ∨ q = 39) {b : UInt8} (hb : ¬ 32 ≤ b) (y : Bytes) : Breaks q (b :: y) := fun z =>
  ⟨[], b, y ++ z, rfl, .nil, noItem_cons (fun h => hb h.1) (fun e => hb (e ▸ by decide)), fun e => hb (by rcases hq with rfl | rfl <;> rw [e] <;> decide)⟩

/-- The characters of Lua are characters of the grammar, or the grammar has none for one of them. -/
theorem chars_or_breaks {q : UInt8} (hq : q = 34 ∨ q = 39) {y : Bytes} (h : LuaChars q y) : TokChars q y ∨ Breaks q y := by
  induction h with
  | nil => exact .inl .nil
  | @plain b x h1 h2 _ _ _ ih =>
    by_cases hb : 32 ≤ b
    · exact Breaks.front (w := [b]) (fun _ hx => .plain hb h1 h2 hx) ih
    · exact .inr (.low hq hb x)
  | @simple c x h1 _ ih =>
    refine Breaks.front (w := [92, c]) (fun _ hx => .esc (.simple ?_) hx) ih
    revert h1
    simp only [List.mem_cons, List.not_mem_nil, or_false]
    tauto
  | @newline n x h1 _ _ =>
    refine .inr fun z => ⟨[], 92, n ++ x ++ z, by simp, .nil, ⟨fun b u e _ _ h3 => ?_, fun e z' h he => ?_⟩, by rcases hq with rfl | rfl <;> decide⟩
    · injection e with e
      exact h3 e.symm
    · obtain ⟨c, y, rfl, hc⟩ := esc_shape he
      simp only [List.mem_cons, List.not_mem_nil, or_false] at h1
      rcases h1 with rfl | rfl | rfl | rfl <;>
      · simp only [List.cons_append, List.nil_append, List.cons.injEq] at h
        rw [← h.2.1] at hc
        exact absurd hc (by decide)
  | @skip w x h1 _ ih =>
    refine Breaks.front (w := [92, 122]) (y := w ++ x) (fun _ hx => .esc (.simple (by decide)) hx) ?_
    induction w with
    | nil => exact ih
    | cons b w ih' =>
      rcases h1 b List.mem_cons_self with rfl | ⟨_, h3⟩
      · exact Breaks.front (w := [32]) (y := w ++ x) (fun _ hx => .plain (by decide) (by rcases hq with rfl | rfl <;> decide) (by decide) hx)
          (ih' fun c hc => h1 c (List.mem_cons_of_mem _ hc))
      · exact .inr (.low hq (fun h2 => absurd (UInt8.le_trans h2 h3) (by decide)) _)
  | @hex a b x h1 h2 _ ih => exact Breaks.front (w := [92, 120, a, b]) (fun _ hx => .esc (.hex h1 h2) hx) ih
  | @dec ds x h1 _ _ _ _ ih =>
    obtain ⟨h1, h2⟩ := h1
    cases ds with
    | nil => exact absurd rfl h1
    | cons d ds =>
      exact Breaks.front (w := 92 :: d :: ds) (fun _ hx => .esc (e := [92, d]) (.digit (h2 d List.mem_cons_self))
        (plain_append (fun b hb => dec_plain hq (h2 b (List.mem_cons_of_mem _ hb))) hx)) ih
  | @utf ds x h1 _ _ ih =>
    have := Breaks.front (q := q) (w := 92 :: 117 :: 123 :: (ds ++ [125])) (fun _ hx => .esc (.utf h1) hx) ih
    simpa using this

theorem esc_high {e : Bytes} (h : TokEscape e) : ∀ b ∈ e, 32 ≤ b := by
  have hex : ∀ b, HexDigit b → 32 ≤ b := fun b hb => by
    rcases hb with h | h | h <;> exact UInt8.le_trans (by decide) h.1
  cases h with
  | simple h =>
    obtain ⟨c, y, e, hc⟩ := esc_shape (.simple h)
    cases e
    simpa using hc
  | digit h =>
    obtain ⟨c, y, e, hc⟩ := esc_shape (.digit h)
    cases e
    simpa using hc
  | hex h1 h2 => simpa using ⟨hex _ h1, hex _ h2⟩
  | utf h =>
    intro b hb
    simp only [List.mem_cons, List.mem_append, List.not_mem_nil, or_false] at hb
    rcases hb with rfl | rfl | rfl | hb | rfl
    · decide
    · decide
    · decide
    · exact hex _ (h.2 b hb)
    · decide

theorem tok_high {q : UInt8} {y : Bytes} (h : TokChars q y) : ∀ b ∈ y, 32 ≤ b := by
  induction h with
  | nil => simp
  | plain h1 _ _ _ ih => simpa using ⟨h1, ih⟩
  | esc h1 _ ih =>
    intro b hb
    rcases List.mem_append.mp hb with hb | hb
    · exact esc_high h1 b hb
    · exact ih b hb

end Lua

/-- Every short literal string of Lua with a control character in it (a tab, or a line break behind a backslash) is rejected, whatever stands behind it. -/
theorem C64_control_violated (rt : Rt) (s : Scanner) (h x u : Bytes) (hb : Between s h (x ++ u)) (hx : LuaShort x) (b : UInt8) (hm : b ∈ x) (hc : b < 32) :
    ∃ n e s', read rt Lua.env n (.rule Lua.iLiteralString) s = .ret (some e, s') := by
  obtain ⟨q, y, hq, rfl, hy⟩ := hx
  have hby : b ∈ y := by
    simp only [List.mem_cons, List.mem_append, List.not_mem_nil, or_false] at hm
    have : b ≠ q := by rintro rfl; rcases hq with rfl | rfl <;> exact absurd hc (by decide)
    tauto
  rcases Lua.chars_or_breaks hq hy with h1 | h1
  · exact absurd (Lua.tok_high h1 b hby) (UInt8.not_le.mpr hc)
  · obtain ⟨a, c, v, h2, h3, h4, h5⟩ := h1 (q :: u)
    have e : y ++ [q] ++ u = a ++ c :: v := by simpa using h2
    refine (C64_fails rt s h (y ++ [q] ++ u) q hq (by simpa using hb)).mpr ?_
    rw [e]
    refine ⟨fun h6 => ?_, ?_⟩
    · have := (Lua.chars_unique h3 h6 h4 Lua.noItem_nil (by simp)).2
      cases this
    · rintro ⟨y', v', h6, h7⟩
      have := (Lua.chars_unique h3 h7 h4 (Lua.noItem_quote hq v') h6).2
      injection this with this
      exact h5 this

/-- For example a string that goes on in the next line. -/
example (rt : Rt) : ∃ n e s', read rt Lua.env n (.rule Lua.iLiteralString) (.new b!"\"a\\\nb\"" Heap.empty) = .ret (some e, s') :=
  C64_control_violated rt _ [] b!"\"a\\\nb\"" [] ⟨rfl, rfl⟩
    ⟨34, b!"a\\\nb", .inl rfl, rfl, .plain (by decide) (by decide) (by decide) (by decide)
      (.newline (n := [10]) (by decide) (.plain (by decide) (by decide) (by decide) (by decide) .nil))⟩ 10 (by decide) (by decide)

theorem LuaChars.digits {q : UInt8} {z : Bytes} (h : LuaChars q z) {a b c : UInt8} (hz : z = [92, a, b, c]) (ha : DecDigit a) (hb : DecDigit b) (hc : DecDigit c) :
    decimalValue [a, b, c] ≤ 255 := by
  have no : ∀ x, x < 48 ∨ 57 < x → a ≠ x := by
    rintro x hx rfl
    rcases hx with hx | hx
    · exact absurd ha.1 (UInt8.not_le.mpr hx)
    · exact absurd ha.2 (UInt8.not_le.mpr hx)
  cases h with
  | nil => cases hz
  | plain _ h2 => simp only [List.cons.injEq] at hz; exact absurd hz.1 h2
  | simple h1 =>
    simp only [List.cons.injEq] at hz
    rw [hz.2.1] at h1
    simp only [List.mem_cons, List.not_mem_nil, or_false] at h1
    rcases h1 with e | e | e | e | e | e | e | e | e | e <;> exact absurd e (no _ (by decide))
  | newline h1 =>
    simp only [List.mem_cons, List.not_mem_nil, or_false] at h1
    rcases h1 with rfl | rfl | rfl | rfl <;>
    · simp only [List.cons_append, List.cons.injEq] at hz
      exact absurd hz.2.1.symm (no _ (by decide))
  | skip => simp only [List.cons.injEq] at hz; exact absurd hz.2.1.symm (no _ (by decide))
  | hex => simp only [List.cons.injEq] at hz; exact absurd hz.2.1.symm (no _ (by decide))
  | utf => simp only [List.cons.injEq] at hz; exact absurd hz.2.1.symm (no _ (by decide))
  | @dec ds x h1 h2 h3 h4 =>
    simp only [List.cons.injEq, true_and] at hz
    rcases ds with _ | ⟨d1, _ | ⟨d2, _ | ⟨d3, _ | ⟨d4, ds⟩⟩⟩⟩
    · exact absurd rfl h1.1
    · simp only [List.cons_append, List.nil_append, List.cons.injEq] at hz
      rcases h4 with h4 | h4
      · cases h4
      · exact absurd hb (h4 _ _ hz.2)
    · simp only [List.cons_append, List.nil_append, List.cons.injEq] at hz
      rcases h4 with h4 | h4
      · cases h4
      · exact absurd hc (h4 _ _ hz.2.2)
    · simp only [List.cons_append, List.nil_append, List.cons.injEq] at hz
      obtain ⟨rfl, rfl, rfl, _⟩ := hz
      exact h3
    · simp at h2

theorem digits_cut {ds ds' x x' : Bytes} (h : ∀ b ∈ ds, HexDigit b) (h' : ∀ b ∈ ds', HexDigit b) (he : ds ++ 125 :: x = ds' ++ 125 :: x') : ds = ds' := by
  have no : ¬ HexDigit 125 := by unfold HexDigit; decide
  induction ds generalizing ds' with
  | nil =>
    cases ds' with
    | nil => rfl
    | cons d ds' =>
      injection he with he
      exact absurd (he ▸ h' d List.mem_cons_self) no
  | cons c ds ih =>
    cases ds' with
    | nil =>
      injection he with he
      exact absurd (he ▸ h c List.mem_cons_self) no
    | cons d ds' =>
      injection he with he1 he2
      rw [he1, ih (fun b hb => h b (List.mem_cons_of_mem _ hb)) (fun b hb => h' b (List.mem_cons_of_mem _ hb)) he2]

theorem LuaChars.hexadecimal {q : UInt8} {z ds : Bytes} (h : LuaChars q z) (hz : z = 92 :: 117 :: 123 :: (ds ++ [125])) (hd : ∀ b ∈ ds, HexDigit b) :
    hexadecimalValue ds < 2 ^ 31 := by
  cases h with
  | nil => cases hz
  | plain _ h2 => simp only [List.cons.injEq] at hz; exact absurd hz.1 h2
  | simple h1 =>
    simp only [List.cons.injEq] at hz
    rw [hz.2.1] at h1
    exact absurd h1 (by decide)
  | newline h1 =>
    simp only [List.mem_cons, List.not_mem_nil, or_false] at h1
    rcases h1 with rfl | rfl | rfl | rfl <;>
    · simp only [List.cons_append, List.cons.injEq] at hz
      exact absurd hz.2.1 (by decide)
  | skip => simp only [List.cons.injEq] at hz; exact absurd hz.2.1 (by decide)
  | hex => simp only [List.cons.injEq] at hz; exact absurd hz.2.1 (by decide)
  | @dec es x h1 =>
    cases es with
    | nil => exact absurd rfl h1.1
    | cons e es =>
      simp only [List.cons_append, List.cons.injEq] at hz
      have := h1.2 e List.mem_cons_self
      rw [hz.2.1] at this
      exact absurd this (by unfold DecDigit; decide)
  | @utf es x h1 h2 =>
    simp only [List.cons.injEq, true_and] at hz
    rwa [digits_cut h1.2 hd hz] at h2

/-- Decimal escapes above 255 are read, though they are not Lua. -/
theorem C64_decimal_violated (rt : Rt) (s : Scanner) (h u : Bytes) (a b c q : UInt8) (hq : q = 34 ∨ q = 39) (ha : DecDigit a) (hb : DecDigit b) (hc : DecDigit c)
    (hv : 255 < decimalValue [a, b, c]) (hs : Between s h (q :: 92 :: a :: b :: c :: q :: u)) :
    ¬ LuaShort [q, 92, a, b, c, q] ∧ ∃ n s', read rt Lua.env n (.rule Lua.iLiteralString) s = .ret (none, s') ∧ Between s' (h ++ [q, 92, a, b, c, q]) u := by
  constructor
  · rintro ⟨q', y, _, h1, h2⟩
    simp only [List.cons.injEq] at h1
    have : y = [92, a, b, c] := (List.append_inj' (s₁ := [92, a, b, c]) (t₁ := [q]) h1.2 rfl).1.symm
    have := LuaChars.digits h2 this ha hb hc
    omega
  · refine (C64_reads rt s h _ u _ q hq hs rfl).mpr ⟨[92, a, b, c], rfl, .esc (e := [92, a]) (.digit ha) (Lua.plain_append (w := [b, c]) ?_ .nil)⟩
    intro d hd
    simp only [List.mem_cons, List.not_mem_nil, or_false] at hd
    rcases hd with rfl | rfl
    · exact Lua.dec_plain hq hb
    · exact Lua.dec_plain hq hc

example (rt : Rt) : ∃ n s', read rt Lua.env n (.rule Lua.iLiteralString) (.new b!"\"\\400\"" Heap.empty) = .ret (none, s') ∧ Between s' b!"\"\\400\"" [] :=
  (C64_decimal_violated rt _ [] [] 52 48 48 34 (.inl rfl) (by unfold DecDigit; decide) (by unfold DecDigit; decide) (by unfold DecDigit; decide) (by decide) ⟨rfl, rfl⟩).2

/-- So are the escapes `\u{...}` of 2^31 and more. -/
theorem C64_utf_violated (rt : Rt) (s : Scanner) (h u ds : Bytes) (q : UInt8) (hq : q = 34 ∨ q = 39) (hd : Digits HexDigit ds) (hv : 2 ^ 31 ≤ hexadecimalValue ds)
    (hs : Between s h (q :: 92 :: 117 :: 123 :: (ds ++ 125 :: q :: u))) :
    ¬ LuaShort (q :: 92 :: 117 :: 123 :: (ds ++ [125, q])) ∧
      ∃ n s', read rt Lua.env n (.rule Lua.iLiteralString) s = .ret (none, s') ∧ Between s' (h ++ q :: 92 :: 117 :: 123 :: (ds ++ [125, q])) u := by
  constructor
  · rintro ⟨q', y, _, h1, h2⟩
    simp only [List.cons.injEq] at h1
    obtain ⟨rfl, h1⟩ := h1
    have : y = 92 :: 117 :: 123 :: (ds ++ [125]) :=
      (List.append_inj' (s₁ := 92 :: 117 :: 123 :: (ds ++ [125])) (t₁ := [q]) (by simpa using h1) rfl).1.symm
    have := LuaChars.hexadecimal h2 this hd.2
    omega
  · refine (C64_reads rt s h _ u _ q hq hs (by simp)).mpr ⟨92 :: 117 :: 123 :: (ds ++ [125]), by simp, ?_⟩
    have := TokChars.esc (q := q) (.utf hd) .nil
    simpa using this

example (rt : Rt) : ∃ n s', read rt Lua.env n (.rule Lua.iLiteralString) (.new b!"'\\u{80000000}'" Heap.empty) = .ret (none, s') ∧ Between s' b!"'\\u{80000000}'" [] :=
  (C64_utf_violated rt _ [] [] b!"80000000" 39 (.inr rfl) ⟨by decide, by unfold HexDigit; decide⟩ (by decide) ⟨rfl, rfl⟩).2

end Tok
