/-
C61 What tells which reader it is.
-/
import Verif.Proofs.Quote
import Verif.Proofs.Exec
import Verif.Props.C17
import Verif.Proofs.EatMono

namespace Tok
open Spec

/-! ### numbers and quoted runes -/

theorem natDigits_mem {n : Nat} {b : UInt8} (h : b ∈ natDigits n) : 48 ≤ b.toNat ∧ b.toNat ≤ 57 := by
  obtain ⟨c, hc, rfl⟩ := List.mem_map.mp h
  have := Nat.isDigit_of_mem_toDigits (by omega) (by omega) hc
  simp only [Char.isDigit, Bool.and_eq_true, decide_eq_true_eq] at this
  have h1 : 48 ≤ c.toNat := this.1
  have h2 : c.toNat ≤ 57 := this.2
  rw [UInt8.toNat_ofNat']
  omega

theorem natDigits_ne (n : Nat) : natDigits n ≠ [] := by
  unfold natDigits
  simp [Nat.toDigits_ne_nil]

theorem natDigits_back (n : Nat) : (natDigits n).map (fun b => Char.ofNat b.toNat) = Nat.toDigits 10 n := by
  unfold natDigits
  rw [List.map_map, List.map_congr_left (g := id), List.map_id]
  intro c hc
  have := Nat.isDigit_of_mem_toDigits (by omega) (by omega) hc
  simp only [Char.isDigit, Bool.and_eq_true, decide_eq_true_eq] at this
  have h1 : 48 ≤ c.toNat := this.1
  have h2 : c.toNat ≤ 57 := this.2
  simp only [Function.comp, id]
  rw [UInt8.toNat_ofNat', Nat.mod_eq_of_lt (by omega), Char.ofNat_toNat]

theorem natDigits_inj {n m : Nat} (h : natDigits n = natDigits m) : n = m := by
  rw [← Nat.ofDigitChars_ten_toDigits (n := n), ← natDigits_back, h, natDigits_back, Nat.ofDigitChars_ten_toDigits]

theorem star_split {a b : Bytes} (ha : (42 : UInt8) ∉ a) (hb : (42 : UInt8) ∉ b) {u v : Bytes} (h : a ++ 42 :: u = b ++ 42 :: v) : a = b ∧ u = v := by
  induction a generalizing b with
  | nil =>
    cases b with
    | nil => simpa using h
    | cons y b =>
      simp only [List.nil_append, List.cons_append, List.cons.injEq] at h
      exact absurd (List.mem_cons.mpr (.inl h.1)) hb
  | cons x a ih =>
    cases b with
    | nil =>
      simp only [List.nil_append, List.cons_append, List.cons.injEq] at h
      exact absurd (List.mem_cons.mpr (.inl h.1.symm)) ha
    | cons y b =>
      simp only [List.cons_append, List.cons.injEq] at h
      obtain ⟨h1, h2⟩ := ih (fun hm => ha (List.mem_cons_of_mem _ hm)) (fun hm => hb (List.mem_cons_of_mem _ hm)) h.2
      exact ⟨by rw [h.1, h1], h2⟩

/-- The text of a number starts with a digit, or with a minus sign and a digit. -/
theorem itoa_head (n : Int) : (∃ d u, itoa n = d :: u ∧ 48 ≤ d.toNat ∧ d.toNat ≤ 57) ∨
    ∃ d u, itoa n = 45 :: d :: u ∧ 48 ≤ d.toNat ∧ d.toNat ≤ 57 := by
  cases n with
  | ofNat n =>
    obtain ⟨d, u, h⟩ := List.exists_cons_of_ne_nil (natDigits_ne n)
    exact .inl ⟨d, u, h, natDigits_mem (h ▸ List.mem_cons_self)⟩
  | negSucc n =>
    obtain ⟨d, u, h⟩ := List.exists_cons_of_ne_nil (natDigits_ne (n + 1))
    refine .inr ⟨d, u, ?_, natDigits_mem (h ▸ List.mem_cons_self)⟩
    show [45] ++ natDigits (n + 1) = _
    rw [h]
    rfl

theorem itoa_star (n : Int) : (42 : UInt8) ∉ itoa n := by
  cases n with
  | ofNat n => exact fun h => absurd (natDigits_mem h) (by decide)
  | negSucc n =>
    show (42 : UInt8) ∉ ([45] ++ natDigits (n + 1) : Bytes)
    rw [List.mem_append, not_or]
    exact ⟨by decide, fun h => absurd (natDigits_mem h) (by decide)⟩

theorem itoa_inj {n m : Int} (h : itoa n = itoa m) : n = m := by
  have neg : ∀ a b : Nat, natDigits a ≠ [45] ++ natDigits b := fun a b h =>
    absurd (natDigits_mem (n := a) (b := 45) (h ▸ List.mem_cons_self)) (by decide)
  cases n with
  | ofNat n =>
    cases m with
    | ofNat m => rw [natDigits_inj (show natDigits n = natDigits m from h)]
    | negSucc m => exact absurd h (neg n (m + 1))
  | negSucc n =>
    cases m with
    | ofNat m => exact absurd h.symm (neg m (n + 1))
    | negSucc m =>
      have : natDigits (n + 1) = natDigits (m + 1) := List.append_cancel_left (as := [45]) h
      have := natDigits_inj this
      congr 1
      omega

theorem itoa_star_inj {n m : Int} {u v : Bytes} (h : itoa n ++ 42 :: u = itoa m ++ 42 :: v) : n = m ∧ u = v := by
  obtain ⟨h1, h2⟩ := star_split (itoa_star n) (itoa_star m) h
  exact ⟨itoa_inj h1, h2⟩

theorem hexPad_mem {k n : Nat} {b : UInt8} (h : b ∈ hexPad k n) : 48 ≤ b.toNat := by
  induction k generalizing n with
  | zero => cases h
  | succ k ih =>
    rcases List.mem_append.mp h with h | h
    · exact ih h
    · rw [List.mem_singleton.mp h]
      unfold hexDigit
      rw [UInt8.toNat_ofNat']
      split <;> omega

theorem enc_mem_low {c : Char} {b : UInt8} (h : b ∈ enc c) (hb : b.toNat < 128) : c.toNat = b.toNat := by
  have hv := char_range c
  have hcv : c.toNat = c.val.toNat := rfl
  rw [hcv]
  unfold enc String.utf8EncodeChar at h
  simp only at h
  split_ifs at h
  · rw [List.mem_singleton.mp h, UInt8.toNat_ofNat'] at *
    omega
  · exfalso
    simp only [List.mem_cons, List.not_mem_nil, or_false] at h
    rcases h with rfl | rfl <;> rw [UInt8.toNat_ofNat'] at hb <;> omega
  · exfalso
    simp only [List.mem_cons, List.not_mem_nil, or_false] at h
    rcases h with rfl | rfl | rfl <;> rw [UInt8.toNat_ofNat'] at hb <;> omega
  · exfalso
    simp only [List.mem_cons, List.not_mem_nil, or_false] at h
    rcases h with rfl | rfl | rfl | rfl <;> rw [UInt8.toNat_ofNat'] at hb <;> omega

/-- Only the word of `'` contains a `'`. -/
theorem escape_mem (rt : Rt) {c : Char} (hc : c ≠ '\'') : (39 : UInt8) ∉ escapeRune rt 39 (c.toNat : Int) := by
  have hne : ¬ ((c.toNat : Int) = 39) := fun h => hc (char_ext (Int.ofNat.inj h))
  have hq : ((39 : UInt8).toNat : Int) = 39 := rfl
  have hex : ∀ (a k n : Nat) , (39 : UInt8) ∉ hexPad k n := fun a k n h => absurd (hexPad_mem h) (by decide)
  unfold escapeRune
  simp only [Bool.or_eq_true, Bool.and_eq_true, beq_iff_eq, decide_eq_true_eq, hq, Int.toNat_natCast]
  by_cases h1 : ((c.toNat : Int) = 39 ∨ (c.toNat : Int) = 92)
  · rw [if_pos h1]
    have : c.toNat = 92 := by omega
    rw [this]
    decide
  rw [if_neg h1]
  split
  · rw [encodeRune_char]
    intro h
    have := enc_mem_low h (by decide)
    have : (39 : UInt8).toNat = 39 := rfl
    omega
  repeat' split
  all_goals first | decide | (rw [List.mem_append, not_or]; exact ⟨by decide, hex 0 _ _⟩)

theorem escape_ne (rt : Rt) (q : UInt8) (hq : q = 34 ∨ q = 39) (c : Char) : escapeRune rt q (c.toNat : Int) ≠ [] := by
  intro h
  have := unquote1_escape rt q hq c []
  rw [h] at this
  simp only [List.append_nil] at this
  have h2 : unquote1 [] = ([], []) := rfl
  rw [h2] at this
  exact enc_ne_nil c (by simpa using congrArg Prod.fst this.symm)

theorem validRune_char (c : Char) : validRune (c.toNat : Int) = true := by
  have hv := char_range c
  have hcv : c.toNat = c.val.toNat := rfl
  have hm : maxRune = 1114111 := rfl
  unfold validRune
  simp only [Bool.or_eq_true, Bool.and_eq_true, decide_eq_true_eq]
  omega

theorem quoteRuneToGraphic_char (rt : Rt) (c : Char) : quoteRuneToGraphic rt (c.toNat : Int) = 39 :: (escapeRune rt 39 (c.toNat : Int) ++ [39]) := by
  unfold quoteRuneToGraphic
  rw [if_pos (validRune_char c)]
  rfl

theorem quoteRune_char (rt : Rt) {c : Char} (hc : c ≠ '\'') : quoteRune rt (c.toNat : Int) = escapeRune rt 39 (c.toNat : Int) := by
  unfold quoteRune
  rw [quoteRuneToGraphic_char]
  have hm := escape_mem rt hc
  have hn := escape_ne rt 39 (.inr rfl) c
  generalize escapeRune rt 39 (c.toNat : Int) = w at hm hn
  have drop : ∀ w : Bytes, (39 : UInt8) ∉ w → w ≠ [] → ∀ u, List.dropWhile (· == 39) (39 :: (w ++ u)) = w ++ u := by
    intro w hm hn u
    obtain ⟨b, v, rfl⟩ := List.exists_cons_of_ne_nil hn
    have hb : (b == 39) = false := by
      rw [beq_eq_false_iff_ne]
      exact fun h => hm (by rw [h]; exact List.mem_cons_self)
    simp [hb]
  unfold trimQuote
  rw [drop w hm hn, List.reverse_append, List.reverse_singleton, List.singleton_append]
  have := drop w.reverse (by simpa using hm) (by simpa using hn) []
  rw [List.append_nil] at this
  rw [this, List.reverse_reverse]

/-! ### which reader -/

/-- The readers whose `What` says what they are: literals, sets, single valid runes, ranges of two different valid runes other than `'`, and what is built
of these without `Seq`.  The tail of a `Body` must not be a `Many`, and a range of a set must not begin with `"` or `>`. -/
def Reader.legible : Reader → Prop
  | .lit _ | .fold _ | .anyRune _ | .atEnd | .any _ | .at_ _ | .not _ | .opt _ | .many _ | .zom _ | .past _ | .to _ | .times _ _
  | .skipSeq _ _ | .bodyTail _ _ => True
  | .body _ t => ∀ c, t ≠ .many c
  | .rune r => ∃ c : Char, r = c.toNat
  | .betweenAny ranges _ => ∀ x ∈ ranges, (∃ c : Char, (c ≠ '\'' ∧ c ≠ '"' ∧ c ≠ '>') ∧ x.1 = c.toNat) ∧ ∃ c : Char, c ≠ '\'' ∧ x.2 = c.toNat
  | .between min max | .holey min max _ => min ≠ max ∧ (∃ c : Char, c ≠ '\'' ∧ min = c.toNat) ∧ ∃ c : Char, c ≠ '\'' ∧ max = c.toNat
  | _ => False

/-- The kind of a reader. -/
def Reader.kind : Reader → Nat
  | .lit _ => 0 | .fold _ => 1 | .anyRune _ => 2 | .any _ => 3 | .rune _ => 4 | .between _ _ => 5 | .skipSeq _ _ => 6
  | .holey _ _ _ => 7 | .atEnd => 8 | .at_ _ => 9 | .not _ => 10 | .opt _ => 11 | .many _ => 12 | .zom _ => 13 | .past _ => 14
  | .to _ => 15 | .body _ _ => 16 | .bodyTail _ _ => 16 | .betweenAny _ _ => 18 | _ => 17

/-- The kind of the reader that a `What` begins with. -/
def kindOf : Bytes → Nat
  | [] => 17
  | b :: u =>
    if b = 34 then 0 else if b = 126 then 1
    else if b = 91 then (if u.head? = some 34 then 2 else if u.head? = some 60 then 18 else 3)
    else if b = 39 then 4 else if b = 60 then 5
    else if b = 40 then (if u.head? = some 62 then 6 else 7)
    else if b = 64 then (if u.head? = some 69 then 8 else 9)
    else if b = 33 then 10 else if b = 63 then 11 else if b = 43 then 12 else if b = 42 then 13
    else if b = 45 then (if u.head? = some 45 then 14 else if u.head? = some 62 then 15 else if u.head? = some 40 then 16 else 17)
    else 17

theorem join_cons (sep x : Bytes) (xs : List Bytes) : join sep (x :: xs) = x ++ xs.flatMap (fun y => sep ++ y) := by
  induction xs generalizing x with
  | nil => simp [join]
  | cons y ys ih =>
    rw [join, ih y]
    · simp
    · simp

theorem whats_eq (rt : Rt) (G : Env) (rs : List Reader) : Reader.whats rt G rs = rs.map (Reader.what rt G) := by
  induction rs with
  | nil => rfl
  | cons r rs ih => rw [Reader.whats, ih]; rfl

theorem what_skipSeq (rt : Rt) (G : Env) (sk : Reader) (rs : List Reader) (x : Bytes) : Reader.what rt G (.skipSeq sk rs) ++ x =
    40 :: 62 :: (sk.what rt G ++ 62 :: (rs.flatMap (fun r => 32 :: r.what rt G) ++ 32 :: 41 :: x)) := by
  rw [Reader.what, whats_eq]
  rw [List.append_assoc, List.singleton_append, join_cons, List.flatMap_append, List.flatMap_map]
  simp

/-- How a `What` can begin. -/
def begins (b : UInt8) : Prop := b ≠ 32 ∧ b ≠ 41 ∧ b ≠ 62 ∧ b ≠ 69 ∧ b ≠ 93

instance (b : UInt8) : Decidable (begins b) := inferInstanceAs (Decidable (_ ∧ _))

theorem what_begins (rt : Rt) (G : Env) {r : Reader} (h : r.legible) (x : Bytes) :
    ∃ b u, r.what rt G ++ x = b :: u ∧ begins b ∧ (b = 43 → ∃ c, r = .many c) := by
  cases r with
  | lit s => exact ⟨34, _, rfl, by decide, fun h => absurd h (by decide)⟩
  | fold s => exact ⟨126, _, rfl, by decide, fun h => absurd h (by decide)⟩
  | anyRune s => exact ⟨91, _, rfl, by decide, fun h => absurd h (by decide)⟩
  | atEnd => exact ⟨64, _, rfl, by decide, fun h => absurd h (by decide)⟩
  | any s => exact ⟨91, _, rfl, by decide, fun h => absurd h (by decide)⟩
  | betweenAny l s => exact ⟨91, _, rfl, by decide, fun h => absurd h (by decide)⟩
  | at_ s => exact ⟨64, _, rfl, by decide, fun h => absurd h (by decide)⟩
  | not s => exact ⟨33, _, rfl, by decide, fun h => absurd h (by decide)⟩
  | opt s => exact ⟨63, _, rfl, by decide, fun h => absurd h (by decide)⟩
  | many s => exact ⟨43, _, rfl, by decide, fun _ => ⟨s, rfl⟩⟩
  | zom s => exact ⟨42, _, rfl, by decide, fun h => absurd h (by decide)⟩
  | past s => exact ⟨45, _, rfl, by decide, fun h => absurd h (by decide)⟩
  | «to» s => exact ⟨45, _, rfl, by decide, fun h => absurd h (by decide)⟩
  | body a b => exact ⟨45, _, rfl, by decide, fun h => absurd h (by decide)⟩
  | bodyTail a b => exact ⟨45, _, rfl, by decide, fun h => absurd h (by decide)⟩
  | skipSeq sk rs => exact ⟨40, _, what_skipSeq rt G sk rs x, by decide, fun h => absurd h (by decide)⟩
  | holey a b c => exact ⟨40, _, rfl, by decide, fun h => absurd h (by decide)⟩
  | rune r =>
    obtain ⟨c, rfl⟩ := h
    refine ⟨39, escapeRune rt 39 (c.toNat : Int) ++ [39] ++ x, ?_, by decide, fun h => absurd h (by decide)⟩
    rw [Reader.what, quoteRuneToGraphic_char, List.cons_append]
  | between a b =>
    refine ⟨60, quoteRune rt a ++ quoteRune rt b ++ b!">" ++ x, ?_, by decide, fun h => absurd h (by decide)⟩
    rw [Reader.what, quoteBetween, if_neg h.1]
    rfl
  | times n s =>
    rw [Reader.what]
    rcases itoa_head n with ⟨d, u, h1, h2⟩ | ⟨d, u, h1, h2⟩
    · refine ⟨d, _, by rw [h1]; rfl, ?_, ?_⟩
      · refine ⟨?_, ?_, ?_, ?_, ?_⟩ <;> rintro rfl <;> revert h2 <;> decide
      · exact fun h => absurd h (by rintro rfl; revert h2; decide)
    · exact ⟨45, _, by rw [h1]; rfl, by decide, fun h => absurd h (by decide)⟩
  | _ => exact absurd h id

theorem digit_ne {b : UInt8} (h : 48 ≤ b.toNat ∧ b.toNat ≤ 57) (k : UInt8) (hk : k.toNat < 48 ∨ 57 < k.toNat := by decide) : b ≠ k := by
  rintro rfl
  omega

theorem kindOf_other {b : UInt8} {u : Bytes} (h : 48 ≤ b.toNat ∧ b.toNat ≤ 57) : kindOf (b :: u) = 17 := by
  unfold kindOf
  simp only [digit_ne h 34, digit_ne h 126, digit_ne h 91, digit_ne h 39, digit_ne h 60, digit_ne h 40, digit_ne h 64, digit_ne h 33, digit_ne h 63,
    digit_ne h 43, digit_ne h 42, digit_ne h 45, if_false]

theorem kindOf_neg {b : UInt8} {u : Bytes} (h : 48 ≤ b.toNat ∧ b.toNat ≤ 57) : kindOf (45 :: b :: u) = 17 := by
  show (if some b = some 45 then 14 else if some b = some 62 then 15 else if some b = some 40 then 16 else 17) = 17
  simp only [Option.some.injEq, digit_ne h 45, digit_ne h 62, digit_ne h 40, if_false]

theorem kindOf_at {b : UInt8} {u : Bytes} (h : b ≠ 69) : kindOf (64 :: b :: u) = 9 := by
  show (if some b = some 69 then 8 else 9) = 9
  rw [if_neg (by simpa using h)]

theorem kindOf_what (rt : Rt) (G : Env) {r : Reader} (h : r.Every Reader.legible) (x : Bytes) : kindOf (r.what rt G ++ x) = r.kind := by
  have hl := h.here
  cases r with
  | lit s => rfl
  | fold s => rfl
  | anyRune s => rfl
  | atEnd => rfl
  | any s => rfl
  | betweenAny l s => rfl
  | not s => rfl
  | opt s => rfl
  | many s => rfl
  | zom s => rfl
  | past s => rfl
  | «to» s => rfl
  | body a b => rfl
  | bodyTail a b => rfl
  | skipSeq sk rs => rw [what_skipSeq]; rfl
  | at_ s =>
    obtain ⟨b, u, h1, h2, _⟩ := what_begins rt G (h.sub (c := s) (by simp [Reader.subs])).here x
    have : Reader.what rt G (.at_ s) ++ x = 64 :: (s.what rt G ++ x) := rfl
    rw [this, h1, kindOf_at h2.2.2.2.1]
    rfl
  | holey a b c =>
    have : Reader.what rt G (.holey a b c) ++ x = 40 :: 60 :: (quoteRune rt a ++ quoteRune rt b ++ b!">" ++ b!" - " ++ quoteToGraphic rt c ++ b!")" ++ x) := by
      rw [Reader.what, quoteBetween, if_neg hl.1]
      simp
    rw [this]
    rfl
  | rune r =>
    obtain ⟨c, rfl⟩ := hl
    rw [Reader.what, quoteRuneToGraphic_char, List.cons_append]
    rfl
  | between a b =>
    rw [Reader.what, quoteBetween, if_neg hl.1]
    rfl
  | times n s =>
    rw [Reader.what]
    rcases itoa_head n with ⟨d, u, h1, h2⟩ | ⟨d, u, h1, h2⟩
    · rw [h1]
      exact kindOf_other h2
    · rw [h1]
      exact kindOf_neg h2
  | _ => exact absurd hl id

/-- The elements of a list in brackets can be read back. -/
theorem list_inj (rt : Rt) (G : Env) (e : UInt8) (he : ¬ begins e) {rs : List Reader}
    (ih : ∀ c ∈ rs, ∀ r' x y, r'.Every Reader.legible → c.what rt G ++ x = r'.what rt G ++ y → c = r' ∧ x = y)
    (hrs : ∀ c ∈ rs, c.legible) {rs' : List Reader} (hrs' : ∀ c ∈ rs', c.Every Reader.legible) {x y : Bytes}
    (h : rs.flatMap (fun r => 32 :: r.what rt G) ++ 32 :: e :: x = rs'.flatMap (fun r => 32 :: r.what rt G) ++ 32 :: e :: y) : rs = rs' ∧ x = y := by
  induction rs generalizing rs' with
  | nil =>
    cases rs' with
    | nil => simpa using h
    | cons c rs' =>
      exfalso
      obtain ⟨b, u, h1, h2, _⟩ := what_begins rt G (hrs' c (by simp)).here (rs'.flatMap (fun r => 32 :: r.what rt G) ++ 32 :: e :: y)
      simp only [List.flatMap_nil, List.nil_append, List.flatMap_cons, List.cons_append, List.append_assoc, List.cons.injEq, true_and] at h
      rw [h1] at h
      simp only [List.cons.injEq] at h
      exact he (h.1 ▸ h2)
  | cons c rs ihl =>
    cases rs' with
    | nil =>
      exfalso
      obtain ⟨b, u, h1, h2, _⟩ := what_begins rt G (hrs c (by simp)) (rs.flatMap (fun r => 32 :: r.what rt G) ++ 32 :: e :: x)
      simp only [List.flatMap_nil, List.nil_append, List.flatMap_cons, List.cons_append, List.append_assoc, List.cons.injEq, true_and] at h
      rw [h1] at h
      simp only [List.cons.injEq] at h
      exact he (h.1 ▸ h2)
    | cons c' rs' =>
      simp only [List.flatMap_cons, List.cons_append, List.append_assoc, List.cons.injEq, true_and] at h
      obtain ⟨h1, h2⟩ := ih c (by simp) c' _ _ (hrs' c' (by simp)) h
      obtain ⟨h3, h4⟩ := ihl (fun d hd => ih d (List.mem_cons_of_mem _ hd)) (fun d hd => hrs d (List.mem_cons_of_mem _ hd))
        (fun d hd => hrs' d (List.mem_cons_of_mem _ hd)) h2
      exact ⟨by rw [h1, h3], h4⟩

theorem what_any (rt : Rt) (G : Env) (rs : List Reader) (x : Bytes) : Reader.what rt G (.any rs) ++ x =
    91 :: (if rs = [] then 32 :: 32 :: 93 :: x else rs.flatMap (fun r => 32 :: r.what rt G) ++ 32 :: 93 :: x) := by
  rw [Reader.what, whats_eq]
  cases rs with
  | nil => rfl
  | cons r rs =>
    rw [List.map_cons, join_cons, List.flatMap_map, if_neg (by simp)]
    simp

theorem bounds_inj (rt : Rt) {a b a' b' : Int} (h : a ≠ b ∧ (∃ c : Char, c ≠ '\'' ∧ a = c.toNat) ∧ ∃ c : Char, c ≠ '\'' ∧ b = c.toNat)
    (h' : a' ≠ b' ∧ (∃ c : Char, c ≠ '\'' ∧ a' = c.toNat) ∧ ∃ c : Char, c ≠ '\'' ∧ b' = c.toNat) {x y : Bytes}
    (he : quoteBetween rt a b ++ x = quoteBetween rt a' b' ++ y) : a = a' ∧ b = b' ∧ x = y := by
  obtain ⟨hne, ⟨c, hc, rfl⟩, d, hd, rfl⟩ := h
  obtain ⟨hne', ⟨c', hc', rfl⟩, d', hd', rfl⟩ := h'
  rw [quoteBetween, quoteBetween, if_neg hne, if_neg hne', quoteRune_char rt hc, quoteRune_char rt hd, quoteRune_char rt hc', quoteRune_char rt hd'] at he
  simp only [List.append_assoc, List.cons_append, List.nil_append, List.cons.injEq, true_and] at he
  obtain ⟨rfl, he1⟩ := escape_inj (.inr rfl) he
  obtain ⟨rfl, he2⟩ := escape_inj (.inr rfl) he1
  exact ⟨rfl, rfl, by simpa using he2⟩

/-- A word begins with a printable character only if it is the word of that character. -/
theorem escape_first (rt : Rt) {c d : Char} (hd : d = '"' ∨ d = '>') (hc : c ≠ d) (t u : Bytes) :
    escapeRune rt 39 (c.toNat : Int) ++ t ≠ UInt8.ofNat d.toNat :: u := by
  intro h
  have h1 := unquote1_escape rt 39 (.inr rfl) c t
  have h2 : unquote1 (UInt8.ofNat d.toNat :: u) = (enc d, u) := by rcases hd with rfl | rfl <;> rfl
  rw [h, h2] at h1
  simp only [Prod.mk.injEq] at h1
  exact hc (enc_append_inj (t := []) (t' := []) (by rw [List.append_nil, List.append_nil, h1.1])).1.symm

/-- The ranges of a set can be read back. -/
theorem ranges_inj (rt : Rt) {l l' : List (Rune × Rune)} (h : (Reader.betweenAny l []).legible) (h' : (Reader.betweenAny l' []).legible)
    {b b' : UInt8} (hb : b = 34 ∨ b = 62) (hb' : b' = 34 ∨ b' = 62) {x y : Bytes}
    (he : whatRanges rt l ++ 32 :: b :: x = whatRanges rt l' ++ 32 :: b' :: y) : l = l' ∧ b = b' ∧ x = y := by
  have first : ∀ {l : List (Rune × Rune)} {a : Rune × Rune}, (Reader.betweenAny (a :: l) []).legible → ∀ {b : UInt8}, (b = 34 ∨ b = 62) →
      ∀ x y : Bytes, 32 :: b :: x ≠ whatRanges rt (a :: l) ++ y := by
    intro l a h b hb x y he
    obtain ⟨⟨c, ⟨h1, h2, h3⟩, hc⟩, -⟩ := h a List.mem_cons_self
    obtain ⟨a1, a2⟩ := a
    simp only at hc
    subst hc
    simp only [whatRanges, quoteRune_char rt h1, List.append_assoc, List.cons_append, List.nil_append, List.cons.injEq, true_and] at he
    rcases hb with rfl | rfl
    · exact escape_first rt (.inl rfl) h2 _ _ he.symm
    · exact escape_first rt (.inr rfl) h3 _ _ he.symm
  induction l generalizing l' with
  | nil =>
    cases l' with
    | nil => simpa [whatRanges] using he
    | cons a l' => exact absurd he (first h' hb _ _)
  | cons a l ih =>
    cases l' with
    | nil => exact absurd he.symm (first h hb' _ _)
    | cons a' l' =>
      obtain ⟨⟨c, ⟨h1, -, -⟩, hc⟩, d, h2, hd⟩ := h a List.mem_cons_self
      obtain ⟨⟨c', ⟨h1', -, -⟩, hc'⟩, d', h2', hd'⟩ := h' a' List.mem_cons_self
      obtain ⟨a1, a2⟩ := a
      obtain ⟨a1', a2'⟩ := a'
      simp only at hc hd hc' hd'
      subst hc hd hc' hd'
      simp only [whatRanges, quoteRune_char rt h1, quoteRune_char rt h2, quoteRune_char rt h1', quoteRune_char rt h2', List.append_assoc,
        List.cons_append, List.nil_append, List.cons.injEq, true_and] at he
      obtain ⟨rfl, he1⟩ := escape_inj (.inr rfl) he
      obtain ⟨rfl, he2⟩ := escape_inj (.inr rfl) he1
      obtain ⟨rfl, h3⟩ := ih (fun x hx => h x (List.mem_cons_of_mem _ hx)) (fun x hx => h' x (List.mem_cons_of_mem _ hx)) he2
      exact ⟨rfl, h3⟩

/-- The text of a set behind its ranges. -/
def setTail (rt : Rt) (s : Bytes) : Bytes := if s = [] then 62 :: [93] else quoteToGraphic rt s ++ b!" >]"

theorem what_set (rt : Rt) (G : Env) (l : List (Rune × Rune)) (s x : Bytes) :
    Reader.what rt G (.betweenAny l s) ++ x = b!"[<" ++ (whatRanges rt l ++ 32 :: (setTail rt s ++ x)) := by
  unfold setTail
  rw [Reader.what]
  by_cases h : s = []
  · subst h
    simp
  · simp [h]

theorem setTail_inj (rt : Rt) {s s' x y : Bytes} (h : setTail rt s ++ x = setTail rt s' ++ y) : s = s' ∧ x = y := by
  unfold setTail at h
  split_ifs at h with h1 h2 h2
  · exact ⟨h1.trans h2.symm, List.append_cancel_left h⟩
  · exact absurd (congrArg List.head? h) (by unfold quoteToGraphic; simp)
  · exact absurd (congrArg List.head? h) (by unfold quoteToGraphic; simp)
  · rw [List.append_assoc, List.append_assoc] at h
    obtain ⟨h3, h4⟩ := quote_inj rt h
    exact ⟨h3, List.append_cancel_left h4⟩

theorem setTail_head (rt : Rt) (s : Bytes) : ∃ b u, setTail rt s = b :: u ∧ (b = 34 ∨ b = 62) := by
  unfold setTail
  split_ifs
  · exact ⟨62, [93], rfl, .inr rfl⟩
  · exact ⟨34, _, rfl, .inl rfl⟩

theorem set_inj (rt : Rt) (G : Env) {l l' : List (Rune × Rune)} {s s' : Bytes} (h : (Reader.betweenAny l s).legible)
    (h' : (Reader.betweenAny l' s').legible) {x y : Bytes}
    (he : Reader.what rt G (.betweenAny l s) ++ x = Reader.what rt G (.betweenAny l' s') ++ y) : l = l' ∧ s = s' ∧ x = y := by
  rw [what_set, what_set] at he
  have he := List.append_cancel_left he
  obtain ⟨b, u, h1, hb⟩ := setTail_head rt s
  obtain ⟨b', u', h1', hb'⟩ := setTail_head rt s'
  rw [h1, h1'] at he
  obtain ⟨rfl, rfl, h2⟩ := ranges_inj rt h h' hb hb' he
  obtain ⟨h3, h4⟩ := setTail_inj rt (s := s) (s' := s') (x := x) (y := y) (by
    rw [h1, h1']
    exact congrArg (b :: ·) h2)
  exact ⟨rfl, h3, h4⟩

/-- Readers with the same `What` are the same, even when something is written behind it. -/
theorem what_inj (rt : Rt) (G : Env) {r : Reader} (h : r.Every Reader.legible) :
    ∀ r' x y, r'.Every Reader.legible → r.what rt G ++ x = r'.what rt G ++ y → r = r' ∧ x = y := by
  induction h with
  | @mk r hl hs ih =>
    intro r' x y h' he
    have hk : r.kind = r'.kind := by
      rw [← kindOf_what rt G (.mk hl hs) x, he, kindOf_what rt G h']
    have hl' := h'.here
    cases r with
    | lit s =>
      cases r' <;> first | (simp [Reader.kind] at hk; done) | exact absurd hl' id | skip
      obtain ⟨rfl, rfl⟩ := quote_inj rt he
      exact ⟨rfl, rfl⟩
    | fold s =>
      cases r' <;> first | (simp [Reader.kind] at hk; done) | exact absurd hl' id | skip
      obtain ⟨rfl, rfl⟩ := quote_inj rt (List.append_cancel_left (as := [126]) he)
      exact ⟨rfl, rfl⟩
    | anyRune s =>
      cases r' <;> first | (simp [Reader.kind] at hk; done) | exact absurd hl' id | skip
      simp only [Reader.what, List.append_assoc, List.append_cancel_left_eq] at he
      obtain ⟨rfl, he1⟩ := quote_inj rt he
      exact ⟨rfl, by simpa using he1⟩
    | rune n =>
      cases r' <;> first | (simp [Reader.kind] at hk; done) | exact absurd hl' id | skip
      obtain ⟨c, rfl⟩ := hl
      obtain ⟨c', rfl⟩ := hl'
      simp only [Reader.what, quoteRuneToGraphic_char, List.cons_append, List.append_assoc, List.cons.injEq, true_and] at he
      obtain ⟨rfl, he1⟩ := escape_inj (.inr rfl) he
      exact ⟨rfl, by simpa using he1⟩
    | between a b =>
      cases r' <;> first | (simp [Reader.kind] at hk; done) | exact absurd hl' id | skip
      obtain ⟨rfl, rfl, rfl⟩ := bounds_inj rt hl hl' he
      exact ⟨rfl, rfl⟩
    | betweenAny l s =>
      cases r' <;> first | (simp [Reader.kind] at hk; done) | exact absurd hl' id | skip
      obtain ⟨rfl, rfl, rfl⟩ := set_inj rt G hl hl' he
      exact ⟨rfl, rfl⟩
    | holey a b s =>
      cases r' <;> first | (simp [Reader.kind] at hk; done) | exact absurd hl' id | skip
      simp only [Reader.what, List.append_assoc, List.append_cancel_left_eq] at he
      obtain ⟨rfl, rfl, he1⟩ := bounds_inj rt hl hl' he
      obtain ⟨rfl, he2⟩ := quote_inj rt (List.append_cancel_left he1)
      exact ⟨rfl, by simpa using he2⟩
    | atEnd =>
      cases r' <;> first | (simp [Reader.kind] at hk; done) | exact absurd hl' id | skip
      exact ⟨rfl, List.append_cancel_left he⟩
    | at_ c =>
      cases r' <;> first | (simp [Reader.kind] at hk; done) | exact absurd hl' id | skip
      rename_i c'
      obtain ⟨rfl, rfl⟩ := ih c (by simp [Reader.subs]) c' x y (h'.sub (by simp [Reader.subs])) (by simpa [Reader.what] using he)
      exact ⟨rfl, rfl⟩
    | not c =>
      cases r' <;> first | (simp [Reader.kind] at hk; done) | exact absurd hl' id | skip
      rename_i c'
      obtain ⟨rfl, rfl⟩ := ih c (by simp [Reader.subs]) c' x y (h'.sub (by simp [Reader.subs])) (by simpa [Reader.what] using he)
      exact ⟨rfl, rfl⟩
    | opt c =>
      cases r' <;> first | (simp [Reader.kind] at hk; done) | exact absurd hl' id | skip
      rename_i c'
      obtain ⟨rfl, rfl⟩ := ih c (by simp [Reader.subs]) c' x y (h'.sub (by simp [Reader.subs])) (by simpa [Reader.what] using he)
      exact ⟨rfl, rfl⟩
    | many c =>
      cases r' <;> first | (simp [Reader.kind] at hk; done) | exact absurd hl' id | skip
      rename_i c'
      obtain ⟨rfl, rfl⟩ := ih c (by simp [Reader.subs]) c' x y (h'.sub (by simp [Reader.subs])) (by simpa [Reader.what] using he)
      exact ⟨rfl, rfl⟩
    | zom c =>
      cases r' <;> first | (simp [Reader.kind] at hk; done) | exact absurd hl' id | skip
      rename_i c'
      obtain ⟨rfl, rfl⟩ := ih c (by simp [Reader.subs]) c' x y (h'.sub (by simp [Reader.subs])) (by simpa [Reader.what] using he)
      exact ⟨rfl, rfl⟩
    | past c =>
      cases r' <;> first | (simp [Reader.kind] at hk; done) | exact absurd hl' id | skip
      rename_i c'
      obtain ⟨rfl, rfl⟩ := ih c (by simp [Reader.subs]) c' x y (h'.sub (by simp [Reader.subs])) (by simpa [Reader.what] using he)
      exact ⟨rfl, rfl⟩
    | «to» c =>
      cases r' <;> first | (simp [Reader.kind] at hk; done) | exact absurd hl' id | skip
      rename_i c'
      obtain ⟨rfl, rfl⟩ := ih c (by simp [Reader.subs]) c' x y (h'.sub (by simp [Reader.subs])) (by simpa [Reader.what] using he)
      exact ⟨rfl, rfl⟩
    | times n c =>
      cases r' <;> first | (simp [Reader.kind] at hk; done) | exact absurd hl' id | skip
      rename_i n' c'
      simp only [Reader.what, List.append_assoc, List.cons_append, List.nil_append] at he
      obtain ⟨rfl, he1⟩ := itoa_star_inj he
      obtain ⟨rfl, rfl⟩ := ih c (by simp [Reader.subs]) c' x y (h'.sub (by simp [Reader.subs])) he1
      exact ⟨rfl, rfl⟩
    | skipSeq sk rs =>
      cases r' <;> first | (simp [Reader.kind] at hk; done) | exact absurd hl' id | skip
      rename_i sk' rs'
      rw [what_skipSeq, what_skipSeq] at he
      simp only [List.cons.injEq, true_and] at he
      obtain ⟨rfl, he1⟩ := ih sk (by simp [Reader.subs]) sk' _ _ (h'.sub (by simp [Reader.subs])) he
      simp only [List.cons.injEq, true_and] at he1
      obtain ⟨rfl, rfl⟩ := list_inj rt G 41 (by decide) (fun c hc => ih c (List.mem_cons_of_mem _ hc)) (fun c hc => (hs c (List.mem_cons_of_mem _ hc)).here)
        (fun c hc => h'.sub (List.mem_cons_of_mem _ hc)) he1
      exact ⟨rfl, rfl⟩
    | any rs =>
      cases r' <;> first | (simp [Reader.kind] at hk; done) | exact absurd hl' id | skip
      rename_i rs'
      rw [what_any, what_any] at he
      simp only [List.cons.injEq, true_and] at he
      have first : ∀ (c : Reader) (rs : List Reader) (u v : Bytes), c.legible → (32 : UInt8) :: 32 :: u ≠ (c :: rs).flatMap (fun r => 32 :: r.what rt G) ++ v := by
        intro c rs u v hc h
        obtain ⟨b, w, h1, h2, _⟩ := what_begins rt G hc (rs.flatMap (fun r => 32 :: r.what rt G) ++ v)
        simp only [List.flatMap_cons, List.cons_append, List.append_assoc, List.cons.injEq, true_and] at h
        rw [h1] at h
        simp only [List.cons.injEq] at h
        exact h2.1 h.1.symm
      have h2 : rs.flatMap (fun r => 32 :: r.what rt G) ++ 32 :: 93 :: x = rs'.flatMap (fun r => 32 :: r.what rt G) ++ 32 :: 93 :: y := by
        split_ifs at he with h1 h2 h2
        · subst h1 h2; simpa using he
        · obtain ⟨c, l, rfl⟩ := List.exists_cons_of_ne_nil h2
          exact absurd he (first c l _ _ (h'.sub (by simp [Reader.subs])).here)
        · obtain ⟨c, l, rfl⟩ := List.exists_cons_of_ne_nil h1
          exact absurd he.symm (first c l _ _ (hs c (by simp [Reader.subs])).here)
        · exact he
      obtain ⟨rfl, rfl⟩ := list_inj rt G 93 (by decide) ih (fun c hc => (hs c hc).here) (fun c hc => h'.sub hc) h2
      exact ⟨rfl, rfl⟩
    | body b t =>
      cases r' <;> first | (simp [Reader.kind] at hk; done) | exact absurd hl' id | skip
      · rename_i b' t'
        simp only [Reader.what, List.append_assoc, List.append_cancel_left_eq] at he
        obtain ⟨rfl, he1⟩ := ih b (by simp [Reader.subs]) b' _ _ (h'.sub (by simp [Reader.subs])) he
        obtain ⟨rfl, he2⟩ := ih t (by simp [Reader.subs]) t' _ _ (h'.sub (by simp [Reader.subs])) (List.append_cancel_left he1)
        exact ⟨rfl, List.append_cancel_left he2⟩
      · rename_i b' t'
        exfalso
        simp only [Reader.what, List.append_assoc, List.append_cancel_left_eq] at he
        obtain ⟨rfl, he1⟩ := ih b (by simp [Reader.subs]) b' _ _ (h'.sub (by simp [Reader.subs])) he
        obtain ⟨c, u, h1, _, h3⟩ := what_begins rt G (hs t (by simp [Reader.subs])).here (b!")-" ++ x)
        rw [h1] at he1
        simp only [List.cons_append, List.nil_append, List.cons.injEq, true_and] at he1
        obtain ⟨d, hd⟩ := h3 he1.1
        exact hl d hd
    | bodyTail b t =>
      cases r' <;> first | (simp [Reader.kind] at hk; done) | exact absurd hl' id | skip
      · rename_i b' t'
        exfalso
        simp only [Reader.what, List.append_assoc, List.append_cancel_left_eq] at he
        obtain ⟨rfl, he1⟩ := ih b (by simp [Reader.subs]) b' _ _ (h'.sub (by simp [Reader.subs])) he
        obtain ⟨c, u, h1, _, h3⟩ := what_begins rt G (h'.sub (c := t') (by simp [Reader.subs])).here (b!")-" ++ y)
        rw [h1] at he1
        simp only [List.cons_append, List.nil_append, List.cons.injEq, true_and] at he1
        obtain ⟨d, hd⟩ := h3 he1.1.symm
        exact hl' d hd
      · rename_i b' t'
        simp only [Reader.what, List.append_assoc, List.append_cancel_left_eq] at he
        obtain ⟨rfl, he1⟩ := ih b (by simp [Reader.subs]) b' _ _ (h'.sub (by simp [Reader.subs])) he
        obtain ⟨rfl, he2⟩ := ih t (by simp [Reader.subs]) t' _ _ (h'.sub (by simp [Reader.subs])) (List.append_cancel_left he1)
        exact ⟨rfl, List.append_cancel_left he2⟩
    | _ => exact absurd hl id

/-- The `What` of a reader built without `Seq` from literals, sets, runes and ranges tells exactly which reader it is.

Missing for the full claim (readers with the same `What` read the same): sequences, tails of `Body` that are `Many`, invalid runes and `'` in
ranges, `"` and `>` at the start of a range of a set, readers with a given text (`Named`, `Wrap`, grammars), where it is false (`C61_violated`, `C61_set_violated`, `C61_named_violated`); rules, Janus
and value readers and top sequences are in Props/C61Words.lean. -/
theorem C61_what_partial (rt : Rt) (G : Env) (r r' : Reader) (h : r.Every Reader.legible) (h' : r'.Every Reader.legible)
    (he : r.what rt G = r'.what rt G) : r = r' :=
  (what_inj rt G h r' [] [] h' (by rw [he])).1

/-- The texts that TestReaderWhat of reader_test.go expects, and those of the readers that it leaves out. -/
example : ([.any [.rune 33, .lit b!"abc"], .between 97 97, mkBetweenAny b!"a-zA-Z", mkBetweenAny b!"a-zA-Z_-_", mkSet b!"a-zA-Z" b!"_-+", .fold b!"true", .holey 97 122 b!"ox",
      .not (.rune 65), .seq [.rune 33, .many (.anyRune b!" +-"), .lit b!"abc"], .to (.bool 0 []), .uint 0 16 64, mkWS, .zom mkWS] : List Reader).map (Reader.what exRt []) =
    [b!"[ '!' \"abc\" ]", b!"'a'", b!"[< az AZ >]", b!"[< az AZ __ >]", b!"[< az AZ \"_-+\" >]", b!"~\"true\"", b!"(<az> - \"ox\")", b!"!'A'", b!"'!' +[\" +-\"] \"abc\"",
      b!"->bool{\"\"}", b!"uint{16,64}", b!"[\" \\r\\n\\t\"]", b!"*[\" \\r\\n\\t\"]"] := by decide

example : ([.at_ .atEnd, .body (.rune 97) (.rune 98), .bodyTail (.rune 97) (.rune 98), .int 0 10 8, .int 0 (-10) (-8), .janusBegin 0 b!"j" (.rune 97), .janusEnd 0 b!"j",
      .opt (.named b!"n" (.rune 97)), .past (.rune 97), .times (-2) (.rune 97), .skipSeq (.rune 32) [.rune 97, .rune 98], .ruleName (.rune 97), .map 3 (.rune 97),
      .invalid b!"x", .grammar b!"g" (.rune 97), .rune 0x7F, .lit b!"\t"] : List Reader).map (Reader.what { exRt with graphic := fun _ => false } []) =
    [b!"@@END", b!"-('a'-'b')-", b!"-('a'-+'b')-", b!"int{10,8}", b!"int{-10,-8}", b!"$j<'a'", b!"$j", b!"?n", b!"-->'a'", b!"-2*'a'", b!"(>' '> 'a' 'b' )", b!"rulename", b!"'a'",
      b!"::INVALID-READER::{x}", b!"g", b!"'\\x7f'", b!"\"\\t\""] := by decide

/-- The texts of two literals are different if the literals are. -/
theorem C61_lit (rt : Rt) (G : Env) (s s' : Bytes) : Reader.what rt G (.lit s) = Reader.what rt G (.lit s') ↔ s = s' :=
  ⟨fun h => (quote_inj rt (x := []) (y := []) (by simpa [Reader.what] using h)).1, fun h => by rw [h]⟩

/-- `[ "a" *'b' ]` and ranges. -/
example : (Reader.any [.lit b!"a", .zom (.rune 98), .holey 97 122 b!"x"]).Every Reader.legible :=
  .mk trivial fun c hc => by
    simp only [Reader.subs, List.mem_cons, List.not_mem_nil, or_false] at hc
    rcases hc with rfl | rfl | rfl
    · exact .mk trivial (by simp [Reader.subs])
    · exact .mk trivial fun c hc => by
        simp only [Reader.subs, List.mem_cons, List.not_mem_nil, or_false] at hc
        subst hc
        exact .mk ⟨'b', rfl⟩ (by simp [Reader.subs])
    · exact .mk ⟨by decide, ⟨'a', by decide, rfl⟩, 'z', by decide, rfl⟩ (by simp [Reader.subs])

/-- Each of these pairs has one `What`, for any tables of characters, and reads differently: `Many` of a sequence and a sequence that begins
with `Many`, an alternative of two readers and of their sequence, an invalid rune and U+FFFD. -/
theorem C61_violated (rt : Rt) (G : Env) :
    (let r := Reader.many (.seq [.lit b!"a", .lit b!"b"]); let r' := Reader.seq [.many (.lit b!"a"), .lit b!"b"]
      r.what rt G = r'.what rt G ∧ (∃ e s, read rt G 8 r (.new b!"aab" Heap.empty) = .ret (some e, s)) ∧
        ∃ s, read rt G 8 r' (.new b!"aab" Heap.empty) = .ret (none, s) ∧ s.pos = 3) ∧
    (let r := Reader.any [.lit b!"a", .lit b!"b"]; let r' := Reader.any [.seq [.lit b!"a", .lit b!"b"]]
      r.what rt G = r'.what rt G ∧ (∃ s, read rt G 8 r (.new b!"b" Heap.empty) = .ret (none, s)) ∧
        ∃ e s, read rt G 8 r' (.new b!"b" Heap.empty) = .ret (some e, s)) ∧
    (let r := Reader.rune 0xD800; let r' := Reader.rune 0xFFFD
      r.what rt G = r'.what rt G ∧ (∃ e s, read rt G 8 r (.new [0xEF, 0xBF, 0xBD] Heap.empty) = .ret (some e, s)) ∧
        ∃ s, read rt G 8 r' (.new [0xEF, 0xBF, 0xBD] Heap.empty) = .ret (none, s)) := by
  refine ⟨⟨rfl, ⟨_, _, rfl⟩, { Scanner.new b!"aab" Heap.empty with pos := 3 }, rfl, rfl⟩, ⟨rfl, ⟨_, rfl⟩, _, _, rfl⟩, ⟨rfl, ⟨_, _, rfl⟩, _, rfl⟩⟩

/-- Two sets, one of ranges that begin and end with `"` and one of a string, have one `What` for any tables of characters and
read differently; so have an alternative of two sets and a set with a range that begins with `>`. -/
theorem C61_set_violated (rt : Rt) (G : Env) :
    (let r := Reader.betweenAny [(34, 97), (98, 34)] []; let r' := Reader.betweenAny [] b!"a b"
      r.what rt G = r'.what rt G ∧ (∃ s, read rt G 8 r (.new b!"A" Heap.empty) = .ret (none, s)) ∧
        ∃ e s, read rt G 8 r' (.new b!"A" Heap.empty) = .ret (some e, s)) ∧
    (let r := Reader.any [.betweenAny [] [], .betweenAny [] []]; let r' := Reader.any [.betweenAny [(62, 93), (91, 60)] []]
      r.what rt G = r'.what rt G ∧ (∃ e s, read rt G 8 r (.new b!"A" Heap.empty) = .ret (some e, s)) ∧
        ∃ s, read rt G 8 r' (.new b!"A" Heap.empty) = .ret (none, s)) := by
  refine ⟨⟨?_, ⟨_, rfl⟩, _, _, rfl⟩, ?_, ⟨_, _, rfl⟩, _, rfl⟩
  · have h1 : decodeRune b!"a b" = (97, 1) := rfl
    have h2 : decodeRune b!" b" = (32, 1) := rfl
    have h3 : decodeRune b!"b" = (98, 1) := rfl
    have e1 : escapeRune rt 34 97 = b!"a" := rfl
    have e2 : escapeRune rt 34 32 = b!" " := rfl
    have e3 : escapeRune rt 34 98 = b!"b" := rfl
    have q : quoteToGraphic rt b!"a b" = b!"\"a b\"" := by simp [quoteToGraphic, quoteGo, h1, h2, h3, e1, e2, e3, runeError]
    rw [Reader.what, Reader.what, q]
    rfl
  · simp only [Reader.what, Reader.whats, whatRanges]
    rfl

/-- `[< az AZ "_" >]` -/
example : (Reader.betweenAny [(97, 122), (65, 90)] b!"_").legible := by
  intro x hx
  simp only [List.mem_cons, List.not_mem_nil, or_false] at hx
  rcases hx with rfl | rfl
  · exact ⟨⟨'a', by decide, rfl⟩, 'z', by decide, rfl⟩
  · exact ⟨⟨'A', by decide, rfl⟩, 'Z', by decide, rfl⟩

/-- Readers with a given text: a client can give any reader the text of any other, so for every reader there is one with the same `What` that
fails on every text where the first reads something, and `Wrap` and a grammar of that text do the same. -/
theorem C61_named_violated (rt : Rt) (G : Env) (r : Reader) (n : Nat) (s s' : Scanner) (hr : read rt G n r s = .ret (none, s')) :
    ∀ q ∈ [Reader.named (r.what rt G) (.any []), .grammar (r.what rt G) (.any []), .wrap (r.what rt G) fun s => .ret (some (s.errorFor b!"x"), s)],
      q.what rt G = r.what rt G ∧ q ≠ r ∧ ∃ e s'', read rt G 2 q s = .ret (some e, s'') := by
  intro q hq
  have hf : q.what rt G = r.what rt G ∧ ∃ e s'', read rt G 2 q s = .ret (some e, s'') := by
    simp only [List.mem_cons, List.not_mem_nil, or_false] at hq
    rcases hq with rfl | rfl | rfl
    · exact ⟨rfl, _, _, rfl⟩
    · exact ⟨rfl, _, _, rfl⟩
    · exact ⟨rfl, _, _, rfl⟩
  obtain ⟨hw, e, s'', he⟩ := hf
  refine ⟨hw, ?_, e, s'', he⟩
  rintro rfl
  have := read_det (n := n) (m := 2) hr he
  simp at this

/-- A name that is the text of a literal: `Named("\"a\"", Lit("b"))` and `Lit("a")` have one `What`, and each reads the text that the other does not. -/
example : let r := Reader.lit b!"a"; let q := Reader.named b!"\"a\"" (.lit b!"b")
    r.what exRt [] = q.what exRt [] ∧
    (∃ s, read exRt [] 8 r (.new b!"a" Heap.empty) = .ret (none, s)) ∧ (∃ e s, read exRt [] 8 q (.new b!"a" Heap.empty) = .ret (some e, s)) ∧
    (∃ e s, read exRt [] 8 r (.new b!"b" Heap.empty) = .ret (some e, s)) ∧ ∃ s, read exRt [] 8 q (.new b!"b" Heap.empty) = .ret (none, s) :=
  ⟨by decide, ⟨_, rfl⟩, ⟨_, _, rfl⟩, ⟨_, _, rfl⟩, _, rfl⟩

end Tok
