/-
`eat` agrees with `read`.
-/
import Verif.Proofs.Eat

namespace Tok
open Spec

/-- The scanner is at the state `st` of a read on the text `F`. -/
def Sees (F : Bytes) (s : Scanner) (st : St) : Prop :=
  s.full = F ∧ (∃ h, Between s h st.rest) ∧ s.heap.janus = st.jan

/-- How a read on the scanner and a read on the text ahead compare. -/
def RR (F : Bytes) (a : Option Err × Scanner) (b : Bool × St) : Prop := a.1.isNone = b.1 ∧ Sees F a.2 b.2

/-- The same for scanner methods. -/
def RB (F : Bytes) (a : Bool × Scanner) (b : Bool × St) : Prop := a.1 = b.1 ∧ Sees F a.2 b.2

theorem notify_janus (s : Scanner) : s.notify.heap.janus = s.heap.janus := by
  unfold Scanner.notify; split <;> rfl

theorem Sees.tail {F : Bytes} {s : Scanner} {st : St} (h : Sees F s st) : s.tail = .ret st.rest := by
  obtain ⟨_, ⟨hd, hb⟩, _⟩ := h
  exact tail_of hb

theorem Sees.pos {F : Bytes} {s : Scanner} {st : St} (h : Sees F s st) :
    s.pos = (F.length : Int) - st.rest.length ∧ st.rest.length ≤ F.length ∧ st.rest <:+ F := by
  obtain ⟨h1, ⟨hd, h2, h3⟩, _⟩ := h
  have := congrArg List.length h2
  rw [h1, List.length_append] at this
  rw [h3]
  exact ⟨by omega, by omega, ⟨hd, by rw [← h1, h2]⟩⟩

theorem Sees.atEnd {F : Bytes} {s : Scanner} {st : St} (h : Sees F s st) : s.atEnd = st.rest.isEmpty := by
  obtain ⟨h1, h2, _⟩ := h.pos
  unfold Scanner.atEnd
  rw [h1, h.1, Bool.eq_iff_iff, decide_eq_true_eq, List.isEmpty_iff, ← List.length_eq_zero_iff]
  omega

/-- Sees from the position. -/
theorem sees_of {F : Bytes} {s : Scanner} {st : St} (h1 : s.full = F) (h2 : st.rest <:+ F)
    (h3 : s.pos = (F.length : Int) - st.rest.length) (h4 : s.heap.janus = st.jan) : Sees F s st := by
  obtain ⟨hd, hh⟩ := h2
  refine ⟨h1, ⟨hd, by rw [h1, hh], ?_⟩, h4⟩
  rw [h3, ← hh, List.length_append]; omega

theorem Sees.heap {F : Bytes} {s : Scanner} {st : St} (h : Sees F s st) (H : Heap) :
    Sees F { s with heap := H } ⟨st.rest, H.janus⟩ := ⟨h.1, h.2.1, rfl⟩

theorem Sees.sameHeap {F : Bytes} {s : Scanner} {st : St} (h : Sees F s st) (H : Heap) (hj : H.janus = s.heap.janus) :
    Sees F { s with heap := H } st := ⟨h.1, h.2.1, hj.trans h.2.2⟩

theorem Sees.move {F : Bytes} {s : Scanner} {st : St} (h : Sees F s st) {k : Int} (h0 : 0 ≤ k)
    (hk : k ≤ st.rest.length) : ∃ s', s.move k = (true, s') ∧ Sees F s' ⟨st.rest.drop k.toNat, st.jan⟩ := by
  obtain ⟨h1, h2, h3⟩ := h.pos
  unfold Scanner.move
  simp only
  rw [if_neg (by rw [h.1]; simp; omega)]
  refine ⟨_, rfl, sees_of ?_ ?_ ?_ ?_⟩
  · rw [notify_full]; exact h.1
  · exact (List.drop_suffix _ _).trans h3
  · rw [notify_pos]; simp only [List.length_drop]; omega
  · rw [notify_janus]; exact h.2.2

theorem Sees.move_fail {F : Bytes} {s : Scanner} {st : St} (h : Sees F s st) {k : Int}
    (hk : (st.rest.length : Int) < k) : s.move k = (false, s) := by
  obtain ⟨h1, h2, h3⟩ := h.pos
  unfold Scanner.move
  simp only
  rw [if_pos (by rw [h.1]; simp; omega)]

theorem Sees.back {F : Bytes} {s s' : Scanner} {st st' : St} (h : Sees F s st) (h' : Sees F s' st') :
    Sees F (s'.toMarker s.pos).2 ⟨st.rest, st'.jan⟩ := by
  obtain ⟨h1, h2, h3⟩ := h.pos
  unfold Scanner.toMarker
  rw [if_neg (by simp; omega)]
  refine sees_of ?_ h3 ?_ ?_
  · rw [notify_full]; exact h'.1
  · rw [notify_pos]; exact h1
  · rw [notify_janus]; exact h'.2.2

theorem Sees.get {F : Bytes} {s s1 s2 : Scanner} {st st1 st2 : St} (h : Sees F s st) (h1 : Sees F s1 st1)
    (h2 : Sees F s2 st2) (hs : st2.rest <:+ st1.rest) :
    s.get (makeToken s1.pos s2.pos) = .ret (st1.rest.take (st1.rest.length - st2.rest.length)) := by
  obtain ⟨a1, a2, a3⟩ := h1.pos
  obtain ⟨b1, b2, b3⟩ := h2.pos
  have hl := hs.length_le
  unfold makeToken
  rw [if_neg (by omega)]
  unfold Scanner.get
  rw [if_pos (by simp only [h.1]; omega)]
  congr 1
  simp only
  rw [h.1]
  have e1 : F.drop s1.pos.toNat = st1.rest := by
    obtain ⟨hd, hh⟩ := a3
    have : s1.pos.toNat = hd.length := by
      have := congrArg List.length hh
      rw [List.length_append] at this
      omega
    rw [this, ← hh]; simp
  rw [e1]
  congr 1
  omega

theorem hasPrefix_length {t x : Bytes} (h : hasPrefix t x = true) : x.length ≤ t.length := by
  unfold hasPrefix at h
  exact (List.isPrefixOf_iff_prefix.mp h).length_le

theorem decodeRune_le (t : Bytes) : (decodeRune t).2 ≤ t.length := by
  rcases step_cases t with ⟨rfl, h⟩ | ⟨r, p, t', hst, ht, hd, hp⟩
  · rw [h]; simp
  · rw [hd, ht]; simp

/-- A scanner method that moves `k` bytes forward if a test succeeds. -/
theorem rb_move {F : Bytes} {s : Scanner} {st : St} (h : Sees F s st) {k : Nat} (hk : k ≤ st.rest.length) :
    RelE (RB F) (.ret (s.move k)) (.ret (true, ⟨st.rest.drop k, st.jan⟩)) := by
  obtain ⟨s', e, hs⟩ := h.move (k := k) (by omega) (by omega)
  rw [e]
  exact .ret ⟨rfl, by simpa using hs⟩

theorem rb_same {F : Bytes} {s : Scanner} {st : St} (h : Sees F s st) (b : Bool) :
    RelE (RB F) (.ret (b, s)) (.ret (b, st)) := .ret ⟨rfl, h⟩

theorem ifStr_sim {F : Bytes} {s : Scanner} {st : St} (h : Sees F s st) (x : Bytes) :
    RelE (RB F) (s.ifStr x) (lift (eatLit x) st) := by
  unfold Scanner.ifStr lift eatLit
  rw [h.tail]
  simp only [Exec.bind_ret, Exec.pure_eq]
  split
  · next hp => exact rb_move h (hasPrefix_length hp)
  · exact rb_same h _

theorem lift_eq {f : Bytes → Bool × Bytes} {st : St} {b : Bool} {x : Bytes} (h : f st.rest = (b, x)) :
    lift f st = .ret (b, ⟨x, st.jan⟩) := by unfold lift; rw [h]

theorem eatOne_true {p : Int → Bool} {t : Bytes} (h : p (decodeRune t).1 = true) :
    eatOne p t = (true, t.drop (decodeRune t).2) := by unfold eatOne; rw [if_pos h]

theorem eatOne_false {p : Int → Bool} {t : Bytes} (h : p (decodeRune t).1 = false) :
    eatOne p t = (false, t) := by unfold eatOne; rw [if_neg (by rw [h]; decide)]

theorem ifRune_no {F : Bytes} {s : Scanner} {st : St} (h : Sees F s st) {c : Int}
    (hc : ((decodeRune st.rest).1 == c) = false) : s.ifRune c = .ret (false, s) := by
  unfold Scanner.ifRune
  rw [h.tail]
  simp only [Exec.bind_ret, Exec.pure_eq]
  rw [if_pos (by simp only [bne, hc, Bool.not_false])]

theorem ifRune_yes {F : Bytes} {s : Scanner} {st : St} (h : Sees F s st) {c : Int}
    (hc : ((decodeRune st.rest).1 == c) = true) : s.ifRune c = .ret (s.move (decodeRune st.rest).2) := by
  unfold Scanner.ifRune
  rw [h.tail]
  simp only [Exec.bind_ret, Exec.pure_eq]
  rw [if_neg (by simp only [bne, hc, Bool.not_true]; simp)]

theorem ifRune_sim {F : Bytes} {s : Scanner} {st : St} (h : Sees F s st) (c : Int) :
    RelE (RB F) (s.ifRune c) (lift (eatOne (· == c)) st) := by
  cases hc : (decodeRune st.rest).1 == c
  · rw [ifRune_no h hc, lift_eq (eatOne_false hc)]
    exact rb_same h _
  · rw [ifRune_yes h hc, lift_eq (eatOne_true hc)]
    exact rb_move h (decodeRune_le _)

theorem ifAnyRuneLoop_sim {F : Bytes} {s : Scanner} {st : St} (h : Sees F s st) : ∀ rs : List Int,
    RelE (RB F) (s.ifAnyRuneLoop rs) (lift (eatOne (fun v => rs.contains v)) st) := by
  intro rs
  induction rs with
  | nil => exact rb_same h _
  | cons r rs ih =>
    unfold Scanner.ifAnyRuneLoop
    cases hc : (decodeRune st.rest).1 == r
    · rw [ifRune_no h hc]
      simp only [Exec.bind_ret, Bool.false_eq_true, if_false]
      cases hd : rs.contains (decodeRune st.rest).1
      · rw [lift_eq (eatOne_false hd)] at ih
        rw [lift_eq (eatOne_false (by rw [List.contains_cons, hc, hd]; rfl))]
        exact ih
      · rw [lift_eq (eatOne_true hd)] at ih
        rw [lift_eq (eatOne_true (by rw [List.contains_cons, hc, hd]; rfl))]
        exact ih
    · rw [lift_eq (eatOne_true (by rw [List.contains_cons, hc]; rfl)), ifRune_yes h hc]
      have h1 := rb_move h (decodeRune_le st.rest)
      obtain ⟨a, ha, hab⟩ := h1.right rfl
      rw [ha]
      obtain ⟨b, s'⟩ := a
      have : b = true := hab.1
      subst this
      exact .ret hab

theorem containsRune_contains (str : Bytes) : (containsRune str) = (fun v => (runesOf str).contains v) := by
  funext v
  rw [Bool.eq_iff_iff, containsRune_iff, List.contains_iff_mem]

theorem ifAnyRune_sim {F : Bytes} {s : Scanner} {st : St} (h : Sees F s st) (str : Bytes) :
    RelE (RB F) (s.ifAnyRune str) (lift (eatOne (containsRune str)) st) := by
  rw [containsRune_contains]
  exact ifAnyRuneLoop_sim h _

theorem ifBetween_sim {F : Bytes} {s : Scanner} {st : St} (h : Sees F s st) (a b : Int) :
    RelE (RB F) (s.ifBetween a b) (lift (eatBetween a b) st) := by
  unfold Scanner.ifBetween
  rw [h.tail]
  simp only [Exec.bind_ret, Exec.pure_eq]
  by_cases ht : st.rest = []
  · rw [if_pos (by simp [ht]), lift_eq (b := false) (x := st.rest) (by unfold eatBetween; rw [if_pos ht])]
    exact rb_same h _
  · rw [if_neg (by simpa using ht)]
    cases hc : Scanner.inRange a (decodeRune st.rest).1 b
    · rw [lift_eq (b := false) (x := st.rest) (by unfold eatBetween; rw [if_neg ht, eatOne_false hc])]
      exact rb_same h _
    · rw [lift_eq (b := true) (by unfold eatBetween; rw [if_neg ht, eatOne_true hc])]
      exact rb_move h (decodeRune_le _)

theorem ifMatch_sim {F : Bytes} {s : Scanner} {st : St} (h : Sees F s st) (f : Int → Bool) :
    RelE (RB F) (s.ifMatch f) (lift (eatMatch f) st) := by
  unfold Scanner.ifMatch lift eatMatch eatOne
  rw [h.tail]
  simp only [Exec.bind_ret, Exec.pure_eq]
  rcases step_cases st.rest with ⟨h0, hd⟩ | ⟨r, p, t', hst, ht, hd, hp⟩
  · rw [if_pos h0, hd]
    exact rb_same h _
  · have hne : st.rest ≠ [] := by rw [ht]; simp [hp]
    rw [if_neg hne, hd]
    have : (p.length != 0) = true := by simp [hp]
    simp only [this, Bool.true_and]
    cases hc : f r
    · exact rb_same h _
    · refine rb_move h ?_
      rw [ht]; simp

theorem ifFold_sim {F : Bytes} {s : Scanner} {st : St} (h : Sees F s st) (rt : Rt) (x : Bytes) :
    RelE (RB F) (s.ifFold rt x) (if x.length > st.rest.length then .panic else lift (eatFold rt x) st) := by
  unfold Scanner.ifFold lift eatFold
  rw [h.tail]
  simp only [Exec.bind_ret, Exec.pure_eq]
  split
  · exact .panic
  · split
    · exact rb_move h (by omega)
    · exact rb_same h _

theorem ifFalse_sim {F : Bytes} {x : Exec (Bool × Scanner)} {y : Exec (Bool × St)} (w : Bytes) (h : RelE (RB F) x y) :
    RelE (RR F) (ifFalse w x) y := by
  cases h with
  | ret h =>
    rename_i a b
    obtain ⟨ok, s⟩ := a
    obtain ⟨ok', st⟩ := b
    obtain ⟨h1, h2⟩ := h
    simp only at h1
    subst h1
    refine .ret ⟨?_, h2⟩
    unfold Scanner.errorIfFalse
    cases ok <;> rfl
  | panic => exact .panic
  | timeout => exact .timeout

theorem runeLen_pos {t : Bytes} (h : t ≠ []) : 1 ≤ runeLen (decodeRune t).1 := by
  obtain ⟨r, p, hst⟩ := Step.exists h
  rw [(step_iff.mp hst).2.1]
  cases hst with
  | char c t => 
    have := c.valid
    unfold runeLen
    have hv : c.toNat.isValidChar := c.valid
    unfold Nat.isValidChar at hv
    simp only
    repeat' split
    all_goals first | omega | skip
    all_goals simp_all [maxRune] <;> omega
  | bad _ _ _ => show 1 ≤ runeLen 0xFFFD; decide

theorem moveRunes_sim {F : Bytes} {s : Scanner} {st : St} (h : Sees F s st) :
    RelE (RB F) (s.moveRunes 1) (lift eatStep st) := by
  unfold Scanner.moveRunes lift eatStep
  rw [if_pos (by decide), h.tail]
  simp only [Exec.bind_ret, Exec.pure_eq]
  by_cases ht : st.rest = []
  · have : (rangeStr st.rest)[((1 : Int) - 1).toNat]? = none := by rw [ht]; rfl
    rw [this, if_neg (by simp [ht])]
    exact rb_same h _
  · have : (rangeStr st.rest)[((1 : Int) - 1).toNat]? = some (0, (decodeRune st.rest).1) := by
      cases hr : st.rest with
      | nil => exact absurd hr ht
      | cons b t => rfl
    rw [this]
    simp only
    have hp := runeLen_pos ht
    by_cases hl : runeLen (decodeRune st.rest).1 ≤ st.rest.length
    · rw [if_pos ⟨ht, hl⟩]
      obtain ⟨s', e, hs⟩ := h.move (k := runeLen (decodeRune st.rest).1) (by omega) hl
      rw [show ((0 : Nat) : Int) + runeLen (decodeRune st.rest).1 = runeLen (decodeRune st.rest).1 by omega, e]
      exact .ret ⟨rfl, hs⟩
    · rw [if_neg (by simp [hl]), show ((0 : Nat) : Int) + runeLen (decodeRune st.rest).1 = runeLen (decodeRune st.rest).1 by omega,
        h.move_fail (by omega)]
      exact rb_same h _

theorem eatRanges_no {l : List (Int × Int)} {t : Bytes} : (eatRanges l t).1 = false → (eatRanges l t).2 = t := by
  induction l with
  | nil => intro _; rfl
  | cons x l ih =>
    obtain ⟨a, b⟩ := x
    unfold eatRanges
    split
    · next hx => intro h; rw [hx] at h; cases h
    · exact ih

theorem betweenAnyLoop_sim {F : Bytes} {s : Scanner} {st : St} (h : Sees F s st) : ∀ l : List (Int × Int),
    RelE (RB F) (betweenAnyLoop l s) (lift (eatRanges l) st)
  | [] => rb_same h _
  | (a, b) :: l => by
    unfold betweenAnyLoop
    have h1 := ifBetween_sim h a b
    have ih := betweenAnyLoop_sim h l
    have hun : lift (eatRanges ((a, b) :: l)) st =
      lift (fun t => if (eatBetween a b t).1 = true then eatBetween a b t else eatRanges l t) st := rfl
    rw [hun]
    cases hc : (eatBetween a b st.rest).1
    · have e : eatBetween a b st.rest = (false, st.rest) := by
        revert hc; unfold eatBetween eatOne; repeat' split
        all_goals simp_all
      rw [lift_eq e] at h1
      have hs : s.ifBetween a b = .ret (false, s) := by
        unfold Scanner.ifBetween
        rw [h.tail]
        simp only [Exec.bind_ret, Exec.pure_eq]
        revert hc
        unfold eatBetween eatOne
        repeat' split
        all_goals simp_all
      rw [hs]
      simp only [Exec.bind_ret, Bool.false_eq_true, if_false]
      have : lift (fun t => if (eatBetween a b t).1 = true then eatBetween a b t else eatRanges l t) st =
          lift (eatRanges l) st := by
        unfold lift; simp only; rw [hc]; rfl
      rw [this]; exact ih
    · have : lift (fun t => if (eatBetween a b t).1 = true then eatBetween a b t else eatRanges l t) st =
          lift (eatBetween a b) st := by
        unfold lift; simp only [hc, if_true]
      rw [this]
      obtain ⟨x, hx, hab⟩ := h1.right rfl
      obtain ⟨ok, s'⟩ := x
      rw [hx]
      have : ok = true := hab.1.trans hc
      subst this
      exact .ret hab

theorem ifStr_no {F : Bytes} {s : Scanner} {st : St} (h : Sees F s st) {x : Bytes}
    (hx : hasPrefix st.rest x = false) : s.ifStr x = .ret (false, s) := by
  unfold Scanner.ifStr
  rw [h.tail]
  simp only [Exec.bind_ret, Exec.pure_eq]
  rw [if_neg (by rw [hx]; decide)]

theorem ifStr_yes {F : Bytes} {s : Scanner} {st : St} (h : Sees F s st) {x : Bytes}
    (hx : hasPrefix st.rest x = true) : ∃ s', s.ifStr x = .ret (true, s') ∧ Sees F s' ⟨st.rest.drop x.length, st.jan⟩ := by
  unfold Scanner.ifStr
  rw [h.tail]
  simp only [Exec.bind_ret, Exec.pure_eq]
  rw [if_pos hx]
  obtain ⟨s', e, hs⟩ := h.move (k := x.length) (by omega) (by have := hasPrefix_length hx; omega)
  exact ⟨s', by rw [e], by simpa using hs⟩

/-- `IfAny`, in the two ways it can end. -/
theorem ifAny_cases {F : Bytes} {s : Scanner} {st : St} (h : Sees F s st) : ∀ l : List Bytes,
    (s.ifAny l = .ret (false, s) ∧ eatLits l st.rest = (false, st.rest)) ∨
    (∃ s' x, s.ifAny l = .ret (true, s') ∧ eatLits l st.rest = (true, x) ∧ Sees F s' ⟨x, st.jan⟩)
  | [] => .inl ⟨rfl, rfl⟩
  | x :: l => by
    unfold Scanner.ifAny eatLits
    cases hx : hasPrefix st.rest x
    · rw [ifStr_no h hx]
      simpa using ifAny_cases h l
    · obtain ⟨s', e, hs⟩ := ifStr_yes h hx
      rw [e]
      exact .inr ⟨s', _, rfl, rfl, hs⟩

theorem eatLits_append (l l' : List Bytes) (t : Bytes) :
    eatLits (l ++ l') t = if (eatLits l t).1 then eatLits l t else eatLits l' t := by
  induction l with
  | nil => rfl
  | cons x l ih =>
    simp only [List.cons_append]
    rw [eatLits.eq_2, eatLits.eq_2]
    split
    · rfl
    · exact ih

theorem ifStr_ifAny (s : Scanner) (x : Bytes) : s.ifStr x = s.ifAny [x] := by
  unfold Scanner.ifAny
  cases h : s.ifStr x with
  | ret a =>
    obtain ⟨ok, s'⟩ := a
    cases ok <;> rfl
  | panic => rfl
  | timeout => rfl

/-- The common shape of the formats of `ReadBool`. -/
theorem bool_sim {F : Bytes} {s : Scanner} {st : St} (h : Sees F s st) (l l' : List Bytes) :
    ∃ v e s', (do
        let (ok, s) ← s.ifAny l
        if ok then pure ((true, none), s)
        else do
          let (ok, s) ← s.ifAny l'
          if ok then pure ((false, none), s)
          else pure ((false, some (s.errorFor b!"bool")), s) : Exec ((Bool × Option Err) × Scanner)) = .ret ((v, e), s') ∧
      RR F (e, s') ((eatLits (l ++ l') st.rest).1, ⟨(eatLits (l ++ l') st.rest).2, st.jan⟩) := by
  rw [eatLits_append]
  rcases ifAny_cases h l with ⟨h1, h2⟩ | ⟨s', x, h1, h2, h3⟩
  · rcases ifAny_cases h l' with ⟨h1', h2'⟩ | ⟨s', x, h1', h2', h3'⟩
    · rw [h1, h2, h2']
      simp only [Exec.bind_ret, Bool.false_eq_true, if_false]
      rw [h1']
      exact ⟨_, _, _, rfl, rfl, h⟩
    · rw [h1, h2, h2']
      simp only [Exec.bind_ret, Bool.false_eq_true, if_false]
      rw [h1']
      exact ⟨_, _, _, rfl, rfl, h3'⟩
  · rw [h1, h2]
    exact ⟨_, _, _, rfl, rfl, h3⟩

theorem readBool_sim {F : Bytes} {s : Scanner} {st : St} (h : Sees F s st) (f : Bytes) :
    ∃ v e s', s.readBool f = .ret ((v, e), s') ∧ RR F (e, s') ((eatBool f st.rest).1, ⟨(eatBool f st.rest).2, st.jan⟩) := by
  unfold Scanner.readBool eatBool
  by_cases h1 : (f == [] || f == b!"*") = true
  · rw [if_pos h1, if_pos h1]
    exact bool_sim h [b!"true", b!"True", b!"TRUE"] [b!"false", b!"False", b!"FALSE"]
  · rw [if_neg h1, if_neg h1]
    simp only [ifStr_ifAny]
    by_cases h2 : (f == b!"l") = true
    · simp only [h2, if_true]
      exact bool_sim h [b!"true"] [b!"false"]
    · simp only [h2, if_false]
      by_cases h3 : (f == b!"U") = true
      · simp only [h3, if_true]
        exact bool_sim h [b!"TRUE"] [b!"FALSE"]
      · simp only [h3, if_false]
        by_cases h4 : (f == b!"Cc") = true
        · simp only [h4, if_true]
          exact bool_sim h [b!"True"] [b!"False"]
        · simp only [h4, if_false]
          exact ⟨_, _, _, rfl, rfl, h⟩

/-- The index reported by the digit loops is the old one or that of a rune. -/
theorem intLoop_index (cf : Int → Int) (base mn mx : Int) (neg : Bool) : ∀ (l : List (Nat × Int)) (i n : Int),
    (intLoop cf base mn mx neg l i n).2 = n ∨ ∃ x ∈ l, (intLoop cf base mn mx neg l i n).2 = (x.1 : Int)
  | [], _, _ => .inl rfl
  | (k, r) :: l, i, n => by
    unfold intLoop
    have key : ∀ i', (intLoop cf base mn mx neg l i' k).2 = n ∨
        ∃ x ∈ (k, r) :: l, (intLoop cf base mn mx neg l i' k).2 = (x.1 : Int) := by
      intro i'
      rcases intLoop_index cf base mn mx neg l i' k with h | ⟨x, hx, h⟩
      · exact .inr ⟨(k, r), List.mem_cons_self, h⟩
      · exact .inr ⟨x, List.mem_cons_of_mem _ hx, h⟩
    simp only
    repeat' split
    all_goals first | exact .inl rfl | exact key _

theorem uintLoop_index (cf : Int → Int) (base mx : Nat) : ∀ (l : List (Nat × Int)) (u : Nat) (n : Int),
    (uintLoop cf base mx l u n).2 = n ∨ ∃ x ∈ l, (uintLoop cf base mx l u n).2 = (x.1 : Int)
  | [], _, _ => .inl rfl
  | (k, r) :: l, u, n => by
    unfold uintLoop
    have key : ∀ i', (uintLoop cf base mx l i' k).2 = n ∨
        ∃ x ∈ (k, r) :: l, (uintLoop cf base mx l i' k).2 = (x.1 : Int) := by
      intro i'
      rcases uintLoop_index cf base mx l i' k with h | ⟨x, hx, h⟩
      · exact .inr ⟨(k, r), List.mem_cons_self, h⟩
      · exact .inr ⟨x, List.mem_cons_of_mem _ hx, h⟩
    simp only
    repeat' split
    all_goals first | exact .inl rfl | exact key _

theorem rangeGo_lt (s : Bytes) : ∀ k i, ∀ x ∈ rangeGo k i s, x.1 < i + s.length := by
  induction s with
  | nil => intro k i x hx; unfold rangeGo at hx; cases k <;> simp at hx
  | cons b t ih =>
    intro k i x hx
    cases k with
    | zero =>
      unfold rangeGo at hx
      rcases List.mem_cons.mp hx with hx | hx
      · subst hx; simp
      · have := ih _ _ x hx; simp only [List.length_cons]; omega
    | succ k =>
      unfold rangeGo at hx
      have := ih _ _ x hx; simp only [List.length_cons]; omega

theorem rangeStr_lt {s : Bytes} {x : Nat × Int} (hx : x ∈ rangeStr s) : x.1 < s.length := by
  have := rangeGo_lt s 0 0 x hx; omega

theorem readUint_sim {F : Bytes} {s : Scanner} {st : St} (h : Sees F s st) (base bits : Int) :
    ∃ v e s', s.readUint base bits = .ret ((v, e), s') ∧
      RR F (e, s') ((eatUint base bits st.rest).1, ⟨(eatUint base bits st.rest).2, st.jan⟩) := by
  unfold Scanner.readUint eatUint
  rcases charFunc base with _ | cf
  · exact ⟨_, _, _, rfl, rfl, h⟩
  · rcases uintMax bits with _ | mx
    · exact ⟨_, _, _, rfl, rfl, h⟩
    · simp only
      rw [h.tail]
      simp only [Exec.bind_ret]
      have hi := uintLoop_index cf base.toNat mx (rangeStr st.rest) 0 (-1)
      generalize uintLoop cf base.toNat mx (rangeStr st.rest) 0 (-1) = res at hi ⊢
      obtain ⟨u, n⟩ := res
      simp only at hi ⊢
      by_cases hn : n = -1
      · rw [if_pos hn, if_pos hn]
        exact ⟨_, _, _, rfl, rfl, h⟩
      · rw [if_neg hn, if_neg hn]
        rcases hi with hi | ⟨x, hx, hi⟩
        · exact absurd hi hn
        · have := rangeStr_lt hx
          obtain ⟨s', e, hs⟩ := h.move (k := n + 1) (by omega) (by omega)
          rw [e]
          exact ⟨_, _, _, rfl, rfl, hs⟩

theorem readInt_sim {F : Bytes} {s : Scanner} {st : St} (h : Sees F s st) (base bits : Int) :
    ∃ v e s', s.readInt base bits = .ret ((v, e), s') ∧
      RR F (e, s') ((eatInt base bits st.rest).1, ⟨(eatInt base bits st.rest).2, st.jan⟩) := by
  unfold Scanner.readInt eatInt
  rcases charFunc base with _ | cf
  · exact ⟨_, _, _, rfl, rfl, h⟩
  · rcases intBounds bits with _ | ⟨mn, mx⟩
    · exact ⟨_, _, _, rfl, rfl, h⟩
    · simp only
      obtain ⟨⟨minus, s1⟩, e1, h1a, h1b⟩ := (ifRune_sim h 45).right rfl
      simp only at h1a h1b
      subst h1a
      rw [e1]
      rw [Exec.bind_ret]
      have hsign : ∃ b s2, (if (eatOne (fun x => x == 45) st.rest).1 = true then pure (true, s1) else s1.ifRune 43 :
          Exec (Bool × Scanner)) = .ret (b, s2) ∧ Sees F s2 ⟨eatSign st.rest, st.jan⟩ := by
        unfold eatSign
        cases hm : (eatOne (fun x => x == 45) st.rest).1
        · have e2 : (eatOne (fun x => x == 45) st.rest).2 = st.rest := by
            revert hm; unfold eatOne; split <;> simp
          rw [e2] at h1b
          obtain ⟨⟨b, s2⟩, e3, h3a, h3b⟩ := (ifRune_sim h1b 43).right rfl
          exact ⟨b, s2, by simpa using e3, h3b⟩
        · exact ⟨_, _, rfl, h1b⟩
      obtain ⟨b, s2, e2, h2⟩ := hsign
      have hi := intLoop_index cf base mn mx (eatOne (fun x => x == 45) st.rest).1 (rangeStr (eatSign st.rest)) 0 (-1)
      simp only
      generalize (eatOne (fun x => x == 45) st.rest).1 = minus at e2 hi ⊢
      have fin : ∃ v e s', (do
          let t ← s2.tail
          let (i64, n) := intLoop cf base mn mx minus (rangeStr t) 0 (-1)
          if n = -1 then
            let s := (s2.toMarker s.mark).2
            pure ((0, some (s.errorFor b!"integer")), s)
          else pure ((i64, none), (s2.move (n + 1)).2) : Exec ((Int × Option Err) × Scanner)) = .ret ((v, e), s') ∧
          RR F (e, s') ((if (intLoop cf base mn mx minus (rangeStr (eatSign st.rest)) 0 (-1)).2 = -1 then (false, st.rest)
            else (true, (eatSign st.rest).drop ((intLoop cf base mn mx minus (rangeStr (eatSign st.rest)) 0 (-1)).2 + 1).toNat)).1,
            ⟨(if (intLoop cf base mn mx minus (rangeStr (eatSign st.rest)) 0 (-1)).2 = -1 then (false, st.rest)
            else (true, (eatSign st.rest).drop ((intLoop cf base mn mx minus (rangeStr (eatSign st.rest)) 0 (-1)).2 + 1).toNat)).2,
            st.jan⟩) := by
        rw [h2.tail]
        simp only [Exec.bind_ret]
        generalize intLoop cf base mn mx minus (rangeStr (eatSign st.rest)) 0 (-1) = res at hi ⊢
        obtain ⟨u, n⟩ := res
        simp only at hi ⊢
        by_cases hn : n = -1
        · rw [if_pos hn, if_pos hn]
          have hb := h.back h2
          exact ⟨_, _, _, rfl, rfl, hb⟩
        · rw [if_neg hn, if_neg hn]
          rcases hi with hi | ⟨x, hx, hi⟩
          · exact absurd hi hn
          · have := rangeStr_lt hx
            obtain ⟨s', e, hs⟩ := h2.move (k := n + 1) (by omega) (by simp only; omega)
            rw [e]
            exact ⟨_, _, _, rfl, rfl, hs⟩
      cases minus
      · simp only [Bool.false_eq_true, if_false] at e2 ⊢
        rw [e2]
        exact fin
      · simp only [if_true] at e2 ⊢
        rw [e2]
        exact fin

/-! ### the loops -/

/-- A reader on scanners and one on states agree on the text `F`. -/
def SimF (F : Bytes) (f : ReadFunc) (g : EatFunc) : Prop := ∀ s st, Sees F s st → RelE (RR F) (f s) (g st)

/-- Both ways of writing "did it work" agree. -/
theorem RR.ok {F : Bytes} {e : Option Err} {s : Scanner} {ok : Bool} {st : St} (h : RR F (e, s) (ok, st)) :
    (e = none ∧ ok = true) ∨ (∃ x, e = some x ∧ ok = false) := by
  have := h.1
  cases e with
  | none => exact .inl ⟨rfl, this.symm⟩
  | some x => exact .inr ⟨x, rfl, this.symm⟩

theorem anyLoop_sim {F : Bytes} {f : Reader → ReadFunc} {g : Reader → EatFunc} : ∀ (rs : List Reader)
    (_ : ∀ r ∈ rs, SimF F (f r) (g r)) (errs : List Err) (s : Scanner) (st : St), Sees F s st →
    RelE (fun a b => a.1.isNone = b.1 ∧ Sees F a.2 b.2) (anyLoop f rs errs s) (eatAny g rs st)
  | [], _, _, _, _, h => .ret ⟨rfl, h⟩
  | r :: rs, hr, errs, s, st, h => (hr r List.mem_cons_self s st h).bind fun a b _ _ hab => by
    obtain ⟨e, s'⟩ := a
    obtain ⟨ok, st'⟩ := b
    rcases hab.ok with ⟨rfl, rfl⟩ | ⟨x, rfl, rfl⟩
    · exact .ret ⟨rfl, hab.2⟩
    · exact anyLoop_sim rs (fun r h => hr r (List.mem_cons_of_mem _ h)) _ _ _ hab.2

theorem seqLoop_sim {F : Bytes} {f : Reader → ReadFunc} {g : Reader → EatFunc} : ∀ (rs : List Reader)
    (_ : ∀ r ∈ rs, SimF F (f r) (g r)), SimF F (seqLoop f rs) (eatSeq g rs)
  | [], _, _, _, h => .ret ⟨rfl, h⟩
  | r :: rs, hr, s, st, h => (hr r List.mem_cons_self s st h).bind fun a b _ _ hab => by
    obtain ⟨e, s'⟩ := a
    obtain ⟨ok, st'⟩ := b
    rcases hab.ok with ⟨rfl, rfl⟩ | ⟨x, rfl, rfl⟩
    · exact seqLoop_sim rs (fun r h => hr r (List.mem_cons_of_mem _ h)) _ _ hab.2
    · exact .ret ⟨rfl, hab.2⟩

theorem skipSeqLoop_sim {F : Bytes} {f : Reader → ReadFunc} {g : Reader → EatFunc} {sk : Reader} (hs : SimF F (f sk) (g sk)) :
    ∀ (rs : List Reader) (_ : ∀ r ∈ rs, SimF F (f r) (g r)), SimF F (skipSeqLoop f sk rs) (eatSkip g sk rs)
  | [], _, _, _, h => .ret ⟨rfl, h⟩
  | r :: rs, hr, s, st, h => (hr r List.mem_cons_self s st h).bind fun a b _ _ hab => by
    obtain ⟨e, s'⟩ := a
    obtain ⟨ok, st'⟩ := b
    rcases hab.ok with ⟨rfl, rfl⟩ | ⟨x, rfl, rfl⟩
    · refine (hs s' st' hab.2).bind fun a b _ _ hab => ?_
      obtain ⟨e, s''⟩ := a
      obtain ⟨ok, st''⟩ := b
      rcases hab.ok with ⟨rfl, rfl⟩ | ⟨x, rfl, rfl⟩
      · exact skipSeqLoop_sim hs rs (fun r h => hr r (List.mem_cons_of_mem _ h)) _ _ hab.2
      · exact .ret ⟨rfl, hab.2⟩
    · exact .ret ⟨rfl, hab.2⟩

theorem timesLoop_sim {F : Bytes} {f : ReadFunc} {g : EatFunc} (hf : SimF F f g) : ∀ k, SimF F (timesLoop f k) (eatTimes g k)
  | 0, _, _, h => .ret ⟨rfl, h⟩
  | k + 1, s, st, h => (hf s st h).bind fun a b _ _ hab => by
    obtain ⟨e, s'⟩ := a
    obtain ⟨ok, st'⟩ := b
    rcases hab.ok with ⟨rfl, rfl⟩ | ⟨x, rfl, rfl⟩
    · exact timesLoop_sim hf k _ _ hab.2
    · exact .ret ⟨rfl, hab.2⟩

theorem zomLoop_sim {F : Bytes} {f : ReadFunc} {g : EatFunc} (hf : SimF F f g) : ∀ k s st, Sees F s st →
    RelE (Sees F) (zomLoop f k s) (eatZom g k st)
  | 0, _, _, _ => .timeout
  | k + 1, s, st, h => (hf s st h).bind fun a b _ _ hab => by
    obtain ⟨e, s'⟩ := a
    obtain ⟨ok, st'⟩ := b
    rcases hab.ok with ⟨rfl, rfl⟩ | ⟨x, rfl, rfl⟩
    · exact zomLoop_sim hf k _ _ hab.2
    · exact .ret hab.2

/-- `Use` on a sub-scanner. -/
theorem use_sim {F : Bytes} {f : ReadFunc} {g : EatFunc} (hf : SimF F f g) {s : Scanner} {st : St} (h : Sees F s st) :
    RelE (fun a b => a.1.isNone = b.1 ∧ Sees F a.2 (orBack st.rest b).2) (s.use f) (g st) := by
  unfold Scanner.use
  have := (hf s st h).bind (R' := fun a b => a.1.isNone = b.1 ∧ Sees F a.2 (orBack st.rest b).2)
    (f := fun x => if x.1.isSome then pure (x.1, (x.2.toMarker s.mark).2) else pure (x.1, x.2)) (g := fun b => .ret b)
    (fun a b _ _ hab => by
      obtain ⟨e, s'⟩ := a
      obtain ⟨ok, st'⟩ := b
      rcases hab.ok with ⟨rfl, rfl⟩ | ⟨x, rfl, rfl⟩
      · exact .ret ⟨rfl, hab.2⟩
      · exact .ret ⟨rfl, h.back hab.2⟩)
  have e : (g st >>= fun b => Exec.ret b) = g st := by cases g st <;> rfl
  rw [e] at this
  exact this

theorem bodyLoop_sim {F : Bytes} {b t : ReadFunc} {b' t' : EatFunc} (hb : ∀ F, SimF F b b') (ht : SimF F t t')
    (hsh : Shrinks t') {s0 : Scanner} {st0 : St} (h0 : Sees F s0 st0) : ∀ n s st, Sees F s st → st.rest <:+ st0.rest →
    RelE (fun x y => Sees F x.2 y.2 ∧ match x.1, y.1 with
      | some m, some rest => m = (F.length : Int) - rest.length ∧ rest <:+ st0.rest
      | none, none => True
      | _, _ => False) (bodyLoop b t s0.pos n s) (eatBody b' t' st0.rest n st)
  | 0, _, _, _, _ => .timeout
  | n + 1, s, st, h, hsuf => by
    unfold bodyLoop eatBody
    rw [h.atEnd]
    cases hr : st.rest.isEmpty
    · have hne : st.rest ≠ [] := by simpa using hr
      rw [if_neg (by simp), if_neg hne]
      refine (ht s st h).bind fun x y _ hy hxy => ?_
      obtain ⟨e, s'⟩ := x
      obtain ⟨ok, st'⟩ := y
      have hst' : st'.rest <:+ st.rest := hsh st _ hy
      rcases hxy.ok with ⟨rfl, rfl⟩ | ⟨x, rfl, rfl⟩
      · simp only [if_true]
        rw [show makeToken s0.pos s.mark = makeToken s0.pos s.pos from rfl, hxy.2.get h0 h hsuf]
        simp only [Exec.bind_ret]
        generalize hstr : st0.rest.take (st0.rest.length - st.rest.length) = str
        have hnew : Sees str (Scanner.new str s'.heap) ⟨str, st'.jan⟩ :=
          ⟨rfl, ⟨[], rfl, rfl⟩, hxy.2.2.2⟩
        refine (use_sim (hb str) hnew).bind fun x y _ _ hxy' => ?_
        obtain ⟨e, sub⟩ := x
        obtain ⟨ok, sub'⟩ := y
        have hok : e.isNone = ok := hxy'.1
        have hsee : Sees F { s' with heap := sub.heap } ⟨st'.rest, sub'.jan⟩ := by
          have := hxy.2.heap sub.heap
          have hj : sub.heap.janus = sub'.jan := by
            have := hxy'.2.2.2
            simp only at this
            rw [this]
            unfold orBack; split <;> rfl
          rw [hj] at this
          exact this
        cases e with
        | some e =>
          have hok : ok = false := hok.symm
          subst hok
          exact .ret ⟨hsee, trivial⟩
        | none =>
          have hok : ok = true := hok.symm
          subst hok
          have hend : sub.atEnd = sub'.rest.isEmpty := hxy'.2.atEnd
          simp only [Option.isSome_none, Bool.false_or, Bool.true_and]
          rw [hend]
          cases sub'.rest.isEmpty
          · exact .ret ⟨hsee, trivial⟩
          · exact .ret ⟨hsee, h.pos.1, hsuf⟩
      · simp only [Bool.false_eq_true, if_false]
        obtain ⟨⟨ok, s''⟩, e2, h2⟩ := (moveRunes_sim hxy.2).right rfl
        rw [e2]
        simp only [Exec.bind_ret]
        exact bodyLoop_sim hb ht hsh h0 n _ _ h2.2 ((eatStep_suffix _).trans (hst'.trans hsuf))
    · rw [if_pos rfl, if_pos (by simpa using hr)]
      exact .ret ⟨h, trivial⟩

theorem pastLoop_sim {F : Bytes} {f : ReadFunc} {g : EatFunc} (hf : SimF F f g) : ∀ n s st, Sees F s st →
    RelE (RB F) (pastLoop f n s) (eatPast g n st)
  | 0, _, _, _ => .timeout
  | n + 1, s, st, h => by
    unfold pastLoop eatPast
    rw [h.atEnd]
    cases hr : st.rest.isEmpty
    · have hne : st.rest ≠ [] := by simpa using hr
      rw [if_neg (by simp), if_neg hne]
      refine (hf s st h).bind fun x y _ hy hxy => ?_
      obtain ⟨e, s'⟩ := x
      obtain ⟨ok, st'⟩ := y
      rcases hxy.ok with ⟨rfl, rfl⟩ | ⟨x, rfl, rfl⟩
      · exact .ret ⟨rfl, hxy.2⟩
      · simp only [Bool.false_eq_true, if_false]
        obtain ⟨⟨ok, s''⟩, e2, h2⟩ := (moveRunes_sim hxy.2).right rfl
        rw [e2]
        simp only [Exec.bind_ret]
        exact pastLoop_sim hf n _ _ h2.2
    · rw [if_pos rfl, if_pos (by simpa using hr)]
      exact .ret ⟨rfl, h⟩

theorem toLoop_sim {F : Bytes} {f : ReadFunc} {g : EatFunc} (hf : SimF F f g) : ∀ n s st, Sees F s st →
    RelE (RB F) (toLoop f n s) (eatTo g n st)
  | 0, _, _, _ => .timeout
  | n + 1, s, st, h => by
    unfold toLoop eatTo
    refine (hf s st h).bind fun x y _ hy hxy => ?_
    obtain ⟨e, s'⟩ := x
    obtain ⟨ok, st'⟩ := y
    rcases hxy.ok with ⟨rfl, rfl⟩ | ⟨x, rfl, rfl⟩
    · exact .ret ⟨rfl, h.back hxy.2⟩
    · simp only [Bool.false_eq_true, if_false]
      obtain ⟨⟨ok, s''⟩, e2, h2a, h2b⟩ := (moveRunes_sim hxy.2).right rfl
      simp only at h2a h2b
      subst h2a
      rw [e2]
      simp only [Exec.bind_ret]
      cases hc : (eatStep st'.rest).1
      · have : (eatStep st'.rest).2 = st'.rest := by
          revert hc; unfold eatStep; split <;> simp
        rw [this] at h2b
        exact .ret ⟨rfl, h2b⟩
      · exact toLoop_sim hf n _ _ h2b

theorem tokenizeUse_sim {F : Bytes} {f : ReadFunc} {g : EatFunc} (hf : SimF F f g) {s : Scanner} {st : St} (h : Sees F s st) :
    RelE (fun a b => a.1.2.isNone = b.1 ∧ Sees F a.2 (orBack st.rest b).2 ∧ a.1.1 = makeToken s.pos a.2.pos)
      (s.tokenizeUse f) (g st) := by
  unfold Scanner.tokenizeUse
  have := (hf s st h).bind
    (R' := fun a b => a.1.2.isNone = b.1 ∧ Sees F a.2 (orBack st.rest b).2 ∧ a.1.1 = makeToken s.pos a.2.pos)
    (f := fun x =>
      let s' := if x.1.isSome then (x.2.toMarker s.mark).2 else x.2
      pure ((makeToken s.mark s'.mark, x.1), s')) (g := fun b => .ret b)
    (fun a b _ _ hab => by
      obtain ⟨e, s'⟩ := a
      obtain ⟨ok, st'⟩ := b
      rcases hab.ok with ⟨rfl, rfl⟩ | ⟨x, rfl, rfl⟩
      · exact .ret ⟨rfl, hab.2, rfl⟩
      · exact .ret ⟨rfl, h.back hab.2, rfl⟩)
  have e : (g st >>= fun b => Exec.ret b) = g st := by cases g st <;> rfl
  rw [e] at this
  exact this

/-- `Wrap` is the only reader whose behaviour is not given by the package. -/
def Reader.noWrap : Reader → Bool
  | .wrap _ _ => false
  | _ => true

/-- `eat` describes `read`. -/
theorem read_eat (rt : Rt) (G : Env) (hG : G.Every (fun r => r.noWrap = true)) : ∀ n r,
    r.Every (fun r => r.noWrap = true) → ∀ F, SimF F (read rt G n r) (eat rt G n r)
  | 0, _, _, _, _, _, _ => .timeout
  | n + 1, r, hr, F, s, st, h => by
    have ih := fun c hc => read_eat rt G hG n c hc
    have sub : ∀ c ∈ r.subs, SimF F (read rt G n c) (eat rt G n c) := fun c hc => ih c (hr.sub hc) F
    cases r with
    | any rs =>
      refine (anyLoop_sim rs sub [] s st h).bind fun a b _ _ hab => ?_
      obtain ⟨e, s'⟩ := a
      obtain ⟨ok, st'⟩ := b
      cases e with
      | none =>
        have : ok = true := hab.1.symm
        subst this
        exact .ret ⟨rfl, hab.2⟩
      | some errs =>
        have : ok = false := hab.1.symm
        subst this
        exact .ret ⟨rfl, h.back hab.2⟩
    | anyRune str => exact ifFalse_sim _ (ifAnyRune_sim h str)
    | at_ c =>
      refine (sub c (by simp [Reader.subs]) s st h).bind fun a b _ _ hab => ?_
      exact .ret ⟨hab.1, h.back hab.2⟩
    | atEnd =>
      refine .ret ⟨?_, h⟩
      rw [h.atEnd]
      unfold Scanner.errorIfFalse
      cases st.rest.isEmpty <;> rfl
    | between a b => exact ifFalse_sim _ (ifBetween_sim h a b)
    | betweenAny ranges singles =>
      simp only [read, eat]
      obtain ⟨⟨ok, s'⟩, e1, h1a, h1b⟩ := (betweenAnyLoop_sim h ranges).right rfl
      simp only at h1a h1b
      subst h1a
      rw [e1]
      simp only [Exec.bind_ret]
      cases hc : (eatRanges ranges st.rest).1
      · have hsame : (eatRanges ranges st.rest).2 = st.rest := by
          exact eatRanges_no hc
        rw [hsame] at h1b
        obtain ⟨⟨ok, s''⟩, e2, h2a, h2b⟩ := (ifAnyRune_sim h1b singles).right rfl
        simp only at h2a h2b
        subst h2a
        simp only [Bool.false_eq_true, if_false]
        rw [e2]
        simp only [Exec.bind_ret]
        cases hd : (eatOne (containsRune singles) st.rest).1
        · have e3 := eatOne_false (p := containsRune singles) (t := st.rest) (by
            revert hd; unfold eatOne; split <;> simp_all)
          rw [lift_eq (b := false) (x := st.rest) (by unfold eatSet; rw [hc]; simp [e3])]
          refine .ret ⟨rfl, ?_⟩
          rw [e3] at h2b
          have := h.back h2b
          exact this
        · rw [lift_eq (b := true) (x := (eatOne (containsRune singles) st.rest).2)
            (by unfold eatSet; rw [hc, if_neg (by decide), ← hd])]
          exact .ret ⟨rfl, h2b⟩
      · rw [lift_eq (b := true) (x := (eatRanges ranges st.rest).2) (by unfold eatSet; rw [hc, if_pos rfl, ← hc])]
        exact .ret ⟨rfl, h1b⟩
    | body b t =>
      have hsh := eat_shrinks rt G n t
      refine (bodyLoop_sim (ih b (hr.sub (by simp [Reader.subs]))) (sub t (by simp [Reader.subs])) hsh h n s st h
        (List.suffix_refl _)).bind fun x y _ _ hxy => ?_
      obtain ⟨m, s'⟩ := x
      obtain ⟨o, st'⟩ := y
      obtain ⟨h1, h2⟩ := hxy
      cases m with
      | none =>
        cases o with
        | none => exact .ret ⟨rfl, h.back h1⟩
        | some rest => exact h2.elim
      | some m =>
        cases o with
        | none => exact h2.elim
        | some rest =>
          refine .ret ⟨rfl, ?_⟩
          obtain ⟨h2a, h2b⟩ := h2
          have hs : Sees F { s' with pos := m } ⟨rest, s'.heap.janus⟩ :=
            sees_of h1.1 (h2b.trans h.pos.2.2) h2a rfl
          exact hs.back h1
    | bodyTail b t =>
      have hsh := eat_shrinks rt G n t
      refine (bodyLoop_sim (ih b (hr.sub (by simp [Reader.subs]))) (sub t (by simp [Reader.subs])) hsh h n s st h
        (List.suffix_refl _)).bind fun x y _ _ hxy => ?_
      obtain ⟨m, s'⟩ := x
      obtain ⟨o, st'⟩ := y
      obtain ⟨h1, h2⟩ := hxy
      cases m with
      | none =>
        cases o with
        | none => exact .ret ⟨rfl, h.back h1⟩
        | some rest => exact h2.elim
      | some m =>
        cases o with
        | none => exact h2.elim
        | some rest => exact .ret ⟨rfl, h1⟩
    | bool c f =>
      obtain ⟨v, e, s', e1, h1⟩ := readBool_sim h f
      simp only [read]
      rw [e1]
      exact .ret ⟨h1.1, h1.2.sameHeap _ rfl⟩
    | fold v => exact ifFalse_sim _ (ifFold_sim h rt v)
    | holey a b c =>
      simp only [read, eat]
      rw [h.tail]
      simp only [Exec.bind_ret]
      cases hc : (Scanner.inRange a (decodeRune st.rest).1 b && !containsRune c (decodeRune st.rest).1)
      · rw [lift_eq (eatOne_false hc)]
        exact .ret ⟨rfl, h⟩
      · rw [lift_eq (eatOne_true hc)]
        obtain ⟨s', e, hs⟩ := h.move (k := (decodeRune st.rest).2) (by omega) (by have := decodeRune_le st.rest; omega)
        rw [e]
        exact .ret ⟨rfl, by simpa using hs⟩
    | int c a b =>
      obtain ⟨v, e, s', e1, h1⟩ := readInt_sim h a b
      simp only [read]
      rw [e1]
      exact .ret ⟨h1.1, h1.2.sameHeap _ rfl⟩
    | janusBegin id nm c =>
      have hsh := eat_shrinks rt G n c
      refine (tokenizeUse_sim (sub c (by simp [Reader.subs])) h).bind fun x y _ hy hxy => ?_
      obtain ⟨⟨tk, e⟩, s'⟩ := x
      obtain ⟨ok, st'⟩ := y
      obtain ⟨h1, h2, h3⟩ := hxy
      simp only at h1 h2 h3
      cases e with
      | some e =>
        have : ok = false := h1.symm
        subst this
        exact .ret ⟨rfl, h2⟩
      | none =>
        have : ok = true := h1.symm
        subst this
        have h2' : Sees F s' st' := h2
        have hst' : st'.rest <:+ st.rest := hsh st _ hy
        simp only [Option.isNone_none, if_true]
        rw [h3, h2'.get h h2' hst']
        refine .ret ⟨rfl, ?_⟩
        have := h2'.heap { s'.heap with janus := upd s'.heap.janus id (st.rest.take (st.rest.length - st'.rest.length)) }
        rw [show st'.jan = s'.heap.janus from h2'.2.2.symm]
        exact this
    | janusEnd id nm =>
      simp only [read, eat]
      rw [h.2.2]
      cases hc : hasPrefix st.rest (st.jan id)
      · rw [ifStr_no h hc]
        exact .ret ⟨rfl, h⟩
      · obtain ⟨s', e, hs⟩ := ifStr_yes h hc
        rw [e]
        refine .ret ⟨rfl, ?_⟩
        have := hs.heap { s'.heap with janus := upd s'.heap.janus id [] }
        rw [show st.jan = s'.heap.janus from hs.2.2.symm] at this ⊢
        exact this
    | invalid e => exact .ret ⟨rfl, h⟩
    | lit x => exact ifFalse_sim _ (ifStr_sim h x)
    | many c =>
      have hsh := eat_shrinks rt G n c
      refine (zomLoop_sim (sub c (by simp [Reader.subs])) n s st h).bind fun s' st' _ hy hs => ?_
      have hl := (eatZom_shrinks hsh n st st' hy).length_le
      refine .ret ⟨?_, hs⟩
      have e : decide (s.mark < s'.mark) = decide (st'.rest.length < st.rest.length) := by
        rw [decide_eq_decide]
        have h1 := h.pos
        have h2 := hs.pos
        show s.pos < s'.pos ↔ _
        omega
      rw [e]
      unfold Scanner.errorIfFalse
      cases decide (st'.rest.length < st.rest.length) <;> rfl
    | map f c =>
      refine (tokenizeUse_sim (sub c (by simp [Reader.subs])) h).bind fun x y _ hy hxy => ?_
      obtain ⟨⟨tk, e⟩, s'⟩ := x
      obtain ⟨ok, st'⟩ := y
      obtain ⟨h1, h2, h3⟩ := hxy
      simp only at h1 h2 h3
      cases e with
      | some e =>
        have : ok = false := h1.symm
        subst this
        exact .ret ⟨rfl, h2⟩
      | none =>
        have : ok = true := h1.symm
        subst this
        exact .ret ⟨rfl, h2.sameHeap _ rfl⟩
    | match_ w f => exact ifFalse_sim _ (ifMatch_sim h f)
    | named nm c => exact sub c (by simp [Reader.subs]) s st h
    | not c =>
      refine (sub c (by simp [Reader.subs]) s st h).bind fun x y _ hy hxy => ?_
      obtain ⟨e, s'⟩ := x
      obtain ⟨ok, st'⟩ := y
      have hb := h.back hxy.2
      rcases hxy.ok with ⟨rfl, rfl⟩ | ⟨x, rfl, rfl⟩
      · exact .ret ⟨rfl, hb⟩
      · simp only [Option.isNone_some, Bool.false_eq_true, if_false]
        obtain ⟨⟨ok, s''⟩, e2, h2a, h2b⟩ := (moveRunes_sim hb).right rfl
        rw [show s.mark = s.pos from rfl, e2]
        exact .ret ⟨rfl, h2b⟩
    | opt c =>
      refine (sub c (by simp [Reader.subs]) s st h).bind fun x y _ hy hxy => ?_
      exact .ret ⟨rfl, hxy.2⟩
    | past c =>
      refine (pastLoop_sim (sub c (by simp [Reader.subs])) n s st h).bind fun x y _ hy hxy => ?_
      obtain ⟨ok, s'⟩ := x
      obtain ⟨ok', st'⟩ := y
      have : ok = ok' := hxy.1
      subst this
      cases ok
      · exact .ret ⟨rfl, h.back hxy.2⟩
      · exact .ret ⟨rfl, hxy.2⟩
    | rune c => exact ifFalse_sim _ (ifRune_sim h c)
    | seq rs =>
      refine (seqLoop_sim rs sub s st h).bind fun x y _ hy hxy => ?_
      obtain ⟨e, s'⟩ := x
      obtain ⟨ok, st'⟩ := y
      rcases hxy.ok with ⟨rfl, rfl⟩ | ⟨x, rfl, rfl⟩
      · exact .ret ⟨rfl, hxy.2⟩
      · exact .ret ⟨rfl, h.back hxy.2⟩
    | skipSeq sk rs =>
      have hsk := sub sk (by simp [Reader.subs])
      refine (hsk s st h).bind fun x y _ hy hxy => ?_
      obtain ⟨e, s'⟩ := x
      obtain ⟨ok, st'⟩ := y
      rcases hxy.ok with ⟨rfl, rfl⟩ | ⟨x, rfl, rfl⟩
      · refine (skipSeqLoop_sim hsk rs (fun r hr => sub r (by simp [Reader.subs, hr])) s' st' hxy.2).bind
          fun x y _ hy hxy => ?_
        obtain ⟨e, s''⟩ := x
        obtain ⟨ok, st''⟩ := y
        rcases hxy.ok with ⟨rfl, rfl⟩ | ⟨x, rfl, rfl⟩
        · exact .ret ⟨rfl, hxy.2⟩
        · exact .ret ⟨rfl, h.back hxy.2⟩
      · exact .ret ⟨rfl, h.back hxy.2⟩
    | times k c => exact timesLoop_sim (sub c (by simp [Reader.subs])) _ s st h
    | «to» c =>
      refine (toLoop_sim (sub c (by simp [Reader.subs])) n s st h).bind fun x y _ hy hxy => ?_
      obtain ⟨ok, s'⟩ := x
      obtain ⟨ok', st'⟩ := y
      have : ok = ok' := hxy.1
      subst this
      cases ok
      · exact .ret ⟨rfl, h.back hxy.2⟩
      · exact .ret ⟨rfl, hxy.2⟩
    | uint c a b =>
      obtain ⟨v, e, s', e1, h1⟩ := readUint_sim h a b
      simp only [read]
      rw [e1]
      exact .ret ⟨h1.1, h1.2.sameHeap _ rfl⟩
    | wrap w f => exact absurd hr.here (by simp [Reader.noWrap])
    | zom c =>
      refine (zomLoop_sim (sub c (by simp [Reader.subs])) n s st h).bind fun s' st' _ hy hs => ?_
      exact .ret ⟨rfl, hs⟩
    | pick i b c =>
      refine (tokenizeUse_sim (sub c (by simp [Reader.subs])) h).bind fun x y _ hy hxy => ?_
      obtain ⟨⟨tk, e⟩, s'⟩ := x
      obtain ⟨ok, st'⟩ := y
      obtain ⟨h1, h2, h3⟩ := hxy
      simp only at h1 h2 h3
      cases e with
      | some e =>
        have : ok = false := h1.symm
        subst this
        exact .ret ⟨rfl, h2⟩
      | none =>
        have : ok = true := h1.symm
        subst this
        exact .ret ⟨rfl, h2.sameHeap _ rfl⟩
    | monitor i l c =>
      have := (sub c (by simp [Reader.subs]) _ st (h.sameHeap
        { s.heap with logs := upd s.heap.logs l ((s.heap.logs l).enter rt i s.pos).2 } rfl)).bind
        (R' := RR F) (g := fun b => Exec.ret b)
        (f := fun x => .ret (x.1, { x.2 with heap := { x.2.heap with
          logs := upd x.2.heap.logs l ((x.2.heap.logs l).exit ((s.heap.logs l).enter rt i s.pos).1 x.2.pos x.1) } }))
        (fun x y _ _ hxy => .ret ⟨hxy.1, hxy.2.sameHeap _ rfl⟩)
      have e : (eat rt G n c st >>= fun b => Exec.ret b) = eat rt G n c st := by cases eat rt G n c st <;> rfl
      rw [e] at this
      exact this
    | rule i =>
      simp only [read, eat]
      rcases hi : G[i]? with _ | ⟨nm, _ | c⟩
      · exact .panic
      · exact .panic
      · exact ih c (hG.get hi) F s st h
    | ruleName c =>
      have := (sub c (by simp [Reader.subs]) s st h).bind
        (R' := RR F) (g := fun b => Exec.ret b)
        (f := fun x => .ret (x.2.errorIfFalse x.1.isNone (Reader.what rt G (.ruleName c)), x.2))
        (fun x y _ _ hxy => .ret ⟨by rw [← hxy.1]; unfold Scanner.errorIfFalse; cases x.1.isNone <;> rfl, hxy.2⟩)
      have e : (eat rt G n c st >>= fun b => Exec.ret b) = eat rt G n c st := by cases eat rt G n c st <;> rfl
      rw [e] at this
      exact this
    | grammar w c =>
      have := (sub c (by simp [Reader.subs]) s st h).bind
        (R' := RR F) (g := fun b => Exec.ret b)
        (f := fun x => match x.1 with
          | some e => .ret (some (.other (w ++ b!" parse error: " ++ e.text)), x.2)
          | none => .ret (none, x.2))
        (fun x y _ _ hxy => by
          obtain ⟨e, s'⟩ := x
          cases e <;> exact .ret hxy)
      have e : (eat rt G n c st >>= fun b => Exec.ret b) = eat rt G n c st := by cases eat rt G n c st <;> rfl
      rw [e] at this
      exact this

/-- The readers without parts, `Wrap` and rules aside. -/
def Reader.leaf : Reader → Bool
  | .anyRune _ | .atEnd | .between _ _ | .betweenAny _ _ | .bool _ _ | .fold _ | .holey _ _ _ | .int _ _ _
  | .janusEnd _ _ | .invalid _ | .lit _ | .match_ _ _ | .rune _ | .uint _ _ _ => true
  | _ => false

/-- For a leaf the rest of the grammar does not matter. -/
theorem leaf_eat (rt : Rt) (G : Env) (n : Nat) {r : Reader} (hr : r.leaf = true) (F : Bytes) :
    SimF F (read rt G (n + 1) r) (eat rt G (n + 1) r) := by
  have h1 : read rt G (n + 1) r = read rt [] (n + 1) r := by
    cases r <;> first | rfl | (simp [Reader.leaf] at hr)
  have h2 : eat rt G (n + 1) r = eat rt [] (n + 1) r := by
    cases r <;> first | rfl | (simp [Reader.leaf] at hr)
  rw [h1, h2]
  refine read_eat rt [] (fun _ h => by cases h) (n + 1) r ?_ F
  cases r <;> first | (simp [Reader.leaf] at hr; done) | exact .mk rfl (fun _ h => by cases h)

theorem eatOne_no {p : Int → Bool} {t : Bytes} (h : (eatOne p t).1 = false) : (eatOne p t).2 = t := by
  unfold eatOne at h ⊢; split at h
  · cases h
  · rw [if_neg (by assumption)]
theorem eatLit_no {x t : Bytes} (h : (eatLit x t).1 = false) : (eatLit x t).2 = t := by
  unfold eatLit at h ⊢; split at h
  · cases h
  · rw [if_neg (by assumption)]
theorem eatLits_no {l : List Bytes} {t : Bytes} (h : (eatLits l t).1 = false) : (eatLits l t).2 = t := by
  induction l with
  | nil => rfl
  | cons x xs ih =>
    unfold eatLits at h ⊢; split at h
    · cases h
    · rw [if_neg (by assumption)]; exact ih h
theorem eatBetween_no {a b : Int} {t : Bytes} (h : (eatBetween a b t).1 = false) : (eatBetween a b t).2 = t := by
  unfold eatBetween at h ⊢; split at h
  · rw [if_pos (by assumption)]
  · rw [if_neg (by assumption)]; exact eatOne_no h
theorem eatMatch_no {f : Int → Bool} {t : Bytes} (h : (eatMatch f t).1 = false) : (eatMatch f t).2 = t := by
  unfold eatMatch at h ⊢; split at h
  · rw [if_pos (by assumption)]
  · rw [if_neg (by assumption)]; exact eatOne_no h
theorem eatSet_no {l : List (Int × Int)} {x t : Bytes} (h : (eatSet l x t).1 = false) : (eatSet l x t).2 = t := by
  unfold eatSet at h ⊢; split at h
  · rename_i h'; rw [h'] at h; cases h
  · rw [if_neg (by assumption)]; exact eatOne_no h
theorem eatFold_no {rt : Rt} {x t : Bytes} (h : (eatFold rt x t).1 = false) : (eatFold rt x t).2 = t := by
  unfold eatFold at h ⊢; split at h
  · cases h
  · rw [if_neg (by assumption)]
theorem eatBool_no {f t : Bytes} (h : (eatBool f t).1 = false) : (eatBool f t).2 = t := by
  unfold eatBool at h ⊢
  split at h
  · rw [if_pos (by assumption)]; exact eatLits_no h
  · rw [if_neg (by assumption)]
    split at h
    · rw [if_pos (by assumption)]; exact eatLits_no h
    · rw [if_neg (by assumption)]
      split at h
      · rw [if_pos (by assumption)]; exact eatLits_no h
      · rw [if_neg (by assumption)]
        split at h
        · rw [if_pos (by assumption)]; exact eatLits_no h
        · rw [if_neg (by assumption)]
theorem eatInt_no {a b : Int} {t : Bytes} (h : (eatInt a b t).1 = false) : (eatInt a b t).2 = t := by
  unfold eatInt at h ⊢
  split at h
  · simp only at h ⊢
    split at h
    · rw [if_pos (by assumption)]
    · cases h
  · rfl
theorem eatUint_no {a b : Int} {t : Bytes} (h : (eatUint a b t).1 = false) : (eatUint a b t).2 = t := by
  unfold eatUint at h ⊢
  split at h
  · simp only at h ⊢
    split at h
    · rw [if_pos (by assumption)]
    · cases h
  · rfl

theorem lift_no {f : Bytes → Bool × Bytes} (hf : ∀ {t}, (f t).1 = false → (f t).2 = t) {st st' : St}
    (h : lift f st = .ret (false, st')) : st' = st := by
  simp only [lift, Exec.ret.injEq, Prod.mk.injEq] at h
  obtain ⟨h1, h2⟩ := h
  rw [← h2, hf h1]

/-- A leaf that fails changes nothing. -/
theorem leaf_no {rt : Rt} {G : Env} {n : Nat} {r : Reader} (hr : r.leaf = true) {st st' : St}
    (h : eat rt G (n + 1) r st = .ret (false, st')) : st' = st := by
  cases r with
  | anyRune x => exact lift_no eatOne_no h
  | atEnd => simp only [eat, Exec.ret.injEq, Prod.mk.injEq] at h; exact h.2.symm
  | between a b => exact lift_no eatBetween_no h
  | betweenAny a b => exact lift_no eatSet_no h
  | bool a b => exact lift_no eatBool_no h
  | fold v =>
    simp only [eat] at h
    split at h
    · cases h
    · exact lift_no eatFold_no h
  | holey a b c => exact lift_no eatOne_no h
  | int a b c => exact lift_no eatInt_no h
  | janusEnd a b =>
    simp only [eat] at h
    split at h
    · simp at h
    · simp only [Exec.ret.injEq, Prod.mk.injEq] at h; exact h.2.symm
  | invalid e => simp only [eat, Exec.ret.injEq, Prod.mk.injEq] at h; exact h.2.symm
  | lit x => exact lift_no eatLit_no h
  | match_ w f => exact lift_no eatMatch_no h
  | rune c => exact lift_no eatOne_no h
  | uint a b c => exact lift_no eatUint_no h
  | _ => simp [Reader.leaf] at hr

end Tok
