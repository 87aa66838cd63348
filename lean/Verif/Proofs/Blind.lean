/-
Scanners that a leaf cannot tell apart.
-/
import Verif.Spec.Window
import Verif.Proofs.Frame

namespace Tok
open Spec

/-- A relation between scanners with the same text and position, kept by every move. -/
structure Pacing (R : Scanner → Scanner → Prop) : Prop where
  full : ∀ {s t}, R s t → t.full = s.full
  pos : ∀ {s t}, R s t → t.pos = s.pos
  at_ : ∀ {s t}, R s t → ∀ m, R (s.at m) (t.at m)

/-- Such a relation that is also kept when a value is stored. -/
structure Moving (R : Scanner → Scanner → Prop) : Prop extends Pacing R where
  setCell : ∀ {s t}, R s t → ∀ c v, R { s with heap := { s.heap with cells := upd s.heap.cells c v } } { t with heap := { t.heap with cells := upd t.heap.cells c v } }

/-- Such a relation between scanners that also have the same Janus strings.  They may differ in what is recorded about the read. -/
structure Blind (R : Scanner → Scanner → Prop) : Prop extends Moving R where
  janus : ∀ {s t}, R s t → t.heap.janus = s.heap.janus
  setJanus : ∀ {s t}, R s t → ∀ c, R { s with heap := { s.heap with janus := c } } { t with heap := { t.heap with janus := c } }

/-- A reader that stores a value. -/
def Reader.isValue : Reader → Bool
  | .bool _ _ => true
  | .int _ _ _ => true
  | .uint _ _ _ => true
  | _ => false

/-- The same value, and related scanners. -/
def Thru (R : Scanner → Scanner → Prop) {α : Type} (a b : α × Scanner) : Prop := b.1 = a.1 ∧ R a.2 b.2

namespace Pacing
variable {R : Scanner → Scanner → Prop} (hR : Pacing R) {s t : Scanner} (h : R s t)
include hR h

theorem tail : t.tail = s.tail := by unfold Scanner.tail; rw [hR.full h, hR.pos h]
theorem atEnd : t.atEnd = s.atEnd := by unfold Scanner.atEnd; rw [hR.full h, hR.pos h]
theorem get (k : Token) : t.get k = s.get k := by unfold Scanner.get; rw [hR.full h]
theorem mark : t.mark = s.mark := hR.pos h
theorem errorFor (w : Bytes) : t.errorFor w = s.errorFor w := by unfold Scanner.errorFor; rw [hR.mark h]
theorem errorIfFalse (b : Bool) (w : Bytes) : t.errorIfFalse b w = s.errorIfFalse b w := by
  unfold Scanner.errorIfFalse; rw [hR.mark h]

theorem move (k : Int) : Thru R (s.move k) (t.move k) := by
  have := hR.at_ h (s.pos + k)
  unfold Scanner.move
  simp only [hR.full h, hR.pos h]
  split
  · exact ⟨rfl, h⟩
  · exact ⟨rfl, by rw [Scanner.at, Scanner.at, hR.full h] at this; exact this⟩

theorem toMarker (m : Int) : R (s.toMarker m).2 (t.toMarker m).2 := by
  have := hR.at_ h m
  unfold Scanner.toMarker
  simp only [hR.full h]
  split
  · exact h
  · rw [Scanner.at, Scanner.at, hR.full h] at this; exact this

theorem tailE : RelE (fun a b => b = a) s.tail t.tail := by
  rw [hR.tail h]
  cases s.tail with
  | ret t => exact .ret rfl
  | panic => exact .panic
  | timeout => exact .timeout

theorem getE (k : Token) : RelE (fun a b => b = a) (s.get k) (t.get k) := by
  rw [hR.get h]
  cases s.get k with
  | ret t => exact .ret rfl
  | panic => exact .panic
  | timeout => exact .timeout

theorem ifStr (str : Bytes) : RelE (Thru R) (s.ifStr str) (t.ifStr str) :=
  (hR.tailE h).bind fun a b _ _ hb => by
    subst hb
    split
    · exact .ret (hR.move h _)
    · exact .ret ⟨rfl, h⟩

omit h in
theorem ifAny : ∀ (strs : List Bytes) {s t : Scanner}, R s t → RelE (Thru R) (s.ifAny strs) (t.ifAny strs)
  | [], _, _, h => .ret ⟨rfl, h⟩
  | x :: xs, s, t, h => (hR.ifStr h x).bind fun a b _ _ h => by
    obtain ⟨ok, s'⟩ := a
    obtain ⟨ok', t'⟩ := b
    obtain ⟨he, h⟩ := h
    cases he
    cases ok
    · exact ifAny xs h
    · exact .ret ⟨rfl, h⟩

theorem ifFold (rt : Rt) (str : Bytes) : RelE (Thru R) (s.ifFold rt str) (t.ifFold rt str) :=
  (hR.tailE h).bind fun a b _ _ hb => by
    subst hb
    split
    · exact .panic
    · split
      · exact .ret (hR.move h _)
      · exact .ret ⟨rfl, h⟩

theorem ifRune (r : Rune) : RelE (Thru R) (s.ifRune r) (t.ifRune r) :=
  (hR.tailE h).bind fun a b _ _ hb => by
    subst hb
    simp only
    split
    · exact .ret ⟨rfl, h⟩
    · exact .ret (hR.move h _)

omit h in
theorem ifAnyRuneLoop : ∀ (rs : List Rune) {s t : Scanner}, R s t → RelE (Thru R) (s.ifAnyRuneLoop rs) (t.ifAnyRuneLoop rs)
  | [], _, _, h => .ret ⟨rfl, h⟩
  | x :: xs, s, t, h => (hR.ifRune h x).bind fun a b _ _ h => by
    obtain ⟨ok, s'⟩ := a
    obtain ⟨ok', t'⟩ := b
    obtain ⟨he, h⟩ := h
    cases he
    cases ok
    · exact ifAnyRuneLoop xs h
    · exact .ret ⟨rfl, h⟩

theorem ifBetween (a b : Rune) : RelE (Thru R) (s.ifBetween a b) (t.ifBetween a b) :=
  (hR.tailE h).bind fun _ _ _ _ hb => by
    subst hb
    simp only
    split
    · exact .ret ⟨rfl, h⟩
    · split
      · exact .ret ⟨rfl, h⟩
      · exact .ret (hR.move h _)

theorem ifMatch (f : Rune → Bool) : RelE (Thru R) (s.ifMatch f) (t.ifMatch f) :=
  (hR.tailE h).bind fun _ _ _ _ hb => by
    subst hb
    simp only
    split
    · exact .ret (hR.move h _)
    · exact .ret ⟨rfl, h⟩

omit h in
theorem betweenAnyLoop : ∀ (rs : List (Rune × Rune)) {s t : Scanner}, R s t →
    RelE (Thru R) (betweenAnyLoop rs s) (betweenAnyLoop rs t)
  | [], _, _, h => .ret ⟨rfl, h⟩
  | (a, b) :: xs, s, t, h => (hR.ifBetween h a b).bind fun a b _ _ h => by
    obtain ⟨ok, s'⟩ := a
    obtain ⟨ok', t'⟩ := b
    obtain ⟨he, h⟩ := h
    cases he
    cases ok
    · exact betweenAnyLoop xs h
    · exact .ret ⟨rfl, h⟩

omit h in
theorem ifFalse (w : Bytes) {x y : Exec (Bool × Scanner)} (h : RelE (Thru R) x y) : RelE (Thru R) (ifFalse w x) (ifFalse w y) :=
  h.bind fun a b _ _ h => by
    obtain ⟨ok, s'⟩ := a
    obtain ⟨ok', t'⟩ := b
    obtain ⟨he, h⟩ := h
    cases he
    exact .ret ⟨hR.errorIfFalse h _ _, h⟩

theorem moveRunes : RelE (Thru R) (s.moveRunes 1) (t.moveRunes 1) := by
  unfold Scanner.moveRunes
  rw [if_pos (by decide), if_pos (by decide)]
  refine (hR.tailE h).bind fun _ _ _ _ hb => ?_
  subst hb
  split
  · exact .ret (hR.move h _)
  · exact .ret ⟨rfl, h⟩

theorem readBool (format : Bytes) : RelE (Thru R) (s.readBool format) (t.readBool format) := by
  unfold Scanner.readBool
  split
  · refine (hR.ifAny _ h).bind fun a b _ _ h => ?_
    obtain ⟨ok, s'⟩ := a
    obtain ⟨ok', t'⟩ := b
    obtain ⟨he, h⟩ := h
    cases he
    cases ok
    · refine (hR.ifAny _ h).bind fun a b _ _ h => ?_
      obtain ⟨ok, s''⟩ := a
      obtain ⟨ok', t''⟩ := b
      obtain ⟨he, h⟩ := h
      cases he
      cases ok
      · exact .ret ⟨by rw [hR.errorFor h], h⟩
      · exact .ret ⟨rfl, h⟩
    · exact .ret ⟨rfl, h⟩
  · simp only
    split
    · exact .ret ⟨rfl, h⟩
    · refine (hR.ifStr h _).bind fun a b _ _ h => ?_
      obtain ⟨ok, s'⟩ := a
      obtain ⟨ok', t'⟩ := b
      obtain ⟨he, h⟩ := h
      cases he
      cases ok
      · refine (hR.ifStr h _).bind fun a b _ _ h => ?_
        obtain ⟨ok, s''⟩ := a
        obtain ⟨ok', t''⟩ := b
        obtain ⟨he, h⟩ := h
        cases he
        cases ok
        · exact .ret ⟨by rw [hR.errorFor h], h⟩
        · exact .ret ⟨rfl, h⟩
      · exact .ret ⟨rfl, h⟩

theorem readInt (base bitSize : Int) : RelE (Thru R) (s.readInt base bitSize) (t.readInt base bitSize) := by
  unfold Scanner.readInt
  split
  · exact .ret ⟨rfl, h⟩
  · split
    · exact .ret ⟨rfl, h⟩
    · rename_i cf _ _ min max _
      have hm := hR.mark h
      refine (hR.ifRune h 45).bind fun a b _ _ h => ?_
      obtain ⟨minus, s1⟩ := a
      obtain ⟨ok', t1⟩ := b
      obtain ⟨he, h⟩ := h
      cases he
      have tailE : ∀ s2 t2, R s2 t2 → RelE (Thru R) (do
          let t ← s2.tail
          let (i64, n) := intLoop cf base min max minus (rangeStr t) 0 (-1)
          if n = -1 then
            let s := (s2.toMarker s.mark).2
            pure ((0, some (s.errorFor b!"integer")), s)
          else pure ((i64, none), (s2.move (n + 1)).2)) (do
          let t3 ← t2.tail
          let (i64, n) := intLoop cf base min max minus (rangeStr t3) 0 (-1)
          if n = -1 then
            let s := (t2.toMarker t.mark).2
            pure ((0, some (s.errorFor b!"integer")), s)
          else pure ((i64, none), (t2.move (n + 1)).2)) := by
        intro s2 t2 h2
        refine (hR.tailE h2).bind fun _ _ _ _ hb => ?_
        subst hb
        simp only [hm]
        have h3 := hR.toMarker h2 s.mark
        split
        · exact .ret ⟨by rw [hR.errorFor h3], h3⟩
        · exact .ret ⟨rfl, (hR.move h2 _).2⟩
      cases minus
      · refine (hR.ifRune h 43).bind fun a b _ _ h => ?_
        obtain ⟨ok, s2⟩ := a
        obtain ⟨ok', t2⟩ := b
        exact tailE s2 t2 h.2
      · exact tailE s1 t1 h

theorem readUint (base bitSize : Int) : RelE (Thru R) (s.readUint base bitSize) (t.readUint base bitSize) := by
  unfold Scanner.readUint
  split
  · exact .ret ⟨rfl, h⟩
  · split
    · exact .ret ⟨rfl, h⟩
    · refine (hR.tailE h).bind fun _ _ _ _ hb => ?_
      subst hb
      simp only
      split
      · exact .ret ⟨by rw [hR.errorFor h], h⟩
      · exact .ret ⟨rfl, (hR.move h _).2⟩

/-- A leaf that stores no value and is not the second reader of a Janus pair does the same on both scanners, whatever the grammar around it. -/
theorem plain (rt : Rt) (G G' : Env) (n m : Nat) {r : Reader} (hr : r.leaf = true) (hn : r.isJanusEnd = false) (hv : r.isValue = false) :
    RelE (Thru R) (read rt G (n + 1) r s) (read rt G' (m + 1) r t) := by
  cases r with
  | anyRune str => exact hR.ifFalse _ (hR.ifAnyRuneLoop _ h)
  | atEnd =>
    refine .ret ⟨?_, h⟩
    simp only [hR.atEnd h, hR.errorIfFalse h]
    rfl
  | between a b => exact hR.ifFalse _ (hR.ifBetween h a b)
  | betweenAny ranges singles =>
    have hm := hR.mark h
    refine (hR.betweenAnyLoop ranges h).bind fun a b _ _ h => ?_
    obtain ⟨ok, s'⟩ := a
    obtain ⟨ok', t'⟩ := b
    obtain ⟨he, h⟩ := h
    cases he
    cases ok
    · refine (hR.ifAnyRuneLoop _ h).bind fun a b _ _ h => ?_
      obtain ⟨ok, s''⟩ := a
      obtain ⟨ok', t''⟩ := b
      obtain ⟨he, h⟩ := h
      cases he
      cases ok
      · have h3 := hR.toMarker h s.mark
        refine .ret ⟨?_, ?_⟩
        · simp only [hm, hR.errorFor h3]
          rfl
        · simp only [hm]
          exact h3
      · exact .ret ⟨rfl, h⟩
    · exact .ret ⟨rfl, h⟩
  | fold val => exact hR.ifFalse _ (hR.ifFold h rt val)
  | holey a b holes =>
    refine (hR.tailE h).bind fun _ _ _ _ hb => ?_
    subst hb
    simp only
    split
    · have hm := hR.move h (decodeRune ‹_›).2
      refine .ret ⟨?_, hm.2⟩
      simp only [hm.1, hR.errorIfFalse hm.2]
      rfl
    · exact .ret ⟨by rw [hR.errorFor h]; rfl, h⟩
  | bool _ _ | int _ _ _ | uint _ _ _ => simp [Reader.isValue] at hv
  | janusEnd id nm => simp [Reader.isJanusEnd] at hn
  | invalid err => exact .ret ⟨rfl, h⟩
  | lit str => exact hR.ifFalse _ (hR.ifStr h str)
  | match_ w f => exact hR.ifFalse _ (hR.ifMatch h f)
  | rune c => exact hR.ifFalse _ (hR.ifRune h c)
  | _ => cases hr

end Pacing

namespace Moving
variable {R : Scanner → Scanner → Prop} (hR : Moving R) {s t : Scanner} (h : R s t)
include hR h

/-- A leaf that is not the second reader of a Janus pair does the same on both scanners, whatever the grammar around it. -/
theorem leaf' (rt : Rt) (G G' : Env) (n m : Nat) {r : Reader} (hr : r.leaf = true) (hn : r.isJanusEnd = false) :
    RelE (Thru R) (read rt G (n + 1) r s) (read rt G' (m + 1) r t) := by
  cases hv : r.isValue with
  | false => exact hR.plain h rt G G' n m hr hn hv
  | true =>
  cases r with
  | bool cell format =>
    refine (hR.readBool h format).bind fun a b _ _ h => ?_
    obtain ⟨⟨v, e⟩, s'⟩ := a
    obtain ⟨⟨v', e'⟩, t'⟩ := b
    obtain ⟨he, h⟩ := h
    cases he
    refine .ret ⟨rfl, ?_⟩
    exact hR.setCell h _ _
  | int cell base bitSize =>
    refine (hR.readInt h base bitSize).bind fun a b _ _ h => ?_
    obtain ⟨⟨v, e⟩, s'⟩ := a
    obtain ⟨⟨v', e'⟩, t'⟩ := b
    obtain ⟨he, h⟩ := h
    cases he
    refine .ret ⟨rfl, ?_⟩
    exact hR.setCell h _ _
  | uint cell base bitSize =>
    refine (hR.readUint h base bitSize).bind fun a b _ _ h => ?_
    obtain ⟨⟨v, e⟩, s'⟩ := a
    obtain ⟨⟨v', e'⟩, t'⟩ := b
    obtain ⟨he, h⟩ := h
    cases he
    refine .ret ⟨rfl, ?_⟩
    exact hR.setCell h _ _
  | _ => simp [Reader.isValue] at hv

end Moving

namespace Blind
variable {R : Scanner → Scanner → Prop} (hR : Blind R) {s t : Scanner} (h : R s t)
include hR h

theorem setJan (c : Nat) (v : Bytes) : R { s with heap := { s.heap with janus := upd s.heap.janus c v } }
    { t with heap := { t.heap with janus := upd t.heap.janus c v } } := by
  have := hR.setJanus h (upd s.heap.janus c v)
  rw [hR.janus h]; exact this

/-- A leaf does the same on both scanners, whatever the grammar around it. -/
theorem leaf (rt : Rt) (G G' : Env) (n m : Nat) {r : Reader} (hr : r.leaf = true) :
    RelE (Thru R) (read rt G (n + 1) r s) (read rt G' (m + 1) r t) := by
  cases hn : r.isJanusEnd with
  | false => exact hR.leaf' h rt G G' n m hr hn
  | true =>
    match r, hn with
    | .janusEnd id nm, _ =>
      simp only [read]
      rw [hR.janus h]
      refine (hR.ifFalse _ (hR.ifStr h _)).bind fun a b _ _ h => ?_
      obtain ⟨e, s'⟩ := a
      obtain ⟨e', t'⟩ := b
      obtain ⟨he, h⟩ := h
      cases he
      cases e with
      | none =>
        refine .ret ⟨rfl, ?_⟩
        exact hR.setJan h _ _
      | some e => exact .ret ⟨rfl, h⟩

end Blind
end Tok
