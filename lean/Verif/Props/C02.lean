/-
C02 Scanner position safety.
-/
import Verif.Model.Client
import Verif.Proofs.BackScan
import Verif.Props.C17

namespace Tok
open Spec Scanner

/-- The position lies in the text. -/
def Inside (s : Scanner) : Prop := 0 ≤ s.pos ∧ s.pos ≤ (s.full.length : Int)

/-- Inside the text `Head()` and `Tail()` do not panic and together are the text. -/
theorem C02_head_tail (s : Scanner) (h : Inside s) :
    ∃ hd tl, s.head = .ret hd ∧ s.tail = .ret tl ∧ hd ++ tl = s.full := by
  obtain ⟨hd, tl, hb⟩ := (between_iff s).mpr h
  exact ⟨hd, tl, head_of hb, tail_of hb, hb.1.symm⟩

/-- `AtStart` and `AtEnd` tell whether anything is before and behind the position. -/
theorem C02_ends (s : Scanner) (h t : Bytes) (hb : Between s h t) : (s.atStart = true ↔ h = []) ∧ (s.atEnd = true ↔ t = []) := by
  obtain ⟨h1, h2⟩ := hb
  unfold Scanner.atStart Scanner.atEnd
  rw [h2, h1, List.length_append, decide_eq_true_eq, decide_eq_true_eq, ← List.length_eq_zero_iff, ← List.length_eq_zero_iff]
  omega

/-- A call went well: it returned, the position is in the text, the text is the same. -/
def Fine (s : Scanner) (x : Exec (Bool × Scanner)) : Prop :=
  ∃ b s', x = .ret (b, s') ∧ Inside s' ∧ s'.full = s.full

private theorem fine_same {s : Scanner} (h : Inside s) (b : Bool) : Fine s (.ret (b, s)) := ⟨b, s, rfl, h, rfl⟩

private theorem fine_move {s : Scanner} (h : Inside s) (n : Int) : Fine s (.ret (s.move n)) := by
  unfold Scanner.move
  simp only
  split
  · exact fine_same h _
  · next hc =>
    simp only [Bool.or_eq_true, decide_eq_true_eq, not_or] at hc
    refine ⟨true, _, rfl, ?_, notify_full _⟩
    unfold Inside
    rw [notify_pos, notify_full]
    simp only
    omega

private theorem fine_move2 {s : Scanner} (h : Inside s) (n : Int) (b : Bool) : Fine s (.ret (b, (s.move n).2)) := by
  obtain ⟨b', s', h1, h2⟩ := fine_move h n
  have : (s.move n).2 = s' := by injection h1 with h1; rw [h1]
  exact ⟨b, s', by rw [this], h2⟩

private theorem fine_toMarker {s : Scanner} {m : Int} (h1 : 0 ≤ m) (h2 : m ≤ (s.full.length : Int)) :
    Inside (s.toMarker m).2 ∧ (s.toMarker m).2.full = s.full := by
  unfold Scanner.toMarker
  rw [if_neg (by simp; omega)]
  unfold Inside
  simp only [notify_pos, notify_full]
  exact ⟨⟨h1, h2⟩, trivial⟩

private theorem fine_toMarker' {s : Scanner} {m : Int} (h1 : 0 ≤ m) (h2 : m ≤ (s.full.length : Int)) :
    Fine s (.ret (s.toMarker m)) := ⟨_, _, rfl, fine_toMarker h1 h2⟩

private theorem Fine.trans {s s' : Scanner} {x : Exec (Bool × Scanner)} (h : s'.full = s.full) (hx : Fine s' x) : Fine s x := by
  obtain ⟨b, s'', h1, h2, h3⟩ := hx
  exact ⟨b, s'', h1, h2, h3.trans h⟩

/-- Sequencing of fine calls. -/
private theorem Fine.bind {s : Scanner} {x : Exec (Bool × Scanner)} {f : Bool × Scanner → Exec (Bool × Scanner)}
    (hx : Fine s x) (hf : ∀ b s', Inside s' → s'.full = s.full → Fine s (f (b, s'))) : Fine s (x >>= f) := by
  obtain ⟨b, s', rfl, h1, h2⟩ := hx
  exact hf b s' h1 h2

private theorem ifStr_fine {s : Scanner} (h : Inside s) (str : Bytes) : Fine s (s.ifStr str) := by
  obtain ⟨hd, tl, hb⟩ := (between_iff s).mpr h
  unfold Scanner.ifStr
  rw [tail_of hb]
  simp only [Exec.bind_ret, Exec.pure_eq]
  split
  · exact fine_move h _
  · exact fine_same h _

private theorem revIf_fine {s : Scanner} (h : Inside s) (str : Bytes) : Fine s (s.revIf str) := by
  obtain ⟨hd, tl, hb⟩ := (between_iff s).mpr h
  unfold Scanner.revIf
  rw [head_of hb]
  simp only [Exec.bind_ret, Exec.pure_eq]
  split
  · exact fine_move h _
  · exact fine_same h _

private theorem ifAny_fine {s : Scanner} (h : Inside s) (strs : List Bytes) : Fine s (s.ifAny strs) := by
  induction strs generalizing s with
  | nil => exact fine_same h _
  | cons str strs ih =>
    unfold Scanner.ifAny
    refine (ifStr_fine h str).bind fun b s' h1 h2 => ?_
    cases b
    · exact (ih h1).trans h2
    · exact ⟨_, _, rfl, h1, h2⟩

private theorem revIfAny_fine {s : Scanner} (h : Inside s) (strs : List Bytes) : Fine s (s.revIfAny strs) := by
  induction strs generalizing s with
  | nil => exact fine_same h _
  | cons str strs ih =>
    unfold Scanner.revIfAny
    refine (revIf_fine h str).bind fun b s' h1 h2 => ?_
    cases b
    · exact (ih h1).trans h2
    · exact ⟨_, _, rfl, h1, h2⟩

private theorem ifRune_fine {s : Scanner} (h : Inside s) (r : Int) : Fine s (s.ifRune r) := by
  obtain ⟨hd, tl, hb⟩ := (between_iff s).mpr h
  rw [ifRune_eq hb]
  split
  · exact fine_move h _
  · exact fine_same h _

private theorem ifAnyRuneLoop_fine {s : Scanner} (h : Inside s) (rs : List Int) : Fine s (ifAnyRuneLoop s rs) := by
  induction rs generalizing s with
  | nil => exact fine_same h _
  | cons r rs ih =>
    unfold Scanner.ifAnyRuneLoop
    refine (ifRune_fine h r).bind fun b s' h1 h2 => ?_
    cases b
    · exact (ih h1).trans h2
    · exact ⟨_, _, rfl, h1, h2⟩

private theorem revSearch_fine {s : Scanner} (h : Inside s) (c : Bytes × Int → Bool) : Fine s (s.revSearch c) := by
  obtain ⟨hd, tl, hb⟩ := (between_iff s).mpr h
  unfold Scanner.revSearch
  rw [head_of hb]
  simp only [Exec.bind_ret, Exec.pure_eq]
  split
  · exact fine_move h _
  · exact fine_same h _

private theorem revWhile_fine {s : Scanner} (h : Inside s) (c : Int → Bool) : Fine s (s.revWhile c) := by
  obtain ⟨hd, tl, hb⟩ := (between_iff s).mpr h
  unfold Scanner.revWhile
  rw [head_of hb]
  simp only [Exec.bind_ret, Exec.pure_eq]
  repeat' split
  all_goals first | exact fine_move h _ | exact fine_same h _

private theorem revToFoldLoop_fine (rt : Rt) (str : Bytes) (hl : str.length ≤ 1) (l : List (Bytes × Int))
    (hne : ∀ x ∈ l, x.1 ≠ []) : ∃ o, revToFoldLoop rt str l = .ret o := by
  induction l with
  | nil => exact ⟨_, rfl⟩
  | cons x l ih =>
    obtain ⟨h, r⟩ := x
    unfold Scanner.revToFoldLoop
    have : 0 < h.length := List.length_pos_iff.mpr (hne _ List.mem_cons_self)
    rw [if_neg (by omega)]
    split
    · exact ⟨_, rfl⟩
    · exact ih (fun x hx => hne x (List.mem_cons_of_mem _ hx))

private theorem backSteps_ne (ps : List (Bytes × Int)) (h : ∀ x ∈ ps, x.1 ≠ []) : ∀ x ∈ backSteps ps, x.1 ≠ [] := by
  induction ps with
  | nil => intro x hx; simp [backSteps] at hx
  | cons y ps ih =>
    intro x hx
    unfold backSteps at hx
    split at hx
    · simp at hx
    · rcases List.mem_cons.mp hx with rfl | hx
      · have := h y List.mem_cons_self
        simp only [bytesOfBack_cons, ne_eq, List.append_eq_nil_iff, not_and]
        intro _; exact this
      · exact ih (fun z hz => h z (List.mem_cons_of_mem _ hz)) x hx

/-- What a call needs so that it cannot go wrong.  Only markers and tokens must lie in the
text, and the `Fold` methods that slice without a check need enough text. -/
def Op.Pre : Op → Scanner → Prop
  | .toMarker m, s => 0 ≤ m ∧ m ≤ (s.full.length : Int)
  | .since m, s => 0 ≤ m ∧ m ≤ (s.full.length : Int)
  | .get t, s => 0 ≤ t.frm ∧ t.frm ≤ t.to ∧ t.to ≤ (s.full.length : Int)
  | .ifFold str, s => s.pos + str.length ≤ s.full.length
  | .revIfFold str, s => (str.length : Int) ≤ s.pos
  | .revToFold str, _ => str.length ≤ 1
  | _, _ => True

private theorem get_of {s : Scanner} {t : Token} (h : 0 ≤ t.frm ∧ t.frm ≤ t.to ∧ t.to ≤ (s.full.length : Int)) :
    ∃ b, s.get t = .ret b := by
  unfold Scanner.get; rw [if_pos h]; exact ⟨_, rfl⟩

private theorem since_of {s : Scanner} {m : Int} (hs : Inside s) (h : 0 ≤ m ∧ m ≤ (s.full.length : Int)) :
    ∃ b, s.since m = .ret b := by
  unfold Scanner.since
  apply get_of
  unfold makeToken Scanner.mark
  obtain ⟨h1, h2⟩ := hs
  split <;> (simp only; omega)

private theorem val_bind {α : Type} {s : Scanner} {x : Exec ((α × Option Err) × Scanner)}
    (h : ∃ a e s', x = .ret ((a, e), s') ∧ Inside s' ∧ s'.full = s.full) :
    Fine s (do let ((_, e), s) ← x; pure (e.isNone, s)) := by
  obtain ⟨a, e, s', rfl, h1, h2⟩ := h
  exact ⟨_, _, rfl, h1, h2⟩

private theorem readInt_fine {s : Scanner} (h : Inside s) (base bits : Int) :
    ∃ a e s', s.readInt base bits = .ret ((a, e), s') ∧ Inside s' ∧ s'.full = s.full := by
  unfold Scanner.readInt
  rcases charFunc base with _ | cf
  · exact ⟨_, _, _, rfl, h, rfl⟩
  · rcases intBounds bits with _ | ⟨mn, mx⟩
    · exact ⟨_, _, _, rfl, h, rfl⟩
    · simp only
      obtain ⟨b1, s1, e1, i1, f1⟩ := ifRune_fine h 45
      rw [e1]
      simp only [Exec.bind_ret]
      have fin : ∀ s2 : Scanner, Inside s2 → s2.full = s1.full → ∃ a e s', (do
          let t ← s2.tail
          if (intLoop cf base mn mx b1 (rangeStr t) 0 (-1)).2 = -1 then
            pure ((0, some ((s2.toMarker s.mark).2.errorFor b!"integer")), (s2.toMarker s.mark).2)
          else
            pure (((intLoop cf base mn mx b1 (rangeStr t) 0 (-1)).1, none),
              (s2.move ((intLoop cf base mn mx b1 (rangeStr t) 0 (-1)).2 + 1)).2) :
            Exec ((Int × Option Err) × Scanner)) = .ret ((a, e), s') ∧ Inside s' ∧ s'.full = s.full := by
        intro s2 i2 f2
        obtain ⟨hd, tl, hb⟩ := (between_iff s2).mpr i2
        rw [tail_of hb]
        simp only [Exec.bind_ret, Exec.pure_eq]
        split
        · have hm : s.mark ≤ (s2.full.length : Int) := by rw [f2, f1]; exact h.2
          obtain ⟨i3, f3⟩ := fine_toMarker (s := s2) (m := s.mark) h.1 hm
          exact ⟨_, _, _, rfl, i3, f3.trans (f2.trans f1)⟩
        · obtain ⟨b, s', e3, i3, f3⟩ := fine_move2 i2 ((intLoop cf base mn mx b1 (rangeStr tl) 0 (-1)).2 + 1) true
          injection e3 with e3
          injection e3 with _ e3
          exact ⟨_, _, _, rfl, by rw [e3]; exact i3, by rw [e3]; exact f3.trans (f2.trans f1)⟩
      cases b1
      · obtain ⟨b2, s2, e2, i2, f2⟩ := ifRune_fine i1 43
        simp only [Bool.false_eq_true, if_false]
        rw [e2]
        exact fin s2 i2 f2
      · exact fin s1 i1 rfl

private theorem readUint_fine {s : Scanner} (h : Inside s) (base bits : Int) :
    ∃ a e s', s.readUint base bits = .ret ((a, e), s') ∧ Inside s' ∧ s'.full = s.full := by
  unfold Scanner.readUint
  rcases charFunc base with _ | cf
  · exact ⟨_, _, _, rfl, h, rfl⟩
  · rcases uintMax bits with _ | mx
    · exact ⟨_, _, _, rfl, h, rfl⟩
    · simp only
      obtain ⟨hd, tl, hb⟩ := (between_iff s).mpr h
      rw [tail_of hb]
      simp only [Exec.bind_ret, Exec.pure_eq]
      split
      · exact ⟨_, _, _, rfl, h, rfl⟩
      · obtain ⟨b, s', e3, i3, f3⟩ := fine_move2 h ((uintLoop cf base.toNat mx (rangeStr tl) 0 (-1)).2 + 1) true
        injection e3 with e3
        injection e3 with _ e3
        exact ⟨_, _, _, rfl, by rw [e3]; exact i3, by rw [e3]; exact f3⟩

private theorem readBool_fine {s : Scanner} (h : Inside s) (f : Bytes) :
    ∃ a e s', s.readBool f = .ret ((a, e), s') ∧ Inside s' ∧ s'.full = s.full := by
  have two : ∀ (x y : Scanner → Exec (Bool × Scanner)), (∀ s, Inside s → Fine s (x s)) → (∀ s, Inside s → Fine s (y s)) →
      ∃ a e s', (do
        let (ok, s) ← x s
        if ok then pure ((true, none), s)
        else do
          let (ok, s) ← y s
          if ok then pure ((false, none), s)
          else pure ((false, some (s.errorFor b!"bool")), s) : Exec ((Bool × Option Err) × Scanner)) = .ret ((a, e), s') ∧
        Inside s' ∧ s'.full = s.full := by
    intro x y hx hy
    obtain ⟨b1, s1, e1, i1, f1⟩ := hx s h
    rw [e1]
    cases b1
    · obtain ⟨b2, s2, e2, i2, f2⟩ := hy s1 i1
      simp only [Exec.bind_ret, Bool.false_eq_true, if_false]
      rw [e2]
      cases b2
      · exact ⟨_, _, _, rfl, i2, f2.trans f1⟩
      · exact ⟨_, _, _, rfl, i2, f2.trans f1⟩
    · exact ⟨_, _, _, rfl, i1, f1⟩
  unfold Scanner.readBool
  split
  · exact two (fun s => s.ifAny _) (fun s => s.ifAny _) (fun s hs => ifAny_fine hs _) (fun s hs => ifAny_fine hs _)
  · simp only
    split
    · exact ⟨_, _, _, rfl, h, rfl⟩
    · next t f _ => exact two (fun s => s.ifStr t) (fun s => s.ifStr f) (fun s hs => ifStr_fine hs _) (fun s hs => ifStr_fine hs _)

/-- Every call whose precondition holds goes well. -/
theorem C02_op_partial (rt : Rt) (op : Op) (s : Scanner) (h : Inside s) (hp : op.Pre s) : Fine s (op.exec rt s) := by
  obtain ⟨hd, tl, hb⟩ := (between_iff s).mpr h
  have ht := tail_of hb
  have hh := head_of hb
  cases op with
  | ifStr str => exact ifStr_fine h str
  | ifAny strs => exact ifAny_fine h strs
  | revIf str => exact revIf_fine h str
  | revIfAny strs => exact revIfAny_fine h strs
  | ifRune r => exact ifRune_fine h r
  | ifAnyRune str => exact ifAnyRuneLoop_fine h _
  | revTo str => exact revSearch_fine h _
  | revToRune r => exact revSearch_fine h _
  | revToAnyRune str => exact revSearch_fine h _
  | revToBetween mn mx => exact revSearch_fine h _
  | revToMatch f => exact revSearch_fine h _
  | revWhileRune r => exact revWhile_fine h (fun v => v == r)
  | revWhileAnyRune r => exact revWhile_fine h _
  | revWhileBetween mn mx => exact revWhile_fine h (fun v => inRange mn v mx)
  | revWhileMatch r => exact revWhile_fine h _
  | scanString n =>
    simp only [Op.exec, Scanner.scanString, ht, Exec.bind_ret, Exec.pure_eq]
    by_cases hc : (getPrefix tl n).2 = true
    · simp only [hc, if_true, Exec.bind_ret]
      exact fine_move h _
    · simp only [hc]
      exact fine_same h _
  | ifFold str =>
    simp only [Op.exec, Scanner.ifFold, ht, Exec.bind_ret, Exec.pure_eq]
    have : ¬ str.length > tl.length := by
      have hp : s.pos + str.length ≤ s.full.length := hp
      rw [hb.1, hb.2, List.length_append] at hp
      omega
    rw [if_neg this]
    split
    · exact fine_move h _
    · exact fine_same h _
  | revIfFold str =>
    simp only [Op.exec, Scanner.revIfFold, hh, Exec.bind_ret, Exec.pure_eq]
    have : ¬ str.length > hd.length := by
      have hp : (str.length : Int) ≤ s.pos := hp
      rw [hb.2] at hp
      omega
    rw [if_neg this]
    split
    · exact fine_move h _
    · exact fine_same h _
  | revToFold str =>
    simp only [Op.exec, Scanner.revToFold, hh, Exec.bind_ret, Exec.pure_eq]
    obtain ⟨ps, hps⟩ := BackPieces.exists hd
    obtain ⟨o, ho⟩ := revToFoldLoop_fine rt str hp (revItr hd).1 (by
      rw [revItr_pieces hps]
      exact backSteps_ne ps hps.ne_nil)
    rw [ho]
    simp only [Exec.bind_ret]
    split
    · exact fine_move h _
    · exact fine_same h _
  | tail => simp only [Op.exec, ht, Exec.bind_ret, Exec.pure_eq]; exact fine_same h _
  | head => simp only [Op.exec, hh, Exec.bind_ret, Exec.pure_eq]; exact fine_same h _
  | lineCol tab =>
    simp only [Op.exec, Scanner.lineCol, hh, Exec.bind_ret, Exec.pure_eq]
    split <;> exact fine_same h _
  | move n => exact fine_move h n
  | moveRunes n =>
    simp only [Op.exec, Scanner.moveRunes, ht, hh, Exec.bind_ret, Exec.pure_eq]
    repeat' split
    all_goals first | exact fine_move h _ | exact fine_same h _
  | atEnd => exact fine_same h _
  | atStart => exact fine_same h _
  | toMarker m => exact fine_toMarker' hp.1 hp.2
  | toEnd => exact fine_toMarker' (by omega) (by omega)
  | toStart => exact fine_toMarker' (by omega) (by omega)
  | mark => exact fine_same h _
  | get t =>
    obtain ⟨b, hg⟩ := get_of hp
    simp only [Op.exec, hg, Exec.bind_ret, Exec.pure_eq]; exact fine_same h _
  | since m =>
    obtain ⟨b, hg⟩ := since_of h hp
    simp only [Op.exec, hg, Exec.bind_ret, Exec.pure_eq]; exact fine_same h _
  | errorFor n => exact fine_same h _
  | segmentate n => exact fine_same h _
  | setTracker t => exact ⟨_, _, rfl, h, rfl⟩
  | readRune =>
    apply val_bind
    unfold Scanner.readRune
    simp only [ht, Exec.bind_ret, Exec.pure_eq]
    split
    · exact ⟨_, _, _, rfl, h, rfl⟩
    · obtain ⟨b, s', e1, i1, f1⟩ := fine_move h (decodeRune tl).2
      injection e1 with e1
      rw [e1]
      exact ⟨_, _, _, rfl, i1, f1⟩
  | revReadRune =>
    apply val_bind
    unfold Scanner.revReadRune
    simp only [hh, Exec.bind_ret, Exec.pure_eq]
    split
    · exact ⟨_, _, _, rfl, h, rfl⟩
    · obtain ⟨b, s', e1, i1, f1⟩ := fine_move h (-((decodeLastRune hd).2 : Int))
      injection e1 with e1
      rw [e1]
      exact ⟨_, _, _, rfl, i1, f1⟩
  | readBool f => exact val_bind (readBool_fine h f)
  | readInt base bits => exact val_bind (readInt_fine h base bits)
  | readUint base bits => exact val_bind (readUint_fine h base bits)
  | toFold str =>
    simp only [Op.exec, Scanner.toFold, ht, Exec.bind_ret, Exec.pure_eq]
    split
    · exact fine_move h _
    · exact fine_same h _
  | _ =>
    simp only [Op.exec, Scanner.to, Scanner.toRune, Scanner.whileRune, Scanner.toAnyRune, Scanner.whileAnyRune,
      Scanner.ifBetween, Scanner.toBetween, Scanner.whileBetween, Scanner.ifMatch, Scanner.toMatch, Scanner.whileMatch,
      Scanner.revIfRune, Scanner.revIfAnyRune, Scanner.revIfBetween, Scanner.revIfMatch,
      ht, hh, Exec.bind_ret, Exec.pure_eq]
    repeat' split
    all_goals first | exact fine_move h _ | exact fine_same h _ | exact fine_toMarker' (by omega) (by omega)

/-- A program keeps its calls' preconditions, in whatever state inside the text `text` it
gets to. -/
def Prog.Careful (text : Bytes) : Prog → Scanner → Prop
  | .done _, _ => True
  | .call op k, s => op.Pre s ∧ ∀ b s', Inside s' → s'.full = text → (k b s').Careful text s'
  | .scope body k, s => body.Careful text s ∧ ∀ b s', Inside s' → s'.full = text → (k b s').Careful text s'
  | .trace body k, s => body.Careful text s ∧ ∀ b s', Inside s' → s'.full = text → (k b s').Careful text s'
  | .tokenize body k, s => body.Careful text s ∧ ∀ b s', Inside s' → s'.full = text → (k b s').Careful text s'
  | .capture body k, s => body.Careful text s ∧ ∀ b s', Inside s' → s'.full = text → (k b s').Careful text s'
  | .while_ body k, _ => (∀ s', Inside s' → s'.full = text → body.Careful text s') ∧
      ∀ b s', Inside s' → s'.full = text → (k b s').Careful text s'

private theorem whileLoop_fine {f : ScopeFunc} {text : Bytes}
    (hf : ∀ s, Inside s → s.full = text → f s = .timeout ∨ Fine s (f s)) (n : Nat) (s : Scanner) (h : Inside s)
    (ht : s.full = text) :
    whileLoop f n s = .timeout ∨ ∃ s', whileLoop f n s = .ret s' ∧ Inside s' ∧ s'.full = s.full := by
  induction n generalizing s with
  | zero => left; rfl
  | succ n ih =>
    unfold whileLoop
    rcases hf s h ht with h1 | ⟨b, s', h1, h2, h3⟩
    · left; rw [h1]; rfl
    · rw [h1]
      cases b
      · right; exact ⟨s', rfl, h2, h3⟩
      · rcases ih s' h2 (h3.trans ht) with h4 | ⟨s'', h4, h5, h6⟩
        · left; simpa using h4
        · right; exact ⟨s'', by simpa using h4, h5, h6.trans h3⟩

/-- A whole client program: any sequence of scanner calls, with nested closures, that keeps
the preconditions leaves the position in the text and the text unchanged, and does not
panic (a `While` may run forever).

Missing for the full property: calls that violate the preconditions, which can put the
position outside the text (`C02_toMarker_violated`) or panic (`C02_fold_violated`,
`C17_revToFold_violated`). -/
theorem C02_program_partial (rt : Rt) (fuel : Nat) (p : Prog) (s : Scanner) (h : Inside s)
    (hc : p.Careful s.full s) : p.run rt fuel s = .timeout ∨ Fine s (p.run rt fuel s) := by
  -- the continuation of a scope-like call
  have cont : ∀ (text : Bytes) (k : Bool → Scanner → Prog) (s s' : Scanner) (b : Bool),
      (∀ (a : Bool) (a_1 : Scanner) (s : Scanner), Inside s → s.full = text → (k a a_1).Careful text s →
        (k a a_1).run rt fuel s = .timeout ∨ Fine s ((k a a_1).run rt fuel s)) →
      s.full = text → Inside s' → s'.full = s.full → (k b s').Careful text s' →
      (k b s').run rt fuel s' = .timeout ∨ Fine s ((k b s').run rt fuel s') := by
    intro text k s s' b ih ht h1 h2 hk
    rcases ih b s' s' h1 (h2.trans ht) hk with h3 | h3
    · exact .inl h3
    · exact .inr (h3.trans h2)
  suffices H : ∀ text (p : Prog) (s : Scanner), Inside s → s.full = text → p.Careful text s →
      p.run rt fuel s = .timeout ∨ Fine s (p.run rt fuel s) from H s.full p s h rfl hc
  clear h hc
  intro text p
  induction p with
  | done b => intro s h _ _; exact .inr (fine_same h b)
  | call op k ih =>
    intro s h ht hc
    obtain ⟨b, s', h1, h2, h3⟩ := C02_op_partial rt op s h hc.1
    simp only [Prog.run, h1, Exec.bind_ret]
    exact cont text k s s' b ih ht h2 h3 (hc.2 b s' h2 (h3.trans ht))
  | scope body k ihb ih =>
    intro s h ht hc
    simp only [Prog.run, Scanner.scope]
    rcases ihb s h ht hc.1 with h1 | ⟨b, s', h1, h2, h3⟩
    · left; rw [h1]; rfl
    · rw [h1]
      cases b
      · obtain ⟨i, f⟩ := fine_toMarker (s := s') (m := s.mark) h.1 (by rw [h3]; exact h.2)
        simp only [Exec.bind_ret, Bool.not_false, if_true, Exec.pure_eq]
        exact cont text k s _ _ ih ht i (f.trans h3) (hc.2 _ _ i (f.trans (h3.trans ht)))
      · simp only [Exec.bind_ret, Bool.not_true, Bool.false_eq_true, if_false, Exec.pure_eq]
        exact cont text k s _ _ ih ht h2 h3 (hc.2 _ _ h2 (h3.trans ht))
  | trace body k ihb ih =>
    intro s h ht hc
    simp only [Prog.run, Scanner.trace]
    rcases ihb s h ht hc.1 with h1 | ⟨b, s', h1, h2, h3⟩
    · left; rw [h1]; rfl
    · rw [h1]
      obtain ⟨str, hsi⟩ := since_of (s := s') (m := s.mark) h2 ⟨h.1, by rw [h3]; exact h.2⟩
      simp only [Exec.bind_ret, hsi]
      cases b
      · obtain ⟨i, f⟩ := fine_toMarker (s := s') (m := s.mark) h.1 (by rw [h3]; exact h.2)
        simp only [Exec.bind_ret, Bool.not_false, if_true, Exec.pure_eq]
        exact cont text k s _ _ ih ht i (f.trans h3) (hc.2 _ _ i (f.trans (h3.trans ht)))
      · simp only [Exec.bind_ret, Bool.not_true, Bool.false_eq_true, if_false, Exec.pure_eq]
        exact cont text k s _ _ ih ht h2 h3 (hc.2 _ _ h2 (h3.trans ht))
  | tokenize body k ihb ih =>
    intro s h ht hc
    simp only [Prog.run, Scanner.tokenize]
    rcases ihb s h ht hc.1 with h1 | ⟨b, s', h1, h2, h3⟩
    · left; rw [h1]; rfl
    · rw [h1]
      cases b
      · obtain ⟨i, f⟩ := fine_toMarker (s := s') (m := s.mark) h.1 (by rw [h3]; exact h.2)
        simp only [Exec.bind_ret, Bool.not_false, if_true, Exec.pure_eq]
        exact cont text k s _ _ ih ht i (f.trans h3) (hc.2 _ _ i (f.trans (h3.trans ht)))
      · simp only [Exec.bind_ret, Bool.not_true, Bool.false_eq_true, if_false, Exec.pure_eq]
        exact cont text k s _ _ ih ht h2 h3 (hc.2 _ _ h2 (h3.trans ht))
  | capture body k ihb ih =>
    intro s h ht hc
    simp only [Prog.run, Scanner.capture, Scanner.tokenize]
    rcases ihb s h ht hc.1 with h1 | ⟨b, s', h1, h2, h3⟩
    · left; rw [h1]; rfl
    · rw [h1]
      cases b
      · obtain ⟨i, f⟩ := fine_toMarker (s := s') (m := s.mark) h.1 (by rw [h3]; exact h.2)
        simp only [Exec.bind_ret, Bool.not_false, if_true, Exec.pure_eq, Bool.false_eq_true, if_false]
        exact cont text k s _ _ ih ht i (f.trans h3) (hc.2 _ _ i (f.trans (h3.trans ht)))
      · obtain ⟨str, hsi⟩ : ∃ str, s'.get (makeToken s.mark s'.mark) = .ret str :=
          since_of (s := s') (m := s.mark) h2 ⟨h.1, by rw [h3]; exact h.2⟩
        simp only [Exec.bind_ret, Bool.not_true, Bool.false_eq_true, if_false, Exec.pure_eq, if_true, hsi]
        exact cont text k s _ _ ih ht h2 h3 (hc.2 _ _ h2 (h3.trans ht))
  | while_ body k ihb ih =>
    intro s h ht hc
    simp only [Prog.run, Scanner.while_]
    rcases whileLoop_fine (fun s' i f => ihb s' i f (hc.1 s' i f)) fuel s h ht with h1 | ⟨s', h1, h2, h3⟩
    · left; rw [h1]; rfl
    · rw [h1]
      simp only [Exec.bind_ret, Exec.pure_eq]
      exact cont text k s _ _ ih ht h2 h3 (hc.2 _ _ h2 (h3.trans ht))

/-- `ToMarker` accepts markers outside the text, after which `Tail()` panics. -/
theorem C02_toMarker_violated : ∃ s, (Scanner.new b!"a" Heap.empty).toMarker 5 = (true, s) ∧ ¬ Inside s ∧
    s.tail = .panic ∧ ∃ s', (Scanner.new b!"a" Heap.empty).toMarker (-1) = (true, s') ∧ s'.head = .panic := by
  refine ⟨⟨b!"a", 5, none, Heap.empty⟩, rfl, ?_, rfl, ⟨b!"a", -1, none, Heap.empty⟩, rfl, rfl⟩
  unfold Inside
  simp

/-- `IfFold` can panic with the scanner inside the text. -/
theorem C02_fold_violated (rt : Rt) : (Scanner.new b!"a" Heap.empty).ifFold rt b!"abc" = .panic :=
  C17_ifFold_violated rt _ [] b!"a" b!"abc" ⟨rfl, rfl⟩ (by decide)

-- A careful program: mark, move with closures, go back to the mark, look before folding.
def exProg : Prog :=
  .scope (.call (.ifRune 97) fun b _ => .done b) fun _ s1 =>
  .call (.to b!"c") fun b s2 =>
  if b then .call (.toMarker s1.mark) fun _ s3 =>
    if s3.atEnd then .done true else .call (.ifFold b!"B") fun b _ => .done b
  else .done s2.atEnd
example : exProg.run exRt 0 (Scanner.new b!"abc" Heap.empty) = .ret (true, ⟨b!"abc", 2, none, Heap.empty⟩) := rfl
example (text : Bytes) : exProg.Careful text (Scanner.new text Heap.empty) := by
  refine ⟨⟨trivial, fun _ _ _ _ => trivial⟩, fun _ s1 h1 f1 => ⟨trivial, fun b s2 h2 f2 => ?_⟩⟩
  cases b
  · exact trivial
  · refine ⟨⟨h1.1, by rw [f2, ← f1]; exact h1.2⟩, fun _ s3 h3 f3 => ?_⟩
    by_cases hc : s3.atEnd = true
    · simp only [hc, if_true]; exact trivial
    · simp only [hc]
      refine ⟨?_, fun _ _ _ _ => trivial⟩
      have h4 := h3.2
      simp only [Scanner.atEnd, decide_eq_true_eq] at hc
      show s3.pos + ((1 : Nat) : Int) ≤ s3.full.length
      omega

end Tok
