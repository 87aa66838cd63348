/-
C71 No `int` of the package is too small.
-/
import Verif.Model.Machine
import Verif.Proofs.Scan
import Verif.Proofs.EatSim
import Verif.Props.C19

namespace Tok
open Spec

/-! ### wrap-around -/

theorem pow_half {w : Nat} (hw : 0 < w) : (2 : Int) ^ w = 2 * 2 ^ (w - 1) := by
  obtain ⟨v, rfl⟩ : ∃ v, w = v + 1 := ⟨w - 1, by omega⟩
  rw [Int.pow_succ, Nat.add_sub_cancel]; omega

theorem pow_one_le (w : Nat) : (0 : Int) < 2 ^ (w - 1) := Int.pow_pos (by decide)

theorem wrapInt_range {w : Nat} (hw : 0 < w) (x : Int) : IsInt w (wrapInt w x) := by
  have h1 := Int.le_bmod (x := x) (m := 2 ^ w) (Nat.pow_pos (by decide))
  have h2 := Int.bmod_lt (x := x) (m := 2 ^ w) (Nat.pow_pos (by decide))
  have h3 := pow_half hw
  simp only [wrapInt, IsInt]
  push_cast at h1 h2
  omega

theorem wrapInt_id {w : Nat} (hw : 0 < w) {x : Int} (h : IsInt w x) : wrapInt w x = x := by
  have h3 := pow_half hw
  obtain ⟨h1, h2⟩ := h
  refine Int.bmod_eq_of_le ?_ ?_ <;> push_cast <;> omega

theorem wrapInt_iff {w : Nat} (hw : 0 < w) {x : Int} : wrapInt w x = x ↔ IsInt w x := ⟨fun h => h ▸ wrapInt_range hw x, wrapInt_id hw⟩

theorem wrapInt_add (w : Nat) (x : Int) : wrapInt w (x + 2 ^ w) = wrapInt w x := by
  have := Int.add_bmod_right x (2 ^ w)
  simpa [wrapInt] using this

theorem wrapInt_sub (w : Nat) (x : Int) : wrapInt w (x - 2 ^ w) = wrapInt w x := by
  rw [← wrapInt_add w (x - 2 ^ w), Int.sub_add_cancel]

/-- The value within the bounds that differs by `2 ^ w` or not at all. -/
theorem wrapInt_cases {w : Nat} (hw : 0 < w) {x : Int} (h : -2 ^ w ≤ x ∧ x ≤ 2 ^ w) :
    (IsInt w x ∧ wrapInt w x = x) ∨ (x < -2 ^ (w - 1) ∧ wrapInt w x = x + 2 ^ w) ∨ (2 ^ (w - 1) ≤ x ∧ wrapInt w x = x - 2 ^ w) := by
  have h3 := pow_half hw
  have hB := pow_one_le w
  by_cases h1 : x < -2 ^ (w - 1)
  · right; left
    refine ⟨h1, ?_⟩
    rw [← wrapInt_add]
    exact wrapInt_id hw ⟨by omega, by omega⟩
  · by_cases h2 : 2 ^ (w - 1) ≤ x
    · right; right
      refine ⟨h2, ?_⟩
      rw [← wrapInt_sub]
      exact wrapInt_id hw ⟨by omega, by omega⟩
    · exact .inl ⟨⟨by omega, by omega⟩, wrapInt_id hw ⟨by omega, by omega⟩⟩

/-! ### `Move` -/

/-- When `Move` does what it would do with integers without bounds. -/
theorem C71_move_exact (w : Nat) (hw : 0 < w) (s : Scanner) (n : Int) (hl : (s.full.length : Int) < 2 ^ (w - 1)) (hp : IsInt w s.pos) (hn : IsInt w n) :
    s.moveInt w n = s.move n ↔ ¬ (0 ≤ s.pos + n + 2 ^ w ∧ s.pos + n + 2 ^ w ≤ s.full.length) := by
  have h3 := pow_half hw
  obtain ⟨p1, p2⟩ := hp
  obtain ⟨n1, n2⟩ := hn
  unfold Scanner.moveInt Scanner.move
  rcases wrapInt_cases hw (x := s.pos + n) ⟨by omega, by omega⟩ with ⟨⟨h1, h2⟩, e⟩ | ⟨h1, e⟩ | ⟨h1, e⟩
  · rw [e]
    simp only [true_iff]
    omega
  · rw [e]
    have : (decide (0 > s.pos + n) || decide (s.pos + n > (s.full.length : Int))) = true := by simp; omega
    simp only [this, if_true]
    by_cases hc : 0 ≤ s.pos + n + 2 ^ w ∧ s.pos + n + 2 ^ w ≤ s.full.length
    · have h4 : (decide (0 > s.pos + n + 2 ^ w) || decide (s.pos + n + 2 ^ w > (s.full.length : Int))) = false := by simp; omega
      simp [h4, hc]
    · have h4 : (decide (0 > s.pos + n + 2 ^ w) || decide (s.pos + n + 2 ^ w > (s.full.length : Int))) = true := by simp; omega
      simp only [h4, if_true, true_iff]
      exact hc
  · rw [e]
    have h4 : (decide (0 > s.pos + n - 2 ^ w) || decide (s.pos + n - 2 ^ w > (s.full.length : Int))) = true := by simp; omega
    have h5 : (decide (0 > s.pos + n) || decide (s.pos + n > (s.full.length : Int))) = true := by simp; omega
    simp only [h4, h5, if_true, true_iff]
    omega

/-- From every position that is not negative, `Move` is right for every argument. -/
theorem C71_move (w : Nat) (hw : 0 < w) (s : Scanner) (n : Int) (hl : (s.full.length : Int) < 2 ^ (w - 1)) (h0 : 0 ≤ s.pos) (hp : IsInt w s.pos) (hn : IsInt w n) :
    s.moveInt w n = s.move n := by
  refine (C71_move_exact w hw s n hl hp hn).mpr ?_
  have h3 := pow_half hw
  obtain ⟨n1, _⟩ := hn
  omega

/-- `ToMarker` accepts the least `int`; from there `Move` by the least `int` goes to the start of the text. -/
theorem C71_move_violated (w : Nat) (hw : 0 < w) (s : Scanner) (hl : (s.full.length : Int) < 2 ^ (w - 1)) :
    IsInt w (-2 ^ (w - 1)) ∧ (s.toMarker (-2 ^ (w - 1))).1 = true ∧ ((s.toMarker (-2 ^ (w - 1))).2.moveInt w (-2 ^ (w - 1))).1 = true ∧
      ((s.toMarker (-2 ^ (w - 1))).2.moveInt w (-2 ^ (w - 1))).2.pos = 0 ∧ ((s.toMarker (-2 ^ (w - 1))).2.move (-2 ^ (w - 1))).1 = false := by
  have h3 := pow_half hw
  have hB := pow_one_le w
  have e1 : s.toMarker (-2 ^ (w - 1)) = (true, { s with pos := -2 ^ (w - 1) }.notify) := by
    unfold Scanner.toMarker
    rw [if_neg]
    simp only [Bool.and_eq_true, decide_eq_true_eq]
    omega
  have hf : ({ s with pos := -2 ^ (w - 1) } : Scanner).notify.full = s.full := by rw [notify_full]
  have hp : ({ s with pos := -2 ^ (w - 1) } : Scanner).notify.pos = -2 ^ (w - 1) := by rw [notify_pos]
  have hw0 : wrapInt w (-2 ^ (w - 1) + -2 ^ (w - 1)) = 0 := by
    rw [← wrapInt_add]
    have : (-2 ^ (w - 1) + -2 ^ (w - 1) + 2 ^ w : Int) = 0 := by omega
    rw [this]
    exact wrapInt_id hw ⟨by omega, by omega⟩
  refine ⟨⟨by omega, by omega⟩, by rw [e1], ?_⟩
  rw [e1]
  simp only [Scanner.moveInt, Scanner.move, hf, hp, hw0]
  have h4 : (decide ((0 : Int) > 0) || decide ((0 : Int) > (s.full.length : Int))) = false := by simp
  have h5 : (decide ((0 : Int) > -2 ^ (w - 1) + -2 ^ (w - 1)) || decide ((-2 ^ (w - 1) + -2 ^ (w - 1) : Int) > (s.full.length : Int))) = true := by simp; omega
  simp only [h4, h5, if_true, Bool.false_eq_true, if_false]
  exact ⟨trivial, by simp [notify_pos], trivial⟩


/-! ### `MoveRunes` -/

theorem revItrGo_short : ∀ (fuel : Nat) (str : Bytes), ∀ x ∈ (revItrGo fuel str).1, x.1.length ≤ str.length
  | 0, _, x, hx => by simp [revItrGo] at hx
  | fuel + 1, str, x, hx => by
    simp only [revItrGo] at hx
    split at hx
    · simp at hx
    · rcases List.mem_cons.mp hx with rfl | hx
      · exact Nat.le_refl _
      · have := revItrGo_short fuel _ x hx
        simp only [List.length_take] at this
        omega

theorem runeLen_range (r : Int) : -1 ≤ runeLen r ∧ runeLen r ≤ 4 := by
  unfold runeLen
  repeat' split
  all_goals omega

/-- `MoveRunes` is right for every argument, at every position in the text. -/
theorem C71_moveRunes (w : Nat) (hw : 4 ≤ w) (s : Scanner) (n : Int) (hl : (s.full.length : Int) < 2 ^ (w - 1)) : s.moveRunesInt w n = s.moveRunes n := by
  have h0 : 0 < w := by omega
  have h3 := pow_half h0
  have hB : (8 : Int) ≤ 2 ^ (w - 1) := by
    obtain ⟨v, rfl⟩ : ∃ v, w = v + 4 := ⟨w - 4, by omega⟩
    have : (0 : Int) < 2 ^ v := Int.pow_pos (by decide)
    rw [show v + 4 - 1 = v + 3 from rfl, Int.pow_add]
    omega
  unfold Scanner.moveRunesInt Scanner.moveRunes
  split
  · unfold Scanner.tail
    split
    · rename_i hp
      simp only [Exec.bind_ret]
      cases hi : (rangeStr (s.full.drop s.pos.toNat))[(n - 1).toNat]? with
      | none => rfl
      | some x =>
        obtain ⟨i, r⟩ := x
        have hlt := rangeStr_lt (List.mem_of_getElem? hi)
        obtain ⟨r1, r2⟩ := runeLen_range r
        simp only [List.length_drop] at hlt
        show (pure _ : Exec (Bool × Scanner)) = pure _
        congr 1
        rcases wrapInt_cases h0 (x := (i : Int) + runeLen r) ⟨by omega, by omega⟩ with ⟨h1, e⟩ | ⟨h1, e⟩ | ⟨h1, e⟩
        · rw [e]
          exact C71_move w h0 s _ hl hp.1 ⟨by omega, by omega⟩ h1
        · omega
        · rw [e, C71_move w h0 s _ hl hp.1 ⟨by omega, by omega⟩ ⟨by omega, by omega⟩]
          unfold Scanner.move
          have h4 : (decide (0 > s.pos + (↑i + runeLen r - 2 ^ w)) || decide (s.pos + (↑i + runeLen r - 2 ^ w) > (s.full.length : Int))) = true := by simp; omega
          have h5 : (decide (0 > s.pos + (↑i + runeLen r)) || decide (s.pos + (↑i + runeLen r) > (s.full.length : Int))) = true := by simp; omega
          simp only [h4, h5, if_true]
    · rfl
  · split
    · unfold Scanner.head
      split
      · rename_i hp
        simp only [Exec.bind_ret]
        cases hi : (revItr (s.full.take s.pos.toNat)).1[(-n - 1).toNat]? with
        | none => rfl
        | some x =>
          obtain ⟨str, val⟩ := x
          have hlt := revItrGo_short _ _ _ (List.mem_of_getElem? hi)
          simp only [List.length_take] at hlt ⊢
          obtain ⟨r1, r2⟩ := runeLen_range val
          show (pure _ : Exec (Bool × Scanner)) = pure _
          congr 1
          rw [wrapInt_id h0 (x := (↑(min s.pos.toNat s.full.length) : Int) - ↑str.length) ⟨by omega, by omega⟩]
          have hm : min s.pos.toNat s.full.length = s.pos.toNat := by omega
          rw [hm] at hlt ⊢
          generalize hk : ((s.pos.toNat : Int) - (str.length : Int)) + runeLen val = k
          have hs : 0 ≤ (str.length : Int) := by omega
          have k1 : -1 ≤ k := by omega
          have k2 : k ≤ s.pos + 4 := by omega
          rcases wrapInt_cases h0 (x := k) ⟨by omega, by omega⟩ with ⟨⟨h1, h2⟩, e⟩ | ⟨h1, e⟩ | ⟨h1, e⟩
          · rw [e, wrapInt_id h0 (x := -k) ⟨by omega, by omega⟩]
            exact C71_move w h0 s _ hl hp.1 ⟨by omega, by omega⟩ ⟨by omega, by omega⟩
          · omega
          · rw [e]
            have h5 : (decide (0 > s.pos + -k) || decide (s.pos + -k > (s.full.length : Int))) = true := by simp; omega
            rcases wrapInt_cases h0 (x := -(k - 2 ^ w)) ⟨by omega, by omega⟩ with ⟨h6, e2⟩ | ⟨h6, e2⟩ | ⟨h6, e2⟩
            · rw [e2, C71_move w h0 s _ hl hp.1 ⟨by omega, by omega⟩ h6]
              unfold Scanner.move
              have h4 : (decide (0 > s.pos + -(k - 2 ^ w)) || decide (s.pos + -(k - 2 ^ w) > (s.full.length : Int))) = true := by simp; omega
              simp only [h4, h5, if_true]
            · omega
            · rw [e2, C71_move w h0 s _ hl hp.1 ⟨by omega, by omega⟩ ⟨by omega, by omega⟩]
              unfold Scanner.move
              have h4 : (decide (0 > s.pos + (-(k - 2 ^ w) - 2 ^ w)) || decide (s.pos + (-(k - 2 ^ w) - 2 ^ w) > (s.full.length : Int))) = true := by simp; omega
              simp only [h4, h5, if_true]
      · rfl
    · rfl

/-! ### `LineCol` and `Len` -/

/-- The line is right, the column is the right one modulo `2 ^ w`. -/
theorem lineColInt_eq (w : Nat) (s : Scanner) (tab : Int) : s.lineColInt w tab = (s.lineCol tab >>= fun x => pure (if x.1 = 0 then x else (x.1, wrapInt w x.2))) := by
  unfold Scanner.lineColInt Scanner.lineCol
  cases s.head with
  | panic => rfl
  | timeout => rfl
  | ret h =>
    simp only [Exec.bind_ret]
    cases hl : (splitLf (crlfToLf h)).getLast? with
    | none => rfl
    | some last =>
      have hne : ((splitLf (crlfToLf h)).length : Int) ≠ 0 := by
        intro h0
        have h1 : (splitLf (crlfToLf h)).length = 0 := by omega
        rw [List.length_eq_zero_iff.mp h1] at hl
        cases hl
      simp only [Exec.pure_eq, Exec.bind_ret, if_neg hne]
      congr 2
      simp [wrapInt]

/-- `LineCol` gives the right column exactly if there is an `int` for it.  `a` are the lines before the current one, `b` is the current line up to the
position. -/
theorem C71_lineCol_exact (w : Nat) (hw : 0 < w) (s : Scanner) (a b t : Bytes) (tab : Int) (hb : Between s (a ++ b) t) (ha : a = [] ∨ ∃ a', a = a' ++ [10])
    (hn : (10 : UInt8) ∉ b) : s.lineColInt w tab = .ret (1 + (a.count 10 : Int), 1 + lineWidth tab b) ↔ IsInt w (1 + lineWidth tab b) := by
  rw [lineColInt_eq, C19_lineCol s a b t tab hb ha hn]
  simp only [Exec.bind_ret, if_neg (show 1 + (a.count 10 : Int) ≠ 0 by omega), Exec.pure_eq, Exec.ret.injEq, Prod.mk.injEq, true_and]
  exact wrapInt_iff hw

/-- Two tabs, each as wide as the largest `int`: the column is -1. -/
theorem C71_lineCol_violated (w : Nat) (hw : 2 ≤ w) : IsInt w (2 ^ (w - 1) - 1) ∧
    (Scanner.new b!"\t\t" Heap.empty).toEnd.2.lineColInt w (2 ^ (w - 1) - 1) = .ret (1, -1) := by
  have h3 := pow_half (w := w) (by omega)
  have hB := pow_one_le w
  refine ⟨⟨by omega, by omega⟩, ?_⟩
  have : (Scanner.new b!"\t\t" Heap.empty).toEnd.2.lineCol (2 ^ (w - 1) - 1) = .ret (1, 0 + 2 * (2 ^ (w - 1) - 1) + 1) := rfl
  rw [lineColInt_eq, this]
  simp only [Exec.bind_ret, if_neg (show (1 : Int) ≠ 0 by decide), Exec.pure_eq, Exec.ret.injEq, Prod.mk.injEq, true_and]
  rw [← wrapInt_sub]
  have : (0 + 2 * (2 ^ (w - 1) - 1) + 1 - 2 ^ w : Int) = -1 := by omega
  rw [this]
  exact wrapInt_id (by omega) ⟨by omega, by omega⟩

/-- `Len` is right exactly if there is an `int` for the length. -/
theorem C71_len_exact (w : Nat) (hw : 0 < w) (t : Token) : t.lenInt w = t.len ↔ IsInt w t.len := wrapInt_iff hw

/-- So it is right for all tokens in a text. -/
theorem C71_len (w : Nat) (hw : 0 < w) (t : Token) (h0 : 0 ≤ t.frm) (h1 : t.frm ≤ t.to) (h2 : IsInt w t.to) : t.lenInt w = t.len := by
  refine (C71_len_exact w hw t).mpr ?_
  obtain ⟨h3, h4⟩ := h2
  have hB := pow_one_le w
  constructor <;> simp only [Token.len] <;> omega

/-- A token made of the least and the largest `int` has the length -1. -/
theorem C71_len_violated (w : Nat) (hw : 0 < w) : IsInt w (-2 ^ (w - 1)) ∧ IsInt w (2 ^ (w - 1) - 1) ∧ (makeToken (-2 ^ (w - 1)) (2 ^ (w - 1) - 1)).lenInt w = -1 := by
  have h3 := pow_half hw
  have hB := pow_one_le w
  refine ⟨⟨by omega, by omega⟩, ⟨by omega, by omega⟩, ?_⟩
  have e : makeToken (-2 ^ (w - 1)) (2 ^ (w - 1) - 1) = ⟨-2 ^ (w - 1), 2 ^ (w - 1) - 1⟩ := by
    unfold makeToken
    rw [if_neg (by omega)]
  rw [e, Token.lenInt, ← wrapInt_sub]
  have : (2 ^ (w - 1) - 1 - -2 ^ (w - 1) - 2 ^ w : Int) = -1 := by omega
  rw [this]
  exact wrapInt_id hw ⟨by omega, by omega⟩


/-! ### cases -/

/-- `Move` by the largest and by the least `int` from the middle of a text: not moved. -/
example : (Scanner.new b!"hello" Heap.empty |>.move 3).2.moveInt 64 9223372036854775807 = (false, (Scanner.new b!"hello" Heap.empty |>.move 3).2) ∧
    (Scanner.new b!"hello" Heap.empty |>.move 3).2.moveInt 64 (-9223372036854775808) = (false, (Scanner.new b!"hello" Heap.empty |>.move 3).2) := by
  constructor
  · rw [C71_move 64 (by decide) _ _ (by decide) (by decide) ⟨by decide, by decide⟩ ⟨by decide, by decide⟩]; rfl
  · rw [C71_move 64 (by decide) _ _ (by decide) (by decide) ⟨by decide, by decide⟩ ⟨by decide, by decide⟩]; rfl

/-- Without the wrap-around two sums differ. -/
example : wrapInt 64 (9223372036854775807 + 1) = -9223372036854775808 ∧ wrapInt 32 2147483648 = -2147483648 ∧ wrapInt 64 2147483648 = 2147483648 := by decide

/-- A column that is an `int`, and the same with wider tabs. -/
example : (Scanner.new b!"a\n\tb\tc" Heap.empty).toEnd.2.lineColInt 32 8 = .ret (2, 19) ∧
    (Scanner.new b!"a\n\tb\tc" Heap.empty).toEnd.2.lineColInt 32 1073741824 = .ret (2, -2147483645) := by decide +kernel

/-- Two runes to the right with 32 bits. -/
example : ((Scanner.new b!"hello" Heap.empty).moveRunesInt 32 2 >>= fun x => pure (x.1, x.2.pos)) = .ret (true, 2) := by
  rw [C71_moveRunes 32 (by decide) _ _ (by decide)]; rfl

example : (makeToken 3 7).lenInt 32 = 4 := C71_len 32 (by decide) _ (by decide) (by decide) ⟨by decide, by decide⟩

end Tok
