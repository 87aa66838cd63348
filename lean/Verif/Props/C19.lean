/-
C19 LineCol.
-/
import Verif.Proofs.Scan

namespace Tok
open Spec

private theorem crlf_count (h : Bytes) : (crlfToLf h).count 10 = h.count 10 := by
  induction h using crlfToLf.induct with
  | case1 => rfl
  | case2 b => rfl
  | case3 b c t hc ih =>
    simp only [Bool.and_eq_true, beq_iff_eq] at hc
    obtain ⟨rfl, rfl⟩ := hc
    simp [crlfToLf, ih]
  | case4 b c t hc ih =>
    rw [crlfToLf, if_neg hc, List.count_cons, ih, ← List.count_cons]

private theorem crlf_free {b : Bytes} (h : (10 : UInt8) ∉ b) : crlfToLf b = b := by
  induction b using crlfToLf.induct with
  | case1 => rfl
  | case2 b => rfl
  | case3 b c t hc ih =>
    simp only [Bool.and_eq_true, beq_iff_eq] at hc
    simp [hc] at h
  | case4 b c t hc ih =>
    rw [crlfToLf, if_neg hc, ih (fun hm => h (List.mem_cons_of_mem _ hm))]

private theorem crlf_lf {a b : Bytes} (h : (10 : UInt8) ∉ b) : ∃ a', crlfToLf (a ++ 10 :: b) = a' ++ 10 :: b := by
  induction a using crlfToLf.induct with
  | case1 =>
    refine ⟨[], ?_⟩
    rcases b with _ | ⟨c, b⟩
    · rfl
    · simp only [List.nil_append, crlfToLf]
      rw [if_neg (by simp)]
      simp only [List.cons.injEq, true_and]
      exact crlf_free h
  | case2 x =>
    rw [List.cons_append, List.nil_append, crlfToLf]
    by_cases hx : (x == 13 && (10 : UInt8) == 10) = true
    · rw [if_pos hx, crlf_free h]; exact ⟨[], rfl⟩
    · rw [if_neg hx]
      have : crlfToLf (10 :: b) = 10 :: b := by
        rcases b with _ | ⟨c, b⟩
        · rfl
        · rw [crlfToLf, if_neg (by simp), crlf_free h]
      rw [this]; exact ⟨[x], rfl⟩
  | case3 x c t hc ih =>
    obtain ⟨a', ha⟩ := ih
    rw [List.cons_append, List.cons_append, crlfToLf, if_pos hc, ha]
    exact ⟨10 :: a', rfl⟩
  | case4 x c t hc ih =>
    obtain ⟨a', ha⟩ := ih
    rw [List.cons_append, List.cons_append, crlfToLf, if_neg hc, ← List.cons_append, ha]
    exact ⟨x :: a', rfl⟩

private theorem splitLf_ne (x : Bytes) : splitLf x ≠ [] := by
  cases x with
  | nil => simp [splitLf]
  | cons b t =>
    rw [splitLf]; split
    · simp
    · split <;> simp

private theorem splitLf_length (x : Bytes) : (splitLf x).length = 1 + x.count 10 := by
  induction x with
  | nil => rfl
  | cons b t ih =>
    rw [splitLf]
    by_cases hb : b = 10
    · subst hb; simp [ih]; omega
    · rw [if_neg (by simpa using hb), List.count_cons_of_ne hb, ← ih]
      split
      · next h => exact absurd h (splitLf_ne t)
      · next h => rw [h]; simp

private theorem splitLf_free {b : Bytes} (h : (10 : UInt8) ∉ b) : splitLf b = [b] := by
  induction b with
  | nil => rfl
  | cons x t ih =>
    rw [splitLf, if_neg (by simp; rintro rfl; simp at h), ih (fun hm => h (List.mem_cons_of_mem _ hm))]

private theorem splitLf_last {a b : Bytes} (h : (10 : UInt8) ∉ b) : (splitLf (a ++ 10 :: b)).getLast? = some b := by
  induction a with
  | nil => rw [List.nil_append, splitLf, if_pos (by simp), splitLf_free h]; rfl
  | cons x a ih =>
    rw [List.cons_append, splitLf]
    have hne := splitLf_ne (a ++ 10 :: b)
    by_cases hx : x = 10
    · rw [if_pos (by simpa using hx), List.getLast?_cons, ih]; rfl
    · rw [if_neg (by simpa using hx)]
      rcases hs : splitLf (a ++ 10 :: b) with _ | ⟨l, ls⟩
      · exact absurd hs hne
      · rw [hs] at ih
        rcases ls with _ | ⟨l', ls⟩
        · -- a single line although there is a line break
          have := splitLf_length (a ++ 10 :: b)
          rw [hs] at this
          simp at this
        · simpa using ih

/-- The width of a line when a tab counts `tab`. -/
def lineWidth (tab : Int) (line : Bytes) : Int := (line.map (fun b => if b = 9 then tab else 1)).sum

private theorem lineWidth_eq (tab : Int) (l : Bytes) :
    lineWidth tab l = ((l.length : Int) - countTab l) + countTab l * tab := by
  induction l with
  | nil => simp [lineWidth, countTab]
  | cons b l ih =>
    unfold lineWidth countTab at *
    simp only [List.map_cons, List.sum_cons, List.length_cons, List.countP_cons, ih]
    by_cases hb : b = 9
    · simp only [hb, if_true, beq_self_eq_true]
      push_cast
      rw [Int.add_mul]; omega
    · rw [if_neg hb, if_neg (by simpa using hb), Nat.add_zero]
      push_cast
      rw [Int.add_zero]
      omega

/-- `LineCol(tab)`: when the text before the position is `a ++ b`, where `a` is empty
or ends in a line feed and `b` has none, the line is one plus the number of line feeds in
`a` (so a CRLF counts once) and the column is one plus the width of `b`. -/
theorem C19_lineCol (s : Scanner) (a b t : Bytes) (tab : Int) (hb : Between s (a ++ b) t)
    (ha : a = [] ∨ ∃ a', a = a' ++ [10]) (hn : (10 : UInt8) ∉ b) :
    s.lineCol tab = .ret (1 + (a.count 10 : Int), 1 + lineWidth tab b) := by
  have hlast : (splitLf (crlfToLf (a ++ b))).getLast? = some b := by
    rcases ha with rfl | ⟨a', rfl⟩
    · rw [List.nil_append, crlf_free hn, splitLf_free hn]; rfl
    · obtain ⟨a'', h⟩ := crlf_lf (a := a') hn
      rw [List.append_assoc, List.singleton_append, h]
      exact splitLf_last hn
  unfold Scanner.lineCol
  rw [head_of hb]
  simp only [Exec.bind_ret, hlast, splitLf_length, crlf_count, Exec.pure_eq]
  rw [lineWidth_eq, List.count_append, List.count_eq_zero.mpr hn]
  congr 2
  omega

/-- Every head has such a division, so `C19_lineCol` applies to every scanner. -/
theorem C19_total (h : Bytes) : ∃ a b, h = a ++ b ∧ (a = [] ∨ ∃ a', a = a' ++ [10]) ∧ (10 : UInt8) ∉ b := by
  induction h with
  | nil => exact ⟨[], [], rfl, .inl rfl, by simp⟩
  | cons x h ih =>
    obtain ⟨a, b, rfl, h1, h2⟩ := ih
    rcases h1 with rfl | ⟨a', rfl⟩
    · by_cases hx : x = 10
      · exact ⟨[x], b, rfl, .inr ⟨[], by simp [hx]⟩, h2⟩
      · exact ⟨[], x :: b, rfl, .inl rfl, by
          intro hm
          rcases List.mem_cons.mp hm with h | h
          · exact hx h.symm
          · exact h2 h⟩
    · exact ⟨x :: (a' ++ [10]), b, rfl, .inr ⟨x :: a', rfl⟩, h2⟩

-- "ab\r\n\tc|d": line 2, column 1 + 4 + 1.
example : Between ⟨b!"ab\r\n\tcd", 6, none, Heap.empty⟩ (b!"ab\r\n" ++ b!"\tc") b!"d" := by decide +kernel
example : (⟨b!"ab\r\n\tcd", 6, none, Heap.empty⟩ : Scanner).lineCol 4 = .ret (2, 6) := rfl

end Tok
