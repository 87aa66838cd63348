/-
C12 Reverse one-rune scanning: RevIfRune, RevIfAnyRune, RevIfBetween, RevIfMatch.
-/
import Verif.Proofs.BackScan

namespace Tok
open Spec

private theorem backOverOne_of {f : Call} {q : Int → Bool} {s : Scanner}
    (h1 : ∀ h t, Between s h t → f s = if q (decodeLastRune h).1 then
      .ret (s.move (-((decodeLastRune h).2 : Int))) else .ret (false, s))
    (h2 : s.pos = 0 → q 0xFFFD = false) :
    BackOverOne f (fun r => q r = true) s := by
  intro h t hb
  rw [h1 h t hb]
  constructor
  · rintro r p h' hst rfl hq
    rw [(backStep_iff.mp hst).2.1]
    obtain ⟨s', hm, hr⟩ := move_back hb
    exact ⟨s', by simp [hq, hm], hr⟩
  · intro hno
    rcases backStep_cases h with ⟨rfl, hd⟩ | ⟨r, p, h', hst, rfl, hd, _⟩
    · rw [hd]
      have := h2 (by rw [hb.2]; rfl)
      have hre : runeError = 0xFFFD := rfl
      rw [hre, this]; rfl
    · rw [hd, if_neg (hno r p hst)]

/-- `RevIfRune(r)` moves back over the last rune iff it is `r`.

Missing for the full property: `RevIfRune(U+FFFD)` at the start of the text
(`C12_start_violated`). -/
theorem C12_revIfRune_partial (s : Scanner) (r : Int) (hc : r ≠ 0xFFFD ∨ s.pos ≠ 0) :
    BackOverOne (fun s => s.revIfRune r) (fun v => v = r) s := by
  have := backOverOne_of (f := fun s => s.revIfRune r) (q := fun v => v == r) (s := s) ?_ ?_
  · simpa using this
  · intro h t hb
    unfold Scanner.revIfRune
    rw [head_of hb]
    simp only [Exec.bind_ret, Exec.pure_eq]
    by_cases hr : (decodeLastRune h).1 = r
    · simp [hr]
    · simp [hr]
  · intro hp
    rcases hc with hc | hc
    · simpa using fun h => hc h.symm
    · exact absurd hp hc

/-- `RevIfAnyRune(str)` moves back over the last rune iff it is one of the runes of
`str`.

Missing for the full property: a set with U+FFFD at the start of the text
(`C12_start_violated`). -/
theorem C12_revIfAnyRune_partial (s : Scanner) (str : Bytes) (hc : ¬ RuneIn str 0xFFFD ∨ s.pos ≠ 0) :
    BackOverOne (fun s => s.revIfAnyRune str) (RuneIn str) s := by
  have := backOverOne_of (f := fun s => s.revIfAnyRune str) (q := fun v => containsRune str v) (s := s) ?_ ?_
  · have he : RuneIn str = fun r => containsRune str r = true :=
      funext fun r => propext (runeIn_iff_contains str r)
    rw [he]; exact this
  · intro h t hb
    unfold Scanner.revIfAnyRune
    rw [head_of hb]
    simp only [Exec.bind_ret, Exec.pure_eq]
  · intro hp
    rcases hc with hc | hc
    · rw [runeIn_iff_contains] at hc; simpa using hc
    · exact absurd hp hc

/-- At the start of the text there is no rune to move over: the four methods stay there, and their
result is what they say of U+FFFD. -/
theorem C12_start_exact (s : Scanner) (t : Bytes) (hb : Between s [] t) :
    (∀ r : Int, ∃ b s', s.revIfRune r = .ret (b, s') ∧ Between s' [] t ∧ (b = true ↔ r = 0xFFFD)) ∧
    (∀ str : Bytes, ∃ b s', s.revIfAnyRune str = .ret (b, s') ∧ Between s' [] t ∧ (b = true ↔ RuneIn str 0xFFFD)) ∧
    (∀ min max : Int, ∃ b s', s.revIfBetween min max = .ret (b, s') ∧ Between s' [] t ∧ (b = true ↔ ¬ (min ≤ 0xFFFD ∧ 0xFFFD ≤ max))) ∧
    (∀ f : Int → Bool, ∃ b s', s.revIfMatch f = .ret (b, s') ∧ Between s' [] t ∧ (b = true ↔ f 0xFFFD = false)) := by
  have hd : decodeLastRune [] = (0xFFFD, 0) := rfl
  obtain ⟨s', hm, hr⟩ := move_back (x := []) (h := []) (t := t) (s := s) (by simpa using hb)
  have hm : s.move 0 = (true, s') := hm
  have hr : Between s' [] t := hr.1
  have key : ∀ q : Bool, ∃ b s', (if q then Exec.ret (s.move 0) else .ret (false, s)) = .ret (b, s') ∧ Between s' [] t ∧ (b = true ↔ q = true) := by
    intro q
    cases q with
    | true => exact ⟨true, s', by rw [hm]; rfl, hr, by simp⟩
    | false => exact ⟨false, s, rfl, hb, by simp⟩
  refine ⟨fun r => ?_, fun str => ?_, fun min max => ?_, fun f => ?_⟩
  · obtain ⟨b, s2, h1, h2, h3⟩ := key (decide (r = 0xFFFD))
    refine ⟨b, s2, ?_, h2, by simpa using h3⟩
    rw [← h1]
    unfold Scanner.revIfRune
    rw [head_of hb]
    simp only [Exec.bind_ret, Exec.pure_eq, hd]
    by_cases hc : r = 0xFFFD
    · simp [hc]
    · have : (0xFFFD : Int) ≠ r := fun h => hc h.symm
      simp [hc, this]
  · obtain ⟨b, s2, h1, h2, h3⟩ := key (containsRune str 0xFFFD)
    refine ⟨b, s2, ?_, h2, by rw [runeIn_iff_contains]; exact h3⟩
    rw [← h1]
    unfold Scanner.revIfAnyRune
    rw [head_of hb]
    simp only [Exec.bind_ret, Exec.pure_eq, hd]
    rfl
  · obtain ⟨b, s2, h1, h2, h3⟩ := key (!Scanner.inRange min 0xFFFD max)
    refine ⟨b, s2, ?_, h2, by rw [h3, ← inRange_iff]; simp⟩
    rw [← h1]
    unfold Scanner.revIfBetween
    rw [head_of hb]
    simp only [Exec.bind_ret, Exec.pure_eq, hd]
    cases Scanner.inRange min 0xFFFD max <;> rfl
  · obtain ⟨b, s2, h1, h2, h3⟩ := key (!f 0xFFFD)
    refine ⟨b, s2, ?_, h2, by rw [h3]; simp⟩
    rw [← h1]
    unfold Scanner.revIfMatch
    rw [head_of hb]
    simp only [Exec.bind_ret, Exec.pure_eq, hd]
    cases f 0xFFFD <;> rfl

example : Between (Scanner.new b!"a" Heap.empty) [] b!"a" := ⟨rfl, rfl⟩

/-- At the start of the text `RevIfRune(U+FFFD)` and `RevIfAnyRune("�")` report
success without moving. -/
theorem C12_start_violated :
    (Scanner.new b!"a" Heap.empty).revIfRune 0xFFFD = .ret (true, Scanner.new b!"a" Heap.empty) ∧
    (Scanner.new b!"a" Heap.empty).revIfAnyRune b!"�" = .ret (true, Scanner.new b!"a" Heap.empty) :=
  ⟨rfl, rfl⟩

/-- `RevIfBetween(min,max)` does the opposite of what it says: it moves back over the
last rune iff that rune is *outside* the range. -/
theorem C12_revIfBetween_inverted (s : Scanner) (min max : Int) (hc : s.pos ≠ 0) :
    BackOverOne (fun s => s.revIfBetween min max) (fun v => ¬ (min ≤ v ∧ v ≤ max)) s := by
  have := backOverOne_of (f := fun s => s.revIfBetween min max) (q := fun v => !Scanner.inRange min v max)
    (s := s) ?_ (fun h => absurd h hc)
  · have he : (fun v => ¬ (min ≤ v ∧ v ≤ max)) = fun r => (!Scanner.inRange min r max) = true :=
      funext fun r => propext (by rw [← inRange_iff]; simp)
    rw [he]; exact this
  · intro h t hb
    unfold Scanner.revIfBetween
    rw [head_of hb]
    simp only [Exec.bind_ret, Exec.pure_eq]
    cases Scanner.inRange min (decodeLastRune h).1 max <;> simp

/-- `RevIfMatch(f)` does the opposite of what it says: it moves back over the last rune
iff `f` *rejects* it. -/
theorem C12_revIfMatch_inverted (s : Scanner) (f : Int → Bool) (hc : s.pos ≠ 0) :
    BackOverOne (fun s => s.revIfMatch f) (fun v => f v = false) s := by
  have := backOverOne_of (f := fun s => s.revIfMatch f) (q := fun v => !f v)
    (s := s) ?_ (fun h => absurd h hc)
  · simpa using this
  · intro h t hb
    unfold Scanner.revIfMatch
    rw [head_of hb]
    simp only [Exec.bind_ret, Exec.pure_eq]
    cases f (decodeLastRune h).1 <;> simp

/-- Hence on every text whose last rune before the position lies in the range
`RevIfBetween` fails without moving, against the property. -/
theorem C12_revIfBetween_violated (s : Scanner) (h t p : Bytes) (r min max : Int) (hb : Between s h t)
    (hst : BackStep h r p) (hr : min ≤ r ∧ r ≤ max) : s.revIfBetween min max = .ret (false, s) := by
  have hne : s.pos ≠ 0 := by
    intro h0
    rw [hb.2] at h0
    have : h = [] := List.length_eq_zero_iff.mp (by omega)
    subst this
    exact backStep_nil hst
  refine ((C12_revIfBetween_inverted s min max hne) h t hb).2 ?_
  intro r' p' hst'
  obtain ⟨rfl, _⟩ := hst.unique hst'
  exact not_not_intro hr

/-- Likewise for `RevIfMatch`. -/
theorem C12_revIfMatch_violated (s : Scanner) (h t p : Bytes) (r : Int) (f : Int → Bool) (hb : Between s h t)
    (hst : BackStep h r p) (hr : f r = true) : s.revIfMatch f = .ret (false, s) := by
  have hne : s.pos ≠ 0 := by
    intro h0
    rw [hb.2] at h0
    have : h = [] := List.length_eq_zero_iff.mp (by omega)
    subst this
    exact backStep_nil hst
  refine ((C12_revIfMatch_inverted s f hne) h t hb).2 ?_
  intro r' p' hst'
  obtain ⟨rfl, _⟩ := hst.unique hst'
  simp [hr]

-- "é|": the last rune is 'é', two bytes; a malformed byte counts as U+FFFD.
example : BackStep b!"aé" 0xE9 [0xC3, 0xA9] := BackStep.char 'é' b!"a"
example : BackStep [97, 0xC3] 0xFFFD [0xC3] := by rw [backStep_iff]; decide +kernel
example : Between ⟨b!"aéb", 3, none, Heap.empty⟩ b!"aé" b!"b" := by decide +kernel

end Tok
