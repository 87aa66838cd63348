/-
C10 The boolean of While* and RevWhile* tells whether the scanner moved.
-/
import Verif.Props.C06
import Verif.Props.C07
import Verif.Props.C08
import Verif.Props.C09
import Verif.Props.C14

namespace Tok
open Spec

private theorem tells_of {f : Call} {s s' : Scanner} {b : Bool} (h : f s = .ret (b, s')) :
    TellsMoved f s ↔ (b = true ↔ s'.pos ≠ s.pos) := by
  constructor
  · intro ht; exact ht b s' h
  · intro ht b' s'' h'
    rw [h] at h'
    cases h'
    exact ht

private theorem reaches_moved {s s' : Scanner} {h t : Bytes} {pre post : List (Bytes × Int)} (hb : Between s h t)
    (hps : Pieces t (pre ++ post)) (hr : Reaches s s' (h ++ bytesOf pre) (bytesOf post)) :
    s'.pos ≠ s.pos ↔ pre ≠ [] := by
  have := (bytesOf_nil_iff hps).not
  rw [← List.length_eq_zero_iff] at this
  rw [hr.1.2, hb.2, List.length_append, Ne, Ne, ← this]
  omega

/-- `WhileMatch` has the property. -/
theorem C10_whileMatch (s : Scanner) (f : Int → Bool) (h t : Bytes) (hb : Between s h t) :
    TellsMoved (fun s => s.whileMatch f) s := by
  obtain ⟨pre, post, hps, hrun⟩ := exists_run (fun v => f v = true) t
  obtain ⟨h1, h2⟩ := C09_whileMatch_exact s f h t pre post hb hps hrun
  by_cases hp : post = []
  · rw [tells_of (h2 hp)]; simp
  · obtain ⟨s', h3, h4⟩ := h1 hp
    rw [tells_of h3, reaches_moved hb hps h4]; simp

/-- `WhileRune(r)` has it exactly at the end of the text and in front of an `r`.
Missing for the full property: everywhere else it reports true without moving. -/
theorem C10_whileRune_partial (s : Scanner) (r : Int) (h t : Bytes) (hb : Between s h t) :
    TellsMoved (fun s => s.whileRune r) s ↔ (t = [] ∨ ∃ p, Step t r p) := by
  obtain ⟨pre, post, hps, hrun⟩ := exists_run (fun v => v = r) t
  obtain ⟨s', h1, h2⟩ := C06_whileRune_exact s r h t pre post hb hps hrun
  rw [tells_of h1, reaches_moved hb hps h2]
  have hpn := pieces_nil_iff hps
  rcases pre with _ | ⟨⟨p, v⟩, pre⟩
  · rcases post with _ | ⟨⟨p, v⟩, post⟩
    · have := hpn.mpr rfl; simp [this]
    · have ht : t ≠ [] := fun h => by simp at hpn; exact hpn h
      have hv := hrun.2 (p, v) post rfl
      simp only [ne_eq, not_true_eq_false, iff_false, ht, false_or]
      cases hps with
      | cons hs he ht' =>
        have : (!t.isEmpty) = true := by simpa using ht
        rw [this]
        simp only [not_true_eq_false, false_iff, not_exists]
        intro p' hp'
        exact hv (hs.unique hp').1
  · have hv := hrun.1 (p, v) (by simp)
    simp only at hv
    subst hv
    have ht : t ≠ [] := fun h => by simp at hpn; exact hpn h
    cases hps with
    | cons hs he ht' =>
      have : (!t.isEmpty) = true := by simpa using ht
      rw [this]
      simp only [ne_eq, reduceCtorEq, not_false_eq_true, true_iff, ht, false_or]
      exact ⟨p, hs⟩

/-- `WhileBetween(min,max)` has it exactly at the end of the text and in front of a rune
in the range.  Missing for the full property: everywhere else it reports true without
moving. -/
theorem C10_whileBetween_partial (s : Scanner) (min max : Int) (h t : Bytes) (hb : Between s h t) :
    TellsMoved (fun s => s.whileBetween min max) s ↔ (t = [] ∨ ∃ r p, Step t r p ∧ min ≤ r ∧ r ≤ max) := by
  obtain ⟨pre, post, hps, hrun⟩ := exists_run (fun v => min ≤ v ∧ v ≤ max) t
  obtain ⟨s', h1, h2⟩ := C08_whileBetween_exact s min max h t pre post hb hps hrun
  rw [tells_of h1, reaches_moved hb hps h2]
  have hpn := pieces_nil_iff hps
  rcases pre with _ | ⟨⟨p, v⟩, pre⟩
  · rcases post with _ | ⟨⟨p, v⟩, post⟩
    · have := hpn.mpr rfl; simp [this]
    · have ht : t ≠ [] := fun h => by simp at hpn; exact hpn h
      have hv := hrun.2 (p, v) post rfl
      simp only [ne_eq, not_true_eq_false, iff_false, ht, false_or]
      cases hps with
      | cons hs he ht' =>
        have : (!t.isEmpty) = true := by simpa using ht
        rw [this]
        simp only [not_true_eq_false, false_iff, not_exists]
        intro r' p' hp'
        apply hv
        obtain ⟨rfl, _⟩ := hs.unique hp'.1
        exact hp'.2
  · have hv := hrun.1 (p, v) (by simp)
    simp only at hv
    have ht : t ≠ [] := fun h => by simp at hpn; exact hpn h
    cases hps with
    | cons hs he ht' =>
      have : (!t.isEmpty) = true := by simpa using ht
      rw [this]
      simp only [ne_eq, reduceCtorEq, not_false_eq_true, true_iff, ht, false_or]
      exact ⟨v, p, hs, hv⟩

/-- `WhileAnyRune(str)` has it exactly unless the tail is a non-empty run of runes of
`str`.  Missing for the full property: in that case it reports true without moving. -/
theorem C10_whileAnyRune_partial (s : Scanner) (str : Bytes) (h t : Bytes) (hb : Between s h t) :
    TellsMoved (fun s => s.whileAnyRune str) s ↔
      (t = [] ∨ ∀ ps, Pieces t ps → ∃ x ∈ ps, ¬ RuneIn str x.2) := by
  obtain ⟨pre, post, hps, hrun⟩ := exists_run (RuneIn str) t
  obtain ⟨h1, h2⟩ := C07_whileAnyRune_exact s str h t pre post hb hps hrun
  by_cases hp : post = []
  · subst hp
    rw [List.append_nil] at hps
    rw [tells_of (h2 rfl)]
    by_cases ht : t = []
    · simp [ht]
    · have : (!t.isEmpty) = true := by simpa using ht
      rw [this]
      simp only [ne_eq, not_true_eq_false, iff_false, ht, false_or, false_iff]
      intro hall
      obtain ⟨x, hx, hnx⟩ := hall pre hps
      exact hnx (hrun.1 x hx)
  · obtain ⟨s', h3, h4⟩ := h1 hp
    rw [tells_of h3, reaches_moved hb hps h4]
    simp only [Bool.not_eq_eq_eq_not, Bool.not_true, List.isEmpty_eq_false_iff, ne_eq, true_iff]
    right
    intro ps hps'
    rw [hps'.unique hps]
    obtain ⟨x, post, rfl⟩ := List.exists_cons_of_ne_nil hp
    exact ⟨x, by simp, hrun.2 x post rfl⟩

/-- The `RevWhile*` calls (all have the body `revWhile`) have the property exactly at the
start of the text and behind an accepted rune other than U+FFFD.  Missing for the full
property: everywhere else they report true without moving. -/
theorem C10_revWhileMatch_partial (s : Scanner) (f : Int → Bool) (h t : Bytes) (hb : Between s h t) :
    TellsMoved (fun s => s.revWhileMatch f) s ↔
      (h = [] ∨ ∃ r p, BackStep h r p ∧ f r = true ∧ r ≠ 0xFFFD) := by
  obtain ⟨pre, post, hps, h1, h2⟩ := exists_backRun (fun v => f v = true ∧ v ≠ 0xFFFD) h
  obtain ⟨s', h3, h4⟩ := revWhile_of (q := f) hb hps h1 (fun x l he => by
    have := h2 x l he
    by_cases hx : x.2 = 0xFFFD
    · exact Or.inr hx
    · left; simpa [hx] using this)
  rw [tells_of h3]
  have hby := hps.bytes
  rw [bytesOfBack_append] at hby
  rw [h4.1.2, hb.2]
  by_cases hh : h = []
  · subst hh
    have := List.append_eq_nil_iff.mp hby
    simp [this.1]
  · have : (!h.isEmpty) = true := by simpa using hh
    rw [this]
    simp only [true_iff, hh, false_or]
    have hl := congrArg List.length hby
    rw [List.length_append] at hl
    rcases pre with _ | ⟨⟨p, v⟩, pre⟩
    · rw [bytesOfBack_nil, List.length_nil] at hl
      constructor
      · intro hne; omega
      · rintro ⟨r, p, hst, hf, hr⟩
        exfalso
        rcases post with _ | ⟨⟨p', v⟩, post⟩
        · rw [List.nil_append] at hps
          exact hh (hps.bytes ▸ rfl)
        · cases hps with
          | cons hs he ht' =>
            obtain ⟨rfl, _⟩ := hs.unique hst
            exact h2 _ _ rfl ⟨hf, hr⟩
    · constructor
      · intro _
        cases hps with
        | cons hs he ht' => exact ⟨v, p, hs, h1 (p, v) (by simp)⟩
      · intro _
        have hp : 0 < p.length := List.length_pos_iff.mpr (hps.ne_nil (p, v) (by simp))
        rw [bytesOfBack_cons, List.length_append] at hl
        simp only at hl
        omega

theorem C10_revWhileRune_partial (s : Scanner) (r : Int) (h t : Bytes) (hb : Between s h t) :
    TellsMoved (fun s => s.revWhileRune r) s ↔ (h = [] ∨ (r ≠ 0xFFFD ∧ ∃ p, BackStep h r p)) := by
  refine (C10_revWhileMatch_partial s (fun v => v == r) h t hb).trans ?_
  constructor
  · rintro (h1 | ⟨v, p, h1, h2, h3⟩)
    · exact Or.inl h1
    · have : v = r := by simpa using h2
      subst this
      exact Or.inr ⟨h3, p, h1⟩
  · rintro (h1 | ⟨h2, p, h1⟩)
    · exact Or.inl h1
    · exact Or.inr ⟨r, p, h1, by simp, h2⟩

theorem C10_revWhileAnyRune_partial (s : Scanner) (str : Bytes) (h t : Bytes) (hb : Between s h t) :
    TellsMoved (fun s => s.revWhileAnyRune str) s ↔
      (h = [] ∨ ∃ r p, BackStep h r p ∧ RuneIn str r ∧ r ≠ 0xFFFD) := by
  refine (C10_revWhileMatch_partial s (fun v => containsRune str v) h t hb).trans ?_
  simp only [runeIn_iff_contains]

theorem C10_revWhileBetween_partial (s : Scanner) (min max : Int) (h t : Bytes) (hb : Between s h t) :
    TellsMoved (fun s => s.revWhileBetween min max) s ↔
      (h = [] ∨ ∃ r p, BackStep h r p ∧ (min ≤ r ∧ r ≤ max) ∧ r ≠ 0xFFFD) := by
  refine (C10_revWhileMatch_partial s (fun v => Scanner.inRange min v max) h t hb).trans ?_
  simp only [inRange_iff]

/-- Concrete violations of the property by six of the eight calls. -/
theorem C10_violated :
    ¬ TellsMoved (fun s => s.whileRune 98) (Scanner.new b!"a" Heap.empty) ∧
    ¬ TellsMoved (fun s => s.whileBetween 98 99) (Scanner.new b!"a" Heap.empty) ∧
    ¬ TellsMoved (fun s => s.whileAnyRune b!"a") (Scanner.new b!"a" Heap.empty) ∧
    ¬ TellsMoved (fun s => s.revWhileRune 98) (Scanner.newRev b!"a" Heap.empty) ∧
    ¬ TellsMoved (fun s => s.revWhileAnyRune b!"b") (Scanner.newRev b!"a" Heap.empty) ∧
    ¬ TellsMoved (fun s => s.revWhileBetween 98 99) (Scanner.newRev b!"a" Heap.empty) ∧
    ¬ TellsMoved (fun s => s.revWhileMatch (fun _ => false)) (Scanner.newRev b!"a" Heap.empty) := by
  refine ⟨?_, ?_, ?_, ?_, ?_, ?_, ?_⟩ <;> intro h <;> exact absurd rfl ((h true _ rfl).mp rfl)

-- The hypotheses are met, e.g. in the middle of "ab".
example : Between ⟨b!"ab", 1, none, Heap.empty⟩ b!"a" b!"b" := by decide +kernel

end Tok
