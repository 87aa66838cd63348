/-
C08 Rune-range scanning: IfBetween, ToBetween, WhileBetween.
-/
import Verif.Proofs.Scan

namespace Tok
open Spec

/-- `IfBetween(min,max)` moves over the first rune iff it lies in the range. -/
theorem C08_ifBetween (s : Scanner) (min max : Int) :
    OverOne (fun s => s.ifBetween min max) (fun v => min ≤ v ∧ v ≤ max) s := by
  refine (overOne_of (q := fun v => Scanner.inRange min v max = true) ?_ ?_ ?_).congr
    (fun r => inRange_iff min r max)
  · intro h v p t' hb hd hp hq
    unfold Scanner.ifBetween
    rw [tail_of hb]
    simp only [Exec.bind_ret, Exec.pure_eq]
    rw [if_neg (by simp [hp]), hd]
    simp only [hq, Bool.not_true, Bool.false_eq_true, if_false]
  · intro h v p t' hb hd hp hq
    unfold Scanner.ifBetween
    rw [tail_of hb]
    simp only [Exec.bind_ret, Exec.pure_eq]
    rw [if_neg (by simp [hp]), hd]
    simp only [hq, Bool.not_false, if_true]
  · intro h hb
    unfold Scanner.ifBetween
    rw [tail_of hb]
    rfl

/-- `ToBetween(min,max)` moves to the first rune in the range. -/
theorem C08_toBetween (s : Scanner) (min max : Int) :
    ToFirst (fun s => s.toBetween min max) (fun v => min ≤ v ∧ v ≤ max) s := by
  refine (toFirst_of (q := fun v => Scanner.inRange min v max) ?_).congr (fun r => inRange_iff min r max)
  intro h t hb
  unfold Scanner.toBetween
  rw [tail_of hb]
  simp only [Exec.bind_ret, Exec.pure_eq]
  by_cases ht : t = []
  · subst ht; rfl
  · rw [if_neg (by simpa using ht)]
    cases (rangeStr t).find? (fun iv => Scanner.inRange min iv.2 max) <;> rfl

/-- Exact result of `WhileBetween`: it moves over the longest run, and the boolean is
true whenever the tail was not empty. -/
theorem C08_whileBetween_exact (s : Scanner) (min max : Int) (h t : Bytes) (pre post : List (Bytes × Int))
    (hb : Between s h t) (hps : Pieces t (pre ++ post)) (hrun : Run (fun v => min ≤ v ∧ v ≤ max) pre post) :
    ∃ s', s.whileBetween min max = .ret (!t.isEmpty, s') ∧ Reaches s s' (h ++ bytesOf pre) (bytesOf post) := by
  have hfind := find_run (q := fun v => Scanner.inRange min v max) hps
    (hrun.congr (fun r => (inRange_iff min r max).symm))
  have hsplit := pieces_split hps
  unfold Scanner.whileBetween
  rw [tail_of hb]
  simp only [Exec.bind_ret, Exec.pure_eq]
  by_cases ht : t = []
  · subst ht
    obtain ⟨rfl, rfl⟩ := List.append_eq_nil_iff.mp ((pieces_nil_iff hps).mp rfl)
    refine ⟨s, by simp, ?_⟩
    simpa [bytesOf] using reaches_self hb
  · have hte : (!t.isEmpty) = true := by simpa using ht
    rw [if_neg (by simpa using ht), hte, hfind]
    rcases post with _ | ⟨x, post⟩
    · obtain ⟨s', h1, h2⟩ := toEnd_to hb
      refine ⟨s', by simp [h1], ?_⟩
      rw [hsplit] at h2
      simpa [bytesOf] using h2
    · rw [hsplit] at hb
      obtain ⟨s', h1, h2⟩ := move_fwd hb
      exact ⟨s', by simp [h1], h2⟩

/-- `WhileBetween(min,max)` moves over the maximal run of runes in the range. -/
theorem C08_whileBetween (s : Scanner) (min max : Int) :
    OverRun (fun s => s.whileBetween min max) (fun v => min ≤ v ∧ v ≤ max) s := by
  intro h t pre post hb hps hrun
  obtain ⟨s', h1, h2⟩ := C08_whileBetween_exact s min max h t pre post hb hps hrun
  exact ⟨_, s', h1, h2⟩

-- "é" lies between 'a' and U+FFFF; a run in front of a non-member.
example : Pieces b!"éb-" ([([0xC3, 0xA9], 0xE9), ([98], 98)] ++ [([45], 45)]) := pieces_encText ['é', 'b', '-']
example : Run (fun v => 97 ≤ v ∧ v ≤ 0xFFFF) [([0xC3, 0xA9], 0xE9), ([98], 98)] [([45], 45)] := by
  constructor
  · decide
  · rintro x l ⟨⟩; decide

end Tok
