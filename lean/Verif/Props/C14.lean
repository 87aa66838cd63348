/-
C14 Reverse runs: RevWhileRune, RevWhileAnyRune, RevWhileBetween, RevWhileMatch.
-/
import Verif.Proofs.BackScan

namespace Tok
open Spec

/-- What the property asks of a backward skip, restricted to runs without U+FFFD and
malformed bytes. -/
def BackOverCleanRun (f : Call) (q : Int → Prop) (s : Scanner) : Prop := ∀ h t pre post, Between s h t →
  BackPieces h (pre ++ post) → Run q pre post → (∀ x ∈ pre, x.2 ≠ 0xFFFD) →
  ∃ b s', f s = .ret (b, s') ∧ Reaches s s' (bytesOfBack post) (bytesOfBack pre ++ t)

/-- If U+FFFD is not accepted, that is the full property. -/
theorem backOverRun_of_clean {f : Call} {q : Int → Prop} {s : Scanner} (hf : BackOverCleanRun f q s)
    (hq : ¬ q 0xFFFD) : BackOverRun f q s := by
  intro h t pre post hb hps hrun
  exact hf h t pre post hb hps hrun (fun x hx he => hq (he ▸ hrun.1 x hx))

/-- `RevWhileMatch(f)` moves back over the maximal run.  Missing here and below for
the full property: runs that contain U+FFFD or malformed bytes, when those are
accepted (`C14_violated`). -/
theorem C14_revWhileMatch_partial (s : Scanner) (f : Int → Bool) :
    BackOverCleanRun (fun s => s.revWhileMatch f) (fun v => f v = true) s := by
  intro h t pre post hb hps hrun hcl
  obtain ⟨s', h1, h2⟩ := revWhile_of (q := f) hb hps (fun y hy => ⟨hrun.1 y hy, hcl y hy⟩)
    (fun x l he => Or.inl (by simpa using hrun.2 x l he))
  exact ⟨_, s', h1, h2⟩

theorem C14_revWhileRune_partial (s : Scanner) (r : Int) :
    BackOverCleanRun (fun s => s.revWhileRune r) (fun v => v = r) s := by
  have he : (fun v => v = r) = fun v : Int => (v == r) = true := funext fun v => propext (by simp)
  rw [he]
  exact C14_revWhileMatch_partial s (fun v => v == r)

theorem C14_revWhileAnyRune_partial (s : Scanner) (str : Bytes) :
    BackOverCleanRun (fun s => s.revWhileAnyRune str) (RuneIn str) s := by
  have he : RuneIn str = fun v => containsRune str v = true :=
    funext fun r => propext (runeIn_iff_contains str r)
  rw [he]
  exact C14_revWhileMatch_partial s (fun v => containsRune str v)

theorem C14_revWhileBetween_partial (s : Scanner) (min max : Int) :
    BackOverCleanRun (fun s => s.revWhileBetween min max) (fun v => min ≤ v ∧ v ≤ max) s := by
  have he : (fun v => min ≤ v ∧ v ≤ max) = fun v => Scanner.inRange min v max = true :=
    funext fun r => propext (inRange_iff min r max).symm
  rw [he]
  exact C14_revWhileMatch_partial s (fun v => Scanner.inRange min v max)

/-- On "a�" `RevWhileMatch` of a predicate that accepts everything stays at the
end. -/
theorem C14_violated :
    ∃ s', (Scanner.newRev b!"a�" Heap.empty).revWhileMatch (fun _ => true) = .ret (true, s') ∧ s'.pos = 4 :=
  ⟨_, rfl, rfl⟩

-- A clean run of two runes behind a rejected one.
example : BackPieces b!"aéb" ([([98], 98), ([0xC3, 0xA9], 0xE9)] ++ [([97], 97)]) := backPieces_encText ['a', 'é', 'b']
example : Run (fun v => 98 ≤ v ∧ v ≤ 0xFFFF) [([98], 98), ([0xC3, 0xA9], 0xE9)] [([97], 97)] := by
  constructor
  · decide
  · rintro x l ⟨⟩; decide

end Tok
