/-
C13 Reverse search: RevToRune, RevToAnyRune, RevToBetween, RevToMatch.
-/
import Verif.Proofs.BackScan

namespace Tok
open Spec

/-- What the property asks of a backward search, restricted to heads in which no
U+FFFD and no malformed byte is met before the match. -/
def BackToLastUpTo (f : Call) (q : Int → Prop) (s : Scanner) : Prop := ∀ h t ps, Between s h t →
  BackPieces h ps → NoStop q ps →
  (∀ pre x post, ps = pre ++ x :: post → (∀ y ∈ pre, ¬ q y.2) → q x.2 →
    ∃ s', f s = .ret (true, s') ∧ Reaches s s' (bytesOfBack (x :: post)) (bytesOfBack pre ++ t)) ∧
  ((∀ x ∈ ps, ¬ q x.2) → f s = .ret (false, s))

/-- The full property would be `BackToLast`; it follows when there is no such stop. -/
theorem backToLast_of_upTo {f : Call} {q : Int → Prop} {s : Scanner} (hf : BackToLastUpTo f q s)
    (hn : ∀ h t ps, Between s h t → BackPieces h ps → NoStop q ps) : BackToLast f q s :=
  fun h t ps hb hps => hf h t ps hb hps (hn h t ps hb hps)

/-- `RevToMatch(f)`.  Missing here and in the next three theorems for the full
property: heads with a U+FFFD or malformed byte behind the match, where it is false
(`C13_stop_violated`). -/
theorem C13_revToMatch_partial (s : Scanner) (f : Int → Bool) :
    BackToLastUpTo (fun s => s.revToMatch f) (fun v => f v = true) s := by
  intro h t ps hb hps hn
  exact backToLast_of hb hps hn

theorem C13_revToRune_partial (s : Scanner) (r : Int) :
    BackToLastUpTo (fun s => s.revToRune r) (fun v => v = r) s := by
  have he : (fun v => v = r) = fun v : Int => (v == r) = true := funext fun v => propext (by simp)
  rw [he]
  intro h t ps hb hps hn
  exact backToLast_of (q := fun v => v == r) hb hps hn

theorem C13_revToAnyRune_partial (s : Scanner) (str : Bytes) :
    BackToLastUpTo (fun s => s.revToAnyRune str) (RuneIn str) s := by
  have he : RuneIn str = fun v => containsRune str v = true :=
    funext fun r => propext (runeIn_iff_contains str r)
  rw [he]
  intro h t ps hb hps hn
  exact backToLast_of (q := fun v => containsRune str v) hb hps hn

theorem C13_revToBetween_partial (s : Scanner) (min max : Int) :
    BackToLastUpTo (fun s => s.revToBetween min max) (fun v => min ≤ v ∧ v ≤ max) s := by
  have he : (fun v => min ≤ v ∧ v ≤ max) = fun v => Scanner.inRange min v max = true :=
    funext fun r => propext (inRange_iff min r max).symm
  rw [he]
  intro h t ps hb hps hn
  exact backToLast_of (q := fun v => Scanner.inRange min v max) hb hps hn

/-- In the remaining case, a U+FFFD or malformed byte behind the last match, every
one of these searches fails, whatever stands before it. -/
theorem C13_stop_violated (s : Scanner) (q : Int → Bool) (h t : Bytes) (pre post : List (Bytes × Int))
    (x : Bytes × Int) (hb : Between s h t) (hps : BackPieces h (pre ++ x :: post)) (hx : x.2 = 0xFFFD)
    (hpre : ∀ y ∈ pre, q y.2 = false) : s.revToMatch q = .ret (false, s) :=
  backStop_of hb hps hx (fun y hy => by simp [hpre y hy])

/-- For instance "a" is not found in "a�". -/
theorem C13_revToRune_violated :
    (Scanner.newRev b!"a�" Heap.empty).revToRune 97 = .ret (false, Scanner.newRev b!"a�" Heap.empty) := rfl

-- A head without U+FFFD in which the search stops in the middle.
example : BackPieces b!"aéb" [([98], 98), ([0xC3, 0xA9], 0xE9), ([97], 97)] := backPieces_encText ['a', 'é', 'b']
example : NoStop (fun v => v = 0xE9) [([98], 98), ([0xC3, 0xA9], 0xE9), ([97], 97)] := by
  intro pre x post he _
  have : x ∈ [(([98] : Bytes), (98 : Int)), ([0xC3, 0xA9], 0xE9), ([97], 97)] := by rw [he]; simp
  clear he
  revert x
  decide

end Tok
