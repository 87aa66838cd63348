/-
C09 Predicate scanning: IfMatch, ToMatch, WhileMatch.
-/
import Verif.Proofs.Scan

namespace Tok
open Spec

/-- `IfMatch(f)` moves over the first rune iff `f` accepts it. -/
theorem C09_ifMatch (s : Scanner) (f : Int → Bool) :
    OverOne (fun s => s.ifMatch f) (fun v => f v = true) s := by
  apply overOne_of
  · intro h v p t' hb hd hp hq
    unfold Scanner.ifMatch
    rw [tail_of hb]
    simp only [Exec.bind_ret, Exec.pure_eq]
    rw [hd]
    simp [hq, hp]
  · intro h v p t' hb hd hp hq
    unfold Scanner.ifMatch
    rw [tail_of hb]
    simp only [Exec.bind_ret, Exec.pure_eq]
    rw [hd]
    simp [hq]
  · intro h hb
    unfold Scanner.ifMatch
    rw [tail_of hb]
    rfl

/-- `ToMatch(f)` moves to the first accepted rune. -/
theorem C09_toMatch (s : Scanner) (f : Int → Bool) :
    ToFirst (fun s => s.toMatch f) (fun v => f v = true) s := by
  apply toFirst_of
  intro h t hb
  unfold Scanner.toMatch
  rw [tail_of hb]
  simp only [Exec.bind_ret, Exec.pure_eq]
  cases (rangeStr t).find? (fun iv => f iv.2) <;> rfl

/-- Exact result of `WhileMatch(f)`: unless every rune of the tail is accepted it moves
over the longest run and tells so; when the whole tail is accepted it does nothing. -/
theorem C09_whileMatch_exact (s : Scanner) (f : Int → Bool) (h t : Bytes) (pre post : List (Bytes × Int))
    (hb : Between s h t) (hps : Pieces t (pre ++ post)) (hrun : Run (fun v => f v = true) pre post) :
    (post ≠ [] → ∃ s', s.whileMatch f = .ret (!pre.isEmpty, s') ∧
      Reaches s s' (h ++ bytesOf pre) (bytesOf post)) ∧
    (post = [] → s.whileMatch f = .ret (false, s)) := by
  have hfind := find_run hps hrun
  have hsplit := pieces_split hps
  have hbn := bytesOf_nil_iff hps
  have hpn := pieces_nil_iff hps
  unfold Scanner.whileMatch
  rw [tail_of hb]
  simp only [Exec.bind_ret, Exec.pure_eq]
  constructor
  · intro hpost
    have ht : t ≠ [] := fun h => hpost (List.append_eq_nil_iff.mp (hpn.mp h)).2
    obtain ⟨x, post, rfl⟩ := List.exists_cons_of_ne_nil hpost
    rw [if_neg (by simpa using ht), hfind]
    simp only [List.head?_cons, Option.map_some]
    by_cases hpre : pre = []
    · subst hpre
      refine ⟨s, by simp [bytesOf], ?_⟩
      rw [hsplit] at hb
      simpa [bytesOf] using reaches_self hb
    · rw [hsplit] at hb
      obtain ⟨s', h1, h2⟩ := move_fwd hb
      refine ⟨s', ?_, h2⟩
      rw [if_neg (by simpa using fun h => hpre (hbn.mp h)), h1]
      have : (!pre.isEmpty) = true := by simpa using hpre
      rw [this]
  · rintro rfl
    by_cases ht : t = []
    · subst ht; simp
    · rw [if_neg (by simpa using ht), hfind]
      rfl

/-- `WhileMatch(f)` moves over the maximal run of accepted runes.

Missing for the full property: when every rune up to the end of the text is accepted
it does not move (`C09_whileMatch_violated`). -/
theorem C09_whileMatch_partial (s : Scanner) (f : Int → Bool)
    (hc : ∀ h t ps, Between s h t → Pieces t ps → t = [] ∨ ∃ x ∈ ps, f x.2 = false) :
    OverRun (fun s => s.whileMatch f) (fun v => f v = true) s := by
  intro h t pre post hb hps hrun
  obtain ⟨h1, h2⟩ := C09_whileMatch_exact s f h t pre post hb hps hrun
  by_cases hpost : post = []
  · subst hpost
    rcases hc h t _ hb hps with rfl | ⟨x, hx, hnx⟩
    · obtain ⟨rfl, _⟩ := List.append_eq_nil_iff.mp ((pieces_nil_iff hps).mp rfl)
      exact ⟨_, s, h2 rfl, by simpa [bytesOf] using reaches_self hb⟩
    · exact absurd (hrun.1 x (by simpa using hx)) (by simp [hnx])
  · obtain ⟨s', h3, h4⟩ := h1 hpost
    exact ⟨_, s', h3, h4⟩

/-- On "aa" `WhileMatch` of a predicate that accepts everything should end at
position 2 but stays at 0. -/
theorem C09_whileMatch_violated :
    ¬ OverRun (fun s => s.whileMatch (fun _ => true)) (fun _ => true = true) (Scanner.new b!"aa" Heap.empty) := by
  intro hno
  obtain ⟨b, s', h1, h2⟩ := hno [] b!"aa" [([97], 97), ([97], 97)] [] ⟨rfl, rfl⟩ (pieces_encText ['a', 'a'])
    ⟨by simp, by simp⟩
  have hex : (Scanner.new b!"aa" Heap.empty).whileMatch (fun _ => true) =
    .ret (false, Scanner.new b!"aa" Heap.empty) := rfl
  simp only at h1
  rw [hex] at h1
  cases h1
  exact absurd h2.1.2 (by decide)

-- A run in front of a rejected rune.
example : Pieces b!"éb-" ([([0xC3, 0xA9], 0xE9), ([98], 98)] ++ [([45], 45)]) := pieces_encText ['é', 'b', '-']
example : Run (fun v => (decide (97 ≤ v)) = true) [([0xC3, 0xA9], 0xE9), ([98], 98)] [([45], 45)] := by
  constructor
  · decide
  · rintro x l ⟨⟩; decide

end Tok
