/-
C07 Rune-set scanning: IfAnyRune, ToAnyRune, WhileAnyRune.
-/
import Verif.Proofs.Scan

namespace Tok
open Spec

/-- `IfAnyRune(str)` moves over the first rune iff it is one of the runes of `str`.

Missing for the full property: at the end of the text with U+FFFD (or a malformed
byte) in `str`, where it is false (`C07_ifAnyRune_violated`). -/
theorem C07_ifAnyRune_partial (s : Scanner) (str : Bytes)
    (hc : ¬ RuneIn str 0xFFFD ∨ s.pos ≠ s.full.length) :
    OverOne (fun s => s.ifAnyRune str) (RuneIn str) s := by
  have key : ∀ (h t : Bytes) (rs : List Int), Between s h t →
      s.ifAnyRuneLoop rs = if (decodeRune t).1 ∈ rs then
        .ret (s.move ((decodeRune t).2 : Int)) else .ret (false, s) := by
    intro h t rs hb
    have hmv : ∃ s', s.move ((decodeRune t).2 : Int) = (true, s') := by
      rcases step_cases t with ⟨rfl, hd⟩ | ⟨r, p, t', _, rfl, hd, _⟩
      · rw [hd]
        have hb' : Between s h ([] ++ []) := hb
        obtain ⟨s', h1, _⟩ := move_fwd hb'
        exact ⟨s', h1⟩
      · rw [hd]
        obtain ⟨s', h1, _⟩ := move_fwd hb
        exact ⟨s', h1⟩
    obtain ⟨s', hs'⟩ := hmv
    induction rs with
    | nil => rfl
    | cons r rs ih =>
      simp only [Scanner.ifAnyRuneLoop]
      rw [ifRune_eq hb]
      by_cases hr : (decodeRune t).1 = r
      · rw [if_pos hr, if_pos (by simp [hr]), hs']
        rfl
      · rw [if_neg hr]
        simp only [Exec.bind_ret, Bool.false_eq_true, if_false, ih, List.mem_cons, hr, false_or]
  refine (overOne_of (q := fun v => v ∈ runesOf str) ?_ ?_ ?_).congr (fun r => (runeIn_iff str r).symm)
  · intro h v p t' hb hd hp hq
    simp only [Scanner.ifAnyRune]
    rw [key h _ _ hb, hd, if_pos hq]
  · intro h v p t' hb hd hp hq
    simp only [Scanner.ifAnyRune]
    rw [key h _ _ hb, hd, if_neg hq]
  · intro h hb
    simp only [Scanner.ifAnyRune]
    rw [key h _ _ hb, decodeRune_nil, if_neg]
    rcases hc with hc | hc
    · rwa [runeIn_iff] at hc
    · exfalso
      apply hc
      obtain ⟨h1, h2⟩ := hb
      rw [h1, h2]; simp

/-- At the end of the text `IfAnyRune` of a set with U+FFFD reports success without
moving. -/
theorem C07_ifAnyRune_violated : ∃ s', (Scanner.new [] Heap.empty).ifAnyRune b!"�" = .ret (true, s') ∧
    s'.pos = 0 := ⟨_, rfl, rfl⟩

/-- `ToAnyRune(str)` moves to the first rune that is one of the runes of `str`. -/
theorem C07_toAnyRune (s : Scanner) (str : Bytes) : ToFirst (fun s => s.toAnyRune str) (RuneIn str) s := by
  refine (toFirst_of (q := fun v => containsRune str v) ?_).congr (fun r => (runeIn_iff_contains str r).symm)
  intro h t hb
  unfold Scanner.toAnyRune indexAny
  rw [tail_of hb]
  simp only [Exec.bind_ret, Exec.pure_eq]
  have : (fun iv : Nat × Int => containsRune str iv.2) = fun ir => (indexRune str ir.2).isSome := rfl
  rw [this]
  cases (rangeStr t).find? (fun ir => (indexRune str ir.2).isSome) <;> rfl

/-- Exact result of `WhileAnyRune(str)`: unless the whole tail is a run it moves over
the longest run and tells so; when the whole tail is a run it does not move. -/
theorem C07_whileAnyRune_exact (s : Scanner) (str : Bytes) (h t : Bytes) (pre post : List (Bytes × Int))
    (hb : Between s h t) (hps : Pieces t (pre ++ post)) (hrun : Run (RuneIn str) pre post) :
    (post ≠ [] → ∃ s', s.whileAnyRune str = .ret (!pre.isEmpty, s') ∧
      Reaches s s' (h ++ bytesOf pre) (bytesOf post)) ∧
    (post = [] → s.whileAnyRune str = .ret (!t.isEmpty, s)) := by
  have hfind := find_run (q := fun v => containsRune str v) hps (hrun.congr (runeIn_iff_contains str))
  have hsplit := pieces_split hps
  have hbn := bytesOf_nil_iff hps
  have hpn := pieces_nil_iff hps
  unfold Scanner.whileAnyRune
  rw [tail_of hb]
  simp only [Exec.bind_ret, Exec.pure_eq]
  constructor
  · intro hpost
    have ht : t ≠ [] := fun h => hpost (List.append_eq_nil_iff.mp (hpn.mp h)).2
    obtain ⟨x, post, rfl⟩ := List.exists_cons_of_ne_nil hpost
    rw [if_neg (by simpa using ht), hfind]
    simp only [List.head?_cons, Option.map_some]
    by_cases hpre : pre = []
    · subst hpre
      refine ⟨s, by simp [bytesOf], ?_⟩
      rw [hsplit] at hb
      simpa [bytesOf] using reaches_self hb
    · rw [hsplit] at hb
      obtain ⟨s', h1, h2⟩ := move_fwd hb
      refine ⟨s', ?_, h2⟩
      rw [if_neg (by simpa using fun h => hpre (hbn.mp h)), h1]
      have : (!pre.isEmpty) = true := by simpa using hpre
      rw [this]
  · rintro rfl
    by_cases ht : t = []
    · subst ht; simp
    · rw [if_neg (by simpa using ht), hfind]
      have : (!t.isEmpty) = true := by simpa using ht
      rw [this]
      rfl

/-- `WhileAnyRune(str)` moves over the maximal run.

Missing for the full property: when every rune up to the end of the text is in the
set it does not move at all (`C07_whileAnyRune_violated`). -/
theorem C07_whileAnyRune_partial (s : Scanner) (str : Bytes)
    (hc : ∀ h t ps, Between s h t → Pieces t ps → t = [] ∨ ∃ x ∈ ps, ¬ RuneIn str x.2) :
    OverRun (fun s => s.whileAnyRune str) (RuneIn str) s := by
  intro h t pre post hb hps hrun
  obtain ⟨h1, h2⟩ := C07_whileAnyRune_exact s str h t pre post hb hps hrun
  by_cases hpost : post = []
  · subst hpost
    rcases hc h t _ hb hps with rfl | ⟨x, hx, hnx⟩
    · obtain ⟨rfl, _⟩ := List.append_eq_nil_iff.mp ((pieces_nil_iff hps).mp rfl)
      exact ⟨_, s, h2 rfl, by simpa [bytesOf] using reaches_self hb⟩
    · exact absurd (hrun.1 x (by simpa using hx)) hnx
  · obtain ⟨s', h3, h4⟩ := h1 hpost
    exact ⟨_, s', h3, h4⟩

/-- On "aa" `WhileAnyRune("a")` should end at position 2 but stays at 0. -/
theorem C07_whileAnyRune_violated :
    (Scanner.new b!"aa" Heap.empty).whileAnyRune b!"a" = .ret (true, Scanner.new b!"aa" Heap.empty) ∧
    ¬ OverRun (fun s => s.whileAnyRune b!"a") (RuneIn b!"a") (Scanner.new b!"aa" Heap.empty) := by
  have hex : (Scanner.new b!"aa" Heap.empty).whileAnyRune b!"a" = .ret (true, Scanner.new b!"aa" Heap.empty) := rfl
  refine ⟨hex, fun hno => ?_⟩
  have hin : RuneIn b!"a" 97 := ⟨_, pieces_encText ['a'], by decide⟩
  obtain ⟨b, s', h1, h2⟩ := hno [] b!"aa" [([97], 97), ([97], 97)] [] ⟨rfl, rfl⟩ (pieces_encText ['a', 'a'])
    ⟨by intro x hx; simp at hx; subst hx; exact hin, by simp⟩
  simp only at h1
  rw [hex] at h1
  cases h1
  exact absurd h2.1.2 (by decide)

-- Non-trivial instances of the hypotheses.
example : RuneIn b!"aé" 0xE9 ∧ ¬ RuneIn b!"aé" 0xFFFD := by
  rw [runeIn_iff, runeIn_iff]; decide +kernel
example : Pieces b!"aéx" ([([97], 97), ([0xC3, 0xA9], 0xE9)] ++ [([120], 120)]) := pieces_encText ['a', 'é', 'x']

end Tok
