/-
C06 Single-rune scanning: IfRune, ToRune, WhileRune.
-/
import Verif.Proofs.Scan

namespace Tok
open Spec

/-- `IfRune(r)` moves over the first rune iff it is `r`.

Missing for the full property: `IfRune(U+FFFD)` at the end of the text, where it is
false (`C06_ifRune_violated`). -/
theorem C06_ifRune_partial (s : Scanner) (r : Int) (hc : r ≠ 0xFFFD ∨ s.pos ≠ s.full.length) :
    OverOne (fun s => s.ifRune r) (fun v => v = r) s := by
  apply overOne_of
  · intro h v p t' hb hd hp hq
    rw [ifRune_eq hb, hd, if_pos hq]
  · intro h v p t' hb hd hp hq
    rw [ifRune_eq hb, hd, if_neg hq]
  · intro h hb
    rw [ifRune_eq hb, decodeRune_nil, if_neg]
    rcases hc with hc | hc
    · exact fun h => hc h.symm
    · exfalso
      apply hc
      obtain ⟨h1, h2⟩ := hb
      rw [h1, h2]; simp

/-- At the end of the text `IfRune(U+FFFD)` reports success without moving. -/
theorem C06_ifRune_violated (s : Scanner) (h : Bytes) (hb : Between s h []) :
    ∃ s', s.ifRune 0xFFFD = .ret (true, s') ∧ s'.pos = s.pos := by
  have hb' : Between s h ([] ++ []) := hb
  obtain ⟨s', h1, h2⟩ := move_fwd hb'
  refine ⟨s', ?_, ?_⟩
  · rw [ifRune_eq hb, decodeRune_nil, if_pos (show runeError = 0xFFFD from rfl)]
    simpa using h1
  · rw [h2.1.2, hb.2]; simp

/-- `ToRune(r)` moves to the first `r`, and fails without moving if there is none. -/
theorem C06_toRune (s : Scanner) (r : Int) : ToFirst (fun s => s.toRune r) (fun v => v = r) s := by
  refine (toFirst_of (q := fun v => v == r) ?_).congr (by simp)
  intro h t hb
  unfold Scanner.toRune
  rw [tail_of hb]
  simp only [Exec.bind_ret, Exec.pure_eq]
  split <;> rename_i heq <;> rw [heq]

/-- Exact result of `WhileRune(r)`: it moves over the longest run of `r`, and the
boolean is true whenever the tail was not empty. -/
theorem C06_whileRune_exact (s : Scanner) (r : Int) (h t : Bytes) (pre post : List (Bytes × Int))
    (hb : Between s h t) (hps : Pieces t (pre ++ post)) (hrun : Run (fun v => v = r) pre post) :
    ∃ s', s.whileRune r = .ret (!t.isEmpty, s') ∧ Reaches s s' (h ++ bytesOf pre) (bytesOf post) := by
  have hfind := find_run (q := fun v => v == r) hps (hrun.congr (by simp))
  have hsplit := pieces_split hps
  unfold Scanner.whileRune
  rw [tail_of hb]
  simp only [Exec.bind_ret, Exec.pure_eq]
  by_cases ht : t = []
  · subst ht
    obtain ⟨rfl, rfl⟩ := List.append_eq_nil_iff.mp ((pieces_nil_iff hps).mp rfl)
    refine ⟨s, by simp, ?_⟩
    simpa [bytesOf] using reaches_self hb
  · have hte : (!t.isEmpty) = true := by simpa using ht
    rw [if_neg (by simpa using ht), hte]
    have hfind' : (rangeStr t).find? (fun iv => iv.2 != r) = post.head?.map (fun x => ((bytesOf pre).length, x.2)) := hfind
    rw [hfind']
    rcases post with _ | ⟨x, post⟩
    · obtain ⟨s', h1, h2⟩ := toEnd_to hb
      refine ⟨s', by simp [h1], ?_⟩
      rw [hsplit] at h2
      simpa [bytesOf] using h2
    · rw [hsplit] at hb
      obtain ⟨s', h1, h2⟩ := move_fwd hb
      exact ⟨s', by simp [h1], h2⟩

/-- `WhileRune(r)` moves over the maximal run of `r`. -/
theorem C06_whileRune (s : Scanner) (r : Int) : OverRun (fun s => s.whileRune r) (fun v => v = r) s := by
  intro h t pre post hb hps hrun
  obtain ⟨s', h1, h2⟩ := C06_whileRune_exact s r h t pre post hb hps hrun
  exact ⟨_, s', h1, h2⟩

-- "éa" at position 0: the first rune is 'é' and occupies two bytes; a run of two runes.
example : Step [0xC3, 0xA9, 97] 0xE9 [0xC3, 0xA9] := by
  rw [step_iff]; decide +kernel
example : Pieces [0xC3, 0xA9, 0xC3, 0xA9, 97] ([([0xC3, 0xA9], 0xE9), ([0xC3, 0xA9], 0xE9)] ++ [([97], 97)]) :=
  pieces_encText ['é', 'é', 'a']
example : Run (fun v => v = 0xE9) [([0xC3, 0xA9], 0xE9), ([0xC3, 0xA9], 0xE9)] [([97], 97)] := by
  constructor
  · decide
  · rintro x l ⟨⟩; decide

end Tok
