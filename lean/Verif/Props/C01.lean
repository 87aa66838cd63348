/-
C01 Rune iteration decodes UTF-8 correctly.
-/
import Verif.Proofs.BackScan

namespace Tok
open Spec

/-- One forward step (`utf8.DecodeRuneInString`) is the step of the specification:
an encoded character is decoded to itself, and where no character is encoded the
result is U+FFFD over exactly one byte. -/
theorem C01_decode_step (s p : Bytes) (r : Int) :
    Step s r p ↔ s ≠ [] ∧ p <+: s ∧ decodeRune s = (r, p.length) := by
  rw [step_iff]; tauto

/-- One backward step (`utf8.DecodeLastRuneInString`), likewise. -/
theorem C01_decodeLast_step (s p : Bytes) (r : Int) :
    BackStep s r p ↔ s ≠ [] ∧ p <:+ s ∧ decodeLastRune s = (r, p.length) := by
  rw [backStep_iff]; tauto

/-- Ranging over any text visits exactly the runes of the unique division of the
text into encoded characters and single malformed bytes, each at its byte offset;
every piece is non-empty and the pieces concatenate to the text. -/
theorem C01_forward (s : Bytes) :
    ∃ ps, (∀ ps', Pieces s ps' ↔ ps' = ps) ∧ bytesOf ps = s ∧ (∀ x ∈ ps, x.1 ≠ []) ∧
      (rangeStr s).length = ps.length ∧
      ∀ pre x post, ps = pre ++ x :: post → (rangeStr s)[pre.length]? = some ((bytesOf pre).length, x.2) := by
  obtain ⟨ps, hps⟩ := Pieces.exists s
  refine ⟨ps, fun ps' => ⟨fun h => h.unique hps, fun h => h ▸ hps⟩, hps.bytes, hps.ne_nil, ?_, ?_⟩
  · rw [rangeStr_pieces hps]
    have := congrArg List.length (offsets_runes 0 ps)
    simpa using this
  · rintro pre x post rfl
    rw [rangeStr_pieces hps, offsets_getElem?]
    simp

/-- On a well-formed text the runes visited are its characters. -/
theorem C01_forward_wellformed (cs : List Char) : runesOf (encText cs) = cs.map (fun c => (c.toNat : Int)) := by
  rw [runesOf_pieces (pieces_encText cs), List.map_map]
  rfl

/-- Decoding is total and makes progress: a non-empty text yields a rune of one to
four bytes, not more than there are. -/
theorem C01_progress (s : Bytes) (h : s ≠ []) :
    1 ≤ (decodeRune s).2 ∧ (decodeRune s).2 ≤ 4 ∧ (decodeRune s).2 ≤ s.length := by
  obtain ⟨r, p, hst⟩ := Step.exists h
  obtain ⟨_, hd, hp⟩ := step_iff.mp hst
  rw [hd]
  refine ⟨List.length_pos_iff.mpr hst.ne_nil, ?_, hp.length_le⟩
  cases hst with
  | char c t => exact enc_length_le c
  | bad b t h => simp

/-- Walking backward over a well-formed text without U+FFFD (what `revItr`, used by
all `RevTo*`/`RevWhile*` methods and by `MoveRunes(-n)`, does) yields the same
characters in reverse and consumes the whole text.

Missing for the full property: texts that contain U+FFFD or malformed bytes, for
which it is false (`C01_backward_violated`). -/
theorem C01_backward_partial (cs : List Char) (h : ∀ c ∈ cs, c.toNat ≠ 0xFFFD) :
    (revItr (encText cs)).1.map (·.2) = (runesOf (encText cs)).reverse ∧ (revItr (encText cs)).2 = [] := by
  rw [revItr_pieces (backPieces_encText cs), C01_forward_wellformed]
  have key : ∀ ds : List Char, (∀ c ∈ ds, c.toNat ≠ 0xFFFD) →
      (backSteps (ds.map fun c => (enc c, (c.toNat : Int)))).map (·.2) = ds.map (fun c => (c.toNat : Int)) ∧
      backRest (ds.map fun c => (enc c, (c.toNat : Int))) = [] := by
    intro ds
    induction ds with
    | nil => intro _; exact ⟨rfl, rfl⟩
    | cons d ds ih =>
      intro hd
      have hd' : ¬ ((d.toNat : Int) = runeError) := by
        intro he
        exact hd d (by simp) (Int.ofNat.inj he)
      obtain ⟨h1, h2⟩ := ih (fun c hc => hd c (by simp [hc]))
      simp only [List.map_cons, backSteps, backRest]
      rw [if_neg hd', if_neg hd', List.map_cons, h1, h2]
      exact ⟨rfl, rfl⟩
  obtain ⟨h1, h2⟩ := key cs.reverse (fun c hc => h c (by simpa using hc))
  refine ⟨?_, h2⟩
  rw [h1, List.map_reverse]

/-- Backward iteration does not reach anything before a U+FFFD (or a malformed
byte, see `stuck_iff`): the property is violated for every text of this shape. -/
theorem C01_backward_violated (t : Bytes) :
    (revItr (t ++ enc (Char.ofNat 0xFFFD))).1 = [] ∧ (revItr (t ++ enc (Char.ofNat 0xFFFD))).2 ≠ [] := by
  have hst : Stuck (t ++ enc (Char.ofNat 0xFFFD)) := by
    rw [stuck_iff, decodeLastRune_enc]; decide
  have := revItr_spec hst [] (by simp)
  simp only [List.reverse_nil, encText_nil, List.append_nil] at this
  rw [this]
  refine ⟨rfl, ?_⟩
  simp [enc_ne_nil]

-- A text with a two-byte, a malformed and a four-byte piece.
example : rangeStr [0xC3, 0xA9, 0xFF, 0xF0, 0x9F, 0x98, 0x80] = [(0, 0xE9), (2, 0xFFFD), (3, 0x1F600)] := by
  decide +kernel
-- The hypothesis of `C01_backward_partial` is met by a non-trivial text.
example : (∀ c ∈ ['a', 'é', '€'], c.toNat ≠ 0xFFFD) ∧ encText ['a', 'é', '€'] = [97, 0xC3, 0xA9, 0xE2, 0x82, 0xAC] := by
  decide +kernel
example : (revItr [97, 0xC3, 0xA9, 0xE2, 0x82, 0xAC]).1.map (·.2) = [0x20AC, 0xE9, 97] := by decide +kernel

end Tok
