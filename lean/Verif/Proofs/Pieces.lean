/-
The division of texts into runes, forward and backward.
-/
import Verif.Proofs.Utf8
import Verif.Model.Scanner

namespace Tok
open Spec

theorem enc_ne_nil (c : Char) : enc c ≠ [] := by
  unfold enc String.utf8EncodeChar
  simp only
  split_ifs <;> simp

theorem enc_length_pos (c : Char) : 0 < (enc c).length := List.length_pos_iff.mpr (enc_ne_nil c)

theorem enc_length_le (c : Char) : (enc c).length ≤ 4 := by
  unfold enc String.utf8EncodeChar
  simp only
  split_ifs <;> simp

theorem char_ext {c c' : Char} (h : c.toNat = c'.toNat) : c = c' := by
  apply Char.ext
  apply UInt32.toNat_inj.mp
  exact h

theorem enc_append_inj {c c' : Char} {t t' : Bytes} (h : enc c ++ t = enc c' ++ t') : c = c' ∧ t = t' := by
  have h1 := decodeRune_enc c t
  rw [h, decodeRune_enc] at h1
  have : c = c' := by
    apply char_ext
    have := congrArg Prod.fst h1
    simp only at this
    exact (Int.ofNat.inj this).symm
  subst this
  exact ⟨rfl, List.append_cancel_left h⟩

theorem decodeRune_nil : decodeRune [] = (runeError, 0) := rfl

/-- The relation `Step` is what `decodeRune` computes. -/
theorem step_iff {s : Bytes} {r : Int} {p : Bytes} :
    Step s r p ↔ s ≠ [] ∧ decodeRune s = (r, p.length) ∧ p <+: s := by
  constructor
  · intro h
    cases h with
    | char c t =>
      refine ⟨by simp [enc_ne_nil], decodeRune_enc c t, List.prefix_append _ _⟩
    | bad b t h =>
      refine ⟨by simp, ?_, by simp⟩
      rcases decodeRune_cases (b :: t) with ⟨h1, _⟩ | ⟨_, h1, _⟩ | ⟨c, t', h1, _⟩
      · simp at h1
      · rw [h1]; rfl
      · exact absurd ⟨t', h1.symm⟩ (h c)
  · rintro ⟨hs, hd, hp⟩
    rcases decodeRune_cases s with ⟨h1, _⟩ | ⟨_, h1, h2⟩ | ⟨c, t', h1, h2⟩
    · exact absurd h1 hs
    · rw [hd] at h1
      have hr : r = runeError := congrArg Prod.fst h1
      have hl : p.length = 1 := congrArg Prod.snd h1
      obtain ⟨t, ht⟩ := hp
      obtain ⟨b, rfl⟩ := List.length_eq_one_iff.mp hl
      subst hr
      rw [← ht]
      exact Step.bad b t (by rw [← ht] at h2; exact h2)
    · rw [hd] at h2
      have hr : r = (c.toNat : Int) := congrArg Prod.fst h2
      have hl : p.length = (enc c).length := congrArg Prod.snd h2
      obtain ⟨t, ht⟩ := hp
      have := List.append_inj (ht.trans h1) hl
      rw [h1, hr, this.1]
      exact Step.char c t'

theorem Spec.Step.ne_nil {s : Bytes} {r : Int} {p : Bytes} (h : Step s r p) : p ≠ [] := by
  cases h with
  | char c t => exact enc_ne_nil c
  | bad b t h => simp

theorem Spec.Step.prefix {s : Bytes} {r : Int} {p : Bytes} (h : Step s r p) : p <+: s := (step_iff.mp h).2.2

theorem Spec.Step.exists {s : Bytes} (h : s ≠ []) : ∃ r p, Step s r p := by
  rcases decodeRune_cases s with ⟨h1, _⟩ | ⟨_, h1, h2⟩ | ⟨c, t', h1, h2⟩
  · exact absurd h1 h
  · obtain ⟨b, t, rfl⟩ := List.exists_cons_of_ne_nil h
    exact ⟨_, _, Step.bad b t h2⟩
  · rw [h1]; exact ⟨_, _, Step.char c t'⟩

theorem Spec.Step.unique {s : Bytes} {r r' : Int} {p p' : Bytes} (h : Step s r p) (h' : Step s r' p') :
    r = r' ∧ p = p' := by
  obtain ⟨_, h1, h2⟩ := step_iff.mp h
  obtain ⟨_, h1', h2'⟩ := step_iff.mp h'
  rw [h1] at h1'
  refine ⟨congrArg Prod.fst h1', ?_⟩
  have hl : p.length = p'.length := congrArg Prod.snd h1'
  rw [List.prefix_iff_eq_take.mp h2, List.prefix_iff_eq_take.mp h2', hl]

/-- Every text has a division into runes. -/
theorem Spec.Pieces.exists (s : Bytes) : ∃ ps, Pieces s ps := by
  induction hn : s.length using Nat.strongRecOn generalizing s with
  | _ n ih =>
    by_cases h : s = []
    · subst h; exact ⟨[], Pieces.nil⟩
    · obtain ⟨r, p, hst⟩ := Step.exists h
      obtain ⟨t, ht⟩ := hst.prefix
      have hp : 0 < p.length := List.length_pos_iff.mpr hst.ne_nil
      have hl := congrArg List.length ht
      simp only [List.length_append] at hl
      obtain ⟨ps, hps⟩ := ih t.length (by omega) t rfl
      exact ⟨(p, r) :: ps, Pieces.cons hst ht.symm hps⟩

/-- … and only one. -/
theorem Spec.Pieces.unique {s : Bytes} {ps ps' : List (Bytes × Int)} (h : Pieces s ps) (h' : Pieces s ps') :
    ps = ps' := by
  induction h generalizing ps' with
  | nil =>
    cases h' with
    | nil => rfl
    | cons hs he ht =>
      exact absurd rfl (step_iff.mp hs).1
  | cons hs he ht ih =>
    cases h' with
    | nil => exact absurd rfl (step_iff.mp hs).1
    | cons hs' he' ht' =>
      obtain ⟨rfl, rfl⟩ := Step.unique hs hs'
      rw [he] at he'
      have := List.append_cancel_left he'
      subst this
      rw [ih ht']

theorem Spec.Pieces.bytes {s : Bytes} {ps : List (Bytes × Int)} (h : Pieces s ps) : bytesOf ps = s := by
  induction h with
  | nil => rfl
  | cons hs he ht ih =>
    rw [he]
    simp only [bytesOf, List.flatMap_cons] at *
    rw [ih]

theorem Spec.Pieces.ne_nil {s : Bytes} {ps : List (Bytes × Int)} (h : Pieces s ps) : ∀ x ∈ ps, x.1 ≠ [] := by
  induction h with
  | nil => simp
  | cons hs he ht ih =>
    intro x hx
    rcases List.mem_cons.mp hx with rfl | hx
    · exact hs.ne_nil
    · exact ih x hx

theorem Spec.Pieces.drop {s : Bytes} {pre post : List (Bytes × Int)} (h : Pieces s (pre ++ post)) :
    Pieces (s.drop (bytesOf pre).length) post := by
  induction pre generalizing s with
  | nil => simpa [bytesOf] using h
  | cons x pre ih =>
    cases h with
    | cons hs he ht =>
      have := ih ht
      rw [he]
      simp only [bytesOf, List.flatMap_cons, List.length_append] at *
      rw [← List.drop_drop, List.drop_left]
      exact this

/-- Byte offsets of a list of pieces. -/
def offsets : Nat → List (Bytes × Int) → List (Nat × Int)
  | _, [] => []
  | i, (p, r) :: ps => (i, r) :: offsets (i + p.length) ps

theorem rangeGo_skip (k i : Nat) (s : Bytes) (h : k ≤ s.length) :
    rangeGo k i s = rangeGo 0 (i + k) (s.drop k) := by
  induction k generalizing i s with
  | zero => simp
  | succ k ih =>
    rcases s with _ | ⟨b, t⟩
    · simp at h
    · simp only [List.length_cons] at h
      rw [rangeGo, ih (i + 1) t (by omega)]
      simp only [List.drop_succ_cons]
      congr 1
      omega

theorem rangeGo_pieces {s : Bytes} {ps : List (Bytes × Int)} (h : Pieces s ps) (i : Nat) :
    rangeGo 0 i s = offsets i ps := by
  induction h generalizing i with
  | nil => rfl
  | @cons s p t r ps hs he ht ih =>
    obtain ⟨h0, h1, _⟩ := step_iff.mp hs
    obtain ⟨b, t', rfl⟩ := List.exists_cons_of_ne_nil h0
    have hp : 0 < p.length := List.length_pos_iff.mpr hs.ne_nil
    have hl := congrArg List.length he
    simp only [List.length_cons, List.length_append] at hl
    rw [rangeGo, h1, rangeGo_skip _ _ _ (by simp only; omega), offsets]
    congr 1
    have : t'.drop (p.length - 1) = t := by
      have h2 : (b :: t').drop p.length = t := by rw [he]; simp
      rw [← h2]
      obtain ⟨q, hq⟩ : ∃ q, p.length = q + 1 := ⟨p.length - 1, by omega⟩
      rw [hq]; simp
    simp only
    rw [this, ih]
    congr 1
    omega

theorem rangeStr_pieces {s : Bytes} {ps : List (Bytes × Int)} (h : Pieces s ps) :
    rangeStr s = offsets 0 ps := rangeGo_pieces h 0

theorem offsets_runes (i : Nat) (ps : List (Bytes × Int)) : (offsets i ps).map (·.2) = ps.map (·.2) := by
  induction ps generalizing i with
  | nil => rfl
  | cons x ps ih => obtain ⟨p, r⟩ := x; simp [offsets, ih]

theorem runesOf_pieces {s : Bytes} {ps : List (Bytes × Int)} (h : Pieces s ps) :
    runesOf s = ps.map (·.2) := by
  rw [runesOf, rangeStr_pieces h, offsets_runes]

theorem offsets_append (i : Nat) (pre post : List (Bytes × Int)) :
    offsets i (pre ++ post) = offsets i pre ++ offsets (i + (bytesOf pre).length) post := by
  induction pre generalizing i with
  | nil => simp [offsets, bytesOf]
  | cons x pre ih =>
    obtain ⟨p, r⟩ := x
    simp only [List.cons_append, offsets, ih, bytesOf, List.flatMap_cons, List.length_append]
    congr 3
    omega

theorem offsets_getElem? (i : Nat) (ps : List (Bytes × Int)) (n : Nat) :
    (offsets i ps)[n]? = ps[n]?.map (fun x => (i + (bytesOf (ps.take n)).length, x.2)) := by
  induction n generalizing i ps with
  | zero => rcases ps with _ | ⟨⟨p, r⟩, ps⟩ <;> simp [offsets, bytesOf]
  | succ n ih =>
    rcases ps with _ | ⟨⟨p, r⟩, ps⟩
    · simp [offsets]
    · simp only [offsets, List.getElem?_cons_succ, ih, List.take_succ_cons, bytesOf, List.flatMap_cons,
        List.length_append]
      congr 1
      funext x
      congr 1
      omega

/-- Splitting a list at the first element with a property. -/
theorem first_or_none {α : Type} (q : α → Prop) [DecidablePred q] (l : List α) :
    (∀ x ∈ l, ¬ q x) ∨ ∃ pre x post, l = pre ++ x :: post ∧ (∀ y ∈ pre, ¬ q y) ∧ q x := by
  induction l with
  | nil => left; simp
  | cons a l ih =>
    by_cases ha : q a
    · right; exact ⟨[], a, l, rfl, by simp, ha⟩
    · rcases ih with h | ⟨pre, x, post, rfl, h1, h2⟩
      · left
        intro x hx
        rcases List.mem_cons.mp hx with rfl | hx
        · exact ha
        · exact h x hx
      · right
        refine ⟨a :: pre, x, post, rfl, ?_, h2⟩
        intro x hx
        rcases List.mem_cons.mp hx with rfl | hx
        · exact ha
        · exact h1 x hx

theorem find_offsets_none {q : Int → Bool} {ps : List (Bytes × Int)} (h : ∀ x ∈ ps, q x.2 = false) (i : Nat) :
    (offsets i ps).find? (fun iv => q iv.2) = none := by
  rw [List.find?_eq_none]
  intro x hx
  have : x.2 ∈ (offsets i ps).map (·.2) := List.mem_map_of_mem hx
  rw [offsets_runes] at this
  obtain ⟨y, hy, hyx⟩ := List.mem_map.mp this
  rw [← hyx, h y hy]
  simp

theorem find_offsets_some {q : Int → Bool} {pre post : List (Bytes × Int)} {p : Bytes} {r : Int}
    (h : ∀ x ∈ pre, q x.2 = false) (hr : q r = true) (i : Nat) :
    (offsets i (pre ++ (p, r) :: post)).find? (fun iv => q iv.2) = some (i + (bytesOf pre).length, r) := by
  rw [offsets_append, List.find?_append, find_offsets_none h]
  simp [offsets, hr]

end Tok
