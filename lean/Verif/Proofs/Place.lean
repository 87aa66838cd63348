/-
Places in a text: from positions back to the bytes before and after them.
-/
import Verif.Proofs.Safe

namespace Tok
open Spec

theorem Spec.Between.inside {s : Scanner} {h t : Bytes} (hb : Between s h t) : Inside s := by
  obtain ⟨h1, h2⟩ := hb
  refine ⟨by omega, ?_⟩
  rw [h1, h2, List.length_append]
  omega

/-- Going forward is going over some bytes. -/
theorem Forward.over {s s' : Scanner} {h t : Bytes} (hf : Forward s s') (hb : Between s h t) : ∃ x u, t = x ++ u ∧ Between s' (h ++ x) u := by
  obtain ⟨⟨h1, h2⟩, h3, h4⟩ := hf
  obtain ⟨h5, h6⟩ := hb
  rw [h3, h5, List.length_append] at h2
  refine ⟨t.take (s'.pos.toNat - h.length), t.drop (s'.pos.toNat - h.length), by simp, by rw [h3, h5]; simp, ?_⟩
  rw [List.length_append, List.length_take]
  omega

/-- The token of two places is the text between them. -/
theorem get_between {s s1 s2 : Scanner} {h x u : Bytes} (h1 : Between s1 h (x ++ u)) (h2 : Between s2 (h ++ x) u) (hs : s.full = s1.full) :
    s.get (makeToken s1.pos s2.pos) = .ret x := by
  obtain ⟨a1, a2⟩ := h1
  obtain ⟨b1, b2⟩ := h2
  rw [List.length_append] at b2
  unfold makeToken
  rw [if_neg (by omega)]
  unfold Scanner.get
  rw [if_pos (by simp only [hs, a1, List.length_append]; omega)]
  congr 1
  simp only [hs, a1, a2, b2]
  have e1 : ((h.length : Int)).toNat = h.length := by omega
  have e2 : (((h.length + x.length : Nat) : Int) - (h.length : Int)).toNat = x.length := by omega
  rw [e1, e2]
  simp

theorem Spec.Between.back {s s' : Scanner} {h t : Bytes} (hb : Between s h t) (hf : s'.full = s.full) :
    Between (s'.toMarker s.pos).2 h t := by
  obtain ⟨h1, h2⟩ := hb
  unfold Scanner.toMarker
  rw [if_neg (by simp; omega)]
  exact ⟨by rw [notify_full]; simp only; rw [hf, h1], by rw [notify_pos]; exact h2⟩

end Tok
