/-
C28 for `BuildGraph` and C25 for `Known`: which segments end up in the graph, and how the given segments are told from the fillers.
-/
import Verif.Props.C28

namespace Tok

/-- The segments that clash with none of those taken before them; the last one taken comes first. -/
def taken : List Segment → List Segment → List Segment
  | acc, [] => acc
  | acc, s :: ss => if ∀ a ∈ acc, s.tok.clashes a.tok = false then taken (s :: acc) ss else taken acc ss

private theorem buildLoop_spec {name : Bytes} : ∀ (segs acc : List Segment) (g : Graph), Graph.Built name acc g →
    (∀ s ∈ segs, s.tok.Ordered) →
    ∃ N g', (∀ fuel, N ≤ fuel → Graph.buildLoop fuel g segs = .ret g') ∧ Graph.Built name (taken acc segs) g'
  | [], acc, g, hg, _ => ⟨0, g, fun _ _ => rfl, hg⟩
  | s :: segs, acc, g, hg, ho => by
    obtain ⟨ok, g1, ⟨N, hN⟩, hiff, hsame, _⟩ := C28_append name acc g hg s (ho s (by simp))
    have hb : Graph.Built name (if ∀ a ∈ acc, s.tok.clashes a.tok = false then s :: acc else acc) g1 := by
      cases ok with
      | true => rw [if_pos (hiff.mp rfl)]; exact .accept hg (ho s (by simp)) ⟨N, hN⟩
      | false =>
        rw [if_neg fun h => by cases hiff.mpr h]
        exact .refuse hg (ho s (by simp)) ⟨N, hN⟩
    obtain ⟨M, g2, hM, h2⟩ := buildLoop_spec segs _ g1 hb fun x hx => ho x (by simp [hx])
    refine ⟨max N M, g2, fun fuel hf => ?_, ?_⟩
    · rw [Graph.buildLoop, append_mono g s N fuel _ (by omega) hN]
      exact hM fuel (by omega)
    · simp only [taken]
      split <;> rename_i h
      · rwa [if_pos h] at h2
      · rwa [if_neg h] at h2

/-- `BuildGraph` goes through all segments: the graph holds each segment that clashes with none of those taken before it, and no other one. -/
theorem C28_build (name : Bytes) (segs : List Segment) (ho : ∀ s ∈ segs, s.tok.Ordered) :
    ∃ N g, (∀ fuel, N ≤ fuel → Graph.build fuel name segs = .ret g) ∧ Graph.Built name (taken [] segs) g ∧ g.root.under.Perm (taken [] segs) := by
  obtain ⟨N, g, h1, h2⟩ := buildLoop_spec segs [] _ (.new (name := name)) ho
  exact ⟨N, g, h1, h2, h2.ok.2.2⟩

example : taken [] [⟨b!"a", ⟨0, 4⟩⟩, ⟨b!"b", ⟨2, 6⟩⟩, ⟨b!"c", ⟨5, 9⟩⟩] = [⟨b!"c", ⟨5, 9⟩⟩, ⟨b!"a", ⟨0, 4⟩⟩] := by decide

example := C28_build b!"g" [⟨b!"a", ⟨0, 4⟩⟩, ⟨b!"b", ⟨2, 6⟩⟩, ⟨b!"c", ⟨5, 9⟩⟩] (by decide)

/-- In a segment without info, `Known` tells the given segments from the parts between them. -/
theorem C25_known (s : Segment) (segs : List Segment) (hs : s.tok.Ordered) (ho : ∀ g ∈ segs, g.tok.Ordered) (hi : s.info = [])
    (hk : ∀ g ∈ segs, g.info ≠ []) (h : (s.segmentate segs).2 = none) : (s.segmentate segs).1.filter Segment.known = segs := by
  have := ((C25_segmentate s segs hs ho).2 h).2
  generalize (s.segmentate segs).1 = out at this
  rw [hi] at this
  clear h ho
  induction this with
  | nil => rfl
  | @keep a segs out _ ih =>
    have : a.known = true := by simpa [Segment.known] using hk a (by simp)
    rw [List.filter_cons_of_pos this, ih fun g hg => hk g (by simp [hg])]
  | @fill f segs out hf _ _ ih =>
    have : ¬ f.known = true := by simp [Segment.known, hf]
    rw [List.filter_cons_of_neg this, ih hk]

example := C25_known ⟨[], ⟨0, 9⟩⟩ [⟨b!"a", ⟨2, 4⟩⟩, ⟨b!"b", ⟨4, 6⟩⟩] (by decide) (by decide) rfl (by decide) (by decide)

end Tok
