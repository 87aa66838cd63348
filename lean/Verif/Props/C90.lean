/-
C90 The JSON reader reads the longest JSON document, malformed bytes included (C84 for texts of any bytes).
-/
import Verif.Proofs.JsonLongest

namespace Tok
open Spec PExp

/-- `ds` is the longest document that `cs` begins with. -/
def Spec.LongestDoc (cs ds : List Char) : Prop := JsonDoc ds ∧ ds <+: cs ∧ ∀ es, JsonDoc es → es <+: cs → es.length ≤ ds.length

namespace Json

/-- What the rule `Element` takes is the longest document. -/
theorem element_longest (ds es : List Char) : Peg Json.env.peg (.nt 7) (img (ds ++ es)) (some (img es)) ↔ LongestDoc (ds ++ es) ds := by
  have maxi : ∀ cs w, Peg Json.env.peg (.nt 7) (img cs) (some (img w)) → ∀ y, JsonDoc y → y <+: cs → w.length + y.length ≤ cs.length := by
    rintro cs w h y hy ⟨z, rfl⟩
    have := (upto_element y z w h hy).1
    simp only [List.length_append]
    omega
  constructor
  · intro h
    refine ⟨?_, List.prefix_append ds es, fun y hy hp => ?_⟩
    · obtain ⟨u, v, h1, h2, h3⟩ := sound h
      have h4 := img_inj h2
      subst h4
      rw [List.append_cancel_right h1]
      exact h3
    · have := maxi _ _ h y hy hp
      simp only [List.length_append] at this
      omega
  · rintro ⟨h1, h2, h3⟩
    obtain ⟨w, h4⟩ := element_some h1 es
    obtain ⟨u, v, h5, h6, h7⟩ := sound h4
    have h8 := img_inj h6
    subst h8
    have h9 := (upto_element ds es w h4 h1).1
    have h10 := h3 u h7 ⟨w, h5.symm⟩
    have h11 := congrArg List.length h5
    simp only [List.length_append] at h11
    have : w = es := suffix_same (shrinks h4) (by omega)
    rwa [this] at h4

end Json

/-- If reading JSON succeeds, it has read the longest document, and only then; a malformed byte counts as one character U+FFFD.
`Pieces t' ys` says that the rest is the text behind the pieces of the document. -/
theorem C90_bytes (rt : Rt) (s : Scanner) (h t : Bytes) (hb : Between s h t) (zs : List Piece) (hp : Pieces t zs)
    (cs : List Char) (hc : zs.map (·.2) = cs.map (fun c => (c.toNat : Int))) (ds es : List Char) (hd : cs = ds ++ es) :
    (∃ n s' x t', read rt Json.env n Json.reader s = .ret (none, s') ∧ t = x ++ t' ∧ Between s' (h ++ x) t' ∧ Pieces t' (zs.drop ds.length)) ↔
      LongestDoc cs ds := by
  have hf := shown_of hp hc
  have h34 := C34_success_partial (srch := false) rt _ Json.pegOk Json.keeps _ Json.reader_pegOk s h t hb zs hp (by simp) (zs.drop ds.length)
  rw [← h34, hd, ← Json.element_longest, ← hd]
  have hlen : zs.length = ds.length + es.length := by
    have := congrArg List.length hc
    simpa [hd] using this
  have himg : (img cs).drop ds.length = img es := by
    rw [hd]
    simp [img]
  have hdrop : List.Forall₂ Shown (zs.drop ds.length) (img es) := by
    rw [← himg]
    exact List.forall₂_drop _ hf
  constructor
  · intro h1
    obtain ⟨r', h2, h3⟩ := Peg.rel Json.blind (e := .nt 7) h1 trivial hf
    cases r' with
    | none => exact h3.elim
    | some ys =>
      obtain ⟨u, v, h4, rfl, _⟩ := Json.sound h2
      have h5 : (zs.drop ds.length).length = (img v).length := List.Forall₂.length_eq h3
      simp only [List.length_drop, img, List.length_map] at h5
      have : v = es := Json.suffix_same (c := ds) (by rw [← hd, h4]; exact List.suffix_append u v) (by omega)
      rwa [this] at h2
  · intro h1
    obtain ⟨r', h2, h3⟩ := Peg.rel (fun i e hi => (Json.blind i e hi).flip) (e := .nt 7) h1 trivial (forall₂_flip hf)
    cases r' with
    | none => exact h3.elim
    | some ys =>
      have h4 := h2.suffix rfl
      have h5 : (img es).length = ys.length := List.Forall₂.length_eq h3
      simp only [img, List.length_map] at h5
      obtain ⟨xs, rfl⟩ := h4
      have h6 : xs.length = ds.length := by
        rw [List.length_append] at hlen
        omega
      rw [← h6, List.drop_left]
      exact h2

/-- The same for a text of characters. -/
theorem C90_longest (rt : Rt) (s : Scanner) (h : Bytes) (ds es : List Char) (hb : Between s h (encText (ds ++ es))) :
    (∃ n s', read rt Json.env n Json.reader s = .ret (none, s') ∧ Between s' (h ++ encText ds) (encText es)) ↔ LongestDoc (ds ++ es) ds := by
  rw [← C90_bytes rt s h _ hb _ (pieces_encText (ds ++ es)) (ds ++ es) (by simp [Function.comp_def]) ds es rfl]
  have hd : ((ds ++ es).map fun c => (enc c, (c.toNat : Int))).drop ds.length = img es := by simp [img]
  rw [hd]
  constructor
  · rintro ⟨n, s', h1, h2⟩
    exact ⟨n, s', encText ds, encText es, h1, encText_append .., h2, pieces_encText es⟩
  · rintro ⟨n, s', x, t', h1, h2, h3, h4⟩
    have h5 := pieces_chars h4
    subst h5
    rw [encText_append] at h2
    rw [List.append_cancel_right h2]
    exact ⟨n, s', h1, h3⟩

/-- Where a read stops does not depend on how often it is asked: there is one longest document. -/
theorem C90_unique {cs ds es : List Char} (h1 : LongestDoc cs ds) (h2 : LongestDoc cs es) : ds = es := by
  have h3 := h1.2.2 es h2.1 h2.2.1
  have h4 := h2.2.2 ds h1.1 h1.2.1
  exact (List.prefix_of_prefix_length_le h1.2.1 h2.2.1 h4).eq_of_length (by omega)

/-- Of `1e` the number `1` is read. -/
example : LongestDoc ['1', 'e'] ['1'] := by
  have hb : Between (.new (encText (['1'] ++ ['e'])) Heap.empty) [] (encText (['1'] ++ ['e'])) := ⟨rfl, rfl⟩
  exact (C90_longest exRt _ [] ['1'] ['e'] hb).mp ⟨40, _, rfl, rfl, rfl⟩

/-- White space behind the value belongs to the document, what follows does not. -/
example : LongestDoc ['1', ' ', ' ', '2'] ['1', ' ', ' '] := by
  have hb : Between (.new (encText (['1', ' ', ' '] ++ ['2'])) Heap.empty) [] (encText (['1', ' ', ' '] ++ ['2'])) := ⟨rfl, rfl⟩
  exact (C90_longest exRt _ [] ['1', ' ', ' '] ['2'] hb).mp ⟨40, _, rfl, rfl, rfl⟩

end Tok
