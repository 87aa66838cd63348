/-
C05 Literal scanning: If, IfAny, To.
-/
import Verif.Proofs.Scan

namespace Tok
open Spec

/-- `If(str)` moves over `str` when `Tail()` starts with it. -/
theorem C05_if_match (s : Scanner) (h str t : Bytes) (hb : Between s h (str ++ t)) :
    ∃ s', s.ifStr str = .ret (true, s') ∧ Reaches s s' (h ++ str) t := by
  obtain ⟨s', h1, h2⟩ := move_fwd hb
  refine ⟨s', ?_, h2⟩
  unfold Scanner.ifStr
  rw [tail_of hb]
  simp [hasPrefix, h1]

/-- `If(str)` fails and does nothing when `Tail()` does not start with `str`. -/
theorem C05_if_nomatch (s : Scanner) (h t str : Bytes) (hb : Between s h t) (hn : ¬ str <+: t) :
    s.ifStr str = .ret (false, s) := by
  unfold Scanner.ifStr
  rw [tail_of hb]
  simp only [Exec.bind_ret]
  rw [if_neg (by rwa [hasPrefix, List.isPrefixOf_iff_prefix])]
  rfl

/-- `IfAny` moves over the first listed string that `Tail()` starts with. -/
theorem C05_ifAny_match (s : Scanner) (h t : Bytes) (before : List Bytes) (str : Bytes) (after : List Bytes)
    (hb : Between s h (str ++ t)) (hn : ∀ x ∈ before, ¬ x <+: str ++ t) :
    ∃ s', s.ifAny (before ++ str :: after) = .ret (true, s') ∧ Reaches s s' (h ++ str) t := by
  induction before with
  | nil =>
    obtain ⟨s', h1, h2⟩ := C05_if_match s h str t hb
    exact ⟨s', by simp [Scanner.ifAny, h1], h2⟩
  | cons x xs ih =>
    obtain ⟨s', h1, h2⟩ := ih (fun y hy => hn y (by simp [hy]))
    refine ⟨s', ?_, h2⟩
    simp only [List.cons_append, Scanner.ifAny]
    rw [C05_if_nomatch s h (str ++ t) x hb (hn x (by simp))]
    simpa using h1

/-- `IfAny` fails and does nothing when none of the strings matches. -/
theorem C05_ifAny_nomatch (s : Scanner) (h t : Bytes) (strs : List Bytes)
    (hb : Between s h t) (hn : ∀ x ∈ strs, ¬ x <+: t) : s.ifAny strs = .ret (false, s) := by
  induction strs with
  | nil => rfl
  | cons x xs ih =>
    simp only [Scanner.ifAny]
    rw [C05_if_nomatch s h t x hb (hn x (by simp))]
    simpa using ih (fun y hy => hn y (by simp [hy]))

/-- `To(str)` moves exactly to the first occurrence of `str`. -/
theorem C05_to_match (s : Scanner) (h pre str post : Bytes) (hb : Between s h (pre ++ str ++ post))
    (hfirst : ∀ a b, pre ++ str ++ post = a ++ str ++ b → pre.length ≤ a.length) :
    ∃ s', s.to str = .ret (true, s') ∧ Reaches s s' (h ++ pre) (str ++ post) := by
  have hb' : Between s h (pre ++ (str ++ post)) := by simpa using hb
  obtain ⟨s', h1, h2⟩ := move_fwd hb'
  refine ⟨s', ?_, h2⟩
  have hidx : index (pre ++ (str ++ post)) str = some pre.length := by
    cases hi : index (pre ++ (str ++ post)) str with
    | none =>
      have := index_eq_none hi pre.length (by simp)
      simp at this
    | some i =>
      obtain ⟨⟨b, hb2⟩, h4⟩ := index_eq_some hi
      have hle : pre.length ≤ i := by
        have := hfirst ((pre ++ (str ++ post)).take i) b (by
          rw [List.append_assoc ((pre ++ (str ++ post)).take i), hb2, List.take_append_drop]; simp)
        rw [List.length_take] at this
        omega
      by_cases hlt : pre.length < i
      · exact absurd (by simp) (h4 pre.length hlt)
      · congr 1; omega
  unfold Scanner.to
  rw [tail_of hb']
  simp [hidx, h1]

/-- `To(str)` fails and does nothing when `str` does not occur. -/
theorem C05_to_nomatch (s : Scanner) (h t str : Bytes) (hb : Between s h t) (hn : ¬ str <:+: t) :
    s.to str = .ret (false, s) := by
  unfold Scanner.to
  rw [tail_of hb]
  have : index t str = none := by
    have := (index_isSome (s := t) (sub := str)).not.mpr hn
    simpa using this
  simp [this]

/-- Every state with the position inside the text is covered by the theorems above,
and either the literal matches or it does not. -/
theorem C05_total (s : Scanner) (h0 : 0 ≤ s.pos) (h1 : s.pos ≤ s.full.length) : ∃ h t, Between s h t :=
  (between_iff s).mpr ⟨h0, h1⟩

-- "abcabc" at position 1: To("ca") moves to position 2, If("bc") over "bc".
def exScanner : Scanner := ⟨b!"abcabc", 1, none, Heap.empty⟩
example : Between exScanner b!"a" (b!"bc" ++ b!"abc") := by decide +kernel
example : Between exScanner b!"a" (b!"b" ++ b!"ca" ++ b!"bc") := by decide +kernel
example : ¬ (b!"xy" : Bytes) <:+: b!"bcabc" := by decide +kernel

end Tok
