/-
C51 Range-set constructors: BetweenAny, Set, BuildBetweenAny, HexDigit, Digit, Holey.
-/
import Verif.Props.C50
import Verif.Props.C07
import Verif.Props.C08

namespace Tok
open Spec

/-- Reading one rune: the reader succeeds and moves over the first rune if that is accepted,
and otherwise (also at the end of the text) fails and stays where it is. -/
def Spec.ReadsOne (f : ReadFunc) (q : Int → Prop) (s : Scanner) : Prop := ∀ h t, Between s h t →
  (∀ r p t', Step t r p → t = p ++ t' → q r → ∃ s', f s = .ret (none, s') ∧ Reaches s s' (h ++ p) t') ∧
  ((∀ r p, Step t r p → ¬ q r) → ∃ e s', f s = .ret (some e, s') ∧ Reaches s s' h t)

theorem Spec.ReadsOne.congr {f : ReadFunc} {q q' : Int → Prop} {s : Scanner} (h : ReadsOne f q s) (hq : ∀ r, q r ↔ q' r) :
    ReadsOne f q' s := by
  have : q = q' := funext fun r => propext (hq r)
  rwa [← this]

theorem reaches_refl {s : Scanner} {h t : Bytes} (hb : Between s h t) : Reaches s s h t := ⟨hb, rfl, rfl, fun _ => rfl⟩

/-- A call that reports success as a boolean, as a reader. -/
theorem readsOne_ifFalse {f : Call} {q : Int → Prop} {s : Scanner} (what : Bytes) (h : OverOne f q s) :
    ReadsOne (fun s => ifFalse what (f s)) q s := fun a t hb => by
  obtain ⟨h1, h2⟩ := h a t hb
  refine ⟨fun r p t' hs he hq => ?_, fun hn => ?_⟩
  · obtain ⟨s', h3, h4⟩ := h1 r p t' hs he hq
    exact ⟨s', by simp only [ifFalse]; rw [h3]; rfl, h4⟩
  · refine ⟨s.errorFor what, s, ?_, reaches_refl hb⟩
    simp only [ifFalse]
    rw [h2 hn]
    rfl

/-- The loop over the ranges. -/
theorem betweenAnyLoop_one (s : Scanner) : ∀ ranges : List (Rune × Rune),
    OverOne (betweenAnyLoop ranges) (fun r => ∃ ab ∈ ranges, ab.1 ≤ r ∧ r ≤ ab.2) s
  | [] => fun h t hb => ⟨fun r p t' _ _ hq => by simp at hq, fun _ => rfl⟩
  | (a, b) :: rest => fun h t hb => by
    obtain ⟨h1, h2⟩ := C08_ifBetween s a b h t hb
    obtain ⟨i1, i2⟩ := betweenAnyLoop_one s rest h t hb
    simp only at h1 h2
    refine ⟨fun r p t' hs he hq => ?_, fun hn => ?_⟩
    · by_cases hab : a ≤ r ∧ r ≤ b
      · obtain ⟨s', h3, h4⟩ := h1 r p t' hs he hab
        exact ⟨s', by unfold betweenAnyLoop; rw [h3]; rfl, h4⟩
      · have hf := h2 fun r' p' hs' h' => hab (by rw [(hs.unique hs').1]; exact h')
        have hq' : ∃ ab ∈ rest, ab.1 ≤ r ∧ r ≤ ab.2 := by
          obtain ⟨ab, hm, h5⟩ := hq
          rcases List.mem_cons.mp hm with rfl | hm
          · exact absurd h5 hab
          · exact ⟨ab, hm, h5⟩
        obtain ⟨s', h3, h4⟩ := i1 r p t' hs he hq'
        exact ⟨s', by unfold betweenAnyLoop; rw [hf]; exact h3, h4⟩
    · have hf := h2 fun r p hs h' => hn r p hs ⟨(a, b), List.mem_cons_self, h'⟩
      have hf' := i2 fun r p hs ⟨ab, hm, h'⟩ => hn r p hs ⟨ab, List.mem_cons_of_mem _ hm, h'⟩
      unfold betweenAnyLoop
      rw [hf]
      exact hf'

/-- A reader with ranges and singles reads one rune iff it lies in a range or is one of the
singles.  The full claim has no condition; it is false when U+FFFD is one of the singles and
the scanner stands at the end, see `C51_violated`. -/
theorem C51_set_partial (rt : Rt) (G : Env) (ranges : List (Rune × Rune)) (singles : Bytes) (n : Nat) (s : Scanner)
    (hc : ¬ RuneIn singles 0xFFFD ∨ s.pos ≠ s.full.length) :
    ReadsOne (read rt G (n + 1) (.betweenAny ranges singles)) (fun r => (∃ ab ∈ ranges, ab.1 ≤ r ∧ r ≤ ab.2) ∨ RuneIn singles r) s :=
  fun h t hb => by
    obtain ⟨h1, h2⟩ := betweenAnyLoop_one s ranges h t hb
    obtain ⟨i1, i2⟩ := C07_ifAnyRune_partial s singles hc h t hb
    simp only at i1 i2
    have unfolds : ∀ (b : Bool), betweenAnyLoop ranges s = .ret (false, s) → ∀ s1, s.ifAnyRune singles = .ret (b, s1) →
        read rt G (n + 1) (.betweenAny ranges singles) s = if b then .ret (none, s1) else
          .ret (some ((s1.toMarker s.mark).2.errorFor (Reader.what rt G (.betweenAny ranges singles))), (s1.toMarker s.mark).2) := by
      intro b hl s1 ha
      simp only [read]
      rw [hl, Exec.bind_ret]
      simp only [Bool.false_eq_true, if_false]
      rw [ha, Exec.bind_ret]
      cases b <;> rfl
    refine ⟨fun r p t' hs he hq => ?_, fun hn => ?_⟩
    · by_cases hr : ∃ ab ∈ ranges, ab.1 ≤ r ∧ r ≤ ab.2
      · obtain ⟨s', h3, h4⟩ := h1 r p t' hs he hr
        refine ⟨s', ?_, h4⟩
        simp only [read]
        rw [h3]
        rfl
      · have hf := h2 fun r' p' hs' h' => hr (by rw [(hs.unique hs').1]; exact h')
        obtain ⟨s', h3, h4⟩ := i1 r p t' hs he (hq.resolve_left hr)
        exact ⟨s', by rw [unfolds _ hf _ h3]; rfl, h4⟩
    · have hf := h2 fun r p hs h' => hn r p hs (.inl h')
      have hf' := i2 fun r p hs h' => hn r p hs (.inr h')
      obtain ⟨s', h3, h4⟩ := toMarker_to (s := s) (m := s.mark) hb.1 hb.2
      refine ⟨s'.errorFor (Reader.what rt G (.betweenAny ranges singles)), s', ?_, h4⟩
      rw [unfolds _ hf _ hf', h3]
      rfl

/-- `BetweenAny(str)` of a description `a-bc-d…`, on every text at every position. -/
theorem C51_betweenAny (rt : Rt) (G : Env) (str : Bytes) (rs : List (Rune × Rune)) (hs : runesOf str = rs.flatMap fun ab => [ab.1, 45, ab.2])
    (n : Nat) (s : Scanner) : ReadsOne (read rt G (n + 1) (mkBetweenAny str)) (fun r => ∃ ab ∈ rs, ab.1 ≤ r ∧ r ≤ ab.2) s := by
  rw [((C50_ranges str []).2.2 rs hs).1]
  exact (C51_set_partial rt G rs [] n s (.inl runeIn_nil)).congr fun r => or_iff_left runeIn_nil

/-- `Set(ranges, singles)`. -/
theorem C51_set_described_partial (rt : Rt) (G : Env) (str singles : Bytes) (rs : List (Rune × Rune))
    (hs : runesOf str = rs.flatMap fun ab => [ab.1, 45, ab.2]) (n : Nat) (s : Scanner) (hc : ¬ RuneIn singles 0xFFFD ∨ s.pos ≠ s.full.length) :
    ReadsOne (read rt G (n + 1) (mkSet str singles)) (fun r => (∃ ab ∈ rs, ab.1 ≤ r ∧ r ≤ ab.2) ∨ RuneIn singles r) s := by
  rw [((C50_ranges str singles).2.2 rs hs).2]
  exact C51_set_partial rt G rs singles n s hc

/-- `BuildBetweenAny` with an even number of values. -/
theorem C51_build (rt : Rt) (G : Env) (rs : List (Rune × Rune)) (n : Nat) (s : Scanner) :
    ReadsOne (read rt G (n + 1) (mkBuildBetweenAny (rs.flatMap fun ab => [ab.1, ab.2]))) (fun r => ∃ ab ∈ rs, ab.1 ≤ r ∧ r ≤ ab.2) s := by
  rw [(C50_pairs _).2 rs rfl]
  exact (C51_set_partial rt G rs [] n s (.inl runeIn_nil)).congr fun r => or_iff_left runeIn_nil

/-- A malformed description gives a reader that never succeeds and never moves. -/
theorem C51_malformed (rt : Rt) (G : Env) (str singles : Bytes)
    (hs : ¬ ∃ rs : List (Rune × Rune), runesOf str = rs.flatMap fun ab => [ab.1, 45, ab.2]) (n : Nat) (s : Scanner) :
    (∃ e, read rt G (n + 1) (mkBetweenAny str) s = .ret (some e, s)) ∧ ∃ e, read rt G (n + 1) (mkSet str singles) s = .ret (some e, s) := by
  obtain ⟨h1, h2, _⟩ := C50_ranges str singles
  obtain ⟨e, he⟩ := h1.mpr hs
  obtain ⟨e', he'⟩ := h2.mpr hs
  exact ⟨by rw [he]; exact ⟨_, rfl⟩, by rw [he']; exact ⟨_, rfl⟩⟩

/-- Between, and the digits. -/
theorem C51_between (rt : Rt) (G : Env) (a b : Rune) (n : Nat) (s : Scanner) :
    ReadsOne (read rt G (n + 1) (.between a b)) (fun r => a ≤ r ∧ r ≤ b) s := readsOne_ifFalse _ (C08_ifBetween s a b)

theorem C51_digit (rt : Rt) (G : Env) (n : Nat) (s : Scanner) :
    ReadsOne (read rt G (n + 1) mkDigit) (fun r => ∃ d : Fin 10, r = 48 + (d.val : Int)) s :=
  (C51_between rt G 48 57 n s).congr fun r => ⟨fun h => ⟨⟨(r - 48).toNat, by omega⟩, by simp only; omega⟩, fun ⟨d, hd⟩ => by omega⟩

theorem C51_hexDigit (rt : Rt) (G : Env) (n : Nat) (s : Scanner) :
    ReadsOne (read rt G (n + 1) mkHexDigit) (fun r => ∃ c ∈ "0123456789abcdefABCDEF".toList, r = (c.toNat : Int)) s := by
  refine (C51_build rt G [(48, 57), (97, 102), (65, 70)] n s).congr fun r => ?_
  have : (∃ c ∈ "0123456789abcdefABCDEF".toList, r = (c.toNat : Int)) ↔ r ∈ "0123456789abcdefABCDEF".toList.map (fun c => (c.toNat : Int)) := by
    simp only [List.mem_map, eq_comm (a := r)]
  rw [this]
  have e : "0123456789abcdefABCDEF".toList.map (fun c => (c.toNat : Int)) =
    [48, 49, 50, 51, 52, 53, 54, 55, 56, 57, 97, 98, 99, 100, 101, 102, 65, 66, 67, 68, 69, 70] := by decide
  rw [e]
  simp only [List.mem_cons, List.not_mem_nil, or_false, exists_eq_or_imp, exists_eq_left]
  omega

/-- `WS()` reads one of the four characters of white space. -/
theorem C51_ws (rt : Rt) (G : Env) (n : Nat) (s : Scanner) :
    ReadsOne (read rt G (n + 1) mkWS) (fun r => ∃ c ∈ [' ', '\r', '\n', '\t'], r = (c.toNat : Int)) s := by
  have hin : ∀ r, RuneIn b!" \r\n\t" r ↔ ∃ c ∈ [' ', '\r', '\n', '\t'], r = (c.toNat : Int) := fun r => by
    rw [runeIn_iff, show runesOf b!" \r\n\t" = [32, 13, 10, 9] from by decide +kernel]
    simp
  refine (readsOne_ifFalse _ (C07_ifAnyRune_partial s _ (.inl ?_))).congr hin
  rw [hin]
  decide

/-- `NL()` reads a line feed, or a carriage return and a line feed, and nothing else. -/
theorem C51_nl (rt : Rt) (G : Env) (n : Nat) (s : Scanner) (h t : Bytes) (hb : Between s h t) :
    (∀ x u, t = x ++ u → x = [10] ∨ x = [13, 10] → ∃ s', read rt G (n + 2) mkNL s = .ret (none, s') ∧ Reaches s s' (h ++ x) u) ∧
    ((∀ x u, t = x ++ u → x ≠ [10] ∧ x ≠ [13, 10]) → ∃ e s', read rt G (n + 2) mkNL s = .ret (some e, s') ∧ Reaches s s' h t) := by
  have hit : ∀ {str s'}, s.ifStr str = .ret (true, s') → read rt G (n + 1) (.lit str) s = .ret (none, s') := fun e => by
    simp [read, ifFalse, e, Scanner.errorIfFalse]
  have miss : ∀ {str}, s.ifStr str = .ret (false, s) → ∃ e, read rt G (n + 1) (.lit str) s = .ret (some e, s) := fun e =>
    ⟨_, by simp [read, ifFalse, e, Scanner.errorIfFalse]; rfl⟩
  rw [show read rt G (n + 2) mkNL s = readStep rt G (read rt G (n + 1)) (n + 1) (.any [.lit [10], .lit [13, 10]]) s from read_eq_step ..]
  simp only [readStep, anyLoop]
  constructor
  · rintro x u rfl (rfl | rfl)
    · obtain ⟨s', h1, h2⟩ := C05_if_match s h [10] u hb
      exact ⟨s', by simp [hit h1], h2⟩
    · obtain ⟨e, h0⟩ := miss (C05_if_nomatch s h _ [10] hb (by rintro ⟨v, hv⟩; cases hv))
      obtain ⟨s', h1, h2⟩ := C05_if_match s h [13, 10] u hb
      exact ⟨s', by simp [h0, hit h1], h2⟩
  · intro hn
    obtain ⟨e, h0⟩ := miss (C05_if_nomatch s h _ [10] hb (by rintro ⟨v, hv⟩; exact (hn _ _ hv.symm).1 rfl))
    obtain ⟨e', h1⟩ := miss (C05_if_nomatch s h _ [13, 10] hb (by rintro ⟨v, hv⟩; exact (hn _ _ hv.symm).2 rfl))
    obtain ⟨s', h2, h3⟩ := toMarker_to hb.1 hb.2
    simp only [h0, h1, Exec.bind_ret, Exec.pure_eq]
    exact ⟨_, s', by rw [show s.mark = s.pos from rfl, h2], h3⟩

/-- `Holey(min, max, holes)` reads one rune iff it lies in the range and is not a hole.  The
full claim has no condition; it is false at the end of the text if the range contains U+FFFD,
see `C51_violated`. -/
theorem C51_holey_partial (rt : Rt) (G : Env) (a b : Rune) (holes : Bytes) (n : Nat) (s : Scanner)
    (hc : ¬ ((a ≤ 0xFFFD ∧ 0xFFFD ≤ b) ∧ ¬ RuneIn holes 0xFFFD) ∨ s.pos ≠ s.full.length) :
    ReadsOne (read rt G (n + 1) (.holey a b holes)) (fun r => (a ≤ r ∧ r ≤ b) ∧ ¬ RuneIn holes r) s := fun h t hb => by
  have test : ∀ v : Rune, (Scanner.inRange a v b && !containsRune holes v) = true ↔ (a ≤ v ∧ v ≤ b) ∧ ¬ RuneIn holes v := fun v => by
    rw [runeIn_iff_contains]
    simp [Scanner.inRange]
  refine ⟨fun r p t' hs he hq => ?_, fun hn => ?_⟩
  · obtain ⟨_, hd, _⟩ := step_iff.mp hs
    subst he
    obtain ⟨s', h1, h2⟩ := move_fwd hb
    refine ⟨s', ?_, h2⟩
    simp only [read]
    rw [tail_of hb, Exec.bind_ret, hd]
    simp only
    rw [if_pos ((test r).mpr hq), h1]
    rfl
  · refine ⟨s.errorFor (Reader.what rt G (.holey a b holes)), s, ?_, reaches_refl hb⟩
    have key : ¬ ((a ≤ (decodeRune t).1 ∧ (decodeRune t).1 ≤ b) ∧ ¬ RuneIn holes (decodeRune t).1) := by
      by_cases ht : t = []
      · subst ht
        rw [decodeRune_nil]
        rcases hc with hc | hc
        · exact hc
        · exact absurd (by rw [hb.1, hb.2]; simp) hc
      · obtain ⟨r, p, hs⟩ := Step.exists ht
        obtain ⟨_, hd, _⟩ := step_iff.mp hs
        rw [hd]
        exact hn r p hs
    simp only [read]
    rw [tail_of hb, Exec.bind_ret]
    rw [if_neg ((test _).not.mpr key)]
    rfl

/-- None of them succeeds without consuming.  Missing: U+FFFD among the accepted runes. -/
theorem C51_consumes_partial (rt : Rt) (G : Env) (r : Reader) (n : Nat) (s s' : Scanner) (h t : Bytes) (hb : Between s h t)
    (hr : (∃ a b, r = .between a b) ∨ (∃ l x, r = .betweenAny l x ∧ ¬ RuneIn x 0xFFFD) ∨
      ∃ a b x, r = .holey a b x ∧ ¬ ((a ≤ 0xFFFD ∧ 0xFFFD ≤ b) ∧ ¬ RuneIn x 0xFFFD))
    (hs : read rt G (n + 1) r s = .ret (none, s')) : s.pos < s'.pos := by
  have key : ∀ q, ReadsOne (read rt G (n + 1) r) q s → s.pos < s'.pos := fun q hq => by
    obtain ⟨h1, h2⟩ := hq h t hb
    by_cases hx : ∃ r p, Step t r p ∧ q r
    · obtain ⟨v, p, hst, hv⟩ := hx
      obtain ⟨t', rfl⟩ := hst.prefix
      obtain ⟨s1, h3, h4⟩ := h1 v p t' hst rfl hv
      rw [h3] at hs
      cases hs
      have := List.length_pos_iff.mpr hst.ne_nil
      rw [hb.2, h4.1.2, List.length_append]
      omega
    · obtain ⟨e, s1, h3, _⟩ := h2 fun v p hst hv => hx ⟨v, p, hst, hv⟩
      rw [h3] at hs
      cases hs
  rcases hr with ⟨a, b, rfl⟩ | ⟨l, x, rfl, hx⟩ | ⟨a, b, x, rfl, hx⟩
  · exact key _ (C51_between rt G a b n s)
  · exact key _ (C51_set_partial rt G l x n s (.inl hx))
  · exact key _ (C51_holey_partial rt G a b x n s (.inl hx))

/-- At the end of every text `Set` with U+FFFD as a single and `Holey` with U+FFFD in its range
succeed without consuming. -/
theorem C51_violated (rt : Rt) (G : Env) (n : Nat) (s : Scanner) (h : Bytes) (hb : Between s h []) :
    (∃ s', read rt G (n + 1) (mkSet b!"a-z" b!"�") s = .ret (none, s') ∧ s'.pos = s.pos) ∧
    (∃ s', read rt G (n + 1) (.holey 32 maxRune b!"\"\\") s = .ret (none, s') ∧ s'.pos = s.pos) := by
  have hb' : Between s h ([] ++ []) := hb
  obtain ⟨s1, h1, h2⟩ := move_fwd hb'
  have hp : s1.pos = s.pos := by rw [h2.1.2, hb.2]; simp
  refine ⟨⟨s1, ?_, hp⟩, ⟨s1, ?_, hp⟩⟩
  · have : mkSet b!"a-z" b!"�" = .betweenAny [(97, 122)] b!"�" := rfl
    rw [this]
    have hl : betweenAnyLoop [(97, 122)] s = .ret (false, s) := by
      refine (betweenAnyLoop_one s [(97, 122)] h [] hb).2 fun r p hst => ?_
      exact absurd rfl (step_iff.mp hst).1
    have ha : s.ifAnyRune b!"�" = .ret (true, s1) := by
      have e : runesOf b!"�" = [0xFFFD] := by decide
      unfold Scanner.ifAnyRune
      rw [e]
      unfold Scanner.ifAnyRuneLoop
      rw [ifRune_eq hb, decodeRune_nil, if_pos (show runeError = 0xFFFD from rfl)]
      simp only [List.length_nil, Int.ofNat_zero] at h1
      show (do let x ← (Exec.ret (s.move 0) : Exec (Bool × Scanner)); _) = _
      rw [show s.move 0 = (true, s1) from h1]
      rfl
    simp only [read]
    rw [hl, Exec.bind_ret]
    simp only [Bool.false_eq_true, if_false]
    rw [ha]
    rfl
  · simp only [read]
    rw [tail_of hb, Exec.bind_ret, decodeRune_nil]
    simp only
    rw [if_pos (by decide)]
    show (pure ((s.move 0).2.errorIfFalse (s.move 0).1 _, (s.move 0).2) : Exec (Option Err × Scanner)) = _
    rw [show s.move 0 = (true, s1) from h1]
    rfl

/-- Hypotheses that hold: descriptions, and a text on which each reader consumes. -/
example : runesOf b!"a-zA-Z0-9" = [((97 : Int), (122 : Int)), (65, 90), (48, 57)].flatMap fun ab => [ab.1, 45, ab.2] := by decide
example : ¬ RuneIn b!"_" 0xFFFD := by rw [runeIn_iff]; decide
example : ∃ s', read exRt [] 1 (mkSet b!"a-zA-Z0-9" b!"_") (.new b!"_x" Heap.empty) = .ret (none, s') ∧ s'.pos = 1 := ⟨_, rfl, rfl⟩
example : ∃ s', read exRt [] 1 mkHexDigit (.new b!"Fx" Heap.empty) = .ret (none, s') ∧ s'.pos = 1 := ⟨_, rfl, rfl⟩
example : ∃ e s', read exRt [] 1 mkHexDigit (.new b!"g" Heap.empty) = .ret (some e, s') := ⟨_, _, rfl⟩
example : ∃ s', read exRt [] 1 (.holey 32 126 b!"\"\\") (.new b!"a" Heap.empty) = .ret (none, s') ∧ s'.pos = 1 := ⟨_, rfl, rfl⟩
example : ∃ e s', read exRt [] 1 (.holey 32 126 b!"\"\\") (.new b!"\"" Heap.empty) = .ret (some e, s') := ⟨_, _, rfl⟩

end Tok
