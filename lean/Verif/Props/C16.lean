/-
C15 Backward undoes forward, C16 MoveRunes counts runes.
-/
import Verif.Props.C05
import Verif.Props.C11

namespace Tok
open Spec

theorem runeLen_char (c : Char) : runeLen (c.toNat : Int) = (enc c).length := by
  have hv := char_range c
  have hc : c.toNat = c.val.toNat := rfl
  rw [hc]
  unfold enc String.utf8EncodeChar runeLen
  generalize c.val.toNat = n at *
  have hm : maxRune = 1114111 := rfl
  simp only [Bool.and_eq_true, decide_eq_true_eq]
  by_cases h1 : n ≤ 127
  · rw [if_neg (by omega), if_pos (by omega), if_pos (by omega)]; rfl
  by_cases h2 : n ≤ 2047
  · rw [if_neg (by omega), if_neg (by omega), if_pos (by omega), if_neg (by omega), if_pos (by omega)]; rfl
  by_cases h3 : n ≤ 65535
  · rw [if_neg (by omega), if_neg (by omega), if_neg (by omega), if_neg (by omega), if_pos (by omega),
      if_neg (by omega), if_neg (by omega), if_pos (by omega)]; rfl
  · rw [if_neg (by omega), if_neg (by omega), if_neg (by omega), if_neg (by omega), if_neg (by omega),
      if_pos (by omega), if_neg (by omega), if_neg (by omega), if_neg (by omega)]; rfl

private theorem bytesOf_chars (cs : List Char) :
    bytesOf (cs.map fun c => (enc c, (c.toNat : Int))) = encText cs := by
  simp [bytesOf, encText, List.flatMap_map]

/-- `MoveRunes(n)` moves over exactly the next `n` characters. -/
theorem C16_forward (s : Scanner) (h : Bytes) (cs ds : List Char) (hb : Between s h (encText cs ++ encText ds))
    (hn : cs ≠ []) :
    ∃ s', s.moveRunes (cs.length : Int) = .ret (true, s') ∧ Reaches s s' (h ++ encText cs) (encText ds) := by
  obtain ⟨cs', c, rfl⟩ : ∃ cs' c, cs = cs' ++ [c] := ⟨cs.dropLast, cs.getLast hn, (List.dropLast_concat_getLast hn).symm⟩
  obtain ⟨s', h1, h2⟩ := move_fwd hb
  refine ⟨s', ?_, h2⟩
  unfold Scanner.moveRunes
  rw [if_pos (by simp), tail_of hb]
  simp only [Exec.bind_ret]
  rw [← encText_append, rangeStr_pieces (pieces_encText _), offsets_getElem?]
  have hidx : (((cs' ++ [c]).length : Int) - 1).toNat = cs'.length := by simp
  rw [hidx, ← List.map_take, bytesOf_chars]
  simp only [List.append_assoc, List.map_append, List.take_left]
  rw [List.getElem?_append_right (by simp)]
  simp only [List.length_map, Nat.sub_self, List.cons_append, List.map_cons, List.getElem?_cons_zero,
    Option.map_some, runeLen_char, Nat.zero_add]
  have : ((encText cs').length : Int) + (enc c).length = (encText (cs' ++ [c])).length := by
    rw [encText_append, encText_singleton, List.length_append]; omega
  rw [this, h1]
  rfl

/-- `MoveRunes(n)` fails and does nothing when fewer than `n` characters are left. -/
theorem C16_forward_short (s : Scanner) (h : Bytes) (cs : List Char) (n : Int) (hb : Between s h (encText cs))
    (hn : (cs.length : Int) < n) : s.moveRunes n = .ret (false, s) := by
  unfold Scanner.moveRunes
  rw [if_pos (by omega), tail_of hb]
  simp only [Exec.bind_ret]
  rw [rangeStr_pieces (pieces_encText _), offsets_getElem?]
  have : (cs.map fun c => (enc c, (c.toNat : Int)))[(n - 1).toNat]? = none := by
    rw [List.getElem?_eq_none]; rw [List.length_map]; omega
  rw [this]
  rfl

/-- `MoveRunes(0)` succeeds without moving. -/
theorem C16_zero (s : Scanner) : s.moveRunes 0 = .ret (true, s) := rfl

private theorem revSteps_getElem? (rest : Bytes) (rcs : List Char) (n : Nat) :
    (revSteps rest rcs)[n]? = rcs[n]?.map (fun c => (rest ++ encText (rcs.drop n).reverse, (c.toNat : Int))) := by
  induction n generalizing rcs with
  | zero => rcases rcs with _ | ⟨c, rcs⟩ <;> simp [revSteps]
  | succ n ih => rcases rcs with _ | ⟨c, rcs⟩ <;> simp [revSteps, ih]

/-- `MoveRunes(-n)` moves back over exactly the last `n` characters.

Missing for the full property: texts with U+FFFD among those characters
(`C16_backward_violated`). -/
theorem C16_backward_partial (s : Scanner) (t : Bytes) (ds cs : List Char)
    (hb : Between s (encText ds ++ encText cs) t) (hn : cs ≠ [])
    (hc : ∀ c ∈ cs, c.toNat ≠ 0xFFFD) :
    ∃ s', s.moveRunes (-(cs.length : Int)) = .ret (true, s') ∧ Reaches s s' (encText ds) (encText cs ++ t) := by
  obtain ⟨rest, rds, h1, h2, h3⟩ := exists_revDecomp (encText ds)
  obtain ⟨c, cs', rfl⟩ := List.exists_cons_of_ne_nil hn
  obtain ⟨s', hm1, hm2⟩ := move_back hb
  refine ⟨s', ?_, hm2⟩
  unfold Scanner.moveRunes
  rw [if_neg (by simp; omega), if_pos (by simp), head_of hb]
  simp only [Exec.bind_ret]
  have hhead : encText ds ++ encText (c :: cs') = rest ++ encText ((c :: cs').reverse ++ rds).reverse := by
    rw [h1, List.reverse_append, encText_append, List.reverse_reverse, List.append_assoc]
  rw [hhead, revItr_spec h2 _ (by
    intro x hx
    rcases List.mem_append.mp hx with hx | hx
    · exact toNat_ne_fffd.mp (fun he => hc x (List.mem_reverse.mp hx) (Int.ofNat.inj he))
    · exact h3 x hx), ← hhead]
  have hidx : (-(-((c :: cs').length : Int)) - 1).toNat = cs'.length := by simp
  rw [hidx, revSteps_getElem?]
  have hget : ((c :: cs').reverse ++ rds)[cs'.length]? = some c := by
    rw [List.getElem?_append_left (by simp)]
    simp
  have hdrop : ((c :: cs').reverse ++ rds).drop cs'.length = c :: rds := by
    simp only [List.reverse_cons, List.append_assoc, List.singleton_append]
    rw [show cs'.length = cs'.reverse.length by simp, List.drop_left]
  rw [hget, hdrop]
  simp only [Option.map_some, runeLen_char]
  have hlen : -(((encText ds ++ encText (c :: cs')).length : Int) - (rest ++ encText (c :: rds).reverse).length +
      (enc c).length) = -((encText (c :: cs')).length : Int) := by
    have e1 : rest ++ encText (c :: rds).reverse = encText ds ++ enc c := by
      rw [List.reverse_cons, encText_append, encText_singleton, ← List.append_assoc, ← h1]
    rw [e1, encText_cons]
    simp only [List.length_append]
    omega
  rw [hlen, hm1]
  rfl

/-- `MoveRunes(-n)` fails and does nothing when fewer than `n` characters precede the
position. -/
theorem C16_backward_short (s : Scanner) (t : Bytes) (cs : List Char) (n : Int) (hb : Between s (encText cs) t)
    (hn : (cs.length : Int) < n) : s.moveRunes (-n) = .ret (false, s) := by
  obtain ⟨ps, hps⟩ : ∃ ps, BackPieces (encText cs) ps := ⟨_, backPieces_encText cs⟩
  have hlen : ps.length = cs.length := by
    rw [hps.unique (backPieces_encText cs)]; simp
  have hle : ∀ l : List (Bytes × Int), (backSteps l).length ≤ l.length := by
    intro l
    induction l with
    | nil => simp [backSteps]
    | cons x l ih =>
      simp only [backSteps]
      split_ifs
      · simp
      · simpa using ih
  unfold Scanner.moveRunes
  rw [if_neg (by omega), if_pos (by omega), head_of hb]
  simp only [Exec.bind_ret]
  rw [revItr_pieces hps]
  have : (backSteps ps)[(- -n - 1).toNat]? = none := by
    rw [List.getElem?_eq_none]
    have := hle ps
    omega
  rw [this]
  rfl

/-- `MoveRunes(-1)` behind a U+FFFD fails although a character precedes. -/
theorem C16_backward_violated :
    (Scanner.newRev b!"�" Heap.empty).moveRunes (-1) = .ret (false, Scanner.newRev b!"�" Heap.empty) := rfl

/-- C15: after a successful `If(str)`, `RevIf(str)` succeeds and restores the position. -/
theorem C15_if_revIf (s s' : Scanner) (h t str : Bytes) (hb : Between s h t) (hif : s.ifStr str = .ret (true, s')) :
    ∃ s'', s'.revIf str = .ret (true, s'') ∧ Reaches s' s'' h t := by
  by_cases hp : str <+: t
  · obtain ⟨t', rfl⟩ := hp
    obtain ⟨s1, h1, h2⟩ := C05_if_match s h str t' hb
    rw [h1] at hif
    cases hif
    exact C11_revIf_match _ h str t' h2.1
  · rw [C05_if_nomatch s h t str hb hp] at hif
    cases hif

/-- C15: after a successful `RevIf(str)`, `If(str)` succeeds and restores the position. -/
theorem C15_revIf_if (s s' : Scanner) (h t str : Bytes) (hb : Between s h t) (hif : s.revIf str = .ret (true, s')) :
    ∃ s'', s'.ifStr str = .ret (true, s'') ∧ Reaches s' s'' h t := by
  by_cases hp : str <:+ h
  · obtain ⟨h', rfl⟩ := hp
    obtain ⟨s1, h1, h2⟩ := C11_revIf_match s h' str t hb
    rw [h1] at hif
    cases hif
    exact C05_if_match _ h' str t h2.1
  · rw [C11_revIf_nomatch s h t str hb hp] at hif
    cases hif

/-- C15: after a successful `ReadRune`, `RevReadRune` returns the same rune and restores
the position. -/
theorem C15_readRune_rev (s s' : Scanner) (h t : Bytes) (r : Int) (hb : Between s h t)
    (hread : s.readRune = .ret ((r, none), s')) :
    ∃ s'', s'.revReadRune = .ret ((r, none), s'') ∧ Reaches s' s'' h t := by
  unfold Scanner.readRune at hread
  rw [tail_of hb] at hread
  simp only [Exec.bind_ret] at hread
  rcases decodeRune_cases t with ⟨_, h2⟩ | ⟨_, h2, _⟩ | ⟨c, t', rfl, h2⟩
  · rw [h2] at hread; simp at hread
  · rw [h2] at hread; simp at hread
  · rw [h2] at hread
    obtain ⟨s1, h3, h4⟩ := move_fwd hb
    simp only [h3] at hread
    split_ifs at hread with hc
    · cases hread
    · simp only [Exec.pure_eq, Exec.ret.injEq, Prod.mk.injEq] at hread
      obtain ⟨⟨rfl, _⟩, rfl⟩ := hread
      obtain ⟨s2, h5, h6⟩ := move_back h4.1
      refine ⟨s2, ?_, h6⟩
      unfold Scanner.revReadRune
      rw [head_of h4.1]
      simp only [Exec.bind_ret, decodeLastRune_enc, h5]
      rw [if_neg hc]
      rfl

/-- C15: after a successful `RevReadRune`, `ReadRune` returns the same rune and restores
the position. -/
theorem C15_revReadRune_fwd (s s' : Scanner) (h t : Bytes) (r : Int) (hb : Between s h t)
    (hread : s.revReadRune = .ret ((r, none), s')) :
    ∃ s'', s'.readRune = .ret ((r, none), s'') ∧ Reaches s' s'' h t := by
  unfold Scanner.revReadRune at hread
  rw [head_of hb] at hread
  simp only [Exec.bind_ret] at hread
  rcases decodeLastRune_cases h with ⟨_, h2⟩ | ⟨_, h2, _⟩ | ⟨c, h', rfl, h2⟩
  · rw [h2] at hread; simp at hread
  · rw [h2] at hread; simp at hread
  · rw [h2] at hread
    obtain ⟨s1, h3, h4⟩ := move_back hb
    simp only [h3] at hread
    split_ifs at hread with hc
    · cases hread
    · simp only [Exec.pure_eq, Exec.ret.injEq, Prod.mk.injEq] at hread
      obtain ⟨⟨rfl, _⟩, rfl⟩ := hread
      obtain ⟨s2, h5, h6⟩ := move_fwd h4.1
      refine ⟨s2, ?_, h6⟩
      unfold Scanner.readRune
      rw [tail_of h4.1]
      simp only [Exec.bind_ret, decodeRune_enc, h5]
      rw [if_neg hc]
      rfl

/-- C15: on well-formed text `MoveRunes(-n)` undoes a successful `MoveRunes(n)`.

Missing for the full property: texts with U+FFFD among the characters moved over
(`C16_backward_violated`). -/
theorem C15_moveRunes_partial (s : Scanner) (as cs ds : List Char)
    (hb : Between s (encText as) (encText cs ++ encText ds)) (hn : cs ≠ [])
    (hc : ∀ c ∈ cs, c.toNat ≠ 0xFFFD) :
    ∃ s' s'', s.moveRunes (cs.length : Int) = .ret (true, s') ∧ s'.moveRunes (-(cs.length : Int)) = .ret (true, s'') ∧
      Reaches s' s'' (encText as) (encText cs ++ encText ds) := by
  obtain ⟨s', h1, h2⟩ := C16_forward s _ cs ds hb hn
  obtain ⟨s'', h3, h4⟩ := C16_backward_partial s' (encText ds) as cs h2.1 hn hc
  exact ⟨s', s'', h1, h3, h4⟩

/-- C15: on well-formed text `MoveRunes(n)` undoes a successful `MoveRunes(-n)`.

Missing for the full property: texts with U+FFFD among the characters moved over. -/
theorem C15_moveRunes_back_partial (s : Scanner) (as cs ds : List Char)
    (hb : Between s (encText as ++ encText cs) (encText ds)) (hn : cs ≠ [])
    (hc : ∀ c ∈ cs, c.toNat ≠ 0xFFFD) :
    ∃ s' s'', s.moveRunes (-(cs.length : Int)) = .ret (true, s') ∧ s'.moveRunes (cs.length : Int) = .ret (true, s'') ∧
      Reaches s' s'' (encText as ++ encText cs) (encText ds) := by
  obtain ⟨s', h1, h2⟩ := C16_backward_partial s (encText ds) as cs hb hn hc
  obtain ⟨s'', h3, h4⟩ := C16_forward s' _ cs ds h2.1 hn
  exact ⟨s', s'', h1, h3, h4⟩

/-- C15 fails for U+FFFD: `MoveRunes(1)` moves over it and `MoveRunes(-1)` does not move back, whatever stands before and behind. -/
theorem C15_moveRunes_violated (s : Scanner) (h : Bytes) (ds : List Char) (hb : Between s h (encText ['\uFFFD'] ++ encText ds)) :
    ∃ s', s.moveRunes 1 = .ret (true, s') ∧ Reaches s s' (h ++ enc '\uFFFD') (encText ds) ∧ s'.moveRunes (-1) = .ret (false, s') := by
  obtain ⟨s', h1, h2⟩ := C16_forward s h ['\uFFFD'] ds hb (by simp)
  rw [encText_singleton] at h2
  refine ⟨s', h1, h2, ?_⟩
  unfold Scanner.moveRunes
  rw [if_neg (by omega), if_pos (by omega), head_of h2.1]
  simp only [Exec.bind_ret]
  rw [show revItr (h ++ enc '\uFFFD') = ([], h ++ enc '\uFFFD') by
    unfold revItr
    rw [revItrGo, decodeLastRune_enc]
    rfl]
  rfl

-- "a|éb": non-trivial instance.
example : Between ⟨b!"aéb", 1, none, Heap.empty⟩ (encText ['a']) (encText ['é'] ++ encText ['b']) := by decide +kernel
example : (Scanner.mk b!"aéb" 1 none Heap.empty).readRune = .ret ((0xE9, none), ⟨b!"aéb", 3, none, Heap.empty⟩) := rfl
example : (Scanner.mk b!"aéb" 3 none Heap.empty).revReadRune = .ret ((0xE9, none), ⟨b!"aéb", 1, none, Heap.empty⟩) := rfl

end Tok
