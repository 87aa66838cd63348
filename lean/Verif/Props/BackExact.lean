/-
The backward methods on every text, well-formed or not (C11, C13, C14, C16).
-/
import Verif.Props.C11
import Verif.Props.C13
import Verif.Props.C14
import Verif.Props.C16

namespace Tok
open Spec

/-- What is found by looking back for a piece that `q` accepts, given the text up to it and its rune: everything before a U+FFFD or a malformed
byte stays unseen. -/
def BackFinds (q : Bytes → Int → Prop) (f : Call) (s : Scanner) : Prop := ∀ h t ps, Between s h t → BackPieces h ps →
  (∀ pre x post, ps = pre ++ x :: post → (∀ y ∈ pre, y.2 ≠ 0xFFFD) → x.2 ≠ 0xFFFD → q (bytesOfBack (x :: post)) x.2 →
    (∀ pre1 y post1, pre = pre1 ++ y :: post1 → ¬ q (bytesOfBack (y :: post1 ++ x :: post)) y.2) →
    ∃ s', f s = .ret (true, s') ∧ Reaches s s' (bytesOfBack (x :: post)) (bytesOfBack pre ++ t)) ∧
  ((∀ pre x post, ps = pre ++ x :: post → (∀ y ∈ pre, y.2 ≠ 0xFFFD) → x.2 ≠ 0xFFFD → ¬ q (bytesOfBack (x :: post)) x.2) → f s = .ret (false, s))

theorem find_back_some {q : Bytes × Int → Bool} : ∀ {pre post : List (Bytes × Int)} {x : Bytes × Int}, (∀ y ∈ pre, y.2 ≠ runeError) → x.2 ≠ runeError →
    q (bytesOfBack (x :: post), x.2) = true → (∀ pre1 y post1, pre = pre1 ++ y :: post1 → q (bytesOfBack (y :: post1 ++ x :: post), y.2) = false) →
    (backSteps (pre ++ x :: post)).find? q = some (bytesOfBack (x :: post), x.2)
  | [], post, x, _, hx, hq, _ => by simp only [List.nil_append, backSteps]; rw [if_neg hx, List.find?_cons, hq]
  | y :: pre, post, x, hn, hx, hq, h => by
    simp only [List.cons_append, backSteps]
    rw [if_neg (hn y (by simp)), List.find?_cons]
    have := h [] y pre rfl
    simp only [List.cons_append] at this
    rw [this]
    exact find_back_some (fun z hz => hn z (by simp [hz])) hx hq fun pre1 z post1 he => h (y :: pre1) z post1 (by rw [he]; rfl)

theorem find_back_none {q : Bytes × Int → Bool} : ∀ {ps : List (Bytes × Int)},
    (∀ pre x post, ps = pre ++ x :: post → (∀ y ∈ pre, y.2 ≠ runeError) → x.2 ≠ runeError → q (bytesOfBack (x :: post), x.2) = false) →
    (backSteps ps).find? q = none
  | [], _ => rfl
  | y :: ps, h => by
    simp only [backSteps]
    split
    · rfl
    · next hy =>
      rw [List.find?_cons, h [] y ps rfl (by simp) hy]
      refine find_back_none fun pre x post he hp hx => h (y :: pre) x post (by rw [he]; rfl) ?_ hx
      intro z hz
      rcases List.mem_cons.mp hz with rfl | hz
      · exact hy
      · exact hp z hz

theorem revSearch_finds (q : Bytes × Int → Bool) (s : Scanner) : BackFinds (fun p r => q (p, r) = true) (fun s => s.revSearch q) s := by
  intro h t ps hb hps
  dsimp only
  unfold Scanner.revSearch
  rw [head_of hb]
  simp only [Exec.bind_ret]
  rw [revItr_pieces hps]
  constructor
  · rintro pre x post rfl hpre hx hq hfirst
    rw [find_back_some hpre hx hq fun pre1 y post1 he => by simpa using hfirst pre1 y post1 he]
    obtain ⟨s', h1, h2⟩ := move_backTo hb hps
    exact ⟨s', by simp [h1], h2⟩
  · intro hno
    rw [find_back_none fun pre x post he hp hx => by simpa using hno pre x post he hp hx]
    rfl

/-- `RevTo(str)` on every text: it looks at the ends of runes, not further back than the first U+FFFD or malformed byte, and stops at the last of
them that is the end of an occurrence. -/
theorem C11_revTo_exact_partial (s : Scanner) (str : Bytes) : BackFinds (fun p _ => str <:+ p) (fun s => s.revTo str) s := by
  have he : (fun (p : Bytes) (_ : Int) => str <:+ p) = fun p r => (fun iv : Bytes × Int => hasSuffix iv.1 str) (p, r) = true := by
    funext p _
    simp [hasSuffix, List.isSuffixOf_iff_suffix]
  rw [he]
  exact revSearch_finds (fun iv : Bytes × Int => hasSuffix iv.1 str) s

/-- The searches for a rune on every text. -/
theorem C13_exact_partial (s : Scanner) :
    (∀ f : Int → Bool, BackFinds (fun _ r => f r = true) (fun s => s.revToMatch f) s) ∧
    (∀ r : Int, BackFinds (fun _ v => v = r) (fun s => s.revToRune r) s) ∧
    (∀ str : Bytes, BackFinds (fun _ v => RuneIn str v) (fun s => s.revToAnyRune str) s) ∧
    (∀ min max : Int, BackFinds (fun _ v => min ≤ v ∧ v ≤ max) (fun s => s.revToBetween min max) s) := by
  refine ⟨fun f => revSearch_finds (fun iv : Bytes × Int => f iv.2) s, fun r => ?_, fun str => ?_, fun min max => ?_⟩
  · have he : (fun (_ : Bytes) (v : Int) => v = r) = fun p v => (fun iv : Bytes × Int => iv.2 == r) (p, v) = true := by
      funext _ v; simp
    rw [he]
    exact revSearch_finds (fun iv : Bytes × Int => iv.2 == r) s
  · have he : (fun (_ : Bytes) (v : Int) => RuneIn str v) = fun p v => (fun iv : Bytes × Int => containsRune str iv.2) (p, v) = true := by
      funext _ v; exact propext (runeIn_iff_contains str v)
    rw [he]
    exact revSearch_finds (fun iv : Bytes × Int => containsRune str iv.2) s
  · have he : (fun (_ : Bytes) (v : Int) => min ≤ v ∧ v ≤ max) = fun p v => (fun iv : Bytes × Int => Scanner.inRange min iv.2 max) (p, v) = true := by
      funext _ v; exact propext (inRange_iff min v max).symm
    rw [he]
    exact revSearch_finds (fun iv : Bytes × Int => Scanner.inRange min iv.2 max) s

/-- What the backward runs do on every text: they stop at U+FFFD and malformed bytes, accepted or not, and return false only at the start. -/
def BackOverSeenRun (f : Call) (q : Int → Prop) (s : Scanner) : Prop := ∀ h t pre post, Between s h t → BackPieces h (pre ++ post) →
  Run (fun r => q r ∧ r ≠ 0xFFFD) pre post →
  ∃ s', f s = .ret (!h.isEmpty, s') ∧ Reaches s s' (bytesOfBack post) (bytesOfBack pre ++ t)

theorem revWhile_seen (q : Int → Bool) (s : Scanner) : BackOverSeenRun (fun s => s.revWhile q) (fun r => q r = true) s := by
  intro h t pre post hb hps hrun
  refine revWhile_of hb hps hrun.1 fun x l he => ?_
  have := hrun.2 x l he
  by_cases hx : x.2 = 0xFFFD
  · exact .inr hx
  · exact .inl (by simpa [hx] using this)

theorem C14_exact_partial (s : Scanner) :
    (∀ f : Int → Bool, BackOverSeenRun (fun s => s.revWhileMatch f) (fun r => f r = true) s) ∧
    (∀ r : Int, BackOverSeenRun (fun s => s.revWhileRune r) (fun v => v = r) s) ∧
    (∀ str : Bytes, BackOverSeenRun (fun s => s.revWhileAnyRune str) (RuneIn str) s) ∧
    (∀ min max : Int, BackOverSeenRun (fun s => s.revWhileBetween min max) (fun v => min ≤ v ∧ v ≤ max) s) := by
  refine ⟨fun f => revWhile_seen f s, fun r => ?_, fun str => ?_, fun min max => ?_⟩
  · have he : (fun v => v = r) = fun v : Int => (v == r) = true := funext fun v => propext (by simp)
    rw [he]
    exact revWhile_seen (fun v => v == r) s
  · have he : RuneIn str = fun v => containsRune str v = true := funext fun r => propext (runeIn_iff_contains str r)
    rw [he]
    exact revWhile_seen (fun v => containsRune str v) s
  · have he : (fun v => min ≤ v ∧ v ≤ max) = fun v => Scanner.inRange min v max = true := funext fun r => propext (inRange_iff min r max).symm
    rw [he]
    exact revWhile_seen (fun v => Scanner.inRange min v max) s

theorem backSteps_get : ∀ (ps : List (Bytes × Int)) (n : Nat), (∀ x ∈ ps.take (n + 1), x.2 ≠ runeError) →
    (backSteps ps)[n]? = ps[n]?.map fun x => (bytesOfBack (ps.drop n), x.2)
  | [], n, _ => by simp [backSteps]
  | x :: ps, 0, h => by
    simp only [backSteps]
    rw [if_neg (h x (by simp))]
    simp
  | x :: ps, n + 1, h => by
    simp only [backSteps]
    rw [if_neg (h x (by simp)), List.getElem?_cons_succ, backSteps_get ps n fun y hy => h y (by rw [List.take_succ_cons]; exact List.mem_cons_of_mem _ hy)]
    simp

theorem backSteps_stop : ∀ (ps : List (Bytes × Int)) (n : Nat), (∃ x ∈ ps.take (n + 1), x.2 = runeError) → (backSteps ps)[n]? = none
  | [], n, h => by simp [backSteps]
  | x :: ps, 0, h => by
    simp only [List.take_succ_cons, List.take_zero, List.mem_cons, List.not_mem_nil, or_false, exists_eq_left] at h
    simp [backSteps, h]
  | x :: ps, n + 1, h => by
    simp only [backSteps]
    split
    · rfl
    · next hx =>
      rw [List.getElem?_cons_succ]
      refine backSteps_stop ps n ?_
      obtain ⟨y, hy, he⟩ := h
      rw [List.take_succ_cons] at hy
      rcases List.mem_cons.mp hy with rfl | hy
      · exact absurd he hx
      · exact ⟨y, hy, he⟩

theorem backPieces_len {s : Bytes} {ps : List (Bytes × Int)} (h : BackPieces s ps) : ∀ x ∈ ps, x.2 ≠ runeError → x.1.length = runeLen x.2 := by
  induction h with
  | nil => simp
  | cons hs he ht ih =>
    intro x hx hne
    rcases List.mem_cons.mp hx with rfl | hx
    · cases hs with
      | char c t => exact (runeLen_char c).symm
      | bad b t h => exact absurd rfl hne
    · exact ih x hx hne

/-- `MoveRunes(-n)` on every text: it moves back over `n` runes if there are as many and none of them is U+FFFD or a malformed byte, and
otherwise fails without moving. -/
theorem C16_backward_exact_partial (s : Scanner) (h t : Bytes) (ps : List (Bytes × Int)) (n : Nat) (hn : 0 < n) (hb : Between s h t) (hps : BackPieces h ps) :
    (n ≤ ps.length → (∀ x ∈ ps.take n, x.2 ≠ 0xFFFD) →
      ∃ s', s.moveRunes (-(n : Int)) = .ret (true, s') ∧ Reaches s s' (bytesOfBack (ps.drop n)) (bytesOfBack (ps.take n) ++ t)) ∧
    (ps.length < n ∨ (∃ x ∈ ps.take n, x.2 = 0xFFFD) → s.moveRunes (-(n : Int)) = .ret (false, s)) := by
  obtain ⟨n, rfl⟩ : ∃ m, n = m + 1 := ⟨n - 1, by omega⟩
  unfold Scanner.moveRunes
  rw [if_neg (by omega), if_pos (by omega), head_of hb]
  simp only [Exec.bind_ret]
  rw [revItr_pieces hps, show (- -((n + 1 : Nat) : Int) - 1).toNat = n by omega]
  constructor
  · intro hl hx
    rw [backSteps_get ps n hx, List.getElem?_eq_getElem (by omega)]
    simp only [Option.map_some]
    have hps' := hps
    rw [← List.take_append_drop (n + 1) ps] at hps'
    obtain ⟨s', h1, h2⟩ := move_backTo hb hps'
    refine ⟨s', ?_, h2⟩
    have hget : ps.drop n = ps[n] :: ps.drop (n + 1) := List.drop_eq_getElem_cons (by omega)
    have hlen := backPieces_len hps ps[n] (List.getElem_mem _) (hx _ (by
      have : ps[n] = (ps.take (n + 1))[n]'(by simp; omega) := by simp
      rw [this]
      exact List.getElem_mem _))
    rw [hget, bytesOfBack_cons, List.length_append]
    rw [show -((h.length : Int) - ((bytesOfBack (ps.drop (n + 1))).length + ps[n].1.length : Nat) + (runeLen ps[n].2 : Int)) = -((h.length : Int) - (bytesOfBack (ps.drop (n + 1))).length) by
      push_cast; omega, h1]
    rfl
  · rintro (hl | hx)
    · by_cases hx : ∃ x ∈ ps.take (n + 1), x.2 = runeError
      · rw [backSteps_stop ps n hx]
        rfl
      · rw [backSteps_get ps n (fun x hm he => hx ⟨x, hm, he⟩), List.getElem?_eq_none (by omega)]
        rfl
    · rw [backSteps_stop ps n hx]
      rfl

/-- Two runes back, and not over the malformed byte in front of them. -/
example : BackPieces [97, 255, 98, 99] [([99], 99), ([98], 98), ([255], 0xFFFD), ([97], 97)] := by
  have h1 : BackPieces [97] [([97], 97)] := .cons (t := []) (.char 'a' []) rfl .nil
  have h2 : BackPieces [97, 255] [([255], 0xFFFD), ([97], 97)] := .cons (t := [97]) (by rw [backStep_iff]; decide +kernel) rfl h1
  have h3 : BackPieces [97, 255, 98] [([98], 98), ([255], 0xFFFD), ([97], 97)] := .cons (t := [97, 255]) (.char 'b' [97, 255]) rfl h2
  exact .cons (t := [97, 255, 98]) (.char 'c' [97, 255, 98]) rfl h3
example : ∃ s', (Scanner.newRev [97, 255, 98, 99] Heap.empty).moveRunes (-2) = .ret (true, s') ∧ s'.pos = 2 := ⟨_, rfl, rfl⟩
example : (Scanner.newRev [97, 255, 98, 99] Heap.empty).moveRunes (-3) = .ret (false, Scanner.newRev [97, 255, 98, 99] Heap.empty) := rfl
example : (Scanner.newRev [97, 255, 98, 99] Heap.empty).revTo [97] = .ret (false, Scanner.newRev [97, 255, 98, 99] Heap.empty) := rfl

end Tok
