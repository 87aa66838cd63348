/-
C11 Reverse literal scanning: RevIf, RevIfAny, RevTo.
-/
import Verif.Proofs.BackScan

namespace Tok
open Spec

/-- `RevIf(str)` moves back over `str` when `Head()` ends with it. -/
theorem C11_revIf_match (s : Scanner) (h str t : Bytes) (hb : Between s (h ++ str) t) :
    ∃ s', s.revIf str = .ret (true, s') ∧ Reaches s s' h (str ++ t) := by
  obtain ⟨s', h1, h2⟩ := move_back hb
  refine ⟨s', ?_, h2⟩
  unfold Scanner.revIf
  rw [head_of hb]
  simp [hasSuffix, h1]

/-- `RevIf(str)` fails and does nothing when `Head()` does not end with `str`. -/
theorem C11_revIf_nomatch (s : Scanner) (h t str : Bytes) (hb : Between s h t) (hn : ¬ str <:+ h) :
    s.revIf str = .ret (false, s) := by
  unfold Scanner.revIf
  rw [head_of hb]
  simp only [Exec.bind_ret]
  rw [if_neg (by rwa [hasSuffix, List.isSuffixOf_iff_suffix])]
  rfl

/-- `RevIfAny` moves back over the first listed string that `Head()` ends with. -/
theorem C11_revIfAny_match (s : Scanner) (h t : Bytes) (before : List Bytes) (str : Bytes) (after : List Bytes)
    (hb : Between s (h ++ str) t) (hn : ∀ x ∈ before, ¬ x <:+ h ++ str) :
    ∃ s', s.revIfAny (before ++ str :: after) = .ret (true, s') ∧ Reaches s s' h (str ++ t) := by
  induction before with
  | nil =>
    obtain ⟨s', h1, h2⟩ := C11_revIf_match s h str t hb
    exact ⟨s', by simp [Scanner.revIfAny, h1], h2⟩
  | cons x xs ih =>
    obtain ⟨s', h1, h2⟩ := ih (fun y hy => hn y (by simp [hy]))
    refine ⟨s', ?_, h2⟩
    simp only [List.cons_append, Scanner.revIfAny]
    rw [C11_revIf_nomatch s (h ++ str) t x hb (hn x (by simp))]
    simpa using h1

/-- `RevIfAny` fails and does nothing when none of the strings matches. -/
theorem C11_revIfAny_nomatch (s : Scanner) (h t : Bytes) (strs : List Bytes)
    (hb : Between s h t) (hn : ∀ x ∈ strs, ¬ x <:+ h) : s.revIfAny strs = .ret (false, s) := by
  induction strs with
  | nil => rfl
  | cons x xs ih =>
    simp only [Scanner.revIfAny]
    rw [C11_revIf_nomatch s h t x hb (hn x (by simp))]
    simpa using ih (fun y hy => hn y (by simp [hy]))

private theorem find_revSteps (P : Bytes → Bool) (c2r : List Char) (d : Char) (c1r : List Char)
    (hP : P (encText (d :: c1r).reverse) = true)
    (hn : ∀ a b, c2r = a ++ b → b ≠ [] → P (encText (b ++ d :: c1r).reverse) = false) :
    (revSteps [] (c2r ++ d :: c1r)).find? (fun iv => P iv.1) =
      some (encText (d :: c1r).reverse, (d.toNat : Int)) := by
  induction c2r with
  | nil => simp only [List.nil_append, revSteps, List.find?_cons]; rw [hP]
  | cons c c2r ih =>
    simp only [List.cons_append, revSteps, List.find?_cons, List.nil_append]
    have := hn [] (c :: c2r) rfl (by simp)
    rw [List.cons_append] at this
    rw [this]
    exact ih (fun a b hab hb => hn (c :: a) b (by rw [hab]; rfl) hb)

private theorem find_revSteps_none (P : Bytes → Bool) (rcs : List Char)
    (hn : ∀ a b, rcs = a ++ b → b ≠ [] → P (encText b.reverse) = false) :
    (revSteps [] rcs).find? (fun iv => P iv.1) = none := by
  induction rcs with
  | nil => rfl
  | cons c rcs ih =>
    simp only [revSteps, List.find?_cons, List.nil_append]
    rw [hn [] (c :: rcs) rfl (by simp)]
    exact ih (fun a b hab hb => hn (c :: a) b (by rw [hab]; rfl) hb)

/-- `RevTo(str)` moves back to the end of the last occurrence of `str` in `Head()`.

Missing for the full property: an empty `str` at the start of the text, heads with
U+FFFD or malformed bytes, and malformed `str`, for which it is false
(`C11_revTo_violated`). -/
theorem C11_revTo_match_partial (s : Scanner) (t : Bytes) (cs ds : List Char) (pre post : Bytes)
    (hc : ∀ c ∈ cs, c.toNat ≠ 0xFFFD) (hd : ds ≠ [])
    (hb : Between s (encText cs) t) (hocc : encText cs = pre ++ encText ds ++ post)
    (hlast : ∀ a b, encText cs = a ++ encText ds ++ b → post.length ≤ b.length) :
    ∃ s', s.revTo (encText ds) = .ret (true, s') ∧ Reaches s s' (pre ++ encText ds) (post ++ t) := by
  obtain ⟨ds', d, rfl⟩ : ∃ ds' d, ds = ds' ++ [d] := ⟨ds.dropLast, ds.getLast hd, (List.dropLast_concat_getLast hd).symm⟩
  have hocc' : encText cs = (pre ++ encText ds') ++ (enc d ++ post) := by
    rw [hocc, encText_append, encText_singleton]; simp
  obtain ⟨p1, p2, h1, h2⟩ := pieces_of_infix (pieces_encText cs) hocc'
  obtain ⟨c1, c2', h3, h4, h5⟩ := List.map_eq_append_iff.mp h1
  obtain ⟨d', c2, h6, h7, h8⟩ := List.map_eq_cons_iff.mp h5
  have hdd : d' = d := by
    have := congrArg Prod.snd h7
    exact char_ext (Int.ofNat.inj this)
  subst hdd
  subst h3 h6
  have hpre : encText c1 = pre ++ encText ds' := by
    rw [← h2, ← h4]; simp [bytesOf, encText, List.flatMap_map]
  have hpost : encText c2 = post := by
    rw [encText_append, hpre, encText_cons] at hocc'
    exact List.append_cancel_left (List.append_cancel_left hocc')
  have hcs : c1 ++ d' :: c2 = (c2.reverse ++ d' :: c1.reverse).reverse := by simp
  have hrev := revItr_spec stuck_nil (c2.reverse ++ d' :: c1.reverse) (fun c hcm => by
    have : c ∈ c1 ++ d' :: c2 := by rw [hcs]; exact List.mem_reverse.mpr hcm
    exact toNat_ne_fffd.mp (fun he => hc c this (Int.ofNat.inj he)))
  rw [List.nil_append, ← hcs] at hrev
  have hps : encText (d' :: c1.reverse).reverse = pre ++ encText (ds' ++ [d']) := by
    simp only [List.reverse_cons, List.reverse_reverse, encText_append, hpre, encText_singleton, List.append_assoc]
  have hfind := find_revSteps (fun x => hasSuffix x (encText (ds' ++ [d']))) c2.reverse d' c1.reverse
    (by rw [hps, hasSuffix, List.isSuffixOf_iff_suffix]; exact List.suffix_append _ _)
    (by
      intro a b hab hbne
      by_contra hcon
      have hsuf : encText (ds' ++ [d']) <:+ encText (b ++ d' :: c1.reverse).reverse := by
        simpa [hasSuffix] using hcon
      obtain ⟨u, hu⟩ := hsuf
      have hc2 : c2 = b.reverse ++ a.reverse := by
        have := congrArg List.reverse hab
        simpa using this
      have := hlast u (encText a.reverse) (by
        rw [hu, ← encText_append, hc2]; simp)
      rw [← hpost, hc2, encText_append, List.length_append] at this
      have hb2 : 0 < (encText b.reverse).length := by
        have h1 := encText_length_ge b.reverse
        have h2 := List.length_pos_iff.mpr hbne
        simp only [List.length_reverse] at h1
        omega
      omega)
  obtain ⟨s', hm1, hm2⟩ := move_to (h' := pre ++ encText (ds' ++ [d'])) (t' := post ++ t) hb (by rw [hocc]; simp)
    (n := -((encText (c1 ++ d' :: c2)).length - (pre ++ encText (ds' ++ [d'])).length : Int)) (by omega)
  refine ⟨s', ?_, hm2⟩
  unfold Scanner.revTo Scanner.revSearch
  rw [head_of hb]
  simp only [Exec.bind_ret, hrev]
  rw [hfind]
  simp only [hps, hm1, Exec.pure_eq]

/-- `RevTo(str)` fails and does nothing when a well-formed `Head()` without U+FFFD does
not contain `str`. -/
theorem C11_revTo_nomatch_partial (s : Scanner) (t str : Bytes) (cs : List Char)
    (hc : ∀ c ∈ cs, c.toNat ≠ 0xFFFD) (hb : Between s (encText cs) t) (hno : ¬ str <:+: encText cs) :
    s.revTo str = .ret (false, s) := by
  have hrev := revItr_spec stuck_nil cs.reverse (fun c hcm => by
    exact toNat_ne_fffd.mp (fun he => hc c (by simpa using hcm) (Int.ofNat.inj he)))
  rw [List.nil_append, List.reverse_reverse] at hrev
  unfold Scanner.revTo Scanner.revSearch
  rw [head_of hb]
  simp only [Exec.bind_ret, hrev]
  rw [find_revSteps_none (fun x => hasSuffix x str)]
  · rfl
  · intro a b hab hbne
    by_contra hcon
    have hsuf : str <:+ encText b.reverse := by simpa [hasSuffix] using hcon
    obtain ⟨u, hu⟩ := hsuf
    apply hno
    have : cs = b.reverse ++ a.reverse := by simpa using congrArg List.reverse hab
    exact ⟨u, encText a.reverse, by rw [hu, ← encText_append, this]⟩

/-- `RevTo` misses "a" in "a�" (and reports failure for "" at the start of a
text). -/
theorem C11_revTo_violated :
    (Scanner.newRev b!"a�" Heap.empty).revTo b!"a" = .ret (false, Scanner.newRev b!"a�" Heap.empty) ∧
    (b!"a" : Bytes) <:+: b!"a�" ∧
    (Scanner.new [] Heap.empty).revTo [] = .ret (false, Scanner.new [] Heap.empty) := by
  refine ⟨rfl, by decide, rfl⟩

-- "xabab|c": the last "ab" ends at position 5.
example : Between ⟨b!"xababc", 5, none, Heap.empty⟩ (encText ['x', 'a', 'b', 'a', 'b']) b!"c" := by decide +kernel
example : encText ['x', 'a', 'b', 'a', 'b'] = b!"xab" ++ encText ['a', 'b'] ++ [] := by decide +kernel
example : ¬ (b!"q" : Bytes) <:+: encText ['x', 'é'] := by decide +kernel

end Tok
