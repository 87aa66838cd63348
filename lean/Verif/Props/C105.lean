/-
C105: the search readers and the skip readers go where the methods of the scanner go.
-/
import Verif.Props.C40
import Verif.Props.C104

namespace Tok
namespace Spec

/-- In any well-formed text the reader does what the call does, given enough steps: it succeeds exactly when the call reports success, and both
leave the scanner at the same place. -/
def GoesLike (rt : Rt) (G : Env) (f : Call) (r : Reader) : Prop := ∀ (s : Scanner) (h : Bytes) (cs : List Char), Between s h (encText cs) →
  ∃ ok s1 N, f s = .ret (ok, s1) ∧ ∀ n ≥ N, ∃ e s2, read rt G n r s = .ret (e, s2) ∧ (e = none ↔ ok = true) ∧ s2.pos = s1.pos ∧ s2.full = s1.full

/-- The reader ends where the call ends, and succeeds exactly when `good`, which may look at where the call started and where it ended. -/
def EndsWhere (rt : Rt) (G : Env) (f : Call) (r : Reader) (good : Int → Int → Prop) (s : Scanner) : Prop :=
  ∃ ok s1 N, f s = .ret (ok, s1) ∧ ∀ n ≥ N, ∃ e s2, read rt G n r s = .ret (e, s2) ∧ (e = none ↔ good s.pos s1.pos) ∧ s2.pos = s1.pos ∧ s2.full = s1.full

end Spec
open Spec

variable {rt : Rt} {G : Env}

/-- A call that decides by the characters ahead whether it goes over `k` of them. -/
structure Decides (f : Call) (M : List Char → Prop) (k : Nat) : Prop where
  yes : ∀ {s h cs}, Between s h (encText cs) → M cs → ∃ s', f s = .ret (true, s') ∧ Between s' (h ++ encText (cs.take k)) (encText (cs.drop k))
  no : ∀ {s h cs}, Between s h (encText cs) → ¬ M cs → f s = .ret (false, s)

/-- A call that goes to the first place before which there are characters of a kind. -/
structure Seeks (g : Call) (M : List Char → Prop) : Prop where
  yes : ∀ {s h pre post}, Between s h (encText (pre ++ post)) → M post → (∀ a b, pre ++ post = a ++ b → a.length < pre.length → ¬ M b) →
    ∃ s', g s = .ret (true, s') ∧ Between s' (h ++ encText pre) (encText post)
  no : ∀ {s h cs}, Between s h (encText cs) → (∀ a b, cs = a ++ b → ¬ M b) → g s = .ret (false, s)

theorem first_split {α : Type} (M : List α → Prop) (l : List α) : (∀ a b, l = a ++ b → ¬ M b) ∨
    ∃ pre post, l = pre ++ post ∧ M post ∧ ∀ a b, pre ++ post = a ++ b → a.length < pre.length → ¬ M b := by
  induction l with
  | nil =>
    by_cases h : M []
    · exact .inr ⟨[], [], rfl, h, by simp⟩
    · exact .inl (fun a b e => by simp at e; rw [e.2]; exact h)
  | cons x l ih =>
    by_cases h : M (x :: l)
    · exact .inr ⟨[], x :: l, rfl, h, by simp⟩
    rcases ih with ih | ⟨pre, post, rfl, h1, h2⟩
    · left
      intro a b e
      cases a with
      | nil => rw [← show x :: l = b from e]; exact h
      | cons y a => exact ih a b (by simpa using (List.cons.inj e).2)
    · refine .inr ⟨x :: pre, post, rfl, h1, fun a b e hl => ?_⟩
      cases a with
      | nil => rw [← show x :: (pre ++ post) = b from e]; exact h
      | cons y a => exact h2 a b (List.cons.inj e).2 (by simpa using hl)

theorem moveRunes_none {s : Scanner} {h : Bytes} (hb : Between s h []) : s.moveRunes 1 = .ret (false, s) :=
  C16_forward_short s h [] 1 hb (by simp)

/-- The loop of `To` over a reader that decides. -/
theorem toLoop_found {f : Call} {M : List Char → Prop} {k : Nat} {w : Bytes} {rf : ReadFunc} (hf : Decides f M k) (hr : ∀ s, rf s = ifFalse w (f s)) {post : List Char}
    (hp : M post) : ∀ (pre : List Char) (s : Scanner) (h : Bytes), Between s h (encText (pre ++ post)) →
    (∀ a b, pre ++ post = a ++ b → a.length < pre.length → ¬ M b) → ∀ n, pre.length < n →
    ∃ s', toLoop rf n s = .ret (true, s') ∧ Between s' (h ++ encText pre) (encText post) := by
  intro pre
  induction pre with
  | nil =>
    intro s h hb _ n hn
    obtain ⟨n, rfl⟩ := Nat.exists_eq_add_of_lt hn
    obtain ⟨s', h2, h3⟩ := hf.yes hb hp
    obtain ⟨u, u1, u2⟩ := toMarker_to (s := s') (h := h) (t := encText post) (m := s.mark) (by rw [h3.1, List.append_assoc, ← encText_append, List.take_append_drop]; rfl) hb.2
    refine ⟨u, ?_, by simpa [encText_nil] using u2.1⟩
    simp only [List.length_nil, Nat.zero_add, toLoop, hr, h2, ifFalse, Exec.bind_ret, Exec.pure_eq, Scanner.errorIfFalse, Bool.not_true, Bool.false_eq_true, if_false]
    rw [u1]
  | cons c pre ih =>
    intro s h hb hfirst n hn
    obtain ⟨n, rfl⟩ : ∃ k, n = k + 1 := ⟨n - 1, by omega⟩
    have hno := hfirst [] _ rfl (by simp)
    have hb' : Between s h (enc c ++ encText (pre ++ post)) := by rw [← encText_cons]; exact hb
    obtain ⟨s1, m1, m2⟩ := moveRunes_char hb'
    obtain ⟨s', h1, h2⟩ := ih s1 _ m2 (fun a b e hl => hfirst (c :: a) b (by simpa using e) (by simpa using hl)) n (by simpa using hn)
    refine ⟨s', ?_, by rw [encText_cons, ← List.append_assoc]; exact h2⟩
    simp only [toLoop, hr, hf.no hb hno, ifFalse, Exec.bind_ret, Exec.pure_eq, Scanner.errorIfFalse, Bool.not_false, if_true, m1]
    exact h1

theorem toLoop_missed {f : Call} {M : List Char → Prop} {k : Nat} {w : Bytes} {rf : ReadFunc} (hf : Decides f M k) (hr : ∀ s, rf s = ifFalse w (f s)) :
    ∀ (cs : List Char) (s : Scanner) (h : Bytes), Between s h (encText cs) → (∀ a b, cs = a ++ b → ¬ M b) → ∀ n, cs.length < n →
    ∃ s', toLoop rf n s = .ret (false, s') ∧ s'.full = s.full := by
  intro cs
  induction cs with
  | nil =>
    intro s h hb hno n hn
    obtain ⟨n, rfl⟩ := Nat.exists_eq_add_of_lt hn
    refine ⟨s, ?_, rfl⟩
    simp only [List.length_nil, Nat.zero_add, toLoop, hr, hf.no hb (hno [] [] rfl), ifFalse, Exec.bind_ret, Exec.pure_eq, Scanner.errorIfFalse,
      Bool.not_false, if_true, moveRunes_none hb, Bool.false_eq_true, if_false]
  | cons c cs ih =>
    intro s h hb hno n hn
    obtain ⟨n, rfl⟩ : ∃ k, n = k + 1 := ⟨n - 1, by omega⟩
    have hb' : Between s h (enc c ++ encText cs) := by rw [← encText_cons]; exact hb
    obtain ⟨s1, m1, m2⟩ := moveRunes_char hb'
    obtain ⟨s', h1, h2⟩ := ih s1 _ m2 (fun a b e => hno (c :: a) b (by simpa using e)) n (by simpa using hn)
    refine ⟨s', ?_, by rw [h2, m2.1, hb'.1, List.append_assoc]⟩
    simp only [toLoop, hr, hf.no hb (hno [] _ rfl), ifFalse, Exec.bind_ret, Exec.pure_eq, Scanner.errorIfFalse, Bool.not_false, if_true, m1]
    exact h1

theorem goesLike_to {f g : Call} {M : List Char → Prop} {k : Nat} {w : Bytes} {r : Reader} (hf : Decides f M k) (hg : Seeks g M)
    (hr : ∀ n s, read rt G (n + 1) r s = ifFalse w (f s)) : GoesLike rt G g (.to r) := by
  intro s h cs hb
  rcases first_split M cs with hno | ⟨pre, post, rfl, h1, h2⟩
  · refine ⟨false, s, cs.length + 2, hg.no hb hno, fun n hn => ?_⟩
    obtain ⟨n, rfl⟩ : ∃ k, n = k + 2 := ⟨n - 2, by omega⟩
    obtain ⟨s', e1, e2⟩ := toLoop_missed hf (hr n) cs s h hb hno (n + 1) (by omega)
    obtain ⟨u, u1, u2⟩ := toMarker_to (s := s') (h := h) (t := encText cs) (m := s.mark) (by rw [e2, hb.1]) hb.2
    refine ⟨some (u.errorFor ((Reader.to r).what rt G)), u, ?_, by simp, by rw [u2.1.2, hb.2], by rw [u2.1.1, hb.1]⟩
    rw [read]
    simp only [e1, Exec.bind_ret, Bool.false_eq_true, if_false, u1, Exec.pure_eq]
  · obtain ⟨s1, g1, g2⟩ := hg.yes hb h1 h2
    refine ⟨true, s1, pre.length + 2, g1, fun n hn => ?_⟩
    obtain ⟨n, rfl⟩ : ∃ k, n = k + 2 := ⟨n - 2, by omega⟩
    obtain ⟨s', e1, e2⟩ := toLoop_found hf (hr n) h1 pre s h hb h2 (n + 1) (by omega)
    refine ⟨none, s', ?_, by simp, by rw [e2.2, g2.2], by rw [e2.1, g2.1]⟩
    rw [read]
    simp only [e1, Exec.bind_ret, if_true, Exec.pure_eq]

/-! ### what decides and what seeks -/

/-- The first character is accepted. -/
def HeadIs (q : Int → Prop) (cs : List Char) : Prop := ∃ c u, cs = c :: u ∧ q c.toNat

theorem decides_one {f : Call} {q : Int → Prop} (h : ∀ s, OverOne f q s) : Decides f (HeadIs q) 1 where
  yes := by
    rintro s hd _ hb ⟨c, u, rfl, hq⟩
    rw [encText_cons] at hb
    obtain ⟨s', h1, h2⟩ := (h s _ _ hb).1 _ _ _ (.char c _) rfl hq
    exact ⟨s', h1, by simpa [encText_singleton] using h2.1⟩
  no := by
    intro s hd cs hb hno
    refine (h s _ _ hb).2 fun r p hs hq => ?_
    cases cs with
    | nil =>
      have := (step_iff.mp hs).1
      exact absurd rfl this
    | cons c u =>
      rw [encText_cons] at hs
      have e := (step_iff.mp hs).2.1.symm.trans (step_iff.mp (Step.char c (encText u))).2.1
      rw [show r = c.toNat from congrArg Prod.fst e] at hq
      exact hno ⟨c, u, rfl, hq⟩

theorem seeks_one {g : Call} {q : Int → Prop} (h : ∀ s, ToFirst g q s) : Seeks g (HeadIs q) where
  yes := by
    rintro s hd pre _ hb ⟨c, u, rfl, hq⟩ hfirst
    obtain ⟨h1, -⟩ := h s _ _ _ hb (pieces_encText _)
    obtain ⟨s', e1, e2⟩ := h1 (charPieces pre) (enc c, (c.toNat : Int)) (charPieces u) (by simp [charPieces]) (by
      intro y hy hqy
      obtain ⟨d, hd, rfl⟩ := List.mem_map.mp hy
      obtain ⟨a, b, rfl⟩ := List.append_of_mem hd
      exact hfirst a (d :: b ++ c :: u) (by simp) (by simp) ⟨d, _, rfl, hqy⟩) hq
    refine ⟨s', e1, ?_⟩
    have := e2.1
    rw [bytesOf_charPieces, show (enc c, (c.toNat : Int)) :: charPieces u = charPieces (c :: u) from rfl, bytesOf_charPieces] at this
    exact this
  no := by
    intro s hd cs hb hno
    refine (h s _ _ _ hb (pieces_encText _)).2 fun x hx hq => ?_
    obtain ⟨d, hd, rfl⟩ := List.mem_map.mp hx
    obtain ⟨a, b, rfl⟩ := List.append_of_mem hd
    exact hno a (d :: b) rfl ⟨d, _, rfl, hq⟩

theorem decides_lit (ds : List Char) : Decides (fun s => s.ifStr (encText ds)) (ds <+: ·) ds.length where
  yes := by
    rintro s h _ hb ⟨ys, rfl⟩
    rw [encText_append] at hb
    obtain ⟨s', h1, h2⟩ := C05_if_match s _ _ _ hb
    exact ⟨s', h1, by simpa using h2.1⟩
  no := fun hb hno => C05_if_nomatch _ _ _ _ hb (prefix_encText.not.mpr hno)

theorem seeks_lit (ds : List Char) : Seeks (fun s => s.to (encText ds)) (ds <+: ·) where
  yes := by
    rintro s h pre _ hb ⟨ys, rfl⟩ hfirst
    rw [← List.append_assoc, encText_append, encText_append] at hb
    obtain ⟨s', h1, h2⟩ := C05_to_match s _ _ _ _ hb (by
      intro a b e
      by_cases hd : ds = []
      · subst hd
        cases pre with
        | nil => simp [encText_nil]
        | cons c pre => exact absurd (List.nil_prefix (l := c :: pre ++ ([] ++ ys))) (hfirst [] _ rfl (by simp))
      rw [← encText_append, ← encText_append] at e
      obtain ⟨a', b', e', rfl, rfl⟩ := infix_encText hd e
      refine encText_le (l := pre ++ ds ++ ys) ⟨ds ++ ys, by simp⟩ ⟨ds ++ b', by rw [e']; simp⟩ (Nat.le_of_not_lt fun hl => ?_)
      exact hfirst a' (ds ++ b') (by simpa using e') hl ⟨b', rfl⟩)
    exact ⟨s', h1, by rw [encText_append]; exact h2.1⟩
  no := by
    intro s h cs hb hno
    refine C05_to_nomatch s _ _ _ hb ?_
    rintro ⟨a, b, e⟩
    by_cases hd : ds = []
    · subst hd
      exact hno [] cs rfl (List.nil_prefix)
    obtain ⟨a', b', e', -, -⟩ := infix_encText hd e.symm
    exact hno a' (ds ++ b') (by simpa using e') ⟨b', rfl⟩

/-- **C105** (searching): `To` over a reader of one rune or of a literal goes where the method of that name goes.

Missing for the full claim: U+FFFD as the rune that is searched, `Fold`, and malformed texts, where it is false (`C105_violated`). -/
theorem C105_to_partial (rt : Rt) (G : Env) :
    (∀ ds, GoesLike rt G (fun s => s.to (encText ds)) (.to (.lit (encText ds)))) ∧
    (∀ c, c ≠ 0xFFFD → GoesLike rt G (fun s => s.toRune c) (.to (.rune c))) ∧
    (∀ str, ¬ RuneIn str 0xFFFD → GoesLike rt G (fun s => s.toAnyRune str) (.to (.anyRune str))) ∧
    (∀ min max, GoesLike rt G (fun s => s.toBetween min max) (.to (.between min max))) ∧
    (∀ w q, GoesLike rt G (fun s => s.toMatch q) (.to (.match_ w q))) :=
  ⟨fun ds => goesLike_to (decides_lit ds) (seeks_lit ds) (fun n s => rfl),
   fun c hc => goesLike_to (decides_one fun s => C06_ifRune_partial s c (.inl hc)) (seeks_one fun s => C06_toRune s c) (fun n s => rfl),
   fun str hc => goesLike_to (decides_one fun s => C07_ifAnyRune_partial s str (.inl hc)) (seeks_one fun s => C07_toAnyRune s str) (fun n s => rfl),
   fun min max => goesLike_to (decides_one fun s => C08_ifBetween s min max) (seeks_one fun s => C08_toBetween s min max) (fun n s => rfl),
   fun w q => goesLike_to (decides_one fun s => C09_ifMatch s q) (seeks_one fun s => C09_toMatch s q) (fun n s => rfl)⟩

/-! ### searching and going past -/

theorem pastLoop_found {f : Call} {M : List Char → Prop} {k : Nat} {w : Bytes} {rf : ReadFunc} (hf : Decides f M k) (hr : ∀ s, rf s = ifFalse w (f s)) (h0 : ¬ M [])
    {post : List Char} (hp : M post) : ∀ (pre : List Char) (s : Scanner) (h : Bytes), Between s h (encText (pre ++ post)) →
    (∀ a b, pre ++ post = a ++ b → a.length < pre.length → ¬ M b) → ∀ n, pre.length < n →
    ∃ s' s1, pastLoop rf n s = .ret (true, s') ∧ Between s1 (h ++ encText pre) (encText post) ∧ f s1 = .ret (true, s') := by
  intro pre
  have atEnd : ∀ {s : Scanner} {h : Bytes} {cs : List Char}, Between s h (encText cs) → cs ≠ [] → s.atEnd = false := by
    intro s h cs hb hne
    obtain ⟨c, u, rfl⟩ := List.exists_cons_of_ne_nil hne
    have := List.length_pos_iff.mpr (enc_ne_nil c)
    unfold Scanner.atEnd
    rw [hb.1, hb.2, encText_cons, List.length_append, List.length_append, decide_eq_false_iff_not]
    omega
  induction pre with
  | nil =>
    intro s h hb _ n hn
    obtain ⟨n, rfl⟩ := Nat.exists_eq_add_of_lt hn
    obtain ⟨s', h2, h3⟩ := hf.yes hb hp
    refine ⟨s', s, ?_, by simpa [encText_nil] using hb, h2⟩
    have hne : post ≠ [] := by rintro rfl; exact h0 hp
    simp only [List.length_nil, Nat.zero_add, pastLoop, atEnd (cs := post) hb hne, Bool.false_eq_true, if_false, hr, h2, ifFalse, Exec.bind_ret, Exec.pure_eq,
      Scanner.errorIfFalse, Bool.not_true]
  | cons c pre ih =>
    intro s h hb hfirst n hn
    obtain ⟨n, rfl⟩ : ∃ k, n = k + 1 := ⟨n - 1, by omega⟩
    have hno := hfirst [] _ rfl (by simp)
    have hb' : Between s h (enc c ++ encText (pre ++ post)) := by rw [← encText_cons]; exact hb
    obtain ⟨s1, m1, m2⟩ := moveRunes_char hb'
    obtain ⟨s', s2, h1, h2, h3⟩ := ih s1 _ m2 (fun a b e hl => hfirst (c :: a) b (by simpa using e) (by simpa using hl)) n (by simpa using hn)
    refine ⟨s', s2, ?_, by rw [encText_cons, ← List.append_assoc]; exact h2, h3⟩
    simp only [pastLoop, atEnd hb (by simp), Bool.false_eq_true, if_false, hr, hf.no hb hno, ifFalse, Exec.bind_ret, Exec.pure_eq, Scanner.errorIfFalse,
      Bool.not_false, if_true, m1]
    exact h1

theorem pastLoop_missed {f : Call} {M : List Char → Prop} {k : Nat} {w : Bytes} {rf : ReadFunc} (hf : Decides f M k) (hr : ∀ s, rf s = ifFalse w (f s)) :
    ∀ (cs : List Char) (s : Scanner) (h : Bytes), Between s h (encText cs) → (∀ a b, cs = a ++ b → ¬ M b) → ∀ n, cs.length < n →
    ∃ s', pastLoop rf n s = .ret (false, s') ∧ s'.full = s.full := by
  intro cs
  induction cs with
  | nil =>
    intro s h hb hno n hn
    obtain ⟨n, rfl⟩ := Nat.exists_eq_add_of_lt hn
    refine ⟨s, ?_, rfl⟩
    have he : s.atEnd = true := by
      unfold Scanner.atEnd
      rw [hb.1, hb.2, encText_nil, List.append_nil, decide_eq_true_iff]
    simp only [List.length_nil, Nat.zero_add, pastLoop, he, if_true, Exec.pure_eq]
  | cons c cs ih =>
    intro s h hb hno n hn
    obtain ⟨n, rfl⟩ : ∃ k, n = k + 1 := ⟨n - 1, by omega⟩
    have hb' : Between s h (enc c ++ encText cs) := by rw [← encText_cons]; exact hb
    obtain ⟨s1, m1, m2⟩ := moveRunes_char hb'
    obtain ⟨s', h1, h2⟩ := ih s1 _ m2 (fun a b e => hno (c :: a) b (by simpa using e)) n (by simpa using hn)
    refine ⟨s', ?_, by rw [h2, m2.1, hb'.1, List.append_assoc]⟩
    have hne : s.atEnd = false := by
      have := List.length_pos_iff.mpr (enc_ne_nil c)
      unfold Scanner.atEnd
      rw [hb'.1, hb'.2, List.length_append, List.length_append, decide_eq_false_iff_not]
      omega
    simp only [pastLoop, hne, Bool.false_eq_true, if_false, hr, hf.no hb (hno [] _ rfl), ifFalse, Exec.bind_ret, Exec.pure_eq, Scanner.errorIfFalse,
      Bool.not_false, if_true, m1]
    exact h1

theorem goesLike_past {f g : Call} {M : List Char → Prop} {k : Nat} {w : Bytes} {r : Reader} (hf : Decides f M k) (hg : Seeks g M) (h0 : ¬ M [])
    (hr : ∀ n s, read rt G (n + 1) r s = ifFalse w (f s)) : GoesLike rt G (fun s => do let (ok, s) ← g s; if ok then f s else pure (false, s)) (.past r) := by
  intro s h cs hb
  rcases first_split M cs with hno | ⟨pre, post, rfl, h1, h2⟩
  · refine ⟨false, s, cs.length + 2, by simp only [hg.no hb hno, Exec.bind_ret]; rfl, fun n hn => ?_⟩
    obtain ⟨n, rfl⟩ : ∃ k, n = k + 2 := ⟨n - 2, by omega⟩
    obtain ⟨s', e1, e2⟩ := pastLoop_missed hf (hr n) cs s h hb hno (n + 1) (by omega)
    obtain ⟨u, u1, u2⟩ := toMarker_to (s := s') (h := h) (t := encText cs) (m := s.mark) (by rw [e2, hb.1]) hb.2
    refine ⟨some (u.errorFor ((Reader.past r).what rt G)), u, ?_, by simp, by rw [u2.1.2, hb.2], by rw [u2.1.1, hb.1]⟩
    rw [read]
    simp only [e1, Exec.bind_ret, Bool.false_eq_true, if_false, u1, Exec.pure_eq]
  · obtain ⟨s1, g1, g2⟩ := hg.yes hb h1 h2
    obtain ⟨s2, e4, e5⟩ := hf.yes g2 h1
    refine ⟨true, s2, pre.length + 2, by simp only [g1, Exec.bind_ret, if_true, e4], fun n hn => ?_⟩
    obtain ⟨n, rfl⟩ : ∃ k, n = k + 2 := ⟨n - 2, by omega⟩
    obtain ⟨s', s3, e1, e2, e6⟩ := pastLoop_found hf (hr n) h0 h1 pre s h hb h2 (n + 1) (by omega)
    obtain ⟨s4, e7, e8⟩ := hf.yes e2 h1
    obtain rfl : s' = s4 := by rw [e7] at e6; cases e6; rfl
    refine ⟨none, s', ?_, by simp, by rw [e8.2, e5.2], by rw [e8.1, e5.1]⟩
    rw [read]
    simp only [e1, Exec.bind_ret, if_true, Exec.pure_eq]

/-- **C105** (searching and going past): `Past` goes where searching and then reading go.

Missing for the full claim: the empty literal, U+FFFD as the rune that is searched, `Fold`, and malformed texts, where it is false (`C105_violated`). -/
theorem C105_past_partial (rt : Rt) (G : Env) :
    (∀ ds, ds ≠ [] → GoesLike rt G (fun s => do let (ok, s) ← s.to (encText ds); if ok then s.ifStr (encText ds) else pure (false, s)) (.past (.lit (encText ds)))) ∧
    (∀ c, c ≠ 0xFFFD → GoesLike rt G (fun s => do let (ok, s) ← s.toRune c; if ok then s.ifRune c else pure (false, s)) (.past (.rune c))) ∧
    (∀ str, ¬ RuneIn str 0xFFFD →
      GoesLike rt G (fun s => do let (ok, s) ← s.toAnyRune str; if ok then s.ifAnyRune str else pure (false, s)) (.past (.anyRune str))) ∧
    (∀ min max, GoesLike rt G (fun s => do let (ok, s) ← s.toBetween min max; if ok then s.ifBetween min max else pure (false, s)) (.past (.between min max))) ∧
    (∀ w q, GoesLike rt G (fun s => do let (ok, s) ← s.toMatch q; if ok then s.ifMatch q else pure (false, s)) (.past (.match_ w q))) := by
  have h0 : ∀ q : Int → Prop, ¬ HeadIs q [] := by
    rintro q ⟨c, u, e, -⟩
    cases e
  exact ⟨fun ds hd => goesLike_past (decides_lit ds) (seeks_lit ds) (by simpa using hd) (fun n s => rfl),
    fun c hc => goesLike_past (decides_one fun s => C06_ifRune_partial s c (.inl hc)) (seeks_one fun s => C06_toRune s c) (h0 _) (fun n s => rfl),
    fun str hc => goesLike_past (decides_one fun s => C07_ifAnyRune_partial s str (.inl hc)) (seeks_one fun s => C07_toAnyRune s str) (h0 _) (fun n s => rfl),
    fun min max => goesLike_past (decides_one fun s => C08_ifBetween s min max) (seeks_one fun s => C08_toBetween s min max) (h0 _) (fun n s => rfl),
    fun w q => goesLike_past (decides_one fun s => C09_ifMatch s q) (seeks_one fun s => C09_toMatch s q) (h0 _) (fun n s => rfl)⟩

/-! ### skipping -/

theorem zomLoop_run {f : Call} {q : Int → Prop} {w : Bytes} {rf : ReadFunc} (hf : ∀ s, OverOne f q s) (hr : ∀ s, rf s = ifFalse w (f s)) {post : List Char}
    (hp : ¬ HeadIs q post) : ∀ (pre : List Char) (s : Scanner) (h : Bytes), Between s h (encText (pre ++ post)) → (∀ c ∈ pre, q c.toNat) → ∀ n, pre.length < n →
    ∃ s', zomLoop rf n s = .ret s' ∧ Between s' (h ++ encText pre) (encText post) := by
  intro pre
  induction pre with
  | nil =>
    intro s h hb _ n hn
    obtain ⟨n, rfl⟩ := Nat.exists_eq_add_of_lt hn
    refine ⟨s, ?_, by simpa [encText_nil] using hb⟩
    simp only [List.length_nil, Nat.zero_add, zomLoop, hr, (decides_one hf).no (cs := post) hb hp, ifFalse, Exec.bind_ret, Exec.pure_eq, Scanner.errorIfFalse,
      Bool.not_false, if_true]
  | cons c pre ih =>
    intro s h hb hq n hn
    obtain ⟨n, rfl⟩ : ∃ k, n = k + 1 := ⟨n - 1, by omega⟩
    obtain ⟨s1, m1, m2⟩ := (decides_one hf).yes hb ⟨c, pre ++ post, rfl, hq c (by simp)⟩
    obtain ⟨s', h1, h2⟩ := ih s1 _ m2 (fun d hd => hq d (by simp [hd])) n (by simpa using hn)
    refine ⟨s', ?_, by rw [encText_cons, ← List.append_assoc]; simpa [encText_singleton] using h2⟩
    simp only [zomLoop, hr, m1, ifFalse, Exec.bind_ret, Exec.pure_eq, Scanner.errorIfFalse, Bool.not_true, Bool.false_eq_true, if_false]
    exact h1

theorem endsWhere_skip {f g : Call} {q : Int → Prop} {w : Bytes} {r : Reader} (hf : ∀ s, OverOne f q s) {s : Scanner} (hg : OverRun g q s)
    (hr : ∀ n s, read rt G (n + 1) r s = ifFalse w (f s)) {h : Bytes} {cs : List Char} (hb : Between s h (encText cs)) :
    EndsWhere rt G g (.zom r) (fun _ _ => True) s ∧ EndsWhere rt G g (.many r) (· ≠ ·) s := by
  obtain ⟨pre, post, rfl, h1, h2⟩ := run_of (fun c : Char => q c.toNat) cs
  have hp : ¬ HeadIs q post := by
    rintro ⟨c, u, e, hq⟩
    exact h2 c u e hq
  obtain ⟨ok, s1, g1, g2⟩ := hg _ _ (charPieces pre) (charPieces post) hb (by rw [charPieces, charPieces, ← List.map_append]; exact pieces_encText _) (by
    refine ⟨fun x hx => ?_, fun x l hx => ?_⟩
    · obtain ⟨c, hcm, rfl⟩ := List.mem_map.mp hx
      exact h1 c hcm
    · obtain ⟨c, m, h3, rfl, -⟩ := List.map_eq_cons_iff.mp hx
      exact h2 c m h3)
  have g2 := g2.1
  rw [bytesOf_charPieces, bytesOf_charPieces] at g2
  refine ⟨⟨ok, s1, pre.length + 2, g1, fun n hn => ?_⟩, ⟨ok, s1, pre.length + 2, g1, fun n hn => ?_⟩⟩
  all_goals
    obtain ⟨n, rfl⟩ : ∃ k, n = k + 2 := ⟨n - 2, by omega⟩
    obtain ⟨s', e1, e2⟩ := zomLoop_run hf (hr n) hp pre s h hb h1 (n + 1) (by omega)
  · refine ⟨none, s', ?_, by simp, by rw [e2.2, g2.2], by rw [e2.1, g2.1]⟩
    rw [read]
    simp only [e1, Exec.bind_ret, Exec.pure_eq]
  · refine ⟨s'.errorIfFalse (decide (s.mark < s'.mark)) ((Reader.many r).what rt G), s', ?_, ?_, by rw [e2.2, g2.2], by rw [e2.1, g2.1]⟩
    · rw [read]
      simp only [e1, Exec.bind_ret, Exec.pure_eq]
    · unfold Scanner.errorIfFalse Scanner.mark
      rw [hb.2, g2.2, e2.2, List.length_append]
      by_cases hz : (encText pre).length = 0
      · simp [hz]
      · simp
        omega

/-- **C105** (skipping): `Zom` and `Many` over a reader of one rune end where the `While` method ends; `Many` fails when nothing was skipped.

Missing for the full claim: U+FFFD, runs up to the end of the text for `WhileAnyRune` and `WhileMatch`, and what the methods report, where it is
false (`C105_violated`). -/
theorem C105_while_partial (rt : Rt) (G : Env) (s : Scanner) (h : Bytes) (cs : List Char) (hb : Between s h (encText cs)) :
    (∀ c, c ≠ 0xFFFD → EndsWhere rt G (fun s => s.whileRune c) (.zom (.rune c)) (fun _ _ => True) s ∧ EndsWhere rt G (fun s => s.whileRune c) (.many (.rune c)) (· ≠ ·) s) ∧
    (∀ min max, EndsWhere rt G (fun s => s.whileBetween min max) (.zom (.between min max)) (fun _ _ => True) s ∧
      EndsWhere rt G (fun s => s.whileBetween min max) (.many (.between min max)) (· ≠ ·) s) ∧
    (∀ str, ¬ RuneIn str 0xFFFD → (cs = [] ∨ ∃ c ∈ cs, ¬ RuneIn str c.toNat) → EndsWhere rt G (fun s => s.whileAnyRune str) (.zom (.anyRune str)) (fun _ _ => True) s ∧
      EndsWhere rt G (fun s => s.whileAnyRune str) (.many (.anyRune str)) (· ≠ ·) s) ∧
    (∀ w q, (cs = [] ∨ ∃ c ∈ cs, q c.toNat = false) → EndsWhere rt G (fun s => s.whileMatch q) (.zom (.match_ w q)) (fun _ _ => True) s ∧
      EndsWhere rt G (fun s => s.whileMatch q) (.many (.match_ w q)) (· ≠ ·) s) := by
  have tail : ∀ {h1 t ps}, Between s h1 t → Pieces t ps → ∀ P : Int → Prop, (cs = [] ∨ ∃ c ∈ cs, P c.toNat) → t = [] ∨ ∃ x ∈ ps, P x.2 := by
    intro h1 t ps hb1 hp P hP
    have e : h1 = h ∧ t = encText cs := by
      refine List.append_inj (hb1.1.symm.trans hb.1) ?_
      have h1 := hb1.2
      have h2 := hb.2
      omega
    obtain ⟨-, rfl⟩ := e
    rcases hP with rfl | ⟨c, hcm, hP⟩
    · exact .inl rfl
    · right
      rw [hp.unique (pieces_encText cs)]
      exact ⟨_, List.mem_map.mpr ⟨c, hcm, rfl⟩, hP⟩
  exact ⟨fun c hc => endsWhere_skip (fun s => C06_ifRune_partial s c (.inl hc)) (C06_whileRune s c) (fun n s => rfl) hb,
    fun min max => endsWhere_skip (fun s => C08_ifBetween s min max) (C08_whileBetween s min max) (fun n s => rfl) hb,
    fun str hc he => endsWhere_skip (fun s => C07_ifAnyRune_partial s str (.inl hc))
      (C07_whileAnyRune_partial s str fun _ _ _ hb hp => tail hb hp (fun v => ¬ RuneIn str v) he) (fun n s => rfl) hb,
    fun w q he => endsWhere_skip (fun s => C09_ifMatch s q) (C09_whileMatch_partial s q fun _ _ _ hb hp => tail hb hp (fun v => q v = false) he) (fun n s => rfl) hb⟩

/-! ### choosing -/

/-- **C105** (choosing): `Any` over literals does what `IfAny` does, in any text: it succeeds exactly when that reports success, and leaves the
scanner at the same place. -/
theorem C105_any (rt : Rt) (G : Env) (strs : List Bytes) (s : Scanner) (h t : Bytes) (hb : Between s h t) :
    ∃ ok s1, s.ifAny strs = .ret (ok, s1) ∧ ∀ n, ∃ e s2, read rt G (n + 2) (.any (strs.map .lit)) s = .ret (e, s2) ∧ (e = none ↔ ok = true) ∧
      s2.pos = s1.pos ∧ s2.full = s1.full := by
  have key : ∀ n (errs : List Err), ∃ ok s1, s.ifAny strs = .ret (ok, s1) ∧ (ok = false → s1 = s) ∧
      ∃ es, anyLoop (read rt G (n + 1)) (strs.map .lit) errs s = .ret (es, s1) ∧ (es = none ↔ ok = true) := by
    intro n
    induction strs with
    | nil => exact fun errs => ⟨false, s, rfl, fun _ => rfl, _, rfl, by simp⟩
    | cons x xs ih =>
      intro errs
      have hx : read rt G (n + 1) (.lit x) s = ifFalse ((Reader.lit x).what rt G) (s.ifStr x) := rfl
      by_cases hp : x <+: t
      · obtain ⟨u, rfl⟩ := hp
        obtain ⟨s', h1, h2⟩ := C05_if_match s _ _ _ hb
        refine ⟨true, s', by simp [Scanner.ifAny, h1], by simp, none, ?_, by simp⟩
        simp only [List.map_cons, anyLoop, hx, h1, ifFalse, Exec.bind_ret, Exec.pure_eq, Scanner.errorIfFalse, Bool.not_true, Bool.false_eq_true, if_false]
      · have h1 := C05_if_nomatch s _ _ _ hb hp
        obtain ⟨ok, s1, e1, e2, es, e3, e4⟩ := ih (errs ++ [.read s.mark ((Reader.lit x).what rt G)])
        refine ⟨ok, s1, by simp [Scanner.ifAny, h1, e1], e2, es, ?_, e4⟩
        simp only [List.map_cons, anyLoop, hx, h1, ifFalse, Exec.bind_ret, Exec.pure_eq, Scanner.errorIfFalse, Bool.not_false, if_true]
        exact e3
  obtain ⟨ok, s1, e1, e2, -⟩ := key 0 []
  refine ⟨ok, s1, e1, fun n => ?_⟩
  obtain ⟨ok', s1', e1', -, es, e3, e4⟩ := key n []
  obtain ⟨rfl, rfl⟩ : ok = ok' ∧ s1 = s1' := by rw [e1] at e1'; cases e1'; exact ⟨rfl, rfl⟩
  cases es with
  | none =>
    refine ⟨none, s1, ?_, by simpa using e4, rfl, rfl⟩
    rw [read]
    simp only [e3, Exec.bind_ret, Exec.pure_eq]
  | some es =>
    have hok : ok = false := by simpa using e4
    obtain rfl := e2 hok
    obtain ⟨u, u1, u2⟩ := toMarker_to (s := s1) (h := h) (t := t) (m := s1.mark) hb.1 hb.2
    refine ⟨some (getDeepest (0, []) es), u, ?_, by simp [hok], by rw [u2.1.2, hb.2], by rw [u2.1.1, hb.1]⟩
    rw [read]
    simp only [e3, Exec.bind_ret, Exec.pure_eq, u1]

theorem zom_fffd (rt : Rt) (G : Env) : ∀ n, read rt G n (.zom (.rune 0xFFFD)) (.new [] Heap.empty) = .timeout := by
  intro n
  have key : ∀ k m, zomLoop (read rt G k (.rune 0xFFFD)) m (.new [] Heap.empty) = .timeout := by
    intro k m
    induction m with
    | zero => rfl
    | succ m ih =>
      cases k with
      | zero => rfl
      | succ k => exact ih
  cases n with
  | zero => rfl
  | succ n =>
    rw [read]
    simp only [key]
    rfl

/-- Where readers and methods part.  At the end of the text `To(Rune(U+FFFD))` succeeds where `ToRune` fails, and `Zom(Rune(U+FFFD))` never returns where
`WhileRune` does.  `Past("")` fails there, while `To("")` and `If("")` succeed.  `Zom` skips a run up to the end of the text, which `WhileAnyRune` and
`WhileMatch` do not move over.  `WhileRune` reports success without having skipped anything, where `Many` fails.  `To(Fold("bb"))` panics on `a`, where `ToFold` fails.
Behind a malformed byte `ToRune` finds `b`, and `To(Rune('b'))` does not. -/
theorem C105_violated (rt : Rt) (G : Env) :
    ((∃ s', read rt G 3 (.to (.rune 0xFFFD)) (.new [] Heap.empty) = .ret (none, s')) ∧ (Scanner.new [] Heap.empty).toRune 0xFFFD = .ret (false, .new [] Heap.empty)) ∧
    ((∀ n, read rt G n (.zom (.rune 0xFFFD)) (.new [] Heap.empty) = .timeout) ∧ ∃ r, (Scanner.new [] Heap.empty).whileRune 0xFFFD = .ret r) ∧
    ((∃ e s', read rt G 3 (.past (.lit [])) (.new [] Heap.empty) = .ret (some e, s')) ∧ ∃ s1 s2, (Scanner.new [] Heap.empty).to [] = .ret (true, s1) ∧ s1.ifStr [] = .ret (true, s2)) ∧
    ((∃ s', read rt G 9 (.zom (.anyRune b!"a")) (.new b!"aa" Heap.empty) = .ret (none, s') ∧ s'.pos = 2) ∧
      (Scanner.new b!"aa" Heap.empty).whileAnyRune b!"a" = .ret (true, .new b!"aa" Heap.empty)) ∧
    ((∃ s', read rt G 9 (.zom (.match_ b!"a" (· == 97))) (.new b!"aa" Heap.empty) = .ret (none, s') ∧ s'.pos = 2) ∧
      (Scanner.new b!"aa" Heap.empty).whileMatch (· == 97) = .ret (false, .new b!"aa" Heap.empty)) ∧
    ((∃ e s', read rt G 9 (.many (.rune 98)) (.new b!"aa" Heap.empty) = .ret (some e, s')) ∧ ∃ s', (Scanner.new b!"aa" Heap.empty).whileRune 98 = .ret (true, s') ∧ s'.pos = 0) ∧
    ((∀ n, read rt G (n + 3) (.to (.fold b!"bb")) (.new b!"a" Heap.empty) = .panic) ∧ (Scanner.new b!"a" Heap.empty).toFold rt b!"bb" = .ret (false, .new b!"a" Heap.empty)) ∧
    ((∃ e s', read rt G 9 (.to (.rune 98)) (.new [0xFF, 98] Heap.empty) = .ret (some e, s')) ∧ ∃ s', (Scanner.new [0xFF, 98] Heap.empty).toRune 98 = .ret (true, s') ∧ s'.pos = 1) :=
  ⟨⟨⟨_, rfl⟩, rfl⟩, ⟨zom_fffd rt G, _, rfl⟩, ⟨⟨_, _, rfl⟩, _, _, rfl, rfl⟩, ⟨⟨_, rfl, rfl⟩, rfl⟩, ⟨⟨_, rfl, rfl⟩, rfl⟩, ⟨⟨_, _, rfl⟩, _, rfl, rfl⟩,
    ⟨fun n => rfl, rfl⟩, ⟨_, _, rfl⟩, _, rfl, rfl⟩

/-- In `aé=b` both find the `é`, at place 1. -/
example (rt : Rt) : ∃ ok s1 N, (Scanner.new b!"aé=b" Heap.empty).to b!"é" = .ret (ok, s1) ∧ ∀ n ≥ N, ∃ e s2,
    read rt [] n (.to (.lit b!"é")) (Scanner.new b!"aé=b" Heap.empty) = .ret (e, s2) ∧ (e = none ↔ ok = true) ∧ s2.pos = s1.pos ∧ s2.full = s1.full :=
  (C105_to_partial rt []).1 ['é'] _ [] ['a', 'é', '=', 'b'] ⟨rfl, rfl⟩

example : ∃ s1, (Scanner.new b!"aé=b" Heap.empty).to b!"é" = .ret (true, s1) ∧ s1.pos = 1 := ⟨_, rfl, rfl⟩

example (rt : Rt) : ∃ s1, read rt [] 6 (.to (.lit b!"é")) (Scanner.new b!"aé=b" Heap.empty) = .ret (none, s1) ∧ s1.pos = 1 := ⟨_, rfl, rfl⟩

example (rt : Rt) : ∃ s1, read rt [] 9 (.past (.between 61 61)) (Scanner.new b!"aé=b" Heap.empty) = .ret (none, s1) ∧ s1.pos = 4 := ⟨_, rfl, rfl⟩

example (rt : Rt) : ∃ s1, read rt [] 9 (.zom (.between 97 0xFF)) (Scanner.new b!"aé=b" Heap.empty) = .ret (none, s1) ∧ s1.pos = 3 := ⟨_, rfl, rfl⟩

end Tok
