/-
C104: scanning backward is scanning forward in the mirror.
-/
import Verif.Props.C06
import Verif.Props.C07
import Verif.Props.C08
import Verif.Props.C09
import Verif.Props.C11
import Verif.Props.C12
import Verif.Props.C13
import Verif.Props.C14
import Verif.Props.C16
import Verif.Proofs.Tidy

namespace Tok
namespace Spec

/-- Two scanners that face each other: one stands behind `as` and before `bs`, the other stands in the text of the same characters in
reverse order, with what the first one has behind it ahead. -/
def Facing (s s' : Scanner) (as bs : List Char) : Prop :=
  Between s (encText as) (encText bs) ∧ Between s' (encText bs.reverse) (encText as.reverse)

/-- In any text without U+FFFD the two calls do the same, seen in the mirror: they report the same, and face each other again. -/
def Mirror (f g : Call) : Prop := ∀ (as bs : List Char) (s s' : Scanner), (∀ c ∈ as ++ bs, c ≠ '�') → Facing s s' as bs →
  ∃ ok t t' as' bs', f s = .ret (ok, t) ∧ g s' = .ret (ok, t') ∧ as' ++ bs' = as ++ bs ∧ Facing t t' as' bs'

end Spec
open Spec

/-- The mirror works both ways. -/
theorem C104_symm {f g : Call} (h : Mirror f g) : Mirror g f := by
  intro as bs s s' hc hf
  obtain ⟨ok, t, t', as', bs', h1, h2, h3, h4, h5⟩ := h bs.reverse as.reverse s' s (fun c hcm => hc c (by simp at hcm ⊢; tauto))
    ⟨hf.2, by simpa using hf.1⟩
  refine ⟨ok, t', t, bs'.reverse, as'.reverse, h2, h1, ?_, h5, ?_⟩
  · rw [← List.reverse_append, h3, List.reverse_append]
    simp
  · simpa using h4

/-- Calls one after the other, the second chosen by what the first reports. -/
theorem C104_then {f g : Call} {k l : Bool → Call} (h : Mirror f g) (hk : ∀ ok, Mirror (k ok) (l ok)) :
    Mirror (fun s => do let (ok, s) ← f s; k ok s) (fun s => do let (ok, s) ← g s; l ok s) := by
  intro as bs s s' hc hf
  obtain ⟨ok, t, t', as', bs', h1, h2, h3, h4⟩ := h as bs s s' hc hf
  obtain ⟨ok1, u, u', as1, bs1, h5, h6, h7, h8⟩ := hk ok as' bs' t t' (by rw [h3]; exact hc) h4
  refine ⟨ok1, u, u', as1, bs1, ?_, ?_, h7.trans h3, h8⟩
  · simp only [h1, Exec.bind_ret]
    exact h5
  · simp only [h2, Exec.bind_ret]
    exact h6

/-- The pieces of characters. -/
def charPieces (cs : List Char) : List (Bytes × Int) := cs.map fun c => (enc c, (c.toNat : Int))

theorem bytesOf_charPieces (cs : List Char) : bytesOf (charPieces cs) = encText cs := by
  simp [charPieces, bytesOf, encText, List.flatMap_map]

theorem bytesOfBack_charPieces (cs : List Char) : bytesOfBack (charPieces cs.reverse) = encText cs := bytesOfBack_chars cs

/-- A list and its first element of a kind. -/
theorem first_of {α : Type} (q : α → Prop) (l : List α) : (∀ x ∈ l, ¬ q x) ∨ ∃ pre x post, l = pre ++ x :: post ∧ (∀ y ∈ pre, ¬ q y) ∧ q x := by
  induction l with
  | nil => exact .inl (by simp)
  | cons a l ih =>
    by_cases ha : q a
    · exact .inr ⟨[], a, l, rfl, by simp, ha⟩
    rcases ih with h | ⟨pre, x, post, rfl, h1, h2⟩
    · exact .inl (by simpa [ha] using h)
    · exact .inr ⟨a :: pre, x, post, rfl, by simpa [ha] using h1, h2⟩

/-- A list and its longest run of elements of a kind. -/
theorem run_of {α : Type} (q : α → Prop) (l : List α) : ∃ pre post, l = pre ++ post ∧ (∀ y ∈ pre, q y) ∧ ∀ x m, post = x :: m → ¬ q x := by
  rcases first_of (fun x => ¬ q x) l with h | ⟨pre, x, post, rfl, h1, h2⟩
  · exact ⟨l, [], by simp, by simpa using h, by simp⟩
  · exact ⟨pre, x :: post, rfl, by simpa using h1, by rintro _ _ ⟨⟩; exact h2⟩

theorem clean_ne {c : Char} (h : c ≠ '�') : (c.toNat : Int) ≠ 0xFFFD := fun e => h (char_ext (Int.ofNat.inj e))

/-- Reading one rune. -/
theorem mirror_one {f g : Call} {q : Int → Prop} (hf : ∀ s, s.pos ≠ 0 → BackOverOne f q s) (hg : ∀ s, s.pos ≠ s.full.length → OverOne g q s)
    (h0 : ∀ bs s s', Facing s s' [] bs → ∃ ok t t', f s = .ret (ok, t) ∧ g s' = .ret (ok, t') ∧ Facing t t' [] bs) : Mirror f g := by
  intro as bs s s' _ hfa
  rcases List.eq_nil_or_concat as with rfl | ⟨as, c, rfl⟩
  · obtain ⟨ok, t, t', h1, h2, h3⟩ := h0 bs s s' hfa
    exact ⟨ok, t, t', [], bs, h1, h2, rfl, h3⟩
  · rw [List.concat_eq_append] at *
    obtain ⟨h1, h2⟩ := hfa
    have hne := List.length_pos_iff.mpr (enc_ne_nil c)
    rw [List.reverse_append, List.reverse_singleton, List.singleton_append, encText_cons] at h2
    have h1' := h1
    rw [encText_append, encText_singleton] at h1'
    obtain ⟨f1, f2⟩ := hf s (by rw [h1'.2, List.length_append]; omega) _ _ h1'
    obtain ⟨g1, g2⟩ := hg s' (by rw [h2.2, h2.1, List.length_append, List.length_append]; omega) _ _ h2
    by_cases hq : q c.toNat
    · obtain ⟨t, e1, e2⟩ := f1 _ _ _ (.char c _) rfl hq
      obtain ⟨t', e3, e4⟩ := g1 _ _ _ (.char c _) rfl hq
      refine ⟨true, t, t', as, c :: bs, e1, e3, by simp, ?_, ?_⟩
      · simpa [encText_cons] using e2.1
      · simpa [encText_append, encText_singleton] using e4.1
    · refine ⟨false, s, s', as ++ [c], bs, f2 ?_, g2 ?_, rfl, h1, ?_⟩
      · intro r p hs
        have e := (backStep_iff.mp hs).2.1.symm.trans (backStep_iff.mp (BackStep.char c (encText as))).2.1
        rw [show r = c.toNat from congrArg Prod.fst e]
        exact hq
      · intro r p hs
        have e := (step_iff.mp hs).2.1.symm.trans (step_iff.mp (Step.char c (encText as.reverse))).2.1
        rw [show r = c.toNat from congrArg Prod.fst e]
        exact hq
      · simpa [encText_cons] using h2

/-- Searching a rune. -/
theorem mirror_to {f g : Call} {q : Int → Prop} (hf : ∀ s, BackToLastUpTo f q s) (hg : ∀ s, ToFirst g q s) : Mirror f g := by
  intro as bs s s' hc hfa
  have hcl : ∀ x ∈ charPieces as.reverse, x.2 ≠ 0xFFFD := by
    intro x hx
    obtain ⟨c, hcm, rfl⟩ := List.mem_map.mp hx
    exact clean_ne (hc c (by simp at hcm ⊢; tauto))
  obtain ⟨f1, f2⟩ := hf s _ _ (charPieces as.reverse) hfa.1 (backPieces_encText as) (fun pre x post he _ => hcl x (by rw [he]; simp))
  obtain ⟨g1, g2⟩ := hg s' _ _ (charPieces as.reverse) hfa.2 (pieces_encText as.reverse)
  rcases first_of (fun c : Char => q c.toNat) as.reverse with h | ⟨pre, c, post, he, h1, h2⟩
  · have hno : ∀ x ∈ charPieces as.reverse, ¬ q x.2 := by
      intro x hx
      obtain ⟨c, hcm, rfl⟩ := List.mem_map.mp hx
      exact h c hcm
    exact ⟨false, s, s', as, bs, f2 hno, g2 hno, rfl, hfa⟩
  · have he' : charPieces as.reverse = charPieces pre ++ (enc c, (c.toNat : Int)) :: charPieces post := by rw [he]; simp [charPieces]
    have hno : ∀ y ∈ charPieces pre, ¬ q y.2 := by
      intro x hx
      obtain ⟨c, hcm, rfl⟩ := List.mem_map.mp hx
      exact h1 c hcm
    obtain ⟨t, e1, e2⟩ := f1 _ _ _ he' hno h2
    obtain ⟨t', e3, e4⟩ := g1 _ _ _ he' hno h2
    have hcs : (enc c, (c.toNat : Int)) :: charPieces post = charPieces (c :: post) := rfl
    have has : as = (c :: post).reverse ++ pre.reverse := by
      have := congrArg List.reverse he
      simpa using this
    refine ⟨true, t, t', (c :: post).reverse, pre.reverse ++ bs, e1, e3, by rw [has]; simp, ?_, ?_⟩
    · have := e2.1
      rw [hcs, ← List.reverse_reverse (c :: post), bytesOfBack_charPieces, ← List.reverse_reverse pre, bytesOfBack_charPieces] at this
      rw [encText_append]
      simpa using this
    · have := e4.1
      rw [hcs, bytesOf_charPieces, bytesOf_charPieces, ← encText_append] at this
      simpa using this

/-- Skipping runes, when the calls tell whether there was something to skip. -/
theorem mirror_while {f g : Call} {q : Int → Bool} (hf : ∀ s, f s = s.revWhile q)
    (hg : ∀ s h t pre post, Between s h t → Pieces t (pre ++ post) → Run (fun v => q v = true) pre post →
      ∃ s', g s = .ret (!t.isEmpty, s') ∧ Reaches s s' (h ++ bytesOf pre) (bytesOf post)) : Mirror f g := by
  intro as bs s s' hc hfa
  obtain ⟨pre, post, he, h1, h2⟩ := run_of (fun c : Char => q c.toNat = true) as.reverse
  have he' : charPieces as.reverse = charPieces pre ++ charPieces post := by rw [he]; simp [charPieces]
  have has : as = post.reverse ++ pre.reverse := by
    have := congrArg List.reverse he
    simpa using this
  have hpre : ∀ y ∈ charPieces pre, q y.2 = true := by
    intro x hx
    obtain ⟨c, hcm, rfl⟩ := List.mem_map.mp hx
    exact h1 c hcm
  have hpost : ∀ x l, charPieces post = x :: l → ¬ q x.2 = true := by
    intro x l hx
    obtain ⟨c, m, h3, rfl, -⟩ := List.map_eq_cons_iff.mp hx
    exact h2 c m h3
  obtain ⟨t, e1, e2⟩ := revWhile_of (q := q) (pre := charPieces pre) (post := charPieces post) hfa.1 (he' ▸ backPieces_encText as)
    (fun y hy => ⟨hpre y hy, by
      obtain ⟨c, hcm, rfl⟩ := List.mem_map.mp hy
      exact clean_ne (hc c (by rw [has]; simp; tauto))⟩)
    (fun x l hx => .inl (by simpa using hpost x l hx))
  obtain ⟨t', e3, e4⟩ := hg s' _ _ (charPieces pre) (charPieces post) hfa.2 (he' ▸ pieces_encText as.reverse) ⟨hpre, hpost⟩
  have hemp : (encText as.reverse).isEmpty = (encText as).isEmpty := by
    rcases List.eq_nil_or_concat as with rfl | ⟨as, c, rfl⟩
    · rfl
    · rw [List.concat_eq_append, List.reverse_append, List.reverse_singleton, List.singleton_append, encText_cons, encText_append, encText_singleton]
      obtain ⟨b, u, hb⟩ := List.exists_cons_of_ne_nil (enc_ne_nil c)
      rw [hb]
      cases encText as <;> rfl
  rw [hemp] at e3
  refine ⟨_, t, t', post.reverse, pre.reverse ++ bs, (hf s).trans e1, e3, by rw [has]; simp, ?_, ?_⟩
  · have := e2.1
    rw [← List.reverse_reverse post, bytesOfBack_charPieces, ← List.reverse_reverse pre, bytesOfBack_charPieces] at this
    rw [encText_append]
    simpa using this
  · have := e4.1
    rw [bytesOf_charPieces, bytesOf_charPieces, ← encText_append] at this
    simpa using this

/-- The ends of a text of characters that are a text of characters. -/
theorem encText_split_back {ds cs : List Char} {x : Bytes} (h : encText cs = x ++ encText ds) : ∃ vs, cs = vs ++ ds ∧ x = encText vs := by
  cases ds with
  | nil => exact ⟨cs, by simp, by simpa [encText_nil] using h.symm⟩
  | cons d ds =>
    rw [encText_cons] at h
    obtain ⟨p1, p2, h1, h2⟩ := pieces_of_infix (pieces_encText cs) h
    obtain ⟨c1, c2, rfl, h4, h5⟩ := List.map_eq_append_iff.mp h1
    have hx : x = encText c1 := by rw [← h2, ← h4]; exact bytesOf_charPieces c1
    refine ⟨c1, ?_, hx⟩
    rw [encText_append, hx] at h
    rw [encText_inj (cs := c2) (ds := d :: ds) (by rw [encText_cons]; exact List.append_cancel_left h)]

theorem suffix_encText {ds cs : List Char} : encText ds <:+ encText cs ↔ ds <:+ cs := by
  constructor
  · rintro ⟨x, hx⟩
    obtain ⟨vs, rfl, -⟩ := encText_split_back hx.symm
    exact ⟨vs, rfl⟩
  · rintro ⟨x, rfl⟩
    exact ⟨encText x, (encText_append _ _).symm⟩

theorem prefix_encText {ds cs : List Char} : encText ds <+: encText cs ↔ ds <+: cs := by
  constructor
  · rintro ⟨x, hx⟩
    obtain ⟨vs, rfl, -⟩ := encText_split hx.symm
    exact ⟨vs, rfl⟩
  · rintro ⟨x, rfl⟩
    exact ⟨encText x, (encText_append _ _).symm⟩

/-- Reading a literal, and reading its mirror image. -/
theorem mirror_if (ds : List Char) : Mirror (fun s => s.revIf (encText ds)) (fun s => s.ifStr (encText ds.reverse)) := by
  intro as bs s s' _ hfa
  by_cases h : ds <:+ as
  · obtain ⟨cs, rfl⟩ := h
    obtain ⟨h1, h2⟩ := hfa
    have h2' := h2
    rw [encText_append] at h1
    rw [List.reverse_append, encText_append] at h2'
    obtain ⟨t, e1, e2⟩ := C11_revIf_match s _ _ _ h1
    obtain ⟨t', e3, e4⟩ := C05_if_match s' _ _ _ h2'
    refine ⟨true, t, t', cs, ds ++ bs, e1, e3, by simp, ?_, ?_⟩
    · rw [encText_append]; exact e2.1
    · rw [List.reverse_append, encText_append]; exact e4.1
  · exact ⟨false, s, s', as, bs, C11_revIf_nomatch s _ _ _ hfa.1 (suffix_encText.not.mpr h),
      C05_if_nomatch s' _ _ _ hfa.2 (prefix_encText.not.mpr (List.reverse_prefix.not.mpr h)), rfl, hfa⟩

theorem mirror_ifAny (dss : List (List Char)) :
    Mirror (fun s => s.revIfAny (dss.map encText)) (fun s => s.ifAny (dss.map fun ds => encText ds.reverse)) := by
  induction dss with
  | nil => exact fun as bs s s' _ hfa => ⟨false, s, s', as, bs, rfl, rfl, rfl, hfa⟩
  | cons ds dss ih =>
    have h := C104_then (mirror_if ds) (k := fun ok s => if ok then pure (true, s) else s.revIfAny (dss.map encText))
      (l := fun ok s => if ok then pure (true, s) else s.ifAny (dss.map fun ds => encText ds.reverse)) (by
        rintro (_ | _)
        · simpa using ih
        · exact fun as bs s s' _ hfa => ⟨true, s, s', as, bs, rfl, rfl, rfl, hfa⟩)
    exact h

theorem infix_encText {ds cs : List Char} (hd : ds ≠ []) {a b : Bytes} (h : encText cs = a ++ encText ds ++ b) :
    ∃ as bs, cs = as ++ ds ++ bs ∧ a = encText as ∧ b = encText bs := by
  obtain ⟨d, ds, rfl⟩ := List.exists_cons_of_ne_nil hd
  rw [encText_cons, List.append_assoc, List.append_assoc] at h
  obtain ⟨p1, p2, h1, h2⟩ := pieces_of_infix (pieces_encText cs) h
  obtain ⟨c1, c2, rfl, h4, h5⟩ := List.map_eq_append_iff.mp h1
  have hx : a = encText c1 := by rw [← h2, ← h4]; exact bytesOf_charPieces c1
  rw [encText_append, hx] at h
  have h := List.append_cancel_left h
  rw [← List.append_assoc, ← encText_cons] at h
  obtain ⟨bs, rfl, rfl⟩ := encText_split h
  exact ⟨c1, bs, by simp, hx, rfl⟩

theorem encText_rev_length (cs : List Char) : (encText cs.reverse).length = (encText cs).length := by
  induction cs with
  | nil => rfl
  | cons c cs ih =>
    rw [List.reverse_cons, encText_append, encText_singleton, encText_cons, List.length_append, List.length_append, ih]
    omega

/-- A list and the first place where another one stands in it. -/
theorem first_infix {α : Type} (d l : List α) : ¬ d <:+: l ∨ ∃ p q, l = p ++ d ++ q ∧ ∀ a b, l = a ++ d ++ b → p.length ≤ a.length := by
  induction l with
  | nil =>
    by_cases h : d = []
    · exact .inr ⟨[], [], by simp [h], fun _ _ _ => by simp⟩
    · exact .inl (by simpa using h)
  | cons x l ih =>
    by_cases h : d <+: x :: l
    · obtain ⟨q, hq⟩ := h
      exact .inr ⟨[], q, hq.symm, fun _ _ _ => by simp⟩
    rcases ih with h1 | ⟨p, q, h1, h2⟩
    · left
      rw [List.infix_cons_iff]
      tauto
    · refine .inr ⟨x :: p, q, by rw [h1]; simp, fun a b he => ?_⟩
      cases a with
      | nil => exact absurd ⟨b, he.symm⟩ h
      | cons y a =>
        simp only [List.cons_append, List.cons.injEq] at he
        have := h2 a b he.2
        simp only [List.length_cons]
        omega

theorem encText_le {p a : List Char} {l : List Char} (hp : p <+: l) (ha : a <+: l) (h : p.length ≤ a.length) : (encText p).length ≤ (encText a).length := by
  obtain ⟨x, rfl⟩ := List.prefix_of_prefix_length_le hp ha h
  rw [encText_append, List.length_append]
  omega

/-- Searching a literal, and its mirror image. -/
theorem mirror_toStr (ds : List Char) (hd : ds ≠ []) : Mirror (fun s => s.revTo (encText ds)) (fun s => s.to (encText ds.reverse)) := by
  intro as bs s s' hc hfa
  have hca : ∀ c ∈ as, c.toNat ≠ 0xFFFD := fun c hcm e => hc c (by simp [hcm]) (char_ext e)
  have hdr : ds.reverse ≠ [] := by simpa using hd
  rcases first_infix ds.reverse as.reverse with h | ⟨p, q, h1, h2⟩
  · refine ⟨false, s, s', as, bs, C11_revTo_nomatch_partial s _ _ as hca hfa.1 ?_, C05_to_nomatch s' _ _ _ hfa.2 ?_, rfl, hfa⟩
    · rintro ⟨a, b, e⟩
      obtain ⟨a', b', rfl, -, -⟩ := infix_encText hd e.symm
      exact h ⟨b'.reverse, a'.reverse, by simp⟩
    · rintro ⟨a, b, e⟩
      obtain ⟨a', b', e', -, -⟩ := infix_encText hdr e.symm
      exact h ⟨a', b', e'.symm⟩
  · have has : as = q.reverse ++ ds ++ p.reverse := by
      have := congrArg List.reverse h1
      simpa using this
    obtain ⟨t, e1, e2⟩ := C11_revTo_match_partial s (encText bs) as ds (encText q.reverse) (encText p.reverse) hca hd hfa.1
      (by rw [has, encText_append, encText_append]) (by
        intro a b e
        obtain ⟨a', b', e', rfl, rfl⟩ := infix_encText hd e
        have hr : as.reverse = b'.reverse ++ ds.reverse ++ a'.reverse := by rw [e']; simp
        have hl := h2 _ _ hr
        have := encText_le (l := as.reverse) (p := p) (a := b'.reverse) ⟨ds.reverse ++ q, by rw [h1]; simp⟩ ⟨ds.reverse ++ a'.reverse, by rw [hr]; simp⟩ hl
        rwa [encText_rev_length b', ← encText_rev_length p] at this)
    have hb' := hfa.2
    rw [h1, encText_append, encText_append] at hb'
    obtain ⟨t', e3, e4⟩ := C05_to_match s' _ (encText p) (encText ds.reverse) (encText q) hb' (by
        intro a b e
        rw [← encText_append, ← encText_append, ← h1] at e
        obtain ⟨a', b', e', rfl, rfl⟩ := infix_encText hdr e
        exact encText_le (l := as.reverse) ⟨ds.reverse ++ q, by rw [h1]; simp⟩ ⟨ds.reverse ++ b', by rw [e']; simp⟩ (h2 _ _ e'))
    refine ⟨true, t, t', q.reverse ++ ds, p.reverse ++ bs, e1, e3, by rw [has]; simp, ?_, ?_⟩
    · rw [encText_append, encText_append]; exact e2.1
    · simpa [encText_append] using e4.1

/-- At the ends of the texts, which no rune is read from. -/
theorem mirror_start {f g : Call} (q : Prop) (hf : ∀ s t, Between s [] t → ∃ b s', f s = .ret (b, s') ∧ Between s' [] t ∧ (b = true ↔ q))
    (hg : ∀ s h, Between s h [] → ∃ b s', g s = .ret (b, s') ∧ Between s' h [] ∧ (b = true ↔ q)) :
    ∀ bs s s', Facing s s' [] bs → ∃ ok t t', f s = .ret (ok, t) ∧ g s' = .ret (ok, t') ∧ Facing t t' [] bs := by
  rintro bs s s' ⟨h1, h2⟩
  obtain ⟨b, t, e1, e2, e3⟩ := hf s _ h1
  obtain ⟨b', t', e4, e5, e6⟩ := hg s' _ h2
  obtain rfl : b = b' := Bool.eq_iff_iff.mpr (e3.trans e6.symm)
  exact ⟨b, t, t', e1, e4, e2, e5⟩

theorem mirror_rune (r : Int) : Mirror (fun s => s.revIfRune r) (fun s => s.ifRune r) := by
  refine mirror_one (fun s h => C12_revIfRune_partial s r (.inr h)) (fun s h => C06_ifRune_partial s r (.inr h))
    (mirror_start (r = 0xFFFD) (fun s t hb => (C12_start_exact s t hb).1 r) (fun s h hb => ?_))
  by_cases hr : r = 0xFFFD
  · subst hr
    obtain ⟨s', h1⟩ : ∃ s', s.move ((decodeRune []).2 : Int) = (true, s') ∧ Reaches s s' h [] := by
      have hb' : Between s h ([] ++ []) := hb
      obtain ⟨s', h1, h2⟩ := move_fwd hb'
      exact ⟨s', h1, by simpa using h2⟩
    exact ⟨true, s', by rw [ifRune_eq hb, if_pos (show (decodeRune []).1 = 0xFFFD from rfl), h1.1], h1.2.1, by simp⟩
  · exact ⟨false, s, by rw [ifRune_eq hb, if_neg (fun e => hr (e.symm.trans rfl))], hb, by simpa using hr⟩

/-- `IfAnyRune` at the end of the text. -/
theorem ifAnyRune_end (str : Bytes) (s : Scanner) (h : Bytes) (hb : Between s h []) :
    ∃ b s', s.ifAnyRune str = .ret (b, s') ∧ Between s' h [] ∧ (b = true ↔ RuneIn str 0xFFFD) := by
  have key : ∀ rs : List Int, ∃ b s', s.ifAnyRuneLoop rs = .ret (b, s') ∧ Between s' h [] ∧ (b = true ↔ 0xFFFD ∈ rs) := by
    intro rs
    induction rs with
    | nil => exact ⟨false, s, rfl, hb, by simp⟩
    | cons r rs ih =>
      simp only [Scanner.ifAnyRuneLoop]
      rw [ifRune_eq hb]
      have hb' : Between s h ([] ++ []) := hb
      obtain ⟨s', h1, h2⟩ := move_fwd hb'
      by_cases hr : (decodeRune []).1 = r
      · rw [if_pos hr, show s.move ((decodeRune []).2 : Int) = (true, s') from h1]
        exact ⟨true, s', rfl, by simpa using h2.1, by simp [← hr]; exact .inl rfl⟩
      · rw [if_neg hr]
        obtain ⟨b, s1, e1, e2, e3⟩ := ih
        refine ⟨b, s1, by simpa using e1, e2, e3.trans ?_⟩
        have : (0xFFFD : Int) ≠ r := hr
        simp [this]
  obtain ⟨b, s', h1, h2, h3⟩ := key (runesOf str)
  exact ⟨b, s', h1, h2, h3.trans (runeIn_iff str _).symm⟩

theorem mirror_anyRune (str : Bytes) : Mirror (fun s => s.revIfAnyRune str) (fun s => s.ifAnyRune str) :=
  mirror_one (fun s h => C12_revIfAnyRune_partial s str (.inr h)) (fun s h => C07_ifAnyRune_partial s str (.inr h))
    (mirror_start _ (fun s t hb => (C12_start_exact s t hb).2.1 str) (ifAnyRune_end str))

theorem mirror_moveRunes (n : Int) : Mirror (fun s => s.moveRunes (-n)) (fun s => s.moveRunes n) := by
  have main : ∀ n : Int, 0 < n → Mirror (fun s => s.moveRunes (-n)) (fun s => s.moveRunes n) := by
    intro n hn as bs s s' hc hfa
    by_cases h : (as.length : Int) < n
    · exact ⟨false, s, s', as, bs, C16_backward_short s _ as n hfa.1 h, C16_forward_short s' _ _ n hfa.2 (by simpa using h), rfl, hfa⟩
    obtain ⟨k, rfl⟩ := Int.eq_ofNat_of_zero_le (a := n) (by omega)
    have hsp : as = as.take (as.length - k) ++ as.drop (as.length - k) := (List.take_append_drop _ _).symm
    have hlen : (as.drop (as.length - k)).length = k := by
      rw [List.length_drop]
      omega
    generalize as.take (as.length - k) = us at hsp
    generalize as.drop (as.length - k) = vs at hsp hlen
    subst hsp hlen
    have hne : vs ≠ [] := by
      rintro rfl
      simp at hn
    have h1 := hfa.1
    have h2 := hfa.2
    rw [encText_append] at h1
    rw [List.reverse_append, encText_append] at h2
    obtain ⟨t, e1, e2⟩ := C16_backward_partial s _ us vs h1 hne (fun c hcm e => hc c (by simp [hcm]) (char_ext e))
    obtain ⟨t', e3, e4⟩ := C16_forward s' _ vs.reverse us.reverse h2 (by simpa using hne)
    rw [List.length_reverse] at e3
    refine ⟨true, t, t', us, vs ++ bs, e1, e3, by simp, ?_, ?_⟩
    · rw [encText_append]; exact e2.1
    · rw [List.reverse_append, encText_append]; exact e4.1
  rcases (by omega : n < 0 ∨ n = 0 ∨ 0 < n) with h | rfl | h
  · have := C104_symm (main (-n) (by omega))
    simpa using this
  · exact fun as bs s s' _ hfa => ⟨true, s, s', as, bs, rfl, rfl, rfl, hfa⟩
  · exact main n h

theorem mirror_ends : Mirror (fun s => pure s.toStart) (fun s => pure s.toEnd) := by
  intro as bs s s' _ hfa
  obtain ⟨t, e1, e2⟩ := toMarker_to (s := s) (h := []) (t := encText (as ++ bs)) (m := 0) (by rw [hfa.1.1, encText_append]; rfl) rfl
  obtain ⟨t', e3, e4⟩ := toEnd_to hfa.2
  refine ⟨true, t, t', [], as ++ bs, ?_, ?_, rfl, e2.1, ?_⟩
  · show Exec.ret (s.toMarker 0) = _
    rw [e1]
  · show Exec.ret s'.toEnd = _
    rw [e3]
  · rw [List.reverse_append, encText_append]
    exact e4.1

theorem mirror_atEnds : Mirror (fun s => pure (s.atStart, s)) (fun s => pure (s.atEnd, s)) := by
  intro as bs s s' _ hfa
  have h : s.atStart = s'.atEnd := by
    unfold Scanner.atStart Scanner.atEnd
    rw [hfa.1.2, hfa.2.1, hfa.2.2, List.length_append, encText_rev_length as, decide_eq_decide]
    omega
  exact ⟨s.atStart, s, s', as, bs, rfl, by rw [h]; rfl, rfl, hfa⟩

/-- **C104**: backward calls do in the mirror what forward calls do: they report the same and move to the mirrored place, in every text without
U+FFFD, from every place.  Literals are read in the mirror as well; `ds` are the characters of a literal.

Missing for the full claim: `RevIfBetween`, `RevIfMatch`, `RevWhileAnyRune`, `RevWhileMatch`, `RevIfFold` and `RevToFold`, the empty literal of
`RevTo`, and texts with U+FFFD, where it is false (`C104_violated`); malformed texts, which have no mirror. -/
theorem C104_mirror_partial :
    (∀ ds, Mirror (fun s => s.revIf (encText ds)) (fun s => s.ifStr (encText ds.reverse))) ∧
    (∀ dss : List (List Char), Mirror (fun s => s.revIfAny (dss.map encText)) (fun s => s.ifAny (dss.map fun ds => encText ds.reverse))) ∧
    (∀ ds, ds ≠ [] → Mirror (fun s => s.revTo (encText ds)) (fun s => s.to (encText ds.reverse))) ∧
    (∀ r, Mirror (fun s => s.revIfRune r) (fun s => s.ifRune r)) ∧
    (∀ r, Mirror (fun s => s.revToRune r) (fun s => s.toRune r)) ∧
    (∀ r, Mirror (fun s => s.revWhileRune r) (fun s => s.whileRune r)) ∧
    (∀ str, Mirror (fun s => s.revIfAnyRune str) (fun s => s.ifAnyRune str)) ∧
    (∀ str, Mirror (fun s => s.revToAnyRune str) (fun s => s.toAnyRune str)) ∧
    (∀ min max, Mirror (fun s => s.revToBetween min max) (fun s => s.toBetween min max)) ∧
    (∀ min max, Mirror (fun s => s.revWhileBetween min max) (fun s => s.whileBetween min max)) ∧
    (∀ q, Mirror (fun s => s.revToMatch q) (fun s => s.toMatch q)) ∧
    (∀ n, Mirror (fun s => s.moveRunes (-n)) (fun s => s.moveRunes n)) ∧
    Mirror (fun s => pure s.toStart) (fun s => pure s.toEnd) ∧
    Mirror (fun s => pure (s.atStart, s)) (fun s => pure (s.atEnd, s)) := by
  refine ⟨mirror_if, mirror_ifAny, mirror_toStr, mirror_rune, fun r => mirror_to (fun s => C13_revToRune_partial s r) (fun s => C06_toRune s r), fun r => ?_,
    mirror_anyRune, fun str => mirror_to (fun s => C13_revToAnyRune_partial s str) (fun s => C07_toAnyRune s str),
    fun min max => mirror_to (fun s => C13_revToBetween_partial s min max) (fun s => C08_toBetween s min max), fun min max => ?_,
    fun q => mirror_to (fun s => C13_revToMatch_partial s q) (fun s => C09_toMatch s q), mirror_moveRunes, mirror_ends, mirror_atEnds⟩
  · exact mirror_while (q := fun v => v == r) (fun s => rfl) (fun s h t pre post hb hp hr => C06_whileRune_exact s r h t pre post hb hp (by simpa [Run] using hr))
  · exact mirror_while (q := fun v => Scanner.inRange min v max) (fun s => rfl)
      (fun s h t pre post hb hp hr => C08_whileBetween_exact s min max h t pre post hb hp (by simpa [Run, inRange_iff] using hr))

/-- The places that runs end at are mirrored; what is reported may differ. -/
theorem mirror_run {f g : Call} {q : Int → Prop} {as bs : List Char} {s s' : Scanner} (hc : ∀ c ∈ as ++ bs, c ≠ '�') (hfa : Facing s s' as bs)
    (hf : BackOverCleanRun f q s) (hg : OverRun g q s') :
    ∃ ok ok' t t' as' bs', f s = .ret (ok, t) ∧ g s' = .ret (ok', t') ∧ as' ++ bs' = as ++ bs ∧ Facing t t' as' bs' := by
  obtain ⟨pre, post, he, h1, h2⟩ := run_of (fun c : Char => q c.toNat) as.reverse
  have he' : charPieces as.reverse = charPieces pre ++ charPieces post := by rw [he]; simp [charPieces]
  have has : as = post.reverse ++ pre.reverse := by
    have := congrArg List.reverse he
    simpa using this
  have hrun : Run q (charPieces pre) (charPieces post) := by
    refine ⟨fun x hx => ?_, fun x l hx => ?_⟩
    · obtain ⟨c, hcm, rfl⟩ := List.mem_map.mp hx
      exact h1 c hcm
    · obtain ⟨c, m, h3, rfl, -⟩ := List.map_eq_cons_iff.mp hx
      exact h2 c m h3
  obtain ⟨b, t, e1, e2⟩ := hf _ _ (charPieces pre) (charPieces post) hfa.1 (he' ▸ backPieces_encText as) hrun (fun y hy => by
    obtain ⟨c, hcm, rfl⟩ := List.mem_map.mp hy
    exact clean_ne (hc c (by rw [has]; simp; tauto)))
  obtain ⟨b', t', e3, e4⟩ := hg _ _ (charPieces pre) (charPieces post) hfa.2 (he' ▸ pieces_encText as.reverse) hrun
  refine ⟨b, b', t, t', post.reverse, pre.reverse ++ bs, e1, e3, by rw [has]; simp, ?_, ?_⟩
  · have := e2.1
    rw [← List.reverse_reverse post, bytesOfBack_charPieces, ← List.reverse_reverse pre, bytesOfBack_charPieces] at this
    rw [encText_append]
    simpa using this
  · have := e4.1
    rw [bytesOf_charPieces, bytesOf_charPieces, ← encText_append] at this
    simpa using this

/-- `RevWhileAnyRune` and `RevWhileMatch` move to the mirrored place if there is a character that ends the run.

Missing: what they report, and runs up to the end of the text, where it is false (`C104_violated`). -/
theorem C104_while_partial {as bs : List Char} {s s' : Scanner} (hc : ∀ c ∈ as ++ bs, c ≠ '�') (hfa : Facing s s' as bs) :
    (∀ str : Bytes, (as = [] ∨ ∃ c ∈ as, ¬ RuneIn str c.toNat) → ∃ ok ok' t t' as' bs', s.revWhileAnyRune str = .ret (ok, t) ∧
      s'.whileAnyRune str = .ret (ok', t') ∧ as' ++ bs' = as ++ bs ∧ Facing t t' as' bs') ∧
    (∀ q : Int → Bool, (as = [] ∨ ∃ c ∈ as, q c.toNat = false) → ∃ ok ok' t t' as' bs', s.revWhileMatch q = .ret (ok, t) ∧
      s'.whileMatch q = .ret (ok', t') ∧ as' ++ bs' = as ++ bs ∧ Facing t t' as' bs') := by
  have tail : ∀ {h t ps}, Between s' h t → Pieces t ps → ∀ P : Int → Prop, (as = [] ∨ ∃ c ∈ as, P c.toNat) → t = [] ∨ ∃ x ∈ ps, P x.2 := by
    intro h t ps hb hp P hP
    have e : h = encText bs.reverse ∧ t = encText as.reverse := by
      refine List.append_inj (hb.1.symm.trans hfa.2.1) ?_
      have h1 := hb.2
      have h2 := hfa.2.2
      omega
    obtain ⟨-, rfl⟩ := e
    rcases hP with rfl | ⟨c, hcm, hP⟩
    · exact .inl rfl
    · right
      rw [hp.unique (pieces_encText as.reverse)]
      exact ⟨_, List.mem_map.mpr ⟨c, by simpa using hcm, rfl⟩, hP⟩
  exact ⟨fun str h => mirror_run hc hfa (C14_revWhileAnyRune_partial s str) (C07_whileAnyRune_partial s' str (fun _ _ _ hb hp => tail hb hp (fun v => ¬ RuneIn str v) h)),
    fun q h => mirror_run hc hfa (C14_revWhileMatch_partial s q) (C09_whileMatch_partial s' q (fun _ _ _ hb hp => tail hb hp (fun v => q v = false) h))⟩

/-- The other backward calls are no mirror images of the forward ones.  On `a`, at the end and at the start: `RevIfBetween` and `RevIfMatch` do not read
the character that is asked for; `RevWhileAnyRune` and `RevWhileMatch` move over a run up to the end of the text and the forward calls do not, and
report success where there is no such rune and the forward calls do not; `RevTo` does not find the empty string in an empty text;
`RevIfFold` and `RevToFold` panic if the literal is longer than the text, as `IfFold` does too, but `ToFold` does not.  With U+FFFD behind it, `RevToRune` does not find `a`. -/
theorem C104_violated (rt : Rt) :
    ¬ Mirror (fun s => s.revIfBetween 97 97) (fun s => s.ifBetween 97 97) ∧
    ¬ Mirror (fun s => s.revIfMatch (· == 97)) (fun s => s.ifMatch (· == 97)) ∧
    ¬ Mirror (fun s => s.revWhileAnyRune b!"a") (fun s => s.whileAnyRune b!"a") ∧
    ¬ Mirror (fun s => s.revWhileAnyRune b!"b") (fun s => s.whileAnyRune b!"b") ∧
    ¬ Mirror (fun s => s.revWhileMatch (· == 97)) (fun s => s.whileMatch (· == 97)) ∧
    ¬ Mirror (fun s => s.revWhileMatch (· == 98)) (fun s => s.whileMatch (· == 98)) ∧
    ¬ Mirror (fun s => s.revTo []) (fun s => s.to []) ∧
    ¬ Mirror (fun s => s.revIfFold rt b!"bb") (fun s => s.ifFold rt b!"bb") ∧
    ¬ Mirror (fun s => s.revToFold rt b!"bb") (fun s => s.toFold rt b!"bb") ∧
    (∃ s t, Facing s t ['a', '�'] [] ∧ s.revToRune 97 = .ret (false, s) ∧ ∃ t', t.toRune 97 = .ret (true, t')) := by
  have no : ∀ {f g : Call} (x : Bytes) (cs : List Char), encText cs = x → encText cs.reverse = x → (∀ c ∈ cs, c ≠ '�') →
      (∀ ok t t', f (.newRev x Heap.empty) = .ret (ok, t) → g (.new x Heap.empty) = .ret (ok, t') → t.pos + t'.pos ≠ x.length) → ¬ Mirror f g := by
    intro f g x cs h1 h2 hc h h3
    obtain ⟨u, u1, u2⟩ := toEnd_to (s := .new x Heap.empty) (h := []) (t := x) ⟨rfl, rfl⟩
    have hu : Scanner.newRev x Heap.empty = u := congrArg Prod.snd u1
    obtain ⟨ok, t, t', as', bs', e1, e2, e3, e4⟩ := h3 cs [] (.newRev x Heap.empty) (.new x Heap.empty) (by simpa using hc)
      ⟨by rw [h1, hu]; exact u2.1, by rw [h2]; exact ⟨rfl, rfl⟩⟩
    refine h ok t t' e1 e2 ?_
    rw [e4.1.2, e4.2.2, encText_rev_length, ← Int.natCast_add, ← List.length_append, ← encText_append, e3, List.append_nil, h1]
  have a : ∀ {f g : Call}, (∀ ok t t', f (.newRev b!"a" Heap.empty) = .ret (ok, t) → g (.new b!"a" Heap.empty) = .ret (ok, t') → t.pos + t'.pos ≠ 1) →
      ¬ Mirror f g := fun h => no b!"a" ['a'] rfl rfl (by decide) h
  refine ⟨a ?_, a ?_, a ?_, a ?_, a ?_, a ?_, no [] [] rfl rfl (by simp) ?_, a ?_, a ?_, ?_⟩
  · intro ok t t' h1 h2; cases h1; cases h2
  · intro ok t t' h1 h2; cases h1; cases h2
  · intro ok t t' h1 h2; cases h1; cases h2; decide
  · intro ok t t' h1 h2; cases h1; cases h2
  · intro ok t t' h1 h2; cases h1; cases h2
  · intro ok t t' h1 h2; cases h1; cases h2
  · intro ok t t' h1 h2; cases h1; cases h2
  · intro ok t t' h1 h2; cases h1
  · intro ok t t' h1 h2; cases h1
  · exact ⟨.newRev b!"a�" Heap.empty, .new b!"�a" Heap.empty, ⟨⟨rfl, rfl⟩, rfl, rfl⟩, rfl, _, rfl⟩

/-- `xé|` and `|éx`: back over one character unless it is an `x`, and back to the `x`; and the mirror image of that. -/
example : Mirror (fun s => do let (ok, s) ← s.revIfRune 120; if ok then pure (true, s) else s.revToRune 120)
    (fun s => do let (ok, s) ← s.ifRune 120; if ok then pure (true, s) else s.toRune 120) :=
  C104_then (C104_mirror_partial.2.2.2.1 120) (k := fun ok s => if ok then pure (true, s) else s.revToRune 120)
    (l := fun ok s => if ok then pure (true, s) else s.toRune 120) (by
      rintro (_ | _)
      · simpa using C104_mirror_partial.2.2.2.2.1 120
      · exact fun as bs s s' _ hfa => ⟨true, s, s', as, bs, rfl, rfl, rfl, hfa⟩)

example : Facing (.newRev b!"xé" Heap.empty) (.new b!"éx" Heap.empty) ['x', 'é'] [] := ⟨⟨rfl, rfl⟩, rfl, rfl⟩

end Tok
