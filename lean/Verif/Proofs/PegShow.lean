/-
Parsing expressions do not tell a malformed byte from an encoded U+FFFD.
-/
import Verif.Proofs.PegChars

namespace Tok
open Spec PExp

section
variable {α : Type} {P : Nat → Option (PExp α)}

/-- The expression does not tell related symbols apart. -/
def Spec.PExp.Blind (R : α → α → Prop) : PExp α → Prop
  | .eps => True
  | .chr p => ∀ x y, R x y → p x = p y
  | .nt _ => True
  | .seq a b => a.Blind R ∧ b.Blind R
  | .alt a b => a.Blind R ∧ b.Blind R
  | .star a => a.Blind R
  | .neg a => a.Blind R
  | .find .. => False

/-- The same result on related strings. -/
def RelRes (R : α → α → Prop) : Option (List α) → Option (List α) → Prop
  | none, none => True
  | some xs, some ys => List.Forall₂ R xs ys
  | _, _ => False

theorem Peg.rel {R : α → α → Prop} (hP : ∀ i e, P i = some e → e.Blind R) {e : PExp α} {xs : List α} {r : Option (List α)} (h : Peg P e xs r) :
    ∀ {ys}, e.Blind R → List.Forall₂ R xs ys → ∃ r', Peg P e ys r' ∧ RelRes R r r' := by
  induction h with
  | eps => exact fun _ hs => ⟨_, .eps, hs⟩
  | chr h =>
    intro ys hb hs
    cases hs with
    | cons h1 h2 => exact ⟨_, .chr ((hb _ _ h1).symm.trans h), h2⟩
  | chrNo h =>
    intro ys hb hs
    cases hs with
    | cons h1 h2 => exact ⟨_, .chrNo ((hb _ _ h1).symm.trans h), trivial⟩
  | chrEnd =>
    intro ys hb hs
    cases hs
    exact ⟨_, .chrEnd, trivial⟩
  | nt h h1 ih =>
    intro ys _ hs
    obtain ⟨r', h2, h3⟩ := ih (hP _ _ h) hs
    exact ⟨r', .nt h h2, h3⟩
  | seq h1 h2 ih1 ih2 =>
    intro ys hb hs
    obtain ⟨_ | zs, h3, h4⟩ := ih1 hb.1 hs
    · exact h4.elim
    · obtain ⟨r', h5, h6⟩ := ih2 hb.2 h4
      exact ⟨r', .seq h3 h5, h6⟩
  | seqNo h1 ih =>
    intro ys hb hs
    obtain ⟨_ | zs, h3, h4⟩ := ih hb.1 hs
    · exact ⟨_, .seqNo h3, trivial⟩
    · exact h4.elim
  | alt h1 ih =>
    intro ys hb hs
    obtain ⟨_ | zs, h3, h4⟩ := ih hb.1 hs
    · exact h4.elim
    · exact ⟨_, .alt h3, h4⟩
  | altNo h1 h2 ih1 ih2 =>
    intro ys hb hs
    obtain ⟨_ | zs, h3, h4⟩ := ih1 hb.1 hs
    · obtain ⟨r', h5, h6⟩ := ih2 hb.2 hs
      exact ⟨r', .altNo h3 h5, h6⟩
    · exact h4.elim
  | star h1 h2 ih1 ih2 =>
    intro ys hb hs
    obtain ⟨_ | zs, h3, h4⟩ := ih1 hb hs
    · exact h4.elim
    · obtain ⟨r', h5, h6⟩ := ih2 hb h4
      exact ⟨r', .star h3 h5, h6⟩
  | starEnd h1 ih =>
    intro ys hb hs
    obtain ⟨_ | zs, h3, h4⟩ := ih hb hs
    · exact ⟨_, .starEnd h3, hs⟩
    · exact h4.elim
  | neg h1 ih =>
    intro ys hb hs
    obtain ⟨_ | zs, h3, h4⟩ := ih hb hs
    · exact ⟨_, .neg h3, hs⟩
    · exact h4.elim
  | negNo h1 ih =>
    intro ys hb hs
    obtain ⟨_ | zs, h3, h4⟩ := ih hb hs
    · exact h4.elim
    · exact ⟨_, .negNo h3, trivial⟩
  | findEnd => exact fun hb => hb.elim
  | find => exact fun hb => hb.elim
  | findNo => exact fun hb => hb.elim
  | findNext => exact fun hb => hb.elim

end

/-- A rune of a text and the same rune encoded. -/
def Shown (x y : Piece) : Prop := ∃ c : Char, y = (enc c, (c.toNat : Int)) ∧ (x = y ∨ c.toNat = 0xFFFD ∧ x.2 = 0xFFFD ∧ ∀ d, x.1 ≠ enc d)

theorem shown_of {t : Bytes} {zs : List Piece} (hp : Pieces t zs) : ∀ {cs : List Char}, zs.map (·.2) = cs.map (fun c => (c.toNat : Int)) →
    List.Forall₂ Shown zs (img cs) := by
  induction hp with
  | nil =>
    intro cs h
    cases cs with
    | nil => exact .nil
    | cons => simp at h
  | cons hs he ht ih =>
    intro cs h
    cases cs with
    | nil => simp at h
    | cons c cs =>
      simp only [List.map_cons, List.cons.injEq] at h
      refine .cons ?_ (ih h.2)
      refine ⟨c, rfl, ?_⟩
      cases hs with
      | char d t =>
        left
        have h1 := h.1
        have : d = c := Char.toNat_inj.mp (by omega)
        subst this
        rfl
      | bad b t hb =>
        right
        refine ⟨by have := h.1; omega, rfl, fun d e => hb d ⟨t, ?_⟩⟩
        rw [← e]
        rfl

theorem blind_one {p : Int → Prop} : (one p).Blind Shown := by
  rintro x y ⟨c, rfl, rfl | ⟨h1, h2, _⟩⟩
  · rfl
  · have : x.2 = (c.toNat : Int) := by omega
    rw [decide_eq_decide, this]

theorem blind_cls {p : Int → Prop} : (cls p).Blind Shown := by
  unfold cls
  split
  · exact ⟨blind_one, fun _ _ _ => rfl⟩
  · exact blind_one

theorem blind_chars {ds : List Char} (h : ∀ d ∈ ds, d.toNat ≠ 0xFFFD) : (charsExp ds).Blind Shown := by
  induction ds with
  | nil => trivial
  | cons d ds ih =>
    refine ⟨?_, ih fun d hd => h d (List.mem_cons_of_mem _ hd)⟩
    rintro x y ⟨c, rfl, rfl | ⟨h1, h2, h3⟩⟩
    · rfl
    · have e1 : (x.1 == enc d) = false := by simpa using h3 d
      have e2 : (enc c == enc d) = false := by
        simp only [beq_eq_false_iff_ne, ne_eq]
        intro e
        have := enc_inj e
        subst this
        exact h _ List.mem_cons_self h1
      exact e1.trans e2.symm

theorem blind_lit {ds : List Char} (h : ∀ d ∈ ds, d.toNat ≠ 0xFFFD) : (litExp (encText ds)).Blind Shown := by
  rw [litExp_enc]
  exact blind_chars h

theorem forall₂_flip {α : Type} {R : α → α → Prop} {xs ys : List α} (h : List.Forall₂ R xs ys) : List.Forall₂ (fun x y => R y x) ys xs := by
  induction h with
  | nil => exact .nil
  | cons h1 _ ih => exact .cons h1 ih

theorem Spec.PExp.Blind.flip {α : Type} {R : α → α → Prop} {e : PExp α} (h : e.Blind R) : e.Blind (fun x y => R y x) := by
  induction e with
  | chr p => exact fun x y hr => (h y x hr).symm
  | seq a b iha ihb => exact ⟨iha h.1, ihb h.2⟩
  | alt a b iha ihb => exact ⟨iha h.1, ihb h.2⟩
  | star a ih => exact ih h
  | neg a ih => exact ih h
  | _ => exact h

/-- An expression that does not tell malformed bytes from U+FFFD can be decided on a text exactly
if it can be decided on the characters of the text. -/
theorem ends_shown {P : Nat → Option (PExp Piece)} (hP : ∀ i e, P i = some e → e.Blind Shown) {e : PExp Piece} (he : e.Blind Shown)
    {xs ys : List Piece} (hs : List.Forall₂ Shown xs ys) : (∃ r, Peg P e xs r) ↔ ∃ r, Peg P e ys r := by
  constructor
  · rintro ⟨r, h⟩
    obtain ⟨r', h1, _⟩ := Peg.rel hP h he hs
    exact ⟨r', h1⟩
  · rintro ⟨r, h⟩
    obtain ⟨r', h1, _⟩ := Peg.rel (fun i e hi => (hP i e hi).flip) h he.flip (forall₂_flip hs)
    exact ⟨r', h1⟩

theorem some_shown {P : Nat → Option (PExp Piece)} (hP : ∀ i e, P i = some e → e.Blind Shown) {e : PExp Piece} (he : e.Blind Shown)
    {xs ys : List Piece} (hs : List.Forall₂ Shown xs ys) : (∃ zs, Peg P e xs (some zs)) ↔ ∃ zs, Peg P e ys (some zs) := by
  constructor
  · rintro ⟨r, h⟩
    obtain ⟨_ | r', h1, h2⟩ := Peg.rel hP h he hs
    · exact h2.elim
    · exact ⟨r', h1⟩
  · rintro ⟨r, h⟩
    obtain ⟨_ | r', h1, h2⟩ := Peg.rel (fun i e hi => (hP i e hi).flip) h he.flip (forall₂_flip hs)
    · exact h2.elim
    · exact ⟨r', h1⟩

end Tok
