/-
Calculating with parsing expressions: inversion, and the language of an expression.
-/
import Verif.Proofs.PegBase
import Verif.Spec.PegReader

namespace Tok
open Spec PExp

variable {α : Type} {P : Nat → Option (PExp α)}

theorem Peg.seq_some {a b : PExp α} {xs zs : List α} (h : Peg P (.seq a b) xs (some zs)) :
    ∃ ys, Peg P a xs (some ys) ∧ Peg P b ys (some zs) := by
  cases h with
  | seq h1 h2 => exact ⟨_, h1, h2⟩

theorem Peg.seq_none {a b : PExp α} {xs : List α} (h : Peg P (.seq a b) xs none) :
    Peg P a xs none ∨ ∃ ys, Peg P a xs (some ys) ∧ Peg P b ys none := by
  cases h with
  | seq h1 h2 => exact .inr ⟨_, h1, h2⟩
  | seqNo h1 => exact .inl h1

theorem Peg.alt_some {a b : PExp α} {xs zs : List α} (h : Peg P (.alt a b) xs (some zs)) :
    Peg P a xs (some zs) ∨ Peg P a xs none ∧ Peg P b xs (some zs) := by
  cases h with
  | alt h1 => exact .inl h1
  | altNo h1 h2 => exact .inr ⟨h1, h2⟩

theorem Peg.alt_none {a b : PExp α} {xs : List α} (h : Peg P (.alt a b) xs none) : Peg P a xs none ∧ Peg P b xs none := by
  cases h with
  | altNo h1 h2 => exact ⟨h1, h2⟩

theorem Peg.chr_some {p : α → Bool} {xs zs : List α} (h : Peg P (.chr p) xs (some zs)) : ∃ x, xs = x :: zs ∧ p x = true := by
  cases h with
  | chr h => exact ⟨_, rfl, h⟩

theorem Peg.chr_none {p : α → Bool} {xs : List α} (h : Peg P (.chr p) xs none) : ∀ x zs, xs = x :: zs → p x = false := by
  cases h with
  | chrNo h => intro x zs e; cases e; exact h
  | chrEnd => intro x zs e; cases e

theorem Peg.star_ne {a : PExp α} {xs : List α} : ¬ Peg P (.star a) xs none := by
  generalize he : PExp.star a = e
  generalize hr : (none : Option (List α)) = r
  intro h
  induction h with
  | star h1 h2 ih1 ih2 => exact ih2 he hr
  | starEnd h1 => cases hr
  | _ => first | cases he | cases hr

theorem Peg.neg_some {a : PExp α} {xs zs : List α} (h : Peg P (.neg a) xs (some zs)) : zs = xs ∧ Peg P a xs none := by
  cases h with
  | neg h => exact ⟨rfl, h⟩

theorem Peg.nt_inv {i : Nat} {xs : List α} {r : Option (List α)} (h : Peg P (.nt i) xs r) : ∃ e, P i = some e ∧ Peg P e xs r := by
  cases h with
  | nt h h1 => exact ⟨_, h, h1⟩

/-- The strings that an expression may take, when nonterminal `i` may take the strings of
`L i`.  Order of choice and looking ahead are ignored, so this contains what is taken. -/
def Spec.PExp.lang (L : Nat → List α → Prop) : PExp α → List α → Prop
  | .eps, zs => zs = []
  | .chr p, zs => ∃ x, zs = [x] ∧ p x = true
  | .nt i, zs => L i zs
  | .seq a b, zs => ∃ u v, zs = u ++ v ∧ a.lang L u ∧ b.lang L v
  | .alt a b, zs => a.lang L zs ∨ b.lang L zs
  | .star a, zs => ∃ l : List (List α), zs = l.flatten ∧ ∀ u ∈ l, a.lang L u
  | .neg a, zs => zs = [] ∧ a ≠ .eps
  | .find _ _ _ _, _ => True

/-- Whatever is taken is in the language, for every interpretation that is closed under the
rules. -/
theorem Peg.lang {L : Nat → List α → Prop} (hL : ∀ i e, P i = some e → ∀ zs, e.lang L zs → L i zs)
    {e : PExp α} {xs : List α} {r : Option (List α)} (h : Peg P e xs r) :
    ∀ {ys}, r = some ys → ∃ zs, xs = zs ++ ys ∧ e.lang L zs := by
  induction h with
  | eps => intro ys h; cases h; exact ⟨[], rfl, rfl⟩
  | @chr p x xs h => intro ys e; cases e; exact ⟨[x], rfl, x, rfl, h⟩
  | chrNo h => intro ys e; cases e
  | chrEnd => intro ys e; cases e
  | nt h h1 ih =>
    intro ys e
    obtain ⟨zs, h2, h3⟩ := ih e
    exact ⟨zs, h2, hL _ _ h _ h3⟩
  | seq h1 h2 ih1 ih2 =>
    intro ys e
    obtain ⟨u, hu, hu'⟩ := ih1 rfl
    obtain ⟨v, hv, hv'⟩ := ih2 e
    exact ⟨u ++ v, by rw [hu, hv, List.append_assoc], u, v, rfl, hu', hv'⟩
  | seqNo h1 ih => intro ys e; cases e
  | alt h1 ih =>
    intro ys e
    obtain ⟨u, hu, hu'⟩ := ih e
    exact ⟨u, hu, .inl hu'⟩
  | altNo h1 h2 ih1 ih2 =>
    intro ys e
    obtain ⟨u, hu, hu'⟩ := ih2 e
    exact ⟨u, hu, .inr hu'⟩
  | star h1 h2 ih1 ih2 =>
    intro ys e
    obtain ⟨u, hu, hu'⟩ := ih1 rfl
    obtain ⟨v, hv, l, hl, hl'⟩ := ih2 e
    refine ⟨u ++ v, by rw [hu, hv, List.append_assoc], u :: l, by rw [hl]; rfl, ?_⟩
    intro w hw
    rcases List.mem_cons.mp hw with rfl | hw
    · exact hu'
    · exact hl' w hw
  | starEnd h1 ih => intro ys e; cases e; exact ⟨[], rfl, [], rfl, by simp⟩
  | neg h1 ih =>
    intro ys e
    cases e
    refine ⟨[], rfl, rfl, ?_⟩
    intro e
    subst e
    cases h1
  | negNo h1 ih => intro ys e; cases e
  | findEnd => intro ys e; cases e
  | @find b t keep w x xs ys h1 h2 ih1 ih2 =>
    intro zs e
    have := (Peg.find (P := P) (keep := keep) h1 h2).suffix e
    obtain ⟨u, hu⟩ := this
    exact ⟨u, hu.symm, trivial⟩
  | findNo h1 h2 h ih1 ih2 => intro ys e; cases e
  | findNext h1 h2 ih1 ih2 =>
    intro ys e
    obtain ⟨u, hu⟩ := (Peg.findNext h1 h2).suffix e
    exact ⟨u, hu.symm, trivial⟩

/-! ### choice and chain -/

theorem Peg.choice_no {es : List (PExp α)} {xs : List α} (h : ∀ e ∈ es, Peg P e xs none) : Peg P (choice es) xs none := by
  induction es with
  | nil => exact .negNo .eps
  | cons e es ih => exact .altNo (h e List.mem_cons_self) (ih fun e he => h e (List.mem_cons_of_mem _ he))

theorem Peg.choice_at {es es' : List (PExp α)} {e : PExp α} {xs ys : List α} (h : ∀ e ∈ es, Peg P e xs none) (h1 : Peg P e xs (some ys)) :
    Peg P (choice (es ++ e :: es')) xs (some ys) := by
  induction es with
  | nil => exact .alt h1
  | cons a es ih => exact .altNo (h a List.mem_cons_self) (ih fun e he => h e (List.mem_cons_of_mem _ he))

theorem Peg.choice_inv {es : List (PExp α)} {xs ys : List α} (h : Peg P (choice es) xs (some ys)) :
    ∃ es1 e es2, es = es1 ++ e :: es2 ∧ (∀ a ∈ es1, Peg P a xs none) ∧ Peg P e xs (some ys) := by
  induction es with
  | nil => cases h with | neg h1 => cases h1
  | cons e es ih =>
    rcases Peg.alt_some h with h | ⟨h1, h⟩
    · exact ⟨[], e, es, rfl, by simp, h⟩
    · obtain ⟨es1, e', es2, h2, h3, h4⟩ := ih h
      exact ⟨e :: es1, e', es2, by rw [h2]; rfl, List.forall_mem_cons.mpr ⟨h1, h3⟩, h4⟩

theorem choice_lang {L : Nat → List α → Prop} {es : List (PExp α)} {zs : List α} : (choice es).lang L zs ↔ ∃ e ∈ es, e.lang L zs := by
  induction es with
  | nil => simp [choice, fail, PExp.lang]
  | cons e es ih => simp [choice, PExp.lang, ih]

end Tok
