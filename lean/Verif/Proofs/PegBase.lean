/-
Facts about parsing expressions: results are unique, derivations have a height.
-/
import Verif.Spec.Peg

namespace Tok.Spec
open PExp

variable {α : Type} {P : Nat → Option (PExp α)}

/-- There is at most one result. -/
theorem Peg.det {e : PExp α} {xs : List α} {r : Option (List α)} (h : Peg P e xs r) :
    ∀ {r'}, Peg P e xs r' → r = r' := by
  induction h with
  | eps => intro r' h'; cases h'; rfl
  | chr h => intro r' h'; cases h' with
    | chr _ => rfl
    | chrNo h1 => rw [h] at h1; cases h1
  | chrNo h => intro r' h'; cases h' with
    | chr h1 => rw [h] at h1; cases h1
    | chrNo _ => rfl
  | chrEnd => intro r' h'; cases h'; rfl
  | nt h _ ih => intro r' h'; cases h' with
    | nt h1 h2 => rw [h] at h1; cases h1; exact ih h2
  | seq _ _ ih1 ih2 => intro r' h'; cases h' with
    | seq h1 h2 => cases ih1 h1; exact ih2 h2
    | seqNo h1 => cases ih1 h1
  | seqNo _ ih1 => intro r' h'; cases h' with
    | seq h1 h2 => cases ih1 h1
    | seqNo h1 => rfl
  | alt _ ih1 => intro r' h'; cases h' with
    | alt h1 => exact ih1 h1
    | altNo h1 h2 => cases ih1 h1
  | altNo _ _ ih1 ih2 => intro r' h'; cases h' with
    | alt h1 => cases ih1 h1
    | altNo h1 h2 => exact ih2 h2
  | star _ _ ih1 ih2 => intro r' h'; cases h' with
    | star h1 h2 => cases ih1 h1; exact ih2 h2
    | starEnd h1 => cases ih1 h1
  | starEnd _ ih1 => intro r' h'; cases h' with
    | star h1 h2 => cases ih1 h1
    | starEnd h1 => rfl
  | neg _ ih1 => intro r' h'; cases h' with
    | neg h1 => rfl
    | negNo h1 => cases ih1 h1
  | negNo _ ih1 => intro r' h'; cases h' with
    | neg h1 => cases ih1 h1
    | negNo h1 => rfl
  | findEnd => intro r' h'; cases h'; rfl
  | find _ _ ih1 ih2 => intro r' h'; cases h' with
    | find h1 h2 => cases ih1 h1; rfl
    | findNo h1 h2 h3 => exact absurd (ih2 h2).symm h3
    | findNext h1 h2 => cases ih1 h1
  | findNo _ _ hr ih1 ih2 => intro r' h'; cases h' with
    | find h1 h2 => exact absurd (ih2 h2) hr
    | findNo h1 h2 h3 => rfl
    | findNext h1 h2 => cases ih1 h1
  | findNext _ _ ih1 ih2 => intro r' h'; cases h' with
    | find h1 h2 => cases ih1 h1
    | findNo h1 h2 h3 => cases ih1 h1
    | findNext h1 h2 => exact ih2 h2

/-- Derivations with a height below the first argument. -/
def PegH (P : Nat → Option (PExp α)) : Nat → PExp α → List α → Option (List α) → Prop
  | 0, _, _, _ => False
  | n + 1, e, xs, r => match e with
    | .eps => r = some xs
    | .chr p => match xs with
      | [] => r = none
      | x :: xs => (p x = true ∧ r = some xs) ∨ (p x = false ∧ r = none)
    | .nt i => ∃ e, P i = some e ∧ PegH P n e xs r
    | .seq a b => (∃ ys, PegH P n a xs (some ys) ∧ PegH P n b ys r) ∨ (PegH P n a xs none ∧ r = none)
    | .alt a b => (∃ ys, PegH P n a xs (some ys) ∧ r = some ys) ∨ (PegH P n a xs none ∧ PegH P n b xs r)
    | .star a => (∃ ys, PegH P n a xs (some ys) ∧ PegH P n (.star a) ys r) ∨ (PegH P n a xs none ∧ r = some xs)
    | .neg a => (PegH P n a xs none ∧ r = some xs) ∨ (∃ ys, PegH P n a xs (some ys) ∧ r = none)
    | .find b t keep w => match xs with
      | [] => r = none
      | x :: xs => (∃ ys, PegH P n t (x :: xs) (some ys) ∧
            ((PegH P n b w (some []) ∧ r = some (if keep then ys else x :: xs)) ∨
             (∃ r', PegH P n b w r' ∧ r' ≠ some [] ∧ r = none))) ∨
          (PegH P n t (x :: xs) none ∧ PegH P n (.find b t keep (w ++ [x])) xs r)

theorem PegH.succ : ∀ {n : Nat} {e : PExp α} {xs : List α} {r : Option (List α)}, PegH P n e xs r → PegH P (n + 1) e xs r
  | 0, _, _, _, h => h.elim
  | n + 1, e, xs, r, h => by
    cases e with
    | eps => exact h
    | chr p => cases xs <;> exact h
    | nt i => obtain ⟨e, h1, h2⟩ := h; exact ⟨e, h1, h2.succ⟩
    | seq a b =>
      rcases h with ⟨ys, h1, h2⟩ | ⟨h1, h2⟩
      · exact .inl ⟨ys, h1.succ, h2.succ⟩
      · exact .inr ⟨h1.succ, h2⟩
    | alt a b =>
      rcases h with ⟨ys, h1, h2⟩ | ⟨h1, h2⟩
      · exact .inl ⟨ys, h1.succ, h2⟩
      · exact .inr ⟨h1.succ, h2.succ⟩
    | star a =>
      rcases h with ⟨ys, h1, h2⟩ | ⟨h1, h2⟩
      · exact .inl ⟨ys, h1.succ, h2.succ⟩
      · exact .inr ⟨h1.succ, h2⟩
    | neg a =>
      rcases h with ⟨h1, h2⟩ | ⟨ys, h1, h2⟩
      · exact .inl ⟨h1.succ, h2⟩
      · exact .inr ⟨ys, h1.succ, h2⟩
    | find b t keep w =>
      cases xs with
      | nil => exact h
      | cons x xs =>
        rcases h with ⟨ys, h1, ⟨h2, h3⟩ | ⟨r', h2, h3, h4⟩⟩ | ⟨h1, h2⟩
        · exact .inl ⟨ys, h1.succ, .inl ⟨h2.succ, h3⟩⟩
        · exact .inl ⟨ys, h1.succ, .inr ⟨r', h2.succ, h3, h4⟩⟩
        · exact .inr ⟨h1.succ, h2.succ⟩

theorem PegH.mono {n m : Nat} (hnm : n ≤ m) {e : PExp α} {xs : List α} {r : Option (List α)} (h : PegH P n e xs r) :
    PegH P m e xs r := by
  induction hnm with
  | refl => exact h
  | step _ ih => exact ih.succ

theorem Peg.height {e : PExp α} {xs : List α} {r : Option (List α)} (h : Peg P e xs r) : ∃ n, PegH P n e xs r := by
  have two : ∀ {e1 xs1 r1 e2 xs2 r2}, (∃ n, PegH P n e1 xs1 r1) → (∃ n, PegH P n e2 xs2 r2) →
      ∃ n, PegH P n e1 xs1 r1 ∧ PegH P n e2 xs2 r2 := by
    rintro e1 xs1 r1 e2 xs2 r2 ⟨n, hn⟩ ⟨m, hm⟩
    exact ⟨max n m, hn.mono (by omega), hm.mono (by omega)⟩
  induction h with
  | eps => exact ⟨1, rfl⟩
  | chr h => exact ⟨1, .inl ⟨h, rfl⟩⟩
  | chrNo h => exact ⟨1, .inr ⟨h, rfl⟩⟩
  | chrEnd => exact ⟨1, rfl⟩
  | nt h _ ih => obtain ⟨n, hn⟩ := ih; exact ⟨n + 1, _, h, hn⟩
  | seq _ _ ih1 ih2 => obtain ⟨n, h1, h2⟩ := two ih1 ih2; exact ⟨n + 1, .inl ⟨_, h1, h2⟩⟩
  | seqNo _ ih1 => obtain ⟨n, h1⟩ := ih1; exact ⟨n + 1, .inr ⟨h1, rfl⟩⟩
  | alt _ ih1 => obtain ⟨n, h1⟩ := ih1; exact ⟨n + 1, .inl ⟨_, h1, rfl⟩⟩
  | altNo _ _ ih1 ih2 => obtain ⟨n, h1, h2⟩ := two ih1 ih2; exact ⟨n + 1, .inr ⟨h1, h2⟩⟩
  | star _ _ ih1 ih2 => obtain ⟨n, h1, h2⟩ := two ih1 ih2; exact ⟨n + 1, .inl ⟨_, h1, h2⟩⟩
  | starEnd _ ih1 => obtain ⟨n, h1⟩ := ih1; exact ⟨n + 1, .inr ⟨h1, rfl⟩⟩
  | neg _ ih1 => obtain ⟨n, h1⟩ := ih1; exact ⟨n + 1, .inl ⟨h1, rfl⟩⟩
  | negNo _ ih1 => obtain ⟨n, h1⟩ := ih1; exact ⟨n + 1, .inr ⟨_, h1, rfl⟩⟩
  | findEnd => exact ⟨1, rfl⟩
  | find _ _ ih1 ih2 => obtain ⟨n, h1, h2⟩ := two ih1 ih2; exact ⟨n + 1, .inl ⟨_, h1, .inl ⟨h2, rfl⟩⟩⟩
  | findNo _ _ hr ih1 ih2 => obtain ⟨n, h1, h2⟩ := two ih1 ih2; exact ⟨n + 1, .inl ⟨_, h1, .inr ⟨_, h2, hr, rfl⟩⟩⟩
  | findNext _ _ ih1 ih2 => obtain ⟨n, h1, h2⟩ := two ih1 ih2; exact ⟨n + 1, .inr ⟨h1, h2⟩⟩

theorem PegH.peg : ∀ {n : Nat} {e : PExp α} {xs : List α} {r : Option (List α)}, PegH P n e xs r → Peg P e xs r
  | 0, _, _, _, h => h.elim
  | n + 1, e, xs, r, h => by
    cases e with
    | eps => cases h; exact .eps
    | chr p =>
      cases xs with
      | nil => cases h; exact .chrEnd
      | cons x xs =>
        rcases h with ⟨h1, h2⟩ | ⟨h1, h2⟩
        · cases h2; exact .chr h1
        · cases h2; exact .chrNo h1
    | nt i => obtain ⟨e, h1, h2⟩ := h; exact .nt h1 h2.peg
    | seq a b =>
      rcases h with ⟨ys, h1, h2⟩ | ⟨h1, h2⟩
      · exact .seq h1.peg h2.peg
      · cases h2; exact .seqNo h1.peg
    | alt a b =>
      rcases h with ⟨ys, h1, h2⟩ | ⟨h1, h2⟩
      · cases h2; exact .alt h1.peg
      · exact .altNo h1.peg h2.peg
    | star a =>
      rcases h with ⟨ys, h1, h2⟩ | ⟨h1, h2⟩
      · exact .star h1.peg h2.peg
      · cases h2; exact .starEnd h1.peg
    | neg a =>
      rcases h with ⟨h1, h2⟩ | ⟨ys, h1, h2⟩
      · cases h2; exact .neg h1.peg
      · cases h2; exact .negNo h1.peg
    | find b t keep w =>
      cases xs with
      | nil => cases h; exact .findEnd
      | cons x xs =>
        rcases h with ⟨ys, h1, ⟨h2, h3⟩ | ⟨r', h2, h3, h4⟩⟩ | ⟨h1, h2⟩
        · cases h3; exact .find h1.peg h2.peg
        · cases h4; exact .findNo h1.peg h2.peg h3
        · exact .findNext h1.peg h2.peg

/-- What is left is an end of the text. -/
theorem Peg.suffix {e : PExp α} {xs : List α} {r : Option (List α)} (h : Peg P e xs r) :
    ∀ {ys}, r = some ys → ys <:+ xs := by
  induction h with
  | eps => intro ys h; cases h; exact List.suffix_refl _
  | chr h => intro ys h; cases h; exact List.suffix_cons _ _
  | nt _ _ ih => exact ih
  | seq _ _ ih1 ih2 => intro ys h; exact (ih2 h).trans (ih1 rfl)
  | alt _ ih => exact ih
  | altNo _ _ _ ih2 => exact ih2
  | star _ _ ih1 ih2 => intro ys h; exact (ih2 h).trans (ih1 rfl)
  | starEnd _ _ => intro ys h; cases h; exact List.suffix_refl _
  | neg _ _ => intro ys h; cases h; exact List.suffix_refl _
  | @find b t keep w x xs zs _ _ ih1 _ =>
    intro ys h
    cases keep
    · cases h; exact List.suffix_refl _
    · cases h; exact ih1 rfl
  | findNext _ _ _ ih2 => intro ys h; exact (ih2 h).trans (List.suffix_cons _ _)
  | _ => intro ys h; cases h

end Tok.Spec
