/-
The primitive readers and their parsing expressions.
-/
import Verif.Proofs.PegBase
import Verif.Proofs.EatMono
import Verif.Proofs.Back
import Verif.Props.C16
import Verif.Spec.PegReader

namespace Tok
open Spec PExp

variable {P : Nat → Option (PExp Piece)}

/-- A result on the text that fits the expression. -/
def Fits (P : Nat → Option (PExp Piece)) (e : PExp Piece) (t : Bytes) (xs : List Piece) (keep : Prop) (ok : Bool) (t' : Bytes) : Prop :=
  (ok = true ∧ ∃ ys, Peg P e xs (some ys) ∧ Pieces t' ys) ∨ (ok = false ∧ Peg P e xs none ∧ (keep → t' = t))

theorem pieces_cons_inv {t p : Bytes} {r : Int} {xs : List Piece} (h : Pieces t ((p, r) :: xs)) :
    decodeRune t = (r, p.length) ∧ p ≠ [] ∧ ∃ t', t = p ++ t' ∧ Pieces t' xs := by
  cases h with
  | cons hs he ht => exact ⟨(step_iff.mp hs).2.1, hs.ne_nil, _, he, ht⟩

theorem peg_dot_cons {x : Piece} {xs : List Piece} : Peg P dot (x :: xs) (some xs) := .chr rfl
theorem peg_dot_nil : Peg P dot [] none := .chrEnd
theorem peg_end_nil : Peg P (.neg dot) [] (some []) := .neg peg_dot_nil
theorem peg_end_cons {x : Piece} {xs : List Piece} : Peg P (.neg dot) (x :: xs) none := .negNo peg_dot_cons
theorem peg_fail {xs : List Piece} : Peg P fail xs none := .negNo .eps
theorem peg_amp {e : PExp Piece} {xs ys : List Piece} (h : Peg P e xs (some ys)) : Peg P (amp e) xs (some xs) := .neg (.negNo h)
theorem peg_ampNo {e : PExp Piece} {xs : List Piece} (h : Peg P e xs none) : Peg P (amp e) xs none := .negNo (.neg h)
theorem peg_some_nil : Peg P (amp dot) [] none := peg_ampNo peg_dot_nil
theorem peg_some_cons {x : Piece} {xs : List Piece} : Peg P (amp dot) (x :: xs) (some (x :: xs)) := peg_amp peg_dot_cons

theorem peg_one {p : Int → Prop} {x : Piece} {xs : List Piece} (h : p x.2) : Peg P (one p) (x :: xs) (some xs) :=
  .chr (by simpa using h)
theorem peg_oneNo {p : Int → Prop} {x : Piece} {xs : List Piece} (h : ¬ p x.2) : Peg P (one p) (x :: xs) none :=
  .chrNo (by simpa using h)
theorem peg_oneEnd {p : Int → Prop} : Peg P (one p) [] none := .chrEnd

theorem eatOne_cls {p : Int → Bool} {q : Int → Prop} (hq : ∀ r, q r ↔ p r = true) {t : Bytes} {xs : List Piece}
    (h : Pieces t xs) : Fits P (cls q) t xs True (eatOne p t).1 (eatOne p t).2 := by
  classical
  cases xs with
  | nil =>
    have ht := (pieces_nil_iff h).mpr rfl
    subst ht
    unfold eatOne cls
    rw [decodeRune_nil]
    cases hp : p runeError
    · have : ¬ q 0xFFFD := fun hc => by have := (hq _).mp hc; rw [show p runeError = p 0xFFFD from rfl, this] at hp; cases hp
      rw [if_neg this]
      exact .inr ⟨rfl, .chrEnd, fun _ => rfl⟩
    · rw [if_pos ((hq 0xFFFD).mpr hp)]
      exact .inl ⟨rfl, _, .altNo .chrEnd peg_end_nil, .nil⟩
  | cons x xs =>
    obtain ⟨b, r⟩ := x
    obtain ⟨h1, h2, t', h3, h4⟩ := pieces_cons_inv h
    unfold eatOne
    rw [h1]
    cases hp : p r
    · have hn : ¬ q r := fun hc => by rw [(hq _).mp hc] at hp; cases hp
      refine .inr ⟨rfl, ?_, fun _ => rfl⟩
      have : Peg P (.chr fun x => decide (q x.2)) ((b, r) :: xs) none := .chrNo (by simpa using hn)
      unfold cls
      split
      · exact .altNo this peg_end_cons
      · exact this
    · refine .inl ⟨rfl, xs, ?_, by rw [h3]; simpa using h4⟩
      have : Peg P (.chr fun x => decide (q x.2)) ((b, r) :: xs) (some xs) := .chr (by simpa using (hq _).mpr hp)
      unfold cls
      split
      · exact .alt this
      · exact this

theorem eatOne_one {p : Int → Bool} {q : Int → Prop} (hq : ∀ r, q r ↔ p r = true) {t : Bytes} {xs : List Piece}
    (h : Pieces t xs) : Fits P (one q) t xs True (if t = [] then (false, t) else eatOne p t).1
      (if t = [] then (false, t) else eatOne p t).2 := by
  classical
  cases xs with
  | nil =>
    have ht := (pieces_nil_iff h).mpr rfl
    subst ht
    exact .inr ⟨rfl, .chrEnd, fun _ => rfl⟩
  | cons x xs =>
    obtain ⟨b, r⟩ := x
    obtain ⟨h1, h2, t', h3, h4⟩ := pieces_cons_inv h
    have ht : t ≠ [] := fun hc => by rw [h3] at hc; simp [h2] at hc
    rw [if_neg ht]
    unfold eatOne
    rw [h1]
    cases hp : p r
    · have hn : ¬ q r := fun hc => by rw [(hq _).mp hc] at hp; cases hp
      exact .inr ⟨rfl, .chrNo (by simpa using hn), fun _ => rfl⟩
    · exact .inl ⟨rfl, xs, .chr (by simpa using (hq _).mpr hp), by rw [h3]; simpa using h4⟩

/-- The front of a text that starts with a character. -/
theorem pieces_char {c : Char} {t : Bytes} {xs : List Piece} (h : Pieces (enc c ++ t) xs) :
    ∃ ys, xs = (enc c, (c.toNat : Int)) :: ys ∧ Pieces t ys := by
  obtain ⟨ys, hy⟩ := Pieces.exists t
  exact ⟨ys, Pieces.unique h (.cons (.char c t) rfl hy), hy⟩

theorem peg_chars (cs : List Char) : ∀ {t : Bytes} {xs : List Piece}, Pieces t xs →
    (∃ t' ys, t = encText cs ++ t' ∧ Pieces t' ys ∧ Peg P (charsExp cs) xs (some ys)) ∨
    (¬ encText cs <+: t ∧ Peg P (charsExp cs) xs none) := by
  induction cs with
  | nil => intro t xs h; exact .inl ⟨t, xs, rfl, h, .eps⟩
  | cons c cs ih =>
    intro t xs h
    rw [encText_cons]
    by_cases hp : enc c <+: t
    · obtain ⟨t1, rfl⟩ := hp
      obtain ⟨ys, rfl, hy⟩ := pieces_char h
      have h1 : Peg P (.chr fun x : Piece => x.1 == enc c) ((enc c, (c.toNat : Int)) :: ys) (some ys) := .chr (by simp)
      rcases ih hy with ⟨t', zs, h2, h3, h4⟩ | ⟨h2, h3⟩
      · exact .inl ⟨t', zs, by rw [h2]; simp, h3, .seq h1 h4⟩
      · exact .inr ⟨fun hc => h2 ((List.prefix_append_right_inj _).mp hc), .seq h1 h3⟩
    · refine .inr ⟨fun hc => hp ((List.prefix_append _ _).trans hc), .seqNo ?_⟩
      cases xs with
      | nil => exact .chrEnd
      | cons x xs =>
        obtain ⟨b, r⟩ := x
        obtain ⟨_, _, t', h3, _⟩ := pieces_cons_inv h
        refine .chrNo ?_
        simp only [beq_eq_false_iff_ne, ne_eq]
        intro hb
        exact hp (by rw [h3, hb]; exact List.prefix_append _ _)

theorem encText_inj {cs ds : List Char} (h : encText cs = encText ds) : cs = ds := by
  have h1 := pieces_encText cs
  rw [h] at h1
  have := Pieces.unique h1 (pieces_encText ds)
  have h2 := congrArg (List.map Prod.snd) this
  simp only [List.map_map] at h2
  refine (List.map_inj_right ?_).mp h2
  intro a b hab
  exact char_ext (Int.ofNat.inj hab)

theorem litExp_enc (cs : List Char) : litExp (encText cs) = charsExp cs := by
  classical
  unfold litExp
  have h : ∃ ds, encText cs = encText ds := ⟨cs, rfl⟩
  rw [dif_pos h]
  rw [← encText_inj h.choose_spec]

theorem eatLit_lit (cs : List Char) {t : Bytes} {xs : List Piece} (h : Pieces t xs) :
    Fits P (litExp (encText cs)) t xs True (eatLit (encText cs) t).1 (eatLit (encText cs) t).2 := by
  rw [litExp_enc]
  unfold eatLit
  rcases peg_chars (P := P) cs h with ⟨t', ys, h2, h3, h4⟩ | ⟨h2, h3⟩
  · have : hasPrefix t (encText cs) = true := by rw [h2]; simp [hasPrefix]
    rw [if_pos this]
    exact .inl ⟨rfl, ys, h4, by rw [h2]; simpa using h3⟩
  · have : ¬ hasPrefix t (encText cs) = true := by simpa [hasPrefix] using h2
    rw [if_neg this]
    exact .inr ⟨rfl, h3, fun _ => rfl⟩

theorem eatLits_lits : ∀ (l : List Bytes) (_ : ∀ x ∈ l, ∃ cs, x = encText cs) {t : Bytes} {xs : List Piece},
    Pieces t xs → Fits P (choice (l.map litExp)) t xs True (eatLits l t).1 (eatLits l t).2
  | [], _, _, _, _ => .inr ⟨rfl, peg_fail, fun _ => rfl⟩
  | x :: l, hl, t, xs, h => by
    obtain ⟨cs, hc⟩ := hl x List.mem_cons_self
    have h1 := eatLit_lit (P := P) cs h
    rw [← hc] at h1
    have h2 := eatLits_lits l (fun y hy => hl y (List.mem_cons_of_mem _ hy)) h
    unfold eatLit at h1
    unfold eatLits
    split at h1
    · rename_i hp
      rw [if_pos hp]
      rcases h1 with ⟨_, ys, h3, h4⟩ | ⟨h3, _⟩
      · exact .inl ⟨rfl, ys, .alt h3, h4⟩
      · cases h3
    · rename_i hp
      rw [if_neg hp]
      rcases h1 with ⟨h3, _⟩ | ⟨_, h3, _⟩
      · cases h3
      · rcases h2 with ⟨h4, ys, h5, h6⟩ | ⟨h4, h5, h6⟩
        · exact .inl ⟨h4, ys, .altNo h3 h5, h6⟩
        · exact .inr ⟨h4, .altNo h3 h5, h6⟩

theorem boolLits_valid (f : Bytes) : ∀ x ∈ boolLits f, ∃ cs, x = encText cs := by
  have key : ∀ x ∈ [b!"true", b!"True", b!"TRUE", b!"false", b!"False", b!"FALSE"], ∃ cs, x = encText cs := by
    intro x hx
    simp only [List.mem_cons, List.not_mem_nil, or_false] at hx
    rcases hx with h | h | h | h | h | h <;> subst h
    · exact ⟨['t', 'r', 'u', 'e'], by decide⟩
    · exact ⟨['T', 'r', 'u', 'e'], by decide⟩
    · exact ⟨['T', 'R', 'U', 'E'], by decide⟩
    · exact ⟨['f', 'a', 'l', 's', 'e'], by decide⟩
    · exact ⟨['F', 'a', 'l', 's', 'e'], by decide⟩
    · exact ⟨['F', 'A', 'L', 'S', 'E'], by decide⟩
  intro x hx
  unfold boolLits at hx
  split at hx
  · exact key x hx
  split at hx
  · exact key x (by simp only [List.mem_cons, List.not_mem_nil, or_false] at hx ⊢; rcases hx with h | h <;> simp [h])
  split at hx
  · exact key x (by simp only [List.mem_cons, List.not_mem_nil, or_false] at hx ⊢; rcases hx with h | h <;> simp [h])
  split at hx
  · exact key x (by simp only [List.mem_cons, List.not_mem_nil, or_false] at hx ⊢; rcases hx with h | h <;> simp [h])
  · cases hx

theorem eatBool_eq (f t : Bytes) : eatBool f t = eatLits (boolLits f) t := by
  unfold eatBool boolLits
  simp only [Bool.or_eq_true, beq_iff_eq]
  split
  · rfl
  split
  · rfl
  split
  · rfl
  split
  · rfl
  · rfl

theorem eatRanges_one : ∀ (l : List (Int × Int)) {t : Bytes} {xs : List Piece}, Pieces t xs →
    Fits P (one (fun r => ∃ ab ∈ l, ab.1 ≤ r ∧ r ≤ ab.2)) t xs True (eatRanges l t).1 (eatRanges l t).2
  | [], t, xs, h => by
    classical
    refine .inr ⟨rfl, ?_, fun _ => rfl⟩
    cases xs with
    | nil => exact .chrEnd
    | cons x xs => exact .chrNo (by simp)
  | (a, b) :: l, t, xs, h => by
    classical
    have h1 : Fits P (one (fun r => a ≤ r ∧ r ≤ b)) t xs True (eatBetween a b t).1 (eatBetween a b t).2 :=
      eatOne_one (fun r => (inRange_iff a r b).symm) h
    have h2 := eatRanges_one l h
    unfold eatRanges
    split
    · rename_i hb
      rcases h1 with ⟨h3, ys, h4, h5⟩ | ⟨h3, _⟩
      · refine .inl ⟨h3, ys, ?_, h5⟩
        cases h4 with
        | chr h' => exact .chr (by simp only [decide_eq_true_eq] at h' ⊢; exact ⟨_, List.mem_cons_self, h'⟩)
      · rw [h3] at hb; cases hb
    · rename_i hb
      rcases h1 with ⟨h3, _⟩ | ⟨h3, h4, h5⟩
      · exact absurd h3 hb
      · rcases h2 with ⟨h6, ys, h7, h8⟩ | ⟨h6, h7, h8⟩
        · refine .inl ⟨h6, ys, ?_, h8⟩
          cases h7 with
          | chr h' =>
            refine .chr ?_
            simp only [decide_eq_true_eq] at h' ⊢
            obtain ⟨ab, h9, h10⟩ := h'
            exact ⟨ab, List.mem_cons_of_mem _ h9, h10⟩
        · refine .inr ⟨h6, ?_, h8⟩
          cases h7 with
          | chrEnd => exact .chrEnd
          | chrNo h'' =>
            refine .chrNo ?_
            cases h4 with
            | chrNo h' =>
              simp only [decide_eq_false_iff_not] at h'' h' ⊢
              rintro ⟨ab, h9, h10⟩
              rcases List.mem_cons.mp h9 with h9 | h9
              · subst h9; exact h' h10
              · exact h'' ⟨ab, h9, h10⟩

/-- One rune forward in a well-formed text. -/
theorem eatStep_char (c : Char) (t : Bytes) : eatStep (enc c ++ t) = (true, t) := by
  have h := decodeRune_enc c t
  unfold eatStep
  rw [h]
  simp only
  have hl : runeLen (c.toNat : Int) = (enc c).length := runeLen_char c
  rw [hl, if_pos ⟨by simp [enc_ne_nil], by simp; omega⟩]
  simp

theorem eatStep_nil : eatStep [] = (false, []) := rfl

end Tok
