/-
The rules of the JSON grammar take as much as they can.
-/
import Verif.Props.C49Exact

namespace Tok
open Spec PExp
namespace Json

/-- In front of a text that begins with a word of `L` the expression, if it matches, takes at least this word; and if it takes more, the text goes on
with a character of the kind `p`. -/
def Upto (e : PExp Piece) (L : List Char → Prop) (p : Nat → Prop) : Prop :=
  ∀ y z w, Peg Json.env.peg e (img (y ++ z)) (some (img w)) → L y → w.length ≤ z.length ∧ (w.length < z.length → Head p z)

/-- In front of such a text it matches. -/
def Takes' (e : PExp Piece) (L : List Char → Prop) : Prop := ∀ y z, L y → ∃ w, Peg Json.env.peg e (img (y ++ z)) (some (img w))

theorem img_inj {u v : List Char} (h : img u = img v) : u = v := by
  induction u generalizing v with
  | nil =>
    cases v with
    | nil => rfl
    | cons c v => cases h
  | cons c u ih =>
    cases v with
    | nil => cases h
    | cons d v =>
      have h : (enc c, (c.toNat : Int)) :: img u = (enc d, (d.toNat : Int)) :: img v := h
      injection h with h1 h2
      injection h1 with h1 _
      rw [enc_inj h1, ih h2]

theorem shrinks {e : PExp Piece} {cs w : List Char} (h : Peg Json.env.peg e (img cs) (some (img w))) : w <:+ cs := by
  obtain ⟨u, v, rfl, h1, _⟩ := sound h
  have : w = v := img_inj h1
  exact this ▸ List.suffix_append u v

theorem img_of {e : PExp Piece} {cs : List Char} {ys : List Piece} (h : Peg Json.env.peg e (img cs) (some ys)) : ∃ w, ys = img w := by
  obtain ⟨u, v, _, h1, _⟩ := sound h
  exact ⟨v, h1⟩

theorem suffix_same {a b c : List Char} (h : a <:+ c ++ b) (hl : a.length = b.length) : a = b := by
  obtain ⟨d, hd⟩ := h
  exact (List.append_inj' hd hl).2

theorem Upto.nt {i : Nat} {e : PExp Piece} {L : List Char → Prop} {p : Nat → Prop} (hi : Json.env.peg i = some e) (h : Upto e L p) : Upto (.nt i) L p := by
  intro y z w h1 h2
  obtain ⟨e', he, h3⟩ := Peg.nt_inv h1
  rw [hi] at he
  cases he
  exact h y z w h3 h2

theorem Upto.imp {e : PExp Piece} {L L' : List Char → Prop} {p p' : Nat → Prop} (h : Upto e L p) (hL : ∀ y, L' y → L y) (hp : ∀ n, p n → p' n) : Upto e L' p' :=
  fun y z w h1 h2 => ⟨(h y z w h1 (hL y h2)).1, fun h3 => ((h y z w h1 (hL y h2)).2 h3).imp hp⟩

theorem Upto.exact {e : PExp Piece} {L : List Char → Prop} {p : Nat → Prop} (h : ∀ y, L y → Takes e y (fun _ => True)) : Upto e L p := by
  intro y z w h1 h2
  have := img_inj (Option.some.inj ((h y h2 z trivial).det h1))
  subst this
  exact ⟨Nat.le_refl _, fun h => absurd h (Nat.lt_irrefl _)⟩

theorem Upto.eps {p : Nat → Prop} : Upto .eps (· = []) p := .exact fun y hy rest _ => by subst hy; exact .eps

/-- One after the other. -/
theorem Upto.seq {a b : PExp Piece} {A B : List Char → Prop} {p q r : Nat → Prop} (ha : Upto a A p) (hb : Upto b B q) (hB : ∀ y, B y → y = [] ∨ Head r y)
    (hpr : ∀ n, p n → ¬ r n) : Upto (.seq a b) (fun y => ∃ u v, y = u ++ v ∧ A u ∧ B v) (fun n => p n ∨ q n) := by
  rintro _ z w h1 ⟨u, v, rfl, hu, hv⟩
  obtain ⟨ys, h2, h3⟩ := Peg.seq_some h1
  obtain ⟨w1, rfl⟩ := img_of h2
  rw [List.append_assoc] at h2
  obtain ⟨h4, h5⟩ := ha u (v ++ z) w1 h2 hu
  by_cases h6 : w1.length = (v ++ z).length
  · have := suffix_same (shrinks h2) h6
    subst this
    obtain ⟨h7, h8⟩ := hb v z w h3 hv
    exact ⟨h7, fun h => (h8 h).imp fun _ => .inr⟩
  · have h7 := h5 (by omega)
    rcases hB v hv with rfl | h8
    · have h9 := (shrinks h3).length_le
      exact ⟨by simp at h4; omega, fun _ => h7.imp fun _ => .inl⟩
    · exfalso
      obtain ⟨c, cs, h9, h10⟩ := h7
      obtain ⟨d, ds, h11, h12⟩ := h8.append (ds := z)
      rw [h9] at h11
      cases h11
      exact hpr _ h10 h12

/-- Perhaps. -/
theorem Upto.opt {a : PExp Piece} {A : List Char → Prop} {p q : Nat → Prop} (ha : Upto a A p) (hs : Takes' a A) (hq : ∀ z ys, Peg Json.env.peg a (img z) (some ys) → Head q z) :
    Upto (.alt a .eps) (fun y => y = [] ∨ A y) (fun n => p n ∨ q n) := by
  intro y z w h1 h2
  rcases Peg.alt_some h1 with h3 | ⟨h3, h4⟩
  · rcases h2 with rfl | h2
    · have h4 := (shrinks h3).length_le
      exact ⟨h4, fun _ => (hq _ _ h3).imp fun _ => .inr⟩
    · exact ⟨(ha y z w h3 h2).1, fun h => ((ha y z w h3 h2).2 h).imp fun _ => .inl⟩
  · rcases h2 with rfl | h2
    · have : w = z := by
        have := img_inj (Option.some.inj (h4.det .eps))
        exact this
      subst this
      exact ⟨Nat.le_refl _, fun h => absurd h (Nat.lt_irrefl _)⟩
    · obtain ⟨w', h5⟩ := hs y z h2
      cases h3.det h5

/-- A run of characters. -/
theorem Upto.run {a : PExp Piece} {p : Nat → Prop} (h1 : ∀ (c : Char) r, p c.toNat → Peg Json.env.peg a (img (c :: r)) (some (img r)))
    (h2 : ∀ (c : Char) r ys, Peg Json.env.peg a (img (c :: r)) (some ys) → p c.toNat) : Upto (.star a) (fun y => ∀ c ∈ y, p c.toNat) p := by
  intro y
  induction y with
  | nil =>
    intro z w h3 _
    refine ⟨(shrinks h3).length_le, fun h => ?_⟩
    cases z with
    | nil => simp at h
    | cons c r =>
      rcases Peg.star_inv h3 with ⟨zs, h4, h5⟩ | ⟨h4, h5⟩
      · exact ⟨c, r, rfl, h2 c r zs h4⟩
      · have := img_inj h5
        subst this
        exact absurd h (Nat.lt_irrefl _)
  | cons c y ih =>
    intro z w h3 h4
    have h5 := h1 c (y ++ z) (h4 c List.mem_cons_self)
    rcases Peg.star_inv h3 with ⟨zs, h6, h7⟩ | ⟨h6, _⟩
    · have := Option.some.inj (h5.det h6)
      subst this
      exact ih z w h7 fun d hd => h4 d (List.mem_cons_of_mem _ hd)
    · cases h5.det h6

theorem run_some {a : PExp Piece} (h : ∀ c r, (Peg Json.env.peg a (img (c :: r)) (some (img r))) ∨ Peg Json.env.peg a (img (c :: r)) none) (h0 : Peg Json.env.peg a (img []) none) :
    ∀ cs, ∃ w, Peg Json.env.peg (.star a) (img cs) (some (img w))
  | [] => ⟨[], .starEnd h0⟩
  | c :: r => by
    rcases h c r with h1 | h1
    · obtain ⟨w, h2⟩ := run_some h h0 r
      exact ⟨w, .star h1 h2⟩
    · exact ⟨_, .starEnd h1⟩

/-! ### numbers -/

noncomputable abbrev dig : PExp Piece := one (fun r => 48 ≤ r ∧ r ≤ 57)

theorem dig_yes (c : Char) (r : List Char) (h : isDigit c.toNat) : Peg Json.env.peg dig (img (c :: r)) (some (img r)) :=
  peg_one_yes (by unfold isDigit at h; constructor <;> omega)

theorem dig_inv (c : Char) (r : List Char) (ys : List Piece) (h : Peg Json.env.peg dig (img (c :: r)) (some ys)) : isDigit c.toNat := by
  apply Classical.byContradiction
  intro hn
  have := h.det (peg_one_no (P := Json.env.peg) (p := fun r => 48 ≤ r ∧ r ≤ 57) (cs := c :: r) (.cons fun ⟨h1, h2⟩ => hn ⟨by omega, by omega⟩))
  cases this

theorem digits_run {A : JsonSym} {y : List Char} (h : JsonText A y) : A = .digits → ∀ c ∈ y, isDigit c.toNat := by
  induction h with
  | @digits_one cs h1 _ =>
    intro _ c hc
    obtain ⟨d, rfl, hd⟩ := want h1
    rw [List.mem_singleton.mp hc]
    exact hd
  | @digits_more cs ds h1 h2 _ ih =>
    intro _ c hc
    obtain ⟨d, rfl, hd⟩ := want h1
    rcases List.mem_append.mp hc with hc | hc
    · rw [List.mem_singleton.mp hc]
      exact hd
    · exact ih rfl c hc
  | _ => intro e; cases e

theorem upto_run : Upto (.star dig) (fun y => ∀ c ∈ y, isDigit c.toNat) isDigit := .run dig_yes dig_inv

theorem upto_digits : Upto (.nt 19) (JsonText .digits) isDigit := by
  refine .nt (e := .seq dig (.star dig)) rfl ?_
  refine (Upto.seq (A := fun y => ∃ c, y = [c] ∧ isDigit c.toNat) (B := fun y => ∀ c ∈ y, isDigit c.toNat) (p := fun _ => False) (q := isDigit) (r := isDigit) (.exact ?_) upto_run ?_ (fun _ h => h.elim)).imp ?_ (fun n h => by simpa using h)
  · rintro _ ⟨c, rfl, hc⟩ rest _
    exact dig_yes c rest hc
  · intro y hy
    cases y with
    | nil => exact .inl rfl
    | cons c y => exact .inr ⟨c, y, rfl, hy c List.mem_cons_self⟩
  · intro y hy
    obtain ⟨c, y', rfl, hc⟩ := (want hy).1
    exact ⟨[c], y', rfl, ⟨c, rfl, hc⟩, fun d hd => digits_run hy rfl d (List.mem_cons_of_mem _ hd)⟩

theorem digits_some : Takes' (.nt 19) (JsonText .digits) := by
  intro y z hy
  obtain ⟨c, y', rfl, hc⟩ := (want hy).1
  obtain ⟨w, hw⟩ := run_some (a := dig) (fun c r => by
    by_cases h : isDigit c.toNat
    · exact .inl (dig_yes c r h)
    · exact .inr (peg_one_no (.cons fun ⟨h1, h2⟩ => h ⟨by omega, by omega⟩))) .chrEnd (y' ++ z)
  exact ⟨w, .nt (e := .seq dig (.star dig)) rfl (.seq (dig_yes c _ hc) hw)⟩

theorem digits_head {z : List Char} {ys : List Piece} (h : Peg Json.env.peg (.nt 19) (img z) (some ys)) : Head isDigit z := by
  obtain ⟨e, he, h⟩ := Peg.nt_inv h
  have he : PExp.seq dig (.star dig) = e := Option.some.inj he
  subst he
  obtain ⟨zs, h1, _⟩ := Peg.seq_some h
  cases z with
  | nil => cases h1
  | cons c r => exact ⟨c, r, rfl, dig_inv c r _ h1⟩

theorem ru_head {n : Nat} (hn : n ≠ 0xFFFD) {z : List Char} {ys : List Piece} (h : Peg Json.env.peg (cls (fun r => r = (n : Int))) (img z) (some ys)) : Head (· = n) z := by
  rcases ru_ends n hn z with ⟨c, r, rfl, h1, _⟩ | h1
  · exact ⟨c, r, rfl, h1⟩
  · cases h.det h1

theorem upto_int : Upto (.nt 14) (JsonText .integer) isDigit := by
  have main : Upto (.seq (choice [cls (fun r => r = 48), chain [.nt 17, .alt (.nt 19) .eps]]) .eps)
      (fun y => ∃ c ds, y = c :: ds ∧ isDigit c.toNat ∧ (ds = [] ∨ JsonText .digits ds ∧ 49 ≤ c.toNat)) isDigit := by
    rintro _ z w h1 ⟨c, ds, rfl, hc, hd⟩
    obtain ⟨ys, h1, h0⟩ := Peg.seq_some h1
    cases h0
    by_cases h0 : c.toNat = 48
    · have h2 : ds = [] := by
        rcases hd with h | ⟨_, h⟩
        · exact h
        · omega
      subst h2
      have := img_inj (Option.some.inj (h1.det (.alt (peg_ru_yes c (cs := z) (by omega)))))
      subst this
      exact ⟨Nat.le_refl _, fun h => absurd h (Nat.lt_irrefl _)⟩
    · rcases Peg.alt_some h1 with h2 | ⟨_, h2⟩
      · cases h2.det (peg_ru_no (n := 48) (.cons h0) (by decide))
      · rcases Peg.alt_some h2 with h2 | ⟨_, h2⟩
        · obtain ⟨ys, h3, h4⟩ := Peg.seq_some h2
          have h5 : Peg Json.env.peg (.nt 17) (img (c :: (ds ++ z))) (some (img (ds ++ z))) :=
            .nt (e := one (fun r => 49 ≤ r ∧ r ≤ 57)) rfl (peg_one_yes (by unfold isDigit at hc; constructor <;> omega))
          have := Option.some.inj (h3.det h5)
          subst this
          obtain ⟨ys, h6, h7⟩ := Peg.seq_some h4
          cases h7
          have := Upto.opt upto_digits digits_some (fun z ys h => digits_head h) ds z w h6 (hd.imp_right fun h => h.1)
          exact ⟨this.1, fun h => (this.2 h).imp fun n h => by simpa using h⟩
        · cases (Peg.neg_some h2).2
  intro y z w h1 hy
  obtain ⟨e, he, h1⟩ := Peg.nt_inv h1
  have he : chain [.alt (cls (fun r => r = 45)) .eps, choice [cls (fun r => r = 48), chain [.nt 17, .alt (.nt 19) .eps]]] = e := Option.some.inj he
  subst he
  obtain ⟨sg, c, ds, rfl, hsg, hc, hd⟩ : ∃ sg c ds, y = sg ++ c :: ds ∧ (sg = [] ∨ sg = ['-']) ∧ isDigit c.toNat ∧ (ds = [] ∨ JsonText .digits ds ∧ 49 ≤ c.toNat) := by
    cases hy with
    | integer_digit h => obtain ⟨c, rfl, hc⟩ := want h; exact ⟨[], c, [], rfl, .inl rfl, hc, .inl rfl⟩
    | integer_digits h h' => obtain ⟨c, rfl, hc⟩ := want h; exact ⟨[], c, _, rfl, .inl rfl, ⟨by omega, hc.2⟩, .inr ⟨h', hc.1⟩⟩
    | integer_minus_digit h => obtain ⟨c, rfl, hc⟩ := want h; exact ⟨['-'], c, [], rfl, .inr rfl, hc, .inl rfl⟩
    | integer_minus_digits h h' => obtain ⟨c, rfl, hc⟩ := want h; exact ⟨['-'], c, _, rfl, .inr rfl, ⟨by omega, hc.2⟩, .inr ⟨h', hc.1⟩⟩
  obtain ⟨ys, h2, h3⟩ := Peg.seq_some h1
  have h4 : Peg Json.env.peg (.alt (cls (fun r => r = 45)) .eps) (img (sg ++ c :: ds ++ z)) (some (img (c :: ds ++ z))) := by
    rcases hsg with rfl | rfl
    · exact .altNo (peg_ru_no (n := 45) (.cons (by unfold isDigit at hc; omega)) (by decide)) .eps
    · exact .alt (peg_ru_yes '-' rfl)
  have := Option.some.inj (h2.det h4)
  subst this
  exact main (c :: ds) z w h3 ⟨c, ds, rfl, hc, hd⟩

theorem fraction_inv {y : List Char} (h : JsonText .fraction y) : y = [] ∨ ∃ u v, y = u ++ v ∧ u = ['.'] ∧ ∃ a b, v = a ++ b ∧ JsonText .digits a ∧ b = [] := by
  cases h with
  | fraction_none => exact .inl rfl
  | fraction h => exact .inr ⟨['.'], _, rfl, rfl, _, [], by simp, h, rfl⟩

theorem upto_fraction : Upto (.nt 15) (JsonText .fraction) (fun n => isDigit n ∨ n = 46) := by
  refine .nt (e := .alt (chain [cls (fun r => r = 46), .nt 19]) .eps) rfl ?_
  have h1 := Upto.seq (p := fun _ => False) (r := isDigit) (Upto.exact (e := cls (fun r => r = (46 : Int))) (L := (· = ['.'])) (by
      rintro _ rfl rest _; exact peg_ru_yes '.' rfl))
    (Upto.seq (r := fun _ => False) upto_digits (Upto.eps (p := fun _ => False)) (fun y h => .inl h) (fun _ _ h => h)) (by
      rintro _ ⟨a, b, rfl, ha, rfl⟩
      exact .inr (by simpa using (want ha).1)) (fun _ h => h.elim)
  refine (Upto.opt h1 ?_ (q := (· = 46)) ?_).imp (fun y hy => fraction_inv hy) (fun n h => by
    simpa using h)
  · rintro _ z ⟨_, _, rfl, rfl, a, _, rfl, ha, rfl⟩
    obtain ⟨w, hw⟩ := digits_some a z ha
    exact ⟨w, .seq (peg_ru_yes '.' rfl) (by simpa using Peg.seq hw .eps)⟩
  · intro z ys h
    obtain ⟨zs, h2, _⟩ := Peg.seq_some h
    exact ru_head (n := 46) (by decide) h2

/-- A sign and digits. -/
abbrev SignDigits (y : List Char) : Prop := ∃ a b, y = a ++ b ∧ JsonText .sign a ∧ JsonText .digits b

theorem sign_takes {a b z : List Char} (ha : JsonText .sign a) (hb : JsonText .digits b) : Peg Json.env.peg (.nt 20) (img (a ++ b ++ z)) (some (img (b ++ z))) := by
  rw [List.append_assoc]
  exact (want ha) (b ++ z) ((want hb).1.append.avoid fun n h => by unfold isDigit at h; omega)

theorem upto_signDigits : Upto (chain [.nt 20, .nt 19]) SignDigits isDigit := by
  rintro _ z w h1 ⟨a, b, rfl, ha, hb⟩
  obtain ⟨ys, h2, h3⟩ := Peg.seq_some h1
  have := Option.some.inj (h2.det (sign_takes ha hb))
  subst this
  obtain ⟨ys, h4, h5⟩ := Peg.seq_some h3
  cases h5
  exact upto_digits b z w h4 hb

theorem e_takes (c : Char) (r : List Char) (h : c = 'e' ∨ c = 'E') : Peg Json.env.peg (cls (RuneIn b!"eE")) (img (c :: r)) (some (img r)) :=
  peg_in_yes (mem_e.mpr (by rcases h with rfl | rfl <;> simp))

theorem exponent_inv {y : List Char} (h : JsonText .exponent y) : y = [] ∨ ∃ u v, y = u ++ v ∧ (∃ c : Char, u = [c] ∧ (c = 'e' ∨ c = 'E')) ∧ SignDigits v := by
  cases h with
  | exponent_none => exact .inl rfl
  | exponent_upper h1 h2 => exact .inr ⟨['E'], _, rfl, ⟨'E', rfl, .inr rfl⟩, _, _, rfl, h1, h2⟩
  | exponent_lower h1 h2 => exact .inr ⟨['e'], _, rfl, ⟨'e', rfl, .inl rfl⟩, _, _, rfl, h1, h2⟩

theorem upto_exponent : Upto (.nt 16) (JsonText .exponent) inNum := by
  refine .nt (e := .alt (chain [cls (RuneIn b!"eE"), .nt 20, .nt 19]) .eps) rfl ?_
  have h1 := Upto.seq (p := fun _ => False) (r := fun _ => True) (Upto.exact (e := cls (RuneIn b!"eE")) (L := fun u => ∃ c : Char, u = [c] ∧ (c = 'e' ∨ c = 'E')) (by
      rintro _ ⟨c, rfl, hc⟩ rest _; exact e_takes c rest hc))
    upto_signDigits (by
      intro y _
      cases y with
      | nil => exact .inl rfl
      | cons c y => exact .inr ⟨c, y, rfl, trivial⟩) (fun _ h => h.elim)
  refine (Upto.opt h1 ?_ (q := fun n => n = 101 ∨ n = 69) ?_).imp (fun y hy => exponent_inv hy) (fun n h => by
    unfold inNum
    simp only [false_or] at h
    tauto)
  · rintro _ z ⟨_, _, rfl, ⟨c, rfl, hc⟩, a, b, rfl, ha, hb⟩
    obtain ⟨w, hw⟩ := digits_some b z hb
    exact ⟨w, .seq (ys := img (a ++ b ++ z)) (e_takes c _ hc) (.seq (sign_takes ha hb) (.seq hw .eps))⟩
  · intro z ys h
    obtain ⟨zs, h2, _⟩ := Peg.seq_some h
    cases z with
    | nil =>
      have := h2.det (peg_in_no (P := Json.env.peg) (str := b!"eE") (cs := []) .nil (by decide))
      cases this
    | cons c r => exact ⟨c, r, rfl, mem_e.mp ((runeIn_iff _ _).mp (cls_cons h2).2)⟩

theorem upto_number : Upto (.nt 13) (JsonText .number) inNum := by
  refine .nt (e := chain [.nt 14, .nt 15, .nt 16]) rfl ?_
  have h1 := Upto.seq (r := fun _ => False) upto_exponent (Upto.eps (p := fun _ => False)) (fun y h => .inl h) (fun _ _ h => h)
  have h2 := Upto.seq (r := fun n => n = 101 ∨ n = 69) upto_fraction h1 (by
    rintro _ ⟨a, _, rfl, ha, rfl⟩
    simpa using (want ha).1) (fun n h => by unfold isDigit at h; omega)
  have h3 := Upto.seq (r := fun n => n = 46 ∨ n = 101 ∨ n = 69) upto_int h2 (by
    rintro _ ⟨a, _, rfl, ha, b, _, rfl, hb, rfl⟩
    rcases (want ha).1 with rfl | h
    · rcases (want hb).1 with rfl | h
      · exact .inl rfl
      · exact .inr (h.append.imp fun n h => .inr h)
    · exact .inr (h.append.imp fun n h => .inl h)) (fun n h => by unfold isDigit at h; omega)
  refine h3.imp ?_ (fun n h => by unfold inNum at *; tauto)
  intro y hy
  cases hy with
  | number ha hb hc => exact ⟨_, _, rfl, ha, _, _, rfl, hb, _, [], by simp, hc, rfl⟩

/-! ### values -/

theorem value_or {y : List Char} (h : JsonText .value y) : Takes (.nt 0) y (fun _ => True) ∨
    JsonText .number y ∧ ∀ z ys, Peg Json.env.peg (.nt 0) (img (y ++ z)) (some ys) → Peg Json.env.peg (.nt 13) (img (y ++ z)) (some ys) := by
  cases h with
  | value_number h =>
    refine .inr ⟨h, fun z ys h1 => ?_⟩
    obtain ⟨w, h2⟩ := number_some h z
    have hh : ∀ n, n = 45 ∨ isDigit n → 45 ≤ n ∧ n ≤ 57 := fun n h => by unfold isDigit at h; omega
    have h3 : Peg Json.env.peg (.nt 0) (img (y ++ z)) (some (img w)) := .nt (e := choice [.nt 1, .nt 5, .nt 8, .nt 13, .nt 21, .nt 22]) rfl
      (.altNo (object_no ((want h).1.append.avoid fun n h => by have := hh n h; omega))
        (.altNo (array_no ((want h).1.append.avoid fun n h => by have := hh n h; omega))
          (.altNo (string_no ((want h).1.append.avoid fun n h => by have := hh n h; omega)) (.alt h2))))
    have := h1.det h3
    rw [this]
    exact h2
  | value_object h => exact .inl fun v _ => .nt (e := choice [.nt 1, .nt 5, .nt 8, .nt 13, .nt 21, .nt 22]) rfl (.alt ((want h).2 v trivial))
  | value_array h =>
    exact .inl fun v _ => .nt (e := choice [.nt 1, .nt 5, .nt 8, .nt 13, .nt 21, .nt 22]) rfl
      (.altNo (object_no ((want h).1.append.avoid fun n h => by omega)) (.alt ((want h).2 v trivial)))
  | value_string h =>
    exact .inl fun v _ => .nt (e := choice [.nt 1, .nt 5, .nt 8, .nt 13, .nt 21, .nt 22]) rfl
      (.altNo (object_no ((want h).1.append.avoid fun n h => by omega)) (.altNo (array_no ((want h).1.append.avoid fun n h => by omega))
        (.alt ((want h).2.1 v trivial))))
  | value_true =>
    refine .inl fun v _ => .nt rfl (.altNo (object_no ?_) (.altNo (array_no ?_) (.altNo (string_no ?_) (.altNo (number_no ?_) (.alt ?_)))))
    · exact .cons (by decide)
    · exact .cons (by decide)
    · exact .cons (by decide)
    · exact .cons (by unfold isDigit; decide)
    · exact .nt (e := choice [litExp (encText ['t', 'r', 'u', 'e']), litExp (encText ['f', 'a', 'l', 's', 'e'])]) rfl (.alt (peg_lit_yes _))
  | value_false =>
    refine .inl fun v _ => .nt rfl (.altNo (object_no ?_) (.altNo (array_no ?_) (.altNo (string_no ?_) (.altNo (number_no ?_) (.alt ?_)))))
    · exact .cons (by decide)
    · exact .cons (by decide)
    · exact .cons (by decide)
    · exact .cons (by unfold isDigit; decide)
    · exact .nt (e := choice [litExp (encText ['t', 'r', 'u', 'e']), litExp (encText ['f', 'a', 'l', 's', 'e'])]) rfl
        (.altNo (peg_lit_no 't' (.cons (by decide))) (.alt (peg_lit_yes _)))
  | value_null =>
    refine .inl fun v _ => .nt rfl (.altNo (object_no ?_) (.altNo (array_no ?_) (.altNo (string_no ?_) (.altNo (number_no ?_) (.altNo (bool_no ?_) (.alt ?_))))))
    · exact .cons (by decide)
    · exact .cons (by decide)
    · exact .cons (by decide)
    · exact .cons (by unfold isDigit; decide)
    · exact .cons (by decide)
    · exact .nt (e := litExp (encText ['n', 'u', 'l', 'l'])) rfl (peg_lit_yes _)

theorem upto_value : Upto (.nt 0) (JsonText .value) inNum := by
  intro y z w h1 hy
  rcases value_or hy with h2 | ⟨h2, h3⟩
  · exact Upto.exact (L := (· = y)) (fun _ e => e ▸ h2) y z w h1 rfl
  · exact upto_number y z w (h3 z _ h1) h2

theorem ws_run {A : JsonSym} {y : List Char} (h : JsonText A y) : A = .ws → ∀ c ∈ y, isWS c.toNat := by
  induction h with
  | ws_none => intro _ c hc; cases hc
  | ws_space h ih | ws_lf h ih | ws_cr h ih | ws_tab h ih =>
    intro _ c hc
    rcases List.mem_cons.mp hc with rfl | hc
    · unfold isWS; decide
    · exact ih rfl c hc
  | _ => intro e; cases e

theorem upto_ws : Upto (.nt 23) (JsonText .ws) isWS := by
  refine .nt (e := .star (cls (RuneIn b!" \r\n\t"))) rfl ((Upto.run ?_ ?_).imp (fun y hy => ws_run hy rfl) fun _ h => h)
  · exact fun c r h => peg_in_yes (mem_ws.mpr h)
  · exact fun c r ys h => mem_ws.mp ((runeIn_iff _ _).mp (cls_cons h).2)

theorem upto_element : Upto (.nt 7) (JsonText .element) (fun n => isWS n ∨ inNum n) := by
  refine .nt (e := chain [.nt 23, .nt 0, .nt 23]) rfl ?_
  have h1 := Upto.seq (r := fun _ => False) upto_ws (Upto.eps (p := fun _ => False)) (fun y h => .inl h) (fun _ _ h => h)
  have h2 := Upto.seq (r := isWS) upto_value h1 (by
    rintro _ ⟨a, _, rfl, ha, rfl⟩
    simpa using (want ha).1) (fun n h => by unfold inNum isDigit at h; unfold isWS; omega)
  intro y z w h3 hy
  cases hy with
  | @element us cs vs ha hb hc =>
    obtain ⟨ys, h4, h5⟩ := Peg.seq_some h3
    have h6 := (want ha).2.1 (cs ++ vs ++ z) (by
      rw [List.append_assoc]
      exact (want hb).1.append.avoid fun n h => by unfold isHead isDigit at h; unfold isWS; omega)
    rw [← List.append_assoc] at h6
    have := Option.some.inj (h4.det h6)
    subst this
    have := h2 (cs ++ vs) z w h5 ⟨cs, vs, rfl, hb, vs, [], by simp, hc, rfl⟩
    exact ⟨this.1, fun h => (this.2 h).imp fun n h => by tauto⟩

end Json
end Tok
