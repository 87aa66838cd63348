/-
C48 The JSON reader is complete.
-/
import Verif.Props.C47

namespace Tok
open Spec PExp

/-! ### single characters -/

/-- The text begins with a character of this kind. -/
def Head (p : Nat → Prop) (cs : List Char) : Prop := ∃ c cs', cs = c :: cs' ∧ p c.toNat

/-- The text does not begin with a character of this kind. -/
def Avoid (p : Nat → Prop) (cs : List Char) : Prop := ∀ c cs', cs = c :: cs' → ¬ p c.toNat

theorem Head.avoid {p q : Nat → Prop} {cs : List Char} (h : Head p cs) (hpq : ∀ n, p n → ¬ q n) : Avoid q cs := by
  obtain ⟨c, cs', rfl, h⟩ := h
  intro d ds e
  cases e
  exact hpq _ h

theorem Head.append {p : Nat → Prop} {cs ds : List Char} (h : Head p cs) : Head p (cs ++ ds) := by
  obtain ⟨c, cs', rfl, h⟩ := h
  exact ⟨c, cs' ++ ds, rfl, h⟩

theorem Head.imp {p q : Nat → Prop} {cs : List Char} (h : Head p cs) (hpq : ∀ n, p n → q n) : Head q cs := by
  obtain ⟨c, cs', rfl, h⟩ := h
  exact ⟨c, cs', rfl, hpq _ h⟩

theorem Avoid.imp {p q : Nat → Prop} {cs : List Char} (h : Avoid p cs) (hpq : ∀ n, q n → p n) : Avoid q cs :=
  fun c cs' e hq => h c cs' e (hpq _ hq)

theorem Avoid.nil {p : Nat → Prop} : Avoid p [] := fun _ _ e => by cases e

theorem Avoid.cons {p : Nat → Prop} {c : Char} {cs : List Char} (h : ¬ p c.toNat) : Avoid p (c :: cs) := fun _ _ e => by cases e; exact h

theorem Avoid.append {p q : Nat → Prop} {u v : List Char} (h : u = [] ∨ Head p u) (hpq : ∀ n, p n → ¬ q n) (hv : Avoid q v) : Avoid q (u ++ v) := by
  rcases h with rfl | h
  · exact hv
  · exact h.append.avoid hpq

section
variable {P : Nat → Option (PExp Piece)}

theorem peg_one_yes {p : Int → Prop} {c : Char} {cs : List Char} (h : p c.toNat) : Peg P (one p) (img (c :: cs)) (some (img cs)) :=
  .chr (x := (enc c, (c.toNat : Int))) (by simpa using h)

theorem peg_one_no {p : Int → Prop} {cs : List Char} (h : Avoid (fun n => p n) cs) : Peg P (one p) (img cs) none := by
  cases cs with
  | nil => exact .chrEnd
  | cons c cs => exact .chrNo (x := (enc c, (c.toNat : Int))) (by simpa using h c cs rfl)

theorem peg_cls_yes {p : Int → Prop} {c : Char} {cs : List Char} (h : p c.toNat) : Peg P (cls p) (img (c :: cs)) (some (img cs)) := by
  unfold cls
  split
  · exact .alt (peg_one_yes h)
  · exact peg_one_yes h

theorem peg_cls_no {p : Int → Prop} {cs : List Char} (h : Avoid (fun n => p n) cs) (hn : cs ≠ [] ∨ ¬ p 0xFFFD) : Peg P (cls p) (img cs) none := by
  unfold cls
  split
  · rename_i hp
    rcases hn with hn | hn
    · refine .altNo (peg_one_no h) ?_
      cases cs with
      | nil => exact absurd rfl hn
      | cons c cs => exact .negNo (.chr (x := (enc c, (c.toNat : Int))) rfl)
    · exact absurd hp hn
  · exact peg_one_no h

theorem peg_ru_yes {n : Int} (c : Char) {cs : List Char} (h : (c.toNat : Int) = n) : Peg P (cls (fun r => r = n)) (img (c :: cs)) (some (img cs)) :=
  peg_cls_yes h

theorem peg_ru_no {n : Nat} {cs : List Char} (h : Avoid (fun m => m = n) cs) (hn : n ≠ 0xFFFD) : Peg P (cls (fun r => r = (n : Int))) (img cs) none :=
  peg_cls_no (h.imp fun m hm => by omega) (.inr (by omega))

theorem peg_in_yes {str : Bytes} {c : Char} {cs : List Char} (h : (c.toNat : Int) ∈ runesOf str) : Peg P (cls (RuneIn str)) (img (c :: cs)) (some (img cs)) :=
  peg_cls_yes ((runeIn_iff _ _).mpr h)

theorem peg_in_no {str : Bytes} {cs : List Char} (h : Avoid (fun n => (n : Int) ∈ runesOf str) cs) (hn : (0xFFFD : Int) ∉ runesOf str) :
    Peg P (cls (RuneIn str)) (img cs) none :=
  peg_cls_no (h.imp fun n hn => (runeIn_iff _ _).mp hn) (.inr fun h => hn ((runeIn_iff _ _).mp h))

theorem peg_chars_yes {ds cs : List Char} : Peg P (charsExp ds) (img (ds ++ cs)) (some (img cs)) := by
  induction ds with
  | nil => exact .eps
  | cons d ds ih => exact .seq (.chr (x := (enc d, (d.toNat : Int))) (by simp)) ih

theorem peg_lit_yes (ds : List Char) {cs : List Char} : Peg P (litExp (encText ds)) (img (ds ++ cs)) (some (img cs)) := by
  rw [litExp_enc]; exact peg_chars_yes

theorem peg_lit_no (d : Char) {ds cs : List Char} (h : Avoid (fun n => n = d.toNat) cs) : Peg P (litExp (encText (d :: ds))) (img cs) none := by
  rw [litExp_enc]
  refine .seqNo ?_
  cases cs with
  | nil => exact .chrEnd
  | cons c cs =>
    refine .chrNo (x := (enc c, (c.toNat : Int))) ?_
    have := h c cs rfl
    simp only [beq_eq_false_iff_ne, ne_eq]
    exact fun e => this (by rw [enc_inj e])

end

theorem Peg.star_inv {α : Type} {P : Nat → Option (PExp α)} {a : PExp α} {xs ys : List α} (h : Peg P (.star a) xs (some ys)) :
    (∃ zs, Peg P a xs (some zs) ∧ Peg P (.star a) zs (some ys)) ∨ Peg P a xs none ∧ ys = xs := by
  cases h with
  | star h1 h2 => exact .inl ⟨_, h1, h2⟩
  | starEnd h1 => exact .inr ⟨h1, rfl⟩

/-! ### the rules on JSON texts -/

namespace Json

def isDigit (n : Nat) : Prop := 48 ≤ n ∧ n ≤ 57
def isWS (n : Nat) : Prop := n = 32 ∨ n = 13 ∨ n = 10 ∨ n = 9
/-- A number could go on with this. -/
def inNum (n : Nat) : Prop := isDigit n ∨ n = 46 ∨ n = 101 ∨ n = 69
def isHex (n : Nat) : Prop := isDigit n ∨ (97 ≤ n ∧ n ≤ 102) ∨ (65 ≤ n ∧ n ≤ 70)
/-- A value begins like this. -/
def isHead (n : Nat) : Prop := n = 123 ∨ n = 91 ∨ n = 34 ∨ n = 45 ∨ isDigit n ∨ n = 116 ∨ n = 102 ∨ n = 110

/-- The expression takes `cs` whenever something with property `F` follows. -/
def Takes (e : PExp Piece) (cs : List Char) (F : List Char → Prop) : Prop :=
  ∀ rest, F rest → Peg Json.env.peg e (img (cs ++ rest)) (some (img rest))

/-- What is proved of the texts of each symbol. -/
def Want : JsonSym → List Char → Prop
  | .value, cs => Head isHead cs ∧ Takes (.nt 0) cs (Avoid inNum)
  | .object, cs => Head (· = 123) cs ∧ Takes (.nt 1) cs (fun _ => True)
  | .members, cs => Takes (.nt 2) cs (fun rest => ∃ r, rest = '}' :: r)
  | .member, cs => Takes (.nt 3) cs (Avoid fun n => isWS n ∨ inNum n)
  | .array, cs => Head (· = 91) cs ∧ Takes (.nt 5) cs (fun _ => True)
  | .elements, cs => Takes (.nt 6) cs (fun rest => ∃ r, rest = ']' :: r)
  | .element, cs => Takes (.nt 7) cs (Avoid fun n => isWS n ∨ inNum n)
  | .string, cs => Head (· = 34) cs ∧ Takes (.nt 8) cs (fun _ => True) ∧ Takes (.nt 4) cs (fun _ => True)
  | .characters, cs => Takes (.star (.nt 10)) cs (fun rest => ∃ r, rest = '"' :: r)
  | .character, cs => Takes (.nt 10) cs (fun _ => True)
  | .escape, cs => Takes (.nt 11) cs (fun _ => True)
  | .hex, cs => ∃ c, cs = [c] ∧ isHex c.toNat
  | .number, cs => Head (fun n => n = 45 ∨ isDigit n) cs ∧ Takes (.nt 13) cs (Avoid inNum)
  | .integer, cs => Head (fun n => n = 45 ∨ isDigit n) cs ∧ Takes (.nt 14) cs (Avoid isDigit)
  | .digits, cs => Head isDigit cs ∧ Takes (.nt 19) cs (Avoid isDigit) ∧ Takes (.star (one fun r => 48 ≤ r ∧ r ≤ 57)) cs (Avoid isDigit)
  | .digit, cs => ∃ c, cs = [c] ∧ isDigit c.toNat
  | .onenine, cs => ∃ c, cs = [c] ∧ 49 ≤ c.toNat ∧ c.toNat ≤ 57
  | .fraction, cs => (cs = [] ∨ Head (· = 46) cs) ∧ Takes (.nt 15) cs (Avoid fun n => n = 46 ∨ isDigit n)
  | .exponent, cs => (cs = [] ∨ Head (fun n => n = 101 ∨ n = 69) cs) ∧ Takes (.nt 16) cs (Avoid inNum)
  | .sign, cs => Takes (.nt 20) cs (Avoid fun n => n = 43 ∨ n = 45)
  | .ws, cs => (cs = [] ∨ Head isWS cs) ∧ Takes (.nt 23) cs (Avoid isWS) ∧ Takes (.star (cls (RuneIn b!" \r\n\t"))) cs (Avoid isWS)

theorem mem_ws {n : Nat} : (n : Int) ∈ runesOf b!" \r\n\t" ↔ isWS n := by
  show (n : Int) ∈ [(32 : Int), 13, 10, 9] ↔ _
  simp only [List.mem_cons, List.not_mem_nil, or_false, isWS]
  omega

theorem mem_sign {n : Nat} : (n : Int) ∈ runesOf b!"+-" ↔ n = 43 ∨ n = 45 := by
  show (n : Int) ∈ [(43 : Int), 45] ↔ _
  simp only [List.mem_cons, List.not_mem_nil, or_false]
  omega

theorem mem_e {n : Nat} : (n : Int) ∈ runesOf b!"eE" ↔ n = 101 ∨ n = 69 := by
  show (n : Int) ∈ [(101 : Int), 69] ↔ _
  simp only [List.mem_cons, List.not_mem_nil, or_false]
  omega

theorem mem_quote {n : Nat} : (n : Int) ∈ runesOf b!"\"\\" ↔ n = 34 ∨ n = 92 := by
  show (n : Int) ∈ [(34 : Int), 92] ↔ _
  simp only [List.mem_cons, List.not_mem_nil, or_false]
  omega

theorem mem_escape {n : Nat} : (n : Int) ∈ runesOf b!"\"\\/bfnrt" ↔ n = 34 ∨ n = 92 ∨ n = 47 ∨ n = 98 ∨ n = 102 ∨ n = 110 ∨ n = 114 ∨ n = 116 := by
  show (n : Int) ∈ [(34 : Int), 92, 47, 98, 102, 110, 114, 116] ↔ _
  simp only [List.mem_cons, List.not_mem_nil, or_false]
  omega

/-! Where rules do not match. -/

theorem object_no {cs : List Char} (h : Avoid (· = 123) cs) : Peg Json.env.peg (.nt 1) (img cs) none :=
  .nt (e := chain [cls (fun r => r = 123), choice [.nt 2, .nt 23], cls (fun r => r = 125)]) rfl (.seqNo (peg_ru_no (n := 123) h (by decide)))

theorem array_no {cs : List Char} (h : Avoid (· = 91) cs) : Peg Json.env.peg (.nt 5) (img cs) none :=
  .nt (e := chain [cls (fun r => r = 91), choice [.nt 6, .nt 23], cls (fun r => r = 93)]) rfl (.seqNo (peg_ru_no (n := 91) h (by decide)))

theorem string_no {cs : List Char} (h : Avoid (· = 34) cs) : Peg Json.env.peg (.nt 8) (img cs) none :=
  .nt (e := chain [cls (fun r => r = 34), .nt 9, cls (fun r => r = 34)]) rfl (.seqNo (peg_ru_no (n := 34) h (by decide)))

theorem key_no {cs : List Char} (h : Avoid (· = 34) cs) : Peg Json.env.peg (.nt 4) (img cs) none :=
  .nt (e := chain [cls (fun r => r = 34), .nt 9, cls (fun r => r = 34)]) rfl (.seqNo (peg_ru_no (n := 34) h (by decide)))

theorem onenine_no {cs : List Char} (h : Avoid isDigit cs) : Peg Json.env.peg (.nt 17) (img cs) none :=
  .nt (e := one (fun r => 49 ≤ r ∧ r ≤ 57)) rfl (peg_one_no (h.imp fun n hn => by unfold isDigit; omega))

theorem number_no {cs : List Char} (h : Avoid (fun n => n = 45 ∨ isDigit n) cs) : Peg Json.env.peg (.nt 13) (img cs) none := by
  refine .nt (e := chain [.nt 14, .nt 15, .nt 16]) rfl (.seqNo ?_)
  refine .nt (e := chain [.alt (cls (fun r => r = 45)) .eps, choice [cls (fun r => r = 48), chain [.nt 17, .alt (.nt 19) .eps]]]) rfl ?_
  refine .seq (ys := img cs) (.altNo (peg_ru_no (n := 45) (h.imp fun n hn => .inl hn) (by decide)) .eps) (.seqNo ?_)
  refine .altNo (peg_ru_no (n := 48) (h.imp fun n hn => .inr (by unfold isDigit; omega)) (by decide)) (.altNo (.seqNo ?_) (.negNo .eps))
  exact onenine_no (h.imp fun n hn => .inr hn)

theorem bool_no {cs : List Char} (h : Avoid (fun n => n = 116 ∨ n = 102) cs) : Peg Json.env.peg (.nt 21) (img cs) none :=
  .nt (e := choice [litExp (encText ['t', 'r', 'u', 'e']), litExp (encText ['f', 'a', 'l', 's', 'e'])]) rfl
    (.altNo (peg_lit_no 't' (h.imp fun n hn => .inl hn)) (.altNo (peg_lit_no 'f' (h.imp fun n hn => .inr hn)) (.negNo .eps)))

theorem null_no {cs : List Char} (h : Avoid (· = 110) cs) : Peg Json.env.peg (.nt 22) (img cs) none :=
  .nt (e := litExp (encText ['n', 'u', 'l', 'l'])) rfl (peg_lit_no 'n' h)

theorem value_no {cs : List Char} (h : Avoid isHead cs) : Peg Json.env.peg (.nt 0) (img cs) none := by
  refine .nt (e := choice [.nt 1, .nt 5, .nt 8, .nt 13, .nt 21, .nt 22]) rfl ?_
  refine .altNo (object_no ?_) (.altNo (array_no ?_) (.altNo (string_no ?_) (.altNo (number_no ?_) (.altNo (bool_no ?_) (.altNo (null_no ?_) (.negNo .eps)))))) <;>
  · refine h.imp fun n hn => ?_
    simp only [isHead, isDigit] at hn ⊢
    omega

theorem ws_takes {cs : List Char} (h : Want .ws cs) : Takes (.nt 23) cs (Avoid isWS) := h.2.1

theorem member_no {ws rest : List Char} (h : Want .ws ws) (hr : Avoid (fun n => isWS n ∨ n = 34) rest) :
    Peg Json.env.peg (.nt 3) (img (ws ++ rest)) none :=
  .nt (e := chain [.nt 23, .nt 4, .nt 23, cls (fun r => r = 58), .nt 7]) rfl
    (.seq (ws_takes h rest (hr.imp fun _ h => .inl h)) (.seqNo (key_no (hr.imp fun _ h => .inr h))))

theorem element_no {ws rest : List Char} (h : Want .ws ws) (hr : Avoid (fun n => isWS n ∨ isHead n) rest) :
    Peg Json.env.peg (.nt 7) (img (ws ++ rest)) none :=
  .nt (e := chain [.nt 23, .nt 0, .nt 23]) rfl
    (.seq (ws_takes h rest (hr.imp fun _ h => .inl h)) (.seqNo (value_no (hr.imp fun _ h => .inr h))))

theorem character_no (r : List Char) : Peg Json.env.peg (.nt 10) (img ('"' :: r)) none := by
  refine .nt (e := choice [cls (fun r => (32 ≤ r ∧ r ≤ maxRune) ∧ ¬ RuneIn b!"\"\\" r), chain [cls (fun r => r = 92), .nt 11]]) rfl ?_
  refine .altNo (peg_cls_no (.cons fun h => h.2 ((runeIn_iff _ _).mpr (by decide))) (.inl (by simp))) (.altNo (.seqNo ?_) (.negNo .eps))
  exact peg_ru_no (n := 92) (.cons (by decide)) (by decide)

/-! Where they do. -/

theorem takes_hex {cs : List Char} (h : ∃ c, cs = [c] ∧ isHex c.toNat) : Takes (.nt 12) cs (fun _ => True) := by
  obtain ⟨c, rfl, h⟩ := h
  intro rest _
  refine .nt (e := .alt (one (fun r => ∃ ab ∈ [((48 : Int), (57 : Int)), (97, 102), (65, 70)], ab.1 ≤ r ∧ r ≤ ab.2)) (cls (RuneIn []))) rfl (.alt (peg_one_yes ?_))
  simp only [List.mem_cons, List.not_mem_nil, or_false, exists_eq_or_imp, exists_eq_left]
  unfold isHex isDigit at h
  omega

theorem digits_of {cs : List Char} (h : Head isDigit cs) (hs : Takes (.star (one fun r => 48 ≤ r ∧ r ≤ 57)) cs (Avoid isDigit)) : Want .digits cs := by
  refine ⟨h, fun rest hr => ?_, hs⟩
  have h1 := hs rest hr
  obtain ⟨c, cs', rfl, h⟩ := h
  rcases Peg.star_inv h1 with ⟨ys, h1, h2⟩ | ⟨h1, _⟩
  · exact .nt rfl (.seq h1 h2)
  · have := Peg.det h1 (peg_one_yes (P := Json.env.peg) (p := fun r => 48 ≤ r ∧ r ≤ 57) (c := c) (cs := cs' ++ rest) (by unfold isDigit at h; constructor <;> omega))
    cases this

theorem ws_step {c : Char} {cs : List Char} (hc : isWS c.toNat) (h : Want .ws cs) : Want .ws (c :: cs) := by
  have h1 : Takes (.star (cls (RuneIn b!" \r\n\t"))) (c :: cs) (Avoid isWS) := fun rest hr =>
    .star (peg_in_yes (mem_ws.mpr hc)) (h.2.2 rest hr)
  exact ⟨.inr ⟨c, cs, rfl, hc⟩, fun rest hr => .nt rfl (h1 rest hr), h1⟩

theorem integer_of {sg cs : List Char} (hs : sg = [] ∨ sg = ['-']) (hh : Head isDigit cs)
    (h : Takes (choice [cls (fun r => r = 48), chain [.nt 17, .alt (.nt 19) .eps]]) cs (Avoid isDigit)) : Want .integer (sg ++ cs) := by
  refine ⟨?_, fun rest hr => ?_⟩
  · rcases hs with rfl | rfl
    · exact hh.imp fun n h => .inr h
    · exact ⟨'-', cs, rfl, .inl rfl⟩
  · refine .nt (e := chain [.alt (cls (fun r => r = 45)) .eps, choice [cls (fun r => r = 48), chain [.nt 17, .alt (.nt 19) .eps]]]) rfl ?_
    refine .seq (ys := img (cs ++ rest)) ?_ (.seq (h rest hr) .eps)
    rcases hs with rfl | rfl
    · refine .altNo (peg_ru_no (n := 45) (hh.append.avoid fun n h => ?_) (by decide)) .eps
      unfold isDigit at h; omega
    · exact .alt (peg_ru_yes '-' rfl)

theorem int_digit {cs : List Char} (h : ∃ c, cs = [c] ∧ isDigit c.toNat) :
    Takes (choice [cls (fun r => r = 48), chain [.nt 17, .alt (.nt 19) .eps]]) cs (Avoid isDigit) := by
  obtain ⟨c, rfl, h⟩ := h
  intro rest hr
  by_cases h0 : c.toNat = 48
  · exact .alt (peg_ru_yes c (by omega))
  · unfold isDigit at h
    refine .altNo (peg_ru_no (n := 48) (.cons h0) (by decide)) (.alt (.seq (ys := img rest) ?_ (.seq (.altNo ?_ .eps) .eps)))
    · exact .nt (e := one (fun r => 49 ≤ r ∧ r ≤ 57)) rfl (peg_one_yes (by omega))
    · exact .nt (e := .seq (one (fun r => 48 ≤ r ∧ r ≤ 57)) (.star (one (fun r => 48 ≤ r ∧ r ≤ 57)))) rfl
        (.seqNo (peg_one_no (hr.imp fun n hn => by unfold isDigit; omega)))

theorem int_digits {cs ds : List Char} (h : ∃ c, cs = [c] ∧ 49 ≤ c.toNat ∧ c.toNat ≤ 57) (hd : Want .digits ds) :
    Takes (choice [cls (fun r => r = 48), chain [.nt 17, .alt (.nt 19) .eps]]) (cs ++ ds) (Avoid isDigit) := by
  obtain ⟨c, rfl, h⟩ := h
  intro rest hr
  refine .altNo (peg_ru_no (n := 48) (.cons (by omega)) (by decide)) (.alt (.seq (ys := img (ds ++ rest)) ?_ (.seq (.alt ?_) .eps)))
  · exact .nt (e := one (fun r => 49 ≤ r ∧ r ≤ 57)) rfl (peg_one_yes (by omega))
  · exact hd.2.1 rest hr

theorem want {A : JsonSym} {cs : List Char} (h : JsonText A cs) : Want A cs := by
  induction h with
  | @value_object cs _ ih =>
    exact ⟨ih.1.imp fun n h => by unfold isHead; omega, fun rest _ => .nt rfl (.alt (ih.2 rest trivial))⟩
  | @value_array cs _ ih =>
    refine ⟨ih.1.imp fun n h => by unfold isHead; omega, fun rest _ => ?_⟩
    exact .nt rfl (.altNo (object_no (ih.1.append.avoid fun n h => by omega)) (.alt (ih.2 rest trivial)))
  | @value_string cs _ ih =>
    refine ⟨ih.1.imp fun n h => by unfold isHead; omega, fun rest _ => ?_⟩
    exact .nt rfl (.altNo (object_no (ih.1.append.avoid fun n h => by omega)) (.altNo (array_no (ih.1.append.avoid fun n h => by omega))
      (.alt (ih.2.1 rest trivial))))
  | @value_number cs _ ih =>
    refine ⟨ih.1.imp fun n h => by simp only [isHead, isDigit] at h ⊢; omega, fun rest hr => ?_⟩
    have hh := ih.1.append (ds := rest)
    refine .nt rfl (.altNo (object_no (hh.avoid ?_)) (.altNo (array_no (hh.avoid ?_)) (.altNo (string_no (hh.avoid ?_)) (.alt (ih.2 rest hr))))) <;>
    · intro n h; unfold isDigit at h; omega
  | value_true =>
    refine ⟨⟨'t', _, rfl, by unfold isHead isDigit; decide⟩, fun rest _ => ?_⟩
    refine .nt rfl (.altNo (object_no ?_) (.altNo (array_no ?_) (.altNo (string_no ?_) (.altNo (number_no ?_) (.alt ?_)))))
    · exact .cons (by decide)
    · exact .cons (by decide)
    · exact .cons (by decide)
    · exact .cons (by unfold isDigit; decide)
    · exact .nt (e := choice [litExp (encText ['t', 'r', 'u', 'e']), litExp (encText ['f', 'a', 'l', 's', 'e'])]) rfl (.alt (peg_lit_yes _))
  | value_false =>
    refine ⟨⟨'f', _, rfl, by unfold isHead isDigit; decide⟩, fun rest _ => ?_⟩
    refine .nt rfl (.altNo (object_no ?_) (.altNo (array_no ?_) (.altNo (string_no ?_) (.altNo (number_no ?_) (.alt ?_)))))
    · exact .cons (by decide)
    · exact .cons (by decide)
    · exact .cons (by decide)
    · exact .cons (by unfold isDigit; decide)
    · exact .nt (e := choice [litExp (encText ['t', 'r', 'u', 'e']), litExp (encText ['f', 'a', 'l', 's', 'e'])]) rfl
        (.altNo (peg_lit_no 't' (.cons (by decide))) (.alt (peg_lit_yes _)))
  | value_null =>
    refine ⟨⟨'n', _, rfl, by unfold isHead isDigit; decide⟩, fun rest _ => ?_⟩
    refine .nt rfl (.altNo (object_no ?_) (.altNo (array_no ?_) (.altNo (string_no ?_) (.altNo (number_no ?_) (.altNo (bool_no ?_) (.alt ?_))))))
    · exact .cons (by decide)
    · exact .cons (by decide)
    · exact .cons (by decide)
    · exact .cons (by unfold isDigit; decide)
    · exact .cons (by decide)
    · exact .nt (e := litExp (encText ['n', 'u', 'l', 'l'])) rfl (peg_lit_yes _)
  | @object_ws cs _ ih =>
    refine ⟨⟨'{', _, rfl, rfl⟩, fun rest _ => ?_⟩
    simp only [List.cons_append, List.append_assoc, List.nil_append]
    refine .nt (e := chain [cls (fun r => r = 123), choice [.nt 2, .nt 23], cls (fun r => r = 125)]) rfl
      (.seq (peg_ru_yes '{' rfl) (.seq (ys := img ('}' :: rest)) ?_ (.seq (peg_ru_yes '}' rfl) .eps)))
    refine .altNo ?_ (.alt (ih.2.1 _ (.cons (by unfold isWS; decide))))
    exact .nt (e := chain [.nt 3, .star (chain [cls (fun r => r = 44), .nt 3])]) rfl
      (.seqNo (member_no ih (.cons (by unfold isWS; decide))))
  | @object_members cs _ ih =>
    refine ⟨⟨'{', _, rfl, rfl⟩, fun rest _ => ?_⟩
    simp only [List.cons_append, List.append_assoc, List.nil_append]
    exact .nt (e := chain [cls (fun r => r = 123), choice [.nt 2, .nt 23], cls (fun r => r = 125)]) rfl
      (.seq (peg_ru_yes '{' rfl) (.seq (ys := img ('}' :: rest)) (.alt (ih _ ⟨rest, rfl⟩)) (.seq (peg_ru_yes '}' rfl) .eps)))
  | @members_one cs _ ih =>
    rintro _ ⟨r, rfl⟩
    refine .nt (e := chain [.nt 3, .star (chain [cls (fun r => r = 44), .nt 3])]) rfl
      (.seq (ih ('}' :: r) (.cons (by unfold isWS inNum isDigit; decide))) (.seq (.starEnd (.seqNo ?_)) .eps))
    exact peg_ru_no (n := 44) (.cons (by decide)) (by decide)
  | @members_more cs ds _ _ ih1 ih2 =>
    rintro _ ⟨r, rfl⟩
    simp only [List.cons_append, List.append_assoc]
    refine .nt (e := chain [.nt 3, .star (chain [cls (fun r => r = 44), .nt 3])]) rfl
      (.seq (ih1 (',' :: (ds ++ '}' :: r)) (.cons (by unfold isWS inNum isDigit; decide))) ?_)
    obtain ⟨e, he, h⟩ := Peg.nt_inv (ih2 _ ⟨r, rfl⟩)
    have he : chain [.nt 3, .star (chain [cls (fun r => r = 44), .nt 3])] = e := Option.some.inj he
    subst he
    obtain ⟨ys, h1, h2⟩ := Peg.seq_some h
    obtain ⟨zs, h2, h3⟩ := Peg.seq_some h2
    cases h3
    exact .seq (.star (.seq (peg_ru_yes ',' rfl) (.seq h1 .eps)) h2) .eps
  | @member us cs vs ds _ _ _ _ ih1 ih2 ih3 ih4 =>
    intro rest hr
    simp only [List.cons_append, List.append_assoc]
    refine .nt (e := chain [.nt 23, .nt 4, .nt 23, cls (fun r => r = 58), .nt 7]) rfl
      (.seq (ih1.2.1 _ (ih2.1.append.avoid ?_)) (.seq (ih2.2.2 _ trivial) (.seq (ih3.2.1 _ (.cons (by unfold isWS; decide)))
        (.seq (peg_ru_yes ':' rfl) (.seq (ih4 _ hr) .eps)))))
    rintro n rfl
    unfold isWS; omega
  | @array_ws cs _ ih =>
    refine ⟨⟨'[', _, rfl, rfl⟩, fun rest _ => ?_⟩
    simp only [List.cons_append, List.append_assoc, List.nil_append]
    refine .nt (e := chain [cls (fun r => r = 91), choice [.nt 6, .nt 23], cls (fun r => r = 93)]) rfl
      (.seq (peg_ru_yes '[' rfl) (.seq (ys := img (']' :: rest)) ?_ (.seq (peg_ru_yes ']' rfl) .eps)))
    refine .altNo ?_ (.alt (ih.2.1 _ (.cons (by unfold isWS; decide))))
    exact .nt (e := chain [.nt 7, .star (chain [cls (fun r => r = 44), .nt 7])]) rfl
      (.seqNo (element_no ih (.cons (by unfold isWS isHead isDigit; decide))))
  | @array_elements cs _ ih =>
    refine ⟨⟨'[', _, rfl, rfl⟩, fun rest _ => ?_⟩
    simp only [List.cons_append, List.append_assoc, List.nil_append]
    exact .nt (e := chain [cls (fun r => r = 91), choice [.nt 6, .nt 23], cls (fun r => r = 93)]) rfl
      (.seq (peg_ru_yes '[' rfl) (.seq (ys := img (']' :: rest)) (.alt (ih _ ⟨rest, rfl⟩)) (.seq (peg_ru_yes ']' rfl) .eps)))
  | @elements_one cs _ ih =>
    rintro _ ⟨r, rfl⟩
    refine .nt (e := chain [.nt 7, .star (chain [cls (fun r => r = 44), .nt 7])]) rfl
      (.seq (ih (']' :: r) (.cons (by unfold isWS inNum isDigit; decide))) (.seq (.starEnd (.seqNo ?_)) .eps))
    exact peg_ru_no (n := 44) (.cons (by decide)) (by decide)
  | @elements_more cs ds _ _ ih1 ih2 =>
    rintro _ ⟨r, rfl⟩
    simp only [List.cons_append, List.append_assoc]
    refine .nt (e := chain [.nt 7, .star (chain [cls (fun r => r = 44), .nt 7])]) rfl
      (.seq (ih1 (',' :: (ds ++ ']' :: r)) (.cons (by unfold isWS inNum isDigit; decide))) ?_)
    obtain ⟨e, he, h⟩ := Peg.nt_inv (ih2 _ ⟨r, rfl⟩)
    have he : chain [.nt 7, .star (chain [cls (fun r => r = 44), .nt 7])] = e := Option.some.inj he
    subst he
    obtain ⟨ys, h1, h2⟩ := Peg.seq_some h
    obtain ⟨zs, h2, h3⟩ := Peg.seq_some h2
    cases h3
    exact .seq (.star (.seq (peg_ru_yes ',' rfl) (.seq h1 .eps)) h2) .eps
  | @element us cs vs _ _ _ ih1 ih2 ih3 =>
    intro rest hr
    simp only [List.append_assoc]
    refine .nt (e := chain [.nt 23, .nt 0, .nt 23]) rfl
      (.seq (ih1.2.1 _ (ih2.1.append.avoid ?_)) (.seq (ih2.2 _ (.append ih3.1 ?_ (hr.imp fun n h => .inr h)))
        (.seq (ih3.2.1 _ (hr.imp fun n h => .inl h)) .eps)))
    · intro n; unfold isHead isWS isDigit; omega
    · intro n; unfold inNum isWS isDigit; omega
  | @string cs _ ih =>
    have : ∀ rest, Peg Json.env.peg (chain [cls (fun r => r = 34), .nt 9, cls (fun r => r = 34)]) (img ('"' :: (cs ++ ['"']) ++ rest)) (some (img rest)) := by
      intro rest
      simp only [List.cons_append, List.append_assoc, List.nil_append]
      exact .seq (peg_ru_yes '"' rfl) (.seq (.nt (e := .star (.nt 10)) rfl (ih ('"' :: rest) ⟨rest, rfl⟩)) (.seq (peg_ru_yes '"' rfl) .eps))
    exact ⟨⟨'"', _, rfl, rfl⟩, fun rest _ => .nt rfl (this rest), fun rest _ => .nt rfl (this rest)⟩
  | characters_none =>
    rintro _ ⟨r, rfl⟩
    exact .starEnd (character_no r)
  | @characters_more cs ds _ _ ih1 ih2 =>
    rintro _ ⟨r, rfl⟩
    rw [List.append_assoc]
    exact .star (ih1 _ trivial) (ih2 _ ⟨r, rfl⟩)
  | @character_plain c h1 h2 h3 h4 =>
    intro rest _
    refine .nt (e := choice [cls (fun r => (32 ≤ r ∧ r ≤ maxRune) ∧ ¬ RuneIn b!"\"\\" r), chain [cls (fun r => r = 92), .nt 11]]) rfl (.alt (peg_cls_yes ?_))
    refine ⟨⟨by omega, show (c.toNat : Int) ≤ 0x10FFFF by omega⟩, fun h => ?_⟩
    rcases mem_quote.mp ((runeIn_iff _ _).mp h) with h | h
    · exact h3 (Char.toNat_inj.mp h)
    · exact h4 (Char.toNat_inj.mp h)
  | @character_escape cs _ ih =>
    intro rest _
    refine .nt (e := choice [cls (fun r => (32 ≤ r ∧ r ≤ maxRune) ∧ ¬ RuneIn b!"\"\\" r), chain [cls (fun r => r = 92), .nt 11]]) rfl
      (.altNo (peg_cls_no (.cons fun h => h.2 ((runeIn_iff _ _).mpr (by decide))) (.inl (by simp))) (.alt ?_))
    exact .seq (peg_ru_yes '\\' rfl) (.seq (ih rest trivial) .eps)
  | @escape_one c h =>
    intro rest _
    refine .nt (e := choice [cls (RuneIn b!"\"\\/bfnrt"), chain [cls (fun r => r = 117), PExp.times (.nt 12) 4]]) rfl (.alt (peg_in_yes ?_))
    simp only [List.mem_cons, List.not_mem_nil, or_false] at h
    rcases h with rfl | rfl | rfl | rfl | rfl | rfl | rfl | rfl <;> decide
  | @escape_u as bs cs ds _ _ _ _ ih1 ih2 ih3 ih4 =>
    intro rest _
    simp only [List.cons_append, List.append_assoc]
    refine .nt (e := choice [cls (RuneIn b!"\"\\/bfnrt"), chain [cls (fun r => r = 117), PExp.times (.nt 12) 4]]) rfl
      (.altNo (peg_in_no (.cons (by decide)) (by decide)) (.alt ?_))
    exact .seq (peg_ru_yes 'u' rfl) (.seq (.seq (takes_hex ih1 _ trivial) (.seq (takes_hex ih2 _ trivial) (.seq (takes_hex ih3 _ trivial)
      (.seq (takes_hex ih4 _ trivial) .eps)))) .eps)
  | hex_digit _ ih =>
    obtain ⟨c, h, hc⟩ := ih
    exact ⟨c, h, .inl hc⟩
  | @hex_upper c h1 h2 => exact ⟨c, rfl, .inr (.inr ⟨h1, h2⟩)⟩
  | @hex_lower c h1 h2 => exact ⟨c, rfl, .inr (.inl ⟨h1, h2⟩)⟩
  | @number is fs es _ _ _ ih1 ih2 ih3 =>
    refine ⟨ih1.1.append, fun rest hr => ?_⟩
    simp only [List.append_assoc]
    refine .nt (e := chain [.nt 14, .nt 15, .nt 16]) rfl (.seq (ih1.2 _ ?_) (.seq (ih2.2 _ ?_) (.seq (ih3.2 _ hr) .eps)))
    · refine .append ih2.1 (fun n => ?_) (.append ih3.1 (fun n => ?_) (hr.imp fun n => ?_))
      · unfold isDigit; omega
      · unfold isDigit; omega
      · unfold inNum; exact .inl
    · refine .append ih3.1 (fun n => ?_) (hr.imp fun n => ?_)
      · unfold isDigit; omega
      · unfold inNum isDigit; omega
  | @integer_digit cs _ ih =>
    exact integer_of (sg := []) (.inl rfl) (by obtain ⟨c, rfl, h⟩ := ih; exact ⟨c, _, rfl, h⟩) (int_digit ih)
  | @integer_digits cs ds _ _ ih1 ih2 =>
    refine integer_of (sg := []) (.inl rfl) ?_ (int_digits ih1 ih2)
    obtain ⟨c, rfl, h⟩ := ih1
    exact ⟨c, _, rfl, by unfold isDigit; omega⟩
  | @integer_minus_digit cs _ ih =>
    exact integer_of (sg := ['-']) (.inr rfl) (by obtain ⟨c, rfl, h⟩ := ih; exact ⟨c, _, rfl, h⟩) (int_digit ih)
  | @integer_minus_digits cs ds _ _ ih1 ih2 =>
    refine integer_of (sg := ['-']) (.inr rfl) ?_ (int_digits ih1 ih2)
    obtain ⟨c, rfl, h⟩ := ih1
    exact ⟨c, _, rfl, by unfold isDigit; omega⟩
  | @digits_one cs _ ih =>
    obtain ⟨c, rfl, h⟩ := ih
    refine digits_of ⟨c, _, rfl, h⟩ fun rest hr => ?_
    unfold isDigit at h
    exact .star (peg_one_yes (by omega)) (.starEnd (peg_one_no (hr.imp fun n hn => by unfold isDigit; omega)))
  | @digits_more cs ds _ _ ih1 ih2 =>
    obtain ⟨c, rfl, h⟩ := ih1
    refine digits_of ⟨c, _, rfl, h⟩ fun rest hr => ?_
    unfold isDigit at h
    exact .star (peg_one_yes (by omega)) (ih2.2.2 rest hr)
  | digit_zero => exact ⟨'0', rfl, by unfold isDigit; decide⟩
  | digit_onenine _ ih =>
    obtain ⟨c, rfl, h⟩ := ih
    exact ⟨c, rfl, by unfold isDigit; omega⟩
  | @onenine c h1 h2 => exact ⟨c, rfl, h1, h2⟩
  | fraction_none =>
    refine ⟨.inl rfl, fun rest hr => .nt (e := .alt (chain [cls (fun r => r = 46), .nt 19]) .eps) rfl (.altNo (.seqNo ?_) .eps)⟩
    exact peg_ru_no (n := 46) (hr.imp fun n h => .inl h) (by decide)
  | @fraction cs _ ih =>
    refine ⟨.inr ⟨'.', _, rfl, rfl⟩, fun rest hr => .nt (e := .alt (chain [cls (fun r => r = 46), .nt 19]) .eps) rfl (.alt ?_)⟩
    exact .seq (peg_ru_yes '.' rfl) (.seq (ih.2.1 rest (hr.imp fun n h => .inr h)) .eps)
  | exponent_none =>
    refine ⟨.inl rfl, fun rest hr => .nt (e := .alt (chain [cls (RuneIn b!"eE"), .nt 20, .nt 19]) .eps) rfl (.altNo (.seqNo ?_) .eps)⟩
    exact peg_in_no (hr.imp fun n h => by have := mem_e.mp h; unfold inNum; omega) (by decide)
  | @exponent_upper ss ds _ _ ih1 ih2 =>
    refine ⟨.inr ⟨'E', _, rfl, by decide⟩, fun rest hr => .nt (e := .alt (chain [cls (RuneIn b!"eE"), .nt 20, .nt 19]) .eps) rfl (.alt ?_)⟩
    simp only [List.cons_append, List.append_assoc]
    exact .seq (peg_in_yes (by decide)) (.seq (ih1 _ (ih2.1.append.avoid fun n => by unfold isDigit; omega))
      (.seq (ih2.2.1 rest (hr.imp fun n h => .inl h)) .eps))
  | @exponent_lower ss ds _ _ ih1 ih2 =>
    refine ⟨.inr ⟨'e', _, rfl, by decide⟩, fun rest hr => .nt (e := .alt (chain [cls (RuneIn b!"eE"), .nt 20, .nt 19]) .eps) rfl (.alt ?_)⟩
    simp only [List.cons_append, List.append_assoc]
    exact .seq (peg_in_yes (by decide)) (.seq (ih1 _ (ih2.1.append.avoid fun n => by unfold isDigit; omega))
      (.seq (ih2.2.1 rest (hr.imp fun n h => .inl h)) .eps))
  | sign_none => exact fun rest hr => .nt (e := .alt (cls (RuneIn b!"+-")) .eps) rfl (.altNo (peg_in_no (hr.imp fun n h => mem_sign.mp h) (by decide)) .eps)
  | sign_plus => exact fun rest _ => .nt (e := .alt (cls (RuneIn b!"+-")) .eps) rfl (.alt (peg_in_yes (by decide)))
  | sign_minus => exact fun rest _ => .nt (e := .alt (cls (RuneIn b!"+-")) .eps) rfl (.alt (peg_in_yes (by decide)))
  | ws_none =>
    have h1 : Takes (.star (cls (RuneIn b!" \r\n\t"))) [] (Avoid isWS) := fun rest hr =>
      .starEnd (peg_in_no (hr.imp fun n h => mem_ws.mp h) (by decide))
    exact ⟨.inl rfl, fun rest hr => .nt rfl (h1 rest hr), h1⟩
  | ws_space _ ih => exact ws_step (by unfold isWS; decide) ih
  | ws_lf _ ih => exact ws_step (by unfold isWS; decide) ih
  | ws_cr _ ih => exact ws_step (by unfold isWS; decide) ih
  | ws_tab _ ih => exact ws_step (by unfold isWS; decide) ih

end Json

/-- Every JSON document, at any position: the JSON grammar reads it to the end without error. -/
theorem C48_complete (rt : Rt) (s : Scanner) (h : Bytes) (cs : List Char) (hb : Between s h (encText cs)) (hd : JsonDoc cs) :
    ∃ n s', (∀ m, n ≤ m → read rt Json.env m Json.reader s = .ret (none, s')) ∧ Between s' (h ++ encText cs) [] := by
  have hpeg := Json.want hd [] .nil
  rw [List.append_nil] at hpeg
  obtain ⟨n, s', x, t', h1, h2, h3, h4⟩ := (C34_success_partial (srch := false) rt _ Json.pegOk Json.keeps Json.reader Json.reader_pegOk s h _ hb _
    (pieces_encText cs) (by simp) []).mp hpeg
  cases h4
  rw [List.append_nil] at h2
  rw [h2]
  exact ⟨n, s', fun m hm => read_mono hm h1, h3⟩

theorem Json.avoid_of_notin {ds : List Char}
    (hf : ∀ c ds', ds = c :: ds' → c ∉ [' ', '\n', '\r', '\t', '.', 'e', 'E', '0', '1', '2', '3', '4', '5', '6', '7', '8', '9']) :
    Avoid (fun n => Json.isWS n ∨ Json.inNum n) ds := by
  intro c ds' e
  have := hf c ds' e
  simp only [List.mem_cons, List.not_mem_nil, or_false, not_or] at this
  intro hn
  have key : ∀ d : Char, c ≠ d → c.toNat ≠ d.toNat := fun d h e => h (Char.toNat_inj.mp e)
  obtain ⟨a1, a2, a3, a4, a5, a6, a7, b0, b1, b2, b3, b4, b5, b6, b7, b8, b9⟩ := this
  have a1 := key _ a1; have a2 := key _ a2; have a3 := key _ a3; have a4 := key _ a4; have a5 := key _ a5; have a6 := key _ a6
  have a7 := key _ a7; have b0 := key _ b0; have b1 := key _ b1; have b2 := key _ b2; have b3 := key _ b3; have b4 := key _ b4
  have b5 := key _ b5; have b6 := key _ b6; have b7 := key _ b7; have b8 := key _ b8; have b9 := key _ b9
  simp only [Char.reduceToNat] at a1 a2 a3 a4 a5 a6 a7 b0 b1 b2 b3 b4 b5 b6 b7 b8 b9
  simp only [Json.isWS, Json.inNum, Json.isDigit] at hn
  omega

/-- A JSON document is also read if something else follows that cannot continue it: not white
space and not a character that could continue a number. -/
theorem C48_followed (rt : Rt) (s : Scanner) (h : Bytes) (cs ds : List Char) (hb : Between s h (encText (cs ++ ds))) (hd : JsonDoc cs)
    (hf : ∀ c ds', ds = c :: ds' → c ∉ [' ', '\n', '\r', '\t', '.', 'e', 'E', '0', '1', '2', '3', '4', '5', '6', '7', '8', '9']) :
    ∃ n s', (∀ m, n ≤ m → read rt Json.env m Json.reader s = .ret (none, s')) ∧ Between s' (h ++ encText cs) (encText ds) := by
  have hpeg := Json.want hd ds (Json.avoid_of_notin hf)
  · obtain ⟨n, s', x, t', h1, h2, h3, h4⟩ := (C34_success_partial (srch := false) rt _ Json.pegOk Json.keeps Json.reader Json.reader_pegOk s h _ hb _
      (pieces_encText (cs ++ ds)) (by simp) (img ds)).mp hpeg
    have h5 := pieces_chars h4
    subst h5
    have h6 : x = encText cs := by
      rw [encText, List.flatMap_append] at h2
      exact (List.append_cancel_right h2).symm
    rw [← h6]
    exact ⟨n, s', fun m hm => read_mono hm h1, h3⟩

/-- The JSON documents are exactly the texts that the JSON grammar reads to the end without
error. -/
theorem C48_exact (rt : Rt) (cs : List Char) :
    JsonDoc cs ↔ ∃ n s', read rt Json.env n Json.reader (.new (encText cs) Heap.empty) = .ret (none, s') ∧ s'.atEnd = true := by
  have hb : Between (.new (encText cs) Heap.empty) [] (encText cs) := ⟨rfl, rfl⟩
  constructor
  · intro h
    obtain ⟨n, s', h1, h2⟩ := C48_complete rt _ _ cs hb h
    refine ⟨n, s', h1 n (Nat.le_refl _), ?_⟩
    unfold Scanner.atEnd
    rw [h2.1, h2.2]
    simp
  · rintro ⟨n, s', h1, h2⟩
    obtain ⟨x, t', h3, h4, h5⟩ := C47_sound_partial rt _ s' [] _ hb n h1
    have : t' = [] := by
      unfold Scanner.atEnd at h2
      have h6 := h4.1
      have h7 := h4.2
      simp only [decide_eq_true_eq] at h2
      rw [h6] at h2
      simp only [List.nil_append, List.length_append] at h2 h7
      exact List.eq_nil_of_length_eq_zero (by omega)
    subst this
    rw [List.append_nil] at h3
    exact h5 cs h3.symm

/-- `{"a" : [1, -2.5e+3 , true], "é\n": {}}` is a document, since it is read. -/
example : JsonDoc (" {\"a\" : [1, -2.5e+3 , true], \"é\\n\": {}}\n".toList) :=
  (C48_exact exRt _).mpr ⟨80, _, rfl, rfl⟩

/-- `[1 ]` is read, since it is a document. -/
example : ∃ n s', read exRt Json.env n Json.reader (.new (encText "[1 ]".toList) Heap.empty) = .ret (none, s') ∧ s'.atEnd = true :=
  (C48_exact exRt _).mp (.element (us := []) (vs := []) .ws_none (.value_array (.array_elements (.elements_one
    (.element (us := []) (cs := ['1']) (vs := [' ']) .ws_none (.value_number (.number (is := ['1']) (fs := []) (es := [])
      (.integer_digit (.digit_onenine (.onenine (by decide) (by decide)))) .fraction_none .exponent_none)) (.ws_space .ws_none))))) .ws_none)

end Tok
