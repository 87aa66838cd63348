/-
C49 The texts on which the JSON reader does not terminate, exactly.
-/
import Verif.Props.C48
import Verif.Props.C49
import Verif.Props.C32
import Verif.Proofs.Basket
import Verif.Proofs.PegShow

namespace Tok
open Spec PExp

/-- The expression cannot be decided. -/
def Hangs {α : Type} (P : Nat → Option (PExp α)) (e : PExp α) (xs : List α) : Prop := ∀ r, ¬ Peg P e xs r

section
variable {α : Type} {P : Nat → Option (PExp α)} {a b : PExp α} {xs ys : List α}

theorem Hangs.nt {i : Nat} {e : PExp α} (hi : P i = some e) (h : Hangs P e xs) : Hangs P (.nt i) xs := fun r hr => by
  cases hr with
  | nt h1 h2 => rw [hi] at h1; cases h1; exact h _ h2

theorem Hangs.seq (h : Hangs P a xs) : Hangs P (.seq a b) xs := fun r hr => by
  cases hr with
  | seq h1 h2 => exact h _ h1
  | seqNo h1 => exact h _ h1

theorem Hangs.seq_past (h : Peg P a xs (some ys)) (hb : Hangs P b ys) : Hangs P (.seq a b) xs := fun r hr => by
  cases hr with
  | seq h1 h2 => cases h.det h1; exact hb _ h2
  | seqNo h1 => cases h.det h1

theorem Hangs.alt (h : Hangs P a xs) : Hangs P (.alt a b) xs := fun r hr => by
  cases hr with
  | alt h1 => exact h _ h1
  | altNo h1 h2 => exact h _ h1

theorem Hangs.alt_past (h : Peg P a xs none) (hb : Hangs P b xs) : Hangs P (.alt a b) xs := fun r hr => by
  cases hr with
  | alt h1 => cases h.det h1
  | altNo h1 h2 => exact hb _ h2

theorem Hangs.star (h : Hangs P a xs) : Hangs P (.star a) xs := fun r hr => by
  cases hr with
  | star h1 h2 => exact h _ h1
  | starEnd h1 => exact h _ h1

theorem Hangs.star_past (h : Peg P a xs (some ys)) (hb : Hangs P (.star a) ys) : Hangs P (.star a) xs := fun r hr => by
  cases hr with
  | star h1 h2 => cases h.det h1; exact hb _ h2
  | starEnd h1 => cases h.det h1

theorem Hangs.star_spin (h : Peg P a xs (some xs)) : Hangs P (.star a) xs := by
  intro r hr
  generalize he : PExp.star a = e at hr
  induction hr with
  | star h1 h2 ih1 ih2 => cases he; cases h.det h1; exact ih2 h rfl
  | starEnd h1 => cases he; cases h.det h1
  | _ => cases he

end

namespace Json

/-- What is proved of the cut texts of each symbol. -/
def CutWant : JsonSym → List Char → Prop
  | .value, cs => Hangs Json.env.peg (.nt 0) (img cs) ∧ Head isHead cs
  | .object, cs => Hangs Json.env.peg (.nt 1) (img cs) ∧ Head (· = 123) cs
  | .members, cs => Hangs Json.env.peg (.nt 2) (img cs) ∧ Hangs Json.env.peg (.star (chain [cls (fun r => r = 44), .nt 3])) (img (',' :: cs))
  | .member, cs => Hangs Json.env.peg (.nt 3) (img cs)
  | .array, cs => Hangs Json.env.peg (.nt 5) (img cs) ∧ Head (· = 91) cs
  | .elements, cs => Hangs Json.env.peg (.nt 6) (img cs) ∧ Hangs Json.env.peg (.star (chain [cls (fun r => r = 44), .nt 7])) (img (',' :: cs))
  | .element, cs => Hangs Json.env.peg (.nt 7) (img cs)
  | .string, cs => (Hangs Json.env.peg (.nt 8) (img cs) ∧ Hangs Json.env.peg (.nt 4) (img cs)) ∧ Head (· = 34) cs
  | _, _ => True

theorem characters_hang {A : JsonSym} {cs : List Char} (h : JsonText A cs) (hA : A = .characters) :
    Hangs Json.env.peg (.star (.nt 10)) (img cs) := by
  induction h with
  | characters_none =>
    refine .star_spin (.nt (e := choice [cls (fun r => (32 ≤ r ∧ r ≤ maxRune) ∧ ¬ RuneIn b!"\"\\" r), chain [cls (fun r => r = 92), .nt 11]]) rfl (.alt ?_))
    unfold cls
    rw [if_pos ⟨by decide, fun h => absurd ((runeIn_iff _ _).mp h) (by decide)⟩]
    exact .altNo .chrEnd peg_end_nil
  | characters_more h1 h2 ih1 ih2 => exact .star_past (want h1 _ trivial) (ih2 rfl)
  | _ => cases hA

theorem cut_hangs {A : JsonSym} {cs : List Char} (h : JsonCut A cs) : CutWant A cs := by
  induction h with
  | @string cs h =>
    have : Hangs Json.env.peg (chain [cls (fun r => r = 34), .nt 9, cls (fun r => r = 34)]) (img ('"' :: cs)) :=
      .seq_past (peg_ru_yes '"' rfl) (.seq (.nt rfl (characters_hang h rfl)))
    exact ⟨⟨.nt rfl this, .nt rfl this⟩, '"', cs, rfl, rfl⟩
  | value_string _ ih =>
    refine ⟨.nt (e := choice [.nt 1, .nt 5, .nt 8, .nt 13, .nt 21, .nt 22]) rfl (.alt_past (object_no ?_) (.alt_past (array_no ?_) (.alt ih.1.1))),
      ih.2.imp fun n h => .inr (.inr (.inl h))⟩
    · exact ih.2.avoid fun n h => by omega
    · exact ih.2.avoid fun n h => by omega
  | value_object _ ih => exact ⟨.nt (e := choice [.nt 1, .nt 5, .nt 8, .nt 13, .nt 21, .nt 22]) rfl (.alt ih.1), ih.2.imp fun n h => .inl h⟩
  | value_array _ ih =>
    refine ⟨.nt (e := choice [.nt 1, .nt 5, .nt 8, .nt 13, .nt 21, .nt 22]) rfl (.alt_past (object_no ?_) (.alt ih.1)), ih.2.imp fun n h => .inr (.inl h)⟩
    exact ih.2.avoid fun n h => by omega
  | object _ ih =>
    exact ⟨.nt (e := chain [cls (fun r => r = 123), choice [.nt 2, .nt 23], cls (fun r => r = 125)]) rfl
      (.seq_past (peg_ru_yes '{' rfl) (.seq (.alt ih.1))), _, _, rfl, rfl⟩
  | members_first _ ih =>
    exact ⟨.nt (e := chain [.nt 3, .star (chain [cls (fun r => r = 44), .nt 3])]) rfl (.seq ih),
      .star (.seq_past (peg_ru_yes ',' rfl) (.seq ih))⟩
  | @members_next cs ds h1 _ ih =>
    have h2 := want h1 (',' :: ds) (.cons (by unfold isWS inNum isDigit; decide))
    exact ⟨.nt (e := chain [.nt 3, .star (chain [cls (fun r => r = 44), .nt 3])]) rfl (.seq_past h2 (.seq ih.2)),
      .star_past (.seq (peg_ru_yes ',' rfl) (.seq h2 .eps)) ih.2⟩
  | member_key h1 _ ih =>
    exact .nt (e := chain [.nt 23, .nt 4, .nt 23, cls (fun r => r = 58), .nt 7]) rfl
      (.seq_past ((want h1).2.1 _ (ih.2.avoid fun n h => by unfold isWS; omega)) (.seq ih.1.2))
  | member_value h1 h2 h3 _ ih =>
    exact .nt (e := chain [.nt 23, .nt 4, .nt 23, cls (fun r => r = 58), .nt 7]) rfl
      (.seq_past ((want h1).2.1 _ ((want h2).1.append.avoid fun n h => by unfold isWS; omega))
        (.seq_past ((want h2).2.2 _ trivial) (.seq_past ((want h3).2.1 _ (.cons (by unfold isWS; decide)))
          (.seq_past (peg_ru_yes ':' rfl) (.seq ih)))))
  | array _ ih =>
    exact ⟨.nt (e := chain [cls (fun r => r = 91), choice [.nt 6, .nt 23], cls (fun r => r = 93)]) rfl
      (.seq_past (peg_ru_yes '[' rfl) (.seq (.alt ih.1))), _, _, rfl, rfl⟩
  | elements_first _ ih =>
    exact ⟨.nt (e := chain [.nt 7, .star (chain [cls (fun r => r = 44), .nt 7])]) rfl (.seq ih),
      .star (.seq_past (peg_ru_yes ',' rfl) (.seq ih))⟩
  | @elements_next cs ds h1 _ ih =>
    have h2 := want h1 (',' :: ds) (.cons (by unfold isWS inNum isDigit; decide))
    exact ⟨.nt (e := chain [.nt 7, .star (chain [cls (fun r => r = 44), .nt 7])]) rfl (.seq_past h2 (.seq ih.2)),
      .star_past (.seq (peg_ru_yes ',' rfl) (.seq h2 .eps)) ih.2⟩
  | element h1 _ ih =>
    exact .nt (e := chain [.nt 23, .nt 0, .nt 23]) rfl
      (.seq_past ((want h1).2.1 _ (ih.2.avoid fun n h => by unfold isHead isDigit at h; unfold isWS; omega)) (.seq ih.1))

end Json

/-- Reading comes to an end exactly if the parsing expression matches or fails. -/
theorem ends_iff {srch : Bool} (rt : Rt) (G : Env) (hG : G.Every (Reader.pegOk srch)) (hK : G.keeps) (hS : G.Every (Reader.safeHere False G)) (r : Reader) (hr : r.Every (Reader.pegOk srch))
    (hs : r.Every (Reader.safeHere False G)) (s : Scanner) (hi : Inside s) (h t : Bytes) (hb : Between s h t) (xs : List Piece) (hp : Pieces t xs)
    (hc : srch = true → ∃ cs, t = encText cs) :
    (∃ n, read rt G n r s ≠ .timeout) ↔ ∃ res, Peg G.peg r.peg xs res := by
  constructor
  · rintro ⟨n, hn⟩
    rcases hx : read rt G n r s with ⟨_ | e, s'⟩ | _ | _
    · obtain ⟨⟨ok, st'⟩, h5, h6, h7⟩ := (read_eat rt G (hG.imp fun _ h => h.noWrap) n r (hr.imp fun _ h => h.noWrap)
        s.full s _ (sees_between hb)).left hx
      obtain ⟨x', hx', hb'⟩ := between_sees hb h7 (eat_shrinks rt G n _ _ _ h5)
      obtain ⟨ys, hq⟩ := Pieces.exists st'.rest
      exact ⟨_, (C34_success_partial rt G hG hK r hr s h t hb xs hp hc ys).mpr ⟨n, s', x', _, hx, hx', hb', hq⟩⟩
    · exact ⟨_, (C34_failure_partial rt G hG hK r hr s h t hb xs hp hc).mpr ⟨n, e, s', hx⟩⟩
    · exact absurd hx (C32_no_panic_partial rt G r hS hs n s hi)
    · exact absurd hx hn
  · rintro ⟨_ | ys, h1⟩
    · obtain ⟨n, e, s', h2⟩ := (C34_failure_partial rt G hG hK r hr s h t hb xs hp hc).mp h1
      exact ⟨n, by rw [h2]; simp⟩
    · obtain ⟨n, s', _, _, h2, _⟩ := (C34_success_partial rt G hG hK r hr s h t hb xs hp hc ys).mp h1
      exact ⟨n, by rw [h2]; simp⟩

namespace Json

/-- The expression matches or fails. -/
def Ends (e : PExp Piece) (cs : List Char) : Prop := ∃ res, Peg Json.env.peg e (img cs) res

theorem sound {e : PExp Piece} {cs : List Char} {ys : List Piece} (h : Peg Json.env.peg e (img cs) (some ys)) :
    ∃ u v, cs = u ++ v ∧ ys = img v ∧ e.clang Json.means u := by
  obtain ⟨zs, h1, h2⟩ := Peg.clang Json.means_closed h
  obtain ⟨u, v, rfl, rfl, rfl⟩ := List.map_eq_append_iff.mp h1
  exact ⟨u, v, rfl, rfl, h2 u (Runs.img u)⟩

theorem rule_ends (i : Nat) (hr : (Reader.rule i).everyB (Reader.safeB Json.env) = true) 
    (hh : ∀ st, Halts (fun k => eat exRt Json.env k (.rule i) st)) (cs : List Char) : Ends (.nt i) cs := by
  have hb : Between (.new (encText cs) Heap.empty) [] (encText cs) := ⟨rfl, rfl⟩
  have hp : (Reader.rule i).Every (Reader.pegOk false) := .mk trivial fun c hc => by simp [Reader.subs] at hc
  refine (ends_iff (srch := false) exRt Json.env Json.pegOk Json.keeps Json.safe (.rule i) hp ((Reader.everyB_sound _ _ hr).imp fun _ => safeHere_of_safeB) _ (new_inside _ _) _ _ hb _ (pieces_encText cs) (by simp)).mp ?_
  obtain ⟨n, h, _⟩ := halts_read (rt := exRt) (Env.everyB_sound (by decide)) (hp.imp fun _ h => h.noWrap) hb (hh _)
  exact ⟨n, h⟩

theorem easy_ends (i : Nat) (hi : i = 13 ∨ i = 21 ∨ i = 22 ∨ i = 23) (cs : List Char) : Ends (.nt i) cs := by
  refine rule_ends i (by rcases hi with rfl | rfl | rfl | rfl <;> decide) (fun st => ?_) cs
  exact halts_of_soundB exRt (nul := Json.nul) (srch := false) (rank := Json.rank) (K := fun _ => True)
    (vis := fun i => decide (13 ≤ i)) (base := fun _ => false) (fun _ _ _ _ => trivial) (by decide) (by decide)
    (fun _ h => by cases h) (by rcases hi with rfl | rfl | rfl | rfl <;> decide) st ⟨by simp, trivial⟩

theorem character_ends (cs : List Char) : Ends (.nt 10) cs := rule_ends 10 (by decide) (Json.character_halts exRt) cs

theorem ru_ends (n : Nat) (hn : n ≠ 0xFFFD) (cs : List Char) :
    (∃ c cs', cs = c :: cs' ∧ c.toNat = n ∧ Peg Json.env.peg (cls (fun r => r = (n : Int))) (img cs) (some (img cs'))) ∨
      Peg Json.env.peg (cls (fun r => r = (n : Int))) (img cs) none := by
  cases cs with
  | nil => exact .inr (peg_ru_no .nil hn)
  | cons c cs =>
    by_cases h : c.toNat = n
    · exact .inl ⟨c, cs, rfl, h, peg_ru_yes c (by omega)⟩
    · exact .inr (peg_ru_no (.cons h) hn)

theorem cls_cons {p : Int → Prop} {c : Char} {cs : List Char} {ys : List Piece} (h : Peg Json.env.peg (cls p) (img (c :: cs)) (some ys)) :
    ys = img cs ∧ p c.toNat := by
  by_cases hp : p c.toNat
  · have := h.det (peg_cls_yes hp)
    exact ⟨Option.some.inj this, hp⟩
  · cases h.det (peg_cls_no (.cons hp) (.inl (by simp)))

theorem character_cons {c : Char} {cs : List Char} {ys : List Piece} (h : Peg Json.env.peg (.nt 10) (img (c :: cs)) (some ys)) :
    ∃ u v, c :: cs = u ++ v ∧ ys = img v ∧ JsonText .character u ∧ u ≠ [] := by
  obtain ⟨e, he, h⟩ := Peg.nt_inv h
  have he : choice [cls (fun r => (32 ≤ r ∧ r ≤ maxRune) ∧ ¬ RuneIn b!"\"\\" r), chain [cls (fun r => r = 92), .nt 11]] = e := Option.some.inj he
  subst he
  rcases Peg.alt_some h with h | ⟨_, h⟩
  · obtain ⟨rfl, h1, h2⟩ := cls_cons h
    refine ⟨[c], cs, rfl, rfl, ?_, by simp⟩
    have h3 : ∀ d : Char, d ∈ ['"', '\\'] → c ≠ d := fun d hd e => h2 ((runeIn_iff _ _).mpr (mem_quote.mpr (by
      subst e; simp only [List.mem_cons, List.not_mem_nil, or_false] at hd; rcases hd with rfl | rfl <;> decide)))
    have hm : maxRune = 1114111 := rfl
    exact .character_plain (by omega) (by omega) (h3 _ (by simp)) (h3 _ (by simp))
  · rcases Peg.alt_some h with h | ⟨_, h⟩
    · obtain ⟨zs, h1, h2⟩ := Peg.seq_some h
      obtain ⟨rfl, h3⟩ := cls_cons h1
      have hc : c = '\\' := char_of h3
      subst hc
      obtain ⟨zs, h2, h4⟩ := Peg.seq_some h2
      cases h4
      obtain ⟨u, v, rfl, rfl, h5⟩ := sound h2
      exact ⟨_, v, rfl, rfl, .character_escape h5, by simp⟩
    · obtain ⟨_, h⟩ := Peg.neg_some h
      cases h

theorem characters_ends : ∀ (n : Nat) (cs : List Char), cs.length ≤ n → Ends (.star (.nt 10)) cs ∨ JsonText .characters cs
  | _, [], _ => .inr .characters_none
  | 0, c :: cs, h => by simp at h
  | n + 1, c :: cs, h => by
    obtain ⟨res, h1⟩ := character_ends (c :: cs)
    cases res with
    | none => exact .inl ⟨_, .starEnd h1⟩
    | some ys =>
      obtain ⟨u, v, h2, rfl, h3, h4⟩ := character_cons h1
      have h5 : v.length ≤ n := by
        have := congrArg List.length h2
        have := List.length_pos_iff.mpr h4
        simp only [List.length_append, List.length_cons] at *
        omega
      rcases characters_ends n v h5 with ⟨r, h6⟩ | h6
      · exact .inl ⟨r, .star h1 h6⟩
      · rw [h2]; exact .inr (.characters_more h3 h6)

/-- The expression matches, taking something in `T`, or fails, or the text is in `C`. -/
def EndsOr (e : PExp Piece) (T C : List Char → Prop) (cs : List Char) : Prop :=
  (∃ u v, cs = u ++ v ∧ T u ∧ Peg Json.env.peg e (img cs) (some (img v))) ∨ Peg Json.env.peg e (img cs) none ∨ C cs

theorem Ends.or {e : PExp Piece} {C : List Char → Prop} {cs : List Char} (h : Ends e cs) : EndsOr e (e.clang Json.means) C cs := by
  obtain ⟨_ | ys, h⟩ := h
  · exact .inr (.inl h)
  · obtain ⟨u, v, h1, rfl, h2⟩ := sound h
    exact .inl ⟨u, v, h1, h2, h⟩

theorem EndsOr.imp {e : PExp Piece} {T T' C C' : List Char → Prop} {cs : List Char} (h : EndsOr e T C cs) (ht : ∀ u, T u → T' u) (hc : C cs → C' cs) :
    EndsOr e T' C' cs := by
  rcases h with ⟨u, v, h1, h2, h3⟩ | h | h
  · exact .inl ⟨u, v, h1, ht _ h2, h3⟩
  · exact .inr (.inl h)
  · exact .inr (.inr (hc h))

theorem EndsOr.ends {e : PExp Piece} {T C : List Char → Prop} {cs : List Char} (h : EndsOr e T C cs) : Ends e cs ∨ C cs := by
  rcases h with ⟨u, v, h1, h2, h3⟩ | h | h
  · exact .inl ⟨_, h3⟩
  · exact .inl ⟨_, h⟩
  · exact .inr h

theorem ends_ru (d : Char) (hd : d.toNat ≠ 0xFFFD) (C : List Char → Prop) (cs : List Char) : EndsOr (cls (fun r => r = (d.toNat : Int))) (· = [d]) C cs := by
  rcases ru_ends d.toNat hd cs with ⟨c, cs', rfl, h1, h2⟩ | h
  · have := Char.toNat_inj.mp h1
    subst this
    exact .inl ⟨[c], cs', rfl, rfl, h2⟩
  · exact .inr (.inl h)

/-- One after the other. -/
theorem EndsOr.seq {a b : PExp Piece} {T C : List Char → Prop} {cs : List Char} (ha : EndsOr a T (fun cs => C cs) cs)
    (hb : ∀ u v, cs = u ++ v → T u → Ends b v ∨ C (u ++ v)) : Ends (.seq a b) cs ∨ C cs := by
  rcases ha with ⟨u, v, rfl, h2, h3⟩ | h | h
  · rcases hb u v rfl h2 with ⟨r, h4⟩ | h4
    · exact .inl ⟨r, .seq h3 h4⟩
    · exact .inr h4
  · exact .inl ⟨_, .seqNo h⟩
  · exact .inr h

/-- One or the other. -/
theorem ends_alt {a b : PExp Piece} {C : List Char → Prop} {cs : List Char} (ha : Ends a cs ∨ C cs) (hb : Ends b cs ∨ C cs) :
    Ends (.alt a b) cs ∨ C cs := by
  rcases ha with ⟨_ | ys, ha⟩ | h
  · rcases hb with ⟨r, hb⟩ | h
    · exact .inl ⟨r, .altNo ha hb⟩
    · exact .inr h
  · exact .inl ⟨_, .alt ha⟩
  · exact .inr h

theorem ends_nt {i : Nat} {e : PExp Piece} {C : List Char → Prop} {cs : List Char} (hi : Json.env.peg i = some e) (h : Ends e cs ∨ C cs) :
    Ends (.nt i) cs ∨ C cs := h.imp_left fun ⟨r, h⟩ => ⟨r, .nt hi h⟩

theorem ends_or {e : PExp Piece} {C : List Char → Prop} {cs : List Char} (h : Ends e cs ∨ C cs) : EndsOr e (e.clang Json.means) C cs := by
  rcases h with h | h
  · exact h.or
  · exact .inr (.inr h)

theorem string_ends (i : Nat) (hi : i = 8 ∨ i = 4) (cs : List Char) : Ends (.nt i) cs ∨ JsonCut .string cs := by
  refine ends_nt (e := chain [cls (fun r => r = 34), .nt 9, cls (fun r => r = 34)]) (by rcases hi with rfl | rfl <;> rfl) ?_
  refine (ends_ru '"' (by decide) _ cs).seq ?_
  rintro _ v rfl rfl
  rcases characters_ends _ v (Nat.le_refl _) with ⟨r, h⟩ | h
  · left
    cases r with
    | none => exact absurd h Peg.star_ne
    | some ys =>
      obtain ⟨u, w, rfl, rfl, _⟩ := sound h
      have := (ends_ru '"' (by decide) (fun _ => False) w).seq (b := .eps) (fun u v _ _ => .inl ⟨_, .eps⟩)
      obtain ⟨r, h1⟩ := this.resolve_right id
      exact ⟨r, .seq (.nt rfl h) h1⟩
  · exact .inr (.string h)

theorem eps_ends {cs : List Char} : Ends .eps cs := ⟨_, .eps⟩

theorem fail_ends {C : List Char → Prop} {cs : List Char} : Ends (choice []) cs ∨ C cs := .inl ⟨_, .negNo .eps⟩

theorem len_lt {u v : List Char} {N : Nat} (h : (u ++ v).length ≤ N) (hu : u ≠ []) : v.length < N := by
  have := List.length_pos_iff.mpr hu
  simp only [List.length_append] at h
  omega

section
variable {N : Nat} (ih : ∀ cs : List Char, cs.length < N → Ends (.nt 7) cs ∨ JsonCut .element cs)
include ih

theorem member_ends (cs : List Char) (hl : cs.length ≤ N) : Ends (.nt 3) cs ∨ JsonCut .member cs := by
  refine ends_nt (e := chain [.nt 23, .nt 4, .nt 23, cls (fun r => r = 58), .nt 7]) rfl ?_
  refine (easy_ends 23 (by simp) cs).or.seq ?_
  rintro us v rfl (hu : JsonText .ws us)
  refine ((ends_or (string_ends 4 (by simp) v)).imp (T' := JsonText .string) (C' := fun v => JsonCut .member (us ++ v)) (fun u h => h) (.member_key hu)).seq ?_
  rintro ks v rfl hk
  refine (Ends.or (C := fun v => JsonCut .member (us ++ (ks ++ v))) (easy_ends 23 (by simp) v)).seq ?_
  rintro vs v rfl (hv : JsonText .ws vs)
  refine (ends_ru ':' (by decide) (fun v => JsonCut .member (us ++ (ks ++ (vs ++ v)))) v).seq ?_
  rintro _ v rfl rfl
  refine ((ends_or (ih v ?_)).imp (C' := fun v => JsonCut .member (us ++ (ks ++ (vs ++ ([':'] ++ v))))) (fun u h => h) (.member_value hu hk hv)).seq
    fun _ _ _ _ => .inl eps_ends
  simp only [List.length_append, List.length_cons, List.length_nil] at hl
  omega

end

/-- The rest of a list. -/
theorem comma_ends {i N : Nat} {C D : List Char → Prop} (h : ∀ cs : List Char, cs.length < N → Ends (.nt i) cs ∨ C cs) (h1 : ∀ cs, C cs → D cs)
    (h2 : ∀ cs ds, Json.means i cs → D ds → D (cs ++ ',' :: ds)) : ∀ (n : Nat) (cs : List Char), cs.length ≤ n → n ≤ N →
    Ends (.star (chain [cls (fun r => r = 44), .nt i])) cs ∨ ∃ ds, cs = ',' :: ds ∧ D ds
  | n, cs, hn, hN => by
    rcases ends_ru ',' (by decide) (fun _ => False) cs with ⟨_, v, rfl, rfl, h3⟩ | h3 | h3
    · have hl : v.length < n := len_lt hn (by simp)
      rcases ends_or (h v (by omega)) with ⟨u, w, rfl, h4, h5⟩ | h5 | h5
      · have h6 : w.length < n := by simp only [List.length_append] at hl; omega
        rcases comma_ends h h1 h2 w.length w (Nat.le_refl _) (by omega) with ⟨r, h7⟩ | ⟨ds, rfl, h7⟩
        · exact .inl ⟨r, .star (.seq h3 (.seq h5 .eps)) h7⟩
        · exact .inr ⟨_, rfl, h2 _ _ h4 h7⟩
      · exact .inl ⟨_, .starEnd (.seq h3 (.seqNo h5))⟩
      · exact .inr ⟨_, rfl, h1 _ h5⟩
    · exact .inl ⟨_, .starEnd (.seqNo h3)⟩
    · exact h3.elim
  termination_by n => n

section
variable {N : Nat} (ih : ∀ cs : List Char, cs.length < N → Ends (.nt 7) cs ∨ JsonCut .element cs)
include ih

theorem members_ends (cs : List Char) (hl : cs.length ≤ N) : Ends (.nt 2) cs ∨ JsonCut .members cs := by
  refine ends_nt (e := chain [.nt 3, .star (chain [cls (fun r => r = 44), .nt 3])]) rfl ?_
  refine ((ends_or (member_ends ih cs hl)).imp (T' := JsonText .member) (fun u h => h) .members_first).seq ?_
  rintro u v rfl hu
  rcases comma_ends (i := 3) (N := N) (D := JsonCut .members) (fun cs hc => member_ends ih cs (by omega)) (fun _ h => .members_first h) (fun _ _ h => .members_next h) v.length v
    (Nat.le_refl _) (by simp only [List.length_append] at hl; omega) with ⟨r, h⟩ | ⟨ds, rfl, h⟩
  · cases r with
    | none => exact absurd h Peg.star_ne
    | some ys => exact .inl ⟨_, .seq h .eps⟩
  · exact .inr (.members_next hu h)

theorem elements_ends (cs : List Char) (hl : cs.length < N) : Ends (.nt 6) cs ∨ JsonCut .elements cs := by
  refine ends_nt (e := chain [.nt 7, .star (chain [cls (fun r => r = 44), .nt 7])]) rfl ?_
  refine ((ends_or (ih cs hl)).imp (T' := JsonText .element) (fun u h => h) .elements_first).seq ?_
  rintro u v rfl hu
  rcases comma_ends (i := 7) (N := N) (D := JsonCut .elements) ih (fun _ h => .elements_first h) (fun _ _ h => .elements_next h) v.length v
    (Nat.le_refl _) (by simp only [List.length_append] at hl; omega) with ⟨r, h⟩ | ⟨ds, rfl, h⟩
  · cases r with
    | none => exact absurd h Peg.star_ne
    | some ys => exact .inl ⟨_, .seq h .eps⟩
  · exact .inr (.elements_next hu h)

theorem object_ends (cs : List Char) (hl : cs.length ≤ N) : Ends (.nt 1) cs ∨ JsonCut .object cs := by
  refine ends_nt (e := chain [cls (fun r => r = 123), choice [.nt 2, .nt 23], cls (fun r => r = 125)]) rfl ?_
  refine (ends_ru '{' (by decide) _ cs).seq ?_
  rintro _ v rfl rfl
  have h := ends_alt (C := fun v => JsonCut .object ('{' :: v)) ((members_ends ih v (Nat.le_of_lt (len_lt hl (by simp)))).imp_right .object) 
    (ends_alt (C := fun v => JsonCut .object ('{' :: v)) (.inl (easy_ends 23 (by simp) v)) (.inl ⟨_, .negNo .eps⟩))
  exact EndsOr.seq (C := fun v => JsonCut .object ('{' :: v)) (ends_or h) fun u w _ _ =>
    (ends_ru '}' (by decide) (fun w => JsonCut .object ('{' :: (u ++ w))) w).seq fun _ _ _ _ => .inl eps_ends

theorem array_ends (cs : List Char) (hl : cs.length ≤ N) : Ends (.nt 5) cs ∨ JsonCut .array cs := by
  refine ends_nt (e := chain [cls (fun r => r = 91), choice [.nt 6, .nt 23], cls (fun r => r = 93)]) rfl ?_
  refine (ends_ru '[' (by decide) _ cs).seq ?_
  rintro _ v rfl rfl
  have h := ends_alt (C := fun v => JsonCut .array ('[' :: v)) ((elements_ends ih v (len_lt hl (by simp))).imp_right .array) 
    (ends_alt (C := fun v => JsonCut .array ('[' :: v)) (.inl (easy_ends 23 (by simp) v)) (.inl ⟨_, .negNo .eps⟩))
  exact EndsOr.seq (C := fun v => JsonCut .array ('[' :: v)) (ends_or h) fun u w _ _ =>
    (ends_ru ']' (by decide) (fun w => JsonCut .array ('[' :: (u ++ w))) w).seq fun _ _ _ _ => .inl eps_ends

theorem value_ends (cs : List Char) (hl : cs.length ≤ N) : Ends (.nt 0) cs ∨ JsonCut .value cs := by
  refine ends_nt (e := choice [.nt 1, .nt 5, .nt 8, .nt 13, .nt 21, .nt 22]) rfl ?_
  exact ends_alt ((object_ends ih cs hl).imp_right .value_object) (ends_alt ((array_ends ih cs hl).imp_right .value_array)
    (ends_alt ((string_ends 8 (by simp) cs).imp_right .value_string) (ends_alt (.inl (easy_ends 13 (by simp) cs))
      (ends_alt (.inl (easy_ends 21 (by simp) cs)) (ends_alt (.inl (easy_ends 22 (by simp) cs)) fail_ends)))))

theorem element_step (cs : List Char) (hl : cs.length ≤ N) : Ends (.nt 7) cs ∨ JsonCut .element cs := by
  refine ends_nt (e := chain [.nt 23, .nt 0, .nt 23]) rfl ?_
  refine (easy_ends 23 (by simp) cs).or.seq ?_
  rintro us v rfl (hu : JsonText .ws us)
  refine ((ends_or (value_ends ih v (by simp only [List.length_append] at hl; omega))).imp (T' := fun _ => True)
    (C' := fun v => JsonCut .element (us ++ v)) (fun _ _ => trivial) (.element hu)).seq fun u w _ _ => ?_
  exact (Ends.or (C := fun w => JsonCut .element (us ++ (u ++ w))) (easy_ends 23 (by simp) w)).seq fun _ _ _ _ => .inl eps_ends

end

theorem element_ends : ∀ (n : Nat) (cs : List Char), cs.length < n → Ends (.nt 7) cs ∨ JsonCut .element cs
  | 0, _, h => by omega
  | n + 1, cs, h => element_step (element_ends n) cs (by omega)

/-- The rule `Element` matches or fails exactly if the text is not cut off in a string. -/
theorem element_iff (cs : List Char) : Ends (.nt 7) cs ↔ ¬ JsonCut .element cs := by
  constructor
  · rintro ⟨r, h⟩ hc
    exact cut_hangs hc r h
  · exact (element_ends _ cs (Nat.lt_succ_self _)).resolve_right

theorem blind : ∀ i e, Json.env.peg i = some e → e.Blind Shown := by
  intro i e hi
  have lt : (litExp b!"true").Blind Shown := blind_lit (ds := ['t', 'r', 'u', 'e']) (by decide)
  have lf : (litExp b!"false").Blind Shown := blind_lit (ds := ['f', 'a', 'l', 's', 'e']) (by decide)
  have ln : (litExp b!"null").Blind Shown := blind_lit (ds := ['n', 'u', 'l', 'l']) (by decide)
  have d : (one (fun r => 48 ≤ r ∧ r ≤ 57)).Blind Shown := blind_one
  match i, hi with
  | 0, hi | 1, hi | 2, hi | 3, hi | 4, hi | 5, hi | 6, hi | 7, hi | 8, hi | 9, hi | 10, hi | 11, hi | 12, hi | 13, hi | 14, hi
  | 15, hi | 16, hi | 17, hi | 18, hi | 19, hi | 20, hi | 21, hi | 22, hi | 23, hi =>
    rw [← Option.some.inj hi]
    repeat' first | exact d | exact blind_cls | exact blind_one | exact lt | exact lf | exact ln | trivial | refine ⟨?_, ?_⟩
  | n + 24, hi => cases hi

/-! ### texts that begin with a document -/

theorem opt_some {a : PExp Piece} {cs : List Char} (h : Ends a cs) : ∃ v, Peg Json.env.peg (.alt a .eps) (img cs) (some (img v)) := by
  obtain ⟨_ | ys, h⟩ := h
  · exact ⟨cs, .altNo h .eps⟩
  · obtain ⟨u, v, _, rfl, _⟩ := sound h
    exact ⟨v, .alt h⟩

theorem digits_ends (cs : List Char) : Ends (.nt 19) cs :=
  rule_ends 19 (by decide) (fun st => halts_of_soundB exRt (nul := Json.nul) (srch := false) (rank := Json.rank) (K := fun _ => True)
    (vis := fun i => decide (13 ≤ i)) (base := fun _ => false) (fun _ _ _ _ => trivial) (by decide) (by decide)
    (fun _ h => by cases h) (by decide) st ⟨by simp, trivial⟩) cs

theorem part_some (i : Nat) (hi : i = 15 ∨ i = 16 ∨ i = 23) (cs : List Char) : ∃ v, Peg Json.env.peg (.nt i) (img cs) (some (img v)) := by
  have : Ends (.nt i) cs := by
    refine rule_ends i (by rcases hi with rfl | rfl | rfl <;> decide) (fun st => ?_) cs
    exact halts_of_soundB exRt (nul := Json.nul) (srch := false) (rank := Json.rank) (K := fun _ => True)
      (vis := fun i => decide (13 ≤ i)) (base := fun _ => false) (fun _ _ _ _ => trivial) (by decide) (by decide)
      (fun _ h => by cases h) (by rcases hi with rfl | rfl | rfl <;> decide) st ⟨by simp, trivial⟩
  obtain ⟨_ | ys, h⟩ := this
  · obtain ⟨e, he, h⟩ := Peg.nt_inv h
    rcases hi with rfl | rfl | rfl
    · have he : PExp.alt (chain [cls (fun r => r = 46), .nt 19]) .eps = e := Option.some.inj he
      subst he
      cases (Peg.alt_none h).2
    · have he : PExp.alt (chain [cls (RuneIn b!"eE"), .nt 20, .nt 19]) .eps = e := Option.some.inj he
      subst he
      cases (Peg.alt_none h).2
    · have he : PExp.star (cls (RuneIn b!" \r\n\t")) = e := Option.some.inj he
      subst he
      exact absurd h Peg.star_ne
  · obtain ⟨u, v, _, rfl, _⟩ := sound h
    exact ⟨v, h⟩

theorem number_some {u : List Char} (h : JsonText .number u) (v : List Char) : ∃ w, Peg Json.env.peg (.nt 13) (img (u ++ v)) (some (img w)) := by
  obtain ⟨sg, c, rest, hsg, hd, rfl⟩ : ∃ sg c rest, (sg = [] ∨ sg = ['-']) ∧ isDigit c.toNat ∧ u = sg ++ c :: rest := by
    cases h with
    | number h1 h2 h3 =>
      cases h1 with
      | integer_digit h1 => obtain ⟨c, rfl, hd⟩ := want h1; exact ⟨[], c, _, .inl rfl, hd, rfl⟩
      | integer_digits h1 h2 => obtain ⟨c, rfl, hd⟩ := want h1; exact ⟨[], c, _, .inl rfl, by unfold isDigit; omega, rfl⟩
      | integer_minus_digit h1 => obtain ⟨c, rfl, hd⟩ := want h1; exact ⟨['-'], c, _, .inr rfl, hd, rfl⟩
      | integer_minus_digits h1 h2 => obtain ⟨c, rfl, hd⟩ := want h1; exact ⟨['-'], c, _, .inr rfl, by unfold isDigit; omega, rfl⟩
  rw [List.append_assoc, List.cons_append]
  generalize rest ++ v = w
  have hs : Peg Json.env.peg (.alt (cls (fun r => r = 45)) .eps) (img (sg ++ c :: w)) (some (img (c :: w))) := by
    rcases hsg with rfl | rfl
    · exact .altNo (peg_ru_no (n := 45) (.cons (by unfold isDigit at hd; omega)) (by decide)) .eps
    · exact .alt (peg_ru_yes '-' rfl)
  have hi : ∃ w', Peg Json.env.peg (choice [cls (fun r => r = 48), chain [.nt 17, .alt (.nt 19) .eps]]) (img (c :: w)) (some (img w')) := by
    by_cases h0 : c.toNat = 48
    · exact ⟨w, .alt (peg_ru_yes c (by omega))⟩
    · obtain ⟨w', h1⟩ := opt_some (digits_ends w)
      refine ⟨w', .altNo (peg_ru_no (n := 48) (.cons h0) (by decide)) (.alt (.seq (ys := img w) (.nt rfl (peg_one_yes ?_)) (.seq h1 .eps)))⟩
      unfold isDigit at hd
      constructor <;> omega
  obtain ⟨w1, h1⟩ := hi
  obtain ⟨w2, h2⟩ := part_some 15 (by simp) w1
  obtain ⟨w3, h3⟩ := part_some 16 (by simp) w2
  exact ⟨w3, .nt (e := chain [.nt 14, .nt 15, .nt 16]) rfl (.seq (.nt (e := chain [.alt (cls (fun r => r = 45)) .eps,
    choice [cls (fun r => r = 48), chain [.nt 17, .alt (.nt 19) .eps]]]) rfl (.seq hs (.seq h1 .eps))) (.seq h2 (.seq h3 .eps)))⟩

theorem value_some {u : List Char} (h : JsonText .value u) (v : List Char) : ∃ w, Peg Json.env.peg (.nt 0) (img (u ++ v)) (some (img w)) := by
  cases h with
  | value_object h => exact ⟨v, .nt (e := choice [.nt 1, .nt 5, .nt 8, .nt 13, .nt 21, .nt 22]) rfl (.alt ((want h).2 v trivial))⟩
  | value_array h =>
    exact ⟨v, .nt (e := choice [.nt 1, .nt 5, .nt 8, .nt 13, .nt 21, .nt 22]) rfl
      (.altNo (object_no ((want h).1.append.avoid fun n h => by omega)) (.alt ((want h).2 v trivial)))⟩
  | value_string h =>
    exact ⟨v, .nt (e := choice [.nt 1, .nt 5, .nt 8, .nt 13, .nt 21, .nt 22]) rfl
      (.altNo (object_no ((want h).1.append.avoid fun n h => by omega)) (.altNo (array_no ((want h).1.append.avoid fun n h => by omega))
        (.alt ((want h).2.1 v trivial))))⟩
  | value_number h =>
    obtain ⟨w, h1⟩ := number_some h v
    have hh : ∀ n, n = 45 ∨ isDigit n → 45 ≤ n ∧ n ≤ 57 := fun n h => by unfold isDigit at h; omega
    exact ⟨w, .nt (e := choice [.nt 1, .nt 5, .nt 8, .nt 13, .nt 21, .nt 22]) rfl
      (.altNo (object_no ((want h).1.append.avoid fun n h => by have := hh n h; omega))
        (.altNo (array_no ((want h).1.append.avoid fun n h => by have := hh n h; omega))
          (.altNo (string_no ((want h).1.append.avoid fun n h => by have := hh n h; omega)) (.alt h1))))⟩
  | value_true =>
    refine ⟨v, .nt rfl (.altNo (object_no ?_) (.altNo (array_no ?_) (.altNo (string_no ?_) (.altNo (number_no ?_) (.alt ?_)))))⟩
    · exact .cons (by decide)
    · exact .cons (by decide)
    · exact .cons (by decide)
    · exact .cons (by unfold isDigit; decide)
    · exact .nt (e := choice [litExp (encText ['t', 'r', 'u', 'e']), litExp (encText ['f', 'a', 'l', 's', 'e'])]) rfl (.alt (peg_lit_yes _))
  | value_false =>
    refine ⟨v, .nt rfl (.altNo (object_no ?_) (.altNo (array_no ?_) (.altNo (string_no ?_) (.altNo (number_no ?_) (.alt ?_)))))⟩
    · exact .cons (by decide)
    · exact .cons (by decide)
    · exact .cons (by decide)
    · exact .cons (by unfold isDigit; decide)
    · exact .nt (e := choice [litExp (encText ['t', 'r', 'u', 'e']), litExp (encText ['f', 'a', 'l', 's', 'e'])]) rfl
        (.altNo (peg_lit_no 't' (.cons (by decide))) (.alt (peg_lit_yes _)))
  | value_null =>
    refine ⟨v, .nt rfl (.altNo (object_no ?_) (.altNo (array_no ?_) (.altNo (string_no ?_) (.altNo (number_no ?_) (.altNo (bool_no ?_) (.alt ?_))))))⟩
    · exact .cons (by decide)
    · exact .cons (by decide)
    · exact .cons (by decide)
    · exact .cons (by unfold isDigit; decide)
    · exact .cons (by decide)
    · exact .nt (e := litExp (encText ['n', 'u', 'l', 'l'])) rfl (peg_lit_yes _)

theorem element_some {u : List Char} (h : JsonText .element u) (v : List Char) : ∃ w, Peg Json.env.peg (.nt 7) (img (u ++ v)) (some (img w)) := by
  cases h with
  | @element us cs vs h1 h2 h3 =>
    obtain ⟨w, h4⟩ := value_some h2 (vs ++ v)
    obtain ⟨w', h5⟩ := part_some 23 (by simp) w
    refine ⟨w', .nt (e := chain [.nt 23, .nt 0, .nt 23]) rfl (.seq (ys := img (cs ++ (vs ++ v))) ?_ (.seq h4 (.seq h5 .eps)))⟩
    rw [List.append_assoc, List.append_assoc]
    exact (want h1).2.1 _ ((want h2).1.append.avoid fun n h => by unfold isHead isDigit at h; unfold isWS; omega)

end Json

/-- Success: every text and position; let `cs` be the characters of the text, with malformed
bytes read as U+FFFD.  Reading JSON succeeds exactly if `cs` begins with a JSON document. -/
theorem C48_begins (rt : Rt) (s : Scanner) (h t : Bytes) (hb : Between s h t) (zs : List Piece) (hp : Pieces t zs)
    (cs : List Char) (hc : zs.map (·.2) = cs.map (fun c => (c.toNat : Int))) :
    (∃ n s', read rt Json.env n Json.reader s = .ret (none, s')) ↔ ∃ ds es, cs = ds ++ es ∧ JsonDoc ds := by
  have key : (∃ zs', Peg Json.env.peg (.nt 7) zs (some zs')) ↔ ∃ ds es, cs = ds ++ es ∧ JsonDoc ds := by
    rw [some_shown Json.blind (e := .nt 7) trivial (shown_of hp hc)]
    constructor
    · rintro ⟨ys, h1⟩
      obtain ⟨u, v, h2, _, h3⟩ := Json.sound h1
      exact ⟨u, v, h2, h3⟩
    · rintro ⟨ds, es, rfl, h1⟩
      obtain ⟨w, h2⟩ := Json.element_some h1 es
      exact ⟨_, h2⟩
  rw [← key]
  have h34 := C34_success_partial (srch := false) rt _ Json.pegOk Json.keeps _ Json.reader_pegOk s h t hb zs hp (by simp)
  constructor
  · rintro ⟨n, s', hr⟩
    obtain ⟨⟨ok, st'⟩, h5, h6, h7⟩ := (read_eat rt Json.env (Env.everyB_sound (by decide)) n Json.reader
      (Reader.everyB_sound Reader.noWrap Json.reader (by decide)) s.full s _ (sees_between hb)).left hr
    obtain ⟨x', hx', hb'⟩ := between_sees hb h7 (eat_shrinks rt Json.env n _ _ _ h5)
    obtain ⟨ys, hq⟩ := Pieces.exists st'.rest
    exact ⟨ys, (h34 ys).mpr ⟨n, s', x', _, hr, hx', hb', hq⟩⟩
  · rintro ⟨ys, h1⟩
    obtain ⟨n, s', _, _, h2, _⟩ := (h34 ys).mp h1
    exact ⟨n, s', h2⟩

/-- Termination: reading JSON does not come to an end exactly if the text is cut off in a string. -/
theorem C49_exact_partial (rt : Rt) (s : Scanner) (h t : Bytes) (hb : Between s h t) (hi : Inside s) (zs : List Piece) (hp : Pieces t zs)
    (cs : List Char) (hc : zs.map (·.2) = cs.map (fun c => (c.toNat : Int))) :
    (∀ n, read rt Json.env n Json.reader s = .timeout) ↔ JsonCut .element cs := by
  have h1 := ends_iff (srch := false) rt Json.env Json.pegOk Json.keeps Json.safe Json.reader Json.reader_pegOk
    ((Reader.everyB_sound (Reader.safeB Json.env) Json.reader (by decide)).imp fun _ => safeHere_of_safeB) s hi h t hb zs hp (by simp)
  have h2 := h1.trans ((ends_shown Json.blind (e := .nt 7) trivial (shown_of hp hc)).trans (Json.element_iff cs))
  rw [← not_iff_not, ← h2]
  exact not_forall

/-- Failure: in all other cases an error is reported. -/
theorem C49_error_partial (rt : Rt) (s : Scanner) (h t : Bytes) (hb : Between s h t) (hi : Inside s) (zs : List Piece) (hp : Pieces t zs)
    (cs : List Char) (hc : zs.map (·.2) = cs.map (fun c => (c.toNat : Int))) :
    (∃ n e s', read rt Json.env n Json.reader s = .ret (some e, s')) ↔ (∀ ds es, cs = ds ++ es → ¬ JsonDoc ds) ∧ ¬ JsonCut .element cs := by
  have h1 := C48_begins rt s h t hb zs hp cs hc
  have h2 := C49_exact_partial rt s h t hb hi zs hp cs hc
  constructor
  · rintro ⟨n, e, s', hr⟩
    constructor
    · intro ds es hd hj
      obtain ⟨m, s'', hm⟩ := h1.mpr ⟨ds, es, hd, hj⟩
      have := (read_mono (Nat.le_max_left n m) hr).symm.trans (read_mono (Nat.le_max_right n m) hm)
      simp at this
    · intro hcut
      have := h2.mpr hcut n
      rw [hr] at this
      cases this
  · rintro ⟨h3, h4⟩
    rw [← h2, not_forall] at h4
    obtain ⟨n, hn⟩ := h4
    rcases hx : read rt Json.env n Json.reader s with ⟨_ | e, s'⟩ | _ | _
    · obtain ⟨ds, es, hd, hj⟩ := h1.mp ⟨n, s', hx⟩
      exact absurd hj (h3 ds es hd)
    · exact ⟨n, e, s', hx⟩
    · exact absurd hx (C32_no_panic_partial rt _ _ Json.safe
        ((Reader.everyB_sound (Reader.safeB Json.env) Json.reader (by decide)).imp fun _ => safeHere_of_safeB) n s hi)
    · exact absurd hx hn

/-- The texts of characters on which reading JSON goes on forever. -/
theorem C49_text_partial (rt : Rt) (cs : List Char) : Diverges rt Json.env Json.reader (encText cs) ↔ JsonCut .element cs :=
  C49_exact_partial rt _ [] _ ⟨rfl, rfl⟩ (new_inside _ _) _ (pieces_encText cs) cs (by simp)

/-- A text that is cut off in a string: `{"a": ["x\n`. -/
example (rt : Rt) : Diverges rt Json.env Json.reader b!"{\"a\": [\"x\\n" := by
  refine (C49_text_partial rt "{\"a\": [\"x\\n".toList).mpr ?_
  have ch : ∀ c : Char, 0x20 ≤ c.toNat → c.toNat ≤ 0x10FFFF → c ≠ '"' → c ≠ '\\' → JsonText .characters [c] := fun c h1 h2 h3 h4 =>
    .characters_more (cs := [c]) (.character_plain h1 h2 h3 h4) .characters_none
  exact .element (us := []) .ws_none (.value_object (.object (.members_first (.member_value (us := []) (cs := ['"', 'a', '"']) (vs := []) .ws_none
    (.string (cs := ['a']) (ch 'a' (by decide) (by decide) (by decide) (by decide))) .ws_none
    (.element (us := [' ']) (.ws_space .ws_none) (.value_array (.array (.elements_first (.element (us := []) .ws_none (.value_string (.string
      (.characters_more (cs := ['x']) (.character_plain (by decide) (by decide) (by decide) (by decide))
        (.characters_more (cs := ['\\', 'n']) (.character_escape (.escape_one (by simp))) .characters_none)))))))))))))

/-- A text that is cut off in an escape sequence is none of these. -/
example : ¬ JsonCut .element "[\"x\\".toList := by
  intro h
  have h1 : ∃ x, read exRt Json.env 40 Json.reader (.new (encText "[\"x\\".toList) Heap.empty) = .ret x := ⟨_, rfl⟩
  obtain ⟨x, h1⟩ := h1
  cases h1.symm.trans ((C49_text_partial exRt _).mpr h 40)

end Tok
