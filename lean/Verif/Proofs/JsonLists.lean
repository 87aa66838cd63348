/-
The lists of the JSON grammar take as much as they can.
-/
import Verif.Proofs.JsonLongest
import Verif.Spec.JsonFault

namespace Tok
open Spec PExp
namespace Json

/-- Any number of words of `L`, each one behind a comma. -/
inductive Commas (L : List Char → Prop) : List Char → Prop
  | nil : Commas L []
  | cons {a b} : L a → Commas L b → Commas L (',' :: (a ++ b))

theorem Commas.head {L : List Char → Prop} {y : List Char} (h : Commas L y) : y = [] ∨ Head (· = 44) y := by
  cases h with
  | nil => exact .inl rfl
  | cons h1 h2 => exact .inr ⟨',', _, rfl, rfl⟩

theorem upto_commas {i : Nat} {L : List Char → Prop} {p : Nat → Prop} (hi : Upto (.nt i) L p) (ht : Takes' (.nt i) L) (hp : ¬ p 44) :
    Upto (.star (chain [cls (fun r => r = 44), .nt i])) (Commas L) (fun n => p n ∨ n = 44) := by
  intro y z w h hy
  induction hy generalizing z w with
  | nil =>
    refine ⟨(shrinks h).length_le, fun hl => ?_⟩
    rcases Peg.star_inv h with ⟨zs, h1, h2⟩ | ⟨h1, h2⟩
    · obtain ⟨ys, h3, h4⟩ := Peg.seq_some h1
      exact (ru_head (n := 44) (by decide) h3).imp fun _ => .inr
    · have := img_inj h2
      subst this
      exact absurd hl (Nat.lt_irrefl _)
  | @cons a b ha hb ih =>
    obtain ⟨w1, h1⟩ := ht a (b ++ z) ha
    have e : ',' :: (a ++ b) ++ z = ',' :: (a ++ (b ++ z)) := by simp
    rw [e] at h
    have h2 : Peg Json.env.peg (chain [cls (fun r => r = 44), .nt i]) (img (',' :: (a ++ (b ++ z)))) (some (img w1)) :=
      .seq (peg_ru_yes ',' rfl) (.seq h1 .eps)
    rcases Peg.star_inv h with ⟨zs, h3, h4⟩ | ⟨h3, _⟩
    · have := Option.some.inj (h2.det h3)
      subst this
      obtain ⟨h5, h6⟩ := hi a (b ++ z) w1 h1 ha
      by_cases h7 : w1.length = (b ++ z).length
      · have := suffix_same (shrinks h1) h7
        subst this
        exact ih z w h4
      · have h8 := h6 (by omega)
        rcases hb.head with rfl | h9
        · have := (shrinks h4).length_le
          exact ⟨by simp at h5; omega, fun _ => h8.imp fun _ => .inl⟩
        · obtain ⟨c, r, h10, h11⟩ := h8
          obtain ⟨d, r', h12, h13⟩ := h9.append (ds := z)
          rw [h10] at h12
          cases h12
          have h13 : c.toNat = 44 := h13
          rw [h13] at h11
          exact absurd h11 hp
    · cases h2.det h3

theorem upto_list {i : Nat} {L : List Char → Prop} {p : Nat → Prop} (hi : Upto (.nt i) L p) (ht : Takes' (.nt i) L) (hp : ¬ p 44) :
    Upto (chain [.nt i, .star (chain [cls (fun r => r = 44), .nt i])]) (fun y => ∃ u v, y = u ++ v ∧ L u ∧ Commas L v) (fun n => p n ∨ n = 44) := by
  have h1 := Upto.seq (r := fun _ => False) (upto_commas hi ht hp) (Upto.eps (p := fun _ => False)) (fun y h => .inl h) (fun _ _ h => h)
  have h2 := Upto.seq (r := (· = 44)) hi h1 (by
    rintro _ ⟨a, _, rfl, ha, rfl⟩
    simpa using ha.head) (fun n h e => hp (e ▸ h))
  refine h2.imp ?_ (fun n h => by tauto)
  rintro _ ⟨u, v, rfl, hu, hv⟩
  exact ⟨u, v, rfl, hu, v, [], by simp, hv, rfl⟩

theorem list_some {i : Nat} {L : List Char → Prop} (ht : Takes' (.nt i) L) {y z : List Char} (hy : L y) {r : Option (List Piece)}
    (h : Peg Json.env.peg (chain [.nt i, .star (chain [cls (fun r => r = 44), .nt i])]) (img (y ++ z)) r) : r ≠ none := by
  rintro rfl
  obtain ⟨w, h1⟩ := ht y z hy
  rcases Peg.seq_none h with h2 | ⟨ys, h2, h3⟩
  · cases h1.det h2
  · rcases Peg.seq_none h3 with h4 | ⟨zs, h4, h5⟩
    · exact Peg.star_ne h4
    · cases h5

theorem elements_list {A : JsonSym} {y : List Char} (h : JsonText A y) : (A = .elements → ∃ u v, y = u ++ v ∧ JsonText .element u ∧ Commas (JsonText .element) v) ∧
    (A = .members → ∃ u v, y = u ++ v ∧ JsonText .member u ∧ Commas (JsonText .member) v) := by
  induction h with
  | elements_one h => exact ⟨fun _ => ⟨_, [], by simp, h, .nil⟩, fun e => by cases e⟩
  | members_one h => exact ⟨(fun e => by cases e), fun _ => ⟨_, [], by simp, h, .nil⟩⟩
  | @elements_more cs ds h1 _ _ ih =>
    obtain ⟨u, v, rfl, hu, hv⟩ := ih.1 rfl
    exact ⟨fun _ => ⟨cs, _, rfl, h1, .cons hu hv⟩, fun e => by cases e⟩
  | @members_more cs ds h1 _ _ ih =>
    obtain ⟨u, v, rfl, hu, hv⟩ := ih.2 rfl
    exact ⟨(fun e => by cases e), fun _ => ⟨cs, _, rfl, h1, .cons hu hv⟩⟩
  | _ => exact ⟨(fun e => by cases e), fun e => by cases e⟩

theorem element_takes : Takes' (.nt 7) (JsonText .element) := fun _ z h => element_some h z

theorem member_front {us cs vs ds z : List Char} (h1 : JsonText .ws us) (h2 : JsonText .string cs) (h3 : JsonText .ws vs) {r : Option (List Piece)} :
    Peg Json.env.peg (.nt 3) (img (us ++ (cs ++ (vs ++ ':' :: ds)) ++ z)) r ↔ Peg Json.env.peg (chain [.nt 7]) (img (ds ++ z)) r := by
  have e : us ++ (cs ++ (vs ++ ':' :: ds)) ++ z = us ++ (cs ++ (vs ++ ':' :: (ds ++ z))) := by simp
  rw [e]
  have p1 := (want h1).2.1 (cs ++ (vs ++ ':' :: (ds ++ z))) ((want h2).1.append.avoid fun n h => by unfold isWS; omega)
  have p2 := (want h2).2.2 (vs ++ ':' :: (ds ++ z)) trivial
  have p3 := (want h3).2.1 (':' :: (ds ++ z)) (.cons (by unfold isWS; decide))
  have p4 : Peg Json.env.peg (cls (fun r => r = 58)) (img (':' :: (ds ++ z))) (some (img (ds ++ z))) := peg_ru_yes ':' rfl
  constructor
  · intro h
    obtain ⟨e, he, h⟩ := Peg.nt_inv h
    have he : some (chain [.nt 23, .nt 4, .nt 23, cls (fun r => r = 58), .nt 7]) = some e := he
    cases he
    have past : ∀ {a b : PExp Piece} {xs ys : List Piece} {r : Option (List Piece)}, Peg Json.env.peg a xs (some ys) → Peg Json.env.peg (.seq a b) xs r → Peg Json.env.peg b ys r := by
      intro a b xs ys r ha hs
      cases hs with
      | seq h1 h2 => cases ha.det h1; exact h2
      | seqNo h1 => cases ha.det h1
    exact past p4 (past p3 (past p2 (past p1 h)))
  · exact fun h => .nt (e := chain [.nt 23, .nt 4, .nt 23, cls (fun r => r = 58), .nt 7]) rfl (.seq p1 (.seq p2 (.seq p3 (.seq p4 h))))

theorem member_takes : Takes' (.nt 3) (JsonText .member) := by
  intro y z h
  cases h with
  | member h1 h2 h3 h4 =>
    obtain ⟨w, h5⟩ := element_some h4 z
    exact ⟨w, (member_front h1 h2 h3).mpr (.seq h5 .eps)⟩

theorem upto_member : Upto (.nt 3) (JsonText .member) (fun n => isWS n ∨ inNum n) := by
  intro y z w h hy
  cases hy with
  | member h1 h2 h3 h4 =>
    obtain ⟨ys, h5, h6⟩ := Peg.seq_some ((member_front h1 h2 h3).mp h)
    have := Option.some.inj (h6.det .eps)
    subst this
    exact upto_element _ z w h5 h4

theorem p_comma : ¬ (isWS 44 ∨ inNum 44) := by unfold isWS inNum isDigit; decide

theorem upto_elements : Upto (.nt 6) (JsonText .elements) (fun n => (isWS n ∨ inNum n) ∨ n = 44) :=
  .nt (e := chain [.nt 7, .star (chain [cls (fun r => r = 44), .nt 7])]) rfl
    ((upto_list upto_element element_takes p_comma).imp (fun _ h => (elements_list h).1 rfl) fun _ h => h)

theorem upto_members : Upto (.nt 2) (JsonText .members) (fun n => (isWS n ∨ inNum n) ∨ n = 44) :=
  .nt (e := chain [.nt 3, .star (chain [cls (fun r => r = 44), .nt 3])]) rfl
    ((upto_list upto_member member_takes p_comma).imp (fun _ h => (elements_list h).2 rfl) fun _ h => h)

/-- What a rule takes is the longest text of its symbol. -/
theorem most_of {i : Nat} {A : JsonSym} {p : Nat → Prop} (hm : ∀ u, Json.means i u → JsonText A u) (hu : Upto (.nt i) (JsonText A) p) {x r : List Char}
    (h : Peg Json.env.peg (.nt i) (img (x ++ r)) (some (img r))) : JsonMost A (x ++ r) x := by
  refine ⟨?_, List.prefix_append x r, ?_⟩
  · obtain ⟨u, v, h1, h2, h3⟩ := sound h
    have h4 := img_inj h2
    subst h4
    rw [List.append_cancel_right h1]
    exact hm u h3
  · rintro y hy ⟨z, hz⟩
    rw [← hz] at h
    have h1 := (hu y z r h hy).1
    have h2 := congrArg List.length hz
    simp only [List.length_append] at h2
    omega

theorem most_peg {i : Nat} {A : JsonSym} {p : Nat → Prop} (hm : ∀ u, Json.means i u → JsonText A u) (hu : Upto (.nt i) (JsonText A) p) {x r w : List Char}
    (h : Peg Json.env.peg (.nt i) (img (x ++ r)) (some (img w))) (hx : JsonMost A (x ++ r) x) : w = r := by
  obtain ⟨v, hv⟩ := shrinks h
  have h1 := h
  rw [← hv] at h1
  have h2 := most_of hm hu h1
  have h3 := hx.2.2 v h2.1 ⟨w, hv⟩
  have h4 := h2.2.2 x hx.1 ⟨r, hv.symm⟩
  exact (List.append_inj hv (by omega)).2

theorem elements_halt {cs : List Char} (h : ¬ JsonCut .elements cs) : Ends (.nt 6) cs :=
  (elements_ends (N := cs.length + 1) (fun cs' _ => element_ends _ cs' (Nat.lt_succ_self _)) cs (Nat.lt_succ_self _)).resolve_right h

theorem members_halt {cs : List Char} (h : ¬ JsonCut .members cs) : Ends (.nt 2) cs :=
  (members_ends (N := cs.length) (fun cs' _ => element_ends _ cs' (Nat.lt_succ_self _)) cs (Nat.le_refl _)).resolve_right h

theorem elements_nt {xs : List Piece} {r : Option (List Piece)} (h : Peg Json.env.peg (.nt 6) xs r) :
    Peg Json.env.peg (chain [.nt 7, .star (chain [cls (fun r => r = 44), .nt 7])]) xs r := by
  obtain ⟨e, he, h⟩ := Peg.nt_inv h
  have he : some (chain [.nt 7, .star (chain [cls (fun r => r = 44), .nt 7])]) = some e := he
  cases he
  exact h

theorem members_nt {xs : List Piece} {r : Option (List Piece)} (h : Peg Json.env.peg (.nt 2) xs r) :
    Peg Json.env.peg (chain [.nt 3, .star (chain [cls (fun r => r = 44), .nt 3])]) xs r := by
  obtain ⟨e, he, h⟩ := Peg.nt_inv h
  have he : some (chain [.nt 3, .star (chain [cls (fun r => r = 44), .nt 3])]) = some e := he
  cases he
  exact h

/-- Elements are read as far as they go. -/
theorem elements_read {x r : List Char} (hc : ¬ JsonCut .elements (x ++ r)) (hx : JsonMost .elements (x ++ r) x) :
    Peg Json.env.peg (.nt 6) (img (x ++ r)) (some (img r)) := by
  obtain ⟨res, h⟩ := elements_halt hc
  cases res with
  | none =>
    obtain ⟨u, v, rfl, hu, hv⟩ := (elements_list hx.1).1 rfl
    rw [List.append_assoc] at h
    exact absurd rfl (list_some element_takes hu (elements_nt h))
  | some ys =>
    obtain ⟨w, rfl⟩ := img_of h
    rw [most_peg (i := 6) (A := .elements) (fun _ h => h) upto_elements h hx] at h
    exact h

theorem members_read {x r : List Char} (hc : ¬ JsonCut .members (x ++ r)) (hx : JsonMost .members (x ++ r) x) :
    Peg Json.env.peg (.nt 2) (img (x ++ r)) (some (img r)) := by
  obtain ⟨res, h⟩ := members_halt hc
  cases res with
  | none =>
    obtain ⟨u, v, rfl, hu, hv⟩ := (elements_list hx.1).2 rfl
    rw [List.append_assoc] at h
    exact absurd rfl (list_some member_takes hu (members_nt h))
  | some ys =>
    obtain ⟨w, rfl⟩ := img_of h
    rw [most_peg (i := 2) (A := .members) (fun _ h => h) upto_members h hx] at h
    exact h

theorem elements_fail {cs : List Char} (hc : ¬ JsonCut .elements cs) (hx : NoJson .element cs) : Peg Json.env.peg (.nt 6) (img cs) none := by
  obtain ⟨res, h⟩ := elements_halt hc
  cases res with
  | none => exact h
  | some ys =>
    obtain ⟨_, h1, _⟩ := Peg.seq_some (elements_nt h)
    obtain ⟨u, v, rfl, _, h2⟩ := sound h1
    exact absurd (List.prefix_append u v) (hx u h2)

theorem members_fail {cs : List Char} (hc : ¬ JsonCut .members cs) (hx : NoJson .member cs) : Peg Json.env.peg (.nt 2) (img cs) none := by
  obtain ⟨res, h⟩ := members_halt hc
  cases res with
  | none => exact h
  | some ys =>
    obtain ⟨_, h1, _⟩ := Peg.seq_some (members_nt h)
    obtain ⟨u, v, rfl, _, h2⟩ := sound h1
    exact absurd (List.prefix_append u v) (hx u h2)

theorem ws_most {x r : List Char} (hx : JsonMost .ws (x ++ r) x) : Peg Json.env.peg (.nt 23) (img (x ++ r)) (some (img r)) := by
  obtain ⟨w, h⟩ := part_some 23 (by simp) (x ++ r)
  rw [most_peg (i := 23) (A := .ws) (fun _ h => h) upto_ws h hx] at h
  exact h

/-- The white space at the beginning. -/
theorem ws_split (cs : List Char) : ∃ us r, cs = us ++ r ∧ Peg Json.env.peg (.nt 23) (img cs) (some (img r)) ∧ JsonMost .ws cs us := by
  obtain ⟨w, h⟩ := part_some 23 (by simp) cs
  obtain ⟨v, rfl⟩ := shrinks h
  exact ⟨v, w, rfl, h, most_of (i := 23) (A := .ws) (fun _ h => h) upto_ws h⟩

/-- The elements at the beginning, or none. -/
theorem elements_split {cs : List Char} (hc : ¬ JsonCut .elements cs) : (∃ x r, cs = x ++ r ∧ JsonMost .elements cs x) ∨ NoJson .element cs := by
  obtain ⟨res, h⟩ := elements_halt hc
  cases res with
  | none =>
    right
    rintro y hy ⟨z, rfl⟩
    exact list_some element_takes hy (elements_nt h) rfl
  | some ys =>
    obtain ⟨w, rfl⟩ := img_of h
    obtain ⟨v, rfl⟩ := shrinks h
    exact .inl ⟨v, w, rfl, most_of (i := 6) (A := .elements) (fun _ h => h) upto_elements h⟩

theorem members_split {cs : List Char} (hc : ¬ JsonCut .members cs) : (∃ x r, cs = x ++ r ∧ JsonMost .members cs x) ∨ NoJson .member cs := by
  obtain ⟨res, h⟩ := members_halt hc
  cases res with
  | none =>
    right
    rintro y hy ⟨z, rfl⟩
    exact list_some member_takes hy (members_nt h) rfl
  | some ys =>
    obtain ⟨w, rfl⟩ := img_of h
    obtain ⟨v, rfl⟩ := shrinks h
    exact .inl ⟨v, w, rfl, most_of (i := 2) (A := .members) (fun _ h => h) upto_members h⟩

/-- White space that cannot be longer is followed by something else. -/
theorem most_ws_stop {us r : List Char} (h : JsonMost .ws (us ++ r) us) : Avoid isWS r := by
  rintro c r' rfl hc
  have h1 := ws_run h.1 rfl
  have key : ∀ l : List Char, (∀ d ∈ l, isWS d.toNat) → JsonText .ws l := by
    intro l hl
    induction l with
    | nil => exact .ws_none
    | cons d l ih =>
      have h2 := ih fun e he => hl e (List.mem_cons_of_mem _ he)
      have h3 : isWS d.toNat := hl d List.mem_cons_self
      have h4 : d = ' ' ∨ d = '\n' ∨ d = '\r' ∨ d = '\t' := by
        unfold isWS at h3
        rcases h3 with h3 | h3 | h3 | h3
        all_goals first
          | exact .inl (Char.toNat_inj.mp h3)
          | exact .inr (.inl (Char.toNat_inj.mp h3))
          | exact .inr (.inr (.inl (Char.toNat_inj.mp h3)))
          | exact .inr (.inr (.inr (Char.toNat_inj.mp h3)))
      rcases h4 with rfl | rfl | rfl | rfl
      · exact .ws_space h2
      · exact .ws_lf h2
      · exact .ws_cr h2
      · exact .ws_tab h2
  have h2 := h.2.2 (us ++ [c]) (key _ fun d hd => by
    rcases List.mem_append.mp hd with hd | hd
    · exact h1 d hd
    · cases List.mem_singleton.mp hd; exact hc) (by simp)
  rw [List.length_append, List.length_singleton] at h2
  omega

end Json
end Tok
