/-
Comments in front of statements.
-/
import Verif.Proofs.LuaChunk

namespace Tok
open Spec

namespace Lua

variable {rt : Rt} {r : Reader} {ks : List Bytes} {S : List Cls}

/-- A comment in front of the tokens, with or without white space in front of it. -/
def Hid (ks : List Bytes) (X : Bytes) : Prop := ∃ v t, X = v ++ (b!"--" ++ t) ∧ White v ∧ Wide ks (b!"--" ++ t)

theorem white_gets {v t : Bytes} (hv : White v) : Gets rt env (.zom mkWS) (v ++ (b!"--" ++ t)) (some (b!"--" ++ t)) := by
  induction v with
  | nil => exact .zom_stop (fails_gets (p := b!"--") (by decide +kernel) begins_nothing)
  | cons b v ih =>
    refine .zom_step (u := v ++ (b!"--" ++ t)) ?_ (ih fun c hc => hv c (by simp [hc]))
    have : ∀ c, sym env false [] 1 60 mkWS [c] = some (some []) → Gets rt env mkWS ([c] ++ (v ++ (b!"--" ++ t))) (some ([] ++ (v ++ (b!"--" ++ t)))) := fun c hc =>
      .sym_yes begins_nothing hc
    rcases hv b (by simp) with rfl | rfl | rfl | rfl <;> exact this _ (by decide +kernel)

theorem Hid.wide {X : Bytes} (h : Hid ks X) : Wide ks X := by
  obtain ⟨v, t, rfl, hv, w, z, e, hw, hz⟩ := h
  refine ⟨v ++ w, z, by rw [e]; simp, ?_, hz⟩
  clear e
  induction v with
  | nil => exact hw
  | cons b v ih => exact .white (hv b (by simp)) (ih fun c hc => hv c (by simp [hc]))

/-- The first token tells that the reader fails in front of the comment. -/
def Cls.note : Nat → Reader → Cls → Bool
  | 0, _, _ => false
  | n + 1, r, c => noWhite r && Lua.fails false [] r b!"--" || match r with
    | .skipSeq (.zom (.anyRune s)) (r :: _) => s == b!" \r\n\t" && Cls.note n r c
    | .skipSeq (.zom (.any [.anyRune s, .rule i])) (r :: _) => s == b!" \r\n\t" && i == iComment && c.no r
    | .seq (r :: _) => Cls.note n r c
    | .any rs => rs.all fun r => Cls.note n r c
    | .many r => Cls.note n r c
    | .rule i => match env[i]? with
      | some ⟨_, some r⟩ => Cls.note n r c
      | _ => false
    | _ => false

theorem Cls.note_fail {c : Cls} (hk : c.In ks) : ∀ n r, Cls.note n r c = true → Fail rt Hid r ks
  | 0, _, h => by cases h
  | n + 1, r, h => by
    have ih := Cls.note_fail hk n
    unfold Cls.note at h
    rw [Bool.or_eq_true, Bool.and_eq_true] at h
    rcases h with h | h
    · rintro X ⟨v, t, rfl, hv, _⟩
      cases v with
      | nil => exact fails_gets (p := b!"--") h.2 begins_nothing
      | cons b v =>
        have hw := h.1
        simp only [noWhite, List.all_cons, List.all_nil, Bool.and_true, Bool.and_eq_true] at hw
        rcases hv b (by simp) with rfl | rfl | rfl | rfl
        · exact fails_gets (p := [32]) hw.1 begins_nothing
        · exact fails_gets (p := [9]) hw.2.1 begins_nothing
        · exact fails_gets (p := [10]) hw.2.2.1 begins_nothing
        · exact fails_gets (p := [13]) hw.2.2.2 begins_nothing
    · split at h
      · rw [Bool.and_eq_true, beq_iff_eq] at h
        rw [h.1]
        rintro X ⟨v, t, rfl, hv, hw⟩
        exact .skipSeq (white_gets hv) (.stop (ih _ h.2 _ ⟨[], t, rfl, by simp [White], hw⟩))
      · rw [Bool.and_eq_true, Bool.and_eq_true, beq_iff_eq, beq_iff_eq] at h
        rw [h.1.1, h.1.2]
        exact fun X hX => Fail.skipAll (.stop (Cls.no_fail h.2 hk)) X hX.wide
      · exact .seq (.stop (ih _ h))
      · refine .any ?_
        rename_i rs
        induction rs with
        | nil => exact .nil
        | cons r rs ihr =>
          rw [List.all_cons, Bool.and_eq_true] at h
          exact .next (ih _ h.1) (ihr h.2)
      · exact .many (ih _ h)
      · split at h
        · next nm r hi => exact .rule hi (ih _ h)
        · cases h
      · cases h

theorem Heads.note (h : Heads S ks) (hS : (S.all fun c => c.note 30 r) = true) : Fail rt Hid r ks :=
  let ⟨_, hc, hk⟩ := h
  Cls.note_fail hk _ _ (List.all_eq_true.mp hS _ hc)

/-- Behind a comment no statement is seen. -/
theorem stat_note (h : Heads (.eof :: statHeads) ks) : Fail rt Hid (.rule iStat) ks := h.note (by decide +kernel)

theorem first_heads (h : First statHeads ks) : Heads (.eof :: statHeads) ks := by
  rcases h with rfl | h
  · exact ⟨.eof, by simp, rfl⟩
  · exact h.mono fun c hc => by simp [hc]

/-- A semicolon and a comment behind it. -/
theorem semi_note {p : Bool} (h : Phrase (.stats p) ks) {v t z : Bytes} (hv : White v) (hg : PlainGap (v ++ (b!"--" ++ t))) (hw : PlainGap (b!"--" ++ t)) (hz : Laid ks z) :
    Gets rt env reader (b!";" ++ (v ++ (b!"--" ++ t) ++ z)) (some z) := by
  have hh := first_heads (good (rt := rt) h).1
  have h1 : Gets rt env skiper (b!";" ++ (v ++ (b!"--" ++ t) ++ z)) (some (b!";" ++ (v ++ (b!"--" ++ t) ++ z))) :=
    .zom_stop (fails_gets (p := b!";") (by decide +kernel) begins_nothing)
  have h2 : Gets rt env (.rule iStat) (b!";" ++ (v ++ (b!"--" ++ t) ++ z)) (some (v ++ (b!"--" ++ t) ++ z)) := by
    refine .rule e_stat (.any (.hit ?_))
    have := rune_gets (rt := rt) 59 (by decide) (b!";" ++ (v ++ (b!"--" ++ t) ++ z))
    simpa [oneB] using this
  have h3 : Gets rt env (.rule iStat) (v ++ (b!"--" ++ t) ++ z) none := stat_note hh _ ⟨v, t ++ z, by simp, hv, b!"--" ++ t, z, by simp, hw, hz⟩
  have h4 : Gets rt env (.opt (.rule iRetStat)) z (some z) := .opt (hh.fail (r := .rule iRetStat) (by decide +kernel) z hz)
  exact .grammar (.rule e_chunk (.rule e_block (.skipSeq h1 (.cons (.zom_step h2 (.zom_stop h3)) (gap_gets hg hz) (.cons h4 (gap_gets .nil hz) .nil)))))

end Lua
end Tok
