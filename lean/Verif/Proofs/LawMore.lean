/-
Choices whose members exclude each other; searching with `Not`.
-/
import Verif.Proofs.LawEqs

namespace Tok
open Spec

section
variable {rt : Rt} {G : Env} {a b r : Reader} {as bs rs : List Reader}

/-- Where `a` reads, `b` fails. -/
def Bars (rt : Rt) (G : Env) (a b : Reader) : Prop := ∀ st st', E rt G a st (true, st') → ∃ st'', E rt G b st (false, st'')

theorem same_state (h1 : Back2 rt G r) (h2 : Keep2 rt G r) {st st' : St} (h : E rt G r st (false, st')) : st' = st := by
  have e1 := h1 _ _ h
  have e2 := h2 _ _ _ h
  obtain ⟨t, i⟩ := st
  obtain ⟨u, j⟩ := st'
  simp only at e1 e2
  subst e1 e2
  rfl

theorem eAny_swap_le (ha : Back2 rt G a ∧ Keep2 rt G a) (hb : Back2 rt G b ∧ Keep2 rt G b) (h1 : Bars rt G a b) (h2 : Bars rt G b a) {st : St} {x : Bool × St}
    (h : EAny rt G (a :: b :: rs) st x) : EAny rt G (b :: a :: rs) st x := by
  obtain ⟨ok, st1, h3, h4⟩ := eAny_cons.mp h
  cases ok
  · cases same_state ha.1 ha.2 h3
    obtain ⟨ok, st2, h5, h6⟩ := eAny_cons.mp h4
    cases ok
    · cases same_state hb.1 hb.2 h5
      exact eAny_cons.mpr ⟨false, _, h5, eAny_cons.mpr ⟨false, _, h3, h6⟩⟩
    · exact eAny_cons.mpr ⟨true, st2, h5, h6⟩
  · obtain ⟨st2, h5⟩ := h1 _ _ h3
    cases same_state hb.1 hb.2 h5
    exact eAny_cons.mpr ⟨false, _, h5, eAny_cons.mpr ⟨true, st1, h3, h4⟩⟩

theorem eAny_perm (h : as.Perm bs) : (∀ r ∈ as, Back2 rt G r ∧ Keep2 rt G r) → (∀ a ∈ as, ∀ b ∈ as, a = b ∨ Bars rt G a b) →
    ∀ st x, EAny rt G as st x ↔ EAny rt G bs st x := by
  induction h with
  | nil => intro _ _ st x; rfl
  | cons r _ ih =>
    intro h1 h2 st x
    have := ih (fun r hr => h1 r (List.mem_cons_of_mem _ hr)) fun a ha b hb => h2 a (List.mem_cons_of_mem _ ha) b (List.mem_cons_of_mem _ hb)
    rw [eAny_cons, eAny_cons]
    simp only [this]
  | swap a b l =>
    intro h1 h2 st x
    have ha := h1 a (by simp)
    have hb := h1 b (by simp)
    rcases h2 a (by simp) b (by simp) with rfl | h3
    · rfl
    · rcases h2 b (by simp) a (by simp) with rfl | h4
      · rfl
      · exact ⟨eAny_swap_le hb ha h4 h3, eAny_swap_le ha hb h3 h4⟩
  | trans p _ ih1 ih2 =>
    intro h1 h2 st x
    rw [ih1 h1 h2]
    exact ih2 (fun r hr => h1 r (p.mem_iff.mpr hr)) (fun a ha b hb => h2 a (p.mem_iff.mpr ha) b (p.mem_iff.mpr hb)) st x

/-- The order of the members does not matter. -/
theorem law_any_perm (h : as.Perm bs) (h1 : ∀ r ∈ as, Back2 rt G r ∧ Keep2 rt G r) (h2 : ∀ a ∈ as, ∀ b ∈ as, a = b ∨ Bars rt G a b) :
    Eq2 rt G (.any as) (.any bs) := any_eq (eAny_perm h h1 h2)

/-- Going on as long as something is not there ends where it is first. -/
theorem law_zom_not (h1 : Back2 rt G r) (h2 : Keep2 rt G r) {st st' : St} : EZom rt G (.not r) st st' ↔ ETo rt G r st (true, st') := by
  constructor
  · rintro ⟨n, h⟩
    have key : ∀ k st, eatZom (eat rt G n (.not r)) k st = .ret st' → ETo rt G r st (true, st') := by
      intro k
      induction k with
      | zero => intro st h; cases h
      | succ k ih =>
        intro st h
        obtain ⟨⟨ok, st1⟩, h3, h4⟩ := Exec.bind_eq_ret.mp h
        obtain ⟨ok', st2, h5, h6⟩ := e_not.mp ⟨n, h3⟩
        cases h6
        rw [eTo_step]
        refine ⟨ok', st2, h5, ?_⟩
        cases ok'
        · cases same_state h1 h2 h5
          simp only [Bool.not_false, Bool.false_eq_true, if_false, if_true] at h4 ⊢
          by_cases hs : (eatStep st.rest).1 = true
          · rw [if_pos hs]
            exact ih _ h4
          · -- at the end it goes on for ever
            exfalso
            have e1 : (⟨(eatStep st.rest).2, st.jan⟩ : St) = st := by
              rw [eatStep_no hs]
            rw [e1] at h4
            have := ih st h4
            rw [eTo_step] at this
            obtain ⟨ok, st3, h7, h8⟩ := this
            cases h5.det h7
            simp only [Bool.false_eq_true, if_false, if_neg hs] at h8
            cases h8
        · simp only [Bool.not_true, Bool.false_eq_true, if_false, if_true] at h4 ⊢
          rw [← Exec.ret.inj h4]
    exact key n st h
  · rintro ⟨n, h⟩
    have key : ∀ k st, eatTo (eat rt G n r) k st = .ret (true, st') → EZom rt G (.not r) st st' := by
      intro k
      induction k with
      | zero => intro st h; cases h
      | succ k ih =>
        intro st h
        obtain ⟨⟨ok, st1⟩, h3, h4⟩ := Exec.bind_eq_ret.mp h
        rw [eZom_step]
        cases ok
        · cases same_state h1 h2 ⟨n, h3⟩
          simp only [Bool.false_eq_true, if_false] at h4
          by_cases hs : (eatStep st.rest).1 = true
          · rw [if_pos hs] at h4
            exact ⟨true, _, e_not.mpr ⟨false, st, ⟨n, h3⟩, rfl⟩, by simpa using ih _ h4⟩
          · rw [if_neg hs] at h4
            cases h4
        · refine ⟨false, _, e_not.mpr ⟨true, st1, ⟨n, h3⟩, rfl⟩, ?_⟩
          have := Exec.ret.inj h4
          simp only [Prod.mk.injEq, true_and] at this
          simp [this]
    exact key n st h

end
end Tok
