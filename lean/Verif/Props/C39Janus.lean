/-
C39, C40: the searching readers when Janus readers are among their parts.  A Janus reader that succeeded inside a part that fails keeps its
string, so the search hands the strings on from one place to the next.
-/
import Verif.Proofs.Trace2

namespace Tok
open Spec

section
variable {rt : Rt} {G : Env}

/-! ### the loops -/

theorem eBody_cases {b c : Reader} {t0 : Bytes} {st : St} {x : Option Bytes × St} (h : EBody rt G b c t0 st x) :
    (∃ m, Searches (E rt G) c st m ∧ m.rest = [] ∧ x = (none, m)) ∨
    ∃ m m' y, Searches (E rt G) c st m ∧ m.rest ≠ [] ∧ E rt G c m (true, m') ∧ E rt G b ⟨t0.take (t0.length - m.rest.length), m'.jan⟩ y ∧
      x = (if y.1 && y.2.rest.isEmpty then some m.rest else none, ⟨m'.rest, y.2.jan⟩) := by
  obtain ⟨n, h0⟩ := h
  obtain ⟨k, h⟩ : ∃ k, eatBody (eat rt G k b) (eat rt G k c) t0 n st = .ret x := ⟨n, h0⟩
  clear h0
  induction n generalizing st with
  | zero => cases h
  | succ n ih =>
    by_cases hs : st.rest = []
    · simp only [eatBody, if_pos hs] at h
      exact .inl ⟨st, .refl _, hs, (Exec.ret.inj h).symm⟩
    · simp only [eatBody, if_neg hs] at h
      obtain ⟨⟨ok, st'⟩, h1, h2⟩ := Exec.bind_eq_ret.mp h
      cases ok
      · rw [← onward_eq] at h2
        rcases ih h2 with ⟨m, h3, h4⟩ | ⟨m, m', y, h3, h4⟩
        · exact .inl ⟨m, .step hs ⟨k, h1⟩ h3, h4⟩
        · exact .inr ⟨m, m', y, .step hs ⟨k, h1⟩ h3, h4⟩
      · obtain ⟨y, h3, h4⟩ := Exec.bind_eq_ret.mp h2
        refine .inr ⟨st, st', y, .refl _, hs, ⟨k, h1⟩, ⟨k, h3⟩, ?_⟩
        simp only at h4
        split at h4 <;> next hc => simp only [hc]; exact (Exec.ret.inj h4).symm

theorem ePast_cases {c : Reader} {st : St} {x : Bool × St} (h : EPast rt G c st x) :
    ∃ m, Searches (E rt G) c st m ∧ if m.rest = [] then x = (false, m) else ∃ m', E rt G c m (true, m') ∧ x = (true, m') := by
  obtain ⟨n, h0⟩ := h
  obtain ⟨k, h⟩ : ∃ k, eatPast (eat rt G k c) n st = .ret x := ⟨n, h0⟩
  clear h0
  induction n generalizing st with
  | zero => cases h
  | succ n ih =>
    by_cases hs : st.rest = []
    · simp only [eatPast, if_pos hs] at h
      exact ⟨st, .refl _, by rw [if_pos hs]; exact (Exec.ret.inj h).symm⟩
    · simp only [eatPast, if_neg hs] at h
      obtain ⟨⟨ok, st'⟩, h1, h2⟩ := Exec.bind_eq_ret.mp h
      cases ok
      · simp only [Bool.false_eq_true, if_false] at h2
        rw [← onward_eq] at h2
        obtain ⟨m, h3, h4⟩ := ih h2
        exact ⟨m, .step hs ⟨k, h1⟩ h3, h4⟩
      · exact ⟨st, .refl _, by rw [if_neg hs]; exact ⟨st', ⟨k, h1⟩, (Exec.ret.inj h2).symm⟩⟩

theorem ePast_of {c : Reader} {st m : St} {x : Bool × St} (h : Searches (E rt G) c st m) (h' : EPast rt G c m x) : EPast rt G c st x := by
  induction h with
  | refl => exact h'
  | step h1 h2 _ ih =>
    rw [ePast_step, if_neg h1]
    refine ⟨_, _, h2, ?_⟩
    rw [if_neg (by decide), ← onward_eq]
    exact ih h'

theorem eTo_cases {c : Reader} {st : St} {x : Bool × St} (h : ETo rt G c st x) :
    ∃ m m', Seeks (E rt G) c st m ∧ (E rt G c m (true, m') ∧ x = (true, ⟨m.rest, m'.jan⟩) ∨
      E rt G c m (false, m') ∧ (onward m'.rest).1 = false ∧ x = (false, m')) := by
  obtain ⟨n, h0⟩ := h
  obtain ⟨k, h⟩ : ∃ k, eatTo (eat rt G k c) n st = .ret x := ⟨n, h0⟩
  clear h0
  induction n generalizing st with
  | zero => cases h
  | succ n ih =>
    obtain ⟨⟨ok, st'⟩, h1, h2⟩ := Exec.bind_eq_ret.mp h
    cases ok
    · simp only [Bool.false_eq_true, if_false] at h2
      rw [← onward_eq] at h2
      split at h2
      · next hs =>
        obtain ⟨m, m', h3, h4⟩ := ih h2
        exact ⟨m, m', .step ⟨k, h1⟩ hs h3, h4⟩
      · next hs => exact ⟨st, st', .refl _, .inr ⟨⟨k, h1⟩, Bool.eq_false_iff.mpr hs, (Exec.ret.inj h2).symm⟩⟩
    · exact ⟨st, st', .refl _, .inl ⟨⟨k, h1⟩, (Exec.ret.inj h2).symm⟩⟩

variable (hG : G.Every (fun r => r.noWrap = true)) {c b : Reader} (hc : c.Every (fun r => r.noWrap = true)) (hb : b.Every (fun r => r.noWrap = true))
include hG hc

theorem searches_iff {st m : St} : Searches (Outcome rt G) c st m ↔ Searches (E rt G) c st m :=
  ⟨searches_mono fun _ _ h => (outcome_iff hG hc).mp h, searches_mono fun _ _ h => (outcome_iff hG hc).mpr h⟩

theorem seeks_iff {st m : St} : Seeks (Outcome rt G) c st m ↔ Seeks (E rt G) c st m :=
  ⟨seeks_mono fun _ _ h => (outcome_iff hG hc).mp h, seeks_mono fun _ _ h => (outcome_iff hG hc).mpr h⟩

/-! ### the readers -/

include hb in
/-- What comes of `Body(b, c)` and `BodyTail(b, c)`: the search for `c` gets to the end of the text, or it gets to a place `m` before the end where
`c` reads up to `m'`, and then `b` reads the text passed over, as a text of its own, with the strings that `c` has left.  Both fail, and go back,
if `b` fails or leaves something; otherwise `Body` goes to `m` and `BodyTail` to `m'`. -/
theorem C39_janus (tail : Bool) (st : St) (x : Bool × St) :
    Outcome rt G (if tail then .bodyTail b c else .body b c) st x ↔
      (∃ m, Searches (Outcome rt G) c st m ∧ m.rest = [] ∧ x = (false, ⟨st.rest, m.jan⟩)) ∨
      ∃ m m' y, Searches (Outcome rt G) c st m ∧ m.rest ≠ [] ∧ Outcome rt G c m (true, m') ∧
        Outcome rt G b ⟨st.rest.take (st.rest.length - m.rest.length), m'.jan⟩ y ∧
        x = if y.1 = true ∧ y.2.rest = [] then (true, ⟨if tail then m'.rest else m.rest, y.2.jan⟩) else (false, ⟨st.rest, y.2.jan⟩) := by
  have hq : (if tail then Reader.bodyTail b c else .body b c).Every (fun r => r.noWrap = true) := by
    cases tail <;> exact .mk rfl (by simp [Reader.subs, hb, hc])
  rw [outcome_iff hG hq]
  have key : E rt G (if tail then .bodyTail b c else .body b c) st x ↔
      ∃ res st', EBody rt G b c st.rest st (res, st') ∧ x = (res.isSome, ⟨if tail then (if res.isSome then st'.rest else st.rest) else res.getD st.rest, st'.jan⟩) := by
    cases tail
    · exact e_body
    · exact e_bodyTail
  rw [key]
  simp only [searches_iff hG hc, outcome_iff hG hc, outcome_iff hG hb]
  constructor
  · rintro ⟨res, st', h1, rfl⟩
    rcases eBody_cases h1 with ⟨m, h2, h3, h4⟩ | ⟨m, m', ⟨ok, y⟩, h2, h3, h4, h5, h6⟩
    · cases h4
      refine .inl ⟨_, h2, h3, ?_⟩
      cases tail <;> rfl
    · refine .inr ⟨m, m', (ok, y), h2, h3, h4, h5, ?_⟩
      obtain ⟨h7, rfl⟩ := Prod.mk.injEq _ _ _ _ ▸ h6
      simp only at h7
      subst h7
      by_cases hy : ok = true ∧ y.rest = []
      · obtain ⟨rfl, hy⟩ := hy
        cases tail <;> simp [hy]
      · rw [if_neg hy]
        have : (ok && y.rest.isEmpty) = false := by
          cases ok
          · rfl
          · simpa using hy
        cases tail <;> simp [this]
  · rintro (⟨m, h2, h3, rfl⟩ | ⟨m, m', ⟨ok, y⟩, h2, h3, h4, h5, rfl⟩)
    · refine ⟨none, m, body_lost h2 h3, ?_⟩
      cases tail <;> rfl
    · refine ⟨_, _, body_tried h2 h3 h4 h5, ?_⟩
      by_cases hy : ok = true ∧ y.rest = []
      · obtain ⟨rfl, hy⟩ := hy
        cases tail <;> simp [hy]
      · rw [if_neg hy]
        have : (ok && y.rest.isEmpty) = false := by
          cases ok
          · rfl
          · simpa using hy
        cases tail <;> simp [this]

/-- What comes of `Not(c)`. -/
theorem C40_not_janus (st : St) (x : Bool × St) :
    Outcome rt G (.not c) st x ↔ ∃ ok m, Outcome rt G c st (ok, m) ∧ x = (!ok, ⟨if ok then st.rest else (onward st.rest).2, m.jan⟩) := by
  rw [outcome_iff hG (r := .not c) (.mk rfl (by simp [Reader.subs, hc]))]
  simp only [outcome_iff hG hc]
  rw [onward_eq]
  exact e_not

/-- What comes of `Past(c)`: the search gets to the end of the text, or to a place before the end where `c` reads. -/
theorem C40_past_janus (st : St) (x : Bool × St) :
    Outcome rt G (.past c) st x ↔ ∃ m, Searches (Outcome rt G) c st m ∧
      if m.rest = [] then x = (false, ⟨st.rest, m.jan⟩) else ∃ m', Outcome rt G c m (true, m') ∧ x = (true, m') := by
  rw [outcome_iff hG (r := .past c) (.mk rfl (by simp [Reader.subs, hc]))]
  simp only [searches_iff hG hc, outcome_iff hG hc]
  rw [e_past]
  constructor
  · rintro ⟨y, h1, rfl⟩
    obtain ⟨m, h2, h3⟩ := ePast_cases h1
    refine ⟨m, h2, ?_⟩
    split at h3
    · next hm => rw [if_pos hm, h3]; rfl
    · next hm =>
      obtain ⟨m', h4, rfl⟩ := h3
      rw [if_neg hm]
      exact ⟨m', h4, rfl⟩
  · rintro ⟨m, h2, h3⟩
    split at h3
    · next hm =>
      refine ⟨(false, m), ePast_of h2 (by rw [ePast_step, if_pos hm]), by rw [h3]; rfl⟩
    · next hm =>
      obtain ⟨m', h4, rfl⟩ := h3
      exact ⟨(true, m'), ePast_of h2 (by rw [ePast_step, if_neg hm]; exact ⟨_, _, h4, by rw [if_pos rfl]⟩), rfl⟩

/-- What comes of `To(c)`: the search gets to a place where `c` reads, or to one where it does not and no rune can be passed over. -/
theorem C40_to_janus (st : St) (x : Bool × St) :
    Outcome rt G (.to c) st x ↔ ∃ m m', Seeks (Outcome rt G) c st m ∧ (Outcome rt G c m (true, m') ∧ x = (true, ⟨m.rest, m'.jan⟩) ∨
      Outcome rt G c m (false, m') ∧ (onward m'.rest).1 = false ∧ x = (false, ⟨st.rest, m'.jan⟩)) := by
  rw [outcome_iff hG (r := .to c) (.mk rfl (by simp [Reader.subs, hc]))]
  simp only [seeks_iff hG hc, outcome_iff hG hc]
  rw [e_to]
  constructor
  · rintro ⟨y, h1, rfl⟩
    obtain ⟨m, m', h2, ⟨h3, rfl⟩ | ⟨h3, h4, rfl⟩⟩ := eTo_cases h1
    · exact ⟨m, m', h2, .inl ⟨h3, rfl⟩⟩
    · exact ⟨m, m', h2, .inr ⟨h3, h4, rfl⟩⟩
  · rintro ⟨m, m', h2, ⟨h3, rfl⟩ | ⟨h3, h4, rfl⟩⟩
    · exact ⟨_, seeks_to h2 (eTo_step.mpr ⟨_, _, h3, by rw [if_pos rfl]⟩), rfl⟩
    · exact ⟨_, seeks_to h2 (eTo_step.mpr ⟨_, _, h3, by rw [if_neg (by decide), ← onward_eq, if_neg (by rw [h4]; decide)]⟩), rfl⟩

end

/-- The tail `<` Janus `b` or `c`, `>` fails at `<b|` but leaves `b` in the Janus reader; the tail `=` Janus, read then, wants the `b`. -/
example : (match read exRt [] 12 (.past (.any [.seq [.rune 60, .janusBegin 0 b!"j" (.any [.rune 98, .rune 99]), .rune 62], .seq [.rune 61, .janusEnd 0 b!"j"]]))
      (.new b!"<b|=b" Heap.empty) with
    | .ret (e, s) => some (e.isNone, s.pos, s.heap.janus 0)
    | _ => none) = some (true, 5, []) := by decide +kernel

end Tok
