/-
What comes of a read on the text ahead, whatever the budget; equations for every reader.
-/
import Verif.Proofs.EatMono
import Verif.Proofs.EatSim
import Verif.Props.C34
import Verif.Spec.Law

namespace Tok
open Spec

section
variable {rt : Rt} {G : Env}

/-- The read ends with `x`. -/
def E (rt : Rt) (G : Env) (r : Reader) (st : St) (x : Bool × St) : Prop := ∃ n, eat rt G n r st = .ret x
def EAny (rt : Rt) (G : Env) (rs : List Reader) (st : St) (x : Bool × St) : Prop := ∃ n, eatAny (eat rt G n) rs st = .ret x
def ESeq (rt : Rt) (G : Env) (rs : List Reader) (st : St) (x : Bool × St) : Prop := ∃ n, eatSeq (eat rt G n) rs st = .ret x
def ESkip (rt : Rt) (G : Env) (sk : Reader) (rs : List Reader) (st : St) (x : Bool × St) : Prop := ∃ n, eatSkip (eat rt G n) sk rs st = .ret x
def ETimes (rt : Rt) (G : Env) (r : Reader) (k : Nat) (st : St) (x : Bool × St) : Prop := ∃ n, eatTimes (eat rt G n r) k st = .ret x
def EZom (rt : Rt) (G : Env) (r : Reader) (st st' : St) : Prop := ∃ n, eatZom (eat rt G n r) n st = .ret st'
def EPast (rt : Rt) (G : Env) (r : Reader) (st : St) (x : Bool × St) : Prop := ∃ n, eatPast (eat rt G n r) n st = .ret x
def ETo (rt : Rt) (G : Env) (r : Reader) (st : St) (x : Bool × St) : Prop := ∃ n, eatTo (eat rt G n r) n st = .ret x
def EBody (rt : Rt) (G : Env) (b t : Reader) (t0 : Bytes) (st : St) (x : Option Bytes × St) : Prop :=
  ∃ n, eatBody (eat rt G n b) (eat rt G n t) t0 n st = .ret x

theorem E.det {r : Reader} {st : St} {x y : Bool × St} (h : E rt G r st x) (h' : E rt G r st y) : x = y := by
  obtain ⟨n, h⟩ := h
  obtain ⟨m, h'⟩ := h'
  exact eat_det h h'

/-! ### the loops, one step at a time -/

theorem eAny_nil {st : St} {x : Bool × St} : EAny rt G [] st x ↔ x = (false, st) :=
  ⟨fun ⟨_, h⟩ => (Exec.ret.inj h).symm, fun h => ⟨0, by rw [h]; rfl⟩⟩

theorem eSeq_nil {st : St} {x : Bool × St} : ESeq rt G [] st x ↔ x = (true, st) :=
  ⟨fun ⟨_, h⟩ => (Exec.ret.inj h).symm, fun h => ⟨0, by rw [h]; rfl⟩⟩

theorem eSkip_nil {sk : Reader} {st : St} {x : Bool × St} : ESkip rt G sk [] st x ↔ x = (true, st) :=
  ⟨fun ⟨_, h⟩ => (Exec.ret.inj h).symm, fun h => ⟨0, by rw [h]; rfl⟩⟩

theorem eTimes_zero {r : Reader} {st : St} {x : Bool × St} : ETimes rt G r 0 st x ↔ x = (true, st) :=
  ⟨fun ⟨_, h⟩ => (Exec.ret.inj h).symm, fun h => ⟨0, by rw [h]; rfl⟩⟩

theorem eatAny_mono {n m : Nat} (hn : n ≤ m) {rs : List Reader} {st : St} {x : Bool × St} (h : eatAny (eat rt G n) rs st = .ret x) :
    eatAny (eat rt G m) rs st = .ret x := (eatAny_le (eat_le rt G n m hn) rs st).ret h
theorem eatSeq_mono {n m : Nat} (hn : n ≤ m) {rs : List Reader} {st : St} {x : Bool × St} (h : eatSeq (eat rt G n) rs st = .ret x) :
    eatSeq (eat rt G m) rs st = .ret x := (eatSeq_le (eat_le rt G n m hn) rs st).ret h
theorem eatSkip_mono {n m : Nat} (hn : n ≤ m) {sk : Reader} {rs : List Reader} {st : St} {x : Bool × St}
    (h : eatSkip (eat rt G n) sk rs st = .ret x) :
    eatSkip (eat rt G m) sk rs st = .ret x := (eatSkip_le (eat_le rt G n m hn) sk rs st).ret h
theorem eatTimes_mono {n m k : Nat} (hn : n ≤ m) {r : Reader} {st : St} {x : Bool × St} (h : eatTimes (eat rt G n r) k st = .ret x) :
    eatTimes (eat rt G m r) k st = .ret x := (eatTimes_le (eat_le rt G n m hn r) k st).ret h
theorem eatZom_mono {n m k l : Nat} (hn : n ≤ m) (hk : k ≤ l) {r : Reader} {st x : St} (h : eatZom (eat rt G n r) k st = .ret x) :
    eatZom (eat rt G m r) l st = .ret x := (eatZom_le (eat_le rt G n m hn r) k l st hk).ret h
theorem eatPast_mono {n m k l : Nat} (hn : n ≤ m) (hk : k ≤ l) {r : Reader} {st : St} {x : Bool × St} (h : eatPast (eat rt G n r) k st = .ret x) :
    eatPast (eat rt G m r) l st = .ret x := (eatPast_le (eat_le rt G n m hn r) k l st hk).ret h
theorem eatTo_mono {n m k l : Nat} (hn : n ≤ m) (hk : k ≤ l) {r : Reader} {st : St} {x : Bool × St} (h : eatTo (eat rt G n r) k st = .ret x) :
    eatTo (eat rt G m r) l st = .ret x := (eatTo_le (eat_le rt G n m hn r) k l st hk).ret h
theorem eatBody_mono {n m k l : Nat} (hn : n ≤ m) (hk : k ≤ l) {b t : Reader} {t0 : Bytes} {st : St} {x : Option Bytes × St}
    (h : eatBody (eat rt G n b) (eat rt G n t) t0 k st = .ret x) :
    eatBody (eat rt G m b) (eat rt G m t) t0 l st = .ret x := (eatBody_le (eat_le rt G n m hn b) (eat_le rt G n m hn t) t0 k l st hk).ret h

theorem eAny_cons {r : Reader} {rs : List Reader} {st : St} {x : Bool × St} : EAny rt G (r :: rs) st x ↔
    ∃ ok st', E rt G r st (ok, st') ∧ if ok then x = (true, st') else EAny rt G rs st' x := by
  constructor
  · rintro ⟨n, h⟩
    obtain ⟨⟨ok, st'⟩, h1, h2⟩ := Exec.bind_eq_ret.mp h
    refine ⟨ok, st', ⟨n, h1⟩, ?_⟩
    cases ok
    · exact ⟨n, h2⟩
    · exact (Exec.ret.inj h2).symm
  · rintro ⟨ok, st', ⟨n, h1⟩, h2⟩
    cases ok
    · obtain ⟨m, h2⟩ := h2
      exact ⟨max n m, Exec.bind_eq_ret.mpr ⟨_, eat_mono (Nat.le_max_left n m) h1, eatAny_mono (Nat.le_max_right n m) h2⟩⟩
    · exact ⟨n, Exec.bind_eq_ret.mpr ⟨_, h1, by rw [show x = (true, st') from h2]; rfl⟩⟩

theorem eSeq_cons {r : Reader} {rs : List Reader} {st : St} {x : Bool × St} : ESeq rt G (r :: rs) st x ↔
    ∃ ok st', E rt G r st (ok, st') ∧ if ok then ESeq rt G rs st' x else x = (false, st') := by
  constructor
  · rintro ⟨n, h⟩
    obtain ⟨⟨ok, st'⟩, h1, h2⟩ := Exec.bind_eq_ret.mp h
    refine ⟨ok, st', ⟨n, h1⟩, ?_⟩
    cases ok
    · exact (Exec.ret.inj h2).symm
    · exact ⟨n, h2⟩
  · rintro ⟨ok, st', ⟨n, h1⟩, h2⟩
    cases ok
    · exact ⟨n, Exec.bind_eq_ret.mpr ⟨_, h1, by rw [show x = (false, st') from h2]; rfl⟩⟩
    · obtain ⟨m, h2⟩ := h2
      exact ⟨max n m, Exec.bind_eq_ret.mpr ⟨_, eat_mono (Nat.le_max_left n m) h1, eatSeq_mono (Nat.le_max_right n m) h2⟩⟩

theorem eSkip_cons {sk r : Reader} {rs : List Reader} {st : St} {x : Bool × St} : ESkip rt G sk (r :: rs) st x ↔
    ∃ ok st', E rt G r st (ok, st') ∧ if ok then ∃ ok st'', E rt G sk st' (ok, st'') ∧ (if ok then ESkip rt G sk rs st'' x else x = (false, st''))
      else x = (false, st') := by
  constructor
  · rintro ⟨n, h⟩
    obtain ⟨⟨ok, st'⟩, h1, h2⟩ := Exec.bind_eq_ret.mp h
    refine ⟨ok, st', ⟨n, h1⟩, ?_⟩
    cases ok
    · exact (Exec.ret.inj h2).symm
    · obtain ⟨⟨ok, st''⟩, h3, h4⟩ := Exec.bind_eq_ret.mp h2
      refine ⟨ok, st'', ⟨n, h3⟩, ?_⟩
      cases ok
      · exact (Exec.ret.inj h4).symm
      · exact ⟨n, h4⟩
  · rintro ⟨ok, st', ⟨n, h1⟩, h2⟩
    cases ok
    · exact ⟨n, Exec.bind_eq_ret.mpr ⟨_, h1, by rw [show x = (false, st') from h2]; rfl⟩⟩
    · obtain ⟨ok, st'', ⟨m, h3⟩, h4⟩ := h2
      cases ok
      · exact ⟨max n m, Exec.bind_eq_ret.mpr ⟨_, eat_mono (Nat.le_max_left n m) h1,
          Exec.bind_eq_ret.mpr ⟨_, eat_mono (Nat.le_max_right n m) h3, by rw [show x = (false, st'') from h4]; rfl⟩⟩⟩
      · obtain ⟨l, h4⟩ := h4
        exact ⟨max (max n m) l, Exec.bind_eq_ret.mpr ⟨_, eat_mono (by omega) h1,
          Exec.bind_eq_ret.mpr ⟨_, eat_mono (by omega) h3, eatSkip_mono (by omega) h4⟩⟩⟩

theorem eTimes_succ {r : Reader} {k : Nat} {st : St} {x : Bool × St} : ETimes rt G r (k + 1) st x ↔
    ∃ ok st', E rt G r st (ok, st') ∧ if ok then ETimes rt G r k st' x else x = (false, st') := by
  constructor
  · rintro ⟨n, h⟩
    obtain ⟨⟨ok, st'⟩, h1, h2⟩ := Exec.bind_eq_ret.mp h
    refine ⟨ok, st', ⟨n, h1⟩, ?_⟩
    cases ok
    · exact (Exec.ret.inj h2).symm
    · exact ⟨n, h2⟩
  · rintro ⟨ok, st', ⟨n, h1⟩, h2⟩
    cases ok
    · exact ⟨n, Exec.bind_eq_ret.mpr ⟨_, h1, by rw [show x = (false, st') from h2]; rfl⟩⟩
    · obtain ⟨m, h2⟩ := h2
      exact ⟨max n m, Exec.bind_eq_ret.mpr ⟨_, eat_mono (Nat.le_max_left n m) h1, eatTimes_mono (Nat.le_max_right n m) h2⟩⟩

theorem eZom_step {r : Reader} {st x : St} : EZom rt G r st x ↔
    ∃ ok st', E rt G r st (ok, st') ∧ if ok then EZom rt G r st' x else x = st' := by
  constructor
  · rintro ⟨n, h⟩
    cases n with
    | zero => cases h
    | succ n =>
      obtain ⟨⟨ok, st'⟩, h1, h2⟩ := Exec.bind_eq_ret.mp h
      refine ⟨ok, st', ⟨_, h1⟩, ?_⟩
      cases ok
      · exact (Exec.ret.inj h2).symm
      · exact ⟨n + 1, eatZom_mono (Nat.le_refl _) (Nat.le_succ n) h2⟩
  · rintro ⟨ok, st', ⟨n, h1⟩, h2⟩
    cases ok
    · exact ⟨n + 1, Exec.bind_eq_ret.mpr ⟨_, eat_mono (Nat.le_succ n) h1, by rw [show x = st' from h2]; rfl⟩⟩
    · obtain ⟨m, h2⟩ := h2
      exact ⟨max n m + 1, Exec.bind_eq_ret.mpr ⟨_, eat_mono (by omega) h1, eatZom_mono (by omega) (by omega) h2⟩⟩

theorem ePast_step {r : Reader} {st : St} {x : Bool × St} : EPast rt G r st x ↔
    if st.rest = [] then x = (false, st) else
    ∃ ok st', E rt G r st (ok, st') ∧ if ok then x = (true, st') else EPast rt G r ⟨(eatStep st'.rest).2, st'.jan⟩ x := by
  by_cases hs : st.rest = []
  · rw [if_pos hs]
    constructor
    · rintro ⟨n, h⟩
      cases n with
      | zero => cases h
      | succ n => simp only [eatPast, if_pos hs] at h; exact (Exec.ret.inj h).symm
    · intro h
      exact ⟨1, by rw [h]; simp only [eatPast, if_pos hs]; rfl⟩
  · rw [if_neg hs]
    constructor
    · rintro ⟨n, h⟩
      cases n with
      | zero => cases h
      | succ n =>
        simp only [eatPast, if_neg hs] at h
        obtain ⟨⟨ok, st'⟩, h1, h2⟩ := Exec.bind_eq_ret.mp h
        refine ⟨ok, st', ⟨_, h1⟩, ?_⟩
        cases ok
        · exact ⟨n + 1, eatPast_mono (Nat.le_refl _) (Nat.le_succ n) h2⟩
        · exact (Exec.ret.inj h2).symm
    · rintro ⟨ok, st', ⟨n, h1⟩, h2⟩
      cases ok
      · obtain ⟨m, h2⟩ := h2
        refine ⟨max n m + 1, ?_⟩
        simp only [eatPast, if_neg hs]
        exact Exec.bind_eq_ret.mpr ⟨_, eat_mono (by omega) h1, eatPast_mono (by omega) (by omega) h2⟩
      · refine ⟨n + 1, ?_⟩
        simp only [eatPast, if_neg hs]
        exact Exec.bind_eq_ret.mpr ⟨_, eat_mono (Nat.le_succ n) h1, by rw [show x = (true, st') from h2]; rfl⟩

theorem eTo_step {r : Reader} {st : St} {x : Bool × St} : ETo rt G r st x ↔
    ∃ ok st', E rt G r st (ok, st') ∧ if ok then x = (true, ⟨st.rest, st'.jan⟩) else
      if (eatStep st'.rest).1 then ETo rt G r ⟨(eatStep st'.rest).2, st'.jan⟩ x else x = (false, st') := by
  constructor
  · rintro ⟨n, h⟩
    cases n with
    | zero => cases h
    | succ n =>
      obtain ⟨⟨ok, st'⟩, h1, h2⟩ := Exec.bind_eq_ret.mp h
      refine ⟨ok, st', ⟨_, h1⟩, ?_⟩
      cases ok
      · simp only [Bool.false_eq_true, if_false] at h2 ⊢
        by_cases hs : (eatStep st'.rest).1 = true
        · rw [if_pos hs] at h2 ⊢
          exact ⟨n + 1, eatTo_mono (Nat.le_refl _) (Nat.le_succ n) h2⟩
        · rw [if_neg hs] at h2 ⊢
          exact (Exec.ret.inj h2).symm
      · exact (Exec.ret.inj h2).symm
  · rintro ⟨ok, st', ⟨n, h1⟩, h2⟩
    cases ok
    · simp only [Bool.false_eq_true, if_false] at h2
      by_cases hs : (eatStep st'.rest).1 = true
      · rw [if_pos hs] at h2
        obtain ⟨m, h2⟩ := h2
        refine ⟨max n m + 1, Exec.bind_eq_ret.mpr ⟨_, eat_mono (by omega) h1, ?_⟩⟩
        simp only [Bool.false_eq_true, if_false, if_pos hs]
        exact eatTo_mono (by omega) (by omega) h2
      · rw [if_neg hs] at h2
        refine ⟨n + 1, Exec.bind_eq_ret.mpr ⟨_, eat_mono (by omega) h1, ?_⟩⟩
        simp only [Bool.false_eq_true, if_false, if_neg hs, h2]; rfl
    · exact ⟨n + 1, Exec.bind_eq_ret.mpr ⟨_, eat_mono (Nat.le_succ n) h1, by rw [show x = _ from h2]; rfl⟩⟩

theorem eBody_step {b t : Reader} {t0 : Bytes} {st : St} {x : Option Bytes × St} : EBody rt G b t t0 st x ↔
    if st.rest = [] then x = (none, st) else
    ∃ ok st', E rt G t st (ok, st') ∧ if ok then
        ∃ ok' sub, E rt G b ⟨t0.take (t0.length - st.rest.length), st'.jan⟩ (ok', sub) ∧
          x = (if ok' && sub.rest.isEmpty then some st.rest else none, ⟨st'.rest, sub.jan⟩)
      else EBody rt G b t t0 ⟨(eatStep st'.rest).2, st'.jan⟩ x := by
  by_cases hs : st.rest = []
  · rw [if_pos hs]
    constructor
    · rintro ⟨n, h⟩
      cases n with
      | zero => cases h
      | succ n => simp only [eatBody, if_pos hs] at h; exact (Exec.ret.inj h).symm
    · intro h
      exact ⟨1, by rw [h]; simp only [eatBody, if_pos hs]; rfl⟩
  · rw [if_neg hs]
    constructor
    · rintro ⟨n, h⟩
      cases n with
      | zero => cases h
      | succ n =>
        simp only [eatBody, if_neg hs] at h
        obtain ⟨⟨ok, st'⟩, h1, h2⟩ := Exec.bind_eq_ret.mp h
        refine ⟨ok, st', ⟨_, h1⟩, ?_⟩
        cases ok
        · exact ⟨n + 1, eatBody_mono (Nat.le_refl _) (Nat.le_succ n) h2⟩
        · obtain ⟨⟨ok', sub⟩, h3, h4⟩ := Exec.bind_eq_ret.mp h2
          refine ⟨ok', sub, ⟨_, h3⟩, ?_⟩
          simp only at h4
          split at h4 <;> next hc => simp only [hc]; exact (Exec.ret.inj h4).symm
    · rintro ⟨ok, st', ⟨n, h1⟩, h2⟩
      cases ok
      · obtain ⟨m, h2⟩ := h2
        refine ⟨max n m + 1, ?_⟩
        simp only [eatBody, if_neg hs]
        exact Exec.bind_eq_ret.mpr ⟨_, eat_mono (by omega) h1, eatBody_mono (by omega) (by omega) h2⟩
      · obtain ⟨ok', sub, ⟨m, h3⟩, h4⟩ := h2
        refine ⟨max n m + 1, ?_⟩
        simp only [eatBody, if_neg hs]
        refine Exec.bind_eq_ret.mpr ⟨_, eat_mono (by omega) h1, Exec.bind_eq_ret.mpr ⟨_, eat_mono (by omega) h3, ?_⟩⟩
        rw [h4]
        simp only
        split <;> rfl

/-! ### the readers -/

theorem e_any {rs : List Reader} {st : St} {x : Bool × St} : E rt G (.any rs) st x ↔ ∃ y, EAny rt G rs st y ∧ x = orBack st.rest y := by
  constructor
  · rintro ⟨n, h⟩
    cases n with
    | zero => cases h
    | succ n =>
      obtain ⟨y, h1, h2⟩ := Exec.bind_eq_ret.mp h
      exact ⟨y, ⟨n, h1⟩, (Exec.ret.inj h2).symm⟩
  · rintro ⟨y, ⟨n, h⟩, rfl⟩
    exact ⟨n + 1, Exec.bind_eq_ret.mpr ⟨y, h, rfl⟩⟩

theorem e_seq {rs : List Reader} {st : St} {x : Bool × St} : E rt G (.seq rs) st x ↔ ∃ y, ESeq rt G rs st y ∧ x = orBack st.rest y := by
  constructor
  · rintro ⟨n, h⟩
    cases n with
    | zero => cases h
    | succ n =>
      obtain ⟨y, h1, h2⟩ := Exec.bind_eq_ret.mp h
      exact ⟨y, ⟨n, h1⟩, (Exec.ret.inj h2).symm⟩
  · rintro ⟨y, ⟨n, h⟩, rfl⟩
    exact ⟨n + 1, Exec.bind_eq_ret.mpr ⟨y, h, rfl⟩⟩

theorem e_skipSeq {sk : Reader} {rs : List Reader} {st : St} {x : Bool × St} : E rt G (.skipSeq sk rs) st x ↔
    ∃ y, (∃ ok st', E rt G sk st (ok, st') ∧ if ok then ESkip rt G sk rs st' y else y = (false, st')) ∧ x = orBack st.rest y := by
  constructor
  · rintro ⟨n, h⟩
    cases n with
    | zero => cases h
    | succ n =>
      obtain ⟨⟨ok, st'⟩, h1, h2⟩ := Exec.bind_eq_ret.mp h
      cases ok
      · exact ⟨_, ⟨_, _, ⟨n, h1⟩, rfl⟩, (Exec.ret.inj h2).symm⟩
      · obtain ⟨y, h3, h4⟩ := Exec.bind_eq_ret.mp h2
        exact ⟨y, ⟨_, _, ⟨n, h1⟩, ⟨n, h3⟩⟩, (Exec.ret.inj h4).symm⟩
  · rintro ⟨y, ⟨ok, st', ⟨n, h1⟩, h2⟩, rfl⟩
    cases ok
    · simp only [Bool.false_eq_true, if_false] at h2
      exact ⟨n + 1, Exec.bind_eq_ret.mpr ⟨_, h1, by rw [h2]; rfl⟩⟩
    · obtain ⟨m, h2⟩ := h2
      exact ⟨max n m + 1, Exec.bind_eq_ret.mpr ⟨_, eat_mono (Nat.le_max_left n m) h1,
        Exec.bind_eq_ret.mpr ⟨y, eatSkip_mono (Nat.le_max_right n m) h2, rfl⟩⟩⟩

theorem e_times {k : Int} {r : Reader} {st : St} {x : Bool × St} : E rt G (.times k r) st x ↔ ETimes rt G r k.toNat st x := by
  constructor
  · rintro ⟨n, h⟩
    cases n with
    | zero => cases h
    | succ n => exact ⟨n, h⟩
  · rintro ⟨n, h⟩
    exact ⟨n + 1, h⟩

theorem e_zom {r : Reader} {st : St} {x : Bool × St} : E rt G (.zom r) st x ↔ ∃ st', EZom rt G r st st' ∧ x = (true, st') := by
  constructor
  · rintro ⟨n, h⟩
    cases n with
    | zero => cases h
    | succ n =>
      obtain ⟨y, h1, h2⟩ := Exec.bind_eq_ret.mp h
      exact ⟨y, ⟨n, h1⟩, (Exec.ret.inj h2).symm⟩
  · rintro ⟨y, ⟨n, h⟩, rfl⟩
    exact ⟨n + 1, Exec.bind_eq_ret.mpr ⟨y, h, rfl⟩⟩

theorem e_many {r : Reader} {st : St} {x : Bool × St} : E rt G (.many r) st x ↔
    ∃ st', EZom rt G r st st' ∧ x = (decide (st'.rest.length < st.rest.length), st') := by
  constructor
  · rintro ⟨n, h⟩
    cases n with
    | zero => cases h
    | succ n =>
      obtain ⟨y, h1, h2⟩ := Exec.bind_eq_ret.mp h
      exact ⟨y, ⟨n, h1⟩, (Exec.ret.inj h2).symm⟩
  · rintro ⟨y, ⟨n, h⟩, rfl⟩
    exact ⟨n + 1, Exec.bind_eq_ret.mpr ⟨y, h, rfl⟩⟩

theorem e_past {r : Reader} {st : St} {x : Bool × St} : E rt G (.past r) st x ↔ ∃ y, EPast rt G r st y ∧ x = orBack st.rest y := by
  constructor
  · rintro ⟨n, h⟩
    cases n with
    | zero => cases h
    | succ n =>
      obtain ⟨y, h1, h2⟩ := Exec.bind_eq_ret.mp h
      exact ⟨y, ⟨n, h1⟩, (Exec.ret.inj h2).symm⟩
  · rintro ⟨y, ⟨n, h⟩, rfl⟩
    exact ⟨n + 1, Exec.bind_eq_ret.mpr ⟨y, h, rfl⟩⟩

theorem e_to {r : Reader} {st : St} {x : Bool × St} : E rt G (.to r) st x ↔ ∃ y, ETo rt G r st y ∧ x = orBack st.rest y := by
  constructor
  · rintro ⟨n, h⟩
    cases n with
    | zero => cases h
    | succ n =>
      obtain ⟨y, h1, h2⟩ := Exec.bind_eq_ret.mp h
      exact ⟨y, ⟨n, h1⟩, (Exec.ret.inj h2).symm⟩
  · rintro ⟨y, ⟨n, h⟩, rfl⟩
    exact ⟨n + 1, Exec.bind_eq_ret.mpr ⟨y, h, rfl⟩⟩

theorem e_body {b t : Reader} {st : St} {x : Bool × St} : E rt G (.body b t) st x ↔
    ∃ res st', EBody rt G b t st.rest st (res, st') ∧ x = (res.isSome, ⟨res.getD st.rest, st'.jan⟩) := by
  constructor
  · rintro ⟨n, h⟩
    cases n with
    | zero => cases h
    | succ n =>
      obtain ⟨⟨res, st'⟩, h1, h2⟩ := Exec.bind_eq_ret.mp h
      refine ⟨res, st', ⟨n, h1⟩, ?_⟩
      cases res <;> exact (Exec.ret.inj h2).symm
  · rintro ⟨res, st', ⟨n, h⟩, rfl⟩
    refine ⟨n + 1, Exec.bind_eq_ret.mpr ⟨_, h, ?_⟩⟩
    cases res <;> rfl

theorem e_bodyTail {b t : Reader} {st : St} {x : Bool × St} : E rt G (.bodyTail b t) st x ↔
    ∃ res st', EBody rt G b t st.rest st (res, st') ∧ x = (res.isSome, ⟨if res.isSome then st'.rest else st.rest, st'.jan⟩) := by
  constructor
  · rintro ⟨n, h⟩
    cases n with
    | zero => cases h
    | succ n =>
      obtain ⟨⟨res, st'⟩, h1, h2⟩ := Exec.bind_eq_ret.mp h
      refine ⟨res, st', ⟨n, h1⟩, ?_⟩
      cases res <;> exact (Exec.ret.inj h2).symm
  · rintro ⟨res, st', ⟨n, h⟩, rfl⟩
    refine ⟨n + 1, Exec.bind_eq_ret.mpr ⟨_, h, ?_⟩⟩
    cases res <;> rfl

theorem e_opt {r : Reader} {st : St} {x : Bool × St} : E rt G (.opt r) st x ↔ ∃ ok st', E rt G r st (ok, st') ∧ x = (true, st') := by
  constructor
  · rintro ⟨n, h⟩
    cases n with
    | zero => cases h
    | succ n =>
      obtain ⟨⟨ok, st'⟩, h1, h2⟩ := Exec.bind_eq_ret.mp h
      exact ⟨ok, st', ⟨n, h1⟩, (Exec.ret.inj h2).symm⟩
  · rintro ⟨ok, st', ⟨n, h⟩, rfl⟩
    exact ⟨n + 1, Exec.bind_eq_ret.mpr ⟨_, h, rfl⟩⟩

theorem e_at {r : Reader} {st : St} {x : Bool × St} : E rt G (.at_ r) st x ↔ ∃ ok st', E rt G r st (ok, st') ∧ x = (ok, ⟨st.rest, st'.jan⟩) := by
  constructor
  · rintro ⟨n, h⟩
    cases n with
    | zero => cases h
    | succ n =>
      obtain ⟨⟨ok, st'⟩, h1, h2⟩ := Exec.bind_eq_ret.mp h
      exact ⟨ok, st', ⟨n, h1⟩, (Exec.ret.inj h2).symm⟩
  · rintro ⟨ok, st', ⟨n, h⟩, rfl⟩
    exact ⟨n + 1, Exec.bind_eq_ret.mpr ⟨_, h, rfl⟩⟩

theorem e_not {r : Reader} {st : St} {x : Bool × St} : E rt G (.not r) st x ↔
    ∃ ok st', E rt G r st (ok, st') ∧ x = (!ok, ⟨if ok then st.rest else (eatStep st.rest).2, st'.jan⟩) := by
  constructor
  · rintro ⟨n, h⟩
    cases n with
    | zero => cases h
    | succ n =>
      obtain ⟨⟨ok, st'⟩, h1, h2⟩ := Exec.bind_eq_ret.mp h
      refine ⟨ok, st', ⟨n, h1⟩, ?_⟩
      cases ok <;> exact (Exec.ret.inj h2).symm
  · rintro ⟨ok, st', ⟨n, h⟩, rfl⟩
    refine ⟨n + 1, Exec.bind_eq_ret.mpr ⟨_, h, ?_⟩⟩
    cases ok <;> rfl

theorem e_janusBegin {id : Nat} {nm : Bytes} {r : Reader} {st : St} {x : Bool × St} : E rt G (.janusBegin id nm r) st x ↔
    ∃ ok st', E rt G r st (ok, st') ∧
      x = if ok then (true, ⟨st'.rest, upd st'.jan id (st.rest.take (st.rest.length - st'.rest.length))⟩) else (false, ⟨st.rest, st'.jan⟩) := by
  constructor
  · rintro ⟨n, h⟩
    cases n with
    | zero => cases h
    | succ n =>
      obtain ⟨⟨ok, st'⟩, h1, h2⟩ := Exec.bind_eq_ret.mp h
      refine ⟨ok, st', ⟨n, h1⟩, ?_⟩
      cases ok <;> exact (Exec.ret.inj h2).symm
  · rintro ⟨ok, st', ⟨n, h⟩, rfl⟩
    refine ⟨n + 1, Exec.bind_eq_ret.mpr ⟨_, h, ?_⟩⟩
    cases ok <;> rfl

theorem e_map {f : Nat} {r : Reader} {st : St} {x : Bool × St} : E rt G (.map f r) st x ↔ ∃ y, E rt G r st y ∧ x = orBack st.rest y := by
  constructor
  · rintro ⟨n, h⟩
    cases n with
    | zero => cases h
    | succ n =>
      obtain ⟨y, h1, h2⟩ := Exec.bind_eq_ret.mp h
      exact ⟨y, ⟨n, h1⟩, (Exec.ret.inj h2).symm⟩
  · rintro ⟨y, ⟨n, h⟩, rfl⟩
    exact ⟨n + 1, Exec.bind_eq_ret.mpr ⟨y, h, rfl⟩⟩

theorem e_pick {i : Bytes} {l : Nat} {r : Reader} {st : St} {x : Bool × St} : E rt G (.pick i l r) st x ↔ ∃ y, E rt G r st y ∧ x = orBack st.rest y := by
  constructor
  · rintro ⟨n, h⟩
    cases n with
    | zero => cases h
    | succ n =>
      obtain ⟨y, h1, h2⟩ := Exec.bind_eq_ret.mp h
      exact ⟨y, ⟨n, h1⟩, (Exec.ret.inj h2).symm⟩
  · rintro ⟨y, ⟨n, h⟩, rfl⟩
    exact ⟨n + 1, Exec.bind_eq_ret.mpr ⟨y, h, rfl⟩⟩

theorem e_named {nm : Bytes} {r : Reader} {st : St} {x : Bool × St} : E rt G (.named nm r) st x ↔ E rt G r st x := by
  constructor
  · rintro ⟨n, h⟩
    cases n with
    | zero => cases h
    | succ n => exact ⟨n, h⟩
  · rintro ⟨n, h⟩
    exact ⟨n + 1, h⟩

theorem e_monitor {i : Bytes} {l : Nat} {r : Reader} {st : St} {x : Bool × St} : E rt G (.monitor i l r) st x ↔ E rt G r st x := by
  constructor
  · rintro ⟨n, h⟩
    cases n with
    | zero => cases h
    | succ n => exact ⟨n, h⟩
  · rintro ⟨n, h⟩
    exact ⟨n + 1, h⟩

theorem e_ruleName {r : Reader} {st : St} {x : Bool × St} : E rt G (.ruleName r) st x ↔ E rt G r st x := by
  constructor
  · rintro ⟨n, h⟩
    cases n with
    | zero => cases h
    | succ n => exact ⟨n, h⟩
  · rintro ⟨n, h⟩
    exact ⟨n + 1, h⟩

theorem e_grammar {w : Bytes} {r : Reader} {st : St} {x : Bool × St} : E rt G (.grammar w r) st x ↔ E rt G r st x := by
  constructor
  · rintro ⟨n, h⟩
    cases n with
    | zero => cases h
    | succ n => exact ⟨n, h⟩
  · rintro ⟨n, h⟩
    exact ⟨n + 1, h⟩

theorem e_rule {i : Nat} {st : St} {x : Bool × St} : E rt G (.rule i) st x ↔ ∃ nm r, G[i]? = some ⟨nm, some r⟩ ∧ E rt G r st x := by
  constructor
  · rintro ⟨n, h⟩
    cases n with
    | zero => cases h
    | succ n =>
      simp only [eat] at h
      split at h
      · next nm r hr => exact ⟨nm, r, hr, ⟨n, h⟩⟩
      · cases h
  · rintro ⟨nm, r, hr, ⟨n, h⟩⟩
    exact ⟨n + 1, by simp only [eat, hr]; exact h⟩

end
end Tok
