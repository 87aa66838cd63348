/-
The laws on the text ahead.
-/
import Verif.Proofs.LawSwap

namespace Tok
open Spec

section
variable {rt : Rt} {G : Env} {a b c r : Reader} {as bs cs rs : List Reader}

def Back2 (rt : Rt) (G : Env) (r : Reader) : Prop := ∀ st st', E rt G r st (false, st') → st'.rest = st.rest
def On2 (rt : Rt) (G : Env) (r : Reader) : Prop := ∀ st st', E rt G r st (true, st') → st'.rest.length < st.rest.length
def Keep2 (rt : Rt) (G : Env) (r : Reader) : Prop := ∀ st ok st', E rt G r st (ok, st') → st'.jan = st.jan

theorem E.suffix {st : St} {x : Bool × St} (h : E rt G r st x) : x.2.rest <:+ st.rest := by
  obtain ⟨n, h⟩ := h
  exact (eat_shrinks rt G n r _ _ h : _)

theorem goesBack_iff (hG : G.Every (fun r => r.noWrap = true)) (hr : r.Every (fun r => r.noWrap = true)) (h : GoesBack rt G r) : Back2 rt G r := by
  intro st st' hx
  obtain ⟨s, hs, hj, hf⟩ := some_scanner st
  have := h s _ _ hs (s.full.length - st'.rest.length) st'.jan ((comes_iff hG hr hs).mpr ⟨st'.rest, hx.suffix, rfl, by rw [hj]; exact hx⟩)
  refine hx.suffix.eq_of_length ?_
  simp only
  rw [hs.2, hf] at this
  simp at this
  omega

theorem getsOn_iff (hG : G.Every (fun r => r.noWrap = true)) (hr : r.Every (fun r => r.noWrap = true)) (h : GetsOn rt G r) : On2 rt G r := by
  intro st st' hx
  obtain ⟨s, hs, hj, hf⟩ := some_scanner st
  have := h s _ _ hs (s.full.length - st'.rest.length) st'.jan ((comes_iff hG hr hs).mpr ⟨st'.rest, hx.suffix, rfl, by rw [hj]; exact hx⟩)
  rw [hs.2, hf] at this
  simp at this
  omega

theorem keepsJanus_iff (hG : G.Every (fun r => r.noWrap = true)) (hr : r.Every (fun r => r.noWrap = true)) (h : KeepsJanus rt G r) : Keep2 rt G r := by
  intro st ok st' hx
  obtain ⟨s, hs, hj, hf⟩ := some_scanner st
  have := h s _ _ hs ok (s.full.length - st'.rest.length) st'.jan ((comes_iff hG hr hs).mpr ⟨st'.rest, hx.suffix, rfl, by rw [hj]; exact hx⟩)
  rw [this, hj]

@[simp] theorem orBack_true (t : Bytes) (st : St) : orBack t (true, st) = (true, st) := rfl
@[simp] theorem orBack_false (t : Bytes) (st : St) : orBack t (false, st) = (false, ⟨t, st.jan⟩) := rfl

/-! ### sequences -/

theorem eSeq_append {st : St} {x : Bool × St} : ESeq rt G (as ++ bs) st x ↔
    ∃ ok st', ESeq rt G as st (ok, st') ∧ if ok then ESeq rt G bs st' x else x = (false, st') := by
  induction as generalizing st with
  | nil =>
    constructor
    · intro h; exact ⟨true, st, eSeq_nil.mpr rfl, h⟩
    · rintro ⟨ok, st', h1, h2⟩
      cases eSeq_nil.mp h1
      exact h2
  | cons r rs ih =>
    rw [List.cons_append, eSeq_cons]
    constructor
    · rintro ⟨ok, st', h1, h2⟩
      cases ok
      · exact ⟨false, st', eSeq_cons.mpr ⟨_, _, h1, rfl⟩, h2⟩
      · obtain ⟨ok, st'', h3, h4⟩ := ih.mp h2
        exact ⟨ok, st'', eSeq_cons.mpr ⟨_, _, h1, h3⟩, h4⟩
    · rintro ⟨ok, st', h1, h2⟩
      obtain ⟨ok', st'', h3, h4⟩ := eSeq_cons.mp h1
      refine ⟨ok', st'', h3, ?_⟩
      cases ok'
      · cases h4; exact h2
      · exact ih.mpr ⟨_, _, h4, h2⟩

/-- Only the success, and the Janus strings at a failure, matter for a sequence. -/
theorem seq_eq (h : ∀ st, (∀ st', ESeq rt G as st (true, st') ↔ ESeq rt G bs st (true, st')) ∧
    ∀ j, (∃ u, ESeq rt G as st (false, ⟨u, j⟩)) ↔ ∃ u, ESeq rt G bs st (false, ⟨u, j⟩)) : Eq2 rt G (.seq as) (.seq bs) := by
  intro st x
  rw [e_seq, e_seq]
  have h1 := (h st).1
  have h2 := (h st).2
  constructor
  · rintro ⟨⟨ok, u, j⟩, h3, rfl⟩
    cases ok
    · obtain ⟨v, hv⟩ := (h2 j).mp ⟨u, h3⟩
      exact ⟨_, hv, rfl⟩
    · exact ⟨_, (h1 _).mp h3, rfl⟩
  · rintro ⟨⟨ok, u, j⟩, h3, rfl⟩
    cases ok
    · obtain ⟨v, hv⟩ := (h2 j).mpr ⟨u, h3⟩
      exact ⟨_, hv, rfl⟩
    · exact ⟨_, (h1 _).mpr h3, rfl⟩

/-- The two lists, one after the other, behave the same in a sequence. -/
def SeqSame (rt : Rt) (G : Env) (as bs : List Reader) : Prop := ∀ st, (∀ st', ESeq rt G as st (true, st') ↔ ESeq rt G bs st (true, st')) ∧
    ∀ j, (∃ u, ESeq rt G as st (false, ⟨u, j⟩)) ↔ ∃ u, ESeq rt G bs st (false, ⟨u, j⟩)

theorem SeqSame.symm (h : SeqSame rt G as bs) : SeqSame rt G bs as := fun st => ⟨fun st' => ((h st).1 st').symm, fun j => ((h st).2 j).symm⟩

theorem SeqSame.le_left (h : SeqSame rt G as bs) (cs : List Reader) (st : St) :
    (∀ st', ESeq rt G (cs ++ as) st (true, st') → ESeq rt G (cs ++ bs) st (true, st')) ∧
    ∀ j, (∃ u, ESeq rt G (cs ++ as) st (false, ⟨u, j⟩)) → ∃ u, ESeq rt G (cs ++ bs) st (false, ⟨u, j⟩) := by
  constructor
  · intro st' hx
    obtain ⟨ok, st1, h1, h2⟩ := eSeq_append.mp hx
    cases ok
    · cases h2
    · exact eSeq_append.mpr ⟨true, st1, h1, ((h st1).1 st').mp h2⟩
  · rintro j ⟨u, hx⟩
    obtain ⟨ok, st1, h1, h2⟩ := eSeq_append.mp hx
    cases ok
    · exact ⟨u, eSeq_append.mpr ⟨false, st1, h1, h2⟩⟩
    · obtain ⟨v, hv⟩ := ((h st1).2 j).mp ⟨u, h2⟩
      exact ⟨v, eSeq_append.mpr ⟨true, st1, h1, hv⟩⟩

theorem SeqSame.left (h : SeqSame rt G as bs) (cs : List Reader) : SeqSame rt G (cs ++ as) (cs ++ bs) := fun st =>
  ⟨fun st' => ⟨(h.le_left cs st).1 st', (h.symm.le_left cs st).1 st'⟩, fun j => ⟨(h.le_left cs st).2 j, (h.symm.le_left cs st).2 j⟩⟩

theorem SeqSame.le_right (h : SeqSame rt G as bs) (cs : List Reader) (st : St) :
    (∀ st', ESeq rt G (as ++ cs) st (true, st') → ESeq rt G (bs ++ cs) st (true, st')) ∧
    ∀ j, (∃ u, ESeq rt G (as ++ cs) st (false, ⟨u, j⟩)) → ∃ u, ESeq rt G (bs ++ cs) st (false, ⟨u, j⟩) := by
  constructor
  · intro st' hx
    obtain ⟨ok, st1, h1, h2⟩ := eSeq_append.mp hx
    cases ok
    · cases h2
    · exact eSeq_append.mpr ⟨true, st1, ((h st).1 st1).mp h1, h2⟩
  · rintro j ⟨u, hx⟩
    obtain ⟨ok, st1, h1, h2⟩ := eSeq_append.mp hx
    cases ok
    · cases h2
      obtain ⟨v, hv⟩ := ((h st).2 j).mp ⟨_, h1⟩
      exact ⟨v, eSeq_append.mpr ⟨false, _, hv, rfl⟩⟩
    · exact ⟨u, eSeq_append.mpr ⟨true, st1, ((h st).1 st1).mp h1, h2⟩⟩

theorem SeqSame.right (h : SeqSame rt G as bs) (cs : List Reader) : SeqSame rt G (as ++ cs) (bs ++ cs) := fun st =>
  ⟨fun st' => ⟨(h.le_right cs st).1 st', (h.symm.le_right cs st).1 st'⟩, fun j => ⟨(h.le_right cs st).2 j, (h.symm.le_right cs st).2 j⟩⟩

theorem eSeq_one {st : St} {x : Bool × St} : ESeq rt G [r] st x ↔ E rt G r st x := by
  rw [eSeq_cons]
  constructor
  · rintro ⟨ok, st', h1, h2⟩
    cases ok
    · cases h2; exact h1
    · cases eSeq_nil.mp h2; exact h1
  · intro h
    obtain ⟨ok, st'⟩ := x
    refine ⟨ok, st', h, ?_⟩
    cases ok
    · rfl
    · exact eSeq_nil.mpr rfl

theorem seqSame_seq : SeqSame rt G [.seq bs] bs := fun st => by
  simp only [eSeq_one, e_seq]
  constructor
  · intro st'
    constructor
    · rintro ⟨⟨ok, st1⟩, h1, h2⟩
      cases ok
      · cases h2
      · cases h2; exact h1
    · intro h; exact ⟨_, h, rfl⟩
  · intro j
    constructor
    · rintro ⟨u, ⟨ok, st1⟩, h1, h2⟩
      cases ok
      · cases h2; exact ⟨_, h1⟩
      · cases h2
    · rintro ⟨u, h⟩
      exact ⟨st.rest, _, h, rfl⟩

/-- A sequence inside a sequence. -/
theorem law_seq_flat : Eq2 rt G (.seq (as ++ .seq bs :: cs)) (.seq (as ++ bs ++ cs)) := by
  have := ((seqSame_seq (rt := rt) (G := G) (bs := bs)).right cs).left as
  rw [List.append_assoc]
  exact seq_eq this

/-- A sequence of one. -/
theorem law_seq_one (hb : Back2 rt G r) : Eq2 rt G (.seq [r]) r := by
  intro st x
  rw [e_seq]
  constructor
  · rintro ⟨⟨ok, st'⟩, h1, rfl⟩
    rw [eSeq_one] at h1
    cases ok
    · have := hb _ _ h1
      obtain ⟨u, j⟩ := st'
      simp only at this
      subst this
      exact h1
    · exact h1
  · intro h
    obtain ⟨ok, u, j⟩ := x
    refine ⟨_, eSeq_one.mpr h, ?_⟩
    cases ok
    · have := hb _ _ h
      simp only at this
      subst this
      rfl
    · rfl

theorem eSeq_replicate {k : Nat} {st : St} {x : Bool × St} : ESeq rt G (List.replicate k r) st x ↔ ETimes rt G r k st x := by
  induction k generalizing st with
  | zero => rw [List.replicate_zero, eSeq_nil, eTimes_zero]
  | succ k ih => rw [List.replicate_succ, eSeq_cons, eTimes_succ]; simp only [ih]

/-- `Times` inside a sequence. -/
theorem law_times (k : Int) : Eq2 rt G (.seq (as ++ .times k r :: cs)) (.seq (as ++ List.replicate k.toNat r ++ cs)) := by
  have h : SeqSame rt G [.times k r] (List.replicate k.toNat r) := fun st => by
    simp [eSeq_one, e_times, eSeq_replicate]
  have := (h.right cs).left as
  rw [List.append_assoc]
  exact seq_eq this

/-- What a `SkipSeq` reads, one after the other. -/
theorem eSkip_seq {sk : Reader} {st : St} {x : Bool × St} : ESkip rt G sk rs st x ↔ ESeq rt G (rs.flatMap fun r => [r, sk]) st x := by
  induction rs generalizing st with
  | nil => rw [List.flatMap_nil, eSkip_nil, eSeq_nil]
  | cons r rs ih =>
    rw [List.flatMap_cons, List.cons_append, List.cons_append, List.nil_append, eSkip_cons, eSeq_cons]
    simp only [eSeq_cons, ih]

theorem law_skip {sk : Reader} : Eq2 rt G (.skipSeq sk rs) (.seq (sk :: rs.flatMap fun r => [r, sk])) := by
  intro st x
  rw [e_skipSeq, e_seq]
  simp only [eSeq_cons, eSkip_seq]

/-- Looking ahead for what is read next. -/
theorem law_at_seq (hk : Keep2 rt G r) : Eq2 rt G (.seq (as ++ .at_ r :: r :: cs)) (.seq (as ++ r :: cs)) := by
  have h : SeqSame rt G [.at_ r, r] [r] := fun st => by
    have key : ∀ x, ESeq rt G [.at_ r, r] st (true, x) ↔ E rt G r st (true, x) := by
      intro x
      rw [eSeq_cons]
      constructor
      · rintro ⟨ok, st', h1, h2⟩
        obtain ⟨ok', st'', h3, h4⟩ := e_at.mp h1
        cases h4
        cases ok
        · cases h2
        · have := hk _ _ _ h3
          rw [if_pos rfl, eSeq_one, this] at h2
          exact h2
      · intro hx
        refine ⟨true, _, e_at.mpr ⟨true, x, hx, rfl⟩, ?_⟩
        rw [if_pos rfl, eSeq_one, hk _ _ _ hx]
        exact hx
    refine ⟨fun x => by rw [key, eSeq_one], fun j => ?_⟩
    simp only [eSeq_one]
    constructor
    · rintro ⟨u, hx⟩
      obtain ⟨ok, st', h1, h2⟩ := eSeq_cons.mp hx
      obtain ⟨ok', st'', h3, h4⟩ := e_at.mp h1
      cases h4
      cases ok
      · cases h2; exact ⟨_, h3⟩
      · rw [if_pos rfl, eSeq_one, hk _ _ _ h3] at h2
        cases h3.det h2
    · rintro ⟨u, hx⟩
      exact ⟨st.rest, eSeq_cons.mpr ⟨false, _, e_at.mpr ⟨false, _, hx, rfl⟩, rfl⟩⟩
  have := (h.right cs).left as
  exact seq_eq this

/-! ### choices -/

theorem eAny_append {st : St} {x : Bool × St} : EAny rt G (as ++ bs) st x ↔
    ∃ ok st', EAny rt G as st (ok, st') ∧ if ok then x = (true, st') else EAny rt G bs st' x := by
  induction as generalizing st with
  | nil =>
    constructor
    · intro h; exact ⟨false, st, eAny_nil.mpr rfl, h⟩
    · rintro ⟨ok, st', h1, h2⟩
      cases eAny_nil.mp h1
      exact h2
  | cons r rs ih =>
    rw [List.cons_append, eAny_cons]
    constructor
    · rintro ⟨ok, st', h1, h2⟩
      cases ok
      · obtain ⟨ok, st'', h3, h4⟩ := ih.mp h2
        exact ⟨ok, st'', eAny_cons.mpr ⟨_, _, h1, h3⟩, h4⟩
      · exact ⟨true, st', eAny_cons.mpr ⟨_, _, h1, rfl⟩, h2⟩
    · rintro ⟨ok, st', h1, h2⟩
      obtain ⟨ok', st'', h3, h4⟩ := eAny_cons.mp h1
      refine ⟨ok', st'', h3, ?_⟩
      cases ok'
      · exact ih.mpr ⟨_, _, h4, h2⟩
      · cases h4; exact h2

theorem eAny_back (h : ∀ r ∈ rs, Back2 rt G r) {st st' : St} (hx : EAny rt G rs st (false, st')) : st'.rest = st.rest := by
  induction rs generalizing st with
  | nil => cases eAny_nil.mp hx; rfl
  | cons r rs ih =>
    obtain ⟨ok, st1, h1, h2⟩ := eAny_cons.mp hx
    cases ok
    · exact (ih (fun r hr => h r (List.mem_cons_of_mem _ hr)) h2).trans (h r List.mem_cons_self _ _ h1)
    · cases h2

theorem any_eq (h : ∀ st x, EAny rt G as st x ↔ EAny rt G bs st x) : Eq2 rt G (.any as) (.any bs) := by
  intro st x
  rw [e_any, e_any]
  simp only [h]

theorem eAny_any (h : ∀ r ∈ bs, Back2 rt G r) {st : St} {x : Bool × St} : E rt G (.any bs) st x ↔ EAny rt G bs st x := by
  rw [e_any]
  constructor
  · rintro ⟨⟨ok, u, j⟩, h1, rfl⟩
    cases ok
    · have := eAny_back h h1
      simp only at this
      subst this
      exact h1
    · exact h1
  · intro hx
    refine ⟨x, hx, ?_⟩
    obtain ⟨ok, u, j⟩ := x
    cases ok
    · have := eAny_back h hx
      simp only at this
      subst this
      rfl
    · rfl

/-- A choice inside a choice. -/
theorem law_any_flat (h : ∀ r ∈ bs, Back2 rt G r) : Eq2 rt G (.any (as ++ .any bs :: cs)) (.any (as ++ bs ++ cs)) := by
  refine any_eq fun st x => ?_
  rw [List.append_assoc, eAny_append, eAny_append]
  have : ∀ st x, EAny rt G (.any bs :: cs) st x ↔ EAny rt G (bs ++ cs) st x := by
    intro st x
    rw [eAny_cons, eAny_append]
    simp only [eAny_any h]
  simp only [this]

/-- A choice of one. -/
theorem law_any_one (hb : Back2 rt G r) : Eq2 rt G (.any [r]) r := by
  intro st x
  rw [eAny_any (fun r' hr => by rw [List.mem_singleton] at hr; exact hr ▸ hb), eAny_cons]
  obtain ⟨ok, st'⟩ := x
  constructor
  · rintro ⟨ok', st'', h1, h2⟩
    cases ok'
    · cases eAny_nil.mp h2; exact h1
    · cases h2; exact h1
  · intro h
    refine ⟨ok, st', h, ?_⟩
    cases ok
    · exact eAny_nil.mpr rfl
    · rfl

/-- `Opt` is a choice with nothing as the last. -/
theorem law_opt_any : Eq2 rt G (.opt r) (.any [r, .seq []]) := by
  intro st x
  rw [e_opt, e_any]
  have hn : ∀ (st : St) x, E rt G (.seq []) st x ↔ x = (true, st) := by
    intro st x
    rw [e_seq]
    constructor
    · rintro ⟨y, h, rfl⟩; rw [eSeq_nil.mp h]; rfl
    · rintro rfl; exact ⟨_, eSeq_nil.mpr rfl, rfl⟩
  constructor
  · rintro ⟨ok, st', h1, rfl⟩
    refine ⟨(true, st'), eAny_cons.mpr ⟨ok, st', h1, ?_⟩, rfl⟩
    cases ok
    · exact eAny_cons.mpr ⟨true, st', (hn _ _).mpr rfl, rfl⟩
    · rfl
  · rintro ⟨y, h, rfl⟩
    obtain ⟨ok, st', h1, h2⟩ := eAny_cons.mp h
    refine ⟨ok, st', h1, ?_⟩
    cases ok
    · obtain ⟨ok, st'', h3, h4⟩ := eAny_cons.mp h2
      cases (hn _ _).mp h3
      cases h4
      rfl
    · cases h2; rfl

/-- The same again in a choice. -/
theorem law_any_again (hr : Back2 rt G r) (hk : Keep2 rt G r) (hb : ∀ b ∈ bs, Back2 rt G b ∧ Keep2 rt G b) :
    Eq2 rt G (.any (as ++ r :: bs ++ r :: cs)) (.any (as ++ r :: bs ++ cs)) := by
  have stay : ∀ {rs : List Reader}, (∀ b ∈ rs, Back2 rt G b ∧ Keep2 rt G b) → ∀ {st st' : St}, EAny rt G rs st (false, st') → st' = st := by
    intro rs h st st' hx
    induction rs generalizing st with
    | nil => cases eAny_nil.mp hx; rfl
    | cons r rs ih =>
      obtain ⟨ok, ⟨u, j⟩, h1, h2⟩ := eAny_cons.mp hx
      cases ok
      · have e1 := (h r List.mem_cons_self).1 _ _ h1
        have e2 := (h r List.mem_cons_self).2 _ _ _ h1
        obtain ⟨t, i⟩ := st
        simp only at e1 e2
        subst e1 e2
        exact ih (fun r hr => h r (List.mem_cons_of_mem _ hr)) h2
      · cases h2
  have hall : ∀ b ∈ r :: bs, Back2 rt G b ∧ Keep2 rt G b := by
    intro b hb'
    rcases List.mem_cons.mp hb' with rfl | hb'
    · exact ⟨hr, hk⟩
    · exact hb b hb'
  refine any_eq fun st x => ?_
  rw [List.append_assoc, List.append_assoc, eAny_append, eAny_append]
  have : ∀ st x, EAny rt G (r :: bs ++ r :: cs) st x ↔ EAny rt G (r :: bs ++ cs) st x := by
    intro st x
    rw [eAny_append, eAny_append]
    have key : ∀ st', EAny rt G (r :: bs) st (false, st') → (EAny rt G (r :: cs) st' x ↔ EAny rt G cs st' x) := by
      intro st' h1
      cases stay hall h1
      obtain ⟨ok, st1, h2, h3⟩ := eAny_cons.mp h1
      cases ok
      · have : st1 = st := by
          have e1 := hr _ _ h2
          have e2 := hk _ _ _ h2
          obtain ⟨t, i⟩ := st
          obtain ⟨u, j⟩ := st1
          simp only at e1 e2
          subst e1 e2
          rfl
        subst this
        rw [eAny_cons]
        constructor
        · rintro ⟨ok, st2, h4, h5⟩
          cases h2.det h4
          exact h5
        · intro h5
          exact ⟨false, _, h2, h5⟩
      · cases h3
    constructor
    · rintro ⟨ok, st', h1, h2⟩
      refine ⟨ok, st', h1, ?_⟩
      cases ok
      · exact (key st' h1).mp h2
      · exact h2
    · rintro ⟨ok, st', h1, h2⟩
      refine ⟨ok, st', h1, ?_⟩
      cases ok
      · exact (key st' h1).mpr h2
      · exact h2
  simp only [this]

/-- A common beginning of the members of a choice. -/
theorem law_factor (ha : Keep2 rt G a) (hb : ∀ b ∈ bs, Back2 rt G b ∧ Keep2 rt G b) (hne : bs ≠ []) :
    Eq2 rt G (.any (bs.map fun b => .seq [a, b])) (.seq [a, .any bs]) := by
  have two : ∀ {b : Reader} {st : St} {x : Bool × St}, E rt G (.seq [a, b]) st x ↔
      ∃ ok st', E rt G a st (ok, st') ∧ if ok then ∃ y, E rt G b st' y ∧ x = orBack st.rest y else x = (false, ⟨st.rest, st'.jan⟩) := by
    intro b st x
    rw [e_seq]
    constructor
    · rintro ⟨y, h1, rfl⟩
      obtain ⟨ok, st', h2, h3⟩ := eSeq_cons.mp h1
      refine ⟨ok, st', h2, ?_⟩
      cases ok
      · rw [show y = _ from h3]; rfl
      · exact ⟨y, eSeq_one.mp h3, rfl⟩
    · rintro ⟨ok, st', h2, h3⟩
      cases ok
      · exact ⟨(false, st'), eSeq_cons.mpr ⟨false, st', h2, rfl⟩, h3⟩
      · obtain ⟨y, h4, rfl⟩ := h3
        exact ⟨y, eSeq_cons.mpr ⟨true, st', h2, eSeq_one.mpr h4⟩, rfl⟩
  -- the beginning fails
  have no : ∀ (rs : List Reader), rs ≠ [] → ∀ (st st' : St), E rt G a st (false, st') →
      ∀ x, EAny rt G (rs.map fun b => .seq [a, b]) st x ↔ x = (false, st) := by
    intro rs
    induction rs with
    | nil => intro h; exact absurd rfl h
    | cons b rs ih =>
      intro _ st st' ha1 x
      have hs : E rt G (.seq [a, b]) st (false, st) := by
        refine two.mpr ⟨false, st', ha1, ?_⟩
        have := ha _ _ _ ha1
        rw [if_neg (by simp), this]
      rw [List.map_cons, eAny_cons]
      constructor
      · rintro ⟨ok, st1, h1, h2⟩
        cases hs.det h1
        by_cases hrs : rs = []
        · subst hrs; exact eAny_nil.mp h2
        · exact (ih hrs st st' ha1 x).mp h2
      · rintro rfl
        refine ⟨false, st, hs, ?_⟩
        by_cases hrs : rs = []
        · subst hrs; exact eAny_nil.mpr rfl
        · exact (ih hrs st st' ha1 _).mpr rfl
  -- the beginning is read
  have yes : ∀ (rs : List Reader), (∀ b ∈ rs, Back2 rt G b ∧ Keep2 rt G b) → ∀ (st st' : St), E rt G a st (true, st') →
      ∀ x, (∃ y, EAny rt G (rs.map fun b => .seq [a, b]) st y ∧ x = orBack st.rest y) ↔ ∃ y, EAny rt G rs st' y ∧ x = orBack st.rest y := by
    intro rs
    induction rs with
    | nil =>
      intro _ st st' ha1 x
      have := ha _ _ _ ha1
      constructor
      · rintro ⟨y, h1, rfl⟩
        refine ⟨_, eAny_nil.mpr rfl, ?_⟩
        rw [eAny_nil.mp h1, orBack_false, orBack_false, this]
      · rintro ⟨y, h1, rfl⟩
        refine ⟨_, eAny_nil.mpr rfl, ?_⟩
        rw [eAny_nil.mp h1, orBack_false, orBack_false, this]
    | cons b rs ih =>
      intro hbs st st' ha1 x
      have hb1 := hbs b List.mem_cons_self
      have ih := ih (fun b hb => hbs b (List.mem_cons_of_mem _ hb)) st st' ha1 x
      have one : ∀ ok st1, E rt G b st' (ok, st1) → E rt G (.seq [a, b]) st (orBack st.rest (ok, st1)) := fun ok st1 h =>
        two.mpr ⟨true, st', ha1, _, h, rfl⟩
      have hj := ha _ _ _ ha1
      constructor
      · rintro ⟨y, h1, rfl⟩
        obtain ⟨ok, st1, h2, h3⟩ := eAny_cons.mp h1
        obtain ⟨ok', st2, h4, h5⟩ := two.mp h2
        cases ha1.det h4
        obtain ⟨⟨ok2, st3⟩, h6, h7⟩ := h5
        cases ok2
        · have e1 := hb1.1 _ _ h6
          have e2 := hb1.2 _ _ _ h6
          have e3 : st3 = st' := by
            obtain ⟨u, j⟩ := st3
            obtain ⟨v, i⟩ := st'
            simp only at e1 e2
            subst e1 e2
            rfl
          subst e3
          cases h7
          have e4 : (⟨st.rest, st3.jan⟩ : St) = st := by rw [hj]
          rw [e4] at h3
          obtain ⟨z, h8, h9⟩ := ih.mp ⟨y, h3, rfl⟩
          exact ⟨z, eAny_cons.mpr ⟨false, st3, h6, h8⟩, h9⟩
        · cases h7
          rw [if_pos rfl] at h3
          exact ⟨_, eAny_cons.mpr ⟨true, _, h6, rfl⟩, by rw [h3]⟩
      · rintro ⟨y, h1, rfl⟩
        obtain ⟨ok, st1, h2, h3⟩ := eAny_cons.mp h1
        have h4 := one ok st1 h2
        cases ok
        · have e1 := hb1.1 _ _ h2
          have e2 := hb1.2 _ _ _ h2
          have e3 : st1 = st' := by
            obtain ⟨u, j⟩ := st1
            obtain ⟨v, i⟩ := st'
            simp only at e1 e2
            subst e1 e2
            rfl
          subst e3
          rw [orBack_false, hj] at h4
          obtain ⟨z, h8, h9⟩ := ih.mpr ⟨y, h3, rfl⟩
          exact ⟨z, eAny_cons.mpr ⟨false, st, h4, h8⟩, h9⟩
        · rw [if_pos rfl] at h3
          exact ⟨(true, st1), eAny_cons.mpr ⟨true, st1, h4, rfl⟩, by rw [h3]⟩
  intro st x
  rw [e_any]
  constructor
  · rintro ⟨y, h1, rfl⟩
    -- does the beginning end?
    have : ∃ ok st', E rt G a st (ok, st') := by
      cases bs with
      | nil => exact absurd rfl hne
      | cons b bs =>
        obtain ⟨ok, st1, h2, _⟩ := eAny_cons.mp h1
        obtain ⟨ok', st2, h4, _⟩ := two.mp h2
        exact ⟨_, _, h4⟩
    obtain ⟨ok, st', h2⟩ := this
    cases ok
    · rw [no bs hne st st' h2] at h1
      subst h1
      refine two.mpr ⟨false, st', h2, ?_⟩
      rw [if_neg (by simp), orBack_false, ha _ _ _ h2]
    · obtain ⟨z, h3, h4⟩ := (yes bs hb st st' h2 _).mp ⟨y, h1, rfl⟩
      exact two.mpr ⟨true, st', h2, z, (eAny_any fun b hb' => (hb b hb').1).mpr h3, h4⟩
  · intro hx
    obtain ⟨ok, st', h2, h3⟩ := two.mp hx
    cases ok
    · refine ⟨(false, st), (no bs hne st st' h2 _).mpr rfl, ?_⟩
      rw [show x = _ from h3, orBack_false, ha _ _ _ h2]
    · obtain ⟨y, h4, h5⟩ := h3
      exact (yes bs hb st st' h2 _).mpr ⟨y, (eAny_any fun b hb' => (hb b hb').1).mp h4, h5⟩

/-! ### repetition and looking ahead -/

theorem law_opt_opt : Eq2 rt G (.opt (.opt r)) (.opt r) := by
  intro st x
  rw [e_opt]
  constructor
  · rintro ⟨ok, st', h, rfl⟩
    obtain ⟨ok', st'', h1, h2⟩ := e_opt.mp h
    cases h2
    exact e_opt.mpr ⟨ok', _, h1, rfl⟩
  · intro h
    obtain ⟨ok', st'', h1, h2⟩ := e_opt.mp h
    exact ⟨true, st'', e_opt.mpr ⟨ok', _, h1, rfl⟩, h2⟩

theorem law_zom_many : Eq2 rt G (.zom r) (.opt (.many r)) := by
  intro st x
  rw [e_zom, e_opt]
  constructor
  · rintro ⟨st', h, rfl⟩
    exact ⟨_, st', e_many.mpr ⟨st', h, rfl⟩, rfl⟩
  · rintro ⟨ok, st', h, rfl⟩
    obtain ⟨st'', h1, h2⟩ := e_many.mp h
    cases h2
    exact ⟨_, h1, rfl⟩

theorem eZom_suffix {st st' : St} (h : EZom rt G r st st') : st'.rest <:+ st.rest := by
  have := (e_zom.mpr ⟨st', h, rfl⟩ : E rt G (.zom r) st (true, st')).suffix
  exact this

theorem law_many (hb : Back2 rt G r) (ho : On2 rt G r) : Eq2 rt G (.many r) (.seq [r, .zom r]) := by
  intro st x
  rw [e_many, e_seq]
  constructor
  · rintro ⟨st', h, rfl⟩
    obtain ⟨ok, st1, h1, h2⟩ := eZom_step.mp h
    cases ok
    · rw [if_neg (by simp)] at h2
      subst h2
      have := hb _ _ h1
      refine ⟨_, eSeq_cons.mpr ⟨false, st', h1, rfl⟩, ?_⟩
      rw [this, orBack_false, ← this]
      simp
    · refine ⟨(true, st'), eSeq_cons.mpr ⟨true, st1, h1, eSeq_one.mpr (e_zom.mpr ⟨st', h2, rfl⟩)⟩, ?_⟩
      have h3 := ho _ _ h1
      have h4 := (eZom_suffix h2).length_le
      rw [decide_eq_true (by omega)]; rfl
  · rintro ⟨y, h, rfl⟩
    obtain ⟨ok, st1, h1, h2⟩ := eSeq_cons.mp h
    cases ok
    · rw [if_neg (by simp)] at h2
      subst h2
      have := hb _ _ h1
      refine ⟨st1, eZom_step.mpr ⟨false, st1, h1, rfl⟩, ?_⟩
      rw [this, orBack_false, ← this]
      simp
    · obtain ⟨st', h3, h4⟩ := e_zom.mp (eSeq_one.mp h2)
      subst h4
      refine ⟨st', eZom_step.mpr ⟨true, st1, h1, h3⟩, ?_⟩
      have h5 := ho _ _ h1
      have h4 := (eZom_suffix h3).length_le
      rw [decide_eq_true (by omega)]; rfl

theorem law_at_at : Eq2 rt G (.at_ (.at_ r)) (.at_ r) := by
  intro st x
  rw [e_at]
  constructor
  · rintro ⟨ok, st', h, rfl⟩
    obtain ⟨ok', st'', h1, h2⟩ := e_at.mp h
    cases h2
    exact e_at.mpr ⟨ok, _, h1, rfl⟩
  · intro h
    obtain ⟨ok', st'', h1, h2⟩ := e_at.mp h
    exact ⟨ok', _, e_at.mpr ⟨ok', _, h1, rfl⟩, h2⟩

theorem law_not_at : Eq2 rt G (.not (.at_ r)) (.not r) := by
  intro st x
  rw [e_not, e_not]
  constructor
  · rintro ⟨ok, st', h, rfl⟩
    obtain ⟨ok', st'', h1, h2⟩ := e_at.mp h
    cases h2
    exact ⟨ok, _, h1, rfl⟩
  · rintro ⟨ok, st', h, rfl⟩
    exact ⟨ok, _, e_at.mpr ⟨ok, _, h, rfl⟩, rfl⟩

/-- Nothing comes of repeating what never fails. -/
theorem never_zom (h : ∀ st st', ¬ E rt G r st (false, st')) (st : St) (x : Bool × St) : ¬ E rt G (.zom r) st x ∧ ¬ E rt G (.many r) st x := by
  have key : ∀ st st', ¬ EZom rt G r st st' := by
    rintro st st' ⟨n, hn⟩
    have : ∀ k m st, eatZom (eat rt G m r) k st ≠ .ret st' := by
      intro k m
      induction k with
      | zero => intro st h; cases h
      | succ k ih =>
        intro st hx
        obtain ⟨⟨ok, st1⟩, h1, h2⟩ := Exec.bind_eq_ret.mp hx
        cases ok
        · exact h _ _ ⟨m, h1⟩
        · exact ih _ h2
    exact this _ _ _ hn
  rw [e_zom, e_many]
  exact ⟨fun ⟨st', h1, _⟩ => key _ _ h1, fun ⟨st', h1, _⟩ => key _ _ h1⟩

/-! ### bodies and searches -/

theorem eBody_found (hb : Keep2 rt G b) (ht : Keep2 rt G c) {t0 : Bytes} : ∀ {st : St} {res : Option Bytes} {st' : St}, EBody rt G b c t0 st (res, st') →
    st'.jan = st.jan ∧ ∀ u, res = some u → E rt G c ⟨u, st.jan⟩ (true, ⟨st'.rest, st.jan⟩) := by
  rintro st res st' ⟨n, hn⟩
  have : ∀ k m st, eatBody (eat rt G m b) (eat rt G m c) t0 k st = .ret (res, st') →
      st'.jan = st.jan ∧ ∀ u, res = some u → E rt G c ⟨u, st.jan⟩ (true, ⟨st'.rest, st.jan⟩) := by
    intro k m
    induction k with
    | zero => intro st h; cases h
    | succ k ih =>
      intro st hx
      unfold eatBody at hx
      split at hx
      · cases hx; exact ⟨rfl, fun u h => by cases h⟩
      · obtain ⟨⟨ok, st1⟩, h1, h2⟩ := Exec.bind_eq_ret.mp hx
        have j1 := ht _ _ _ ⟨m, h1⟩
        cases ok
        · obtain ⟨i1, i2⟩ := ih _ h2
          simp only [j1] at i1 i2
          exact ⟨i1, i2⟩
        · obtain ⟨⟨ok', sub⟩, h3, h4⟩ := Exec.bind_eq_ret.mp h2
          have j2 := hb _ _ _ ⟨m, h3⟩
          simp only at h4 j2
          split at h4
          · cases h4
            refine ⟨j2.trans j1, fun u hu => ?_⟩
            cases hu
            obtain ⟨v, j⟩ := st1
            simp only at j1
            subst j1
            exact ⟨m, h1⟩
          · cases h4
            exact ⟨j2.trans j1, fun u hu => by cases hu⟩
  exact this _ _ _ hn

theorem law_body (hb : Keep2 rt G b) (ht : Keep2 rt G c) : Eq2 rt G (.bodyTail b c) (.seq [.body b c, c]) := by
  intro st x
  rw [e_bodyTail, e_seq]
  constructor
  · rintro ⟨res, st', h, rfl⟩
    have hf := eBody_found hb ht h
    cases res with
    | none => exact ⟨_, eSeq_cons.mpr ⟨false, _, e_body.mpr ⟨_, _, h, rfl⟩, rfl⟩, rfl⟩
    | some u =>
      refine ⟨(true, st'), eSeq_cons.mpr ⟨true, _, e_body.mpr ⟨_, _, h, rfl⟩, eSeq_one.mpr ?_⟩, rfl⟩
      have h2 := hf.2 u rfl
      simp only [Option.getD_some, hf.1]
      obtain ⟨v, j⟩ := st'
      have := hf.1
      simp only at this
      subst this
      exact h2
  · rintro ⟨y, h, rfl⟩
    obtain ⟨ok, st1, h1, h2⟩ := eSeq_cons.mp h
    obtain ⟨res, st', h3, h4⟩ := e_body.mp h1
    have hf := eBody_found hb ht h3
    refine ⟨res, st', h3, ?_⟩
    cases res with
    | none =>
      cases h4
      rw [show y = _ from h2]; rfl
    | some u =>
      cases h4
      rw [if_pos (by rfl), eSeq_one] at h2
      have h5 := hf.2 u rfl
      simp only [Option.getD_some, hf.1] at h2
      have := h5.det h2
      subst this
      obtain ⟨v, j⟩ := st'
      have := hf.1
      simp only at this
      subst this
      rfl

theorem eatStep_no {t : Bytes} (h : ¬ (eatStep t).1 = true) : (eatStep t).2 = t := by
  unfold eatStep at h ⊢
  split
  · next hc => rw [if_pos hc] at h; exact absurd rfl h
  · rfl

/-- What `Past` reads, `To` and then the reader read. -/
theorem law_past (hb : Back2 rt G r) (hk : Keep2 rt G r) (ho : On2 rt G r) {st st' : St} :
    E rt G (.past r) st (true, st') ↔ E rt G (.seq [.to r, r]) st (true, st') := by
  have stay : ∀ {st st1 : St}, E rt G r st (false, st1) → st1 = st := by
    intro st st1 h
    have e1 := hb _ _ h
    have e2 := hk _ _ _ h
    obtain ⟨u, j⟩ := st
    obtain ⟨v, i⟩ := st1
    simp only at e1 e2
    subst e1 e2
    rfl
  have one : ∀ k m (st : St), eatPast (eat rt G m r) k st = .ret (true, st') →
      ∃ u, ETo rt G r st (true, ⟨u, st.jan⟩) ∧ E rt G r ⟨u, st.jan⟩ (true, st') := by
    intro k m
    induction k with
    | zero => intro st h; cases h
    | succ k ih =>
      intro st hx
      unfold eatPast at hx
      split at hx
      · cases hx
      · obtain ⟨⟨ok, st1⟩, h1, h2⟩ := Exec.bind_eq_ret.mp hx
        cases ok
        · cases stay ⟨m, h1⟩
          obtain ⟨u, h3, h4⟩ := ih _ h2
          refine ⟨u, eTo_step.mpr ⟨false, st, ⟨m, h1⟩, ?_⟩, h4⟩
          rw [if_neg (by simp)]
          by_cases hs : (eatStep st.rest).1 = true
          · rw [if_pos hs]; exact h3
          · rw [eatStep_no hs] at h3
            obtain ⟨ok, st1, h5, h6⟩ := eTo_step.mp h3
            cases E.det ⟨m, h1⟩ h5
            rw [if_neg (by simp), if_neg hs] at h6
            cases h6
        · cases h2
          refine ⟨st.rest, eTo_step.mpr ⟨true, st', ⟨m, h1⟩, ?_⟩, ⟨m, h1⟩⟩
          rw [if_pos rfl, hk _ _ _ ⟨m, h1⟩]
  have two : ∀ k m (st : St) (x : St), eatTo (eat rt G m r) k st = .ret (true, x) →
      E rt G r x (true, st') → EPast rt G r st (true, st') := by
    intro k m
    induction k with
    | zero => intro st x h; cases h
    | succ k ih =>
      intro st x hx hr
      obtain ⟨⟨ok, st1⟩, h1, h2⟩ := Exec.bind_eq_ret.mp hx
      have hE : E rt G r st (ok, st1) := ⟨m, h1⟩
      cases ok
      · cases stay hE
        simp only [Bool.false_eq_true, if_false] at h2
        split at h2
        · next hs =>
          have h3 := ih _ _ h2 hr
          refine ePast_step.mpr ?_
          rw [if_neg (by intro h; rw [h] at hs; exact absurd hs (by decide))]
          exact ⟨false, st, hE, h3⟩
        · cases h2
      · cases h2
        have hj := hk _ _ _ hE
        have e : (⟨st.rest, st1.jan⟩ : St) = st := by rw [hj]
        rw [e] at hr
        cases hE.det hr
        refine ePast_step.mpr ?_
        rw [if_neg (by intro h; have := ho _ _ hr; rw [h] at this; simp at this)]
        exact ⟨true, _, hr, rfl⟩
  rw [e_past, e_seq]
  constructor
  · rintro ⟨⟨ok, y⟩, ⟨n, h⟩, h2⟩
    cases ok
    · cases h2
    · cases h2
      obtain ⟨u, h3, h4⟩ := one _ _ _ h
      exact ⟨(true, st'), eSeq_cons.mpr ⟨true, _, e_to.mpr ⟨_, h3, rfl⟩, eSeq_one.mpr h4⟩, rfl⟩
  · rintro ⟨⟨ok, y⟩, h, h2⟩
    cases ok
    · cases h2
    · cases h2
      obtain ⟨ok, st1, h3, h4⟩ := eSeq_cons.mp h
      obtain ⟨⟨ok', st2⟩, ⟨n, h5⟩, h6⟩ := e_to.mp h3
      cases ok
      · cases h4
      · cases ok'
        · cases h6
        · cases h6
          exact ⟨(true, st'), two _ _ _ _ h5 (eSeq_one.mp h4), rfl⟩

end
end Tok
