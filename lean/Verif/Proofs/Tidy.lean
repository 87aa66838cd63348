/-
On a well-formed UTF-8 text, readers of the kind `whole true` go over whole characters.
-/
import Verif.Proofs.PegLeaf
import Verif.Spec.WellFormed

namespace Tok
open Spec

/-- The text ahead and the Janus strings are well-formed. -/
def Good (st : St) : Prop := (∃ cs, st.rest = encText cs) ∧ ∀ i, ∃ cs, st.jan i = encText cs

/-- From one well-formed state over whole characters to another. -/
def Moves (st st' : St) : Prop := Good st' ∧ ∃ ws, st.rest = encText ws ++ st'.rest

theorem Moves.refl {st : St} (h : Good st) : Moves st st := ⟨h, [], rfl⟩
theorem Moves.trans {a b c : St} (h : Moves a b) (h' : Moves b c) : Moves a c := by
  obtain ⟨_, ws, h1⟩ := h
  obtain ⟨g, vs, h2⟩ := h'
  exact ⟨g, ws ++ vs, by rw [h1, h2]; simp [encText]⟩
theorem Moves.good {a b : St} (h : Moves a b) : Good b := h.1

def TidyF (f : EatFunc) : Prop := ∀ st, Good st → RetE (fun x : Bool × St => Moves st x.2) (f st)


/-- Text functions that go over whole characters. -/
def CharF (f : Bytes → Bool × Bytes) : Prop := ∀ cs, ∃ ws vs, cs = ws ++ vs ∧ (f (encText cs)).2 = encText vs

theorem CharF.tidy {f : Bytes → Bool × Bytes} (h : CharF f) : TidyF (lift f) := fun st hg => by
  obtain ⟨⟨cs, hc⟩, hj⟩ := hg
  obtain ⟨ws, vs, h1, h2⟩ := h cs
  refine .ret ⟨⟨⟨vs, ?_⟩, hj⟩, ws, ?_⟩
  · show (f st.rest).2 = _
    rw [hc, h2]
  · show st.rest = encText ws ++ (f st.rest).2
    rw [hc, h2, h1, encText_append]

theorem encText_split : ∀ {ds cs : List Char} {x : Bytes}, encText cs = encText ds ++ x → ∃ vs, cs = ds ++ vs ∧ x = encText vs
  | [], cs, x, h => ⟨cs, rfl, h.symm⟩
  | d :: ds, [], x, h => by
    rw [encText_cons, List.append_assoc] at h
    have := congrArg List.length h
    have := enc_length_pos d
    simp [encText] at *
    omega
  | d :: ds, c :: cs, x, h => by
    rw [encText_cons, encText_cons, List.append_assoc] at h
    have h1 := decodeRune_enc c (encText cs)
    rw [h, decodeRune_enc] at h1
    simp only [Prod.mk.injEq] at h1
    have : c = d := char_ext (Int.ofNat.inj h1.1.symm)
    subst this
    obtain ⟨vs, h2, h3⟩ := encText_split (List.append_cancel_left h)
    exact ⟨vs, by rw [h2]; rfl, h3⟩

theorem charF_one (p : Int → Bool) : CharF (eatOne p) := fun cs => by
  unfold eatOne
  split
  · cases cs with
    | nil => exact ⟨[], [], rfl, rfl⟩
    | cons c cs =>
      refine ⟨[c], cs, rfl, ?_⟩
      rw [encText_cons, decodeRune_enc]
      simp
  · exact ⟨[], cs, rfl, rfl⟩

theorem charF_between (a b : Int) : CharF (eatBetween a b) := fun cs => by
  unfold eatBetween
  split
  · exact ⟨[], cs, rfl, rfl⟩
  · exact charF_one _ cs

theorem charF_match (f : Int → Bool) : CharF (eatMatch f) := fun cs => by
  unfold eatMatch
  split
  · exact ⟨[], cs, rfl, rfl⟩
  · exact charF_one _ cs

theorem charF_drop {x : Bytes} (hx : ∃ ds, x = encText ds) {cs : List Char} (h : hasPrefix (encText cs) x = true) :
    ∃ ws vs, cs = ws ++ vs ∧ (encText cs).drop x.length = encText vs := by
  obtain ⟨ds, rfl⟩ := hx
  have h' : encText ds <+: encText cs := by simpa [hasPrefix] using h
  obtain ⟨y, hy⟩ := h'
  obtain ⟨vs, h1, h2⟩ := encText_split hy.symm
  exact ⟨ds, vs, h1, by rw [← hy]; simpa using h2⟩

theorem charF_lit {x : Bytes} (hx : ∃ ds, x = encText ds) : CharF (eatLit x) := fun cs => by
  unfold eatLit
  split
  · next h => exact charF_drop hx h
  · exact ⟨[], cs, rfl, rfl⟩

theorem charF_lits : ∀ {l : List Bytes}, (∀ x ∈ l, ∃ ds, x = encText ds) → CharF (eatLits l)
  | [], _, cs => ⟨[], cs, rfl, rfl⟩
  | x :: l, h, cs => by
    unfold eatLits
    split
    · next hp => exact charF_drop (h x List.mem_cons_self) hp
    · exact charF_lits (fun y hy => h y (List.mem_cons_of_mem _ hy)) cs

theorem charF_bool (f : Bytes) : CharF (eatBool f) := fun cs => by
  rw [eatBool_eq]; exact charF_lits (boolLits_valid f) cs

theorem charF_ranges : ∀ (l : List (Int × Int)), CharF (eatRanges l)
  | [], cs => ⟨[], cs, rfl, rfl⟩
  | (a, b) :: l, cs => by
    unfold eatRanges
    split
    · exact charF_between a b cs
    · exact charF_ranges l cs

theorem charF_set (l : List (Int × Int)) (x : Bytes) : CharF (eatSet l x) := fun cs => by
  unfold eatSet
  split
  · exact charF_ranges l cs
  · exact charF_one _ cs

theorem charF_step : CharF eatStep
  | [] => ⟨[], [], rfl, rfl⟩
  | c :: cs => ⟨[c], cs, rfl, by rw [encText_cons, eatStep_char]⟩

theorem Moves.step {a b : St} (h : Moves a b) : Moves a ⟨(eatStep b.rest).2, b.jan⟩ := by
  refine h.trans ?_
  obtain ⟨⟨cs, hc⟩, hj⟩ := h.1
  obtain ⟨ws, vs, h1, h2⟩ := charF_step cs
  exact ⟨⟨⟨vs, by rw [hc, h2]⟩, hj⟩, ws, by rw [hc, h2, h1, encText_append]⟩

/-- Back to an earlier text, with the Janus strings of now. -/
theorem Moves.back {a b c : St} (h : Moves a b) (hc : Good c) : Moves a ⟨b.rest, c.jan⟩ := ⟨⟨h.1.1, hc.2⟩, h.2⟩

theorem Moves.orBack {st : St} {x : Bool × St} (hs : Good st) (h : Moves st x.2) : Moves st (orBack st.rest x).2 := by
  unfold Tok.orBack
  split
  · exact h
  · exact (Moves.refl hs).back h.1

theorem eatAny_tidy {rd : Reader → EatFunc} : ∀ {rs : List Reader} (_ : ∀ r ∈ rs, TidyF (rd r)), TidyF (eatAny rd rs)
  | [], _, _, hg => .ret (.refl hg)
  | r :: rs, h, st, hg => (h r List.mem_cons_self st hg).bind fun a _ ha => by
    obtain ⟨ok, st'⟩ := a
    cases ok
    · exact (eatAny_tidy (fun c hc => h c (List.mem_cons_of_mem _ hc)) st' ha.1).mono fun _ _ hb => ha.trans hb
    · exact .ret ha

theorem eatSeq_tidy {rd : Reader → EatFunc} : ∀ {rs : List Reader} (_ : ∀ r ∈ rs, TidyF (rd r)), TidyF (eatSeq rd rs)
  | [], _, _, hg => .ret (.refl hg)
  | r :: rs, h, st, hg => (h r List.mem_cons_self st hg).bind fun a _ ha => by
    obtain ⟨ok, st'⟩ := a
    cases ok
    · exact .ret ha
    · exact (eatSeq_tidy (fun c hc => h c (List.mem_cons_of_mem _ hc)) st' ha.1).mono fun _ _ hb => ha.trans hb

theorem eatSkip_tidy {rd : Reader → EatFunc} {sk : Reader} (hk : TidyF (rd sk)) : ∀ {rs : List Reader} (_ : ∀ r ∈ rs, TidyF (rd r)),
    TidyF (eatSkip rd sk rs)
  | [], _, _, hg => .ret (.refl hg)
  | r :: rs, h, st, hg => (h r List.mem_cons_self st hg).bind fun a _ ha => by
    obtain ⟨ok, st'⟩ := a
    cases ok
    · exact .ret ha
    · refine (hk st' ha.1).bind fun a _ hb => ?_
      obtain ⟨ok, st''⟩ := a
      cases ok
      · exact .ret (ha.trans hb)
      · exact (eatSkip_tidy hk (fun c hc => h c (List.mem_cons_of_mem _ hc)) st'' hb.1).mono fun _ _ hc => (ha.trans hb).trans hc

theorem eatTimes_tidy {f : EatFunc} (h : TidyF f) : ∀ k, TidyF (eatTimes f k)
  | 0, _, hg => .ret (.refl hg)
  | k + 1, st, hg => (h st hg).bind fun a _ ha => by
    obtain ⟨ok, st'⟩ := a
    cases ok
    · exact .ret ha
    · exact (eatTimes_tidy h k st' ha.1).mono fun _ _ hb => ha.trans hb

theorem eatZom_tidy {f : EatFunc} (h : TidyF f) : ∀ k st, Good st → RetE (fun x : St => Moves st x) (eatZom f k st)
  | 0, _, _ => .timeout
  | k + 1, st, hg => (h st hg).bind fun a _ ha => by
    obtain ⟨ok, st'⟩ := a
    cases ok
    · exact .ret ha
    · exact (eatZom_tidy h k st' ha.1).mono fun _ _ hb => ha.trans hb

/-- The text before a position. -/
theorem Moves.front {a b : St} (h : Moves a b) : ∃ ws, a.rest.take (a.rest.length - b.rest.length) = encText ws := by
  obtain ⟨_, ws, h⟩ := h
  refine ⟨ws, ?_⟩
  rw [h]
  simp

theorem eatBody_tidy {b t : EatFunc} (hb : TidyF b) (ht : TidyF t) {s0 : St} : ∀ n st, Moves s0 st →
    RetE (fun x : Option Bytes × St => Moves s0 x.2 ∧ ∀ y, x.1 = some y → Moves s0 ⟨y, x.2.jan⟩) (eatBody b t s0.rest n st)
  | 0, _, _ => .timeout
  | n + 1, st, hm => by
    unfold eatBody
    split
    · exact .ret ⟨hm, fun y h => by cases h⟩
    · refine (ht st hm.1).bind fun a _ ha => ?_
      obtain ⟨ok, st'⟩ := a
      cases ok
      · exact eatBody_tidy hb ht n _ (hm.trans ha).step
      · obtain ⟨ws, hws⟩ := hm.front
        refine (hb ⟨_, st'.jan⟩ ⟨⟨ws, hws⟩, ha.1.2⟩).bind fun a _ hc => ?_
        obtain ⟨ok, sub⟩ := a
        have h1 : Moves s0 ⟨st'.rest, sub.jan⟩ := (hm.trans ha).back hc.1
        simp only
        split
        · exact .ret ⟨h1, fun y h => by cases h; exact ⟨⟨hm.1.1, hc.1.2⟩, hm.2⟩⟩
        · exact .ret ⟨h1, fun y h => by cases h⟩

theorem eatPast_tidy {f : EatFunc} (h : TidyF f) : ∀ n, TidyF (eatPast f n)
  | 0, _, _ => .timeout
  | n + 1, st, hg => by
    unfold eatPast
    split
    · exact .ret (.refl hg)
    · refine (h st hg).bind fun a _ ha => ?_
      obtain ⟨ok, st'⟩ := a
      cases ok
      · exact (eatPast_tidy h n _ ha.step.1).mono fun _ _ hb => ha.step.trans hb
      · exact .ret ha

theorem eatTo_tidy {f : EatFunc} (h : TidyF f) : ∀ n, TidyF (eatTo f n)
  | 0, _, _ => .timeout
  | n + 1, st, hg => by
    unfold eatTo
    refine (h st hg).bind fun a _ ha => ?_
    obtain ⟨ok, st'⟩ := a
    cases ok
    · simp only [Bool.false_eq_true, if_false]
      split
      · exact (eatTo_tidy h n _ ha.step.1).mono fun _ _ hb => ha.step.trans hb
      · exact .ret ha
    · exact .ret ((Moves.refl hg).back ha.1)

theorem eat_tidy (rt : Rt) (G : Env) (hG : G.Every (Reader.whole true)) :
    ∀ n r, r.Every (Reader.whole true) → TidyF (eat rt G n r)
  | 0, _, _, _, _ => .timeout
  | n + 1, r, hr, st, hg => by
    have ih := fun c (hc : c ∈ r.subs) => eat_tidy rt G hG n c (hr.sub hc)
    have h := hr.here
    cases r with
    | any rs => exact (eatAny_tidy ih st hg).bind fun _ _ h => .ret (h.orBack hg)
    | anyRune str => exact (charF_one _).tidy st hg
    | at_ sub => exact (ih sub (by simp [Reader.subs]) st hg).bind fun _ _ h => .ret ((Moves.refl hg).back h.1)
    | atEnd => exact .ret (.refl hg)
    | between a b => exact (charF_between _ _).tidy st hg
    | betweenAny a b => exact (charF_set _ _).tidy st hg
    | body b t =>
      refine (eatBody_tidy (ih b (by simp [Reader.subs])) (ih t (by simp [Reader.subs])) n st (.refl hg)).bind fun a _ h => ?_
      obtain ⟨res, st'⟩ := a
      cases res with
      | none => exact .ret ((Moves.refl hg).back h.1.1)
      | some x => exact .ret (h.2 x rfl)
    | bodyTail b t =>
      refine (eatBody_tidy (ih b (by simp [Reader.subs])) (ih t (by simp [Reader.subs])) n st (.refl hg)).bind fun a _ h => ?_
      obtain ⟨res, st'⟩ := a
      cases res with
      | none => exact .ret ((Moves.refl hg).back h.1.1)
      | some x => exact .ret h.1
    | bool c f => exact (charF_bool _).tidy st hg
    | fold v => cases h
    | holey a b c => exact (charF_one _).tidy st hg
    | int a b c => cases h
    | janusBegin id nm sub =>
      refine (ih sub (by simp [Reader.subs]) st hg).bind fun a _ h => ?_
      obtain ⟨ok, st'⟩ := a
      cases ok
      · exact .ret ((Moves.refl hg).back h.1)
      · refine .ret ⟨⟨h.1.1, fun i => ?_⟩, h.2⟩
        show ∃ cs, upd st'.jan id _ i = encText cs
        unfold upd
        split
        · exact h.front
        · exact h.1.2 i
    | janusEnd id nm =>
      simp only [eat]
      split
      · next hp =>
        obtain ⟨cs, hcs⟩ := hg.1
        obtain ⟨ws, vs, h1, h2⟩ := charF_drop (hg.2 id) (cs := cs) (by rw [← hcs]; exact hp)
        refine .ret ⟨⟨⟨vs, by rw [hcs]; exact h2⟩, fun i => ?_⟩, ws, ?_⟩
        · show ∃ cs, upd st.jan id _ i = encText cs
          unfold upd
          split
          · exact ⟨[], rfl⟩
          · exact hg.2 i
        · show st.rest = encText ws ++ st.rest.drop _
          rw [hcs, h2, h1, encText_append]
      · exact .ret (.refl hg)
    | invalid e => exact .ret (.refl hg)
    | lit x => exact (charF_lit (h rfl)).tidy st hg
    | many sub => exact (eatZom_tidy (ih sub (by simp [Reader.subs])) n st hg).bind fun _ _ h => .ret h
    | map f sub => exact (ih sub (by simp [Reader.subs]) st hg).bind fun _ _ h => .ret (h.orBack hg)
    | match_ w f => exact (charF_match _).tidy st hg
    | named nm sub => exact ih sub (by simp [Reader.subs]) st hg
    | not sub =>
      refine (ih sub (by simp [Reader.subs]) st hg).bind fun a _ h => ?_
      obtain ⟨ok, st'⟩ := a
      cases ok
      · exact .ret ((Moves.refl hg).step.back h.1)
      · exact .ret ((Moves.refl hg).back h.1)
    | opt sub => exact (ih sub (by simp [Reader.subs]) st hg).bind fun _ _ h => .ret h
    | past sub => exact (eatPast_tidy (ih sub (by simp [Reader.subs])) n st hg).bind fun _ _ h => .ret (h.orBack hg)
    | rune c => exact (charF_one _).tidy st hg
    | seq rs => exact (eatSeq_tidy ih st hg).bind fun _ _ h => .ret (h.orBack hg)
    | skipSeq sk rs =>
      have hk := ih sk (by simp [Reader.subs])
      refine (hk st hg).bind fun a _ h => ?_
      obtain ⟨ok, st'⟩ := a
      cases ok
      · exact .ret (h.orBack hg)
      · exact (eatSkip_tidy hk (fun c hc => ih c (by simp [Reader.subs, hc])) st' h.1).bind fun _ _ h' => .ret ((h.trans h').orBack hg)
    | times k sub => exact eatTimes_tidy (ih sub (by simp [Reader.subs])) _ st hg
    | «to» sub => exact (eatTo_tidy (ih sub (by simp [Reader.subs])) n st hg).bind fun _ _ h => .ret (h.orBack hg)
    | uint a b c => cases h
    | wrap w f => exact .panic
    | zom sub => exact (eatZom_tidy (ih sub (by simp [Reader.subs])) n st hg).bind fun _ _ h => .ret h
    | pick i b sub => exact (ih sub (by simp [Reader.subs]) st hg).bind fun _ _ h => .ret (h.orBack hg)
    | monitor i l sub => exact ih sub (by simp [Reader.subs]) st hg
    | rule i =>
      simp only [eat]
      split
      · next hi => exact eat_tidy rt G hG n _ (hG.get hi) st hg
      · exact .panic
    | ruleName sub => exact ih sub (by simp [Reader.subs]) st hg
    | grammar w sub => exact ih sub (by simp [Reader.subs]) st hg

end Tok
