/-
Safety of the `Read` methods, including `Wrap` readers whose function is safe.
-/
import Verif.Proofs.EatSim
import Verif.Props.C02

namespace Tok
open Spec

variable {p : Prop}

/-- What a read may do to the scanner: stay in the same text and not go backward. -/
def Forward (s s' : Scanner) : Prop := Inside s' ∧ s'.full = s.full ∧ s.pos ≤ s'.pos

/-- A read function that only moves forward inside the text and can panic only if `p`:
`Safe False` is a read that never panics. -/
def Safe (p : Prop) (f : ReadFunc) : Prop := ∀ s, Inside s → PostE p (fun x => Forward s x.2) (f s)

/-- What safety needs at one reader of an expression: the function of a `Wrap` is user code, so
it has to be safe itself, a rule must have a reader, and a `Fold` literal must be empty
(`IfFold` slices the text without a check). -/
def Reader.safeHere (p : Prop) (G : Env) : Reader → Prop
  | .wrap _ f => Safe p f
  | .fold v => p ∨ v = []
  | .rule i => p ∨ ∃ nm r, G[i]? = some ⟨nm, some r⟩
  | _ => True

theorem Forward.refl {s : Scanner} (h : Inside s) : Forward s s := ⟨h, rfl, by omega⟩
theorem Forward.trans {s s' s'' : Scanner} (h : Forward s s') (h' : Forward s' s'') : Forward s s'' :=
  ⟨h'.1, h'.2.1.trans h.2.1, by have := h.2.2; have := h'.2.2; omega⟩
theorem Forward.heap {s s' : Scanner} (h : Forward s s') (H : Heap) : Forward s { s' with heap := H } := h
theorem Forward.back {s s' : Scanner} (hs : Inside s) (h : Forward s s') : Forward s (s'.toMarker s.pos).2 := by
  obtain ⟨h1, h2⟩ := hs
  unfold Scanner.toMarker
  rw [if_neg (by simp; omega)]
  refine ⟨⟨?_, ?_⟩, ?_, ?_⟩
  · rw [notify_pos]; exact h1
  · rw [notify_pos, notify_full]; simp only [h.2.1]; exact h2
  · rw [notify_full]; exact h.2.1
  · rw [notify_pos]; simp

/-- The scanner as seen by `eat`. -/
def Scanner.st (s : Scanner) : St := ⟨s.full.drop s.pos.toNat, s.heap.janus⟩

theorem sees_st {s : Scanner} (h : Inside s) : Sees s.full s s.st := by
  obtain ⟨h1, h2⟩ := h
  refine sees_of rfl (List.drop_suffix _ _) ?_ rfl
  simp only [Scanner.st, List.length_drop]; omega

theorem forward_of_sees {s s' : Scanner} {st st' : St} (h : Sees s.full s st) (h' : Sees s.full s' st')
    (hs : st'.rest <:+ st.rest) : Forward s s' := by
  obtain ⟨a1, a2, a3⟩ := h.pos
  obtain ⟨b1, b2, b3⟩ := h'.pos
  have := hs.length_le
  refine ⟨⟨by omega, by rw [h'.1]; omega⟩, h'.1, by omega⟩

/-- Scanner methods that go forward. -/
theorem post_of_rb {s : Scanner} (hs : Inside s) {x : Exec (Bool × Scanner)} {f : Bytes → Bool × Bytes}
    (hf : ∀ t, (f t).2 <:+ t) (h : RelE (RB s.full) x (lift f s.st)) : PostE p (fun x => Forward s x.2) x := by
  obtain ⟨a, ha, hab⟩ := h.right rfl
  rw [ha]
  exact .ret (forward_of_sees (sees_st hs) hab.2 (hf _))

theorem post_ifFalse {s : Scanner} {w : Bytes} {x : Exec (Bool × Scanner)} (h : PostE p (fun x => Forward s x.2) x) :
    PostE p (fun x : Option Err × Scanner => Forward s x.2) (ifFalse w x) :=
  h.bind fun _ _ h => .ret h

theorem Safe.use {f : ReadFunc} (h : Safe p f) : Safe p (fun s => s.use f) := fun s hs =>
  (h s hs).bind fun a _ ha => by
    obtain ⟨e, s'⟩ := a
    cases e with
    | none => exact .ret ha
    | some e => exact .ret (ha.back hs)

theorem Safe.tokenizeUse {f : ReadFunc} (h : Safe p f) {s : Scanner} (hs : Inside s) :
    PostE p (fun x => Forward s x.2 ∧ x.1.1 = makeToken s.pos x.2.pos) (s.tokenizeUse f) :=
  (h s hs).bind fun a _ ha => by
    obtain ⟨e, s'⟩ := a
    cases e with
    | none => exact .ret ⟨ha, rfl⟩
    | some e => exact .ret ⟨ha.back hs, rfl⟩

theorem post_get {s s' : Scanner} (hs : Inside s) (h : Forward s s') {F : Scanner} (hF : F.full = s.full) :
    PostE p (fun _ => True) (F.get (makeToken s.pos s'.pos)) := by
  obtain ⟨h1, h2⟩ := hs
  obtain ⟨⟨h3, h4⟩, h5, h6⟩ := h
  unfold makeToken
  rw [if_neg (by omega)]
  unfold Scanner.get
  rw [if_pos (by simp only [hF]; rw [h5] at h4; omega)]
  exact .ret trivial

theorem anyLoop_safe {f : Reader → ReadFunc} : ∀ (rs : List Reader) (_ : ∀ r ∈ rs, Safe p (f r)) (errs : List Err) (s : Scanner),
    Inside s → PostE p (fun x => Forward s x.2) (anyLoop f rs errs s)
  | [], _, _, _, hs => .ret (Forward.refl hs)
  | r :: rs, hr, errs, s, hs => (hr r List.mem_cons_self s hs).bind fun a _ ha => by
    obtain ⟨e, s'⟩ := a
    cases e with
    | none => exact .ret ha
    | some e =>
      exact (anyLoop_safe rs (fun r h => hr r (List.mem_cons_of_mem _ h)) _ s' ha.1).mono fun _ _ h => Forward.trans ha h

theorem seqLoop_safe {f : Reader → ReadFunc} : ∀ (rs : List Reader) (_ : ∀ r ∈ rs, Safe p (f r)), Safe p (seqLoop f rs)
  | [], _, _, hs => .ret (Forward.refl hs)
  | r :: rs, hr, s, hs => (hr r List.mem_cons_self s hs).bind fun a _ ha => by
    obtain ⟨e, s'⟩ := a
    cases e with
    | some e => exact .ret ha
    | none =>
      exact (seqLoop_safe rs (fun r h => hr r (List.mem_cons_of_mem _ h)) s' ha.1).mono fun _ _ h => Forward.trans ha h

theorem skipSeqLoop_safe {f : Reader → ReadFunc} {sk : Reader} (hk : Safe p (f sk)) :
    ∀ (rs : List Reader) (_ : ∀ r ∈ rs, Safe p (f r)), Safe p (skipSeqLoop f sk rs)
  | [], _, _, hs => .ret (Forward.refl hs)
  | r :: rs, hr, s, hs => (hr r List.mem_cons_self s hs).bind fun a _ ha => by
    obtain ⟨e, s'⟩ := a
    cases e with
    | some e => exact .ret ha
    | none =>
      refine (hk s' ha.1).bind fun a _ hb => ?_
      obtain ⟨e, s''⟩ := a
      cases e with
      | some e => exact .ret (Forward.trans ha hb)
      | none =>
        exact (skipSeqLoop_safe hk rs (fun r h => hr r (List.mem_cons_of_mem _ h)) s'' hb.1).mono
          fun _ _ h => Forward.trans (Forward.trans ha hb) h

theorem timesLoop_safe {f : ReadFunc} (hf : Safe p f) : ∀ k, Safe p (timesLoop f k)
  | 0, _, hs => .ret (Forward.refl hs)
  | k + 1, s, hs => (hf s hs).bind fun a _ ha => by
    obtain ⟨e, s'⟩ := a
    cases e with
    | some e => exact .ret ha
    | none => exact (timesLoop_safe hf k s' ha.1).mono fun _ _ h => Forward.trans ha h

theorem zomLoop_safe {f : ReadFunc} (hf : Safe p f) : ∀ k s, Inside s → PostE p (fun x => Forward s x) (zomLoop f k s)
  | 0, _, _ => .timeout
  | k + 1, s, hs => (hf s hs).bind fun a _ ha => by
    obtain ⟨e, s'⟩ := a
    cases e with
    | some e => exact .ret ha
    | none => exact (zomLoop_safe hf k s' ha.1).mono fun _ _ h => Forward.trans ha h

theorem moveRunes_safe {s : Scanner} (hs : Inside s) : PostE p (fun x => Forward s x.2) (s.moveRunes 1) :=
  post_of_rb hs eatStep_suffix (moveRunes_sim (sees_st hs))

theorem bodyLoop_safe {b t : ReadFunc} (hb : Safe p b) (ht : Safe p t) {s0 : Scanner} (h0 : Inside s0) : ∀ n s, Forward s0 s →
    PostE p (fun x => Forward s0 x.2 ∧ ∀ m, x.1 = some m → s0.pos ≤ m ∧ m ≤ (s0.full.length : Int)) (bodyLoop b t s0.pos n s)
  | 0, _, _ => .timeout
  | n + 1, s, hs => by
    unfold bodyLoop
    split
    · exact .ret ⟨hs, fun m h => by cases h⟩
    · refine (ht s hs.1).bind fun a _ ha => ?_
      obtain ⟨e, s'⟩ := a
      have hs' : Forward s0 s' := hs.trans ha
      cases e with
      | none =>
        refine (post_get h0 hs hs'.2.1).bind fun str _ _ => ?_
        have hi : Inside (Scanner.new str s'.heap) := ⟨by simp [Scanner.new], by simp [Scanner.new]⟩
        refine (hb.use _ hi).bind fun x _ _ => ?_
        · obtain ⟨e, sub⟩ := x
          simp only
          split
          · exact .ret ⟨hs', fun m h => by cases h⟩
          · refine .ret ⟨hs', fun m h => ?_⟩
            cases h
            have := hs.1.2
            rw [hs.2.1] at this
            exact ⟨hs.2.2, this⟩
      | some e =>
        refine (moveRunes_safe hs'.1).bind fun a _ hm => ?_
        exact bodyLoop_safe hb ht h0 n _ (hs'.trans hm)

theorem pastLoop_safe {f : ReadFunc} (hf : Safe p f) : ∀ n s, Inside s → PostE p (fun x => Forward s x.2) (pastLoop f n s)
  | 0, _, _ => .timeout
  | n + 1, s, hs => by
    unfold pastLoop
    split
    · exact .ret (Forward.refl hs)
    · refine (hf s hs).bind fun a _ ha => ?_
      obtain ⟨e, s'⟩ := a
      cases e with
      | none => exact .ret ha
      | some e =>
        refine (moveRunes_safe ha.1).bind fun a _ hm => ?_
        exact (pastLoop_safe hf n _ hm.1).mono fun _ _ h => (Forward.trans ha hm).trans h

theorem toLoop_safe {f : ReadFunc} (hf : Safe p f) : ∀ n s, Inside s → PostE p (fun x => Forward s x.2) (toLoop f n s)
  | 0, _, _ => .timeout
  | n + 1, s, hs => by
    unfold toLoop
    refine (hf s hs).bind fun a _ ha => ?_
    obtain ⟨e, s'⟩ := a
    cases e with
    | none => exact .ret (ha.back hs)
    | some e =>
      refine (moveRunes_safe ha.1).bind fun a _ hm => ?_
      obtain ⟨ok, s''⟩ := a
      cases ok
      · exact .ret (Forward.trans ha hm)
      · exact (toLoop_safe hf n _ hm.1).mono fun _ _ h => (Forward.trans ha hm).trans h

theorem sees_forward {s : Scanner} (hs : Inside s) {s' : Scanner} {t : Bytes} {j : Nat → Bytes}
    (h : Sees s.full s' ⟨t, j⟩) (ht : t <:+ s.st.rest) : Forward s s' := forward_of_sees (sees_st hs) h ht

theorem read_safe (rt : Rt) (G : Env) (hG : G.Every (Reader.safeHere p G)) : ∀ n r,
    r.Every (Reader.safeHere p G) → Safe p (read rt G n r)
  | 0, _, _, _, _ => .timeout
  | n + 1, r, hr, s, hs => by
    have ih := fun c hc => read_safe rt G hG n c hc
    have sub : ∀ c ∈ r.subs, Safe p (read rt G n c) := fun c hc => ih c (hr.sub hc)
    have hst := sees_st hs
    cases r with
    | any rs =>
      refine (anyLoop_safe rs sub [] s hs).bind fun a _ ha => ?_
      obtain ⟨e, s'⟩ := a
      cases e with
      | none => exact .ret ha
      | some e => exact .ret (ha.back hs)
    | anyRune str => exact post_ifFalse (post_of_rb hs (eatOne_suffix _) (ifAnyRune_sim hst str))
    | at_ c => exact (sub c (by simp [Reader.subs]) s hs).bind fun a _ ha => .ret (ha.back hs)
    | atEnd => exact .ret (Forward.refl hs)
    | between a b => exact post_ifFalse (post_of_rb hs (eatBetween_suffix _ _) (ifBetween_sim hst a b))
    | betweenAny ranges singles =>
      refine (post_of_rb hs (eatRanges_suffix _) (betweenAnyLoop_sim hst ranges)).bind fun a _ ha => ?_
      obtain ⟨ok, s'⟩ := a
      cases ok
      · refine (post_of_rb ha.1 (eatOne_suffix _) (ifAnyRune_sim (sees_st ha.1) singles)).bind fun a _ hb => ?_
        obtain ⟨ok, s''⟩ := a
        cases ok
        · exact .ret ((Forward.trans ha hb).back hs)
        · exact .ret (Forward.trans ha hb)
      · exact .ret ha
    | body b t =>
      refine (bodyLoop_safe (sub b (by simp [Reader.subs])) (sub t (by simp [Reader.subs])) hs n s (Forward.refl hs)).bind
        fun a _ ha => ?_
      obtain ⟨m, s'⟩ := a
      cases m with
      | none => exact .ret (ha.1.back hs)
      | some m =>
        obtain ⟨h1, h2⟩ := ha.2 m rfl
        have hf := ha.1.2.1
        refine .ret ?_
        show Forward s (s'.toMarker m).2
        unfold Scanner.toMarker
        have := hs.1
        rw [if_neg (by simp; omega)]
        refine ⟨⟨?_, ?_⟩, ?_, ?_⟩
        · rw [notify_pos]; simp only; omega
        · rw [notify_pos, notify_full, hf]; exact h2
        · rw [notify_full]; exact hf
        · rw [notify_pos]; exact h1
    | bodyTail b t =>
      refine (bodyLoop_safe (sub b (by simp [Reader.subs])) (sub t (by simp [Reader.subs])) hs n s (Forward.refl hs)).bind
        fun a _ ha => ?_
      obtain ⟨m, s'⟩ := a
      cases m with
      | none => exact .ret (ha.1.back hs)
      | some m => exact .ret ha.1
    | bool c f =>
      obtain ⟨v, e, s', e1, h1⟩ := readBool_sim hst f
      simp only [read]
      rw [e1]
      exact .ret (sees_forward hs h1.2 (eatBool_suffix _ _))
    | fold v =>
      have h1 := ifFold_sim hst rt v
      by_cases hlen : v.length > s.st.rest.length
      · rw [if_pos hlen] at h1
        simp only [read]
        rw [h1.panic_iff.mpr rfl]
        refine .panic ?_
        rcases hr.here with h | h
        · exact h
        · rw [h] at hlen; simp at hlen
      · rw [if_neg hlen] at h1
        exact post_ifFalse (post_of_rb hs (eatFold_suffix _ _) h1)
    | holey a b c =>
      simp only [read]
      rw [hst.tail]
      simp only [Exec.bind_ret]
      split
      · obtain ⟨s', e, h1⟩ := hst.move (k := (decodeRune s.st.rest).2) (by omega) (by have := decodeRune_le s.st.rest; omega)
        rw [e]
        exact .ret (sees_forward hs h1 (List.drop_suffix _ _))
      · exact .ret (Forward.refl hs)
    | int c a b =>
      obtain ⟨v, e, s', e1, h1⟩ := readInt_sim hst a b
      simp only [read]
      rw [e1]
      exact .ret (sees_forward hs h1.2 (eatInt_suffix _ _ _))
    | janusBegin id nm c =>
      refine ((sub c (by simp [Reader.subs])).tokenizeUse hs).bind fun a _ ha => ?_
      obtain ⟨⟨tk, e⟩, s'⟩ := a
      obtain ⟨h1, h2⟩ := ha
      cases e with
      | some e => exact .ret h1
      | none =>
        simp only at h2
        subst h2
        exact (post_get hs h1 h1.2.1).bind fun _ _ _ => .ret h1
    | janusEnd id nm =>
      refine (post_ifFalse (post_of_rb hs (eatLit_suffix _) (ifStr_sim hst _))).bind fun a _ ha => ?_
      obtain ⟨e, s'⟩ := a
      cases e <;> exact .ret ha
    | invalid e => exact .ret (Forward.refl hs)
    | lit x => exact post_ifFalse (post_of_rb hs (eatLit_suffix _) (ifStr_sim hst x))
    | many c => exact (zomLoop_safe (sub c (by simp [Reader.subs])) n s hs).bind fun _ _ ha => .ret ha
    | map f c =>
      refine ((sub c (by simp [Reader.subs])).tokenizeUse hs).bind fun a _ ha => ?_
      obtain ⟨⟨tk, e⟩, s'⟩ := a
      cases e <;> exact .ret ha.1
    | match_ w f => exact post_ifFalse (post_of_rb hs (eatMatch_suffix _) (ifMatch_sim hst f))
    | named nm c => exact sub c (by simp [Reader.subs]) s hs
    | not c =>
      refine (sub c (by simp [Reader.subs]) s hs).bind fun a _ ha => ?_
      obtain ⟨e, s'⟩ := a
      cases e with
      | none => exact .ret (ha.back hs)
      | some e =>
        have hb := ha.back hs
        exact (moveRunes_safe hb.1).bind fun _ _ hm => .ret (Forward.trans hb hm)
    | opt c => exact (sub c (by simp [Reader.subs]) s hs).bind fun a _ ha => .ret ha
    | past c =>
      refine (pastLoop_safe (sub c (by simp [Reader.subs])) n s hs).bind fun a _ ha => ?_
      obtain ⟨ok, s'⟩ := a
      cases ok
      · exact .ret (ha.back hs)
      · exact .ret ha
    | rune c => exact post_ifFalse (post_of_rb hs (eatOne_suffix _) (ifRune_sim hst c))
    | seq rs =>
      refine (seqLoop_safe rs sub s hs).bind fun a _ ha => ?_
      obtain ⟨e, s'⟩ := a
      cases e with
      | none => exact .ret ha
      | some e => exact .ret (ha.back hs)
    | skipSeq sk rs =>
      have hk := sub sk (by simp [Reader.subs])
      refine (hk s hs).bind fun a _ ha => ?_
      obtain ⟨e, s'⟩ := a
      cases e with
      | some e => exact .ret (ha.back hs)
      | none =>
        refine (skipSeqLoop_safe hk rs (fun r hr => sub r (by simp [Reader.subs, hr])) s' ha.1).bind fun a _ hb => ?_
        obtain ⟨e, s''⟩ := a
        cases e with
        | none => exact .ret (Forward.trans ha hb)
        | some e => exact .ret ((Forward.trans ha hb).back hs)
    | times k c => exact timesLoop_safe (sub c (by simp [Reader.subs])) _ s hs
    | «to» c =>
      refine (toLoop_safe (sub c (by simp [Reader.subs])) n s hs).bind fun a _ ha => ?_
      obtain ⟨ok, s'⟩ := a
      cases ok
      · exact .ret (ha.back hs)
      · exact .ret ha
    | uint c a b =>
      obtain ⟨v, e, s', e1, h1⟩ := readUint_sim hst a b
      simp only [read]
      rw [e1]
      exact .ret (sees_forward hs h1.2 (eatUint_suffix _ _ _))
    | wrap w f => exact hr.here s hs
    | zom c => exact (zomLoop_safe (sub c (by simp [Reader.subs])) n s hs).bind fun _ _ ha => .ret ha
    | pick i b c =>
      refine ((sub c (by simp [Reader.subs])).tokenizeUse hs).bind fun a _ ha => ?_
      obtain ⟨⟨tk, e⟩, s'⟩ := a
      cases e <;> exact .ret ha.1
    | monitor i l c =>
      refine (sub c (by simp [Reader.subs]) { s with heap := { s.heap with
        logs := upd s.heap.logs l ((s.heap.logs l).enter rt i s.pos).2 } } hs).bind fun a _ ha => ?_
      exact .ret ha
    | rule i =>
      simp only [read]
      rcases hi : G[i]? with _ | ⟨nm, _ | c⟩
      · exact .panic (by rcases hr.here with h | ⟨_, _, h⟩; exact h; rw [hi] at h; cases h)
      · exact .panic (by rcases hr.here with h | ⟨_, _, h⟩; exact h; rw [hi] at h; cases h)
      · exact ih c (hG.get hi) s hs
    | ruleName c => exact (sub c (by simp [Reader.subs]) s hs).bind fun a _ ha => .ret ha
    | grammar w c =>
      refine (sub c (by simp [Reader.subs]) s hs).bind fun a _ ha => ?_
      obtain ⟨e, s'⟩ := a
      cases e <;> exact .ret ha

end Tok
