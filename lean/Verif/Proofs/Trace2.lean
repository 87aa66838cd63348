/-
The rules of `Spec.Trace` say no more than what comes of reads, and they leave one way only.
-/
import Verif.Proofs.Trace
import Verif.Props.C86

open Tok.Spec

namespace Tok

theorem backTo_eq (t : Bytes) (x : Bool × St) : backTo t x = orBack t x := by
  obtain ⟨ok, st⟩ := x
  cases ok <;> rfl

theorem orBack_orBack (t t' : Bytes) (x : Bool × St) : orBack t (orBack t' x) = orBack t x := by
  obtain ⟨ok, st⟩ := x
  cases ok <;> rfl

section
variable {rt : Rt} {G : Env} {L : Nat}

/-- What a trace says of the outcome. -/
def ComesTo (rt : Rt) (G : Env) : Task → St → Bool × St → Prop
  | .read r, st, x => E rt G r st x
  | .hunt t, st, x => x.1 = true ∧ Searches (E rt G) t st x.2

theorem body_lost {c t : Reader} {st m : St} (h : Searches (E rt G) t st m) (hm : m.rest = []) : EBody rt G c t st.rest st (none, m) := by
  refine searches_body h ?_
  rw [eBody_step, if_pos hm]

theorem body_tried {c t : Reader} {st m st' : St} {x : Bool × St} (h : Searches (E rt G) t st m) (hm : m.rest ≠ []) (ht : E rt G t m (true, st'))
    (hc : E rt G c ⟨st.rest.take (st.rest.length - m.rest.length), st'.jan⟩ x) :
    EBody rt G c t st.rest st (if x.1 && x.2.rest.isEmpty then some m.rest else none, ⟨st'.rest, x.2.jan⟩) := by
  refine searches_body h ?_
  rw [eBody_step, if_neg hm]
  refine ⟨_, _, ht, ?_⟩
  rw [if_pos rfl]
  exact ⟨_, _, hc, rfl⟩

/-- What the rules allow is what comes of the read. -/
theorem trace_sound {task : Task} {st : St} {x : Bool × St} {es : List Event} (h : Trace G (E rt G) L task st x es) : ComesTo rt G task st x := by
  induction h with
  | leaf _ h => exact h
  | anyNil => exact e_any.mpr ⟨_, eAny_nil.mpr rfl, rfl⟩
  | anyHere _ ih => exact e_any.mpr ⟨(true, _), eAny_cons.mpr ⟨_, _, ih, by rw [if_pos rfl]⟩, rfl⟩
  | anyNext _ _ ih ih' =>
    obtain ⟨y, h1, rfl⟩ := e_any.mp ih'
    rw [backTo_eq, orBack_orBack]
    exact e_any.mpr ⟨_, eAny_cons.mpr ⟨_, _, ih, by rw [if_neg (by decide)]; exact h1⟩, rfl⟩
  | at_ _ ih => exact e_at.mpr ⟨_, _, ih, rfl⟩
  | notHere _ ih => exact e_not.mpr ⟨_, _, ih, by rw [onward_eq]; rfl⟩
  | notFail _ ih => exact e_not.mpr ⟨_, _, ih, rfl⟩
  | opt _ ih => exact e_opt.mpr ⟨_, _, ih, rfl⟩
  | zomNil _ ih => exact e_zom.mpr ⟨_, eZom_step.mpr ⟨_, _, ih, by rw [if_neg (by decide)]⟩, rfl⟩
  | zomCons _ _ ih ih' =>
    obtain ⟨x, h1, rfl⟩ := e_zom.mp ih'
    exact e_zom.mpr ⟨_, eZom_step.mpr ⟨_, _, ih, by rw [if_pos rfl]; exact h1⟩, rfl⟩
  | many _ ih =>
    obtain ⟨x, h1, h2⟩ := e_zom.mp ih
    cases h2
    exact e_many.mpr ⟨_, h1, rfl⟩
  | timesNil h => exact e_times.mpr (by rw [Int.toNat_of_nonpos h]; exact eTimes_zero.mpr rfl)
  | @timesFail _ k _ _ _ _ h _ ih =>
    refine e_times.mpr ?_
    rw [show k.toNat = (k - 1).toNat + 1 by omega]
    exact eTimes_succ.mpr ⟨_, _, ih, by rw [if_neg (by decide)]⟩
  | timesCons h _ _ ih ih' =>
    have ih' := e_times.mp ih'
    refine e_times.mpr ?_
    rw [show ∀ k : Int, 0 ≤ k → (k + 1).toNat = k.toNat + 1 from fun k hk => by omega]
    · exact eTimes_succ.mpr ⟨_, _, ih, by rw [if_pos rfl]; exact ih'⟩
    · exact h
  | seqNil => exact e_seq.mpr ⟨_, eSeq_nil.mpr rfl, rfl⟩
  | seqFail _ ih => exact e_seq.mpr ⟨_, eSeq_cons.mpr ⟨_, _, ih, by rw [if_neg (by decide)]⟩, rfl⟩
  | seqCons _ _ ih ih' =>
    obtain ⟨y, h1, rfl⟩ := e_seq.mp ih'
    rw [backTo_eq, orBack_orBack]
    exact e_seq.mpr ⟨_, eSeq_cons.mpr ⟨_, _, ih, by rw [if_pos rfl]; exact h1⟩, rfl⟩
  | skipFail _ ih => exact e_skipSeq.mpr ⟨_, ⟨_, _, ih, by rw [if_neg (by decide)]⟩, rfl⟩
  | skipNil _ ih => exact e_skipSeq.mpr ⟨_, ⟨_, _, ih, by rw [if_pos rfl]; exact eSkip_nil.mpr rfl⟩, rfl⟩
  | skipStop _ _ ih ih' =>
    refine e_skipSeq.mpr ⟨(false, _), ⟨_, _, ih, ?_⟩, rfl⟩
    rw [if_pos rfl]
    exact eSkip_cons.mpr ⟨_, _, ih', by rw [if_neg (by decide)]⟩
  | skipCons _ _ _ ih ih' ih'' =>
    obtain ⟨y, ⟨ok, m, h1, h2⟩, rfl⟩ := e_skipSeq.mp ih''
    rw [backTo_eq, orBack_orBack]
    refine e_skipSeq.mpr ⟨y, ⟨_, _, ih, ?_⟩, rfl⟩
    rw [if_pos rfl]
    refine eSkip_cons.mpr ⟨_, _, ih', ?_⟩
    rw [if_pos rfl]
    exact ⟨_, _, h1, h2⟩
  | pastEnd h => exact e_past.mpr ⟨(false, _), by rw [ePast_step, if_pos h], rfl⟩
  | pastHere h _ ih => exact e_past.mpr ⟨(true, _), by rw [ePast_step, if_neg h]; exact ⟨_, _, ih, by rw [if_pos rfl]⟩, rfl⟩
  | pastNext h _ _ ih ih' =>
    obtain ⟨y, h1, rfl⟩ := e_past.mp ih'
    rw [backTo_eq, orBack_orBack]
    refine e_past.mpr ⟨y, ?_, rfl⟩
    rw [ePast_step, if_neg h]
    exact ⟨_, _, ih, by rw [if_neg (by decide), ← onward_eq]; exact h1⟩
  | toHere _ ih => exact e_to.mpr ⟨(true, _), eTo_step.mpr ⟨_, _, ih, by rw [if_pos rfl]⟩, rfl⟩
  | toEnd _ h ih => exact e_to.mpr ⟨(false, _), eTo_step.mpr ⟨_, _, ih, by rw [if_neg (by decide), ← onward_eq, h]; rfl⟩, rfl⟩
  | toNext _ h _ ih ih' =>
    obtain ⟨y, h1, rfl⟩ := e_to.mp ih'
    rw [backTo_eq, orBack_orBack]
    exact e_to.mpr ⟨y, eTo_step.mpr ⟨_, _, ih, by rw [if_neg (by decide), ← onward_eq, if_pos h]; exact h1⟩, rfl⟩
  | huntNil => exact ⟨rfl, .refl _⟩
  | huntCons h _ _ ih ih' => exact ⟨ih'.1, .step h ih ih'.2⟩
  | bodyEnd _ h ih => exact e_body.mpr ⟨_, _, body_lost ih.2 h, rfl⟩
  | @body _ _ _ _ _ _ x _ _ _ _ h _ _ ih ih' ih'' =>
    refine e_body.mpr ⟨_, _, body_tried ih.2 h ih' ih'', ?_⟩
    cases x.1 && x.2.rest.isEmpty <;> rfl
  | tailEnd _ h ih => exact e_bodyTail.mpr ⟨_, _, body_lost ih.2 h, rfl⟩
  | @bodyTail _ _ _ _ _ _ x _ _ _ _ h _ _ ih ih' ih'' =>
    refine e_bodyTail.mpr ⟨_, _, body_tried ih.2 h ih' ih'', ?_⟩
    cases x.1 && x.2.rest.isEmpty <;> rfl
  | janusBegin _ ih => exact e_janusBegin.mpr ⟨_, _, ih, rfl⟩
  | janusFail _ ih => exact e_janusBegin.mpr ⟨_, _, ih, rfl⟩
  | map _ ih => exact e_map.mpr ⟨_, ih, rfl⟩
  | mapFail _ ih => exact e_map.mpr ⟨_, ih, rfl⟩
  | pick _ ih => exact e_pick.mpr ⟨_, ih, rfl⟩
  | pickFail _ ih => exact e_pick.mpr ⟨_, ih, rfl⟩
  | monitor _ ih => exact e_monitor.mpr ih
  | named _ ih => exact e_named.mpr ih
  | rule h _ ih => exact e_rule.mpr ⟨_, _, h, ih⟩
  | ruleName _ ih => exact e_ruleName.mpr ih
  | grammar _ ih => exact e_grammar.mpr ih

theorem trace_det {r : Reader} {st : St} {x y : Bool × St} {es es' : List Event} {L' : Nat} (h : Trace G (E rt G) L (.read r) st x es)
    (h' : Trace G (E rt G) L' (.read r) st y es') : x = y := (trace_sound h).det (trace_sound h')

/-- Where a hunt has to end. -/
def HuntEnds (rt : Rt) (G : Env) (t : Reader) (m : St) : Prop := m.rest = [] ∨ ∃ m', E rt G t m (true, m')

/-- There is one trace. -/
theorem trace_unique {task : Task} {st : St} {x : Bool × St} {es : List Event} (h : Trace G (E rt G) L task st x es) :
    ∀ {y es'}, Trace G (E rt G) L task st y es' →
      match task with
      | .read _ => y = x ∧ es' = es
      | .hunt t => HuntEnds rt G t x.2 → HuntEnds rt G t y.2 → y = x ∧ es' = es := by
  have clash : ∀ {r : Reader} {st m m' : St} {es es' : List Event} {L L' : Nat}, Trace G (E rt G) L (.read r) st (true, m) es → Trace G (E rt G) L' (.read r) st (false, m') es' → False :=
    fun h h' => by cases trace_det h h'
  induction h with
  | leaf h1 h2 =>
    intro y es' h'
    refine ⟨(trace_sound h').det h2, ?_⟩
    cases h' <;> first | rfl | cases h1
  | anyNil => intro y es' h'; cases h' with | leaf h _ => cases h | anyNil => exact ⟨rfl, rfl⟩
  | anyHere k ih =>
    intro y es' h'
    cases h' with
    | leaf h _ => cases h
    | anyHere k' => exact ih k'
    | anyNext k' _ => exact (clash k k').elim
  | anyNext k _ ih ih' =>
    intro y es' h'
    cases h' with
    | leaf h _ => cases h
    | anyHere k' => exact (clash k' k).elim
    | anyNext k1 k2 =>
      obtain ⟨e1, rfl⟩ := ih k1
      cases e1
      obtain ⟨rfl, rfl⟩ := ih' k2
      exact ⟨rfl, rfl⟩
  | at_ _ ih =>
    intro y es' h'
    cases h' with
    | leaf h _ => cases h
    | at_ k => obtain ⟨rfl, rfl⟩ := ih k; exact ⟨rfl, rfl⟩
  | notHere k ih =>
    intro y es' h'
    cases h' with
    | leaf h _ => cases h
    | notHere k' => obtain ⟨e, rfl⟩ := ih k'; cases e; exact ⟨rfl, rfl⟩
    | notFail k' => exact (clash k' k).elim
  | notFail k ih =>
    intro y es' h'
    cases h' with
    | leaf h _ => cases h
    | notHere k' => exact (clash k k').elim
    | notFail k' => obtain ⟨e, rfl⟩ := ih k'; cases e; exact ⟨rfl, rfl⟩
  | opt _ ih =>
    intro y es' h'
    cases h' with
    | leaf h _ => cases h
    | opt k => obtain ⟨rfl, rfl⟩ := ih k; exact ⟨rfl, rfl⟩
  | zomNil k ih =>
    intro y es' h'
    cases h' with
    | leaf h _ => cases h
    | zomNil k' => obtain ⟨e, rfl⟩ := ih k'; cases e; exact ⟨rfl, rfl⟩
    | zomCons k' _ => exact (clash k' k).elim
  | zomCons k _ ih ih' =>
    intro y es' h'
    cases h' with
    | leaf h _ => cases h
    | zomNil k' => exact (clash k k').elim
    | zomCons k1 k2 =>
      obtain ⟨e1, rfl⟩ := ih k1
      cases e1
      obtain ⟨rfl, rfl⟩ := ih' k2
      exact ⟨rfl, rfl⟩
  | many _ ih =>
    intro y es' h'
    cases h' with
    | leaf h _ => cases h
    | many k => obtain ⟨e, rfl⟩ := ih k; cases e; exact ⟨rfl, rfl⟩
  | timesNil h0 =>
    intro y es' h'
    cases h' with
    | leaf h _ => cases h
    | timesNil => exact ⟨rfl, rfl⟩
    | timesFail h1 _ => omega
    | timesCons h1 _ _ => omega
  | timesFail h0 k ih =>
    intro y es' h'
    cases h' with
    | leaf h _ => cases h
    | timesNil h1 => omega
    | timesFail h1 k' => exact ih k'
    | timesCons h1 k' _ => exact (clash k' k).elim
  | timesCons h0 k _ ih ih' =>
    intro y es' h'
    show y = _ ∧ es' = _
    generalize hg : (_ : Int) + 1 = j at h'
    cases h' with
    | leaf h _ => cases h
    | timesNil h1 => omega
    | timesFail h1 k' => exact (clash k k').elim
    | timesCons h1 k1 k2 =>
      cases (Int.add_left_inj 1).mp hg
      obtain ⟨e1, rfl⟩ := ih k1
      cases e1
      obtain ⟨rfl, rfl⟩ := ih' k2
      exact ⟨rfl, rfl⟩
  | seqNil => intro y es' h'; cases h' with | leaf h _ => cases h | seqNil => exact ⟨rfl, rfl⟩
  | seqFail k ih =>
    intro y es' h'
    cases h' with
    | leaf h _ => cases h
    | seqFail k' => obtain ⟨e, rfl⟩ := ih k'; cases e; exact ⟨rfl, rfl⟩
    | seqCons k' _ => exact (clash k' k).elim
  | seqCons k _ ih ih' =>
    intro y es' h'
    cases h' with
    | leaf h _ => cases h
    | seqFail k' => exact (clash k k').elim
    | seqCons k1 k2 =>
      obtain ⟨e1, rfl⟩ := ih k1
      cases e1
      obtain ⟨rfl, rfl⟩ := ih' k2
      exact ⟨rfl, rfl⟩
  | skipFail k ih =>
    intro y es' h'
    cases h' with
    | leaf h _ => cases h
    | skipFail k' => obtain ⟨e, rfl⟩ := ih k'; cases e; exact ⟨rfl, rfl⟩
    | skipNil k' => exact (clash k' k).elim
    | skipStop k' _ => exact (clash k' k).elim
    | skipCons k' _ _ => exact (clash k' k).elim
  | skipNil k ih =>
    intro y es' h'
    cases h' with
    | leaf h _ => cases h
    | skipFail k' => exact (clash k k').elim
    | skipNil k' => exact ih k'
  | skipStop k1 k2 ih ih' =>
    intro y es' h'
    cases h' with
    | leaf h _ => cases h
    | skipFail k' => exact (clash k1 k').elim
    | skipStop k3 k4 =>
      obtain ⟨e1, rfl⟩ := ih k3
      cases e1
      obtain ⟨e2, rfl⟩ := ih' k4
      cases e2
      exact ⟨rfl, rfl⟩
    | skipCons k3 k4 _ =>
      cases trace_det k1 k3
      exact (clash k4 k2).elim
  | skipCons k1 k2 _ ih ih' ih'' =>
    intro y es' h'
    cases h' with
    | leaf h _ => cases h
    | skipFail k' => exact (clash k1 k').elim
    | skipStop k3 k4 =>
      cases trace_det k1 k3
      exact (clash k2 k4).elim
    | skipCons k3 k4 k5 =>
      obtain ⟨e1, rfl⟩ := ih k3
      cases e1
      obtain ⟨e2, rfl⟩ := ih' k4
      cases e2
      obtain ⟨rfl, rfl⟩ := ih'' k5
      exact ⟨rfl, rfl⟩
  | pastEnd h0 =>
    intro y es' h'
    cases h' with
    | leaf h _ => cases h
    | pastEnd => exact ⟨rfl, rfl⟩
    | pastHere h _ => exact absurd h0 h
    | pastNext h _ _ => exact absurd h0 h
  | pastHere h0 k ih =>
    intro y es' h'
    cases h' with
    | leaf h _ => cases h
    | pastEnd h => exact absurd h h0
    | pastHere _ k' => exact ih k'
    | pastNext _ k' _ => exact (clash k k').elim
  | pastNext h0 k _ ih ih' =>
    intro y es' h'
    cases h' with
    | leaf h _ => cases h
    | pastEnd h => exact absurd h h0
    | pastHere _ k' => exact (clash k' k).elim
    | pastNext _ k1 k2 =>
      obtain ⟨e1, rfl⟩ := ih k1
      cases e1
      obtain ⟨rfl, rfl⟩ := ih' k2
      exact ⟨rfl, rfl⟩
  | toHere k ih =>
    intro y es' h'
    cases h' with
    | leaf h _ => cases h
    | toHere k' => obtain ⟨e, rfl⟩ := ih k'; cases e; exact ⟨rfl, rfl⟩
    | toEnd k' _ => exact (clash k k').elim
    | toNext k' _ _ => exact (clash k k').elim
  | toEnd k h0 ih =>
    intro y es' h'
    cases h' with
    | leaf h _ => cases h
    | toHere k' => exact (clash k' k).elim
    | toEnd k' _ => obtain ⟨e, rfl⟩ := ih k'; cases e; exact ⟨rfl, rfl⟩
    | toNext k' h1 _ =>
      cases trace_det k k'
      rw [h0] at h1
      cases h1
  | toNext k h0 _ ih ih' =>
    intro y es' h'
    cases h' with
    | leaf h _ => cases h
    | toHere k' => exact (clash k' k).elim
    | toEnd k' h1 =>
      cases trace_det k k'
      rw [h0] at h1
      cases h1
    | toNext k1 _ k2 =>
      obtain ⟨e1, rfl⟩ := ih k1
      cases e1
      obtain ⟨rfl, rfl⟩ := ih' k2
      exact ⟨rfl, rfl⟩
  | huntNil =>
    intro y es' h' hx _
    cases h' with
    | huntNil => exact ⟨rfl, rfl⟩
    | huntCons h k _ =>
      rcases hx with hx | ⟨m', hx⟩
      · exact absurd hx h
      · exact (hx.clash (trace_sound k)).elim
  | huntCons h0 k _ ih ih' =>
    intro y es' h' hx hy
    cases h' with
    | huntNil =>
      rcases hy with hy | ⟨m', hy⟩
      · exact absurd hy h0
      · exact (hy.clash (trace_sound k)).elim
    | huntCons h k1 k2 =>
      obtain ⟨e1, rfl⟩ := ih k1
      cases e1
      obtain ⟨rfl, rfl⟩ := ih' k2 hx hy
      exact ⟨rfl, rfl⟩
  | bodyEnd k h0 ih =>
    intro y es' h'
    cases h' with
    | leaf h _ => cases h
    | bodyEnd k' h1 =>
      obtain ⟨e, rfl⟩ := ih k' (.inl h0) (.inl h1)
      cases e
      exact ⟨rfl, rfl⟩
    | body k1 h1 k2 _ =>
      obtain ⟨e, rfl⟩ := ih k1 (.inl h0) (.inr ⟨_, trace_sound k2⟩)
      cases e
      exact absurd h0 h1
  | body k h0 k' _ ih ih' ih'' =>
    intro y es' h'
    cases h' with
    | leaf h _ => cases h
    | bodyEnd k1 h1 =>
      obtain ⟨e, rfl⟩ := ih k1 (.inr ⟨_, trace_sound k'⟩) (.inl h1)
      cases e
      exact absurd h1 h0
    | body k1 h1 k2 k3 =>
      obtain ⟨e, rfl⟩ := ih k1 (.inr ⟨_, trace_sound k'⟩) (.inr ⟨_, trace_sound k2⟩)
      cases e
      obtain ⟨e, rfl⟩ := ih' k2
      cases e
      obtain ⟨rfl, rfl⟩ := ih'' k3
      exact ⟨rfl, rfl⟩
  | tailEnd k h0 ih =>
    intro y es' h'
    cases h' with
    | leaf h _ => cases h
    | tailEnd k' h1 =>
      obtain ⟨e, rfl⟩ := ih k' (.inl h0) (.inl h1)
      cases e
      exact ⟨rfl, rfl⟩
    | bodyTail k1 h1 k2 _ =>
      obtain ⟨e, rfl⟩ := ih k1 (.inl h0) (.inr ⟨_, trace_sound k2⟩)
      cases e
      exact absurd h0 h1
  | bodyTail k h0 k' _ ih ih' ih'' =>
    intro y es' h'
    cases h' with
    | leaf h _ => cases h
    | tailEnd k1 h1 =>
      obtain ⟨e, rfl⟩ := ih k1 (.inr ⟨_, trace_sound k'⟩) (.inl h1)
      cases e
      exact absurd h1 h0
    | bodyTail k1 h1 k2 k3 =>
      obtain ⟨e, rfl⟩ := ih k1 (.inr ⟨_, trace_sound k'⟩) (.inr ⟨_, trace_sound k2⟩)
      cases e
      obtain ⟨e, rfl⟩ := ih' k2
      cases e
      obtain ⟨rfl, rfl⟩ := ih'' k3
      exact ⟨rfl, rfl⟩
  | janusBegin k ih =>
    intro y es' h'
    cases h' with
    | leaf h _ => cases h
    | janusBegin k' => obtain ⟨e, rfl⟩ := ih k'; cases e; exact ⟨rfl, rfl⟩
    | janusFail k' => exact (clash k k').elim
  | janusFail k ih =>
    intro y es' h'
    cases h' with
    | leaf h _ => cases h
    | janusBegin k' => exact (clash k' k).elim
    | janusFail k' => obtain ⟨e, rfl⟩ := ih k'; cases e; exact ⟨rfl, rfl⟩
  | map k ih =>
    intro y es' h'
    cases h' with
    | leaf h _ => cases h
    | map k' => obtain ⟨e, rfl⟩ := ih k'; cases e; exact ⟨rfl, rfl⟩
    | mapFail k' => exact (clash k k').elim
  | mapFail k ih =>
    intro y es' h'
    cases h' with
    | leaf h _ => cases h
    | map k' => exact (clash k' k).elim
    | mapFail k' => obtain ⟨e, rfl⟩ := ih k'; cases e; exact ⟨rfl, rfl⟩
  | pick k ih =>
    intro y es' h'
    cases h' with
    | leaf h _ => cases h
    | pick k' => obtain ⟨e, rfl⟩ := ih k'; cases e; exact ⟨rfl, rfl⟩
    | pickFail k' => exact (clash k k').elim
  | pickFail k ih =>
    intro y es' h'
    cases h' with
    | leaf h _ => cases h
    | pick k' => exact (clash k' k).elim
    | pickFail k' => obtain ⟨e, rfl⟩ := ih k'; cases e; exact ⟨rfl, rfl⟩
  | monitor _ ih =>
    intro y es' h'
    cases h' with
    | leaf h _ => cases h
    | monitor k => obtain ⟨rfl, rfl⟩ := ih k; exact ⟨rfl, rfl⟩
  | named _ ih =>
    intro y es' h'
    cases h' with
    | leaf h _ => cases h
    | named k => exact ih k
  | rule h0 _ ih =>
    intro y es' h'
    cases h' with
    | leaf h _ => cases h
    | rule h1 k =>
      rw [h0] at h1
      cases h1
      exact ih k
  | ruleName _ ih =>
    intro y es' h'
    cases h' with
    | leaf h _ => cases h
    | ruleName k => exact ih k
  | grammar _ ih =>
    intro y es' h'
    cases h' with
    | leaf h _ => cases h
    | grammar k => exact ih k

/-- Only what comes of readers without parts counts. -/
theorem trace_mono {O O' : Reader → St → Bool × St → Prop} (hO : ∀ r st x, r.leaf = true → O r st x → O' r st x) {task : Task} {st : St} {x : Bool × St}
    {es : List Event} (h : Trace G O L task st x es) : Trace G O' L task st x es := by
  induction h with
  | leaf h1 h2 => exact .leaf h1 (hO _ _ _ h1 h2)
  | anyNil => exact .anyNil
  | anyHere _ ih => exact .anyHere ih
  | anyNext _ _ ih ih' => exact .anyNext ih ih'
  | at_ _ ih => exact .at_ ih
  | notHere _ ih => exact .notHere ih
  | notFail _ ih => exact .notFail ih
  | opt _ ih => exact .opt ih
  | zomNil _ ih => exact .zomNil ih
  | zomCons _ _ ih ih' => exact .zomCons ih ih'
  | many _ ih => exact .many ih
  | timesNil h => exact .timesNil h
  | timesFail h _ ih => exact .timesFail h ih
  | timesCons h _ _ ih ih' => exact .timesCons h ih ih'
  | seqNil => exact .seqNil
  | seqFail _ ih => exact .seqFail ih
  | seqCons _ _ ih ih' => exact .seqCons ih ih'
  | skipFail _ ih => exact .skipFail ih
  | skipNil _ ih => exact .skipNil ih
  | skipStop _ _ ih ih' => exact .skipStop ih ih'
  | skipCons _ _ _ ih ih' ih'' => exact .skipCons ih ih' ih''
  | pastEnd h => exact .pastEnd h
  | pastHere h _ ih => exact .pastHere h ih
  | pastNext h _ _ ih ih' => exact .pastNext h ih ih'
  | toHere _ ih => exact .toHere ih
  | toEnd _ h ih => exact .toEnd ih h
  | toNext _ h _ ih ih' => exact .toNext ih h ih'
  | huntNil => exact .huntNil
  | huntCons h _ _ ih ih' => exact .huntCons h ih ih'
  | bodyEnd _ h ih => exact .bodyEnd ih h
  | body _ h _ _ ih ih' ih'' => exact .body ih h ih' ih''
  | tailEnd _ h ih => exact .tailEnd ih h
  | bodyTail _ h _ _ ih ih' ih'' => exact .bodyTail ih h ih' ih''
  | janusBegin _ ih => exact .janusBegin ih
  | janusFail _ ih => exact .janusFail ih
  | map _ ih => exact .map ih
  | mapFail _ ih => exact .mapFail ih
  | pick _ ih => exact .pick ih
  | pickFail _ ih => exact .pickFail ih
  | monitor _ ih => exact .monitor ih
  | named _ ih => exact .named ih
  | rule h _ ih => exact .rule h ih
  | ruleName _ ih => exact .ruleName ih
  | grammar _ ih => exact .grammar ih

end

end Tok
