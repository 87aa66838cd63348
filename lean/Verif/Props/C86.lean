/-
C86 The graph of the picked segments is the tree of the picked calls.
-/
import Verif.Proofs.GraphShape
import Verif.Props.C42
import Verif.Props.C56

namespace Tok
open Spec

section
variable {rt : Rt} {G : Env}

theorem searches_suffix {c : Reader} {st st' : St} (h : Searches (E rt G) c st st') : st'.rest <:+ st.rest := by
  induction h with
  | refl => exact List.suffix_refl _
  | step _ h _ ih => exact ih.trans ((onward_suffix _).trans h.suffix')

theorem seeks_suffix {c : Reader} {st st' : St} (h : Seeks (E rt G) c st st') : st'.rest <:+ st.rest := by
  induction h with
  | refl => exact List.suffix_refl _
  | step h _ _ ih => exact ih.trans ((onward_suffix _).trans h.suffix')

theorem spot_le {L : Nat} {st st' : St} (h : st'.rest <:+ st.rest) : spot L st ≤ spot L st' := by
  have := h.length_le
  unfold spot
  omega

end

/-- Trees that lie in the text between `p` and `q`, with no empty token at their roots. -/
def Lie (p q : Int) (ns : List Node) : Prop := ∀ n ∈ ns, p ≤ n.tok.frm ∧ n.tok.frm < n.tok.to ∧ n.tok.to ≤ q

theorem Lie.mono {p q p' q' : Int} {ns : List Node} (h : Lie p q ns) (h1 : p' ≤ p) (h2 : q ≤ q') : Lie p' q' ns := fun n hn => by
  have := h n hn
  omega

theorem Lie.append {p q : Int} {ns ns' : List Node} (h : Lie p q ns) (h' : Lie p q ns') : Lie p q (ns ++ ns') := fun n hn =>
  (List.mem_append.mp hn).elim (h n) (h' n)

/-- What the segments of a parse are to its trees. -/
def Makes (p q : Int) (l : List Segment) (ns : List Node) : Prop :=
  p ≤ q ∧ Lie p q ns ∧ ∀ acc o, o ≤ p → Lie o p acc → (l.filter Segment.some).foldl push acc = acc ++ ns

theorem Makes.none {p q : Int} (h : p ≤ q) : Makes p q [] [] := ⟨h, (fun _ h => by cases h), fun acc _ _ _ => by simp⟩

theorem Makes.append {p m q : Int} {l l' : List Segment} {ns ns' : List Node} (h : Makes p m l ns) (h' : Makes m q l' ns') : Makes p q (l ++ l') (ns ++ ns') := by
  obtain ⟨h1, h2, h3⟩ := h
  obtain ⟨k1, k2, k3⟩ := h'
  refine ⟨by omega, (h2.mono (by omega) k1).append (k2.mono h1 (by omega)), fun acc o ho ha => ?_⟩
  rw [List.filter_append, List.foldl_append, h3 acc o ho ha, k3 _ o (by omega) ((ha.mono (by omega) h1).append (h2.mono ho (by omega))), List.append_assoc]

theorem Makes.later {p m q : Int} {l : List Segment} {ns : List Node} (h : p ≤ m) (h' : Makes m q l ns) : Makes p q l ns := by
  have := (Makes.none h).append h'
  simpa using this

theorem Makes.pick {p q : Int} {l : List Segment} {ns : List Node} (h : Makes p q l ns) (hp : p < q) (info : Bytes) :
    Makes p q (l ++ [⟨info, ⟨p, q⟩⟩]) [.mk ⟨info, ⟨p, q⟩⟩ ns] := by
  obtain ⟨h1, h2, h3⟩ := h
  refine ⟨h1, fun n hn => ?_, fun acc o ho ha => ?_⟩
  · rw [List.mem_singleton.mp hn]
    show p ≤ p ∧ p < q ∧ q ≤ q
    omega
  · rw [List.filter_append, List.foldl_append, h3 acc o ho ha, List.filter_cons_of_pos (show Segment.some ⟨info, ⟨p, q⟩⟩ = true from decide_eq_true hp)]
    show push (acc ++ ns) _ = _
    have e1 : ∀ c ∈ acc, (⟨p, q⟩ : Token).covers c.tok = false := fun c hc => by
      have := ha c hc
      simp only [Token.covers, Bool.and_eq_false_iff, decide_eq_false_iff_not]
      omega
    have e2 : ∀ c ∈ ns, (⟨p, q⟩ : Token).covers c.tok = true := fun c hc => by
      have := h2 c hc
      simp only [Token.covers, Bool.and_eq_true, decide_eq_true_eq]
      omega
    unfold push
    simp only [List.filter_append]
    rw [(List.filter_eq_self (l := acc)).mpr (fun c hc => by simp [e1 c hc]), (List.filter_eq_nil_iff (l := ns)).mpr (fun c hc => by simp [e2 c hc]),
      (List.filter_eq_nil_iff (l := acc)).mpr (fun c hc => by simp [e1 c hc]), (List.filter_eq_self (l := ns)).mpr (fun c hc => e2 c hc)]
    simp

theorem Makes.empty {p q : Int} {l : List Segment} {ns : List Node} (h : Makes p q l ns) (hp : q ≤ p) (info : Bytes) : Makes p q (l ++ [⟨info, ⟨p, q⟩⟩]) ns := by
  obtain ⟨h1, h2, h3⟩ := h
  refine ⟨h1, h2, fun acc o ho ha => ?_⟩
  rw [List.filter_append, List.filter_cons_of_neg (by simpa [Segment.some] using hp), List.filter_nil, List.append_nil, h3 acc o ho ha]

section
variable {rt : Rt} {G : Env} {b L : Nat}

/-- The segments of a parse make the trees of a parse. -/
theorem picks_tree {r : Reader} {st st' : St} {l : List Segment} (h : Picks G (E rt G) b L r st st' l) :
    ∃ ns, PickTree G (E rt G) b L r st st' ns ∧ Makes (spot L st) (spot L st') l ns := by
  induction h with
  | leaf h1 h2 => exact ⟨_, .leaf h1 h2, .none (spot_le h2.suffix')⟩
  | anyHere _ ih => obtain ⟨ns, h1, h2⟩ := ih; exact ⟨ns, .anyHere h1, h2⟩
  | anyNext h _ ih => obtain ⟨ns, h1, h2⟩ := ih; exact ⟨ns, .anyNext h h1, h2.later (spot_le h.suffix')⟩
  | at_ h => exact ⟨_, .at_ h, .none (Int.le_refl _)⟩
  | not h => exact ⟨_, .not h, .none (spot_le (onward_suffix _))⟩
  | body h h' h3 h4 => exact ⟨_, .body h h' h3 h4, .none (show spot L _ ≤ spot L _ from by have := (searches_suffix h).length_le; simp only [spot]; omega)⟩
  | bodyTail h h' _ h4 ih => obtain ⟨ns, h1, h2⟩ := ih; exact ⟨ns, .bodyTail h h' h1 h4, h2.later (spot_le (searches_suffix h))⟩
  | janusBegin _ ih => obtain ⟨ns, h1, h2⟩ := ih; exact ⟨ns, .janusBegin h1, h2⟩
  | many h _ ih => obtain ⟨ns, h1, h2⟩ := ih; exact ⟨ns, .many h h1, h2⟩
  | map _ ih => obtain ⟨ns, h1, h2⟩ := ih; exact ⟨ns, .map h1, h2⟩
  | named _ ih => obtain ⟨ns, h1, h2⟩ := ih; exact ⟨ns, .named h1, h2⟩
  | opt _ ih => obtain ⟨ns, h1, h2⟩ := ih; exact ⟨ns, .opt h1, h2⟩
  | optNone h => exact ⟨_, .optNone h, .none (spot_le h.suffix')⟩
  | pastHere h _ ih => obtain ⟨ns, h1, h2⟩ := ih; exact ⟨ns, .pastHere h h1, h2⟩
  | pastNext h h' _ ih => obtain ⟨ns, h1, h2⟩ := ih; exact ⟨ns, .pastNext h h' h1, h2.later (spot_le ((onward_suffix _).trans h'.suffix'))⟩
  | seqNil => exact ⟨_, .seqNil, .none (Int.le_refl _)⟩
  | seqCons _ _ ih ih' => obtain ⟨ns, h1, h2⟩ := ih; obtain ⟨ns', k1, k2⟩ := ih'; exact ⟨_, .seqCons h1 k1, h2.append k2⟩
  | skipNil _ ih => obtain ⟨ns, h1, h2⟩ := ih; exact ⟨ns, .skipNil h1, h2⟩
  | skipCons _ _ _ ih ih' ih'' =>
    obtain ⟨ns, h1, h2⟩ := ih; obtain ⟨ns', k1, k2⟩ := ih'; obtain ⟨ns'', j1, j2⟩ := ih''
    exact ⟨_, .skipCons h1 k1 j1, (h2.append k2).append j2⟩
  | timesNil h => exact ⟨_, .timesNil h, .none (Int.le_refl _)⟩
  | timesCons h _ _ ih ih' => obtain ⟨ns, h1, h2⟩ := ih; obtain ⟨ns', k1, k2⟩ := ih'; exact ⟨_, .timesCons h h1 k1, h2.append k2⟩
  | «to» h h' => exact ⟨_, .to h h', .none (show spot L _ ≤ spot L _ from by have := (seeks_suffix h).length_le; simp only [spot]; omega)⟩
  | zomNil h => exact ⟨_, .zomNil h, .none (spot_le h.suffix')⟩
  | zomCons _ _ ih ih' => obtain ⟨ns, h1, h2⟩ := ih; obtain ⟨ns', k1, k2⟩ := ih'; exact ⟨_, .zomCons h1 k1, h2.append k2⟩
  | @pickHere info c st st' l _ ih =>
    obtain ⟨ns, h1, h2⟩ := ih
    by_cases hp : st'.rest.length < st.rest.length
    · exact ⟨_, .pickHere hp h1, h2.pick (by unfold spot; omega) info⟩
    · exact ⟨_, .pickEmpty (by omega) h1, h2.empty (by unfold spot; omega) info⟩
  | pickOther h _ ih => obtain ⟨ns, h1, h2⟩ := ih; exact ⟨ns, .pickOther h h1, h2⟩
  | monitor _ ih => obtain ⟨ns, h1, h2⟩ := ih; exact ⟨ns, .monitor h1, h2⟩
  | rule h _ ih => obtain ⟨ns, h1, h2⟩ := ih; exact ⟨ns, .rule h h1, h2⟩
  | ruleName _ ih => obtain ⟨ns, h1, h2⟩ := ih; exact ⟨ns, .ruleName h1, h2⟩
  | grammar _ ih => obtain ⟨ns, h1, h2⟩ := ih; exact ⟨ns, .grammar h1, h2⟩

end

section
variable {G : Env} {O O' : Reader → St → Bool × St → Prop} {b L : Nat}

theorem pickTree_mono (hG : G.Every (fun r => r.noWrap = true)) (hO : ∀ c : Reader, c.Every (fun r => r.noWrap = true) → ∀ st x, O c st x → O' c st x)
    {r : Reader} {st st' : St} {ns : List Node} (h : PickTree G O b L r st st' ns) : r.Every (fun r => r.noWrap = true) → PickTree G O' b L r st st' ns := by
  induction h with
  | leaf h1 h2 => exact fun hr => .leaf h1 (hO _ hr _ _ h2)
  | anyHere _ ih => exact fun hr => .anyHere (ih (hr.sub List.mem_cons_self))
  | anyNext h _ ih => exact fun hr => .anyNext (hO _ (hr.sub List.mem_cons_self) _ _ h) (ih (every_tail hr))
  | at_ h => exact fun hr => .at_ (hO _ (hr.sub (by simp [Reader.subs])) _ _ h)
  | not h => exact fun hr => .not (hO _ (hr.sub (by simp [Reader.subs])) _ _ h)
  | body h1 h2 h3 h4 =>
    exact fun hr => .body (searches_mono (hO _ (hr.sub (by simp [Reader.subs]))) h1) h2 (hO _ (hr.sub (by simp [Reader.subs])) _ _ h3)
      (hO _ (hr.sub (by simp [Reader.subs])) _ _ h4)
  | bodyTail h1 h2 _ h4 ih =>
    exact fun hr => .bodyTail (searches_mono (hO _ (hr.sub (by simp [Reader.subs]))) h1) h2 (ih (hr.sub (by simp [Reader.subs])))
      (hO _ (hr.sub (by simp [Reader.subs])) _ _ h4)
  | janusBegin _ ih => exact fun hr => .janusBegin (ih (hr.sub (by simp [Reader.subs])))
  | many h _ ih => exact fun hr => .many h (ih (.mk rfl fun _ hc => hr.sub hc))
  | map _ ih => exact fun hr => .map (ih (hr.sub (by simp [Reader.subs])))
  | named _ ih => exact fun hr => .named (ih (hr.sub (by simp [Reader.subs])))
  | opt _ ih => exact fun hr => .opt (ih (hr.sub (by simp [Reader.subs])))
  | optNone h => exact fun hr => .optNone (hO _ (hr.sub (by simp [Reader.subs])) _ _ h)
  | pastHere h _ ih => exact fun hr => .pastHere h (ih (hr.sub (by simp [Reader.subs])))
  | pastNext h h' _ ih => exact fun hr => .pastNext h (hO _ (hr.sub (by simp [Reader.subs])) _ _ h') (ih hr)
  | seqNil => exact fun _ => .seqNil
  | seqCons _ _ ih ih' => exact fun hr => .seqCons (ih (hr.sub List.mem_cons_self)) (ih' (every_rest hr))
  | skipNil _ ih => exact fun hr => .skipNil (ih (hr.sub (by simp [Reader.subs])))
  | skipCons _ _ _ ih ih' ih'' => exact fun hr => .skipCons (ih (hr.sub (by simp [Reader.subs]))) (ih' (hr.sub (by simp [Reader.subs]))) (ih'' (every_skip hr))
  | timesNil h => exact fun _ => .timesNil h
  | timesCons h _ _ ih ih' => exact fun hr => .timesCons h (ih (hr.sub (by simp [Reader.subs]))) (ih' (.mk rfl fun _ hc => hr.sub hc))
  | «to» h1 h2 => exact fun hr => .to (seeks_mono (hO _ (hr.sub (by simp [Reader.subs]))) h1) (hO _ (hr.sub (by simp [Reader.subs])) _ _ h2)
  | zomNil h => exact fun hr => .zomNil (hO _ (hr.sub (by simp [Reader.subs])) _ _ h)
  | zomCons _ _ ih ih' => exact fun hr => .zomCons (ih (hr.sub (by simp [Reader.subs]))) (ih' hr)
  | pickHere h _ ih => exact fun hr => .pickHere h (ih (hr.sub (by simp [Reader.subs])))
  | pickEmpty h _ ih => exact fun hr => .pickEmpty h (ih (hr.sub (by simp [Reader.subs])))
  | pickOther h _ ih => exact fun hr => .pickOther h (ih (hr.sub (by simp [Reader.subs])))
  | monitor _ ih => exact fun hr => .monitor (ih (hr.sub (by simp [Reader.subs])))
  | rule h _ ih => exact fun _ => .rule h (ih (hG.get h))
  | ruleName _ ih => exact fun hr => .ruleName (ih (hr.sub (by simp [Reader.subs])))
  | grammar _ ih => exact fun hr => .grammar (ih (hr.sub (by simp [Reader.subs])))

end

section
variable {rt : Rt} {G : Env} {b L : Nat}

theorem of_orBack {t : Bytes} {y : Bool × St} {st : St} (h : (true, st) = orBack t y) : y = (true, st) := by
  obtain ⟨ok, st'⟩ := y
  cases ok
  · cases h
  · exact h.symm

theorem eSkip_of {sk : Reader} {rs : List Reader} {st st' : St} (h : E rt G (.skipSeq sk rs) st (true, st')) :
    ∃ m, E rt G sk st (true, m) ∧ ESkip rt G sk rs m (true, st') := by
  obtain ⟨y, ⟨ok, m, h1, h2⟩, h3⟩ := e_skipSeq.mp h
  have := of_orBack h3
  subst this
  cases ok
  · simp at h2
  · exact ⟨m, h1, h2⟩

theorem searches_body {c t : Reader} {t0 : Bytes} {st m : St} {x : Option Bytes × St} (h : Searches (E rt G) t st m) (h' : EBody rt G c t t0 m x) :
    EBody rt G c t t0 st x := by
  induction h with
  | refl => exact h'
  | step h1 h2 _ ih =>
    rw [eBody_step, if_neg h1]
    refine ⟨_, _, h2, ?_⟩
    rw [if_neg (by decide), ← onward_eq]
    exact ih h'

theorem seeks_to {c : Reader} {st m : St} {x : Bool × St} (h : Seeks (E rt G) c st m) (h' : ETo rt G c m x) : ETo rt G c st x := by
  induction h with
  | refl => exact h'
  | step h1 h2 _ ih =>
    rw [eTo_step]
    refine ⟨_, _, h1, ?_⟩
    rw [if_neg (by decide), ← onward_eq, if_pos h2]
    exact ih h'

theorem body_found {c t : Reader} {st m st' : St} {j : Nat → Bytes} (h : Searches (E rt G) t st m) (hm : m.rest ≠ []) (ht : E rt G t m (true, st'))
    (hc : E rt G c ⟨st.rest.take (st.rest.length - m.rest.length), st'.jan⟩ (true, ⟨[], j⟩)) : EBody rt G c t st.rest st (some m.rest, ⟨st'.rest, j⟩) := by
  refine searches_body h ?_
  rw [eBody_step, if_neg hm]
  refine ⟨_, _, ht, ?_⟩
  rw [if_pos rfl]
  exact ⟨_, _, hc, by simp⟩

/-- Where there is a parse with picks, the read succeeds. -/
theorem pickTree_sound {r : Reader} {st st' : St} {ns : List Node} (h : PickTree G (E rt G) b L r st st' ns) : E rt G r st (true, st') := by
  induction h with
  | leaf _ h => exact h
  | anyHere _ ih => exact e_any.mpr ⟨(true, _), eAny_cons.mpr ⟨_, _, ih, by rw [if_pos rfl]⟩, rfl⟩
  | anyNext h _ ih =>
    obtain ⟨y, h1, h2⟩ := e_any.mp ih
    have := of_orBack h2
    subst this
    exact e_any.mpr ⟨_, eAny_cons.mpr ⟨_, _, h, by rw [if_neg (by decide)]; exact h1⟩, rfl⟩
  | at_ h => exact e_at.mpr ⟨_, _, h, rfl⟩
  | not h => exact e_not.mpr ⟨_, _, h, by rw [onward_eq]; rfl⟩
  | body h1 h2 h3 h4 => exact e_body.mpr ⟨_, _, body_found h1 h2 h3 h4, rfl⟩
  | bodyTail h1 h2 _ h4 ih => exact e_bodyTail.mpr ⟨_, _, body_found h1 h2 ih h4, rfl⟩
  | janusBegin _ ih => exact e_janusBegin.mpr ⟨_, _, ih, rfl⟩
  | many h _ ih =>
    obtain ⟨x, h1, h2⟩ := e_zom.mp ih
    cases h2
    exact e_many.mpr ⟨_, h1, by rw [decide_eq_true h]⟩
  | map _ ih => exact e_map.mpr ⟨_, ih, rfl⟩
  | named _ ih => exact e_named.mpr ih
  | opt _ ih => exact e_opt.mpr ⟨_, _, ih, rfl⟩
  | optNone h => exact e_opt.mpr ⟨_, _, h, rfl⟩
  | pastHere h _ ih => exact e_past.mpr ⟨(true, _), by rw [ePast_step, if_neg h]; exact ⟨_, _, ih, by rw [if_pos rfl]⟩, rfl⟩
  | pastNext h h' _ ih =>
    obtain ⟨y, h1, h2⟩ := e_past.mp ih
    have := of_orBack h2
    subst this
    refine e_past.mpr ⟨(true, _), ?_, rfl⟩
    rw [ePast_step, if_neg h]
    exact ⟨_, _, h', by rw [if_neg (by decide), ← onward_eq]; exact h1⟩
  | seqNil => exact e_seq.mpr ⟨_, eSeq_nil.mpr rfl, rfl⟩
  | seqCons _ _ ih ih' =>
    obtain ⟨y, h1, h2⟩ := e_seq.mp ih'
    have := of_orBack h2
    subst this
    exact e_seq.mpr ⟨_, eSeq_cons.mpr ⟨_, _, ih, by rw [if_pos rfl]; exact h1⟩, rfl⟩
  | skipNil _ ih => exact e_skipSeq.mpr ⟨_, ⟨_, _, ih, by rw [if_pos rfl]; exact eSkip_nil.mpr rfl⟩, rfl⟩
  | skipCons _ _ _ ih ih' ih'' =>
    obtain ⟨m, h1, h2⟩ := eSkip_of ih''
    refine e_skipSeq.mpr ⟨(true, _), ⟨_, _, ih, ?_⟩, rfl⟩
    rw [if_pos rfl]
    refine eSkip_cons.mpr ⟨_, _, ih', ?_⟩
    rw [if_pos rfl]
    exact ⟨_, _, h1, by rw [if_pos rfl]; exact h2⟩
  | timesNil h => exact e_times.mpr (by rw [Int.toNat_of_nonpos h]; exact eTimes_zero.mpr rfl)
  | timesCons h _ _ ih ih' =>
    rw [e_times] at ih' ⊢
    rw [show ∀ k : Int, 0 ≤ k → (k + 1).toNat = k.toNat + 1 from fun k hk => by omega]
    · exact eTimes_succ.mpr ⟨_, _, ih, by rw [if_pos rfl]; exact ih'⟩
    · exact h
  | «to» h h' => exact e_to.mpr ⟨(true, _), seeks_to h (eTo_step.mpr ⟨_, _, h', by rw [if_pos rfl]⟩), rfl⟩
  | zomNil h => exact e_zom.mpr ⟨_, eZom_step.mpr ⟨_, _, h, by rw [if_neg (by decide)]⟩, rfl⟩
  | zomCons _ _ ih ih' =>
    obtain ⟨x, h1, h2⟩ := e_zom.mp ih'
    cases h2
    exact e_zom.mpr ⟨_, eZom_step.mpr ⟨_, _, ih, by rw [if_pos rfl]; exact h1⟩, rfl⟩
  | pickHere _ _ ih => exact e_pick.mpr ⟨_, ih, rfl⟩
  | pickEmpty _ _ ih => exact e_pick.mpr ⟨_, ih, rfl⟩
  | pickOther _ _ ih => exact e_pick.mpr ⟨_, ih, rfl⟩
  | monitor _ ih => exact e_monitor.mpr ih
  | rule h _ ih => exact e_rule.mpr ⟨_, _, h, ih⟩
  | ruleName _ ih => exact e_ruleName.mpr ih
  | grammar _ ih => exact e_grammar.mpr ih

theorem E.clash {r : Reader} {st m m' : St} (h : E rt G r st (true, m)) (h' : E rt G r st (false, m')) : False := by
  cases h.det h'

theorem searches_unique {c : Reader} {st m : St} (h : Searches (E rt G) c st m) {x : St} (hx : E rt G c m (true, x)) {m' : St} (h' : Searches (E rt G) c st m')
    {x' : St} (hx' : E rt G c m' (true, x')) : m' = m := by
  induction h with
  | refl =>
    cases h' with
    | refl => rfl
    | step _ h1 _ => exact (hx.clash h1).elim
  | step _ h1 _ ih =>
    cases h' with
    | refl => exact (hx'.clash h1).elim
    | step _ h2 h3 =>
      cases h1.det h2
      exact ih hx h3

/-- A text has one tree. -/
theorem pickTree_unique {r : Reader} {st st' : St} {ns : List Node} (h : PickTree G (E rt G) b L r st st' ns) :
    ∀ {st2 : St} {ns2 : List Node}, PickTree G (E rt G) b L r st st2 ns2 → st2 = st' ∧ ns2 = ns := by
  have same : ∀ {r : Reader} {st st' st2 : St} {ns ns2 : List Node}, PickTree G (E rt G) b L r st st' ns → PickTree G (E rt G) b L r st st2 ns2 → st2 = st' :=
    fun h h' => by cases (pickTree_sound h).det (pickTree_sound h'); rfl
  intro st2 ns2 h'
  refine ⟨same h h', ?_⟩
  induction h generalizing st2 ns2 with
  | leaf h1 _ => cases h' <;> first | rfl | cases h1
  | anyHere k ih =>
    cases h' with
    | leaf h _ => cases h
    | anyHere k' => exact ih k'
    | anyNext h _ => exact ((pickTree_sound k).clash h).elim
  | anyNext h k ih =>
    cases h' with
    | leaf h _ => cases h
    | anyHere k' => exact ((pickTree_sound k').clash h).elim
    | anyNext h2 k' => cases h.det h2; exact ih k'
  | at_ _ => cases h' <;> rfl
  | not _ => cases h' <;> rfl
  | body _ _ _ _ => cases h' <;> rfl
  | bodyTail h1 _ k _ ih =>
    cases h' with
    | leaf h _ => cases h
    | bodyTail h2 _ k' _ =>
      cases searches_unique h1 (pickTree_sound k) h2 (pickTree_sound k')
      exact ih k'
  | janusBegin _ ih =>
    cases h' with
    | leaf h _ => cases h
    | janusBegin k' => exact ih k'
  | many _ _ ih =>
    cases h' with
    | leaf h _ => cases h
    | many _ k' => exact ih k'
  | map _ ih =>
    cases h' with
    | leaf h _ => cases h
    | map k' => exact ih k'
  | named _ ih =>
    cases h' with
    | leaf h _ => cases h
    | named k' => exact ih k'
  | opt k ih =>
    cases h' with
    | leaf h _ => cases h
    | opt k' => exact ih k'
    | optNone h => exact ((pickTree_sound k).clash h).elim
  | optNone h =>
    cases h' with
    | leaf h _ => cases h
    | opt k' => exact ((pickTree_sound k').clash h).elim
    | optNone _ => rfl
  | pastHere _ k ih =>
    cases h' with
    | leaf h _ => cases h
    | pastHere _ k' => exact ih k'
    | pastNext _ h _ => exact ((pickTree_sound k).clash h).elim
  | pastNext _ h k ih =>
    cases h' with
    | leaf h _ => cases h
    | pastHere _ k' => exact ((pickTree_sound k').clash h).elim
    | pastNext _ h2 k' => cases h.det h2; exact ih k'
  | seqNil => cases h' <;> rfl
  | seqCons k _ ih ih' =>
    cases h' with
    | leaf h _ => cases h
    | seqCons k' j' => cases same k k'; rw [ih k', ih' j']
  | skipNil _ ih =>
    cases h' with
    | leaf h _ => cases h
    | skipNil k' => exact ih k'
  | skipCons k j _ ih ih' ih'' =>
    cases h' with
    | leaf h _ => cases h
    | skipCons k' j' i' =>
      cases same k k'
      cases same j j'
      rw [ih k', ih' j', ih'' i']
  | timesNil h =>
    cases h' with
    | leaf h _ => cases h
    | timesNil _ => rfl
    | timesCons h2 _ _ => omega
  | timesCons h k _ ih ih' =>
    generalize hr : Reader.times _ _ = r at h'
    cases h' with
    | leaf h _ => subst hr; cases h
    | timesNil h2 => cases hr; omega
    | timesCons h2 k' j' =>
      rw [Reader.times.injEq] at hr
      obtain ⟨e1, rfl⟩ := hr
      obtain rfl := (Int.add_left_inj 1).mp e1
      cases same k k'
      rw [ih k', ih' j']
    | _ => cases hr
  | «to» _ _ => cases h' <;> rfl
  | zomNil h =>
    cases h' with
    | leaf h _ => cases h
    | zomNil _ => rfl
    | zomCons k' _ => exact ((pickTree_sound k').clash h).elim
  | zomCons k _ ih ih' =>
    cases h' with
    | leaf h _ => cases h
    | zomNil h => exact ((pickTree_sound k).clash h).elim
    | zomCons k' j' => cases same k k'; rw [ih k', ih' j']
  | pickHere h k ih =>
    cases h' with
    | leaf h _ => cases h
    | pickHere _ k' => cases same k k'; rw [ih k']
    | pickEmpty h2 k' => cases same k k'; omega
    | pickOther h2 _ => exact absurd rfl h2
  | pickEmpty h k ih =>
    cases h' with
    | leaf h _ => cases h
    | pickHere h2 k' => cases same k k'; omega
    | pickEmpty _ k' => exact ih k'
    | pickOther h2 _ => exact absurd rfl h2
  | pickOther h _ ih =>
    cases h' with
    | leaf h _ => cases h
    | pickHere _ _ => exact absurd rfl h
    | pickEmpty _ _ => exact absurd rfl h
    | pickOther _ k' => exact ih k'
  | monitor _ ih =>
    cases h' with
    | leaf h _ => cases h
    | monitor k' => exact ih k'
  | rule h _ ih =>
    cases h' with
    | leaf h _ => cases h
    | rule h2 k' =>
      rw [h] at h2
      cases h2
      exact ih k'
  | ruleName _ ih =>
    cases h' with
    | leaf h _ => cases h
    | ruleName k' => exact ih k'
  | grammar _ ih =>
    cases h' with
    | leaf h _ => cases h
    | grammar k' => exact ih k'

theorem picks_sound {r : Reader} {st st' : St} {l : List Segment} (h : Picks G (E rt G) b L r st st' l) : E rt G r st (true, st') := by
  obtain ⟨_, h1, _⟩ := picks_tree h
  exact pickTree_sound h1

/-- A text has one list of picks. -/
theorem picks_unique {r : Reader} {st st' : St} {ns : List Segment} (h : Picks G (E rt G) b L r st st' ns) :
    ∀ {st2 : St} {ns2 : List Segment}, Picks G (E rt G) b L r st st2 ns2 → st2 = st' ∧ ns2 = ns := by
  have same : ∀ {r : Reader} {st st' st2 : St} {ns ns2 : List Segment}, Picks G (E rt G) b L r st st' ns → Picks G (E rt G) b L r st st2 ns2 → st2 = st' :=
    fun h h' => by cases (picks_sound h).det (picks_sound h'); rfl
  intro st2 ns2 h'
  refine ⟨same h h', ?_⟩
  induction h generalizing st2 ns2 with
  | leaf h1 _ => cases h' <;> first | rfl | cases h1
  | anyHere k ih =>
    cases h' with
    | leaf h _ => cases h
    | anyHere k' => exact ih k'
    | anyNext h _ => exact ((picks_sound k).clash h).elim
  | anyNext h k ih =>
    cases h' with
    | leaf h _ => cases h
    | anyHere k' => exact ((picks_sound k').clash h).elim
    | anyNext h2 k' => cases h.det h2; exact ih k'
  | at_ _ => cases h' <;> rfl
  | not _ => cases h' <;> rfl
  | body _ _ _ _ => cases h' <;> rfl
  | bodyTail h1 _ k _ ih =>
    cases h' with
    | leaf h _ => cases h
    | bodyTail h2 _ k' _ =>
      cases searches_unique h1 (picks_sound k) h2 (picks_sound k')
      exact ih k'
  | janusBegin _ ih =>
    cases h' with
    | leaf h _ => cases h
    | janusBegin k' => exact ih k'
  | many _ _ ih =>
    cases h' with
    | leaf h _ => cases h
    | many _ k' => exact ih k'
  | map _ ih =>
    cases h' with
    | leaf h _ => cases h
    | map k' => exact ih k'
  | named _ ih =>
    cases h' with
    | leaf h _ => cases h
    | named k' => exact ih k'
  | opt k ih =>
    cases h' with
    | leaf h _ => cases h
    | opt k' => exact ih k'
    | optNone h => exact ((picks_sound k).clash h).elim
  | optNone h =>
    cases h' with
    | leaf h _ => cases h
    | opt k' => exact ((picks_sound k').clash h).elim
    | optNone _ => rfl
  | pastHere _ k ih =>
    cases h' with
    | leaf h _ => cases h
    | pastHere _ k' => exact ih k'
    | pastNext _ h _ => exact ((picks_sound k).clash h).elim
  | pastNext _ h k ih =>
    cases h' with
    | leaf h _ => cases h
    | pastHere _ k' => exact ((picks_sound k').clash h).elim
    | pastNext _ h2 k' => cases h.det h2; exact ih k'
  | seqNil => cases h' <;> rfl
  | seqCons k _ ih ih' =>
    cases h' with
    | leaf h _ => cases h
    | seqCons k' j' => cases same k k'; rw [ih k', ih' j']
  | skipNil _ ih =>
    cases h' with
    | leaf h _ => cases h
    | skipNil k' => exact ih k'
  | skipCons k j _ ih ih' ih'' =>
    cases h' with
    | leaf h _ => cases h
    | skipCons k' j' i' =>
      cases same k k'
      cases same j j'
      rw [ih k', ih' j', ih'' i']
  | timesNil h =>
    cases h' with
    | leaf h _ => cases h
    | timesNil _ => rfl
    | timesCons h2 _ _ => omega
  | timesCons h k _ ih ih' =>
    generalize hr : Reader.times _ _ = r at h'
    cases h' with
    | leaf h _ => subst hr; cases h
    | timesNil h2 => cases hr; omega
    | timesCons h2 k' j' =>
      rw [Reader.times.injEq] at hr
      obtain ⟨e1, rfl⟩ := hr
      obtain rfl := (Int.add_left_inj 1).mp e1
      cases same k k'
      rw [ih k', ih' j']
    | _ => cases hr
  | «to» _ _ => cases h' <;> rfl
  | zomNil h =>
    cases h' with
    | leaf h _ => cases h
    | zomNil _ => rfl
    | zomCons k' _ => exact ((picks_sound k').clash h).elim
  | zomCons k _ ih ih' =>
    cases h' with
    | leaf h _ => cases h
    | zomNil h => exact ((picks_sound k).clash h).elim
    | zomCons k' j' => cases same k k'; rw [ih k', ih' j']
  | pickHere k ih =>
    cases h' with
    | leaf h _ => cases h
    | pickHere k' => cases same k k'; rw [ih k']
    | pickOther h2 _ => exact absurd rfl h2
  | pickOther h _ ih =>
    cases h' with
    | leaf h _ => cases h
    | pickHere _ => exact absurd rfl h
    | pickOther _ k' => exact ih k'
  | monitor _ ih =>
    cases h' with
    | leaf h _ => cases h
    | monitor k' => exact ih k'
  | rule h _ ih =>
    cases h' with
    | leaf h _ => cases h
    | rule h2 k' =>
      rw [h] at h2
      cases h2
      exact ih k'
  | ruleName _ ih =>
    cases h' with
    | leaf h _ => cases h
    | ruleName k' => exact ih k'
  | grammar _ ih =>
    cases h' with
    | leaf h _ => cases h
    | grammar k' => exact ih k'

end

/-- From one place there is at most one tree: the trees of the theorems below are the only ones. -/
theorem C86_unique (rt : Rt) (G : Env) (b L : Nat) (hG : G.Every (fun r => r.noWrap = true)) (r : Reader) (hr : r.Every (fun r => r.noWrap = true))
    (st st1 st2 : St) (ns1 ns2 : List Node) (h1 : PickTree G (Outcome rt G) b L r st st1 ns1) (h2 : PickTree G (Outcome rt G) b L r st st2 ns2) :
    st2 = st1 ∧ ns2 = ns1 :=
  pickTree_unique (pickTree_mono hG (fun _ hc _ _ h => (outcome_iff hG hc).mp h) h1 hr) (pickTree_mono hG (fun _ hc _ _ h => (outcome_iff hG hc).mp h) h2 hr)

/-- The same for the list of picks of C41. -/
theorem C41_unique (rt : Rt) (G : Env) (b L : Nat) (hG : G.Every (fun r => r.noWrap = true)) (r : Reader) (hr : r.Every (fun r => r.noWrap = true))
    (st st1 st2 : St) (l1 l2 : List Segment) (h1 : Picks G (Outcome rt G) b L r st st1 l1) (h2 : Picks G (Outcome rt G) b L r st st2 l2) :
    st2 = st1 ∧ l2 = l1 :=
  picks_unique (picks_mono hG (fun _ hc _ _ h => (outcome_iff hG hc).mp h) h1 hr) (picks_mono hG (fun _ hc _ _ h => (outcome_iff hG hc).mp h) h2 hr)

/-- The graph of the basket of a history, without empty nodes. -/
theorem follows_shape {b : Nat} {s : Scanner} (hf : Follows b s) {fuel : Nat} {name : Bytes} {g : Graph} (h : Graph.build fuel name (s.heap.baskets b) = .ret g) :
    Node.solidList g.root.nodes = (s.picked b).foldl push [] :=
  (buildLoop_shape (name := name) (s.heap.baskets b) [] _ g fuel .new (fun x hx => (hf.within x hx).2.1) (by simp) hf.nested h).2

theorem lie_foldl : ∀ (l : List Segment) (acc : List Node) (o p : Int), Lie o p acc → (∀ g ∈ l, o ≤ g.tok.frm ∧ g.tok.frm < g.tok.to ∧ g.tok.to ≤ p) →
    Lie o p (l.foldl push acc)
  | [], _, _, _, h, _ => h
  | g :: l, acc, o, p, h, hl => by
    refine lie_foldl l _ o p (fun n hn => ?_) fun x hx => hl x (List.mem_cons_of_mem _ hx)
    rcases List.mem_append.mp hn with hn | hn
    · exact h n (List.mem_filter.mp hn).1
    · rw [List.mem_singleton.mp hn]
      exact hl g List.mem_cons_self

/-- The graph of what was picked is the tree of the picked calls: a successful read adds to it, behind what was there, the trees of a parse
of the text that it read, where each pick on the way of the parse is a node, its token is what it read, and the picks that its reader made are below it.
(Partial: not for nodes with empty tokens, and with the conditions of `C41_parse_partial`.) -/
theorem C86_tree_partial (rt : Rt) (G : Env) (b : Nat) (hG : G.Every (Reader.transact G b)) (hK : ∀ rl ∈ G, ∀ c, rl.reader = some c → c.keeps)
    (s : Scanner) (h : History rt G b s) (r : Reader) (hr : r.Every (Reader.transact G b)) (n : Nat) (s' : Scanner)
    (hrd : read rt G n r s = .ret (none, s')) (name : Bytes) (fuel fuel' : Nat) (g g' : Graph)
    (hg : Graph.build fuel name (s.heap.baskets b) = .ret g) (hg' : Graph.build fuel' name (s'.heap.baskets b) = .ret g') :
    ∃ ns, PickTree G (Outcome rt G) b s.full.length r s.st s'.st ns ∧ Node.solidList g'.root.nodes = Node.solidList g.root.nodes ++ ns := by
  have hT : G.Every (Reader.tracked G b) := fun rl hrl c hc => (hG rl hrl c hc).imp fun _ h => h.1
  have hf := h.follows hT
  have hf' := (History.read n r s _ s' h (hr.imp fun _ h => h.1) hrd).follows hT
  obtain ⟨l, h1, h2⟩ := (read_takes rt G b s.full hG hK n r hr s hf.toCoupled rfl _ hrd).1.ok rfl
  obtain ⟨ns, h3, h4, h5, h6⟩ := picks_tree h1
  have hGw : G.Every (fun r => r.noWrap = true) := fun rl hrl c hc => (hG rl hrl c hc).imp fun _ h => h.2.1
  refine ⟨ns, pickTree_mono hGw (fun c hc st x h => (outcome_iff hGw hc).mpr h) h3 (hr.imp fun _ h => h.2.1), ?_⟩
  rw [follows_shape hf hg, follows_shape hf' hg', h2, List.foldl_append]
  rw [← coupled_spot hf.toCoupled rfl] at h6
  refine h6 _ 0 hf.inside.1 (lie_foldl _ _ _ _ (fun _ h => by cases h) fun x hx => ?_)
  obtain ⟨hx, hw⟩ := List.mem_filter.mp hx
  have := hf.within x hx
  have hw : x.tok.frm < x.tok.to := of_decide_eq_true hw
  omega

/-- A failed read that restores the position leaves the graph as it was.  (Partial as `C86_tree_partial`.) -/
theorem C86_failed_partial (rt : Rt) (G : Env) (b : Nat) (hG : G.Every (Reader.transact G b)) (hK : ∀ rl ∈ G, ∀ c, rl.reader = some c → c.keeps)
    (s : Scanner) (h : History rt G b s) (r : Reader) (hr : r.Every (Reader.transact G b)) (hk : r.keeps) (n : Nat) (e : Err) (s' : Scanner)
    (hrd : read rt G n r s = .ret (some e, s')) (name : Bytes) (fuel fuel' : Nat) (g g' : Graph)
    (hg : Graph.build fuel name (s.heap.baskets b) = .ret g) (hg' : Graph.build fuel' name (s'.heap.baskets b) = .ret g') :
    Node.solidList g'.root.nodes = Node.solidList g.root.nodes := by
  have hT : G.Every (Reader.tracked G b) := fun rl hrl c hc => (hG rl hrl c hc).imp fun _ h => h.1
  have hf := h.follows hT
  have hf' := (History.read n r s _ s' h (hr.imp fun _ h => h.1) hrd).follows hT
  rw [follows_shape hf hg, follows_shape hf' hg', (((read_takes rt G b s.full hG hK n r hr s hf.toCoupled rfl _ hrd).1.bad e rfl).2 hk).2]

/-- A new basket: the graph, without nodes with empty tokens, consists of the trees of a parse. -/
theorem C86_fresh_partial (rt : Rt) (G : Env) (b : Nat) (hG : G.Every (Reader.transact G b)) (hK : ∀ rl ∈ G, ∀ c, rl.reader = some c → c.keeps)
    (r : Reader) (hr : r.Every (Reader.transact G b)) (n : Nat) (text : Bytes) (hp : Heap) (s' : Scanner)
    (hrd : read rt G n r ((Scanner.new text hp).newBasket b) = .ret (none, s')) (name : Bytes) :
    ∃ g ns N, (∀ fuel, N ≤ fuel → Graph.build fuel name (s'.heap.baskets b) = .ret g) ∧ PickTree G (Outcome rt G) b text.length r ⟨text, hp.janus⟩ s'.st ns ∧
      Node.solidList g.root.nodes = ns := by
  have hT : G.Every (Reader.tracked G b) := fun rl hrl c hc => (hG rl hrl c hc).imp fun _ h => h.1
  have hh : History rt G b ((Scanner.new text hp).newBasket b) := .start _ (new_inside _ _)
  obtain ⟨g, N, h1, _⟩ := C42_graph_partial rt G b hT s' (.read n r _ _ s' hh (hr.imp fun _ h => h.1) hrd) name
  have h0 : Graph.build 0 name (((Scanner.new text hp).newBasket b).heap.baskets b) = .ret (Graph.new name) := by
    rw [show ((Scanner.new text hp).newBasket b).heap.baskets b = [] from if_pos rfl]
    rfl
  obtain ⟨ns, h2, h3⟩ := C86_tree_partial rt G b hG hK _ hh r hr n s' hrd name 0 N _ g h0 (h1 N (Nat.le_refl _))
  exact ⟨g, ns, N, h1, h2, h3⟩

/-- The other way round: a text with a tree is read, to the end of the tree, and the graph is that tree. -/
theorem C86_accepts_partial (rt : Rt) (G : Env) (b : Nat) (hG : G.Every (Reader.transact G b)) (hK : ∀ rl ∈ G, ∀ c, rl.reader = some c → c.keeps)
    (r : Reader) (hr : r.Every (Reader.transact G b)) (text : Bytes) (hp : Heap) (st' : St) (ns : List Node)
    (h : PickTree G (Outcome rt G) b text.length r ⟨text, hp.janus⟩ st' ns) (name : Bytes) :
    ∃ n s' g N, read rt G n r ((Scanner.new text hp).newBasket b) = .ret (none, s') ∧ s'.st = st' ∧
      (∀ fuel, N ≤ fuel → Graph.build fuel name (s'.heap.baskets b) = .ret g) ∧ Node.solidList g.root.nodes = ns := by
  have hGw : G.Every (fun r => r.noWrap = true) := fun rl hrl c hc => (hG rl hrl c hc).imp fun _ h => h.2.1
  have hrw : r.Every (fun r => r.noWrap = true) := hr.imp fun _ h => h.2.1
  obtain ⟨n, hn⟩ := pickTree_sound (pickTree_mono hGw (fun _ hc _ _ h => (outcome_iff hGw hc).mp h) h hrw)
  have hb : Between ((Scanner.new text hp).newBasket b) [] text := ⟨rfl, rfl⟩
  obtain ⟨⟨e, s'⟩, h1, h2, h3⟩ := (read_eat rt G hGw n r hrw _ _ _ (sees_between hb)).right hn
  have h2 : e.isNone = true := h2
  obtain rfl : e = none := by cases e <;> simp_all
  obtain ⟨g, ns', N, h4, h5, h6⟩ := C86_fresh_partial rt G b hG hK r hr n text hp s' h1 name
  have h7 := st_of_sees h3
  exact ⟨n, s', g, N, h1, h7, h4, h6.trans (C86_unique rt G b _ hGw r hrw _ _ _ _ _ h h5).2⟩

/-! ### nothing empty -/

mutual
theorem solid_self : ∀ n : Node, (∀ x ∈ n.all, x.tok.frm < x.tok.to) → n.solid = [n]
  | .mk s ns, h => by
    rw [Node.solid, if_pos (h s (by rw [Node.all_eq]; simp [Node.seg])), solidList_self ns fun x hx => h x (by rw [Node.all]; exact List.mem_cons_of_mem _ hx)]
theorem solidList_self : ∀ ns : List Node, (∀ x ∈ Node.allList ns, x.tok.frm < x.tok.to) → Node.solidList ns = ns
  | [], _ => rfl
  | n :: ns, h => by
    rw [Node.solidList, solid_self n fun x hx => h x (by rw [Node.allList]; exact List.mem_append_left _ hx),
      solidList_self ns fun x hx => h x (by rw [Node.allList]; exact List.mem_append_right _ hx)]
    rfl
end

/-- If no empty segment was picked, the graph of a new basket consists of the trees of a parse and nothing else. -/
theorem C86_exact_partial (rt : Rt) (G : Env) (b : Nat) (hG : G.Every (Reader.transact G b)) (hK : ∀ rl ∈ G, ∀ c, rl.reader = some c → c.keeps)
    (r : Reader) (hr : r.Every (Reader.transact G b)) (n : Nat) (text : Bytes) (hp : Heap) (s' : Scanner)
    (hrd : read rt G n r ((Scanner.new text hp).newBasket b) = .ret (none, s')) (hne : ∀ x ∈ s'.heap.baskets b, x.tok.frm < x.tok.to) (name : Bytes) :
    ∃ g N, (∀ fuel, N ≤ fuel → Graph.build fuel name (s'.heap.baskets b) = .ret g) ∧ PickTree G (Outcome rt G) b text.length r ⟨text, hp.janus⟩ s'.st g.root.nodes := by
  obtain ⟨g, ns, N, h1, h2, h3⟩ := C86_fresh_partial rt G b hG hK r hr n text hp s' hrd name
  have hT : G.Every (Reader.tracked G b) := fun rl hrl c hc => (hG rl hrl c hc).imp fun _ h => h.1
  obtain ⟨g', N', k1, k2⟩ := C42_graph_partial rt G b hT s' (.read n r _ _ s' (.start _ (new_inside _ _)) (hr.imp fun _ h => h.1) hrd) name
  have e : g' = g := by
    have := (k1 (max N N') (Nat.le_max_right _ _)).symm.trans (h1 _ (Nat.le_max_left _ _))
    exact Exec.ret.inj this
  subst e
  rw [solidList_self _ fun x hx => hne x (k2.mem_iff.mp hx)] at h3
  exact ⟨g', N, h1, h3 ▸ h2⟩

/-- The JSON and the Lua grammar with all rules picked. -/
theorem C86_shipped (rt : Rt) (G : Env) (hG : G = Json.env ∨ G = Lua.env) (i n : Nat) (text : Bytes) (s : Scanner)
    (h : read rt (G.pickAll 0) n (.rule i) ((Scanner.new text Heap.empty).newBasket 0) = .ret (none, s)) (name : Bytes) :
    ∃ g ns N, (∀ fuel, N ≤ fuel → Graph.build fuel name (s.heap.baskets 0) = .ret g) ∧
      PickTree (G.pickAll 0) (Outcome rt (G.pickAll 0)) 0 text.length (.rule i) ⟨text, Heap.empty.janus⟩ s.st ns ∧ Node.solidList g.root.nodes = ns := by
  obtain ⟨h1, h2⟩ := C41_parse_shipped 0 G hG
  exact C86_fresh_partial rt (G.pickAll 0) 0 h1 h2 (.rule i) (.mk (transact_of_B rfl) (by simp [Reader.subs])) n text Heap.empty s h name

/-- The graph that a read leaves in the basket 0. -/
def graphAfter (fuel : Nat) (name : Bytes) : Exec (Option Err × Scanner) → Option (Bool × Node)
  | .ret (e, s) => match Graph.build fuel name (s.heap.baskets 0) with
    | .ret g => some (e.isNone, g.root)
    | _ => none
  | _ => none

/-- Sums of digits; the first alternative is tried and fails. -/
def exSum : Reader := .pick b!"sum" 0 (.any [.seq [.pick b!"no" 0 (.between 48 57), .rune 45],
  .seq [.pick b!"digit" 0 (.between 48 57), .many (.pick b!"more" 0 (.seq [.rune 43, .pick b!"digit" 0 (.between 48 57)]))]])

/-- `1+2` is a sum of two digits, and the alternative that was tried first and did not read left nothing. -/
example : graphAfter 20 b!"g" (read exRt [] 20 exSum ((Scanner.new b!"1+2" Heap.empty).newBasket 0)) =
    some (true, .mk ⟨b!"g", ⟨0, 3⟩⟩ [.mk ⟨b!"sum", ⟨0, 3⟩⟩ [.mk ⟨b!"digit", ⟨0, 1⟩⟩ [], .mk ⟨b!"more", ⟨1, 3⟩⟩ [.mk ⟨b!"digit", ⟨2, 3⟩⟩ []]]]) := by rfl

/-- The tree of `1+2` by the rules of `PickTree`; the conditions of the theorems hold of it, so it is the only one. -/
example : PickTree [] (Outcome exRt []) 0 3 exSum ⟨b!"1+2", Heap.empty.janus⟩ ⟨[], Heap.empty.janus⟩
      [.mk ⟨b!"sum", ⟨0, 3⟩⟩ [.mk ⟨b!"digit", ⟨0, 1⟩⟩ [], .mk ⟨b!"more", ⟨1, 3⟩⟩ [.mk ⟨b!"digit", ⟨2, 3⟩⟩ []]]] ∧
    exSum.Every (Reader.transact [] 0) := by
  have hr : exSum.Every (Reader.transact [] 0) := (Reader.everyB_sound Reader.transactB _ rfl).imp fun _ => transact_of_B
  have hG : Env.Every (fun r => r.noWrap = true) [] := fun _ h => by cases h
  have h : PickTree [] (E exRt []) 0 3 exSum ⟨b!"1+2", Heap.empty.janus⟩ ⟨[], Heap.empty.janus⟩ [.mk ⟨b!"sum", ⟨0, 3⟩⟩
      ((([.mk ⟨b!"digit", ⟨0, 1⟩⟩ []] ++ (([.mk ⟨b!"more", ⟨1, 3⟩⟩ ([] ++ ([.mk ⟨b!"digit", ⟨2, 3⟩⟩ []] ++ []))] ++ []) ++ [])))) ] := by
    refine .pickHere (by decide) (.anyNext (m := ⟨b!"1+2", Heap.empty.janus⟩) ⟨20, rfl⟩ (.anyHere
      (.seqCons (m := ⟨b!"+2", Heap.empty.janus⟩) (.pickHere (by decide) (.leaf rfl ⟨20, rfl⟩)) (.seqCons (m := ⟨[], Heap.empty.janus⟩) (.many (by decide)
        (.zomCons (m := ⟨[], Heap.empty.janus⟩) (.pickHere (by decide) (.seqCons (m := ⟨b!"2", Heap.empty.janus⟩) (.leaf rfl ⟨20, rfl⟩)
          (.seqCons (m := ⟨[], Heap.empty.janus⟩) (.pickHere (by decide) (.leaf rfl ⟨20, rfl⟩)) .seqNil))) (.zomNil ⟨20, rfl⟩))) .seqNil))))
  exact ⟨pickTree_mono hG (fun _ hc _ _ h => (outcome_iff hG hc).mpr h) h (hr.imp fun _ h => h.2.1), hr⟩

/-- The claim fails for nodes with empty tokens.  JSON with all rules picked on `7`: the white space before and behind the value is read by `element`,
and its nodes hang below `onenine`; `fraction` and `exponent`, which `number` has read, hang below the white space behind them. -/
theorem C86_violated : graphAfter 40 b!"g" (read exRt (Json.env.pickAll 0) 40 (.rule Json.iElement) ((Scanner.new b!"7" Heap.empty).newBasket 0)) =
    some (true, .mk ⟨b!"g", ⟨0, 1⟩⟩ [.mk ⟨b!"element", ⟨0, 1⟩⟩ [.mk ⟨b!"value", ⟨0, 1⟩⟩ [.mk ⟨b!"number", ⟨0, 1⟩⟩ [.mk ⟨b!"integer", ⟨0, 1⟩⟩
      [.mk ⟨b!"onenine", ⟨0, 1⟩⟩ [.mk ⟨b!"ws", ⟨0, 0⟩⟩ [], .mk ⟨b!"ws", ⟨1, 1⟩⟩ [.mk ⟨b!"exponent", ⟨1, 1⟩⟩ [.mk ⟨b!"fraction", ⟨1, 1⟩⟩ []]]]]]]]]) := by
  rfl

end Tok
