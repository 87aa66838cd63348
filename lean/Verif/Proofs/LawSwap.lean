/-
Exchanging parts of readers, and rules of grammars.
-/
import Verif.Proofs.Law

namespace Tok
open Spec

section
variable {rt : Rt} {G G' : Env}

/-- What `a` gives with the budget `n`, `b` gives with some budget. -/
def Sub (rt : Rt) (G G' : Env) (n : Nat) (a b : Reader) : Prop := ∀ st x, eat rt G n a st = .ret x → E rt G' b st x

def SubF (rt : Rt) (G' : Env) (f : EatFunc) (b : Reader) : Prop := ∀ st x, f st = .ret x → E rt G' b st x

theorem eatAny_sub {F : Reader → EatFunc} {as bs : List Reader} (h : List.Forall₂ (fun a b => SubF rt G' (F a) b) as bs) :
    ∀ st x, eatAny F as st = .ret x → EAny rt G' bs st x := by
  induction h with
  | nil => intro st x h; exact eAny_nil.mpr (Exec.ret.inj h).symm
  | cons h _ ih =>
    intro st x hx
    obtain ⟨⟨ok, st'⟩, h1, h2⟩ := Exec.bind_eq_ret.mp hx
    refine eAny_cons.mpr ⟨ok, st', h _ _ h1, ?_⟩
    cases ok
    · exact ih _ _ h2
    · exact (Exec.ret.inj h2).symm

theorem eatSeq_sub {F : Reader → EatFunc} {as bs : List Reader} (h : List.Forall₂ (fun a b => SubF rt G' (F a) b) as bs) :
    ∀ st x, eatSeq F as st = .ret x → ESeq rt G' bs st x := by
  induction h with
  | nil => intro st x h; exact eSeq_nil.mpr (Exec.ret.inj h).symm
  | cons h _ ih =>
    intro st x hx
    obtain ⟨⟨ok, st'⟩, h1, h2⟩ := Exec.bind_eq_ret.mp hx
    refine eSeq_cons.mpr ⟨ok, st', h _ _ h1, ?_⟩
    cases ok
    · exact (Exec.ret.inj h2).symm
    · exact ih _ _ h2

theorem eatSkip_sub {F : Reader → EatFunc} {sk sk' : Reader} (hs : SubF rt G' (F sk) sk') {as bs : List Reader}
    (h : List.Forall₂ (fun a b => SubF rt G' (F a) b) as bs) :
    ∀ st x, eatSkip F sk as st = .ret x → ESkip rt G' sk' bs st x := by
  induction h with
  | nil => intro st x h; exact eSkip_nil.mpr (Exec.ret.inj h).symm
  | cons h _ ih =>
    intro st x hx
    obtain ⟨⟨ok, st'⟩, h1, h2⟩ := Exec.bind_eq_ret.mp hx
    refine eSkip_cons.mpr ⟨ok, st', h _ _ h1, ?_⟩
    cases ok
    · exact (Exec.ret.inj h2).symm
    · obtain ⟨⟨ok, st''⟩, h3, h4⟩ := Exec.bind_eq_ret.mp h2
      refine ⟨ok, st'', hs _ _ h3, ?_⟩
      cases ok
      · exact (Exec.ret.inj h4).symm
      · exact ih _ _ h4

theorem eatTimes_sub {f : EatFunc} {b : Reader} (h : SubF rt G' f b) : ∀ k st x, eatTimes f k st = .ret x → ETimes rt G' b k st x
  | 0, st, x, hx => eTimes_zero.mpr (Exec.ret.inj hx).symm
  | k + 1, st, x, hx => by
    obtain ⟨⟨ok, st'⟩, h1, h2⟩ := Exec.bind_eq_ret.mp hx
    refine eTimes_succ.mpr ⟨ok, st', h _ _ h1, ?_⟩
    cases ok
    · exact (Exec.ret.inj h2).symm
    · exact eatTimes_sub h k _ _ h2

theorem eatZom_sub {f : EatFunc} {b : Reader} (h : SubF rt G' f b) : ∀ k st x, eatZom f k st = .ret x → EZom rt G' b st x
  | 0, st, x, hx => by cases hx
  | k + 1, st, x, hx => by
    obtain ⟨⟨ok, st'⟩, h1, h2⟩ := Exec.bind_eq_ret.mp hx
    refine eZom_step.mpr ⟨ok, st', h _ _ h1, ?_⟩
    cases ok
    · exact (Exec.ret.inj h2).symm
    · exact eatZom_sub h k _ _ h2

theorem eatPast_sub {f : EatFunc} {b : Reader} (h : SubF rt G' f b) : ∀ k st x, eatPast f k st = .ret x → EPast rt G' b st x
  | 0, st, x, hx => by cases hx
  | k + 1, st, x, hx => by
    refine ePast_step.mpr ?_
    unfold eatPast at hx
    split at hx
    · next hs => rw [if_pos hs]; exact (Exec.ret.inj hx).symm
    · next hs =>
      rw [if_neg hs]
      obtain ⟨⟨ok, st'⟩, h1, h2⟩ := Exec.bind_eq_ret.mp hx
      refine ⟨ok, st', h _ _ h1, ?_⟩
      cases ok
      · exact eatPast_sub h k _ _ h2
      · exact (Exec.ret.inj h2).symm

theorem eatTo_sub {f : EatFunc} {b : Reader} (h : SubF rt G' f b) : ∀ k st x, eatTo f k st = .ret x → ETo rt G' b st x
  | 0, st, x, hx => by cases hx
  | k + 1, st, x, hx => by
    obtain ⟨⟨ok, st'⟩, h1, h2⟩ := Exec.bind_eq_ret.mp hx
    refine eTo_step.mpr ⟨ok, st', h _ _ h1, ?_⟩
    cases ok
    · simp only [Bool.false_eq_true, if_false] at h2 ⊢
      by_cases hs : (eatStep st'.rest).1 = true
      · rw [if_pos hs] at h2 ⊢
        exact eatTo_sub h k _ _ h2
      · rw [if_neg hs] at h2 ⊢
        exact (Exec.ret.inj h2).symm
    · exact (Exec.ret.inj h2).symm

theorem eatBody_sub {f g : EatFunc} {b t : Reader} (hb : SubF rt G' f b) (ht : SubF rt G' g t) (t0 : Bytes) :
    ∀ k st x, eatBody f g t0 k st = .ret x → EBody rt G' b t t0 st x
  | 0, st, x, hx => by cases hx
  | k + 1, st, x, hx => by
    refine eBody_step.mpr ?_
    unfold eatBody at hx
    split at hx
    · next hs => rw [if_pos hs]; exact (Exec.ret.inj hx).symm
    · next hs =>
      rw [if_neg hs]
      obtain ⟨⟨ok, st'⟩, h1, h2⟩ := Exec.bind_eq_ret.mp hx
      refine ⟨ok, st', ht _ _ h1, ?_⟩
      cases ok
      · exact eatBody_sub hb ht t0 k _ _ h2
      · obtain ⟨⟨ok', sub⟩, h3, h4⟩ := Exec.bind_eq_ret.mp h2
        refine ⟨ok', sub, hb _ _ h3, ?_⟩
        simp only at h4
        split at h4 <;> next hc => simp only [hc]; exact (Exec.ret.inj h4).symm

/-! ### the readers -/

variable {n : Nat} {a b c d : Reader} {as bs : List Reader}

theorem Sub.any (h : List.Forall₂ (Sub rt G G' n) as bs) : Sub rt G G' (n + 1) (.any as) (.any bs) := fun st x hx => by
  obtain ⟨y, h1, h2⟩ := Exec.bind_eq_ret.mp hx
  exact e_any.mpr ⟨y, eatAny_sub h _ _ h1, (Exec.ret.inj h2).symm⟩
theorem Sub.seq (h : List.Forall₂ (Sub rt G G' n) as bs) : Sub rt G G' (n + 1) (.seq as) (.seq bs) := fun st x hx => by
  obtain ⟨y, h1, h2⟩ := Exec.bind_eq_ret.mp hx
  exact e_seq.mpr ⟨y, eatSeq_sub h _ _ h1, (Exec.ret.inj h2).symm⟩
theorem Sub.skipSeq (h0 : Sub rt G G' n a b) (h : List.Forall₂ (Sub rt G G' n) as bs) : Sub rt G G' (n + 1) (.skipSeq a as) (.skipSeq b bs) :=
  fun st x hx => by
  obtain ⟨⟨ok, st'⟩, h1, h2⟩ := Exec.bind_eq_ret.mp hx
  cases ok
  · exact e_skipSeq.mpr ⟨_, ⟨_, _, h0 _ _ h1, rfl⟩, (Exec.ret.inj h2).symm⟩
  · obtain ⟨y, h3, h4⟩ := Exec.bind_eq_ret.mp h2
    exact e_skipSeq.mpr ⟨y, ⟨_, _, h0 _ _ h1, eatSkip_sub h0 h _ _ h3⟩, (Exec.ret.inj h4).symm⟩
theorem Sub.times (k : Int) (h : Sub rt G G' n a b) : Sub rt G G' (n + 1) (.times k a) (.times k b) := fun st x hx =>
  e_times.mpr (eatTimes_sub h _ _ _ hx)
theorem Sub.zom (h : Sub rt G G' n a b) : Sub rt G G' (n + 1) (.zom a) (.zom b) := fun st x hx => by
  obtain ⟨y, h1, h2⟩ := Exec.bind_eq_ret.mp hx
  exact e_zom.mpr ⟨y, eatZom_sub h _ _ _ h1, (Exec.ret.inj h2).symm⟩
theorem Sub.many (h : Sub rt G G' n a b) : Sub rt G G' (n + 1) (.many a) (.many b) := fun st x hx => by
  obtain ⟨y, h1, h2⟩ := Exec.bind_eq_ret.mp hx
  exact e_many.mpr ⟨y, eatZom_sub h _ _ _ h1, (Exec.ret.inj h2).symm⟩
theorem Sub.past (h : Sub rt G G' n a b) : Sub rt G G' (n + 1) (.past a) (.past b) := fun st x hx => by
  obtain ⟨y, h1, h2⟩ := Exec.bind_eq_ret.mp hx
  exact e_past.mpr ⟨y, eatPast_sub h _ _ _ h1, (Exec.ret.inj h2).symm⟩
theorem Sub.to (h : Sub rt G G' n a b) : Sub rt G G' (n + 1) (.to a) (.to b) := fun st x hx => by
  obtain ⟨y, h1, h2⟩ := Exec.bind_eq_ret.mp hx
  exact e_to.mpr ⟨y, eatTo_sub h _ _ _ h1, (Exec.ret.inj h2).symm⟩
theorem Sub.body (h : Sub rt G G' n a b) (h' : Sub rt G G' n c d) : Sub rt G G' (n + 1) (.body a c) (.body b d) := fun st x hx => by
  obtain ⟨⟨res, st'⟩, h1, h2⟩ := Exec.bind_eq_ret.mp hx
  refine e_body.mpr ⟨res, st', eatBody_sub h h' _ _ _ _ h1, ?_⟩
  cases res <;> exact (Exec.ret.inj h2).symm
theorem Sub.bodyTail (h : Sub rt G G' n a b) (h' : Sub rt G G' n c d) : Sub rt G G' (n + 1) (.bodyTail a c) (.bodyTail b d) := fun st x hx => by
  obtain ⟨⟨res, st'⟩, h1, h2⟩ := Exec.bind_eq_ret.mp hx
  refine e_bodyTail.mpr ⟨res, st', eatBody_sub h h' _ _ _ _ h1, ?_⟩
  cases res <;> exact (Exec.ret.inj h2).symm
theorem Sub.opt (h : Sub rt G G' n a b) : Sub rt G G' (n + 1) (.opt a) (.opt b) := fun st x hx => by
  obtain ⟨⟨ok, st'⟩, h1, h2⟩ := Exec.bind_eq_ret.mp hx
  exact e_opt.mpr ⟨ok, st', h _ _ h1, (Exec.ret.inj h2).symm⟩
theorem Sub.at_ (h : Sub rt G G' n a b) : Sub rt G G' (n + 1) (.at_ a) (.at_ b) := fun st x hx => by
  obtain ⟨⟨ok, st'⟩, h1, h2⟩ := Exec.bind_eq_ret.mp hx
  exact e_at.mpr ⟨ok, st', h _ _ h1, (Exec.ret.inj h2).symm⟩
theorem Sub.not (h : Sub rt G G' n a b) : Sub rt G G' (n + 1) (.not a) (.not b) := fun st x hx => by
  obtain ⟨⟨ok, st'⟩, h1, h2⟩ := Exec.bind_eq_ret.mp hx
  refine e_not.mpr ⟨ok, st', h _ _ h1, ?_⟩
  cases ok <;> exact (Exec.ret.inj h2).symm
theorem Sub.janusBegin (id : Nat) (nm : Bytes) (h : Sub rt G G' n a b) : Sub rt G G' (n + 1) (.janusBegin id nm a) (.janusBegin id nm b) :=
  fun st x hx => by
  obtain ⟨⟨ok, st'⟩, h1, h2⟩ := Exec.bind_eq_ret.mp hx
  refine e_janusBegin.mpr ⟨ok, st', h _ _ h1, ?_⟩
  cases ok <;> exact (Exec.ret.inj h2).symm
theorem Sub.map (f : Nat) (h : Sub rt G G' n a b) : Sub rt G G' (n + 1) (.map f a) (.map f b) := fun st x hx => by
  obtain ⟨y, h1, h2⟩ := Exec.bind_eq_ret.mp hx
  exact e_map.mpr ⟨y, h _ _ h1, (Exec.ret.inj h2).symm⟩
theorem Sub.pick (i : Bytes) (l : Nat) (h : Sub rt G G' n a b) : Sub rt G G' (n + 1) (.pick i l a) (.pick i l b) := fun st x hx => by
  obtain ⟨y, h1, h2⟩ := Exec.bind_eq_ret.mp hx
  exact e_pick.mpr ⟨y, h _ _ h1, (Exec.ret.inj h2).symm⟩
theorem Sub.named (nm : Bytes) (h : Sub rt G G' n a b) : Sub rt G G' (n + 1) (.named nm a) (.named nm b) := fun st x hx => e_named.mpr (h st x hx)
theorem Sub.monitor (i : Bytes) (l : Nat) (h : Sub rt G G' n a b) : Sub rt G G' (n + 1) (.monitor i l a) (.monitor i l b) :=
  fun st x hx => e_monitor.mpr (h st x hx)
theorem Sub.ruleName (h : Sub rt G G' n a b) : Sub rt G G' (n + 1) (.ruleName a) (.ruleName b) := fun st x hx => e_ruleName.mpr (h st x hx)
theorem Sub.grammar (w : Bytes) (h : Sub rt G G' n a b) : Sub rt G G' (n + 1) (.grammar w a) (.grammar w b) := fun st x hx => e_grammar.mpr (h st x hx)
theorem Sub.zero : Sub rt G G' 0 a b := fun st x hx => by cases hx

/-! ### parts -/

/-- The same comes of both. -/
def Eq2 (rt : Rt) (G : Env) (a b : Reader) : Prop := ∀ st x, E rt G a st x ↔ E rt G b st x

theorem Eq2.refl (a : Reader) : Eq2 rt G a a := fun _ _ => Iff.rfl
theorem Eq2.symm (h : Eq2 rt G a b) : Eq2 rt G b a := fun st x => (h st x).symm
theorem Eq2.trans (h : Eq2 rt G a b) (h' : Eq2 rt G b c) : Eq2 rt G a c := fun st x => (h st x).trans (h' st x)

theorem sub_of_le {n : Nat} (h : ∀ st x, E rt G a st x → E rt G b st x) : Sub rt G G n a b := fun st x hx => h st x ⟨n, hx⟩

mutual
theorem exchanged_sub {R : Reader → Reader → Prop} (hR : ∀ a b, R a b → ∀ n, Sub rt G G n a b) {a b : Reader} : Exchanged R a b → ∀ n, Sub rt G G n a b
  | .refl _, n => fun _ _ hx => ⟨n, hx⟩
  | .here h, n => hR _ _ h n
  | .any _, 0 | .at_ _, 0 | .body _ _, 0 | .bodyTail _ _, 0 | .janusBegin _ _ _, 0 | .many _, 0 | .map _ _, 0 | .named _ _, 0 | .not _, 0
  | .opt _, 0 | .past _, 0 | .seq _, 0 | .skipSeq _ _, 0 | .times _ _, 0 | .to _, 0 | .zom _, 0 | .pick _ _ _, 0 | .monitor _ _ _, 0
  | .ruleName _, 0 | .grammar _ _, 0 => .zero
  | .any h, n + 1 => .any (exchangedL_sub hR h n)
  | .at_ h, n + 1 => .at_ (exchanged_sub hR h n)
  | .body h h', n + 1 => .body (exchanged_sub hR h n) (exchanged_sub hR h' n)
  | .bodyTail h h', n + 1 => .bodyTail (exchanged_sub hR h n) (exchanged_sub hR h' n)
  | .janusBegin id nm h, n + 1 => .janusBegin id nm (exchanged_sub hR h n)
  | .many h, n + 1 => .many (exchanged_sub hR h n)
  | .map f h, n + 1 => .map f (exchanged_sub hR h n)
  | .named nm h, n + 1 => .named nm (exchanged_sub hR h n)
  | .not h, n + 1 => .not (exchanged_sub hR h n)
  | .opt h, n + 1 => .opt (exchanged_sub hR h n)
  | .past h, n + 1 => .past (exchanged_sub hR h n)
  | .seq h, n + 1 => .seq (exchangedL_sub hR h n)
  | .skipSeq h h', n + 1 => .skipSeq (exchanged_sub hR h n) (exchangedL_sub hR h' n)
  | .times k h, n + 1 => .times k (exchanged_sub hR h n)
  | .to h, n + 1 => .to (exchanged_sub hR h n)
  | .zom h, n + 1 => .zom (exchanged_sub hR h n)
  | .pick i l h, n + 1 => .pick i l (exchanged_sub hR h n)
  | .monitor i l h, n + 1 => .monitor i l (exchanged_sub hR h n)
  | .ruleName h, n + 1 => .ruleName (exchanged_sub hR h n)
  | .grammar w h, n + 1 => .grammar w (exchanged_sub hR h n)
theorem exchangedL_sub {R : Reader → Reader → Prop} (hR : ∀ a b, R a b → ∀ n, Sub rt G G n a b) {as bs : List Reader} :
    ExchangedL R as bs → ∀ n, List.Forall₂ (Sub rt G G n) as bs
  | .nil, _ => .nil
  | .cons h h', n => .cons (exchanged_sub hR h n) (exchangedL_sub hR h' n)
end

mutual
theorem exchanged_symm {R : Reader → Reader → Prop} {a b : Reader} : Exchanged R a b → Exchanged (fun a b => R b a) b a
  | .refl r => .refl r
  | .here h => .here h
  | .any h => .any (exchangedL_symm h)
  | .at_ h => .at_ (exchanged_symm h)
  | .body h h' => .body (exchanged_symm h) (exchanged_symm h')
  | .bodyTail h h' => .bodyTail (exchanged_symm h) (exchanged_symm h')
  | .janusBegin id nm h => .janusBegin id nm (exchanged_symm h)
  | .many h => .many (exchanged_symm h)
  | .map f h => .map f (exchanged_symm h)
  | .named nm h => .named nm (exchanged_symm h)
  | .not h => .not (exchanged_symm h)
  | .opt h => .opt (exchanged_symm h)
  | .past h => .past (exchanged_symm h)
  | .seq h => .seq (exchangedL_symm h)
  | .skipSeq h h' => .skipSeq (exchanged_symm h) (exchangedL_symm h')
  | .times k h => .times k (exchanged_symm h)
  | .to h => .to (exchanged_symm h)
  | .zom h => .zom (exchanged_symm h)
  | .pick i l h => .pick i l (exchanged_symm h)
  | .monitor i l h => .monitor i l (exchanged_symm h)
  | .ruleName h => .ruleName (exchanged_symm h)
  | .grammar w h => .grammar w (exchanged_symm h)
theorem exchangedL_symm {R : Reader → Reader → Prop} {as bs : List Reader} : ExchangedL R as bs → ExchangedL (fun a b => R b a) bs as
  | .nil => .nil
  | .cons h h' => .cons (exchanged_symm h) (exchangedL_symm h')
end

theorem exchanged_eq {R : Reader → Reader → Prop} (hR : ∀ a b, R a b → Eq2 rt G a b) (h : Exchanged R a b) : Eq2 rt G a b :=
  fun st x => ⟨fun ⟨n, hx⟩ => exchanged_sub (fun a b hab n => sub_of_le fun st x => (hR a b hab st x).mp) h n st x hx,
    fun ⟨n, hx⟩ => exchanged_sub (fun a b hab n => sub_of_le fun st x => (hR b a hab st x).mpr) (exchanged_symm h) n st x hx⟩

/-! ### rules -/

theorem forall₂_self {α : Type} {P : α → α → Prop} (h : ∀ a, P a a) : ∀ l : List α, List.Forall₂ P l l
  | [] => .nil
  | a :: l => .cons (h a) (forall₂_self h l)

/-- Each rule of `G'` has the same name as in `G`, and a reader of which, in `G'`, the same comes. -/
theorem rules_sub (h : ∀ (i : Nat) (nm : Bytes) (c : Reader), G[i]? = some ⟨nm, some c⟩ → ∃ (nm' : Bytes) (c' : Reader), G'[i]? = some ⟨nm', some c'⟩ ∧ ∀ st x, E rt G' c st x → E rt G' c' st x) :
    ∀ n r, Sub rt G G' n r r
  | 0, _ => .zero
  | n + 1, r => by
    have ih := rules_sub h n
    cases r with
    | any rs => exact .any (forall₂_self ih rs)
    | at_ r => exact .at_ (ih r)
    | body b t => exact .body (ih b) (ih t)
    | bodyTail b t => exact .bodyTail (ih b) (ih t)
    | janusBegin id nm r => exact .janusBegin id nm (ih r)
    | many r => exact .many (ih r)
    | map f r => exact .map f (ih r)
    | named nm r => exact .named nm (ih r)
    | not r => exact .not (ih r)
    | opt r => exact .opt (ih r)
    | past r => exact .past (ih r)
    | seq rs => exact .seq (forall₂_self ih rs)
    | skipSeq sk rs => exact .skipSeq (ih sk) (forall₂_self ih rs)
    | times k r => exact .times k (ih r)
    | «to» r => exact .to (ih r)
    | zom r => exact .zom (ih r)
    | pick i l r => exact .pick i l (ih r)
    | monitor i l r => exact .monitor i l (ih r)
    | ruleName r => exact .ruleName (ih r)
    | grammar w r => exact .grammar w (ih r)
    | rule i =>
      intro st x hx
      simp only [eat] at hx
      split at hx
      · next nm c hc =>
        obtain ⟨nm', c', h1, h2⟩ := h i nm c hc
        exact e_rule.mpr ⟨nm', c', h1, h2 _ _ (ih c _ _ hx)⟩
      · cases hx
    | _ => exact fun st x hx => ⟨n + 1, hx⟩

/-! ### from `read` -/

theorem comes_iff (hG : G.Every (fun r => r.noWrap = true)) {r : Reader} (hr : r.Every (fun r => r.noWrap = true)) {s : Scanner} {h t : Bytes}
    (hb : Between s h t) {ok : Bool} {p : Int} {j : Nat → Bytes} :
    Comes rt G r s ok p j ↔ ∃ u, u <:+ t ∧ p = s.full.length - u.length ∧ E rt G r ⟨t, s.heap.janus⟩ (ok, ⟨u, j⟩) := by
  constructor
  · rintro ⟨n, e, s', h1, h2, h3, h4⟩
    obtain ⟨⟨ok', st⟩, h5, h6, h7⟩ := (read_eat rt G hG n r hr s.full s _ (sees_between hb)).left h1
    have h6 : e.isNone = ok' := h6
    subst h6 h2
    obtain ⟨hp, _, _⟩ := Sees.pos h7
    have hj : s'.heap.janus = st.jan := h7.2.2
    obtain ⟨u, j'⟩ := st
    simp only at hp hj
    exact ⟨u, (eat_shrinks rt G n r _ _ h5 : _), by rw [← h3]; exact hp, ⟨n, by rw [h5, ← h4, hj]⟩⟩
  · rintro ⟨u, h1, h2, n, h3⟩
    obtain ⟨⟨e, s'⟩, h5, h6, h7⟩ := (read_eat rt G hG n r hr s.full s _ (sees_between hb)).right h3
    exact ⟨n, e, s', h5, h6, by rw [h2]; exact (Sees.pos h7).1, h7.2.2⟩

/-- A scanner for any state. -/
theorem some_scanner (st : St) : ∃ s : Scanner, Between s [] st.rest ∧ s.heap.janus = st.jan ∧ s.full = st.rest :=
  ⟨.new st.rest { Heap.empty with janus := st.jan }, ⟨rfl, rfl⟩, rfl, rfl⟩

theorem swappable_iff (hG : G.Every (fun r => r.noWrap = true)) (ha : a.Every (fun r => r.noWrap = true)) (hb : b.Every (fun r => r.noWrap = true)) :
    Swappable rt G a b ↔ Eq2 rt G a b := by
  constructor
  · intro h st x
    obtain ⟨s, hs, hj, hf⟩ := some_scanner st
    obtain ⟨ok, u, j⟩ := x
    have key := h s _ _ hs ok (s.full.length - u.length) j
    rw [comes_iff hG ha hs, comes_iff hG hb hs, hj] at key
    have sh : ∀ r, E rt G r st (ok, ⟨u, j⟩) → u <:+ st.rest := fun r ⟨n, hn⟩ => (eat_shrinks rt G n r _ _ hn : _)
    constructor
    · intro hx
      obtain ⟨v, h1, h2, h3⟩ := key.mp ⟨u, sh _ hx, rfl, hx⟩
      have : v = u := (List.suffix_of_suffix_length_le h1 (sh _ hx) (by omega)).eq_of_length (by omega)
      exact this ▸ h3
    · intro hx
      obtain ⟨v, h1, h2, h3⟩ := key.mpr ⟨u, sh _ hx, rfl, hx⟩
      have : v = u := (List.suffix_of_suffix_length_le h1 (sh _ hx) (by omega)).eq_of_length (by omega)
      exact this ▸ h3
  · intro h s hd t hs ok p j
    rw [comes_iff hG ha hs, comes_iff hG hb hs]
    constructor
    · rintro ⟨u, h1, h2, h3⟩
      exact ⟨u, h1, h2, (h _ _).mp h3⟩
    · rintro ⟨u, h1, h2, h3⟩
      exact ⟨u, h1, h2, (h _ _).mpr h3⟩

end
end Tok
