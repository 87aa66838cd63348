/-
C88: whose error a failed read returns.
-/
import Verif.Proofs.Blame

namespace Tok
open Spec

section
variable {rt : Rt} {G : Env} {L : Nat}

/-- What is blamed has failed. -/
theorem blames_fails {a : Ask} {st : St} {es : List Err} (h : Blames rt G (E rt G) L a st es) :
    match a with
    | .read r => ∃ m, E rt G r st (false, m)
    | .alts rs => ∃ m, EAny rt G rs st (false, m) := by
  induction h with
  | self _ h => exact ⟨_, h⟩
  | altsNil => exact ⟨_, eAny_nil.mpr rfl⟩
  | altsCons _ h _ _ ih =>
    obtain ⟨m, hm⟩ := ih
    exact ⟨m, eAny_cons.mpr ⟨_, _, h, by rw [if_neg (by decide)]; exact hm⟩⟩
  | any _ _ ih => obtain ⟨m, hm⟩ := ih; exact ⟨_, e_any.mpr ⟨_, hm, rfl⟩⟩
  | at_ _ ih => obtain ⟨m, hm⟩ := ih; exact ⟨_, e_at.mpr ⟨_, _, hm, rfl⟩⟩
  | seqFail _ ih => obtain ⟨m, hm⟩ := ih; exact ⟨_, e_seq.mpr ⟨_, eSeq_cons.mpr ⟨_, _, hm, by rw [if_neg (by decide)]⟩, rfl⟩⟩
  | seqCons h _ ih =>
    obtain ⟨m, hm⟩ := ih
    obtain ⟨⟨ok, y⟩, h1, h2⟩ := e_seq.mp hm
    cases ok
    · exact ⟨_, e_seq.mpr ⟨_, eSeq_cons.mpr ⟨_, _, h, by rw [if_pos rfl]; exact h1⟩, rfl⟩⟩
    · cases h2
  | skipFail _ ih => obtain ⟨m, hm⟩ := ih; exact ⟨_, e_skipSeq.mpr ⟨_, ⟨_, _, hm, by rw [if_neg (by decide)]⟩, rfl⟩⟩
  | skipStop h _ ih =>
    obtain ⟨m, hm⟩ := ih
    refine ⟨_, e_skipSeq.mpr ⟨(false, m), ⟨_, _, h, ?_⟩, rfl⟩⟩
    rw [if_pos rfl]
    exact eSkip_cons.mpr ⟨_, _, hm, by rw [if_neg (by decide)]⟩
  | skipCons h h' _ ih =>
    obtain ⟨m, hm⟩ := ih
    obtain ⟨⟨ok, y⟩, ⟨ok', m', h1, h2⟩, h3⟩ := e_skipSeq.mp hm
    cases ok
    · refine ⟨_, e_skipSeq.mpr ⟨(false, y), ⟨_, _, h, ?_⟩, rfl⟩⟩
      rw [if_pos rfl]
      refine eSkip_cons.mpr ⟨_, _, h', ?_⟩
      rw [if_pos rfl]
      exact ⟨_, _, h1, h2⟩
    · cases h3
  | @timesFail k _ _ _ h _ ih =>
    obtain ⟨m, hm⟩ := ih
    refine ⟨m, e_times.mpr ?_⟩
    rw [show k.toNat = (k - 1).toNat + 1 by omega]
    exact eTimes_succ.mpr ⟨_, _, hm, by rw [if_neg (by decide)]⟩
  | @timesCons k _ _ _ _ h h' _ ih =>
    obtain ⟨m, hm⟩ := ih
    refine ⟨m, e_times.mpr ?_⟩
    rw [show (k + 1).toNat = k.toNat + 1 by omega]
    exact eTimes_succ.mpr ⟨_, _, h', by rw [if_pos rfl]; exact e_times.mp hm⟩
  | janusBegin _ ih => obtain ⟨m, hm⟩ := ih; exact ⟨_, e_janusBegin.mpr ⟨_, _, hm, rfl⟩⟩
  | map _ ih => obtain ⟨m, hm⟩ := ih; exact ⟨_, e_map.mpr ⟨_, hm, rfl⟩⟩
  | pick _ ih => obtain ⟨m, hm⟩ := ih; exact ⟨_, e_pick.mpr ⟨_, hm, rfl⟩⟩
  | monitor _ ih => obtain ⟨m, hm⟩ := ih; exact ⟨_, e_monitor.mpr hm⟩
  | named _ ih => obtain ⟨m, hm⟩ := ih; exact ⟨_, e_named.mpr hm⟩
  | rule h _ ih => obtain ⟨m, hm⟩ := ih; exact ⟨_, e_rule.mpr ⟨_, _, h, hm⟩⟩
  | grammar _ ih => obtain ⟨m, hm⟩ := ih; exact ⟨_, e_grammar.mpr hm⟩

theorem blames_not {r : Reader} {st m : St} {es : List Err} (h : Blames rt G (E rt G) L (.read r) st es) (h' : E rt G r st (true, m)) : False := by
  obtain ⟨m', hm⟩ := blames_fails h
  exact h'.clash hm

/-- There is one error. -/
theorem blames_unique {a : Ask} {st : St} {es : List Err} (h : Blames rt G (E rt G) L a st es) :
    ∀ {es'}, Blames rt G (E rt G) L a st es' → es' = es := by
  have sing : ∀ {e e' : Err}, [e'] = [e] → e' = e := fun h => by cases h; rfl
  induction h with
  | self h1 h2 =>
    intro es' h'
    cases h' <;> first | (cases h1; done) | skip
    next h3 h4 => cases h2.det h4; rfl
  | altsNil => intro es' h'; cases h'; rfl
  | altsCons _ h2 _ ih ih' =>
    intro es' h'
    cases h' with
    | altsCons k1 k2 k3 =>
      cases h2.det k2
      rw [ih' k3, sing (ih k1)]
  | any _ h2 ih =>
    intro es' h'
    cases h' with
    | self h _ => cases h
    | any k1 k2 =>
      cases ih k1
      rw [deepest_unique k2 h2]
  | at_ _ ih => intro es' h'; cases h' with | self h _ => cases h | at_ k => exact ih k
  | seqFail k ih =>
    intro es' h'
    cases h' with
    | self h _ => cases h
    | seqFail k' => exact ih k'
    | seqCons h _ => exact (blames_not k h).elim
  | seqCons h _ ih =>
    intro es' h'
    cases h' with
    | self h _ => cases h
    | seqFail k' => exact (blames_not k' h).elim
    | seqCons h1 k => cases h.det h1; exact ih k
  | skipFail k ih =>
    intro es' h'
    cases h' with
    | self h _ => cases h
    | skipFail k' => exact ih k'
    | skipStop h _ => exact (blames_not k h).elim
    | skipCons h _ _ => exact (blames_not k h).elim
  | skipStop h k ih =>
    intro es' h'
    cases h' with
    | self h _ => cases h
    | skipFail k' => exact (blames_not k' h).elim
    | skipStop h1 k' => cases h.det h1; exact ih k'
    | skipCons h1 h2 _ => cases h.det h1; exact (blames_not k h2).elim
  | skipCons h h2 _ ih =>
    intro es' h'
    cases h' with
    | self h _ => cases h
    | skipFail k' => exact (blames_not k' h).elim
    | skipStop h1 k' => cases h.det h1; exact (blames_not k' h2).elim
    | skipCons h1 h3 k =>
      cases h.det h1
      cases h2.det h3
      exact ih k
  | timesFail h0 k ih =>
    intro es' h'
    cases h' with
    | self h _ => cases h
    | timesFail _ k' => exact ih k'
    | timesCons _ h _ => exact (blames_not k h).elim
  | timesCons h0 h _ ih =>
    intro es' h'
    generalize hg : (_ : Int) + 1 = j at h'
    cases h' with
    | self h _ => cases h
    | timesFail _ k' => exact (blames_not k' h).elim
    | timesCons _ h1 k =>
      cases (Int.add_left_inj 1).mp hg
      cases h.det h1
      exact ih k
  | janusBegin _ ih => intro es' h'; cases h' with | self h _ => cases h | janusBegin k => exact ih k
  | map _ ih => intro es' h'; cases h' with | self h _ => cases h | map k => exact ih k
  | pick _ ih => intro es' h'; cases h' with | self h _ => cases h | pick k => exact ih k
  | monitor _ ih => intro es' h'; cases h' with | self h _ => cases h | monitor k => exact ih k
  | named _ ih => intro es' h'; cases h' with | self h _ => cases h | named k => exact ih k
  | rule h0 _ ih =>
    intro es' h'
    cases h' with
    | self h _ => cases h
    | rule h1 k =>
      rw [h0] at h1
      cases h1
      exact ih k
  | grammar _ ih =>
    intro es' h'
    cases h' with
    | self h _ => cases h
    | grammar k => rw [sing (ih k)]

/-- The readers that are asked. -/
def _root_.Tok.Spec.Ask.All (P : Reader → Prop) : Ask → Prop
  | .read r => r.Every P
  | .alts rs => ∀ r ∈ rs, r.Every P

theorem blames_mono {P : Reader → Prop} (hG : G.Every P) {O O' : Reader → St → Bool × St → Prop} (hO : ∀ r, r.Every P → ∀ st x, O r st x → O' r st x)
    (hseq : ∀ {rs : List Reader}, (∀ r ∈ rs, r.Every P) → (Reader.seq rs).Every P)
    (hskip : ∀ {sk : Reader} {rs : List Reader}, sk.Every P → (∀ r ∈ rs, r.Every P) → (Reader.skipSeq sk rs).Every P)
    (htimes : ∀ {k : Int} {c : Reader}, c.Every P → (Reader.times k c).Every P)
    {a : Ask} {st : St} {es : List Err} (h : Blames rt G O L a st es) : a.All P → Blames rt G O' L a st es := by
  have one : ∀ {r c : Reader}, r.Every P → r.subs = [c] → c.Every P := fun h e => h.sub (by rw [e]; exact List.mem_cons_self)
  induction h with
  | self h1 h2 => exact fun hp => .self h1 (hO _ hp _ _ h2)
  | altsNil => exact fun _ => .altsNil
  | altsCons _ h _ ih ih' =>
    exact fun hp => .altsCons (ih (hp _ List.mem_cons_self)) (hO _ (hp _ List.mem_cons_self) _ _ h) (ih' fun r hr => hp r (List.mem_cons_of_mem _ hr))
  | any _ h ih => exact fun hp => .any (ih fun r hr => hp.sub hr) h
  | at_ _ ih => exact fun hp => .at_ (ih (one hp rfl))
  | seqFail _ ih => exact fun hp => .seqFail (ih (hp.sub List.mem_cons_self))
  | seqCons h _ ih =>
    exact fun hp => .seqCons (hO _ (hp.sub List.mem_cons_self) _ _ h) (ih (hseq fun r hr => hp.sub (List.mem_cons_of_mem _ hr)))
  | skipFail _ ih => exact fun hp => .skipFail (ih (hp.sub List.mem_cons_self))
  | skipStop h _ ih =>
    exact fun hp => .skipStop (hO _ (hp.sub List.mem_cons_self) _ _ h) (ih (hp.sub (List.mem_cons_of_mem _ List.mem_cons_self)))
  | skipCons h h' _ ih =>
    exact fun hp => .skipCons (hO _ (hp.sub List.mem_cons_self) _ _ h) (hO _ (hp.sub (List.mem_cons_of_mem _ List.mem_cons_self)) _ _ h')
      (ih (hskip (hp.sub List.mem_cons_self) fun r hr => hp.sub (List.mem_cons_of_mem _ (List.mem_cons_of_mem _ hr))))
  | timesFail h _ ih => exact fun hp => .timesFail h (ih (one hp rfl))
  | timesCons h h' _ ih => exact fun hp => .timesCons h (hO _ (one hp rfl) _ _ h') (ih (htimes (one hp rfl)))
  | janusBegin _ ih => exact fun hp => .janusBegin (ih (one hp rfl))
  | map _ ih => exact fun hp => .map (ih (one hp rfl))
  | pick _ ih => exact fun hp => .pick (ih (one hp rfl))
  | monitor _ ih => exact fun hp => .monitor (ih (one hp rfl))
  | named _ ih => exact fun hp => .named (ih (one hp rfl))
  | rule h _ ih => exact fun _ => .rule h (ih (hG.get h))
  | grammar _ ih => exact fun hp => .grammar (ih (one hp rfl))

theorem blames_noWrap (hG : G.Every (fun r => r.noWrap = true)) {O O' : Reader → St → Bool × St → Prop}
    (hO : ∀ r, r.Every (fun r => r.noWrap = true) → ∀ st x, O r st x → O' r st x) {r : Reader} (hr : r.Every (fun r => r.noWrap = true)) {st : St} {es : List Err}
    (h : Blames rt G O L (.read r) st es) : Blames rt G O' L (.read r) st es := by
  refine blames_mono hG hO (fun h => .mk rfl h) (fun {sk rs} h h' => .mk rfl fun r hr => ?_) (fun {k c} h => .mk rfl fun r hr => ?_) h hr
  · rcases List.mem_cons.mp hr with rfl | hr
    · exact h
    · exact h' r hr
  · rcases List.mem_cons.mp hr with rfl | hr
    · exact h
    · cases hr

end

/-- The error of a failed read is the one that the rules give. -/
theorem C88_error (rt : Rt) (G : Env) (hG : G.Every (fun r => r.noWrap = true)) (r : Reader) (hr : r.Every (fun r => r.noWrap = true))
    (s : Scanner) (h t : Bytes) (hs : Between s h t) (n : Nat) (e : Err) (s' : Scanner) (hrd : read rt G n r s = .ret (some e, s')) :
    Blames rt G (Outcome rt G) (h ++ t).length (.read r) ⟨t, s.heap.janus⟩ [e] := by
  have h1 := (read_says rt G hG n r hr s hs.inside e s' hrd).1
  rw [st_of_sees (sees_between hs), hs.1] at h1
  exact blames_noWrap hG (fun r hr _ _ h => (outcome_iff hG hr).mpr h) hr h1

/-- The rules give one error. -/
theorem C88_unique (rt : Rt) (G : Env) (hG : G.Every (fun r => r.noWrap = true)) (r : Reader) (hr : r.Every (fun r => r.noWrap = true)) (L : Nat) (st : St)
    (es es' : List Err) (h : Blames rt G (Outcome rt G) L (.read r) st es) (h' : Blames rt G (Outcome rt G) L (.read r) st es') : es = es' :=
  have conv : ∀ {es}, Blames rt G (Outcome rt G) L (.read r) st es → Blames rt G (E rt G) L (.read r) st es := fun h =>
    blames_noWrap hG (fun r hr _ _ h => (outcome_iff hG hr).mp h) hr h
  blames_unique (conv h') (conv h)

/-- Where the rules give an error, the read fails, and with this error. -/
theorem C88_complete (rt : Rt) (G : Env) (hG : G.Every (fun r => r.noWrap = true)) (r : Reader) (hr : r.Every (fun r => r.noWrap = true))
    (s : Scanner) (h t : Bytes) (hs : Between s h t) (e : Err) (hb : Blames rt G (Outcome rt G) (h ++ t).length (.read r) ⟨t, s.heap.janus⟩ [e]) :
    ∃ n s', read rt G n r s = .ret (some e, s') := by
  obtain ⟨m, n, he⟩ := blames_fails (blames_noWrap hG (fun r hr _ _ h => (outcome_iff hG hr).mp h) hr hb)
  obtain ⟨⟨e', s'⟩, h1, h2, h3⟩ := (read_eat rt G hG n r hr _ s _ (sees_between hs)).right he
  cases e' with
  | none => cases h2
  | some e' =>
    cases C88_unique rt G hG r hr _ _ _ _ hb (C88_error rt G hG r hr s h t hs n e' s' h1)
    exact ⟨n, s', h1⟩

/-- A value, then a comma or the end. -/
def exBlame : Reader := .seq [.any [.seq [.rune 97, .rune 98], .seq [.rune 97, .named b!"x" (.rune 99)], .rune 98], .any [.rune 44, .atEnd]]

/-- The error of a read. -/
def errAfter : Exec (Option Err × Scanner) → Option Err
  | .ret (some e, _) => some e
  | _ => none

/-- On `ad` the first two of three alternatives got furthest; the second is blamed, by the name of the rune that is missing, not by the name that `Named` gives. -/
example : errAfter (read exRt [] 20 exBlame (Scanner.new b!"ad" Heap.empty)) = some (.read 1 b!"'c'") := by rfl

example : Blames exRt [] (Outcome exRt []) 2 (.read exBlame) ⟨b!"ad", Heap.empty.janus⟩ [.read 1 b!"'c'"] ∧ exBlame.Every (fun r => r.noWrap = true) := by
  have hr : exBlame.Every (fun r => r.noWrap = true) := Reader.everyB_sound Reader.noWrap _ rfl
  have hG : Env.Every (fun r => r.noWrap = true) [] := fun _ h => by cases h
  refine ⟨blames_noWrap hG (O := E exRt []) (fun r hr _ _ h => (outcome_iff hG hr).mpr h) hr ?_, hr⟩
  have h1 : Blames exRt [] (E exRt []) 2 (.read (.seq [.rune 97, .rune 98])) ⟨b!"ad", Heap.empty.janus⟩ [.read 1 b!"'b'"] :=
    .seqCons (m := ⟨b!"d", Heap.empty.janus⟩) ⟨20, rfl⟩ (.seqFail (.self (m := ⟨b!"d", Heap.empty.janus⟩) rfl ⟨20, rfl⟩))
  have h2 : Blames exRt [] (E exRt []) 2 (.read (.seq [.rune 97, .named b!"x" (.rune 99)])) ⟨b!"ad", Heap.empty.janus⟩ [.read 1 b!"'c'"] :=
    .seqCons (m := ⟨b!"d", Heap.empty.janus⟩) ⟨20, rfl⟩ (.seqFail (.named (.self (m := ⟨b!"d", Heap.empty.janus⟩) rfl ⟨20, rfl⟩)))
  have h3 : Blames exRt [] (E exRt []) 2 (.read (.rune 98)) ⟨b!"ad", Heap.empty.janus⟩ [.read 0 b!"'b'"] :=
    .self (m := ⟨b!"ad", Heap.empty.janus⟩) rfl ⟨20, rfl⟩
  refine .seqFail (.any (.altsCons h1 (m := ⟨b!"ad", Heap.empty.janus⟩) ⟨20, rfl⟩ (.altsCons h2 (m := ⟨b!"ad", Heap.empty.janus⟩) ⟨20, rfl⟩
    (.altsCons h3 (m := ⟨b!"ad", Heap.empty.janus⟩) ⟨20, rfl⟩ .altsNil))) (.inl ⟨[.read 1 b!"'b'"], 1, b!"'c'", [.read 0 b!"'b'"], rfl, rfl, ?_, ?_⟩))
  · intro m' w' h
    simp only [List.mem_singleton] at h
    cases h
    decide
  · intro m' w' h
    simp only [List.mem_singleton] at h
    cases h
    decide

end Tok
