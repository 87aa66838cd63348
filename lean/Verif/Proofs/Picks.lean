/-
The basket of a coupled scanner after a successful read: the segments of the parse, and empty ones.
-/
import Verif.Spec.Picks
import Verif.Proofs.Basket
import Verif.Proofs.ForeverRead
import Verif.Props.C32

namespace Tok
open Spec

/-- A segment that is not empty. -/
def Segment.some (g : Segment) : Bool := decide (g.tok.frm < g.tok.to)

/-- The segments of a basket that are not empty. -/
def Scanner.picked (s : Scanner) (b : Nat) : List Segment := (s.heap.baskets b).filter Segment.some

theorem grew_same {b : Nat} {s s' : Scanner} (h : Grew b s s') (hp : s'.pos = s.pos) : s'.picked b = s.picked b := by
  obtain ⟨_, _, new, e1, p1, _⟩ := h
  unfold Scanner.picked
  rw [e1, List.filter_append, (List.filter_eq_nil_iff (l := new)).mpr ?_, List.append_nil]
  intro g hg
  have := p1 g hg
  simp only [Segment.some, decide_eq_true_eq]
  omega

/-- Nothing happens to the basket. -/
def Still (b : Nat) (s s' : Scanner) : Prop := Forward s s' ∧ s'.tracker = s.tracker ∧ s'.heap.baskets b = s.heap.baskets b

theorem Still.grew {b : Nat} {s s' : Scanner} (h : Still b s s') : Grew b s s' :=
  ⟨h.1, h.2.1, [], by simp [h.2.2], by simp, .nil⟩

theorem still_at {b : Nat} {s : Scanner} (ht : s.tracker = Option.some (.basket b)) {m : Int} (h : ∀ g ∈ s.heap.baskets b, g.tok.to ≤ m) :
    (s.at m).heap.baskets b = s.heap.baskets b := by
  rw [at_basket ht]
  show upd _ _ _ b = _
  rw [upd_self, basketUpdate_self h]

theorem still_frame (rt : Rt) (G : Env) (b : Nat) : Frame rt G (fun r => r.leaf = true) (Coupled b) (Still b) where
  inside h := h.1
  fwd _ h := h.1
  inv h h' := h'.grew.inv h
  refl h := ⟨Forward.refl h.1, rfl, rfl⟩
  trans _ h h' := ⟨h.1.trans h'.1, h'.2.1.trans h.2.1, h'.2.2.trans h.2.2⟩
  go {s m} h h1 h2 := ⟨forward_go h.1 h1 h2, notify_tracker _, still_at h.2.1 fun g hg => by have := h.2.2 g hg; omega⟩
  back {s s'} h h' := ⟨forward_at h.1 h'.1, (notify_tracker _).trans h'.2.1,
    (still_at (h'.2.1.trans h.2.1) (by rw [h'.2.2]; exact h.2.2)).trans h'.2.2⟩
  cells _ _ _ _ h := h
  janus _ _ _ _ h := h
  pick hp := by cases hp
  map hp := by cases hp
  enter hp := by cases hp
  leave hp := by cases hp
  wrap hp := by cases hp
  body hp := by rcases hp with hp | hp <;> cases hp

/-- The parts whose failure is not the end of the read, and that have to restore the position on failure. -/
def Reader.tries : Reader → List Reader
  | .any rs => rs
  | .body _ t => [t]
  | .bodyTail _ t => [t]
  | .many c => [c]
  | .opt c => [c]
  | .past c => [c]
  | .to c => [c]
  | .zom c => [c]
  | _ => []

/-- What the theorem needs at every reader. -/
def Reader.transact (G : Env) (b : Nat) (r : Reader) : Prop :=
  r.tracked G b ∧ r.noWrap = true ∧ ∀ c ∈ r.tries, c.keeps

section
variable {rt : Rt} {G : Env} {b : Nat} {F : Bytes}

/-- What a read has done: the basket grew, by the segments of a parse if it succeeded, and by nothing if it failed. -/
structure Took (rt : Rt) (G : Env) (b : Nat) (F : Bytes) (r : Reader) (s : Scanner) (x : Option Err × Scanner) : Prop where
  grew : Grew b s x.2
  ok : x.1 = none → ∃ l, Picks G (E rt G) b F.length r s.st x.2.st l ∧ x.2.picked b = s.picked b ++ l.filter Segment.some
  bad : ∀ e, x.1 = some e → E rt G r s.st (false, x.2.st) ∧ (r.keeps → x.2.pos = s.pos ∧ x.2.picked b = s.picked b)

/-- A read that does this wherever it starts. -/
def Takes (rt : Rt) (G : Env) (b : Nat) (F : Bytes) (r : Reader) (f : ReadFunc) : Prop :=
  ∀ s, Coupled b s → s.full = F → RetE (fun x => Took rt G b F r s x ∧ (x.1 = none → E rt G r s.st (true, x.2.st))) (f s)

theorem Took.fullF {r : Reader} {s : Scanner} {x : Option Err × Scanner} (h : Took rt G b F r s x) (hF : s.full = F) : x.2.full = F :=
  h.grew.1.2.1.trans hF

theorem st_of_sees {s : Scanner} {st : St} (h : Sees F s st) : s.st = st := by
  obtain ⟨h1, ⟨hd, h2⟩, h3⟩ := h
  obtain ⟨rest, jan⟩ := st
  have e1 : s.full = hd ++ rest := h2.1
  have e2 : s.pos = hd.length := h2.2
  unfold Scanner.st
  rw [St.mk.injEq]
  refine ⟨?_, h3⟩
  rw [e1, e2]
  simp

theorem coupled_sees {s : Scanner} (hs : Coupled b s) (hF : s.full = F) : Sees F s s.st := hF ▸ sees_st hs.1

theorem coupled_spot {s : Scanner} (hs : Coupled b s) (hF : s.full = F) : s.pos = spot F.length s.st := (coupled_sees hs hF).pos.1

/-- The place after `MoveRunes(1)`. -/
theorem moveRunes_st {s s' : Scanner} {ok : Bool} (hs : Coupled b s) (h : s.moveRunes 1 = .ret (ok, s')) :
    ok = (onward s.st.rest).1 ∧ s'.st = ⟨(onward s.st.rest).2, s.st.jan⟩ := by
  have h1 := moveRunes_sim (sees_st hs.1)
  rw [h] at h1
  obtain ⟨y, e, h2, h3⟩ := h1.left rfl
  cases e
  rw [onward_eq]
  exact ⟨h2, st_of_sees h3⟩

/-- The place after going back. -/
theorem back_st {s s' : Scanner} (hs : Coupled b s) (hs' : Coupled b s') (hf : s'.full = s.full) : (s'.toMarker s.mark).2.st = ⟨s.st.rest, s'.st.jan⟩ :=
  st_of_sees ((sees_st hs.1).back (hf ▸ sees_st hs'.1))

theorem moveRunes_still {s : Scanner} (hs : Coupled b s) : RetE (fun x => Still b s x.2) (s.moveRunes 1) :=
  (still_frame ⟨fun x => x, fun _ => false, fun a => a⟩ [] b).moveRunes hs

theorem picked_still {s s' : Scanner} (h : Still b s s') : s'.picked b = s.picked b := by
  unfold Scanner.picked
  rw [h.2.2]

theorem anyLoop_takes {f : Reader → ReadFunc} : ∀ (rs : List Reader), (∀ r ∈ rs, Takes rt G b F r (f r) ∧ r.keeps) → ∀ errs s, Coupled b s → s.full = F →
    RetE (fun x => x.1 = none → ∃ l, Picks G (E rt G) b F.length (.any rs) s.st x.2.st l ∧ x.2.picked b = s.picked b ++ l.filter Segment.some)
      (anyLoop f rs errs s)
  | [], _, _, _, _, _ => .ret fun h => by cases h
  | r :: rs, hr, errs, s, hs, hF => by
    refine ((hr r List.mem_cons_self).1 s hs hF).bind fun a _ ha => ?_
    obtain ⟨e, s'⟩ := a
    cases e with
    | none =>
      refine .ret fun _ => ?_
      obtain ⟨l, h1, h2⟩ := ha.1.ok rfl
      exact ⟨l, .anyHere h1, h2⟩
    | some e =>
      obtain ⟨h3, h1⟩ := ha.1.bad e rfl
      obtain ⟨h1, h2⟩ := h1 (hr r List.mem_cons_self).2
      refine (anyLoop_takes rs (fun r h => hr r (List.mem_cons_of_mem _ h)) _ s' (ha.1.grew.inv hs) (ha.1.fullF hF)).mono fun x _ hx hn => ?_
      obtain ⟨l, h4, h5⟩ := hx hn
      simp only at h1 h2
      exact ⟨l, .anyNext h3 h4, by rw [h5, h2]⟩

theorem seqLoop_takes {f : Reader → ReadFunc} : ∀ (rs : List Reader), (∀ r ∈ rs, Takes rt G b F r (f r)) → ∀ s, Coupled b s → s.full = F →
    RetE (fun x => x.1 = none → ∃ l, Picks G (E rt G) b F.length (.seq rs) s.st x.2.st l ∧ x.2.picked b = s.picked b ++ l.filter Segment.some)
      (seqLoop f rs s)
  | [], _, s, _, _ => .ret fun _ => ⟨[], .seqNil, by simp⟩
  | r :: rs, hr, s, hs, hF => by
    refine (hr r List.mem_cons_self s hs hF).bind fun a _ ha => ?_
    obtain ⟨e, s'⟩ := a
    cases e with
    | some e => exact .ret fun h => by cases h
    | none =>
      obtain ⟨l, h1, h2⟩ := ha.1.ok rfl
      refine (seqLoop_takes rs (fun r h => hr r (List.mem_cons_of_mem _ h)) s' (ha.1.grew.inv hs) (ha.1.fullF hF)).mono fun x _ hx hn => ?_
      obtain ⟨l', h4, h5⟩ := hx hn
      exact ⟨l ++ l', .seqCons h1 h4, by rw [h5, h2, List.filter_append, List.append_assoc]⟩

theorem skipSeqLoop_takes {f : Reader → ReadFunc} {sk : Reader} (hk : Takes rt G b F sk (f sk)) : ∀ (rs : List Reader),
    (∀ r ∈ rs, Takes rt G b F r (f r)) → ∀ (s s1 : Scanner) (l : List Segment), Coupled b s1 → s1.full = F → Picks G (E rt G) b F.length sk s.st s1.st l →
    s1.picked b = s.picked b ++ l.filter Segment.some →
    RetE (fun x => x.1 = none → ∃ l, Picks G (E rt G) b F.length (.skipSeq sk rs) s.st x.2.st l ∧ x.2.picked b = s.picked b ++ l.filter Segment.some)
      (skipSeqLoop f sk rs s1)
  | [], _, s, s1, l, _, _, h1, h2 => .ret fun _ => ⟨l, .skipNil h1, h2⟩
  | r :: rs, hr, s, s1, l, hs, hF, h1, h2 => by
    refine (hr r List.mem_cons_self s1 hs hF).bind fun a _ ha => ?_
    obtain ⟨e, s'⟩ := a
    cases e with
    | some e => exact .ret fun h => by cases h
    | none =>
      obtain ⟨l1, h3, h4⟩ := ha.1.ok rfl
      have hs' := ha.1.grew.inv hs
      have hF' := ha.1.fullF hF
      refine (hk s' hs' hF').bind fun a _ hb => ?_
      obtain ⟨e, s''⟩ := a
      cases e with
      | some e => exact .ret fun h => by cases h
      | none =>
        obtain ⟨l2, h5, h6⟩ := hb.1.ok rfl
        refine (skipSeqLoop_takes hk rs (fun r h => hr r (List.mem_cons_of_mem _ h)) s' s'' l2 (hb.1.grew.inv hs') (hb.1.fullF hF') h5 h6).mono
          fun x _ hx hn => ?_
        obtain ⟨l3, h7, h8⟩ := hx hn
        simp only at h4
        exact ⟨l ++ l1 ++ l3, .skipCons h1 h3 h7, by rw [h8, h4, h2]; simp [List.filter_append, List.append_assoc]⟩

theorem timesLoop_takes {f : ReadFunc} {c : Reader} (hc : Takes rt G b F c f) : ∀ (k : Nat) s, Coupled b s → s.full = F →
    RetE (fun x => x.1 = none → ∃ l, Picks G (E rt G) b F.length (.times k c) s.st x.2.st l ∧ x.2.picked b = s.picked b ++ l.filter Segment.some)
      (timesLoop f k s)
  | 0, s, _, _ => .ret fun _ => ⟨[], .timesNil (by simp), by simp⟩
  | k + 1, s, hs, hF => by
    refine (hc s hs hF).bind fun a _ ha => ?_
    obtain ⟨e, s'⟩ := a
    cases e with
    | some e => exact .ret fun h => by cases h
    | none =>
      obtain ⟨l, h1, h2⟩ := ha.1.ok rfl
      refine (timesLoop_takes hc k s' (ha.1.grew.inv hs) (ha.1.fullF hF)).mono fun x _ hx hn => ?_
      obtain ⟨l', h4, h5⟩ := hx hn
      exact ⟨l ++ l', .timesCons (by omega) h1 h4, by rw [h5, h2, List.filter_append, List.append_assoc]⟩

theorem zomLoop_takes {f : ReadFunc} {c : Reader} (hc : Takes rt G b F c f) (hk : c.keeps) : ∀ (k : Nat) s, Coupled b s → s.full = F →
    RetE (fun x => ∃ l, Picks G (E rt G) b F.length (.zom c) s.st x.st l ∧ x.picked b = s.picked b ++ l.filter Segment.some) (zomLoop f k s)
  | 0, s, _, _ => .timeout
  | k + 1, s, hs, hF => by
    refine (hc s hs hF).bind fun a _ ha => ?_
    obtain ⟨e, s'⟩ := a
    cases e with
    | some e =>
      obtain ⟨h3, h1⟩ := ha.1.bad e rfl
      obtain ⟨h1, h2⟩ := h1 hk
      simp only at h1 h2
      exact .ret ⟨[], .zomNil h3, by rw [h2]; simp⟩
    | none =>
      obtain ⟨l, h1, h2⟩ := ha.1.ok rfl
      refine (zomLoop_takes hc hk k s' (ha.1.grew.inv hs) (ha.1.fullF hF)).mono fun x _ hx => ?_
      obtain ⟨l', h4, h5⟩ := hx
      exact ⟨l ++ l', .zomCons h1 h4, by rw [h5, h2, List.filter_append, List.append_assoc]⟩

theorem atEnd_st {s : Scanner} (hs : Coupled b s) (h : ¬ s.atEnd = true) : s.st.rest ≠ [] := by
  rw [(sees_st hs.1).atEnd] at h
  intro h'
  rw [h'] at h
  exact h rfl

theorem pastLoop_takes {f : ReadFunc} {c : Reader} (hc : Takes rt G b F c f) (hk : c.keeps) : ∀ (k : Nat) s, Coupled b s → s.full = F →
    RetE (fun x => x.1 = true → ∃ l, Picks G (E rt G) b F.length (.past c) s.st x.2.st l ∧ x.2.picked b = s.picked b ++ l.filter Segment.some)
      (pastLoop f k s)
  | 0, s, _, _ => .timeout
  | k + 1, s, hs, hF => by
    unfold pastLoop
    split
    · exact .ret fun h => by cases h
    next hend =>
    refine (hc s hs hF).bind fun a _ ha => ?_
    obtain ⟨e, s'⟩ := a
    cases e with
    | none =>
      refine .ret fun _ => ?_
      obtain ⟨l, h1, h2⟩ := ha.1.ok rfl
      exact ⟨l, .pastHere (atEnd_st hs hend) h1, h2⟩
    | some e =>
      obtain ⟨h3, h1⟩ := ha.1.bad e rfl
      obtain ⟨h1, h2⟩ := h1 hk
      refine (moveRunes_still (ha.1.grew.inv hs)).bind fun a hme hm => ?_
      obtain ⟨ok, s''⟩ := a
      refine (pastLoop_takes hc hk k s'' (hm.grew.inv (ha.1.grew.inv hs)) (hm.1.2.1.trans (ha.1.fullF hF))).mono fun x _ hx hn => ?_
      obtain ⟨l, h4, h5⟩ := hx hn
      have hsp := picked_still hm
      simp only at h1 h2 hsp
      rw [(moveRunes_st (ha.1.grew.inv hs) hme).2] at h4
      exact ⟨l, .pastNext (atEnd_st hs hend) h3 h4, by rw [h5, hsp, h2]⟩

theorem toLoop_takes {f : ReadFunc} {c : Reader} (hc : Takes rt G b F c f) (hk : c.keeps) : ∀ (k : Nat) s, Coupled b s → s.full = F →
    RetE (fun x => x.1 = true → (∃ m st', Seeks (E rt G) c s.st m ∧ E rt G c m (true, st') ∧ x.2.st = ⟨m.rest, st'.jan⟩) ∧ x.2.picked b = s.picked b)
      (toLoop f k s)
  | 0, s, _, _ => .timeout
  | k + 1, s, hs, hF => by
    unfold toLoop
    refine (hc s hs hF).bind fun a _ ha => ?_
    obtain ⟨e, s'⟩ := a
    cases e with
    | none =>
      refine .ret fun _ => ?_
      have hst := back_st hs (ha.1.grew.inv hs) ha.1.grew.1.2.1
      have hg := (ha.1.grew.back hs).1
      have hp : (s'.at s.pos).pos = s.pos := notify_pos _
      refine ⟨⟨s.st, s'.st, .refl _, ha.2 rfl, hst⟩, ?_⟩
      rw [show s.mark = s.pos from rfl, toMarker_at hs.1.1]
      exact grew_same hg hp
    | some e =>
      obtain ⟨h3, h1⟩ := ha.1.bad e rfl
      obtain ⟨h1, h2⟩ := h1 hk
      refine (moveRunes_still (ha.1.grew.inv hs)).bind fun a hme hm => ?_
      obtain ⟨ok, s''⟩ := a
      cases ok
      · exact .ret fun h => by cases h
      refine (toLoop_takes hc hk k s'' (hm.grew.inv (ha.1.grew.inv hs)) (hm.1.2.1.trans (ha.1.fullF hF))).mono fun x _ hx hn => ?_
      obtain ⟨⟨m, st', h4, h5, h7⟩, h6⟩ := hx hn
      have hsp := picked_still hm
      simp only at h1 h2 hsp
      obtain ⟨k1, k2⟩ := moveRunes_st (ha.1.grew.inv hs) hme
      rw [k2] at h4
      exact ⟨⟨m, st', .step h3 k1.symm h4, h5, h7⟩, by rw [h6, hsp, h2]⟩

theorem bodyLoop_takes {c t : Reader} {nb : Nat} (hGw : G.Every (fun r => r.noWrap = true)) (hcw : c.Every (fun r => r.noWrap = true))
    (ht : Takes rt G b F t (read rt G nb t)) (hk : t.keeps)
    (hq : ∃ Q : Reader → Prop, (∀ r, Q r → r.noPick b) ∧ c.Every Q ∧
      ∀ (i : Nat) (nm : Bytes) (d : Reader), Q (.rule i) → G[i]? = some ⟨nm, some d⟩ → d.Every Q) {s0 : Scanner} (hs0 : Coupled b s0) (hF0 : s0.full = F) :
    ∀ (k : Nat) s, Coupled b s → s.full = F → s.st.rest <:+ s0.st.rest →
    RetE (fun x => ∀ p, x.1 = some p → ∃ st st', Coupled b st ∧ st.full = F ∧ Coupled b x.2 ∧ st.pos = p ∧ st.picked b = s.picked b ∧ Grew b st x.2 ∧
      Searches (E rt G) t s.st st.st ∧ st.st.rest ≠ [] ∧ E rt G t st.st (true, st') ∧ st'.rest = x.2.st.rest ∧
      E rt G c ⟨s0.st.rest.take (s0.st.rest.length - st.st.rest.length), st'.jan⟩ (true, ⟨[], x.2.st.jan⟩) ∧
      ∃ l, Picks G (E rt G) b F.length t st.st st' l ∧ x.2.picked b = s.picked b ++ l.filter Segment.some)
      (bodyLoop (read rt G nb c) (read rt G nb t) s0.mark k s)
  | 0, s, _, _, _ => .timeout
  | k + 1, s, hs, hF, hsuf => by
    unfold bodyLoop
    split
    · exact .ret fun _ h => by cases h
    next hend =>
    refine (ht s hs hF).bind fun a _ ha => ?_
    obtain ⟨e, s'⟩ := a
    have hs' := ha.1.grew.inv hs
    have hF' := ha.1.fullF hF
    cases e with
    | none =>
      have hget := (coupled_sees hs' hF').get (coupled_sees hs0 hF0) (coupled_sees hs hF) hsuf
      intro x hx
      obtain ⟨str, h0, hx⟩ := Exec.bind_eq_ret.mp hx
      have h0 : s0.st.rest.take (s0.st.rest.length - s.st.rest.length) = str := Exec.ret.inj (hget.symm.trans h0)
      obtain ⟨⟨e, sub⟩, h1, h2⟩ := Exec.bind_eq_ret.mp hx
      unfold Scanner.use at h1
      obtain ⟨⟨e1, sub1⟩, h3, h4⟩ := Exec.bind_eq_ret.mp h1
      simp only at h2
      cases e1 with
      | some e1 =>
        simp only [Option.isSome_some, if_true] at h4
        cases h4
        simp only [Option.isSome_some, Bool.true_or, if_true] at h2
        cases h2
        exact fun p h => by cases h
      | none =>
        simp only [Option.isSome_none, Bool.false_eq_true, if_false] at h4
        cases h4
        obtain ⟨Q, hQ, hc, hG⟩ := hq
        have hsub := (quiet_frame rt G b Q hQ).read hG nb c hc _ ⟨new_inside str s'.heap, rfl⟩ _ h3
        have hnew : Sees str (Scanner.new str s'.heap) ⟨str, s'.st.jan⟩ := ⟨rfl, ⟨[], rfl, rfl⟩, rfl⟩
        obtain ⟨⟨ok, sub'⟩, h5, h6, h7⟩ := (read_eat rt G hGw nb c hcw str _ _ hnew).left h3
        have h6 : true = ok := h6
        subst h6
        have h7 : Sees str sub sub' := h7
        split at h2
        · cases h2
          exact fun p h => by cases h
        next hat =>
          cases h2
          intro p hp
          cases hp
          obtain ⟨l, h8, h9⟩ := ha.1.ok rfl
          have hb : ({ s' with heap := sub.heap } : Scanner).picked b = s'.picked b := by
            unfold Scanner.picked
            exact congrArg _ hsub.2.2
          have hrest : sub'.rest = [] := by
            have hat : sub.atEnd = true := by simpa using hat
            rw [h7.atEnd] at hat
            simpa using hat
          have hc2 : Coupled b ({ s' with heap := sub.heap } : Scanner) := ⟨hs'.1, hs'.2.1, fun g hg => hs'.2.2 g (by
            have hg : g ∈ sub.heap.baskets b := hg
            rw [show sub.heap.baskets b = s'.heap.baskets b from hsub.2.2] at hg
            exact hg)⟩
          refine ⟨s, s'.st, hs, hF, hc2, rfl, rfl, ?_, .refl _, atEnd_st hs hend, ha.2 rfl, rfl, ⟨nb, ?_⟩, l, h8, ?_⟩
          · obtain ⟨f, tr, new, e1, p1, q1⟩ := ha.1.grew
            exact ⟨f, tr, new, hsub.2.2.trans e1, p1, q1⟩
          · rw [h0, h5]
            obtain ⟨r', j'⟩ := sub'
            have hrest : r' = [] := hrest
            have hj : sub.heap.janus = j' := h7.2.2
            rw [hrest, ← hj]
            rfl
          · exact hb.trans h9
    | some e =>
      obtain ⟨h3, h1⟩ := ha.1.bad e rfl
      obtain ⟨h1, h2⟩ := h1 hk
      refine (moveRunes_still hs').bind fun a hme hm => ?_
      obtain ⟨ok, s''⟩ := a
      obtain ⟨_, hst⟩ := moveRunes_st hs' hme
      have hsuf' : s''.st.rest <:+ s0.st.rest := by
        rw [hst]
        exact (onward_suffix _).trans (h3.suffix'.trans hsuf)
      refine (bodyLoop_takes hGw hcw ht hk hq hs0 hF0 k s'' (hm.grew.inv hs') (hm.1.2.1.trans hF') hsuf').mono fun x _ hx p hp => ?_
      obtain ⟨st, st', k1, k2, k3, k4, k5, k6, k7, k8, k9, k10, k11, l, k12, k13⟩ := hx p hp
      have hsp := picked_still hm
      simp only at h1 h2 hsp
      rw [hst] at k7
      exact ⟨st, st', k1, k2, k3, k4, by rw [k5, hsp, h2], k6, .step (atEnd_st hs hend) h3 k7, k8, k9, k10, k11, l, k12, by rw [k13, hsp, h2]⟩

theorem transact_safe {r : Reader} (h : r.Every (Reader.transact G b)) : r.Every (Reader.safeHere True G) :=
  h.imp fun r h => by
    have := h.2.1
    cases r <;> first | trivial | exact .inl trivial

/-- The basket after a read. -/
theorem read_takes (rt : Rt) (G : Env) (b : Nat) (F : Bytes) (hG : G.Every (Reader.transact G b))
    (hK : ∀ rl ∈ G, ∀ c, rl.reader = some c → c.keeps) : ∀ n r, r.Every (Reader.transact G b) →
    Takes rt G b F r (read rt G n r)
  | 0, _, _, _, _, _ => .timeout
  | n + 1, r, hr, s, hs, hF => by
    have ih := fun c hc => read_takes rt G b F hG hK n c hc
    have sub : ∀ c ∈ r.subs, Takes rt G b F c (read rt G n c) := fun c hc => ih c (hr.sub hc)
    have one : ∀ c, r.subs = [c] → Takes rt G b F c (read rt G n c) := fun c hc => sub c (by rw [hc]; exact List.mem_cons_self)
    have hgrew : ∀ (m : Nat) (c : Reader), c.Every (Reader.transact G b) → Frame.Ok (Coupled b) (Grew b) (read rt G m c) := fun m c hc =>
      (grew_frame rt G b).read (fun _ _ _ _ hi => (hG.get hi).imp fun _ h => h.1) m c (hc.imp fun _ h => h.1)
    have hGs : G.Every (Reader.safeHere True G) := fun rl hrl c hc => transact_safe (hG rl hrl c hc)
    have hGw : G.Every (fun r => r.noWrap = true) := fun rl hrl c hc => (hG rl hrl c hc).imp fun _ h => h.2.1
    have hran : ∀ (n : Nat) (r : Reader) (x : Option Err × Scanner), r.Every (Reader.transact G b) → ∀ (s : Scanner) (_ : Unit), Coupled b s → s.full = F →
        read rt G n r s = .ret x → E rt G r s.st (x.1.isNone, x.2.st) := by
      intro n r x hr s _ hs hF hx
      obtain ⟨⟨ok, st⟩, h5, h6, h7⟩ := (read_eat rt G hGw n r (hr.imp fun _ h => h.2.1) F s _ (coupled_sees hs hF)).left hx
      have h6 : x.1.isNone = ok := h6
      rw [h6, st_of_sees h7]
      exact ⟨n, h5⟩
    suffices H : RetE (fun x => x.1 = none → ∃ l, Picks G (E rt G) b F.length r s.st x.2.st l ∧ x.2.picked b = s.picked b ++ l.filter Segment.some)
        (read rt G (n + 1) r s) by
      intro x hx
      have h1 := hgrew (n + 1) r hr s hs x hx
      obtain ⟨e, s'⟩ := x
      have hE := hran _ _ _ hr _ () hs hF hx
      refine ⟨⟨h1, H _ hx, fun e' he => ?_⟩, fun he => ?_⟩
      · cases he
        refine ⟨hE, fun hk => ?_⟩
        have hp := read_restores rt G hGs hK (n + 1) r (transact_safe hr) hk s hs.1 e' s' hx
        exact ⟨hp, grew_same h1 hp⟩
      · cases he
        exact hE
    by_cases hleaf : r.leaf = true
    · intro x hx hn
      obtain ⟨e, s'⟩ := x
      cases hn
      have hst := (still_frame rt G b).read (fun _ _ _ h => by cases h) (n + 1) r (.mk hleaf (fun c hc => by
        cases r <;> first | (simp [Reader.leaf] at hleaf; done) | cases hc)) s hs _ hx
      exact ⟨[], .leaf hleaf (hran _ _ _ hr _ () hs hF hx), by rw [picked_still hst]; simp⟩
    have hback : ∀ {s' : Scanner}, Grew b s s' → (s'.toMarker s.mark).2.pos = s.pos ∧ (s'.toMarker s.mark).2.picked b = s.picked b ∧
        Coupled b (s'.toMarker s.mark).2 := by
      intro s' hg
      rw [show s.mark = s.pos from rfl, toMarker_at hs.1.1]
      have hp : (s'.at s.pos).pos = s.pos := notify_pos _
      exact ⟨hp, grew_same (hg.back hs).1 hp, (hg.back hs).1.inv hs⟩
    -- readers that hand on the success of their part
    have pass : ∀ (c : Reader), r.subs = [c] → (∀ {l q}, Picks G (E rt G) b F.length c s.st q l → Picks G (E rt G) b F.length r s.st q l) →
        ∀ x, read rt G n c s = .ret x → x.1 = none → ∃ l, Picks G (E rt G) b F.length r s.st x.2.st l ∧ x.2.picked b = s.picked b ++ l.filter Segment.some := by
      intro c hc hp x hx hn
      obtain ⟨l, h1, h2⟩ := (one c hc s hs hF x hx).1.ok hn
      exact ⟨l, hp h1, h2⟩
    cases r with
    | any rs =>
      refine (anyLoop_takes rs (fun r h => ⟨sub r h, hr.here.2.2 r h⟩) [] s hs hF).bind fun a _ ha => ?_
      obtain ⟨e, s'⟩ := a
      cases e with
      | none => exact .ret fun _ => ha rfl
      | some e => exact .ret fun h => by cases h
    | at_ c =>
      refine (one c rfl s hs hF).bind fun a _ ha => .ret fun hn => ?_
      obtain ⟨e, s'⟩ := a
      cases hn
      obtain ⟨h1, h2, _⟩ := hback ha.1.grew
      simp only at h1 h2 ⊢
      exact ⟨[], by rw [back_st hs (ha.1.grew.inv hs) ha.1.grew.1.2.1]; exact .at_ (ha.2 rfl), by rw [h2]; simp⟩
    | body c t =>
      refine (bodyLoop_takes hGw ((hr.sub (c := c) (by simp [Reader.subs])).imp fun _ h => h.2.1) (sub t (by simp [Reader.subs])) (hr.here.2.2 t List.mem_cons_self) hr.here.1 hs hF n s hs hF (List.suffix_refl _)).bind fun a _ ha => ?_
      obtain ⟨m, s'⟩ := a
      cases m with
      | none => exact .ret fun h => by cases h
      | some m =>
        refine .ret fun _ => ?_
        obtain ⟨st, st', h1, h1F, h1', h2, h4, h5, k1, k2, k3, k4, k5, _⟩ := ha m rfl
        subst h2
        have hp : (s'.at st.pos).pos = st.pos := notify_pos _
        refine ⟨[], ?_, ?_⟩
        · show Picks G (E rt G) b F.length _ _ (s'.toMarker st.mark).2.st _
          rw [back_st h1 h1' h5.1.2.1]
          exact .body k1 k2 k3 k5
        · rw [toMarker_at h1.1.1]
          rw [grew_same (h5.back h1).1 hp, h4]
          simp
    | bodyTail c t =>
      refine (bodyLoop_takes hGw ((hr.sub (c := c) (by simp [Reader.subs])).imp fun _ h => h.2.1) (sub t (by simp [Reader.subs])) (hr.here.2.2 t List.mem_cons_self) hr.here.1 hs hF n s hs hF (List.suffix_refl _)).bind fun a _ ha => ?_
      obtain ⟨m, s'⟩ := a
      cases m with
      | none => exact .ret fun h => by cases h
      | some m =>
        refine .ret fun _ => ?_
        obtain ⟨st, st', h1, h1F, h1', h2, h4, h5, k1, k2, k3, k4, k5, l, h7, h8⟩ := ha m rfl
        refine ⟨l, ?_, h8⟩
        have := Picks.bodyTail k1 k2 h7 k5
        rw [k4] at this
        exact this
    | janusBegin id nm c =>
      intro x hx hn
      simp only [read, Scanner.tokenizeUse] at hx
      obtain ⟨⟨⟨tk, err⟩, s1⟩, ha, hb⟩ := Exec.bind_eq_ret.mp hx
      obtain ⟨⟨err', s2⟩, ha', hb'⟩ := Exec.bind_eq_ret.mp ha
      simp only [Exec.pure_eq, Exec.ret.injEq, Prod.mk.injEq] at hb'
      obtain ⟨⟨htk, rfl⟩, rfl⟩ := hb'
      cases err' with
      | none =>
        simp only [Option.isNone_none, if_true] at hb
        obtain ⟨str, hstr, hc⟩ := Exec.bind_eq_ret.mp hb
        cases hc
        have hto := one c rfl s hs hF _ ha'
        obtain ⟨l, h1, h2⟩ := hto.1.ok rfl
        have hs2 := hto.1.grew.inv hs
        have hF2 := hto.1.fullF hF
        have hg := (coupled_sees hs2 hF2).get (coupled_sees hs hF) (coupled_sees hs2 hF2) (hto.2 rfl).suffix'
        refine ⟨l, ?_, h2⟩
        have := Picks.janusBegin (id := id) (nm := nm) h1
        have hstr : s2.get tk = .ret str := hstr
        have htk : tk = makeToken s.pos s2.pos := by simpa [Scanner.mark] using htk.symm
        rw [htk] at hstr
        have hstr := Exec.ret.inj (hstr.symm.trans hg)
        simp only at hstr this
        rw [← hstr] at this
        exact this
      | some e' =>
        simp only [Option.isNone_some, Bool.false_eq_true, if_false] at hb
        cases hb
        cases hn
    | many c =>
      refine (zomLoop_takes (one c rfl) (hr.here.2.2 c List.mem_cons_self) n s hs hF).bind fun s' hz ha => .ret fun hn => ?_
      obtain ⟨l, h1, h2⟩ := ha
      simp only [Scanner.errorIfFalse] at hn
      split at hn
      · cases hn
      · next h =>
        have h : s.pos < s'.pos := by
          rw [Bool.not_eq_true', Bool.not_eq_false, decide_eq_true_eq] at h
          exact h
        refine ⟨l, .many ?_ h1, h2⟩
        have hgr := (grew_frame rt G b).zomLoop (hgrew n c (hr.sub (by simp [Reader.subs]))) n s hs _ hz
        have e1 := coupled_spot hs hF
        have e2 := coupled_spot (hgr.inv hs) (hgr.1.2.1.trans hF)
        unfold spot at e1 e2
        show s'.st.rest.length < s.st.rest.length
        omega
    | map f c =>
      intro x hx hn
      simp only [read, Scanner.tokenizeUse] at hx
      obtain ⟨⟨⟨tk, err⟩, s1⟩, ha, hb⟩ := Exec.bind_eq_ret.mp hx
      obtain ⟨⟨err', s2⟩, ha', hb'⟩ := Exec.bind_eq_ret.mp ha
      simp only [Exec.pure_eq, Exec.ret.injEq, Prod.mk.injEq] at hb'
      obtain ⟨⟨_, rfl⟩, rfl⟩ := hb'
      cases err' with
      | none =>
        simp only [Option.isNone_none, if_true] at hb
        cases hb
        exact pass c rfl .map (none, s2) ha' rfl
      | some e' =>
        simp only [Option.isNone_some, Bool.false_eq_true, if_false] at hb
        cases hb
        cases hn
    | named nm c => exact fun x hx hn => pass c rfl .named x hx hn
    | not c =>
      refine (one c rfl s hs hF).bind fun a _ ha => ?_
      obtain ⟨e, s'⟩ := a
      obtain ⟨h1, h2, h3⟩ := hback ha.1.grew
      cases e with
      | none => exact .ret fun h => by cases h
      | some e =>
        refine (moveRunes_still h3).bind fun a hme hm => .ret fun _ => ?_
        obtain ⟨ok, s''⟩ := a
        have hsp := picked_still hm
        simp only at h1 h2 hsp
        refine ⟨[], ?_, by rw [hsp, h2]; simp⟩
        rw [(moveRunes_st h3 hme).2, back_st hs (ha.1.grew.inv hs) ha.1.grew.1.2.1]
        exact .not (m := s'.st) (ha.1.bad e rfl).1
    | opt c =>
      refine (one c rfl s hs hF).bind fun a _ ha => .ret fun _ => ?_
      obtain ⟨e, s'⟩ := a
      cases e with
      | none =>
        obtain ⟨l, h1, h2⟩ := ha.1.ok rfl
        exact ⟨l, .opt h1, h2⟩
      | some e =>
        obtain ⟨h3, h1⟩ := ha.1.bad e rfl
        obtain ⟨h1, h2⟩ := h1 (hr.here.2.2 c List.mem_cons_self)
        simp only at h1 h2 ⊢
        exact ⟨[], .optNone h3, by rw [h2]; simp⟩
    | past c =>
      refine (pastLoop_takes (one c rfl) (hr.here.2.2 c List.mem_cons_self) n s hs hF).bind fun a _ ha => ?_
      obtain ⟨ok, s'⟩ := a
      cases ok
      · exact .ret fun h => by cases h
      · exact .ret fun _ => ha rfl
    | seq rs =>
      refine (seqLoop_takes rs sub s hs hF).bind fun a _ ha => ?_
      obtain ⟨e, s'⟩ := a
      cases e with
      | none => exact .ret fun _ => ha rfl
      | some e => exact .ret fun h => by cases h
    | skipSeq sk rs =>
      have hsk := sub sk (by simp [Reader.subs])
      refine (hsk s hs hF).bind fun a _ ha => ?_
      obtain ⟨e, s'⟩ := a
      cases e with
      | some e => exact .ret fun h => by cases h
      | none =>
        obtain ⟨l, h1, h2⟩ := ha.1.ok rfl
        refine (skipSeqLoop_takes hsk rs (fun r hr => sub r (by simp [Reader.subs, hr])) s s' l (ha.1.grew.inv hs) (ha.1.fullF hF) h1 h2).bind
          fun a _ hb => ?_
        obtain ⟨e, s''⟩ := a
        cases e with
        | none => exact .ret fun _ => hb rfl
        | some e => exact .ret fun h => by cases h
    | times k c =>
      by_cases hk : 0 ≤ k
      · have := timesLoop_takes (one c rfl) k.toNat s hs hF
        rw [show ((k.toNat : Nat) : Int) = k by omega] at this
        exact this
      · intro x hx _
        simp only [read] at hx
        rw [show k.toNat = 0 by omega] at hx
        cases hx
        exact ⟨[], .timesNil (by omega), by simp⟩
    | «to» c =>
      refine (toLoop_takes (one c rfl) (hr.here.2.2 c List.mem_cons_self) n s hs hF).bind fun a _ ha => ?_
      obtain ⟨ok, s'⟩ := a
      cases ok
      · exact .ret fun h => by cases h
      · refine .ret fun _ => ?_
        obtain ⟨⟨m, st', h1, h2, h4⟩, h3⟩ := ha rfl
        refine ⟨[], ?_, by rw [h3]; simp⟩
        simp only at h4 ⊢
        rw [h4]
        exact .to h1 h2
    | wrap w f => exact absurd hr.here.2.1 (by simp [Reader.noWrap])
    | zom c => exact (zomLoop_takes (one c rfl) (hr.here.2.2 c List.mem_cons_self) n s hs hF).bind fun s' _ ha => .ret fun _ => ha
    | pick info k c =>
      intro x hx hn
      simp only [read, Scanner.tokenizeUse] at hx
      obtain ⟨⟨⟨tk, err⟩, s1⟩, ha, hb⟩ := Exec.bind_eq_ret.mp hx
      obtain ⟨⟨err', s2⟩, ha', hb'⟩ := Exec.bind_eq_ret.mp ha
      simp only [Exec.pure_eq, Exec.ret.injEq, Prod.mk.injEq] at hb'
      obtain ⟨⟨rfl, rfl⟩, rfl⟩ := hb'
      cases err' with
      | none =>
        simp only [Option.isNone_none, if_true] at hb
        cases hb
        have hto := one c rfl s hs hF _ ha'
        obtain ⟨l, h1, h2⟩ := hto.1.ok rfl
        have hle := hto.1.grew.1.2.2
        simp only at h1 h2 hle
        by_cases hk : k = b
        · subst hk
          refine ⟨_, .pickHere h1, ?_⟩
          show (upd s2.heap.baskets k (s2.heap.baskets k ++ [(⟨info, makeToken s.pos s2.pos⟩ : Segment)]) k).filter Segment.some = _
          rw [upd_self, List.filter_append, List.filter_append, ← List.append_assoc, ← h2]
          unfold makeToken
          rw [if_neg (by omega), coupled_spot hs hF, coupled_spot (hto.1.grew.inv hs) (hto.1.fullF hF)]
          rfl
        · refine ⟨l, .pickOther hk h1, ?_⟩
          show (upd s2.heap.baskets k _ b).filter Segment.some = _
          rw [upd_ne _ _ (Ne.symm hk), ← h2]
          rfl
      | some e' =>
        simp only [Option.isNone_some, Bool.false_eq_true, if_false] at hb
        cases hb
        cases hn
    | monitor info k c =>
      intro x hx hn
      simp only [read] at hx
      obtain ⟨⟨err, s1⟩, ha, hb⟩ := Exec.bind_eq_ret.mp hx
      cases hb
      obtain ⟨l, h1, h2⟩ := (one c rfl (s.enterLog rt info k) hs hF _ ha).1.ok hn
      exact ⟨l, .monitor h1, h2⟩
    | rule i =>
      intro x hx hn
      simp only [read] at hx
      rcases hi : G[i]? with _ | ⟨nm, _ | c⟩ <;> simp only [hi] at hx
      · cases hx
      · cases hx
      · obtain ⟨l, h1, h2⟩ := (ih c (hG.get hi) s hs hF x hx).1.ok hn
        exact ⟨l, .rule hi h1, h2⟩
    | ruleName c =>
      intro x hx hn
      simp only [read] at hx
      obtain ⟨⟨err, s1⟩, ha, hb⟩ := Exec.bind_eq_ret.mp hx
      simp only [Exec.pure_eq, Exec.ret.injEq] at hb
      subst hb
      cases err with
      | none => exact pass c rfl .ruleName (none, s1) ha rfl
      | some e => cases hn
    | grammar w c =>
      intro x hx hn
      simp only [read] at hx
      obtain ⟨⟨err, s1⟩, ha, hb⟩ := Exec.bind_eq_ret.mp hx
      cases err with
      | none =>
        cases hb
        exact pass c rfl .grammar _ ha rfl
      | some e => cases hb; cases hn
    | _ => simp [Reader.leaf] at hleaf

end
/-! ### changing the outcome relation -/

section
variable {G : Env} {O O' : Reader → St → Bool × St → Prop} {b L : Nat}

theorem every_tail {r : Reader} {rs : List Reader} (h : (Reader.any (r :: rs)).Every (fun r => r.noWrap = true)) : (Reader.any rs).Every (fun r => r.noWrap = true) :=
  .mk rfl fun _ hc => h.sub (List.mem_cons_of_mem _ hc)
theorem every_rest {r : Reader} {rs : List Reader} (h : (Reader.seq (r :: rs)).Every (fun r => r.noWrap = true)) : (Reader.seq rs).Every (fun r => r.noWrap = true) :=
  .mk rfl fun _ hc => h.sub (List.mem_cons_of_mem _ hc)
theorem every_skip {sk r : Reader} {rs : List Reader} (h : (Reader.skipSeq sk (r :: rs)).Every (fun r => r.noWrap = true)) :
    (Reader.skipSeq sk rs).Every (fun r => r.noWrap = true) :=
  .mk rfl fun c hc => h.sub (by simp only [Reader.subs, List.mem_cons] at hc ⊢; tauto)

theorem picks_mono (hG : G.Every (fun r => r.noWrap = true)) (hO : ∀ c : Reader, c.Every (fun r => r.noWrap = true) → ∀ st x, O c st x → O' c st x)
    {r : Reader} {st st' : St} {l : List Segment} (h : Picks G O b L r st st' l) : r.Every (fun r => r.noWrap = true) → Picks G O' b L r st st' l := by
  induction h with
  | leaf h1 h2 => exact fun hr => .leaf h1 (hO _ hr _ _ h2)
  | anyHere _ ih => exact fun hr => .anyHere (ih (hr.sub List.mem_cons_self))
  | anyNext h _ ih => exact fun hr => .anyNext (hO _ (hr.sub List.mem_cons_self) _ _ h) (ih (every_tail hr))
  | at_ h => exact fun hr => .at_ (hO _ (hr.sub (by simp [Reader.subs])) _ _ h)
  | not h => exact fun hr => .not (hO _ (hr.sub (by simp [Reader.subs])) _ _ h)
  | body h1 h2 h3 h4 =>
    exact fun hr => .body (searches_mono (hO _ (hr.sub (by simp [Reader.subs]))) h1) h2 (hO _ (hr.sub (by simp [Reader.subs])) _ _ h3)
      (hO _ (hr.sub (by simp [Reader.subs])) _ _ h4)
  | bodyTail h1 h2 _ h4 ih =>
    exact fun hr => .bodyTail (searches_mono (hO _ (hr.sub (by simp [Reader.subs]))) h1) h2 (ih (hr.sub (by simp [Reader.subs])))
      (hO _ (hr.sub (by simp [Reader.subs])) _ _ h4)
  | janusBegin _ ih => exact fun hr => .janusBegin (ih (hr.sub (by simp [Reader.subs])))
  | many h _ ih => exact fun hr => .many h (ih (.mk rfl fun _ hc => hr.sub hc))
  | map _ ih => exact fun hr => .map (ih (hr.sub (by simp [Reader.subs])))
  | named _ ih => exact fun hr => .named (ih (hr.sub (by simp [Reader.subs])))
  | opt _ ih => exact fun hr => .opt (ih (hr.sub (by simp [Reader.subs])))
  | optNone h => exact fun hr => .optNone (hO _ (hr.sub (by simp [Reader.subs])) _ _ h)
  | pastHere h _ ih => exact fun hr => .pastHere h (ih (hr.sub (by simp [Reader.subs])))
  | pastNext h h' _ ih => exact fun hr => .pastNext h (hO _ (hr.sub (by simp [Reader.subs])) _ _ h') (ih hr)
  | seqNil => exact fun _ => .seqNil
  | seqCons _ _ ih ih' => exact fun hr => .seqCons (ih (hr.sub List.mem_cons_self)) (ih' (every_rest hr))
  | skipNil _ ih => exact fun hr => .skipNil (ih (hr.sub (by simp [Reader.subs])))
  | skipCons _ _ _ ih ih' ih'' => exact fun hr => .skipCons (ih (hr.sub (by simp [Reader.subs]))) (ih' (hr.sub (by simp [Reader.subs]))) (ih'' (every_skip hr))
  | timesNil h => exact fun _ => .timesNil h
  | timesCons h _ _ ih ih' => exact fun hr => .timesCons h (ih (hr.sub (by simp [Reader.subs]))) (ih' (.mk rfl fun _ hc => hr.sub hc))
  | «to» h1 h2 => exact fun hr => .to (seeks_mono (hO _ (hr.sub (by simp [Reader.subs]))) h1) (hO _ (hr.sub (by simp [Reader.subs])) _ _ h2)
  | zomNil h => exact fun hr => .zomNil (hO _ (hr.sub (by simp [Reader.subs])) _ _ h)
  | zomCons _ _ ih ih' => exact fun hr => .zomCons (ih (hr.sub (by simp [Reader.subs]))) (ih' hr)
  | pickHere _ ih => exact fun hr => .pickHere (ih (hr.sub (by simp [Reader.subs])))
  | pickOther h _ ih => exact fun hr => .pickOther h (ih (hr.sub (by simp [Reader.subs])))
  | monitor _ ih => exact fun hr => .monitor (ih (hr.sub (by simp [Reader.subs])))
  | rule h _ ih => exact fun _ => .rule h (ih (hG.get h))
  | ruleName _ ih => exact fun hr => .ruleName (ih (hr.sub (by simp [Reader.subs])))
  | grammar _ ih => exact fun hr => .grammar (ih (hr.sub (by simp [Reader.subs])))

end
end Tok
