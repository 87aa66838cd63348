/-
Every read follows the rules of `Spec.Trace` and tells what they say.
-/
import Verif.Spec.Trace
import Verif.Proofs.Picks
import Verif.Proofs.Gives
import Verif.Proofs.Log
import Verif.Proofs.Cells

namespace Tok
open Spec

/-- From `s` to `s'` the events `es` were told, and nothing else. -/
structure Tells (s s' : Scanner) (es : List Event) : Prop where
  fwd : Forward s s'
  trk : s'.tracker = s.tracker
  maps : s'.heap.maps = s.heap.maps ++ es.filterMap Event.mapped
  picks : ∀ b, s.tracker ≠ some (.basket b) → s'.heap.baskets b = s.heap.baskets b ++ es.filterMap (Event.picked b)
  logs : ∀ l, lines (s'.heap.logs l) = es.foldl (Event.note l) (lines (s.heap.logs l))
  cells : ∀ k, s'.heap.cells k = es.foldl (Event.kept k) (s.heap.cells k)

theorem Tells.refl {s : Scanner} (h : Inside s) : Tells s s [] := ⟨Forward.refl h, rfl, by simp, by simp, by simp, by simp⟩

theorem Tells.inside {s s' : Scanner} {es : List Event} (h : Tells s s' es) : Inside s' := h.fwd.1

theorem Tells.full {s s' : Scanner} {es : List Event} (h : Tells s s' es) : s'.full = s.full := h.fwd.2.1

theorem Tells.trans {s s' s'' : Scanner} {es es' : List Event} (h : Tells s s' es) (h' : Tells s' s'' es') : Tells s s'' (es ++ es') where
  fwd := h.fwd.trans h'.fwd
  trk := h'.trk.trans h.trk
  maps := by rw [h'.maps, h.maps, List.filterMap_append, List.append_assoc]
  picks b hb := by rw [h'.picks b (h.trk ▸ hb), h.picks b hb, List.filterMap_append, List.append_assoc]
  logs l := by rw [h'.logs l, h.logs l, List.foldl_append]
  cells k := by rw [h'.cells k, h.cells k, List.foldl_append]

theorem at_maps (s : Scanner) (m : Int) : (s.at m).heap.maps = s.heap.maps := notify_maps _

theorem at_cells (s : Scanner) (m : Int) : (s.at m).heap.cells = s.heap.cells := notify_cells _

theorem at_picks {s : Scanner} {b : Nat} (h : s.tracker ≠ some (.basket b)) (m : Int) : (s.at m).heap.baskets b = s.heap.baskets b := by
  unfold Scanner.at Scanner.notify
  rcases ht : s.tracker with _ | ⟨k | k⟩
  · rfl
  · have : b ≠ k := fun e => h (by rw [ht, e])
    show upd _ _ _ b = _
    rw [upd_ne _ _ this]
  · rfl

theorem Tells.back {s s' : Scanner} {es : List Event} (hs : Inside s) (h : Tells s s' es) : Tells s (s'.at s.pos) es where
  fwd := forward_at hs h.fwd
  trk := (notify_tracker _).trans h.trk
  maps := (at_maps _ _).trans h.maps
  picks b hb := (at_picks (h.trk ▸ hb) _).trans (h.picks b hb)
  logs l := by rw [at_logs]; exact h.logs l
  cells k := by rw [at_cells]; exact h.cells k

theorem Tells.mark {s s' : Scanner} {es : List Event} (hs : Inside s) (h : Tells s s' es) : Tells s (s'.toMarker s.mark).2 es := by
  rw [show s.mark = s.pos from rfl, toMarker_at hs.1]
  exact h.back hs

/-- Nothing was told, fields aside. -/
structure Mute (s s' : Scanner) : Prop where
  fwd : Forward s s'
  trk : s'.tracker = s.tracker
  maps : s'.heap.maps = s.heap.maps
  picks : ∀ b, s.tracker ≠ some (.basket b) → s'.heap.baskets b = s.heap.baskets b
  logs : s'.heap.logs = s.heap.logs

theorem mute_frame (rt : Rt) (G : Env) : Frame rt G (fun r => r.leaf = true) Inside Mute where
  inside h := h
  fwd _ h := h.fwd
  inv _ h := h.fwd.1
  refl h := ⟨Forward.refl h, rfl, rfl, fun _ _ => rfl, rfl⟩
  trans _ h h' := ⟨h.fwd.trans h'.fwd, h'.trk.trans h.trk, h'.maps.trans h.maps, fun b hb => (h'.picks b (h.trk ▸ hb)).trans (h.picks b hb), h'.logs.trans h.logs⟩
  go {s m} h h1 h2 := ⟨forward_go h h1 h2, notify_tracker _, at_maps _ _, fun b hb => at_picks hb _, at_logs _ _⟩
  back h h' := ⟨forward_at h h'.fwd, (notify_tracker _).trans h'.trk, (at_maps _ _).trans h'.maps, fun b hb => (at_picks (h'.trk ▸ hb) _).trans (h'.picks b hb),
    (at_logs _ _).trans h'.logs⟩
  cells _ _ _ _ h := ⟨h.fwd, h.trk, h.maps, h.picks, h.logs⟩
  janus _ _ _ _ h := ⟨h.fwd, h.trk, h.maps, h.picks, h.logs⟩
  pick hp := by cases hp
  map hp := by cases hp
  enter hp := by cases hp
  leave hp := by cases hp
  wrap hp := by cases hp
  body hp := by rcases hp with hp | hp <;> cases hp

theorem stores_shape (r : Reader) (t : Bytes) : stores r t = [] ∨ ∃ k v, stores r t = [.store k v] := by
  unfold stores
  repeat' split
  all_goals first | exact .inl rfl | exact .inr ⟨_, _, rfl⟩

theorem Mute.tells {s s' : Scanner} {es : List Event} (h : Mute s s') (he : es = [] ∨ ∃ k v, es = [.store k v])
    (hc : ∀ k, s'.heap.cells k = es.foldl (Event.kept k) (s.heap.cells k)) : Tells s s' es := by
  refine ⟨h.fwd, h.trk, ?_, fun b hb => ?_, fun l => ?_, hc⟩
  · rcases he with rfl | ⟨k, v, rfl⟩ <;> simp [h.maps, Event.mapped]
  · rcases he with rfl | ⟨k, v, rfl⟩ <;> simp [h.picks b hb, Event.picked]
  · rcases he with rfl | ⟨k, v, rfl⟩ <;> simp [h.logs, Event.note]

theorem moveRunes_tells {s s' : Scanner} {ok : Bool} (hs : Inside s) (h : s.moveRunes 1 = .ret (ok, s')) :
    Tells s s' [] ∧ ok = (onward s.st.rest).1 ∧ s'.st = ⟨(onward s.st.rest).2, s.st.jan⟩ := by
  refine ⟨((mute_frame ⟨fun x => x, fun _ => false, fun a => a⟩ []).moveRunes hs _ h).tells (.inl rfl)
    (fun k => ((cell_frame ⟨fun x => x, fun _ => false, fun a => a⟩ [] k).moveRunes hs _ h).2), ?_⟩
  have h1 := moveRunes_sim (sees_st hs)
  rw [h] at h1
  obtain ⟨y, e, h2, h3⟩ := h1.left rfl
  cases e
  rw [onward_eq]
  exact ⟨h2, st_of_sees h3⟩

theorem mark_st {s s' : Scanner} (hs : Inside s) (h : Forward s s') : (s'.toMarker s.mark).2.st = ⟨s.st.rest, s'.st.jan⟩ :=
  st_of_sees ((sees_st hs).back (h.2.1 ▸ sees_st h.1))

theorem fwd_suffix {s s' : Scanner} (hs : Inside s) (h : Forward s s') : s'.st.rest <:+ s.st.rest := by
  have h0 := hs.1
  have h1 := h.2.2
  show s'.full.drop _ <:+ s.full.drop _
  rw [h.2.1, show s'.pos.toNat = s.pos.toNat + (s'.pos.toNat - s.pos.toNat) by omega, ← List.drop_drop]
  exact List.drop_suffix _ _

theorem inside_spot {s : Scanner} (hs : Inside s) : s.pos = spot s.full.length s.st := (sees_st hs).pos.1

theorem rest_of_atEnd {s : Scanner} (hs : Inside s) : s.atEnd = true ↔ s.st.rest = [] := by
  rw [(sees_st hs).atEnd, List.isEmpty_iff]

section
variable {rt : Rt} {G : Env}

/-- What a read has done: it followed the rules and told what they say. -/
def DidTell (rt : Rt) (G : Env) (r : Reader) (s : Scanner) (x : Option Err × Scanner) : Prop :=
  ∃ es, Trace G (E rt G) s.full.length (.read r) s.st (x.1.isNone, x.2.st) es ∧ Tells s x.2 es

/-- A read that does this wherever it starts. -/
def DoesTell (rt : Rt) (G : Env) (r : Reader) (f : ReadFunc) : Prop := ∀ s, Inside s → RetE (DidTell rt G r s) (f s)

theorem _root_.Tok.Spec.Trace.len {L L' : Nat} {t : Task} {st : St} {x : Bool × St} {es : List Event} (h : Trace G (E rt G) L t st x es) (e : L = L') : Trace G (E rt G) L' t st x es := e ▸ h

theorem anyLoop_does {f : Reader → ReadFunc} : ∀ (rs : List Reader), (∀ r ∈ rs, DoesTell rt G r (f r)) → ∀ errs s, Inside s →
    RetE (fun x => ∃ es, Trace G (E rt G) s.full.length (.read (.any rs)) s.st (backTo s.st.rest (x.1.isNone, x.2.st)) es ∧ Tells s x.2 es) (anyLoop f rs errs s)
  | [], _, _, _, hs => .ret ⟨[], .anyNil, .refl hs⟩
  | r :: rs, hr, errs, s, hs => by
    refine (hr r List.mem_cons_self s hs).bind fun a _ ha => ?_
    obtain ⟨e, s'⟩ := a
    obtain ⟨es, h1, h2⟩ := ha
    cases e with
    | none => exact .ret ⟨es, .anyHere h1, h2⟩
    | some e =>
      refine (anyLoop_does rs (fun r h => hr r (List.mem_cons_of_mem _ h)) _ s' h2.inside).mono fun x _ hx => ?_
      obtain ⟨es', h3, h4⟩ := hx
      refine ⟨es ++ es', ?_, h2.trans h4⟩
      have := Trace.anyNext h1 (h3.len (congrArg _ h2.full))
      obtain ⟨_ | _, x2⟩ := x <;> exact this

theorem seqLoop_does {f : Reader → ReadFunc} : ∀ (rs : List Reader), (∀ r ∈ rs, DoesTell rt G r (f r)) → ∀ s, Inside s →
    RetE (fun x => ∃ es, Trace G (E rt G) s.full.length (.read (.seq rs)) s.st (backTo s.st.rest (x.1.isNone, x.2.st)) es ∧ Tells s x.2 es) (seqLoop f rs s)
  | [], _, _, hs => .ret ⟨[], .seqNil, .refl hs⟩
  | r :: rs, hr, s, hs => by
    refine (hr r List.mem_cons_self s hs).bind fun a _ ha => ?_
    obtain ⟨e, s'⟩ := a
    obtain ⟨es, h1, h2⟩ := ha
    cases e with
    | some e => exact .ret ⟨es, .seqFail h1, h2⟩
    | none =>
      refine (seqLoop_does rs (fun r h => hr r (List.mem_cons_of_mem _ h)) s' h2.inside).mono fun x _ hx => ?_
      obtain ⟨es', h3, h4⟩ := hx
      refine ⟨es ++ es', ?_, h2.trans h4⟩
      have := Trace.seqCons h1 (h3.len (congrArg _ h2.full))
      obtain ⟨_ | _, x2⟩ := x <;> exact this

theorem skipSeqLoop_does {f : Reader → ReadFunc} {sk : Reader} (hk : DoesTell rt G sk (f sk)) : ∀ (rs : List Reader), (∀ r ∈ rs, DoesTell rt G r (f r)) →
    ∀ (s s1 : Scanner) (es : List Event), Inside s → Trace G (E rt G) s.full.length (.read sk) s.st (true, s1.st) es → Tells s s1 es →
    RetE (fun x => ∃ es, Trace G (E rt G) s.full.length (.read (.skipSeq sk rs)) s.st (backTo s.st.rest (x.1.isNone, x.2.st)) es ∧ Tells s x.2 es)
      (skipSeqLoop f sk rs s1)
  | [], _, s, s1, es, _, h1, h2 => .ret ⟨es, .skipNil h1, h2⟩
  | r :: rs, hr, s, s1, es, hs, h1, h2 => by
    refine (hr r List.mem_cons_self s1 h2.inside).bind fun a _ ha => ?_
    obtain ⟨e, s'⟩ := a
    obtain ⟨es', h3, h4⟩ := ha
    have h3 := h3.len (congrArg List.length h2.full)
    cases e with
    | some e => exact .ret ⟨es ++ es', .skipStop h1 h3, h2.trans h4⟩
    | none =>
      refine (hk s' h4.inside).bind fun a _ hb => ?_
      obtain ⟨e, s''⟩ := a
      obtain ⟨es2, h5, h6⟩ := hb
      have hf : s'.full = s.full := h4.full.trans h2.full
      cases e with
      | some e =>
        refine .ret ⟨es ++ (es' ++ es2), ?_, h2.trans (h4.trans h6)⟩
        have := Trace.skipCons (rs := rs) h1 h3 (.skipFail (h5.len (congrArg _ hf)))
        exact this
      | none =>
        refine (skipSeqLoop_does hk rs (fun r h => hr r (List.mem_cons_of_mem _ h)) s' s'' es2 h4.inside h5 h6).mono fun x _ hx => ?_
        obtain ⟨es3, h7, h8⟩ := hx
        refine ⟨es ++ (es' ++ es3), ?_, h2.trans (h4.trans h8)⟩
        have := Trace.skipCons h1 h3 (h7.len (congrArg _ hf))
        obtain ⟨_ | _, x2⟩ := x <;> exact this

theorem timesLoop_does {f : ReadFunc} {c : Reader} (hc : DoesTell rt G c f) : ∀ (k : Nat) s, Inside s → RetE (DidTell rt G (.times k c) s) (timesLoop f k s)
  | 0, s, hs => .ret ⟨[], .timesNil (by simp), .refl hs⟩
  | k + 1, s, hs => by
    refine (hc s hs).bind fun a _ ha => ?_
    obtain ⟨e, s'⟩ := a
    obtain ⟨es, h1, h2⟩ := ha
    cases e with
    | some e => exact .ret ⟨es, .timesFail (by omega) h1, h2⟩
    | none =>
      refine (timesLoop_does hc k s' h2.inside).mono fun x _ hx => ?_
      obtain ⟨es', h3, h4⟩ := hx
      exact ⟨es ++ es', .timesCons (by omega) h1 (h3.len (congrArg _ h2.full)), h2.trans h4⟩

theorem zomLoop_does {f : ReadFunc} {c : Reader} (hc : DoesTell rt G c f) : ∀ (k : Nat) s, Inside s →
    RetE (fun x => ∃ es, Trace G (E rt G) s.full.length (.read (.zom c)) s.st (true, x.st) es ∧ Tells s x es) (zomLoop f k s)
  | 0, s, _ => .timeout
  | k + 1, s, hs => by
    refine (hc s hs).bind fun a _ ha => ?_
    obtain ⟨e, s'⟩ := a
    obtain ⟨es, h1, h2⟩ := ha
    cases e with
    | some e => exact .ret ⟨es, .zomNil h1, h2⟩
    | none =>
      refine (zomLoop_does hc k s' h2.inside).mono fun x _ hx => ?_
      obtain ⟨es', h3, h4⟩ := hx
      exact ⟨es ++ es', .zomCons h1 (h3.len (congrArg _ h2.full)), h2.trans h4⟩

theorem pastLoop_does {f : ReadFunc} {c : Reader} (hc : DoesTell rt G c f) : ∀ (k : Nat) s, Inside s →
    RetE (fun x => ∃ es, Trace G (E rt G) s.full.length (.read (.past c)) s.st (backTo s.st.rest (x.1, x.2.st)) es ∧ Tells s x.2 es) (pastLoop f k s)
  | 0, s, _ => .timeout
  | k + 1, s, hs => by
    unfold pastLoop
    split
    next hend => exact .ret ⟨[], .pastEnd ((rest_of_atEnd hs).mp hend), .refl hs⟩
    next hend =>
    have hend := mt (rest_of_atEnd hs).mpr hend
    refine (hc s hs).bind fun a _ ha => ?_
    obtain ⟨e, s'⟩ := a
    obtain ⟨es, h1, h2⟩ := ha
    cases e with
    | none => exact .ret ⟨es, .pastHere hend h1, h2⟩
    | some e =>
      intro y hy
      obtain ⟨⟨ok, s''⟩, hme, hy⟩ := Exec.bind_eq_ret.mp hy
      obtain ⟨h3, _, h4⟩ := moveRunes_tells h2.inside hme
      obtain ⟨es', h5, h6⟩ := pastLoop_does hc k s'' h3.inside y hy
      rw [h4] at h5
      refine ⟨es ++ es', ?_, h2.trans (h3.trans h6)⟩
      have := Trace.pastNext hend h1 (h5.len (congrArg _ (h3.full.trans h2.full)))
      obtain ⟨_ | _, x2⟩ := y <;> exact this

theorem toLoop_does {f : ReadFunc} {c : Reader} (hc : DoesTell rt G c f) : ∀ (k : Nat) s, Inside s →
    RetE (fun x => ∃ es, Trace G (E rt G) s.full.length (.read (.to c)) s.st (backTo s.st.rest (x.1, x.2.st)) es ∧ Tells s x.2 es) (toLoop f k s)
  | 0, s, _ => .timeout
  | k + 1, s, hs => by
    unfold toLoop
    refine (hc s hs).bind fun a _ ha => ?_
    obtain ⟨e, s'⟩ := a
    obtain ⟨es, h1, h2⟩ := ha
    cases e with
    | none =>
      refine .ret ⟨es, ?_, h2.mark hs⟩
      have := Trace.toHere h1
      rw [← mark_st hs h2.fwd] at this
      exact this
    | some e =>
      intro y hy
      obtain ⟨⟨ok, s''⟩, hme, hy⟩ := Exec.bind_eq_ret.mp hy
      obtain ⟨h3, h3', h4⟩ := moveRunes_tells h2.inside hme
      cases ok with
      | false =>
        simp only [Bool.false_eq_true, if_false] at hy
        cases hy
        refine ⟨es, ?_, (List.append_nil es) ▸ h2.trans h3⟩
        have := Trace.toEnd h1 h3'.symm
        show Trace G (E rt G) _ _ _ (false, ⟨s.st.rest, s''.st.jan⟩) _
        rw [h4]
        exact this
      | true =>
        simp only [if_true] at hy
        obtain ⟨es', h5, h6⟩ := toLoop_does hc k s'' h3.inside y hy
        rw [h4] at h5
        refine ⟨es ++ es', ?_, h2.trans (h3.trans h6)⟩
        have := Trace.toNext h1 h3'.symm (h5.len (congrArg _ (h3.full.trans h2.full)))
        obtain ⟨_ | _, x2⟩ := y <;> exact this

/-- Going back, but not behind the start. -/
theorem Tells.goto {s s' m : Scanner} {es : List Event} (hs : Inside s) (h : Tells s s' es) (hm : Forward s m) : Tells s (s'.toMarker m.mark).2 es := by
  have hp := hm.2.2
  have hl := hm.1.2
  have h0 := hs.1
  have hm1 := hm.2.1
  rw [show m.mark = m.pos from rfl, toMarker_at (by omega)]
  refine ⟨⟨?_, (notify_full _).trans h.full, ?_⟩, (notify_tracker _).trans h.trk, (at_maps _ _).trans h.maps, fun b hb => (at_picks (h.trk ▸ hb) _).trans (h.picks b hb), fun l => ?_,
    fun k => (congrFun (at_cells _ _) k).trans (h.cells k)⟩
  · have e1 : (s'.at m.pos).pos = m.pos := notify_pos _
    have e2 : (s'.at m.pos).full = s.full := (notify_full _).trans h.full
    constructor
    · show 0 ≤ (s'.at m.pos).pos
      omega
    · show (s'.at m.pos).pos ≤ ((s'.at m.pos).full.length : Int)
      rw [e1, e2, ← hm1]; exact hl
  · have e1 : (s'.at m.pos).pos = m.pos := notify_pos _
    show s.pos ≤ (s'.at m.pos).pos
    omega
  · rw [at_logs]; exact h.logs l

theorem bodyLoop_does {c t : Reader} {f g : ReadFunc} (hc : DoesTell rt G c f) (ht : DoesTell rt G t g) {s0 : Scanner} (hs0 : Inside s0) :
    ∀ (k : Nat) s, Forward s0 s →
    RetE (fun x => ∃ m es, Trace G (E rt G) s0.full.length (.hunt t) s.st (true, m.st) es ∧ Forward s m ∧
      ((x.1 = none ∧ m.st.rest = [] ∧ x.2.st.jan = m.st.jan ∧ Tells s x.2 es) ∨
       (m.st.rest ≠ [] ∧ Forward m x.2 ∧ ∃ m' y es' es'', Trace G (E rt G) s0.full.length (.read t) m.st (true, m') es' ∧
        Trace G (E rt G) (s0.st.rest.length - m.st.rest.length) (.read c) ⟨s0.st.rest.take (s0.st.rest.length - m.st.rest.length), m'.jan⟩ y es'' ∧
        Tells s x.2 (es ++ (es' ++ es'')) ∧ x.2.st = ⟨m'.rest, y.2.jan⟩ ∧ x.1 = if y.1 && y.2.rest.isEmpty then some m.mark else none)))
      (bodyLoop f g s0.mark k s)
  | 0, s, _ => .timeout
  | k + 1, s, hf => by
    have hs := hf.1
    have hfull := hf.2.1
    unfold bodyLoop
    split
    next hend => exact .ret ⟨s, [], .huntNil, Forward.refl hs, .inl ⟨rfl, (rest_of_atEnd hs).mp hend, rfl, .refl hs⟩⟩
    next hend =>
    have hend := mt (rest_of_atEnd hs).mpr hend
    refine (ht s hs).bind fun a _ ha => ?_
    obtain ⟨e, s'⟩ := a
    obtain ⟨es, h1, h2⟩ := ha
    have h1 := h1.len (congrArg List.length hfull)
    cases e with
    | none =>
      have hsuf := fwd_suffix hs0 hf
      have hF' : s'.full = s0.full := h2.full.trans hfull
      have hget := (hF' ▸ sees_st h2.inside : Sees s0.full s' s'.st).get (sees_st hs0) (hfull ▸ sees_st hs) hsuf
      intro x hx
      obtain ⟨str, h0, hx⟩ := Exec.bind_eq_ret.mp hx
      have h0 : s0.st.rest.take (s0.st.rest.length - s.st.rest.length) = str := Exec.ret.inj (hget.symm.trans h0)
      obtain ⟨⟨e, sub⟩, h3, h4⟩ := Exec.bind_eq_ret.mp hx
      unfold Scanner.use at h3
      obtain ⟨⟨e1, sub1⟩, h5, h6⟩ := Exec.bind_eq_ret.mp h3
      have hin : Inside (Scanner.new str s'.heap) := new_inside str s'.heap
      obtain ⟨es'', h7, h8⟩ := hc _ hin _ h5
      have hlen : str.length = s0.st.rest.length - s.st.rest.length := by rw [← h0, List.length_take]; omega
      have hnew : (Scanner.new str s'.heap).st = ⟨str, s'.st.jan⟩ := rfl
      have h7 : Trace G (E rt G) (s0.st.rest.length - s.st.rest.length) (.read c) ⟨s0.st.rest.take (s0.st.rest.length - s.st.rest.length), s'.st.jan⟩
          (e1.isNone, sub1.st) es'' := by
        rw [h0, ← hlen, ← hnew]
        exact h7
      have tell : ∀ sub : Scanner, Tells (Scanner.new str s'.heap) sub es'' → Tells s { s' with heap := sub.heap } (es ++ es'') := fun sub h =>
        h2.trans ⟨Forward.refl h2.inside, rfl, h.maps, fun b _ => h.picks b (by simp [Scanner.new]), h.logs, h.cells⟩
      have fwd : Forward s s' := h2.fwd
      cases e1 with
      | some e1 =>
        simp only [Option.isSome_some, if_true] at h6
        cases h6
        simp only [Option.isSome_some, Bool.true_or, if_true] at h4
        cases h4
        refine ⟨s, [], .huntNil, Forward.refl hs, .inr ⟨hend, fwd, s'.st, _, es, es'', h1, h7, tell _ (h8.mark hin), ?_, rfl⟩⟩
        have e3 : ((sub1.toMarker 0).2).st = ⟨str, sub1.st.jan⟩ := mark_st hin h8.fwd
        have e4 := congrArg St.jan e3
        exact congrArg (St.mk s'.st.rest) e4
      | none =>
        simp only [Option.isSome_none, Bool.false_eq_true, if_false] at h6
        cases h6
        simp only [Option.isSome_none, Bool.false_or] at h4
        have hat : sub.st.rest.isEmpty = sub.atEnd := by
          rw [Bool.eq_iff_iff, List.isEmpty_iff, rest_of_atEnd h8.inside]
        refine ⟨s, [], .huntNil, Forward.refl hs, .inr ⟨hend, ?_⟩⟩
        split at h4
        next hb =>
          cases h4
          refine ⟨fwd, s'.st, _, es, es'', h1, h7, tell _ h8, rfl, ?_⟩
          have : sub.atEnd = false := by simpa using hb
          simp [hat, this]
        next hb =>
          cases h4
          refine ⟨fwd, s'.st, _, es, es'', h1, h7, tell _ h8, rfl, ?_⟩
          have : sub.atEnd = true := by simpa using hb
          simp [hat, this]
    | some e =>
      intro y hy
      obtain ⟨⟨ok, s''⟩, hme, hy⟩ := Exec.bind_eq_ret.mp hy
      obtain ⟨h3, _, h4⟩ := moveRunes_tells h2.inside hme
      have hf2 : Forward s s'' := h2.fwd.trans h3.fwd
      obtain ⟨m, es', h5, h6, h7⟩ := bodyLoop_does hc ht hs0 k s'' (hf.trans hf2) y hy
      rw [h4] at h5
      refine ⟨m, es ++ es', .huntCons hend h1 h5, hf2.trans h6, ?_⟩
      rcases h7 with ⟨k1, k2, k3, k4⟩ | ⟨k1, k2, m', z, es1, es2, k3, k4, k5, k6, k7⟩
      · exact .inl ⟨k1, k2, k3, h2.trans (h3.trans k4)⟩
      · exact .inr ⟨k1, k2, m', z, es1, es2, k3, k4, by rw [List.append_assoc]; exact h2.trans (h3.trans k5), k6, k7⟩

/-- Every read follows the rules. -/
theorem read_does (rt : Rt) (G : Env) (hG : G.Every (fun r => r.noWrap = true)) : ∀ n r, r.Every (fun r => r.noWrap = true) → DoesTell rt G r (read rt G n r)
  | 0, _, _, _, _ => .timeout
  | n + 1, r, hr, s, hs => by
    have ih := fun c hc => read_does rt G hG n c hc
    have sub : ∀ c ∈ r.subs, DoesTell rt G c (read rt G n c) := fun c hc => ih c (hr.sub hc)
    have one : ∀ c, r.subs = [c] → DoesTell rt G c (read rt G n c) := fun c hc => sub c (by rw [hc]; exact List.mem_cons_self)
    by_cases hleaf : r.leaf = true
    · intro x hx
      obtain ⟨e, s'⟩ := x
      refine ⟨stores r s.st.rest, .leaf hleaf ?_, ((mute_frame rt G).read (fun _ _ _ h => by cases h) (n + 1) r (.mk hleaf (fun c hc => by
        cases r <;> first | (simp [Reader.leaf] at hleaf; done) | cases hc)) s hs _ hx).tells (stores_shape _ _) (leaf_cells hleaf hs hx)⟩
      obtain ⟨⟨ok, st⟩, h5, h6, h7⟩ := (leaf_eat rt G n hleaf s.full s _ (sees_st hs)).left hx
      have h6 : e.isNone = ok := h6
      exact ⟨n + 1, by rw [h5, h6, st_of_sees h7]⟩
    have bk : ∀ {s' : Scanner}, Forward s s' → (s'.toMarker s.mark).2.st = ⟨s.st.rest, s'.st.jan⟩ := fun h => mark_st hs h
    cases r with
    | any rs =>
      refine (anyLoop_does rs sub [] s hs).bind fun a _ ha => ?_
      obtain ⟨e, s'⟩ := a
      obtain ⟨es, h1, h2⟩ := ha
      cases e with
      | none => exact .ret ⟨es, h1, h2⟩
      | some e => exact .ret ⟨es, by rw [bk h2.fwd]; exact h1, h2.mark hs⟩
    | at_ c =>
      refine (one c rfl s hs).bind fun a _ ha => ?_
      obtain ⟨e, s'⟩ := a
      obtain ⟨es, h1, h2⟩ := ha
      exact .ret ⟨es, by rw [bk h2.fwd]; exact .at_ h1, h2.mark hs⟩
    | body c t =>
      refine (bodyLoop_does (sub c (by simp [Reader.subs])) (sub t (by simp [Reader.subs])) hs n s (Forward.refl hs)).bind fun a _ ha => ?_
      obtain ⟨p, s'⟩ := a
      obtain ⟨m, es, h1, h2, h3⟩ := ha
      rcases h3 with ⟨k1, k2, k3, k4⟩ | ⟨k1, k2, m', z, es1, es2, k3, k4, k5, k6, k7⟩
      · cases k1
        refine .ret ⟨es, ?_, k4.mark hs⟩
        rw [bk k4.fwd, k3]
        exact .bodyEnd h1 k2
      · have := Trace.body h1 k1 k3 k4
        cases hz : z.1 && z.2.rest.isEmpty
        · simp only [hz, Bool.false_eq_true, if_false] at k7
          cases k7
          refine .ret ⟨_, ?_, k5.mark hs⟩
          rw [bk k5.fwd, k6]
          rw [hz] at this
          exact this
        · simp only [hz, if_true] at k7
          cases k7
          refine .ret ⟨_, ?_, k5.goto hs h2⟩
          rw [hz] at this
          have e := mark_st h2.1 k2
          simp only at e ⊢
          rw [e, k6]
          exact this
    | bodyTail c t =>
      refine (bodyLoop_does (sub c (by simp [Reader.subs])) (sub t (by simp [Reader.subs])) hs n s (Forward.refl hs)).bind fun a _ ha => ?_
      obtain ⟨p, s'⟩ := a
      obtain ⟨m, es, h1, h2, h3⟩ := ha
      rcases h3 with ⟨k1, k2, k3, k4⟩ | ⟨k1, k2, m', z, es1, es2, k3, k4, k5, k6, k7⟩
      · cases k1
        refine .ret ⟨es, ?_, k4.mark hs⟩
        rw [bk k4.fwd, k3]
        exact .tailEnd h1 k2
      · have := Trace.bodyTail h1 k1 k3 k4
        cases hz : z.1 && z.2.rest.isEmpty
        · simp only [hz, Bool.false_eq_true, if_false] at k7
          cases k7
          refine .ret ⟨_, ?_, k5.mark hs⟩
          rw [bk k5.fwd, k6]
          rw [hz] at this
          exact this
        · simp only [hz, if_true] at k7
          cases k7
          refine .ret ⟨_, ?_, k5⟩
          rw [hz] at this
          simp only at k6 ⊢
          rw [k6]
          exact this
    | janusBegin id nm c =>
      intro x hx
      simp only [read, Scanner.tokenizeUse] at hx
      obtain ⟨⟨⟨tk, err⟩, s1⟩, ha, hb⟩ := Exec.bind_eq_ret.mp hx
      obtain ⟨⟨err', s2⟩, ha', hb'⟩ := Exec.bind_eq_ret.mp ha
      simp only [Exec.pure_eq, Exec.ret.injEq, Prod.mk.injEq] at hb'
      obtain ⟨⟨htk, rfl⟩, rfl⟩ := hb'
      obtain ⟨es, h1, h2⟩ := one c rfl s hs _ ha'
      cases err' with
      | none =>
        simp only [Option.isNone_none, if_true] at hb
        obtain ⟨str, hstr, hc⟩ := Exec.bind_eq_ret.mp hb
        cases hc
        have hF2 : s2.full = s.full := h2.full
        have hg := (hF2 ▸ sees_st h2.inside : Sees s.full s2 s2.st).get (sees_st hs) (hF2 ▸ sees_st h2.inside) (fwd_suffix hs h2.fwd)
        refine ⟨es, ?_, ⟨h2.fwd, h2.trk, h2.maps, h2.picks, h2.logs, h2.cells⟩⟩
        have := Trace.janusBegin (id := id) (nm := nm) h1
        have hstr : s2.get tk = .ret str := hstr
        have htk : tk = makeToken s.pos s2.pos := by simpa [Scanner.mark] using htk.symm
        rw [htk] at hstr
        have hstr := Exec.ret.inj (hstr.symm.trans hg)
        simp only at hstr this
        rw [← hstr] at this
        exact this
      | some e' =>
        simp only [Option.isNone_some, Bool.false_eq_true, if_false] at hb
        cases hb
        refine ⟨es, ?_, h2.mark hs⟩
        have := Trace.janusFail (id := id) (nm := nm) h1
        rw [← bk h2.fwd] at this
        exact this
    | many c =>
      refine (zomLoop_does (one c rfl) n s hs).bind fun s' _ ha => .ret ?_
      obtain ⟨es, h1, h2⟩ := ha
      refine ⟨es, ?_, h2⟩
      have := Trace.many h1
      have e : decide (s'.st.rest.length < s.st.rest.length) = decide (s.mark < s'.mark) := by
        have e1 := inside_spot hs
        have e2 := inside_spot h2.inside
        have e3 := h2.full
        unfold spot at e1 e2
        rw [e3] at e2
        rw [decide_eq_decide]
        show _ ↔ s.pos < s'.pos
        omega
      rw [e] at this
      unfold Scanner.errorIfFalse
      cases h : decide (s.mark < s'.mark) <;> rw [h] at this <;> exact this
    | map f c =>
      intro x hx
      simp only [read, Scanner.tokenizeUse] at hx
      obtain ⟨⟨⟨tk, err⟩, s1⟩, ha, hb⟩ := Exec.bind_eq_ret.mp hx
      obtain ⟨⟨err', s2⟩, ha', hb'⟩ := Exec.bind_eq_ret.mp ha
      simp only [Exec.pure_eq, Exec.ret.injEq, Prod.mk.injEq] at hb'
      obtain ⟨⟨rfl, rfl⟩, rfl⟩ := hb'
      obtain ⟨es, h1, h2⟩ := one c rfl s hs _ ha'
      cases err' with
      | none =>
        simp only [Option.isNone_none, if_true] at hb
        cases hb
        have hle := h2.fwd.2.2
        have hF2 : s2.full = s.full := h2.full
        simp only at hle
        have ht : makeToken s.pos s2.pos = ⟨spot s.full.length s.st, spot s.full.length s2.st⟩ := by
          have := inside_spot h2.inside
          unfold makeToken
          rw [if_neg (by omega), inside_spot hs, this, hF2]
        refine ⟨_, .map h1, h2.trans ⟨Forward.refl h2.inside, rfl, ?_, fun b _ => by simp [Event.picked], fun l => rfl, fun _ => rfl⟩⟩
        show s2.heap.maps ++ [(f, makeToken s.pos s2.pos)] = _
        rw [ht]
        rfl
      | some e' =>
        simp only [Option.isNone_some, Bool.false_eq_true, if_false] at hb
        cases hb
        refine ⟨es, ?_, h2.mark hs⟩
        have := Trace.mapFail (f := f) h1
        rw [← bk h2.fwd] at this
        exact this
    | named nm c =>
      intro x hx
      obtain ⟨es, h1, h2⟩ := one c rfl s hs x hx
      exact ⟨es, .named h1, h2⟩
    | not c =>
      refine (one c rfl s hs).bind fun a _ ha => ?_
      obtain ⟨e, s'⟩ := a
      obtain ⟨es, h1, h2⟩ := ha
      have h3 := bk h2.fwd
      cases e with
      | none =>
        refine .ret ⟨es, ?_, h2.mark hs⟩
        have := Trace.notFail h1
        rw [← h3] at this
        exact this
      | some e =>
        intro y hy
        obtain ⟨⟨ok, s''⟩, hme, hy⟩ := Exec.bind_eq_ret.mp hy
        cases hy
        obtain ⟨h4, _, h5⟩ := moveRunes_tells (h2.mark hs).inside hme
        refine ⟨es, ?_, (List.append_nil es) ▸ (h2.mark hs).trans h4⟩
        have := Trace.notHere h1
        rw [h3] at h5
        simp only at h5 ⊢
        rw [h5]
        exact this
    | opt c =>
      refine (one c rfl s hs).bind fun a _ ha => ?_
      obtain ⟨es, h1, h2⟩ := ha
      exact .ret ⟨es, .opt h1, h2⟩
    | past c =>
      refine (pastLoop_does (one c rfl) n s hs).bind fun a _ ha => ?_
      obtain ⟨ok, s'⟩ := a
      obtain ⟨es, h1, h2⟩ := ha
      cases ok
      · exact .ret ⟨es, by rw [bk h2.fwd]; exact h1, h2.mark hs⟩
      · exact .ret ⟨es, h1, h2⟩
    | seq rs =>
      refine (seqLoop_does rs sub s hs).bind fun a _ ha => ?_
      obtain ⟨e, s'⟩ := a
      obtain ⟨es, h1, h2⟩ := ha
      cases e with
      | none => exact .ret ⟨es, h1, h2⟩
      | some e => exact .ret ⟨es, by rw [bk h2.fwd]; exact h1, h2.mark hs⟩
    | skipSeq sk rs =>
      have hsk := sub sk (by simp [Reader.subs])
      refine (hsk s hs).bind fun a _ ha => ?_
      obtain ⟨e, s'⟩ := a
      obtain ⟨es, h1, h2⟩ := ha
      cases e with
      | some e => exact .ret ⟨es, by rw [bk h2.fwd]; exact .skipFail h1, h2.mark hs⟩
      | none =>
        refine (skipSeqLoop_does hsk rs (fun r hr => sub r (by simp [Reader.subs, hr])) s s' es hs h1 h2).bind fun a _ hb => ?_
        obtain ⟨e, s''⟩ := a
        obtain ⟨es, h1, h2⟩ := hb
        cases e with
        | none => exact .ret ⟨es, h1, h2⟩
        | some e => exact .ret ⟨es, by rw [bk h2.fwd]; exact h1, h2.mark hs⟩
    | times k c =>
      by_cases hk : 0 ≤ k
      · have := timesLoop_does (one c rfl) k.toNat s hs
        rw [show ((k.toNat : Nat) : Int) = k by omega] at this
        exact this
      · intro x hx
        simp only [read] at hx
        rw [show k.toNat = 0 by omega] at hx
        cases hx
        exact ⟨[], .timesNil (by omega), .refl hs⟩
    | «to» c =>
      refine (toLoop_does (one c rfl) n s hs).bind fun a _ ha => ?_
      obtain ⟨ok, s'⟩ := a
      obtain ⟨es, h1, h2⟩ := ha
      cases ok
      · exact .ret ⟨es, by rw [bk h2.fwd]; exact h1, h2.mark hs⟩
      · exact .ret ⟨es, h1, h2⟩
    | wrap w f => exact absurd hr.here (by simp [Reader.noWrap])
    | zom c => exact (zomLoop_does (one c rfl) n s hs).bind fun s' _ ha => .ret ha
    | pick info k c =>
      intro x hx
      simp only [read, Scanner.tokenizeUse] at hx
      obtain ⟨⟨⟨tk, err⟩, s1⟩, ha, hb⟩ := Exec.bind_eq_ret.mp hx
      obtain ⟨⟨err', s2⟩, ha', hb'⟩ := Exec.bind_eq_ret.mp ha
      simp only [Exec.pure_eq, Exec.ret.injEq, Prod.mk.injEq] at hb'
      obtain ⟨⟨rfl, rfl⟩, rfl⟩ := hb'
      obtain ⟨es, h1, h2⟩ := one c rfl s hs _ ha'
      cases err' with
      | none =>
        simp only [Option.isNone_none, if_true] at hb
        cases hb
        have hle := h2.fwd.2.2
        have hF2 : s2.full = s.full := h2.full
        simp only at hle
        have ht : makeToken s.pos s2.pos = ⟨spot s.full.length s.st, spot s.full.length s2.st⟩ := by
          have := inside_spot h2.inside
          unfold makeToken
          rw [if_neg (by omega), inside_spot hs, this, hF2]
        refine ⟨_, .pick h1, h2.trans ⟨Forward.refl h2.inside, rfl, by simp [Event.mapped], fun b _ => ?_, fun l => rfl, fun _ => rfl⟩⟩
        show upd s2.heap.baskets k (s2.heap.baskets k ++ [(⟨info, makeToken s.pos s2.pos⟩ : Segment)]) b = _
        rw [ht]
        by_cases hb : k = b
        · subst hb
          rw [upd_self]
          simp [Event.picked]
          rfl
        · rw [upd_ne _ _ (Ne.symm hb)]
          simp [Event.picked, hb]
      | some e' =>
        simp only [Option.isNone_some, Bool.false_eq_true, if_false] at hb
        cases hb
        refine ⟨es, ?_, h2.mark hs⟩
        have := Trace.pickFail (info := info) (b := k) h1
        rw [← bk h2.fwd] at this
        exact this
    | monitor info k c =>
      intro x hx
      simp only [read] at hx
      obtain ⟨⟨err, s1⟩, ha, hb⟩ := Exec.bind_eq_ret.mp hx
      cases hb
      obtain ⟨es, h1, h2⟩ := one c rfl (s.enterLog rt info k) hs _ ha
      have hF2 : s1.full = s.full := h2.full
      refine ⟨_, .monitor h1, ?_⟩
      have e1 : Tells s (s.enterLog rt info k) [.enter k info (spot s.full.length s.st)] := by
        refine ⟨Forward.refl hs, rfl, (List.append_nil _).symm, fun b _ => (List.append_nil _).symm, fun l => ?_, fun _ => rfl⟩
        show lines (upd s.heap.logs k ((s.heap.logs k).enter rt info s.pos).2 l) = _
        rw [inside_spot hs]
        by_cases hl : k = l
        · subst hl
          rw [upd_self]
          simp only [List.foldl, Event.note, if_true, lines, Log.enter]
          split <;> simp
        · rw [upd_ne _ _ (Ne.symm hl)]
          simp [Event.note, hl]
      have e2 : Tells s1 (s1.exitLog k ((s.heap.logs k).enter rt info s.pos).1 err) [.leave k err.isNone (spot s.full.length s1.st)] := by
        refine ⟨Forward.refl h2.inside, rfl, (List.append_nil _).symm, fun b _ => (List.append_nil _).symm, fun l => ?_, fun _ => rfl⟩
        show lines (upd s1.heap.logs k ((s1.heap.logs k).exit _ s1.pos err) l) = _
        by_cases hl : k = l
        · subst hl
          rw [upd_self]
          simp only [List.foldl, Event.note, if_true, lines, Log.exit, Prod.mk.injEq, true_and]
          split
          · apply List.ext_getElem?
            intro i
            simp only [List.getElem?_map, List.getElem?_modify]
            cases (s1.heap.logs k).entries[i]? with
            | none => rfl
            | some en => simp only [Option.map_some]; split <;> rfl
          · rfl
        · rw [upd_ne _ _ (Ne.symm hl)]
          simp [Event.note, hl]
      exact e1.trans (h2.trans e2)
    | rule i =>
      intro x hx
      simp only [read] at hx
      rcases hi : G[i]? with _ | ⟨nm, _ | c⟩ <;> simp only [hi] at hx
      · cases hx
      · cases hx
      · obtain ⟨es, h1, h2⟩ := ih c (hG.get hi) s hs x hx
        exact ⟨es, .rule hi h1, h2⟩
    | ruleName c =>
      intro x hx
      simp only [read] at hx
      obtain ⟨⟨err, s1⟩, ha, hb⟩ := Exec.bind_eq_ret.mp hx
      simp only [Exec.pure_eq, Exec.ret.injEq] at hb
      subst hb
      obtain ⟨es, h1, h2⟩ := one c rfl s hs _ ha
      refine ⟨es, ?_, h2⟩
      have := Trace.ruleName h1
      cases err <;> exact this
    | grammar w c =>
      intro x hx
      simp only [read] at hx
      obtain ⟨⟨err, s1⟩, ha, hb⟩ := Exec.bind_eq_ret.mp hx
      obtain ⟨es, h1, h2⟩ := one c rfl s hs _ ha
      cases err <;> cases hb <;> exact ⟨es, .grammar h1, h2⟩
    | _ => simp [Reader.leaf] at hleaf

end

end Tok
