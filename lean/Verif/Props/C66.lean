/-
C66 Trackers.
-/
import Verif.Props.C41
import Verif.Model.Client

namespace Tok
open Spec

/-! ### methods and client programs -/

/-- What is done by moving alone: the position is set and the tracker is told. -/
inductive Steps : Scanner → Scanner → Prop
  | refl (s : Scanner) : Steps s s
  | step {s s' : Scanner} (m : Int) : Steps s s' → Steps s (s'.at m)

theorem Steps.trans {s s' s'' : Scanner} (h : Steps s s') (h' : Steps s' s'') : Steps s s'' := by
  induction h' with
  | refl => exact h
  | step m _ ih => exact .step m ih

theorem Steps.move (s : Scanner) (k : Int) : Steps s (s.move k).2 := by
  unfold Scanner.move
  simp only
  split
  · exact .refl s
  · exact .step _ (.refl s)

theorem Steps.toMarker (s : Scanner) (m : Int) : Steps s (s.toMarker m).2 := by
  unfold Scanner.toMarker
  split
  · exact .refl s
  · exact .step _ (.refl s)

theorem Steps.movePair (s : Scanner) (k : Int) : RetE (fun x => Steps s x.2) (Exec.ret (s.move k)) := .ret (.move s k)
theorem Steps.same (s : Scanner) (b : Bool) : RetE (fun x => Steps s x.2) (Exec.ret (b, s)) := .ret (.refl s)

theorem Steps.ifStr (s : Scanner) (str : Bytes) : RetE (fun x => Steps s x.2) (s.ifStr str) := by
  refine RetE.trivial.bind fun t _ _ => ?_
  split
  · exact movePair s _
  · exact same s _

theorem Steps.ifAny : ∀ (strs : List Bytes) (s : Scanner), RetE (fun x => Steps s x.2) (s.ifAny strs)
  | [], s => same s _
  | str :: strs, s => by
    refine (ifStr s str).bind fun x _ h => ?_
    obtain ⟨ok, s'⟩ := x
    cases ok
    · exact (ifAny strs s').mono fun _ _ h' => h.trans h'
    · exact .ret h

theorem Steps.revIf (s : Scanner) (str : Bytes) : RetE (fun x => Steps s x.2) (s.revIf str) := by
  refine RetE.trivial.bind fun t _ _ => ?_
  split
  · exact movePair s _
  · exact same s _

theorem Steps.revIfAny : ∀ (strs : List Bytes) (s : Scanner), RetE (fun x => Steps s x.2) (s.revIfAny strs)
  | [], s => same s _
  | str :: strs, s => by
    refine (revIf s str).bind fun x _ h => ?_
    obtain ⟨ok, s'⟩ := x
    cases ok
    · exact (revIfAny strs s').mono fun _ _ h' => h.trans h'
    · exact .ret h

theorem Steps.ifRune (s : Scanner) (r : Rune) : RetE (fun x => Steps s x.2) (s.ifRune r) := by
  refine RetE.trivial.bind fun t _ _ => ?_
  simp only
  split
  · exact same s _
  · exact movePair s _

theorem Steps.ifAnyRuneLoop : ∀ (rs : List Rune) (s : Scanner), RetE (fun x => Steps s x.2) (s.ifAnyRuneLoop rs)
  | [], s => same s _
  | r :: rs, s => by
    refine (ifRune s r).bind fun x _ h => ?_
    obtain ⟨ok, s'⟩ := x
    cases ok
    · exact (ifAnyRuneLoop rs s').mono fun _ _ h' => h.trans h'
    · exact .ret h

theorem Steps.revSearch (s : Scanner) (c : Bytes × Rune → Bool) : RetE (fun x => Steps s x.2) (s.revSearch c) := by
  refine RetE.trivial.bind fun t _ _ => ?_
  split
  · exact movePair s _
  · exact same s _

theorem Steps.revWhile (s : Scanner) (c : Rune → Bool) : RetE (fun x => Steps s x.2) (s.revWhile c) := by
  refine RetE.trivial.bind fun t _ _ => ?_
  split
  · exact same s _
  · split
    · split
      · exact same s _
      · exact movePair s _
    · exact movePair s _

theorem Steps.moveRunes (s : Scanner) (n : Int) : RetE (fun x => Steps s x.2) (s.moveRunes n) := by
  unfold Scanner.moveRunes
  split
  · refine RetE.trivial.bind fun t _ _ => ?_
    split
    · exact movePair s _
    · exact same s _
  · split
    · refine RetE.trivial.bind fun t _ _ => ?_
      split
      · exact movePair s _
      · exact same s _
    · exact same s _

/-- A result without its value. -/
theorem Steps.forget {α : Type} {s : Scanner} {e : Exec (α × Scanner)} {g : α → Bool} (h : RetE (fun x => Steps s x.2) e) :
    RetE (fun x => Steps s x.2) (e >>= fun x => Exec.ret (g x.1, x.2)) := h.bind fun _ _ h => .ret h

theorem Steps.readBool (s : Scanner) (format : Bytes) : RetE (fun x => Steps s x.2) (s.readBool format) := by
  have two : ∀ {f g : Scanner → Exec (Bool × Scanner)}, (∀ s, RetE (fun x => Steps s x.2) (f s)) → (∀ s, RetE (fun x => Steps s x.2) (g s)) →
      RetE (fun x => Steps s x.2) (do
        let (ok, s) ← f s
        if ok then pure ((true, none), s)
        else do
          let (ok, s) ← g s
          if ok then pure ((false, none), s) else pure ((false, some (s.errorFor b!"bool")), s)) := by
    intro f g hf hg
    refine (hf s).bind fun x _ h => ?_
    obtain ⟨ok, s'⟩ := x
    cases ok
    · refine (hg s').bind fun y _ h' => ?_
      obtain ⟨ok, s''⟩ := y
      cases ok
      · exact .ret (h.trans h')
      · exact .ret (h.trans h')
    · exact .ret h
  unfold Scanner.readBool
  split
  · exact two (fun s => ifAny _ s) (fun s => ifAny _ s)
  · simp only
    split
    · exact .ret (.refl s)
    · exact two (fun s => ifStr s _) (fun s => ifStr s _)

theorem Steps.readInt (s : Scanner) (base bits : Int) : RetE (fun x => Steps s x.2) (s.readInt base bits) := by
  unfold Scanner.readInt
  split
  · exact .ret (.refl s)
  · split
    · exact .ret (.refl s)
    · refine (ifRune s 45).bind fun x _ h => ?_
      obtain ⟨minus, s1⟩ := x
      have h2 : RetE (fun x => Steps s x.2) (if minus = true then pure (true, s1) else s1.ifRune 43) := by
        cases minus
        · exact (ifRune s1 43).mono fun _ _ h' => h.trans h'
        · exact .ret h
      cases minus
      all_goals
        refine RetE.bind h2 fun y _ h => ?_
        obtain ⟨_, s2⟩ := y
        refine RetE.trivial.bind fun t _ _ => ?_
        simp only
        split
        · exact .ret (h.trans (toMarker s2 _))
        · exact .ret (h.trans (move s2 _))

theorem Steps.readUint (s : Scanner) (base bits : Int) : RetE (fun x => Steps s x.2) (s.readUint base bits) := by
  unfold Scanner.readUint
  split
  · exact .ret (.refl s)
  · split
    · exact .ret (.refl s)
    · refine RetE.trivial.bind fun t _ _ => ?_
      simp only
      split
      · exact .ret (.refl s)
      · exact .ret (move s _)

/-- Calls that do not exchange the tracker. -/
def Op.keeps : Op → Prop
  | .setTracker _ => False
  | _ => True

/-- Every method changes the scanner by moving alone. -/
theorem Op.steps (rt : Rt) (op : Op) (hk : op.keeps) (s : Scanner) : RetE (fun x => Steps s x.2) (op.exec rt s) := by
  cases op with
  | setTracker t => exact hk.elim
  | ifStr str => exact Steps.ifStr s str
  | ifAny strs => exact Steps.ifAny strs s
  | revIf str => exact Steps.revIf s str
  | revIfAny strs => exact Steps.revIfAny strs s
  | ifRune r => exact Steps.ifRune s r
  | ifAnyRune str => exact Steps.ifAnyRuneLoop _ s
  | revTo str => exact Steps.revSearch s _
  | revToRune r => exact Steps.revSearch s _
  | revToAnyRune str => exact Steps.revSearch s _
  | revToBetween mn mx => exact Steps.revSearch s _
  | revToMatch f => exact Steps.revSearch s _
  | revWhileRune r => exact Steps.revWhile s (fun v => v == r)
  | revWhileAnyRune r => exact Steps.revWhile s _
  | revWhileBetween mn mx => exact Steps.revWhile s (fun v => Scanner.inRange mn v mx)
  | revWhileMatch r => exact Steps.revWhile s _
  | moveRunes n => exact Steps.moveRunes s n
  | move n => exact Steps.movePair s n
  | toMarker m => exact .ret (Steps.toMarker s m)
  | toEnd => exact .ret (Steps.toMarker s _)
  | toStart => exact .ret (Steps.toMarker s _)
  | readBool format => exact (Steps.readBool s format).bind fun _ _ h => .ret h
  | readInt base bits => exact (Steps.readInt s base bits).bind fun _ _ h => .ret h
  | readUint base bits => exact (Steps.readUint s base bits).bind fun _ _ h => .ret h
  | scanString n =>
    refine RetE.bind (P := fun x => Steps s x.2) ?_ fun _ _ h => .ret h
    refine RetE.trivial.bind fun t _ _ => ?_
    simp only
    split
    · exact .ret (Steps.move s _)
    · exact .ret (.refl s)
  | readRune =>
    refine RetE.bind (P := fun x => Steps s x.2) ?_ fun _ _ h => .ret h
    refine RetE.trivial.bind fun t _ _ => ?_
    simp only
    split
    · exact .ret (.refl s)
    · exact .ret (Steps.move s _)
  | revReadRune =>
    refine RetE.bind (P := fun x => Steps s x.2) ?_ fun _ _ h => .ret h
    refine RetE.trivial.bind fun t _ _ => ?_
    simp only
    split
    · exact .ret (.refl s)
    · exact .ret (Steps.move s _)
  | revToFold str =>
    refine RetE.trivial.bind fun t _ _ => ?_
    refine RetE.trivial.bind fun t _ _ => ?_
    split
    · exact Steps.movePair s _
    · exact Steps.same s _
  | atEnd => exact Steps.same s _
  | atStart => exact Steps.same s _
  | mark => exact Steps.same s _
  | errorFor n => exact Steps.same s _
  | segmentate n => exact Steps.same s _
  | _ =>
    refine RetE.trivial.bind fun t _ _ => ?_
    try simp only
    repeat' split
    all_goals first
      | exact Steps.movePair s _
      | exact Steps.same s _
      | exact .panic
      | exact .ret (Steps.toMarker s _)

/-- Client programs that do not exchange the tracker. -/
def Prog.keeps : Prog → Prop
  | .done _ => True
  | .call op k => op.keeps ∧ ∀ b s, (k b s).keeps
  | .scope body k => body.keeps ∧ ∀ b s, (k b s).keeps
  | .trace body k => body.keeps ∧ ∀ b s, (k b s).keeps
  | .tokenize body k => body.keeps ∧ ∀ b s, (k b s).keeps
  | .capture body k => body.keeps ∧ ∀ b s, (k b s).keeps
  | .while_ body k => body.keeps ∧ ∀ b s, (k b s).keeps

theorem Steps.whileLoop {f : Scanner.ScopeFunc} (hf : ∀ s, RetE (fun x => Steps s x.2) (f s)) : ∀ n s, RetE (fun x => Steps s x) (Scanner.whileLoop f n s)
  | 0, _ => .timeout
  | n + 1, s => by
    refine (hf s).bind fun x _ h => ?_
    obtain ⟨b, s'⟩ := x
    cases b
    · exact .ret h
    · exact (whileLoop hf n s').mono fun _ _ h' => h.trans h'

theorem Prog.steps (rt : Rt) (fuel : Nat) : ∀ (p : Prog), p.keeps → ∀ s, RetE (fun x => Steps s x.2) (p.run rt fuel s)
  | .done b, _, s => Steps.same s b
  | .call op k, h, s => (op.steps rt h.1 s).bind fun x _ h1 => ((k x.1 x.2).steps rt fuel (h.2 _ _) x.2).mono fun _ _ h2 => h1.trans h2
  | .scope body k, h, s => by
    refine RetE.bind (P := fun x => Steps s x.2) ?_ fun x _ h1 => ((k x.1 x.2).steps rt fuel (h.2 _ _) x.2).mono fun _ _ h2 => h1.trans h2
    refine (body.steps rt fuel h.1 s).bind fun x _ h1 => ?_
    obtain ⟨b, s'⟩ := x
    cases b
    · exact .ret (h1.trans (Steps.toMarker s' _))
    · exact .ret h1
  | .trace body k, h, s => by
    refine RetE.bind (P := fun x => Steps s x.2) ?_ fun x _ h1 => ((k x.1.2 x.2).steps rt fuel (h.2 _ _) x.2).mono fun _ _ h2 => h1.trans h2
    refine (body.steps rt fuel h.1 s).bind fun x _ h1 => ?_
    obtain ⟨b, s'⟩ := x
    refine RetE.trivial.bind fun t _ _ => ?_
    cases b
    · exact .ret (h1.trans (Steps.toMarker s' _))
    · exact .ret h1
  | .tokenize body k, h, s => by
    refine RetE.bind (P := fun x => Steps s x.2) ?_ fun x _ h1 => ((k x.1.2 x.2).steps rt fuel (h.2 _ _) x.2).mono fun _ _ h2 => h1.trans h2
    refine (body.steps rt fuel h.1 s).bind fun x _ h1 => ?_
    obtain ⟨b, s'⟩ := x
    cases b
    · exact .ret (h1.trans (Steps.toMarker s' _))
    · exact .ret h1
  | .capture body k, h, s => by
    refine RetE.bind (P := fun x => Steps s x.2) ?_ fun x _ h1 => ((k x.1.2 x.2).steps rt fuel (h.2 _ _) x.2).mono fun _ _ h2 => h1.trans h2
    refine RetE.bind (P := fun x => Steps s x.2) ?_ fun x _ h1 => ?_
    · refine (body.steps rt fuel h.1 s).bind fun x _ h1 => ?_
      obtain ⟨b, s'⟩ := x
      cases b
      · exact .ret (h1.trans (Steps.toMarker s' _))
      · exact .ret h1
    · obtain ⟨⟨t, b⟩, s'⟩ := x
      cases b
      · exact .ret h1
      · refine RetE.trivial.bind fun t _ _ => .ret h1
  | .while_ body k, h, s => by
    refine RetE.bind (P := fun x => Steps s x.2) ?_ fun x _ h1 => ((k x.1 x.2).steps rt fuel (h.2 _ _) x.2).mono fun _ _ h2 => h1.trans h2
    exact (Steps.whileLoop (body.steps rt fuel h.1) fuel s).bind fun x _ h1 => .ret h1

/-- What the trackers are told between two states of a scanner: its own tracker the positions `ps`, the others nothing; the last of
them is where the scanner is, and without any it has not moved. -/
def Informed (s s' : Scanner) (ps : List Int) : Prop :=
  s'.tracker = s.tracker ∧ s'.pos = ps.getLast?.getD s.pos ∧
    ∀ id, s'.heap.tracks id = s.heap.tracks id ++ (if s.tracker = some (.custom id) then ps else [])

theorem Informed.refl (s : Scanner) : Informed s s [] := ⟨rfl, rfl, fun id => by simp⟩

theorem Informed.trans {s s' s'' : Scanner} {ps qs : List Int} (h : Informed s s' ps) (h' : Informed s' s'' qs) : Informed s s'' (ps ++ qs) := by
  refine ⟨h'.1.trans h.1, ?_, fun id => ?_⟩
  · rw [h'.2.1, h.2.1]
    cases qs.eq_nil_or_concat with
    | inl e => subst e; simp
    | inr e => obtain ⟨qs, q, rfl⟩ := e; simp
  · rw [h'.2.2, h.2.2, h.1]
    split <;> simp

theorem Informed.at (s : Scanner) (m : Int) : Informed s (s.at m) [m] := by
  refine ⟨notify_tracker _, notify_pos _, fun id => ?_⟩
  unfold Scanner.at Scanner.notify
  simp only
  split
  · next h => simp [h]
  · next h => simp [h]
  · next k h =>
    simp only [h, Option.some.injEq, TrackerRef.custom.injEq]
    by_cases e : id = k
    · subst e; simp [upd]
    · simp [upd, e, Ne.symm e]

theorem Steps.informed {s s' : Scanner} (h : Steps s s') : ∃ ps, Informed s s' ps ∧ s'.full = s.full := by
  induction h with
  | refl => exact ⟨[], .refl s, rfl⟩
  | step m _ ih =>
    obtain ⟨ps, h1, h2⟩ := ih
    exact ⟨ps ++ [m], h1.trans (.at _ m), (notify_full _).trans h2⟩

/-- Whatever a client program does with a scanner, its tracker is told all along where the scanner goes, and the other trackers nothing. -/
theorem C66_program (rt : Rt) (fuel : Nat) (p : Prog) (hp : p.keeps) (s s' : Scanner) (b : Bool) (h : p.run rt fuel s = .ret (b, s')) :
    ∃ ps, Informed s s' ps :=
  let ⟨ps, h, _⟩ := (p.steps rt fuel hp s _ h).informed
  ⟨ps, h⟩

example (rt : Rt) : ∃ s', (Prog.scope (.call (.ifRune 97) fun _ _ => .call (.ifRune 97) fun b _ => .done b) fun b _ => .done b).run rt 9
    ⟨b!"ab", 0, some (.custom 7), Heap.empty⟩ = .ret (false, s') ∧ s'.heap.tracks 7 = [1, 0] := ⟨_, rfl, rfl⟩

/-! ### readers -/

theorem informed_same {s s' s'' : Scanner} {ps : List Int} (h : Informed s s' ps) (h1 : s''.tracker = s'.tracker) (h2 : s''.pos = s'.pos)
    (h3 : s''.heap.tracks = s'.heap.tracks) : Informed s s'' ps := ⟨h1.trans h.1, h2.trans h.2.1, fun id => by rw [h3]; exact h.2.2 id⟩

def Reported (s s' : Scanner) : Prop := Forward s s' ∧ ∃ ps, Informed s s' ps ∧ ∀ p ∈ ps, s.pos ≤ p ∧ p ≤ (s.full.length : Int)

/-- If the reader is a `Wrap`, its function goes ahead only and reports where it goes. -/
def Reader.reports (r : Reader) : Prop := ∀ w f, r = .wrap w f → ∀ s x, Inside s → f s = .ret x → Reported s x.2

theorem Reader.reports_of_noWrap {r : Reader} (h : r.noWrap = true) : r.reports := by
  rintro w f rfl
  cases h

theorem reported_frame (rt : Rt) (G : Env) : Frame rt G Reader.reports Inside Reported where
  inside h := h
  fwd _ h := h.1
  inv _ h := h.1.1
  refl h := ⟨Forward.refl h, [], .refl _, by simp⟩
  trans _ h h' := by
    obtain ⟨f1, ps, h1, h2⟩ := h
    obtain ⟨f2, qs, h3, h4⟩ := h'
    refine ⟨f1.trans f2, ps ++ qs, h1.trans h3, fun p hp => ?_⟩
    rcases List.mem_append.mp hp with hp | hp
    · exact h2 p hp
    · have := h4 p hp
      have := f1.2.2
      rw [f1.2.1] at *
      omega
  go h h1 h2 := ⟨forward_go h h1 h2, [_], .at _ _, by simpa using ⟨h1, h2⟩⟩
  back h h' := by
    obtain ⟨f1, ps, h1, h2⟩ := h'
    refine ⟨forward_at h f1, ps ++ [_], h1.trans (.at _ _), fun p hp => ?_⟩
    rcases List.mem_append.mp hp with hp | hp
    · exact h2 p hp
    · simp only [List.mem_cons, List.not_mem_nil, or_false] at hp
      subst hp
      exact ⟨Int.le_refl _, h.2⟩
  cells _ _ _ _ h := h
  janus _ _ _ _ h := h
  pick _ _ _ h := h
  map _ _ h := h
  enter _ h := h
  leave _ _ _ h := h
  wrap hp hs := fun _ h => hp _ _ rfl _ _ hs h
  body _ h h' _ h2 h3 := by
    obtain ⟨f1, ps, h1, h4⟩ := h'
    obtain ⟨_, qs, h5, _⟩ := h3 (new_inside _ _)
    have e : ∀ id, _ = _ := h5.2.2
    have e' := funext e
    simp only [Scanner.new, reduceCtorEq, if_false, List.append_nil] at e'
    refine ⟨⟨f1, ps, informed_same h1 rfl rfl e', h4⟩, fun _ => ⟨f1, ps, informed_same h1 rfl rfl ?_, h4⟩⟩
    show (Scanner.at _ 0).heap.tracks = _
    unfold Scanner.at Scanner.notify
    simp only [h5.1, Scanner.new]
    exact e'

/-- Whatever a reader does, the tracker of the scanner is told all along where the scanner goes, and it never goes outside the part of the text
from where the read began, if the functions of `Wrap` keep to this. -/
theorem C66_reader (rt : Rt) (G : Env) (hG : G.Every Reader.reports) (n : Nat) (r : Reader) (hr : r.Every Reader.reports) (s s' : Scanner) (hs : Inside s)
    (e : Option Err) (h : read rt G n r s = .ret (e, s')) :
    ∃ ps, Informed s s' ps ∧ ∀ p ∈ ps, s.pos ≤ p ∧ p ≤ (s.full.length : Int) :=
  ((reported_frame rt G).read (fun _ _ _ _ hi => hG.get hi) n r hr s hs _ h).2

/-- In particular without `Wrap`. -/
theorem C66_plain (rt : Rt) (G : Env) (hG : G.Every (fun r => r.noWrap = true)) (n : Nat) (r : Reader) (hr : r.Every (fun r => r.noWrap = true))
    (s s' : Scanner) (hs : Inside s) (e : Option Err) (h : read rt G n r s = .ret (e, s')) :
    ∃ ps, Informed s s' ps ∧ ∀ p ∈ ps, s.pos ≤ p ∧ p ≤ (s.full.length : Int) :=
  C66_reader rt G (fun rl hrl c hc => (hG rl hrl c hc).imp fun _ => Reader.reports_of_noWrap) n r (hr.imp fun _ => Reader.reports_of_noWrap) s s' hs e h

/-- A function that does what a reader does keeps to this as well. -/
theorem C66_function (rt : Rt) (G : Env) (hG : G.Every Reader.reports) (r : Reader) (hr : r.Every Reader.reports) (w : Bytes) (f : ReadFunc)
    (hf : ∀ s x, f s = .ret x → ∃ n, read rt G n r s = .ret x) : (Reader.wrap w f).reports := by
  rintro w' f' h s x hs hx
  cases h
  obtain ⟨n, hn⟩ := hf s x hx
  exact (reported_frame rt G).read (fun _ _ _ _ hi => hG.get hi) n r hr s hs _ hn

/-- `Wrap("hush", func(s *Scanner) error { s.SetTracker(nil); return nil })`: a function that takes the tracker away. -/
def dropTracker : ReadFunc := fun s => .ret (none, { s with tracker := none })

/-- The condition on the functions is needed: behind a function that takes the tracker away nothing is told. -/
theorem C66_wrap_violated (rt : Rt) : ∃ s', read rt [] 9 (.seq [.wrap b!"hush" dropTracker, .rune 97]) ⟨b!"ab", 0, some (.custom 7), Heap.empty⟩ = .ret (none, s') ∧
    s'.pos = 1 ∧ s'.heap.tracks 7 = [] ∧ ∀ ps, ¬ Informed ⟨b!"ab", 0, some (.custom 7), Heap.empty⟩ s' ps :=
  ⟨_, rfl, rfl, rfl, fun _ h => by cases h.1⟩

/-- A function of a client that reads a sign, with the tracker told. -/
example (rt : Rt) : ∃ s', read rt [] 9 (.seq [.wrap b!"sign" fun s => do let (_, s) ← s.ifAnyRune b!"+-"; pure (none, s), .rune 97])
    ⟨b!"-ab", 0, some (.custom 7), Heap.empty⟩ = .ret (none, s') ∧ s'.heap.tracks 7 = [1, 2] := ⟨_, rfl, rfl⟩

/-- A sequence that fails at its second part goes ahead and back. -/
example (rt : Rt) : ∃ e s', read rt [] 9 (.seq [.rune 97, .rune 99]) ⟨b!"ab", 0, some (.custom 7), Heap.empty⟩ = .ret (some e, s') ∧ s'.heap.tracks 7 = [1, 0] :=
  ⟨_, _, rfl, rfl⟩

end Tok
