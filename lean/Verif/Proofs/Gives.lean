/-
A calculus of reads: what a reader does, given what its parts do.  A `View` shows of a
scanner the text before and behind the position, the Janus strings and the calls of map functions.
-/
import Verif.Proofs.Frame
import Verif.Proofs.Place
import Verif.Proofs.PegLeaf
import Verif.Proofs.EatMono
import Verif.Props.C34

namespace Tok
open Spec

/-- What is seen of a scanner. -/
structure View where
  head : Bytes
  rest : Bytes
  jan : Nat → Bytes
  maps : List (Nat × Token)

/-- The view of a scanner. -/
def Views (s : Scanner) (v : View) : Prop := Between s v.head v.rest ∧ s.heap.janus = v.jan ∧ s.heap.maps = v.maps

/-- The position of `a` with the memory of `b`. -/
def View.back (a b : View) : View := ⟨a.head, a.rest, b.jan, b.maps⟩

/-- With a large enough budget every read from `a` ends in `b`, successful or not. -/
def Gives (rt : Rt) (G : Env) (r : Reader) (a : View) (ok : Bool) (b : View) : Prop :=
  b.head ++ b.rest = a.head ++ a.rest ∧
  ∃ n, ∀ s, Views s a → ∃ e s', read rt G n r s = .ret (e, s') ∧ e.isNone = ok ∧ Views s' b

/-- The same for a loop over readers. -/
def GivesSeq (rt : Rt) (G : Env) (rs : List Reader) (a : View) (ok : Bool) (b : View) : Prop :=
  b.head ++ b.rest = a.head ++ a.rest ∧
  ∃ n, ∀ s, Views s a → ∃ e s', seqLoop (read rt G n) rs s = .ret (e, s') ∧ e.isNone = ok ∧ Views s' b

def GivesAny (rt : Rt) (G : Env) (rs : List Reader) (a : View) (ok : Bool) (b : View) : Prop :=
  b.head ++ b.rest = a.head ++ a.rest ∧
  ∃ n, ∀ s, Views s a → ∀ errs, ∃ e s', anyLoop (read rt G n) rs errs s = .ret (e, s') ∧ e.isNone = ok ∧ Views s' b

/-- The loop of `Body` and `BodyTail` started behind `h0`. -/
def GivesBody (rt : Rt) (G : Env) (bd tl : Reader) (h0 : Bytes) (a : View) (res : Option Bytes) (b : View) : Prop :=
  b.head ++ b.rest = a.head ++ a.rest ∧
  ∃ n, ∀ s, Views s a → ∃ s', bodyLoop (read rt G n bd) (read rt G n tl) h0.length n s = .ret (res.map fun x => (x.length : Int), s') ∧ Views s' b

theorem notify_maps (s : Scanner) : s.notify.heap.maps = s.heap.maps := by
  unfold Scanner.notify
  split <;> rfl

theorem Views.at {s : Scanner} {v : View} (h : Views s v) {h' t' : Bytes} (he : h' ++ t' = v.head ++ v.rest) :
    Views (s.at h'.length) ⟨h', t', v.jan, v.maps⟩ :=
  ⟨⟨by rw [Scanner.at, notify_full]; exact h.1.1.trans he.symm, by rw [Scanner.at, notify_pos]⟩,
    by rw [Scanner.at, notify_janus]; exact h.2.1, by rw [Scanner.at, notify_maps]; exact h.2.2⟩

theorem Views.back {s s' : Scanner} {a b : View} (h : Views s a) (h' : Views s' b) (he : b.head ++ b.rest = a.head ++ a.rest) :
    Views (s'.toMarker s.mark).2 (a.back b) := by
  have hp : s.mark = (a.head.length : Int) := h.1.2
  rw [hp, toMarker_at (by omega)]
  exact h'.at he.symm

/-! ### readers without parts -/

theorem maps_frame (rt : Rt) (G : Env) : Frame rt G (fun r => r.leaf = true) Inside
    (fun s s' => Forward s s' ∧ s'.heap.maps = s.heap.maps) where
  inside h := h
  fwd _ h := h.1
  inv _ h := h.1.1
  refl h := ⟨⟨h, rfl, by omega⟩, rfl⟩
  trans _ h h' := ⟨⟨h'.1.1, h'.1.2.1.trans h.1.2.1, by have := h.1.2.2; have := h'.1.2.2; omega⟩, h'.2.trans h.2⟩
  go := by
    intro s m hs h1 h2
    refine ⟨⟨⟨?_, ?_⟩, notify_full _, ?_⟩, notify_maps _⟩ <;> simp only [Scanner.at, notify_pos, notify_full]
    · have := hs.1; omega
    · exact h2
    · exact h1
  back := by
    intro s s' hs h
    refine ⟨⟨⟨?_, ?_⟩, ?_, ?_⟩, (notify_maps _).trans h.2⟩ <;> simp only [Scanner.at, notify_pos, notify_full]
    · exact hs.1
    · rw [h.1.2.1]; exact hs.2
    · exact h.1.2.1
    · omega
  cells _ _ _ _ h := h
  janus _ _ _ _ h := h
  pick h := by cases h
  map h := by cases h
  enter h := by cases h
  leave h := by cases h
  wrap h := by cases h
  body h := by rcases h with h | h <;> cases h

theorem Reader.leaf_every {r : Reader} (h : r.leaf = true) : r.Every (fun r => r.leaf = true) := by
  cases r <;> first | (simp [Reader.leaf] at h; done) | exact .mk rfl (fun _ h => by cases h)

/-- A reader without parts does what `eat` does. -/
theorem Gives.leaf {rt : Rt} {G : Env} {r : Reader} (hr : r.leaf = true) {h x t : Bytes} {j j' : Nat → Bytes} {M : List (Nat × Token)} {ok : Bool}
    (he : eat rt G 1 r ⟨x ++ t, j⟩ = .ret (ok, ⟨t, j'⟩)) : Gives rt G r ⟨h, x ++ t, j, M⟩ ok ⟨h ++ x, t, j', M⟩ := by
  refine ⟨by simp, 1, fun s hs => ?_⟩
  obtain ⟨hb, rfl, rfl⟩ := hs
  obtain ⟨⟨e, s'⟩, h3, h4, h5⟩ := (leaf_eat rt G 0 hr s.full s _ (sees_between hb)).right he
  obtain ⟨x', hx, hb'⟩ := between_sees hb h5 (List.suffix_append _ _)
  have hx : x = x' := List.append_cancel_right hx
  subst hx
  have hm := (maps_frame rt G).read (fun _ _ _ h => by cases h) 1 r (Reader.leaf_every hr) s hb.inside _ h3
  exact ⟨e, s', h3, h4, hb', h5.2.2, hm.2⟩

/-- A reader without parts that fails stays. -/
theorem Gives.leaf_no {rt : Rt} {G : Env} {r : Reader} (hr : r.leaf = true) {h t : Bytes} {j : Nat → Bytes} {M : List (Nat × Token)}
    (he : eat rt G 1 r ⟨t, j⟩ = .ret (false, ⟨t, j⟩)) : Gives rt G r ⟨h, t, j, M⟩ false ⟨h, t, j, M⟩ := by
  have := Gives.leaf (rt := rt) (G := G) hr (h := h) (x := []) (t := t) (j := j) (j' := j) (M := M) (ok := false) he
  simpa using this

variable {rt : Rt} {G : Env}

theorem Gives.lit {x h t : Bytes} {j : Nat → Bytes} {M : List (Nat × Token)} : Gives rt G (.lit x) ⟨h, x ++ t, j, M⟩ true ⟨h ++ x, t, j, M⟩ :=
  .leaf rfl (by simp [eat, lift, eatLit, hasPrefix])

theorem Gives.lit_no {x h t : Bytes} {j : Nat → Bytes} {M : List (Nat × Token)} (hn : ¬ x <+: t) : Gives rt G (.lit x) ⟨h, t, j, M⟩ false ⟨h, t, j, M⟩ :=
  .leaf_no rfl (by
    have : hasPrefix t x = false := by rw [Bool.eq_false_iff]; intro hp; exact hn (by simpa [hasPrefix] using hp)
    simp [eat, lift, eatLit, this])

theorem Gives.rune {c : Char} {h t : Bytes} {j : Nat → Bytes} {M : List (Nat × Token)} :
    Gives rt G (.rune c.toNat) ⟨h, enc c ++ t, j, M⟩ true ⟨h ++ enc c, t, j, M⟩ :=
  .leaf rfl (by simp [eat, lift, eatOne, decodeRune_enc])

theorem Gives.rune_no {c d : Char} (hn : d ≠ c) {h t : Bytes} {j : Nat → Bytes} {M : List (Nat × Token)} :
    Gives rt G (.rune c.toNat) ⟨h, enc d ++ t, j, M⟩ false ⟨h, enc d ++ t, j, M⟩ :=
  .leaf_no rfl (by
    have : ((d.toNat : Int) == (c.toNat : Int)) = false := by
      rw [beq_eq_false_iff_ne]; intro h
      exact hn (Char.toNat_inj.mp (by omega))
    simp [eat, lift, eatOne, decodeRune_enc, this])

theorem Gives.atEnd {h : Bytes} {j : Nat → Bytes} {M : List (Nat × Token)} : Gives rt G .atEnd ⟨h, [], j, M⟩ true ⟨h, [], j, M⟩ := by
  have := Gives.leaf (rt := rt) (G := G) (r := .atEnd) rfl (h := h) (x := []) (t := []) (j := j) (j' := j) (M := M) (ok := true) rfl
  simpa using this

theorem Gives.atEnd_no {h t : Bytes} (ht : t ≠ []) {j : Nat → Bytes} {M : List (Nat × Token)} : Gives rt G .atEnd ⟨h, t, j, M⟩ false ⟨h, t, j, M⟩ :=
  .leaf_no rfl (by cases t with
    | nil => exact absurd rfl ht
    | cons a t => rfl)

theorem Gives.between {lo hi : Int} {c : Char} (h1 : lo ≤ c.toNat) (h2 : (c.toNat : Int) ≤ hi) {h t : Bytes} {j : Nat → Bytes} {M : List (Nat × Token)} :
    Gives rt G (.between lo hi) ⟨h, enc c ++ t, j, M⟩ true ⟨h ++ enc c, t, j, M⟩ :=
  .leaf rfl (by simp [eat, lift, eatBetween, eatOne, decodeRune_enc, enc_ne_nil, Scanner.inRange, h1, h2])

theorem Gives.between_no {lo hi : Int} {c : Char} (h1 : (c.toNat : Int) < lo ∨ hi < (c.toNat : Int)) {h t : Bytes} {j : Nat → Bytes} {M : List (Nat × Token)} :
    Gives rt G (.between lo hi) ⟨h, enc c ++ t, j, M⟩ false ⟨h, enc c ++ t, j, M⟩ :=
  .leaf_no rfl (by
    have : Scanner.inRange lo c.toNat hi = false := by
      simp only [Scanner.inRange, Bool.and_eq_false_iff, decide_eq_false_iff_not]; omega
    simp [eat, lift, eatBetween, eatOne, decodeRune_enc, enc_ne_nil, this])

theorem Gives.between_end {lo hi : Int} {h : Bytes} {j : Nat → Bytes} {M : List (Nat × Token)} :
    Gives rt G (.between lo hi) ⟨h, [], j, M⟩ false ⟨h, [], j, M⟩ := .leaf_no rfl rfl

theorem Gives.janusEnd {id : Nat} {nm h x t : Bytes} {j : Nat → Bytes} {M : List (Nat × Token)} (hj : j id = x) :
    Gives rt G (.janusEnd id nm) ⟨h, x ++ t, j, M⟩ true ⟨h ++ x, t, upd j id [], M⟩ := by
  subst hj
  exact .leaf rfl (by simp [eat, hasPrefix])

theorem Gives.janusEnd_no {id : Nat} {nm h t : Bytes} {j : Nat → Bytes} {M : List (Nat × Token)} (hn : ¬ j id <+: t) :
    Gives rt G (.janusEnd id nm) ⟨h, t, j, M⟩ false ⟨h, t, j, M⟩ :=
  .leaf_no rfl (by
    have : hasPrefix t (j id) = false := by rw [Bool.eq_false_iff]; intro hp; exact hn (by simpa [hasPrefix] using hp)
    simp [eat, this])

/-! ### one rune forward -/

theorem Views.step (rt : Rt) {s : Scanner} {h t : Bytes} {c : Char} {j : Nat → Bytes} {M : List (Nat × Token)} (hv : Views s ⟨h, enc c ++ t, j, M⟩) :
    ∃ s', s.moveRunes 1 = .ret (true, s') ∧ Views s' ⟨h ++ enc c, t, j, M⟩ := by
  obtain ⟨hb, rfl, rfl⟩ := hv
  obtain ⟨⟨ok, s'⟩, h1, h2, h3⟩ := (moveRunes_sim (sees_between hb)).right rfl
  rw [eatStep_char] at h2 h3
  obtain ⟨x', hx, hb'⟩ := between_sees hb h3 (List.suffix_append _ _)
  have hx : enc c = x' := List.append_cancel_right hx
  subst hx
  simp only at h2
  subst h2
  exact ⟨s', h1, hb', h3.2.2, ((maps_frame rt []).moveRunes hb.inside _ h1).2⟩

theorem Views.step_end (rt : Rt) {s : Scanner} {h : Bytes} {j : Nat → Bytes} {M : List (Nat × Token)} (hv : Views s ⟨h, [], j, M⟩) :
    ∃ s', s.moveRunes 1 = .ret (false, s') ∧ Views s' ⟨h, [], j, M⟩ := by
  obtain ⟨hb, rfl, rfl⟩ := hv
  obtain ⟨⟨ok, s'⟩, h1, h2, h3⟩ := (moveRunes_sim (sees_between hb)).right rfl
  rw [eatStep_nil] at h2 h3
  obtain ⟨x', hx, hb'⟩ := between_sees hb h3 (List.suffix_refl _)
  have hx : x' = [] := by simpa using hx.symm
  subst hx
  simp only at h2
  subst h2
  exact ⟨s', h1, by simpa using hb', h3.2.2, ((maps_frame rt []).moveRunes hb.inside _ h1).2⟩

/-! ### sequences and alternatives -/

variable {r : Reader} {rs : List Reader} {a b c d : View} {ok : Bool}

theorem GivesSeq.nil : GivesSeq rt G [] a true a := ⟨rfl, 0, fun s hs => ⟨none, s, rfl, rfl, hs⟩⟩

theorem GivesSeq.cons (h : Gives rt G r a true b) (h' : GivesSeq rt G rs b ok c) : GivesSeq rt G (r :: rs) a ok c := by
  obtain ⟨t1, n1, h1⟩ := h
  obtain ⟨t2, n2, h2⟩ := h'
  refine ⟨t2.trans t1, max n1 n2, fun s hs => ?_⟩
  obtain ⟨e, s1, r1, e1, v1⟩ := h1 s hs
  obtain ⟨e', s2, r2, e2, v2⟩ := h2 s1 v1
  cases e with
  | some e => cases e1
  | none =>
    refine ⟨e', s2, ?_, e2, v2⟩
    simp only [seqLoop, read_mono (Nat.le_max_left n1 n2) r1, Exec.bind_ret]
    exact (seqLoop_le (fun r s => read_le rt G n2 _ (Nat.le_max_right n1 n2) r s) rs s1).ret r2

theorem GivesSeq.fail (h : Gives rt G r a false b) : GivesSeq rt G (r :: rs) a false b := by
  obtain ⟨t1, n1, h1⟩ := h
  refine ⟨t1, n1, fun s hs => ?_⟩
  obtain ⟨e, s1, r1, e1, v1⟩ := h1 s hs
  cases e with
  | none => cases e1
  | some e => exact ⟨some e, s1, by simp [seqLoop, r1], rfl, v1⟩

theorem Gives.seq (h : GivesSeq rt G rs a true b) : Gives rt G (.seq rs) a true b := by
  obtain ⟨t1, n, h1⟩ := h
  refine ⟨t1, n + 1, fun s hs => ?_⟩
  obtain ⟨e, s1, r1, e1, v1⟩ := h1 s hs
  cases e with
  | some e => cases e1
  | none => exact ⟨none, s1, by simp [read, r1], rfl, v1⟩

theorem Gives.seq_no (h : GivesSeq rt G rs a false b) : Gives rt G (.seq rs) a false (a.back b) := by
  obtain ⟨t1, n, h1⟩ := h
  refine ⟨rfl, n + 1, fun s hs => ?_⟩
  obtain ⟨e, s1, r1, e1, v1⟩ := h1 s hs
  cases e with
  | none => cases e1
  | some e => exact ⟨some e, (s1.toMarker s.mark).2, by simp [read, r1], rfl, hs.back v1 t1⟩

theorem GivesAny.nil : GivesAny rt G [] a false a := ⟨rfl, 0, fun s hs errs => ⟨some errs, s, rfl, rfl, hs⟩⟩

theorem GivesAny.hit (h : Gives rt G r a true b) : GivesAny rt G (r :: rs) a true b := by
  obtain ⟨t1, n1, h1⟩ := h
  refine ⟨t1, n1, fun s hs errs => ?_⟩
  obtain ⟨e, s1, r1, e1, v1⟩ := h1 s hs
  cases e with
  | some e => cases e1
  | none => exact ⟨none, s1, by simp [anyLoop, r1], rfl, v1⟩

theorem GivesAny.next (h : Gives rt G r a false b) (h' : GivesAny rt G rs b ok c) : GivesAny rt G (r :: rs) a ok c := by
  obtain ⟨t1, n1, h1⟩ := h
  obtain ⟨t2, n2, h2⟩ := h'
  refine ⟨t2.trans t1, max n1 n2, fun s hs errs => ?_⟩
  obtain ⟨e, s1, r1, e1, v1⟩ := h1 s hs
  cases e with
  | none => cases e1
  | some e =>
    obtain ⟨e', s2, r2, e2, v2⟩ := h2 s1 v1 (errs ++ [e])
    refine ⟨e', s2, ?_, e2, v2⟩
    simp only [anyLoop, read_mono (Nat.le_max_left n1 n2) r1, Exec.bind_ret]
    exact (anyLoop_le (fun r s => read_le rt G n2 _ (Nat.le_max_right n1 n2) r s) rs _ s1).ret r2

theorem Gives.any (h : GivesAny rt G rs a true b) : Gives rt G (.any rs) a true b := by
  obtain ⟨t1, n, h1⟩ := h
  refine ⟨t1, n + 1, fun s hs => ?_⟩
  obtain ⟨e, s1, r1, e1, v1⟩ := h1 s hs []
  cases e with
  | some e => cases e1
  | none => exact ⟨none, s1, by simp [read, r1], rfl, v1⟩

theorem Gives.any_no (h : GivesAny rt G rs a false b) : Gives rt G (.any rs) a false (a.back b) := by
  obtain ⟨t1, n, h1⟩ := h
  refine ⟨rfl, n + 1, fun s hs => ?_⟩
  obtain ⟨e, s1, r1, e1, v1⟩ := h1 s hs []
  cases e with
  | none => cases e1
  | some e => exact ⟨some (getDeepest (0, []) e), (s1.toMarker s.mark).2, by simp [read, r1], rfl, hs.back v1 t1⟩

/-! ### wrappers -/

theorem Gives.named {nm : Bytes} (h : Gives rt G r a ok b) : Gives rt G (.named nm r) a ok b := by
  obtain ⟨t1, n, h1⟩ := h
  exact ⟨t1, n + 1, fun s hs => h1 s hs⟩

theorem Gives.rule {i : Nat} {nm : Bytes} (hi : G[i]? = some ⟨nm, some r⟩) (h : Gives rt G r a ok b) : Gives rt G (.rule i) a ok b := by
  obtain ⟨t1, n, h1⟩ := h
  refine ⟨t1, n + 1, fun s hs => ?_⟩
  obtain ⟨e, s1, r1, e1, v1⟩ := h1 s hs
  exact ⟨e, s1, by simp only [read, hi]; exact r1, e1, v1⟩

theorem Gives.grammar {w : Bytes} (h : Gives rt G r a ok b) : Gives rt G (.grammar w r) a ok b := by
  obtain ⟨t1, n, h1⟩ := h
  refine ⟨t1, n + 1, fun s hs => ?_⟩
  obtain ⟨e, s1, r1, e1, v1⟩ := h1 s hs
  cases e with
  | none => exact ⟨none, s1, by simp [read, r1], e1, v1⟩
  | some e => exact ⟨some (.other (w ++ b!" parse error: " ++ e.text)), s1, by simp [read, r1], e1, v1⟩

theorem Gives.opt (h : Gives rt G r a ok b) : Gives rt G (.opt r) a true b := by
  obtain ⟨t1, n, h1⟩ := h
  refine ⟨t1, n + 1, fun s hs => ?_⟩
  obtain ⟨e, s1, r1, e1, v1⟩ := h1 s hs
  exact ⟨none, s1, by simp [read, r1], rfl, v1⟩

theorem Gives.at_ (h : Gives rt G r a ok b) : Gives rt G (.at_ r) a ok (a.back b) := by
  obtain ⟨t1, n, h1⟩ := h
  refine ⟨rfl, n + 1, fun s hs => ?_⟩
  obtain ⟨e, s1, r1, e1, v1⟩ := h1 s hs
  exact ⟨e, (s1.toMarker s.mark).2, by simp [read, r1], e1, hs.back v1 t1⟩

/-- What `TokenizeUse` does with a successful read. -/
theorem tokenizeUse_gives {n : Nat} {s s' : Scanner} (hr : read rt G n r s = .ret (none, s')) :
    s.tokenizeUse (read rt G n r) = .ret ((makeToken s.pos s'.pos, none), s') := by
  simp [Scanner.tokenizeUse, hr, Scanner.mark]

theorem tokenizeUse_gives_no {n : Nat} {s s' : Scanner} {e : Err} (hr : read rt G n r s = .ret (some e, s')) :
    s.tokenizeUse (read rt G n r) = .ret ((makeToken s.pos (s'.toMarker s.mark).2.pos, some e), (s'.toMarker s.mark).2) := by
  simp [Scanner.tokenizeUse, hr, Scanner.mark]

theorem Gives.map {f : Nat} (h : Gives rt G r a true b) (hl : a.head.length ≤ b.head.length) :
    Gives rt G (.map f r) a true { b with maps := b.maps ++ [(f, ⟨a.head.length, b.head.length⟩)] } := by
  obtain ⟨t1, n, h1⟩ := h
  refine ⟨t1, n + 1, fun s hs => ?_⟩
  obtain ⟨e, s1, r1, e1, v1⟩ := h1 s hs
  cases e with
  | some e => cases e1
  | none =>
    refine ⟨none, s1.addMap f (makeToken s.pos s1.pos), by simp [read, tokenizeUse_gives r1, Scanner.addMap], rfl, v1.1, v1.2.1, ?_⟩
    have h2 := hs.1.2
    have h3 := v1.1.2
    have : makeToken s.pos s1.pos = ⟨a.head.length, b.head.length⟩ := by
      unfold makeToken; rw [if_neg (by omega), h2, h3]
    rw [this]
    simp only [Scanner.addMap, v1.2.2]

theorem Gives.map_no {f : Nat} (h : Gives rt G r a false b) : Gives rt G (.map f r) a false (a.back b) := by
  obtain ⟨t1, n, h1⟩ := h
  refine ⟨rfl, n + 1, fun s hs => ?_⟩
  obtain ⟨e, s1, r1, e1, v1⟩ := h1 s hs
  cases e with
  | none => cases e1
  | some e => exact ⟨some e, (s1.toMarker s.mark).2, by simp [read, tokenizeUse_gives_no r1], rfl, hs.back v1 t1⟩

theorem Gives.janusBegin {id : Nat} {nm x : Bytes} (h : Gives rt G r a true b) (hx : b.head = a.head ++ x) :
    Gives rt G (.janusBegin id nm r) a true { b with jan := upd b.jan id x } := by
  obtain ⟨t1, n, h1⟩ := h
  refine ⟨t1, n + 1, fun s hs => ?_⟩
  obtain ⟨e, s1, r1, e1, v1⟩ := h1 s hs
  cases e with
  | some e => cases e1
  | none =>
    have hrest : a.rest = x ++ b.rest := by
      rw [hx, List.append_assoc] at t1
      exact (List.append_cancel_left t1).symm
    have hg : s1.get (makeToken s.pos s1.pos) = .ret x :=
      get_between (s1 := s) (s2 := s1) (h := a.head) (u := b.rest) (by rw [← hrest]; exact hs.1) (by rw [← hx]; exact v1.1)
        (by rw [v1.1.1, hs.1.1, t1])
    refine ⟨none, { s1 with heap := { s1.heap with janus := upd s1.heap.janus id x } }, by simp [read, tokenizeUse_gives r1, hg], rfl, v1.1, ?_, v1.2.2⟩
    simp [v1.2.1]

theorem Gives.janusBegin_no {id : Nat} {nm : Bytes} (h : Gives rt G r a false b) : Gives rt G (.janusBegin id nm r) a false (a.back b) := by
  obtain ⟨t1, n, h1⟩ := h
  refine ⟨rfl, n + 1, fun s hs => ?_⟩
  obtain ⟨e, s1, r1, e1, v1⟩ := h1 s hs
  cases e with
  | none => cases e1
  | some e => exact ⟨some e, (s1.toMarker s.mark).2, by simp [read, tokenizeUse_gives_no r1], rfl, hs.back v1 t1⟩

/-! ### repetition -/

theorem zom_ret {n : Nat} {s s' : Scanner} (h : zomLoop (read rt G n r) n s = .ret s') : read rt G (n + 1) (.zom r) s = .ret (none, s') := by
  have : read rt G (n + 1) (.zom r) s = (zomLoop (read rt G n r) n s >>= fun s => pure (none, s)) := rfl
  rw [this, h]; rfl

theorem zom_inv {n : Nat} {s s' : Scanner} {e : Option Err} (h : read rt G (n + 1) (.zom r) s = .ret (e, s')) :
    zomLoop (read rt G n r) n s = .ret s' ∧ e = none := by
  have h0 : read rt G (n + 1) (.zom r) s = (zomLoop (read rt G n r) n s >>= fun s => pure (none, s)) := rfl
  rw [h0] at h
  obtain ⟨s1, h1, h2⟩ := Exec.bind_eq_ret.mp h
  cases h2
  exact ⟨h1, rfl⟩

theorem many_ret {n : Nat} {s s' : Scanner} (h : zomLoop (read rt G n r) n s = .ret s') :
    ∃ e, read rt G (n + 1) (.many r) s = .ret (e, s') ∧ e.isNone = decide (s.pos < s'.pos) := by
  have h0 : read rt G (n + 1) (.many r) s = (zomLoop (read rt G n r) n s >>= fun s' =>
    pure (s'.errorIfFalse (decide (s.mark < s'.mark)) ((Reader.many r).what rt G), s')) := rfl
  rw [h0, h]
  refine ⟨_, rfl, ?_⟩
  by_cases hl : s.pos < s'.pos <;> simp [Scanner.errorIfFalse, Scanner.mark, hl]

theorem to_ret {n : Nat} {s s' : Scanner} (h : toLoop (read rt G n r) n s = .ret (true, s')) : read rt G (n + 1) (.to r) s = .ret (none, s') := by
  have h0 : read rt G (n + 1) (.to r) s = (toLoop (read rt G n r) n s >>= fun x => if x.1 then pure (none, x.2) else
    pure (some ((x.2.toMarker s.mark).2.errorFor ((Reader.to r).what rt G)), (x.2.toMarker s.mark).2)) := rfl
  rw [h0, h]; rfl

theorem to_ret_no {n : Nat} {s s' : Scanner} (h : toLoop (read rt G n r) n s = .ret (false, s')) :
    ∃ e, read rt G (n + 1) (.to r) s = .ret (some e, (s'.toMarker s.mark).2) := by
  have h0 : read rt G (n + 1) (.to r) s = (toLoop (read rt G n r) n s >>= fun x => if x.1 then pure (none, x.2) else
    pure (some ((x.2.toMarker s.mark).2.errorFor ((Reader.to r).what rt G)), (x.2.toMarker s.mark).2)) := rfl
  rw [h0, h]; exact ⟨_, rfl⟩

theorem to_inv {n : Nat} {s s' : Scanner} {e : Option Err} (h : read rt G (n + 1) (.to r) s = .ret (e, s')) :
    ∃ s1, toLoop (read rt G n r) n s = .ret (e.isNone, s1) ∧ s' = if e.isNone then s1 else (s1.toMarker s.mark).2 := by
  have h0 : read rt G (n + 1) (.to r) s = (toLoop (read rt G n r) n s >>= fun x => if x.1 then pure (none, x.2) else
    pure (some ((x.2.toMarker s.mark).2.errorFor ((Reader.to r).what rt G)), (x.2.toMarker s.mark).2)) := rfl
  rw [h0] at h
  obtain ⟨⟨ok, s1⟩, h1, h2⟩ := Exec.bind_eq_ret.mp h
  cases ok <;> simp only [Bool.false_eq_true, if_true, if_false, Exec.pure_eq, Exec.ret.injEq, Prod.mk.injEq] at h2 <;> obtain ⟨rfl, rfl⟩ := h2
  · exact ⟨s1, h1, rfl⟩
  · exact ⟨s1, h1, rfl⟩

theorem past_ret {n : Nat} {s s' : Scanner} (h : pastLoop (read rt G n r) n s = .ret (true, s')) : read rt G (n + 1) (.past r) s = .ret (none, s') := by
  have h0 : read rt G (n + 1) (.past r) s = (pastLoop (read rt G n r) n s >>= fun x => if x.1 then pure (none, x.2) else
    pure (some ((x.2.toMarker s.mark).2.errorFor ((Reader.past r).what rt G)), (x.2.toMarker s.mark).2)) := rfl
  rw [h0, h]; rfl

theorem past_ret_no {n : Nat} {s s' : Scanner} (h : pastLoop (read rt G n r) n s = .ret (false, s')) :
    ∃ e, read rt G (n + 1) (.past r) s = .ret (some e, (s'.toMarker s.mark).2) := by
  have h0 : read rt G (n + 1) (.past r) s = (pastLoop (read rt G n r) n s >>= fun x => if x.1 then pure (none, x.2) else
    pure (some ((x.2.toMarker s.mark).2.errorFor ((Reader.past r).what rt G)), (x.2.toMarker s.mark).2)) := rfl
  rw [h0, h]; exact ⟨_, rfl⟩

theorem past_inv {n : Nat} {s s' : Scanner} {e : Option Err} (h : read rt G (n + 1) (.past r) s = .ret (e, s')) :
    ∃ s1, pastLoop (read rt G n r) n s = .ret (e.isNone, s1) ∧ s' = if e.isNone then s1 else (s1.toMarker s.mark).2 := by
  have h0 : read rt G (n + 1) (.past r) s = (pastLoop (read rt G n r) n s >>= fun x => if x.1 then pure (none, x.2) else
    pure (some ((x.2.toMarker s.mark).2.errorFor ((Reader.past r).what rt G)), (x.2.toMarker s.mark).2)) := rfl
  rw [h0] at h
  obtain ⟨⟨ok, s1⟩, h1, h2⟩ := Exec.bind_eq_ret.mp h
  cases ok <;> simp only [Bool.false_eq_true, if_true, if_false, Exec.pure_eq, Exec.ret.injEq, Prod.mk.injEq] at h2 <;> obtain ⟨rfl, rfl⟩ := h2
  · exact ⟨s1, h1, rfl⟩
  · exact ⟨s1, h1, rfl⟩

/-- Going back further than a failed read did. -/
theorem Views.back_more {s s1 : Scanner} {a c : View} {h t : Bytes} {m : Int} (hs : Views s a) (hm : m = (h.length : Int))
    (h1 : h ++ t = a.head ++ a.rest) (h2 : c.head ++ c.rest = h ++ t) (hv : Views (s1.toMarker m).2 c) : Views (s1.toMarker s.mark).2 (a.back c) := by
  have hp : s.mark = (a.head.length : Int) := hs.1.2
  rw [hp, toMarker_at (by omega)]
  rw [hm, toMarker_at (by omega)] at hv
  have f1 : (s1.at (h.length : Int)).full = s1.full := notify_full _
  have f2 : (s1.at (h.length : Int)).heap.janus = s1.heap.janus := notify_janus _
  have f3 : (s1.at (h.length : Int)).heap.maps = s1.heap.maps := notify_maps _
  refine ⟨⟨?_, notify_pos _⟩, (notify_janus _).trans (f2.symm.trans hv.2.1), (notify_maps _).trans (f3.symm.trans hv.2.2)⟩
  refine (notify_full _).trans ?_
  have := hv.1.1
  rw [f1, h2, h1] at this
  exact this

theorem Gives.zom_stop (h : Gives rt G r a false b) : Gives rt G (.zom r) a true b := by
  obtain ⟨t1, n, h1⟩ := h
  refine ⟨t1, n + 2, fun s hs => ?_⟩
  obtain ⟨e, s1, r1, e1, v1⟩ := h1 s hs
  cases e with
  | none => cases e1
  | some e => exact ⟨none, s1, zom_ret (by rw [zomLoop, read_mono (Nat.le_succ n) r1]; rfl), rfl, v1⟩

theorem Gives.zom_step (h : Gives rt G r a true b) (h' : Gives rt G (.zom r) b true c) : Gives rt G (.zom r) a true c := by
  obtain ⟨t1, n1, h1⟩ := h
  obtain ⟨t2, n2, h2⟩ := h'
  refine ⟨t2.trans t1, n1 + n2 + 2, fun s hs => ?_⟩
  obtain ⟨e, s1, r1, e1, v1⟩ := h1 s hs
  obtain ⟨e', s2, r2, e2, v2⟩ := h2 s1 v1
  cases e with
  | some e => cases e1
  | none =>
    cases n2 with
    | zero => cases r2
    | succ n2 =>
      obtain ⟨r3, rfl⟩ := zom_inv r2
      refine ⟨none, s2, zom_ret ?_, e2, v2⟩
      rw [zomLoop, read_mono (by omega) r1]
      exact (zomLoop_le (fun s => read_le rt G n2 (n1 + (n2 + 1) + 1) (by omega) r s) n2 (n1 + (n2 + 1)) s1 (by omega)).ret r3

theorem Gives.many (h : Gives rt G (.zom r) a true b) (hl : a.head.length < b.head.length) : Gives rt G (.many r) a true b := by
  obtain ⟨t1, n, h1⟩ := h
  refine ⟨t1, n, fun s hs => ?_⟩
  obtain ⟨e, s1, r1, e1, v1⟩ := h1 s hs
  cases n with
  | zero => cases r1
  | succ n =>
    obtain ⟨e', r2, e2⟩ := many_ret (zom_inv r1).1
    have h2 := hs.1.2
    have h3 := v1.1.2
    exact ⟨e', s1, r2, by rw [e2]; simp; omega, v1⟩

theorem Gives.many_no (h : Gives rt G r a false b) (hl : b.head.length ≤ a.head.length) : Gives rt G (.many r) a false b := by
  obtain ⟨t1, n, h1⟩ := h.zom_stop
  refine ⟨t1, n, fun s hs => ?_⟩
  obtain ⟨e, s1, r1, e1, v1⟩ := h1 s hs
  cases n with
  | zero => cases r1
  | succ n =>
    obtain ⟨e', r2, e2⟩ := many_ret (zom_inv r1).1
    have h2 := hs.1.2
    have h3 := v1.1.2
    exact ⟨e', s1, r2, by rw [e2]; simp; omega, v1⟩

/-! ### searching -/

theorem Gives.to_hit (h : Gives rt G r a true b) : Gives rt G (.to r) a true (a.back b) := by
  obtain ⟨t1, n, h1⟩ := h
  refine ⟨rfl, n + 2, fun s hs => ?_⟩
  obtain ⟨e, s1, r1, e1, v1⟩ := h1 s hs
  cases e with
  | some e => cases e1
  | none => exact ⟨none, _, to_ret (by rw [toLoop, read_mono (Nat.le_succ n) r1]; rfl), rfl, hs.back v1 t1⟩

theorem Gives.to_step {h t : Bytes} {ch : Char} {j : Nat → Bytes} {M : List (Nat × Token)} (h1 : Gives rt G r a false ⟨h, enc ch ++ t, j, M⟩)
    (h2 : Gives rt G (.to r) ⟨h ++ enc ch, t, j, M⟩ true c) : Gives rt G (.to r) a true c := by
  obtain ⟨t1, n1, h1⟩ := h1
  obtain ⟨t2, n2, h2⟩ := h2
  refine ⟨by rw [t2]; simpa using t1, n1 + n2 + 2, fun s hs => ?_⟩
  obtain ⟨e, s1, r1, e1, v1⟩ := h1 s hs
  cases e with
  | none => cases e1
  | some e =>
    obtain ⟨s2, r2, v2⟩ := Views.step rt v1
    obtain ⟨e3, s3, r3, e3', v3⟩ := h2 s2 v2
    cases n2 with
    | zero => cases r3
    | succ n2 =>
      obtain ⟨s4, r4, r5⟩ := to_inv r3
      rw [e3'] at r4 r5
      have hl : toLoop (read rt G (n1 + (n2 + 1) + 1) r) (n1 + (n2 + 1) + 1) s = .ret (true, s4) := by
        rw [toLoop, read_mono (show n1 ≤ n1 + (n2 + 1) + 1 by omega) r1]
        simp only [Exec.bind_ret, r2, if_true]
        exact (toLoop_le (fun s => read_le rt G n2 (n1 + (n2 + 1) + 1) (by omega) r s) n2 (n1 + (n2 + 1)) s2 (by omega)).ret r4
      simp only [if_true] at r5
      subst r5
      exact ⟨none, s3, to_ret hl, rfl, v3⟩

theorem Gives.to_end {h : Bytes} {j : Nat → Bytes} {M : List (Nat × Token)} (h1 : Gives rt G r a false ⟨h, [], j, M⟩) :
    Gives rt G (.to r) a false ⟨a.head, a.rest, j, M⟩ := by
  obtain ⟨t1, n1, h1⟩ := h1
  refine ⟨rfl, n1 + 2, fun s hs => ?_⟩
  obtain ⟨e, s1, r1, e1, v1⟩ := h1 s hs
  cases e with
  | none => cases e1
  | some e =>
    obtain ⟨s2, r2, v2⟩ := Views.step_end rt v1
    have hl : toLoop (read rt G (n1 + 1) r) (n1 + 1) s = .ret (false, s2) := by
      rw [toLoop, read_mono (Nat.le_succ n1) r1]
      simp only [Exec.bind_ret, r2]
      rfl
    obtain ⟨e5, r5⟩ := to_ret_no hl
    exact ⟨some e5, _, r5, rfl, hs.back v2 t1⟩

theorem Gives.to_step_no {h t : Bytes} {ch : Char} {j : Nat → Bytes} {M : List (Nat × Token)} (h1 : Gives rt G r a false ⟨h, enc ch ++ t, j, M⟩)
    (h2 : Gives rt G (.to r) ⟨h ++ enc ch, t, j, M⟩ false c) : Gives rt G (.to r) a false (a.back c) := by
  obtain ⟨t1, n1, h1⟩ := h1
  obtain ⟨t2, n2, h2⟩ := h2
  refine ⟨rfl, n1 + n2 + 2, fun s hs => ?_⟩
  obtain ⟨e, s1, r1, e1, v1⟩ := h1 s hs
  cases e with
  | none => cases e1
  | some e =>
    obtain ⟨s2, r2, v2⟩ := Views.step rt v1
    obtain ⟨e3, s3, r3, e3', v3⟩ := h2 s2 v2
    cases n2 with
    | zero => cases r3
    | succ n2 =>
      obtain ⟨s4, r4, r5⟩ := to_inv r3
      rw [e3'] at r4 r5
      have hl : toLoop (read rt G (n1 + (n2 + 1) + 1) r) (n1 + (n2 + 1) + 1) s = .ret (false, s4) := by
        rw [toLoop, read_mono (show n1 ≤ n1 + (n2 + 1) + 1 by omega) r1]
        simp only [Exec.bind_ret, r2, if_true]
        exact (toLoop_le (fun s => read_le rt G n2 (n1 + (n2 + 1) + 1) (by omega) r s) n2 (n1 + (n2 + 1)) s2 (by omega)).ret r4
      simp only [Bool.false_eq_true, if_false] at r5
      subst r5
      obtain ⟨e5, r5⟩ := to_ret_no hl
      exact ⟨some e5, _, r5, rfl, hs.back_more v2.1.2 (by simpa using t1) t2 v3⟩

theorem Views.atEnd {s : Scanner} {v : View} (h : Views s v) : s.atEnd = v.rest.isEmpty := (sees_between h.1).atEnd

theorem Gives.past_hit (hne : a.rest ≠ []) (h : Gives rt G r a true b) : Gives rt G (.past r) a true b := by
  obtain ⟨t1, n, h1⟩ := h
  refine ⟨t1, n + 2, fun s hs => ?_⟩
  obtain ⟨e, s1, r1, e1, v1⟩ := h1 s hs
  have hend : s.atEnd = false := by rw [hs.atEnd]; simpa using hne
  cases e with
  | some e => cases e1
  | none => exact ⟨none, s1, past_ret (by rw [pastLoop, if_neg (by rw [hend]; decide), read_mono (Nat.le_succ n) r1]; rfl), rfl, v1⟩

theorem Gives.past_step {h t : Bytes} {ch : Char} {j : Nat → Bytes} {M : List (Nat × Token)} (hne : a.rest ≠ []) (h1 : Gives rt G r a false ⟨h, enc ch ++ t, j, M⟩)
    (h2 : Gives rt G (.past r) ⟨h ++ enc ch, t, j, M⟩ true c) : Gives rt G (.past r) a true c := by
  obtain ⟨t1, n1, h1⟩ := h1
  obtain ⟨t2, n2, h2⟩ := h2
  refine ⟨by rw [t2]; simpa using t1, n1 + n2 + 2, fun s hs => ?_⟩
  obtain ⟨e, s1, r1, e1, v1⟩ := h1 s hs
  cases e with
  | none => cases e1
  | some e =>
    obtain ⟨s2, r2, v2⟩ := Views.step rt v1
    obtain ⟨e3, s3, r3, e3', v3⟩ := h2 s2 v2
    have hend : s.atEnd = false := by rw [hs.atEnd]; simpa using hne
    cases n2 with
    | zero => cases r3
    | succ n2 =>
      obtain ⟨s4, r4, r5⟩ := past_inv r3
      rw [e3'] at r4 r5
      have hl : pastLoop (read rt G (n1 + (n2 + 1) + 1) r) (n1 + (n2 + 1) + 1) s = .ret (true, s4) := by
        rw [pastLoop, if_neg (by rw [hend]; decide), read_mono (show n1 ≤ n1 + (n2 + 1) + 1 by omega) r1]
        simp only [Exec.bind_ret, r2]
        exact (pastLoop_le (fun s => read_le rt G n2 (n1 + (n2 + 1) + 1) (by omega) r s) n2 (n1 + (n2 + 1)) s2 (by omega)).ret r4
      simp only [if_true] at r5
      subst r5
      exact ⟨none, s3, past_ret hl, rfl, v3⟩

/-- At the end of the text nothing is tried. -/
theorem Gives.past_end (he : a.rest = []) : Gives rt G (.past r) a false a := by
  refine ⟨rfl, 2, fun s hs => ?_⟩
  have hend : s.atEnd = true := by rw [hs.atEnd, he]; rfl
  have hl : pastLoop (read rt G 1 r) 1 s = .ret (false, s) := by rw [pastLoop, if_pos hend]; rfl
  obtain ⟨e5, r5⟩ := past_ret_no hl
  exact ⟨some e5, _, r5, rfl, hs.back hs rfl⟩

theorem Gives.past_step_no {h t : Bytes} {ch : Char} {j : Nat → Bytes} {M : List (Nat × Token)} (hne : a.rest ≠ []) (h1 : Gives rt G r a false ⟨h, enc ch ++ t, j, M⟩)
    (h2 : Gives rt G (.past r) ⟨h ++ enc ch, t, j, M⟩ false c) : Gives rt G (.past r) a false (a.back c) := by
  obtain ⟨t1, n1, h1⟩ := h1
  obtain ⟨t2, n2, h2⟩ := h2
  refine ⟨rfl, n1 + n2 + 2, fun s hs => ?_⟩
  obtain ⟨e, s1, r1, e1, v1⟩ := h1 s hs
  cases e with
  | none => cases e1
  | some e =>
    obtain ⟨s2, r2, v2⟩ := Views.step rt v1
    obtain ⟨e3, s3, r3, e3', v3⟩ := h2 s2 v2
    have hend : s.atEnd = false := by rw [hs.atEnd]; simpa using hne
    cases n2 with
    | zero => cases r3
    | succ n2 =>
      obtain ⟨s4, r4, r5⟩ := past_inv r3
      rw [e3'] at r4 r5
      have hl : pastLoop (read rt G (n1 + (n2 + 1) + 1) r) (n1 + (n2 + 1) + 1) s = .ret (false, s4) := by
        rw [pastLoop, if_neg (by rw [hend]; decide), read_mono (show n1 ≤ n1 + (n2 + 1) + 1 by omega) r1]
        simp only [Exec.bind_ret, r2]
        exact (pastLoop_le (fun s => read_le rt G n2 (n1 + (n2 + 1) + 1) (by omega) r s) n2 (n1 + (n2 + 1)) s2 (by omega)).ret r4
      simp only [Bool.false_eq_true, if_false] at r5
      subst r5
      obtain ⟨e5, r5⟩ := past_ret_no hl
      exact ⟨some e5, _, r5, rfl, hs.back_more v2.1.2 (by simpa using t1) t2 v3⟩

/-! ### a body before a tail -/

theorem GivesBody.end_ {bd tl : Reader} {h0 : Bytes} (he : a.rest = []) : GivesBody rt G bd tl h0 a none a := by
  refine ⟨rfl, 1, fun s hs => ⟨s, ?_, hs⟩⟩
  have hend : s.atEnd = true := by rw [hs.atEnd, he]; rfl
  simp [bodyLoop, hend]

/-- The tail stands here, the text up to here is given to the body. -/
theorem GivesBody.here {bd tl : Reader} {h0 x : Bytes} (hne : a.rest ≠ []) (hx : a.head = h0 ++ x) (ht : Gives rt G tl a true b)
    (hb : Gives rt G bd ⟨[], x, b.jan, b.maps⟩ ok c) :
    GivesBody rt G bd tl h0 a (if ok && c.rest.isEmpty then some a.head else none) ⟨b.head, b.rest, c.jan, c.maps⟩ := by
  obtain ⟨t1, n1, h1⟩ := ht
  obtain ⟨t2, n2, h2⟩ := hb
  refine ⟨t1, n1 + n2 + 1, fun s hs => ?_⟩
  obtain ⟨e, s1, r1, e1, v1⟩ := h1 s hs
  cases e with
  | some e => cases e1
  | none =>
    have hend : s.atEnd = false := by rw [hs.atEnd]; simpa using hne
    have hg : s1.get (makeToken h0.length s.mark) = .ret x := by
      have := get_between (s := s1) (s1 := { s with pos := h0.length }) (s2 := s) (h := h0) (x := x) (u := a.rest)
        ⟨by rw [← List.append_assoc, ← hx]; exact hs.1.1, rfl⟩ (by rw [← hx]; exact hs.1) (by rw [v1.1.1, t1]; exact hs.1.1.symm)
      exact this
    have hn : Views (Scanner.new x s1.heap) ⟨[], x, b.jan, b.maps⟩ := ⟨⟨rfl, rfl⟩, v1.2⟩
    obtain ⟨e2, s2, r2, e2', v2⟩ := h2 _ hn
    cases e2 with
    | some e2 =>
      cases e2'
      have hu : (Scanner.new x s1.heap).use (read rt G (n1 + n2 + 1) bd) = .ret (some e2, (s2.toMarker 0).2) := by
        simp only [Scanner.use, read_mono (show n2 ≤ n1 + n2 + 1 by omega) r2]
        rfl
      have hv : Views (s2.toMarker 0).2 ⟨[], x, c.jan, c.maps⟩ := hn.back v2 t2
      refine ⟨{ s1 with heap := (s2.toMarker 0).2.heap }, ?_, v1.1, hv.2.1, hv.2.2⟩
      simp only [bodyLoop, hend, Bool.false_eq_true, if_false]
      rw [read_mono (by omega) r1]
      simp only [Exec.bind_ret, hg, hu, Option.isSome_some, Bool.true_or, if_true]
      rfl
    | none =>
      cases e2'
      have hu : (Scanner.new x s1.heap).use (read rt G (n1 + n2 + 1) bd) = .ret (none, s2) := by
        simp only [Scanner.use, read_mono (show n2 ≤ n1 + n2 + 1 by omega) r2]
        rfl
      refine ⟨{ s1 with heap := s2.heap }, ?_, v1.1, v2.2.1, v2.2.2⟩
      simp only [bodyLoop, hend, Bool.false_eq_true, if_false]
      rw [read_mono (by omega) r1]
      simp only [Exec.bind_ret, hg, hu, Option.isSome_none, Bool.false_or, v2.atEnd, Option.isNone_none, Bool.true_and]
      cases c.rest.isEmpty
      · rfl
      · simp only [Bool.not_true, Bool.false_eq_true, if_false, if_true, Option.map_some, Exec.pure_eq, Scanner.mark, hs.1.2]

theorem GivesBody.step {bd tl : Reader} {h0 h t : Bytes} {ch : Char} {j : Nat → Bytes} {M : List (Nat × Token)} {res : Option Bytes} (hne : a.rest ≠ [])
    (h1 : Gives rt G tl a false ⟨h, enc ch ++ t, j, M⟩)
    (h2 : GivesBody rt G bd tl h0 ⟨h ++ enc ch, t, j, M⟩ res c) : GivesBody rt G bd tl h0 a res c := by
  obtain ⟨t1, n1, h1⟩ := h1
  obtain ⟨t2, n2, h2⟩ := h2
  refine ⟨by rw [t2]; simpa using t1, n1 + n2 + 1, fun s hs => ?_⟩
  obtain ⟨e, s1, r1, e1, v1⟩ := h1 s hs
  cases e with
  | none => cases e1
  | some e =>
    obtain ⟨s2, r2, v2⟩ := Views.step rt v1
    obtain ⟨s3, r3, v3⟩ := h2 s2 v2
    refine ⟨s3, ?_, v3⟩
    have hend : s.atEnd = false := by rw [hs.atEnd]; simpa using hne
    simp only [bodyLoop, hend, Bool.false_eq_true, if_false]
    rw [read_mono (by omega) r1]
    simp only [Exec.bind_ret, r2]
    exact (bodyLoop_le (fun s => read_le rt G n2 (n1 + n2 + 1) (by omega) bd s) (fun s => read_le rt G n2 (n1 + n2 + 1) (by omega) tl s) _ n2 (n1 + n2) s2 (by omega)).ret r3

theorem Gives.bodyTail {bd tl : Reader} {x : Bytes} (h : GivesBody rt G bd tl a.head a (some x) b) : Gives rt G (.bodyTail bd tl) a true b := by
  obtain ⟨t1, n, h1⟩ := h
  refine ⟨t1, n + 1, fun s hs => ?_⟩
  obtain ⟨s1, r1, v1⟩ := h1 s hs
  refine ⟨none, s1, ?_, rfl, v1⟩
  have hp : s.mark = (a.head.length : Int) := hs.1.2
  simp only [read, hp, r1, Exec.bind_ret, Option.map_some, Exec.pure_eq]

theorem Gives.bodyTail_no {bd tl : Reader} (h : GivesBody rt G bd tl a.head a none b) : Gives rt G (.bodyTail bd tl) a false (a.back b) := by
  obtain ⟨t1, n, h1⟩ := h
  refine ⟨rfl, n + 1, fun s hs => ?_⟩
  obtain ⟨s1, r1, v1⟩ := h1 s hs
  refine ⟨some ((s1.toMarker s.mark).2.errorFor ((Reader.bodyTail bd tl).what rt G)), _, ?_, rfl, hs.back v1 t1⟩
  have hp : s.mark = (a.head.length : Int) := hs.1.2
  simp only [read, hp, r1, Exec.bind_ret, Option.map_none, Exec.pure_eq]

/-! ### reading -/

/-- From the calculus to the read itself. -/
theorem Gives.reads (h : Gives rt G r a ok b) {s : Scanner} (hs : Views s a) :
    ∃ n e s', (∀ m, n ≤ m → read rt G m r s = .ret (e, s')) ∧ e.isNone = ok ∧ Views s' b := by
  obtain ⟨_, n, h1⟩ := h
  obtain ⟨e, s', r1, e1, v1⟩ := h1 s hs
  exact ⟨n, e, s', fun m hm => read_mono hm r1, e1, v1⟩

end Tok
