/-
C99 What a read does not come near to does not matter.
-/
import Verif.Proofs.Window
import Verif.Proofs.Blind
import Verif.Props.C35
import Verif.Props.C56

namespace Tok

open Spec

/-- A tracker of the client is told where the scanner goes.  If every step of the readers looks at no more than `w` bytes, and at every
place that the tracker was told at least `w` bytes of `p` are ahead, the read is the same on every other text that begins with `p`: the
same error, the same position, the same segments, logs and cells, in the same number of steps.  Behind `p` the text may be longer,
cut off or another one.  Functions of the client may be among the readers if they look no further either. -/
theorem C99_window_partial (rt : Rt) (G : Env) (w : Nat) (hG : G.Every fun r => Reader.Sees w r ∧ r.isJanusEnd = false) (n : Nat) (r : Reader)
    (hr : r.Every fun r => Reader.Sees w r ∧ r.isJanusEnd = false) (id : Nat) (p x : Bytes) (s s' : Scanner) (hf : s.full = p ++ x)
    (ht : s.tracker = some (.custom id)) (hp : s.pos + w ≤ p.length) (e : Option Err) (h : read rt G n r s = .ret (e, s'))
    (ha : ∀ m ∈ s'.heap.tracks id, m + w ≤ (p.length : Int)) (y : Bytes) :
    s'.full = p ++ x ∧ read rt G n r { s with full := p ++ y } = .ret (e, { s' with full := p ++ y }) := by
  have hi : ∀ r : Reader, Reader.Sees w r ∧ r.isJanusEnd = false → Reader.Sees w r ∧ (r.isJanusEnd = true → False) := fun r h => ⟨h.1, by simp [h.2]⟩
  rcases (Window.read_win (p := p) (x := x) (y := y) (id := id) (lo := 0) rt G False.elim (hG.imp hi) n r (hr.imp hi)).same s ⟨hf, ht, hp, False.elim, False.elim⟩ e s' h
    with ⟨m, hm, hlt | hlt⟩ | ⟨hh, h2⟩
  · exact absurd (ha m hm) (by omega)
  · exact hlt.1.elim
  · exact ⟨hh.full, h2⟩

/-- With `JanusEnd`, which looks as far ahead as the text is long that it was given: the read is the same if the scanner keeps away
from the end of `p` by the length of the part in which it goes about.  Nothing is said of the readers of which the texts are kept;
all of the shipped grammars are among these. -/
theorem C99_kept_partial (rt : Rt) (G : Env) (w : Nat) (hG : G.Every (Reader.Sees w)) (n : Nat) (r : Reader)
    (hr : r.Every (Reader.Sees w)) (id : Nat) (p x : Bytes) (s s' : Scanner) (hf : s.full = p ++ x) (ht : s.tracker = some (.custom id))
    (lo : Int) (hl : (p.length : Int) ≤ lo + 2 * w) (h0 : lo ≤ s.pos) (hp : s.pos + w ≤ p.length) (hj : ∀ k, (s.heap.janus k).length ≤ w)
    (e : Option Err) (h : read rt G n r s = .ret (e, s')) (ha : ∀ m ∈ s'.heap.tracks id, lo ≤ m ∧ m + w ≤ (p.length : Int)) (y : Bytes) :
    s'.full = p ++ x ∧ read rt G n r { s with full := p ++ y } = .ret (e, { s' with full := p ++ y }) := by
  have hi : ∀ r : Reader, Reader.Sees w r → Reader.Sees w r ∧ (r.isJanusEnd = true → True) := fun r h => ⟨h, fun _ => trivial⟩
  rcases (Window.read_win (p := p) (x := x) (y := y) (id := id) (lo := lo) rt G (fun _ => hl) (hG.imp hi) n r (hr.imp hi)).same s ⟨hf, ht, hp, fun _ => h0, fun _ => hj⟩ e s' h
    with ⟨m, hm, hlt | hlt⟩ | ⟨hh, h2⟩
  · exact absurd (ha m hm).2 (by omega)
  · exact absurd (ha m hm).1 (by omega)
  · exact ⟨hh.full, h2⟩

/-- How far the shipped readers look can be computed. -/
theorem sees_far {w w' : Nat} (hw : w ≤ w') (r : Reader) (h : (Reader.seesB w r || r.isJanusEnd) = true) : Reader.Sees w' r := by
  rcases Bool.or_eq_true _ _ ▸ h with h | h
  · refine .inl ?_
    unfold Reader.seesB at h ⊢
    split at h
    · rename_i k hk
      simp only [decide_eq_true_eq] at h ⊢
      omega
    · cases h
  · exact .inr (.inl h)

theorem sees_plain {w : Nat} (r : Reader) (h : Reader.seesB w r = true) : Reader.Sees w r ∧ r.isJanusEnd = false :=
  ⟨.inl h, by cases r <;> first | rfl | cases h⟩

/-- A reader that succeeds on `ab` and something else. -/
example (rt : Rt) : ∃ s', read rt [] 9 (.seq [.rune 97, .opt (.lit b!"bc"), .rune 98]) ⟨b!"abxyz?!", 0, some (.custom 7), Heap.empty⟩ = .ret (none, s') ∧
    s'.heap.tracks 7 = [1, 2] ∧ ∀ y, read rt [] 9 (.seq [.rune 97, .opt (.lit b!"bc"), .rune 98]) ⟨b!"abxyz?" ++ y, 0, some (.custom 7), Heap.empty⟩ =
      .ret (none, { s' with full := b!"abxyz?" ++ y }) :=
  ⟨_, rfl, rfl, fun y => (C99_window_partial rt [] 4 ((Env.everyB_sound (by decide)).imp sees_plain) 9 _ ((Reader.everyB_sound _ _ (by decide)).imp sees_plain) 7 b!"abxyz?" b!"!"
    ⟨b!"abxyz?!", 0, some (.custom 7), Heap.empty⟩ _ rfl rfl (by decide) none rfl (by decide) y).2⟩

theorem ifRune_at {what : Bytes} {c : Rune} {s s' : Scanner} {e : Option Err} (h : ifFalse what (s.ifRune c) = .ret (e, s')) : s' = s ∨ ∃ k, s' = s.at k := by
  obtain ⟨⟨ok, s1⟩, h1, h2⟩ := Exec.bind_eq_ret.mp h
  cases h2
  obtain ⟨t, _, h3⟩ := Exec.bind_eq_ret.mp h1
  simp only at h3
  split at h3
  · cases h3
    exact .inl rfl
  · simp only [Exec.pure_eq, Scanner.move] at h3
    split at h3
    · cases h3
      exact .inl rfl
    · cases h3
      exact .inr ⟨_, rfl⟩

/-- A function of the client that asks the scanner for one rune looks no further than four bytes. -/
theorem C99_ask (what : Bytes) (c : Rune) : Nearsighted 4 fun s => ifFalse what (s.ifRune c) where
  tells id s e s' h := ((Window.Win.ifRune (p := []) (x := []) (y := []) (w := 4) (id := id) (lo := 0) (jz := False) (Nat.le_refl 4) c).ifFalse what).grow s _ h |>.told
  keeps s e s' h := by
    rcases ifRune_at h with rfl | ⟨k, rfl⟩
    · exact ⟨rfl, rfl, rfl⟩
    · unfold Scanner.at Scanner.notify
      split <;> exact ⟨rfl, rfl, rfl⟩
  near id p x y s e s' hf ht hp h := by
    rcases ((Window.Win.ifRune (p := p) (x := x) (y := y) (w := 4) (id := id) (lo := 0) (jz := False) (Nat.le_refl 4) c).ifFalse what).same s
      ⟨hf, ht, hp, False.elim, False.elim⟩ e s' h with ⟨m, hm, hlt | hlt⟩ | ⟨hh, h2⟩
    · exact .inl ⟨m, hm, hlt⟩
    · exact hlt.1.elim
    · refine .inr ⟨?_, h2⟩
      rcases ifRune_at h with rfl | ⟨k, rfl⟩
      · exact .inl rfl
      · unfold Scanner.at Scanner.notify
        simp [ht, upd]

/-- Two letters, the second one read by a function of the client. -/
example (rt : Rt) (y : Bytes) : ∃ s' : Scanner, s'.pos = 2 ∧ read rt [] 9 (.seq [.rune 97, .wrap b!"b?" fun s => ifFalse b!"b" (s.ifRune 98)])
    ⟨b!"abxyz?" ++ y, 0, some (.custom 7), Heap.empty⟩ = .ret (none, { s' with full := b!"abxyz?" ++ y }) := by
  refine ⟨_, ?_, (C99_window_partial rt [] 4 ((Env.everyB_sound (p := Reader.seesB 4) (by decide)).imp sees_plain) 9 (.seq [.rune 97, .wrap b!"b?" fun s => ifFalse b!"b" (s.ifRune 98)]) ?_ 7
    b!"abxyz?" [] ⟨b!"abxyz?", 0, some (.custom 7), Heap.empty⟩ _ rfl rfl (by decide) none rfl (by decide) y).2⟩
  · rfl
  · refine .mk ⟨.inl (by decide), rfl⟩ fun c hc => ?_
    simp only [Reader.subs, List.mem_cons, List.not_mem_nil, or_false] at hc
    rcases hc with rfl | rfl
    · exact .mk ⟨.inl (by decide), rfl⟩ (by simp [Reader.subs])
    · exact .mk ⟨.inr (.inr ⟨_, _, rfl, C99_ask _ _⟩), rfl⟩ (by simp [Reader.subs])

/-- Without a tracker, or with another one, the outcome is the same too: a read from the same position of any text that begins with `p`
succeeds or fails like the watched one and ends at the same position. -/
theorem C99_others_partial (rt : Rt) (G : Env) (w : Nat) (hG : G.Every fun r => Reader.seesB w r = true) (n : Nat) (r : Reader)
    (hr : r.Every fun r => Reader.seesB w r = true) (id : Nat) (p x : Bytes) (s s' : Scanner) (hf : s.full = p ++ x) (ht : s.tracker = some (.custom id))
    (h0 : 0 ≤ s.pos) (hp : s.pos + w ≤ p.length) (e : Option Err) (h : read rt G n r s = .ret (e, s'))
    (ha : ∀ m ∈ s'.heap.tracks id, m + w ≤ (p.length : Int)) (y : Bytes) (t : Scanner) (hy : t.full = p ++ y) (hpos : t.pos = s.pos)
    (hj : t.heap.janus = s.heap.janus) :
    ∃ e2 t', read rt G n r t = .ret (e2, t') ∧ e2.isNone = e.isNone ∧ t'.pos = s'.pos := by
  have two : ∀ r : Reader, Reader.seesB w r = true → r.noWrap = true ∧ r.janIn fun _ => True := fun r h => by
    cases r <;> first | exact ⟨rfl, trivial⟩ | cases h
  obtain ⟨_, h2⟩ := C99_window_partial rt G w (hG.imp sees_plain) n r (hr.imp sees_plain) id p x s s' hf ht hp e h ha y
  have b1 : Between { s with full := p ++ y } ((p ++ y).take s.pos.toNat) ((p ++ y).drop s.pos.toNat) :=
    ⟨(List.take_append_drop ..).symm, by simp; omega⟩
  have b2 : Between t ((p ++ y).take s.pos.toNat) ((p ++ y).drop s.pos.toNat) :=
    ⟨by rw [hy, List.take_append_drop], by rw [hpos]; simp; omega⟩
  obtain ⟨e2, t', h3, h4, c, u, _, h5, h6⟩ := (C35_janus rt G _ (hG.imp fun r h => two r h) r (hr.imp fun r h => two r h) n _ t _ _ _ b1 b2 fun k _ => (congrFun hj k).symm).2.2 e _ h2
  exact ⟨e2, t', h3, h4.symm, by rw [h6.2, ← h5.2]⟩

/-- The same reader on another text, without a tracker. -/
example (rt : Rt) (y : Bytes) : ∃ e2 t', read rt [] 9 (.seq [.rune 97, .opt (.lit b!"bc"), .rune 98]) (.new (b!"abxyz?" ++ y) Heap.empty) = .ret (e2, t') ∧
    e2.isNone = true ∧ t'.pos = 2 :=
  C99_others_partial rt [] 4 (Env.everyB_sound (by decide)) 9 (.seq [.rune 97, .opt (.lit b!"bc"), .rune 98]) (Reader.everyB_sound _ _ (by decide)) 7 b!"abxyz?" b!"!"
    ⟨b!"abxyz?!", 0, some (.custom 7), Heap.empty⟩ _ rfl rfl (by decide) (by decide) none rfl (by decide) y (.new (b!"abxyz?" ++ y) Heap.empty) rfl rfl rfl

/-- If the scanner comes nearer, what is behind can matter: `1` is all of the first text, the second one goes on. -/
theorem C99_near (rt : Rt) : ∃ s1 s2, read rt [] 9 (.zom (.between 48 57)) ⟨b!"1", 0, some (.custom 7), Heap.empty⟩ = .ret (none, s1) ∧
    read rt [] 9 (.zom (.between 48 57)) ⟨b!"12", 0, some (.custom 7), Heap.empty⟩ = .ret (none, s2) ∧ s1.heap.tracks 7 = [1] ∧ s1.pos = 1 ∧ s2.pos = 2 :=
  ⟨_, _, rfl, rfl, rfl, rfl, rfl⟩

/-- A number is the same if four bytes behind its digits are. -/
example (rt : Rt) (y : Bytes) : ∃ s' : Scanner, s'.heap.cells 3 = .int (-12) ∧ s'.pos = 3 ∧
    read rt [] 9 (.int 3 10 8) ⟨b!"-12;;;;" ++ y, 0, some (.custom 7), Heap.empty⟩ = .ret (none, { s' with full := b!"-12;;;;" ++ y }) :=
  ⟨_, rfl, rfl, (C99_window_partial rt [] 4 ((Env.everyB_sound (by decide)).imp sees_plain) 9 (.int 3 10 8) ((Reader.everyB_sound _ _ (by decide)).imp sees_plain) 7 b!"-12;;;;" []
    ⟨b!"-12;;;;", 0, some (.custom 7), Heap.empty⟩ _ rfl rfl (by decide) none rfl (by decide) y).2⟩

/-- With `JanusEnd` the claim is false: it looks as far ahead as the text is long that was read before.  Here five letters
are read, five more are expected, and the scanner stays four bytes in front of the end of `aaaaaaaaa`. -/
theorem C99_janus_violated (rt : Rt) : ∃ (r : Reader) (p : Bytes) (s1 s2 : Scanner), (r.Every fun r => Reader.seesB 4 r = true ∨ r.isJanusEnd = true) ∧
    read rt [] 20 r ⟨p ++ [], 0, some (.custom 7), Heap.empty⟩ = .ret (none, s1) ∧ (∀ m ∈ s1.heap.tracks 7, m + 4 ≤ (p.length : Int)) ∧
    read rt [] 20 r ⟨p ++ b!"a", 0, some (.custom 7), Heap.empty⟩ = .ret (none, s2) ∧ s1.pos = 5 ∧ s2.pos = 10 := by
  refine ⟨.seq [.janusBegin 1 b!"j" (.times 5 (.rune 97)), .opt (.janusEnd 1 b!"j")], b!"aaaaaaaaa", _, _, ?_, rfl, by decide, rfl, rfl, rfl⟩
  exact (Reader.everyB_sound (fun r => Reader.seesB 4 r || r.isJanusEnd) _ (by decide)).imp fun r h => by simpa using h

/-- The readers of JSON look at no more than five bytes. -/
theorem C99_json_partial (rt : Rt) (n : Nat) (id : Nat) (p x : Bytes) (s s' : Scanner) (hf : s.full = p ++ x) (ht : s.tracker = some (.custom id))
    (hp : s.pos + 5 ≤ p.length) (e : Option Err) (h : read rt Json.env n Json.reader s = .ret (e, s'))
    (ha : ∀ m ∈ s'.heap.tracks id, m + 5 ≤ (p.length : Int)) (y : Bytes) :
    s'.full = p ++ x ∧ read rt Json.env n Json.reader { s with full := p ++ y } = .ret (e, { s' with full := p ++ y }) :=
  C99_window_partial rt Json.env 5 ((Env.everyB_sound (by decide)).imp sees_plain) n Json.reader ((Reader.everyB_sound _ _ (by decide)).imp sees_plain) id p x s s' hf ht hp e h ha y

/-- A list with a number that ends five bytes in front of the end of the common part. -/
example (rt : Rt) : ∃ s', read rt Json.env 60 Json.reader ⟨b!"[1], abc", 0, some (.custom 7), Heap.empty⟩ = .ret (none, s') ∧ s'.pos = 3 ∧
    ∀ y, read rt Json.env 60 Json.reader ⟨b!"[1], abc" ++ y, 0, some (.custom 7), Heap.empty⟩ = .ret (none, { s' with full := b!"[1], abc" ++ y }) :=
  ⟨_, rfl, rfl, fun y => (C99_json_partial rt 60 7 b!"[1], abc" [] ⟨b!"[1], abc", 0, some (.custom 7), Heap.empty⟩ _ rfl rfl (by decide) none rfl (by decide) y).2⟩

/-- The readers of Lua look at no more than eight bytes (`function`), and at as many as are between the brackets of a long string: if the
scanner goes about in `w` bytes, eight or more, and keeps away from the end of `p` by as many, the read is the same on every text that
begins with `p`. -/
theorem C99_lua_partial (rt : Rt) (n w : Nat) (hw : 8 ≤ w) (id : Nat) (p x : Bytes) (s s' : Scanner) (hf : s.full = p ++ x) (ht : s.tracker = some (.custom id))
    (lo : Int) (hl : (p.length : Int) ≤ lo + 2 * w) (h0 : lo ≤ s.pos) (hp : s.pos + w ≤ p.length) (hj : ∀ k, (s.heap.janus k).length ≤ w)
    (e : Option Err) (h : read rt Lua.env n Lua.reader s = .ret (e, s')) (ha : ∀ m ∈ s'.heap.tracks id, lo ≤ m ∧ m + w ≤ (p.length : Int)) (y : Bytes) :
    s'.full = p ++ x ∧ read rt Lua.env n Lua.reader { s with full := p ++ y } = .ret (e, { s' with full := p ++ y }) :=
  C99_kept_partial rt Lua.env w ((Env.everyB_sound (by decide +kernel)).imp (sees_far hw)) n Lua.reader ((Reader.everyB_sound _ _ (by decide)).imp (sees_far hw))
    id p x s s' hf ht lo hl h0 hp hj e h ha y

set_option maxRecDepth 10000 in
/-- A long string in the first half of a text. -/
example (rt : Rt) : ∃ s', read rt Lua.env 80 Lua.reader ⟨b!"x=[=[a]=]?????????", 0, some (.custom 7), Heap.empty⟩ = .ret (none, s') ∧ s'.pos = 9 ∧
    ∀ y, read rt Lua.env 80 Lua.reader ⟨b!"x=[=[a]=]?????????" ++ y, 0, some (.custom 7), Heap.empty⟩ = .ret (none, { s' with full := b!"x=[=[a]=]?????????" ++ y }) :=
  ⟨_, rfl, rfl, fun y => (C99_lua_partial rt 80 9 (by decide) 7 b!"x=[=[a]=]?????????" [] ⟨b!"x=[=[a]=]?????????", 0, some (.custom 7), Heap.empty⟩ _ rfl rfl 0 (by decide) (by decide)
    (by decide) (fun _ => Nat.zero_le _) none rfl (by decide +kernel) y).2⟩

/-- The readers of MXT. -/
theorem C99_mxt_partial (rt : Rt) (n w : Nat) (hw : 4 ≤ w) (id : Nat) (p x : Bytes) (s s' : Scanner) (hf : s.full = p ++ x) (ht : s.tracker = some (.custom id))
    (lo : Int) (hl : (p.length : Int) ≤ lo + 2 * w) (h0 : lo ≤ s.pos) (hp : s.pos + w ≤ p.length) (hj : ∀ k, (s.heap.janus k).length ≤ w)
    (e : Option Err) (h : read rt Mxt.env n Mxt.reader s = .ret (e, s')) (ha : ∀ m ∈ s'.heap.tracks id, lo ≤ m ∧ m + w ≤ (p.length : Int)) (y : Bytes) :
    s'.full = p ++ x ∧ read rt Mxt.env n Mxt.reader { s with full := p ++ y } = .ret (e, { s' with full := p ++ y }) :=
  C99_kept_partial rt Mxt.env w ((Env.everyB_sound (by decide +kernel)).imp (sees_far hw)) n Mxt.reader ((Reader.everyB_sound _ _ (by decide)).imp (sees_far hw))
    id p x s s' hf ht lo hl h0 hp hj e h ha y

/-- What is not MXT from its second byte on. -/
example (rt : Rt) : ∃ e s', read rt Mxt.env 60 Mxt.reader ⟨b!"/?abcdef", 0, some (.custom 7), Heap.empty⟩ = .ret (some e, s') ∧ s'.pos = 0 ∧
    ∀ y, read rt Mxt.env 60 Mxt.reader ⟨b!"/?abcdef" ++ y, 0, some (.custom 7), Heap.empty⟩ = .ret (some e, { s' with full := b!"/?abcdef" ++ y }) :=
  ⟨_, _, rfl, rfl, fun y => (C99_mxt_partial rt 60 4 (by decide) 7 b!"/?abcdef" [] ⟨b!"/?abcdef", 0, some (.custom 7), Heap.empty⟩ _ rfl rfl 0 (by decide) (by decide)
    (by decide) (fun _ => Nat.zero_le _) _ rfl (by decide +kernel) y).2⟩

end Tok
