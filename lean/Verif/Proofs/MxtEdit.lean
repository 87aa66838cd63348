/-
What a basket for the names and contents of MXT documents holds.
-/
import Verif.Props.C109
import Verif.Props.C111
import Verif.Props.C81

namespace Tok
open Spec

/-! ### reads that neither pick nor call -/

/-- The scanner is inside its text, and if it tracks a basket, then this one, whose segments end at the position or before it. -/
def Tuned (b : Nat) (s : Scanner) : Prop := Inside s ∧ ∀ k, s.tracker = some (.basket k) → k = b ∧ ∀ g ∈ s.heap.baskets b, g.tok.to ≤ s.pos

/-- A read that went forward, with the same basket and no call. -/
def Hush (b : Nat) (s s' : Scanner) : Prop :=
  Forward s s' ∧ s'.tracker = s.tracker ∧ s'.heap.baskets b = s.heap.baskets b ∧ s'.heap.maps = s.heap.maps

theorem at_hush {b : Nat} {s : Scanner} {m : Int} (h : ∀ k, s.tracker = some (.basket k) → k = b ∧ ∀ g ∈ s.heap.baskets b, g.tok.to ≤ m) :
    (s.at m).heap.baskets b = s.heap.baskets b ∧ (s.at m).heap.maps = s.heap.maps := by
  rcases Mute.at_cases s m with ⟨tk, h0, h1⟩ | ⟨k, h0, h1⟩
  · rw [h1]; exact ⟨rfl, rfl⟩
  · rw [h1]
    obtain ⟨rfl, h2⟩ := h k h0
    refine ⟨?_, rfl⟩
    show upd _ _ _ k = _
    rw [upd_self, basketUpdate_self h2]

theorem hush_frame (rt : Rt) (G : Env) (b : Nat) (P : Reader → Prop) (hP : ∀ r, P r → match r with | .pick _ _ _ => False | .map _ _ => False | .wrap _ _ => False | _ => True) :
    Frame rt G P (Tuned b) (Hush b) where
  inside h := h.1
  fwd _ h := h.1
  inv {s s'} h h' := ⟨h'.1.1, fun k hk => by
    obtain ⟨h1, h2⟩ := h.2 k (h'.2.1.symm.trans hk)
    refine ⟨h1, fun g hg => ?_⟩
    rw [h'.2.2.1] at hg
    exact Int.le_trans (h2 g hg) h'.1.2.2⟩
  refl h := ⟨Forward.refl h.1, rfl, rfl, rfl⟩
  trans _ h h' := ⟨h.1.trans h'.1, h'.2.1.trans h.2.1, h'.2.2.1.trans h.2.2.1, h'.2.2.2.trans h.2.2.2⟩
  go {s m} h h1 h2 := ⟨forward_go h.1 h1 h2, notify_tracker _, at_hush fun k hk => ⟨(h.2 k hk).1, fun g hg => Int.le_trans ((h.2 k hk).2 g hg) h1⟩⟩
  back {s s'} h h' := by
    have h3 := at_hush (b := b) (s := s') (m := s.pos) fun k hk => by
      obtain ⟨h1, h2⟩ := h.2 k (h'.2.1.symm.trans hk)
      exact ⟨h1, by rw [h'.2.2.1]; exact h2⟩
    exact ⟨forward_at h.1 h'.1, (notify_tracker _).trans h'.2.1, h3.1.trans h'.2.2.1, h3.2.trans h'.2.2.2⟩
  cells _ _ _ _ h := h
  janus _ _ _ _ h := h
  pick hp := (hP _ hp).elim
  map hp := (hP _ hp).elim
  enter _ h := h
  leave _ _ _ h := h
  wrap hp := (hP _ hp).elim
  body {s s' c t n str e sub} _ hs h hstr _ h3 := by
    have h4 := h3 ⟨new_inside _ _, fun k hk => by simp [Scanner.new] at hk⟩
    refine ⟨⟨h.1, h.2.1, h4.2.2.1.trans h.2.2.1, h4.2.2.2.trans h.2.2.2⟩, fun _ => ?_⟩
    have h5 := at_hush (b := b) (s := sub) (m := 0) fun k hk => by
      rw [h4.2.1] at hk
      simp [Scanner.new] at hk
    exact ⟨h.1, h.2.1, h5.1.trans (h4.2.2.1.trans h.2.2.1), h5.2.trans (h4.2.2.2.trans h.2.2.2)⟩

/-! ### taking reads apart -/

section
variable {rt : Rt} {G : Env} {n : Nat} {s s' : Scanner}

theorem seqLoop_none {rd : Reader → ReadFunc} {r : Reader} {rs : List Reader} (h : seqLoop rd (r :: rs) s = .ret (none, s')) :
    ∃ s1, rd r s = .ret (none, s1) ∧ seqLoop rd rs s1 = .ret (none, s') := by
  rw [seqLoop] at h
  rcases hx : rd r s with ⟨_ | e, s1⟩ | _ | _ <;> rw [hx] at h
  · exact ⟨s1, rfl, h⟩
  all_goals cases h

theorem seqLoop_some {rd : Reader → ReadFunc} {r : Reader} {rs : List Reader} {e : Err} (h : seqLoop rd (r :: rs) s = .ret (some e, s')) :
    rd r s = .ret (some e, s') ∨ ∃ s1, rd r s = .ret (none, s1) ∧ seqLoop rd rs s1 = .ret (some e, s') := by
  rw [seqLoop] at h
  rcases hx : rd r s with ⟨_ | e, s1⟩ | _ | _ <;> rw [hx] at h
  · exact .inr ⟨s1, rfl, h⟩
  · cases h; exact .inl rfl
  all_goals cases h

theorem read_rule_inv {i : Nat} {nm : Bytes} {c : Reader} (hi : G[i]? = some ⟨nm, some c⟩) {e : Option Err} (h : read rt G n (.rule i) s = .ret (e, s')) :
    ∃ m, read rt G m c s = .ret (e, s') := by
  cases n with
  | zero => cases h
  | succ n =>
    simp only [read, hi] at h
    exact ⟨n, h⟩

theorem read_seq_none {rs : List Reader} (h : read rt G n (.seq rs) s = .ret (none, s')) : ∃ m, seqLoop (read rt G m) rs s = .ret (none, s') := by
  cases n with
  | zero => cases h
  | succ n =>
    simp only [read] at h
    refine ⟨n, ?_⟩
    rcases hx : seqLoop (read rt G n) rs s with ⟨_ | e, s1⟩ | _ | _ <;> rw [hx] at h
    · exact h
    all_goals cases h

theorem read_seq_some {rs : List Reader} {e : Err} (h : read rt G n (.seq rs) s = .ret (some e, s')) :
    ∃ m s1, seqLoop (read rt G m) rs s = .ret (some e, s1) ∧ s' = (s1.toMarker s.pos).2 := by
  cases n with
  | zero => cases h
  | succ n =>
    simp only [read] at h
    rcases hx : seqLoop (read rt G n) rs s with ⟨_ | e, s1⟩ | _ | _ <;> rw [hx] at h
    · cases h
    · cases h
      exact ⟨n, s1, hx, rfl⟩
    all_goals cases h

theorem read_map_inv {f : Nat} {c : Reader} {e : Option Err} (h : read rt G n (.map f c) s = .ret (e, s')) :
    ∃ m s1, read rt G m c s = .ret (e, s1) ∧ match e with
      | none => s' = s1.addMap f (makeToken s.pos s1.pos)
      | some _ => s' = (s1.toMarker s.pos).2 := by
  cases n with
  | zero => cases h
  | succ n =>
    simp only [read, Scanner.tokenizeUse] at h
    rcases hx : read rt G n c s with ⟨_ | e, s1⟩ | _ | _ <;> rw [hx] at h
    · cases h
      exact ⟨n, s1, hx, rfl⟩
    · cases h
      exact ⟨n, s1, hx, rfl⟩
    all_goals cases h

theorem read_pick_none {i : Bytes} {b : Nat} {c : Reader} (h : read rt G n (.pick i b c) s = .ret (none, s')) :
    ∃ m s1, read rt G m c s = .ret (none, s1) ∧ s' = s1.addPick i b (makeToken s.pos s1.pos) := by
  cases n with
  | zero => cases h
  | succ n =>
    simp only [read, Scanner.tokenizeUse] at h
    rcases hx : read rt G n c s with ⟨_ | e, s1⟩ | _ | _ <;> rw [hx] at h
    · cases h
      exact ⟨n, s1, hx, rfl⟩
    all_goals cases h

theorem read_pick_some {i : Bytes} {b : Nat} {c : Reader} {e : Err} (h : read rt G n (.pick i b c) s = .ret (some e, s')) :
    ∃ m s1, read rt G m c s = .ret (some e, s1) ∧ s' = (s1.toMarker s.pos).2 := by
  cases n with
  | zero => cases h
  | succ n =>
    simp only [read, Scanner.tokenizeUse] at h
    rcases hx : read rt G n c s with ⟨_ | e, s1⟩ | _ | _ <;> rw [hx] at h
    · cases h
    · cases h
      exact ⟨n, s1, hx, rfl⟩
    all_goals cases h

theorem read_any2_some {a c : Reader} {e : Err} (h : read rt G n (.any [a, c]) s = .ret (some e, s')) :
    ∃ m e1 s1 e2 s2, read rt G m a s = .ret (some e1, s1) ∧ read rt G m c s1 = .ret (some e2, s2) ∧ s' = (s2.toMarker s.pos).2 := by
  cases n with
  | zero => cases h
  | succ n =>
    simp only [read, anyLoop] at h
    rcases hx : read rt G n a s with ⟨_ | e1, s1⟩ | _ | _ <;> rw [hx] at h
    · cases h
    · simp only [Exec.bind_ret] at h
      rcases hy : read rt G n c s1 with ⟨_ | e2, s2⟩ | _ | _ <;> rw [hy] at h
      · cases h
      · cases h
        exact ⟨n, e1, s1, e2, s2, hx, hy, rfl⟩
      all_goals cases h
    all_goals cases h

theorem read_any2_none {a c : Reader} (h : read rt G n (.any [a, c]) s = .ret (none, s')) :
    ∃ m, read rt G m a s = .ret (none, s') ∨ ∃ e s1, read rt G m a s = .ret (some e, s1) ∧ read rt G m c s1 = .ret (none, s') := by
  cases n with
  | zero => cases h
  | succ n =>
    simp only [read, anyLoop] at h
    refine ⟨n, ?_⟩
    rcases hx : read rt G n a s with ⟨_ | e, s1⟩ | _ | _ <;> rw [hx] at h
    · cases h; exact .inl rfl
    · refine .inr ⟨e, s1, rfl, ?_⟩
      simp only [Exec.bind_ret] at h
      rcases hy : read rt G n c s1 with ⟨_ | e', s2⟩ | _ | _ <;> rw [hy] at h
      · cases h; rfl
      all_goals cases h
    all_goals cases h

end

namespace Mxt

/-- The rules of which no part picks or calls. -/
def hushRules : List Nat := [iMarker, iNextMarker, iComment, iArrow, iSalt, iWord, iWordChar, iNL]

def hushB : Reader → Bool
  | .pick _ _ _ => false
  | .map _ _ => false
  | .wrap _ _ => false
  | .rule i => hushRules.contains i
  | _ => true

/-- Names and contents are picked, and the three functions are called. -/
def both : Env := Env.pickSome [iName, iContent] 0 0 mapped

theorem hush_rules (i : Nat) (nm : Bytes) (c : Reader) (hi : hushB (.rule i) = true) (hg : both[i]? = some ⟨nm, some c⟩) : c.Every fun r => hushB r = true := by
  have : i = 3 ∨ i = 4 ∨ i = 6 ∨ i = 7 ∨ i = 8 ∨ i = 11 ∨ i = 12 ∨ i = 13 := by
    simpa [hushB, hushRules, iMarker, iNextMarker, iComment, iArrow, iSalt, iWord, iWordChar, iNL] using hi
  rcases this with rfl | rfl | rfl | rfl | rfl | rfl | rfl | rfl <;> cases hg <;> exact Reader.everyB_sound _ _ (by decide)

theorem hushB_ok : ∀ r, hushB r = true → match r with | .pick _ _ _ => False | .map _ _ => False | .wrap _ _ => False | _ => True := by
  intro r h
  cases r <;> first | trivial | (cases h; done)

theorem hushed {rt : Rt} {n : Nat} {r : Reader} (hr : r.everyB hushB = true) {s s' : Scanner} {e : Option Err} (hs : Tuned 0 s) (h : read rt both n r s = .ret (e, s')) :
    Hush 0 s s' :=
  (hush_frame rt both 0 (fun r => hushB r = true) hushB_ok).read hush_rules n r (Reader.everyB_sound _ _ hr) s hs _ h

/-- The segments of the calls. -/
def segsOf (ts : List (Nat × Token)) : List Segment :=
  ts.filterMap fun c => if c.1 = 0 then some ⟨b!"name", c.2⟩ else if c.1 = 2 then some ⟨b!"content", c.2⟩ else none

theorem segsOf_append (a b : List (Nat × Token)) : segsOf (a ++ b) = segsOf a ++ segsOf b := List.filterMap_append

/-- A read with these calls that left their segments in the basket. -/
structure Heard (s s' : Scanner) (ts : List (Nat × Token)) : Prop where
  fwd : Forward s s'
  tracker : s'.tracker = s.tracker
  maps : s'.heap.maps = s.heap.maps ++ ts
  basket : s'.heap.baskets 0 = s.heap.baskets 0 ++ segsOf ts
  within : ∀ g ∈ segsOf ts, s.pos ≤ g.tok.frm ∧ g.tok.frm ≤ g.tok.to ∧ g.tok.to ≤ s'.pos
  row : Rowed (segsOf ts)
  tokens : ∀ c ∈ ts, c.2.to ≤ s'.pos

theorem Heard.of {s s' : Scanner} (h : Hush 0 s s') : Heard s s' [] :=
  ⟨h.1, h.2.1, by simp [h.2.2.2], by simp [h.2.2.1, segsOf], by simp [segsOf], .nil, by simp⟩

theorem Heard.trans {s s1 s2 : Scanner} {a b : List (Nat × Token)} (h : Heard s s1 a) (h' : Heard s1 s2 b) : Heard s s2 (a ++ b) where
  fwd := h.fwd.trans h'.fwd
  tracker := h'.tracker.trans h.tracker
  maps := by rw [h'.maps, h.maps, List.append_assoc]
  basket := by rw [h'.basket, h.basket, segsOf_append, List.append_assoc]
  within g hg := by
    rw [segsOf_append] at hg
    have h1 := h.fwd.2.2
    have h2 := h'.fwd.2.2
    rcases List.mem_append.mp hg with hg | hg
    · have := h.within g hg
      exact ⟨this.1, this.2.1, by omega⟩
    · have := h'.within g hg
      exact ⟨by omega, this.2.1, this.2.2⟩
  row := by
    rw [segsOf_append]
    exact List.pairwise_append.mpr ⟨h.row, h'.row, fun x hx y hy => Int.le_trans (h.within x hx).2.2 (h'.within y hy).1⟩
  tokens c hc := by
    rcases List.mem_append.mp hc with hc | hc
    · exact Int.le_trans (h.tokens c hc) h'.fwd.2.2
    · exact h'.tokens c hc

theorem Heard.tuned {s s' : Scanner} {ts : List (Nat × Token)} (h : Heard s s' ts) (hs : Tuned 0 s) : Tuned 0 s' := by
  refine ⟨h.fwd.1, fun k hk => ?_⟩
  obtain ⟨h1, h2⟩ := hs.2 k (h.tracker.symm.trans hk)
  refine ⟨h1, fun g hg => ?_⟩
  rw [h.basket] at hg
  rcases List.mem_append.mp hg with hg | hg
  · exact Int.le_trans (h2 g hg) h.fwd.2.2
  · exact (h.within g hg).2.2

variable {rt : Rt} {n : Nat} {s s' : Scanner}

/-- A name or a content. -/
theorem heard_pick {i : Nat} {nm : Bytes} {f : Nat} {c : Reader} (hi : both[i]? = some ⟨nm, some (.pick nm 0 (.map f c))⟩) (hc : c.everyB hushB = true)
    (hf : ∀ t, segsOf [(f, t)] = [⟨nm, t⟩]) (hs : Tuned 0 s) (h : read rt both n (.rule i) s = .ret (none, s')) : ∃ ts, Heard s s' ts := by
  obtain ⟨m, h⟩ := read_rule_inv hi h
  obtain ⟨m, s1, h1, rfl⟩ := read_pick_none h
  obtain ⟨m, s2, h0, h2⟩ := read_map_inv h1
  simp only at h2
  subst h2
  have h3 := hushed hc hs h0
  have h4 : makeToken s.pos s2.pos = ⟨s.pos, s2.pos⟩ := by
    have := h3.1.2.2
    unfold makeToken
    rw [if_neg (by omega)]
  have h5 : makeToken s.pos (s2.addMap f (makeToken s.pos s2.pos)).pos = ⟨s.pos, s2.pos⟩ := h4
  refine ⟨[(f, ⟨s.pos, s2.pos⟩)], h3.1, h3.2.1, ?_, ?_, ?_, ?_, ?_⟩
  · rw [h4]
    show s2.heap.maps ++ _ = _
    rw [h3.2.2.2]
  · rw [h5, hf]
    show upd s2.heap.baskets 0 _ 0 = _
    rw [upd_self]
    show s2.heap.baskets 0 ++ _ = _
    rw [h3.2.2.1]
  · rw [hf]
    intro g hg
    obtain rfl := List.mem_singleton.mp hg
    exact ⟨Int.le_refl _, h3.1.2.2, Int.le_refl _⟩
  · rw [hf]
    exact List.pairwise_singleton _ _
  · intro c hc
    obtain rfl := List.mem_singleton.mp hc
    exact Int.le_refl _

theorem heard_empty (hs : Tuned 0 s) {e : Option Err} (h : read rt both n (.rule iEmptyContent) s = .ret (e, s')) : ∃ ts, Heard s s' ts := by
  obtain ⟨m, h⟩ := read_rule_inv (i := iEmptyContent) rfl h
  obtain ⟨m, s1, h, h2⟩ := read_map_inv h
  have h3 := hushed (by decide) hs h
  cases e with
  | none =>
    simp only at h2
    subst h2
    exact ⟨[(1, makeToken s.pos s1.pos)], h3.1, h3.2.1, by show s1.heap.maps ++ _ = _; rw [h3.2.2.2], by
      show s1.heap.baskets 0 = _
      simp [segsOf, h3.2.2.1], by simp [segsOf], by simp [segsOf, Rowed], by
      intro c hc
      obtain rfl := List.mem_singleton.mp hc
      have := h3.1.2.2
      show (makeToken s.pos s1.pos).to ≤ s1.pos
      unfold makeToken
      rw [if_neg (by omega)]
      exact Int.le_refl _⟩
  | some e =>
    simp only at h2
    subst h2
    exact ⟨[], .of ((hush_frame rt both 0 (fun r => hushB r = true) hushB_ok).toMarker hs h3)⟩

theorem heard_header (hs : Tuned 0 s) (h : read rt both n (.rule iHeader) s = .ret (none, s')) : ∃ ts, Heard s s' ts := by
  obtain ⟨m, h⟩ := read_rule_inv (i := iHeader) rfl h
  obtain ⟨m, h⟩ := read_seq_none h
  obtain ⟨s1, h1, h⟩ := seqLoop_none h
  obtain ⟨s2, h2, h⟩ := seqLoop_none h
  obtain ⟨s3, h3, h⟩ := seqLoop_none h
  obtain ⟨s4, h4, h⟩ := seqLoop_none h
  obtain ⟨s5, h5, h⟩ := seqLoop_none h
  obtain ⟨s6, h6, h⟩ := seqLoop_none h
  cases h
  have k1 := Heard.of (hushed (by decide) hs h1)
  have t1 := k1.tuned hs
  have k2 := Heard.of (hushed (by decide) t1 h2)
  have t2 := k2.tuned t1
  obtain ⟨ts, k3⟩ := heard_pick (i := iName) (nm := b!"name") (f := 0) (c := .rule iWord) rfl (by decide) (fun _ => rfl) t2 h3
  have t3 := k3.tuned t2
  have k4 := Heard.of (hushed (by decide) t3 h4)
  have t4 := k4.tuned t3
  have k5 := Heard.of (hushed (by decide) t4 h5)
  have t5 := k5.tuned t4
  have k6 := Heard.of (hushed (by decide) t5 h6)
  exact ⟨_, k1.trans (k2.trans (k3.trans (k4.trans (k5.trans k6))))⟩

theorem heard_chunk (hs : Tuned 0 s) (h : read rt both n (.rule iChunk) s = .ret (none, s')) : ∃ ts, Heard s s' ts := by
  obtain ⟨m, h⟩ := read_rule_inv (i := iChunk) rfl h
  obtain ⟨m, h⟩ := read_seq_none h
  obtain ⟨s1, h1, h⟩ := seqLoop_none h
  obtain ⟨s2, h2, h⟩ := seqLoop_none h
  cases h
  obtain ⟨ts, k1⟩ := heard_header hs h1
  have t1 := k1.tuned hs
  obtain ⟨m, h2 | ⟨e, s3, h2, h3⟩⟩ := read_any2_none h2
  · obtain ⟨us, k2⟩ := heard_empty t1 h2
    exact ⟨_, k1.trans k2⟩
  · obtain ⟨us, k2⟩ := heard_empty t1 h2
    have t2 := k2.tuned t1
    obtain ⟨m, h3⟩ := read_seq_none h3
    obtain ⟨s4, h4, h⟩ := seqLoop_none h3
    obtain ⟨s5, h5, h⟩ := seqLoop_none h
    cases h
    have k3 := Heard.of (hushed (by decide) t2 h4)
    have t3 := k3.tuned t2
    obtain ⟨vs, k4⟩ := heard_pick (i := iContent) (nm := b!"content") (f := 2) (c := .to (.any [.rule iNextMarker, .atEnd])) rfl (by decide) (fun _ => rfl) t3 h5
    exact ⟨_, k1.trans (k2.trans (k3.trans k4))⟩

/-- A read with a basket; what it added to the basket or called for ends behind the place where it began. -/
structure Held (s s' : Scanner) : Prop where
  fwd : Forward s s'
  tracker : s'.tracker = s.tracker
  basket : ∃ l, s'.heap.baskets 0 = s.heap.baskets 0 ++ l ∧ ∀ g ∈ l, s.pos < g.tok.to ∧ g.tok.to ≤ s'.pos
  maps : ∃ ts, s'.heap.maps = s.heap.maps ++ ts ∧ ∀ c ∈ ts, s.pos < c.2.to

theorem Held.of {s s' : Scanner} (h : Hush 0 s s') : Held s s' := ⟨h.1, h.2.1, ⟨[], by simp [h.2.2.1]⟩, [], by simp [h.2.2.2]⟩

theorem Held.trans {s s1 s2 : Scanner} (h : Held s s1) (h' : Held s1 s2) : Held s s2 := by
  obtain ⟨l, h1, h2⟩ := h.basket
  obtain ⟨l', h1', h2'⟩ := h'.basket
  obtain ⟨ts, h3, h4⟩ := h.maps
  obtain ⟨ts', h3', h4'⟩ := h'.maps
  have f1 := h.fwd.2.2
  have f2 := h'.fwd.2.2
  refine ⟨h.fwd.trans h'.fwd, h'.tracker.trans h.tracker, ⟨l ++ l', by rw [h1', h1, List.append_assoc], fun g hg => ?_⟩, ts ++ ts', by rw [h3', h3, List.append_assoc], fun c hc => ?_⟩
  · rcases List.mem_append.mp hg with hg | hg
    · have := h2 g hg
      omega
    · have := h2' g hg
      omega
  · rcases List.mem_append.mp hc with hc | hc
    · exact h4 c hc
    · have := h4' c hc
      omega

/-- The scanner tracks the basket. -/
def Bound (s : Scanner) : Prop := Tuned 0 s ∧ s.tracker = some (.basket 0)

theorem Held.bound {s s' : Scanner} (h : Held s s') (hs : Bound s) : Bound s' := by
  obtain ⟨l, h1, h2⟩ := h.basket
  refine ⟨⟨h.fwd.1, fun k hk => ?_⟩, h.tracker.trans hs.2⟩
  obtain ⟨rfl, h3⟩ := hs.1.2 k (h.tracker.symm.trans hk)
  refine ⟨rfl, fun g hg => ?_⟩
  rw [h1] at hg
  rcases List.mem_append.mp hg with hg | hg
  · exact Int.le_trans (h3 g hg) h.fwd.2.2
  · exact (h2 g hg).2

/-- A read that is back where it began, with the same basket. -/
structure Kept (s s' : Scanner) (us : List (Nat × Token)) : Prop where
  full : s'.full = s.full
  pos : s'.pos = s.pos
  tracker : s'.tracker = s.tracker
  basket : s'.heap.baskets 0 = s.heap.baskets 0
  maps : s'.heap.maps = s.heap.maps ++ us
  tokens : ∀ c ∈ us, s.pos < c.2.to

theorem cut_drops {m : Int} : ∀ {l p : List Segment}, (∀ g ∈ l, m < g.tok.to) → basketCut m (l ++ p) = basketCut m p
  | [], _, _ => rfl
  | g :: l, p, h => by
    rw [List.cons_append, basketCut, if_neg (by have := h g List.mem_cons_self; omega)]
    exact cut_drops fun g hg => h g (List.mem_cons_of_mem _ hg)

theorem update_drops {m : Int} {p l : List Segment} (hp : ∀ g ∈ p, g.tok.to ≤ m) (hl : ∀ g ∈ l, m < g.tok.to) : basketUpdate m (p ++ l) = p := by
  unfold basketUpdate
  rw [List.reverse_append, cut_drops (by simpa using hl)]
  exact basketUpdate_self hp

theorem Held.back {s s' : Scanner} (hs : Bound s) (h : Held s s') : ∃ us, Kept s (s'.toMarker s.pos).2 us := by
  obtain ⟨l, h1, h2⟩ := h.basket
  obtain ⟨ts, h3, h4⟩ := h.maps
  rw [toMarker_at hs.1.1.1]
  rcases Mute.at_cases s' s.pos with ⟨tk, h5, _⟩ | ⟨k, h5, h6⟩
  · exact absurd (h.tracker.trans hs.2) (h5 0)
  · obtain ⟨rfl, h7⟩ := hs.1.2 k (h.tracker.symm.trans h5)
    rw [h6]
    refine ⟨ts, h.fwd.2.1, rfl, h.tracker, ?_, h3, h4⟩
    show upd s'.heap.baskets 0 (basketUpdate s.pos (s'.heap.baskets 0)) 0 = _
    rw [upd_self, h1]
    exact update_drops h7 fun g hg => (h2 g hg).1

theorem Kept.held {s s' : Scanner} {us : List (Nat × Token)} (hs : Bound s) (h : Kept s s' us) : Held s s' :=
  ⟨⟨⟨by rw [h.pos]; exact hs.1.1.1, by rw [h.pos, h.full]; exact hs.1.1.2⟩, h.full, by rw [h.pos]; exact Int.le_refl _⟩, h.tracker, ⟨[], by simp [h.basket]⟩, us, h.maps, h.tokens⟩

/-- All reads of the reader are like that. -/
def Good (rt : Rt) (r : Reader) : Prop := ∀ n s e s', Bound s → read rt both n r s = .ret (e, s') → Held s s'

theorem Good.of {rt : Rt} {r : Reader} (hr : r.everyB hushB = true) : Good rt r := fun _ _ _ _ hs h => .of (hushed hr hs.1 h)

theorem seqLoop_held {rt : Rt} {n : Nat} : ∀ {rs : List Reader} {s : Scanner} {e : Option Err} {s' : Scanner}, (∀ r ∈ rs, Good rt r) → Bound s →
    seqLoop (read rt both n) rs s = .ret (e, s') → Held s s'
  | [], s, e, s', _, hs, h => by
    cases h
    exact .of ⟨Forward.refl hs.1.1, rfl, rfl, rfl⟩
  | r :: rs, s, e, s', hr, hs, h => by
    rw [seqLoop] at h
    rcases hx : read rt both n r s with ⟨_ | e, s1⟩ | _ | _ <;> rw [hx] at h
    · have h1 := hr r List.mem_cons_self _ _ _ _ hs hx
      exact h1.trans (seqLoop_held (fun r h => hr r (List.mem_cons_of_mem _ h)) (h1.bound hs) h)
    · cases h
      exact hr r List.mem_cons_self _ _ _ _ hs hx
    all_goals cases h

theorem Good.seq {rt : Rt} {rs : List Reader} (hr : ∀ r ∈ rs, Good rt r) : Good rt (.seq rs) := by
  intro n s e s' hs h
  cases e with
  | none =>
    obtain ⟨m, h⟩ := read_seq_none h
    exact seqLoop_held hr hs h
  | some e =>
    obtain ⟨m, s1, h1, rfl⟩ := read_seq_some h
    obtain ⟨us, h2⟩ := (seqLoop_held hr hs h1).back hs
    exact h2.held hs

theorem Good.rule {rt : Rt} {i : Nat} {nm : Bytes} {c : Reader} (hi : both[i]? = some ⟨nm, some c⟩) (hc : Good rt c) : Good rt (.rule i) := by
  intro n s e s' hs h
  obtain ⟨m, h⟩ := read_rule_inv hi h
  exact hc _ _ _ _ hs h

/-- A name or a content that cannot be read. -/
theorem pick_fails {i : Nat} {nm : Bytes} {f : Nat} {c : Reader} (hi : both[i]? = some ⟨nm, some (.pick nm 0 (.map f c))⟩) (hc : c.everyB hushB = true) {e : Err}
    (hs : Tuned 0 s) (h : read rt both n (.rule i) s = .ret (some e, s')) : Hush 0 s s' := by
  have F := hush_frame rt both 0 (fun r => hushB r = true) hushB_ok
  obtain ⟨m, h⟩ := read_rule_inv hi h
  obtain ⟨m, s1, h1, rfl⟩ := read_pick_some h
  obtain ⟨m, s2, h0, h2⟩ := read_map_inv h1
  simp only at h2
  subst h2
  exact F.toMarker hs (F.toMarker hs (hushed hc hs h0))

theorem word_moves (hs : Inside s) (h : read rt both n (.rule iWord) s = .ret (none, s')) : s.pos < s'.pos := by
  obtain ⟨m, h⟩ := read_rule_inv (i := iWord) rfl h
  have hE : both.Every (fun r => r.noWrap = true) := Env.everyB_sound (by decide)
  refine read_moves rt (nul := fun i => i != iWordChar) hE ?_ (Reader.everyB_sound _ _ (by decide)) (by decide) hs h
  intro i nm c hi hg
  by_cases h0 : i = iWordChar
  · subst h0
    cases hi
    exact absurd hg (by decide)
  · simp [h0]

theorem good_name : Good rt (.rule iName) := by
  intro n s e s' hs h
  cases e with
  | some e => exact .of (pick_fails (i := iName) (nm := b!"name") (f := 0) (c := .rule iWord) rfl (by decide) hs.1 h)
  | none =>
    obtain ⟨m, h⟩ := read_rule_inv (i := iName) rfl h
    obtain ⟨m, s1, h1, rfl⟩ := read_pick_none h
    obtain ⟨m, s2, h0, h2⟩ := read_map_inv h1
    simp only at h2
    subst h2
    have h3 := hushed (by decide) hs.1 h0
    have h4 := word_moves hs.1.1 h0
    have h5 : makeToken s.pos s2.pos = ⟨s.pos, s2.pos⟩ := by
      unfold makeToken
      rw [if_neg (by omega)]
    have h6 : makeToken s.pos (s2.addMap 0 (makeToken s.pos s2.pos)).pos = ⟨s.pos, s2.pos⟩ := h5
    rw [h6, h5]
    refine ⟨h3.1, h3.2.1, ⟨[⟨b!"name", ⟨s.pos, s2.pos⟩⟩], ?_, fun g hg => ?_⟩, [(0, ⟨s.pos, s2.pos⟩)], ?_, fun c hc => ?_⟩
    · show upd s2.heap.baskets 0 _ 0 = _
      rw [upd_self]
      show s2.heap.baskets 0 ++ _ = _
      rw [h3.2.2.1]
      rfl
    · obtain rfl := List.mem_singleton.mp hg
      exact ⟨h4, Int.le_refl _⟩
    · show s2.heap.maps ++ _ = _
      rw [h3.2.2.2]
    · obtain rfl := List.mem_singleton.mp hc
      exact h4

theorem good_header : Good rt (.rule iHeader) := by
  refine .rule (i := iHeader) rfl (.seq fun r hr => ?_)
  simp only [List.mem_cons, List.not_mem_nil, or_false] at hr
  rcases hr with rfl | rfl | rfl | rfl | rfl | rfl
  · exact .of (by decide)
  · exact .of (by decide)
  · exact good_name
  · exact .of (by decide)
  · exact .of (by decide)
  · exact .of (by decide)

theorem chunk_fails (hs : Bound s) {e : Err} (h : read rt both n (.rule iChunk) s = .ret (some e, s')) : Held s s' := by
  have F := hush_frame rt both 0 (fun r => hushB r = true) hushB_ok
  obtain ⟨m, h⟩ := read_rule_inv (i := iChunk) rfl h
  obtain ⟨m, s1, h1, rfl⟩ := read_seq_some h
  suffices Held s s1 by
    obtain ⟨us, h2⟩ := this.back hs
    exact h2.held hs
  rcases seqLoop_some h1 with h1 | ⟨s2, h2, h1⟩
  · exact good_header _ _ _ _ hs h1
  have k2 := good_header _ _ _ _ hs h2
  have b2 := k2.bound hs
  rcases seqLoop_some h1 with h1 | ⟨s3, _, h1⟩
  · refine k2.trans (.of ?_)
    obtain ⟨m, e1, s3, e2, s4, h3, h4, rfl⟩ := read_any2_some h1
    have k3 : Hush 0 s2 s3 := by
      obtain ⟨m, h3⟩ := read_rule_inv (i := iEmptyContent) rfl h3
      obtain ⟨m, s5, h5, h6⟩ := read_map_inv h3
      simp only at h6
      subst h6
      exact F.toMarker b2.1 (hushed (by decide) b2.1 h5)
    have b3 := F.inv b2.1 k3
    obtain ⟨m, s5, h5, rfl⟩ := read_seq_some h4
    have k5 : Hush 0 s3 s5 := by
      rcases seqLoop_some h5 with h6 | ⟨s6, h6, h5⟩
      · exact hushed (by decide) b3 h6
      · have k6 := hushed (by decide) b3 h6
        have b6 := F.inv b3 k6
        rcases seqLoop_some h5 with h7 | ⟨s7, _, h5⟩
        · exact F.trans b3 k6 (pick_fails (i := iContent) (nm := b!"content") (f := 2) (c := .to (.any [.rule iNextMarker, .atEnd])) rfl (by decide) b6 h7)
        · cases h5
    exact F.toMarker b2.1 (F.trans b2.1 k3 (F.toMarker b3 k5))
  · cases h1

theorem heard_rest : ∀ (k : Nat) {s s' : Scanner}, Bound s → zomLoop (read rt both n (.seq [.rule iNL, .rule iChunk])) k s = .ret s' →
    ∃ s1 ts us, Heard s s1 ts ∧ Kept s1 s' us
  | 0, _, _, _, h => by cases h
  | k + 1, s, s', hs, h => by
    rw [zomLoop] at h
    rcases hx : read rt both n (.seq [.rule iNL, .rule iChunk]) s with ⟨_ | e, s1⟩ | _ | _ <;> rw [hx] at h
    · simp only [Exec.bind_ret] at h
      obtain ⟨m, h1⟩ := read_seq_none hx
      obtain ⟨s2, h2, h1⟩ := seqLoop_none h1
      obtain ⟨s3, h3, h1⟩ := seqLoop_none h1
      cases h1
      have k1 := Heard.of (hushed (by decide) hs.1 h2)
      have t1 := k1.tuned hs.1
      obtain ⟨ts, k2⟩ := heard_chunk t1 h3
      obtain ⟨s4, us, vs, k3, k4⟩ := heard_rest k ⟨k2.tuned t1, k2.tracker.trans (k1.tracker.trans hs.2)⟩ h
      exact ⟨s4, _, vs, k1.trans (k2.trans k3), k4⟩
    · cases h
      obtain ⟨m, s2, h1, rfl⟩ := read_seq_some hx
      have k1 : Held s s2 := by
        rcases seqLoop_some h1 with h2 | ⟨s3, h2, h1⟩
        · exact .of (hushed (by decide) hs.1 h2)
        · have k2 := Held.of (hushed (by decide) hs.1 h2)
          rcases seqLoop_some h1 with h3 | ⟨s4, _, h1⟩
          · exact k2.trans (chunk_fails (k2.bound hs) h3)
          · cases h1
      obtain ⟨us, h2⟩ := k1.back hs
      exact ⟨s, [], us, .of ⟨Forward.refl hs.1.1, rfl, rfl, rfl⟩, h2⟩
    all_goals cases h

/-- A successful read: the basket holds a segment for each name and content that a function was called for, save for the name in front of which the last chunk ends. -/
theorem heard_all (hs : Bound s) (h : read rt both n Mxt.reader s = .ret (none, s')) : ∃ s1 ts us, Heard s s1 ts ∧ Kept s1 s' us := by
  cases n with
  | zero => cases h
  | succ n =>
    simp only [Mxt.reader, read] at h
    rcases hx : read rt both n (.rule iChunks) s with ⟨_ | e, s1⟩ | _ | _ <;> rw [hx] at h
    · cases h
      obtain ⟨m, h⟩ := read_rule_inv (i := iChunks) rfl hx
      obtain ⟨m, h⟩ := read_seq_none h
      obtain ⟨s1, h1, h⟩ := seqLoop_none h
      obtain ⟨s2, h2, h⟩ := seqLoop_none h
      cases h
      obtain ⟨ts, k1⟩ := heard_chunk hs.1 h1
      cases m with
      | zero => cases h2
      | succ m =>
        replace h2 : read rt both (m + 1) (.zom (.seq [.rule iNL, .rule iChunk])) s1 = .ret (none, _) := h2
        simp only [read] at h2
        rcases hy : zomLoop (read rt both m (.seq [.rule iNL, .rule iChunk])) m s1 with s3 | _ | _ <;> rw [hy] at h2
        · cases h2
          obtain ⟨s4, us, vs, k2, k3⟩ := heard_rest m ⟨k1.tuned hs.1, k1.tracker.trans hs.2⟩ hy
          exact ⟨s4, _, vs, k1.trans k2, k3⟩
        all_goals cases h2
    all_goals cases h

end Mxt
end Tok
