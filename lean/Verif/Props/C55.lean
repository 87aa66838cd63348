/-
C55 Value readers hold what they read.
-/
import Verif.Proofs.Basket
import Verif.Proofs.Gives
import Verif.Props.C18
import Verif.Props.C22

namespace Tok
open Spec

theorem notify_cells (s : Scanner) : s.notify.heap.cells = s.heap.cells := by
  unfold Scanner.notify
  split <;> rfl

/-- Readers other than those of the field `k`. -/
def Reader.noCell (k : Nat) (r : Reader) : Prop := (∀ w f, r ≠ .wrap w f) ∧ r.cell ≠ some k

theorem cell_frame (rt : Rt) (G : Env) (k : Nat) : Frame rt G (Reader.noCell k) Inside (fun s s' => Forward s s' ∧ s'.heap.cells k = s.heap.cells k) where
  inside h := h
  fwd _ h := h.1
  inv _ h := h.1.1
  refl h := ⟨Forward.refl h, rfl⟩
  trans _ h h' := ⟨h.1.trans h'.1, h'.2.trans h.2⟩
  go h h1 h2 := ⟨forward_go h h1 h2, by rw [Scanner.at, notify_cells]⟩
  back h h' := ⟨forward_at h h'.1, by rw [Scanner.at, notify_cells]; exact h'.2⟩
  cells i v := fun ⟨r, hr, hi⟩ _ h => ⟨h.1, by
    show upd _ _ _ k = _
    rw [upd_ne _ _ (fun e => hr.2 (by rw [hi, e]))]
    exact h.2⟩
  janus _ _ _ _ h := h
  pick _ _ _ h := h
  map _ _ h := h
  enter _ h := h
  leave _ _ _ h := h
  wrap hp _ := (hp.1 _ _ rfl).elim
  body _ h h' _ h2 h3 := by
    have hsub := h3 (new_inside _ _)
    refine ⟨⟨h'.1, hsub.2.trans h'.2⟩, fun _ => ⟨h'.1, ?_⟩⟩
    show (Scanner.at _ 0).heap.cells k = _
    rw [Scanner.at, notify_cells]
    exact hsub.2.trans h'.2

/-- The field of a value reader is changed by no read in which that reader takes no part. -/
theorem C55_own (rt : Rt) (G : Env) (k n : Nat) (r : Reader) (hr : r.Every (Reader.noCell k)) (hG : G.Every (Reader.noCell k)) (s s' : Scanner) (e : Option Err) (hs : Inside s)
    (h : read rt G n r s = .ret (e, s')) : s'.heap.cells k = s.heap.cells k :=
  ((cell_frame rt G k).read (fun _ _ _ _ hi => hG.get hi) n r hr s hs _ h).2

/-- `s'` is `s1` with the value `v` in the field `k`, and no other field has changed since `s`. -/
structure Stored (s s1 s' : Scanner) (k : Nat) (v : Cell) : Prop where
  full : s'.full = s1.full
  pos : s'.pos = s1.pos
  tracker : s'.tracker = s1.tracker
  value : s'.heap.cells k = v
  others : ∀ i, i ≠ k → s'.heap.cells i = s.heap.cells i
  rest : { s'.heap with cells := s1.heap.cells } = s1.heap

theorem stored_of {s s1 : Scanner} {k : Nat} {v : Cell} (h : ∀ i, s1.heap.cells i = s.heap.cells i) :
    Stored s s1 { s1 with heap := { s1.heap with cells := upd s1.heap.cells k v } } k v :=
  ⟨rfl, rfl, rfl, upd_self _ _ _, fun i hi => (upd_ne _ _ hi).trans (h i), rfl⟩

/-! ### what the method returns is stored, also when it fails -/

/-- `Bool` does what `ReadBool` does and stores its value. -/
theorem C55_bool (rt : Rt) (G : Env) (n k : Nat) (f : Bytes) (s s1 : Scanner) (hs : Inside s) (v : Bool) (e : Option Err) (h : s.readBool f = .ret ((v, e), s1)) :
    ∃ s', read rt G (n + 1) (.bool k f) s = .ret (e, s') ∧ Stored s s1 s' k (.bool v) :=
  ⟨_, by simp only [read, h]; rfl, stored_of fun i => ((cell_frame rt G i).readBool hs f _ h).2⟩

theorem C55_int (rt : Rt) (G : Env) (n k : Nat) (base bits : Int) (s s1 : Scanner) (hs : Inside s) (v : Int) (e : Option Err) (h : s.readInt base bits = .ret ((v, e), s1)) :
    ∃ s', read rt G (n + 1) (.int k base bits) s = .ret (e, s') ∧ Stored s s1 s' k (.int v) :=
  ⟨_, by simp only [read, h]; rfl, stored_of fun i => ((cell_frame rt G i).readInt hs base bits _ h).2⟩

theorem C55_uint (rt : Rt) (G : Env) (n k : Nat) (base bits : Int) (s s1 : Scanner) (hs : Inside s) (v : Nat) (e : Option Err) (h : s.readUint base bits = .ret ((v, e), s1)) :
    ∃ s', read rt G (n + 1) (.uint k base bits) s = .ret (e, s') ∧ Stored s s1 s' k (.uint v) :=
  ⟨_, by simp only [read, h]; rfl, stored_of fun i => ((cell_frame rt G i).readUint hs base bits _ h).2⟩

/-! ### the value is the one that stands in the text -/

/-- A reader of a spelling holds its value. -/
theorem C55_bool_value (rt : Rt) (G : Env) (n k : Nat) (s : Scanner) (h t f sp : Bytes) (v : Bool) (hb : Between s h (sp ++ t)) (hs : BoolSpelling f sp v) :
    ∃ s', read rt G (n + 1) (.bool k f) s = .ret (none, s') ∧ Between s' (h ++ sp) t ∧ s'.heap.cells k = .bool v := by
  obtain ⟨s1, h1, h2⟩ := C21_readBool s h t f sp v hb hs
  obtain ⟨s', h3, h4⟩ := C55_bool rt G n k f s s1 hb.inside v none h1
  exact ⟨s', h3, ⟨h4.full.trans h2.1.1, h4.pos.trans h2.1.2⟩, h4.value⟩

/-- A failing read stores `false`. -/
theorem C55_bool_fail (rt : Rt) (G : Env) (n k : Nat) (s : Scanner) (h t f : Bytes) (hb : Between s h t) (hno : ∀ sp v, BoolSpelling f sp v → ¬ sp <+: t) :
    ∃ e s', read rt G (n + 1) (.bool k f) s = .ret (some e, s') ∧ Between s' h t ∧ s'.heap.cells k = .bool false := by
  obtain ⟨e, h1⟩ := C21_readBool_fail s h t f hb hno
  obtain ⟨s', h3, h4⟩ := C55_bool rt G n k f s s hb.inside false _ h1
  exact ⟨e, s', h3, ⟨h4.full.trans hb.1, h4.pos.trans hb.2⟩, h4.value⟩

/-- A reader of a numeral holds its value. -/
theorem C55_uint_value (rt : Rt) (G : Env) (n k : Nat) (s : Scanner) (h ds rest : Bytes) (base bits v : Nat)
    (hbase : base = 8 ∨ base = 10 ∨ base = 16) (hbits : bits = 8 ∨ bits = 16 ∨ bits = 32)
    (hb : Between s h (ds ++ rest)) (hl : LongestNumeral base (2 ^ bits - 1) (ds ++ rest) ds v) :
    ∃ s', read rt G (n + 1) (.uint k base bits) s = .ret (none, s') ∧ Between s' (h ++ ds) rest ∧ s'.heap.cells k = .uint v := by
  obtain ⟨s1, h1, h2⟩ := C22_readUint s h ds rest base bits v hbase hbits hb hl
  obtain ⟨s', h3, h4⟩ := C55_uint rt G n k base bits s s1 hb.inside v none h1
  exact ⟨s', h3, ⟨h4.full.trans h2.1.1, h4.pos.trans h2.1.2⟩, h4.value⟩

theorem C55_int_value (rt : Rt) (G : Env) (n k : Nat) (s : Scanner) (h sgn ds rest : Bytes) (neg : Bool) (base bits v : Nat)
    (hbase : base = 8 ∨ base = 10 ∨ base = 16) (hbits : bits = 8 ∨ bits = 16 ∨ bits = 32)
    (hb : Between s h (sgn ++ (ds ++ rest))) (hs : Sign sgn neg) (hl : LongestNumeral base (magnitude bits neg) (ds ++ rest) ds v) :
    ∃ s', read rt G (n + 1) (.int k base bits) s = .ret (none, s') ∧ Between s' (h ++ sgn ++ ds) rest ∧ s'.heap.cells k = .int (if neg then -(v : Int) else v) := by
  obtain ⟨s1, h1, h2⟩ := C23_readInt s h sgn ds rest neg base bits v hbase hbits hb hs hl
  obtain ⟨s', h3, h4⟩ := C55_int rt G n k base bits s s1 hb.inside _ none h1
  exact ⟨s', h3, ⟨h4.full.trans h2.1.1, h4.pos.trans h2.1.2⟩, h4.value⟩

/-! ### a failing number reader stores zero -/

theorem readInt_fail (s : Scanner) (base bits : Int) : RetE (fun x => x.1.2.isSome → x.1.1 = 0) (s.readInt base bits) := by
  unfold Scanner.readInt
  split
  · exact .ret fun _ => rfl
  · split
    · exact .ret fun _ => rfl
    · rename_i cf _ _ min max _
      refine RetE.trivial.bind fun a _ _ => ?_
      obtain ⟨minus, s1⟩ := a
      have tailE : ∀ s2 : Scanner, RetE (fun x : (Int × Option Err) × Scanner => x.1.2.isSome → x.1.1 = 0) (do
          let t ← s2.tail
          let (i64, n) := intLoop cf base min max minus (rangeStr t) 0 (-1)
          if n = -1 then
            let s := (s2.toMarker s.mark).2
            pure ((0, some (s.errorFor b!"integer")), s)
          else pure ((i64, none), (s2.move (n + 1)).2)) := by
        intro s2
        refine RetE.trivial.bind fun t _ _ => ?_
        simp only
        split
        · exact .ret fun _ => rfl
        · exact .ret fun h => by cases h
      cases minus
      · exact RetE.trivial.bind fun b _ _ => tailE b.2
      · exact tailE s1

theorem readUint_fail (s : Scanner) (base bits : Int) : RetE (fun x => x.1.2.isSome → x.1.1 = 0) (s.readUint base bits) := by
  unfold Scanner.readUint
  split
  · exact .ret fun _ => rfl
  · split
    · exact .ret fun _ => rfl
    · refine RetE.trivial.bind fun t _ _ => ?_
      simp only
      split
      · exact .ret fun _ => rfl
      · exact .ret fun h => by cases h

/-- A failing `Int` reader holds zero, whatever it held before. -/
theorem C55_int_fail (rt : Rt) (G : Env) (n k : Nat) (base bits : Int) (s s' : Scanner) (e : Err) (h : read rt G n (.int k base bits) s = .ret (some e, s')) :
    s'.heap.cells k = .int 0 := by
  cases n with
  | zero => cases h
  | succ n =>
    simp only [read] at h
    cases hr : s.readInt base bits with
    | ret x =>
      rw [hr] at h
      simp only [Exec.bind_ret, Exec.pure_eq, Exec.ret.injEq, Prod.mk.injEq] at h
      have := readInt_fail s base bits _ hr (by rw [h.1]; rfl)
      rw [← h.2, ← this]
      exact upd_self _ _ _
    | panic => rw [hr] at h; cases h
    | timeout => rw [hr] at h; cases h

theorem C55_uint_fail (rt : Rt) (G : Env) (n k : Nat) (base bits : Int) (s s' : Scanner) (e : Err) (h : read rt G n (.uint k base bits) s = .ret (some e, s')) :
    s'.heap.cells k = .uint 0 := by
  cases n with
  | zero => cases h
  | succ n =>
    simp only [read] at h
    cases hr : s.readUint base bits with
    | ret x =>
      rw [hr] at h
      simp only [Exec.bind_ret, Exec.pure_eq, Exec.ret.injEq, Prod.mk.injEq] at h
      have := readUint_fail s base bits _ hr (by rw [h.1]; rfl)
      rw [← h.2, ← this]
      exact upd_self _ _ _
    | panic => rw [hr] at h; cases h
    | timeout => rw [hr] at h; cases h

theorem zomLoop_last {f : ReadFunc} {Q : Scanner → Prop} (hf : ∀ s e s', f s = .ret (some e, s') → Q s') : ∀ n s s', zomLoop f n s = .ret s' → Q s'
  | 0, _, _, h => by cases h
  | n + 1, s, s', h => by
    rw [zomLoop] at h
    cases hr : f s with
    | ret x =>
      obtain ⟨e, s1⟩ := x
      rw [hr] at h
      cases e with
      | none => exact zomLoop_last hf n s1 s' h
      | some e => cases h; exact hf s e _ hr
    | panic => rw [hr] at h; cases h
    | timeout => rw [hr] at h; cases h

/-- The last read of a repetition fails, so a repeated `Int` or `Uint` reader ends with zero, not with the last number it read. -/
theorem C55_repeated (rt : Rt) (G : Env) (n k : Nat) (base bits : Int) (s s' : Scanner) (e : Option Err) :
    (read rt G n (.zom (.int k base bits)) s = .ret (e, s') → s'.heap.cells k = .int 0) ∧
    (read rt G n (.zom (.uint k base bits)) s = .ret (e, s') → s'.heap.cells k = .uint 0) := by
  cases n with
  | zero => exact ⟨fun h => (by cases h), fun h => (by cases h)⟩
  | succ n =>
    have key : ∀ (r : Reader), read rt G (n + 1) (.zom r) s = .ret (e, s') → zomLoop (read rt G n r) n s = .ret s' := by
      intro r h
      have h1 : read rt G (n + 1) (.zom r) s = (zomLoop (read rt G n r) n s >>= fun s => pure (none, s)) := rfl
      rw [h1] at h
      cases hz : zomLoop (read rt G n r) n s with
      | ret x => rw [hz] at h; cases h; rfl
      | panic => rw [hz] at h; cases h
      | timeout => rw [hz] at h; cases h
    exact ⟨fun h => zomLoop_last (Q := fun s => s.heap.cells k = .int 0) (fun s e s' h => C55_int_fail rt G n k base bits s s' e h) n s s' (key _ h),
      fun h => zomLoop_last (Q := fun s => s.heap.cells k = .uint 0) (fun s e s' h => C55_uint_fail rt G n k base bits s s' e h) n s s' (key _ h)⟩

/-! ### concrete cases -/

example (rt : Rt) : ∃ s', read rt [] 1 (.bool 3 b!"") (.new b!"TRUEx" Heap.empty) = .ret (none, s') ∧ Between s' b!"TRUE" b!"x" ∧ s'.heap.cells 3 = .bool true :=
  C55_bool_value rt [] 0 3 _ [] b!"x" b!"" b!"TRUE" true ⟨rfl, rfl⟩ (.upperT (by decide))

/-- The `Int` reader on `-12x` holds -12. -/
example (rt : Rt) : ∃ s', read rt [] 1 (.int 3 10 8) (.new b!"-12x" Heap.empty) = .ret (none, s') ∧ s'.heap.cells 3 = .int (-12) := ⟨_, rfl, rfl⟩

/-- After `Zom(Int)` on `1+2` the text is read and the field is 0. -/
example (rt : Rt) : ∃ s', read rt [] 9 (.zom (.int 3 10 8)) (.new b!"1+2" Heap.empty) = .ret (none, s') ∧ s'.pos = 3 ∧ s'.heap.cells 3 = .int 0 := ⟨_, rfl, rfl, rfl⟩

/-- A read with another field's reader and a literal leaves field 3 alone. -/
example (rt : Rt) (s s' : Scanner) (e : Option Err) (hs : Inside s) (h : read rt [] 9 (.seq [.int 4 10 8, .lit b!","]) s = .ret (e, s')) : s'.heap.cells 3 = s.heap.cells 3 :=
  C55_own rt [] 3 9 _
    (.mk ⟨(by intro w f h; cases h), by simp [Reader.cell]⟩ (by
      intro c hc
      simp only [Reader.subs, List.mem_cons, List.not_mem_nil, or_false] at hc
      rcases hc with rfl | rfl
      · exact .mk ⟨(by intro w f h; cases h), by simp [Reader.cell]⟩ (by intro c hc; cases hc)
      · exact .mk ⟨(by intro w f h; cases h), by simp [Reader.cell]⟩ (by intro c hc; cases hc)))
    (by intro r hr; cases hr) s s' e hs h

end Tok
