/-
What every read does to a scanner, given what the elementary steps do: going forward,
going back to where a read started, and the effects of the readers with a memory.
-/
import Verif.Proofs.Safe

namespace Tok
open Spec

/-- The scanner moved to `m`, with its tracker told. -/
def Scanner.at (s : Scanner) (m : Int) : Scanner := Scanner.notify { s with pos := m }

theorem toMarker_at {s : Scanner} {m : Int} (h : 0 ≤ m) : s.toMarker m = (true, s.at m) := by
  unfold Scanner.toMarker
  rw [if_neg (by simp; omega)]
  rfl

theorem get_infix {s : Scanner} {t : Token} {str : Bytes} (h : s.get t = .ret str) : str <:+: s.full := by
  unfold Scanner.get at h
  split at h
  · cases h
    exact (List.take_prefix _ _).isInfix.trans (List.drop_suffix _ _).isInfix
  · cases h

/-- The segment that a pick adds. -/
def Scanner.addPick (s : Scanner) (info : Bytes) (b : Nat) (t : Token) : Scanner :=
  { s with heap := { s.heap with baskets := upd s.heap.baskets b (s.heap.baskets b ++ [⟨info, t⟩]) } }

/-- The call of a map function. -/
def Scanner.addMap (s : Scanner) (fid : Nat) (t : Token) : Scanner :=
  { s with heap := { s.heap with maps := s.heap.maps ++ [(fid, t)] } }

/-- The entry of a log. -/
def Scanner.enterLog (rt : Rt) (s : Scanner) (info : Bytes) (l : Nat) : Scanner :=
  { s with heap := { s.heap with logs := upd s.heap.logs l ((s.heap.logs l).enter rt info s.pos).2 } }

/-- The exit of a log. -/
def Scanner.exitLog (s : Scanner) (l : Nat) (p : EntryPtr) (e : Option Err) : Scanner :=
  { s with heap := { s.heap with logs := upd s.heap.logs l ((s.heap.logs l).exit p s.pos e) } }

/-- The field of a value reader. -/
def Reader.cell : Reader → Option Nat
  | .bool c _ => some c
  | .int c _ _ => some c
  | .uint c _ _ => some c
  | _ => none

/-- The pair of a Janus reader. -/
def Reader.pair : Reader → Option Nat
  | .janusBegin k _ _ => some k
  | .janusEnd k _ => some k
  | _ => none

/-- A relation `R` between the scanner before and after a read, for scanners with `I`, that holds of the
elementary steps of the readers with `P`. -/
structure Frame (rt : Rt) (G : Env) (P : Reader → Prop) (I : Scanner → Prop) (R : Scanner → Scanner → Prop) : Prop where
  inside : ∀ {s}, I s → Inside s
  fwd : ∀ {s s'}, I s → R s s' → Forward s s'
  inv : ∀ {s s'}, I s → R s s' → I s'
  refl : ∀ {s}, I s → R s s
  trans : ∀ {s s' s''}, I s → R s s' → R s' s'' → R s s''
  go : ∀ {s m}, I s → s.pos ≤ m → m ≤ (s.full.length : Int) → R s (s.at m)
  back : ∀ {s s'}, I s → R s s' → R s (s'.at s.pos)
  cells : ∀ {s s'} k v, (∃ r, P r ∧ r.cell = some k) → I s → R s s' → R s { s' with heap := { s'.heap with cells := upd s'.heap.cells k v } }
  janus : ∀ {s s'} k v, (∃ r, P r ∧ r.pair = some k) → I s → R s s' → R s { s' with heap := { s'.heap with janus := upd s'.heap.janus k v } }
  pick : ∀ {s s' info b c n}, P (.pick info b c) → I s → read rt G n c s = .ret (none, s') → R s s' → R s (s'.addPick info b (makeToken s.pos s'.pos))
  map : ∀ {s s' f c}, P (.map f c) → I s → R s s' → R s (s'.addMap f (makeToken s.pos s'.pos))
  enter : ∀ {s info l c}, P (.monitor info l c) → I s → I (s.enterLog rt info l)
  leave : ∀ {s s' info l c n e}, P (.monitor info l c) → I s → read rt G n c (s.enterLog rt info l) = .ret (e, s') → R (s.enterLog rt info l) s' →
    R s (s'.exitLog l ((s.heap.logs l).enter rt info s.pos).1 e)
  wrap : ∀ {w f s}, P (.wrap w f) → I s → RetE (fun x => R s x.2) (f s)
  body : ∀ {s s' b t n str e sub}, P (.body b t) ∨ P (.bodyTail b t) → I s → R s s' → str <:+: s'.full →
    read rt G n b (.new str s'.heap) = .ret (e, sub) → (I (.new str s'.heap) → R (.new str s'.heap) sub) → R s { s' with heap := sub.heap } ∧ (e.isSome → R s { s' with heap := (sub.at 0).heap })

namespace Frame
variable {rt : Rt} {G : Env} {P : Reader → Prop} {I : Scanner → Prop} {R : Scanner → Scanner → Prop} (fr : Frame rt G P I R)
include fr

/-- A read function within the frame. -/
def Ok (I : Scanner → Prop) (R : Scanner → Scanner → Prop) (f : ReadFunc) : Prop := ∀ s, I s → RetE (fun x => R s x.2) (f s)

theorem toMarker {s s' : Scanner} (hs : I s) (h : R s s') : R s (s'.toMarker s.pos).2 := by
  rw [toMarker_at (fr.inside hs).1]
  exact fr.back hs h

theorem move {s : Scanner} (hs : I s) {k : Int} (hk : 0 ≤ k) : R s (s.move k).2 := by
  unfold Scanner.move
  simp only
  split
  · exact fr.refl hs
  · next h =>
    simp only [Bool.or_eq_true, decide_eq_true_eq, not_or] at h
    exact fr.go hs (by omega) (by omega)

theorem ifStr {s : Scanner} (hs : I s) (str : Bytes) : RetE (fun x => R s x.2) (s.ifStr str) :=
  (RetE.trivial (x := s.tail)).bind fun t _ _ => by
    split
    · exact .ret (fr.move hs (by omega))
    · exact .ret (fr.refl hs)

theorem ifAny : ∀ (strs : List Bytes) {s : Scanner}, I s → RetE (fun x => R s x.2) (s.ifAny strs)
  | [], _, hs => .ret (fr.refl hs)
  | x :: xs, s, hs => (fr.ifStr hs x).bind fun a _ ha => by
    obtain ⟨ok, s'⟩ := a
    cases ok
    · exact (ifAny xs (fr.inv hs ha)).mono fun _ _ h => fr.trans hs ha h
    · exact .ret ha

theorem ifFold {s : Scanner} (hs : I s) (str : Bytes) : RetE (fun x => R s x.2) (s.ifFold rt str) :=
  (RetE.trivial (x := s.tail)).bind fun t _ _ => by
    split
    · exact .panic
    · split
      · exact .ret (fr.move hs (by omega))
      · exact .ret (fr.refl hs)

theorem ifRune {s : Scanner} (hs : I s) (r : Rune) : RetE (fun x => R s x.2) (s.ifRune r) :=
  (RetE.trivial (x := s.tail)).bind fun t _ _ => by
    simp only
    split
    · exact .ret (fr.refl hs)
    · exact .ret (fr.move hs (by omega))

theorem ifAnyRuneLoop : ∀ (rs : List Rune) {s : Scanner}, I s → RetE (fun x => R s x.2) (s.ifAnyRuneLoop rs)
  | [], _, hs => .ret (fr.refl hs)
  | x :: xs, s, hs => (fr.ifRune hs x).bind fun a _ ha => by
    obtain ⟨ok, s'⟩ := a
    cases ok
    · exact (ifAnyRuneLoop xs (fr.inv hs ha)).mono fun _ _ h => fr.trans hs ha h
    · exact .ret ha

theorem ifBetween {s : Scanner} (hs : I s) (a b : Rune) : RetE (fun x => R s x.2) (s.ifBetween a b) :=
  (RetE.trivial (x := s.tail)).bind fun t _ _ => by
    simp only
    split
    · exact .ret (fr.refl hs)
    · split
      · exact .ret (fr.refl hs)
      · exact .ret (fr.move hs (by omega))

theorem ifMatch {s : Scanner} (hs : I s) (f : Rune → Bool) : RetE (fun x => R s x.2) (s.ifMatch f) :=
  (RetE.trivial (x := s.tail)).bind fun t _ _ => by
    simp only
    split
    · exact .ret (fr.move hs (by omega))
    · exact .ret (fr.refl hs)

theorem betweenAnyLoop : ∀ (rs : List (Rune × Rune)) {s : Scanner}, I s → RetE (fun x => R s x.2) (betweenAnyLoop rs s)
  | [], _, hs => .ret (fr.refl hs)
  | (a, b) :: xs, s, hs => (fr.ifBetween hs a b).bind fun x _ ha => by
    obtain ⟨ok, s'⟩ := x
    cases ok
    · exact (betweenAnyLoop xs (fr.inv hs ha)).mono fun _ _ h => fr.trans hs ha h
    · exact .ret ha

omit fr in
theorem ifFalse {s : Scanner} {w : Bytes} {x : Exec (Bool × Scanner)} (h : RetE (fun x => R s x.2) x) :
    RetE (fun x : Option Err × Scanner => R s x.2) (ifFalse w x) := h.bind fun _ _ h => .ret h

theorem moveRunes {s : Scanner} (hs : I s) : RetE (fun x => R s x.2) (s.moveRunes 1) := by
  intro x hx
  have hf := (moveRunes_safe (p := True) (fr.inside hs)).2 _ hx
  unfold Scanner.moveRunes at hx
  rw [if_pos (by decide)] at hx
  obtain ⟨t, _, hx⟩ := Exec.bind_eq_ret.mp hx
  split at hx
  · rename_i i r _
    simp only [Exec.pure_eq, Exec.ret.injEq] at hx
    subst hx
    by_cases hk : 0 ≤ (i : Int) + runeLen r
    · exact fr.move hs hk
    · have hp := hf.2.2
      unfold Scanner.move at hp ⊢
      simp only at hp ⊢
      split at hp
      · rename_i h
        rw [if_pos h]
        exact fr.refl hs
      · rw [notify_pos] at hp
        simp only at hp
        omega
  · cases hx
    exact fr.refl hs

omit fr in
theorem intLoop_ge {cf : Rune → Int} {base min max : Int} {neg : Bool} : ∀ l i n, -1 ≤ n → -1 ≤ (intLoop cf base min max neg l i n).2
  | [], _, _, h => h
  | (i, r) :: l, a, n, h => by
    unfold intLoop
    simp only
    split
    · exact h
    · split <;> split <;> first | exact h | exact intLoop_ge l _ _ (by omega)

omit fr in
theorem uintLoop_ge {cf : Rune → Int} {base max : Nat} : ∀ l i n, -1 ≤ n → -1 ≤ (uintLoop cf base max l i n).2
  | [], _, _, h => h
  | (i, r) :: l, a, n, h => by
    unfold uintLoop
    simp only
    split
    · exact h
    · split <;> first | exact h | exact uintLoop_ge l _ _ (by omega)

theorem readBool {s : Scanner} (hs : I s) (format : Bytes) : RetE (fun x => R s x.2) (s.readBool format) := by
  unfold Scanner.readBool
  split
  · refine (fr.ifAny _ hs).bind fun a _ ha => ?_
    obtain ⟨ok, s'⟩ := a
    cases ok
    · refine (fr.ifAny _ (fr.inv hs ha)).bind fun a _ hb => ?_
      obtain ⟨ok, s''⟩ := a
      cases ok <;> exact .ret (fr.trans hs ha hb)
    · exact .ret ha
  · simp only
    split
    · exact .ret (fr.refl hs)
    · refine (fr.ifStr hs _).bind fun a _ ha => ?_
      obtain ⟨ok, s'⟩ := a
      cases ok
      · refine (fr.ifStr (fr.inv hs ha) _).bind fun a _ hb => ?_
        obtain ⟨ok, s''⟩ := a
        cases ok <;> exact .ret (fr.trans hs ha hb)
      · exact .ret ha

theorem readInt {s : Scanner} (hs : I s) (base bitSize : Int) : RetE (fun x => R s x.2) (s.readInt base bitSize) := by
  unfold Scanner.readInt
  split
  · exact .ret (fr.refl hs)
  · split
    · exact .ret (fr.refl hs)
    · rename_i cf _ _ min max _
      refine (fr.ifRune hs 45).bind fun a _ ha => ?_
      obtain ⟨minus, s1⟩ := a
      have tailE : ∀ s2, R s s2 → RetE (fun x : (Int × Option Err) × Scanner => R s x.2) (do
          let t ← s2.tail
          let (i64, n) := intLoop cf base min max minus (rangeStr t) 0 (-1)
          if n = -1 then
            let s := (s2.toMarker s.mark).2
            pure ((0, some (s.errorFor b!"integer")), s)
          else pure ((i64, none), (s2.move (n + 1)).2)) := by
        intro s2 hb
        refine (RetE.trivial (x := s2.tail)).bind fun t _ _ => ?_
        have hge := intLoop_ge (cf := cf) (base := base) (min := min) (max := max) (neg := minus) (rangeStr t) 0 (-1) (by omega)
        simp only
        split
        · exact .ret (fr.toMarker hs hb)
        · exact .ret (fr.trans hs hb (fr.move (fr.inv hs hb) (by omega)))
      cases minus
      · exact (fr.ifRune (fr.inv hs ha) 43).bind fun b _ hb => tailE b.2 (fr.trans hs ha hb)
      · exact tailE s1 ha

theorem readUint {s : Scanner} (hs : I s) (base bitSize : Int) : RetE (fun x => R s x.2) (s.readUint base bitSize) := by
  unfold Scanner.readUint
  split
  · exact .ret (fr.refl hs)
  · split
    · exact .ret (fr.refl hs)
    · rename_i cf _ _ max _
      refine (RetE.trivial (x := s.tail)).bind fun t _ _ => ?_
      simp only
      split
      · exact .ret (fr.refl hs)
      · rename_i hn
        have hge := uintLoop_ge (cf := cf) (base := base.toNat) (max := max) (rangeStr t) 0 (-1) (by omega)
        exact .ret (fr.move hs (by omega))

/-! ### loops -/

theorem anyLoop {f : Reader → ReadFunc} : ∀ (rs : List Reader) (_ : ∀ r ∈ rs, Ok I R (f r)) (errs : List Err) (s : Scanner),
    I s → RetE (fun x => R s x.2) (anyLoop f rs errs s)
  | [], _, _, _, hs => .ret (fr.refl hs)
  | r :: rs, hr, errs, s, hs => (hr r List.mem_cons_self s hs).bind fun a _ ha => by
    obtain ⟨e, s'⟩ := a
    cases e with
    | none => exact .ret ha
    | some e =>
      exact (anyLoop rs (fun r h => hr r (List.mem_cons_of_mem _ h)) _ s' (fr.inv hs ha)).mono fun _ _ h => fr.trans hs ha h

theorem seqLoop {f : Reader → ReadFunc} : ∀ (rs : List Reader) (_ : ∀ r ∈ rs, Ok I R (f r)), Ok I R (seqLoop f rs)
  | [], _, _, hs => .ret (fr.refl hs)
  | r :: rs, hr, s, hs => (hr r List.mem_cons_self s hs).bind fun a _ ha => by
    obtain ⟨e, s'⟩ := a
    cases e with
    | some e => exact .ret ha
    | none =>
      exact (seqLoop rs (fun r h => hr r (List.mem_cons_of_mem _ h)) s' (fr.inv hs ha)).mono fun _ _ h => fr.trans hs ha h

theorem skipSeqLoop {f : Reader → ReadFunc} {sk : Reader} (hk : Ok I R (f sk)) :
    ∀ (rs : List Reader) (_ : ∀ r ∈ rs, Ok I R (f r)), Ok I R (skipSeqLoop f sk rs)
  | [], _, _, hs => .ret (fr.refl hs)
  | r :: rs, hr, s, hs => (hr r List.mem_cons_self s hs).bind fun a _ ha => by
    obtain ⟨e, s'⟩ := a
    cases e with
    | some e => exact .ret ha
    | none =>
      refine (hk s' (fr.inv hs ha)).bind fun a _ hb => ?_
      have hb' := fr.trans hs ha hb
      obtain ⟨e, s''⟩ := a
      cases e with
      | some e => exact .ret hb'
      | none =>
        exact (skipSeqLoop hk rs (fun r h => hr r (List.mem_cons_of_mem _ h)) s'' (fr.inv hs hb')).mono
          fun _ _ h => fr.trans hs hb' h

theorem timesLoop {f : ReadFunc} (hf : Ok I R f) : ∀ k, Ok I R (timesLoop f k)
  | 0, _, hs => .ret (fr.refl hs)
  | k + 1, s, hs => (hf s hs).bind fun a _ ha => by
    obtain ⟨e, s'⟩ := a
    cases e with
    | some e => exact .ret ha
    | none => exact (timesLoop hf k s' (fr.inv hs ha)).mono fun _ _ h => fr.trans hs ha h

theorem zomLoop {f : ReadFunc} (hf : Ok I R f) : ∀ k s, I s → RetE (fun x => R s x) (zomLoop f k s)
  | 0, _, _ => .timeout
  | k + 1, s, hs => (hf s hs).bind fun a _ ha => by
    obtain ⟨e, s'⟩ := a
    cases e with
    | some e => exact .ret ha
    | none => exact (zomLoop hf k s' (fr.inv hs ha)).mono fun _ _ h => fr.trans hs ha h

/-- The place of the tail found by `bodyLoop` was reached on the way. -/
theorem bodyLoop {b t : Reader} {nb : Nat} (hp : P (.body b t) ∨ P (.bodyTail b t)) (hb : Ok I R (read rt G nb b)) (ht : Ok I R (read rt G nb t)) {s0 : Scanner} (h0 : I s0) : ∀ n s, R s0 s →
    RetE (fun x => R s0 x.2 ∧ ∀ m, x.1 = some m → ∃ s1, R s0 s1 ∧ s1.pos = m ∧ R s1 x.2) (bodyLoop (read rt G nb b) (read rt G nb t) s0.pos n s)
  | 0, _, _ => .timeout
  | n + 1, s, hs => by
    unfold Tok.bodyLoop
    split
    · exact .ret ⟨hs, fun m h => by cases h⟩
    · have hi := fr.inv h0 hs
      refine (ht s hi).bind fun a _ ha => ?_
      obtain ⟨e, s'⟩ := a
      have hs' := fr.trans h0 hs ha
      cases e with
      | none =>
        refine (RetE.trivial (x := s'.get (makeToken s0.pos s.mark))).bind fun str hstr _ => ?_
        have hstr := get_infix hstr
        intro x hx
        obtain ⟨⟨e, sub⟩, h1, h2⟩ := Exec.bind_eq_ret.mp hx
        unfold Scanner.use at h1
        obtain ⟨⟨e1, sub1⟩, h3, h4⟩ := Exec.bind_eq_ret.mp h1
        have key : R s { s' with heap := sub.heap } ∧ R s0 { s' with heap := sub.heap } := by
          obtain ⟨k1, k2⟩ := fr.body hp hi ha hstr h3 fun h => hb _ h _ h3
          obtain ⟨k3, k4⟩ := fr.body hp h0 hs' hstr h3 fun h => hb _ h _ h3
          cases e1 with
          | none => cases h4; exact ⟨k1, k3⟩
          | some e1 =>
            simp only [Option.isSome_some, if_true] at h4
            cases h4
            rw [show (Scanner.new str s'.heap).mark = 0 from rfl, toMarker_at (by omega)]
            exact ⟨k2 rfl, k4 rfl⟩
        simp only at h2
        split at h2
        · cases h2
          exact ⟨key.2, fun m h => by cases h⟩
        · cases h2
          exact ⟨key.2, fun m h => by cases h; exact ⟨s, hs, rfl, key.1⟩⟩
      | some e =>
        refine (fr.moveRunes (fr.inv h0 hs')).bind fun a _ hm => ?_
        exact bodyLoop hp hb ht h0 n _ (fr.trans h0 hs' hm)

theorem pastLoop {f : ReadFunc} (hf : Ok I R f) : ∀ n s, I s → RetE (fun x => R s x.2) (pastLoop f n s)
  | 0, _, _ => .timeout
  | n + 1, s, hs => by
    unfold Tok.pastLoop
    split
    · exact .ret (fr.refl hs)
    · refine (hf s hs).bind fun a _ ha => ?_
      obtain ⟨e, s'⟩ := a
      cases e with
      | none => exact .ret ha
      | some e =>
        refine (fr.moveRunes (fr.inv hs ha)).bind fun a _ hm => ?_
        have hm' := fr.trans hs ha hm
        exact (pastLoop hf n _ (fr.inv hs hm')).mono fun _ _ h => fr.trans hs hm' h

theorem toLoop {f : ReadFunc} (hf : Ok I R f) : ∀ n s, I s → RetE (fun x => R s x.2) (toLoop f n s)
  | 0, _, _ => .timeout
  | n + 1, s, hs => by
    unfold Tok.toLoop
    refine (hf s hs).bind fun a _ ha => ?_
    obtain ⟨e, s'⟩ := a
    cases e with
    | none => exact .ret (fr.toMarker hs ha)
    | some e =>
      refine (fr.moveRunes (fr.inv hs ha)).bind fun a _ hm => ?_
      have hm' := fr.trans hs ha hm
      obtain ⟨ok, s''⟩ := a
      cases ok
      · exact .ret hm'
      · exact (toLoop hf n _ (fr.inv hs hm')).mono fun _ _ h => fr.trans hs hm' h

theorem tokenizeUse {f : ReadFunc} (hf : Ok I R f) {s : Scanner} (hs : I s) :
    RetE (fun x => R s x.2 ∧ x.1.1 = makeToken s.pos x.2.pos) (s.tokenizeUse f) :=
  (hf s hs).bind fun a _ ha => by
    obtain ⟨e, s'⟩ := a
    cases e with
    | none => exact .ret ⟨ha, rfl⟩
    | some e => exact .ret ⟨fr.toMarker hs ha, rfl⟩

/-- A reader is within the frame when its parts are. -/
theorem node {n : Nat} {r : Reader} (hr : P r) (sub : ∀ c ∈ r.subs, Ok I R (Tok.read rt G n c)) (hG : ∀ i, r = .rule i → Ok I R (Tok.read rt G (n + 1) (.rule i))) :
    Ok I R (Tok.read rt G (n + 1) r) := fun s hs => by
    have one : ∀ c, r.subs = [c] → Ok I R (Tok.read rt G n c) := fun c hc => sub c (by rw [hc]; exact List.mem_cons_self)
    cases r with
    | any rs =>
      refine (fr.anyLoop rs sub [] s hs).bind fun a _ ha => ?_
      obtain ⟨e, s'⟩ := a
      cases e with
      | none => exact .ret ha
      | some e => exact .ret (fr.toMarker hs ha)
    | anyRune str => exact ifFalse (fr.ifAnyRuneLoop _ hs)
    | at_ c => exact (one c rfl s hs).bind fun a _ ha => .ret (fr.toMarker hs ha)
    | atEnd => exact .ret (fr.refl hs)
    | between a b => exact ifFalse (fr.ifBetween hs a b)
    | betweenAny ranges singles =>
      refine (fr.betweenAnyLoop ranges hs).bind fun a _ ha => ?_
      obtain ⟨ok, s'⟩ := a
      cases ok
      · refine (fr.ifAnyRuneLoop _ (fr.inv hs ha)).bind fun a _ hb => ?_
        have hb' := fr.trans hs ha hb
        obtain ⟨ok, s''⟩ := a
        cases ok
        · exact .ret (fr.toMarker hs hb')
        · exact .ret hb'
      · exact .ret ha
    | body b t =>
      refine (fr.bodyLoop (.inl hr) (sub b (by simp [Reader.subs])) (sub t (by simp [Reader.subs])) hs n s (fr.refl hs)).bind fun a _ ha => ?_
      obtain ⟨m, s'⟩ := a
      cases m with
      | none => exact .ret (fr.toMarker hs ha.1)
      | some m =>
        obtain ⟨s1, h1, rfl, h3⟩ := ha.2 m rfl
        exact .ret (fr.trans hs h1 (fr.toMarker (fr.inv hs h1) h3))
    | bodyTail b t =>
      refine (fr.bodyLoop (.inr hr) (sub b (by simp [Reader.subs])) (sub t (by simp [Reader.subs])) hs n s (fr.refl hs)).bind fun a _ ha => ?_
      obtain ⟨m, s'⟩ := a
      cases m with
      | none => exact .ret (fr.toMarker hs ha.1)
      | some m => exact .ret ha.1
    | bool c f => exact (fr.readBool hs f).bind fun a _ ha => .ret (fr.cells c _ ⟨_, hr, rfl⟩ hs ha)
    | fold v => exact ifFalse (fr.ifFold hs v)
    | holey a b c =>
      refine (RetE.trivial (x := s.tail)).bind fun t _ _ => ?_
      simp only
      split
      · exact .ret (fr.move hs (by omega))
      · exact .ret (fr.refl hs)
    | int c a b => exact (fr.readInt hs a b).bind fun a _ ha => .ret (fr.cells c _ ⟨_, hr, rfl⟩ hs ha)
    | uint c a b => exact (fr.readUint hs a b).bind fun a _ ha => .ret (fr.cells c _ ⟨_, hr, rfl⟩ hs ha)
    | janusBegin id nm c =>
      refine (fr.tokenizeUse (one c rfl) hs).bind fun a _ ha => ?_
      obtain ⟨⟨tk, e⟩, s'⟩ := a
      cases e with
      | some e => exact .ret ha.1
      | none => exact (RetE.trivial (x := s'.get tk)).bind fun _ _ _ => .ret (fr.janus id _ ⟨_, hr, rfl⟩ hs ha.1)
    | janusEnd id nm =>
      refine (ifFalse (fr.ifStr hs _)).bind fun a _ ha => ?_
      obtain ⟨e, s'⟩ := a
      cases e with
      | some e => exact .ret ha
      | none => exact .ret (fr.janus id _ ⟨_, hr, rfl⟩ hs ha)
    | invalid e => exact .ret (fr.refl hs)
    | lit x => exact ifFalse (fr.ifStr hs x)
    | many c => exact (fr.zomLoop (one c rfl) n s hs).bind fun _ _ ha => .ret ha
    | map f c =>
      refine (fr.tokenizeUse (one c rfl) hs).bind fun a _ ha => ?_
      obtain ⟨⟨tk, e⟩, s'⟩ := a
      obtain ⟨h1, h2⟩ := ha
      simp only at h2
      subst h2
      cases e with
      | some e => exact .ret h1
      | none => exact .ret (fr.map hr hs h1)
    | match_ w f => exact ifFalse (fr.ifMatch hs f)
    | named nm c => exact one c rfl s hs
    | not c =>
      refine (one c rfl s hs).bind fun a _ ha => ?_
      obtain ⟨e, s'⟩ := a
      have hb := fr.toMarker hs ha
      cases e with
      | none => exact .ret hb
      | some e => exact (fr.moveRunes (fr.inv hs hb)).bind fun _ _ hm => .ret (fr.trans hs hb hm)
    | opt c => exact (one c rfl s hs).bind fun a _ ha => .ret ha
    | past c =>
      refine (fr.pastLoop (one c rfl) n s hs).bind fun a _ ha => ?_
      obtain ⟨ok, s'⟩ := a
      cases ok
      · exact .ret (fr.toMarker hs ha)
      · exact .ret ha
    | rune c => exact ifFalse (fr.ifRune hs c)
    | seq rs =>
      refine (fr.seqLoop rs sub s hs).bind fun a _ ha => ?_
      obtain ⟨e, s'⟩ := a
      cases e with
      | none => exact .ret ha
      | some e => exact .ret (fr.toMarker hs ha)
    | skipSeq sk rs =>
      have hsk := sub sk (by simp [Reader.subs])
      refine (hsk s hs).bind fun a _ ha => ?_
      obtain ⟨e, s'⟩ := a
      cases e with
      | some e => exact .ret (fr.toMarker hs ha)
      | none =>
        refine (fr.skipSeqLoop hsk rs (fun r hr => sub r (by simp [Reader.subs, hr])) s' (fr.inv hs ha)).bind fun a _ hb => ?_
        have hb' := fr.trans hs ha hb
        obtain ⟨e, s''⟩ := a
        cases e with
        | none => exact .ret hb'
        | some e => exact .ret (fr.toMarker hs hb')
    | times k c => exact fr.timesLoop (one c rfl) k.toNat s hs
    | «to» c =>
      refine (fr.toLoop (one c rfl) n s hs).bind fun a _ ha => ?_
      obtain ⟨ok, s'⟩ := a
      cases ok
      · exact .ret (fr.toMarker hs ha)
      · exact .ret ha
    | wrap w f => exact fr.wrap hr hs
    | zom c => exact (fr.zomLoop (one c rfl) n s hs).bind fun _ _ ha => .ret ha
    | pick info b c =>
      intro x hx
      simp only [Tok.read, Scanner.tokenizeUse] at hx
      obtain ⟨⟨⟨tk, e⟩, s'⟩, h1, h2⟩ := Exec.bind_eq_ret.mp hx
      obtain ⟨⟨e1, s1⟩, h3, h4⟩ := Exec.bind_eq_ret.mp h1
      have hc := one c rfl s hs _ h3
      cases e1 with
      | none =>
        simp only [Option.isSome_none, Bool.false_eq_true, if_false, Exec.pure_eq, Exec.ret.injEq, Prod.mk.injEq] at h4
        obtain ⟨⟨rfl, rfl⟩, rfl⟩ := h4
        cases h2
        exact fr.pick hr hs h3 hc
      | some e1 =>
        simp only [Option.isSome_some, if_true, Exec.pure_eq, Exec.ret.injEq, Prod.mk.injEq] at h4
        obtain ⟨⟨rfl, rfl⟩, rfl⟩ := h4
        cases h2
        exact fr.toMarker hs hc
    | monitor info l c =>
      refine (one c rfl _ (fr.enter hr hs)).bind fun a he ha => ?_
      obtain ⟨e, s'⟩ := a
      exact .ret (fr.leave hr hs he ha)
    | rule i => exact hG i rfl s hs
    | ruleName c => exact (one c rfl s hs).bind fun a _ ha => .ret ha
    | grammar w c => 
      refine (one c rfl s hs).bind fun a _ ha => ?_
      obtain ⟨e, s'⟩ := a
      cases e <;> exact .ret ha

/-- What is within the frame when the rules are. -/
theorem read_rules : ∀ n, (∀ m ≤ n, ∀ i, P (.rule i) → Ok I R (Tok.read rt G m (.rule i))) → ∀ r, r.Every P → Ok I R (Tok.read rt G n r)
  | 0, _, _, _, _, _ => .timeout
  | n + 1, hG, _, hr, s, hs => fr.node hr.here (fun c hc => read_rules n (fun m hm => hG m (by omega)) c (hr.sub hc)) (fun i e => hG (n + 1) (Nat.le_refl _) i (e ▸ hr.here)) s hs

theorem read (hG : ∀ (i : Nat) (nm : Bytes) (c : Reader), P (.rule i) → G[i]? = some ⟨nm, some c⟩ → c.Every P) : ∀ n r, r.Every P → Ok I R (read rt G n r) := fun n =>
  fr.read_rules n fun m hm => by
    clear hm
    induction m using Nat.strongRecOn with
    | ind m ih =>
      match m with
      | 0 => exact fun _ _ _ _ => .timeout
      | m + 1 =>
        intro i hi s hs
        simp only [Tok.read]
        rcases hg : G[i]? with _ | ⟨nm, _ | c⟩
        · exact .panic
        · exact .panic
        · exact fr.read_rules m (fun k hk => ih k (by omega)) c (hG i nm c hi hg) s hs

end Frame
end Tok
