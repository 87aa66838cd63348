/-
Reading seen from the text ahead: `eat` follows the `Read` methods on nothing but the
remaining text and the strings kept by Janus readers.  `read_eat` shows that it agrees
with `read` for every reader expression without `Wrap`.
-/
import Verif.Proofs.Exec
import Verif.Proofs.Scan
import Verif.Spec.Place

namespace Tok
open Spec

/-- Success and the new state. -/
abbrev EatFunc := St → Exec (Bool × St)

/-- A text-only reader that keeps the Janus strings. -/
def lift (f : Bytes → Bool × Bytes) : EatFunc := fun st => .ret ((f st.rest).1, ⟨(f st.rest).2, st.jan⟩)

/-- Decode one rune and go over it if it passes the test. -/
def eatOne (p : Int → Bool) (t : Bytes) : Bool × Bytes :=
  if p (decodeRune t).1 then (true, t.drop (decodeRune t).2) else (false, t)

/-- A literal. -/
def eatLit (str t : Bytes) : Bool × Bytes :=
  if hasPrefix t str then (true, t.drop str.length) else (false, t)

/-- `IfBetween`, which needs a rune. -/
def eatBetween (min max : Int) (t : Bytes) : Bool × Bytes :=
  if t = [] then (false, t) else eatOne (fun v => Scanner.inRange min v max) t

/-- `IfMatch`, which needs a rune. -/
def eatMatch (f : Int → Bool) (t : Bytes) : Bool × Bytes :=
  if t = [] then (false, t) else eatOne f t

/-- The first literal of a list that stands here. -/
def eatLits : List Bytes → Bytes → Bool × Bytes
  | [], t => (false, t)
  | x :: xs, t => if hasPrefix t x then (true, t.drop x.length) else eatLits xs t

/-- `MoveRunes(1)`. -/
def eatStep (t : Bytes) : Bool × Bytes :=
  if t ≠ [] ∧ runeLen (decodeRune t).1 ≤ t.length then (true, t.drop (runeLen (decodeRune t).1).toNat)
  else (false, t)

/-- `ReadBool`. -/
def eatBool (format t : Bytes) : Bool × Bytes :=
  if format == [] || format == b!"*" then
    eatLits [b!"true", b!"True", b!"TRUE", b!"false", b!"False", b!"FALSE"] t
  else if format == b!"l" then eatLits [b!"true", b!"false"] t
  else if format == b!"U" then eatLits [b!"TRUE", b!"FALSE"] t
  else if format == b!"Cc" then eatLits [b!"True", b!"False"] t
  else (false, t)

/-- The optional sign in front of an integer. -/
def eatSign (t : Bytes) : Bytes :=
  if (eatOne (· == 45) t).1 then (eatOne (· == 45) t).2 else (eatOne (· == 43) t).2

/-- `ReadInt`. -/
def eatInt (base bitSize : Int) (t : Bytes) : Bool × Bytes :=
  match charFunc base, intBounds bitSize with
  | some cf, some (min, max) =>
    let minus := (eatOne (· == 45) t).1
    let n := (intLoop cf base min max minus (rangeStr (eatSign t)) 0 (-1)).2
    if n = -1 then (false, t) else (true, (eatSign t).drop (n + 1).toNat)
  | _, _ => (false, t)

/-- `ReadUint`. -/
def eatUint (base bitSize : Int) (t : Bytes) : Bool × Bytes :=
  match charFunc base, uintMax bitSize with
  | some cf, some max =>
    let n := (uintLoop cf base.toNat max (rangeStr t) 0 (-1)).2
    if n = -1 then (false, t) else (true, t.drop (n + 1).toNat)
  | _, _ => (false, t)

/-- The ranges of `betweenAny` one after the other. -/
def eatRanges : List (Int × Int) → Bytes → Bool × Bytes
  | [], t => (false, t)
  | (min, max) :: rest, t => if (eatBetween min max t).1 then eatBetween min max t else eatRanges rest t

/-- `betweenAnyReader`. -/
def eatSet (ranges : List (Int × Int)) (singles t : Bytes) : Bool × Bytes :=
  if (eatRanges ranges t).1 then eatRanges ranges t else eatOne (containsRune singles) t

/-- `IfFold` when enough text is left. -/
def eatFold (rt : Rt) (val t : Bytes) : Bool × Bytes :=
  if equalFold rt (t.take val.length) val then (true, t.drop val.length) else (false, t)

def eatAny (rd : Reader → EatFunc) : List Reader → EatFunc
  | [], st => .ret (false, st)
  | r :: rs, st => do
    let (ok, st) ← rd r st
    if ok then pure (true, st) else eatAny rd rs st

def eatSeq (rd : Reader → EatFunc) : List Reader → EatFunc
  | [], st => .ret (true, st)
  | r :: rs, st => do
    let (ok, st) ← rd r st
    if ok then eatSeq rd rs st else pure (false, st)

def eatSkip (rd : Reader → EatFunc) (sk : Reader) : List Reader → EatFunc
  | [], st => .ret (true, st)
  | r :: rs, st => do
    let (ok, st) ← rd r st
    if ok then do
      let (ok, st) ← rd sk st
      if ok then eatSkip rd sk rs st else pure (false, st)
    else pure (false, st)

def eatTimes (f : EatFunc) : Nat → EatFunc
  | 0, st => .ret (true, st)
  | n + 1, st => do
    let (ok, st) ← f st
    if ok then eatTimes f n st else pure (false, st)

def eatZom (f : EatFunc) : Nat → St → Exec St
  | 0, _ => .timeout
  | n + 1, st => do
    let (ok, st) ← f st
    if ok then eatZom f n st else pure st

def eatBody (body tail : EatFunc) (t0 : Bytes) : Nat → St → Exec (Option Bytes × St)
  | 0, _ => .timeout
  | n + 1, st =>
    if st.rest = [] then pure (none, st)
    else do
      let (ok, st') ← tail st
      if ok then do
        let (ok, sub) ← body ⟨t0.take (t0.length - st.rest.length), st'.jan⟩
        if ok && sub.rest.isEmpty then pure (some st.rest, ⟨st'.rest, sub.jan⟩)
        else pure (none, ⟨st'.rest, sub.jan⟩)
      else eatBody body tail t0 n ⟨(eatStep st'.rest).2, st'.jan⟩

def eatPast (f : EatFunc) : Nat → EatFunc
  | 0, _ => .timeout
  | n + 1, st =>
    if st.rest = [] then pure (false, st)
    else do
      let (ok, st) ← f st
      if ok then pure (true, st) else eatPast f n ⟨(eatStep st.rest).2, st.jan⟩

def eatTo (f : EatFunc) : Nat → EatFunc
  | 0, _ => .timeout
  | n + 1, st => do
    let (ok, st') ← f st
    if ok then pure (true, ⟨st.rest, st'.jan⟩)
    else if (eatStep st'.rest).1 then eatTo f n ⟨(eatStep st'.rest).2, st'.jan⟩ else pure (false, st')

/-- Back to the text `t` unless the read was successful. -/
def orBack (t : Bytes) (x : Bool × St) : Bool × St := if x.1 then x else (false, ⟨t, x.2.jan⟩)

/-- The `Read` methods on the text ahead. -/
def eat (rt : Rt) (G : Env) : Nat → Reader → EatFunc
  | 0, _, _ => .timeout
  | n + 1, r, st =>
    let rd := eat rt G n
    match r with
    | .any rs => do
      let x ← eatAny rd rs st
      pure (orBack st.rest x)
    | .anyRune str => lift (eatOne (containsRune str)) st
    | .at_ sub => do
      let (ok, st') ← rd sub st
      pure (ok, ⟨st.rest, st'.jan⟩)
    | .atEnd => .ret (st.rest.isEmpty, st)
    | .between min max => lift (eatBetween min max) st
    | .betweenAny ranges singles => lift (eatSet ranges singles) st
    | .body b t => do
      let (res, st') ← eatBody (rd b) (rd t) st.rest n st
      match res with
      | some x => pure (true, ⟨x, st'.jan⟩)
      | none => pure (false, ⟨st.rest, st'.jan⟩)
    | .bodyTail b t => do
      let (res, st') ← eatBody (rd b) (rd t) st.rest n st
      match res with
      | some _ => pure (true, st')
      | none => pure (false, ⟨st.rest, st'.jan⟩)
    | .bool _ format => lift (eatBool format) st
    | .fold val =>
      if val.length > st.rest.length then .panic
      else lift (eatFold rt val) st
    | .holey min max holes =>
      lift (eatOne (fun v => Scanner.inRange min v max && !containsRune holes v)) st
    | .int _ base bitSize => lift (eatInt base bitSize) st
    | .janusBegin id _ sub => do
      let (ok, st') ← rd sub st
      if ok then pure (true, ⟨st'.rest, upd st'.jan id (st.rest.take (st.rest.length - st'.rest.length))⟩)
      else pure (false, ⟨st.rest, st'.jan⟩)
    | .janusEnd id _ =>
      if hasPrefix st.rest (st.jan id) then
        .ret (true, ⟨st.rest.drop (st.jan id).length, upd st.jan id []⟩)
      else .ret (false, st)
    | .invalid _ => .ret (false, st)
    | .lit str => lift (eatLit str) st
    | .many sub => do
      let st' ← eatZom (rd sub) n st
      pure (decide (st'.rest.length < st.rest.length), st')
    | .map _ sub => do
      let x ← rd sub st
      pure (orBack st.rest x)
    | .match_ _ f => lift (eatMatch f) st
    | .named _ sub => rd sub st
    | .not sub => do
      let (ok, st') ← rd sub st
      if ok then pure (false, ⟨st.rest, st'.jan⟩)
      else pure (true, ⟨(eatStep st.rest).2, st'.jan⟩)
    | .opt sub => do
      let (_, st') ← rd sub st
      pure (true, st')
    | .past sub => do
      let x ← eatPast (rd sub) n st
      pure (orBack st.rest x)
    | .rune c => lift (eatOne (· == c)) st
    | .seq rs => do
      let x ← eatSeq rd rs st
      pure (orBack st.rest x)
    | .skipSeq skip rs => do
      let (ok, st') ← rd skip st
      let x ← if ok then eatSkip rd skip rs st' else pure (false, st')
      pure (orBack st.rest x)
    | .times k sub => eatTimes (rd sub) k.toNat st
    | .to sub => do
      let x ← eatTo (rd sub) n st
      pure (orBack st.rest x)
    | .uint _ base bitSize => lift (eatUint base bitSize) st
    | .wrap _ _ => .panic
    | .zom sub => do
      let st' ← eatZom (rd sub) n st
      pure (true, st')
    | .pick _ _ sub => do
      let x ← rd sub st
      pure (orBack st.rest x)
    | .monitor _ _ sub => rd sub st
    | .rule i => match G[i]? with
      | some ⟨_, some sub⟩ => rd sub st
      | _ => .panic
    | .ruleName sub => rd sub st
    | .grammar _ sub => rd sub st

/-! ### the text ahead only gets shorter -/

theorem eatOne_suffix (p : Int → Bool) (t : Bytes) : (eatOne p t).2 <:+ t := by
  unfold eatOne; split
  · exact List.drop_suffix _ _
  · exact List.suffix_refl _

theorem eatLit_suffix (str t : Bytes) : (eatLit str t).2 <:+ t := by
  unfold eatLit; split
  · exact List.drop_suffix _ _
  · exact List.suffix_refl _

theorem eatBetween_suffix (a b : Int) (t : Bytes) : (eatBetween a b t).2 <:+ t := by
  unfold eatBetween; split
  · exact List.suffix_refl _
  · exact eatOne_suffix _ _

theorem eatMatch_suffix (f : Int → Bool) (t : Bytes) : (eatMatch f t).2 <:+ t := by
  unfold eatMatch; split
  · exact List.suffix_refl _
  · exact eatOne_suffix _ _

theorem eatLits_suffix (l : List Bytes) (t : Bytes) : (eatLits l t).2 <:+ t := by
  induction l with
  | nil => exact List.suffix_refl _
  | cons x xs ih =>
    unfold eatLits; split
    · exact List.drop_suffix _ _
    · exact ih

theorem eatStep_suffix (t : Bytes) : (eatStep t).2 <:+ t := by
  unfold eatStep; split
  · exact List.drop_suffix _ _
  · exact List.suffix_refl _

theorem eatBool_suffix (f t : Bytes) : (eatBool f t).2 <:+ t := by
  unfold eatBool
  repeat' split
  all_goals first | exact eatLits_suffix _ _ | exact List.suffix_refl _

theorem eatSign_suffix (t : Bytes) : eatSign t <:+ t := by
  unfold eatSign; split <;> exact eatOne_suffix _ _

theorem eatInt_suffix (a b : Int) (t : Bytes) : (eatInt a b t).2 <:+ t := by
  unfold eatInt
  split
  · simp only
    split
    · exact List.suffix_refl _
    · exact (List.drop_suffix _ _).trans (eatSign_suffix t)
  · exact List.suffix_refl _

theorem eatUint_suffix (a b : Int) (t : Bytes) : (eatUint a b t).2 <:+ t := by
  unfold eatUint
  split
  · simp only
    split
    · exact List.suffix_refl _
    · exact List.drop_suffix _ _
  · exact List.suffix_refl _

theorem eatRanges_suffix (l : List (Int × Int)) (t : Bytes) : (eatRanges l t).2 <:+ t := by
  induction l with
  | nil => exact List.suffix_refl _
  | cons x xs ih =>
    unfold eatRanges; split
    · exact eatBetween_suffix _ _ _
    · exact ih

theorem eatSet_suffix (l : List (Int × Int)) (x t : Bytes) : (eatSet l x t).2 <:+ t := by
  unfold eatSet; split
  · exact eatRanges_suffix _ _
  · exact eatOne_suffix _ _

theorem eatFold_suffix (rt : Rt) (x t : Bytes) : (eatFold rt x t).2 <:+ t := by
  unfold eatFold; split
  · exact List.drop_suffix _ _
  · exact List.suffix_refl _

/-- Every result of `f` is a suffix of the text it was given. -/
def Shrinks (f : EatFunc) : Prop := ∀ st, RetE (fun x : Bool × St => x.2.rest <:+ st.rest) (f st)

theorem lift_shrinks {f : Bytes → Bool × Bytes} (h : ∀ t, (f t).2 <:+ t) : Shrinks (lift f) :=
  fun st => .ret (h st.rest)

theorem orBack_suffix {t : Bytes} {x : Bool × St} (h : x.2.rest <:+ t) : (orBack t x).2.rest <:+ t := by
  unfold orBack; split
  · exact h
  · exact List.suffix_refl _

theorem eatAny_shrinks {rd : Reader → EatFunc} (h : ∀ r, Shrinks (rd r)) : ∀ rs, Shrinks (eatAny rd rs)
  | [], _ => .ret (List.suffix_refl _)
  | r :: rs, st => (h r st).bind fun a _ ha => by
    obtain ⟨ok, st'⟩ := a
    cases ok
    · exact (eatAny_shrinks h rs st').mono fun _ _ hb => hb.trans ha
    · exact .ret ha

theorem eatSeq_shrinks {rd : Reader → EatFunc} (h : ∀ r, Shrinks (rd r)) : ∀ rs, Shrinks (eatSeq rd rs)
  | [], _ => .ret (List.suffix_refl _)
  | r :: rs, st => (h r st).bind fun a _ ha => by
    obtain ⟨ok, st'⟩ := a
    cases ok
    · exact .ret ha
    · exact (eatSeq_shrinks h rs st').mono fun _ _ hb => hb.trans ha

theorem eatSkip_shrinks {rd : Reader → EatFunc} (h : ∀ r, Shrinks (rd r)) (sk : Reader) : ∀ rs, Shrinks (eatSkip rd sk rs)
  | [], _ => .ret (List.suffix_refl _)
  | r :: rs, st => (h r st).bind fun a _ ha => by
    obtain ⟨ok, st'⟩ := a
    cases ok
    · exact .ret ha
    · refine (h sk st').bind fun a _ hb => ?_
      obtain ⟨ok, st''⟩ := a
      cases ok
      · exact .ret (hb.trans ha)
      · exact (eatSkip_shrinks h sk rs st'').mono fun _ _ hc => hc.trans (hb.trans ha)

theorem eatTimes_shrinks {f : EatFunc} (h : Shrinks f) : ∀ k, Shrinks (eatTimes f k)
  | 0, _ => .ret (List.suffix_refl _)
  | k + 1, st => (h st).bind fun a _ ha => by
    obtain ⟨ok, st'⟩ := a
    cases ok
    · exact .ret ha
    · exact (eatTimes_shrinks h k st').mono fun _ _ hb => hb.trans ha

theorem eatZom_shrinks {f : EatFunc} (h : Shrinks f) : ∀ k st, RetE (fun x : St => x.rest <:+ st.rest) (eatZom f k st)
  | 0, _ => .timeout
  | k + 1, st => (h st).bind fun a _ ha => by
    obtain ⟨ok, st'⟩ := a
    cases ok
    · exact .ret ha
    · exact (eatZom_shrinks h k st').mono fun _ _ hb => hb.trans ha

theorem eatBody_shrinks {b t : EatFunc} (ht : Shrinks t) (t0 : Bytes) : ∀ n st,
    RetE (fun x : Option Bytes × St => x.2.rest <:+ st.rest ∧ ∀ y, x.1 = some y → y <:+ st.rest) (eatBody b t t0 n st)
  | 0, _ => .timeout
  | n + 1, st => by
    unfold eatBody
    split
    · exact .ret ⟨List.suffix_refl _, fun y h => by cases h⟩
    · refine (ht st).bind fun a _ ha => ?_
      obtain ⟨ok, st'⟩ := a
      cases ok
      · refine (eatBody_shrinks ht t0 n _).mono fun x _ hx => ?_
        have : (eatStep st'.rest).2 <:+ st.rest := (eatStep_suffix _).trans ha
        exact ⟨hx.1.trans this, fun y hy => (hx.2 y hy).trans this⟩
      · refine RetE.trivial.bind fun a _ _ => ?_
        obtain ⟨ok, sub⟩ := a
        simp only
        split
        · exact .ret ⟨ha, fun y h => by cases h; exact List.suffix_refl _⟩
        · exact .ret ⟨ha, fun y h => by cases h⟩

theorem eatPast_shrinks {f : EatFunc} (h : Shrinks f) : ∀ n, Shrinks (eatPast f n)
  | 0, _ => .timeout
  | n + 1, st => by
    unfold eatPast
    split
    · exact .ret (List.suffix_refl _)
    · refine (h st).bind fun a _ ha => ?_
      obtain ⟨ok, st'⟩ := a
      cases ok
      · exact (eatPast_shrinks h n _).mono fun _ _ hb => hb.trans ((eatStep_suffix _).trans ha)
      · exact .ret ha

theorem eatTo_shrinks {f : EatFunc} (h : Shrinks f) : ∀ n, Shrinks (eatTo f n)
  | 0, _ => .timeout
  | n + 1, st => by
    unfold eatTo
    refine (h st).bind fun a _ ha => ?_
    obtain ⟨ok, st'⟩ := a
    cases ok
    · simp only [Bool.false_eq_true, if_false]
      split
      · exact (eatTo_shrinks h n _).mono fun _ _ hb => hb.trans ((eatStep_suffix _).trans ha)
      · exact .ret ha
    · exact .ret (List.suffix_refl _)

theorem eat_shrinks (rt : Rt) (G : Env) : ∀ n r, Shrinks (eat rt G n r)
  | 0, _, _ => .timeout
  | n + 1, r, st => by
    have ih := eat_shrinks rt G n
    cases r with
    | any rs => exact (eatAny_shrinks ih rs st).bind fun _ _ h => .ret (orBack_suffix h)
    | anyRune str => exact lift_shrinks (eatOne_suffix _) st
    | at_ sub => exact (ih sub st).bind fun _ _ _ => .ret (List.suffix_refl _)
    | atEnd => exact .ret (List.suffix_refl _)
    | between a b => exact lift_shrinks (eatBetween_suffix _ _) st
    | betweenAny a b => exact lift_shrinks (eatSet_suffix _ _) st
    | body b t =>
      refine (eatBody_shrinks (ih t) _ n st).bind fun a _ h => ?_
      obtain ⟨res, st'⟩ := a
      cases res with
      | none => exact .ret (List.suffix_refl _)
      | some x => exact .ret (h.2 x rfl)
    | bodyTail b t =>
      refine (eatBody_shrinks (ih t) _ n st).bind fun a _ h => ?_
      obtain ⟨res, st'⟩ := a
      cases res with
      | none => exact .ret (List.suffix_refl _)
      | some x => exact .ret h.1
    | bool c f => exact lift_shrinks (eatBool_suffix _) st
    | fold v =>
      simp only [eat]
      split
      · exact .panic
      · exact lift_shrinks (eatFold_suffix _ _) st
    | holey a b c => exact lift_shrinks (eatOne_suffix _) st
    | int a b c => exact lift_shrinks (eatInt_suffix _ _) st
    | janusBegin id nm sub =>
      refine (ih sub st).bind fun a _ h => ?_
      obtain ⟨ok, st'⟩ := a
      cases ok
      · exact .ret (List.suffix_refl _)
      · exact .ret h
    | janusEnd id nm =>
      simp only [eat]
      split
      · exact .ret (List.drop_suffix _ _)
      · exact .ret (List.suffix_refl _)
    | invalid e => exact .ret (List.suffix_refl _)
    | lit x => exact lift_shrinks (eatLit_suffix _) st
    | many sub => exact (eatZom_shrinks (ih sub) n st).bind fun _ _ h => .ret h
    | map f sub => exact (ih sub st).bind fun _ _ h => .ret (orBack_suffix h)
    | match_ w f => exact lift_shrinks (eatMatch_suffix _) st
    | named nm sub => exact ih sub st
    | not sub =>
      refine (ih sub st).bind fun a _ h => ?_
      obtain ⟨ok, st'⟩ := a
      cases ok
      · exact .ret (eatStep_suffix _)
      · exact .ret (List.suffix_refl _)
    | opt sub => exact (ih sub st).bind fun _ _ h => .ret h
    | past sub => exact (eatPast_shrinks (ih sub) n st).bind fun _ _ h => .ret (orBack_suffix h)
    | rune c => exact lift_shrinks (eatOne_suffix _) st
    | seq rs => exact (eatSeq_shrinks ih rs st).bind fun _ _ h => .ret (orBack_suffix h)
    | skipSeq sk rs =>
      refine (ih sk st).bind fun a _ h => ?_
      obtain ⟨ok, st'⟩ := a
      cases ok
      · exact .ret (orBack_suffix h)
      · exact (eatSkip_shrinks ih sk rs st').bind fun _ _ h' => .ret (orBack_suffix (h'.trans h))
    | times k sub => exact eatTimes_shrinks (ih sub) _ st
    | «to» sub => exact (eatTo_shrinks (ih sub) n st).bind fun _ _ h => .ret (orBack_suffix h)
    | uint a b c => exact lift_shrinks (eatUint_suffix _ _) st
    | wrap w f => exact .panic
    | zom sub => exact (eatZom_shrinks (ih sub) n st).bind fun _ _ h => .ret h
    | pick i b sub => exact (ih sub st).bind fun _ _ h => .ret (orBack_suffix h)
    | monitor i l sub => exact ih sub st
    | rule i =>
      simp only [eat]
      split
      · exact ih _ st
      · exact .panic
    | ruleName sub => exact ih sub st
    | grammar w sub => exact ih sub st

end Tok
