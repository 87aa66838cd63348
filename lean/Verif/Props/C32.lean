/-
C32 Readers stay inside the text and never move backward.
C33 A failed Read does not move the scanner.
-/
import Verif.Proofs.Safe
import Verif.Props.C17
import Verif.Model.Grammars

namespace Tok
open Spec

variable {p : Prop}

/-! ### C32 -/

/-- Reading with any reader expression and grammar, `Wrap` included when its function is
well-behaved itself, and panicking readers included: whenever the read returns, the text is
the same and the position lies between the start and the end of the text. -/
theorem C32_position (rt : Rt) (G : Env) (r : Reader) (hG : G.Every (Reader.safeHere True G))
    (hr : r.Every (Reader.safeHere True G)) (n : Nat) (s s' : Scanner) (hs : Inside s) (e : Option Err)
    (h : read rt G n r s = .ret (e, s')) :
    s'.full = s.full ∧ s.pos ≤ s'.pos ∧ s'.pos ≤ (s.full.length : Int) := by
  obtain ⟨h1, h2, h3⟩ := (read_safe rt G hG n r hr s hs).2 _ h
  have := h1.2
  rw [h2] at this
  exact ⟨h2, h3, this⟩

/-- No panic, if no `Fold` reader with a non-empty literal occurs, every rule has a reader
and the functions of `Wrap` readers do not panic.  The full claim has no condition on `Fold`;
`C32_violated` shows that it is needed. -/
theorem C32_no_panic_partial (rt : Rt) (G : Env) (r : Reader) (hG : G.Every (Reader.safeHere False G))
    (hr : r.Every (Reader.safeHere False G)) (n : Nat) (s : Scanner) (hs : Inside s) :
    read rt G n r s ≠ .panic := fun h => (read_safe rt G hG n r hr s hs).1 h

/-- A `Fold` reader panics exactly when fewer bytes are left than its literal has. -/
theorem C32_fold_panics (rt : Rt) (G : Env) (v : Bytes) (n : Nat) (s : Scanner) (hs : Inside s) :
    read rt G (n + 1) (.fold v) s = .panic ↔ (s.full.length : Int) - s.pos < v.length := by
  have h1 := ifFold_sim (sees_st hs) rt v
  have hl : s.st.rest.length = s.full.length - s.pos.toNat := by simp [Scanner.st]
  obtain ⟨h2, h3⟩ := hs
  by_cases hlen : v.length > s.st.rest.length
  · rw [if_pos hlen] at h1
    simp only [read]
    rw [h1.panic_iff.mpr rfl]
    simp only [ifFalse, Exec.bind_panic, true_iff]
    omega
  · rw [if_neg hlen] at h1
    obtain ⟨a, ha, _⟩ := h1.right rfl
    simp only [read, ifFalse]
    rw [ha]
    simp only [Exec.bind_ret, Exec.pure_eq, reduceCtorEq, false_iff]
    omega

/-- The claim fails: reading `Fold("abc")` on the text `ab` panics. -/
theorem C32_violated (rt : Rt) : ∃ (r : Reader) (s : Scanner), Inside s ∧ ∀ n, read rt [] (n + 1) r s = .panic :=
  ⟨.fold b!"abc", .new b!"ab" Heap.empty, ⟨by decide, by decide⟩, fun n =>
    (C32_fold_panics rt [] b!"abc" n (.new b!"ab" Heap.empty) ⟨by decide, by decide⟩).mpr (by decide)⟩

/-- A condition that can be computed and is enough for C32: no `Wrap`, no `Fold` and every
rule has a reader. -/
def Reader.safeB (G : Env) : Reader → Bool
  | .wrap _ _ => false
  | .fold _ => false
  | .rule i => match G[i]? with
    | some ⟨_, some _⟩ => true
    | _ => false
  | _ => true

theorem safeHere_of_safeB {G : Env} {r : Reader} (h : r.safeB G = true) : r.safeHere p G := by
  cases r with
  | wrap w f => simp [Reader.safeB] at h
  | fold v => simp [Reader.safeB] at h
  | rule i =>
    unfold Reader.safeB at h
    rcases hi : G[i]? with _ | ⟨nm, _ | c⟩ <;> simp only [hi] at h
    · cases h
    · cases h
    · exact .inr ⟨nm, c, hi⟩
  | _ => exact trivial

theorem Json.safe : Json.env.Every (Reader.safeHere p Json.env) :=
  (Env.everyB_sound (p := Reader.safeB Json.env) (by decide)).imp fun _ => safeHere_of_safeB
theorem Mxt.safe : Mxt.env.Every (Reader.safeHere p Mxt.env) :=
  (Env.everyB_sound (p := Reader.safeB Mxt.env) (by decide)).imp fun _ => safeHere_of_safeB
theorem Lua.safe : Lua.env.Every (Reader.safeHere p Lua.env) :=
  (Env.everyB_sound (p := Reader.safeB Lua.env) (by decide)).imp fun _ => safeHere_of_safeB

/-- The shipped grammars: whichever rule is read, on whatever text, no panic and the position
stays inside the text. -/
theorem C32_shipped (rt : Rt) (G : Env) (hG : G = Json.env ∨ G = Mxt.env ∨ G = Lua.env) (i : Nat) (hi : i < G.length)
    (n : Nat) (s : Scanner) (hs : Inside s) :
    read rt G n (.rule i) s ≠ .panic ∧ ∀ e s', read rt G n (.rule i) s = .ret (e, s') →
      s'.full = s.full ∧ s.pos ≤ s'.pos ∧ s'.pos ≤ (s.full.length : Int) := by
  have key : ∀ p, G.Every (Reader.safeHere p G) ∧ (Reader.rule i).Every (Reader.safeHere p G) := by
    intro p
    refine ⟨by rcases hG with rfl | rfl | rfl; exacts [Json.safe, Mxt.safe, Lua.safe], .mk ?_ (by simp [Reader.subs])⟩
    right
    have hall : ∀ rl ∈ G, rl.reader.isSome := by
      rcases hG with rfl | rfl | rfl <;> decide
    have h1 := hall _ (List.getElem_mem hi)
    obtain ⟨c, hc⟩ := Option.isSome_iff_exists.mp h1
    exact ⟨G[i].name, c, by rw [List.getElem?_eq_getElem hi, ← hc]⟩
  exact ⟨C32_no_panic_partial rt G _ (key False).1 (key False).2 n s hs,
    fun e s' h => C32_position rt G _ (key True).1 (key True).2 n s s' hs e h⟩

/-- A real read: the JSON grammar on `[1]`, from the start to the end. -/
example : ∃ s', read exRt Json.env 60 Json.reader (.new b!"[1]" Heap.empty) = .ret (none, s') ∧ s'.pos = 3 := ⟨_, rfl, rfl⟩
/-- A `Wrap` whose function is safe: the scanner method `IfRune`. -/
example : Safe False (fun s => ifFalse b!"a" (s.ifRune 97)) := fun _ hs =>
  post_ifFalse (post_of_rb hs (eatOne_suffix _) (ifRune_sim (sees_st hs) 97))

/-! ### C33 -/

/-- A failed read is back where it started. -/
def Restores (f : ReadFunc) : Prop := ∀ s, Inside s → ∀ e s', f s = .ret (some e, s') → s'.pos = s.pos

/-- The condition of C33.  Only readers that hand through the failure of another reader
matter: `Times` with two or more repetitions is excluded, the function of a `Wrap` has to
restore the position itself. -/
def Reader.keeps : Reader → Prop
  | .named _ r => r.keeps
  | .monitor _ _ r => r.keeps
  | .ruleName r => r.keeps
  | .grammar _ r => r.keeps
  | .times k r => k ≤ 0 ∨ k = 1 ∧ r.keeps
  | .wrap _ f => Restores f
  | _ => True


theorem back_pos {s s' : Scanner} (hs : Inside s) (h : Forward s s') : (s'.toMarker s.pos).2.pos = s.pos := by
  have h2 := hs.2
  rw [← h.2.1] at h2
  have h1 := hs.1
  unfold Scanner.toMarker
  rw [if_neg (by simp; omega), notify_pos]

/-- Reads that go back to the start on every failure. -/
theorem restores_back {x : Exec (Option Err × Scanner)} {s : Scanner} (hs : Inside s)
    (hx : PostE True (fun x => Forward s x.2) x) {k : Option Err × Scanner → Exec (Option Err × Scanner)}
    (hk : ∀ a e s', k a = .ret (some e, s') → s' = (a.2.toMarker s.pos).2) {e : Err} {s' : Scanner}
    (h : (x >>= k) = .ret (some e, s')) : s'.pos = s.pos := by
  obtain ⟨a, ha, hka⟩ := Exec.bind_eq_ret.mp h
  rw [hk a e s' hka]
  exact back_pos hs (hx.2 a ha)

theorem leaf_restores (rt : Rt) (G : Env) (n : Nat) {r : Reader} (hr : r.leaf = true) :
    Restores (read rt G (n + 1) r) := by
  intro s hs e s' h
  obtain ⟨b, hb, h1, h2⟩ := (leaf_eat rt G n hr s.full s s.st (sees_st hs)).left h
  obtain ⟨ok, st⟩ := b
  simp only [Option.isNone_some] at h1
  subst h1
  rw [leaf_no hr hb] at h2
  obtain ⟨a1, a2, a3⟩ := h2.pos
  obtain ⟨b1, b2, b3⟩ := (sees_st hs).pos
  simp only at *
  omega

theorem read_restores (rt : Rt) (G : Env) (hG : G.Every (Reader.safeHere True G))
    (hk : ∀ rl ∈ G, ∀ c, rl.reader = some c → c.keeps) : ∀ n r,
    r.Every (Reader.safeHere True G) → r.keeps → Restores (read rt G n r)
  | 0, _, _, _, _, _, _, _, h => by simp [read] at h
  | n + 1, r, hr, hkr, s, hs, e, s', h => by
    have ih := fun c hc hkc => read_restores rt G hG hk n c hc hkc
    have safe : ∀ c ∈ r.subs, Safe True (read rt G n c) := fun c hc => read_safe rt G hG n c (hr.sub hc)
    by_cases hleaf : r.leaf = true
    · exact leaf_restores rt G n hleaf s hs e s' h
    cases r with
    | any rs =>
      simp only [read] at h
      obtain ⟨⟨errs, s1⟩, ha, hb⟩ := Exec.bind_eq_ret.mp h
      have hf := (anyLoop_safe rs safe [] s hs).2 _ ha
      cases errs with
      | none => simp at hb
      | some errs =>
        simp only [Exec.pure_eq, Exec.ret.injEq, Prod.mk.injEq] at hb
        rw [← hb.2]; exact back_pos hs hf
    | at_ c =>
      simp only [read] at h
      obtain ⟨⟨err, s1⟩, ha, hb⟩ := Exec.bind_eq_ret.mp h
      have hf := (safe c (by simp [Reader.subs]) s hs).2 _ ha
      simp only [Exec.pure_eq, Exec.ret.injEq, Prod.mk.injEq] at hb
      rw [← hb.2]; exact back_pos hs hf
    | body b t =>
      simp only [read] at h
      obtain ⟨⟨res, s1⟩, ha, hb⟩ := Exec.bind_eq_ret.mp h
      have hf := (bodyLoop_safe (safe b (by simp [Reader.subs])) (safe t (by simp [Reader.subs])) hs n s (Forward.refl hs)).2 _ ha
      cases res with
      | some x => simp at hb
      | none =>
        simp only [Exec.pure_eq, Exec.ret.injEq, Prod.mk.injEq] at hb
        rw [← hb.2]; exact back_pos hs hf.1
    | bodyTail b t =>
      simp only [read] at h
      obtain ⟨⟨res, s1⟩, ha, hb⟩ := Exec.bind_eq_ret.mp h
      have hf := (bodyLoop_safe (safe b (by simp [Reader.subs])) (safe t (by simp [Reader.subs])) hs n s (Forward.refl hs)).2 _ ha
      cases res with
      | some x => simp at hb
      | none =>
        simp only [Exec.pure_eq, Exec.ret.injEq, Prod.mk.injEq] at hb
        rw [← hb.2]; exact back_pos hs hf.1
    | janusBegin id nm c =>
      simp only [read, Scanner.tokenizeUse] at h
      obtain ⟨⟨⟨tk, err⟩, s1⟩, ha, hb⟩ := Exec.bind_eq_ret.mp h
      obtain ⟨⟨err', s2⟩, ha', hb'⟩ := Exec.bind_eq_ret.mp ha
      have hf := (safe c (by simp [Reader.subs]) s hs).2 _ ha'
      simp only [Exec.pure_eq, Exec.ret.injEq, Prod.mk.injEq] at hb'
      obtain ⟨⟨_, rfl⟩, rfl⟩ := hb'
      cases err' with
      | none =>
        simp only [Option.isNone_none, if_true] at hb
        obtain ⟨_, _, hc⟩ := Exec.bind_eq_ret.mp hb
        simp at hc
      | some e' =>
        simp only [Option.isNone_some, Bool.false_eq_true, if_false, Exec.pure_eq, Exec.ret.injEq, Prod.mk.injEq] at hb
        rw [← hb.2]; exact back_pos hs hf
    | many c =>
      simp only [read] at h
      obtain ⟨s1, ha, hb⟩ := Exec.bind_eq_ret.mp h
      have hf := (zomLoop_safe (safe c (by simp [Reader.subs])) n s hs).2 _ ha
      simp only [Exec.pure_eq, Exec.ret.injEq, Prod.mk.injEq, Scanner.errorIfFalse] at hb
      obtain ⟨h1, rfl⟩ := hb
      have := hf.2.2
      split at h1
      · rename_i hlt
        rw [Bool.not_eq_true', decide_eq_false_iff_not] at hlt
        simp only [Scanner.mark] at hlt
        omega
      · cases h1
    | map f c =>
      simp only [read, Scanner.tokenizeUse] at h
      obtain ⟨⟨⟨tk, err⟩, s1⟩, ha, hb⟩ := Exec.bind_eq_ret.mp h
      obtain ⟨⟨err', s2⟩, ha', hb'⟩ := Exec.bind_eq_ret.mp ha
      have hf := (safe c (by simp [Reader.subs]) s hs).2 _ ha'
      simp only [Exec.pure_eq, Exec.ret.injEq, Prod.mk.injEq] at hb'
      obtain ⟨⟨_, rfl⟩, rfl⟩ := hb'
      cases err' with
      | none => simp at hb
      | some e' =>
        simp only [Option.isNone_some, Bool.false_eq_true, if_false, Exec.pure_eq, Exec.ret.injEq, Prod.mk.injEq] at hb
        rw [← hb.2]; exact back_pos hs hf
    | named nm c => exact ih c (hr.sub (by simp [Reader.subs])) hkr s hs e s' h
    | not c =>
      simp only [read] at h
      obtain ⟨⟨err, s1⟩, ha, hb⟩ := Exec.bind_eq_ret.mp h
      have hf := (safe c (by simp [Reader.subs]) s hs).2 _ ha
      cases err with
      | none =>
        simp only [Option.isNone_none, if_true, Exec.pure_eq, Exec.ret.injEq, Prod.mk.injEq] at hb
        rw [← hb.2]; exact back_pos hs hf
      | some e' =>
        simp only [Option.isNone_some, Bool.false_eq_true, if_false] at hb
        obtain ⟨_, _, hc⟩ := Exec.bind_eq_ret.mp hb
        simp at hc
    | opt c =>
      simp only [read] at h
      obtain ⟨_, _, hb⟩ := Exec.bind_eq_ret.mp h
      simp at hb
    | past c =>
      simp only [read] at h
      obtain ⟨⟨ok, s1⟩, ha, hb⟩ := Exec.bind_eq_ret.mp h
      have hf := (pastLoop_safe (safe c (by simp [Reader.subs])) n s hs).2 _ ha
      cases ok with
      | true => simp at hb
      | false =>
        simp only [Bool.false_eq_true, if_false, Exec.pure_eq, Exec.ret.injEq, Prod.mk.injEq] at hb
        rw [← hb.2]; exact back_pos hs hf
    | seq rs =>
      simp only [read] at h
      obtain ⟨⟨err, s1⟩, ha, hb⟩ := Exec.bind_eq_ret.mp h
      have hf := (seqLoop_safe rs safe s hs).2 _ ha
      cases err with
      | none => simp at hb
      | some e' =>
        simp only [Option.isSome_some, if_true, Exec.pure_eq, Exec.ret.injEq, Prod.mk.injEq] at hb
        rw [← hb.2]; exact back_pos hs hf
    | skipSeq sk rs =>
      simp only [read] at h
      have hsk := safe sk (by simp [Reader.subs])
      obtain ⟨⟨err, s1⟩, ha, hb⟩ := Exec.bind_eq_ret.mp h
      have hf := (hsk s hs).2 _ ha
      cases err with
      | none =>
        simp only [Option.isSome_none, Bool.false_eq_true, if_false] at hb
        obtain ⟨⟨err, s2⟩, hc, hd⟩ := Exec.bind_eq_ret.mp hb
        have hf2 := (skipSeqLoop_safe hsk rs (fun r hr => safe r (by simp [Reader.subs, hr])) s1 hf.1).2 _ hc
        cases err with
        | none => simp at hd
        | some e' =>
          simp only [Option.isSome_some, if_true, Exec.pure_eq, Exec.ret.injEq, Prod.mk.injEq] at hd
          rw [← hd.2]; exact back_pos hs (Forward.trans hf hf2)
      | some e' =>
        simp only [Option.isSome_some, if_true, Exec.pure_eq, Exec.bind_ret, Exec.ret.injEq, Prod.mk.injEq] at hb
        rw [← hb.2]; exact back_pos hs hf
    | times k c =>
      simp only [read] at h
      rcases hkr with hk0 | ⟨hk1, hkc⟩
      · rw [show k.toNat = 0 by omega] at h
        simp [timesLoop] at h
      · subst hk1
        rw [show (1 : Int).toNat = 1 from rfl] at h
        simp only [timesLoop] at h
        obtain ⟨⟨err, s1⟩, ha, hb⟩ := Exec.bind_eq_ret.mp h
        cases err with
        | none => simp at hb
        | some e' =>
          simp only [Exec.pure_eq, Exec.ret.injEq, Prod.mk.injEq] at hb
          rw [← hb.2]
          exact ih c (hr.sub (by simp [Reader.subs])) hkc s hs e' s1 ha
    | «to» c =>
      simp only [read] at h
      obtain ⟨⟨ok, s1⟩, ha, hb⟩ := Exec.bind_eq_ret.mp h
      have hf := (toLoop_safe (safe c (by simp [Reader.subs])) n s hs).2 _ ha
      cases ok with
      | true => simp at hb
      | false =>
        simp only [Bool.false_eq_true, if_false, Exec.pure_eq, Exec.ret.injEq, Prod.mk.injEq] at hb
        rw [← hb.2]; exact back_pos hs hf
    | wrap w f => exact hkr s hs e s' h
    | zom c =>
      simp only [read] at h
      obtain ⟨_, _, hb⟩ := Exec.bind_eq_ret.mp h
      simp at hb
    | pick i b c =>
      simp only [read, Scanner.tokenizeUse] at h
      obtain ⟨⟨⟨tk, err⟩, s1⟩, ha, hb⟩ := Exec.bind_eq_ret.mp h
      obtain ⟨⟨err', s2⟩, ha', hb'⟩ := Exec.bind_eq_ret.mp ha
      have hf := (safe c (by simp [Reader.subs]) s hs).2 _ ha'
      simp only [Exec.pure_eq, Exec.ret.injEq, Prod.mk.injEq] at hb'
      obtain ⟨⟨_, rfl⟩, rfl⟩ := hb'
      cases err' with
      | none => simp at hb
      | some e' =>
        simp only [Option.isNone_some, Bool.false_eq_true, if_false, Exec.pure_eq, Exec.ret.injEq, Prod.mk.injEq] at hb
        rw [← hb.2]; exact back_pos hs hf
    | monitor i l c =>
      simp only [read] at h
      obtain ⟨⟨err, s1⟩, ha, hb⟩ := Exec.bind_eq_ret.mp h
      simp only [Exec.pure_eq, Exec.ret.injEq, Prod.mk.injEq] at hb
      obtain ⟨rfl, rfl⟩ := hb
      have := ih c (hr.sub (by simp [Reader.subs])) hkr { s with heap := { s.heap with
        logs := upd s.heap.logs l ((s.heap.logs l).enter rt i s.pos).2 } } hs e s1 ha
      exact this
    | rule i =>
      simp only [read] at h
      rcases hi : G[i]? with _ | ⟨nm, _ | c⟩ <;> simp only [hi] at h
      · cases h
      · cases h
      · exact ih c (hG.get hi) (hk _ (List.mem_of_getElem? hi) c rfl) s hs e s' h
    | ruleName c =>
      simp only [read] at h
      obtain ⟨⟨err, s1⟩, ha, hb⟩ := Exec.bind_eq_ret.mp h
      simp only [Exec.pure_eq, Exec.ret.injEq, Prod.mk.injEq, Scanner.errorIfFalse] at hb
      obtain ⟨h1, rfl⟩ := hb
      cases err with
      | none => simp at h1
      | some e' => exact ih c (hr.sub (by simp [Reader.subs])) hkr s hs e' s1 ha
    | grammar w c =>
      simp only [read] at h
      obtain ⟨⟨err, s1⟩, ha, hb⟩ := Exec.bind_eq_ret.mp h
      cases err with
      | none => simp at hb
      | some e' =>
        simp only [Exec.pure_eq, Exec.ret.injEq, Prod.mk.injEq] at hb
        rw [← hb.2]
        exact ih c (hr.sub (by simp [Reader.subs])) hkr s hs e' s1 ha
    | _ => simp [Reader.leaf] at hleaf

/-- A failed read is back at the position where it started, for every reader expression and
grammar in which no `Times` with two or more repetitions is read directly (below the
transparent readers `Named`, `Monitor`, rules and grammars) and whose `Wrap` functions are
well-behaved.  The full claim has no condition on `Times`; `C33_violated` shows that it is
needed. -/
theorem C33_restores_partial (rt : Rt) (G : Env) (r : Reader) (hG : G.Every (Reader.safeHere True G))
    (hk : ∀ rl ∈ G, ∀ c, rl.reader = some c → c.keeps) (hr : r.Every (Reader.safeHere True G)) (hkr : r.keeps)
    (n : Nat) (s s' : Scanner) (hs : Inside s) (e : Err) (h : read rt G n r s = .ret (some e, s')) :
    s'.pos = s.pos := read_restores rt G hG hk n r hr hkr s hs e s' h

/-- Through `Use` every reader restores the position, `Times` included: `Use` goes back on
its own. -/
theorem C33_use (rt : Rt) (G : Env) (r : Reader) (hG : G.Every (Reader.safeHere True G))
    (hr : r.Every (Reader.safeHere True G)) (n : Nat) (s s' : Scanner) (hs : Inside s) (e : Err)
    (h : s.use (read rt G n r) = .ret (some e, s')) : s'.pos = s.pos := by
  simp only [Scanner.use] at h
  obtain ⟨⟨err, s1⟩, ha, hb⟩ := Exec.bind_eq_ret.mp h
  have hf := (read_safe rt G hG n r hr s hs).2 _ ha
  cases err with
  | none => simp at hb
  | some e' =>
    simp only [Option.isSome_some, if_true, Exec.pure_eq, Exec.ret.injEq, Prod.mk.injEq] at hb
    rw [← hb.2]; exact back_pos hs hf

/-- The claim fails: `Times(2, Rune('a'))` on `ab` returns an error and leaves the scanner
behind the `a`.  As a consequence `Opt(Times(2, Rune('a')))` succeeds and consumes it. -/
theorem C33_violated (rt : Rt) :
    (∃ e s', read rt [] 3 (.times 2 (.rune 97)) (.new b!"ab" Heap.empty) = .ret (some e, s') ∧ s'.pos = 1) ∧
    (∃ s', read rt [] 4 (.opt (.times 2 (.rune 97))) (.new b!"ab" Heap.empty) = .ret (none, s') ∧ s'.pos = 1) :=
  ⟨⟨_, _, rfl, rfl⟩, ⟨_, rfl, rfl⟩⟩

/-- The shipped grammars restore the position for every rule. -/
theorem C33_shipped (rt : Rt) (G : Env) (hG : G = Json.env ∨ G = Mxt.env ∨ G = Lua.env) (i : Nat)
    (n : Nat) (s s' : Scanner) (hs : Inside s) (e : Err) (h : read rt G n (.rule i) s = .ret (some e, s')) :
    s'.pos = s.pos := by
  have hk : ∀ rl ∈ G, ∀ c, rl.reader = some c → c.keeps := by
    rcases hG with rfl | rfl | rfl <;>
      (intro rl hrl c hc
       simp only [Json.env, Mxt.env, Lua.env, List.mem_cons, List.not_mem_nil, or_false] at hrl
       rcases hrl with rfl | rfl | rfl | rfl | rfl | rfl | rfl | rfl | rfl | rfl | rfl | rfl | rfl | rfl | rfl | rfl | rfl
         | rfl | rfl | rfl | rfl | rfl | rfl | rfl | rfl | rfl | rfl | rfl | rfl | rfl | rfl | rfl | rfl | rfl | rfl | rfl
         | rfl | rfl | rfl | rfl | rfl | rfl | rfl | rfl <;> (cases hc; trivial))
  exact C33_restores_partial rt G _ (by rcases hG with rfl | rfl | rfl; exacts [Json.safe, Mxt.safe, Lua.safe]) hk
    (.mk (r := .rule i) (Or.inl trivial) (by simp [Reader.subs])) trivial n s s' hs e h

/-- The JSON grammar fails on `[1` after reading two bytes, and is back at the start. -/
example : ∃ e s', read exRt Json.env 60 Json.reader (.new b!"[1" Heap.empty) = .ret (some e, s') ∧ s'.pos = 0 :=
  ⟨_, _, rfl, rfl⟩

end Tok
