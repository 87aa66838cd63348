/-
Reads with enough steps: what a reader does with some budget of steps, an exchanged reader does with every budget from some point on.
-/
import Verif.Proofs.LawSwap

namespace Tok

open Spec

/-- If `x` is a result, `F` has it from some number of steps on. -/
def LimE {α : Type} (x : Exec α) (F : Nat → Exec α) : Prop := x ≠ .timeout → ∃ m, ∀ k, m ≤ k → F k = x

theorem LimE.const {α : Type} (x : Exec α) : LimE x fun _ => x := fun _ => ⟨0, fun _ _ => rfl⟩
theorem LimE.timeout {α : Type} (F : Nat → Exec α) : LimE .timeout F := fun h => absurd rfl h
theorem LimE.bind {α β : Type} {x : Exec α} {F : Nat → Exec α} {f : α → Exec β} {g : Nat → α → Exec β} (h : LimE x F)
    (hf : ∀ a, LimE (f a) fun k => g k a) : LimE (x >>= f) fun k => F k >>= g k := by
  intro hx
  cases x with
  | timeout => exact absurd rfl hx
  | panic =>
    obtain ⟨m, hm⟩ := h (by simp)
    exact ⟨m, fun k hk => by show F k >>= g k = _; rw [hm k hk]; rfl⟩
  | ret a =>
    obtain ⟨m, hm⟩ := h (by simp)
    obtain ⟨m', hm'⟩ := hf a hx
    exact ⟨max m m', fun k hk => by show F k >>= g k = _; rw [hm k (by omega)]; exact hm' k (by omega)⟩
theorem LimE.congr {α : Type} {x : Exec α} {F F' : Nat → Exec α} (m : Nat) (e : ∀ k, m ≤ k → F' k = F k) (h : LimE x F) : LimE x F' := by
  intro hx
  obtain ⟨m', hm⟩ := h hx
  exact ⟨max m m', fun k hk => by rw [e k (by omega), hm k (by omega)]⟩
theorem LimE.shift {α : Type} {x : Exec α} {F : Nat → Exec α} (h : LimE x fun k => F (k + 1)) : LimE x F := by
  intro hx
  obtain ⟨m, hm⟩ := h hx
  refine ⟨m + 1, fun k hk => ?_⟩
  have : F (k - 1 + 1) = x := hm (k - 1) (by omega)
  rwa [show k - 1 + 1 = k by omega] at this

/-- Two ways of reading, the second with any number of steps. -/
def LimF (f : ReadFunc) (g : Nat → ReadFunc) : Prop := ∀ s, LimE (f s) fun k => g k s

section
variable {f : Reader → ReadFunc} {g : Nat → Reader → ReadFunc}

theorem anyLoop_lim {rs rs' : List Reader} (h : List.Forall₂ (fun a b => LimF (f a) fun k => g k b) rs rs') : ∀ errs s,
    LimE (anyLoop f rs errs s) fun k => anyLoop (g k) rs' errs s := by
  induction h with
  | nil => exact fun _ _ => .const _
  | cons h _ ih =>
    intro errs s
    refine (h s).bind fun a => ?_
    obtain ⟨e, s⟩ := a
    cases e with
    | none => exact .const _
    | some e => exact ih _ s

theorem seqLoop_lim {rs rs' : List Reader} (h : List.Forall₂ (fun a b => LimF (f a) fun k => g k b) rs rs') :
    LimF (seqLoop f rs) fun k => seqLoop (g k) rs' := by
  induction h with
  | nil => exact fun _ => .const _
  | cons h _ ih =>
    intro s
    refine (h s).bind fun a => ?_
    obtain ⟨e, s⟩ := a
    cases e with
    | none => exact ih s
    | some e => exact .const _

theorem skipSeqLoop_lim {sk sk' : Reader} (hs : LimF (f sk) fun k => g k sk') {rs rs' : List Reader}
    (h : List.Forall₂ (fun a b => LimF (f a) fun k => g k b) rs rs') : LimF (skipSeqLoop f sk rs) fun k => skipSeqLoop (g k) sk' rs' := by
  induction h with
  | nil => exact fun _ => .const _
  | cons h _ ih =>
    intro s
    refine (h s).bind fun a => ?_
    obtain ⟨e, s⟩ := a
    cases e with
    | some e => exact .const _
    | none =>
      refine (hs s).bind fun a => ?_
      obtain ⟨e, s⟩ := a
      cases e with
      | some e => exact .const _
      | none => exact ih s

end

section
variable {f f' : ReadFunc} {g g' : Nat → ReadFunc}

theorem timesLoop_lim (h : LimF f g) : ∀ n, LimF (timesLoop f n) fun k => timesLoop (g k) n
  | 0, _ => .const _
  | n + 1, s => (h s).bind fun a => by
    obtain ⟨e, s⟩ := a
    cases e with
    | some e => exact .const _
    | none => exact timesLoop_lim h n s

theorem use_lim (h : LimF f g) (s : Scanner) : LimE (s.use f) fun k => s.use (g k) := (h s).bind fun _ => .const _
theorem tokenizeUse_lim (h : LimF f g) (s : Scanner) : LimE (s.tokenizeUse f) fun k => s.tokenizeUse (g k) := (h s).bind fun _ => .const _

theorem zomLoop_lim (h : LimF f g) : ∀ n c s, LimE (zomLoop f n s) fun k => zomLoop (g k) (k - c) s
  | 0, _, _ => .timeout _
  | n + 1, c, s => by
    refine LimE.congr (F := fun k => zomLoop (g k) (k - (c + 1) + 1) s) (c + 1) (fun k hk => by rw [show k - (c + 1) + 1 = k - c by omega]) ((h s).bind fun a => ?_)
    obtain ⟨e, s⟩ := a
    cases e with
    | some e => exact .const _
    | none => exact zomLoop_lim h n (c + 1) s

theorem bodyLoop_lim (h : LimF f g) (h' : LimF f' g') (mk : Int) : ∀ n c s, LimE (bodyLoop f f' mk n s) fun k => bodyLoop (g k) (g' k) mk (k - c) s
  | 0, _, _ => .timeout _
  | n + 1, c, s => by
    refine LimE.congr (F := fun k => bodyLoop (g k) (g' k) mk (k - (c + 1) + 1) s) (c + 1) (fun k hk => by rw [show k - (c + 1) + 1 = k - c by omega]) ?_
    unfold bodyLoop
    split
    · exact .const _
    · refine (h' s).bind fun a => ?_
      obtain ⟨e, s'⟩ := a
      cases e with
      | none =>
        refine (LimE.const _).bind fun str => ?_
        exact (use_lim h _).bind fun _ => .const _
      | some e => exact (LimE.const _).bind fun a => bodyLoop_lim h h' mk n (c + 1) _

theorem pastLoop_lim (h : LimF f g) : ∀ n c s, LimE (pastLoop f n s) fun k => pastLoop (g k) (k - c) s
  | 0, _, _ => .timeout _
  | n + 1, c, s => by
    refine LimE.congr (F := fun k => pastLoop (g k) (k - (c + 1) + 1) s) (c + 1) (fun k hk => by rw [show k - (c + 1) + 1 = k - c by omega]) ?_
    unfold pastLoop
    split
    · exact .const _
    · refine (h s).bind fun a => ?_
      obtain ⟨e, s'⟩ := a
      cases e with
      | none => exact .const _
      | some e => exact (LimE.const _).bind fun a => pastLoop_lim h n (c + 1) _

theorem toLoop_lim (h : LimF f g) : ∀ n c s, LimE (toLoop f n s) fun k => toLoop (g k) (k - c) s
  | 0, _, _ => .timeout _
  | n + 1, c, s => by
    refine LimE.congr (F := fun k => toLoop (g k) (k - (c + 1) + 1) s) (c + 1) (fun k hk => by rw [show k - (c + 1) + 1 = k - c by omega]) ?_
    unfold toLoop
    refine (h s).bind fun a => ?_
    obtain ⟨e, s'⟩ := a
    cases e with
    | none => exact .const _
    | some e =>
      refine (LimE.const _).bind fun a => ?_
      obtain ⟨ok, s'⟩ := a
      cases ok
      · exact .const _
      · exact toLoop_lim h n (c + 1) _

end

/-! ### one step -/

/-- What `a` does with `n` steps in the grammar `G`, `b` does with enough steps in `G'`. -/
def Lim (rt : Rt) (G G' : Env) (n : Nat) (a b : Reader) : Prop := LimF (read rt G n a) fun k => read rt G' k b

section
variable {rt : Rt} {G G' : Env} {n : Nat} {a b c d : Reader} {rs rs' : List Reader}

theorem Lim.any (h : List.Forall₂ (Lim rt G G' n) rs rs') : Lim rt G G' (n + 1) (.any rs) (.any rs') :=
  fun s => .shift ((anyLoop_lim h [] s).bind fun _ => .const _)
theorem Lim.at_ (h : Lim rt G G' n a b) : Lim rt G G' (n + 1) (.at_ a) (.at_ b) := fun s => .shift ((h s).bind fun _ => .const _)
theorem Lim.body (h : Lim rt G G' n a b) (h' : Lim rt G G' n c d) (e : (Reader.body a c).what rt G = (Reader.body b d).what rt G') :
    Lim rt G G' (n + 1) (.body a c) (.body b d) := by
  refine fun s => .shift ?_
  simp only [read, e]
  exact (bodyLoop_lim h h' _ n 0 s).bind fun _ => .const _
theorem Lim.bodyTail (h : Lim rt G G' n a b) (h' : Lim rt G G' n c d) (e : (Reader.bodyTail a c).what rt G = (Reader.bodyTail b d).what rt G') :
    Lim rt G G' (n + 1) (.bodyTail a c) (.bodyTail b d) := by
  refine fun s => .shift ?_
  simp only [read, e]
  exact (bodyLoop_lim h h' _ n 0 s).bind fun _ => .const _
theorem Lim.janusBegin (id : Nat) (nm : Bytes) (h : Lim rt G G' n a b) : Lim rt G G' (n + 1) (.janusBegin id nm a) (.janusBegin id nm b) :=
  fun s => .shift ((tokenizeUse_lim h s).bind fun _ => .const _)
theorem Lim.many (h : Lim rt G G' n a b) (e : (Reader.many a).what rt G = (Reader.many b).what rt G') : Lim rt G G' (n + 1) (.many a) (.many b) := by
  refine fun s => .shift ?_
  simp only [read, e]
  exact (zomLoop_lim h n 0 s).bind fun _ => .const _
theorem Lim.map (f : Nat) (h : Lim rt G G' n a b) : Lim rt G G' (n + 1) (.map f a) (.map f b) := fun s => .shift ((tokenizeUse_lim h s).bind fun _ => .const _)
theorem Lim.named (nm : Bytes) (h : Lim rt G G' n a b) : Lim rt G G' (n + 1) (.named nm a) (.named nm b) := fun s => .shift (h s)
theorem Lim.not (h : Lim rt G G' n a b) (e : a.what rt G = b.what rt G') : Lim rt G G' (n + 1) (.not a) (.not b) := by
  refine fun s => .shift ?_
  simp only [read, e]
  exact (h s).bind fun _ => .const _
theorem Lim.opt (h : Lim rt G G' n a b) : Lim rt G G' (n + 1) (.opt a) (.opt b) := fun s => .shift ((h s).bind fun _ => .const _)
theorem Lim.past (h : Lim rt G G' n a b) (e : (Reader.past a).what rt G = (Reader.past b).what rt G') : Lim rt G G' (n + 1) (.past a) (.past b) := by
  refine fun s => .shift ?_
  simp only [read, e]
  exact (pastLoop_lim h n 0 s).bind fun _ => .const _
theorem Lim.seq (h : List.Forall₂ (Lim rt G G' n) rs rs') : Lim rt G G' (n + 1) (.seq rs) (.seq rs') := fun s => .shift ((seqLoop_lim h s).bind fun _ => .const _)
theorem Lim.skipSeq (h : Lim rt G G' n a b) (h' : List.Forall₂ (Lim rt G G' n) rs rs') : Lim rt G G' (n + 1) (.skipSeq a rs) (.skipSeq b rs') := by
  refine fun s => .shift ((h s).bind fun x => ?_)
  obtain ⟨e, s⟩ := x
  cases e with
  | some e => exact .const _
  | none => exact (skipSeqLoop_lim h h' s).bind fun _ => .const _
theorem Lim.times (k : Int) (h : Lim rt G G' n a b) : Lim rt G G' (n + 1) (.times k a) (.times k b) := fun s => .shift (timesLoop_lim h _ s)
theorem Lim.to (h : Lim rt G G' n a b) (e : (Reader.to a).what rt G = (Reader.to b).what rt G') : Lim rt G G' (n + 1) (.to a) (.to b) := by
  refine fun s => .shift ?_
  simp only [read, e]
  exact (toLoop_lim h n 0 s).bind fun _ => .const _
theorem Lim.zom (h : Lim rt G G' n a b) : Lim rt G G' (n + 1) (.zom a) (.zom b) := fun s => .shift ((zomLoop_lim h n 0 s).bind fun _ => .const _)
theorem Lim.pick (i : Bytes) (l : Nat) (h : Lim rt G G' n a b) : Lim rt G G' (n + 1) (.pick i l a) (.pick i l b) :=
  fun s => .shift ((tokenizeUse_lim h s).bind fun _ => .const _)
theorem Lim.monitor (i : Bytes) (l : Nat) (h : Lim rt G G' n a b) : Lim rt G G' (n + 1) (.monitor i l a) (.monitor i l b) :=
  fun _ => .shift ((h _).bind fun _ => .const _)
theorem Lim.ruleName (h : Lim rt G G' n a b) : Lim rt G G' (n + 1) (.ruleName a) (.ruleName b) := fun s => .shift ((h s).bind fun _ => .const _)
theorem Lim.grammar (w : Bytes) (h : Lim rt G G' n a b) : Lim rt G G' (n + 1) (.grammar w a) (.grammar w b) := fun s => .shift ((h s).bind fun _ => .const _)

end

end Tok
