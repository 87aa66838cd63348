/-
C03 Failed scopes roll back, C04 captured text is exactly what was scanned.

`Scope`, `Trace`, `Tokenize`, `Capture` take a closure (`ScopeFunc`), `Use`, `UseFunc`,
`TraceUse`, `TraceUseFunc`, `TokenizeUse`, `CaptureUse` a reader or a `ReadFunc`; in the
model the last six are the four functions `use`, `traceUse`, `tokenizeUse`, `captureUse`.
The theorems hold for every closure and every reader that returns and leaves the text
alone (the text cannot be changed through the API).
-/
import Verif.Model.Reader
import Verif.Proofs.Scan

namespace Tok
open Spec

/-- The scanner stands again where `s` stood. -/
def BackAt (s s' : Scanner) : Prop := s'.full = s.full ∧ s'.pos = s.pos

private theorem toMarker_back {s s' : Scanner} {h t : Bytes} (hb : Between s h t) (hf : s'.full = s.full) :
    BackAt s (s'.toMarker s.mark).2 := by
  obtain ⟨s'', h1, h2⟩ := toMarker_to (s := s') (h := h) (t := t) (m := s.pos) (by rw [hf]; exact hb.1) hb.2
  unfold Scanner.mark
  rw [h1]
  exact ⟨h2.2.1.trans hf, by rw [h2.1.2, hb.2]⟩

/-- The bytes between two positions, whichever comes first. -/
theorem get_span {s : Scanner} {h x t : Bytes} (hf : s.full = h ++ x ++ t) :
    s.get (makeToken (h.length : Int) ((h ++ x).length : Int)) = .ret x ∧
    s.get (makeToken ((h ++ x).length : Int) (h.length : Int)) = .ret x := by
  have h1 : makeToken (h.length : Int) ((h ++ x).length : Int) = ⟨h.length, (h ++ x).length⟩ := by
    unfold makeToken; rw [if_neg (by simp; omega)]
  have h2 : makeToken ((h ++ x).length : Int) (h.length : Int) = ⟨h.length, (h ++ x).length⟩ := by
    unfold makeToken
    split
    · rfl
    · next hc =>
      have : h.length = (h ++ x).length := by
        simp only [List.length_append] at hc ⊢; omega
      rw [← this]
  have h3 : s.get ⟨h.length, (h ++ x).length⟩ = .ret x := by
    unfold Scanner.get
    rw [if_pos (by rw [hf]; simp only [List.length_append]; omega), hf]
    congr 1
    have : (((h ++ x).length : Int) - (h.length : Int)).toNat = x.length := by
      simp only [List.length_append]; omega
    rw [this]
    simp
  rw [h1, h2]
  exact ⟨h3, h3⟩

/-! ### closures -/

/-- `Scope`: back on failure, as the closure left it on success. -/
theorem C03_scope (s s' : Scanner) (h t : Bytes) (f : Scanner.ScopeFunc) (ok : Bool) (hb : Between s h t)
    (hf : f s = .ret (ok, s')) (hfull : s'.full = s.full) :
    ∃ s'', s.scope f = .ret (ok, s'') ∧ (ok = false → BackAt s s'') ∧ (ok = true → s'' = s') := by
  unfold Scanner.scope
  rw [hf]
  cases ok
  · exact ⟨_, rfl, fun _ => toMarker_back hb hfull, by simp⟩
  · exact ⟨_, rfl, by simp, fun _ => rfl⟩

/-- `Trace`: back on failure, as the closure left it on success. -/
theorem C03_trace (s s' : Scanner) (h t h' t' : Bytes) (f : Scanner.ScopeFunc) (ok : Bool) (hb : Between s h t)
    (hf : f s = .ret (ok, s')) (hfull : s'.full = s.full) (hb' : Between s' h' t') :
    ∃ str s'', s.trace f = .ret ((str, ok), s'') ∧ (ok = false → BackAt s s'') ∧ (ok = true → s'' = s') := by
  have hsince : ∃ str, s'.since s.mark = .ret str := by
    unfold Scanner.since Scanner.get
    rw [if_pos]
    · exact ⟨_, rfl⟩
    · have h1 := congrArg List.length hb.1
      have h2 := congrArg List.length hb'.1
      simp only [List.length_append] at h1 h2
      have h3 := hb.2
      have h4 := hb'.2
      rw [← hfull] at h1
      unfold makeToken Scanner.mark
      split <;> (simp only; omega)
  obtain ⟨str, hstr⟩ := hsince
  unfold Scanner.trace
  rw [hf]
  simp only [Exec.bind_ret, hstr]
  cases ok
  · exact ⟨_, _, rfl, fun _ => toMarker_back hb hfull, by simp⟩
  · exact ⟨_, _, rfl, by simp, fun _ => rfl⟩

/-- `Tokenize`: back on failure, as the closure left it on success. -/
theorem C03_tokenize (s s' : Scanner) (h t : Bytes) (f : Scanner.ScopeFunc) (ok : Bool) (hb : Between s h t)
    (hf : f s = .ret (ok, s')) (hfull : s'.full = s.full) :
    ∃ tok s'', s.tokenize f = .ret ((tok, ok), s'') ∧ (ok = false → BackAt s s'') ∧ (ok = true → s'' = s') := by
  unfold Scanner.tokenize
  rw [hf]
  cases ok
  · exact ⟨_, _, rfl, fun _ => toMarker_back hb hfull, by simp⟩
  · exact ⟨_, _, rfl, by simp, fun _ => rfl⟩

/-- `Capture`: back on failure, as the closure left it on success. -/
theorem C03_capture (s s' : Scanner) (h t h' t' : Bytes) (f : Scanner.ScopeFunc) (ok : Bool) (hb : Between s h t)
    (hf : f s = .ret (ok, s')) (hfull : s'.full = s.full) (hb' : Between s' h' t') :
    ∃ str s'', s.capture f = .ret ((str, ok), s'') ∧ (ok = false → BackAt s s'') ∧ (ok = true → s'' = s') := by
  unfold Scanner.capture Scanner.tokenize
  rw [hf]
  cases ok
  · exact ⟨_, _, rfl, fun _ => toMarker_back hb hfull, by simp⟩
  · obtain ⟨str, s'', h1, _, h3⟩ := C03_trace s s' h t h' t' f true hb hf hfull hb'
    have hg : s'.get (makeToken s.mark s'.mark) = .ret str := by
      unfold Scanner.trace at h1
      rw [hf] at h1
      simp only [Exec.bind_ret] at h1
      rw [Exec.bind_eq_ret] at h1
      obtain ⟨a, ha, h2⟩ := h1
      simp only [Bool.not_true, Bool.false_eq_true, if_false, Exec.pure_eq, Exec.ret.injEq, Prod.mk.injEq] at h2
      rw [← h2.1.1]
      exact ha
    simp only [Exec.bind_ret, Bool.not_true, Bool.false_eq_true, if_false, if_true, Exec.pure_eq]
    rw [hg]
    exact ⟨_, _, rfl, by simp, fun _ => rfl⟩

/-! ### readers -/

/-- `Use` and `UseFunc`: back on failure, as the reader left it on success. -/
theorem C03_use (s s' : Scanner) (h t : Bytes) (f : ReadFunc) (e : Option Err) (hb : Between s h t)
    (hf : f s = .ret (e, s')) (hfull : s'.full = s.full) :
    ∃ s'', s.use f = .ret (e, s'') ∧ (e ≠ none → BackAt s s'') ∧ (e = none → s'' = s') := by
  unfold Scanner.use
  rw [hf]
  cases e
  · exact ⟨_, rfl, by simp, fun _ => rfl⟩
  · exact ⟨_, rfl, fun _ => toMarker_back hb hfull, by simp⟩

/-- `TokenizeUse`: back on failure, as the reader left it on success. -/
theorem C03_tokenizeUse (s s' : Scanner) (h t : Bytes) (f : ReadFunc) (e : Option Err) (hb : Between s h t)
    (hf : f s = .ret (e, s')) (hfull : s'.full = s.full) :
    ∃ tok s'', s.tokenizeUse f = .ret ((tok, e), s'') ∧ (e ≠ none → BackAt s s'') ∧ (e = none → s'' = s') := by
  unfold Scanner.tokenizeUse
  rw [hf]
  cases e
  · exact ⟨_, _, rfl, by simp, fun _ => rfl⟩
  · exact ⟨_, _, rfl, fun _ => toMarker_back hb hfull, by simp⟩

private theorem get_inside {s s' : Scanner} {h t h' t' : Bytes} (hb : Between s h t) (hfull : s'.full = s.full)
    (hb' : Between s' h' t') : ∃ str, s'.get (makeToken s.mark s'.mark) = .ret str := by
  unfold Scanner.get
  rw [if_pos]
  · exact ⟨_, rfl⟩
  · have h1 := congrArg List.length hb.1
    have h2 := congrArg List.length hb'.1
    simp only [List.length_append] at h1 h2
    have h3 := hb.2
    have h4 := hb'.2
    rw [← hfull] at h1
    unfold makeToken Scanner.mark
    split <;> (simp only; omega)

/-- `TraceUse` and `TraceUseFunc`: back on failure, as the reader left it on success. -/
theorem C03_traceUse (s s' : Scanner) (h t h' t' : Bytes) (f : ReadFunc) (e : Option Err) (hb : Between s h t)
    (hf : f s = .ret (e, s')) (hfull : s'.full = s.full) (hb' : Between s' h' t') :
    ∃ str s'', s.traceUse f = .ret ((str, e), s'') ∧ (e ≠ none → BackAt s s'') ∧ (e = none → s'' = s') := by
  unfold Scanner.traceUse
  rw [hf]
  cases e with
  | none =>
    obtain ⟨str, hg⟩ := get_inside hb hfull hb'
    simp only [Exec.bind_ret, Option.isSome_none, Bool.false_eq_true, if_false, Scanner.since]
    rw [hg]
    exact ⟨_, _, rfl, by simp, fun _ => rfl⟩
  | some e =>
    have hback := toMarker_back hb hfull
    have hb2 : Between (s'.toMarker s.mark).2 h t := ⟨by rw [hback.1, hb.1], by rw [hback.2, hb.2]⟩
    obtain ⟨str, hg⟩ := get_inside hb hback.1 hb2
    simp only [Exec.bind_ret, Option.isSome_some, if_true, Scanner.since]
    rw [hg]
    exact ⟨_, _, rfl, fun _ => hback, by simp⟩

/-- `CaptureUse`: back on failure, as the reader left it on success. -/
theorem C03_captureUse (s s' : Scanner) (h t h' t' : Bytes) (f : ReadFunc) (e : Option Err) (hb : Between s h t)
    (hf : f s = .ret (e, s')) (hfull : s'.full = s.full) (hb' : Between s' h' t') :
    ∃ str s'', s.captureUse f = .ret ((str, e), s'') ∧ (e ≠ none → BackAt s s'') ∧ (e = none → s'' = s') := by
  unfold Scanner.captureUse Scanner.tokenizeUse
  rw [hf]
  cases e with
  | none =>
    obtain ⟨str, hg⟩ := get_inside hb hfull hb'
    simp only [Exec.bind_ret, Option.isSome_none, Bool.false_eq_true, if_false, Exec.pure_eq, Option.isNone_none, if_true]
    rw [hg]
    exact ⟨_, _, rfl, by simp, fun _ => rfl⟩
  | some e => exact ⟨_, _, rfl, fun _ => toMarker_back hb hfull, by simp⟩

/-! ### C04 -/

/-- The scanner went from `s` to `s'` over the bytes `x`, forward or backward. -/
def Over (s s' : Scanner) (x : Bytes) : Prop :=
  s'.full = s.full ∧ ∃ h t, (Between s h (x ++ t) ∧ Between s' (h ++ x) t) ∨ (Between s (h ++ x) t ∧ Between s' h (x ++ t))

private theorem get_over {s s' : Scanner} {x : Bytes} (h : Over s s' x) :
    s'.get (makeToken s.mark s'.mark) = .ret x := by
  obtain ⟨hf, h, t, ⟨h1, h2⟩ | ⟨h1, h2⟩⟩ := h
  · have := (get_span h2.1).1
    unfold Scanner.mark
    rwa [h1.2, h2.2]
  · have := (get_span (s := s') (h := h) (x := x) (t := t) (by rw [hf, h1.1])).2
    unfold Scanner.mark
    rwa [h1.2, h2.2]

/-- On success `Trace` returns the bytes that were passed over. -/
theorem C04_trace (s s' : Scanner) (x : Bytes) (f : Scanner.ScopeFunc) (hf : f s = .ret (true, s')) (ho : Over s s' x) :
    s.trace f = .ret ((x, true), s') := by
  unfold Scanner.trace Scanner.since
  rw [hf]
  simp only [Exec.bind_ret]
  rw [get_over ho]
  rfl

/-- On success `Capture` returns the bytes that were passed over. -/
theorem C04_capture (s s' : Scanner) (x : Bytes) (f : Scanner.ScopeFunc) (hf : f s = .ret (true, s')) (ho : Over s s' x) :
    s.capture f = .ret ((x, true), s') := by
  unfold Scanner.capture Scanner.tokenize
  rw [hf]
  simp only [Exec.bind_ret, Bool.not_true, Bool.false_eq_true, if_false, if_true, Exec.pure_eq]
  rw [get_over ho]
  rfl

/-- On success `Tokenize` returns a token that marks the bytes that were passed over. -/
theorem C04_tokenize (s s' : Scanner) (x : Bytes) (f : Scanner.ScopeFunc) (hf : f s = .ret (true, s')) (ho : Over s s' x) :
    ∃ tok, s.tokenize f = .ret ((tok, true), s') ∧ s'.get tok = .ret x ∧ s.get tok = .ret x ∧ tok.len = x.length := by
  refine ⟨makeToken s.mark s'.mark, ?_, get_over ho, ?_, ?_⟩
  · unfold Scanner.tokenize; rw [hf]; rfl
  · have := get_over ho
    unfold Scanner.get at this ⊢
    rwa [ho.1] at this
  · obtain ⟨_, h, t, ⟨h1, h2⟩ | ⟨h1, h2⟩⟩ := ho <;>
    · have a := h1.2
      have b := h2.2
      simp only [List.length_append] at a b
      unfold makeToken Token.len Scanner.mark
      split <;> (simp only; omega)

/-- On success `TraceUse` and `TraceUseFunc` return the bytes that were passed over. -/
theorem C04_traceUse (s s' : Scanner) (x : Bytes) (f : ReadFunc) (hf : f s = .ret (none, s')) (ho : Over s s' x) :
    s.traceUse f = .ret ((x, none), s') := by
  unfold Scanner.traceUse Scanner.since
  rw [hf]
  simp only [Exec.bind_ret, Option.isSome_none, Bool.false_eq_true, if_false]
  rw [get_over ho]
  rfl

/-- On success `CaptureUse` returns the bytes that were passed over. -/
theorem C04_captureUse (s s' : Scanner) (x : Bytes) (f : ReadFunc) (hf : f s = .ret (none, s')) (ho : Over s s' x) :
    s.captureUse f = .ret ((x, none), s') := by
  unfold Scanner.captureUse Scanner.tokenizeUse
  rw [hf]
  simp only [Exec.bind_ret, Option.isSome_none, Bool.false_eq_true, if_false, Exec.pure_eq, Option.isNone_none, if_true]
  rw [get_over ho]
  rfl

/-- On success `TokenizeUse` returns a token that marks the bytes that were passed over. -/
theorem C04_tokenizeUse (s s' : Scanner) (x : Bytes) (f : ReadFunc) (hf : f s = .ret (none, s')) (ho : Over s s' x) :
    ∃ tok, s.tokenizeUse f = .ret ((tok, none), s') ∧ s'.get tok = .ret x ∧ s.get tok = .ret x ∧ tok.len = x.length := by
  refine ⟨makeToken s.mark s'.mark, ?_, get_over ho, ?_, ?_⟩
  · unfold Scanner.tokenizeUse; rw [hf]; rfl
  · have := get_over ho
    unfold Scanner.get at this ⊢
    rwa [ho.1] at this
  · obtain ⟨_, h, t, ⟨h1, h2⟩ | ⟨h1, h2⟩⟩ := ho <;>
    · have a := h1.2
      have b := h2.2
      simp only [List.length_append] at a b
      unfold makeToken Token.len Scanner.mark
      split <;> (simp only; omega)

/-- When the closure of `Trace` fails the returned string is what it had passed over
before the scanner was put back. -/
theorem C04_trace_fail (s s' : Scanner) (x : Bytes) (f : Scanner.ScopeFunc) (hf : f s = .ret (false, s'))
    (ho : Over s s' x) : s.trace f = .ret ((x, false), (s'.toMarker s.pos).2) := by
  unfold Scanner.trace Scanner.since
  rw [hf]
  simp only [Exec.bind_ret]
  rw [get_over ho]
  rfl

-- A closure that reads "b" after "a" and then fails or succeeds.
example : (Scanner.new b!"abc" Heap.empty).scope (fun s => do
    let (_, s) ← s.ifStr b!"ab"
    pure (false, s)) = .ret (false, Scanner.new b!"abc" Heap.empty) := rfl
example : Over (Scanner.new b!"abc" Heap.empty) ⟨b!"abc", 2, none, Heap.empty⟩ b!"ab" :=
  ⟨rfl, [], b!"c", .inl ⟨⟨rfl, rfl⟩, ⟨rfl, rfl⟩⟩⟩
example : (⟨b!"abc", 2, none, Heap.empty⟩ : Scanner).trace (fun s => s.revIf b!"ab") =
    .ret ((b!"ab", true), Scanner.new b!"abc" Heap.empty) := rfl

end Tok
