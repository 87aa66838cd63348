/-
C38 Janus matches the same text twice.
-/
import Verif.Props.C34
import Verif.Proofs.Place

namespace Tok
open Spec

/-- When the first reader of a pair has read, its string is exactly the text read. -/
theorem C38_begin (rt : Rt) (G : Env) (id : Nat) (nm : Bytes) (sub : Reader) (hG : G.Every (Reader.safeHere True G))
    (hr : sub.Every (Reader.safeHere True G)) (n : Nat) (s s' : Scanner) (h t : Bytes) (hb : Between s h t) (hs : read rt G (n + 1) (.janusBegin id nm sub) s = .ret (none, s')) :
    ∃ x t', t = x ++ t' ∧ Between s' (h ++ x) t' ∧ s'.heap.janus id = x := by
  have hi := hb.inside
  simp only [read] at hs
  obtain ⟨⟨⟨tk, e⟩, s1⟩, ha, hc⟩ := Exec.bind_eq_ret.mp hs
  obtain ⟨hf, htk⟩ := ((read_safe rt G hG n sub hr).tokenizeUse hi).2 _ ha
  obtain ⟨x, u, hx, hb1⟩ := hf.over hb
  cases e with
  | some e => simp at hc
  | none =>
    simp only [Option.isNone_none, if_true] at hc
    obtain ⟨str, hg, hc⟩ := Exec.bind_eq_ret.mp hc
    simp only at htk
    rw [htk, get_between (by rw [← hx]; exact hb) hb1 hf.2.1] at hg
    cases hg
    cases hc
    exact ⟨x, u, hx, hb1, by simp [upd]⟩

/-- The second reader matches exactly the string of the pair: it succeeds and goes over it if
the text continues with it, and otherwise fails and stays. -/
theorem C38_end (rt : Rt) (G : Env) (id : Nat) (nm : Bytes) (n : Nat) (s : Scanner) (h t : Bytes) (hb : Between s h t) :
    (∀ t', t = s.heap.janus id ++ t' → ∃ s', read rt G (n + 1) (.janusEnd id nm) s = .ret (none, s') ∧
        Between s' (h ++ s.heap.janus id) t' ∧ s'.heap.janus = upd s.heap.janus id []) ∧
    (¬ s.heap.janus id <+: t → ∃ e s', read rt G (n + 1) (.janusEnd id nm) s = .ret (some e, s') ∧ Between s' h t ∧
        s'.heap.janus = s.heap.janus) := by
  have hs := leaf_eat rt G n (r := .janusEnd id nm) rfl s.full s _ (sees_between hb)
  have key : ∀ b, eat rt G (n + 1) (.janusEnd id nm) ⟨t, s.heap.janus⟩ = .ret b → _ := fun b h => hs.right h
  refine ⟨fun t' ht => ?_, fun hn => ?_⟩
  · have he : eat rt G (n + 1) (.janusEnd id nm) ⟨t, s.heap.janus⟩ = .ret (true, ⟨t', upd s.heap.janus id []⟩) := by
      have : hasPrefix t (s.heap.janus id) = true := by simp [hasPrefix, ht]
      simp only [eat, eatLit, this]
      simp [ht]
    obtain ⟨⟨e, s'⟩, h1, h2, h3⟩ := key _ he
    simp only [Option.isNone_iff_eq_none] at h2
    subst h2
    obtain ⟨x, hx, hbx⟩ := between_sees hb h3 ⟨s.heap.janus id, by simpa using ht.symm⟩
    simp only at hx hbx
    have : x = s.heap.janus id := List.append_cancel_right (hx.symm.trans ht)
    subst this
    exact ⟨s', h1, hbx, h3.2.2⟩
  · have he : eat rt G (n + 1) (.janusEnd id nm) ⟨t, s.heap.janus⟩ = .ret (false, ⟨t, s.heap.janus⟩) := by
      have : hasPrefix t (s.heap.janus id) = false := by
        rw [Bool.eq_false_iff]
        intro hp
        exact hn (by simpa [hasPrefix] using hp)
      simp only [eat, eatLit, this]
      simp
    obtain ⟨⟨e, s'⟩, h1, h2, h3⟩ := key _ he
    cases e with
    | none => simp at h2
    | some e =>
      obtain ⟨x, hx, hbx⟩ := between_sees hb h3 (List.suffix_refl _)
      simp only at hx hbx
      have : x = [] := by
        have := congrArg List.length hx
        simp at this
        exact this
      subst this
      rw [List.append_nil] at hbx
      exact ⟨e, s', h1, hbx, h3.2.2⟩

/-- Reading anything that does not name the pair keeps the string, whether it succeeds, fails
or goes back. -/
theorem C38_kept (rt : Rt) (G : Env) (id : Nat) (mid : Reader) (hG : G.Every (fun r => r.noWrap = true ∧ r.notJan id))
    (hr : mid.Every (fun r => r.noWrap = true ∧ r.notJan id)) (n : Nat) (s s' : Scanner) (hs : Inside s) (e : Option Err)
    (h : read rt G n mid s = .ret (e, s')) : s'.heap.janus id = s.heap.janus id := by
  obtain ⟨b, h1, h2⟩ := (read_eat rt G (hG.imp fun _ h => h.1) n mid (hr.imp fun _ h => h.1) s.full s _ (sees_st hs)).left h
  have := eat_leaves rt G (id := id) (hG.imp fun _ h => h.2) n mid (hr.imp fun _ h => h.2) _ _ h1
  rw [h2.2.2.2, this]
  rfl

/-- The pair around any reader `mid` that does not name it: after the first reader has read
`x` and `mid` has read on, the sequence succeeds if the text goes on with `x`, which is consumed,
and fails otherwise.  The full claim allows any reader in between; `C38_violated` shows that
the second reader must not be tried there. -/
theorem C38_same_text_partial (rt : Rt) (G : Env) (id : Nat) (nm nm' : Bytes) (sub mid : Reader)
    (hG : G.Every (fun r => r.noWrap = true ∧ r.notJan id)) (hGs : G.Every (Reader.safeHere True G))
    (hsub : sub.Every (Reader.safeHere True G)) (hmid : mid.Every (fun r => r.noWrap = true ∧ r.notJan id)) (hmids : mid.Every (Reader.safeHere True G)) (n : Nat)
    (s s1 s2 : Scanner) (h t : Bytes) (hb : Between s h t)
    (h1 : read rt G (n + 1) (.janusBegin id nm sub) s = .ret (none, s1)) (h2 : read rt G (n + 1) mid s1 = .ret (none, s2)) :
    ∃ x y u, t = x ++ y ++ u ∧ Between s1 (h ++ x) (y ++ u) ∧ Between s2 (h ++ x ++ y) u ∧
      (∀ u', u = x ++ u' → ∃ s3, read rt G (n + 2) (.seq [.janusBegin id nm sub, mid, .janusEnd id nm']) s = .ret (none, s3) ∧
        Between s3 (h ++ x ++ y ++ x) u') ∧
      (¬ x <+: u → ∃ e s3, read rt G (n + 2) (.seq [.janusBegin id nm sub, mid, .janusEnd id nm']) s = .ret (some e, s3) ∧ Between s3 h t) := by
  obtain ⟨x, t1, hx, hb1, hj⟩ := C38_begin rt G id nm sub hGs hsub n s s1 h t hb h1
  have hk := C38_kept rt G id mid hG hmid (n + 1) s1 s2 hb1.inside none h2
  have hf := (read_safe rt G hGs (n + 1) mid hmids s1 hb1.inside).2 _ h2
  obtain ⟨y, u, hy, hb2⟩ := hf.over hb1
  have hj2 : s2.heap.janus id = x := hk.trans hj
  refine ⟨x, y, u, by rw [hx, hy]; simp, by rw [← hy]; exact hb1, hb2, fun u' hu => ?_, fun hn => ?_⟩
  · obtain ⟨s3, e1, e2, _⟩ := (C38_end rt G id nm' n s2 _ u hb2).1 u' (by rw [hj2]; exact hu)
    rw [hj2] at e2
    refine ⟨s3, ?_, e2⟩
    have : read rt G (n + 2) (.seq [.janusBegin id nm sub, mid, .janusEnd id nm']) s =
        (seqLoop (read rt G (n + 1)) [.janusBegin id nm sub, mid, .janusEnd id nm'] s >>= fun x =>
          if x.1.isSome then pure (x.1, (x.2.toMarker s.pos).2) else pure (x.1, x.2)) := rfl
    rw [this]
    simp only [seqLoop, h1, h2, e1, Exec.bind_ret, Exec.pure_eq]
    rfl
  · obtain ⟨e, s3, e1, e2, _⟩ := (C38_end rt G id nm' n s2 _ u hb2).2 (by rw [hj2]; exact hn)
    refine ⟨e, (s3.toMarker s.pos).2, ?_, ?_⟩
    · have : read rt G (n + 2) (.seq [.janusBegin id nm sub, mid, .janusEnd id nm']) s =
          (seqLoop (read rt G (n + 1)) [.janusBegin id nm sub, mid, .janusEnd id nm'] s >>= fun x =>
            if x.1.isSome then pure (x.1, (x.2.toMarker s.pos).2) else pure (x.1, x.2)) := rfl
      rw [this]
      simp only [seqLoop, h1, h2, e1, Exec.bind_ret, Exec.pure_eq]
      rfl
    · exact hb.back (by rw [e2.1, hb.1, hx, hy]; simp)

/-- The claim fails when the second reader is tried in between, matches, and the sequence
around it fails: its string is gone.  The long brackets of the Lua grammar are of this kind:
`[==[a]==x]==]` is not read, while `[==[a]==x]]` is, and
`Any` with two alternatives that both start with the second reader never gets to the second. -/
theorem C38_violated (rt : Rt) :
    (∃ e s', read rt [] 40 (Lua.long 0 (.rune 91)) (.new b!"[==[a]==x]==]" Heap.empty) = .ret (some e, s')) ∧
    (∃ s', read rt [] 40 (Lua.long 0 (.rune 91)) (.new b!"[==[a]==x]]" Heap.empty) = .ret (none, s') ∧ s'.pos = 11) ∧
    (∃ e s', read rt [] 10 (.seq [.janusBegin 0 [] (.rune 97), .any [.seq [.janusEnd 0 [], .rune 43], .seq [.janusEnd 0 [], .rune 42]]])
      (.new b!"aa*" Heap.empty) = .ret (some e, s')) :=
  ⟨⟨_, _, rfl⟩, ⟨_, rfl, rfl⟩, ⟨_, _, rfl⟩⟩

/-- `Zom('a')`, a `-`, and the same number of `a`. -/
example : ∃ s1 s2 s3, read exRt [] 8 (.janusBegin 0 [] (.zom (.rune 97))) (.new b!"aa-aab" Heap.empty) = .ret (none, s1) ∧
    read exRt [] 8 (.rune 45) s1 = .ret (none, s2) ∧
    read exRt [] 9 (.seq [.janusBegin 0 [] (.zom (.rune 97)), .rune 45, .janusEnd 0 []]) (.new b!"aa-aab" Heap.empty) = .ret (none, s3) ∧
    s3.pos = 5 := ⟨_, _, _, rfl, rfl, rfl, rfl⟩
/-- One too few. -/
example : ∃ e s3, read exRt [] 9 (.seq [.janusBegin 0 [] (.zom (.rune 97)), .rune 45, .janusEnd 0 []]) (.new b!"aa-ab" Heap.empty) =
    .ret (some e, s3) := ⟨_, _, rfl⟩

end Tok
