/-
C36 Reading terminates: searches in texts of any bytes.
-/
import Verif.Props.C36
import Verif.Proofs.SearchAll

namespace Tok
open Spec

/-- A part of a reader that does not search: no `Past`, `Body`, `BodyTail`; the rules in use are in `C`. -/
def Spec.NoSearch (nul : Nat → Bool) (C : Nat → Prop) (r : Reader) : Prop :=
  r.progress nul false ∧ (match r with | .rule i => C i | _ => True)

/-- The first part of a `Body` or `BodyTail` does not search. -/
def Spec.PlainBody (nul : Nat → Bool) (C : Nat → Prop) : Reader → Prop
  | .body b _ => b.Every (NoSearch nul C)
  | .bodyTail b _ => b.Every (NoSearch nul C)
  | _ => True

theorem whole_false (r : Reader) : r.whole false := by
  cases r <;> first | trivial | rfl | (intro h; cases h)

theorem asciiEnd_closed : Closed AsciiEnd := fun _ _ hs h e he => h e (he.trans hs)

theorem goes_ascii : Goes false AsciiEnd := fun _ hs hn => eatStep_lt (AsciiEnd.step hs.2 hn)

theorem left_bound (nul : Nat → Bool) (rank : Nat → Nat) (r : Reader) : ∃ R, ∀ j ∈ r.left nul, rank j < R := by
  generalize r.left nul = l
  induction l with
  | nil => exact ⟨0, by simp⟩
  | cons x l ih =>
    obtain ⟨R, hR⟩ := ih
    refine ⟨max R (rank x + 1), fun j hj => ?_⟩
    rcases List.mem_cons.mp hj with rfl | hj
    · omega
    · have := hR j hj; omega

/-- With a grammar without left recursion and idle repetitions every read ends on every text whose last two bytes are ASCII, whatever the bytes before
them and whatever the readers for single pieces of text: literals of any bytes, `Fold`, `Int`, `Uint` are admitted.  Here searches are admitted
as long as the first part of a `Body` does not search itself: it is given a text with another end. -/
theorem C36_bytes_partial (rt : Rt) (G : Env) (nul : Nat → Bool) (rank : Nat → Nat) (C : Nat → Prop)
    (hp : G.Every (Reader.progress nul true)) (hbd : G.Every (PlainBody nul C))
    (hC : ∀ (i : Nat) (nm : Bytes) (c : Reader), G[i]? = some ⟨nm, some c⟩ → C i → c.Every (NoSearch nul C))
    (hnul : ∀ (i : Nat) (nm : Bytes) (c : Reader), G[i]? = some ⟨nm, some c⟩ → c.null nul = true → nul i = true)
    (hrank : ∀ (i : Nat) (nm : Bytes) (c : Reader), G[i]? = some ⟨nm, some c⟩ → ∀ j ∈ c.left nul, rank j < rank i)
    (r : Reader) (hr : r.Every (Reader.progress nul true)) (hrb : r.Every (PlainBody nul C))
    (s : Scanner) (h t : Bytes) (hb : Between s h t) (ht : AsciiEnd t) :
    ∃ n, read rt G n r s ≠ .timeout ∧ ∀ m, n ≤ m → read rt G m r s = read rt G n r s := by
  refine halts_read (hp.imp fun _ h => h.noWrap) (hr.imp fun _ h => h.noWrap) hb ?_
  have hGw : G.Every (Reader.whole false) := hp.imp fun r _ => whole_false r
  have free : ∀ b : Reader, b.Every (NoSearch nul C) → ∀ st, Halts (fun k => eat rt G k b st) := by
    intro b hb st
    have snd : ∀ {r : Reader}, r.Every (NoSearch nul C) → r.Every (Reader.sound nul false false (fun _ => False) C) := fun h =>
      h.imp fun r h => ⟨h.1, whole_false r, by
        obtain ⟨h1, h2⟩ := h
        cases r <;> first | trivial | exact h2 | (cases h1; done)⟩
    obtain ⟨R, hR⟩ := left_bound nul rank b
    exact eat_halts rt (K := fun _ => True) (base := fun _ => False) (fun _ _ _ _ => trivial) (fun e => by cases e) (fun _ h => h.elim)
      (fun i nm c hi hv _ => snd (hC i nm c hi hv)) hGw hnul (fun i nm c hi _ _ => hrank i nm c hi) (fun i h => h.elim) _ R b (snd hb) hR st
      ⟨(fun e => by cases e), trivial⟩ (Nat.le_refl _)
  have snd : ∀ {r : Reader}, r.Every (Reader.progress nul true) → r.Every (PlainBody nul C) →
      r.Every (Reader.sound nul true false (fun b => b.Every (NoSearch nul C)) (fun _ => True)) := fun h1 h2 =>
    (h1.and h2).imp fun r h => ⟨h.1, whole_false r, by cases r <;> first | trivial | exact h.2⟩
  obtain ⟨R, hR⟩ := left_bound nul rank r
  exact eat_halts rt (K := AsciiEnd) (base := fun _ => False) asciiEnd_closed (fun _ => goes_ascii) (fun b hb => .inr (free b hb))
    (fun i nm c hi _ _ => snd (hp.get hi) (hbd.get hi)) hGw hnul (fun i nm c hi _ _ => hrank i nm c hi) (fun i h => h.elim) _ R r (snd hr hrb) hR
    ⟨t, s.heap.janus⟩ ⟨(fun e => by cases e), ht⟩ (Nat.le_refl _)

/-- A quoted text between arbitrary bytes: `Seq(Past('"'), Body(Zom(Lit("\xff")), '"'))`. -/
example (rt : Rt) (t : Bytes) : ∃ n, read rt [] n (.seq [.past (.rune 34), .body (.zom (.lit [0xFF])) (.rune 34)])
    (.new (t ++ b!"\r\n") Heap.empty) ≠ .timeout := by
  have ascii : AsciiEnd (t ++ b!"\r\n") := by
    intro e he hl b hb
    have : e <:+ b!"\r\n" := (List.suffix_of_suffix_length_le he (List.suffix_append t b!"\r\n") (by simpa using hl))
    have := this.subset hb
    simp only [List.mem_cons, List.not_mem_nil, or_false] at this
    rcases this with rfl | rfl <;> decide
  have P : ∀ r : Reader, r.everyB (Reader.progressB (fun _ => false) true) = true → r.Every (Reader.progress (fun _ => false) true) := fun r h =>
    (Reader.everyB_sound _ r h).imp fun _ => progress_of_B
  have Q : (Reader.zom (.lit [0xFF])).Every (NoSearch (fun _ => false) (fun _ => False)) :=
    .mk ⟨rfl, trivial⟩ (fun c hc => by
      simp only [Reader.subs, List.mem_singleton] at hc
      subst hc
      exact .mk ⟨trivial, trivial⟩ (by simp [Reader.subs]))
  obtain ⟨n, h, _⟩ := C36_bytes_partial rt [] (fun _ => false) (fun _ => 0) (fun _ => False) (fun _ h => by cases h) (fun _ h => by cases h)
    (fun i nm c h => by simp at h) (fun i nm c h => by simp at h) (fun i nm c h => by simp at h)
    (.seq [.past (.rune 34), .body (.zom (.lit [0xFF])) (.rune 34)]) (P _ (by decide))
    (.mk trivial (by
      intro c hc
      simp only [Reader.subs, List.mem_cons, List.not_mem_nil, or_false] at hc
      rcases hc with rfl | rfl
      · exact .mk trivial (by simp only [Reader.subs, List.mem_singleton, forall_eq]; exact .mk trivial (by simp [Reader.subs]))
      · refine .mk Q ?_
        simp only [Reader.subs, List.mem_cons, List.not_mem_nil, or_false, forall_eq_or_imp, forall_eq]
        refine ⟨.mk trivial ?_, .mk trivial (by simp [Reader.subs])⟩
        simp only [Reader.subs, List.mem_singleton, forall_eq]
        exact .mk trivial (by simp [Reader.subs])))
    (.new (t ++ b!"\r\n") Heap.empty) [] _ ⟨rfl, rfl⟩ ascii
  exact ⟨n, h⟩

end Tok
