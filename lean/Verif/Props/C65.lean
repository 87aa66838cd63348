/-
C65 While.
-/
import Verif.Props.C03
import Verif.Proofs.Frame
import Verif.Model.Client

namespace Tok
open Spec

/-- `s'` is reached from `s` by calls of `f` that returned true, `n` of them. -/
inductive Rounds (f : Scanner.ScopeFunc) : Nat → Scanner → Scanner → Prop
  | none (s : Scanner) : Rounds f 0 s s
  | one {s s1 s' : Scanner} {n : Nat} : f s = .ret (true, s1) → Rounds f n s1 s' → Rounds f (n + 1) s s'

theorem whileLoop_iff (f : Scanner.ScopeFunc) : ∀ (fuel : Nat) (s s' : Scanner),
    Scanner.whileLoop f fuel s = .ret s' ↔ ∃ n s1, n < fuel ∧ Rounds f n s s1 ∧ f s1 = .ret (false, s')
  | 0, s, s' => ⟨fun h => (by cases h), fun ⟨n, _, h, _⟩ => absurd h (Nat.not_lt_zero n)⟩
  | fuel + 1, s, s' => by
    unfold Scanner.whileLoop
    constructor
    · intro h
      obtain ⟨⟨b, s1⟩, h1, h2⟩ := Exec.bind_eq_ret.mp h
      cases b with
      | false => cases h2; exact ⟨0, s, Nat.succ_pos _, .none s, h1⟩
      | true =>
        obtain ⟨n, s2, h3, h4, h5⟩ := (whileLoop_iff f fuel s1 s').mp h2
        exact ⟨n + 1, s2, Nat.succ_lt_succ h3, .one h1 h4, h5⟩
    · rintro ⟨n, s1, h1, h2, h3⟩
      cases h2 with
      | none => rw [h3]; rfl
      | one h4 h5 =>
        rw [h4]
        exact (whileLoop_iff f fuel _ s').mpr ⟨_, s1, Nat.lt_of_succ_lt_succ h1, h5, h3⟩

/-- `While` comes to an end exactly if some call returns false: it leaves the scanner where that call left it, and returns true
exactly if this is further ahead than where it began. -/
theorem C65_result (s s' : Scanner) (f : Scanner.ScopeFunc) (b : Bool) :
    (∃ fuel, s.while_ fuel f = .ret (b, s')) ↔ (∃ n s1, Rounds f n s s1 ∧ f s1 = .ret (false, s')) ∧ (b = true ↔ s.pos < s'.pos) := by
  constructor
  · rintro ⟨fuel, h⟩
    obtain ⟨s2, h1, h2⟩ := Exec.bind_eq_ret.mp h
    obtain ⟨n, s1, _, h3, h4⟩ := (whileLoop_iff f fuel s s2).mp h1
    cases h2
    exact ⟨⟨n, s1, h3, h4⟩, decide_eq_true_iff⟩
  · rintro ⟨⟨n, s1, h1, h2⟩, hb⟩
    refine ⟨n + 1, ?_⟩
    unfold Scanner.while_
    rw [(whileLoop_iff f (n + 1) s s').mpr ⟨n, s1, Nat.lt_succ_self n, h1, h2⟩]
    simp only [Exec.bind_ret, Exec.pure_eq, Exec.ret.injEq, Prod.mk.injEq, and_true, Scanner.mark]
    rw [Bool.eq_iff_iff]
    exact decide_eq_true_iff.trans hb.symm

/-- It ends if every successful call goes ahead inside the text and no call panics. -/
theorem C65_ends (s : Scanner) (f : Scanner.ScopeFunc) (hs : Inside s)
    (hf : ∀ s, Inside s → ∃ b s', f s = .ret (b, s') ∧ (b = true → s'.full = s.full ∧ Inside s' ∧ s.pos < s'.pos)) :
    ∃ fuel b s', s.while_ fuel f = .ret (b, s') := by
  suffices h : ∀ (k : Nat) (s : Scanner), Inside s → (s.full.length : Int) - s.pos ≤ k → ∃ n s1 s', Rounds f n s s1 ∧ f s1 = .ret (false, s') by
    obtain ⟨n, s1, s', h1, h2⟩ := h _ s hs (Int.self_le_toNat _)
    obtain ⟨fuel, h3⟩ := (C65_result s s' f (decide (s.pos < s'.pos))).mpr ⟨⟨n, s1, h1, h2⟩, by simp⟩
    exact ⟨fuel, _, s', h3⟩
  intro k
  induction k with
  | zero =>
    intro s hs hk
    obtain ⟨b, s', h1, h2⟩ := hf s hs
    cases b with
    | false => exact ⟨0, s, s', .none s, h1⟩
    | true =>
      obtain ⟨h3, h4, h5⟩ := h2 rfl
      have := h4.2
      rw [h3] at this
      omega
  | succ k ih =>
    intro s hs hk
    obtain ⟨b, s', h1, h2⟩ := hf s hs
    cases b with
    | false => exact ⟨0, s, s', .none s, h1⟩
    | true =>
      obtain ⟨h3, h4, h5⟩ := h2 rfl
      obtain ⟨n, s1, s2, h6, h7⟩ := ih s' h4 (by rw [h3]; push_cast at hk; omega)
      exact ⟨n + 1, s1, s2, .one h1 h6, h7⟩

/-- Three letters. -/
example : ∃ s', (Scanner.new b!"aaab" Heap.empty).while_ 5 (fun s => s.ifRune 97) = .ret (true, s') ∧ s'.pos = 3 := ⟨_, rfl, rfl⟩

/-- The last call is not undone: `While` is no `Scope`. -/
theorem C65_last (rt : Rt) : ∃ (body : Prog) (s' : Scanner), (Scanner.new b!"ab" Heap.empty).while_ 2 (body.run rt 2) = .ret (true, s') ∧ s'.pos = 1 ∧
    ∃ s2, (Scanner.new b!"ab" Heap.empty).scope (body.run rt 2) = .ret (false, s2) ∧ s2.pos = 0 :=
  ⟨.call (.ifRune 97) fun _ _ => .call (.ifRune 97) fun b _ => .done b, _, rfl, rfl, _, rfl, rfl⟩

end Tok
