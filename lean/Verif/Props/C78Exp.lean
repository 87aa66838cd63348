/-
C78, grammars without left recursion, the Lua grammar among them: the number of rules read is at most exponential in the length of the text.
-/
import Verif.Proofs.PaysExp
import Verif.Props.C78Lua
import Verif.Props.C80

namespace Tok
open Spec

theorem sizes_bounded : ∀ G : Env, ∃ Z, 1 ≤ Z ∧ ∀ (i : Nat) (nm : Bytes) (c : Reader), G[i]? = some ⟨nm, some c⟩ → c.size ≤ Z
  | [] => ⟨1, Nat.le_refl _, fun i nm c h => by simp at h⟩
  | ⟨nm, o⟩ :: G => by
    obtain ⟨Z, h1, h2⟩ := sizes_bounded G
    refine ⟨Z + (o.map Reader.size).getD 0, by omega, fun i nm' c h => ?_⟩
    match i, h with
    | 0, h =>
      simp only [List.getElem?_cons_zero, Option.some.injEq, Rule.mk.injEq] at h
      obtain ⟨-, rfl⟩ := h
      simp
    | i + 1, h =>
      have := h2 i nm' c (by simpa using h)
      omega

/-- C78, from above, for every grammar without left recursion, without `Body`, `BodyTail`, `Wrap` and `Monitor`, that repeats only readers that consume something or read no rule,
and goes past readers that read no rule only: there is a number that depends on the grammar only, such that every read of a rule that comes to an end, on a text of any bytes, with all rules
monitored, adds no more than `c * (c + 1) ^ n` entries, where `n` is the number of bytes ahead. -/
theorem C78_exponential (G : Env) (nul : Nat → Bool) (ρ : Nat → Nat) (K : Nat) (hG : Descends G nul ρ K) (hC : G.Every (fun r => r.calm nul = true)) :
    ∃ c : Nat, ∀ (rt : Rt) (l n i : Nat) (s s' : Scanner) (h t : Bytes), Between s h t → ∀ e, read rt (G.monitorAll l) n (.rule i) s = .ret (e, s') →
      s.logged l ≤ s'.logged l ∧ s'.logged l ≤ s.logged l + c * (c + 1) ^ t.length := by
  obtain ⟨Z, h1, h2⟩ := sizes_bounded G
  refine ⟨Z * gain Z K, fun rt l n i s s' h t hb e he => ?_⟩
  obtain ⟨x, t', k, -, -, h3, h4⟩ := pay_all hG hC h2 h1 rt l (t.length + 1) (.rule i) ⟨.mk rfl (fun c hc => by cases hc), .mk rfl (fun c hc => by cases hc), h1⟩ n s h t hb e s' he
  have := h4 (Nat.lt_succ_self _)
  omega

/-- C78, the Lua grammar, from above.  Together with `C78_lua_violated` this says that the number of rules read grows exponentially with the length of the text in the worst case, and not faster. -/
theorem C78_lua_exponential : ∃ c : Nat, ∀ (rt : Rt) (l n : Nat) (s s' : Scanner) (h t : Bytes), Between s h t → ∀ e, read rt (Lua.env.monitorAll l) n Lua.reader s = .ret (e, s') →
    s.logged l ≤ s'.logged l ∧ s'.logged l ≤ s.logged l + c * (c + 1) ^ t.length := by
  obtain ⟨c, hc⟩ := C78_exponential Lua.env (nulOf Lua.nul) (rankOf Lua.rank) 7 (descends_of_B (by decide +kernel) (by decide)) (Env.everyB_sound (by decide +kernel))
  refine ⟨c, fun rt l n s s' h t hb e he => ?_⟩
  match n, he with
  | n + 1, he =>
    simp only [Lua.reader, read] at he
    obtain ⟨⟨e1, s1⟩, h1, h2⟩ := Exec.bind_eq_ret.mp he
    have h3 : s' = s1 := by
      cases e1 <;> cases h2 <;> rfl
    subst h3
    exact hc rt l n _ s s' h t hb e1 h1

/-- Beside them: both bounds for one family of chunks. -/
example : ∃ c : Nat, ∀ (rt : Rt) (l n : Nat), ∃ k s', read rt (Lua.env.monitorAll l) k Lua.reader (Scanner.new (Lua.hashChunk n) Heap.empty) = .ret (none, s') ∧
    2 ^ (n + 1) ≤ s'.logged l ∧ s'.logged l ≤ c * (c + 1) ^ (n + 8) := by
  obtain ⟨c, hc⟩ := C78_lua_exponential
  refine ⟨c, fun rt l n => ?_⟩
  obtain ⟨-, h2, ⟨k, s', h3, -⟩, h4⟩ := C78_lua_violated rt l n
  refine ⟨k, s', h3, h4 k _ s' h3, ?_⟩
  have := (hc rt l k _ s' [] (Lua.hashChunk n) ⟨rfl, rfl⟩ _ h3).2
  rw [h2] at this
  have h0 : (Scanner.new (Lua.hashChunk n) Heap.empty).logged l = 0 := rfl
  omega

/-- And a grammar of one rule, `a = "(" a ")" "x" | "(" a ")" | ""`. -/
example : ∃ c : Nat, ∀ (rt : Rt) (l n i : Nat) (s s' : Scanner) (h t : Bytes), Between s h t → ∀ e,
    read rt (Env.monitorAll l [⟨b!"a", some (.any [.seq [.lit b!"(", .rule 0, .lit b!")", .lit b!"x"], .seq [.lit b!"(", .rule 0, .lit b!")"], .lit b!""])⟩]) n (.rule i) s = .ret (e, s') →
    s.logged l ≤ s'.logged l ∧ s'.logged l ≤ s.logged l + c * (c + 1) ^ t.length :=
  C78_exponential _ _ _ 1 (descends_of_B (nul := [true]) (rank := [0]) (by decide) (by decide)) (Env.everyB_sound (by decide))

end Tok
