/-
C52 The operators of the Lua grammar.
-/
import Verif.Props.C34
import Verif.Props.C36

namespace Tok
open Spec

/-! ### from `eat` to `read` -/

/-- A read over the bytes `x`. -/
def ReadsOver (rt : Rt) (G : Env) (n : Nat) (r : Reader) (s : Scanner) (h x t : Bytes) : Prop :=
  ∃ s', (∀ m, n ≤ m → read rt G m r s = .ret (none, s')) ∧ Between s' (h ++ x) t

theorem read_by_eat {rt : Rt} {G : Env} (hG : G.Every (fun r => r.noWrap = true)) {r : Reader} (hr : r.Every (fun r => r.noWrap = true))
    {s : Scanner} {h t : Bytes} (hb : Between s h t) {n : Nat} {ok : Bool} {st' : St} (he : eat rt G n r ⟨t, s.heap.janus⟩ = .ret (ok, st')) :
    ∃ e s' x, read rt G n r s = .ret (e, s') ∧ e.isNone = ok ∧ t = x ++ st'.rest ∧ Between s' (h ++ x) st'.rest := by
  obtain ⟨⟨e, s'⟩, h3, h4, h5⟩ := (read_eat rt G hG n r hr s.full s _ (sees_between hb)).right he
  obtain ⟨x, hx, hb'⟩ := between_sees hb h5 (eat_shrinks rt G n r _ _ he)
  exact ⟨e, s', x, h3, h4, hx, hb'⟩

theorem readsOver_of_eat {rt : Rt} {G : Env} (hG : G.Every (fun r => r.noWrap = true)) {r : Reader} (hr : r.Every (fun r => r.noWrap = true))
    {s : Scanner} {h x t : Bytes} (hb : Between s h (x ++ t)) {n : Nat} {j : Nat → Bytes} (he : eat rt G n r ⟨x ++ t, s.heap.janus⟩ = .ret (true, ⟨t, j⟩)) :
    ReadsOver rt G n r s h x t := by
  obtain ⟨e, s', x', h1, h2, h3, h4⟩ := read_by_eat hG hr hb he
  have hx : x = x' := List.append_cancel_right h3
  subst hx
  cases e with
  | some e => cases h2
  | none => exact ⟨s', fun m hm => read_mono hm h1, h4⟩

/-! ### the first literal that stands here -/

theorem hasPrefix_iff (t x : Bytes) : hasPrefix t x = true ↔ x <+: t := by rw [hasPrefix, List.isPrefixOf_iff_prefix]


theorem eatAny_lits (rt : Rt) (G : Env) (n : Nat) (j : Nat → Bytes) (t : Bytes) : ∀ l : List Bytes,
    eatAny (eat rt G (n + 1)) (l.map .lit) ⟨t, j⟩ = .ret ((eatLits l t).1, ⟨(eatLits l t).2, j⟩)
  | [] => rfl
  | x :: l => by
    have ih := eatAny_lits rt G n j t l
    have h1 : eat rt G (n + 1) (.lit x) ⟨t, j⟩ = .ret ((eatLit x t).1, ⟨(eatLit x t).2, j⟩) := rfl
    simp only [List.map_cons, eatAny, h1, eatLit, eatLits]
    by_cases h : hasPrefix t x = true
    · simp [h]
    · simp [h, ih]

theorem eat_lits (rt : Rt) (G : Env) (n : Nat) (j : Nat → Bytes) (t : Bytes) (l : List Bytes) :
    eat rt G (n + 2) (.any (l.map .lit)) ⟨t, j⟩ = .ret ((eatLits l t).1, ⟨(eatLits l t).2, j⟩) := by
  have h := eatAny_lits rt G n j t l
  have h2 : (eatLits l t).1 = false → (eatLits l t).2 = t := by
    clear h
    induction l with
    | nil => intro _; rfl
    | cons x l ih =>
      simp only [eatLits]
      split
      · intro h; cases h
      · exact ih
  simp only [eat] at h ⊢
  rw [h]
  simp only [Exec.bind_ret, orBack]
  cases hc : (eatLits l t).1 with
  | true => simp
  | false => simp [h2 hc]

theorem eatLits_first {l1 l2 : List Bytes} {x t : Bytes} (h : ∀ y ∈ l1, ¬ y <+: x ++ t) : eatLits (l1 ++ x :: l2) (x ++ t) = (true, t) := by
  induction l1 with
  | nil =>
    have : hasPrefix (x ++ t) x = true := (hasPrefix_iff _ _).mpr ⟨t, rfl⟩
    simp [eatLits, this]
  | cons y l1 ih =>
    have : hasPrefix (x ++ t) y = false := by
      rw [Bool.eq_false_iff]
      exact fun e => h y List.mem_cons_self ((hasPrefix_iff _ _).mp e)
    simp only [List.cons_append, eatLits, this]
    exact ih fun y hy => h y (List.mem_cons_of_mem _ hy)

theorem eatLits_none {l : List Bytes} {t : Bytes} (h : ∀ y ∈ l, ¬ y <+: t) : eatLits l t = (false, t) := by
  induction l with
  | nil => rfl
  | cons y l ih =>
    have : hasPrefix t y = false := by
      rw [Bool.eq_false_iff]
      exact fun e => h y List.mem_cons_self ((hasPrefix_iff _ _).mp e)
    simp only [eatLits, this]
    exact ih fun y hy => h y (List.mem_cons_of_mem _ hy)

/-- The binary operators of Lua 5.4 (manual, section 9). -/
def Spec.luaBinOps : List Bytes := [b!"+", b!"-", b!"*", b!"/", b!"//", b!"^", b!"%", b!"&", b!"~", b!"|", b!">>", b!"<<", b!"..",
  b!"<", b!"<=", b!">", b!">=", b!"==", b!"~=", b!"and", b!"or"]

/-- The unary operators. -/
def Spec.luaUnOps : List Bytes := [b!"-", b!"not", b!"#", b!"~"]

/-- The order in which the rule tries them. -/
def Lua.binops : List Bytes := [b!"..", b!"<=", b!"<", b!">=", b!">", b!"==", b!"~=", b!"and", b!"or", b!"+", b!"-", b!"*", b!"/", b!"//",
  b!"^", b!"%", b!"&", b!"~", b!"|", b!">>", b!"<<"]

theorem Lua.noWrap : Lua.env.Every (fun r => r.noWrap = true) := Env.everyB_sound (by decide)
theorem rule_noWrap (i : Nat) : (Reader.rule i).Every (fun r => r.noWrap = true) := Reader.everyB_sound Reader.noWrap (.rule i) rfl

theorem Lua.eat_binop (rt : Rt) (n : Nat) (t : Bytes) (j : Nat → Bytes) :
    eat rt Lua.env (n + 3) (.rule Lua.iBinOp) ⟨t, j⟩ = .ret ((eatLits Lua.binops t).1, ⟨(eatLits Lua.binops t).2, j⟩) :=
  eat_lits rt Lua.env n j t Lua.binops

theorem Lua.eat_unop (rt : Rt) (n : Nat) (t : Bytes) (j : Nat → Bytes) :
    eat rt Lua.env (n + 3) (.rule Lua.iUnOp) ⟨t, j⟩ = .ret ((eatLits luaUnOps t).1, ⟨(eatLits luaUnOps t).2, j⟩) :=
  eat_lits rt Lua.env n j t luaUnOps

/-- A literal that is read although others are tried before it. -/
theorem eatLits_longest {l : List Bytes} {x t : Bytes} (h : ∀ y ∈ l, y <+: x ++ t → y.length ≤ x.length)
    (h1 : l = l.takeWhile (· != x) ++ x :: (l.dropWhile (· != x)).tail) (h2 : ∀ y ∈ l.takeWhile (· != x), y.isPrefixOf x = false) :
    eatLits l (x ++ t) = (true, t) := by
  rw [h1]
  refine eatLits_first fun y hy hp => ?_
  have h3 := h y (by rw [h1]; exact List.mem_append_left _ hy) hp
  have h4 := List.prefix_of_prefix_length_le hp (List.prefix_append x t) h3
  have h5 := h2 y hy
  rw [← List.isPrefixOf_iff_prefix] at h4
  rw [h4] at h5
  cases h5

/-- Every binary operator other than `//`, `>>` and `<<`, whatever follows, is read completely
if it is not the beginning of a longer operator there.  The full claim covers all operators;
it is false, see `C52_violated`. -/
theorem C52_binop_partial (rt : Rt) (s : Scanner) (h op t : Bytes) (hop : op ∈ luaBinOps) (hne : op ∉ [b!"//", b!">>", b!"<<"])
    (hb : Between s h (op ++ t)) (hl : ∀ op' ∈ luaBinOps, op' <+: op ++ t → op'.length ≤ op.length) :
    ReadsOver rt Lua.env 3 (.rule Lua.iBinOp) s h op t := by
  refine readsOver_of_eat Lua.noWrap (rule_noWrap _) hb (j := s.heap.janus) ?_
  rw [show 3 = 0 + 3 from rfl, Lua.eat_binop]
  suffices eatLits Lua.binops (op ++ t) = (true, t) by rw [this]
  have h1 : ∀ op ∈ luaBinOps, Lua.binops = Lua.binops.takeWhile (· != op) ++ op :: (Lua.binops.dropWhile (· != op)).tail := by decide
  have h2 : ∀ op ∈ luaBinOps, op ∉ [b!"//", b!">>", b!"<<"] → ∀ y ∈ Lua.binops.takeWhile (· != op), y.isPrefixOf op = false := by decide
  have h3 : ∀ y ∈ Lua.binops, y ∈ luaBinOps := by decide
  exact eatLits_longest (fun y hy => hl y (h3 y hy)) (h1 op hop) (h2 op hop hne)

/-- `<` before `x` and `<=` before `>`. -/
example (rt : Rt) : ReadsOver rt Lua.env 3 (.rule Lua.iBinOp) (.new b!"<x" Heap.empty) [] b!"<" b!"x" :=
  C52_binop_partial rt _ _ _ _ (by decide) (by decide) ⟨rfl, rfl⟩ (by decide)
example (rt : Rt) : ReadsOver rt Lua.env 3 (.rule Lua.iBinOp) (.new b!"<=>" Heap.empty) [] b!"<=" b!">" :=
  C52_binop_partial rt _ _ _ _ (by decide) (by decide) ⟨rfl, rfl⟩ (by decide)

/-- `//`, `>>` and `<<` are never read completely, whatever follows: only their first
character is read. -/
theorem C52_violated (rt : Rt) (s : Scanner) (h t : Bytes) (a : UInt8) (ha : a ∈ b!"/><") (hb : Between s h (a :: a :: t)) :
    [a, a] ∈ luaBinOps ∧ ReadsOver rt Lua.env 3 (.rule Lua.iBinOp) s h [a] (a :: t) := by
  have ha : a = 47 ∨ a = 62 ∨ a = 60 := by simpa using ha
  refine ⟨by rcases ha with rfl | rfl | rfl <;> decide, readsOver_of_eat Lua.noWrap (rule_noWrap _) hb (j := s.heap.janus) ?_⟩
  rw [show 3 = 0 + 3 from rfl, Lua.eat_binop]
  rcases ha with rfl | rfl | rfl <;> rfl

/-- Where no operator stands the rule fails without moving. -/
theorem C52_binop_fails (rt : Rt) (s : Scanner) (h t : Bytes) (hb : Between s h t) (hn : ∀ op ∈ luaBinOps, ¬ op <+: t) :
    ∃ e s', read rt Lua.env 3 (.rule Lua.iBinOp) s = .ret (some e, s') ∧ Between s' h t := by
  have h3 : ∀ y ∈ Lua.binops, y ∈ luaBinOps := by decide
  have he := Lua.eat_binop rt 0 t s.heap.janus
  rw [eatLits_none fun y hy => hn y (h3 y hy)] at he
  obtain ⟨e, s', x, h1, h2, h4, h5⟩ := read_by_eat Lua.noWrap (rule_noWrap _) hb he
  have hx : x = [] := List.append_cancel_right (bs := t) (by simpa using h4.symm)
  subst hx
  cases e with
  | none => cases h2
  | some e => exact ⟨e, s', h1, by simpa using h5⟩

/-- Every unary operator is read completely, whatever follows. -/
theorem C52_unop (rt : Rt) (s : Scanner) (h op t : Bytes) (hop : op ∈ luaUnOps) (hb : Between s h (op ++ t)) :
    ReadsOver rt Lua.env 3 (.rule Lua.iUnOp) s h op t := by
  refine readsOver_of_eat Lua.noWrap (rule_noWrap _) hb (j := s.heap.janus) ?_
  rw [show 3 = 0 + 3 from rfl, Lua.eat_unop]
  simp only [luaUnOps, List.mem_cons, List.not_mem_nil, or_false] at hop
  rcases hop with rfl | rfl | rfl | rfl <;> rfl

example (rt : Rt) : ReadsOver rt Lua.env 3 (.rule Lua.iUnOp) (.new b!"not x" Heap.empty) [] b!"not" b!" x" :=
  C52_unop rt _ _ _ _ (by decide) ⟨rfl, rfl⟩

end Tok
