/-
C74 What the Lua grammar reads.
-/
import Verif.Proofs.TellRules
import Verif.Proofs.LuaUpper

namespace Tok
open Spec

namespace Lua
variable {rt : Rt}

theorem eat_read {s s' : Scanner} {h t : Bytes} {n : Nat} {r : Reader} (hr : r.Every fun r => r.noWrap = true) (hb : Between s h t)
    (hs : read rt env n r s = .ret (none, s')) : ∃ x st, eat rt env n r ⟨t, s.heap.janus⟩ = .ret (true, st) ∧ t = x ++ st.rest ∧ Between s' (h ++ x) st.rest := by
  obtain ⟨⟨ok, st⟩, h1, h2, h3⟩ := (read_eat rt env noWraps n r hr s.full s _ (sees_between hb)).left hs
  obtain ⟨x, hx, hb'⟩ := between_sees hb h3 (eat_shrinks rt env n r _ _ h1)
  simp only [Option.isNone_none] at h2
  subst h2
  exact ⟨x, st, h1, hx, hb'⟩

theorem block_loose {i n : Nat} {st st' : St} (hi : i = iBlock ∨ i = iChunk) (e : eat rt env n (.rule i) st = .ret (true, st')) : ∃ x, st.rest = x ++ st'.rest ∧ LooseLua x := by
  rcases hi with rfl | rfl
  · have := tells (rt := rt) n (.rule iBlock) (by decide) _ _ _ e
    exact this
  · have := tells (rt := rt) n (.rule iChunk) (by decide) _ _ _ e
    exact this

/-- Where `lineEnd` is found, a line ends. -/
theorem line_inv {m : Nat} : ∀ (n : Nat) {st st' : St}, eatTo (eat rt env m lineEnd) n st = .ret (true, st') →
    ∃ y b u, st.rest = y ++ st'.rest ∧ st'.rest = b :: u ∧ (b = 10 ∨ b = 13) := by
  intro n
  induction n with
  | zero => intro st st' e; cases e
  | succ n ih =>
    intro st st' e
    obtain ⟨⟨ok, s1⟩, e1, e2⟩ := ret_of_bind e
    obtain ⟨k, rfl, h1⟩ := any_inv e1
    cases ok with
    | true =>
      rw [if_pos rfl] at h1
      simp only [if_true, Exec.pure_eq, Exec.ret.injEq, Prod.mk.injEq, true_and] at e2
      subst e2
      obtain ⟨⟨ok1, s2⟩, f1, f2⟩ := ret_of_bind h1
      cases ok1 with
      | true => exact ⟨[], 13, s2.rest, rfl, (rune_inv (b := 13) (by decide) f1).1, .inr rfl⟩
      | false =>
        have h2 := ((does_rune (rt := rt) (G := env) (ascii_rune 13 (by decide))).inv f1).2.2
        obtain ⟨⟨ok1, s3⟩, f3, f4⟩ := ret_of_bind f2
        cases ok1 with
        | true => exact ⟨[], 10, s3.rest, rfl, by rw [← h2]; exact (rune_inv (b := 10) (by decide) f3).1, .inl rfl⟩
        | false => simp [eatAny] at f4
    | false =>
      simp only [Bool.false_eq_true, if_false] at e2 h1
      split at e2
      · obtain ⟨y, b, u, h5, h6, h7⟩ := ih e2
        simp only at h5
        rw [h1] at h5
        obtain ⟨z, hz⟩ := eatStep_suffix st.rest
        exact ⟨z ++ y, b, u, by rw [← hz, h5, List.append_assoc], h6, h7⟩
      · simp at e2

end Lua

open Lua

/-- Whatever the grammar reads, from every state of a scanner, is a chunk of Lua with the relaxed rules of Spec/LuaLoose.lean for words, strings and comments: the syntax is that of the
manual.  Missing: it need not be Lua, see below. -/
theorem C74_sound_partial (rt : Rt) (s s' : Scanner) (h t : Bytes) (n : Nat) (hb : Between s h t) (hs : read rt Lua.env n Lua.reader s = .ret (none, s')) :
    ∃ x u, t = x ++ u ∧ Between s' (h ++ x) u ∧ LooseLua x := by
  obtain ⟨x, st, h1, h2, h3⟩ := eat_read (Reader.everyB_sound Reader.noWrap _ (by decide)) hb hs
  refine ⟨x, st.rest, h2, h3, ?_⟩
  cases n with
  | zero => cases h1
  | succ n =>
    rw [Lua.reader, eat] at h1
    obtain ⟨y, h4, h5⟩ := block_loose (.inr rfl) h1
    rw [h2] at h4
    rwa [List.append_cancel_right h4]

/-- The same for scripts: in front of the chunk may be a line that begins with `#!`. -/
theorem C74_script_partial (rt : Rt) (s s' : Scanner) (h t : Bytes) (n : Nat) (hb : Between s h t) (hs : read rt Lua.env n (.rule Lua.iScript) s = .ret (none, s')) :
    ∃ x y u, t = x ++ (y ++ u) ∧ Between s' (h ++ (x ++ y)) u ∧ LooseLua y ∧
      (x = [] ∨ ∃ a b z, x = b!"#!" ++ a ∧ y ++ u = b :: z ∧ (b = 10 ∨ b = 13)) := by
  obtain ⟨x, st, h1, h2, h3⟩ := eat_read (Reader.everyB_sound Reader.noWrap _ (by decide)) hb hs
  obtain ⟨m, rfl, e1⟩ := rule_inv e_script h1
  obtain ⟨m, rfl, e2⟩ := seq_inv e1
  rw [if_pos rfl] at e2
  obtain ⟨s1, e3, e4⟩ := eatSeq_inv e2
  obtain ⟨s2, e5, e6⟩ := eatSeq_inv e4
  cases e6
  obtain ⟨y, h4, h5⟩ := block_loose (.inl rfl) e5
  cases m with
  | zero => cases e3
  | succ m =>
    obtain ⟨⟨ok, s3⟩, e7, e8⟩ := ret_of_bind (by simpa only [eat] using e3)
    cases e8
    obtain ⟨m, rfl, e9⟩ := rule_inv e_she e7
    obtain ⟨m, rfl, e10⟩ := seq_inv e9
    cases ok with
    | false =>
      simp only [Bool.false_eq_true, if_false] at e10
      rw [e10] at h4
      exact ⟨[], y, st.rest, h4, by rw [h2] at h4; rwa [List.nil_append, ← List.append_cancel_right h4], h5, .inl rfl⟩
    | true =>
      rw [if_pos rfl] at e10
      obtain ⟨s4, f1, f2⟩ := eatSeq_inv e10
      obtain ⟨s5, f3, f4⟩ := eatSeq_inv f2
      cases f4
      obtain ⟨k, f5⟩ := to_yes f3
      obtain ⟨a, b, z, g1, g2, g3⟩ := line_inv _ f5
      have g4 := (lit_inv f1).1
      have : t = (b!"#!" ++ a) ++ (y ++ st.rest) := by rw [← h4, List.append_assoc, ← g1]; exact g4
      refine ⟨b!"#!" ++ a, y, st.rest, this, ?_, h5, .inr ⟨a, b, z, rfl, by rw [← h4]; exact g2, g3⟩⟩
      rw [h2, ← List.append_assoc] at this
      rwa [← List.append_cancel_right this]

/-- The program of C72 is read, so it is relaxed Lua. -/
example (rt : Rt) : LooseLua Lua.noted := by
  obtain ⟨n, s', h1, h2⟩ := C72_reads_partial rt (Scanner.new Lua.noted Heap.empty) [] [] Lua.noted _ Lua.noted_phrase .nil Lua.noted_noted ⟨rfl, rfl⟩
  obtain ⟨x, u, h3, h4, h5⟩ := C74_sound_partial _ _ _ [] _ n ⟨rfl, rfl⟩ (h1 n (Nat.le_refl n))
  have := (between_inj h2 h4).1
  simp only [List.nil_append] at this
  rwa [this]

/-- Lua chunks with short strings are in the bound `AlmostLua`. -/
theorem C74_bound (x : Bytes) (h : LuaSource x) : AlmostLua x := source_almost h

/-! ### texts that are read and are not Lua -/

/-- An assignment to any reserved word is read. -/
theorem C74_keyword_violated (rt : Rt) (s : Scanner) (h w : Bytes) (hw : w ∈ luaKeywords) (hb : Between s h (w ++ b!" = 1")) :
    ¬ AlmostLua (w ++ b!" = 1") ∧ ∃ n, ReadsOver rt Lua.env n Lua.reader s h (w ++ b!" = 1") [] := by
  constructor
  · rintro ⟨ks, h1, h2⟩
    have hs := syn_sharp h1
    obtain ⟨ls, rfl, h3⟩ := kept_word h2 hs (identB_of ((show ∀ k ∈ luaKeywords, identB k = true by decide +kernel) w hw)) (by
      rintro b y ⟨⟩; simp [NameStart, DecDigit])
    have h4 := kept_space h3 (fun k hk => hs k (by simp [hk])) (.inl rfl) rfl
    obtain ⟨k, ms, y, rfl, e, _, _⟩ := kept_tok h4 (by decide) (by decide) rfl
    obtain ⟨b, z, rfl, _, _, hk⟩ := hs k (by simp)
    injection e with e1 e2
    subst e1
    rcases hk rfl with hk | hk <;> injection hk with _ hk <;> subst hk
    · exact (syn_eq h1).2 w ms rfl hw
    · cases e2
  · have : ∀ k ∈ luaKeywords, sym env true [] (k ++ b!" = 1").length 300 (.rule iChunk) (k ++ b!" = 1") = some (some []) := by decide +kernel
    exact leaves_end hb (this w hw) (by simp)

/-- Reserved words and names are read without a space between them. -/
theorem C74_apart_violated (rt : Rt) (s : Scanner) (h : Bytes) (hb : Between s h b!"returnx") :
    ¬ AlmostLua b!"returnx" ∧ ∃ n, ReadsOver rt Lua.env n Lua.reader s h b!"returnx" [] := by
  constructor
  · rintro ⟨ks, h1, h2⟩
    have hs := syn_sharp h1
    obtain ⟨ls, rfl, h3⟩ := kept_word (w := b!"returnx") (z := []) h2 hs (identB_of rfl) (by rintro b y ⟨⟩)
    have hl : ∀ {ls x}, Kept ls x → (∀ k ∈ ls, Sharp k) → x = [] → ls = [] := by
      intro ls x h hs e
      induction h with
      | nil => rfl
      | gap _ _ ih => exact ih hs (List.append_eq_nil_iff.mp e).2
      | tok _ _ _ =>
        obtain ⟨b, y, rfl, _⟩ := hs _ List.mem_cons_self
        cases e
    have := hl h3 (fun k hk => hs k (by simp [hk])) rfl
    subst this
    rcases (syn_firm h1).1 (.inr rfl) with h | ⟨k, hk, h⟩
    · cases h
    · simp only [List.mem_cons, List.not_mem_nil, or_false] at hk
      subst hk
      rcases h with h | ⟨b, y, e, h⟩
      · exact absurd h (by decide)
      · injection e with e _
        subst e
        simp at h
  · exact leaves_end hb (by decide +kernel) rfl

/-- The claim as it stands is false, even for the bound. -/
theorem C74_violated (rt : Rt) : ¬ ∀ (s s' : Scanner) (h x : Bytes) (n : Nat), Between s h x → read rt Lua.env n Lua.reader s = .ret (none, s') → Between s' (h ++ x) [] → AlmostLua x := by
  intro hall
  have hb : Between (Scanner.new b!"returnx" Heap.empty) [] b!"returnx" := ⟨rfl, rfl⟩
  obtain ⟨h1, n, s', h2, h3⟩ := C74_apart_violated rt _ _ hb
  exact h1 (hall _ s' [] _ n hb (h2 n (Nat.le_refl n)) h3)

end Tok
