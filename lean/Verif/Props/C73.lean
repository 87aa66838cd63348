/-
C73 The first line of a Lua script.
-/
import Verif.Props.C72

namespace Tok
open Spec

namespace Spec

/-- A script as the program `lua` takes it (manual, section 7): a Lua chunk, in front of which may be a line that begins with `#`. -/
def LuaScript (x : Bytes) : Prop :=
  LuaSource x ∨ ∃ (cs : List Char) (y : Bytes), x = 35 :: (encText cs ++ y) ∧ '\n' ∉ cs ∧ '\r' ∉ cs ∧ (y = [] ∨ ∃ b z, y = b :: z ∧ (b = 10 ∨ b = 13) ∧ LuaSource z)

end Spec

namespace Lua
variable {rt : Rt} {ks : List Bytes} {t : Bytes}

/-- The end of the first line. -/
def lineEnd : Reader := .any [.rune (('\r' : Char).toNat), .rune (('\n' : Char).toNat)]

theorem e_she : env[iSheBang]? = some ⟨b!"SheBang", some (.seq [.lit b!"#!", .to lineEnd])⟩ := rfl
theorem e_script : env[iScript]? = some ⟨b!"script", some (.seq [.opt (.rule iSheBang), .rule iBlock])⟩ := rfl

section
variable {h : Bytes} {j : Nat → Bytes} {M : List (Nat × Token)}

theorem end_yes {b : UInt8} (hb : b = 10 ∨ b = 13) : Gives rt env lineEnd ⟨h, b :: t, j, M⟩ true ⟨h ++ [b], t, j, M⟩ := by
  rcases hb with rfl | rfl
  · exact .any (.next (Gives.rune_no (c := '\r') (d := '\n') (by decide) (t := t)) (.hit (Gives.rune (c := '\n') (t := t))))
  · exact .any (.hit (Gives.rune (c := '\r') (t := t)))

theorem end_no {c : Char} (h1 : c ≠ '\n') (h2 : c ≠ '\r') : Gives rt env lineEnd ⟨h, enc c ++ t, j, M⟩ false ⟨h, enc c ++ t, j, M⟩ :=
  .any_no (b := ⟨h, enc c ++ t, j, M⟩) (.next (Gives.rune_no h2) (.next (Gives.rune_no h1) .nil))

theorem end_end : Gives rt env lineEnd ⟨h, [], j, M⟩ false ⟨h, [], j, M⟩ :=
  .any_no (b := ⟨h, [], j, M⟩) (.next (rune_end (by decide)) (.next (rune_end (by decide)) .nil))

theorem first_yes {b : UInt8} (hb : b = 10 ∨ b = 13) : ∀ (cs : List Char) (h : Bytes), '\n' ∉ cs → '\r' ∉ cs →
    Gives rt env (.to lineEnd) ⟨h, encText cs ++ b :: t, j, M⟩ true ⟨h ++ encText cs, b :: t, j, M⟩
  | [], h, _, _ => by
    have := Gives.to_hit (end_yes (rt := rt) (h := h) (t := t) (j := j) (M := M) hb)
    simpa [View.back, encText_nil] using this
  | c :: cs, h, h1, h2 => by
    have ih := first_yes hb cs (h ++ enc c) (fun hm => h1 (List.mem_cons_of_mem _ hm)) (fun hm => h2 (List.mem_cons_of_mem _ hm))
    rw [encText_cons, List.append_assoc]
    have := Gives.to_step (end_no (rt := rt) (c := c) (h := h) (t := encText cs ++ b :: t) (j := j) (M := M) (fun e => h1 (by simp [e])) (fun e => h2 (by simp [e]))) ih
    simpa using this

theorem first_no : ∀ (cs : List Char) (h : Bytes), '\n' ∉ cs → '\r' ∉ cs → Gives rt env (.to lineEnd) ⟨h, encText cs, j, M⟩ false ⟨h, encText cs, j, M⟩
  | [], h, _, _ => .to_end end_end
  | c :: cs, h, h1, h2 => by
    have ih := first_no cs (h ++ enc c) (fun hm => h1 (List.mem_cons_of_mem _ hm)) (fun hm => h2 (List.mem_cons_of_mem _ hm))
    rw [encText_cons]
    exact Gives.to_step_no (end_no (fun e => h1 (by simp [e])) (fun e => h2 (by simp [e]))) ih

end

theorem she_noWrap : (Reader.rule iSheBang).Every (fun r => r.noWrap = true) := Reader.everyB_sound Reader.noWrap _ (by decide)

theorem she_yes {b : UInt8} (hb : b = 10 ∨ b = 13) (cs : List Char) (h1 : '\n' ∉ cs) (h2 : '\r' ∉ cs) :
    Gets rt env (.rule iSheBang) (b!"#!" ++ encText cs ++ b :: t) (some (b :: t)) :=
  Gives.gets noWraps she_noWrap fun j => ⟨j, by
    have h3 : Gives rt env (.seq [.lit b!"#!", .to lineEnd]) ⟨[], b!"#!" ++ (encText cs ++ b :: t), j, []⟩ true ⟨[] ++ b!"#!" ++ encText cs, b :: t, j, []⟩ :=
      .seq (.cons .lit (.cons (first_yes hb cs _ h1 h2) .nil))
    have h4 := Gives.rule e_she h3
    simpa only [List.nil_append, List.append_assoc] using h4⟩

theorem she_no (cs : List Char) (h1 : '\n' ∉ cs) (h2 : '\r' ∉ cs) : Gets rt env (.rule iSheBang) (b!"#!" ++ encText cs) none :=
  Gives.gets_no noWraps she_noWrap fun j => ⟨j, by
    have h3 : Gives rt env (.seq [.lit b!"#!", .to lineEnd]) ⟨[], b!"#!" ++ encText cs, j, []⟩ false ⟨[], b!"#!" ++ encText cs, j, []⟩ :=
      .seq_no (.cons .lit (.fail (first_no cs _ h1 h2)))
    exact Gives.rule e_she h3⟩

/-- No first line in front of a block. -/
theorem she_wide (h : Phrase .block ks) {X : Bytes} (hX : Wide ks X) : Gets rt env (.rule iSheBang) X none := by
  refine .rule e_she (.seq (.stop ?_))
  obtain ⟨w, z, rfl, hw, hz⟩ := hX
  cases hw with
  | nil =>
    have hh : Heads (.eof :: blockHeads) ks := by
      rcases (good (rt := rt) h).1 with rfl | h
      · exact ⟨.eof, by simp, rfl⟩
      · exact h.mono fun c hc => by simp [hc]
    exact hh.fail (r := .lit b!"#!") (by decide +kernel) z hz
  | white hb _ =>
    refine .lit_no ?_
    rintro ⟨u, e⟩
    injection e with e _
    subst e
    simp at hb
  | _ => exact .lit_no (by rintro ⟨u, e⟩; simp at e)

theorem block_gets (h : Phrase .block ks) {X : Bytes} (hX : Wide ks X) : Gets rt env (.rule iBlock) X (some []) := by
  obtain ⟨Y, h1, h2, _⟩ := (good (rt := rt) h).2 [] ⟨.eof, by decide, rfl⟩ eof_fail X (by simpa using hX)
  cases h2
  exact h1

theorem script_over {s : Scanner} {h x u : Bytes} (hb : Between s h (x ++ u)) (hg : Gets rt env (.rule iScript) (x ++ u) (some u)) : ∃ n, ReadsOver rt env n (.rule iScript) s h x u := by
  obtain ⟨n, j, e⟩ := hg s.heap.janus
  exact ⟨n, readsOver_of_eat noWraps (Reader.everyB_sound Reader.noWrap _ (by decide)) hb e⟩

/-- The block in front of a `#` is empty. -/
theorem block_hash (t : Bytes) : Gets rt env (.rule iBlock) (35 :: t) (some (35 :: t)) := by
  have hs : sym env false [] 1 300 (.rule iBlock) [35] = some (some [35]) := by decide +kernel
  simpa using Gets.sym_yes (rt := rt) (begins_nothing (p := [35]) (t := t)) hs

end Lua

open Lua

/-- The rule `Script` reads scripts with a first line that begins with `#!` and ends with a line feed or a carriage return, whatever is in the line.  Missing: other first lines, and the
chunks of C68 and C72 that are not read. -/
theorem C73_line_partial (rt : Rt) (s : Scanner) (h w x : Bytes) (cs : List Char) (b : UInt8) (ks : List Bytes) (h1 : '\n' ∉ cs) (h2 : '\r' ∉ cs) (hb : b = 10 ∨ b = 13)
    (hp : Phrase .block ks) (hw : PlainGap w) (hx : Noted OpenGap ks x) (hs : Between s h (b!"#!" ++ encText cs ++ b :: (w ++ x))) :
    LuaScript (b!"#!" ++ encText cs ++ b :: (w ++ x)) ∧ ∃ n, ReadsOver rt Lua.env n (.rule Lua.iScript) s h (b!"#!" ++ encText cs ++ b :: (w ++ x)) [] := by
  refine ⟨.inr ⟨'!' :: cs, b :: (w ++ x), ?_, ?_, ?_, .inr ⟨b, _, rfl, hb, C72_lua w x ks hp hw hx⟩⟩, script_over (by simpa using hs) ?_⟩
  · simp [encText_cons, show enc '!' = [33] from rfl]
  · simpa using h1
  · simpa using h2
  · rw [List.append_nil]
    refine .rule e_script (.seq (.cons (.opt (she_yes hb cs h1 h2)) (.cons (block_gets hp ⟨b :: w, x, rfl, .white ?_ hw, hx⟩) .nil)))
    rcases hb with rfl | rfl <;> decide

/-- Without a first line the rule reads what the grammar reads. -/
theorem C73_chunk_partial (rt : Rt) (s : Scanner) (h w x : Bytes) (ks : List Bytes) (hp : Phrase .block ks) (hw : PlainGap w) (hx : Noted OpenGap ks x) (hs : Between s h (w ++ x)) :
    LuaScript (w ++ x) ∧ ∃ n, ReadsOver rt Lua.env n (.rule Lua.iScript) s h (w ++ x) [] :=
  ⟨.inl (C72_lua w x ks hp hw hx), script_over (by simpa using hs) (by
    rw [List.append_nil]
    exact .rule e_script (.seq (.cons (.opt (she_wide hp ⟨w, x, rfl, hw, hx⟩)) (.cons (block_gets hp ⟨w, x, rfl, hw, hx⟩) .nil))))⟩

/-- The program of C72 as a script. -/
example (rt : Rt) : ∃ n, ReadsOver rt Lua.env n (.rule Lua.iScript) (Scanner.new (b!"#!/usr/bin/lua\r\n" ++ Lua.noted) Heap.empty) [] (b!"#!/usr/bin/lua\r\n" ++ Lua.noted) [] :=
  (C73_line_partial rt _ [] b!"\n" Lua.noted "/usr/bin/lua".toList 13 _ (by decide) (by decide) (.inr rfl) Lua.noted_phrase (.white (by decide) .nil) Lua.noted_noted ⟨rfl, rfl⟩).2

/-- A script of one line `#!…` without a line break: nothing is read. -/
theorem C73_last_violated (rt : Rt) (s : Scanner) (h : Bytes) (cs : List Char) (h1 : '\n' ∉ cs) (h2 : '\r' ∉ cs) (hs : Between s h (b!"#!" ++ encText cs)) :
    LuaScript (b!"#!" ++ encText cs) ∧ ∃ n, ReadsOver rt Lua.env n (.rule Lua.iScript) s h [] (b!"#!" ++ encText cs) := by
  refine ⟨.inr ⟨'!' :: cs, [], ?_, ?_, ?_, .inl rfl⟩, script_over hs ?_⟩
  · simp [encText_cons, show enc '!' = [33] from rfl]
  · simpa using h1
  · simpa using h2
  · exact .rule e_script (.seq (.cons (.opt (she_no cs h1 h2)) (.cons (block_hash _) .nil)))

/-- A first line with something other than `!` behind the `#`: nothing is read. -/
theorem C73_hash_violated (rt : Rt) (s : Scanner) (h t : Bytes) (b : UInt8) (hn : b ≠ 33) (hs : Between s h (35 :: b :: t)) :
    ∃ n, ReadsOver rt Lua.env n (.rule Lua.iScript) s h [] (35 :: b :: t) :=
  script_over hs (.rule e_script (.seq (.cons (.opt (.rule e_she (.seq (.stop (.lit_no (by rintro ⟨u, e⟩; injection e with _ e; injection e with e _; exact hn e.symm))))))
    (.cons (block_hash _) .nil))))

/-- A script with such a line. -/
example (rt : Rt) : LuaScript b!"# run me\n;" ∧ ∃ n, ReadsOver rt Lua.env n (.rule Lua.iScript) (Scanner.new b!"# run me\n;" Heap.empty) [] [] b!"# run me\n;" :=
  ⟨.inr ⟨" run me".toList, b!"\n;", rfl, by decide, by decide, .inr ⟨10, b!";", rfl, .inl rfl, source_of (one54 .semi) (noted_cons b!";" [] rfl .nil (by decide +kernel) .nil rfl)⟩⟩,
   C73_hash_violated rt _ [] _ 32 (by decide) ⟨rfl, rfl⟩⟩

/-- The method `Read` of the grammar reads nothing of any text that begins with `#`. -/
theorem C73_read_violated (rt : Rt) (s : Scanner) (h t : Bytes) (hs : Between s h (35 :: t)) : ∃ n, ReadsOver rt Lua.env n Lua.reader s h [] (35 :: t) :=
  chunk_over hs (.grammar (.rule e_chunk (block_hash t)))

/-- The claim as it stands is false, of the rule `Script` and of `Read`. -/
theorem C73_violated (rt : Rt) (r : Reader) (hr : r = Lua.reader ∨ r = .rule Lua.iScript) :
    ¬ ∀ (s : Scanner) (h x : Bytes), LuaScript x → Between s h x → ∃ n s', read rt Lua.env n r s = .ret (none, s') ∧ Between s' (h ++ x) [] := by
  intro hall
  have hb : Between (Scanner.new b!"#!" Heap.empty) [] b!"#!" := ⟨rfl, rfl⟩
  have h1 := (C73_last_violated rt _ _ [] (by simp) (by simp) hb).1
  obtain ⟨n, s', h2, h3⟩ : ∃ n, ReadsOver rt Lua.env n r (Scanner.new b!"#!" Heap.empty) [] [] b!"#!" := by
    rcases hr with rfl | rfl
    · exact C73_read_violated rt _ _ _ hb
    · exact (C73_last_violated rt _ _ [] (by simp) (by simp) hb).2
  obtain ⟨n', s2, h4, h5⟩ := hall _ _ _ h1 hb
  obtain ⟨_, rfl⟩ : (none : Option Err) = none ∧ s2 = s' := by simpa using read_det h4 (h2 n (Nat.le_refl n))
  cases (between_inj h3 h5).2

end Tok
