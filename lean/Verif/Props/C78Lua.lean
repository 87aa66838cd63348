/-
C78: how many rules are read; the Lua grammar.
-/
import Verif.Proofs.Counts
import Verif.Props.C68

namespace Tok
open Spec

namespace Lua
variable {rt : Rt} {l : Nat}

theorem unwatched : env.Every (fun r => r.bare = true) := Env.everyB_sound (by decide)

theorem unwatched_of {r : Reader} (h : r.everyB Reader.bare = true) : Unwatched env r := ⟨unwatched, Reader.everyB_sound _ _ h⟩

/-- `##...#x` with `n` signs: the length of the length ... of `x`. -/
def hashes : Nat → Bytes
  | 0 => b!"x"
  | n + 1 => 35 :: hashes n

theorem skip_hash (t : Bytes) : Gets rt env skiper (35 :: t) (some (35 :: t)) :=
  Gets.sym_yes (p0 := [35]) (q := [35]) (n := 30) begins_nothing (by decide +kernel)

theorem skip_x : Gets rt env skiper b!"x" (some b!"x") :=
  Gets.sym_yes (p0 := b!"x") (q := b!"x") (t := []) (fin := true) (nots := []) (n := 30) ⟨fun _ => rfl, by simp⟩ (by decide +kernel)

theorem skip_end : Gets rt env skiper [] (some []) :=
  Gets.sym_yes (p0 := []) (q := []) (t := []) (fin := true) (nots := []) (n := 30) ⟨fun _ => rfl, by simp⟩ (by decide +kernel)

theorem skip_hashes (n : Nat) : Gets rt env skiper (hashes n) (some (hashes n)) := by
  cases n with
  | zero => exact skip_x
  | succ n => exact skip_hash _

theorem no_hash {r : Reader} (t : Bytes) (h : sym env false [] 1 300 r [35] = some none) : Gets rt env r (35 :: t) none :=
  Gets.sym_no (p0 := [35]) begins_nothing h

theorem yes_end {r : Reader} (h : sym env true [] 0 300 r [] = some (some [])) : Gets rt env r [] (some []) :=
  Gets.sym_yes (p0 := []) (q := []) (t := []) (fin := true) (nots := []) ⟨fun _ => rfl, by simp⟩ h

theorem no_end {r : Reader} (h : sym env true [] 0 300 r [] = some none) : Gets rt env r [] none :=
  Gets.sym_no (p0 := []) (t := []) (fin := true) (nots := []) ⟨fun _ => rfl, by simp⟩ h

/-- The reader `skipSeq(UnOp, Exp)`. -/
theorem un_gets {n : Nat} (h : Gets rt env expR (hashes n) (some [])) : Gets rt env (skipR [.rule iUnOp, expR]) (hashes (n + 1)) (some []) := by
  refine .skipSeq (skip_hash _) (.cons (u := hashes n) ?_ (skip_hashes n) (.cons h skip_end .nil))
  exact Gets.sym_yes (p0 := [35]) (q := []) (n := 30) begins_nothing (by decide +kernel)

theorem final_gets : ∀ n, Gets rt env (.rule iFinalExp) (hashes n) (some []) ∧ Gets rt env expR (hashes n) (some [])
  | 0 => by
    have key : ∀ r, sym env true [] 1 300 r b!"x" = some (some []) → Gets rt env r b!"x" (some []) := fun r h =>
      Gets.sym_yes (p0 := b!"x") (q := []) (t := []) (fin := true) (nots := []) ⟨fun _ => rfl, by simp⟩ h
    exact ⟨key _ (by decide +kernel), key _ (by decide +kernel)⟩
  | n + 1 => by
    have hf : Gets rt env (.rule iFinalExp) (hashes (n + 1)) (some []) := by
      refine .rule e_final (.any ?_)
      iterate 7 refine .next (no_hash _ (by decide +kernel)) ?_
      exact .hit (un_gets (final_gets n).2)
    refine ⟨hf, .rule e_exp (.any (.next ?_ (.hit hf)))⟩
    refine .skipSeq (u := hashes (n + 1)) (Gets.sym_yes (p0 := [35]) (q := [35]) (n := 30) begins_nothing (by decide +kernel)) (.cons hf (yes_end (by decide +kernel)) (.stop (no_end (by decide +kernel))))

theorem binary_no (n : Nat) : Gets rt env (wsR [.rule iFinalExp, .rule iBinOp, expR]) (hashes n) none := by
  refine .skipSeq (u := hashes n) ?_ (.cons (final_gets n).1 (yes_end (by decide +kernel)) (.stop (no_end (by decide +kernel))))
  cases n with
  | zero => exact Gets.sym_yes (p0 := b!"x") (q := b!"x") (t := []) (fin := true) (nots := []) (n := 30) ⟨fun _ => rfl, by simp⟩ (by decide +kernel)
  | succ n => exact Gets.sym_yes (p0 := [35]) (q := [35]) (n := 30) begins_nothing (by decide +kernel)

/-- Every sign doubles the number of rules read. -/
theorem exp_counts : ∀ n, Counts rt env l (.rule iFinalExp) (hashes n) (2 ^ n) ∧ Counts rt env l expR (hashes n) (2 ^ (n + 1)) := by
  have exp : ∀ n, Counts rt env l (.rule iFinalExp) (hashes n) (2 ^ n) → Counts rt env l expR (hashes n) (2 ^ (n + 1)) := fun n h => by
    have h1 : Counts rt env l (wsR [.rule iFinalExp, .rule iBinOp, expR]) (hashes n) (2 ^ n + 0) := by
      refine .skipSeq (u := hashes n) (unwatched_of (by decide)) ?_ (.cons (unwatched_of (by decide)) (unwatched_of (by decide)) (final_gets n).1 (yes_end (by decide +kernel)) h
        (.stop (unwatched_of (by decide)) (no_end (by decide +kernel)) (.zero (unwatched_of (by decide)))))
      cases n with
      | zero => exact Gets.sym_yes (p0 := b!"x") (q := b!"x") (t := []) (fin := true) (nots := []) (n := 30) ⟨fun _ => rfl, by simp⟩ (by decide +kernel)
      | succ n => exact Gets.sym_yes (p0 := [35]) (q := [35]) (n := 30) begins_nothing (by decide +kernel)
    have h2 := Counts.rule (unwatched_of (by decide)) e_exp (.any (.next (unwatched_of (by decide)) (binary_no n) h1 (.hit (unwatched_of (by decide)) (final_gets n).1 h)))
    exact h2.mono (by rw [Nat.pow_succ]; omega)
  intro n
  induction n with
  | zero =>
    have h : Counts rt env l (.rule iFinalExp) (hashes 0) (2 ^ 0) := .rule (k := 0) (unwatched_of (by decide)) e_final (.zero (unwatched_of (by decide)))
    exact ⟨h, exp 0 h⟩
  | succ n ih =>
    have h1 : Counts rt env l (skipR [.rule iUnOp, expR]) (hashes (n + 1)) (0 + (2 ^ (n + 1) + 0)) := by
      refine .skipSeq (unwatched_of (by decide)) (skip_hash _) (.cons (u := hashes n) (unwatched_of (by decide)) (unwatched_of (by decide)) ?_ (skip_hashes n) (.zero (unwatched_of (by decide)))
        (.cons (unwatched_of (by decide)) (unwatched_of (by decide)) (final_gets n).2 skip_end ih.2 .nil))
      exact Gets.sym_yes (p0 := [35]) (q := []) (n := 30) begins_nothing (by decide +kernel)
    have h : Counts rt env l (.rule iFinalExp) (hashes (n + 1)) (2 ^ (n + 1)) := by
      refine (Counts.rule (k := 0 + (0 + (0 + (0 + (0 + (0 + (0 + (0 + (2 ^ (n + 1) + 0))))))))) (unwatched_of (by decide)) e_final (.any ?_)).mono (by omega)
      iterate 7 refine .next (unwatched_of (by decide)) (no_hash _ (by decide +kernel)) (.zero (unwatched_of (by decide))) ?_
      exact .hit (unwatched_of (by decide)) (un_gets (final_gets n).2) h1
    exact ⟨h, exp (n + 1) h⟩

/-- The chunk `return ##...#x`. -/
def hashChunk (n : Nat) : Bytes := b!"return " ++ hashes n

theorem return_begins (n : Nat) : ∃ c t, hashes n = c :: t ∧ (c = 35 ∨ c = 120 ∧ t = []) := by
  cases n with
  | zero => exact ⟨_, _, rfl, .inr ⟨rfl, rfl⟩⟩
  | succ n => exact ⟨_, _, rfl, .inl rfl⟩

theorem list_gets (n : Nat) : Gets rt env (.rule iExpList) (hashes n) (some []) :=
  .rule e_explist (.skipSeq (skip_hashes n) (.cons (final_gets n).2 skip_end (.cons (yes_end (by decide +kernel)) skip_end .nil)))

theorem list_counts (n : Nat) : Counts rt env l (.rule iExpList) (hashes n) (2 ^ (n + 1)) :=
  (Counts.rule (k := 2 ^ (n + 1) + (0 + 0)) (unwatched_of (by decide)) e_explist (.skipSeq (unwatched_of (by decide)) (skip_hashes n) (.cons (unwatched_of (by decide)) (unwatched_of (by decide)) (final_gets n).2 skip_end (exp_counts n).2
    (.cons (unwatched_of (by decide)) (unwatched_of (by decide)) (yes_end (by decide +kernel)) skip_end (.zero (unwatched_of (by decide))) .nil)))).mono (by omega)

theorem hashChunk_facts (n : Nat) : Gets rt env skiper (hashChunk n) (some (hashChunk n)) ∧ Gets rt env (.rule iStat) (hashChunk n) none := by
  cases n with
  | zero =>
    exact ⟨Gets.sym_yes (p0 := b!"return x") (q := b!"return x") (t := []) (fin := true) (nots := []) (n := 30) ⟨fun _ => rfl, by simp⟩ (by decide +kernel),
      Gets.sym_no (p0 := b!"return x") (t := []) (fin := true) (nots := []) (n := 300) ⟨fun _ => rfl, by simp⟩ (by decide +kernel)⟩
  | succ n =>
    exact ⟨Gets.sym_yes (p0 := b!"return #") (q := b!"return #") (n := 30) begins_nothing (by decide +kernel),
      Gets.sym_no (p0 := b!"return #") (n := 300) begins_nothing (by decide +kernel)⟩

theorem ret_counts (n : Nat) : Counts rt env l (.rule iRetStat) (hashChunk n) (2 ^ (n + 1)) := by
  have hw : Gets rt env (.zom (mkWS)) (b!" " ++ hashes n) (some (hashes n)) := by
    cases n with
    | zero => exact Gets.sym_yes (p0 := b!" x") (q := b!"x") (t := []) (fin := true) (nots := []) (n := 30) ⟨fun _ => rfl, by simp⟩ (by decide +kernel)
    | succ n => exact Gets.sym_yes (p0 := b!" #") (q := b!"#") (n := 30) begins_nothing (by decide +kernel)
  have hr : Gets rt env (.zom (mkWS)) (hashChunk n) (some (hashChunk n)) :=
    Gets.sym_yes (p0 := b!"r") (q := b!"r") (t := b!"eturn " ++ hashes n) (n := 30) begins_nothing (by decide +kernel)
  have hl : Gets rt env (.lit b!"return") (hashChunk n) (some (b!" " ++ hashes n)) := .lit b!"return" _
  refine (Counts.rule (k := 0 + (2 ^ (n + 1) + (0 + 0))) (unwatched_of (by decide)) e_ret (.skipSeq (unwatched_of (by decide)) hr (.cons (unwatched_of (by decide)) (unwatched_of (by decide)) hl hw (.zero (unwatched_of (by decide)))
    (.cons (unwatched_of (by decide)) (unwatched_of (by decide)) (u := []) (.opt (list_gets n)) (yes_end (by decide +kernel)) (.opt (list_counts n))
      (.cons (unwatched_of (by decide)) (unwatched_of (by decide)) (yes_end (by decide +kernel)) (yes_end (by decide +kernel)) (.zero (unwatched_of (by decide))) .nil))))).mono (by omega)

theorem ret_gets (n : Nat) : Gets rt env (.rule iRetStat) (hashChunk n) (some []) := by
  have hw : Gets rt env (.zom (mkWS)) (b!" " ++ hashes n) (some (hashes n)) := by
    cases n with
    | zero => exact Gets.sym_yes (p0 := b!" x") (q := b!"x") (t := []) (fin := true) (nots := []) (n := 30) ⟨fun _ => rfl, by simp⟩ (by decide +kernel)
    | succ n => exact Gets.sym_yes (p0 := b!" #") (q := b!"#") (n := 30) begins_nothing (by decide +kernel)
  have hr : Gets rt env (.zom (mkWS)) (hashChunk n) (some (hashChunk n)) :=
    Gets.sym_yes (p0 := b!"r") (q := b!"r") (t := b!"eturn " ++ hashes n) (n := 30) begins_nothing (by decide +kernel)
  exact .rule e_ret (.skipSeq hr (.cons (.lit b!"return" _) hw (.cons (u := []) (.opt (list_gets n)) (yes_end (by decide +kernel)) (.cons (yes_end (by decide +kernel)) (yes_end (by decide +kernel)) .nil))))

theorem hashChunk_gets (n : Nat) : Gets rt env reader (hashChunk n) (some []) :=
  .grammar (.rule e_chunk (.rule e_block (.skipSeq (hashChunk_facts n).1 (.cons (.zom_stop (hashChunk_facts n).2) (hashChunk_facts n).1
    (.cons (u := []) (.opt (ret_gets n)) skip_end .nil)))))

theorem hashChunk_counts (n : Nat) : Counts rt env l reader (hashChunk n) (2 ^ (n + 1)) := by
  refine .grammar ((Counts.rule (k := 0 + (2 ^ (n + 1) + 0) + 1) (unwatched_of (by decide)) e_chunk (.rule (unwatched_of (by decide)) e_block (.skipSeq (unwatched_of (by decide)) (hashChunk_facts n).1 (.cons (unwatched_of (by decide)) (unwatched_of (by decide)) (.zom_stop (hashChunk_facts n).2) (hashChunk_facts n).1 (.zero (unwatched_of (by decide)))
    (.cons (u := []) (unwatched_of (by decide)) (unwatched_of (by decide)) (.opt (ret_gets n)) skip_end (.opt (ret_counts n)) .nil))))).mono (by omega))

/-! ### the chunk is Lua -/

def hashTokens : Nat → List Bytes
  | 0 => [b!"x"]
  | n + 1 => b!"#" :: hashTokens n

theorem hash_phrase : ∀ n, Phrase .exp (hashTokens n)
  | 0 => .simpleExp (.varExp (v := [b!"x"]) (c := []) (.name (plain_of rfl) .noGroups) .noCalls)
  | n + 1 => .un (by simp) (hash_phrase n)

theorem hash_layout : ∀ n, Layout (hashTokens n) (hashes n)
  | 0 => .cons (k := b!"x") (w := []) (x := []) (.word (identB_of rfl)) (by simp [White]) (fun _ b y h => by cases h) .nil
  | n + 1 => by
    refine .cons (k := b!"#") (w := []) (.sym (by decide)) (by simp [White]) (fun _ b y h => ?_) (hash_layout n)
    obtain ⟨c, t, h1, h2⟩ := return_begins n
    rw [h1] at h
    obtain ⟨rfl, rfl⟩ := List.cons.inj h
    rcases h2 with rfl | ⟨rfl, _⟩
    · exact apart_of (by decide)
    · exact apart_of (by decide)

theorem hashChunk_lua (n : Nat) : LuaChunk (hashChunk n) := by
  have hn : NoArgs (hashTokens n) := by cases n <;> exact noArgs_of rfl
  have hp : Phrase .block ([] ++ b!"return" :: hashTokens n) := .ret .noStats (.one (hash_phrase n)) hn
  exact C68_lua [] (hashChunk n) _ hp (by simp [White]) (.cons (k := b!"return") (w := b!" ") (.word (identB_of rfl)) (by simp [White]) (fun h => by cases h) (hash_layout n))

theorem hashes_length : ∀ n, (hashes n).length = n + 1
  | 0 => rfl
  | n + 1 => by rw [hashes, List.length_cons, hashes_length n]

end Lua

/-- The Lua grammar with all rules monitored, for every `n`: the chunk `return ##...#x` with `n` signs is Lua and is read to its end, and the log then has at least
`2 ^ (n + 1)` entries, though the text has only `n + 8` characters.  So the number of rules that are read is not proportional to the length of the
text, and not bounded by any polynomial. -/
theorem C78_lua_violated (rt : Rt) (l n : Nat) :
    LuaChunk (Lua.hashChunk n) ∧ (Lua.hashChunk n).length = n + 8 ∧
    (∃ k s', read rt (Lua.env.monitorAll l) k Lua.reader (Scanner.new (Lua.hashChunk n) Heap.empty) = .ret (none, s') ∧ s'.pos = n + 8) ∧
    ∀ k e s', read rt (Lua.env.monitorAll l) k Lua.reader (Scanner.new (Lua.hashChunk n) Heap.empty) = .ret (e, s') →
      2 ^ (n + 1) ≤ (s'.heap.logs l).entries.length := by
  have hb : Between (Scanner.new (Lua.hashChunk n) Heap.empty) [] (Lua.hashChunk n) := ⟨rfl, rfl⟩
  have hl : (Lua.hashChunk n).length = n + 8 := by
    simp only [Lua.hashChunk, List.length_append, Lua.hashes_length]
    show 7 + (n + 1) = n + 8
    omega
  refine ⟨Lua.hashChunk_lua n, hl, ?_, fun k e s' he => ?_⟩
  · obtain ⟨m, s1, h1, h2⟩ : ∃ m s1, read rt Lua.env m (.rule Lua.iChunk) (Scanner.new (Lua.hashChunk n) Heap.empty) = .ret (none, s1) ∧ s1.pos = n + 8 := by
      obtain ⟨m, h1⟩ := Lua.chunk_over (rt := rt) (s := Scanner.new (Lua.hashChunk n) Heap.empty) (h := []) (x := Lua.hashChunk n) (u := []) (by simpa using hb) (by simpa using Lua.hashChunk_gets n)
      obtain ⟨s1, h1, h2⟩ := h1
      have h3 := h1 (m + 1) (by omega)
      obtain ⟨⟨e4, s4⟩, h4, h5⟩ := Exec.bind_eq_ret.mp h3
      cases e4 with
      | some e4 => simp at h5
      | none =>
        cases h5
        refine ⟨m, _, h4, ?_⟩
        rw [h2.2]
        simp [hl]
    obtain ⟨k, s', h3, h4⟩ := (C43_shipped rt Lua.env (.inr (.inr rfl)) l Lua.iChunk _ hb.inside none _).mp ⟨m, s1, h1, h2⟩
    refine ⟨k + 1, s', ?_, h4⟩
    show (read rt (Lua.env.monitorAll l) k (.rule Lua.iChunk) _ >>= _) = _
    rw [h3]
    rfl
  · have := Lua.hashChunk_counts n _ _ hb k e s' he
    unfold Scanner.logged at this
    omega

end Tok
