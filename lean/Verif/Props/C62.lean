/-
C62 Names of the Lua grammar.
-/
import Verif.Proofs.Greedy

namespace Tok
open Spec

namespace Lua

theorem noWraps : env.Every (fun r => r.noWrap = true) := Env.everyB_sound (by decide +kernel)

def startB (b : UInt8) : Bool := (97 ≤ b && b ≤ 122) || (65 ≤ b && b ≤ 90) || b == 95
def digitB (b : UInt8) : Bool := 48 ≤ b && b ≤ 57
def letterB (b : UInt8) : Bool := (97 ≤ b && b ≤ 122) || (65 ≤ b && b ≤ 90)
def wordB (b : UInt8) : Bool := (97 ≤ b && b ≤ 122) || (65 ≤ b && b ≤ 90) || (48 ≤ b && b ≤ 57)

theorem startB_iff (b : UInt8) : startB b = true ↔ NameStart b := by
  simp only [startB, NameStart, Bool.or_eq_true, Bool.and_eq_true, decide_eq_true_eq, beq_iff_eq]
  tauto

theorem digitB_iff (b : UInt8) : digitB b = true ↔ DecDigit b := by simp [digitB, DecDigit]

/-- All bytes. -/
theorem bytes_all {P : UInt8 → Prop} [DecidablePred P] (h : (List.range 256).all (fun n => decide (P (UInt8.ofNat n))) = true) (b : UInt8) : P b := by
  have := List.all_eq_true.mp h b.toNat (List.mem_range.mpr b.toNat_lt)
  simpa using this

/-- A test by a list of runes. -/
theorem ascii_contains {str : Bytes} {p : UInt8 → Bool} (hs : (runesOf str).all (fun v => decide (v < 128)) = true)
    (h : ∀ b : UInt8, b.toNat < 128 → (runesOf str).contains (b.toNat : Int) = p b) (hh : ∀ b : UInt8, 128 ≤ b.toNat → p b = false) :
    Ascii (containsRune str) p where
  low b hb := by rw [containsRune_contains]; exact h b hb
  high := hh
  none v hv := by
    rw [containsRune_contains]
    simp only [List.contains_eq_mem, decide_eq_false_iff_not]
    intro hm
    rw [List.all_eq_true] at hs
    have := hs v hm
    simp only [decide_eq_true_eq] at this
    omega

theorem ascii_under : Ascii (containsRune b!"_") (· == 95) := ascii_contains (by decide +kernel) (bytes_all (by decide +kernel)) (bytes_all (by decide +kernel))

theorem ascii_letter : Ascii (fun v => Scanner.inRange 97 v 122 || Scanner.inRange 65 v 90) letterB where
  low := bytes_all (by decide +kernel)
  high := bytes_all (by decide +kernel)
  none v hv := by simp [Scanner.inRange]; omega

theorem ascii_word : Ascii (fun v => Scanner.inRange 97 v 122 || Scanner.inRange 65 v 90 || Scanner.inRange 48 v 57) wordB where
  low := bytes_all (by decide +kernel)
  high := bytes_all (by decide +kernel)
  none v hv := by simp [Scanner.inRange]; omega

theorem name_does (rt : Rt) : Does rt env (.rule iName)
    (seqB [oneB (fun b => letterB b || b == 95), fun t => some (t.dropWhile (fun b => wordB b || b == 95))]) :=
  does_rule rfl (does_seq (.cons (does_set ascii_letter ascii_under (ranges := [(97, 122), (65, 90)]) (fun v => by simp [List.any]))
    (.cons (does_zom (does_set ascii_word ascii_under (ranges := [(97, 122), (65, 90), (48, 57)]) (fun v => by simp [List.any, Bool.or_assoc]))) .nil)))

theorem name_greedy : Greedy (seqB [oneB (fun b => letterB b || b == 95), fun t => some (t.dropWhile (fun b => wordB b || b == 95))]) LuaIdent where
  some {t u} h := by
    cases t with
    | nil => cases h
    | cons b t =>
      simp only [seqB, oneB] at h
      have hw : ∀ c, (wordB c || c == 95) = true ↔ NameStart c ∨ DecDigit c := fun c => by
        simp only [wordB, NameStart, DecDigit, Bool.or_eq_true, Bool.and_eq_true, decide_eq_true_eq, beq_iff_eq]
        tauto
      split at h
      · next hp =>
        simp only [Option.bind_some, Option.some.injEq] at h
        subst h
        have hb : NameStart b := by
          simp only [letterB, NameStart, Bool.or_eq_true, Bool.and_eq_true, decide_eq_true_eq, beq_iff_eq] at hp ⊢
          tauto
        refine ⟨b :: t.takeWhile (fun b => wordB b || b == 95), by simp [List.takeWhile_append_dropWhile], ⟨t.dropWhile (fun b => wordB b || b == 95), by
          simp [List.takeWhile_append_dropWhile]⟩, ⟨b, _, rfl, hb, fun c hc => (hw c).mp (List.mem_takeWhile_imp (p := fun b => wordB b || b == 95) hc)⟩, ?_⟩
        rintro y ⟨z, hz⟩ ⟨b', y', rfl, _, hy⟩
        simp only [List.cons_append, List.cons.injEq] at hz
        rw [← hz.2, List.takeWhile_append_of_pos (p := fun b => wordB b || b == 95) fun c hc => (hw c).mpr (hy c hc)]
        simp
      · cases h
  none {t} h x hx := by
    rintro ⟨b, y, rfl, hb, _⟩
    obtain ⟨z, rfl⟩ := hx
    have : (letterB b || b == 95) = true := by
      simp only [letterB, NameStart, Bool.or_eq_true, Bool.and_eq_true, decide_eq_true_eq, beq_iff_eq] at hb ⊢
      tauto
    simp [seqB, oneB, this] at h

theorem rule_noWrap (i : Nat) : (Reader.rule i).Every (fun r => r.noWrap = true) := .mk rfl (by simp [Reader.subs])

end Lua

/-- The rule reads the longest beginning made of letters, digits and underscores that does not begin with a digit, and nothing else, on every text. -/
theorem C62_reads (rt : Rt) (s : Scanner) (h x u : Bytes) (hb : Between s h (x ++ u)) :
    (∃ n s', read rt Lua.env n (.rule Lua.iName) s = .ret (none, s') ∧ Between s' (h ++ x) u) ↔ Longest LuaIdent (x ++ u) x :=
  ((Lua.name_does rt).success Lua.noWraps (Lua.rule_noWrap _) hb x u rfl).trans (Lua.name_greedy.iff rfl)

/-- It reports an error exactly where no such beginning exists. -/
theorem C62_fails (rt : Rt) (s : Scanner) (h t : Bytes) (hb : Between s h t) :
    (∃ n e s', read rt Lua.env n (.rule Lua.iName) s = .ret (some e, s')) ↔ ∀ x, x <+: t → ¬ LuaIdent x :=
  ((Lua.name_does rt).failure Lua.noWraps (Lua.rule_noWrap _) hb).trans Lua.name_greedy.none_iff

theorem longest_ident {x u : Bytes} (hx : LuaIdent x) (hu : ∀ b v, u = b :: v → ¬ NameStart b ∧ ¬ DecDigit b) : Longest LuaIdent (x ++ u) x := by
  refine ⟨List.prefix_append x u, hx, ?_⟩
  rintro y hy ⟨b, z, rfl, _, hz⟩
  rcases Nat.lt_or_ge x.length (b :: z).length with hl | hl
  · obtain ⟨d, w, h1, h2⟩ := prefix_split (b := u) hy (List.prefix_refl _) hl
    obtain ⟨b', y', rfl, _, _⟩ := hx
    rcases h2 with rfl | ⟨v, rfl⟩
    · have := hy.length_le
      simp at this hl
      omega
    · simp only [List.cons_append, List.cons.injEq] at h1
      have := hz d (by rw [h1.2]; simp)
      exact absurd this (not_or.mpr (hu d v rfl))
  · exact hl

/-- Every name is read, whatever follows that cannot belong to it. -/
theorem C62_name_partial (rt : Rt) (s : Scanner) (h x u : Bytes) (hb : Between s h (x ++ u)) (hx : LuaName x)
    (hu : ∀ b v, u = b :: v → ¬ NameStart b ∧ ¬ DecDigit b) :
    ∃ n s', read rt Lua.env n (.rule Lua.iName) s = .ret (none, s') ∧ Between s' (h ++ x) u :=
  (C62_reads rt s h x u hb).mpr (longest_ident hx.1 hu)

example (rt : Rt) : ∃ n s', read rt Lua.env n (.rule Lua.iName) (.new b!"_x1 = 2" Heap.empty) = .ret (none, s') ∧ Between s' b!"_x1" b!" = 2" :=
  C62_name_partial rt _ [] b!"_x1" b!" = 2" ⟨rfl, rfl⟩ ⟨⟨95, b!"x1", rfl, by unfold NameStart; decide, by unfold NameStart DecDigit; decide⟩, by decide⟩ (by
    intro b v e
    injection e with e
    subst e
    unfold NameStart DecDigit
    decide)

/-- The reserved words are read as names, too. -/
theorem C62_keyword_violated (rt : Rt) (s : Scanner) (h x u : Bytes) (hb : Between s h (x ++ u)) (hx : x ∈ luaKeywords)
    (hu : ∀ b v, u = b :: v → ¬ NameStart b ∧ ¬ DecDigit b) :
    ∃ n s', read rt Lua.env n (.rule Lua.iName) s = .ret (none, s') ∧ Between s' (h ++ x) u := by
  refine (C62_reads rt s h x u hb).mpr (longest_ident ?_ hu)
  have : ∀ x ∈ luaKeywords, ∃ b ∈ x.head?, Lua.startB b = true ∧ x.tail.all Lua.startB = true := by decide +kernel
  obtain ⟨b, hb, h1, h2⟩ := this x hx
  cases x with
  | nil => cases hb
  | cons c y =>
    cases hb
    exact ⟨_, _, rfl, (Lua.startB_iff _).mp h1, fun d hd => .inl ((Lua.startB_iff d).mp (List.all_eq_true.mp h2 d hd))⟩

example (rt : Rt) : ∃ n s', read rt Lua.env n (.rule Lua.iName) (.new b!"end" Heap.empty) = .ret (none, s') ∧ Between s' b!"end" [] :=
  C62_keyword_violated rt _ [] b!"end" [] ⟨rfl, rfl⟩ (by decide) (by intro b v e; cases e)

end Tok
