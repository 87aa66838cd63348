/-
C68 The Lua grammar reads Lua chunks to their end.
-/
import Verif.Proofs.LuaChunk
import Verif.Props.C64

namespace Tok
open Spec

namespace Lua

/-- What the reader of the grammar makes of a text, told by `read`. -/
theorem chunk_over {rt : Rt} {s : Scanner} {h x u : Bytes} (hb : Between s h (x ++ u)) (hg : Gets rt env reader (x ++ u) (some u)) : ∃ n, ReadsOver rt env n reader s h x u := by
  obtain ⟨n, j, e⟩ := hg s.heap.janus
  exact ⟨n, readsOver_of_eat noWraps (Reader.everyB_sound Reader.noWrap reader (by decide)) hb e⟩

/-! ### texts for the examples -/

def identB : Bytes → Bool
  | [] => false
  | b :: y => startB b && y.all fun c => startB c || digitB c

theorem identB_of {x : Bytes} (h : identB x = true) : LuaIdent x := by
  cases x with
  | nil => cases h
  | cons b y =>
    rw [identB, Bool.and_eq_true, startB_iff, List.all_eq_true] at h
    refine ⟨b, y, rfl, h.1, fun c hc => ?_⟩
    have := h.2 c hc
    rwa [Bool.or_eq_true, startB_iff, digitB_iff] at this

theorem name_of {x : Bytes} (h : (identB x && !luaKeywords.contains x) = true) : LuaName x := by
  rw [Bool.and_eq_true, Bool.not_eq_true', ← Bool.not_eq_true, List.contains_iff_mem] at h
  exact ⟨identB_of h.1, h.2⟩

theorem plain_of {x : Bytes} (h : (identB x && luaKeywords.all fun k => !k.isPrefixOf x) = true) : PlainName x := by
  rw [Bool.and_eq_true, List.all_eq_true] at h
  refine ⟨identB_of h.1, fun k hk hp => ?_⟩
  have := h.2 k hk
  rw [List.isPrefixOf_iff_prefix.mpr hp] at this
  cases this

theorem digits_of {x : Bytes} (h : (!x.isEmpty && x.all digitB) = true) : FullNumeral x := by
  rw [Bool.and_eq_true, List.all_eq_true] at h
  exact .inl ⟨x, [], by simp, .inl ⟨by rintro rfl; simp at h, fun b hb => (digitB_iff b).mp (h.2 b hb)⟩, .inl rfl⟩

theorem quoted_of {y : Bytes} (h : (y.all fun b => b != 34 && b != 92 && decide (32 ≤ b)) = true) : PlainString (34 :: (y ++ [34])) := by
  have key : ∀ b ∈ y, b ≠ 34 ∧ b ≠ 92 ∧ 32 ≤ b := by simpa [and_assoc] using h
  refine ⟨⟨34, y, .inl rfl, rfl, ?_⟩, ?_⟩
  · clear h
    induction y with
    | nil => exact .nil
    | cons b y ih =>
      obtain ⟨h1, h2, h3⟩ := key b (by simp)
      exact .plain h1 h2 (by rintro rfl; exact absurd h3 (by decide)) (by rintro rfl; exact absurd h3 (by decide)) (ih fun c hc => key c (by simp [hc]))
  · intro b hb
    simp only [List.mem_cons, List.mem_append, List.not_mem_nil, or_false] at hb
    rcases hb with rfl | hb | rfl
    · decide
    · exact (key b hb).2.2
    · decide

theorem noArgs_of {k : Bytes} {m : List Bytes} (h : k.head?.all (fun b => b != 34 && b != 39 && b != 40 && b != 91 && b != 123) = true) : NoArgs (k :: m) := by
  rintro _ ⟨⟩
  refine ⟨fun e => by subst e; simp at h, fun e => by subst e; simp at h, ?_, fun hl => ?_⟩
  · rintro ⟨⟨q, y, hq, rfl, _⟩, _⟩
    rcases hq with rfl | rfl <;> cases h
  · obtain ⟨y, rfl | rfl⟩ := long_start hl <;> cases h

def tokenB (k : Bytes) : Bool := identB k || luaSymbols.contains k || (!k.isEmpty && k.all digitB) ||
  ((k.head? == some 46 || k.head? == some 58) && identB k.tail && !luaKeywords.contains k.tail) ||
  (k == 34 :: (k.tail.dropLast ++ [34]) && k.tail.dropLast.all fun b => b != 34 && b != 92 && decide (32 ≤ b))

theorem tokenB_of {k : Bytes} (h : tokenB k = true) : LuaToken k := by
  rw [tokenB, Bool.or_eq_true, Bool.or_eq_true, Bool.or_eq_true, Bool.or_eq_true] at h
  rcases h with (((h | h) | h) | h) | h
  · exact .word (identB_of h)
  · exact .sym (List.contains_iff_mem.mp h)
  · exact .num (digits_of h)
  · rw [Bool.and_assoc, Bool.and_eq_true] at h
    have hn := name_of h.2
    cases k with
    | nil => simp at h
    | cons b x =>
      rcases (by simpa using h.1 : b = 46 ∨ b = 58) with rfl | rfl
      · exact .dot hn
      · exact .colon hn
  · rw [Bool.and_eq_true, beq_iff_eq] at h
    rw [h.1]
    exact .str (quoted_of h.2)

/-- Tokens, each with the white space behind it. -/
def spread : List (Bytes × Bytes) → Bytes
  | [] => []
  | (k, w) :: l => k ++ (w ++ spread l)

def spreadB : List (Bytes × Bytes) → Bool
  | [] => true
  | (k, w) :: l => tokenB k && w.all (fun b => b == 32 || b == 9 || b == 10 || b == 13) &&
    (!w.isEmpty || (match spread l with
      | [] => true
      | b :: _ => !joinsB k b)) && spreadB l

theorem spread_layout : ∀ {l : List (Bytes × Bytes)}, spreadB l = true → Layout (l.map Prod.fst) (spread l)
  | [], _ => .nil
  | (k, w) :: l, h => by
    rw [spreadB, Bool.and_eq_true, Bool.and_eq_true, Bool.and_eq_true] at h
    obtain ⟨⟨⟨h1, h2⟩, h3⟩, h4⟩ := h
    refine .cons (tokenB_of h1) (fun b hb => ?_) (fun hw b y e => ?_) (spread_layout h4)
    · have := List.all_eq_true.mp h2 b hb
      simpa [or_assoc] using this
    · subst hw
      rw [e] at h3
      exact apart_of (by simpa using h3)

theorem chunk_of {x : Bytes} (l : List (Bytes × Bytes)) (h : Lua54 .block (l.map Prod.fst)) (hl : spreadB l = true) (hx : spread l = x) : LuaChunk x :=
  ⟨[], l.map Prod.fst, x, rfl, by simp [White], h, hx ▸ spread_layout hl⟩

end Lua

/-- Every text of the phrases of Spec/LuaProg.lean is read to its end, from every state of a scanner in front of it.  Missing: the other chunks, see below. -/
theorem C68_reads_partial (rt : Rt) (s : Scanner) (h w x : Bytes) (ks : List Bytes) (hp : Phrase .block ks) (hw : White w) (hx : Layout ks x) (hb : Between s h (w ++ x)) :
    ∃ n, ReadsOver rt Lua.env n Lua.reader s h (w ++ x) [] :=
  Lua.chunk_over (by simpa using hb) (by simpa using Lua.chunk_gets hp ⟨w, x, rfl, Lua.white_gap hw, Lua.layout_laid hx⟩)

/-- These texts are Lua chunks. -/
theorem C68_lua (w x : Bytes) (ks : List Bytes) (hp : Phrase .block ks) (hw : White w) (hx : Layout ks x) : LuaChunk (w ++ x) := Lua.chunk_54 hp hw hx

/-- The whole call, from the text to the result. -/
theorem C68_new_partial (rt : Rt) (w x : Bytes) (ks : List Bytes) (hp : Phrase .block ks) (hw : White w) (hx : Layout ks x) :
    ∃ n s', read rt Lua.env n Lua.reader (Scanner.new (w ++ x) Heap.empty) = .ret (none, s') ∧ Scanner.atEnd s' = true := by
  obtain ⟨n, s', h1, h2, h3⟩ := C68_reads_partial rt (Scanner.new (w ++ x) Heap.empty) [] w x ks hp hw hx ⟨rfl, rfl⟩
  refine ⟨n, s', h1 n (Nat.le_refl n), ?_⟩
  simp only [Scanner.atEnd, decide_eq_true_eq, h2, h3, List.nil_append, List.append_nil]

/-! ### a program -/

namespace Lua

/-- The program
```
local n = 10
function fact(n)
  if n < 2 then return 1 end
  return n * fact(n - 1)
end
print(fact(n), "done")
t.list[1] = { x = 1, y = -2 }
```
-/
def program : List (Bytes × Bytes) :=
  [(b!"local", b!" "), (b!"n", b!" "), (b!"=", b!" "), (b!"10", b!"\n"),
   (b!"function", b!" "), (b!"fact", b!""), (b!"(", b!""), (b!"n", b!""), (b!")", b!"\n  "),
   (b!"if", b!" "), (b!"n", b!" "), (b!"<", b!" "), (b!"2", b!" "), (b!"then", b!" "), (b!"return", b!" "), (b!"1", b!" "), (b!"end", b!"\n  "),
   (b!"return", b!" "), (b!"n", b!" "), (b!"*", b!" "), (b!"fact", b!""), (b!"(", b!""), (b!"n", b!" "), (b!"-", b!" "), (b!"1", b!""), (b!")", b!"\n"),
   (b!"end", b!"\n"),
   (b!"print", b!""), (b!"(", b!""), (b!"fact", b!""), (b!"(", b!""), (b!"n", b!""), (b!")", b!""), (b!",", b!" "), (b!"\"done\"", b!""), (b!")", b!"\n"),
   (b!"t", b!""), (b!".list", b!""), (b!"[", b!""), (b!"1", b!""), (b!"]", b!" "), (b!"=", b!" "), (b!"{", b!" "), (b!"x", b!" "), (b!"=", b!" "), (b!"1", b!""), (b!",", b!" "),
   (b!"y", b!" "), (b!"=", b!" "), (b!"-", b!""), (b!"2", b!" "), (b!"}", b!"\n")]

theorem program_phrase : Phrase .block (program.map Prod.fst) := by
  have name : ∀ x, (identB x && luaKeywords.all fun k => !k.isPrefixOf x) = true → Phrase .simple [x] := fun x hx => .varExp (.name (plain_of hx) .noGroups) .noCalls
  have num : ∀ x : Bytes, (!x.isEmpty && x.all digitB) = true → Phrase .simple [x] := fun x hx => .num (digits_of hx)
  have n := name b!"n" rfl
  have fact : ∀ e, Phrase .exp e → Phrase .simple (b!"fact" :: (b!"(" :: (e ++ [b!")"]) ++ [])) := fun e he =>
    .varExp (.name (plain_of rfl) .noGroups) (.someCalls (.plainCall (.listArgs (.one he))) .noCalls)
  have s1 : Phrase .stat _ := .localAssign (.one (.plain (x := b!"n") (plain_of rfl))) (.one (.simpleExp (num b!"10" rfl)))
  have cond : Phrase .stat _ := .ifS (.bin n (op := b!"<") (by decide) (.simpleExp (num b!"2" rfl))) (noArgs_of rfl) (.ret .noStats (.one (.simpleExp (num b!"1" rfl))) (noArgs_of rfl)) .noElifs
  have body : Phrase .body _ := .fbody (.row (.one (x := b!"n") (name_of rfl))) (.ret (.someStats cond .noStats) (.one (.bin n (op := b!"*") (by decide)
    (.simpleExp (fact _ (.bin n (op := b!"-") (by decide) (.simpleExp (num b!"1" rfl))))))) (noArgs_of rfl))
  have s2 : Phrase .stat _ := .function (.one (x := b!"fact") (name_of rfl)) body
  have s3 : Phrase .callStat _ := .callS (.name (x := b!"print") (plain_of rfl) .noGroups) (.plainCall (.listArgs (.more (.simpleExp (fact _ (.simpleExp n)))
    (.one (.simpleExp (.str (quoted_of (y := b!"done") rfl))))))) .noCalls
  have s4 : Phrase .stat _ := .assign (.oneVar (.name (x := b!"t") (plain_of rfl) (.someGroups .noCalls (.dot (x := b!"list") (name_of rfl)) (.someGroups .noCalls
    (.bracket (.simpleExp (num b!"1" rfl))) .noGroups)))) (.one (.simpleExp (.tableExp (.someFields (.moreFields (.nameField (x := b!"x") (name_of rfl) (.simpleExp (num b!"1" rfl)))
    (s := b!",") (.inl rfl) (.oneField (.nameField (x := b!"y") (name_of rfl) (.un (op := b!"-") (by decide) (.simpleExp (num b!"2" rfl))))))))))
  exact .noRet (.someStats s1 (.someStats s2 (.callStats s3 (.someStats s4 .noStats))))

theorem program_layout : Layout (program.map Prod.fst) (spread program) := spread_layout (by decide +kernel)

end Lua

/-- The theorem on this program. -/
example (rt : Rt) : ∃ n s', read rt Lua.env n Lua.reader (Scanner.new (b!"\n" ++ Lua.spread Lua.program) Heap.empty) = .ret (none, s') ∧ Scanner.atEnd s' = true :=
  C68_new_partial rt b!"\n" _ _ Lua.program_phrase (by simp [White]) Lua.program_layout

/-! ### chunks that are not read to their end -/

namespace Lua

theorem leaves {rt : Rt} {s : Scanner} {h p x q t : Bytes} (hb : Between s h (p ++ t)) (hs : sym env false [] p.length 300 (.rule iChunk) p = some (some q)) (e : p = x ++ q) :
    ∃ n, ReadsOver rt env n reader s h x (q ++ t) := by
  subst e
  refine chunk_over (by simpa using hb) ?_
  have := Gets.grammar (nm := b!"lua") (Gets.sym_yes (rt := rt) (begins_nothing (p := x ++ q) (t := t)) hs)
  simpa [reader] using this

theorem leaves_end {rt : Rt} {s : Scanner} {h p x q : Bytes} (hb : Between s h p) (hs : sym env true [] p.length 300 (.rule iChunk) p = some (some q)) (e : p = x ++ q) :
    ∃ n, ReadsOver rt env n reader s h x q := by
  subst e
  refine chunk_over (by simpa using hb) ?_
  have := Gets.grammar (nm := b!"lua") (Gets.sym_yes (rt := rt) (fin := true) (nots := []) (p0 := x ++ q) (t := []) ⟨by simp, by simp⟩ hs)
  simpa [reader] using this

theorem var54 (x : Bytes) (h : (identB x && !luaKeywords.contains x) = true) : Lua54 .var [x] := .name (name_of h)
theorem exp54 (x : Bytes) (h : (identB x && !luaKeywords.contains x) = true) : Lua54 .exp [x] := .prefixexp (.varPrefix (var54 x h))
theorem num54 (x : Bytes) (h : (!x.isEmpty && x.all digitB) = true) : Lua54 .exp [x] := .num (full_numeral (digits_of h))
theorem call54 (x : Bytes) (h : (identB x && !luaKeywords.contains x) = true) : Lua54 .functioncall [x, b!"(", b!")"] := .callArgs (.varPrefix (var54 x h)) .noArgs
theorem assign54 {x : Bytes} {e : List Bytes} (h : (identB x && !luaKeywords.contains x) = true) (he : Lua54 .exp e) : Lua54 .stat (x :: b!"=" :: e) :=
  .assign (.oneVar (var54 x h)) (.oneExp he)
theorem one54 {s : List Bytes} (h : Lua54 .stat s) : Lua54 .block s := by simpa using LuaSyn.block (.someStats h .noStats)

end Lua

open Lua

/-- Two values in a table: nothing is read.  (Behind the comma is no skip of white space.) -/
theorem C68_list_violated (rt : Rt) (s : Scanner) (h t : Bytes) (hb : Between s h (b!"x = {1, 2}" ++ t)) :
    LuaChunk b!"x = {1, 2}" ∧ ∃ n, ReadsOver rt Lua.env n Lua.reader s h [] (b!"x = {1, 2}" ++ t) :=
  ⟨chunk_of [(b!"x", b!" "), (b!"=", b!" "), (b!"{", b!""), (b!"1", b!""), (b!",", b!" "), (b!"2", b!""), (b!"}", b!"")]
    (one54 (assign54 rfl (.tableExp (.someFields (.moreFields (.expField (num54 b!"1" rfl)) (s := b!",") (.inl rfl) (.oneField (.expField (num54 b!"2" rfl)))))))) (by decide +kernel) rfl,
   leaves hb (by decide +kernel) rfl⟩

/-- A function with two parameters and a space behind the comma: nothing is read. -/
theorem C68_params_violated (rt : Rt) (s : Scanner) (h t : Bytes) (hb : Between s h (b!"function f(a, b) end" ++ t)) :
    LuaChunk b!"function f(a, b) end" ∧ ∃ n, ReadsOver rt Lua.env n Lua.reader s h [] (b!"function f(a, b) end" ++ t) :=
  ⟨chunk_of [(b!"function", b!" "), (b!"f", b!""), (b!"(", b!""), (b!"a", b!""), (b!",", b!" "), (b!"b", b!""), (b!")", b!" "), (b!"end", b!"")]
    (one54 (.function (.one (x := b!"f") (name_of rfl)) (.funcbody (.names (.cons (x := b!"a") (name_of rfl) (.one (x := b!"b") (name_of rfl)))) (.block .noStats)))) (by decide +kernel) rfl,
   leaves hb (by decide +kernel) rfl⟩

/-- The same for the loop over two names. -/
theorem C68_for_violated (rt : Rt) (s : Scanner) (h t : Bytes) (hb : Between s h (b!"for a, b in c do end" ++ t)) :
    LuaChunk b!"for a, b in c do end" ∧ ∃ n, ReadsOver rt Lua.env n Lua.reader s h [] (b!"for a, b in c do end" ++ t) :=
  ⟨chunk_of [(b!"for", b!" "), (b!"a", b!""), (b!",", b!" "), (b!"b", b!" "), (b!"in", b!" "), (b!"c", b!" "), (b!"do", b!" "), (b!"end", b!"")]
    (one54 (.forEach (.cons (x := b!"a") (name_of rfl) (.one (x := b!"b") (name_of rfl))) (.oneExp (exp54 b!"c" rfl)) (.block .noStats))) (by decide +kernel) rfl,
   leaves hb (by decide +kernel) rfl⟩

/-- `return` without a value in front of `end`: `end` is read as a name. -/
theorem C68_return_violated (rt : Rt) (s : Scanner) (h : Bytes) (hb : Between s h b!"if x then return end") :
    LuaChunk b!"if x then return end" ∧ ∃ n, ReadsOver rt Lua.env n Lua.reader s h [] b!"if x then return end" :=
  ⟨chunk_of [(b!"if", b!" "), (b!"x", b!" "), (b!"then", b!" "), (b!"return", b!" "), (b!"end", b!"")]
    (one54 (.ifS (exp54 b!"x" rfl) (.blockRet .noStats .ret) .noElifs)) (by decide +kernel) rfl,
   leaves_end hb (by decide +kernel) rfl⟩

/-- The result of the integer division is not read: the operator `/` is tried in front of `//`. -/
theorem C68_division_violated (rt : Rt) (s : Scanner) (h t : Bytes) (hb : Between s h (b!"return 7//2" ++ t)) :
    LuaChunk b!"return 7//2" ∧ ∃ n, ReadsOver rt Lua.env n Lua.reader s h b!"return 7" (b!"//2" ++ t) :=
  ⟨chunk_of [(b!"return", b!" "), (b!"7", b!""), (b!"//", b!""), (b!"2", b!"")]
    (.blockRet .noStats (.retExps (.oneExp (.bin (num54 b!"7" rfl) (op := b!"//") (by decide) (num54 b!"2" rfl))))) (by decide +kernel) rfl,
   leaves hb (by decide +kernel) rfl⟩

/-- The same for the shift. -/
theorem C68_shift_violated (rt : Rt) (s : Scanner) (h t : Bytes) (hb : Between s h (b!"x = 1 << 2" ++ t)) :
    LuaChunk b!"x = 1 << 2" ∧ ∃ n, ReadsOver rt Lua.env n Lua.reader s h b!"x = 1 " (b!"<< 2" ++ t) :=
  ⟨chunk_of [(b!"x", b!" "), (b!"=", b!" "), (b!"1", b!" "), (b!"<<", b!" "), (b!"2", b!"")]
    (one54 (assign54 rfl (.bin (num54 b!"1" rfl) (op := b!"<<") (by decide) (num54 b!"2" rfl)))) (by decide +kernel) rfl,
   leaves hb (by decide +kernel) rfl⟩

/-- `return` and a parenthesis: `return` is read as the name of a function. -/
theorem C68_call_violated (rt : Rt) (s : Scanner) (h t : Bytes) (hb : Between s h (b!"return (1)+1" ++ t)) :
    LuaChunk b!"return (1)+1" ∧ ∃ n, ReadsOver rt Lua.env n Lua.reader s h b!"return (1)" (b!"+1" ++ t) :=
  ⟨chunk_of [(b!"return", b!" "), (b!"(", b!""), (b!"1", b!""), (b!")", b!""), (b!"+", b!""), (b!"1", b!"")]
    (.blockRet .noStats (.retExps (.oneExp (.bin (.prefixexp (.paren (num54 b!"1" rfl))) (op := b!"+") (by decide) (num54 b!"1" rfl))))) (by decide +kernel) rfl,
   leaves hb (by decide +kernel) rfl⟩

/-- A statement whose name begins with `or`: read as the operator. -/
theorem C68_word_violated (rt : Rt) (s : Scanner) (h t : Bytes) (hb : Between s h (b!"x = a order = 5" ++ t)) :
    LuaChunk b!"x = a order = 5" ∧ ∃ n, ReadsOver rt Lua.env n Lua.reader s h b!"x = a order " (b!"= 5" ++ t) :=
  ⟨chunk_of [(b!"x", b!" "), (b!"=", b!" "), (b!"a", b!" "), (b!"order", b!" "), (b!"=", b!" "), (b!"5", b!"")]
    (.block (.someStats (assign54 (x := b!"x") rfl (exp54 b!"a" rfl)) (.someStats (assign54 (x := b!"order") rfl (num54 b!"5" rfl)) .noStats))) (by decide +kernel) rfl,
   leaves hb (by decide +kernel) rfl⟩

/-- A semicolon, a space and a call: the call is not read. -/
theorem C68_semicolon_violated (rt : Rt) (s : Scanner) (h : Bytes) (hb : Between s h b!"f(); g()") :
    LuaChunk b!"f(); g()" ∧ ∃ n, ReadsOver rt Lua.env n Lua.reader s h b!"f(); " b!"g()" :=
  ⟨chunk_of [(b!"f", b!""), (b!"(", b!""), (b!")", b!""), (b!";", b!" "), (b!"g", b!""), (b!"(", b!""), (b!")", b!"")]
    (.block (.someStats (.call (call54 b!"f" rfl)) (.someStats .semi (.someStats (.call (call54 b!"g" rfl)) .noStats)))) (by decide +kernel) rfl,
   leaves_end hb (by decide +kernel) rfl⟩

/-- The condition of a `repeat` in parentheses: nothing is read. -/
theorem C68_until_violated (rt : Rt) (s : Scanner) (h : Bytes) (hb : Between s h b!"repeat f() until (x)") :
    LuaChunk b!"repeat f() until (x)" ∧ ∃ n, ReadsOver rt Lua.env n Lua.reader s h [] b!"repeat f() until (x)" :=
  ⟨chunk_of [(b!"repeat", b!" "), (b!"f", b!""), (b!"(", b!""), (b!")", b!" "), (b!"until", b!" "), (b!"(", b!""), (b!"x", b!""), (b!")", b!"")]
    (one54 (.repeatS (one54 (.call (call54 b!"f" rfl))) (.prefixexp (.paren (exp54 b!"x" rfl))))) (by decide +kernel) rfl,
   leaves_end hb (by decide +kernel) rfl⟩

/-- A name that begins with `nil`: the rest of the name is left. -/
theorem C68_nil_violated (rt : Rt) (s : Scanner) (h : Bytes) (hb : Between s h b!"x = nilx") :
    LuaChunk b!"x = nilx" ∧ ∃ n, ReadsOver rt Lua.env n Lua.reader s h b!"x = nil" b!"x" :=
  ⟨chunk_of [(b!"x", b!" "), (b!"=", b!" "), (b!"nilx", b!"")] (one54 (assign54 rfl (exp54 b!"nilx" rfl))) (by decide +kernel) rfl,
   leaves_end hb (by decide +kernel) rfl⟩

/-- The claim as it stands is false. -/
theorem C68_violated (rt : Rt) : ¬ ∀ (s : Scanner) (h x : Bytes), LuaChunk x → Between s h x → ∃ n s', read rt Lua.env n Lua.reader s = .ret (none, s') ∧ Between s' (h ++ x) [] := by
  intro hall
  have hb : Between (Scanner.new b!"x = {1, 2}" Heap.empty) [] (b!"x = {1, 2}" ++ []) := ⟨rfl, rfl⟩
  obtain ⟨h1, n, s', h2, h3⟩ := C68_list_violated rt _ _ _ hb
  obtain ⟨n', s2, h4, h5⟩ := hall _ _ _ h1 hb
  obtain ⟨_, rfl⟩ : (none : Option Err) = none ∧ s2 = s' := by simpa using read_det h4 (h2 n (Nat.le_refl n))
  cases (between_inj h3 h5).2

end Tok
