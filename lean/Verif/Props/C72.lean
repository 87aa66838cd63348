/-
C72 Comments in Lua chunks.
-/
import Verif.Proofs.LuaNote
import Verif.Props.C68

namespace Tok
open Spec

/-- Texts of the phrases of Spec/LuaProg.lean are read to their end, with comments in front of them and behind the tokens of `luaOpener`, from every state of a scanner in front of them.
Missing: comments behind the other tokens, see below. -/
theorem C72_reads_partial (rt : Rt) (s : Scanner) (h w x : Bytes) (ks : List Bytes) (hp : Phrase .block ks) (hw : PlainGap w) (hx : Noted OpenGap ks x) (hb : Between s h (w ++ x)) :
    ∃ n, ReadsOver rt Lua.env n Lua.reader s h (w ++ x) [] :=
  Lua.chunk_over (by simpa using hb) (by simpa using Lua.chunk_gets hp ⟨w, x, rfl, hw, hx⟩)

/-- These texts are Lua chunks with comments. -/
theorem C72_lua (w x : Bytes) (ks : List Bytes) (hp : Phrase .block ks) (hw : PlainGap w) (hx : Noted OpenGap ks x) : LuaSource (w ++ x) := Lua.source_54 hp ⟨w, x, rfl, hw, hx⟩

/-- The whole call, from the text to the result. -/
theorem C72_new_partial (rt : Rt) (w x : Bytes) (ks : List Bytes) (hp : Phrase .block ks) (hw : PlainGap w) (hx : Noted OpenGap ks x) :
    ∃ n s', read rt Lua.env n Lua.reader (Scanner.new (w ++ x) Heap.empty) = .ret (none, s') ∧ Scanner.atEnd s' = true := by
  obtain ⟨n, s', h1, h2, h3⟩ := C72_reads_partial rt (Scanner.new (w ++ x) Heap.empty) [] w x ks hp hw hx ⟨rfl, rfl⟩
  refine ⟨n, s', h1 n (Nat.le_refl n), ?_⟩
  simp only [Scanner.atEnd, decide_eq_true_eq, h2, h3, List.nil_append, List.append_nil]

/-! ### a program -/

namespace Lua

theorem line_gap {g e : Bytes} (cs : List Char) (h : (cs.head? != some '[' && !cs.contains '\n' && !cs.contains '\r') = true) (he : e = [10] ∨ e = [13, 10]) (hg : PlainGap g) :
    PlainGap (b!"--" ++ encText cs ++ (e ++ g)) := by
  simp only [Bool.and_eq_true, Bool.not_eq_true', bne_iff_ne, ← Bool.not_eq_true, List.contains_iff_mem] at h
  refine .line (fun k hk => h.1.1 ?_) h.1.2 h.2 he hg
  obtain ⟨t, rfl⟩ := hk
  simp [luaOpen]

theorem noHalf_of {k : Nat} {cs : List Char}
    (h : ((List.range ((cs ++ luaClose k).length + 1)).all fun i => i == cs.length || !(']' :: List.replicate k '=').isPrefixOf ((cs ++ luaClose k).drop i)) = true) : NoHalf k cs := by
  intro pre post e
  have hl : pre.length < (cs ++ luaClose k).length + 1 := by rw [e]; simp; omega
  have := List.all_eq_true.mp h _ (List.mem_range.mpr hl)
  rw [Bool.or_eq_true, beq_iff_eq, Bool.not_eq_true', ← Bool.not_eq_true, List.isPrefixOf_iff_prefix] at this
  rcases this with hn | hn
  · rw [List.append_assoc] at e
    exact ((List.append_inj e hn.symm).1).symm
  · refine absurd ?_ hn
    rw [e, List.append_assoc, List.drop_left]
    exact ⟨post, rfl⟩

theorem first_of {cs : List Char} (h : ']' ∉ cs) : FirstClose 0 cs := by
  intro pre post e
  have : ∀ (cs pre : List Char), ']' ∉ cs → cs ++ luaClose 0 = pre ++ luaClose 0 ++ post → post = [] := by
    intro cs
    induction cs with
    | nil =>
      intro pre _ e
      have := congrArg List.length e
      simp [luaClose] at this
      exact List.length_eq_zero_iff.mp (by omega)
    | cons c cs ih =>
      intro pre hc e
      cases pre with
      | nil => injection e with e _; simp [e] at hc
      | cons d pre => injection e with _ e; exact ih pre (fun h => hc (by simp [h])) e
  exact this cs pre h e

/-- The program
```
-- greets
if loud then -- twice
  print( --[[ no
  name ]] "hi")
end
return #--[=[]]]=]t
```
-/
def noted : Bytes := b!"if loud then -- twice\n  print( --[[ no\n  name ]] \"hi\")\nend\nreturn #--[=[]]]=]t"

def notedTokens : List Bytes := [b!"if", b!"loud", b!"then", b!"print", b!"(", b!"\"hi\"", b!")", b!"end", b!"return", b!"#", b!"t"]

theorem noted_phrase : Phrase .block notedTokens := by
  have s1 : Phrase .callStat _ := .callS (.name (x := b!"print") (plain_of rfl) .noGroups) (.plainCall (.listArgs (.one (.simpleExp (.str (quoted_of (y := b!"hi") rfl)))))) .noCalls
  have s2 : Phrase .stat _ := .ifS (.simpleExp (.varExp (.name (x := b!"loud") (plain_of rfl) .noGroups) .noCalls)) (noArgs_of rfl) (.noRet (.callStats s1 .noStats)) .noElifs
  exact .ret (.someStats s2 .noStats) (.one (.un (op := b!"#") (by decide) (.simpleExp (.varExp (.name (x := b!"t") (plain_of rfl) .noGroups) .noCalls))))
    (noArgs_of rfl)

theorem noted_cons {N : Bytes → Bytes → Prop} {x z : Bytes} {ks : List Bytes} (k w : Bytes) (hk : tokenB k = true) (hw : N k w) (hj : ((w ++ x).head?.any (joinsB k)) = false) (hx : Noted N ks x)
    (e : k ++ (w ++ x) = z) : Noted N (k :: ks) z := by
  subst e
  refine .cons (tokenB_of hk) hw (fun b y e => apart_of ?_) hx
  rw [e] at hj
  simpa using hj

theorem noted_noted : Noted OpenGap notedTokens noted := by
  have sp : White b!" " := by simp [White]
  have sw : White b!"\n" := by simp [White]
  have n : White [] := by simp [White]
  have c1 : PlainGap b!" -- twice\n  " := .white (by decide) (line_gap (e := [10]) " twice".toList (by decide) (.inl rfl) (.white (by decide) (.white (by decide) .nil)))
  have c2 : PlainGap b!" --[[ no\n  name ]] " := .white (by decide) (.zero (cs := " no\n  name ".toList) (first_of (by decide)) (.white (by decide) .nil))
  have c3 : PlainGap b!"--[=[]]]=]" := .level (k := 1) (cs := "]]".toList) (noHalf_of (by decide)) .nil
  exact noted_cons b!"if" b!" " rfl (.inl sp) (by decide +kernel) (noted_cons b!"loud" b!" " rfl (.inl sp) (by decide +kernel) (noted_cons b!"then" _ rfl (.inr ⟨rfl, c1⟩) (by decide +kernel)
    (noted_cons b!"print" [] rfl (.inl n) (by decide +kernel) (noted_cons b!"(" _ rfl (.inr ⟨rfl, c2⟩) (by decide +kernel) (noted_cons b!"\"hi\"" [] rfl (.inl n) (by decide +kernel)
    (noted_cons b!")" b!"\n" rfl (.inl sw) (by decide +kernel) (noted_cons b!"end" b!"\n" rfl (.inl sw) (by decide +kernel) (noted_cons b!"return" b!" " rfl (.inl sp) (by decide +kernel)
    (noted_cons b!"#" _ rfl (.inr ⟨rfl, c3⟩) (by decide +kernel) (noted_cons b!"t" [] rfl (.inl n) (by decide +kernel) .nil rfl) rfl) rfl) rfl) rfl) rfl) rfl) rfl) rfl) rfl) rfl

end Lua

/-- The theorem on this program. -/
example (rt : Rt) : ∃ n s', read rt Lua.env n Lua.reader (Scanner.new (b!"-- greets\n" ++ Lua.noted) Heap.empty) = .ret (none, s') ∧ Scanner.atEnd s' = true :=
  C72_new_partial rt b!"-- greets\n" _ _ Lua.noted_phrase (Lua.line_gap (g := []) (e := [10]) " greets".toList (by decide) (.inl rfl) .nil) Lua.noted_noted

/-! ### comments behind every token of the list -/

namespace Lua

/-- The program
```
do--
repeat--
if a then--
else--
x[--
1]--
=not--
#--
(--
a)--
.b--
w={--
}--
y:z--
()end until c end
```
-/
def notes : Bytes := b!"do--\nrepeat--\nif a then--\nelse--\nx[--\n1]--\n=not--\n#--\n(--\na)--\n.b--\nw={--\n}--\ny:z--\n()end until c end"

def notesTokens : List Bytes := [b!"do", b!"repeat", b!"if", b!"a", b!"then", b!"else", b!"x", b!"[", b!"1", b!"]", b!"=", b!"not", b!"#", b!"(", b!"a", b!")", b!".b", b!"w", b!"=", b!"{", b!"}", b!"y", b!":z",
  b!"(", b!")", b!"end", b!"until", b!"c", b!"end"]

theorem notes_phrase : Phrase .block notesTokens := by
  have n (x : Bytes) (h : PlainName x) : Phrase .exp [x] := .simpleExp (.varExp (.name (x := x) h .noGroups) .noCalls)
  have c : Phrase .exp [b!"(", b!"a", b!")", b!".b"] := .simpleExp (.parenVar (n b!"a" (plain_of rfl)) .noCalls (.dot (x := b!"b") (name_of rfl)) .noGroups .noCalls)
  have v : Phrase .var [b!"x", b!"[", b!"1", b!"]"] := .name (x := b!"x") (plain_of rfl) (.someGroups .noCalls (.bracket (.simpleExp (.num (digits_of rfl)))) .noGroups)
  have e : Phrase .exp _ := .un (op := b!"not") (by decide) (.un (op := b!"#") (by decide) c)
  have s1 : Phrase .stat _ := .assign (.oneVar v) (.one e)
  have s0 : Phrase .stat _ := .assign (.oneVar (.name (x := b!"w") (plain_of rfl) .noGroups)) (.one (.simpleExp (.tableExp .noFields)))
  have s2 : Phrase .callStat _ := .callS (.name (x := b!"y") (plain_of rfl) .noGroups) (.method (x := b!"z") (name_of rfl) .noArgs) .noCalls
  have s3 : Phrase .stat _ := .ifElse (n b!"a" (plain_of rfl)) (noArgs_of rfl) (.noRet .noStats) .noElifs (.noRet (.someStats s1 (.someStats s0 (.callStats s2 .noStats))))
  have s4 : Phrase .stat _ := .repeatS (.noRet (.someStats s3 .noStats)) (n b!"c" (plain_of rfl)) (noArgs_of rfl)
  exact .noRet (.someStats (.doS (.noRet (.someStats s4 .noStats))) .noStats)

theorem notes_noted : Noted OpenGap notesTokens notes := by
  have g : PlainGap b!"--\n" := line_gap (e := [10]) (g := []) [] (by decide) (.inl rfl) .nil
  have sp : White b!" " := by simp [White]
  have n : White [] := by simp [White]
  have o {x z : Bytes} {ks : List Bytes} (k : Bytes) (hk : tokenB k = true) (ho : luaOpener k = true) (hj : ((b!"--\n" ++ x).head?.any (joinsB k)) = false) (hx : Noted OpenGap ks x)
      (e : k ++ (b!"--\n" ++ x) = z) : Noted OpenGap (k :: ks) z := noted_cons k _ hk (.inr ⟨ho, g⟩) hj hx e
  have p {x z : Bytes} {ks : List Bytes} (k w : Bytes) (hk : tokenB k = true) (hw : w = [] ∨ w = [32]) (hj : ((w ++ x).head?.any (joinsB k)) = false) (hx : Noted OpenGap ks x)
      (e : k ++ (w ++ x) = z) : Noted OpenGap (k :: ks) z := noted_cons k w hk (.inl (by rcases hw with rfl | rfl <;> assumption)) hj hx e
  refine o b!"do" rfl rfl (by decide +kernel) (o b!"repeat" rfl rfl (by decide +kernel) (p b!"if" [32] rfl (.inr rfl) (by decide +kernel)
    (p b!"a" [32] rfl (.inr rfl) (by decide +kernel) (o b!"then" rfl rfl (by decide +kernel)
    (o b!"else" rfl rfl (by decide +kernel) (p b!"x" [] rfl (.inl rfl) (by decide +kernel) (o b!"[" rfl rfl (by decide +kernel) (p b!"1" [] rfl (.inl rfl) (by decide +kernel)
    (o b!"]" rfl rfl (by decide +kernel) (p b!"=" [] rfl (.inl rfl) (by decide +kernel) (o b!"not" rfl rfl (by decide +kernel) (o b!"#" rfl rfl (by decide +kernel)
    (o b!"(" rfl rfl (by decide +kernel) (p b!"a" [] rfl (.inl rfl) (by decide +kernel) (o b!")" rfl rfl (by decide +kernel) (o b!".b" rfl rfl (by decide +kernel)
    (p b!"w" [] rfl (.inl rfl) (by decide +kernel) (p b!"=" [] rfl (.inl rfl) (by decide +kernel)
    (o b!"{" rfl rfl (by decide +kernel) (o b!"}" rfl rfl (by decide +kernel) (p b!"y" [] rfl (.inl rfl) (by decide +kernel) (o b!":z" rfl rfl (by decide +kernel)
    (p b!"(" [] rfl (.inl rfl) (by decide +kernel) (p b!")" [] rfl (.inl rfl) (by decide +kernel) (p b!"end" [32] rfl (.inr rfl) (by decide +kernel)
    (p b!"until" [32] rfl (.inr rfl) (by decide +kernel) (p b!"c" [32] rfl (.inr rfl) (by decide +kernel) (p b!"end" [] rfl (.inl rfl) (by decide +kernel) .nil
    rfl) rfl) rfl) rfl) rfl) rfl) rfl) rfl) rfl) rfl) rfl) rfl) rfl) rfl) rfl) rfl) rfl) rfl) rfl) rfl) rfl) rfl) rfl) rfl) rfl) rfl) rfl) rfl) ?_
  decide +kernel

end Lua

/-- The theorem on this program. -/
example (rt : Rt) : ∃ n s', read rt Lua.env n Lua.reader (Scanner.new Lua.notes Heap.empty) = .ret (none, s') ∧ Scanner.atEnd s' = true :=
  C72_new_partial rt [] _ _ Lua.notes_phrase .nil Lua.notes_noted

/-! ### a program with long strings -/

namespace Lua

/-- The program
```
x = [=[a]]b]=]
f[[y
z]]
```
-/
def longs : Bytes := b!"x = [=[a]]b]=]\nf[[y\nz]]"

def longTokens : List Bytes := [b!"x", b!"=", b!"[=[a]]b]=]", b!"f", b!"[[y\nz]]"]

theorem long_one : PlainLong b!"[=[a]]b]=]" := ⟨1, "a]]b".toList, rfl, .inr (noHalf_of (by decide))⟩
theorem long_two : PlainLong b!"[[y\nz]]" := ⟨0, "y\nz".toList, rfl, .inl ⟨rfl, first_of (by decide)⟩⟩

theorem longs_phrase : Phrase .block longTokens := by
  have s1 : Phrase .stat _ := .assign (.oneVar (.name (x := b!"x") (plain_of rfl) .noGroups)) (.one (.simpleExp (.long long_one)))
  have s2 : Phrase .callStat _ := .callS (.name (x := b!"f") (plain_of rfl) .noGroups) (.plainCall (.longArgs long_two)) .noCalls
  exact .noRet (.someStats s1 (.callStats s2 .noStats))

theorem longs_layout : Layout longTokens longs :=
  .cons (k := b!"x") (w := b!" ") (.word (identB_of rfl)) (by simp [White]) (by simp) (.cons (k := b!"=") (w := b!" ") (.sym (by decide)) (by simp [White]) (by simp)
    (.cons (k := b!"[=[a]]b]=]") (w := b!"\n") (.long (long_lua long_one)) (by simp [White]) (by simp) (.cons (k := b!"f") (w := []) (.word (identB_of rfl)) (by simp [White])
      (fun _ b y e => by cases e; exact apart_of (by decide +kernel)) (.cons (k := b!"[[y\nz]]") (w := []) (x := []) (.long (long_lua long_two)) (by simp [White]) (fun _ b y e => by cases e) .nil))))

end Lua

example (rt : Rt) : ∃ n s', read rt Lua.env n Lua.reader (Scanner.new (b!"\n" ++ Lua.longs) Heap.empty) = .ret (none, s') ∧ Scanner.atEnd s' = true :=
  C68_new_partial rt b!"\n" _ _ Lua.longs_phrase (by simp [White]) Lua.longs_layout

open Lua

theorem Lua.half_eval (rt : Rt) :
    (match eat rt Lua.env 80 Lua.reader ⟨b!"x = [=[]==]=]", fun _ => []⟩ with | .ret (b, st) => (b, st.rest) | _ => (false, [])) = (true, b!"x = [=[]==]=]") := by rfl

/-- A long string with too many equal signs behind a `]`: nothing is read. -/
theorem C68_long_violated (rt : Rt) : LuaChunk b!"x = [=[]==]=]" ∧ ∃ n, ReadsOver rt Lua.env n Lua.reader (Scanner.new b!"x = [=[]==]=]" Heap.empty) [] [] b!"x = [=[]==]=]" := by
  have hl : LuaLong b!"[=[]==]=]" := ⟨1, "]==".toList, rfl, Lua.firstClose_half⟩
  refine ⟨⟨[], [b!"x", b!"=", b!"[=[]==]=]"], _, rfl, by simp [White], one54 (assign54 rfl (.str (.inr hl))), ?_⟩, ?_⟩
  · exact .cons (k := b!"x") (w := b!" ") (.word (identB_of rfl)) (by simp [White]) (by simp) (.cons (k := b!"=") (w := b!" ") (.sym (by decide)) (by simp [White]) (by simp)
      (.cons (k := b!"[=[]==]=]") (w := []) (x := []) (.long hl) (by simp [White]) (fun _ b y e => by cases e) .nil))
  · have h := Lua.half_eval rt
    generalize he : eat rt Lua.env 80 Lua.reader ⟨b!"x = [=[]==]=]", fun _ => []⟩ = e at h
    rcases e with ⟨b, st⟩ | _ | _
    · obtain ⟨rfl, h2⟩ := Prod.mk.inj h
      refine ⟨80, readsOver_of_eat (x := []) (j := st.jan) noWraps (Reader.everyB_sound Reader.noWrap Lua.reader (by decide)) ⟨rfl, rfl⟩ ?_⟩
      obtain ⟨rest, jan⟩ := st
      cases h2
      exact he
    · cases h
    · cases h

/-! ### comments that are not skipped -/

theorem Lua.source_of {x : Bytes} {ks : List Bytes} (h : Lua54 .block ks) (hx : Noted (fun _ => LuaGap) ks x) : LuaSource x := ⟨[], ks, x, rfl, .nil, h, hx⟩

theorem Lua.semi_apart (w : Bytes) (b : UInt8) (y : Bytes) (_ : w = b :: y) : ¬ Joins b!";" b :=
  apart_of (by simpa using bytes_hold (p := fun b => !joinsB b!";" b) (by decide +kernel) b)

/-- Behind a semicolon: only the semicolon, the white space and the comments are read, and the statements behind the comments are left, though they are read with a line break in place of
the comments. -/
theorem C72_semicolon_violated (rt : Rt) (s : Scanner) (h v t x : Bytes) (ks : List Bytes) (hp : Phrase (.stats true) ks) (hv : White v) (hg : PlainGap (b!"--" ++ t)) (hx : Layout ks x)
    (hb : Between s h (b!";" ++ (v ++ (b!"--" ++ t)) ++ x)) :
    LuaSource (b!";" ++ (v ++ (b!"--" ++ t)) ++ x) ∧ (∃ n, ReadsOver rt Lua.env n Lua.reader s h (b!";" ++ (v ++ (b!"--" ++ t))) x) ∧
    ∃ n, ReadsOver rt Lua.env n Lua.reader (Scanner.new (b!";\n" ++ x) Heap.empty) [] (b!";\n" ++ x) [] := by
  have hg' : PlainGap (v ++ (b!"--" ++ t)) := by
    clear hb
    induction v with
    | nil => exact hg
    | cons b v ih => exact .white (hv b (by simp)) (ih fun c hc => hv c (by simp [hc]))
  have hs : Phrase .block (b!";" :: ks) := .noRet (.shortStats (by decide) hp)
  refine ⟨?_, ?_, ?_⟩
  · obtain ⟨ks', h1, h2⟩ := phrase_54 hs
    refine source_of h2 (h1.noted .nil ?_)
    rw [List.append_assoc]
    refine .cons (.sym (by decide)) (plain_gap hg') (semi_apart _) (noted_mono (fun _ _ h => plain_gap (white_gap h)) (layout_noted.mp hx))
  · exact chunk_over hb (by simpa using semi_note hp hv hg' hg (layout_laid hx))
  · exact C68_reads_partial rt _ [] [] (b!";\n" ++ x) (b!";" :: ks) hs (by simp [White]) (.cons (w := b!"\n") (.sym (by decide)) (by simp [White]) (by simp) hx) ⟨rfl, rfl⟩

/-- The case `; -- a` with a statement on the next line. -/
example (rt : Rt) : ∃ n, ReadsOver rt Lua.env n Lua.reader (Scanner.new b!"; -- a\nx = 1" Heap.empty) [] b!"; -- a\n" b!"x = 1" :=
  (C72_semicolon_violated rt _ [] b!" " b!" a\n" b!"x = 1" [b!"x", b!"=", b!"1"]
    (by simpa using Phrase.someStats (.assign (.oneVar (.name (x := b!"x") (plain_of rfl) .noGroups)) (.one (.simpleExp (.num (k := b!"1") (digits_of rfl))))) .noStats)
    (by simp [White]) (line_gap (g := []) (e := [10]) " a".toList (by decide) (.inl rfl) .nil)
    (spread_layout (l := [(b!"x", b!" "), (b!"=", b!" "), (b!"1", b!"")]) (by decide +kernel)) ⟨rfl, rfl⟩).2.1

/-- Behind a number: the comment is read as two minus signs and a name. -/
theorem C72_minus_violated (rt : Rt) (s : Scanner) (h t : Bytes) (hb : Between s h (b!"x = 1 -- a 1\n" ++ t)) :
    LuaSource b!"x = 1 -- a 1\n" ∧ ∃ n, ReadsOver rt Lua.env n Lua.reader s h b!"x = 1 -- a " (b!"1\n" ++ t) := by
  have sp : LuaGap b!" " := .white (by decide) .nil
  have c : LuaGap b!" -- a 1\n" := .white (by decide) (plain_gap (line_gap (g := []) (e := [10]) " a 1".toList (by decide) (.inl rfl) .nil))
  exact ⟨source_of (one54 (assign54 (x := b!"x") rfl (num54 b!"1" rfl))) (noted_cons b!"x" b!" " rfl sp (by decide +kernel) (noted_cons b!"=" b!" " rfl sp (by decide +kernel)
    (noted_cons b!"1" _ rfl c (by decide +kernel) .nil rfl) rfl) rfl), leaves hb (by decide +kernel) rfl⟩

/-- The claim as it stands is false. -/
theorem C72_violated (rt : Rt) : ¬ ∀ (s : Scanner) (h x : Bytes), LuaSource x → Between s h x → ∃ n s', read rt Lua.env n Lua.reader s = .ret (none, s') ∧ Between s' (h ++ x) [] := by
  intro hall
  have hb : Between (Scanner.new b!"x = 1 -- a 1\n" Heap.empty) [] (b!"x = 1 -- a 1\n" ++ []) := ⟨rfl, rfl⟩
  obtain ⟨h1, n, s', h2, h3⟩ := C72_minus_violated rt _ _ _ hb
  obtain ⟨n', s2, h4, h5⟩ := hall _ _ _ h1 hb
  obtain ⟨_, rfl⟩ : (none : Option Err) = none ∧ s2 = s' := by simpa using read_det h4 (h2 n (Nat.le_refl n))
  cases (between_inj h3 h5).2

end Tok
