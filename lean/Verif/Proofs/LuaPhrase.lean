/-
The rules of the Lua grammar on phrases.
-/
import Verif.Proofs.LuaStep

namespace Tok
open Spec

namespace Lua

variable {rt : Rt} {r sk : Reader} {rs : List Reader} {k : Bytes} {ks l l' more : List Bytes} {I M O : List Bytes → Bytes → Prop} {S T : List Cls}

/-! ### lists of tokens -/

theorem StepSkip.tok (hk : Skips rt sk) (h : Step rt Laid Spaced r [k] (l ++ more)) (h' : StepSkip rt sk rs l more) : StepSkip rt sk (r :: rs) (k :: l) more :=
  .cons hk h h'

theorem StepSkip.last (hk : Skips rt sk) (h : Step rt Laid Spaced r l more) : StepSkip rt sk [r] l more := by
  have := StepSkip.cons hk (l' := []) h .nil
  rwa [List.append_nil] at this

theorem StepSkip.of_eq (e : l = ks) (h : StepSkip rt sk rs l more) : StepSkip rt sk rs ks more := e ▸ h

theorem StepSkip.pass (hk : Skips rt sk) (h : Step rt Laid Spaced r [] (l ++ more)) (h' : StepSkip rt sk rs l more) : StepSkip rt sk (r :: rs) l more :=
  .cons hk (l := []) h h'

theorem StepSeq.tok (h : Step rt I M r [k] (l ++ more)) (h' : StepSeq rt M O rs l more) : StepSeq rt I O (r :: rs) (k :: l) more := .cons h h'

theorem StepSeq.last (h : Step rt I O r l more) : StepSeq rt I O [r] l more := by
  have := StepSeq.cons (l' := []) h .nil
  rwa [List.append_nil] at this

theorem StepSeq.pass (h : Step rt I M r [] (l ++ more)) (h' : StepSeq rt M O rs l more) : StepSeq rt I O (r :: rs) l more := .cons (l := []) h h'

theorem FailSkip.tok (hk : Skips rt sk) (h : Step rt Laid Spaced r [k] l) (h' : FailSkip rt sk rs l) : FailSkip rt sk (r :: rs) (k :: l) := .cons hk h h'

theorem FailSkip.pass (hk : Skips rt sk) (h : Step rt Laid Spaced r [] l) (h' : FailSkip rt sk rs l) : FailSkip rt sk (r :: rs) l := .cons hk (l := []) h h'

/-- A token with comments behind it, in a sequence that skips them. -/
theorem StepSkip.otok (h : Step rt Laid Wide r [k] (l ++ more)) (h' : StepSkip rt skiper rs l more) : StepSkip rt skiper (r :: rs) (k :: l) more := fun X hX => by
  obtain ⟨Y, h1, h2, h3⟩ := h X hX
  obtain ⟨Y', s1, s2, s3⟩ := wide_all (rt := rt) h2
  obtain ⟨Z, k1, k2, k3⟩ := h' Y' s2
  exact ⟨Z, .cons h1 s1 k1, k2, by simp only [List.length_cons, List.length_nil] at h3 ⊢; omega⟩

theorem StepSkip.olast (h : Step rt Laid Wide r l more) : StepSkip rt skiper [r] l more := fun X hX => by
  obtain ⟨Y, h1, h2, h3⟩ := h X hX
  obtain ⟨Y', s1, s2, s3⟩ := wide_all (rt := rt) h2
  exact ⟨Y', .cons h1 s1 .nil, s2, by omega⟩

theorem FailSkip.otok (h : Step rt Laid Wide r [k] l) (h' : FailSkip rt skiper rs l) : FailSkip rt skiper (r :: rs) (k :: l) := fun X hX => by
  obtain ⟨Y, h1, h2, h3⟩ := h X hX
  obtain ⟨Y', s1, s2, s3⟩ := wide_all (rt := rt) h2
  exact .cons h1 s1 (h' Y' s2)

/-- A token with comments behind it and something that skips them. -/
theorem StepSkip.block {r' : Reader} (h : Step rt Laid Wide r [k] (l ++ (l' ++ more))) (h' : Step rt Wide Laid r' l (l' ++ more)) (hr : StepSkip rt (.zom mkWS) rs l' more) :
    StepSkip rt (.zom mkWS) (r :: r' :: rs) (k :: (l ++ l')) more := fun X hX => by
  obtain ⟨Y, h1, h2, h3⟩ := h X (by simpa using hX)
  obtain ⟨Y', s1, s2, _, s3⟩ := wide_ws (rt := rt) h2
  obtain ⟨Z, k1, k2, k3⟩ := h' Y' s2
  obtain ⟨Z', t1, t2, t3⟩ := skip_ws (rt := rt) _ Z (.of k2)
  obtain ⟨W, m1, m2, m3⟩ := hr Z' t2
  exact ⟨W, .cons h1 s1 (.cons k1 t1 m1), m2, by simp only [List.length_cons, List.length_nil, List.length_append] at h3 ⊢; omega⟩

theorem Step.skipAll (h : StepSkip rt skiper rs ks more) : Step rt Wide Laid (.skipSeq skiper rs) ks more := fun X hX => by
  obtain ⟨Y, s1, s2, s3⟩ := wide_all (rt := rt) hX
  obtain ⟨Z, k1, k2, k3⟩ := h Y s2
  exact ⟨Z, .skipSeq s1 k1, k2, by omega⟩

theorem Fail.skipAll (h : FailSkip rt skiper rs ks) : Fail rt Wide (.skipSeq skiper rs) ks := fun X hX => by
  obtain ⟨Y, s1, s2, s3⟩ := wide_all (rt := rt) hX
  exact .skipSeq s1 (h Y s2)

theorem FailSeq.tok (h : Step rt I M r [k] l) (h' : FailSeq rt M rs l) : FailSeq rt I (r :: rs) (k :: l) := .cons h h'

theorem Step.zom_tok (h : Step rt I M r [k] (l ++ more)) (h' : Step rt M O (.zom r) l more) : Step rt I O (.zom r) (k :: l) more := .zom_step h h'

theorem Step.loose (h : Step rt Laid O r ks more) (h' : ∀ X, I (ks ++ more) X → Laid (ks ++ more) X) : Step rt I O r ks more := fun X hX => h X (h' X hX)

/-! ### classes -/

theorem Heads.mono (h : Heads S ks) (hs : ∀ c ∈ S, c ∈ T) : Heads T ks :=
  let ⟨c, hc, hk⟩ := h
  ⟨c, hs c hc, hk⟩

theorem Cls.In.append {c : Cls} (h : c.In ks) (hc : c ≠ .eof) : c.In (ks ++ more) := by
  cases c with
  | eof => exact absurd rfl hc
  | word k => obtain ⟨h1, m, rfl⟩ := h; exact ⟨h1, m ++ more, rfl⟩
  | ident => obtain ⟨b, y, m, rfl, h⟩ := h; exact ⟨b, y, m ++ more, rfl, h⟩
  | name => obtain ⟨k, m, rfl, h⟩ := h; exact ⟨k, m ++ more, rfl, h⟩
  | num => obtain ⟨k, m, rfl, h⟩ := h; exact ⟨k, m ++ more, rfl, h⟩
  | str => obtain ⟨k, m, rfl, h⟩ := h; exact ⟨k, m ++ more, rfl, h⟩
  | long => obtain ⟨k, m, rfl, h⟩ := h; exact ⟨k, m ++ more, rfl, h⟩
  | sym k => obtain ⟨h1, m, rfl⟩ := h; exact ⟨h1, m ++ more, rfl⟩
  | begun p => obtain ⟨x, m, rfl⟩ := h; exact ⟨x, m ++ more, rfl⟩

theorem Heads.append (h : Heads S ks) (hS : Cls.eof ∉ S) : Heads S (ks ++ more) :=
  let ⟨c, hc, hk⟩ := h
  ⟨c, hc, hk.append fun e => hS (e ▸ hc)⟩

/-- Nothing, or a list in one of the sets. -/
def First (S : List Cls) (ks : List Bytes) : Prop := ks = [] ∨ Heads S ks

theorem First.then (h : First S ks) (hS : Cls.eof ∉ S) (h' : Heads T more) (hs : S.all (fun c => T.contains c) = true) : Heads T (ks ++ more) := by
  rcases h with rfl | h
  · exact h'
  · exact (h.append hS).sub hs

theorem Heads.of_name {x : Bytes} (h : LuaName x) (hS : S.contains .ident = true) : Heads S (x :: more) := by
  obtain ⟨b, y, rfl, hb, _⟩ := h.1
  exact ⟨.ident, by simpa using hS, b, y, more, rfl, hb⟩

theorem Heads.of_row {x : Bytes} (h : NameRow x) (hS : S.contains .ident = true) : Heads S (x :: more) := by
  obtain ⟨b, y, rfl, hb⟩ := row_start h
  exact ⟨.ident, by simpa using hS, b, y, more, rfl, hb⟩

theorem Heads.of_plain {x : Bytes} (h : PlainName x) (hS : S.contains .name = true) : Heads S (x :: more) := ⟨.name, by simpa using hS, x, more, rfl, h⟩

theorem Heads.of_begun {p x : Bytes} (hS : S.contains (.begun p) = true) : Heads S ((p ++ x) :: more) := ⟨.begun p, by simpa using hS, x, more, rfl⟩

/-! ### white space in front -/

/-- Some white space and then the tokens. -/
def Gapped (ks : List Bytes) (X : Bytes) : Prop := ∃ b w z, X = b :: (w ++ z) ∧ White (b :: w) ∧ Laid ks z

theorem Fail.split (h : Fail rt Laid r ks) (h' : Fail rt Gapped r ks) : Fail rt Spaced r ks := by
  rintro X ⟨w, z, rfl, hw, hz⟩
  cases w with
  | nil => exact h z hz
  | cons b w => exact h' _ ⟨b, w, z, rfl, hw, hz⟩

theorem Fail.gapped (h : Fail rt Spaced r ks) : Fail rt Gapped r ks := by
  rintro X ⟨b, w, z, rfl, hw, hz⟩
  exact h _ ⟨b :: w, z, rfl, hw, hz⟩

theorem Fail.white (hw : noWhite r = true) : Fail rt Gapped r ks := by
  rintro X ⟨b, w, z, rfl, h1, _⟩
  simp only [noWhite, List.all_cons, List.all_nil, Bool.and_true, Bool.and_eq_true] at hw
  rcases h1 b (by simp) with rfl | rfl | rfl | rfl
  · exact fails_gets (p := [32]) (t := w ++ z) hw.1 begins_nothing
  · exact fails_gets (p := [9]) (t := w ++ z) hw.2.1 begins_nothing
  · exact fails_gets (p := [10]) (t := w ++ z) hw.2.2.1 begins_nothing
  · exact fails_gets (p := [13]) (t := w ++ z) hw.2.2.2 begins_nothing

/-- The alternatives that fail at the first token. -/
theorem StepAny.drop {rs' : List Reader} (h : Heads S (ks ++ more)) (hs : rs.all (gaps S) = true) (h' : StepAny rt Spaced O rs' ks more) :
    StepAny rt Spaced O (rs ++ rs') ks more := by
  induction rs with
  | nil => exact h'
  | cons r rs ih =>
    rw [List.all_cons, Bool.and_eq_true] at hs
    exact .next (h.gap hs.1) (ih hs.2)

/-- The same without white space in front. -/
theorem StepAny.drop' {rs' : List Reader} (h : Heads S (ks ++ more)) (hs : (rs.all fun r => S.all fun c => c.no r) = true) (h' : StepAny rt Laid O rs' ks more) :
    StepAny rt Laid O (rs ++ rs') ks more := by
  induction rs with
  | nil => exact h'
  | cons r rs ih =>
    rw [List.all_cons, Bool.and_eq_true] at hs
    exact .next (h.fail hs.1) (ih hs.2)

theorem FailAny.drop {rs' : List Reader} (h : Heads S ks) (hs : rs.all (gaps S) = true) (h' : FailAny rt Spaced rs' ks) : FailAny rt Spaced (rs ++ rs') ks := by
  induction rs with
  | nil => exact h'
  | cons r rs ih =>
    rw [List.all_cons, Bool.and_eq_true] at hs
    exact .next (h.gap hs.1) (ih hs.2)

/-! ### the rules -/

abbrev skipR (rs : List Reader) : Reader := .skipSeq skiper rs
abbrev wsR (rs : List Reader) : Reader := .skipSeq (.zom mkWS) rs
abbrev expR : Reader := .rule iExp
abbrev nameR : Reader := .rule iName
abbrev blockR : Reader := .rule iBlock

def idxR : Reader := .any [skipR [.rune 91, expR, .rune 93], .seq [.rune 46, nameR]]
def suffixR : Reader := skipR [.zom nameAndArgs, idxR]
def commaExp : Reader := skipR [.rune 44, expR]
def commaVar : Reader := wsR [.rune 44, .rule iVar]
def sepField : Reader := .seq [.rule iFieldSep, .rule iField]
def parenSuffix : Reader := skipR [.rune 40, expR, .rune 41, .rule iVarSuffix]
def parenR : Reader := skipR [.rune 40, expR, .rune 41]
def elifR : Reader := wsR [.lit b!"elseif", expR, .lit b!"then", blockR]
def elseR : Reader := wsR [.lit b!"else", blockR]
def commaAtt : Reader := wsR [.rune 44, nameR, .rule iAttrib]
def assignR : Reader := .seq [.rule iVarList, .rune 61, .rule iExpList]

theorem r_names : nameAndArgs = skipR [.opt (.seq [.rune 58, nameR]), .rule iFuncArgs] := rfl
theorem r_varOrExp : varOrExp = .any [.rule iVar, parenR] := rfl
theorem e_unop : env[iUnOp]? = some ⟨b!"unop", some (.any [.lit b!"-", .lit b!"not", .lit b!"#", .lit b!"~"])⟩ := rfl
theorem e_field : env[iField]? = some ⟨b!"field", some (.any [skipR [.rune 91, expR, .rune 93, .rune 61, expR], skipR [nameR, .rune 61, expR], expR])⟩ := rfl
theorem e_fieldlist : env[iFieldList]? = some ⟨b!"fieldlist", some (skipR [.rule iField, .zom sepField, .opt (.rule iFieldSep)])⟩ := rfl
theorem e_table : env[iTableConstructor]? = some ⟨b!"tableconstructor", some (skipR [.rune 123, .opt (.rule iFieldList), .rune 125])⟩ := rfl
theorem e_params : env[iFuncParams]? = some ⟨b!"funcparams", some (.any [skipR [.rule iNameList, .opt (skipR [.rune 44, .lit b!"..."])], .lit b!"..."])⟩ := rfl
theorem e_body : env[iFuncBody]? = some ⟨b!"funcbody", some (skipR [.rune 40, .opt (.rule iFuncParams), .rune 41, blockR, .lit b!"end"])⟩ := rfl
theorem e_funcdef : env[iFuncDef]? = some ⟨b!"funcdef", some (wsR [.lit b!"function", .rule iFuncBody])⟩ := rfl
theorem e_args : env[iFuncArgs]? = some ⟨b!"funcargs", some (.any [skipR [.rune 40, .opt (.rule iExpList), .rune 41], .rule iTableConstructor, .rule iLiteralString])⟩ := rfl
theorem e_call : env[iFuncCall]? = some ⟨b!"funccall", some (.seq [varOrExp, .many nameAndArgs])⟩ := rfl
theorem e_prefix : env[iPrefixExp]? = some ⟨b!"prefixexp", some (.seq [varOrExp, .zom nameAndArgs])⟩ := rfl
theorem e_final : env[iFinalExp]? = some ⟨b!"finalexp", some (.any [.lit b!"nil", .lit b!"false", .lit b!"true", numeral, .rule iLiteralString, .lit b!"...",
    .rule iFuncDef, skipR [.rule iUnOp, expR], .rule iTableConstructor, .rule iPrefixExp])⟩ := rfl
theorem e_exp : env[iExp]? = some ⟨b!"exp", some (.any [wsR [.rule iFinalExp, .rule iBinOp, expR], .rule iFinalExp])⟩ := rfl
theorem e_explist : env[iExpList]? = some ⟨b!"explist", some (skipR [expR, .zom commaExp])⟩ := rfl
theorem e_namelist : env[iNameList]? = some ⟨b!"namelist", some (wsR [nameR, .zom (.seq [.rune 44, nameR])])⟩ := rfl
theorem e_suffix : env[iVarSuffix]? = some ⟨b!"varsuffix", some suffixR⟩ := rfl
theorem e_var : env[iVar]? = some ⟨b!"var", some (.seq [.any [nameR, parenSuffix], .zom (.rule iVarSuffix)])⟩ := rfl
theorem e_varlist : env[iVarList]? = some ⟨b!"varlist", some (wsR [.rule iVar, .zom commaVar])⟩ := rfl
theorem e_funcname : env[iFuncName]? = some ⟨b!"funcname", some (wsR [nameR, .zom (wsR [.rune 46, nameR]), .opt (wsR [.rune 58, nameR])])⟩ := rfl
theorem e_label : env[iLabel]? = some ⟨b!"label", some (.seq [.lit b!"::", nameR, .lit b!"::"])⟩ := rfl
theorem e_ret : env[iRetStat]? = some ⟨b!"retstat", some (wsR [.lit b!"return", .opt (.rule iExpList), .opt (.rune 59)])⟩ := rfl
theorem e_attrib : env[iAttrib]? = some ⟨b!"attrib", some (.opt (.seq [.rune 60, nameR, .rune 62]))⟩ := rfl
theorem e_attnames : env[iAttNameList]? = some ⟨b!"attnamelist", some (wsR [nameR, .rule iAttrib, .zom commaAtt])⟩ := rfl
theorem e_break : env[iBreak]? = some ⟨b!"break", some (.lit b!"break")⟩ := rfl
theorem e_goto : env[iGoTo]? = some ⟨b!"goto", some (wsR [.lit b!"goto", nameR])⟩ := rfl
theorem e_do : env[iDo]? = some ⟨b!"do", some (wsR [.lit b!"do", blockR, .lit b!"end"])⟩ := rfl
theorem e_while : env[iWhile]? = some ⟨b!"while", some (wsR [.lit b!"while", expR, .lit b!"do", blockR, .lit b!"end"])⟩ := rfl
theorem e_repeat : env[iRepeat]? = some ⟨b!"repeat", some (wsR [.lit b!"repeat", blockR, .lit b!"until", expR])⟩ := rfl
theorem e_if : env[iIfElse]? = some ⟨b!"ifelse", some (wsR [.lit b!"if", expR, .lit b!"then", blockR, .zom elifR, .opt elseR, .lit b!"end"])⟩ := rfl
theorem e_for : env[iFor]? = some ⟨b!"for", some (wsR [.lit b!"for", nameR, .rune 61, expR, .rune 44, expR, .opt (wsR [.rune 44, expR]), .lit b!"do", blockR, .lit b!"end"])⟩ := rfl
theorem e_foreach : env[iForEach]? = some ⟨b!"foreach", some (wsR [.lit b!"for", .rule iNameList, .lit b!"in", .rule iExpList, .lit b!"do", blockR, .lit b!"end"])⟩ := rfl
theorem e_func : env[iFunc]? = some ⟨b!"func", some (wsR [.lit b!"function", .rule iFuncName, .rule iFuncBody])⟩ := rfl
theorem e_localfunc : env[iLocalFunc]? = some ⟨b!"localfunc", some (wsR [.lit b!"local", .lit b!"function", nameR, .rule iFuncBody])⟩ := rfl
theorem e_local : env[iLocalAtt]? = some ⟨b!"localatt", some (wsR [.lit b!"local", .rule iAttNameList, .opt (wsR [.rune 61, .rule iExpList])])⟩ := rfl
theorem e_stat : env[iStat]? = some ⟨b!"stat", some (.any [.rune 59, assignR, .rule iLabel, .rule iBreak, .rule iGoTo, .rule iDo, .rule iWhile, .rule iRepeat, .rule iIfElse,
    .rule iFor, .rule iForEach, .rule iFunc, .rule iLocalFunc, .rule iLocalAtt, .rule iFuncCall])⟩ := rfl
theorem e_block : env[iBlock]? = some ⟨b!"block", some (skipR [.zom (.rule iStat), .opt (.rule iRetStat)])⟩ := rfl
theorem e_chunk : env[iChunk]? = some ⟨b!"chunk", some blockR⟩ := rfl

/-! ### what may come behind a phrase -/

/-- What comes behind a statement. -/
def afterStat : List Cls := [.eof, .name, .begun b!"::", .sym b!";", .word b!"break", .word b!"goto", .word b!"do", .word b!"while", .word b!"repeat", .word b!"if",
  .word b!"for", .word b!"function", .word b!"local", .word b!"return", .word b!"end", .word b!"until", .word b!"elseif", .word b!"else"]

/-- What comes behind a list of expressions. -/
def afterExps : List Cls := .sym b!")" :: afterStat

/-- What comes behind an expression. -/
def afterExp : List Cls := .sym b!"]" :: .sym b!"}" :: .sym b!"," :: .word b!"then" :: afterExps

/-- What comes behind an expression without operators. -/
def afterSimple : List Cls := .word b!"and" :: .word b!"or" :: ((plainBinOps.filter luaSymbols.contains).map .sym ++ afterExp)

/-- What comes behind a variable and its calls. -/
def afterVar : List Cls := .sym b!"=" :: afterSimple

/-- First tokens of expressions but parentheses, braces and strings. -/
def someExp : List Cls := [.name, .num, .word b!"nil", .word b!"true", .word b!"false", .word b!"not", .sym b!"-", .sym b!"#", .sym b!"~", .sym b!"..."]

def expHeads : List Cls := .sym b!"(" :: .sym b!"{" :: .str :: .long :: someExp

def expsHeads : List Cls := .word b!"function" :: expHeads

/-- What comes behind a reserved word that is read as a name. -/
def afterWord : List Cls := .ident :: .sym b!")" :: (someExp ++ afterStat)

def statHeads : List Cls := [.name, .begun b!"::", .sym b!";", .word b!"break", .word b!"goto", .word b!"do", .word b!"while", .word b!"repeat", .word b!"if", .word b!"for",
  .word b!"function", .word b!"local"]

def blockHeads : List Cls := .word b!"return" :: statHeads

def blockEnds : List Cls := [.eof, .word b!"end", .word b!"until", .word b!"elseif", .word b!"else"]

def idxHeads : List Cls := [.sym b!"[", .begun b!"."]
def argHeads : List Cls := [.sym b!"(", .sym b!"{", .str, .long]
def callHeads : List Cls := .begun b!":" :: argHeads

theorem NoArgs.heads (h : NoArgs ks) (h' : Heads expsHeads ks) : Heads (.word b!"function" :: someExp) ks := by
  obtain ⟨c, hc, hk⟩ := h'
  simp only [expsHeads, expHeads, List.mem_cons] at hc
  rcases hc with rfl | rfl | rfl | rfl | rfl | hc
  · exact ⟨_, by simp, hk⟩
  · obtain ⟨_, m, rfl⟩ := hk
    exact absurd rfl (h b!"(" rfl).1
  · obtain ⟨_, m, rfl⟩ := hk
    exact absurd rfl (h b!"{" rfl).2.1
  · obtain ⟨k, m, rfl, hs⟩ := hk
    exact absurd hs (h k rfl).2.2.1
  · obtain ⟨k, m, rfl, hs⟩ := hk
    exact absurd hs (h k rfl).2.2.2
  · exact ⟨c, by simp only [List.mem_cons]; exact .inr (by simpa [someExp] using hc), hk⟩

/-! ### indices and calls -/

/-- Neither an index nor a call. -/
structure Ends (rt : Rt) (more : List Bytes) : Prop where
  wide : Fail rt Wide nameAndArgs more
  idx : Fail rt Laid idxR more

theorem Ends.call (h : Ends rt more) : Fail rt Spaced nameAndArgs more := h.wide.narrow

theorem call_fail (h : Fail rt Laid (.seq [.rune 58, nameR]) more) (h' : Fail rt Laid (.rule iFuncArgs) more) : Fail rt Wide nameAndArgs more := by
  rw [r_names]
  exact .skipAll (.pass skip_all (Step.opt_none h).weak (.stop h'))

theorem Heads.noCall (h : Heads S more) (hS : (S.all fun c => c.no (.seq [.rune 58, nameR]) && c.no (.rule iFuncArgs)) = true) : Fail rt Wide nameAndArgs more := by
  rw [List.all_eq_true] at hS
  refine call_fail (h.fail (List.all_eq_true.mpr fun c hc => ?_)) (h.fail (List.all_eq_true.mpr fun c hc => ?_))
  · have := hS c hc
    rw [Bool.and_eq_true] at this
    exact this.1
  · have := hS c hc
    rw [Bool.and_eq_true] at this
    exact this.2

theorem ends_var (h : Heads afterVar more) : Ends rt more := ⟨h.noCall (by decide +kernel), h.fail (by decide +kernel)⟩

theorem ends_word (h : Heads afterWord more) : Ends rt more := ⟨h.noCall (by decide +kernel), h.fail (by decide +kernel)⟩

end Lua
end Tok
