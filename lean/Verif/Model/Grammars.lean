/-
Model of /repo/grammar/json.go, /repo/grammar/mxt.go and /repo/grammar/lua.go, and
of `SetRuleNames` of /repo/grammar.go.
-/
import Verif.Model.Reader

namespace Tok

/-- grammar.go:28-48 `SetRuleNames` on a struct whose fields of type `Rule` have the
given field names, tags and current rule names; returns the error and the rule
names.  A field after a bad tag keeps its name. -/
def setRuleNames (rt : Rt) (fuel : Nat) : List (Bytes × Bytes × Bytes) → Exec (Option Err × List Bytes)
  | [] => pure (none, [])
  | (field, tag, name) :: rest =>
    if tag == [] then do
      let (e, names) ← setRuleNames rt fuel rest
      pure (e, name :: names)
    else do
      let e ← checkRuleName rt fuel tag
      match e with
      | some e => pure (some (.other (b!"invalid name for " ++ field ++ b!": " ++ e.text)),
          name :: rest.map (·.2.2))
      | none => do
        let (e, names) ← setRuleNames rt fuel rest
        pure (e, tag :: names)

/-- grammar.go:51-56 `MustSetRuleNames`. -/
def mustSetRuleNames (rt : Rt) (fuel : Nat) (fields : List (Bytes × Bytes × Bytes)) : Exec (List Bytes) := do
  let (e, names) ← setRuleNames rt fuel fields
  match e with
  | some _ => .panic
  | none => pure names

/-- A rule of a shipped grammar: name from the field tag, reader as assigned. -/
def mkRule (name : Bytes) (r : Reader) : Rule := ⟨name, some r⟩

/-- `&g.Field` as a reader. -/
abbrev rl (i : Nat) : Arg := .reader (.rule i)
/-- A rune argument. -/
abbrev ru (c : Char) : Arg := .rune (c.toNat : Int)
/-- A reader argument. -/
abbrev rd (r : Reader) : Arg := .reader r

namespace Json

/-! Field numbers of `JSONReader` (grammar/json.go:10-35). -/
def iValue : Nat := 0
def iObject : Nat := 1
def iMembers : Nat := 2
def iMember : Nat := 3
def iKey : Nat := 4
def iArray : Nat := 5
def iElements : Nat := 6
def iElement : Nat := 7
def iString : Nat := 8
def iCharacters : Nat := 9
def iCharacter : Nat := 10
def iEscape : Nat := 11
def iHex : Nat := 12
def iNumber : Nat := 13
def iInteger : Nat := 14
def iFraction : Nat := 15
def iExponent : Nat := 16
def iOneNine : Nat := 17
def iDigit : Nat := 18
def iDigits : Nat := 19
def iSign : Nat := 20
def iBool : Nat := 21
def iNull : Nat := 22
def iWS : Nat := 23

/-- grammar/json.go:57 the reader assigned to `g.String.Reader` and, by value, to
`g.Key.Reader` (line 58). -/
def stringReader : Reader := mkSeq [ru '"', rl iCharacters, ru '"']

/-- grammar/json.go:39-67 `JSON`. -/
def env : Env := [
  mkRule b!"value" (mkAny [rl iObject, rl iArray, rl iString, rl iNumber, rl iBool, rl iNull]),
  mkRule b!"object" (mkSeq [ru '{', rd (mkAny [rl iMembers, rl iWS]), ru '}']),
  mkRule b!"members" (mkSeq [rl iMember, rd (mkZom (rd (mkSeq [ru ',', rl iMember])))]),
  mkRule b!"member" (mkSeq [rl iWS, rl iKey, rl iWS, ru ':', rl iElement]),
  mkRule b!"key" stringReader,
  mkRule b!"array" (mkSeq [ru '[', rd (mkAny [rl iElements, rl iWS]), ru ']']),
  mkRule b!"elements" (mkSeq [rl iElement, rd (mkZom (rd (mkSeq [rd (.rune 44), rl iElement])))]),
  mkRule b!"element" (mkSeq [rl iWS, rl iValue, rl iWS]),
  mkRule b!"string" stringReader,
  mkRule b!"characters" (mkZom (rl iCharacter)),
  mkRule b!"character" (mkAny [rd (.holey 32 maxRune b!"\"\\"), rd (mkSeq [ru '\\', rl iEscape])]),
  mkRule b!"escape" (mkAny [rd (.anyRune b!"\"\\/bfnrt"), rd (mkSeq [ru 'u', rd (.times 4 (.rule iHex))])]),
  mkRule b!"hex" mkHexDigit,
  mkRule b!"number" (mkSeq [rl iInteger, rl iFraction, rl iExponent]),
  mkRule b!"integer" (mkSeq [rd (mkOpt (rd (.rune 45))),
    rd (mkAny [rd (.rune 48), rd (mkSeq [rl iOneNine, rd (mkOpt (rl iDigits))])])]),
  mkRule b!"fraction" (mkOpt (rd (mkSeq [ru '.', rl iDigits]))),
  mkRule b!"exponent" (mkOpt (rd (mkSeq [rd (.anyRune b!"eE"), rl iSign, rl iDigits]))),
  mkRule b!"onenine" (.between 49 57),
  mkRule b!"digit" mkDigit,
  mkRule b!"digits" (mkMany (rd mkDigit)),
  mkRule b!"sign" (mkOpt (rd (.anyRune b!"+-"))),
  mkRule b!"bool" (mkAny [.str b!"true", .str b!"false"]),
  mkRule b!"null" (.lit b!"null"),
  mkRule b!"ws" (mkZom (rd mkWS))
]

/-- grammar/json.go:69-79 the grammar itself as a `Reader`. -/
def reader : Reader := .grammar b!"json" (.rule iElement)

/-- The rule fields of `JSONReader` with their tags, before `SetRuleNames`. -/
def fields : List (Bytes × Bytes × Bytes) := [
  (b!"Value", b!"value", []), (b!"Object", b!"object", []), (b!"Members", b!"members", []),
  (b!"Member", b!"member", []), (b!"Key", b!"key", []), (b!"Array", b!"array", []),
  (b!"Elements", b!"elements", []), (b!"Element", b!"element", []), (b!"String", b!"string", []),
  (b!"Characters", b!"characters", []), (b!"Character", b!"character", []),
  (b!"Escape", b!"escape", []), (b!"Hex", b!"hex", []), (b!"Number", b!"number", []),
  (b!"Integer", b!"integer", []), (b!"Fraction", b!"fraction", []),
  (b!"Exponent", b!"exponent", []), (b!"OneNine", b!"onenine", []), (b!"Digit", b!"digit", []),
  (b!"Digits", b!"digits", []), (b!"Sign", b!"sign", []), (b!"Bool", b!"bool", []),
  (b!"Null", b!"null", []), (b!"WS", b!"ws", [])]

end Json

namespace Mxt

/-! Field numbers of `MXTReader` (grammar/mxt.go:10-25). -/
def iChunks : Nat := 0
def iChunk : Nat := 1
def iHeader : Nat := 2
def iMarker : Nat := 3
def iNextMarker : Nat := 4
def iName : Nat := 5
def iComment : Nat := 6
def iArrow : Nat := 7
def iSalt : Nat := 8
def iEmptyContent : Nat := 9
def iContent : Nat := 10
def iWord : Nat := 11
def iWordChar : Nat := 12
def iNL : Nat := 13

/-- grammar/mxt.go:37 the local variable `arrow`. -/
def arrow : Reader := .bodyTail (mkZom (rl iWordChar)) (.lit b!"-->")

/-- grammar/mxt.go:40 `saltHead`, `saltTail`. -/
def salt : Reader × Reader := mkJanus 0 [] (mkOpt (rl iWord))

/-- grammar/mxt.go:29-49 `MXT`. -/
def env : Env := [
  mkRule b!"chunks" (mkSeq [rl iChunk, rd (mkZom (rd (mkSeq [rl iNL, rl iChunk])))]),
  mkRule b!"chunk" (mkSeq [rl iHeader, rd (mkAny [rl iEmptyContent, rd (mkSeq [rl iNL, rl iContent])])]),
  mkRule b!"header" (mkSeq [rl iMarker, rd (mkMany (ru ' ')), rl iName, rl iComment, rl iArrow,
    rd (mkOpt (rl iSalt))]),
  mkRule b!"marker" (mkSeq [rd (.lit b!"//"), rd (mkZom (rl iWordChar))]),
  mkRule b!"next-marker" (mkSeq [rl iNL, .str b!"//", rd salt.2]),
  mkRule b!"name" (.rule iWord),
  mkRule b!"comment" (mkTo (rd (.named b!"arrow" arrow))),
  mkRule b!"arrow" arrow,
  mkRule b!"salt" (mkSeq [rd (mkMany (ru ' ')), rd salt.1, rd (mkZom (ru ' '))]),
  mkRule b!"empty-content" (mkAny [rd .atEnd, rd (.at_ (.rule iNextMarker))]),
  mkRule b!"content" (mkTo (rd (mkAny [rl iNextMarker, rd .atEnd]))),
  mkRule b!"word" (mkMany (rl iWordChar)),
  mkRule b!"wordchar" (.between 0x21 maxRune),
  mkRule b!"nl" mkNL
]

/-- grammar/mxt.go:51-61. -/
def reader : Reader := .grammar b!"mxt" (.rule iChunks)

/-- The rule fields of `MXTReader` with their tags, before `SetRuleNames`. -/
def fields : List (Bytes × Bytes × Bytes) := [
  (b!"Chunks", b!"chunks", []), (b!"Chunk", b!"chunk", []), (b!"Header", b!"header", []),
  (b!"Marker", b!"marker", []), (b!"NextMarker", b!"next-marker", []), (b!"Name", b!"name", []),
  (b!"Comment", b!"comment", []), (b!"Arrow", b!"arrow", []), (b!"Salt", b!"salt", []),
  (b!"EmptyContent", b!"empty-content", []), (b!"Content", b!"content", []),
  (b!"Word", b!"word", []), (b!"WordChar", b!"wordchar", []), (b!"NL", b!"nl", [])]

end Mxt

namespace Lua

/-! Field numbers of `LuaReader` (grammar/lua.go:52-103). -/
def iSheBang : Nat := 0
def iName : Nat := 1
def iNumeral : Nat := 2
def iLiteralString : Nat := 3
def iComment : Nat := 4
def iUnOp : Nat := 5
def iBinOp : Nat := 6
def iFieldSep : Nat := 7
def iField : Nat := 8
def iFieldList : Nat := 9
def iTableConstructor : Nat := 10
def iFuncParams : Nat := 11
def iFuncBody : Nat := 12
def iFuncDef : Nat := 13
def iFuncArgs : Nat := 14
def iFuncCall : Nat := 15
def iPrefixExp : Nat := 16
def iFinalExp : Nat := 17
def iExp : Nat := 18
def iExpList : Nat := 19
def iNameList : Nat := 20
def iVarSuffix : Nat := 21
def iVar : Nat := 22
def iVarList : Nat := 23
def iFuncName : Nat := 24
def iLabel : Nat := 25
def iRetStat : Nat := 26
def iAttrib : Nat := 27
def iAttNameList : Nat := 28
def iBreak : Nat := 29
def iGoTo : Nat := 30
def iDo : Nat := 31
def iWhile : Nat := 32
def iRepeat : Nat := 33
def iIfElse : Nat := 34
def iFor : Nat := 35
def iForEach : Nat := 36
def iFunc : Nat := 37
def iLocalFunc : Nat := 38
def iLocalAtt : Nat := 39
def iStat : Nat := 40
def iBlock : Nat := 41
def iChunk : Nat := 42
def iScript : Nat := 43

/-- `Many(Digit())`. -/
def digits : Reader := mkMany (rd mkDigit)
/-- `Many(HexDigit())`. -/
def hexDigits : Reader := mkMany (rd mkHexDigit)

/-- grammar/lua.go:10-18 `LuaNumeral`. -/
def numeral : Reader :=
  let hexExponent := mkSeq [rd (.anyRune b!"pP"), rd (mkOpt (rd (.anyRune b!"+-"))), rd digits]
  let hexFloat := mkSeq [ru '0', rd (.anyRune b!"xX"), rd hexDigits,
    rd (mkOpt (rd (mkSeq [ru '.', rd hexDigits]))), rd (mkOpt (rd hexExponent))]
  let exponent := mkSeq [rd (.anyRune b!"eE"), rd (mkOpt (rd (.anyRune b!"+-"))), rd digits]
  let floatValue := mkSeq [rd digits, rd (mkOpt (rd (mkSeq [ru '.', rd digits]))), rd (mkOpt (rd exponent))]
  let intValue := digits
  let hexValue := mkSeq [ru '0', rd (.anyRune b!"xX"), rd hexDigits]
  mkAny [rd hexFloat, rd hexValue, rd floatValue, rd intValue]

/-- grammar/lua.go:21-33 `escapeSequence`. -/
def escapeSequence : Reader :=
  let utfEscape := mkSeq [.str b!"\\u{", rd hexDigits, .str b!"}"]
  let hexEscape := mkSeq [.str b!"\\x", rd (.times 2 mkHexDigit)]
  let decimalEscape := mkAny [
    rd (mkSeq [ru '\\', rd mkDigit]),
    rd (mkSeq [ru '\\', rd (.times 2 mkDigit)]),
    rd (mkSeq [ru '\\', rd (.between 48 50), rd (.times 2 mkDigit)])]
  mkAny [
    rd (mkSeq [ru '\\', rd (.anyRune b!"abfnrtvz\"'\\")]),
    rd decimalEscape, rd hexEscape, rd utfEscape]

/-- grammar/lua.go:34 `normalString`. -/
def normalString : Reader :=
  mkSeq [ru '"', rd (mkZom (rd (mkAny [rd (.holey 32 maxRune b!"\"\\"), rd escapeSequence]))), ru '"']

/-- grammar/lua.go:35 `charString`. -/
def charString : Reader :=
  mkSeq [ru '\'', rd (mkZom (rd (mkAny [rd (.holey 32 maxRune b!"'\\"), rd escapeSequence]))), ru '\'']

/-- grammar/lua.go:36-39 and 45-48: a long bracket opened by `beg`; `id` names the
Janus string. -/
def long (id : Nat) (beg : Arg) : Reader :=
  let j := mkJanus id [] (mkZom (.str b!"="))
  let longBeg := mkSeq [beg, rd j.1, ru '[']
  let longEnd := mkSeq [ru ']', rd j.2, ru ']']
  mkSeq [rd longBeg, rd (mkPast (rd longEnd))]

/-- grammar/lua.go:20-41 `LuaString`. -/
def string : Reader := mkAny [rd normalString, rd charString, rd (long 0 (ru '['))]

/-- grammar/lua.go:43-50 `LuaComment`. -/
def comment : Reader :=
  let line := mkSeq [.str b!"--", rd (mkTo (ru '\n'))]
  mkAny [rd (long 1 (.str b!"--[")), rd line]

/-- grammar/lua.go:123 `skiper`. -/
def skiper : Reader := mkZom (rd (mkAny [rd mkWS, rl iComment]))
/-- grammar/lua.go:124-126 `skipSeq`. -/
def skipSeq (list : List Arg) : Reader := mkSkipSeq skiper list
/-- grammar/lua.go:137 `nameAndArgs`. -/
def nameAndArgs : Reader := skipSeq [rd (mkOpt (rd (mkSeq [ru ':', rl iName]))), rl iFuncArgs]
/-- grammar/lua.go:138 `varOrExp`. -/
def varOrExp : Reader := mkAny [rl iVar, rd (skipSeq [ru '(', rl iExp, ru ')'])]

/-- grammar/lua.go:107-218 `Lua` (in declaration order of the fields). -/
def env : Env := [
  mkRule b!"SheBang" (mkSeq [.str b!"#!", rd (mkTo (rd (mkAny [ru '\r', ru '\n'])))]),
  mkRule b!"Name" (mkSeq [rd (mkSet b!"a-zA-Z" b!"_"), rd (mkZom (rd (mkSet b!"a-zA-Z0-9" b!"_")))]),
  mkRule b!"Numeral" numeral,
  mkRule b!"LiteralString" string,
  mkRule b!"Comment" comment,
  mkRule b!"unop" (mkAny [.str b!"-", .str b!"not", .str b!"#", .str b!"~"]),
  mkRule b!"binop" (mkAny [.str b!"..", .str b!"<=", .str b!"<", .str b!">=", .str b!">", .str b!"==",
    .str b!"~=", .str b!"and", .str b!"or", .str b!"+", .str b!"-", .str b!"*", .str b!"/", .str b!"//",
    .str b!"^", .str b!"%", .str b!"&", .str b!"~", .str b!"|", .str b!">>", .str b!"<<"]),
  mkRule b!"fieldsep" (.anyRune b!",;"),
  mkRule b!"field" (mkAny [
    rd (skipSeq [ru '[', rl iExp, ru ']', ru '=', rl iExp]),
    rd (skipSeq [rl iName, ru '=', rl iExp]),
    rl iExp]),
  mkRule b!"fieldlist" (skipSeq [rl iField, rd (mkZom (rd (mkSeq [rl iFieldSep, rl iField]))),
    rd (mkOpt (rl iFieldSep))]),
  mkRule b!"tableconstructor" (skipSeq [ru '{', rd (mkOpt (rl iFieldList)), ru '}']),
  mkRule b!"funcparams" (mkAny [rd (skipSeq [rl iNameList, rd (mkOpt (rd (skipSeq [ru ',', .str b!"..."])))]),
    .str b!"..."]),
  mkRule b!"funcbody" (skipSeq [ru '(', rd (mkOpt (rl iFuncParams)), ru ')', rl iBlock, .str b!"end"]),
  mkRule b!"funcdef" (mkSkipWSSeq [rd (.lit b!"function"), rl iFuncBody]),
  mkRule b!"funcargs" (mkAny [
    rd (skipSeq [ru '(', rd (mkOpt (rl iExpList)), ru ')']),
    rl iTableConstructor,
    rl iLiteralString]),
  mkRule b!"funccall" (mkSeq [rd varOrExp, rd (mkMany (rd nameAndArgs))]),
  mkRule b!"prefixexp" (mkSeq [rd varOrExp, rd (mkZom (rd nameAndArgs))]),
  mkRule b!"finalexp" (mkAny [
    .str b!"nil", .str b!"false", .str b!"true",
    rd numeral, rl iLiteralString, .str b!"...",
    rl iFuncDef,
    rd (skipSeq [rl iUnOp, rl iExp]),
    rl iTableConstructor,
    rl iPrefixExp]),
  mkRule b!"exp" (mkAny [
    rd (mkSkipWSSeq [rl iFinalExp, rl iBinOp, rl iExp]),
    rl iFinalExp]),
  mkRule b!"explist" (skipSeq [rl iExp, rd (mkZom (rd (skipSeq [ru ',', rl iExp])))]),
  mkRule b!"namelist" (mkSkipWSSeq [rl iName, rd (mkZom (rd (mkSeq [ru ',', rl iName])))]),
  mkRule b!"varsuffix" (skipSeq [rd (mkZom (rd nameAndArgs)), rd (mkAny [
    rd (skipSeq [ru '[', rl iExp, ru ']']),
    rd (mkSeq [ru '.', rl iName])])]),
  mkRule b!"var" (mkSeq [rd (mkAny [
    rl iName,
    rd (skipSeq [ru '(', rl iExp, ru ')', rl iVarSuffix])]), rd (mkZom (rl iVarSuffix))]),
  mkRule b!"varlist" (mkSkipWSSeq [rl iVar, rd (mkZom (rd (mkSkipWSSeq [ru ',', rl iVar])))]),
  mkRule b!"funcname" (mkSkipWSSeq [rl iName, rd (mkZom (rd (mkSkipWSSeq [ru '.', rl iName]))),
    rd (mkOpt (rd (mkSkipWSSeq [ru ':', rl iName])))]),
  mkRule b!"label" (mkSeq [rd (.lit b!"::"), rl iName, rd (.lit b!"::")]),
  mkRule b!"retstat" (mkSkipWSSeq [rd (.lit b!"return"), rd (mkOpt (rl iExpList)), rd (mkOpt (ru ';'))]),
  mkRule b!"attrib" (mkOpt (rd (mkSeq [ru '<', rl iName, ru '>']))),
  mkRule b!"attnamelist" (mkSkipWSSeq [rl iName, rl iAttrib,
    rd (mkZom (rd (mkSkipWSSeq [ru ',', rl iName, rl iAttrib])))]),
  mkRule b!"break" (.lit b!"break"),
  mkRule b!"goto" (mkSkipWSSeq [.str b!"goto", rl iName]),
  mkRule b!"do" (mkSkipWSSeq [.str b!"do", rl iBlock, .str b!"end"]),
  mkRule b!"while" (mkSkipWSSeq [.str b!"while", rl iExp, .str b!"do", rl iBlock, .str b!"end"]),
  mkRule b!"repeat" (mkSkipWSSeq [.str b!"repeat", rl iBlock, .str b!"until", rl iExp]),
  mkRule b!"ifelse" (mkSkipWSSeq [
    .str b!"if", rl iExp, .str b!"then", rl iBlock,
    rd (mkZom (rd (mkSkipWSSeq [.str b!"elseif", rl iExp, .str b!"then", rl iBlock]))),
    rd (mkOpt (rd (mkSkipWSSeq [.str b!"else", rl iBlock]))),
    .str b!"end"]),
  mkRule b!"for" (mkSkipWSSeq [.str b!"for", rl iName, ru '=', rl iExp, ru ',', rl iExp,
    rd (mkOpt (rd (mkSkipWSSeq [ru ',', rl iExp]))), .str b!"do", rl iBlock, .str b!"end"]),
  mkRule b!"foreach" (mkSkipWSSeq [.str b!"for", rl iNameList, .str b!"in", rl iExpList, .str b!"do",
    rl iBlock, .str b!"end"]),
  mkRule b!"func" (mkSkipWSSeq [.str b!"function", rl iFuncName, rl iFuncBody]),
  mkRule b!"localfunc" (mkSkipWSSeq [.str b!"local", .str b!"function", rl iName, rl iFuncBody]),
  mkRule b!"localatt" (mkSkipWSSeq [.str b!"local", rl iAttNameList,
    rd (mkOpt (rd (mkSkipWSSeq [ru '=', rl iExpList])))]),
  mkRule b!"stat" (mkAny [
    ru ';',
    rd (mkSeq [rl iVarList, ru '=', rl iExpList]),
    rl iLabel, rl iBreak, rl iGoTo, rl iDo, rl iWhile, rl iRepeat, rl iIfElse, rl iFor, rl iForEach,
    rl iFunc, rl iLocalFunc, rl iLocalAtt, rl iFuncCall]),
  mkRule b!"block" (skipSeq [rd (mkZom (rl iStat)), rd (mkOpt (rl iRetStat))]),
  mkRule b!"chunk" (.rule iBlock),
  mkRule b!"script" (mkSeq [rd (mkOpt (rl iSheBang)), rl iBlock])
]

/-- grammar/lua.go:220-230. -/
def reader : Reader := .grammar b!"lua" (.rule iChunk)

/-- The rule fields of `LuaReader` with their tags, before `SetRuleNames`. -/
def fields : List (Bytes × Bytes × Bytes) := [
  (b!"SheBang", b!"SheBang", []), (b!"Name", b!"Name", []), (b!"Numeral", b!"Numeral", []),
  (b!"LiteralString", b!"LiteralString", []), (b!"Comment", b!"Comment", []),
  (b!"UnOp", b!"unop", []), (b!"BinOp", b!"binop", []), (b!"FieldSep", b!"fieldsep", []),
  (b!"Field", b!"field", []), (b!"FieldList", b!"fieldlist", []),
  (b!"TableConstructor", b!"tableconstructor", []), (b!"FuncParams", b!"funcparams", []),
  (b!"FuncBody", b!"funcbody", []), (b!"FuncDef", b!"funcdef", []), (b!"FuncArgs", b!"funcargs", []),
  (b!"FuncCall", b!"funccall", []), (b!"PrefixExp", b!"prefixexp", []),
  (b!"FinalExp", b!"finalexp", []), (b!"Exp", b!"exp", []), (b!"ExpList", b!"explist", []),
  (b!"NameList", b!"namelist", []), (b!"VarSuffix", b!"varsuffix", []), (b!"Var", b!"var", []),
  (b!"VarList", b!"varlist", []), (b!"FuncName", b!"funcname", []), (b!"Label", b!"label", []),
  (b!"RetStat", b!"retstat", []), (b!"Attrib", b!"attrib", []),
  (b!"AttNameList", b!"attnamelist", []), (b!"Break", b!"break", []), (b!"GoTo", b!"goto", []),
  (b!"Do", b!"do", []), (b!"While", b!"while", []), (b!"Repeat", b!"repeat", []),
  (b!"IfElse", b!"ifelse", []), (b!"For", b!"for", []), (b!"ForEach", b!"foreach", []),
  (b!"Func", b!"func", []), (b!"LocalFunc", b!"localfunc", []), (b!"LocalAtt", b!"localatt", []),
  (b!"Stat", b!"stat", []), (b!"Block", b!"block", []), (b!"Chunk", b!"chunk", []),
  (b!"Script", b!"script", [])]

end Lua
end Tok
