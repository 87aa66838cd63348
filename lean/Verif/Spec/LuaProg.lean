/-
Programs of Lua 5.4 (manual, section 3 and 9) as lists of tokens, and texts of programs: the tokens one after the other with white space between
them.  The phrases are those of the manual with some restrictions, which are said at each of them.
-/
import Verif.Spec.LuaLex
import Verif.Spec.Lua

namespace Tok.Spec

/-! ### tokens and texts -/

/-- Operators and punctuation. -/
def luaSymbols : List Bytes :=
  [b!"+", b!"-", b!"*", b!"/", b!"%", b!"^", b!"#", b!"&", b!"~", b!"|", b!"<<", b!">>", b!"//", b!"==", b!"~=", b!"<=", b!">=", b!"<", b!">",
   b!"=", b!"(", b!")", b!"{", b!"}", b!"[", b!"]", b!"::", b!";", b!":", b!",", b!".", b!"..", b!"..."]

/-- Names with commas between them and nothing else. -/
inductive NameRow : Bytes → Prop
  | one {x : Bytes} : LuaName x → NameRow x
  | cons {x y : Bytes} : LuaName x → NameRow y → NameRow (x ++ 44 :: y)

/-- A short literal string without control characters. -/
def PlainString (x : Bytes) : Prop := LuaShort x ∧ ∀ b ∈ x, 32 ≤ b

/-- A long literal string of any level, given as text in UTF-8; the closing bracket is the first one of the level. -/
def LuaLong (x : Bytes) : Prop := ∃ k cs, x = encText (luaOpen k ++ cs ++ luaClose k) ∧ FirstClose k cs

/-- A long literal string that the package takes for what it is (C53): at level 1 or more is no `]` with too many equal signs in it. -/
def PlainLong (x : Bytes) : Prop := ∃ k cs, x = encText (luaOpen k ++ cs ++ luaClose k) ∧ (k = 0 ∧ FirstClose 0 cs ∨ NoHalf k cs)

/-- Tokens.  Some phrases without white space between their tokens count as one token here: names with commas between them, a name with a dot or a colon in
front of it, a label and an attribute. -/
inductive LuaToken : Bytes → Prop
  | word {x : Bytes} : LuaIdent x → LuaToken x
  | row {x : Bytes} : NameRow x → LuaToken x
  | dot {x : Bytes} : LuaName x → LuaToken (46 :: x)
  | colon {x : Bytes} : LuaName x → LuaToken (58 :: x)
  | label {x : Bytes} : LuaName x → LuaToken (58 :: 58 :: (x ++ [58, 58]))
  | attrib {x : Bytes} : LuaName x → LuaToken (60 :: (x ++ [62]))
  | num {x : Bytes} : FullNumeral x → LuaToken x
  | str {x : Bytes} : PlainString x → LuaToken x
  | long {x : Bytes} : LuaLong x → LuaToken x
  | sym {x : Bytes} : x ∈ luaSymbols → LuaToken x

/-- White space. -/
def White (w : Bytes) : Prop := ∀ b ∈ w, b = 32 ∨ b = 9 ∨ b = 10 ∨ b = 13

/-- The token `k` with the byte `b` behind it is not, or may not be, this token: a longer name or numeral, a longer operator, a comment, the beginning of a
long string; and `>=` or `>>` behind an attribute. -/
def Joins (k : Bytes) (b : UInt8) : Prop :=
  ((∃ a ∈ k.getLast?, NameStart a ∨ DecDigit a) ∧ (NameStart b ∨ DecDigit b)) ∨
  ((∃ a ∈ k.head?, DecDigit a) ∧ b = 46) ∨
  (∃ y ∈ b!"--" :: b!"[[" :: b!"[=" :: luaSymbols, k ++ [b] <+: y) ∨
  (∃ x, k = 60 :: (x ++ [62])) ∧ (b = 61 ∨ b = 62)

/-- The text is made of these tokens, each with some white space behind it, and none where two tokens would not stay apart. -/
inductive Layout : List Bytes → Bytes → Prop
  | nil : Layout [] []
  | cons {k w x : Bytes} {ks : List Bytes} : LuaToken k → White w → (w = [] → ∀ b y, x = b :: y → ¬ Joins k b) → Layout ks x →
    Layout (k :: ks) (k ++ (w ++ x))

/-! ### phrases -/

/-- A name that does not begin with a reserved word. -/
def PlainName (x : Bytes) : Prop := LuaIdent x ∧ ∀ k ∈ luaKeywords, ¬ k <+: x

/-- The binary operators but `//`, `>>` and `<<`. -/
def plainBinOps : List Bytes :=
  [b!"..", b!"<=", b!"<", b!">=", b!">", b!"==", b!"~=", b!"and", b!"or", b!"+", b!"-", b!"*", b!"/", b!"^", b!"%", b!"&", b!"~", b!"|"]

/-- The list does not begin with a parenthesis, a brace or a string: at these a reserved word in front of them would be taken for the name of a function. -/
def NoArgs (ks : List Bytes) : Prop := ∀ k ∈ ks.head?, k ≠ b!"(" ∧ k ≠ b!"{" ∧ ¬ PlainString k ∧ ¬ LuaLong k

/-- The parameters of a function: more than one name only without white space between them. -/
inductive Params : List Bytes → Prop
  | none : Params []
  | row {x : Bytes} : NameRow x → Params [x]
  | rowDots {x : Bytes} : NameRow x → Params [x, b!",", b!"..."]
  | dots : Params [b!"..."]

/-- The name of a function. -/
inductive FuncNames : List Bytes → Prop
  | one {x : Bytes} : LuaName x → FuncNames [x]
  | dot {x : Bytes} {ks : List Bytes} : LuaName x → FuncNames ks → FuncNames (x :: b!"." :: ks)

/-- A local variable with or without an attribute. -/
inductive Local : List Bytes → Prop
  | plain {x : Bytes} : PlainName x → Local [x]
  | attrib {x a : Bytes} : PlainName x → LuaName a → Local [x, 60 :: (a ++ [62])]

/-- The names of a declaration of local variables. -/
inductive Locals : List Bytes → Prop
  | one {x : List Bytes} : Local x → Locals x
  | cons {x ks : List Bytes} : Local x → Locals ks → Locals (x ++ b!"," :: ks)

/-- The kinds of phrases. -/
inductive Cat where
  | simple | exp | exps | index | args | call | calls | groups | table | field | fields | body | var | vars
  | stat | callStat | elifs | stats (spaced : Bool) | block
  deriving DecidableEq

open Cat in
/-- The phrases of a kind. -/
inductive Phrase : Cat → List Bytes → Prop
  /- expressions without an operator outside of parentheses -/
  | const {k : Bytes} : k ∈ [b!"nil", b!"true", b!"false", b!"..."] → Phrase simple [k]
  | num {k : Bytes} : FullNumeral k → Phrase simple [k]
  | str {k : Bytes} : PlainString k → Phrase simple [k]
  | long {k : Bytes} : PlainLong k → Phrase simple [k]
  | tableExp {t : List Bytes} : Phrase table t → Phrase simple t
  | varExp {v c : List Bytes} : Phrase var v → Phrase calls c → Phrase simple (v ++ c)
  | paren {e c : List Bytes} : Phrase exp e → Phrase calls c → Phrase simple (b!"(" :: (e ++ b!")" :: c))
  | parenVar {e c i g d : List Bytes} : Phrase exp e → Phrase calls c → Phrase index i → Phrase groups g → Phrase calls d →
      Phrase simple (b!"(" :: (e ++ b!")" :: (c ++ (i ++ (g ++ d)))))
  /- expressions -/
  | simpleExp {e : List Bytes} : Phrase simple e → Phrase exp e
  | bin {a b : List Bytes} {op : Bytes} : Phrase simple a → op ∈ plainBinOps → Phrase exp b → Phrase exp (a ++ op :: b)
  | un {e : List Bytes} {op : Bytes} : op ∈ [b!"-", b!"not", b!"#", b!"~"] → Phrase exp e → Phrase exp (op :: e)
  /- lists of expressions; a function only at the end -/
  | one {e : List Bytes} : Phrase exp e → Phrase exps e
  | func {b : List Bytes} : Phrase body b → Phrase exps (b!"function" :: b)
  | more {e es : List Bytes} : Phrase exp e → Phrase exps es → Phrase exps (e ++ b!"," :: es)
  /- what follows a name: indices and calls; `groups` are calls and an index, repeated -/
  | bracket {e : List Bytes} : Phrase exp e → Phrase index (b!"[" :: (e ++ [b!"]"]))
  | dot {x : Bytes} : LuaName x → Phrase index [46 :: x]
  | noArgs : Phrase args [b!"(", b!")"]
  | listArgs {es : List Bytes} : Phrase exps es → Phrase args (b!"(" :: (es ++ [b!")"]))
  | tableArgs {t : List Bytes} : Phrase table t → Phrase args t
  | strArgs {k : Bytes} : PlainString k → Phrase args [k]
  | longArgs {k : Bytes} : PlainLong k → Phrase args [k]
  | plainCall {a : List Bytes} : Phrase args a → Phrase call a
  | method {a : List Bytes} {x : Bytes} : LuaName x → Phrase args a → Phrase call ((58 :: x) :: a)
  | noCalls : Phrase calls []
  | someCalls {c cs : List Bytes} : Phrase call c → Phrase calls cs → Phrase calls (c ++ cs)
  | noGroups : Phrase groups []
  | someGroups {c i g : List Bytes} : Phrase calls c → Phrase index i → Phrase groups g → Phrase groups (c ++ (i ++ g))
  | name {x : Bytes} {g : List Bytes} : PlainName x → Phrase groups g → Phrase var (x :: g)
  | oneVar {v : List Bytes} : Phrase var v → Phrase vars v
  | moreVars {v vs : List Bytes} : Phrase var v → Phrase vars vs → Phrase vars (v ++ b!"," :: vs)
  /- tables; every field has a key -/
  | noFields : Phrase table [b!"{", b!"}"]
  | someFields {f : List Bytes} : Phrase fields f → Phrase table (b!"{" :: (f ++ [b!"}"]))
  | someFieldsSep {f : List Bytes} {s : Bytes} : Phrase fields f → s = b!"," ∨ s = b!";" → Phrase table (b!"{" :: (f ++ [s, b!"}"]))
  | oneField {f : List Bytes} : Phrase field f → Phrase fields f
  | moreFields {f fs : List Bytes} {s : Bytes} : Phrase field f → s = b!"," ∨ s = b!";" → Phrase fields fs → Phrase fields (f ++ s :: fs)
  | keyField {a b : List Bytes} : Phrase exp a → Phrase exp b → Phrase field (b!"[" :: (a ++ b!"]" :: b!"=" :: b))
  | nameField {x : Bytes} {e : List Bytes} : LuaName x → Phrase exp e → Phrase field (x :: b!"=" :: e)
  /- statements -/
  | fbody {p b : List Bytes} : Params p → Phrase block b → Phrase body (b!"(" :: (p ++ b!")" :: (b ++ [b!"end"])))
  | assign {v es : List Bytes} : Phrase vars v → Phrase exps es → Phrase stat (v ++ b!"=" :: es)
  | callS {v c cs : List Bytes} : Phrase var v → Phrase call c → Phrase calls cs → Phrase callStat (v ++ (c ++ cs))
  | goto {x : Bytes} : LuaName x → Phrase stat [b!"goto", x]
  | doS {b : List Bytes} : Phrase block b → Phrase stat (b!"do" :: (b ++ [b!"end"]))
  | whileS {e b : List Bytes} : Phrase exp e → NoArgs e → Phrase block b → Phrase stat (b!"while" :: (e ++ b!"do" :: (b ++ [b!"end"])))
  | repeatS {e b : List Bytes} : Phrase block b → Phrase exp e → NoArgs e → Phrase stat (b!"repeat" :: (b ++ b!"until" :: e))
  | ifS {e b l : List Bytes} : Phrase exp e → NoArgs e → Phrase block b → Phrase elifs l →
      Phrase stat (b!"if" :: (e ++ b!"then" :: (b ++ (l ++ [b!"end"]))))
  | ifElse {e b l d : List Bytes} : Phrase exp e → NoArgs e → Phrase block b → Phrase elifs l → Phrase block d →
      Phrase stat (b!"if" :: (e ++ b!"then" :: (b ++ (l ++ b!"else" :: (d ++ [b!"end"])))))
  | noElifs : Phrase elifs []
  | someElifs {e b l : List Bytes} : Phrase exp e → NoArgs e → Phrase block b → Phrase elifs l → Phrase elifs (b!"elseif" :: (e ++ b!"then" :: (b ++ l)))
  | forS {x : Bytes} {a e b : List Bytes} : LuaName x → Phrase exp a → Phrase exp e → Phrase block b →
      Phrase stat (b!"for" :: x :: b!"=" :: (a ++ b!"," :: (e ++ b!"do" :: (b ++ [b!"end"]))))
  | forStep {x : Bytes} {a e s b : List Bytes} : LuaName x → Phrase exp a → Phrase exp e → Phrase exp s → Phrase block b →
      Phrase stat (b!"for" :: x :: b!"=" :: (a ++ b!"," :: (e ++ b!"," :: (s ++ b!"do" :: (b ++ [b!"end"])))))
  | forEach {x : Bytes} {es b : List Bytes} : NameRow x → Phrase exps es → Phrase block b →
      Phrase stat (b!"for" :: x :: b!"in" :: (es ++ b!"do" :: (b ++ [b!"end"])))
  | function {n b : List Bytes} : FuncNames n → Phrase body b → Phrase stat (b!"function" :: (n ++ b))
  | functionMethod {n b : List Bytes} {x : Bytes} : FuncNames n → LuaName x → Phrase body b → Phrase stat (b!"function" :: (n ++ b!":" :: x :: b))
  | localFunction {b : List Bytes} {x : Bytes} : LuaName x → Phrase body b → Phrase stat (b!"local" :: b!"function" :: x :: b)
  | localS {n : List Bytes} : Locals n → Phrase stat (b!"local" :: n)
  | localAssign {n es : List Bytes} : Locals n → Phrase exps es → Phrase stat (b!"local" :: (n ++ b!"=" :: es))
  /- blocks; behind a semicolon, `break` and a label comes no call and none of these three -/
  | noStats : Phrase (stats true) []
  | someStats {p : Bool} {s ss : List Bytes} : Phrase stat s → Phrase (stats p) ss → Phrase (stats true) (s ++ ss)
  | callStats {p : Bool} {s ss : List Bytes} : Phrase callStat s → Phrase (stats p) ss → Phrase (stats false) (s ++ ss)
  | shortStats {k : Bytes} {ss : List Bytes} : k ∈ [b!";", b!"break"] → Phrase (stats true) ss → Phrase (stats false) (k :: ss)
  | labelStats {x : Bytes} {ss : List Bytes} : LuaName x → Phrase (stats true) ss → Phrase (stats false) ((58 :: 58 :: (x ++ [58, 58])) :: ss)
  | noRet {p : Bool} {ss : List Bytes} : Phrase (stats p) ss → Phrase block ss
  | ret {p : Bool} {ss es : List Bytes} : Phrase (stats p) ss → Phrase exps es → NoArgs es → Phrase block (ss ++ b!"return" :: es)
  | retSemi {p : Bool} {ss es : List Bytes} : Phrase (stats p) ss → Phrase exps es → NoArgs es → Phrase block (ss ++ b!"return" :: (es ++ [b!";"]))
  | retNothing {p : Bool} {ss : List Bytes} : Phrase (stats p) ss → Phrase block (ss ++ [b!"return", b!";"])

end Tok.Spec
