/-
The syntax of Lua 5.4 (manual, section 9), production by production, on lists of tokens, for given names `N` and literal strings `S`.
-/
import Verif.Spec.LuaProg

namespace Tok.Spec

/-- The nonterminals; `fields`, `elifs` and `stats` are the repetitions in `fieldlist`, `stat` and `block`. -/
inductive Syn where
  | exp | explist | prefixexp | functioncall | args | tableconstructor | fields | field | funcbody | var | varlist | stat | elifs | stats | retstat | block
  deriving DecidableEq

def luaBinary : List Bytes :=
  [b!"+", b!"-", b!"*", b!"/", b!"//", b!"^", b!"%", b!"&", b!"~", b!"|", b!">>", b!"<<", b!"..", b!"<", b!"<=", b!">", b!">=", b!"==", b!"~=", b!"and", b!"or"]

def luaUnary : List Bytes := [b!"-", b!"not", b!"#", b!"~"]

/-- namelist ::= Name {‘,’ Name} -/
inductive SynNames (N : Bytes → Prop) : List Bytes → Prop
  | one {x : Bytes} : N x → SynNames N [x]
  | cons {x : Bytes} {ks : List Bytes} : N x → SynNames N ks → SynNames N (x :: b!"," :: ks)

/-- parlist ::= namelist [‘,’ ‘...’] | ‘...’, and no parameters. -/
inductive SynParams (N : Bytes → Prop) : List Bytes → Prop
  | none : SynParams N []
  | names {ks : List Bytes} : SynNames N ks → SynParams N ks
  | namesDots {ks : List Bytes} : SynNames N ks → SynParams N (ks ++ [b!",", b!"..."])
  | dots : SynParams N [b!"..."]

/-- funcname ::= Name {‘.’ Name} [‘:’ Name] -/
inductive SynFuncName (N : Bytes → Prop) : List Bytes → Prop
  | one {x : Bytes} : N x → SynFuncName N [x]
  | method {x y : Bytes} : N x → N y → SynFuncName N [x, b!":", y]
  | dot {x : Bytes} {ks : List Bytes} : N x → SynFuncName N ks → SynFuncName N (x :: b!"." :: ks)

/-- attrib ::= [‘<’ Name ‘>’] -/
inductive SynAttrib (N : Bytes → Prop) : List Bytes → Prop
  | none : SynAttrib N []
  | some {x : Bytes} : N x → SynAttrib N [b!"<", x, b!">"]

/-- attnamelist ::= Name attrib {‘,’ Name attrib} -/
inductive SynAttNames (N : Bytes → Prop) : List Bytes → Prop
  | one {x : Bytes} {a : List Bytes} : N x → SynAttrib N a → SynAttNames N (x :: a)
  | cons {x : Bytes} {a ks : List Bytes} : N x → SynAttrib N a → SynAttNames N ks → SynAttNames N (x :: (a ++ b!"," :: ks))

open Syn in
inductive LuaSyn (N S : Bytes → Prop) : Syn → List Bytes → Prop
  /- chunk ::= block; block ::= {stat} [retstat] -/
  | block {ss : List Bytes} : LuaSyn N S stats ss → LuaSyn N S block ss
  | blockRet {ss r : List Bytes} : LuaSyn N S stats ss → LuaSyn N S retstat r → LuaSyn N S block (ss ++ r)
  | noStats : LuaSyn N S stats []
  | someStats {s ss : List Bytes} : LuaSyn N S stat s → LuaSyn N S stats ss → LuaSyn N S stats (s ++ ss)
  /- stat -/
  | semi : LuaSyn N S stat [b!";"]
  | assign {v es : List Bytes} : LuaSyn N S varlist v → LuaSyn N S explist es → LuaSyn N S stat (v ++ b!"=" :: es)
  | call {c : List Bytes} : LuaSyn N S functioncall c → LuaSyn N S stat c
  | label {x : Bytes} : N x → LuaSyn N S stat [b!"::", x, b!"::"]
  | break : LuaSyn N S stat [b!"break"]
  | goto {x : Bytes} : N x → LuaSyn N S stat [b!"goto", x]
  | doS {b : List Bytes} : LuaSyn N S block b → LuaSyn N S stat (b!"do" :: (b ++ [b!"end"]))
  | whileS {e b : List Bytes} : LuaSyn N S exp e → LuaSyn N S block b → LuaSyn N S stat (b!"while" :: (e ++ b!"do" :: (b ++ [b!"end"])))
  | repeatS {b e : List Bytes} : LuaSyn N S block b → LuaSyn N S exp e → LuaSyn N S stat (b!"repeat" :: (b ++ b!"until" :: e))
  | ifS {e b l : List Bytes} : LuaSyn N S exp e → LuaSyn N S block b → LuaSyn N S elifs l → LuaSyn N S stat (b!"if" :: (e ++ b!"then" :: (b ++ (l ++ [b!"end"]))))
  | ifElse {e b l d : List Bytes} : LuaSyn N S exp e → LuaSyn N S block b → LuaSyn N S elifs l → LuaSyn N S block d →
      LuaSyn N S stat (b!"if" :: (e ++ b!"then" :: (b ++ (l ++ b!"else" :: (d ++ [b!"end"])))))
  | noElifs : LuaSyn N S elifs []
  | someElifs {e b l : List Bytes} : LuaSyn N S exp e → LuaSyn N S block b → LuaSyn N S elifs l → LuaSyn N S elifs (b!"elseif" :: (e ++ b!"then" :: (b ++ l)))
  | forS {x : Bytes} {a e b : List Bytes} : N x → LuaSyn N S exp a → LuaSyn N S exp e → LuaSyn N S block b →
      LuaSyn N S stat (b!"for" :: x :: b!"=" :: (a ++ b!"," :: (e ++ b!"do" :: (b ++ [b!"end"]))))
  | forStep {x : Bytes} {a e s b : List Bytes} : N x → LuaSyn N S exp a → LuaSyn N S exp e → LuaSyn N S exp s → LuaSyn N S block b →
      LuaSyn N S stat (b!"for" :: x :: b!"=" :: (a ++ b!"," :: (e ++ b!"," :: (s ++ b!"do" :: (b ++ [b!"end"])))))
  | forEach {ns es b : List Bytes} : SynNames N ns → LuaSyn N S explist es → LuaSyn N S block b → LuaSyn N S stat (b!"for" :: (ns ++ b!"in" :: (es ++ b!"do" :: (b ++ [b!"end"]))))
  | function {n b : List Bytes} : SynFuncName N n → LuaSyn N S funcbody b → LuaSyn N S stat (b!"function" :: (n ++ b))
  | localFunction {x : Bytes} {b : List Bytes} : N x → LuaSyn N S funcbody b → LuaSyn N S stat (b!"local" :: b!"function" :: x :: b)
  | localS {n : List Bytes} : SynAttNames N n → LuaSyn N S stat (b!"local" :: n)
  | localAssign {n es : List Bytes} : SynAttNames N n → LuaSyn N S explist es → LuaSyn N S stat (b!"local" :: (n ++ b!"=" :: es))
  /- retstat ::= return [explist] [‘;’] -/
  | ret : LuaSyn N S retstat [b!"return"]
  | retSemi : LuaSyn N S retstat [b!"return", b!";"]
  | retExps {es : List Bytes} : LuaSyn N S explist es → LuaSyn N S retstat (b!"return" :: es)
  | retExpsSemi {es : List Bytes} : LuaSyn N S explist es → LuaSyn N S retstat (b!"return" :: (es ++ [b!";"]))
  /- varlist ::= var {‘,’ var} -/
  | oneVar {v : List Bytes} : LuaSyn N S var v → LuaSyn N S varlist v
  | moreVars {v vs : List Bytes} : LuaSyn N S var v → LuaSyn N S varlist vs → LuaSyn N S varlist (v ++ b!"," :: vs)
  /- var ::= Name | prefixexp ‘[’ exp ‘]’ | prefixexp ‘.’ Name -/
  | name {x : Bytes} : N x → LuaSyn N S var [x]
  | index {p e : List Bytes} : LuaSyn N S prefixexp p → LuaSyn N S exp e → LuaSyn N S var (p ++ b!"[" :: (e ++ [b!"]"]))
  | member {p : List Bytes} {x : Bytes} : LuaSyn N S prefixexp p → N x → LuaSyn N S var (p ++ [b!".", x])
  /- explist ::= exp {‘,’ exp} -/
  | oneExp {e : List Bytes} : LuaSyn N S exp e → LuaSyn N S explist e
  | moreExps {e es : List Bytes} : LuaSyn N S exp e → LuaSyn N S explist es → LuaSyn N S explist (e ++ b!"," :: es)
  /- exp -/
  | const {k : Bytes} : k ∈ [b!"nil", b!"false", b!"true", b!"..."] → LuaSyn N S exp [k]
  | num {k : Bytes} : LuaNumeral k → LuaSyn N S exp [k]
  | str {k : Bytes} : S k → LuaSyn N S exp [k]
  | functiondef {b : List Bytes} : LuaSyn N S funcbody b → LuaSyn N S exp (b!"function" :: b)
  | prefixexp {p : List Bytes} : LuaSyn N S prefixexp p → LuaSyn N S exp p
  | tableExp {t : List Bytes} : LuaSyn N S tableconstructor t → LuaSyn N S exp t
  | bin {a b : List Bytes} {op : Bytes} : LuaSyn N S exp a → op ∈ luaBinary → LuaSyn N S exp b → LuaSyn N S exp (a ++ op :: b)
  | un {e : List Bytes} {op : Bytes} : op ∈ luaUnary → LuaSyn N S exp e → LuaSyn N S exp (op :: e)
  /- prefixexp ::= var | functioncall | ‘(’ exp ‘)’ -/
  | varPrefix {v : List Bytes} : LuaSyn N S var v → LuaSyn N S prefixexp v
  | callPrefix {c : List Bytes} : LuaSyn N S functioncall c → LuaSyn N S prefixexp c
  | paren {e : List Bytes} : LuaSyn N S exp e → LuaSyn N S prefixexp (b!"(" :: (e ++ [b!")"]))
  /- functioncall ::= prefixexp args | prefixexp ‘:’ Name args -/
  | callArgs {p a : List Bytes} : LuaSyn N S prefixexp p → LuaSyn N S args a → LuaSyn N S functioncall (p ++ a)
  | method {p a : List Bytes} {x : Bytes} : LuaSyn N S prefixexp p → N x → LuaSyn N S args a → LuaSyn N S functioncall (p ++ b!":" :: x :: a)
  /- args ::= ‘(’ [explist] ‘)’ | tableconstructor | LiteralString -/
  | noArgs : LuaSyn N S args [b!"(", b!")"]
  | someArgs {es : List Bytes} : LuaSyn N S explist es → LuaSyn N S args (b!"(" :: (es ++ [b!")"]))
  | tableArgs {t : List Bytes} : LuaSyn N S tableconstructor t → LuaSyn N S args t
  | strArgs {k : Bytes} : S k → LuaSyn N S args [k]
  /- funcbody ::= ‘(’ [parlist] ‘)’ block end -/
  | funcbody {p b : List Bytes} : SynParams N p → LuaSyn N S block b → LuaSyn N S funcbody (b!"(" :: (p ++ b!")" :: (b ++ [b!"end"])))
  /- tableconstructor ::= ‘{’ [fieldlist] ‘}’; fieldlist ::= field {fieldsep field} [fieldsep]; fieldsep ::= ‘,’ | ‘;’ -/
  | noFields : LuaSyn N S tableconstructor [b!"{", b!"}"]
  | someFields {f : List Bytes} : LuaSyn N S fields f → LuaSyn N S tableconstructor (b!"{" :: (f ++ [b!"}"]))
  | someFieldsSep {f : List Bytes} {s : Bytes} : LuaSyn N S fields f → s = b!"," ∨ s = b!";" → LuaSyn N S tableconstructor (b!"{" :: (f ++ [s, b!"}"]))
  | oneField {f : List Bytes} : LuaSyn N S field f → LuaSyn N S fields f
  | moreFields {f fs : List Bytes} {s : Bytes} : LuaSyn N S field f → s = b!"," ∨ s = b!";" → LuaSyn N S fields fs → LuaSyn N S fields (f ++ s :: fs)
  /- field ::= ‘[’ exp ‘]’ ‘=’ exp | Name ‘=’ exp | exp -/
  | keyField {a b : List Bytes} : LuaSyn N S exp a → LuaSyn N S exp b → LuaSyn N S field (b!"[" :: (a ++ b!"]" :: b!"=" :: b))
  | nameField {x : Bytes} {e : List Bytes} : N x → LuaSyn N S exp e → LuaSyn N S field (x :: b!"=" :: e)
  | expField {e : List Bytes} : LuaSyn N S exp e → LuaSyn N S field e

/-- Literal strings. -/
def LuaString (x : Bytes) : Prop := LuaShort x ∨ LuaLong x

/-- The syntax with the names and strings of Lua. -/
abbrev Lua54 := LuaSyn LuaName LuaString
abbrev Lua54Names := SynNames LuaName
abbrev Lua54Params := SynParams LuaName
abbrev Lua54FuncName := SynFuncName LuaName
abbrev Lua54Attrib := SynAttrib LuaName
abbrev Lua54AttNames := SynAttNames LuaName

/-- The text is a Lua chunk with white space but no comments in it. -/
def LuaChunk (x : Bytes) : Prop := ∃ w ks y, x = w ++ y ∧ White w ∧ Lua54 .block ks ∧ Layout ks y

end Tok.Spec
