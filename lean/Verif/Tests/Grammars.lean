/-
The tests of the grammars (grammar/json_test.go, grammar/lua_test.go, grammar/mxt_test.go) and of grammar_test.go,
evaluated on the model by the kernel, or, for the three cases that are too long for it (`#guard`), by the compiler of Lean.
These are checks that the model describes the code, not proofs of properties.
-/
import Verif.Tests.Library
import Verif.Model.Reflect
import Verif.Model.Monitor

namespace Tok.Tests

/-! grammar/json_test.go: TestJSON -/

example : uses Json.env b!"{}" Json.reader [] = true := by decide +kernel
example : uses Json.env b!"{\"key\":\"value\"}" Json.reader [] = true := by decide +kernel
example : uses Json.env b!"{\n\t\t\t\"glossary\": {\n\t\t\t\t\"title\": \"example glossary\",\n\t\t\t\t\"GlossDiv\": {\n\t\t\t\t\t\"title\": \"S\",\n\t\t\t\t\t\"GlossList\": {\n\t\t\t\t\t\t\"GlossEntry\": {\n\t\t\t\t\t\t\t\"ID\": \"SGML\",\n\t\t\t\t\t\t\t\"SortAs\": \"SGML\",\n\t\t\t\t\t\t\t\"GlossTerm\": \"Standard Generalized Markup Language\",\n\t\t\t\t\t\t\t\"Acronym\": \"SGML\",\n\t\t\t\t\t\t\t\"Abbrev\": \"ISO 8879:1986\",\n\t\t\t\t\t\t\t\"GlossDef\": {\n\t\t\t\t\t\t\t\t\"para\": \"A meta-markup language, used to create markup languages such as DocBook.\",\n\t\t\t\t\t\t\t\t\"GlossSeeAlso\": [\"GML\", \"XML\"]\n\t\t\t\t\t\t\t},\n\t\t\t\t\t\t\t\"GlossSee\": \"markup\"\n\t\t\t\t\t\t}\n\t\t\t\t\t}\n\t\t\t\t}\n\t\t\t}\n\t\t}" Json.reader [] = true := by decide +kernel
example : uses Json.env b!"{\"menu\": {\n\t\t\t\"id\": \"file\",\n\t\t\t\"value\": \"File\",\n\t\t\t\"popup\": {\n\t\t\t  \"menuitem\": [\n\t\t\t\t{\"value\": \"New\", \"onclick\": \"CreateNewDoc()\"},\n\t\t\t\t{\"value\": \"Open\", \"onclick\": \"OpenDoc()\"},\n\t\t\t\t{\"value\": \"Close\", \"onclick\": \"CloseDoc()\"}\n\t\t\t  ]\n\t\t\t}\n\t\t  }}" Json.reader [] = true := by decide +kernel

/-! grammar/lua_test.go: TestLuaParts, with `tok.MonitorGrammar` -/

/-- No error; the rules are monitored. -/
def luaPart (inp : Bytes) (i : Nat) : Bool :=
  let (G, h) := monitorGrammar Lua.env Heap.empty 0
  match (Scanner.new inp h).use (read rt G 400 (.rule i)) with
  | .ret (none, _) => true
  | _ => false

example : luaPart b!"\"\"" Lua.iLiteralString = true := by decide +kernel
example : luaPart b!"\"a\\tbc\\n\"" Lua.iLiteralString = true := by decide +kernel
example : luaPart b!"'a\\tbc\\n'" Lua.iLiteralString = true := by decide +kernel
example : luaPart b!"[[abc]]" Lua.iLiteralString = true := by decide +kernel
example : luaPart b!"assert( dir and dir ~= \"\", \"directory parameter is missing or empty\" )" Lua.iFuncCall = true := by decide +kernel
#guard luaPart b!"if not isdodd( base ) then base = doSomething( base ) end" Lua.iIfElse
#guard luaPart b!"return coroutine.wrap( function() yieldtree( dir ) end )" Lua.iRetStat

/-! grammar/lua_test.go: TestLua -/

example : uses Lua.env [] Lua.reader [] = true := by decide +kernel

/-! grammar/mxt_test.go: TestMXT -/

/-- The strings of the tokens that one of the functions has got. -/
def texts (inp : Bytes) (calls : List (Nat × Token)) (fids : List Nat) : List Bytes :=
  (calls.filter (fun c => fids.contains c.1)).map fun c =>
    if c.1 = 1 then [] else (inp.drop c.2.frm.toNat).take (c.2.to - c.2.frm).toNat

/-- Names and contents as the map functions of the test collect them; everything is read. -/
def mxt (inp : Bytes) (names contents : List Bytes) : Bool :=
  let G := ((Mxt.env.modify Mxt.iName (Rule.map 0)).modify Mxt.iEmptyContent (Rule.map 1)).modify Mxt.iContent (Rule.map 2)
  match (Scanner.new inp Heap.empty).use (read rt G 2000 Mxt.reader) with
  | .ret (none, s) => s.atEnd && decide (texts inp s.heap.maps [0] = names) && decide (texts inp s.heap.maps [1, 2] = contents)
  | _ => false

example : mxt b!"// name.of.chunk -->" [b!"name.of.chunk"] [b!""] = true := by decide +kernel
example : mxt b!"//salt++++++++++++++++++++++++++ Σ-element ++++++++++++++++++++++++++++++++++-->" [b!"Σ-element"] [b!""] = true := by decide +kernel
#guard mxt b!"//---------------------------------------------------------------- user.json -->\n{\n    \"user\": \"alucard\",\n    \"password\": \"C:SotN1997\"\n}\n//--------------------------------------------------------------- connection.ini\n// comment line that is not part of the ini file,\n// comment lines will be joined with a space character\n//\n// empty comment lines will generate a newline character in the comment\n//----------------------------------------------------------------------------->\nrequest: GET\n\n[url]\nschema=http\nhost=localhost\nport=8080\npath=/db/add\n// user.pgp --> XYZ\n-----BEGIN PGP MESSAGE-----\n\nhQEMA8p144+Gi+YpAQf/VeFG9Zb+8w9aldWll8n2g3jqpE613LKg2XAJgwXQmSQL\nR4O+TlQakJ+Mz5vM4IxxubPgYCyt6cyL7qM3oJIuk7vsqMbl5t7c/dOfXjj7goIC\nIskIX+9e5qrr8jRG/KZYSdBJtFEI9oNtZTLlnv3yeV3OWNTbUnjdTWrk/h1kavJE\n5psOaTgH+Yg0utcF9Y0AqTo/o6EmiAn+uQlE5l9GTSzq51jRNiMoZRaXfUeznneF\nSDn/eFve7VlLV60j8LcXSrXgiIXEYi9ZgvWHHV+h9yorQXu24fgrEd0AhE/adiJm\ndzEHVCb+Q0i0p14hE2QQYdDE0zLxZN+FZJy/MiWwHtLA0QFZ+Zh47Zmiq14WyMPp\n4ASQ/wNpwmZmpsiKDweUTlng3MTjifopmTeglPmRKsIOvUbTnA3yetznViugSYrA\njPuSltUZpdLTrOPrOrbPorxKmurKmswZje1hoXIrpPN2KzTnA0UNH6GKOnMjLtRH\nuXMlS3q/GkIcXYDJIVFsEU3dGWMJFOtF4HPlyHmB8Gko8cDep6ugPbgJt8LBu3+p\nzE00pkAd4Kf7yodSUR6mRJm5qK+vqp7dnkZd/WhTNRihMoqRY2oKiH2rHjFSa76s\nD8nD4suo6ckVzYGJpknGSIAwaCFlW0aqR/3SWO4wi6ibbfub8LA73V90Ll3/S/Ph\nxU15HYmdCATnVX1sp1PWmyz972bMvl8txyIKMUueVw+w0C19ZTfWXjuFSguF7zt7\nRY+I3to2lbyVJbcI9Dyz04GOJZ2vIhG9eq65FxeweAKDa7L+iH1NA5L2lYd9DEr1\nro/CU6vIqkOSNRUrNYDwqz1g3Z3eAQB/8t9Y4WsV4KL0M229rsFrtl26i7+quYfg\nuuTd\n=WxK9\n-----END PGP MESSAGE-----\n//XYZ hello-world.h -->\n//---------------------------------------------------------- hello-world.c --> X\n// this is part of hello-world.c\n#include<stdio.h>\n\nint main(void) {\nprintf(\"Hello World\\n\");\nreturn 0;\n}" [b!"user.json", b!"connection.ini", b!"user.pgp", b!"hello-world.h", b!"hello-world.c"] [b!"{\n    \"user\": \"alucard\",\n    \"password\": \"C:SotN1997\"\n}", b!"request: GET\n\n[url]\nschema=http\nhost=localhost\nport=8080\npath=/db/add", b!"-----BEGIN PGP MESSAGE-----\n\nhQEMA8p144+Gi+YpAQf/VeFG9Zb+8w9aldWll8n2g3jqpE613LKg2XAJgwXQmSQL\nR4O+TlQakJ+Mz5vM4IxxubPgYCyt6cyL7qM3oJIuk7vsqMbl5t7c/dOfXjj7goIC\nIskIX+9e5qrr8jRG/KZYSdBJtFEI9oNtZTLlnv3yeV3OWNTbUnjdTWrk/h1kavJE\n5psOaTgH+Yg0utcF9Y0AqTo/o6EmiAn+uQlE5l9GTSzq51jRNiMoZRaXfUeznneF\nSDn/eFve7VlLV60j8LcXSrXgiIXEYi9ZgvWHHV+h9yorQXu24fgrEd0AhE/adiJm\ndzEHVCb+Q0i0p14hE2QQYdDE0zLxZN+FZJy/MiWwHtLA0QFZ+Zh47Zmiq14WyMPp\n4ASQ/wNpwmZmpsiKDweUTlng3MTjifopmTeglPmRKsIOvUbTnA3yetznViugSYrA\njPuSltUZpdLTrOPrOrbPorxKmurKmswZje1hoXIrpPN2KzTnA0UNH6GKOnMjLtRH\nuXMlS3q/GkIcXYDJIVFsEU3dGWMJFOtF4HPlyHmB8Gko8cDep6ugPbgJt8LBu3+p\nzE00pkAd4Kf7yodSUR6mRJm5qK+vqp7dnkZd/WhTNRihMoqRY2oKiH2rHjFSa76s\nD8nD4suo6ckVzYGJpknGSIAwaCFlW0aqR/3SWO4wi6ibbfub8LA73V90Ll3/S/Ph\nxU15HYmdCATnVX1sp1PWmyz972bMvl8txyIKMUueVw+w0C19ZTfWXjuFSguF7zt7\nRY+I3to2lbyVJbcI9Dyz04GOJZ2vIhG9eq65FxeweAKDa7L+iH1NA5L2lYd9DEr1\nro/CU6vIqkOSNRUrNYDwqz1g3Z3eAQB/8t9Y4WsV4KL0M229rsFrtl26i7+quYfg\nuuTd\n=WxK9\n-----END PGP MESSAGE-----", b!"", b!"// this is part of hello-world.c\n#include<stdio.h>\n\nint main(void) {\nprintf(\"Hello World\\n\");\nreturn 0;\n}"]

/-! grammar_test.go: TestSetRuleNames -/

example : setRuleNames rt 100 [(b!"Rule1", b!"first", []), (b!"Rule2", b!"num2", []), (b!"Rule3", [], [])] = .ret (none, [b!"first", b!"num2", []]) := by decide +kernel

end Tok.Tests
