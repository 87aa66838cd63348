/-
The tests of the repository (scanner_test.go, scanner_rev_test.go, intl_test.go, read_test.go, token_test.go,
segment_test.go, graph_test.go, reader_test.go) transcribed case by case and evaluated on the model
by the kernel.  These are checks that the model describes the code, not proofs of properties.
-/
import Verif.Model.ScannerRev
import Verif.Model.Read
import Verif.Model.Graph
import Verif.Model.Reader
import Verif.Model.Grammars

namespace Tok.Tests

/-- Tables for the tests: folding of ASCII letters, graphic are the runes from space to the snowman. -/
def rt : Rt := ⟨asciiLower, fun r => decide (32 ≤ r ∧ r ≤ 0x2603), fun n => 2 * n + 1⟩

/-- `headTail.check` (scanner_test.go). -/
def shows (x : Exec (Bool × Scanner)) (head tail : Bytes) : Bool :=
  match x with
  | .ret (_, s) => decide (s.head = .ret head) && decide (s.tail = .ret tail)
  | _ => false

/-- The same with the result of the call. -/
def gives (x : Exec (Bool × Scanner)) (ok : Bool) (head tail : Bytes) : Bool :=
  match x with
  | .ret (res, _) => (res == ok) && shows x head tail
  | _ => false

/-! scanner_test.go: TestScanString -/

def scans (s : Scanner) : List (Int × Bytes × Bool) → Bool
  | [] => true
  | (n, exp, ok) :: rest => match s.scanString n with
    | .ret ((part, res), s) => decide (part = exp) && (res == ok) && scans s rest
    | _ => false

example : scans (Scanner.new b!"Hi, 世界! I saw a ☃ in w2s34" Heap.empty) [(5, b!"Hi, 世", true), (3, b!"界! ", true), (8, b!"I saw a ", true), (1, b!"☃", true), (20, b!" in w2s34", false)] = true := by decide +kernel

/-! scanner_test.go: TestIf, TestIfAny, TestTo -/

example : shows ((Scanner.new b!"select *" Heap.empty).ifStr b!"select") b!"select" b!" *" = true := by decide +kernel
example : shows ((Scanner.new b!"SELECT *" Heap.empty).ifAny [b!"select", b!"Select", b!"SELECT"]) b!"SELECT" b!" *" = true := by decide +kernel
example : shows ((Scanner.new b!"select * from events" Heap.empty).to b!"from") b!"select * " b!"from events" = true := by decide +kernel

/-! scanner_test.go: TestIfFold, TestToFold -/

example : shows ((Scanner.new b!"select *" Heap.empty).ifFold rt b!"select") b!"select" b!" *" = true := by decide +kernel
example : shows ((Scanner.new b!"select *" Heap.empty).ifFold rt b!"Select") b!"select" b!" *" = true := by decide +kernel
example : shows ((Scanner.new b!"select *" Heap.empty).ifFold rt b!"SELECT") b!"select" b!" *" = true := by decide +kernel
example : shows ((Scanner.new b!"select * from events" Heap.empty).toFold rt b!"from") b!"select * " b!"from events" = true := by decide +kernel
example : shows ((Scanner.new b!"select * from events" Heap.empty).toFold rt b!"From") b!"select * " b!"from events" = true := by decide +kernel
example : shows ((Scanner.new b!"select * from events" Heap.empty).toFold rt b!"FROM") b!"select * " b!"from events" = true := by decide +kernel
example : shows ((Scanner.new b!"select * from" Heap.empty).toFold rt b!"FROM") b!"select * " b!"from" = true := by decide +kernel

/-! scanner_test.go: TestIfRune, TestToRune, TestWhileRune -/

def ifRunes (s : Scanner) : List (Rune × Bool × Bytes × Bytes) → Bool
  | [] => true
  | (r, res, h, t) :: rest => gives (s.ifRune r) res h t && match s.ifRune r with
    | .ret (_, s) => ifRunes s rest
    | _ => false

example : ifRunes (Scanner.new b!"a世z" Heap.empty) [(120, false, b!"", b!"a世z"), (97, true, b!"a", b!"世z"), (19990, true, b!"a世", b!"z"), (62, false, b!"a世", b!"z"), (122, true, b!"a世z", b!""), (45, false, b!"a世z", b!"")] = true := by decide +kernel
example : shows ((Scanner.new b!"i am" Heap.empty).toRune 32) b!"i" b!" am" = true := by decide +kernel
example : shows ((Scanner.new b!"...?" Heap.empty).toRune 63) b!"..." b!"?" = true := by decide +kernel
example : shows ((Scanner.new b!"1. end" Heap.empty).toRune 49) b!"" b!"1. end" = true := by decide +kernel
example : shows ((Scanner.new b!"-123" Heap.empty).whileRune 45) b!"-" b!"123" = true := by decide +kernel
example : shows ((Scanner.new b!"....a" Heap.empty).whileRune 46) b!"...." b!"a" = true := by decide +kernel
example : shows ((Scanner.new b!"   " Heap.empty).whileRune 32) b!"   " b!"" = true := by decide +kernel

/-! scanner_test.go: TestIfAnyRune, TestToAnyRune, TestWhileAnyRune -/

example : shows ((Scanner.new b!"-123" Heap.empty).ifAnyRune b!"-+") b!"-" b!"123" = true := by decide +kernel
example : shows ((Scanner.new b!"+123" Heap.empty).ifAnyRune b!"-+") b!"+" b!"123" = true := by decide +kernel
example : shows ((Scanner.new b!"123,56" Heap.empty).toAnyRune b!" ,") b!"123" b!",56" = true := by decide +kernel
example : shows ((Scanner.new b!"123 56" Heap.empty).toAnyRune b!" ,") b!"123" b!" 56" = true := by decide +kernel
example : shows ((Scanner.new b!"12356;" Heap.empty).toAnyRune b!";.") b!"12356" b!";" = true := by decide +kernel
example : shows ((Scanner.new b!"12356." Heap.empty).toAnyRune b!";.") b!"12356" b!"." = true := by decide +kernel
example : shows ((Scanner.new b!"-123" Heap.empty).whileAnyRune b!"-") b!"-" b!"123" = true := by decide +kernel
example : shows ((Scanner.new b!"256,0" Heap.empty).whileAnyRune b!"1234567890") b!"256" b!",0" = true := by decide +kernel
example : shows ((Scanner.new b!"12344512" Heap.empty).whileAnyRune b!"1234567890") b!"" b!"12344512" = true := by decide +kernel

/-! scanner_test.go: TestIfBetween, TestToBetween, TestWhileBetween -/

example : shows ((Scanner.new b!"abba" Heap.empty).ifBetween 97 122) b!"a" b!"bba" = true := by decide +kernel
example : shows ((Scanner.new b!"pinball2000" Heap.empty).toBetween 48 57) b!"pinball" b!"2000" = true := by decide +kernel
example : shows ((Scanner.new b!"pinball2000" Heap.empty).whileBetween 97 122) b!"pinball" b!"2000" = true := by decide +kernel

/-! scanner_test.go: TestIfMatch, TestToMatch, TestWhileMatch, with unicode.IsUpper, IsLower and IsDigit on ASCII -/

def isUpper (r : Rune) : Bool := decide (65 ≤ r ∧ r ≤ 90)
def isLower (r : Rune) : Bool := decide (97 ≤ r ∧ r ≤ 122)
def isDigit (r : Rune) : Bool := decide (48 ≤ r ∧ r ≤ 57)

example : shows ((Scanner.new b!"PIN" Heap.empty).ifMatch isUpper) b!"P" b!"IN" = true := by decide +kernel
example : shows ((Scanner.new b!"PINball" Heap.empty).toMatch isLower) b!"PIN" b!"ball" = true := by decide +kernel
example : shows ((Scanner.new b!"123..." Heap.empty).whileMatch isDigit) b!"123" b!"..." = true := by decide +kernel

/-! scanner_test.go: TestLineCol -/

example : ((Scanner.new b!"abcdefgh" Heap.empty).move 3).2.lineCol 1 = .ret (1, 4) := by decide +kernel
example : ((Scanner.new b!"abcdefgh" Heap.empty).move 0).2.lineCol 1 = .ret (1, 1) := by decide +kernel
example : ((Scanner.new b!"" Heap.empty).move 0).2.lineCol 1 = .ret (1, 1) := by decide +kernel
example : ((Scanner.new b!"abc" Heap.empty).move 3).2.lineCol 1 = .ret (1, 4) := by decide +kernel
example : ((Scanner.new b!"\nabcd\n\nefgh\n\n" Heap.empty).move 8).2.lineCol 1 = .ret (4, 2) := by decide +kernel
example : ((Scanner.new b!"abc\ndef\nghi" Heap.empty).move 0).2.lineCol 1 = .ret (1, 1) := by decide +kernel
example : ((Scanner.new b!"\nabcd\n\n\tefgh\n\n" Heap.empty).move 8).2.lineCol 4 = .ret (4, 5) := by decide +kernel
example : ((Scanner.new b!"\nabcd\n\n\tefgh\n\n" Heap.empty).move 8).2.lineCol 4 = .ret (4, 5) := by decide +kernel
example : ((Scanner.new b!"\t\tabcdefgh" Heap.empty).move 3).2.lineCol 4 = .ret (1, 10) := by decide +kernel
example : ((Scanner.new b!"\t\tabcdefgh" Heap.empty).move 0).2.lineCol 4 = .ret (1, 1) := by decide +kernel

/-! scanner_test.go: TestMoveRunes -/

def moves (s : Scanner) : List (Int × Bytes × Bytes) → Bool
  | [] => true
  | (n, h, t) :: rest => gives (s.moveRunes n) true h t && match s.moveRunes n with
    | .ret (_, s) => moves s rest
    | _ => false

example : moves (Scanner.new b!"a@ä!" Heap.empty) [(3, b!"a@ä", b!"!"), (1, b!"a@ä!", b!""), (-2, b!"a@", b!"ä!"), (-2, b!"", b!"a@ä!")] = true := by decide +kernel

/-! intl_test.go -/

example : Scanner.getPrefix b!"Hi, 世界" 5 = (b!"Hi, 世", true) := by decide +kernel
example : Scanner.subStringFrom b!"abcdef" 0 3 = b!"abc" := by decide +kernel
example : Scanner.subStringFrom b!"äbcdef" 0 3 = b!"äbc" := by decide +kernel
example : Scanner.subStringFrom b!"äöü" 0 4 = b!"äöü" := by decide +kernel
example : Scanner.subStringFrom b!"äöü" 2 4 = b!"ü" := by decide +kernel

/-! scanner_rev_test.go -/

example : shows ((Scanner.newRev b!"* from" Heap.empty).revIf b!"from") b!"* " b!"from" = true := by decide +kernel
example : shows ((Scanner.newRev b!"* From" Heap.empty).revIfAny [b!"from", b!"From", b!"FROM"]) b!"* " b!"From" = true := by decide +kernel
example : shows ((Scanner.newRev b!"select * from events" Heap.empty).revTo b!"from") b!"select * from" b!" events" = true := by decide +kernel
example : shows ((Scanner.newRev b!"* from" Heap.empty).revIfFold rt b!"from") b!"* " b!"from" = true := by decide +kernel
example : shows ((Scanner.newRev b!"* from" Heap.empty).revIfFold rt b!"From") b!"* " b!"from" = true := by decide +kernel
example : shows ((Scanner.newRev b!"* from" Heap.empty).revIfFold rt b!"FROM") b!"* " b!"from" = true := by decide +kernel
example : shows ((Scanner.newRev b!"select * from events" Heap.empty).revToFold rt b!"from") b!"select * from" b!" events" = true := by decide +kernel
example : shows ((Scanner.newRev b!"select * from events" Heap.empty).revToFold rt b!"From") b!"select * from" b!" events" = true := by decide +kernel
example : shows ((Scanner.newRev b!"select * from events" Heap.empty).revToFold rt b!"FROM") b!"select * from" b!" events" = true := by decide +kernel
example : shows ((Scanner.newRev b!"select * from events" Heap.empty).revToFold rt b!"SELECT") b!"select" b!" * from events" = true := by decide +kernel
example : shows ((Scanner.newRev b!"xyz" Heap.empty).revIfRune 122) b!"xy" b!"z" = true := by decide +kernel
example : shows ((Scanner.newRev b!"i am" Heap.empty).revToRune 32) b!"i " b!"am" = true := by decide +kernel
example : shows ((Scanner.newRev b!"?..." Heap.empty).revToRune 46) b!"?..." b!"" = true := by decide +kernel
example : shows ((Scanner.newRev b!"1. end" Heap.empty).revToRune 49) b!"1" b!". end" = true := by decide +kernel
example : shows ((Scanner.newRev b!"123-" Heap.empty).revWhileRune 45) b!"123" b!"-" = true := by decide +kernel
example : shows ((Scanner.newRev b!"a...." Heap.empty).revWhileRune 46) b!"a" b!"...." = true := by decide +kernel
example : shows ((Scanner.newRev b!"   " Heap.empty).revWhileRune 32) b!"" b!"   " = true := by decide +kernel
example : shows ((Scanner.newRev b!"123," Heap.empty).revIfAnyRune b!":,") b!"123" b!"," = true := by decide +kernel
example : shows ((Scanner.newRev b!"123:" Heap.empty).revIfAnyRune b!":,") b!"123" b!":" = true := by decide +kernel
example : shows ((Scanner.newRev b!"123,56" Heap.empty).revToAnyRune b!" ,") b!"123," b!"56" = true := by decide +kernel
example : shows ((Scanner.newRev b!"123 56" Heap.empty).revToAnyRune b!" ,") b!"123 " b!"56" = true := by decide +kernel
example : shows ((Scanner.newRev b!"+123" Heap.empty).revToAnyRune b!"+-") b!"+" b!"123" = true := by decide +kernel
example : shows ((Scanner.newRev b!"-123" Heap.empty).revToAnyRune b!"+-") b!"-" b!"123" = true := by decide +kernel
example : shows ((Scanner.newRev b!"123-" Heap.empty).revWhileAnyRune b!"-") b!"123" b!"-" = true := by decide +kernel
example : shows ((Scanner.newRev b!"-256" Heap.empty).revWhileAnyRune b!"1234567890") b!"-" b!"256" = true := by decide +kernel
example : shows ((Scanner.newRev b!"12344512" Heap.empty).revWhileAnyRune b!"1234567890") b!"" b!"12344512" = true := by decide +kernel

/-! read_test.go -/

/-- The value is read without error and the rest is `tail`. -/
def reads {α : Type} [DecidableEq α] (x : Exec ((α × Option Err) × Scanner)) (v : α) (tail : Bytes) : Bool :=
  match x with
  | .ret ((res, none), s) => decide (res = v) && decide (s.tail = .ret tail)
  | _ => false

/-- An error is returned. -/
def refuses {α : Type} (x : Exec ((α × Option Err) × Scanner)) : Bool :=
  match x with
  | .ret ((_, some _), _) => true
  | _ => false

example : reads ((Scanner.new b!"22" Heap.empty).readInt 10 8) (22) b!"" = true := by decide +kernel
example : reads ((Scanner.new b!"1c" Heap.empty).readInt 16 8) (28) b!"" = true := by decide +kernel
example : reads ((Scanner.new b!"0" Heap.empty).readInt 16 8) (0) b!"" = true := by decide +kernel
example : reads ((Scanner.new b!"-70" Heap.empty).readInt 8 8) (-56) b!"" = true := by decide +kernel
example : reads ((Scanner.new b!"-128" Heap.empty).readInt 10 8) (-128) b!"" = true := by decide +kernel
example : reads ((Scanner.new b!"127" Heap.empty).readInt 10 8) (127) b!"" = true := by decide +kernel
example : reads ((Scanner.new b!"-2345" Heap.empty).readInt 10 8) (-23) b!"45" = true := by decide +kernel
example : reads ((Scanner.new b!"128" Heap.empty).readInt 10 8) (12) b!"8" = true := by decide +kernel
example : reads ((Scanner.new b!"-0046" Heap.empty).readInt 10 8) (-46) b!"" = true := by decide +kernel
example : reads ((Scanner.new b!"32-blocks" Heap.empty).readInt 10 8) (32) b!"-blocks" = true := by decide +kernel
example : reads ((Scanner.new b!"18" Heap.empty).readInt 10 16) (18) b!"" = true := by decide +kernel
example : reads ((Scanner.new b!"30df" Heap.empty).readInt 16 16) (12511) b!"" = true := by decide +kernel
example : reads ((Scanner.new b!"-4E3" Heap.empty).readInt 16 16) (-1251) b!"" = true := by decide +kernel
example : reads ((Scanner.new b!"7561" Heap.empty).readInt 8 16) (3953) b!"" = true := by decide +kernel
example : reads ((Scanner.new b!"-32768" Heap.empty).readInt 10 16) (-32768) b!"" = true := by decide +kernel
example : reads ((Scanner.new b!"32767" Heap.empty).readInt 10 16) (32767) b!"" = true := by decide +kernel
example : reads ((Scanner.new b!"32768" Heap.empty).readInt 10 16) (3276) b!"8" = true := by decide +kernel
example : reads ((Scanner.new b!"345wxyz" Heap.empty).readInt 10 16) (345) b!"wxyz" = true := by decide +kernel
example : reads ((Scanner.new b!"-2147483648" Heap.empty).readInt 10 32) (-2147483648) b!"" = true := by decide +kernel
example : reads ((Scanner.new b!"2147483647" Heap.empty).readInt 10 32) (2147483647) b!"" = true := by decide +kernel
example : reads ((Scanner.new b!"-2147483649" Heap.empty).readInt 10 32) (-214748364) b!"9" = true := by decide +kernel
example : reads ((Scanner.new b!"42" Heap.empty).readInt 10 64) (42) b!"" = true := by decide +kernel
example : reads ((Scanner.new b!"aBcD" Heap.empty).readInt 16 64) (43981) b!"" = true := by decide +kernel
example : reads ((Scanner.new b!"-4a3F" Heap.empty).readInt 16 64) (-19007) b!"" = true := by decide +kernel
example : reads ((Scanner.new b!"-9223372036854775808" Heap.empty).readInt 10 64) (-9223372036854775808) b!"" = true := by decide +kernel
example : reads ((Scanner.new b!"9223372036854775807" Heap.empty).readInt 10 64) (9223372036854775807) b!"" = true := by decide +kernel
example : reads ((Scanner.new b!"9223372036854775808" Heap.empty).readInt 10 64) (922337203685477580) b!"8" = true := by decide +kernel
example : reads ((Scanner.new b!"777 oth" Heap.empty).readInt 10 64) (777) b!" oth" = true := by decide +kernel
example : reads ((Scanner.new b!"18" Heap.empty).readUint 10 8) (18) b!"" = true := by decide +kernel
example : reads ((Scanner.new b!"1c" Heap.empty).readUint 16 8) (28) b!"" = true := by decide +kernel
example : reads ((Scanner.new b!"F0" Heap.empty).readUint 16 8) (240) b!"" = true := by decide +kernel
example : reads ((Scanner.new b!"70" Heap.empty).readUint 8 8) (56) b!"" = true := by decide +kernel
example : reads ((Scanner.new b!"0" Heap.empty).readUint 10 8) (0) b!"" = true := by decide +kernel
example : reads ((Scanner.new b!"255" Heap.empty).readUint 10 8) (255) b!"" = true := by decide +kernel
example : reads ((Scanner.new b!"2345" Heap.empty).readUint 10 8) (234) b!"5" = true := by decide +kernel
example : reads ((Scanner.new b!"256" Heap.empty).readUint 10 8) (25) b!"6" = true := by decide +kernel
example : reads ((Scanner.new b!"00460" Heap.empty).readUint 10 8) (46) b!"0" = true := by decide +kernel
example : reads ((Scanner.new b!"0" Heap.empty).readUint 10 16) (0) b!"" = true := by decide +kernel
example : reads ((Scanner.new b!"65535" Heap.empty).readUint 10 16) (65535) b!"" = true := by decide +kernel
example : reads ((Scanner.new b!"65536" Heap.empty).readUint 10 16) (6553) b!"6" = true := by decide +kernel
example : reads ((Scanner.new b!"4294967295" Heap.empty).readUint 10 32) (4294967295) b!"" = true := by decide +kernel
example : reads ((Scanner.new b!"4294967296" Heap.empty).readUint 10 32) (429496729) b!"6" = true := by decide +kernel
example : reads ((Scanner.new b!"30df" Heap.empty).readUint 16 64) (12511) b!"" = true := by decide +kernel
example : reads ((Scanner.new b!"4E3" Heap.empty).readUint 16 64) (1251) b!"" = true := by decide +kernel
example : reads ((Scanner.new b!"7561" Heap.empty).readUint 8 64) (3953) b!"" = true := by decide +kernel
example : reads ((Scanner.new b!"18446744073709551615,0" Heap.empty).readUint 10 64) (18446744073709551615) b!",0" = true := by decide +kernel
example : reads ((Scanner.new b!"1170343number" Heap.empty).readUint 10 64) (1170343) b!"number" = true := by decide +kernel
example : refuses ((Scanner.new b!"-abcd" Heap.empty).readInt 10 64) = true := by decide +kernel

/-! token_test.go -/

example : (makeToken 2 23).covers (makeToken 10 30) = false := by decide +kernel
example : (makeToken 10 30).covers (makeToken 2 23) = false := by decide +kernel
example : (makeToken 2 23).covers (makeToken 11 19) = true := by decide +kernel
example : (makeToken 11 19).covers (makeToken 2 23) = false := by decide +kernel
example : (makeToken 10 30).covers (makeToken 11 19) = true := by decide +kernel
example : (makeToken 11 19).covers (makeToken 10 30) = false := by decide +kernel
example : (makeToken 2 23).clashes (makeToken 10 30) = true := by decide +kernel
example : (makeToken 10 30).clashes (makeToken 2 23) = true := by decide +kernel
example : (makeToken 2 23).clashes (makeToken 11 19) = false := by decide +kernel
example : (makeToken 11 19).clashes (makeToken 2 23) = false := by decide +kernel
example : (makeToken 10 30).clashes (makeToken 11 19) = false := by decide +kernel
example : (makeToken 11 19).clashes (makeToken 10 30) = false := by decide +kernel
example : (makeToken 3 8).clashes (makeToken 10 30) = false := by decide +kernel
example : (makeToken 10 30).clashes (makeToken 3 8) = false := by decide +kernel

/-! segment_test.go, graph_test.go -/

def S (info : Bytes) (frm to : Int) : Segment := ⟨info, makeToken frm to⟩
def N (info : Bytes) (frm to : Int) (nodes : List Node) : Node := .mk (S info frm to) nodes

example : sortSegments [S b!"obj" 2 18, S b!"val" 10 16, S b!"id" 3 8, S b!"text" 0 20] = [S b!"text" 0 20, S b!"obj" 2 18, S b!"id" 3 8, S b!"val" 10 16] := by decide +kernel
example : sortSegmentsByOrder [S b!"obj" 2 18, S b!"val" 10 16, S b!"id" 3 8, S b!"text" 0 20, S b!"member" 2 18] [b!"member", b!"obj"] = [S b!"text" 0 20, S b!"member" 2 18, S b!"obj" 2 18, S b!"id" 3 8, S b!"val" 10 16] := by decide +kernel
example : (Scanner.new b!"abcdefgh" Heap.empty).segmentate [S b!"v" 0 1, S b!"v" 2 4, S b!"v" 7 8] = ([S b!"v" 0 1, S b!"" 1 2, S b!"v" 2 4, S b!"" 4 7, S b!"v" 7 8], none) := by decide +kernel

/-- The check of TestGraphAppend (graph_test.go). -/
def appends (x : Exec (Bool × Graph)) (ok : Bool) (g : Graph) : Bool :=
  match x with
  | .ret (res, g') => (res == ok) && g'.equal g
  | _ => false

example : appends ((Graph.new b!"root").append 20 (S b!"val" 10 15)) true (⟨.mk (S b!"root" 10 15) [.mk (S b!"val" 10 15) []]⟩ : Graph) = true := by decide +kernel
example : appends (((⟨.mk (S b!"root" 10 15) [.mk (S b!"key" 10 15) []]⟩ : Graph)).append 20 (S b!"val" 17 25)) true (⟨.mk (S b!"root" 10 25) [.mk (S b!"key" 10 15) [], .mk (S b!"val" 17 25) []]⟩ : Graph) = true := by decide +kernel
example : appends (((⟨.mk (S b!"root" 10 25) [.mk (S b!"key" 10 15) [], .mk (S b!"val" 17 25) []]⟩ : Graph)).append 20 (S b!"obj" 8 28)) true (⟨.mk (S b!"root" 8 28) [.mk (S b!"obj" 8 28) [.mk (S b!"key" 10 15) [], .mk (S b!"val" 17 25) []]]⟩ : Graph) = true := by decide +kernel
example : appends (((⟨.mk (S b!"root" 10 25) [.mk (S b!"key" 10 15) [], .mk (S b!"val" 17 25) []]⟩ : Graph)).append 20 (S b!"obj" 8 20)) false (⟨.mk (S b!"root" 10 25) [.mk (S b!"key" 10 15) [], .mk (S b!"val" 17 25) []]⟩ : Graph) = true := by decide +kernel
example : (⟨.mk (S b!"root" 8 28) [.mk (S b!"obj" 8 28) [.mk (S b!"key" 10 15) [], .mk (S b!"val" 17 25) []]]⟩ : Graph).leafs = [S b!"key" 10 15, S b!"val" 17 25] := by decide +kernel

/-- The check of TestBuildGraph (graph_test.go). -/
def builds (x : Exec Graph) (g : Graph) : Bool :=
  match x with
  | .ret g' => g'.equal g
  | _ => false

example : builds (Graph.build 20 b!"root" [S b!"text" 0 20, S b!"obj" 2 18, S b!"id" 3 8, S b!"val" 10 16]) (⟨.mk (S b!"root" 0 20) [.mk (S b!"text" 0 20) [.mk (S b!"obj" 2 18) [.mk (S b!"id" 3 8) [], .mk (S b!"val" 10 16) []]]]⟩ : Graph) = true := by decide +kernel

/-! reader_test.go -/

/-- `NewScanner(inp).Use(r)` returns nil and leaves `tail`. -/
def uses (G : Env) (inp : Bytes) (r : Reader) (tail : Bytes) : Bool :=
  match (Scanner.new inp Heap.empty).use (read rt G 400 r) with
  | .ret (none, s) => decide (s.tail = .ret tail)
  | _ => false

/-- `NewScanner(inp).CaptureUse(r)` returns this string, and an error or not. -/
def captures (inp : Bytes) (r : Reader) (str : Bytes) (isErr : Bool) : Bool :=
  match (Scanner.new inp Heap.empty).captureUse (read rt [] 100 r) with
  | .ret ((res, e), _) => decide (res = str) && (e.isSome == isErr)
  | _ => false

/-- Readers as arguments. -/
def rd (r : Reader) : Arg := .reader r

example : uses [] b!"var i =  \n 456;" (mkSeq [rd (.fold b!"VAR"), rd mkWS, rd (.lit b!"i ="), rd (mkMany (rd mkWS)), rd (mkMany (rd (.between 48 57))), rd (.lit b!";")]) [] = true := by decide +kernel
example : uses [] b!"var i =  \n 456;" (mkSeq [rd (.lit b!"var i ="), rd (mkMany (rd mkWS)), rd (mkMany (rd mkDigit)), rd (.lit b!";")]) [] = true := by decide +kernel
example : Reader.what rt [] (mkAny [rd (.rune 33), rd (.lit b!"abc")]) = b!"[ '!' \"abc\" ]" := by decide +kernel
example : Reader.what rt [] (.between 33 0x2603) = b!"<!☃>" := by decide +kernel
example : Reader.what rt [] (.between 0 0x10FFFF) = b!"<\\x00\\U0010ffff>" := by decide +kernel
example : Reader.what rt [] (.between 97 97) = b!"'a'" := by decide +kernel
example : Reader.what rt [] (mkBetweenAny b!"a-zA-Z") = b!"[< az AZ >]" := by decide +kernel
example : Reader.what rt [] (mkBetweenAny b!"a-zA-Z_-_") = b!"[< az AZ __ >]" := by decide +kernel
example : Reader.what rt [] (mkSet b!"a-zA-Z" b!"_-+") = b!"[< az AZ \"_-+\" >]" := by decide +kernel
example : Reader.what rt [] (.fold b!"true") = b!"~\"true\"" := by decide +kernel
example : Reader.what rt [] (.holey 97 122 b!"ox") = b!"(<az> - \"ox\")" := by decide +kernel
example : Reader.what rt [] (.not (.rune 65)) = b!"!'A'" := by decide +kernel
example : Reader.what rt [] (mkSeq [rd (.rune 33), rd (mkMany (rd (.anyRune b!" +-"))), rd (.lit b!"abc")]) = b!"'!' +[\" +-\"] \"abc\"" := by decide +kernel
example : Reader.what rt [] (mkTo (rd (.bool 0 []))) = b!"->bool{\"\"}" := by decide +kernel
example : Reader.what rt [] (.uint 0 16 64) = b!"uint{16,64}" := by decide +kernel
example : Reader.what rt [] (mkWS) = b!"[\" \\r\\n\\t\"]" := by decide +kernel
example : Reader.what rt [] (mkZom (rd mkWS)) = b!"*[\" \\r\\n\\t\"]" := by decide +kernel

example : captures b!"two two" (mkSeq [rd (mkJanus 0 b!"i" (mkMany (rd (.between 97 122)))).1, rd mkWS, rd (mkJanus 0 b!"i" (mkMany (rd (.between 97 122)))).2]) b!"two two" false = true := by decide +kernel

def comBeg : Reader := mkSeq [.rune 91, rd (mkJanus 0 b!"c" (mkMany (.rune 61))).1, .rune 91]
def comEnd : Reader := mkSeq [.rune 93, rd (mkJanus 0 b!"c" (mkMany (.rune 61))).2, .rune 93]

example : captures b!"[==[long lua string]==] ~=" (mkSeq [rd comBeg, rd (mkTo (rd comEnd))]) b!"[==[long lua string" false = true := by decide +kernel
example : captures b!"[==[long lua string]==] ~=" (mkSeq [rd comBeg, rd (mkPast (rd comEnd))]) b!"[==[long lua string]==]" false = true := by decide +kernel

example : captures b!"XYZAa" (.not (.anyRune b!"aA")) b!"X" false = true := by decide +kernel
example : captures b!"aAbB" (.not (.anyRune b!"aA")) [] true = true := by decide +kernel
example : captures b!"XYZAa" (mkMany (rd (.not (.anyRune b!"aA")))) b!"XYZ" false = true := by decide +kernel

example : hasInvalidReader (Reader.what rt [] (mkSeq [rd (mkTo (rd (mkAny [.other b!"int"])))])) = true := by decide +kernel
example : hasInvalidReader (Reader.what rt [] (mkSeq [rd (mkTo (rd (mkAny [.str b!"s"])))])) = false := by decide +kernel

end Tok.Tests
