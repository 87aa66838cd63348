import Verif.Model.Base
import Verif.Model.Utf8
import Verif.Model.Strings
import Verif.Model.Token
import Verif.Model.Scanner
import Verif.Model.ScannerRev
import Verif.Model.Read
import Verif.Model.Reader
import Verif.Model.Sort
import Verif.Model.Graph
import Verif.Model.Grammars
import Verif.Spec.Text
import Verif.Proofs.Utf8
import Verif.Proofs.Pieces
import Verif.Proofs.Back
import Verif.Spec.Scan
import Verif.Proofs.Scan
import Verif.Proofs.BackScan
import Verif.Model.Client
import Verif.Model.Monitor
import Verif.Model.Demo
import Verif.Spec.Number
import Verif.Proofs.Number
import Verif.Props.C01
import Verif.Props.C02
import Verif.Props.C03
import Verif.Props.C05
import Verif.Props.C06
import Verif.Props.C07
import Verif.Props.C08
import Verif.Props.C09
import Verif.Props.C10
import Verif.Props.C11
import Verif.Props.C12
import Verif.Props.C13
import Verif.Props.C14
import Verif.Props.C16
import Verif.Props.C17
import Verif.Props.C18
import Verif.Props.C19
import Verif.Props.C22
import Verif.Props.C24
import Verif.Proofs.Sort
import Verif.Props.C26
import Verif.Spec.Graph
import Verif.Proofs.Graph
import Verif.Props.C28
import Verif.Proofs.Exec
import Verif.Proofs.Eat
import Verif.Proofs.EatSim
import Verif.Proofs.Safe
import Verif.Props.C32
import Verif.Proofs.EatMono
import Verif.Spec.Peg
import Verif.Spec.PegReader
import Verif.Proofs.PegBase
import Verif.Proofs.PegLeaf
import Verif.Proofs.PegEat
import Verif.Proofs.PegConv
import Verif.Props.C34
import Verif.Props.C35
import Verif.Spec.WellFormed
import Verif.Proofs.Tidy
import Verif.Proofs.Term
import Verif.Proofs.TermText
import Verif.Props.C36
import Verif.Props.C36Bytes
import Verif.Props.C47
import Verif.Props.C48
import Verif.Props.C49
import Verif.Props.C49Exact
import Verif.Props.C37
import Verif.Proofs.Place
import Verif.Props.C38
import Verif.Spec.Match
import Verif.Proofs.Search
import Verif.Props.C40
import Verif.Props.C39
import Verif.Props.C39Janus
import Verif.Proofs.Frame
import Verif.Proofs.Basket
import Verif.Spec.Picks
import Verif.Proofs.Picks
import Verif.Props.C41
import Verif.Props.C42
import Verif.Spec.Log
import Verif.Proofs.Log
import Verif.Proofs.Blind
import Verif.Spec.Strip
import Verif.Proofs.Strip
import Verif.Props.C43
import Verif.Props.C44
import Verif.Proofs.PegCalc
import Verif.Props.C45
import Verif.Props.C46
import Verif.Props.C50
import Verif.Props.C51
import Verif.Props.C52
import Verif.Spec.Lua
import Verif.Proofs.Gives
import Verif.Props.C53
import Verif.Spec.Mxt
import Verif.Spec.MxtRead
import Verif.Props.C54
import Verif.Props.C55
import Verif.Props.C56
import Verif.Props.C57
import Verif.Props.C58
import Verif.Props.C59
import Verif.Props.C60
import Verif.Props.C61
import Verif.Props.C61Words
import Verif.Props.C62
import Verif.Props.C63
import Verif.Props.C64
import Verif.Props.C58Sharp
import Verif.Props.C58Bytes
import Verif.Props.C65
import Verif.Props.C66
import Verif.Props.C67
import Verif.Props.BackExact
import Verif.Props.GraphBuild
import Verif.Proofs.Gets
import Verif.Spec.LuaProg
import Verif.Proofs.LuaTok
import Verif.Proofs.LuaCls
import Verif.Proofs.LuaStep
import Verif.Proofs.LuaPhrase
import Verif.Proofs.LuaExp
import Verif.Proofs.LuaStat
import Verif.Proofs.LuaGood
import Verif.Spec.LuaGrammar
import Verif.Proofs.LuaChunk
import Verif.Props.C68
import Verif.Model.Slice
import Verif.Props.C69
import Verif.Model.GraphMem
import Verif.Proofs.GraphMem
import Verif.Props.C70
import Verif.Model.Machine
import Verif.Props.C71
import Verif.Proofs.LuaGive
import Verif.Spec.LuaNote
import Verif.Proofs.LuaNote
import Verif.Props.C72
import Verif.Props.C73
import Verif.Spec.LuaLoose
import Verif.Proofs.Tells
import Verif.Proofs.TellLeaf
import Verif.Proofs.TellRules
import Verif.Proofs.LuaUpper
import Verif.Props.C74
import Verif.Proofs.SearchAll
import Verif.Model.Reflect
import Verif.Props.C75
import Verif.Props.C76
import Verif.Proofs.Front
import Verif.Props.C77
import Verif.Proofs.Counts
import Verif.Proofs.Pays
import Verif.Proofs.PaysMore
import Verif.Proofs.PaysExp
import Verif.Props.C78Lua
import Verif.Props.C78
import Verif.Props.C78Mxt
import Verif.Props.C78Upper
import Verif.Props.C78Exp
import Verif.Proofs.Memory
import Verif.Props.C79
import Verif.Spec.Nesting
import Verif.Proofs.Depth
import Verif.Proofs.DepthLin
import Verif.Props.C80
import Verif.Proofs.MxtTotal
import Verif.Props.C81
import Verif.Spec.MxtBytes
import Verif.Proofs.GivesAll
import Verif.Proofs.MxtBytes
import Verif.Props.C82
import Verif.Proofs.Law
import Verif.Proofs.LawSwap
import Verif.Proofs.LawEqs
import Verif.Proofs.LawMore
import Verif.Spec.Law
import Verif.Props.C83
import Verif.Props.C84
import Verif.Tests.Library
import Verif.Tests.Grammars
import Verif.Spec.Place
import Verif.Spec.Forever
import Verif.Proofs.Forever
import Verif.Proofs.ForeverRead
import Verif.Props.C85
import Verif.Props.C58Exact
import Verif.Props.C59Exact
import Verif.Spec.PickTree
import Verif.Proofs.GraphShape
import Verif.Props.C86
import Verif.Spec.Trace
import Verif.Proofs.Cells
import Verif.Proofs.Trace
import Verif.Proofs.Trace2
import Verif.Props.C87
import Verif.Spec.Blame
import Verif.Proofs.Blame
import Verif.Props.C88
import Verif.Props.C83Errors
import Verif.Props.C83Wrap
import Verif.Spec.MxtFault
import Verif.Props.C89
import Verif.Proofs.JsonLongest
import Verif.Props.C90
import Verif.Spec.JsonFault
import Verif.Proofs.JsonLists
import Verif.Props.C91
import Verif.Spec.MxtWrite
import Verif.Props.C92
import Verif.Model.Disturb
import Verif.Proofs.Disturb
import Verif.Props.C93
import Verif.Spec.JsonStream
import Verif.Props.C94
import Verif.Props.C95
import Verif.Spec.Wrap
import Verif.Proofs.Lim
import Verif.Props.C96
import Verif.Spec.Rename
import Verif.Proofs.Rename
import Verif.Props.C97
import Verif.Spec.JsonValue
import Verif.Proofs.JsonValue
import Verif.Props.C98
import Verif.Spec.Window
import Verif.Proofs.Window
import Verif.Props.C99
import Verif.Spec.Renumber
import Verif.Proofs.Renumber
import Verif.Props.C100
import Verif.Spec.Relocate
import Verif.Proofs.Relocate
import Verif.Props.C101
import Verif.Spec.Fewer
import Verif.Proofs.Fewer
import Verif.Props.C102
import Verif.Props.C102Apart
import Verif.Props.C102Body
import Verif.Props.C103
import Verif.Props.C104
import Verif.Props.C105
import Verif.Spec.JsonBare
import Verif.Proofs.JsonBare
import Verif.Proofs.JsonTrim
import Verif.Props.C103Flat
import Verif.Props.C106
import Verif.Props.C107
import Verif.Props.C108
import Verif.Props.C108Exact
import Verif.Spec.Rewrite
import Verif.Props.C109
import Verif.Props.C109Body
import Verif.Spec.Reach
import Verif.Props.C110
import Verif.Spec.Muted
import Verif.Proofs.Muted
import Verif.Props.C111
import Verif.Spec.MxtEdit
import Verif.Proofs.MxtEdit
import Verif.Props.C112
import Verif.Spec.Watch
import Verif.Proofs.Watch
import Verif.Props.C113
import Verif.Props.C113Print
import Verif.Props.C114
