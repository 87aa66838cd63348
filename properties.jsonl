{"id": "C01", "title": "Rune iteration decodes UTF-8 correctly", "statement": "Walking a text forward rune by rune (ReadRune, MoveRunes(1), ToMatch, ...) splits it into the encodings of its Unicode scalar values; a position where no scalar value is encoded yields U+FFFD and exactly one byte. Every step consumes at least one byte and the pieces concatenate to the text. Walking backward from a scalar boundary yields the same scalar values in reverse.", "quantifier": "every byte string, valid UTF-8 or not; every sequence of Unicode scalar values", "why_tests_cant": "The set of byte strings is infinite and the malformed cases (overlong, surrogate, truncated) are combinatorial.", "anchors": ["scanner.go: IfRune, ToRune, MoveRunes", "read.go: ReadRune, RevReadRune", "intl.go: revItr"]}
{"id": "C02", "title": "Scanner position safety", "statement": "After any sequence of Scanner calls the position stays between 0 and the length of the text, Head()+Tail() is the original text, AtStart() and AtEnd() tell whether Head() and Tail() are empty, the text never changes, and no call panics.", "quantifier": "every text, every finite sequence of Scanner method calls with any arguments", "why_tests_cant": "Requires an invariant over all histories of calls, not only the sampled ones.", "anchors": ["scanner.go: Scanner, Move, ToMarker, Tail, Head, AtStart, AtEnd", "scanner_rev.go", "token.go: Get, Since"]}
{"id": "C03", "title": "Failed scopes roll back", "statement": "Scope, Trace, Tokenize, Capture, Use, UseFunc, TraceUse, TraceUseFunc, TokenizeUse and CaptureUse leave the scanner where it was whenever the callback or reader reports failure, and leave it where the callback put it on success.", "quantifier": "every callback or reader, every scanner state", "why_tests_cant": "The callback is arbitrary code; tests only try a few callbacks.", "anchors": ["scanner.go: Scope, Trace", "token.go: Tokenize, TokenizeUse, Capture, CaptureUse", "reader.go: Use, UseFunc, TraceUse, TraceUseFunc"]}
{"id": "C04", "title": "Captured text is exactly what was scanned", "statement": "On success Trace, Capture, TraceUse, TraceUseFunc, CaptureUse return, and Tokenize and TokenizeUse mark, exactly the bytes between the position before and the position after the call.", "quantifier": "every callback or reader that moves the scanner forward or backward, every text", "why_tests_cant": "Quantifies over all callbacks, texts and positions.", "anchors": ["scanner.go: Trace", "token.go: Tokenize, Since, Get, Capture, CaptureUse", "reader.go: TraceUse"]}
{"id": "C05", "title": "Literal scanning: If, IfAny, To", "statement": "If(str) succeeds iff str is a prefix of Tail() and then moves by len(str); IfAny takes the first listed string that is a prefix; To(str) succeeds iff str occurs in Tail() and then moves exactly to its first occurrence; on failure nothing moves.", "quantifier": "every text, position and argument string(s)", "why_tests_cant": "First-occurrence and prefix claims range over all texts and needles.", "anchors": ["scanner.go: If, IfAny, To"]}
{"id": "C06", "title": "Single-rune scanning: IfRune, ToRune, WhileRune", "statement": "IfRune(r) succeeds iff the first rune of Tail() is r and moves over it; ToRune(r) moves to the first r and fails without moving if there is none; WhileRune(r) moves over the maximal run of r.", "quantifier": "every text, position and rune", "why_tests_cant": "Ranges over all texts including malformed UTF-8 and end of input.", "anchors": ["scanner.go: IfRune, ToRune, WhileRune"]}
{"id": "C07", "title": "Rune-set scanning: IfAnyRune, ToAnyRune, WhileAnyRune", "statement": "IfAnyRune(str) moves over the first rune iff it is one of the runes of str; ToAnyRune moves to the first such rune; WhileAnyRune moves over the maximal run of such runes.", "quantifier": "every text, position and rune set", "why_tests_cant": "Ranges over all texts and sets, including the end-of-input cases.", "anchors": ["scanner.go: IfAnyRune, ToAnyRune, WhileAnyRune"]}
{"id": "C08", "title": "Rune-range scanning: IfBetween, ToBetween, WhileBetween", "statement": "IfBetween(min,max) moves over the first rune iff min <= rune <= max; ToBetween moves to the first such rune; WhileBetween moves over the maximal run of such runes.", "quantifier": "every text, position, min and max", "why_tests_cant": "Ranges over all texts and bounds.", "anchors": ["scanner.go: IfBetween, ToBetween, WhileBetween, inRange"]}
{"id": "C09", "title": "Predicate scanning: IfMatch, ToMatch, WhileMatch", "statement": "IfMatch(f) moves over the first rune iff f accepts it; ToMatch moves to the first accepted rune; WhileMatch moves over the maximal run of accepted runes.", "quantifier": "every text, position and predicate", "why_tests_cant": "The predicate is arbitrary.", "anchors": ["scanner.go: IfMatch, ToMatch, WhileMatch"]}
{"id": "C10", "title": "The boolean tells whether the scanner moved", "statement": "For each While* and RevWhile* call the returned bool is true iff the scanner moved.", "quantifier": "every text, position and argument", "why_tests_cant": "The interesting cases are boundary cases over all inputs (nothing matches, everything matches, end of input).", "anchors": ["scanner.go: WhileRune, WhileAnyRune, WhileBetween, WhileMatch", "scanner_rev.go: RevWhileRune, RevWhileAnyRune, RevWhileBetween, RevWhileMatch"]}
{"id": "C11", "title": "Reverse literal scanning: RevIf, RevIfAny, RevTo", "statement": "RevIf(str) succeeds iff Head() ends with str and then moves back by len(str); RevIfAny takes the first listed such string; RevTo(str) moves back to the end of the last occurrence of str in Head() and fails without moving if there is none.", "quantifier": "every text, position and argument string(s)", "why_tests_cant": "Last-occurrence claims range over all texts and needles.", "anchors": ["scanner_rev.go: RevIf, RevIfAny, RevTo", "intl.go: revItr"]}
{"id": "C12", "title": "Reverse one-rune scanning: RevIfRune, RevIfAnyRune, RevIfBetween, RevIfMatch", "statement": "Each moves back over the last rune of Head() iff that rune equals r / is in the set / is in the range / is accepted by the predicate.", "quantifier": "every text, position and argument", "why_tests_cant": "The repository has empty test tables for half of these; the claim ranges over all texts.", "anchors": ["scanner_rev.go: RevIfRune, RevIfAnyRune, RevIfBetween, RevIfMatch"]}
{"id": "C13", "title": "Reverse search: RevToRune, RevToAnyRune, RevToBetween, RevToMatch", "statement": "Each moves back to just after the last rune of Head() that matches, and fails without moving if there is none.", "quantifier": "every text, position and argument", "why_tests_cant": "Ranges over all texts, including U+FFFD and malformed bytes in Head().", "anchors": ["scanner_rev.go: RevToRune, RevToAnyRune, RevToBetween, RevToMatch", "intl.go: revItr"]}
{"id": "C14", "title": "Reverse runs: RevWhileRune, RevWhileAnyRune, RevWhileBetween, RevWhileMatch", "statement": "Each moves back over the maximal run of matching runes at the end of Head().", "quantifier": "every text, position and argument", "why_tests_cant": "Ranges over all texts, including U+FFFD and malformed bytes in Head().", "anchors": ["scanner_rev.go: RevWhileRune, RevWhileAnyRune, RevWhileBetween, RevWhileMatch", "intl.go: revItr"]}
{"id": "C15", "title": "Backward undoes forward", "statement": "After a successful If(str), RevIf(str) succeeds and restores the position, and conversely; likewise ReadRune/RevReadRune and MoveRunes(n)/MoveRunes(-n) on well-formed text.", "quantifier": "every text, position, string and n", "why_tests_cant": "A round-trip law over all texts.", "anchors": ["scanner.go: If, MoveRunes", "scanner_rev.go: RevIf", "read.go: ReadRune, RevReadRune"]}
{"id": "C16", "title": "MoveRunes counts runes", "statement": "On well-formed text MoveRunes(n) moves exactly n characters forward (backward for negative n), or returns false without moving when fewer are available; MoveRunes(0) succeeds without moving.", "quantifier": "every text and position, every n", "why_tests_cant": "Ranges over all texts and counts.", "anchors": ["scanner.go: MoveRunes", "intl.go: revItr"]}
{"id": "C17", "title": "Case-insensitive scanning: IfFold, ToFold, RevIfFold, RevToFold and the Fold reader", "statement": "IfFold(str) moves over a prefix of Tail() equal to str under case folding; ToFold moves to the first such occurrence; RevIfFold and RevToFold are the backward counterparts; none of them panics.", "quantifier": "every text, position and argument string", "why_tests_cant": "Boundary cases (short rest of text, characters whose case variants differ in byte length) range over all texts.", "anchors": ["scanner.go: IfFold, ToFold", "scanner_rev.go: RevIfFold, RevToFold", "reader.go: Fold, AnyFold"]}
{"id": "C18", "title": "ScanString reads exactly n runes", "statement": "ScanString(n) returns the first n runes of Tail() and moves over them iff at least n runes are left; otherwise it does not move.", "quantifier": "every text, position and n", "why_tests_cant": "Boundary n = number of remaining runes over all texts.", "anchors": ["scanner.go: ScanString", "intl.go: getPrefix, midSubString, subStringFrom"]}
{"id": "C19", "title": "LineCol", "statement": "LineCol returns one plus the number of line breaks before the position, and one plus the width of the text since the last line break with each tab counted as the tab argument; CRLF counts as one break.", "quantifier": "every text, position and tab width", "why_tests_cant": "Ranges over all texts.", "anchors": ["scanner.go: LineCol"]}
{"id": "C20", "title": "ReadRune and RevReadRune", "statement": "ReadRune returns the next character and moves over it; it fails without moving exactly when there is no well-formed character other than U+FFFD at the position. RevReadRune is its mirror image.", "quantifier": "every text and position", "why_tests_cant": "Ranges over all byte strings.", "anchors": ["read.go: ReadRune, RevReadRune"]}
{"id": "C21", "title": "ReadBool", "statement": "ReadBool accepts exactly the spellings selected by the format, returns the matching value and moves over the spelling; an unknown format or a missing spelling is an error that does not move the scanner.", "quantifier": "every text, position and format string", "why_tests_cant": "Ranges over all texts and formats.", "anchors": ["read.go: ReadBool"]}
{"id": "C22", "title": "ReadUint returns the value it consumed", "statement": "ReadUint(base, bitSize) consumes the longest run of digits whose numeric value fits in bitSize bits, returns precisely that value, and fails without moving when there is no digit or an argument is invalid.", "quantifier": "every text, position, base and bitSize", "why_tests_cant": "Overflow and wrap-around depend on unbounded digit strings.", "anchors": ["read.go: ReadUint, octValue, decValue, hexValue"]}
{"id": "C23", "title": "ReadInt returns the value it consumed", "statement": "ReadInt(base, bitSize) consumes an optional sign and the longest run of digits whose signed value fits in bitSize bits, returns precisely that value, and fails without moving otherwise.", "quantifier": "every text, position, base and bitSize", "why_tests_cant": "Overflow and wrap-around depend on unbounded digit strings.", "anchors": ["read.go: ReadInt, octValue, decValue, hexValue"]}
{"id": "C24", "title": "Token algebra", "statement": "Tokens made by MakeToken are ordered whatever the argument order; Covers is a partial order; Merge is the least token covering both; Clashes is symmetric and holds iff the tokens overlap and neither covers the other; Split by a covered token returns the left and right remainders.", "quantifier": "all markers and tokens", "why_tests_cant": "Order-theoretic laws over all pairs and triples.", "anchors": ["token.go: MakeToken, After, Before, Merge, Clashes, Covers, Split, Len"]}
{"id": "C25", "title": "Segmentate partitions the text", "statement": "A successful Segmentate returns contiguous segments that partition the original segment (so the concatenated sub strings give back the text), containing every given segment in order and only non-empty filler segments carrying the original info; it succeeds iff the given segments are inside, ordered and non-overlapping.", "quantifier": "every text and every list of segments", "why_tests_cant": "Ranges over all lists of segments.", "anchors": ["segment.go: Segment.Segmentate, Scanner.Segmentate, Segment.Split"]}
{"id": "C26", "title": "SortSegments orders covering segments first", "statement": "SortSegments permutes the slice so that a segment that covers another, or lies before it, comes first; equal tokens keep their relative order (stable sort).", "quantifier": "every slice of segments", "why_tests_cant": "Ranges over all slices; comparator consistency is a global property.", "anchors": ["segment.go: SortSegments, segSorter"]}
{"id": "C27", "title": "SortSegmentsByOrder breaks ties by the order slice", "statement": "SortSegmentsByOrder sorts like SortSegments and places segments with equal tokens in the order in which their infos appear in the order slice, keeping the input order among segments with the same info.", "quantifier": "every slice of segments and order slice", "why_tests_cant": "Ranges over all slices.", "anchors": ["segment.go: SortSegmentsByOrder, segSorter"]}
{"id": "C28", "title": "Graph.Append accepts exactly the non-clashing segments and is atomic", "statement": "Append returns true iff the segment clashes with no segment already in the graph; when it returns false the graph is unchanged.", "quantifier": "every graph built by Append from NewGraph and every segment", "why_tests_cant": "Invariant over all append histories.", "anchors": ["graph.go: Append, rankNodes"]}
{"id": "C29", "title": "Graph tree invariant", "statement": "In every graph built by Append each node covers its children, siblings are pairwise disjoint and listed in text order, and the root covers everything.", "quantifier": "every history of Append calls", "why_tests_cant": "Invariant over all append histories.", "anchors": ["graph.go: Append, rankNodes, nodeByPos"]}
{"id": "C30", "title": "Graph keeps every accepted segment exactly once", "statement": "The nodes below the root are exactly the accepted segments with their multiplicities; Leafs returns, in text order, exactly the nodes without children; FlameStack prints one line per node.", "quantifier": "every history of Append calls", "why_tests_cant": "Invariant over all append histories.", "anchors": ["graph.go: Append, rankNodes, Leafs, FlameStack, BuildGraph"]}
{"id": "C31", "title": "Graph shape does not depend on the append order", "statement": "Appending the same pairwise non-clashing segments with distinct tokens in any order gives Equal graphs; Equal is structural equality.", "quantifier": "every set of such segments and every pair of orders", "why_tests_cant": "There are factorially many orders.", "anchors": ["graph.go: Append, BuildGraph, Equal"]}
{"id": "C32", "title": "Readers stay inside the text and never move backward", "statement": "Reading with any reader built from the package's constructors leaves the text unchanged, ends at a position between the start position and the end of the text, and does not panic.", "quantifier": "every reader expression and grammar, every text and position", "why_tests_cant": "Induction over all reader expressions and all inputs.", "anchors": ["reader.go: all Read methods", "tracker.go: pickReader", "monitor.go: monitorReader", "grammar.go: Rule.Read"]}
{"id": "C33", "title": "A failed Read does not move the scanner", "statement": "When Read returns an error the scanner is back at the position where the read started.", "quantifier": "every reader expression and grammar, every text and position", "why_tests_cant": "Induction over all reader expressions and all inputs.", "anchors": ["reader.go: all Read methods"]}
{"id": "C34", "title": "The combinators implement parsing-expression semantics", "statement": "Seq, Any, Opt, Zom, Many, At, Not, To, Past, Times, SkipSeq, Body, BodyTail, Named, rules and the primitive readers succeed and consume exactly as the parsing-expression-grammar semantics of the expression says (ordered choice, greedy repetition, lookahead).", "quantifier": "every stateless reader expression and grammar, every text and position", "why_tests_cant": "Semantic equivalence over all expressions and inputs.", "anchors": ["reader.go: all Read methods", "grammar.go: Rule.Read"]}
{"id": "C35", "title": "Reading depends only on the text ahead", "statement": "Whether a stateless reader succeeds and how many bytes it consumes depends only on Tail(), not on Head(), the tracker, baskets, logs or previous reads.", "quantifier": "every stateless reader, all pairs of scanners with equal Tail()", "why_tests_cant": "A relational (two-run) property.", "anchors": ["reader.go: all Read methods", "scanner.go: Tail"]}
{"id": "C36", "title": "Reading terminates", "statement": "Read terminates on every text for every grammar without left recursion and without repetition of a reader that can succeed without consuming.", "quantifier": "every such grammar and every text", "why_tests_cant": "Non-termination cannot be observed by a finite test; termination must hold for all inputs.", "anchors": ["reader.go: zomReader, manyReader, pastReader, bodyReader, bodyTailReader, toReader, notReader, holeyReader"]}
{"id": "C37", "title": "Error reporting", "statement": "A failing reader returns a non-nil error whose position lies between the start of the read and the end of the text; Any reports the error of the deepest failing alternative.", "quantifier": "every reader expression, text and position", "why_tests_cant": "Induction over all reader expressions.", "anchors": ["reader.go: anyReader, getDeepest", "error.go: ReadError, Later, ErrorFor, ErrorIfFalse"]}
{"id": "C38", "title": "Janus matches the same text twice", "statement": "After the first Janus reader matched, the second matches exactly the same sub string, no matter what is read in between.", "quantifier": "every inner reader, text and reader placed between or around the pair", "why_tests_cant": "Stateful behaviour across backtracking over all inputs.", "anchors": ["reader.go: Janus, janusBeginReader, janusEndReader", "grammar/lua.go: LuaString, LuaComment", "grammar/mxt.go: Salt, NextMarker"]}
{"id": "C39", "title": "Body and BodyTail", "statement": "Body(b,t) stops before, BodyTail(b,t) after, the first position where t matches, and succeeds only if b reads exactly the text in between; positions reported from inside b refer to the scanned text.", "quantifier": "every body and tail reader, text and position", "why_tests_cant": "Ranges over all readers and texts.", "anchors": ["reader.go: bodyReader, bodyTailReader"]}
{"id": "C40", "title": "Lookahead and search readers: At, Not, To, Past, AtEnd", "statement": "At(r) never moves and succeeds iff r does; Not(r) succeeds iff r fails and a rune is left, moving one rune; To(r) stops before and Past(r) after the first rune position where r matches and both fail without moving if there is none.", "quantifier": "every reader, text and position", "why_tests_cant": "Ranges over all readers and texts.", "anchors": ["reader.go: atReader, notReader, toReader, pastReader, atEndReader"]}
{"id": "C41", "title": "Basket contents follow the scanner", "statement": "At every moment the picked segments end at or before the scanner position, are ordered by their end, and lie inside the text; segments picked inside a part of the parse that was rolled back are gone, all others are kept.", "quantifier": "every reader expression with picks, every text, every scanner history", "why_tests_cant": "Invariant over all backtracking histories.", "anchors": ["tracker.go: Basket.Update, Basket.Add, pickReader", "scanner.go: Move, ToMarker"]}
{"id": "C42", "title": "Picked segments never clash, so BuildGraph loses nothing", "statement": "The segments picked during a read are pairwise non-clashing, hence BuildGraph on Picked() accepts every one of them.", "quantifier": "every grammar with picks and every text", "why_tests_cant": "Global property of all parse histories.", "anchors": ["tracker.go: pickReader, Basket", "graph.go: BuildGraph, Append", "token.go: Clashes"]}
{"id": "C43", "title": "Log records are balanced and complete", "statement": "Monitoring does not change what is read; after a read the nesting level is back to its start value, entries appear in call order with the right level, and each entry carries the exit position and error of its call.", "quantifier": "every monitored grammar and text", "why_tests_cant": "Nesting depth and slice reallocation depend on the whole history.", "anchors": ["monitor.go: Log, Enter, Exit, monitorReader"]}
{"id": "C44", "title": "Map, Pick, Monitor and Named are transparent", "statement": "Wrapping a reader in Map, Pick, Monitor or Named changes neither success nor the consumed text; Map calls its function once per successful read with exactly the token read.", "quantifier": "every reader, text and position", "why_tests_cant": "Ranges over all readers and texts.", "anchors": ["reader.go: mapReader, namedReader", "tracker.go: pickReader", "monitor.go: monitorReader", "grammar.go: Rule.Map, Rule.Pick, Rule.Monitor"]}
{"id": "C45", "title": "CheckRuleName accepts exactly rule names", "statement": "CheckRuleName(name) is nil iff the whole name is a letter followed by letters, digits or any of + - . _.", "quantifier": "every string", "why_tests_cant": "Ranges over all strings.", "anchors": ["grammar.go: CheckRuleName, RuleName, ruleNameReader"]}
{"id": "C46", "title": "The shipped grammars are well-wired", "statement": "For JSON, MXT and Lua every rule has its declared valid name and a non-nil reader, every rule referenced while reading belongs to the grammar, and no rule contains an invalid reader; CheckRules reports an error iff some rule has a bad name or a nil reader.", "quantifier": "every rule of the shipped grammars; every grammar for CheckRules", "why_tests_cant": "A rule missing in one branch only shows on inputs that reach it.", "anchors": ["grammar/json.go", "grammar/mxt.go", "grammar/lua.go", "grammar.go: SetRuleNames, CollectRules, CheckRules"]}
{"id": "C47", "title": "JSON reader is sound", "statement": "If the JSON grammar reads a prefix of the text without error, that prefix is a JSON element (value with surrounding white space) of the McKeeman grammar.", "quantifier": "every text", "why_tests_cant": "Ranges over all texts; needs induction over nesting.", "anchors": ["grammar/json.go: JSON, JSONReader.Read"]}
{"id": "C48", "title": "JSON reader is complete", "statement": "If the text is a JSON document, the JSON grammar reads it to the end without error.", "quantifier": "every JSON document", "why_tests_cant": "Ranges over all documents; needs induction over nesting.", "anchors": ["grammar/json.go: JSON, JSONReader.Read"]}
{"id": "C49", "title": "JSON reader terminates", "statement": "Reading with the JSON grammar terminates on every text.", "quantifier": "every text", "why_tests_cant": "Non-termination cannot be observed by a finite test.", "anchors": ["grammar/json.go: JSON", "reader.go: holeyReader, zomReader"]}
{"id": "C50", "title": "Invalid readers are detectable", "statement": "A reader expression that contains an invalid reader (not hidden behind a name) has the invalid-reader marker in What(), and reading an invalid reader always fails without moving; constructors return an invalid reader exactly for unsupported arguments.", "quantifier": "every reader expression", "why_tests_cant": "Structural induction over all expressions.", "anchors": ["reader.go: InvalidReader, HasInvalidReader, AnyHasInvalidReader, asReader, all What methods"]}
{"id": "C51", "title": "Range-set constructors: BetweenAny, Set, BuildBetweenAny, HexDigit, Digit, Holey", "statement": "BetweenAny(str)/Set(ranges,singles)/BuildBetweenAny read one rune iff it lies in one of the described ranges or singles, malformed descriptions give an invalid reader; Holey(min,max,holes) reads one rune iff it is in range and not a hole; none of them succeeds without consuming.", "quantifier": "every description string, text and position", "why_tests_cant": "Ranges over all descriptions and texts.", "anchors": ["reader.go: BetweenAny, Set, BuildBetweenAny, HexDigit, Digit, Holey, betweenAnyReader, holeyReader"]}
{"id": "C52", "title": "Lua operators are all readable", "statement": "Every binary operator of the Lua grammar's operator list is read completely by the operator rule when it stands at the scanner position.", "quantifier": "every listed operator and every following text", "why_tests_cant": "Shadowing between alternatives depends on the following text.", "anchors": ["grammar/lua.go: BinOp, UnOp"]}
{"id": "C53", "title": "Lua comments, strings and long brackets", "statement": "A line comment is read up to the line break or the end of the text; a long bracket string or comment is read up to the first closing bracket of the same level.", "quantifier": "every comment or long string content and following text", "why_tests_cant": "Ranges over all contents, including partial closing brackets.", "anchors": ["grammar/lua.go: LuaComment, LuaString"]}
{"id": "C54", "title": "MXT chunk extraction", "statement": "Reading an MXT document made of a header and a content yields exactly that name and that content and ends at the end of the text.", "quantifier": "every well-formed name and content", "why_tests_cant": "Ranges over all names and contents.", "anchors": ["grammar/mxt.go: MXT"]}
{"id": "C55", "title": "Value readers store what they read", "statement": "After a successful read Bool, Int and Uint readers hold the value that the corresponding Scanner method returns for that position; the field is overwritten by every read, also by a failing one.", "quantifier": "every text, position, format, base and bit size", "why_tests_cant": "Ranges over all texts.", "anchors": ["reader.go: BoolReader, IntReader, UintReader"]}
{"id": "C56", "title": "json-stack prints the tree of a JSON document", "statement": "For every JSON document (McKeeman grammar of json.org, UTF-8 encoded) the program demo/json-stack prints exactly one line for every key, object, array, string, number, boolean and null of the document and one for the file, in text order with parents first; each line names the path from the root to the node with the child numbers and byte ranges, followed by the number of bytes of the node.", "quantifier": "every JSON document, every file name", "why_tests_cant": "Ranges over all documents of unbounded size and nesting; combines the grammar, the picks, the basket clean-up and the graph.", "anchors": ["demo/json-stack/main.go", "grammar/json.go: JSON", "reader.go: Rule.Pick", "scanner.go: NewBasket, basket", "graph.go: BuildGraph, FlameStack"]}
{"id": "C57", "title": "json-stack rejects what is not JSON", "statement": "For every file that is not a JSON document the program demo/json-stack ends with the error message and prints no stack.", "quantifier": "every file", "why_tests_cant": "Ranges over all files that are not JSON.", "anchors": ["demo/json-stack/main.go", "grammar/json.go: JSON", "scanner.go: Use"]}
{"id": "C58", "title": "Reading Lua ends", "statement": "Reading with the Lua grammar ends on every text.", "quantifier": "every text, every scanner state", "why_tests_cant": "Termination of a recursive grammar with loops and Janus brackets over all texts; the failing texts are unbounded families.", "anchors": ["grammar/lua.go: Lua, LuaString, LuaComment", "reader.go: Zom, Past, Janus, SkipSeq"]}
{"id": "C59", "title": "full-lua-stack prints Lua files and rejects others", "statement": "For every Lua file the program demo/full-lua-stack prints the tree of everything that was picked, one line per node, and for every file that is not Lua it ends with the error message.", "quantifier": "every file, every file name", "why_tests_cant": "Ranges over all files; combines termination and totality of the grammar, the picks, the basket clean-up and the graph.", "anchors": ["demo/full-lua-stack/main.go", "grammar/lua.go: Lua", "tracker.go: NewBasketFor, PickWith", "graph.go: BuildGraph, FlameStack"]}
{"id": "C60", "title": "The printed log shows the text at every entry", "statement": "After a read with monitored rules Log.Print and Log.PrintWithPreview(text, n) print one line per call in call order, without panic; each line has the level, as many dots, the position and the name of the rule, and with preview the quoted next n characters of the text at that position.", "quantifier": "every grammar, reader, text and n", "why_tests_cant": "Ranges over all texts; the counting of bytes and runes agrees on the ASCII texts that tests use.", "anchors": ["monitor.go: LogEntry.String, Log.Print, Log.PrintWithPreview, MonitorGrammar", "intl.go: midSubString, getPrefix, subStringFrom"]}
{"id": "C61", "title": "What tells which reader it is", "statement": "Two readers with the same What() are the same reader: the text that grammars print and that errors of rules without body show determines what is read; quoting of literals is unambiguous.", "quantifier": "every pair of readers, every table of graphic characters", "why_tests_cant": "Ranges over pairs of readers of any depth and all literals; tests compare a few printed texts.", "anchors": ["reader.go: What methods of all readers", "intl.go: quote helpers (strconv.QuoteToGraphic, QuoteRuneToGraphic, QuoteRune)"]}
{"id": "C62", "title": "Lua names", "statement": "The rule Name of the Lua grammar reads exactly the names of Lua: the longest run of letters, digits and underscores that begins with no digit, if that run is not a reserved word.", "quantifier": "every text and every position in it", "why_tests_cant": "Ranges over all texts, also ones that are not UTF-8; tests try a few names.", "anchors": ["grammar/lua.go:111 Name", "reader.go: SetReader, SeqReader, ZomReader"]}
{"id": "C63", "title": "Lua numerals", "statement": "The rule Numeral of the Lua grammar reads exactly the longest beginning of the text that is a numeral of Lua 5.4 (decimal or hexadecimal, radix point with digits on at least one side, optional exponent) and reports an error where no numeral begins.", "quantifier": "every text and every position in it", "why_tests_cant": "Ranges over all texts and all lengths of digits; the alternatives overlap, so the claim is about which of several readings wins.", "anchors": ["grammar/lua.go:10-18 LuaNumeral", "grammar/lua.go:113 Numeral"]}
{"id": "C64", "title": "Lua short strings", "statement": "At a quote the rule LiteralString of the Lua grammar reads exactly the short literal strings of Lua 5.4, ends on every text, and reports an error if no short string begins there.", "quantifier": "every text that begins with a quote, every position of the scanner", "why_tests_cant": "Ranges over all texts behind the quote, with any mix of escapes, and claims termination.", "anchors": ["grammar/lua.go:20-41 LuaString", "grammar/lua.go:114 LiteralString"]}
{"id": "C65", "title": "While", "statement": "While(f) calls f until it returns false, leaves the scanner where the last call left it, and returns true exactly if that is further ahead than where it began; it ends if every successful call moves the scanner ahead inside the text.", "quantifier": "every scan function f and every state of the scanner", "why_tests_cant": "The number of calls is unbounded and f is arbitrary.", "anchors": ["scanner.go:50-56 While"]}
{"id": "C66", "title": "Trackers are told every change of position", "statement": "While a client program calls methods of the scanner, or a reader reads, the coupled tracker is told every new position in order, so that the last one told is where the scanner is; other trackers are told nothing, and a reader never reports a position before its start or behind the end of the text.", "quantifier": "every client program that does not exchange the tracker, every reader whose Wrap functions, if any, go ahead only and tell their moves, every text and state", "why_tests_cant": "Claim about all sequences of calls and all grammars.", "anchors": ["tracker.go:8-10", "scanner.go:321-331 Move, ToMarker", "scanner.go:373-382 SetTracker, notify"]}
{"id": "C67", "title": "The texts of tokens, segments and errors", "statement": "The text of a token is its two numbers in decimal between brackets, that of a segment is its info and its token, and that of a read error names what was not read and the position in decimal; two tokens, segments or read errors with the same text are the same.", "quantifier": "all tokens, segments and read errors, whatever their names contain", "why_tests_cant": "Injectivity ranges over pairs of arbitrary values.", "anchors": ["token.go:63-65 String", "segment.go:27-29 String", "error.go:17-24 Error, ErrorFor"]}
{"id": "C68", "title": "The Lua grammar reads Lua chunks to their end", "statement": "From every state of a scanner in front of a Lua chunk (the syntax of section 9 of the manual, with white space between the tokens), the reader of the Lua grammar succeeds and leaves the scanner at the end of the chunk.", "quantifier": "every chunk of Lua 5.4 of any size and nesting, every layout of its tokens with white space", "why_tests_cant": "The chunks are an infinite, recursively defined language; a test reads a few files, and a wrong order of two alternatives shows only for particular neighbours of a phrase.", "anchors": ["grammar/lua.go:220-230 Read", "grammar/lua.go: Chunk, Block, Stat, Exp and the other rules"]}
{"id": "C69", "title": "The slice that Picked returns is the client's", "statement": "A slice of segments returned by Basket.Picked keeps its elements whatever is read afterwards, and what the client does with it does not change the basket.", "quantifier": "every sequence of additions and updates of a basket, calls of Picked and uses of the slices got (writing an element, appending, sorting), every way in which append grows slices", "why_tests_cant": "Whether two slices share an array depends on the capacities append chose earlier; a test sees one history and one version of the runtime.", "anchors": ["tracker.go:36-54 Add, Update, Picked", "segment.go:50-58 SortSegments"]}
{"id": "C70", "title": "The nodes of a graph form a tree in memory", "statement": "In a graph made by NewGraph or BuildGraph and filled by Append, every node is in the slice Nodes of at most one node and there once, none can be reached from itself, and the root is in no slice; the reachable nodes after Append are those before it and, if the segment was accepted, one new node; segments of nodes below the root do not change; a refused Append changes no reachable node.", "quantifier": "every sequence of segments with ordered tokens, accepted or refused, every memory", "why_tests_cant": "Sharing of pointers is invisible in the printed graph until a later Append changes one copy; the executions that could share depend on the order and nesting of all earlier segments.", "anchors": ["graph.go:51-100 Graph, rankNodes, Append", "graph.go:144-157 BuildGraph, NewGraph"]}
{"id": "C71", "title": "No int of the package is too small", "statement": "Move, MoveRunes, LineCol and Token.Len calculate with Go's int, which has 32 or 64 bits and wraps. For every text that fits into memory their results are those of the same calculation with integers that have no bounds.", "quantifier": "every width of int, every scanner, every int given as argument", "why_tests_cant": "Only arguments near the bounds of int wrap, and positions outside the text can only be reached through markers; tests use small numbers.", "anchors": ["scanner.go:309-318 LineCol", "scanner.go:321-331 Move", "scanner.go:334-355 MoveRunes", "token.go:32-34 Len"]}
{"id": "C72", "title": "The Lua grammar skips comments wherever white space may be", "statement": "From every state of a scanner in front of a Lua chunk whose tokens are separated by white space and comments (section 3.1 of the manual), the reader of the Lua grammar succeeds and leaves the scanner at the end of the chunk.", "quantifier": "every chunk of Lua 5.4, every layout of its tokens with white space, comments of one line and long comments of every level", "why_tests_cant": "A comment can stand behind every token of every phrase and hold any text; whether it is skipped depends on which of the nested sequences of the grammar skips comments and which only white space, and a wrongly placed skip can turn the text of the comment into code.", "anchors": ["grammar/lua.go:43-51 LuaComment", "grammar/lua.go:123-126 skiper, skipSeq", "grammar/lua.go:127-215 rules with skipSeq and SkipWSSeq"]}
{"id": "C73", "title": "Lua scripts with a first line", "statement": "A Lua script is a chunk in front of which may be a line that begins with # (section 7 of the manual). From every state of a scanner in front of a script, the rule Script of the Lua grammar reads to the end of the script.", "quantifier": "every script, every text in the first line, both line breaks, with and without text behind the line", "why_tests_cant": "The first line holds any text of any length; scripts that consist of the line alone, or that are given to Read instead of the rule Script, are not in the tests.", "anchors": ["grammar/lua.go:110 SheBang", "grammar/lua.go:214 Script", "grammar/lua.go:220-226 Read"]}
{"id": "C74", "title": "The Lua grammar reads only Lua", "statement": "Whatever text the reader of the Lua grammar reads over, from any state of a scanner, is a Lua chunk (the syntax of section 9 of the manual, with the tokens and comments of section 3.1).", "quantifier": "every text, every state of a scanner, every successful read, any length of the text that is read", "why_tests_cant": "The statement is about all texts that are accepted, not about samples; a test can only try texts that its author suspects, and an alternative too much in a recursive rule lets in texts of every shape.", "anchors": ["grammar/lua.go:106-215 rules", "grammar/lua.go:10-51 LuaNumeral, LuaString, LuaComment", "grammar/lua.go:220-230 Read"]}
{"id": "C75", "title": "The rules of a grammar struct", "statement": "For every struct that serves as a grammar, CollectRules returns pointers to exactly the Rule fields, in order, and does not panic; SetRuleNames gives every tagged Rule field its tag or reports the first bad tag; NewBasketFor and MonitorGrammar wrap the reader of each collected rule once and change nothing else; and a rule without a Reader stays visible to CheckRules.", "quantifier": "every struct: any number of fields, of any type, exported or not, with any tag, any rule in them", "why_tests_cant": "The tests use a few structs whose fields are all exported rules with good tags; the behaviour depends on every combination of field types, visibility, tags and missing readers.", "anchors": ["grammar.go:27-48 SetRuleNames", "grammar.go:59-71 CollectRules", "grammar.go:74-85 CheckRules", "tracker.go:21-26 NewBasketFor", "monitor.go:26-30 MonitorGrammar"]}
{"id": "C76", "title": "A grammar can be used for several baskets", "statement": "After NewBasketFor was called with the same grammar for several scanners, every read with one of them has the same result as before, fills the basket of this scanner with the segments of the parse, and leaves the baskets of the other scanners as they are.", "quantifier": "every grammar, any number of baskets, every text and state of the scanners, every rule that is read", "why_tests_cant": "The tests make one basket for a freshly built grammar; the claim is about all sequences of calls on a grammar that is shared, where every call wraps the rules once more.", "anchors": ["tracker.go:19-26 NewBasketFor", "tracker.go:64-69 PickWith", "tracker.go:72-91 pickReader"]}
{"id": "C77", "title": "The JSON grammar reports an error at the place where the text stops being JSON", "statement": "If a text does not begin with a JSON document and reading it ends with an error, the error names a position p such that the text before p is the beginning of some JSON document and the text before any later position is not.", "quantifier": "every text of characters, every start position and every failing read; the first half for every grammar without lookahead and value readers", "why_tests_cant": "The position results from choosing the deepest error among the alternatives and from failures that are thrown away by Zom and Opt; tests look at a few wrong documents, the claim speaks of all of them and of all continuations of their beginnings.", "anchors": ["reader.go:80-103", "error.go:6-32", "grammar/json.go:39-76"]}
{"id": "C78", "title": "The number of rules a grammar reads is proportional to the length of the text", "statement": "For each shipped grammar there is a number c such that reading any text of length n with all rules monitored, if it comes to an end, adds at most c*(n+1) entries to the log.", "quantifier": "every text, every start position, every read that comes to an end, successful or not; for the counterexamples every n", "why_tests_cant": "Tests read short documents, for which repeated reading of the same alternative is not noticed; the claim is about the growth over all texts, and failing reads with nested alternatives are where it goes wrong.", "anchors": ["monitor.go:26-53", "reader.go:91-103", "grammar/json.go:39-67", "grammar/lua.go:151-162"]}
{"id": "C79", "title": "What a grammar has read before does not change what it reads", "statement": "Reading a text with a JSON, Lua or MXT grammar that has already read other texts, successfully or not, gives the same error or success, the same position and the same baskets, logs, values and calls of map functions as reading it with a new grammar.", "quantifier": "every text, start position, step budget and every content of the memory of the grammar (the strings of its Janus pairs); for general grammars every grammar and reader without Wrap", "why_tests_cant": "The memory of a grammar is any string that some earlier text has left in it, and the claim compares two executions that differ only in it; tests create a new grammar for each text.", "anchors": ["reader.go:495-528", "grammar/lua.go:36-49", "grammar/mxt.go:40-47"]}
{"id": "C80", "title": "The depth to which rules call each other is bounded by the nesting of the text", "statement": "For each shipped grammar there are numbers c and d such that with all rules monitored no read of a text that comes to an end makes a log entry deeper than c times the greatest number of brackets open at the same time in the text, plus d.", "quantifier": "every text, every start position, every state of the log, every read that comes to an end, successful or not; for the counterexample every n", "why_tests_cant": "Tests look at a few documents of small depth. The recursion of the readers is the depth of the Go stack, so what matters is the growth over all texts, also malformed ones where alternatives are tried in vain.", "anchors": ["monitor.go:26-53", "monitor.go:78-83", "grammar/json.go:39-67", "grammar/mxt.go:29-49", "grammar/lua.go:151-162"]}
{"id": "C81", "title": "The MXT grammar reads MXT documents and nothing else", "statement": "A new MXT reader reads a text to the end exactly if the text is an MXT document. If a read succeeds, what has been read is a document, it is followed by nothing or by a line that looks like a marker but does not begin a chunk, and the map functions of names and contents have been given the names and contents of this document and nothing else. Any text that does not begin with a chunk is reported as an error and nothing of it is read.", "quantifier": "every text of characters, every position, every state of the heap in which no salt is remembered", "why_tests_cant": "The test of the grammar reads one good document. That no other text is accepted and that malformed texts yield no pieces is a statement about all texts, with contents, salts, comments and line breaks of any form.", "anchors": ["grammar/mxt.go:29-49", "grammar/mxt.go:51-57", "reader.go:533-544", "reader.go:639-645"]}
{"id": "C82", "title": "MXT files of any bytes", "statement": "Reading an MXT file with a new MXT reader comes to an end, whatever bytes the file is made of. The content of a chunk may hold any bytes: it is given to the map function byte for byte, from the line below the header up to the next marker or the end of the file.", "quantifier": "every byte string, every position, every state of the heap in which no salt is remembered", "why_tests_cant": "The test reads one ASCII document. Files with a Latin-1 letter or with binary contents are not tested, and that a read never ends cannot be observed in a test.", "anchors": ["grammar/mxt.go:29-49", "reader.go:356-371", "reader.go:921-932", "scanner.go:334-344"]}
{"id": "C83", "title": "Readers can be rewritten by the laws of parsing expressions", "statement": "A reader can be rewritten without changing what is read: nested Seq and nested Any can be flattened; Seq and Any of one reader are that reader; Times(n, r) in a Seq is r n times; SkipSeq is a Seq with the skipped reader in between; Opt(r) is Any(r, nothing); Many(r) is Seq(r, Zom(r)) and Zom(r) is Opt(Many(r)); At(r) before r and a repeated member of Any do nothing; a common beginning of the members of an Any can be drawn out; BodyTail is Body and then the tail; Past is To and then the reader; Zom(Zom(r)) is Zom(r). Parts of a reader, and the readers of the rules of a grammar, can be exchanged for others that read the same. The order of the members of Any does not matter if they exclude each other. Zom of Not is To where the searched comes, and goes on for ever where it does not.", "quantifier": "all readers, all grammars, all texts and positions, all strings of Janus readers", "why_tests_cant": "A law speaks about all readers on all texts. The tests compare single readers with expected results on single texts and never compare two readers with each other.", "anchors": ["reader.go:76-111", "reader.go:157-170", "reader.go:318-375", "reader.go:604-618", "reader.go:701-767", "reader.go:798-868", "reader.go:893-936", "reader.go:1002-1014", "grammar.go:97-122"]}
{"id": "C84", "title": "The JSON grammar reads the longest JSON document", "statement": "If any JSON document begins at the position of the scanner, the JSON grammar ends without error, whatever follows, and stops behind the longest such document. It stops behind a piece of text exactly if that piece is the longest document. Hence json-stack prints a stack exactly for the files that begin with a JSON document.", "quantifier": "every text of characters, every position in it", "why_tests_cant": "Ranges over all continuations of all documents, also ones like 1.5e+ or -01 where a longer number seems to begin; that no longer document exists is a statement about every prefix of the text.", "anchors": ["grammar/json.go: JSON, JSONReader.Read", "demo/json-stack/main.go"]}
{"id": "C85", "title": "What makes a read go on for ever", "statement": "A read goes on for ever exactly if its calls, direct or through other readers and rules, get to a Zom or Many whose reader succeeds again and again without going over anything, to a Past, Body or BodyTail whose search does not get on, or into an unending chain of calls at one place (left recursion). With a grammar without left recursion only the loops are left, and on a UTF-8 text with readers over whole characters only the repetitions. MoveRunes(1) does not get on exactly at the end of the text and where no character begins and at most two bytes are left.", "quantifier": "every grammar and every reader expression without Wrap, every text of bytes, every place in it, every content of the Janus strings", "why_tests_cant": "That a read never ends cannot be observed by running it, and the statement is an equivalence over all grammars and all texts: no other cause of not ending exists.", "anchors": ["reader.go: zomReader, manyReader, pastReader, toReader, bodyReader, bodyTailReader, seqReader, skipSeqReader, timesReader", "grammar.go: Rule.Read", "scanner.go: MoveRunes"]}
{"id": "C86", "title": "The graph of the picked segments is the tree of the picked calls", "statement": "After a successful read with readers that pick segments for a basket, BuildGraph on the basket gives the tree of the picked calls of the parse: each pick is a node with the token it read, its children are the picks made by its reader, in the order of the text, and a failed read adds nothing.", "quantifier": "all readers and grammars (shipped: JSON and Lua with all rules picked), all texts, all histories of a coupled scanner, all graph names", "why_tests_cant": "The tests of the graph use a handful of segment lists, and the example programs print the graph of one text; whether nesting by tokens always agrees with nesting by calls depends on every interleaving of picks, alternatives and rollbacks.", "anchors": ["tracker.go: pickReader, Basket.Add, Basket.Update, Picked", "graph.go: BuildGraph, Append, rankNodes", "token.go: Covers, Clashes"]}
{"id": "C87", "title": "A read tells the outside what the reading rules say, no more and no less, and in their order", "statement": "The calls of map functions with their tokens, the segments given to baskets that do not track the scanner, the lines of the logs (level, name, position) and the values put into the fields of value readers are exactly the events of the unique trace of the read by the rules of the readers, in the order of the trace; the events of alternatives that were tried and given up are among them.", "quantifier": "all readers and grammars without wrapped functions, all texts, all places, all states of baskets, logs and Janus readers, successful and failed reads", "why_tests_cant": "The tests call one map function or look at one log; which calls stay behind after an alternative is given up, in which order, and with which tokens depends on the whole nesting of readers and on where each of them fails.", "anchors": ["reader.go: mapReader.Read, anyReader.Read, bodyReader.Read, toReader.Read, pastReader.Read, zomReader.Read", "tracker.go: pickReader.Read, Basket.Add", "monitor.go: monitorReader.Read, Log.Enter, Log.Exit", "reader.go: boolReader.Read, intReader.Read, uintReader.Read"]}
{"id": "C88", "title": "A failed read returns the error of the reader that is to blame", "statement": "Readers without parts, searching and repeating readers, Not and RuleName report their own error at the place where they stand after failing: their What, for Not the What of its part, for the second Janus reader the quoted text, for value readers the name of the type or the invalid parameter. Seq, SkipSeq, Times, At, Map, Pick, Monitor, Named, the first Janus reader and rules hand on the error of the part that failed. Any returns, of the read errors of its parts that are furthest in the text, the last. A grammar puts the text of the error behind its own name. There is no other error, and it does not depend on anything but the text ahead, its place and the Janus strings.", "quantifier": "all readers and grammars without wrapped functions, all texts, all places, all states", "why_tests_cant": "The tests compare the error of a few readers on single texts; which part is to blame depends on the nesting and on how far each alternative got.", "anchors": ["reader.go: getDeepest, anyReader.Read, seqReader.Read, skipSeqReader.Read, timesReader.Read, notReader.Read, janusEndReader.Read", "grammar.go: Rule.Read, the grammars' Read", "error.go: ReadError, ErrorFor, ErrorIfFalse", "read.go: ReadBool, ReadInt, ReadUint"]}
{"id": "C89", "title": "The MXT reader names what is missing first, and its place", "statement": "If a text does not begin with a chunk, the MXT reader returns `mxt parse error: not able to read W at P`. In a UTF-8 text W is the first of these that is missing: the two slashes of the marker, a space behind the marker, the name, the arrow, the line break (or the end of the text) behind the header; P is the number of bytes in front of the place where it is missing, for the arrow the place behind the name. W is `\"//\"`, `+' '`, `+wordchar`, `->arrow` or `\"\\r\\n\"`. In other texts the end of the content can be missing as well, because the search for it gets stuck: W is then `->[ next-marker @END ]` and P the place below the header, or, if the line there begins with two slashes, W is the quoted salt and P is behind the slashes. There is no other error.", "quantifier": "all byte strings, all positions, all states of the heap in which no salt is remembered, all runtimes", "why_tests_cant": "The test of the grammar reads one document without an error; no test looks at an error message of it.", "anchors": ["grammar/mxt.go:29-49", "reader.go: getDeepest, anyReader.Read, toReader.Read, janusEndReader.Read", "grammar.go: Rule.Read"]}
{"id": "C90", "title": "The JSON reader reads the longest JSON document, malformed bytes included", "statement": "C84 speaks of texts of characters. In a text of any bytes the same holds if each malformed byte counts as one character U+FFFD: if such a text begins with JSON documents, the JSON reader reads the longest of them and leaves the scanner right behind the bytes of its characters; if it succeeds, it has read the longest document, and there is only one. So the choice of the first matching alternative in Any, Opt, Many and Zom never gives up a longer document.", "quantifier": "all byte strings, all positions, all states of the heap, all runtimes", "why_tests_cant": "The tests read a few documents; that no text exists for which an earlier alternative hides a longer document needs a proof over all texts.", "anchors": ["grammar/json.go:39-75", "reader.go: anyReader.Read, optReader.Read, zomReader.Read, manyReader.Read"]}
{"id": "C91", "title": "The JSON reader reports what is missing in the outermost value, never what is wrong inside", "statement": "If reading a text as JSON fails (a malformed byte counts as one character U+FFFD), the error is `json parse error: not able to read W at P`, where, behind the leading white space: W is `\"null\"` at the beginning of the value if nothing there begins a value; `<19>` behind a minus sign without a digit; `'\"'` behind the longest run of characters of a string, if something follows that is neither a character nor a quote; `']'` behind the longest list of elements of an array that is not followed by a bracket, or behind the white space if the first element cannot be read; `'}'` in the same way for an object. P is the number of bytes in front of that place. Exactly one of these cases applies. In particular an error in the first element of an array is always reported as the missing bracket at the beginning of that element, whatever is wrong inside of it.", "quantifier": "all texts of any bytes, all positions, all states of the heap, all runtimes", "why_tests_cant": "The tests of the grammar read correct documents and check that a few wrong ones are refused; none looks at the message or the place of an error.", "anchors": ["grammar/json.go:39-75", "reader.go: getDeepest, anyReader.Read, seqReader.Read", "grammar.go: Rule.Read"]}
{"id": "C92", "title": "Every list of files can be stored in an MXT document and read back", "statement": "Write each file as `//salt name --> salt`, a line feed and its content, with CR LF between files. If the names are non-empty and, like the non-empty salt, made of characters from `!` on, and no line of a content begins with `//salt`, the MXT reader reads the document to its end and the map functions are given exactly the names and contents in their order, whatever salt an earlier read left in the reader. For every list of files there is such a salt, so every list of contents, whatever their characters, can be stored; different lists have different documents. A new reader yields the files exactly if the salt keeps them apart; no fixed salt is good for all contents.", "quantifier": "all lists of names and contents, all salts, all positions, all states of the heap, all runtimes", "why_tests_cant": "The tests read two fixed documents; that no content exists that cannot be stored, and that the reader's memory of an earlier salt does no harm, are statements on all contents and all histories.", "anchors": ["grammar/mxt.go:29-49", "grammar/mxt.go:51-57", "reader.go:533-544"]}
{"id": "C93", "title": "Reads that have nothing in common do not disturb each other", "statement": "Let other goroutines change the memory in any way before and after every call of a Read method during a read. If they leave alone what the client calls its own (baskets, trackers, logs, values, map functions) and the strings of the Janus pairs of its readers, the read ends in the same way, with the same error or none, at the same position, and what is the client's own is the same as without them. Any number of reads with readers that have nothing of the client's is such a change. In particular one value of a shipped grammar can be shared by any number of goroutines.", "quantifier": "all grammars and readers, all texts and positions, all states of the memory, all changes of the memory by others at all steps, all runtimes", "why_tests_cant": "The tests read in one goroutine; interference shows only under particular schedules, and its absence is a statement on all of them.", "anchors": ["reader.go:495-544", "grammar/lua.go:36-48", "grammar/mxt.go:40-42", "tracker.go:72-91", "monitor.go:72-87"]}
{"id": "C94", "title": "A client that reads JSON until the end of the text gets the documents one by one", "statement": "A client calls Read of the JSON reader until the scanner is at the end of the text or Read returns an error. In a UTF-8 text it gets the documents of the text one after the other, each the longest one that the rest of the text begins with, and nothing between them is skipped. It ends without error exactly if the whole text is such a row; it ends with an error exactly if behind the row something is left in which something is missing in the sense of C91, then the scanner stands behind the row and the error names the place in the whole text; it comes to no end exactly if what is left is cut off in a string. It never panics. JSON values written one after the other, with or without white space between them, are read as these values, each with the white space behind it, unless a value that begins with a digit follows a number directly: then the digits belong to the number, `1` and `2` are read as `12`.", "quantifier": "all UTF-8 texts, all positions, all states of the heap, all runtimes, any number of rounds", "why_tests_cant": "The tests read one document from the beginning of a text; how the end of one read decides the next needs all texts and any number of documents.", "anchors": ["grammar/json.go:39-75", "scanner.go: Scanner.AtEnd", "reader.go: anyReader.Read, optReader.Read, zomReader.Read"]}
{"id": "C95", "title": "Every number that fits can be written and read back", "statement": "Write any number of 8, 16, 32 or 64 bits, the smallest and the largest included, in base 8, 10 or 16, with or without leading zeros, hexadecimal digits in either case, a sign in front of a signed one. If no digit follows, ReadUint and ReadInt return exactly this number without error and stop right behind it, whatever else follows, and the readers Uint and Int hold it. So no number that fits is lost to the check for overflow, different numbers have different texts, and any list of numbers with commas between them is read back by a client that alternates ReadInt and If(\",\").", "quantifier": "all numbers of each size, all bases, all numerals of them, all texts in front and behind, all lists of numbers, all states of the heap", "why_tests_cant": "2^64 numbers and all numerals of them; the check for overflow of 64 bits is known to be wrong for numbers that do not fit (C22, C23), so that it does no harm to those that fit needs a proof.", "anchors": ["read.go:65-128", "read.go:156-213", "reader.go: intReader.Read, uintReader.Read"]}
{"id": "C96", "title": "A Wrap reader does what its function does", "statement": "If the function given to Wrap does what some reader does (returns the same, panics or goes on for ever in the same cases), the Wrap reader may be exchanged for that reader under the same name, anywhere inside readers and in the rules of a grammar, recursion included: every read ends with the same error, position and memory (picked segments, map calls, logs, Janus strings, values) or goes on for ever as before. More generally readers with the same What and the same results may be exchanged.", "quantifier": "all grammars, readers, functions, texts, positions and memories", "why_tests_cant": "Functions and grammars are arbitrary and the exchanged parts may stand at any depth and be reached through recursion any number of times.", "anchors": ["reader.go:965-995"]}
{"id": "C97", "title": "Names are labels", "statement": "The names of rules, of Named, Match and Wrap readers, of Janus pairs and grammars and the infos given to Pick and Monitor decide nothing. Two readers with rules that differ in such names only end every read in the same way: both return, both panic or both go on; an error is returned in the same cases, of the same kind and at the same place; the position, the values, the kept strings, the map calls and the tokens in baskets and logs are the same. Only the wording of errors and the infos differ. So SetRuleNames, which changes nothing but names, changes nothing about what is read, and a grammar with a basket whose rules were called otherwise before yields the same segments under the other names, also if several rules are given the same name.", "quantifier": "all grammars, readers, names, texts, positions and memories; functions given to Wrap must not look at names themselves", "why_tests_cant": "The texts of names flow into errors, errors flow into Any, which compares them, and into logs; that no comparison depends on the texts needs all grammars and all names.", "anchors": ["reader.go:76-111", "reader.go:676-687", "reader.go: What methods", "grammar.go:28-48", "grammar.go:107-114", "tracker.go:28-69", "monitor.go:26-53"]}
{"id": "C98", "title": "JSON values can be written, read and rebuilt from the graph", "statement": "A client picks the rules that demo/json-stack picks, reads a JSON document, builds the graph of the picked segments and rebuilds the value from the graph and the text: the info of a node tells its kind, its token the text of a literal, its children the elements or the keys and values by turns. It gets exactly the value the document means, for every document, every spelling of its strings, every white space, and everything that may follow. Exactly the JSON documents mean something, no document means two values, and every value (null, booleans, numerals, strings of 16 bit code units, arrays, objects with members in their order) can be written, read and rebuilt: the round trip is the identity, so different values have different texts.", "quantifier": "all JSON values of any size and depth, all documents, all names of the graph, all runtimes", "why_tests_cant": "Values are nested without bound and each has infinitely many texts; that the graph loses nothing (order, nesting, empty arrays and objects, equal keys) needs all of them.", "anchors": ["demo/json-stack/main.go:26-38", "grammar/json.go:39-75", "graph.go:144-151", "tracker.go:21-69", "token.go:68-70"]}
{"id": "C99", "title": "What a read does not come near to does not matter", "statement": "A step of a reader looks at a few bytes in front of the scanner only: one rune, or as many bytes as a literal has. If all steps of the readers of a grammar look at no more than w bytes, and a tracker that watched a read was told no place with less than w bytes of a text p ahead, then the read is the same on all texts that begin with p: the same error or none, the same position, the same values, segments, maps and logs. So a text may be continued, cut off or changed behind p, and the caller sees from the tracker what must not be changed. Where the scanner comes nearer it does matter.", "quantifier": "all grammars, readers, texts, continuations, positions and memories", "why_tests_cant": "The text behind p is any text, and the readers that look ahead, try alternatives and go back are nested in any way.", "anchors": ["scanner.go:321-331", "scanner.go:333-356", "scanner.go:373-382", "read.go:67-133", "read.go:163-213", "tracker.go:7-10", "reader.go: Read methods"]}
{"id": "C100", "title": "Grammars can be put together", "statement": "What a reader does depends on the rules that can be reached from it and on nothing else. If a set of rules that refer to each other only is part of another grammar, at whatever place and among whatever other rules, a reader that uses them does exactly the same there: the same error with the same words, the same position, the same memory and the same number of steps, on every text; and it is shown by the same What. So rules may be added in front of and behind a grammar, rules that cannot be reached may be changed or left out, and each of the shipped grammars can be used inside another one, where all that is proved about it holds.", "quantifier": "all grammars, sets of rules closed under references, renumberings, readers, texts, positions, memories and numbers of steps", "why_tests_cant": "The grammar around is any grammar, and the texts and readers are unbounded.", "anchors": ["grammar.go:97-122", "grammar.go:11-17", "reader.go: Read methods", "grammar/json.go:10-79", "grammar/mxt.go:10-61", "grammar/lua.go:10-230"]}
{"id": "C101", "title": "Every instance of a grammar reads alike", "statement": "Make the same readers twice, each time with Janus pairs, baskets, trackers, logs, values and map functions of its own. If different objects of the first instance are different objects in the second, and the objects of the second are in the state of those of the first, the second reads every text like the first: it returns the same error or none, stops at the same position, panics or runs on if the first does, and leaves each of its objects as the first leaves the object in the same role. In particular an instance that was not used yet does, whatever was read with other instances, what the first one did at the beginning. Both are shown by the same What. Functions given to Wrap are assumed to treat both alike.", "quantifier": "all grammars, readers, maps of objects that keep different objects different, texts, positions, states of the memory and numbers of steps", "why_tests_cant": "The states that earlier reads leave behind and the places of the objects are unbounded.", "anchors": ["reader.go:406-409", "reader.go:487-490", "reader.go:533-544", "reader.go:652-655", "reader.go:969-972", "tracker.go:13-19", "tracker.go:94-100", "monitor.go:26-35", "monitor.go:89-95", "grammar/json.go:39-67", "grammar/mxt.go:29-49", "grammar/lua.go:107-218"]}
{"id": "C102", "title": "Picking some of the rules picks of them what picking all rules does", "statement": "Scan a text with a new basket that picks all rules of a grammar, and scan it with a new basket that picks only some rules. Both reads return the same error or none and stop at the same position, one ends if the other does, and the second basket has those segments of the first whose infos are the names of its rules, in the same order. So which other rules are picked does not change what is picked for a rule, also after all the going back of Any, Opt, Many and so on.", "quantifier": "all grammars, selections of rules, readers, texts, results and baskets", "why_tests_cant": "The grammars and the selections of rules are unbounded, and the basket is cut at every going back, at places that depend on the segments picked before.", "anchors": ["tracker.go:13-19", "tracker.go:21-26", "tracker.go:40-49", "tracker.go:64-69", "tracker.go:71-100", "grammar.go:111-114"]}
{"id": "C103", "title": "The leafs of what was picked cut the text into its parts", "statement": "Read a text with a basket, in any way and with any result, build the graph of the picked segments and hand its leafs to Segmentate. Segmentate never refuses them. The parts that it returns follow each other without gap or overlap, their texts make up the whole text, and the known ones are the leafs, each of them picked. A picked segment that covers no other one shows up as a leaf.", "quantifier": "all grammars, readers, texts, results, sequences of reads and moves, and names", "why_tests_cant": "Which segments are picked, which of them clash and what the graph makes of them depends on the text and on all the going back; a test sees some texts.", "anchors": ["tracker.go:13-19", "tracker.go:71-100", "graph.go:85-100", "graph.go:125-150", "segment.go:89-113"]}
{"id": "C104", "title": "Scanning backward is scanning forward in the mirror", "statement": "Every backward method of the scanner does to a text what its forward counterpart does to the text with its characters in reverse order: it reports the same and leaves the scanner at the mirrored place; so does every program that calls such methods one after the other and decides by what they report.", "quantifier": "every well-formed text without U+FFFD, every place in it, every literal, rune, set, range, predicate and count", "why_tests_cant": "Relates two runs on two texts for all texts, places and arguments; the tests of scanner_rev_test.go look at single calls on a few texts and never compare both directions.", "anchors": ["scanner_rev.go: RevIf, RevIfAny, RevTo, RevIfFold, RevToFold, RevIfRune, RevToRune, RevWhileRune, RevIfAnyRune, RevToAnyRune, RevWhileAnyRune, RevIfBetween, RevToBetween, RevWhileBetween, RevIfMatch, RevToMatch, RevWhileMatch", "scanner.go: If, IfAny, To, IfFold, ToFold, IfRune, ToRune, WhileRune, IfAnyRune, ToAnyRune, WhileAnyRune, IfBetween, ToBetween, WhileBetween, IfMatch, ToMatch, WhileMatch, MoveRunes, AtStart, AtEnd, ToStart, ToEnd", "intl.go: revItr"]}
{"id": "C105", "title": "Readers go where the methods of the scanner go", "statement": "To over a literal or over a reader of one rune succeeds exactly when the search method of the scanner of that kind does, and leaves the scanner at the same place; Past does what searching and then reading do; Zom and Many end where the While method ends, Many failing exactly when nothing was skipped; Any over literals does what IfAny does.", "quantifier": "every well-formed text and every place in it, every literal, rune, set, range and predicate, every number of steps large enough", "why_tests_cant": "Relates two implementations of the same search (rune by rune with a reader, and by strings.Index and range loops) on all texts; the tests exercise each one alone on a few texts.", "anchors": ["reader.go: toReader.Read, pastReader.Read, zomReader.Read, manyReader.Read, anyReader.Read", "scanner.go: To, ToRune, ToAnyRune, ToBetween, ToMatch, ToFold, WhileRune, WhileAnyRune, WhileBetween, WhileMatch, IfAny"]}
{"id": "C106", "title": "JSON documents can be minified with a basket and Segmentate", "statement": "A client that picks the rule for white space of the JSON grammar into a basket, hands the basket to Segmentate and puts together the parts that are not known gives, for every JSON document, the document without the white space outside of its strings; the result is a JSON document that means the same, and minifying it again changes nothing. For every text whatever the client gives a result exactly if the text begins with a JSON document, gives nothing or does not come to an end otherwise, and Segmentate never refuses what was picked.", "quantifier": "every JSON document, followed by any text that cannot continue it; every byte string for the last part; every number of steps large enough", "why_tests_cant": "Combines the grammar, the tracker and Segmentate over all documents: white space nested at any depth, empty picks (the rule for white space can match nothing), strings that contain white space and escaped quotes.", "anchors": ["grammar/json.go: JSON", "tracker.go: Basket.Update, Basket.Picked, pickReader.Read", "segment.go: Scanner.Segmentate, Segment.Known", "scanner.go: Get"]}
{"id": "C107", "title": "The printed stack tells the graph", "statement": "Graphs for which FlameStack prints the same text are the same graph: same nodes, same infos, same tokens, same order. So the demo programs print the same for two files only if the names and the picked trees are the same.", "quantifier": "every pair of graphs, whatever their infos contain; every pair of JSON documents and Lua files", "why_tests_cant": "Injectivity over all pairs of trees, including infos that contain the semicolons, dots, brackets, numbers and spaces of which the lines are made.", "anchors": ["graph.go: makeStackLines, Graph.FlameStack, Graph.Equal", "segment.go: Segment.String", "token.go: Token.String, Token.Len", "demo/json-stack/main.go", "demo/full-lua-stack/main.go"]}
{"id": "C108", "title": "The values and keys of a JSON document can be changed with a basket and Segmentate", "statement": "A client picks some of the rules key, string, number, bool and null of the JSON grammar, reads a text, hands the picked segments to Segmentate and writes the parts one after the other, changing the text of every known part by a function. If the function turns texts of values into texts of values and texts of keys into texts of keys, then for every JSON document the client gives a JSON document whose value is the value of the first with exactly these values and keys changed; what follows the document follows it. Whatever the function and the text, Segmentate never refuses, so the client gives something exactly if the text can be read: if it begins with a JSON document. It never ends exactly if the text is cut off in a string, and gives nothing in all other cases. A function that changes nothing gives the text.", "quantifier": "all selections of these rules, all functions, all JSON documents and values, all texts and all that may follow", "why_tests_cant": "Documents nest without bound, and the functions, the selections and the lengths of the new texts are arbitrary.", "anchors": ["grammar/json.go:39-79", "tracker.go:13-49", "segment.go:89-113", "demo/json-stack/main.go:23-32"]}
{"id": "C109", "title": "A client can change what a grammar picks and leave the rest of the text as it is", "statement": "Let the picks of a grammar not nest. A client reads a text with a basket, hands the basket to Scanner.Segmentate and writes the parts anew, with a function of its own for the parts that are known. If the grammar reads the text, the client gives exactly the text with the bytes of every picked segment replaced by what the function gives for its info and its bytes (a segment with the empty info counts as unknown and stays), all other bytes as they were and in their order, also those behind the end of what was read; otherwise it gives nothing. Segmentate never refuses the basket and Get never panics. A function that changes nothing gives the text, and the length changes by exactly the lengths of the replacements.", "quantifier": "every environment and reader whose picks do not nest (in particular the Lua grammar with the rules for names, strings and comments, and the JSON grammar of C108), every function of the client, every text of any bytes, every step budget", "why_tests_cant": "Tests rewrite a few texts with one grammar; the claim is for all grammars, functions and texts, valid UTF-8 or not.", "anchors": ["tracker.go:13-49", "segment.go:89-113", "token.go:67-70"]}
{"id": "C110", "title": "Which rules of the shipped grammars are ever called", "statement": "In the shipped grammars, Digit of JSON and SheBang, Numeral and Script of Lua are exactly the rules that no text makes the reader of the grammar call; all other rules of JSON and Lua and all rules of MXT are called for some text. So whatever is done to these four rules (Pick, Monitor, Map, another reader, another name, no reader at all), reading gives the same from every state of a scanner, and a basket for the whole Lua grammar, as in demo/full-lua-stack, never holds a numeral, whatever the script. For any grammar, a basket of all rules never holds a segment of a rule that the reader does not lead to.", "quantifier": "every rule of the three grammars, every text of any bytes, every state of a scanner, every budget; every grammar without picks of its own for the last claim", "why_tests_cant": "That a rule is never called is a claim about all texts; a test with a picked rule shows only that one text does not call it.", "anchors": ["grammar.go:88-114", "grammar/lua.go:107-226", "grammar/json.go:39-75", "grammar/mxt.go:29-59", "demo/full-lua-stack/main.go:23-31"]}
{"id": "C111", "title": "The functions given to Map only hear", "statement": "Leaving out some of the functions a client gives to Map changes nothing of a read but their calls: the error or success, the position, the values stored, every basket and every log stay the same, and the functions that are left are called with the same tokens in the same order. So a client of the shipped grammars may give functions to any rules, and each function is called as if it were alone.", "quantifier": "every reader and grammar (Body and functions of the client included), every set of functions, every text, with a tracked basket, a tracker of the client or none; both directions, so also whether the read ends", "why_tests_cant": "Going back and Body make the calls and the segments of a read depend on each other in ways that differ from text to text; a test compares two runs on one text.", "anchors": ["reader.go:634-654", "grammar.go:102-105", "tracker.go:40-49", "scanner.go:373-382"]}
{"id": "C112", "title": "Changing the names and contents of MXT files", "statement": "A client calls Pick for the rules name and content of the MXT grammar, reads a file, hands the basket to Segmentate and writes the parts anew with a function of its own. For every file it does one of three things: it does not end (on the files of C82 and no others), it gives nothing (if no chunk stands at the start), or it gives the file with exactly the names and contents of the chunks at its start replaced, with markers, comments, arrows, salts, line breaks, empty contents and everything behind the last chunk as they were, also the name of a chunk that cannot be read to its end. If the new chunks are chunks again, the next read finds the new names and contents. In a document of characters they are if every new name is a word and every new content is one line that does not begin with // or end with a carriage return. A function that changes nothing gives the file. (False without that condition: a new content can look like the marker of a chunk, and the next read then finds more chunks.)", "quantifier": "every file of any bytes, valid UTF-8 or not, every function of the client, every large enough budget", "why_tests_cant": "A test changes a few files; the claim is about every number of chunks, every salt and every byte behind them.", "anchors": ["grammar/mxt.go:29-59", "tracker.go:13-49", "segment.go:89-113", "grammar.go:88-114", "token.go:67-70"]}
{"id": "C113", "title": "Monitoring some of the readers shows of them what monitoring all of them does", "statement": "If some of the Monitors for a log are left out, by name, a read gives the same error or none and leaves the same scanner, baskets, fields and Janus states; one of the two reads ends if and only if the other does. The lines (level, name, position) the fuller read adds to the log are those of a row of nested calls, which the lines determine. The other read adds the lines of the same calls without those of the names left out, where the calls inside of a call left out stand in its place, at its level. The other logs get the same lines. Every name in the lines is the name of a Monitor for the log. What the logs held before does not matter: the same read with other logs adds the same calls. The log stands at the level at which it stood before. So MonitorGrammar and Monitor for chosen rules agree, for every choice, on the rules chosen. Print and PrintWithPreview of a log that was new before the read write these lines and no others, and if no Monitor for it has a name with a line break the calls can be read back from what Print writes. (With a line break in a name one call can look like two.)", "quantifier": "all readers and grammars without wrapped functions, all names left out, all texts and places, all states of logs, baskets, fields and Janus readers, successful and failed reads", "why_tests_cant": "The tests monitor all rules of a few grammars on a few texts; which choice of rules and which nesting of calls a user looks at is unbounded, and a wrong level after a failed call shows only in some of them.", "anchors": ["monitor.go:17-19", "monitor.go:26-53", "monitor.go:55-65", "monitor.go:73-96", "grammar.go:107-109"]}
{"id": "C114", "title": "What is picked is in the log", "statement": "If rules are monitored and then picked (Pick around Monitor, under the same name), then after every read, successful or failed, the log holds the lines it held, followed by new ones, and every segment that was not in the basket before has a new line with its name and its start; also in the bodies of Body readers, where both are counted from the start of the body. Whether the rules of a grammar are monitored first or picked first makes no difference to the error, the position, the basket and the whole log, if the rules go back when they fail. (False without that: the log then shows another end of the failed call.) With all rules of a shipped grammar monitored and picked, in either order, a new log and a new basket, every picked segment is in the log. The converse is false: the log also has the calls that failed and those whose segments were taken out again.", "quantifier": "all readers and grammars in which what is picked for the basket is monitored inside (wrapped functions may scan but not touch the log or add to the basket; for the order of Monitor and Pick there are none), all logs and baskets, tracking or not, all texts and places, successful and failed reads", "why_tests_cant": "Basket and log are changed by different rules (the basket is cut when the scanner goes back, the log never is), and a segment without its line would need a particular nesting of failures.", "anchors": ["monitor.go:32-47", "monitor.go:73-96", "tracker.go:13-70", "grammar.go:107-114"]}
