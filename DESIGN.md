# Formal model of aiq/tok in Lean 4

The Go package `github.com/aiq/tok` (scanner, reader combinators, tokens,
segments, graph, basket, log, and the grammars JSON, MXT and Lua) is modelled
function by function in `lean/Verif/Model`.  Every definition cites the file and
lines of `/repo` it transcribes.  Specifications that do not mention the model's
helpers are in `lean/Verif/Spec`, lemmas in `lean/Verif/Proofs`, and the theorems
named in `MANIFEST.json` in `lean/Verif/Props`.  The properties are those of
`properties.jsonl`.

## How the code is represented

* A Go `string` is a list of bytes.  A `rune` is an integer.
* A call returns, panics, or has not returned yet when a step budget is used up
  (`Exec`).  Loops and recursion that may run forever carry a budget ("fuel").
  A call *terminates* when some budget gives a result other than `timeout`; it
  *diverges* when every budget gives `timeout`.  More budget never changes a
  result (proved), so "the result" is well defined.
* `*Scanner` is a record that is threaded through: text, position, tracker, and
  the heap of objects a read can change (baskets, user trackers, Janus strings,
  logs, Map calls, value-reader fields).  `ToMarker` does not check its argument
  in the code, so the position is an arbitrary integer, and slicing with a bad
  position is a panic.
* A `Reader` value is a term of an inductive type with one constructor per reader
  struct of `reader.go`, `tracker.go`, `monitor.go` and `grammar.go`, plus the
  grammars' own `Read`.  `*Rule` is an index into an environment of rules.
  User code (`Wrap`, `Match`, callbacks) is an arbitrary Lean function.
* `Node`s form a tree, represented
  functionally; `rankNodes` mutates children only below nodes it owns, and a failed
  `rankNodes` is modelled with the mutations it has already made.

## Trusted base

* The Lean 4.33.0 kernel, and the axioms `propext`, `Classical.choice`,
  `Quot.sound` (the only ones any theorem uses; no `sorry`, no `native_decide`, no
  own axioms).
* The transcription from Go to Lean, by reading.  Nothing of `/repo` was run.  As a check of the
  transcription, `Verif/Tests` has every case of the tests of the repository evaluated on the model
  (by the kernel; three cases that are too long for it by `#guard`).  All of them come out as the
  tests expect.  These are tests of the model, no theorem depends on them.
* The Go standard library behaves as transcribed in `Model/Utf8`, `Model/Strings`
  and `Model/Sort`: `utf8.Decode(Last)RuneInString`, `RuneLen`, `range` over a
  string, `strings.HasPrefix/HasSuffix/Index/IndexRune/IndexAny/ContainsRune/
  EqualFold/ReplaceAll/Split/Count/Join/Trim`, `strconv.Quote…ToGraphic`,
  `sort.Stable`.  `unicode.SimpleFold`, the graphic-rune table and the growth of
  slices by `append` are parameters (`Rt`) about which only the facts in `Rt.Ok`
  are assumed, and only where a theorem says so.
* `reflect` in `SetRuleNames`/`CollectRules` is modelled as "the fields of type
  `Rule`, in declaration order, with their `name` tags".

The model calculates with integers without bounds.  The four functions that calculate
with `int` are also modelled with an `int` of `w` bits (`Model/Machine`), and C71 says
exactly when the two agree.

Not modelled: memory exhaustion and stack depth, concurrency, the walk of `reflect`
in `CollectRules` below the fields, file access of the `demo` programs (they are
modelled from the contents of the file on), and the text of error messages made
with `%T`.  In `Log.PrintWithPreview` `strconv.Quote` is a parameter with the facts
it is used for as hypotheses.

Most of the model has lists for slices and trees for graphs.  That this loses nothing
is proved on two finer models: `Model/Slice` has the backing arrays of the slices of
a basket (C69), `Model/GraphMem` the nodes of a graph by address (C70).

## The layers of the proofs

Statements are about `read` (the transcription of the `Read` methods with all
run-time objects).  Between `read` and the specifications are these layers; each is
tied to the one below by a theorem for all inputs.

* `eat` (Proofs/Eat, EatMono, EatSim): a reader as a function of the rest of the text
  and the Janus strings, without positions, trackers and logs.  `read_eat`: on every
  reader without `Wrap`, `read` and `eat` return, panic and run out of budget
  together, and the results agree.  More budget changes no result (`eat_mono`).
* `Halts` and ranks (Proofs/Term, TermText): termination of grammars with a rank
  of rules; for texts, the condition `Quoted` says that no unfinished quote is met.
* The big-step relation of parsing expression grammars (Spec/Peg, Proofs/Peg*),
  equivalent to `eat` in both directions, with a small calculus on characters
  (PegCalc, PegChars, PegShow) for JSON.
* `Gives` (what a reader gives on texts of characters), `Does`/`Greedy` (readers
  that read the longest word of a language), and `Gets rt G r t o`: reader `r` on text
  `t` leaves `some u` or fails.  `sym` evaluates a reader on a text of which only the
  beginning is known; it is proved right once, and evaluated by the kernel.
* Lua texts as lists of tokens (Spec/LuaProg: `Layout`, `Joins`), `Step` and `Fail`
  (Proofs/LuaTok), classes of first tokens with a decision procedure for "this reader
  fails at every text whose first token is in this class" (LuaCls), rules of the
  grammar on phrases (LuaPhrase, LuaExp, LuaStat), and the induction over phrases
  (LuaGood).  All of it is done for texts with comments (Spec/LuaNote: `Noted`;
  `Laid` is a text that begins with a token, `Spaced` has white space in front,
  `Wide` white space and comments).  Spec/LuaGrammar is the syntax of the manual; LuaChunk shows that the
  fragment of Spec/LuaProg is part of it.
* The other direction (Tells, TellLeaf, TellRules): `Tells f C`, what the reader has read spells a
  list of tokens in `C`; `lang` computes `C` from a reader, and each rule of the grammar is shown to be
  in its production of the manual.  LuaUpper has what every Lua chunk satisfies, to show that a text is none.
* `E rt G r st x` (Proofs/Law, LawSwap, LawEqs): reader `r` in state `st` comes to the outcome `x`, for some
  budget.  One equivalence per reader, from which the laws of C83 follow by rewriting.
* Frames (Proofs/Frame), picks (Picks, PickExact, Spec/Picks), logs (Log, Spec/Log),
  wrapped and unwrapped readers (Strip, Blind): what a read does to the objects it
  can reach.
* Search readers (`To`, `Past`; Proofs/Search; Proofs/SearchAll for every text, as
  reachability by the hops that the loops make), text places (Place), backward scans
  (Back, BackScan), numbers (Number), `sort.Stable` (Sort), quoting (Quote).

## Properties

"Violated" means the code does not have the property; then a theorem proves the
counterexample (`…_violated`, or named in the notes of the manifest) and a second
theorem proves the property under the exact or a natural side condition (name
ends in `_partial`).

| id | what is modelled | how it is proved |
|----|------------------|------------------|
| C01 | `decodeRune`, `decodeLastRune`, `rangeStr`, `revItr` | spec: Lean's own `Char` and `String.utf8EncodeChar`.  Round trip `decode (encode c ++ t) = c`, decode is `(U+FFFD,1)` iff no scalar encoding is a prefix, pieces concatenate, backward iteration is the reverse.  Backward iteration stops at U+FFFD/malformed bytes (violated; partial otherwise) |
| C02 | all scanner methods | call language `Op` with an interpreter, invariant by induction over histories.  Violated by `ToMarker` and the `Fold` methods; proved for all other histories |
| C03 | `Scope` … `CaptureUse` | for arbitrary callbacks, any tracker |
| C04 | the same | result = `drop/take` between the two positions |
| C05–C09 | forward methods | spec by decomposition `tail = pre ++ match ++ post` and minimality; the While* defects are exact refutations plus characterisations of what happens |
| C10 | `While*`, `RevWhile*` | violated; exact condition under which the bool differs from "moved" |
| C11–C14 | backward methods | mirror specs over `Head()`; RevIfBetween/RevIfMatch are inverted (violated, the exact behaviour is proved) |
| C15, C16 | `MoveRunes`, `If/RevIf`, `ReadRune/RevReadRune` | on texts that are encodings of `List Char` |
| C17 | `*Fold` | violated by panics; exact panic condition; ASCII fold semantics; first occurrence |
| C18 | `ScanString` | violated at the end of text; exact behaviour |
| C19 | `LineCol` | spec: recursive scan of `Head()` counting breaks |
| C20–C23 | `read.go` | numbers: spec value of a digit string (`Nat.ofDigits`), longest prefix that fits; 64-bit wrap-around refutes C22/C23 for bitSize 64, proved for 8, 16, 32 and, for 64, under no-overflow |
| C24 | `token.go` | order algebra over `Int` |
| C25 | `Segmentate` | partition spec, iff success |
| C26, C27 | `SortSegments*`, Go's `sort.Stable` (insertion blocks and `symMerge`) | permutation for every `Less`; sorted for total preorders; stable for strict weak orders; SortSegments on non-clashing non-empty tokens; stability of equal tokens violated |
| C28–C31 | `graph.go` | tree invariant by structural induction through `rankNodes`; multiset of segments; canonical form ⇒ order independence |
| C32, C33 | `Read` of all readers | fuel induction over all reader terms; side conditions name the readers that violate (Fold panics, Times does not restore, Wrap is arbitrary) |
| C34 | `Read` | big-step PEG relation (Ford), equivalence in both directions for stateless restoring readers |
| C35 | `Read` | simulation between two scanners with equal tails |
| C36 | `Read` | measure: remaining bytes × rule rank for well-formed grammars; divergence witnesses |
| C37 | errors | fuel induction; `getDeepest` spec as maximum |
| C38 | Janus | heap invariant; end clears its string (violated under backtracking) |
| C39, C40 | Body, BodyTail, At, Not, To, Past, AtEnd | spec over positions, first match |
| C41, C42 | Basket, Pick | heap invariant over reads; empty picks survive a rollback (violated), laminar family ⇒ BuildGraph total |
| C43, C44 | Monitor, Log, Map, Pick, Named | simulation with and without the wrapper; lost exit records after a slice move (violated) |
| C45 | `CheckRuleName` | exact accepted set (violated: only the first character matters) |
| C46 | grammars | closedness of the rule environments by kernel evaluation of the finite grammar, `CheckRules` for all environments |
| C47–C49 | JSON | independent inductive McKeeman grammar over characters; soundness by induction over the read, completeness by induction over derivations; C49 exact: where reading stops on texts that are not JSON, and divergence on unfinished strings (violated) |
| C50, C51 | constructors, `What` | structural induction over reader terms |
| C52–C54 | Lua operators, long brackets and comments, MXT | theorems over all operators/bodies/contents; shadowed operators refuted |
| C55 | value readers | cell contents after read |
| C56, C57 | demo/json-stack | output of the whole program against a tree of the document computed from the derivation (Spec/JsonTree); rejection of everything else, exact where the reader ends |
| C58, C59 | Lua reader, demo/full-lua-stack | termination by rank and text condition; divergence witnesses (violated) |
| C60 | `Log.Print`, `PrintWithPreview` | exact output from the log; panics as `Exec.panic` |
| C61 | `What` | injectivity for the constructors with an unambiguous text; collisions as refutations |
| C62–C64 | Lua names, numerals, short strings | longest word of an independent language on bytes, exact trichotomy for strings |
| C65 | `While` | relation of iterations, exact |
| C66 | trackers | log of notifications over all client programs and reads |
| C67 | texts of tokens, segments, errors | decimal digits are injective |
| C68 | the whole Lua grammar | see the token layer above; refutations by evaluation of `sym` for every continuation of a text |
| C69 | slices of a basket | the arrays refine the list (`C69_basket`); one `Add` overwrites exactly under the condition of `C69_add_exact`; two histories refute the claim |
| C70 | nodes by address | `Rep` relates an address, a tree and a footprint; `rankP_spec` runs both versions of `rankNodes` side by side |
| C71 | width of `int` | `wrapInt` is `Int.bmod`; `C71_move_exact` is an equivalence, from which agreement for all positions ≥ 0 follows |
| C72 | comments between the tokens of Lua chunks | `Noted OpenGap` generalises `Layout`: comments behind the tokens behind which every reader of the grammar skips them |
| C73 | the rule `Script` | `To` by induction over the line, then C72; the other lines by `block_hash` |
| C74 | every successful `Read` of the grammar | `Tells`: what a reader has read spells a list of tokens of its language, by induction over the fuel; then rule by rule inclusion in the syntax of the manual (TellRules); for the texts that are not Lua an upper bound of Lua (LuaUpper) |
| C75 | grammar structs | reflection as a list of fields with name, tag, visibility and value (Model/Reflect); induction over the fields |
| C76 | grammars picked for several baskets | the frame of reads for a basket that does not track the scanner; C41 and C44 for the rules that are wrapped several times |
| C77 | position of the errors of the JSON grammar | induction over reads: fronts of the sets of texts of the PEG (`Proofs/Front.lean`), for every grammar without lookahead; then the JSON grammar |
| C78 | number of rules read by the grammars, against the length of the text | entries of the log of `MonitorGrammar`: bounds from below (`Proofs/Counts.lean`) for Lua by induction over texts, bounds from above (`Proofs/Pays.lean`) for JSON by induction over reads, for MXT (`Proofs/PaysMore.lean`) by a cost for every byte gone over, for Lua and all grammars without left recursion (`Proofs/PaysExp.lean`) an exponential bound by induction over the bytes ahead, the ranks and the reads |
| C79 | what a grammar has read before does not change what it reads | two reads in lock step (`Proofs/Memory.lean`): the strings of Janus pairs that are set before they are looked at (`Reader.needs`) have no influence on errors, position and records |
| C80 | the depth of the calls is bounded by the nesting of the text | levels of log entries with all rules monitored: upper bounds by a calculus over the text (`Dips`) and by ranks of rules (`Proofs/Depth.lean`), lower bounds (`Digs`) for the witnesses; a bound linear in the length for every grammar without left recursion (`Proofs/DepthLin.lean`) |
| C81 | the MXT grammar reads MXT documents and nothing else | every text is divided (`Proofs/MxtTotal.lean`) at its first arrow, salt and next marker, and the calculus `Gives` says what the grammar does with it, success or not; false in one point: the name of an unfinished chunk is reported |
| C82 | MXT files of any bytes | the calculus `Gives` is extended (`Proofs/GivesAll.lean`) by steps of searches over bytes that begin no character and by reads that never end (`Never`); the searches for the arrow and for the next marker are described by their stops (`Finds`, `Misses` in `Spec/MxtBytes.lean`), which decides for every byte string whether the reader hangs, fails, or reads which chunks; the claim is false |
| C83 | Readers can be rewritten by the laws of parsing expressions | what comes of a read, whatever the budget, gets one equation per reader and loop (`Proofs/Law.lean`); the laws follow from the equations (`Proofs/LawEqs.lean`); exchanging parts by induction on the reader, exchanging rules by induction on the budget (`Proofs/LawSwap.lean`); the conditions are needed, shown by witnesses |
| C84 | JSON grammar reads the longest document | induction-free case analysis on the derivation of the document: each optional part of a number is matched against the rest of the text, the longest document is found by induction on the length of the rest |
| C85 | What makes a read go on for ever | the calls of a read are a relation on readers and places; a place from which no endless branch starts is accessible, so the read ends by well-founded induction; conversely loops and circles time out with every fuel |
| C86 | The graph of the picked segments is the tree of the picked calls | `Spec.PickTree` describes the trees of a parse by rules: a pick that read something is a node with its token, and what its reader picked is below it. `Slots` says where `Append` puts a segment (from `rankNodes`), segments in the order of their ends are always pushed behind the siblings, and the pushes of the segments of a parse give its trees. The rules thread places (text ahead, Janus state), so a text has one tree, and having one is the same as being read. |
| C87 | what a read tells the outside | reading by rules (Spec/Trace: outcome and events of every kind of reader, abandoned ways included); every returning read follows them and leaves maps, untracked baskets, log lines and the fields of value readers as the events say; where the rules lead a read gets; the rules leave one way only |
| C88 | whose error a failed read returns | rules for the error of every kind of reader (Spec/Blame); every error follows them, where they give an error the read fails with it, they give one error only; laws of C83 for errors (Props/C83Errors) |
| C89 | Errors of the MXT grammar | `MxtFault` says what is missing first and where; the rules of C88 give its words; C82 says when there is an error |
| C90 | the longest JSON document, malformed bytes included (C84 for any bytes) | no rule of the grammar gives up a character that a longer document would need (`Upto`), by induction on the rules; then C34 |
| C91 | JSON names what is missing in the outermost value | the error rules of C88 with the expressions of C34 and the longest lists of `JsonLists`; existence by cases on the text; malformed bytes with `Peg.rel` |
| C92 | every list of files fits in an MXT document | the chunks of C54 for what is written; a salt longer than all contents; necessity from the soundness of C81 and the unique splitting of headers |
| C93 | reading while others use the same memory | `readAmong`: the steps of `read` with arbitrary changes of the memory before and after each call; a relation between scanners that is kept by every step; a frame for what other readers change |
| C94 | JSON documents one after the other | the client loop over `read`; induction over its rounds with C84 (longest document), C91 (error) and C49 (no end); a value is taken whatever follows unless it is a number |
| C95 | numbers written and read back | the digits of a number are a numeral (strong induction); a numeral without a digit behind it is the longest; C22, C23, C55; induction over the list |
| C96 | A Wrap reader does what its function does | limits: what a reader does with some budget, the exchanged one does with every large enough budget |
| C97 | Names are labels | lockstep of two reads with the same budget, over a relation of scanners that differ in infos and wording |
| C98 | JSON values written, read and rebuilt from the graph | meaning of JSON texts as mutual predicates; induction gives the tree of C56 together with the result of the client; C56 for the basket, the graph and uniqueness |
| C99 | What a read does not come near to does not matter | relation between the runs on two texts with a common beginning, that ends when the tracker is told a place too near to its end |
| C100 | Grammars can be put together | step-by-step equality of two runs under a renumbering of the rules |
| C101 | Every instance of a grammar reads alike | relation between the runs of two instances, step by step, under an injective map of their objects |
| C102 | Picking some of the rules picks of them what picking all rules does | relation between a read and the read with fewer picks, in both directions, for scanners that tell this basket, another one or none, with functions of the client, and with bodies in which nothing is picked |
| C103 | The leafs of what was picked cut the text into its parts | invariant of reads on the segments in a basket, with the theorems on graphs and Segmentate |
| C104 | backward calls against forward calls | relation between two scanners that face each other in mirrored texts, closed under composition; a lemma for every shape of call (one rune, search, run, literal) |
| C105 | search and skip readers against the methods of the scanner | calls that decide by the characters ahead and calls that seek the first such place; the loops of To, Past and Zom followed by induction over the characters |
| C106 | JSON documents can be minified with a basket and Segmentate | A second function on characters (`squeeze`) drops white space outside of strings; each production of the grammar is shown to pick exactly the white space (`Trims`), and `Segmentate` to leave the rest; for all texts via C103_flat, C49 |
| C107 | The printed stack tells the graph | Induction over both graphs with what follows; the number in front of the first dot tells a node below from the next one; false with line breaks in infos |
| C108 | The values and keys of a JSON document can be changed with a basket and Segmentate | derivations of values with the segments of their tree; the picks of json-stack without the others (C102); loop invariant of Segmentate |
| C109 | A client can change what a grammar picks and leave the rest of the text as it is | induction over the segments in a row: what `segmentateLoop` gives, written anew, is the splice; the histories of C103 make the basket a row for every grammar whose picks do not nest and do not stand in a body |
| C110 | Which rules of the shipped grammars are ever called | C100 with a decided set of rules that lead to each other; the called rules have texts as witnesses; a basket of all rules by the histories of C103 |
| C111 | The functions given to Map only hear | simulation of a read by the read without some of the functions, by induction over the budget in both directions, through every reader, `Body` included; the invariant is that the last segment of the tracked basket ends at the position or before it |
| C112 | Changing the names and contents of MXT files | the calls of C82 and the segments of the basket are the same list, read off by taking each read apart along the grammar; C111 and C44 carry the basket over to the grammar with the picks alone |
| C113 | Monitoring some of the readers shows of them what monitoring all of them does | the traces of C87 with and without the Monitors are taken along together (induction over the trace); both logs are the lines of one tree of calls, once with the calls of the unwatched readers taken out; C43 twice for the rest of the read |
| C114 | What is picked is in the log | an invariant of reads (Proofs/Frame): the log only grows, and every segment the basket got has one of the new lines; C43 for the line of the call that picked; for the order of Monitor and Pick the comparison of C43 and C44 (Proofs/Strip), once without the Monitors and once without the Picks |

No property is left out as inexpressible.
