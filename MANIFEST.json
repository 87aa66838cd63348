{
 "claims": [
  {
   "property": "C01",
   "status": "partial",
   "theorems": [
    "Tok.C01_decode_step",
    "Tok.C01_decodeLast_step",
    "Tok.C01_forward",
    "Tok.C01_forward_wellformed",
    "Tok.C01_progress",
    "Tok.C01_backward_partial",
    "Tok.C01_backward_violated"
   ],
   "note": "Forward decoding and backward decoding of well-formed text proved for all byte strings. The backward iterator used by Rev* stops at U+FFFD or malformed bytes: C01_backward_violated."
  },
  {
   "property": "C02",
   "status": "partial",
   "theorems": [
    "Tok.C02_head_tail",
    "Tok.C02_ends",
    "Tok.C02_op_partial",
    "Tok.C02_program_partial",
    "Tok.C02_toMarker_violated",
    "Tok.C02_fold_violated"
   ],
   "note": "Proved for every client program built from all Scanner methods with data-dependent continuations, provided ToMarker is given a marker inside the text, Get a token inside the text, and the Fold family is called where it cannot panic; the violated theorems show each exception is real (ToMarker(5) on \"a\" leaves the position outside; IfFold panics on a short rest)."
  },
  {
   "property": "C03",
   "status": "proved",
   "theorems": [
    "Tok.C03_scope",
    "Tok.C03_trace",
    "Tok.C03_tokenize",
    "Tok.C03_capture",
    "Tok.C03_use",
    "Tok.C03_tokenizeUse",
    "Tok.C03_traceUse",
    "Tok.C03_captureUse"
   ],
   "note": "All closures and readers that return and leave the text unchanged (the API offers no way to change it)."
  },
  {
   "property": "C04",
   "status": "proved",
   "theorems": [
    "Tok.C04_trace",
    "Tok.C04_capture",
    "Tok.C04_tokenize",
    "Tok.C04_traceUse",
    "Tok.C04_captureUse",
    "Tok.C04_tokenizeUse",
    "Tok.C04_trace_fail"
   ],
   "note": "Forward and backward movement; C04_trace_fail records what Trace returns when the closure fails."
  },
  {
   "property": "C05",
   "status": "proved",
   "theorems": [
    "Tok.C05_if_match",
    "Tok.C05_if_nomatch",
    "Tok.C05_ifAny_match",
    "Tok.C05_ifAny_nomatch",
    "Tok.C05_to_match",
    "Tok.C05_to_nomatch",
    "Tok.C05_total"
   ],
   "note": "Full."
  },
  {
   "property": "C06",
   "status": "partial",
   "theorems": [
    "Tok.C06_ifRune_partial",
    "Tok.C06_ifRune_violated",
    "Tok.C06_toRune",
    "Tok.C06_whileRune_exact",
    "Tok.C06_whileRune"
   ],
   "note": "ToRune and WhileRune full. IfRune(U+FFFD) succeeds at the end of the text: C06_ifRune_violated; every other rune proved."
  },
  {
   "property": "C07",
   "status": "partial",
   "theorems": [
    "Tok.C07_ifAnyRune_partial",
    "Tok.C07_ifAnyRune_violated",
    "Tok.C07_toAnyRune",
    "Tok.C07_whileAnyRune_exact",
    "Tok.C07_whileAnyRune_partial",
    "Tok.C07_whileAnyRune_violated"
   ],
   "note": "ToAnyRune full. IfAnyRune with U+FFFD in the set and WhileAnyRune when everything matches are wrong: C07_*_violated; the rest proved, C07_whileAnyRune_exact says what happens always."
  },
  {
   "property": "C08",
   "status": "proved",
   "theorems": [
    "Tok.C08_ifBetween",
    "Tok.C08_toBetween",
    "Tok.C08_whileBetween_exact",
    "Tok.C08_whileBetween"
   ],
   "note": "Full (about where the scanner ends; the returned bool is C10)."
  },
  {
   "property": "C09",
   "status": "partial",
   "theorems": [
    "Tok.C09_ifMatch",
    "Tok.C09_toMatch",
    "Tok.C09_whileMatch_exact",
    "Tok.C09_whileMatch_partial",
    "Tok.C09_whileMatch_violated"
   ],
   "note": "IfMatch, ToMatch full. WhileMatch does not move when all runes match: C09_whileMatch_violated."
  },
  {
   "property": "C10",
   "status": "partial",
   "theorems": [
    "Tok.C10_whileMatch",
    "Tok.C10_whileRune_partial",
    "Tok.C10_whileBetween_partial",
    "Tok.C10_whileAnyRune_partial",
    "Tok.C10_revWhileMatch_partial",
    "Tok.C10_revWhileRune_partial",
    "Tok.C10_revWhileAnyRune_partial",
    "Tok.C10_revWhileBetween_partial",
    "Tok.C10_violated"
   ],
   "note": "False of the code in general (C10_violated); the _partial theorems give the exact conditions."
  },
  {
   "property": "C11",
   "status": "partial",
   "theorems": [
    "Tok.C11_revTo_exact_partial",
    "Tok.C11_revIf_match",
    "Tok.C11_revIf_nomatch",
    "Tok.C11_revIfAny_match",
    "Tok.C11_revIfAny_nomatch",
    "Tok.C11_revTo_match_partial",
    "Tok.C11_revTo_nomatch_partial",
    "Tok.C11_revTo_violated"
   ],
   "note": "RevIf, RevIfAny full. RevTo is limited by the backward iterator (C11_revTo_violated); C11_revTo_exact_partial says exactly what it does on every byte text, well-formed or not."
  },
  {
   "property": "C12",
   "status": "partial",
   "theorems": [
    "Tok.C12_revIfRune_partial",
    "Tok.C12_revIfAnyRune_partial",
    "Tok.C12_start_exact",
    "Tok.C12_start_violated",
    "Tok.C12_revIfBetween_inverted",
    "Tok.C12_revIfMatch_inverted",
    "Tok.C12_revIfBetween_violated",
    "Tok.C12_revIfMatch_violated"
   ],
   "note": "RevIfBetween and RevIfMatch do the opposite of what is documented (C12_*_inverted, C12_*_violated); RevIfRune and RevIfAnyRune proved apart from U+FFFD at the start, where C12_start_exact says exactly what they answer."
  },
  {
   "property": "C13",
   "status": "partial",
   "theorems": [
    "Tok.C13_exact_partial",
    "Tok.C13_revToMatch_partial",
    "Tok.C13_revToRune_partial",
    "Tok.C13_revToAnyRune_partial",
    "Tok.C13_revToBetween_partial",
    "Tok.C13_stop_violated",
    "Tok.C13_revToRune_violated"
   ],
   "note": "Proved for text without U+FFFD or malformed bytes behind the match; C13_stop_violated and C13_revToRune_violated for the rest; C13_exact_partial says exactly what the method does on every byte text."
  },
  {
   "property": "C14",
   "status": "partial",
   "theorems": [
    "Tok.C14_exact_partial",
    "Tok.C14_revWhileMatch_partial",
    "Tok.C14_revWhileRune_partial",
    "Tok.C14_revWhileAnyRune_partial",
    "Tok.C14_revWhileBetween_partial",
    "Tok.C14_violated"
   ],
   "note": "Proved for runs of well-formed runes; C14_violated for the rest; C14_exact_partial says exactly what the methods do on every byte text."
  },
  {
   "property": "C15",
   "status": "partial",
   "theorems": [
    "Tok.C15_if_revIf",
    "Tok.C15_revIf_if",
    "Tok.C15_readRune_rev",
    "Tok.C15_revReadRune_fwd",
    "Tok.C15_moveRunes_partial",
    "Tok.C15_moveRunes_back_partial",
    "Tok.C15_moveRunes_violated"
   ],
   "note": "If/RevIf and ReadRune/RevReadRune full. MoveRunes both ways on well-formed text without U+FFFD among the characters moved over; C15_moveRunes_violated: MoveRunes(-1) never moves back over U+FFFD."
  },
  {
   "property": "C16",
   "status": "partial",
   "theorems": [
    "Tok.C16_backward_exact_partial",
    "Tok.C16_forward",
    "Tok.C16_forward_short",
    "Tok.C16_zero",
    "Tok.C16_backward_partial",
    "Tok.C16_backward_short",
    "Tok.C16_backward_violated"
   ],
   "note": "Forward full; backward limited by the U+FFFD stop, C16_backward_violated; C16_backward_exact_partial says exactly what the backward move does on every byte text."
  },
  {
   "property": "C17",
   "status": "partial",
   "theorems": [
    "Tok.C17_foldEq_ascii",
    "Tok.C17_ifFold_partial",
    "Tok.C17_ifFold_violated",
    "Tok.C17_kelvin_violated",
    "Tok.C17_toFold_partial",
    "Tok.C17_revIfFold_partial",
    "Tok.C17_revIfFold_violated",
    "Tok.C17_revToFold_partial",
    "Tok.C17_revToFold_violated",
    "Tok.C17_anyFold_partial",
    "Tok.C17_anyFold_violated"
   ],
   "note": "Movement proved when the argument is not longer than the rest, also for the reader AnyFold (the first of its words that the text begins with up to case, C17_anyFold_partial); the violated theorems prove that IfFold/RevIfFold and AnyFold panic when fewer bytes are left, that RevToFold panics, and that the Kelvin sign is not matched although EqualFold says equal."
  },
  {
   "property": "C18",
   "status": "partial",
   "theorems": [
    "Tok.C18_scanString_partial",
    "Tok.C18_violated"
   ],
   "note": "Proved for n smaller than the number of runes left; C18_violated proves ScanString(n) fails when exactly n runes are left."
  },
  {
   "property": "C19",
   "status": "proved",
   "theorems": [
    "Tok.C19_lineCol",
    "Tok.C19_total"
   ],
   "note": "Proved for every text, position and tab width."
  },
  {
   "property": "C20",
   "status": "proved",
   "theorems": [
    "Tok.C20_readRune",
    "Tok.C20_readRune_fail",
    "Tok.C20_revReadRune",
    "Tok.C20_revReadRune_fail"
   ],
   "note": "Success and failure characterised in both directions."
  },
  {
   "property": "C21",
   "status": "proved",
   "theorems": [
    "Tok.C21_readBool",
    "Tok.C21_readBool_fail"
   ],
   "note": "Success and failure characterised for every format string."
  },
  {
   "property": "C22",
   "status": "partial",
   "theorems": [
    "Tok.C22_readUint",
    "Tok.C22_readUint64_partial",
    "Tok.C22_short",
    "Tok.C22_noDigit",
    "Tok.C22_invalid",
    "Tok.C22_total",
    "Tok.C22_violated"
   ],
   "note": "Full for bit sizes 8, 16 and 32; for 64 bits the exact condition under which it is right (C22_readUint64_partial is an equivalence: the value with one more digit, reduced to 64 bits, is less than the value); always right for at most 19 decimal digits (C22_short). C22_violated shows the wrap-around."
  },
  {
   "property": "C23",
   "status": "partial",
   "theorems": [
    "Tok.C23_readInt",
    "Tok.C23_readInt64_partial",
    "Tok.C23_noDigit",
    "Tok.C23_invalid",
    "Tok.C23_violated"
   ],
   "note": "Full for bit sizes 8, 16 and 32; for 64 bits the exact condition under which it is right (C23_readInt64_partial is an equivalence). C23_violated shows the wrap-around."
  },
  {
   "property": "C24",
   "status": "proved",
   "theorems": [
    "Tok.C24_makeToken",
    "Tok.C24_covers_partialOrder",
    "Tok.C24_covers_has",
    "Tok.C24_merge_least",
    "Tok.C24_before_after",
    "Tok.C24_clashes",
    "Tok.C24_clashes_symm",
    "Tok.C24_split",
    "Tok.C24_len"
   ],
   "note": "All tokens; Clashes, Before and Split are related to sets of byte offsets."
  },
  {
   "property": "C25",
   "status": "proved",
   "theorems": [
    "Tok.C25_segmentate",
    "Tok.C25_error",
    "Tok.C25_scanner",
    "Tok.C25_known"
   ],
   "note": "Segment.Segmentate and Scanner.Segmentate; C25_error characterises the reported segment."
  },
  {
   "property": "C26",
   "status": "partial",
   "theorems": [
    "Tok.C26_perm",
    "Tok.C26_sort_partial",
    "Tok.C26_stable_violated",
    "Tok.C26_clash_violated",
    "Tok.C26_empty_violated"
   ],
   "note": "Full claim for slices without clashes and without an empty token at the left edge of a longer one, except stability; the violated theorems show that equal tokens are reordered, and that clashing segments or empty tokens break the order. The proof goes through the real algorithm of sort.Stable (insertion sort of blocks of 20, symMerge)."
  },
  {
   "property": "C27",
   "status": "partial",
   "theorems": [
    "Tok.C27_sort_partial",
    "Tok.C27_perm",
    "Tok.C27_duplicate_violated",
    "Tok.C27_clash_violated"
   ],
   "note": "Full claim including stability for such slices and an order slice without duplicates; infos that are not listed come first."
  },
  {
   "property": "C28",
   "status": "proved",
   "theorems": [
    "Tok.C28_append",
    "Tok.C28_terminates",
    "Tok.C28_build"
   ],
   "note": "Every history of Append calls with ordered tokens."
  },
  {
   "property": "C29",
   "status": "proved",
   "theorems": [
    "Tok.C29_tree",
    "Tok.C29_root",
    "Tok.C29_siblings"
   ],
   "note": "Every history of Append calls with ordered tokens; the root is the least covering token."
  },
  {
   "property": "C30",
   "status": "proved",
   "theorems": [
    "Tok.C30_segments",
    "Tok.C30_leafs",
    "Tok.C30_flameStack",
    "Tok.C30_paths"
   ],
   "note": "Every history of Append calls with ordered tokens; FlameStack for every graph, with the exact lines in C30_paths."
  },
  {
   "property": "C31",
   "status": "partial",
   "theorems": [
    "Tok.C31_equal",
    "Tok.C31_order_partial",
    "Tok.C31_empty_violated",
    "Tok.C31_equal_tokens_violated"
   ],
   "note": "Proved for non-empty pairwise different tokens; C31_empty_violated shows that an empty token between two touching ones hangs below whichever was appended first."
  },
  {
   "property": "C32",
   "status": "partial",
   "theorems": [
    "Tok.C32_position",
    "Tok.C32_no_panic_partial",
    "Tok.C32_fold_panics",
    "Tok.C32_violated",
    "Tok.C32_shipped"
   ],
   "note": "Positions: all readers and grammars, Wrap under the assumption that its function is well-behaved. No panic: additionally no non-empty Fold and every rule has a reader. Violated in general: Fold(\"abc\") panics when fewer bytes are left than the literal has (C32_fold_panics is the exact condition)."
  },
  {
   "property": "C33",
   "status": "partial",
   "theorems": [
    "Tok.C33_restores_partial",
    "Tok.C33_use",
    "Tok.C33_violated",
    "Tok.C33_shipped"
   ],
   "note": "All readers and grammars except a directly read Times with two or more repetitions; Use restores for every reader. Violated in general: Times(2, Rune('a')) on \"ab\" fails behind the a."
  },
  {
   "property": "C34",
   "status": "partial",
   "theorems": [
    "Tok.C34_success_partial",
    "Tok.C34_failure_partial",
    "Tok.C34_documented_partial",
    "Tok.C34_violated"
   ],
   "note": "For every expressible reader, grammar, text and position the read returns success (failure) exactly if the parsing expression of the reader matches (does not match), with the same remaining text; documented meaning for readers without corner cases. The unrestricted claim is false: C34_violated (Not and U+FFFD at the end of the text, Any after a failing Times, Not on a malformed byte)."
  },
  {
   "property": "C35",
   "status": "proved",
   "theorems": [
    "Tok.C35_janus",
    "Tok.C35_text_ahead",
    "Tok.C35_again",
    "Tok.C35_janus_needed"
   ],
   "note": "A read depends on nothing but the text ahead and the strings of its Janus readers; two reads of the same text by a stateless grammar give the same result. C35_janus_needed shows the Janus strings cannot be left out."
  },
  {
   "property": "C36",
   "status": "partial",
   "theorems": [
    "Tok.C36_terminates_partial",
    "Tok.C36_violated",
    "Tok.C36_repetition_needed",
    "Tok.C36_left_recursion_needed",
    "Tok.C36_mxt",
    "Tok.C36_bytes_partial"
   ],
   "note": "With a well-formed grammar (no left recursion, repeated readers consume) every read ends, with no bound on the text (C36_terminates_partial); the MXT grammar is well-formed (C36_mxt). Searching readers (Past, Body, BodyTail) need an end of the text at which a search gets on: well-formed UTF-8 and readers over whole characters (C36_terminates_partial), or any bytes and any readers where the last two bytes are ASCII and the first part of a Body does not search (C36_bytes_partial). The claim for all texts is false, since at one or two bytes that begin no character they stay where they are for ever (C36_violated). Both well-formedness conditions are needed (C36_repetition_needed, C36_left_recursion_needed). C85 says exactly, for every grammar and text, when a read does not end."
  },
  {
   "property": "C37",
   "status": "partial",
   "theorems": [
    "Tok.C37_position_partial",
    "Tok.C37_any_deepest",
    "Tok.C37_any_from_start",
    "Tok.C37_names_itself",
    "Tok.C37_shipped",
    "Tok.C37_violated"
   ],
   "note": "Every failing read returns a ReadError positioned between the start of the read and the end of the text (C37_position_partial), for readers without invalid parts and without an empty Any; the shipped grammars are of this kind (C37_shipped). Any reports the deepest of the errors of its alternatives (C37_any_deepest, C37_any_from_start) and simple readers report the start of the read and their own What (C37_names_itself). Without the conditions the claim is false (C37_violated)."
  },
  {
   "property": "C38",
   "status": "partial",
   "theorems": [
    "Tok.C38_begin",
    "Tok.C38_end",
    "Tok.C38_kept",
    "Tok.C38_same_text_partial",
    "Tok.C38_violated"
   ],
   "note": "The first reader keeps exactly what it read (C38_begin), the second matches exactly that (C38_end), and nothing in between that does not name the pair changes it (C38_kept, C38_same_text_partial). \"No matter what is read in between\" is false when the second reader itself is tried in between and the sequence around it fails, as in the long brackets of the Lua grammar (C38_violated)."
  },
  {
   "property": "C39",
   "status": "partial",
   "theorems": [
    "Tok.C39_body_partial",
    "Tok.C39_bodyTail_partial",
    "Tok.C39_finds_partial",
    "Tok.C39_failure_partial",
    "Tok.C39_exact",
    "Tok.C39_fails_exact",
    "Tok.C39_violated",
    "Tok.C39_janus"
   ],
   "note": "Both readers succeed exactly when the tail matches before the end of the text and the body reads exactly what is before the first match, and they stop before or behind it (C39_body_partial, C39_bodyTail_partial, C39_finds_partial); they fail otherwise and stay (C39_failure_partial), on well-formed UTF-8 with a tail that goes back when it fails. C39_exact and C39_fails_exact describe both on every text and for tails that move on failure; these are for readers without Janus. C39_janus describes both with Janus readers among the parts, on every text. Wrap is excluded. False: positions picked inside the body are relative to the text between, matches at the end of the text are not found, and malformed bytes hide matches (C39_violated)."
  },
  {
   "property": "C40",
   "status": "partial",
   "theorems": [
    "Tok.C40_not_janus",
    "Tok.C40_past_janus",
    "Tok.C40_to_janus",
    "Tok.C40_at",
    "Tok.C40_not_fails",
    "Tok.C40_not_partial",
    "Tok.C40_not_runs",
    "Tok.C40_to_success_partial",
    "Tok.C40_to_finds_partial",
    "Tok.C40_to_failure_partial",
    "Tok.C40_past_success_partial",
    "Tok.C40_past_finds_partial",
    "Tok.C40_past_failure_partial",
    "Tok.C40_not_exact",
    "Tok.C40_to_exact",
    "Tok.C40_to_fails_exact",
    "Tok.C40_past_exact",
    "Tok.C40_past_fails_exact",
    "Tok.C40_past_hangs",
    "Tok.C40_atEnd",
    "Tok.C40_violated"
   ],
   "note": "At for all readers (C40_at); Not where a character is left (C40_not_fails, C40_not_partial, C40_not_runs); To and Past find exactly the first match and fail exactly if there is none (C40_to_*, C40_past_*) on well-formed UTF-8 with readers that go back when they fail; the _exact theorems and C40_past_hangs describe Not, To and Past on every text and for readers that move on failure; these are for readers without Janus. C40_not_janus, C40_to_janus and C40_past_janus describe them with Janus readers among the parts, on every text. Wrap is excluded. AtEnd (C40_atEnd). False: Not succeeds at the end of the text without moving, Past misses a match at the end, and malformed bytes break Not and To (C40_violated)."
  },
  {
   "property": "C41",
   "status": "partial",
   "theorems": [
    "Tok.C41_basket",
    "Tok.C41_always_partial",
    "Tok.C41_marker_partial",
    "Tok.C41_read_partial",
    "Tok.C41_failed_partial",
    "Tok.C41_pick_partial",
    "Tok.C41_shipped",
    "Tok.C41_parse_partial",
    "Tok.C41_parse_shipped",
    "Tok.C41_violated",
    "Tok.C41_unique"
   ],
   "note": "Proved for every history of reads, moves and jumps of a scanner coupled with a fresh basket: segments end at or before the position, ordered by end, inside the text (C41_always_partial); ToMarker drops exactly those behind it; a successful read leaves exactly the segments of the picks of the parse, up to empty ones (C41_parse_partial), and there is only one parse (C41_unique); a failed one leaves only empty ones. Excluded: picks inside the first part of Body/BodyTail, Wrap. C41_violated: empty segments survive rollback (JSON on \"[1,tru\"); MXT with all rules picked has segments with positions of another text."
  },
  {
   "property": "C42",
   "status": "partial",
   "theorems": [
    "Tok.C42_apart_partial",
    "Tok.C42_graph_partial",
    "Tok.C42_shipped",
    "Tok.C42_violated"
   ],
   "note": "Pairwise non-clashing and completeness of BuildGraph for every history without picks inside the first part of Body/BodyTail; C42_shipped covers the JSON and Lua grammars. C42_violated: the MXT grammar with all rules picked yields clashing segments for \"//x a --é-->\"."
  },
  {
   "property": "C43",
   "status": "partial",
   "theorems": [
    "Tok.C43_transparent",
    "Tok.C43_monitor_all",
    "Tok.C43_shipped",
    "Tok.C43_level",
    "Tok.C43_order",
    "Tok.C43_call",
    "Tok.C43_exit_partial",
    "Tok.C43_capacity",
    "Tok.C43_violated",
    "Tok.C43_reset",
    "Tok.C43_grammar"
   ],
   "note": "Monitoring is transparent (C43_transparent, both directions, any reader/grammar/text; C43_monitor_all for Log.Monitor on all rules; C43_shipped), level restored (C43_level), call order and levels (C43_order), one entry per monitored call (C43_call). After Reset a log is as good as new (C43_reset). Exit position/error: only proved unless lost by slice reallocation (C43_exit_partial), full with enough capacity (C43_capacity). The claim itself fails: C43_violated. Wrap functions are assumed not to look at or write logs."
  },
  {
   "property": "C44",
   "status": "partial",
   "theorems": [
    "Tok.C44_map",
    "Tok.C44_pick",
    "Tok.C44_named",
    "Tok.C44_monitor",
    "Tok.C44_rules_partial",
    "Tok.C44_shipped",
    "Tok.C44_strip_partial",
    "Tok.C44_violated"
   ],
   "note": "Single wrappers exactly characterised (C44_map: once per successful read with the token; C44_pick, C44_named, C44_monitor). Wrappers on rules of a whole grammar: same error and position both ways (C44_rules_partial, C44_shipped, C44_strip_partial) for grammars without Wrap whose mapped/picked parts go back on failure. Fails in general: C44_violated (Times inside Map/Pick)."
  },
  {
   "property": "C45",
   "status": "partial",
   "theorems": [
    "Tok.C45_terminates",
    "Tok.C45_first_byte",
    "Tok.C45_rule_names_partial",
    "Tok.C45_violated"
   ],
   "note": "CheckRuleName ends on every string (C45_terminates) and its result is nil exactly if the first byte is an ASCII letter (C45_first_byte). So every rule name is accepted and whatever is accepted starts with a rule name (C45_rule_names_partial), but the rest of the name is not looked at: the claim about the whole name is false (C45_violated)."
  },
  {
   "property": "C46",
   "status": "partial",
   "theorems": [
    "Tok.C46_set_rule_names",
    "Tok.C46_check_rules_partial",
    "Tok.C46_violated",
    "Tok.C46_shipped",
    "Tok.C46_must_check_partial",
    "Tok.C46_must_set_partial",
    "Tok.C46_checks",
    "Tok.C46_lines"
   ],
   "note": "JSON, MXT and Lua: declared valid distinct names, no nil reader, every reference at any depth inside the grammar, no invalid reader at any depth (C46_shipped); such grammars pass SetRuleNames and CheckRules and the Must forms do not panic (C46_checks). SetRuleNames and CheckRules are characterised for all grammars (C46_set_rule_names, C46_check_rules_partial), their Must forms panic exactly when these return an error (C46_must_set_partial, C46_must_check_partial), GrammarLines too (C46_lines, with the whole printed grammars as examples). CheckRules does not find every bad name because CheckRuleName only looks at the first byte (C46_violated). A grammar is the list of its rules here; CollectRules over structs is in C75."
  },
  {
   "property": "C47",
   "status": "partial",
   "theorems": [
    "Tok.C47_runes_partial",
    "Tok.C47_sound_partial",
    "Tok.C47_text",
    "Tok.C47_violated"
   ],
   "note": "Proved for every text and position: with malformed bytes read as U+FFFD what is read is a JSON element, and if the bytes read are UTF-8 they are a JSON element. The claim for raw bytes is false (C47_violated: byte 0xFF inside a string)."
  },
  {
   "property": "C48",
   "status": "proved",
   "theorems": [
    "Tok.C48_complete",
    "Tok.C48_followed",
    "Tok.C48_exact",
    "Tok.C48_begins"
   ],
   "note": "Every JSON document of the McKeeman grammar is read to the end, also when followed by a character that cannot continue it; C48_exact: the documents are exactly the UTF-8 texts read to the end. C48_begins: on every byte text reading succeeds exactly if the text, malformed bytes read as U+FFFD, begins with a document."
  },
  {
   "property": "C49",
   "status": "partial",
   "theorems": [
    "Tok.C49_terminates_partial",
    "Tok.C49_violated",
    "Tok.C49_exact_partial",
    "Tok.C49_error_partial",
    "Tok.C49_text_partial"
   ],
   "note": "The claim is false: a quote followed by any plain characters is read for ever (C49_violated), because the range of string characters contains U+FFFD, which the scanner reports at the end of the text. Proved exactly: on every byte text and position reading does not end if and only if the text is cut off inside a string between two of its characters (C49_exact_partial, JsonCut), it reports an error exactly in the remaining cases (C49_error_partial); in particular it ends on every text that ends with a control character (C49_terminates_partial)."
  },
  {
   "property": "C50",
   "status": "proved",
   "theorems": [
    "Tok.C50_marker",
    "Tok.C50_text",
    "Tok.C50_grammar",
    "Tok.C50_fails",
    "Tok.C50_error",
    "Tok.C50_lists",
    "Tok.C50_single",
    "Tok.C50_arguments",
    "Tok.C50_ranges",
    "Tok.C50_pairs",
    "Tok.C50_messages",
    "Tok.C50_odd",
    "Tok.C50_false_alarm"
   ],
   "note": "Structural induction over what a reader shows (C50_marker), also for whole grammars through GrammarLines (C50_grammar); invalid readers fail and change nothing (C50_fails); the constructors are invalid exactly for unsupported arguments and otherwise hold exactly the arguments (C50_lists, C50_single, C50_arguments, C50_ranges, C50_pairs); the messages literally, with the number and type of the first bad argument (C50_messages, C50_odd). The converse of the marker claim (not part of the property) is false, see C50_false_alarm."
  },
  {
   "property": "C51",
   "status": "partial",
   "theorems": [
    "Tok.C51_set_partial",
    "Tok.C51_betweenAny",
    "Tok.C51_set_described_partial",
    "Tok.C51_build",
    "Tok.C51_malformed",
    "Tok.C51_between",
    "Tok.C51_digit",
    "Tok.C51_hexDigit",
    "Tok.C51_ws",
    "Tok.C51_nl",
    "Tok.C51_holey_partial",
    "Tok.C51_consumes_partial",
    "Tok.C51_violated"
   ],
   "note": "For every description, text (any bytes) and position the readers read one rune iff it is in the described set and otherwise fail without moving (C51_betweenAny, C51_build, C51_between, C51_digit, C51_hexDigit, C51_malformed; C51_set_partial, C51_set_described_partial, C51_holey_partial, C51_consumes_partial under the condition that the scanner is not at the end or U+FFFD is not accepted). C51_ws and C51_nl: WS reads one of four characters, NL a line feed or CR LF. Without the condition the claim is false (C51_violated)."
  },
  {
   "property": "C52",
   "status": "partial",
   "theorems": [
    "Tok.C52_binop_partial",
    "Tok.C52_violated",
    "Tok.C52_binop_fails",
    "Tok.C52_unop"
   ],
   "note": "False for //, >> and <<: C52_violated shows they are never read completely, for any following text. All other binary operators (C52_binop_partial) and all unary operators (C52_unop) are."
  },
  {
   "property": "C53",
   "status": "partial",
   "theorems": [
    "Tok.C53_string_zero",
    "Tok.C53_comment_zero",
    "Tok.C53_string_partial",
    "Tok.C53_comment_partial",
    "Tok.C53_forgotten",
    "Tok.C53_unread",
    "Tok.C53_line_partial",
    "Tok.C53_last_line",
    "Tok.C53_violated"
   ],
   "note": "The claim is false (C53_violated): a line comment that ends with the text is not read, for every such comment (C53_last_line), and a `]` with the level's equal signs but no second `]` makes the closing bracket lose its level, so the string runs to the next `]]` (C53_forgotten) or is not read at all (C53_unread). Proved for all contents and following texts: level 0 without condition (C53_string_zero, C53_comment_zero), every level when no such half bracket stands inside (C53_string_partial, C53_comment_partial), line comments with a line break (C53_line_partial)."
  },
  {
   "property": "C54",
   "status": "proved",
   "theorems": [
    "Tok.C54_document",
    "Tok.C54_left",
    "Tok.C54_swallowed",
    "Tok.C54_stale"
   ],
   "note": "C54: a document of one chunk (any marker, spaces, name, comment, arrow, salt, line break, content) gives its name and its content to the map functions and is read to the end, whatever the reader read before. C54_document: the same for any number of chunks with salts, for a reader without a salt in its memory. That condition is needed: C54_left, C54_swallowed, C54_stale show that a salt at the end of one document is still in force when the same reader reads the next one, whose chunks then are not separated."
  },
  {
   "property": "C55",
   "status": "proved",
   "theorems": [
    "Tok.C55_own",
    "Tok.C55_bool",
    "Tok.C55_int",
    "Tok.C55_uint",
    "Tok.C55_bool_value",
    "Tok.C55_bool_fail",
    "Tok.C55_uint_value",
    "Tok.C55_int_value",
    "Tok.C55_int_fail",
    "Tok.C55_uint_fail",
    "Tok.C55_repeated"
   ],
   "note": "C55_bool, C55_int, C55_uint: the reader returns what the Scanner method returns and its field holds the method's value, also after a failure; no other field changes. C55_bool_value, C55_int_value, C55_uint_value tie the value to the text; C55_bool_fail, C55_int_fail, C55_uint_fail: a failing read stores the zero value; C55_repeated: a repeated number reader therefore ends with zero; C55_own: no other reader of any grammar touches the field."
  },
  {
   "property": "C56",
   "status": "proved",
   "theorems": [
    "Tok.C56_basket",
    "Tok.C56_followed",
    "Tok.C56_stack",
    "Tok.C56_unique"
   ],
   "note": "Every JSON document, also one followed by text that cannot continue it (C56_followed); the tree is defined with the grammar (JsonTree) and is unique (C56_unique). Reading the file and printing are outside the model."
  },
  {
   "property": "C57",
   "status": "partial",
   "theorems": [
    "Tok.C57_prints_partial",
    "Tok.C57_text_partial",
    "Tok.C57_ends_partial",
    "Tok.C57_rejects_partial",
    "Tok.C57_trailing_violated",
    "Tok.C57_exact_partial",
    "Tok.C57_hangs_violated"
   ],
   "note": "The full claim is false: text after a document is ignored (C57_trailing_violated) and an unterminated string makes the program loop (C57_hangs_violated). Proved exactly what happens to every file (C57_exact_partial): a stack is printed iff the file begins with a JSON document, the program loops iff the file is cut off in a string, and it reports an error in all other cases."
  },
  {
   "property": "C58",
   "status": "partial",
   "theorems": [
    "Tok.C58_terminates_partial",
    "Tok.C58_string_violated",
    "Tok.C58_long_violated",
    "Tok.C58_bytes_partial",
    "Tok.C58_newline_violated",
    "Tok.C58_exact_partial",
    "Tok.C58_chars_partial",
    "Tok.C58_quoted_partial",
    "Tok.C58_unfinished_violated"
   ],
   "note": "The claim is false: C58_unfinished_violated (a name followed by any unfinished string), C58_string_violated, C58_long_violated and C58_newline_violated (an unterminated long string with a stray byte among the last two). Proved exactly for every text of any bytes and every place: reading does not end if and only if it gets to the characters of a short string with nothing but such characters up to the end, or the search for a closing long bracket gets to one or two last bytes that begin no character (C58_exact_partial); on UTF-8 texts only the first is left (C58_chars_partial). Conditions on the text alone under which it ends: no quote is followed up to the end by nothing but characters and escapes of a short string, and the text is UTF-8 (C58_quoted_partial) or its last two bytes are ASCII (C58_bytes_partial); texts that are empty or end with a control character are a special case (C58_terminates_partial)."
  },
  {
   "property": "C59",
   "status": "partial",
   "theorems": [
    "Tok.C59_reader",
    "Tok.C59_rejects_violated",
    "Tok.C59_prints_partial",
    "Tok.C59_bytes_partial",
    "Tok.C59_hangs_violated",
    "Tok.C59_always_partial",
    "Tok.C59_exact_partial"
   ],
   "note": "The second half is false for every file: Block is a sequence of a repetition and an option, so the grammar never fails and the error message is never printed (C59_reader, C59_rejects_violated). For a call with an unterminated string the program does not end (C59_hangs_violated). Proved exactly for every file of any bytes: the program does not end if and only if reading gets into one of the two loops of C58 (C59_exact_partial, Lua.Hangs); on every other file it ends and prints the lines of a tree whose nodes are exactly the picked segments (C59_always_partial). Conditions on the text alone: C59_prints_partial (UTF-8), C59_bytes_partial (last two bytes ASCII)."
  },
  {
   "property": "C60",
   "status": "partial",
   "theorems": [
    "Tok.C60_lines",
    "Tok.C60_shown",
    "Tok.C60_preview_partial",
    "Tok.C60_violated"
   ],
   "note": "Lines, order, levels and absence of panics for every read with a new log (C60_lines); the preview shows characters number EnterAt.. (C60_shown), which is the text at the entry when only ASCII stands before it (C60_preview_partial). C60_violated: behind a non-ASCII character, and for rules used in the first part of a Body, the preview shows the wrong place. strconv.Quote is a parameter."
  },
  {
   "property": "C61",
   "status": "partial",
   "theorems": [
    "Tok.C61_what_partial",
    "Tok.C61_lit",
    "Tok.C61_violated",
    "Tok.C61_set_violated",
    "Tok.C61_named_violated",
    "Tok.C61_words_partial",
    "Tok.C61_seq_partial",
    "Tok.C61_rule_violated"
   ],
   "note": "Proved for readers of any depth built from Lit, Fold, AnyRune, Rune, Between, sets of ranges and runes, Holey, AtEnd, Any, At, Not, Opt, Many, Zom, Past, To, Times, SkipSeq, Body (tail not Many) and BodyTail: equal What means equal reader (C61_what_partial). C61_words_partial adds rules, Janus and value readers (one object for a word, no rule with the name END, no words in a Body), C61_seq_partial bodies that are sequences of such readers. False elsewhere, with pairs that have one What and read differently: sequences below other readers, Many tails of Body, invalid runes, the quote in ranges, the double quote and > at the start of a range of a set (C61_violated, C61_set_violated), a rule END below At and rules with - in a Body (C61_rule_violated), and readers with a given text, which can be given the text of any reader (C61_named_violated)."
  },
  {
   "property": "C62",
   "status": "partial",
   "theorems": [
    "Tok.C62_reads",
    "Tok.C62_fails",
    "Tok.C62_name_partial",
    "Tok.C62_keyword_violated"
   ],
   "note": "Exact on every text: the longest identifier is read (C62_reads) and errors occur exactly where none begins (C62_fails); names that are not reserved words are read whole (C62_name_partial). False part: reserved words are read as names, too (C62_keyword_violated)."
  },
  {
   "property": "C63",
   "status": "partial",
   "theorems": [
    "Tok.C63_reads_partial",
    "Tok.C63_fails_partial",
    "Tok.C63_sound",
    "Tok.C63_violated"
   ],
   "note": "Exact on every text: the longest beginning that is a numeral with digits on both sides of a radix point (C63_reads_partial, C63_fails_partial); everything read is a Lua numeral (C63_sound). False part: numerals that begin or end with the radix point (C63_violated)."
  },
  {
   "property": "C64",
   "status": "partial",
   "theorems": [
    "Tok.C64_reads",
    "Tok.C64_loops",
    "Tok.C64_fails",
    "Tok.C64_string_partial",
    "Tok.C64_control_violated",
    "Tok.C64_decimal_violated",
    "Tok.C64_utf_violated"
   ],
   "note": "Exact trichotomy at a quote on every text: reads (C64_reads), loops (C64_loops), fails (C64_fails), against a grammar of the characters on bytes; every short string of Lua without control characters is read (C64_string_partial). False parts: strings with control characters, such as a backslash in front of a line break, are rejected (C64_control_violated); decimal escapes above 255 and \\u escapes from 2^31 on are read (C64_decimal_violated, C64_utf_violated); unfinished strings loop (C64_loops)."
  },
  {
   "property": "C65",
   "status": "proved",
   "theorems": [
    "Tok.C65_result",
    "Tok.C65_ends",
    "Tok.C65_last"
   ],
   "note": "C65_result: exact outcome of While by the chain of calls; C65_ends: it ends if the calls move ahead. C65_last: the last call is not undone."
  },
  {
   "property": "C66",
   "status": "proved",
   "theorems": [
    "Tok.C66_program",
    "Tok.C66_reader",
    "Tok.C66_plain",
    "Tok.C66_function",
    "Tok.C66_wrap_violated"
   ],
   "note": "C66_program: client programs that do not exchange the tracker; C66_reader: readers, with the bounds of the positions reported, if the functions of Wrap keep to this (C66_plain: without Wrap; C66_function: functions that do what a reader does); C66_wrap_violated: a function that takes the tracker away shows that the condition is needed."
  },
  {
   "property": "C67",
   "status": "proved",
   "theorems": [
    "Tok.C67_token",
    "Tok.C67_token_inj",
    "Tok.C67_segment",
    "Tok.C67_segment_inj",
    "Tok.C67_error",
    "Tok.C67_error_inj",
    "Tok.C67_errorFor"
   ],
   "note": "Texts with decimal numerals defined independently; injectivity for tokens, segments and read errors."
  },
  {
   "property": "C68",
   "status": "partial",
   "theorems": [
    "Tok.C68_reads_partial",
    "Tok.C68_lua",
    "Tok.C68_new_partial",
    "Tok.C68_list_violated",
    "Tok.C68_params_violated",
    "Tok.C68_for_violated",
    "Tok.C68_return_violated",
    "Tok.C68_division_violated",
    "Tok.C68_shift_violated",
    "Tok.C68_call_violated",
    "Tok.C68_word_violated",
    "Tok.C68_semicolon_violated",
    "Tok.C68_until_violated",
    "Tok.C68_nil_violated",
    "Tok.C68_violated",
    "Tok.C68_long_violated"
   ],
   "note": "Spec/LuaGrammar.lean is the syntax of the manual, production by production. C68_reads_partial: every text of the fragment Spec/LuaProg.lean (all statements, expressions, calls, tables with keys, functions, short and long strings, nested without bound, any white space) is read to its end, by induction over the phrases with a calculus of first tokens; C68_lua: the fragment is Lua; C68_new_partial: the whole call. The claim for all chunks is false (C68_violated): {1, 2}, function f(a, b) end, for a, b in c, return in front of end, //, <<, return (1)+1, names that begin with a reserved word, f(); g(), until (x) and long strings with a half closing bracket are not read (C68_*_violated). Comments are in C72, what may be read at all is in C74. Missing: an exact description of what is read of the other chunks."
  },
  {
   "property": "C69",
   "status": "partial",
   "theorems": [
    "Tok.C69_basket",
    "Tok.C69_add_exact",
    "Tok.C69_update_keeps",
    "Tok.C69_kept_partial",
    "Tok.C69_picked",
    "Tok.C69_ahead_partial",
    "Tok.C69_overwritten_violated",
    "Tok.C69_sort_violated",
    "Tok.C69_outside"
   ],
   "note": "The claim is false of the code: C69_overwritten_violated (going back and picking again writes into a slice the client got before) and C69_sort_violated (sorting the slice sorts the basket, after which going back keeps a segment it should drop), for every growth of slices. Proved for all histories: the slices of the basket hold what the list of the model says (C69_basket), exactly when one Add changes what the client sees (C69_add_exact), Update and Picked never do (C69_update_keeps), and the slice is kept while the basket never gets shorter than it (C69_kept_partial) or the scanner never goes back before the end of one of its segments (C69_ahead_partial)."
  },
  {
   "property": "C70",
   "status": "proved",
   "theorems": [
    "Tok.C70_append",
    "Tok.C70_new",
    "Tok.C70_buildLoop",
    "Tok.C70_build",
    "Tok.C70_handmade"
   ],
   "note": "On nodes in memory, for every sequence of segments with ordered tokens and every bound on the recursion from a stated one on. NodeMem.TreeAt says it in terms of pointers only; C70_append also says that the pointer version and the version on trees agree. C70_handmade shows that for a graph filled in by the client a refused Append can leave a shared node."
  },
  {
   "property": "C71",
   "status": "partial",
   "theorems": [
    "Tok.C71_move_exact",
    "Tok.C71_move",
    "Tok.C71_move_violated",
    "Tok.C71_moveRunes",
    "Tok.C71_lineCol_exact",
    "Tok.C71_lineCol_violated",
    "Tok.C71_len_exact",
    "Tok.C71_len",
    "Tok.C71_len_violated"
   ],
   "note": "C71_move_exact says for which scanners and arguments a wrapping Move differs from the ideal one; C71_move: never, if the position is not negative; C71_moveRunes: never; C71_lineCol_exact and C71_len_exact say when column and length are right. The claim without conditions is false: C71_move_violated (marker at the least int, then Move by the least int succeeds and goes to 0), C71_lineCol_violated (two tabs of the greatest width give column -1), C71_len_violated."
  },
  {
   "property": "C72",
   "status": "partial",
   "theorems": [
    "Tok.C72_reads_partial",
    "Tok.C72_lua",
    "Tok.C72_new_partial",
    "Tok.C72_semicolon_violated",
    "Tok.C72_minus_violated",
    "Tok.C72_violated"
   ],
   "note": "Proved for the phrases of Spec/LuaProg.lean with comments in front of the chunk and behind brackets, do, then, else, repeat, not, # and names glued to a dot or colon (C72_reads_partial, C72_new_partial); C72_lua shows that these texts are Lua. False in general: behind a semicolon comments end the block whatever follows (C72_semicolon_violated, for all white space, comments and statements), and behind an expression a comment is read as two minus signs (C72_minus_violated)."
  },
  {
   "property": "C73",
   "status": "partial",
   "theorems": [
    "Tok.C73_line_partial",
    "Tok.C73_chunk_partial",
    "Tok.C73_last_violated",
    "Tok.C73_hash_violated",
    "Tok.C73_read_violated",
    "Tok.C73_violated"
   ],
   "note": "Proved for first lines #! with any text and a line break, in front of the chunks of C72_reads_partial, and for these chunks without a first line. False in general: a script of the line alone without a line break is not read (C73_last_violated), a first line # without ! is not read (C73_hash_violated), and Read, which uses the rule Chunk, reads nothing of a script with a first line (C73_read_violated)."
  },
  {
   "property": "C74",
   "status": "partial",
   "theorems": [
    "Tok.C74_sound_partial",
    "Tok.C74_script_partial",
    "Tok.C74_bound",
    "Tok.C74_keyword_violated",
    "Tok.C74_apart_violated",
    "Tok.C74_violated"
   ],
   "note": "C74_sound_partial: whatever the grammar reads, from every state of a scanner and with every text ahead, is made of tokens that follow the syntax of the manual production by production (LooseLua, Spec/LuaLoose.lean), where reserved words count as names, tokens need not be kept apart, and the ends of long brackets are told less exactly; C74_script_partial: the same for the rule Script. That it is Lua is false (C74_violated): every reserved word can be assigned to (C74_keyword_violated, all 22 words) and returnx is read as a return statement (C74_apart_violated); both are outside AlmostLua, which holds every Lua chunk with short strings (C74_bound)."
  },
  {
   "property": "C75",
   "status": "partial",
   "theorems": [
    "Tok.C75_collect_partial",
    "Tok.C75_collect_violated",
    "Tok.C75_names_exact",
    "Tok.C75_names_cases",
    "Tok.C75_wraps_partial",
    "Tok.C75_wraps_violated",
    "Tok.C75_masked_violated",
    "Tok.C75_wired"
   ],
   "note": "Structs whose fields are all exported: CollectRules returns exactly the Rule fields in order (C75_collect_partial), NewBasketFor and MonitorGrammar wrap each rule once and change nothing else (C75_wraps_partial). SetRuleNames on every struct, with every outcome (C75_names_exact, C75_names_cases). The shipped grammars meet the hypotheses (C75_wired). False: one unexported field of any type makes CollectRules, NewBasketFor and MonitorGrammar panic (C75_collect_violated, C75_wraps_violated), and a rule without a reader passes CheckRules once it is wrapped, and panics when read (C75_masked_violated)."
  },
  {
   "property": "C76",
   "status": "partial",
   "theorems": [
    "Tok.C76_reads",
    "Tok.C76_own_partial",
    "Tok.C76_grows",
    "Tok.C76_leaks_violated",
    "Tok.C76_shipped",
    "Tok.C76_violated"
   ],
   "note": "Every read has the same error or none and the same position (C76_reads, for grammars without Wrap whose rules go back on failure), and the basket that tracks the scanner gets the segments of the parse (C76_own_partial, with the limits of C41). The other baskets are not left alone: for every grammar and text, a rule that reads puts its segment into all baskets ever made for the grammar (C76_leaks_violated), nothing is ever taken out of them again (C76_grows), also not after a failed read (C76_violated)."
  },
  {
   "property": "C77",
   "status": "partial",
   "theorems": [
    "Tok.C77_front",
    "Tok.C77_json_partial",
    "Tok.C77_violated"
   ],
   "note": "C77_json_partial: for every text, position and failing read the error text is \"json parse error: not able to read w at p\" and the text up to p is the beginning of a JSON document; C77_front: the same for every grammar without At, Not, value readers, Fold, Janus, Wrap and nested grammars and every family of sets closed under its rules. C77_violated: p is not always the last such position ([1,x] is reported at 2, though [1, begins [1,1])."
  },
  {
   "property": "C78",
   "status": "partial",
   "theorems": [
    "Tok.C78_json",
    "Tok.C78_violated",
    "Tok.C78_exponential",
    "Tok.C78_lua_exponential",
    "Tok.C78_lua_violated",
    "Tok.C78_mxt_violated",
    "Tok.C78_mxt_no_factor",
    "Tok.C78_mxt_square"
   ],
   "note": "False of the code for the Lua grammar: Exp reads FinalExp twice when no operator follows, so `return ##...#x` with n signs makes at least 2^(n+1) entries (C78_lua_violated, for every n) and no factor c is enough (C78_violated); an exponential bound does hold, for every text of any bytes (C78_lua_exponential), as for every grammar without left recursion that repeats only consuming readers (C78_exponential). False for the MXT grammar too: in `// n aaa...a b-->` the words of the comment are read again from each character, so n letters make at least n(n+1)/2 entries (C78_mxt_violated, for every n) and no factor is enough (C78_mxt_no_factor); the square is also enough: at most 44(n+1)^2 entries for every text of any bytes (C78_mxt_square). Proved without bound for the JSON grammar: at most 40 entries for every byte ahead and 38 more, for every text, start position and read that ends, successful or not (C78_json)."
  },
  {
   "property": "C79",
   "status": "partial",
   "theorems": [
    "Tok.C79_memory",
    "Tok.C79_json",
    "Tok.C79_lua",
    "Tok.C79_lua_rule",
    "Tok.C79_mxt_partial",
    "Tok.C79_mxt_violated"
   ],
   "note": "Proved for JSON (C79_json) and Lua with all its rules (C79_lua, C79_lua_rule), and in general for every grammar and reader without Wrap: only the pairs whose second reader may come before the first matter (C79_memory). False for MXT: the salt of the last chunk of a document stays in the grammar, and the chunks of the next document without salt are read as one; proved for every salt (C79_mxt_violated). For MXT the claim holds exactly as far as the remembered salt is the same (C79_mxt_partial)."
  },
  {
   "property": "C80",
   "status": "partial",
   "theorems": [
    "Tok.C80_json",
    "Tok.C80_json_tight",
    "Tok.C80_mxt",
    "Tok.C80_ranked",
    "Tok.C80_lua_violated",
    "Tok.C80_linear",
    "Tok.C80_lua_partial",
    "Tok.C80_left"
   ],
   "note": "True of JSON (5 per bracket and 7, reached for every n) and MXT (6). False of Lua: a chunk without brackets, with n hashes, goes deeper than 2n (C80_lua_violated). For Lua, and for every grammar without left recursion, the depth is at most linear in the length of the text (C80_linear, C80_lua_partial: 7 per byte and 6)."
  },
  {
   "property": "C81",
   "status": "partial",
   "theorems": [
    "Tok.C81_sound_partial",
    "Tok.C81_name_violated",
    "Tok.C81_error",
    "Tok.C81_exact",
    "Tok.C81_plain"
   ],
   "note": "False in one point: if the line behind a document has the marker of a next chunk and a name but no arrow, the chunk is not read, yet the map function of names is given the name (C81_name_violated, for every chunk, salt, and name), because calls of map functions are not undone when a reader fails. Everything else is proved: C81_sound_partial says what any successful read has read and which pieces were reported, with the extra name described exactly; C81_error decides success and failure and says that failure moves nothing and every read ends; C81_exact and C81_plain say that the texts read to the end are exactly the documents, with and without map functions. Without the condition on the remembered salt it is false (C54_stale). Texts outside UTF-8 are the subject of C82."
  },
  {
   "property": "C82",
   "status": "partial",
   "theorems": [
    "Tok.C82_cases",
    "Tok.C82_hang",
    "Tok.C82_error",
    "Tok.C82_end",
    "Tok.C82_yields",
    "Tok.C82_hang_violated",
    "Tok.C82_content_violated",
    "Tok.C82_marker_violated",
    "Tok.C82_ends_partial",
    "Tok.C82_header_partial"
   ],
   "note": "The claim is false three times. A name whose arrow is missing makes the reader hang if the last byte of the file, or the last but one, is no part of a character (C82_hang_violated, for every marker, name and note; case: `// a \\xff` and a line break). A content with such an end is refused (C82_content_violated). Such a byte above a line break hides the marker in the line below, so that the next chunk becomes part of the content (C82_marker_violated). All three come from MoveRunes, which steps over such a byte by three bytes or not at all. What happens instead is described exactly for every byte string: C82_cases, with C82_hang, C82_error and C82_end as equivalences for the three ways a read can go and C82_yields for the pieces. The part that holds: a file whose last two bytes are ASCII does not make the reader hang (C82_ends_partial) and is read if it begins with a header and a line break (C82_header_partial)."
  },
  {
   "property": "C83",
   "status": "partial",
   "theorems": [
    "Tok.C83_parts",
    "Tok.C83_rules",
    "Tok.C83_seq_flat",
    "Tok.C83_any_flat_partial",
    "Tok.C83_one_partial",
    "Tok.C83_times",
    "Tok.C83_skip",
    "Tok.C83_at_seq_partial",
    "Tok.C83_opt",
    "Tok.C83_any_again_partial",
    "Tok.C83_factor_partial",
    "Tok.C83_many_partial",
    "Tok.C83_at",
    "Tok.C83_body_partial",
    "Tok.C83_past_partial",
    "Tok.C83_any_order_partial",
    "Tok.C83_zom_not_partial",
    "Tok.C83_never",
    "Tok.C83_goesBack",
    "Tok.C83_keepsJanus",
    "Tok.C83_getsOn",
    "Tok.C83_violated",
    "Tok.C83_zom_violated",
    "Tok.C83_order_violated",
    "Tok.C83_error_one",
    "Tok.C83_error_flat",
    "Tok.C83_error_skip",
    "Tok.C83_error_times",
    "Tok.C83_error_any_one_partial",
    "Tok.C83_error_any_flat_partial",
    "Tok.C83_error_any_flat_violated",
    "Tok.C83_error_order_violated",
    "Tok.C83_error_any_one_violated",
    "Tok.C83_wrap",
    "Tok.C83_wrap_violated"
   ],
   "note": "For readers and grammars without Wrap: exchanging parts (C83_parts) and rules (C83_rules), and the laws C83_seq_flat, C83_any_flat, C83_one, C83_times, C83_skip, C83_at_seq, C83_opt, C83_any_again, C83_factor, C83_many, C83_at, C83_body, C83_past. \"The same\" means success, position and the strings of the Janus readers. Flattening of Seq, Seq of one reader, SkipSeq and Times keep the errors too (C83_error_one, C83_error_flat, C83_error_skip, C83_error_times); Any of one reader keeps them if they are read errors and not otherwise (C83_error_any_one_partial, C83_error_any_one_violated). The laws for Any, for one reader and for Many need readers that go back when they fail, and some need readers that leave the Janus strings alone or get on; C83_goesBack, C83_keepsJanus, C83_getsOn give these for readers without Times, without Janus, and not matching the empty text. Without the conditions the claim is false (C83_violated: Times does not go back, a looked-at Janus string is forgotten), and nothing ever comes of Zom(Zom(r)) and Zom(Opt(r)) (C83_never, C83_zom_violated). For Past the law is about success only: at a malformed end To fails where Past never ends. Functions of the client (Wrap) that stand for readers may be rewritten like these (C83_wrap, by C96); for functions that look at something else than the text ahead the claim is false (C83_wrap_violated: one that looks at what a tracker was told)."
  },
  {
   "property": "C84",
   "status": "proved",
   "theorems": [
    "Tok.C84_longest",
    "Tok.C84_reads",
    "Tok.C84_prints"
   ],
   "note": "Texts of characters (UTF-8); C47_violated shows what happens with other bytes. C84_longest gives the place exactly, C84_reads the existence, C84_prints the consequence for json-stack."
  },
  {
   "property": "C85",
   "status": "proved",
   "theorems": [
    "Tok.C85_forever",
    "Tok.C85_loops",
    "Tok.C85_chars",
    "Tok.C85_onward",
    "Tok.C85_repeats",
    "Tok.C85_stalls"
   ],
   "note": "Reader expressions without Wrap (its client function may do anything). Outcome, the result of a read at a place, is defined by the model's read itself; Calls lists the calls each Read method makes. C85_forever is the equivalence, C85_loops and C85_chars the cases without left recursion and for UTF-8, C85_onward, C85_repeats and C85_stalls say what staying at one place means."
  },
  {
   "property": "C86",
   "status": "partial",
   "theorems": [
    "Tok.C86_unique",
    "Tok.C86_tree_partial",
    "Tok.C86_failed_partial",
    "Tok.C86_fresh_partial",
    "Tok.C86_accepts_partial",
    "Tok.C86_exact_partial",
    "Tok.C86_shipped",
    "Tok.C86_violated"
   ],
   "note": "The graph without nodes that have empty tokens consists of the trees of the parse of the text read (C86_tree_partial for any history, C86_fresh_partial for a new basket, C86_exact_partial when nothing empty was picked, C86_failed_partial for failed reads), in particular for JSON and Lua with all rules picked (C86_shipped). The trees of a parse are unique (C86_unique), and where the rules give a tree the read succeeds with it (C86_accepts_partial). Conditions as for C41: no Wrap, no picks in the first part of Body or BodyTail, no Times with more than one repetition where the read goes on after a failure. False for empty tokens: JSON with all rules picked on 7 puts the white space behind the value below onenine (C86_violated)."
  },
  {
   "property": "C87",
   "status": "proved",
   "theorems": [
    "Tok.C87_trace",
    "Tok.C87_unique",
    "Tok.C87_complete",
    "Tok.C87_last"
   ],
   "note": "Spec/Trace gives the rules of reading with events (map call, pick, enter, leave, value stored) for every kind of reader, for ways that lead nowhere as well; nothing in it mentions the model of the Read methods, only what comes of readers without parts and what ReadBool, ReadInt and ReadUint return at the beginning of a text. C87_trace: every returning read has a trace, and map calls, baskets other than the tracking one, log lines and the fields of value readers are those of its events; C87_complete: where the rules lead, some read gets, and tells that; C87_unique: one outcome and one list of events; C87_last: a field holds what was stored last, also on a way that was given up. Not in the events: exit position and error of log entries (C43: lost when the slice moves), and the tracking basket itself (C41, C86)."
  },
  {
   "property": "C88",
   "status": "proved",
   "theorems": [
    "Tok.C88_error",
    "Tok.C88_unique",
    "Tok.C88_complete"
   ],
   "note": "Spec/Blame gives the rules; what comes of reads (Outcome) decides which rule applies. C88_error: every error of a read follows them; C88_complete: where they give an error the read fails with it; C88_unique: they give one error only. Deepest says in terms of the list of errors which one Any returns: without any read error it is a nameless error at position 0."
  },
  {
   "property": "C89",
   "status": "proved",
   "theorems": [
    "Tok.C89_fault",
    "Tok.C89_plain",
    "Tok.C89_unique",
    "Tok.C89_utf8"
   ],
   "note": "C89_fault says for every text and every error whether the reader (with map functions) returns it: the errors are those of MxtFault and no others; C89_plain is the same without map functions. C89_unique: one place and one name. C89_utf8: in UTF-8 texts only the five parts of the header are missing."
  },
  {
   "property": "C90",
   "status": "proved",
   "theorems": [
    "Tok.C90_bytes",
    "Tok.C90_longest",
    "Tok.C90_unique"
   ],
   "note": "C90_bytes for all bytes (the rest is the text behind the pieces of the longest document), C90_longest for UTF-8 texts with the places in bytes, C90_unique: there is only one longest document. LongestDoc uses only the grammar of Spec/Json."
  },
  {
   "property": "C91",
   "status": "proved",
   "theorems": [
    "Tok.C91_bytes",
    "Tok.C91_fault",
    "Tok.C91_unique",
    "Tok.C91_none",
    "Tok.C91_nested"
   ],
   "note": "C91_bytes: for a text of any bytes the error of a read is exactly the message of the one JsonFault of its characters (Spec/JsonFault, stated with the grammar of Spec/Json only); C91_fault: the same for UTF-8; C91_unique: only one; C91_none: none where a document can be read or the text is cut in a string; C91_nested: in the first element of an array every error turns into the missing bracket."
  },
  {
   "property": "C92",
   "status": "proved",
   "theorems": [
    "Tok.C92_reads",
    "Tok.C92_salt",
    "Tok.C92_any",
    "Tok.C92_differ",
    "Tok.C92_exact",
    "Tok.C92_fixed_violated"
   ],
   "note": "C92_reads: written documents yield their files, for every state of the reader's memory; C92_salt/C92_any: a salt exists for every list; C92_differ: documents determine the list; C92_exact: for a new reader the condition on the salt is necessary; C92_fixed_violated: no salt is good for all contents. Contents are texts of characters; for malformed bytes see C82."
  },
  {
   "property": "C93",
   "status": "partial",
   "theorems": [
    "Tok.C93_undisturbed",
    "Tok.C93_apart",
    "Tok.C93_json",
    "Tok.C93_lua_partial",
    "Tok.C93_mxt_partial",
    "Tok.C93_other",
    "Tok.C93_lua_violated"
   ],
   "note": "C93_undisturbed: for every grammar, own memory and interference that leaves it alone; C93_apart: reads of others with other readers are such interference; C93_json: one JSON grammar can be shared whatever others do; C93_lua_partial, C93_mxt_partial: the Janus strings must be left alone. That every shipped grammar can be shared is false: a long string of Lua is not read if somebody reads another one with the same grammar in between (C93_lua_violated, C93_other). The steps of one Read method between the reads of its parts are taken as one; Wrap functions are assumed not to look at what others change."
  },
  {
   "property": "C94",
   "status": "proved",
   "theorems": [
    "Tok.C94_exact",
    "Tok.C94_position",
    "Tok.C94_hangs",
    "Tok.C94_stream",
    "Tok.C94_no_panic",
    "Tok.C94_joined",
    "Tok.C94_ex_stream"
   ],
   "note": "C94_exact (result and error of the client for every text), C94_position, C94_hangs (no end exactly if cut off in a string), C94_no_panic, C94_stream (values one after the other), C94_joined (two numbers that touch); `drain` is the client, not a function of the package."
  },
  {
   "property": "C95",
   "status": "proved",
   "theorems": [
    "Tok.C95_format",
    "Tok.C95_format_inj",
    "Tok.C95_uint",
    "Tok.C95_int",
    "Tok.C95_uint_back",
    "Tok.C95_int_back",
    "Tok.C95_uint_reader",
    "Tok.C95_int_reader",
    "Tok.C95_list"
   ],
   "note": "C95_uint and C95_int for every numeral of a number that fits, C95_uint_back and C95_int_back for the usual way of writing it (C95_format, C95_format_inj), C95_uint_reader and C95_int_reader for the value readers, C95_list for lists; the clients and the writing are not functions of the package."
  },
  {
   "property": "C96",
   "status": "proved",
   "theorems": [
    "Tok.C96_parts",
    "Tok.C96_wrap",
    "Tok.C96_only",
    "Tok.C96_method",
    "Tok.C96_error",
    "Tok.C96_ahead",
    "Tok.C96_comes",
    "Tok.C96_forever",
    "Tok.C96_spins",
    "Tok.C96_told"
   ],
   "note": "C96_parts: parts with the same What and the same results may be exchanged in readers and rules; C96_wrap: the case of Wrap; C96_only: the condition on the function is necessary; C96_method: a function for every reader; C96_forever: reads without end; C96_comes, C96_ahead, C96_error, C96_spins, C96_told carry C83, C35, C88, C85 and C87 over to grammars with such functions. sign_stands is a function written with Scanner methods."
  },
  {
   "property": "C97",
   "status": "proved",
   "theorems": [
    "Tok.C97_names",
    "Tok.C97_read",
    "Tok.C97_panic",
    "Tok.C97_rules",
    "Tok.C97_set",
    "Tok.C97_segments",
    "Tok.C97_wording",
    "Tok.C97_pairs"
   ],
   "note": "C97_names: one step budget, both sides; C97_read and C97_panic for whole reads. C97_rules: the same readers under any rule names. C97_set: SetRuleNames keeps the readers. C97_segments: picked grammars, infos mapped by any function of the names. C97_wording: messages do differ. C97_pairs: Janus pairs are told apart by identity, not by name. Pointer identity of readers is represented by ids (rules, baskets, logs, Janus pairs, values)."
  },
  {
   "property": "C98",
   "status": "proved",
   "theorems": [
    "Tok.C98_value",
    "Tok.C98_meaning",
    "Tok.C98_unique",
    "Tok.C98_values",
    "Tok.C98_roundtrip",
    "Tok.C98_injective"
   ],
   "note": "C98_value: reading, building the graph and rebuilding yields the value that the document means. C98_meaning, C98_unique: exactly the documents mean something, and only one thing. C98_values, C98_roundtrip, C98_injective: every value can be written and comes back. The meaning of JSON texts, the client and the writer are in Spec/JsonValue.lean; a number means its numeral (what ParseFloat makes of it is not modelled). What follows the document must not begin with white space, a digit, a point or e, as in C56."
  },
  {
   "property": "C99",
   "status": "partial",
   "theorems": [
    "Tok.C99_window_partial",
    "Tok.C99_kept_partial",
    "Tok.C99_ask",
    "Tok.C99_others_partial",
    "Tok.C99_near",
    "Tok.C99_janus_violated",
    "Tok.C99_json_partial",
    "Tok.C99_lua_partial",
    "Tok.C99_mxt_partial"
   ],
   "note": "C99_window_partial: for all grammars and readers without JanusEnd the whole outcome (error, position, heap, number of steps) is the same on every text with the same beginning; functions of the client (Wrap) are allowed if they look no further themselves (Nearsighted; C99_ask: a function that asks for one rune is). C99_others_partial: also for scanners with another tracker or none, without Wrap. C99_json_partial: five bytes for the JSON grammar. For JanusEnd the claim is false as it stands, because it looks as far as the kept text is long (C99_janus_violated); with JanusEnd it holds if the scanner keeps away from the end of p by the length of the part in which it goes about (C99_kept_partial, C99_lua_partial, C99_mxt_partial). C99_near: coming nearer does matter. Wrap functions that look at all of the text remain outside, for them the claim is false."
  },
  {
   "property": "C100",
   "status": "proved",
   "theorems": [
    "Tok.C100_renumber",
    "Tok.C100_inside",
    "Tok.C100_behind",
    "Tok.C100_reachable",
    "Tok.C100_shipped",
    "Tok.C100_json",
    "Tok.C100_json_complete",
    "Tok.C100_mxt",
    "Tok.C100_lua"
   ],
   "note": "C100_renumber: exact equality of read and What for every renumbering of a closed set of rules; C100_inside, C100_behind, C100_reachable: the cases of adding rules around, behind, and changing unreachable ones; C100_shipped: the three grammars are closed; C100_json, C100_mxt, C100_lua: inside any other grammar; C100_json_complete as an example of what carries over. Rules are numbers in the model and pointers in the code, so the property also says that the choice of numbers is immaterial."
  },
  {
   "property": "C101",
   "status": "proved",
   "theorems": [
    "Tok.C101_alike",
    "Tok.C101_what",
    "Tok.C101_new",
    "Tok.C101_plain",
    "Tok.C101_shipped",
    "Tok.C101_merged_violated"
   ],
   "note": "Any map of objects that keeps different objects different; C101_merged_violated shows that this is needed. Functions of Wrap are a hypothesis (Reader.wrapAlike), empty for readers without Wrap, so for the shipped grammars (C101_shipped)."
  },
  {
   "property": "C102",
   "status": "partial",
   "theorems": [
    "Tok.C102_less_partial",
    "Tok.C102_more_partial",
    "Tok.C102_new_partial",
    "Tok.C102_shipped",
    "Tok.C102_violated",
    "Tok.C102_calls",
    "Tok.C102_then",
    "Tok.C102_looks_violated",
    "Tok.C102_apart_partial",
    "Tok.C102_second_partial",
    "Tok.C102_second_shipped",
    "Tok.C102_times_violated",
    "Tok.C102_told_violated",
    "Tok.C102_other_violated",
    "Tok.C102_calls_apart",
    "Tok.C102_looks_apart_violated",
    "Tok.C102_body_partial",
    "Tok.C102_mxt",
    "Tok.C102_mxt_violated"
   ],
   "note": "The read with fewer picks and the read with all are compared in both directions, for grammars whose picked readers go back on failure and scanners that tell this or any other basket whose segments end at the scanner or before it (C102_less_partial, C102_more_partial, C102_new_partial; JSON and Lua: C102_shipped, all rules picked or some). Body is allowed when nothing is picked in the text it reads with its first reader (C102_body_partial; MXT: C102_mxt, for all rules but wordchar). Functions of the client in a Wrap are allowed if they move forward and do the same whatever was left out of the basket; functions that call readers of the library, one after the other, do (C102_calls, C102_then, C102_calls_apart), and for a function that looks at the basket the claim is false (C102_looks_violated, C102_looks_apart_violated). For a scanner that has no tracker or one of the client all bodies are allowed (C102_apart_partial, C102_second_partial; C102_second_shipped: JSON, Lua and MXT). For a tracked scanner the claim is false when something is picked in a Body: the segments of a body have positions in the body, and Basket.Update stops at one of them, so leaving it out changes which other segments stay (C102_violated). It is false of the MXT grammar with all rules picked: a name that was rolled back stays in the basket (C102_mxt_violated). It is false for a picked Times, which does not go back (C102_times_violated), and of what a tracker of the client is told (C102_told_violated) and of another basket with segments behind the scanner (C102_other_violated)."
  },
  {
   "property": "C103",
   "status": "partial",
   "theorems": [
    "Tok.C103_leafs",
    "Tok.C103_smallest_partial",
    "Tok.C103_picked",
    "Tok.C103_known_partial",
    "Tok.C103_direct",
    "Tok.C103_shipped",
    "Tok.C103_violated",
    "Tok.C103_flat"
   ],
   "note": "The parts make up the text for every grammar, result and sequence of reads and moves, also for MXT, whose segments may clash (C103_picked, C103_leafs, C103_shipped). False: if nothing was picked, the name of the graph is a known part, and an empty segment hides the segment that it ends, so that the numbers of a JSON array are unknown parts (C103_violated). Proved without these (C103_known_partial, C103_smallest_partial). C103_direct says when Segmentate takes the picked segments without the graph; C103_flat: always, if no pick is read inside another. Wrap is allowed if its function adds to the basket only segments in the text."
  },
  {
   "property": "C104",
   "status": "partial",
   "theorems": [
    "Tok.C104_symm",
    "Tok.C104_then",
    "Tok.C104_mirror_partial",
    "Tok.C104_while_partial",
    "Tok.C104_violated"
   ],
   "note": "C104_mirror_partial: RevIf, RevIfAny, RevTo (of a literal that is not empty), RevIfRune, RevToRune, RevWhileRune, RevIfAnyRune, RevToAnyRune, RevToBetween, RevWhileBetween, RevToMatch, MoveRunes(-n), ToStart and AtStart are the mirror images of the forward methods; C104_symm and C104_then: programs of them in both directions are as well. C104_while_partial: RevWhileAnyRune and RevWhileMatch move to the mirrored place if some character ends the run. False (C104_violated, a witness for each): RevIfBetween and RevIfMatch (inverted), RevWhileAnyRune and RevWhileMatch (their forward counterparts do not move over a run up to the end, and report otherwise if there is no run), RevIfFold and RevToFold (panic), the empty literal of RevTo, texts with U+FFFD."
  },
  {
   "property": "C105",
   "status": "partial",
   "theorems": [
    "Tok.C105_to_partial",
    "Tok.C105_past_partial",
    "Tok.C105_while_partial",
    "Tok.C105_any",
    "Tok.C105_violated"
   ],
   "note": "Proved for literals, runes, sets, ranges and predicates in well-formed texts. False, with witnesses: U+FFFD at the end of the text (To succeeds, Zom never returns), the empty literal of Past, runs up to the end of the text for WhileAnyRune and WhileMatch, what WhileRune reports, Fold (the reader panics), malformed bytes."
  },
  {
   "property": "C106",
   "status": "proved",
   "theorems": [
    "Tok.C106_minify",
    "Tok.C106_value",
    "Tok.C106_same",
    "Tok.C106_again",
    "Tok.C106_written",
    "Tok.C106_reads",
    "Tok.C106_exact"
   ],
   "note": "The document without white space, with and without text after it (C106_minify), same meaning (C106_value, C106_same), again (C106_again), written values (C106_written); every byte string: C106_reads, C106_exact (a result, an error, or no end for texts cut off in a string)."
  },
  {
   "property": "C107",
   "status": "partial",
   "theorems": [
    "Tok.C107_stack_partial",
    "Tok.C107_violated",
    "Tok.C107_equal_partial",
    "Tok.C107_json",
    "Tok.C107_lua"
   ],
   "note": "Proved for graphs whose infos have no line breaks, whatever else they contain (C107_stack_partial; C107_equal_partial: FlameStack prints the same exactly if Equal says so), and for the programs json-stack (C107_json, an equivalence) and full-lua-stack (C107_lua) with file names without line breaks. False with line breaks (C107_violated)."
  },
  {
   "property": "C108",
   "status": "proved",
   "theorems": [
    "Tok.C108_edit",
    "Tok.C108_reads",
    "Tok.C108_blank",
    "Tok.C108_nested_violated",
    "Tok.C108_exact"
   ],
   "note": "C108_edit: for every selection of the five rules, every function that does to the texts what g and k do to the meant values and keys, every document and everything that may follow it. C108_reads: for all texts and functions, with the text itself if the function changes nothing. C108_blank is a client that takes out strings and numbers. With array and number picked together Segmentate refuses (C108_nested_violated), so not every selection of rules can be allowed. C108_exact: which of the three things happens, for every text of any bytes."
  },
  {
   "property": "C109",
   "status": "partial",
   "theorems": [
    "Tok.C109_splice_partial",
    "Tok.C109_client_partial",
    "Tok.C109_same_partial",
    "Tok.C109_length_partial",
    "Tok.C109_lua",
    "Tok.C109_comment_violated",
    "Tok.C109_json",
    "Tok.C109_mxt",
    "Tok.C109_calls",
    "Tok.C109_body_violated"
   ],
   "note": "C109_client_partial is the full equation of the client with the read, for all grammars whose picks do not nest and do not stand in the first reader of a Body, functions, texts and budgets (rewriteText and splice in Spec/Rewrite.lean); C109_splice_partial is the same at every moment of every history of reads and moves, C109_same_partial and C109_length_partial the two consequences, C109_lua, C109_json and C109_mxt the grammars. Functions of the client in a Wrap are allowed if they add segments of what they read, one behind the other; functions that call such readers do (C109_calls). False for a pick in a Body, whose segment has positions in the body: Segmentate refuses the basket (C109_body_violated). C109_comment_violated: behind an expression the Lua grammar reads a comment as two minus signs, so a client that renames a variable writes into the comment; it concerns what is picked, not the claim. Nested picks: C108_nested_violated."
  },
  {
   "property": "C110",
   "status": "proved",
   "theorems": [
    "Tok.C110_json",
    "Tok.C110_lua",
    "Tok.C110_never",
    "Tok.C110_json_called",
    "Tok.C110_lua_called",
    "Tok.C110_mxt_called",
    "Tok.C110_basket",
    "Tok.C110_demo"
   ],
   "note": "C110_json_called, C110_lua_called and C110_mxt_called say exactly which rules are called (Called in Spec/Reach.lean: the program panics without the reader of the rule; the texts are witnesses found by evaluation, the other direction is for all texts and budgets, C110_never for every runtime); C110_json and C110_lua: whatever is done to the four rules, with C100_reachable; C110_basket and C110_demo: what a basket of all rules cannot hold."
  },
  {
   "property": "C111",
   "status": "partial",
   "theorems": [
    "Tok.C111_less_partial",
    "Tok.C111_more_partial",
    "Tok.C111_new_partial",
    "Tok.C111_mxt",
    "Tok.C111_mxt_grammars",
    "Tok.C111_rules",
    "Tok.C111_shipped",
    "Tok.C111_violated",
    "Tok.C111_told_violated"
   ],
   "note": "C111_less_partial and C111_more_partial for every reader, C111_shipped for the three grammars and any rules without further conditions. Missing are Maps around readers that stay where they failed, such as Times, for which the claim is false (C111_violated); how often a tracker of the client is told its position does change (C111_told_violated)."
  },
  {
   "property": "C112",
   "status": "proved",
   "theorems": [
    "Tok.C112_edit",
    "Tok.C112_client",
    "Tok.C112_again",
    "Tok.C112_same",
    "Tok.C112_document",
    "Tok.C112_lines",
    "Tok.C112_reread",
    "Tok.C112_chunk_violated"
   ],
   "note": "C112_client and C112_edit hold for every file; C112_again asks that the new chunks are chunks again (C112_lines: sufficient conditions, C112_reread), and C112_chunk_violated shows that this is needed."
  },
  {
   "property": "C113",
   "status": "proved",
   "theorems": [
    "Tok.C113_fewer",
    "Tok.C113_more",
    "Tok.C113_tells",
    "Tok.C113_anew",
    "Tok.C113_names",
    "Tok.C113_rules",
    "Tok.C113_shipped",
    "Tok.C113_print",
    "Tok.C113_readback",
    "Tok.C113_readback_violated",
    "Tok.C113_shipped_names"
   ],
   "note": "C113_fewer and C113_more (every reader and grammar without wrapped functions, either direction); C113_tells (the lines determine the calls); C113_names (by leaving out names no Monitor has); C113_anew (other logs before the read); C113_rules and C113_shipped (all rules of a grammar without Monitors of its own against some of them); C113_print, C113_readback and C113_shipped_names (what is printed), C113_readback_violated (why names without line breaks). The case reads [[x]] with three rules and leaves one out. Wrapped functions are excluded because they may look at the log."
  },
  {
   "property": "C114",
   "status": "proved",
   "theorems": [
    "Tok.C114_seen",
    "Tok.C114_rules",
    "Tok.C114_shipped",
    "Tok.C114_order",
    "Tok.C114_either",
    "Tok.C114_shipped_other",
    "Tok.C114_order_violated",
    "Tok.C114_converse_violated"
   ],
   "note": "C114_seen (every reader and grammar in which what is picked is monitored inside), C114_rules and C114_shipped (Monitor, then Pick, for all rules), C114_order and C114_either (the order makes no difference), C114_shipped_other (Pick, then Monitor), C114_order_violated (why rules must go back when they fail), C114_converse_violated."
  }
 ]
}