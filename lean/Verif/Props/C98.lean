/-
C98 JSON values can be written, read and rebuilt from the graph.
-/
import Verif.Proofs.JsonValue

namespace Tok

open Spec

/-- A document is read, its graph is built, and the client gets the value that the document means, whatever the spelling of strings and the white space,
and whatever stands behind the document if it cannot belong to it. -/
theorem C98_value (rt : Rt) (name : Bytes) (v : JVal) (cs ds : List Char) (hv : JsonElement v cs)
    (hf : ∀ c ds', ds = c :: ds' → c ∉ [' ', '\n', '\r', '\t', '.', 'e', 'E', '0', '1', '2', '3', '4', '5', '6', '7', '8', '9']) :
    ∃ N s' g, (∀ fuel, N ≤ fuel → read rt Json.stackEnv fuel Json.reader ((Scanner.new (encText (cs ++ ds)) Heap.empty).newBasket 0) = .ret (none, s') ∧
        Graph.build fuel name (s'.heap.baskets 0) = .ret g) ∧
      Between s' (encText cs) (encText ds) ∧ documentOf s' g = some v := by
  have hp : Placed ((Scanner.new (encText (cs ++ ds)) Heap.empty).newBasket 0) 0 cs := ⟨[], encText ds, by simp [Scanner.newBasket, Scanner.new, encText_append], rfl⟩
  obtain ⟨m, hm, _⟩ := element_tree hv hp
  obtain ⟨k, s', h1, h2, h4, h3⟩ := C56_basket rt cs ds [m] hm hf
  have hap := C42_apart_partial rt _ 0 Json.stack_tracked s' h3
  rw [h4] at hap
  obtain ⟨N, h5⟩ := Json.graph_of (Json.row hm) name _ (by simpa [Node.postList] using Json.post_perm m) (hap.imp fun h => h.2)
  obtain ⟨m', hm', hv'⟩ := element_tree hv (s := s') (p := 0) ⟨[], encText ds, by rw [h2.1]; rfl, rfl⟩
  have e := C56_unique cs m m' hm hm'
  subst e
  exact ⟨max N k, s', ⟨.mk ⟨name, m.tok⟩ [m]⟩, fun fuel hfu => ⟨h1 fuel (by omega), by rw [h4]; exact h5 fuel (by omega)⟩, h2, hv'⟩

/-- Exactly the documents mean something. -/
theorem C98_meaning (cs : List Char) : JsonDoc cs ↔ ∃ v, JsonElement v cs := by
  constructor
  · exact fun h => meant h
  · rintro ⟨v, h⟩
    obtain ⟨n, hn, _⟩ := element_tree (s := .new (encText cs) Heap.empty) (p := 0) h ⟨[], [], by simp [Scanner.new], rfl⟩
    exact hn.text

/-- And no document means two things. -/
theorem C98_unique (cs : List Char) (v v' : JVal) (h : JsonElement v cs) (h' : JsonElement v' cs) : v = v' := by
  have hp : Placed (.new (encText cs) Heap.empty) 0 cs := ⟨[], [], by simp [Scanner.new], rfl⟩
  obtain ⟨n, h1, h2⟩ := element_tree h hp
  obtain ⟨n', h1', h2'⟩ := element_tree h' hp
  have e := C56_unique cs n n' h1 h1'
  subst e
  exact Option.some.inj (h2.symm.trans h2')

/-- The values that documents mean. -/
theorem C98_values (v : JVal) : v.Fits ↔ ∃ cs, JsonElement v cs :=
  ⟨fun h => ⟨_, element_of (write_value h)⟩, fun ⟨_, h⟩ => element_fits h⟩

/-- Every value can be written, and what is read and rebuilt from the written text is the value. -/
theorem C98_roundtrip (rt : Rt) (name : Bytes) (v : JVal) (hv : v.Fits) :
    ∃ N s' g, (∀ fuel, N ≤ fuel → read rt Json.stackEnv fuel Json.reader ((Scanner.new (encText (writeValue v)) Heap.empty).newBasket 0) = .ret (none, s') ∧
        Graph.build fuel name (s'.heap.baskets 0) = .ret g) ∧ s'.atEnd = true ∧ documentOf s' g = some v := by
  have := C98_value rt name v (writeValue v) [] (element_of (write_value hv)) (by simp)
  rw [List.append_nil] at this
  obtain ⟨N, s', g, h1, h2, h3⟩ := this
  refine ⟨N, s', g, h1, ?_, h3⟩
  unfold Scanner.atEnd
  rw [h2.1, h2.2]
  simp [encText_nil]

/-- So different values have different texts. -/
theorem C98_injective (v v' : JVal) (hv : v.Fits) (hv' : v'.Fits) (h : writeValue v = writeValue v') : v = v' :=
  C98_unique _ v v' (element_of (write_value hv)) (h ▸ element_of (write_value hv'))

/-! ### examples -/

/-- `{"k": [null, true, "\u0041\n€😀"], "k": -1.5e3}`: the members in their order, also with the same key. -/
def exJVal : JVal := .obj [([107], .arr [.null, .bool true, .str [65, 10, 0x20AC, 0xD83D, 0xDE00]]), ([107], .num ['-', '1', '.', '5', 'e', '3'])]

theorem exJVal_fits : exJVal.Fits := by
  refine .obj (.cons (by decide) (.arr (.cons .null (.cons (.bool true) (.cons (.str (by decide)) .nil)))) (.cons (by decide) (.num ?_) .nil))
  exact .number (is := ['-', '1']) (fs := ['.', '5']) (es := ['e', '3'])
    (.integer_minus_digit (.digit_onenine (.onenine (c := '1') (by decide) (by decide))))
    (.fraction (.digits_one (.digit_onenine (.onenine (c := '5') (by decide) (by decide)))))
    (.exponent_lower (ss := []) .sign_none (.digits_one (.digit_onenine (.onenine (c := '3') (by decide) (by decide)))))

example : writeValue exJVal = "{\"k\":[null,true,\"A\\u000a\\u20ac\\ud83d\\ude00\"],\"k\":-1.5e3}".toList := rfl

example (rt : Rt) := C98_roundtrip rt b!"f" exJVal exJVal_fits

/-- The same string, spelled otherwise. -/
example : JsonValue (.str [65, 10, 0x20AC, 0xD83D, 0xDE00]) "\"\\u0041\\n€😀\"".toList :=
  .str (.hex (x := 0) (y := 0) (z := 4) (w := 1) (.inl ⟨by decide, by decide, rfl⟩) (.inl ⟨by decide, by decide, rfl⟩) (.inl ⟨by decide, by decide, rfl⟩) (.inl ⟨by decide, by decide, rfl⟩)
    (.short (c := 'n') (u := 10) (by simp) (.plain (c := '€') (by decide) (by decide) (by decide) (.plain (c := '😀') (by decide) (by decide) (by decide) .nil))))

/-- The client at work, with the graph of `[1, "\\u0041b"]`. -/
example : documentOf (.new b!"[1, \"\\u0041b\"]" Heap.empty) ⟨.mk ⟨b!"f", ⟨0, 14⟩⟩ [.mk ⟨b!"array", ⟨0, 14⟩⟩ [.mk ⟨b!"number", ⟨1, 2⟩⟩ [], .mk ⟨b!"string", ⟨4, 13⟩⟩ []]]⟩ =
    some (.arr [.num ['1'], .str [65, 98]]) := rfl

end Tok
