/-
C46 The shipped grammars are well-wired.
-/
import Verif.Props.C45

namespace Tok
open Spec

/-! ### names and readers -/

/-- What `CheckRuleName` accepts: see C45. -/
def Spec.StartsWithLetter (name : Bytes) : Prop := ∃ b t, name = b :: t ∧ IsLetter b

theorem Spec.IsRuleName.starts {name : Bytes} (h : IsRuleName name) : StartsWithLetter name := by
  obtain ⟨b, t, h1, h2, _⟩ := h
  exact ⟨b, t, h1, h2⟩

/-- `SetRuleNames` ends; it reports no error iff all tags that are not empty start with a
letter, and then every rule with a tag has its tag as its name and the others keep theirs. -/
theorem C46_set_rule_names (rt : Rt) : ∀ fields : List (Bytes × Bytes × Bytes), ∃ n e names,
    (∀ m, n ≤ m → setRuleNames rt m fields = .ret (e, names)) ∧ names.length = fields.length ∧
    (e = none ↔ ∀ f ∈ fields, f.2.1 ≠ [] → StartsWithLetter f.2.1) ∧
    (e = none → names = fields.map fun f => if f.2.1 = [] then f.2.2 else f.2.1)
  | [] => ⟨0, none, [], fun _ _ => rfl, rfl, by simp, by simp⟩
  | (field, tag, name) :: rest => by
    obtain ⟨n, e, names, h1, h2, h3, h4⟩ := C46_set_rule_names rt rest
    by_cases ht : tag = []
    · subst ht
      refine ⟨n, e, name :: names, fun m hm => ?_, by simp [h2], by simpa using h3, fun he => by simp [h4 he]⟩
      show (do let (e, names) ← setRuleNames rt m rest; pure (e, name :: names)) = _
      rw [h1 m hm]
      rfl
    · obtain ⟨k, e', hk⟩ := C45_terminates rt tag
      have hb : (tag == []) = false := by simpa using ht
      have key := C45_first_byte rt tag k e' (hk k (Nat.le_refl _))
      cases e' with
      | none =>
        have hs := key.mp rfl
        refine ⟨max n k, e, tag :: names, fun m hm => ?_, by simp [h2], ?_, fun he => by simp [h4 he, ht]⟩
        · simp only [setRuleNames, hb, Bool.false_eq_true, if_false]
          rw [hk m (by omega), Exec.bind_ret]
          simp only
          rw [h1 m (by omega)]
          rfl
        · rw [h3]
          simp only [List.mem_cons, forall_eq_or_imp]
          exact ⟨fun h => ⟨fun _ => hs, h⟩, fun h => h.2⟩
      | some e' =>
        refine ⟨k, some (.other (b!"invalid name for " ++ field ++ b!": " ++ e'.text)), name :: rest.map (·.2.2), fun m hm => ?_, by simp, ?_,
          fun he => by cases he⟩
        · simp only [setRuleNames, hb, Bool.false_eq_true, if_false]
          rw [hk m hm, Exec.bind_ret]
          rfl
        · simp only [List.mem_cons, forall_eq_or_imp, reduceCtorEq, false_iff, not_and]
          intro h _
          have := key.mpr (h ht)
          cases this

/-- `CheckRules` ends; it reports an error iff some rule has no reader or a name that
`CheckRuleName` refuses.  The full claim names the rules that are not rule names; it is false,
see `C46_violated`. -/
theorem C46_check_rules_partial (rt : Rt) : ∀ rules : List Rule, ∃ n e,
    (∀ m, n ≤ m → checkRules rt m rules = .ret e) ∧ (e ≠ none ↔ ∃ r ∈ rules, ¬ StartsWithLetter r.name ∨ r.reader = none)
  | [] => ⟨0, none, fun _ _ => rfl, by simp⟩
  | r :: rest => by
    obtain ⟨n, e, h1, h2⟩ := C46_check_rules_partial rt rest
    obtain ⟨k, e', hk⟩ := C45_terminates rt r.name
    have key := C45_first_byte rt r.name k e' (hk k (Nat.le_refl _))
    cases e' with
    | some e' =>
      refine ⟨k, some e', fun m hm => ?_, ?_⟩
      · unfold checkRules
        rw [hk m hm]
        rfl
      · simp only [ne_eq, reduceCtorEq, not_false_eq_true, true_iff]
        refine ⟨r, List.mem_cons_self, .inl fun hs => ?_⟩
        have := key.mpr hs
        cases this
    | none =>
      have hs := key.mp rfl
      rcases hr : r.reader with _ | c
      · refine ⟨k, some (.other (b!"the Reader of " ++ r.name ++ b!" is a nil value")), fun m hm => ?_, ?_⟩
        · unfold checkRules
          rw [hk m hm, Exec.bind_ret]
          simp only [hr]
          rfl
        · simp only [ne_eq, reduceCtorEq, not_false_eq_true, true_iff]
          exact ⟨r, List.mem_cons_self, .inr hr⟩
      · refine ⟨max n k, e, fun m hm => ?_, ?_⟩
        · unfold checkRules
          rw [hk m (by omega), Exec.bind_ret]
          simp only [hr]
          exact h1 m (by omega)
        · rw [h2]
          constructor
          · rintro ⟨x, hx, h⟩
            exact ⟨x, List.mem_cons_of_mem _ hx, h⟩
          · rintro ⟨x, hx, h⟩
            rcases List.mem_cons.mp hx with rfl | hx
            · rw [hr] at h
              rcases h with h | h
              · exact absurd hs h
              · cases h
            · exact ⟨x, hx, h⟩

/-- A rule without a proper name passes `CheckRules`. -/
theorem C46_violated (rt : Rt) : ∃ r : Rule, ¬ IsRuleName r.name ∧ ∃ n, ∀ m, n ≤ m → checkRules rt m [r] = .ret none := by
  refine ⟨⟨b!"a b", some .atEnd⟩, (C45_violated rt _ (by simp)).1, ?_⟩
  obtain ⟨n, e, h1, h2⟩ := C46_check_rules_partial rt [⟨b!"a b", some .atEnd⟩]
  have : e = none := by
    by_cases he : e = none
    · exact he
    · obtain ⟨r, hr, h⟩ := h2.mp he
      simp only [List.mem_singleton] at hr
      subst hr
      rcases h with h | h
      · exact absurd ⟨97, _, rfl, by decide⟩ h
      · cases h
  subst this
  exact ⟨n, h1⟩

/-! ### the shipped grammars -/

/-- A rule name, computed. -/
def isRuleNameB : Bytes → Bool
  | [] => false
  | b :: t => decide (IsLetter b) && t.all fun c => decide (IsNameByte c)

theorem isRuleName_of_B {name : Bytes} (h : isRuleNameB name = true) : IsRuleName name := by
  cases name with
  | nil => cases h
  | cons b t =>
    simp only [isRuleNameB, Bool.and_eq_true, decide_eq_true_eq, List.all_eq_true] at h
    exact ⟨b, t, rfl, h.1, h.2⟩

/-- A grammar with the names of its fields. -/
structure Wired (fields : List (Bytes × Bytes × Bytes)) (G : Env) : Prop where
  /-- Every rule has the name declared by the tag of its field. -/
  names : G.map (·.name) = fields.map (·.2.1)
  /-- The names are rule names. -/
  valid : ∀ r ∈ G, IsRuleName r.name
  /-- No two rules have the same name. -/
  apart : (G.map (·.name)).Nodup
  /-- Every rule has a reader. -/
  readers : ∀ r ∈ G, ∃ c, r.reader = some c
  /-- Every rule that is referred to, at any depth, belongs to the grammar. -/
  refs : G.Every fun c => ∀ i, c = .rule i → i < G.length
  /-- There is no invalid reader, at any depth. -/
  sound : G.Every fun c => ∀ e, c ≠ .invalid e

/-- References and validity, computed. -/
def Reader.wiredB (k : Nat) : Reader → Bool
  | .rule i => decide (i < k)
  | .invalid _ => false
  | _ => true

theorem wired_of_B {fields : List (Bytes × Bytes × Bytes)} {G : Env} (h1 : G.map (·.name) = fields.map (·.2.1))
    (h2 : (G.all fun r => isRuleNameB r.name && r.reader.isSome) = true) (h3 : (G.map (·.name)).Nodup) (h4 : G.everyB (Reader.wiredB G.length) = true) :
    Wired fields G := by
  have h5 := Env.everyB_sound h4
  simp only [List.all_eq_true, Bool.and_eq_true] at h2
  refine ⟨h1, fun r hr => isRuleName_of_B (h2 r hr).1, h3, fun r hr => Option.isSome_iff_exists.mp (h2 r hr).2, h5.imp fun c hc i e => ?_,
    h5.imp fun c hc e he => ?_⟩
  · subst e
    simpa [Reader.wiredB] using hc
  · subst he
    cases hc

/-- The three shipped grammars are well-wired. -/
theorem C46_shipped : Wired Json.fields Json.env ∧ Wired Mxt.fields Mxt.env ∧ Wired Lua.fields Lua.env :=
  ⟨wired_of_B (by decide) (by decide) (by decide) (by decide), wired_of_B (by decide) (by decide) (by decide) (by decide),
    wired_of_B (by decide) (by decide +kernel) (by decide +kernel) (by decide +kernel)⟩

/-- `MustCheckRules` panics exactly if `CheckRules` has an error to return, and returns otherwise. -/
theorem C46_must_check_partial (rt : Rt) (rules : List Rule) : ∃ n, ∀ m, n ≤ m →
    ((∃ r ∈ rules, ¬ StartsWithLetter r.name ∨ r.reader = none) → mustCheckRules rt m rules = .panic) ∧
    ((∀ r ∈ rules, StartsWithLetter r.name ∧ r.reader ≠ none) → mustCheckRules rt m rules = .ret ()) := by
  obtain ⟨n, e, h1, h2⟩ := C46_check_rules_partial rt rules
  refine ⟨n, fun m hm => ⟨fun h => ?_, fun h => ?_⟩⟩
  · obtain ⟨x, rfl⟩ := Option.ne_none_iff_exists'.mp (h2.mpr h)
    unfold mustCheckRules
    rw [h1 m hm]
    rfl
  · have he : e = none := by
      by_contra hx
      obtain ⟨r, hr, h5⟩ := h2.mp hx
      exact h5.elim (fun h5 => h5 (h r hr).1) (h r hr).2
    subst he
    unfold mustCheckRules
    rw [h1 m hm]
    rfl

/-- `MustSetRuleNames` panics exactly if `SetRuleNames` has an error to return. -/
theorem C46_must_set_partial (rt : Rt) (fields : List (Bytes × Bytes × Bytes)) : ∃ n, ∀ m, n ≤ m →
    ((∃ f ∈ fields, f.2.1 ≠ [] ∧ ¬ StartsWithLetter f.2.1) → mustSetRuleNames rt m fields = .panic) ∧
    ((∀ f ∈ fields, f.2.1 ≠ [] → StartsWithLetter f.2.1) → ∃ names, mustSetRuleNames rt m fields = .ret names) := by
  obtain ⟨n, e, names, h1, _, h3, _⟩ := C46_set_rule_names rt fields
  refine ⟨n, fun m hm => ⟨fun ⟨f, hf, h4, h5⟩ => ?_, fun h => ?_⟩⟩
  · obtain ⟨x, rfl⟩ := Option.ne_none_iff_exists'.mp fun he => h5 (h3.mp he f hf h4)
    unfold mustSetRuleNames
    rw [h1 m hm]
    rfl
  · have he : e = none := h3.mpr h
    subst he
    refine ⟨names, ?_⟩
    unfold mustSetRuleNames
    rw [h1 m hm]
    rfl

example : checkRules exRt 30 [⟨b!"a", some .atEnd⟩, ⟨b!"b", none⟩] = .ret (some (.other b!"the Reader of b is a nil value")) ∧
    mustCheckRules exRt 30 [⟨b!"a", some .atEnd⟩, ⟨b!"b", none⟩] = .panic ∧ mustCheckRules exRt 30 [⟨b!"a", some .atEnd⟩] = .ret () ∧
    mustSetRuleNames exRt 30 [(b!"A", b!"1", b!"")] = .panic := ⟨rfl, rfl, rfl, rfl⟩

/-- A well-wired grammar passes `SetRuleNames` and `CheckRules`, so that their `Must` forms do
not panic, and the names set are those of the grammar. -/
theorem C46_checks (rt : Rt) (fields : List (Bytes × Bytes × Bytes)) (G : Env) (h : Wired fields G) :
    ∃ n, ∀ m, n ≤ m → mustSetRuleNames rt m fields = .ret (G.map (·.name)) ∧ mustCheckRules rt m G = .ret () := by
  obtain ⟨n, e, names, h1, _, h3, h4⟩ := C46_set_rule_names rt fields
  obtain ⟨k, e', k1, k2⟩ := C46_check_rules_partial rt G
  have tags : ∀ f ∈ fields, IsRuleName f.2.1 := fun f hf => by
    have : f.2.1 ∈ G.map (·.name) := by rw [h.names]; exact List.mem_map_of_mem hf
    obtain ⟨r, hr, h5⟩ := List.mem_map.mp this
    rw [← h5]
    exact h.valid r hr
  have he : e = none := h3.mpr fun f hf _ => (tags f hf).starts
  have hn : names = G.map (·.name) := by
    rw [h4 he, h.names]
    refine List.map_congr_left fun f hf => ?_
    obtain ⟨b, t, h5, _⟩ := tags f hf
    rw [if_neg (by rw [h5]; simp)]
  have he' : e' = none := by
    by_cases hx : e' = none
    · exact hx
    · obtain ⟨r, hr, h5⟩ := k2.mp hx
      obtain ⟨c, hc⟩ := h.readers r hr
      rcases h5 with h5 | h5
      · exact absurd (h.valid r hr).starts h5
      · rw [hc] at h5; cases h5
  subst he; subst hn; subst he'
  refine ⟨max n k, fun m hm => ⟨?_, ?_⟩⟩
  · unfold mustSetRuleNames
    rw [h1 m (by omega)]
    rfl
  · unfold mustCheckRules
    rw [k1 m (by omega)]
    rfl

/-- `GrammarLines` gives one line per rule, `name: what`; it panics iff a rule has no reader. -/
theorem C46_lines (rt : Rt) (G : Env) : ∀ rules : List Rule,
    (grammarLines rt G rules = .panic ↔ ∃ r ∈ rules, r.reader = none) ∧
    ((∀ r ∈ rules, r.reader ≠ none) → grammarLines rt G rules = .ret (rules.filterMap fun r => r.reader.map fun c => r.name ++ b!": " ++ c.what rt G))
  | [] => ⟨by simp [grammarLines, Exec.pure_eq], fun _ => rfl⟩
  | r :: rest => by
    obtain ⟨h1, h2⟩ := C46_lines rt G rest
    rcases hr : r.reader with _ | c
    · refine ⟨⟨fun _ => ⟨r, List.mem_cons_self, hr⟩, fun _ => ?_⟩, fun h => absurd hr (h r List.mem_cons_self)⟩
      simp [grammarLines, Rule.line, hr]
    · have hl : Rule.line rt G r = .ret (r.name ++ b!": " ++ c.what rt G) := by simp [Rule.line, hr]
      by_cases hx : ∃ r ∈ rest, r.reader = none
      · refine ⟨⟨fun _ => ?_, fun _ => ?_⟩, fun h => ?_⟩
        · obtain ⟨x, hx, h⟩ := hx
          exact ⟨x, List.mem_cons_of_mem _ hx, h⟩
        · simp [grammarLines, hl, h1.mpr hx]
        · obtain ⟨x, hx, h'⟩ := hx
          exact absurd h' (h x (List.mem_cons_of_mem _ hx))
      · have hall : ∀ r ∈ rest, r.reader ≠ none := fun x hx' he => hx ⟨x, hx', he⟩
        have e := h2 hall
        refine ⟨⟨fun h => ?_, fun ⟨x, hx', he⟩ => ?_⟩, fun _ => ?_⟩
        · simp [grammarLines, hl, e, Exec.pure_eq] at h
        · rcases List.mem_cons.mp hx' with rfl | hx'
          · rw [hr] at he; cases he
          · exact absurd he (hall x hx')
        · simp [grammarLines, hl, e, hr, Exec.pure_eq]

/-- A field without a tag keeps the name of its rule; a bad tag is reported. -/
example : setRuleNames exRt 30 [(b!"A", [], b!"keep"), (b!"B", b!"new", b!"old")] = .ret (none, [b!"keep", b!"new"]) := rfl
example : ∃ e, setRuleNames exRt 30 [(b!"A", b!"-", []), (b!"B", b!"new", b!"old")] = .ret (some e, [[], b!"old"]) := ⟨_, rfl⟩
example : ∃ e, checkRules exRt 30 [⟨b!"a", some .atEnd⟩, ⟨b!"b", none⟩] = .ret (some e) := ⟨_, rfl⟩
example : grammarLines exRt Json.env [⟨b!"a", some (.many (.rule Json.iWS))⟩] = .ret [b!"a: +ws"] := rfl

/-- The lines of the JSON grammar, with U+10FFFF taken as a graphic character. -/
example : grammarLines exRt Json.env Json.env = .ret [
    b!"value: [ object array string number bool null ]",
    b!"object: '{' [ members ws ] '}'",
    b!"members: member *',' member",
    b!"member: ws key ws ':' element",
    b!"key: '\"' characters '\"'",
    b!"array: '[' [ elements ws ] ']'",
    b!"elements: element *',' element",
    b!"element: ws value ws",
    b!"string: '\"' characters '\"'",
    b!"characters: *character",
    b!"character: [ (< " ++ [0xF4, 0x8F, 0xBF, 0xBF] ++ b!"> - \"\\\"\\\\\") '\\\\' escape ]",
    b!"escape: [ [\"\\\"\\\\/bfnrt\"] 'u' 4*hex ]",
    b!"hex: [< 09 af AF >]",
    b!"number: integer fraction exponent",
    b!"integer: ?'-' [ '0' onenine ?digits ]",
    b!"fraction: ?'.' digits",
    b!"exponent: ?[\"eE\"] sign digits",
    b!"onenine: <19>",
    b!"digit: <09>",
    b!"digits: +<09>",
    b!"sign: ?[\"+-\"]",
    b!"bool: [ \"true\" \"false\" ]",
    b!"null: \"null\"",
    b!"ws: *[\" \\r\\n\\t\"]"] := by decide +kernel

/-- The lines of the MXT grammar. -/
example : grammarLines exRt Mxt.env Mxt.env = .ret [
    b!"chunks: chunk *nl chunk",
    b!"chunk: header [ empty-content nl content ]",
    b!"header: marker +' ' name comment arrow ?salt",
    b!"marker: \"//\" *wordchar",
    b!"next-marker: nl \"//\" $",
    b!"name: word",
    b!"comment: ->arrow",
    b!"arrow: -(*wordchar-+\"-->\")-",
    b!"salt: +' ' $<?word *' '",
    b!"empty-content: [ @END @next-marker ]",
    b!"content: ->[ next-marker @END ]",
    b!"word: +wordchar",
    b!"wordchar: <!" ++ [0xF4, 0x8F, 0xBF, 0xBF] ++ b!">",
    b!"nl: [ \"\\n\" \"\\r\\n\" ]"] := by decide +kernel

/-- The lines of the Lua grammar. -/
example : grammarLines exRt Lua.env Lua.env = .ret [
    b!"SheBang: \"#!\" ->[ '\\r' '\\n' ]",
    b!"Name: [< az AZ \"_\" >] *[< az AZ 09 \"_\" >]",
    b!"Numeral: [ '0' [\"xX\"] +[< 09 af AF >] ?'.' +[< 09 af AF >] ?[\"pP\"] ?[\"+-\"] +<09> '0' [\"xX\"] +[< 09 af AF >] +<09> ?'.' +<09> ?[\"eE\"] ?[\"+-\"] +<09> +<09> ]",
    b!"LiteralString: [ '\"' *[ (< " ++ [0xF4, 0x8F, 0xBF, 0xBF] ++ b!"> - \"\\\"\\\\\") [ '\\\\' [\"abfnrtvz\\\"'\\\\\"] [ '\\\\' <09> '\\\\' 2*<09> '\\\\' <02> 2*<09> ] \"\\\\x\" 2*[< 09 af AF >] \"\\\\u{\" +[< 09 af AF >] \"}\" ] ] '\"' '\\'' *[ (< " ++ [0xF4, 0x8F, 0xBF, 0xBF] ++ b!"> - \"'\\\\\") [ '\\\\' [\"abfnrtvz\\\"'\\\\\"] [ '\\\\' <09> '\\\\' 2*<09> '\\\\' <02> 2*<09> ] \"\\\\x\" 2*[< 09 af AF >] \"\\\\u{\" +[< 09 af AF >] \"}\" ] ] '\\'' '[' $<*\"=\" '[' -->']' $ ']' ]",
    b!"Comment: [ \"--[\" $<*\"=\" '[' -->']' $ ']' \"--\" ->'\\n' ]",
    b!"unop: [ \"-\" \"not\" \"#\" \"~\" ]",
    b!"binop: [ \"..\" \"<=\" \"<\" \">=\" \">\" \"==\" \"~=\" \"and\" \"or\" \"+\" \"-\" \"*\" \"/\" \"//\" \"^\" \"%\" \"&\" \"~\" \"|\" \">>\" \"<<\" ]",
    b!"fieldsep: [\",;\"]",
    b!"field: [ (>*[ [\" \\r\\n\\t\"] Comment ]> '[' exp ']' '=' exp ) (>*[ [\" \\r\\n\\t\"] Comment ]> Name '=' exp ) exp ]",
    b!"fieldlist: (>*[ [\" \\r\\n\\t\"] Comment ]> field *fieldsep field ?fieldsep )",
    b!"tableconstructor: (>*[ [\" \\r\\n\\t\"] Comment ]> '{' ?fieldlist '}' )",
    b!"funcparams: [ (>*[ [\" \\r\\n\\t\"] Comment ]> namelist ?(>*[ [\" \\r\\n\\t\"] Comment ]> ',' \"...\" ) ) \"...\" ]",
    b!"funcbody: (>*[ [\" \\r\\n\\t\"] Comment ]> '(' ?funcparams ')' block \"end\" )",
    b!"funcdef: (>*[\" \\r\\n\\t\"]> \"function\" funcbody )",
    b!"funcargs: [ (>*[ [\" \\r\\n\\t\"] Comment ]> '(' ?explist ')' ) tableconstructor LiteralString ]",
    b!"funccall: [ var (>*[ [\" \\r\\n\\t\"] Comment ]> '(' exp ')' ) ] +(>*[ [\" \\r\\n\\t\"] Comment ]> ?':' Name funcargs )",
    b!"prefixexp: [ var (>*[ [\" \\r\\n\\t\"] Comment ]> '(' exp ')' ) ] *(>*[ [\" \\r\\n\\t\"] Comment ]> ?':' Name funcargs )",
    b!"finalexp: [ \"nil\" \"false\" \"true\" [ '0' [\"xX\"] +[< 09 af AF >] ?'.' +[< 09 af AF >] ?[\"pP\"] ?[\"+-\"] +<09> '0' [\"xX\"] +[< 09 af AF >] +<09> ?'.' +<09> ?[\"eE\"] ?[\"+-\"] +<09> +<09> ] LiteralString \"...\" funcdef (>*[ [\" \\r\\n\\t\"] Comment ]> unop exp ) tableconstructor prefixexp ]",
    b!"exp: [ (>*[\" \\r\\n\\t\"]> finalexp binop exp ) finalexp ]",
    b!"explist: (>*[ [\" \\r\\n\\t\"] Comment ]> exp *(>*[ [\" \\r\\n\\t\"] Comment ]> ',' exp ) )",
    b!"namelist: (>*[\" \\r\\n\\t\"]> Name *',' Name )",
    b!"varsuffix: (>*[ [\" \\r\\n\\t\"] Comment ]> *(>*[ [\" \\r\\n\\t\"] Comment ]> ?':' Name funcargs ) [ (>*[ [\" \\r\\n\\t\"] Comment ]> '[' exp ']' ) '.' Name ] )",
    b!"var: [ Name (>*[ [\" \\r\\n\\t\"] Comment ]> '(' exp ')' varsuffix ) ] *varsuffix",
    b!"varlist: (>*[\" \\r\\n\\t\"]> var *(>*[\" \\r\\n\\t\"]> ',' var ) )",
    b!"funcname: (>*[\" \\r\\n\\t\"]> Name *(>*[\" \\r\\n\\t\"]> '.' Name ) ?(>*[\" \\r\\n\\t\"]> ':' Name ) )",
    b!"label: \"::\" Name \"::\"",
    b!"retstat: (>*[\" \\r\\n\\t\"]> \"return\" ?explist ?';' )",
    b!"attrib: ?'<' Name '>'",
    b!"attnamelist: (>*[\" \\r\\n\\t\"]> Name attrib *(>*[\" \\r\\n\\t\"]> ',' Name attrib ) )",
    b!"break: \"break\"",
    b!"goto: (>*[\" \\r\\n\\t\"]> \"goto\" Name )",
    b!"do: (>*[\" \\r\\n\\t\"]> \"do\" block \"end\" )",
    b!"while: (>*[\" \\r\\n\\t\"]> \"while\" exp \"do\" block \"end\" )",
    b!"repeat: (>*[\" \\r\\n\\t\"]> \"repeat\" block \"until\" exp )",
    b!"ifelse: (>*[\" \\r\\n\\t\"]> \"if\" exp \"then\" block *(>*[\" \\r\\n\\t\"]> \"elseif\" exp \"then\" block ) ?(>*[\" \\r\\n\\t\"]> \"else\" block ) \"end\" )",
    b!"for: (>*[\" \\r\\n\\t\"]> \"for\" Name '=' exp ',' exp ?(>*[\" \\r\\n\\t\"]> ',' exp ) \"do\" block \"end\" )",
    b!"foreach: (>*[\" \\r\\n\\t\"]> \"for\" namelist \"in\" explist \"do\" block \"end\" )",
    b!"func: (>*[\" \\r\\n\\t\"]> \"function\" funcname funcbody )",
    b!"localfunc: (>*[\" \\r\\n\\t\"]> \"local\" \"function\" Name funcbody )",
    b!"localatt: (>*[\" \\r\\n\\t\"]> \"local\" attnamelist ?(>*[\" \\r\\n\\t\"]> '=' explist ) )",
    b!"stat: [ ';' varlist '=' explist label break goto do while repeat ifelse for foreach func localfunc localatt funccall ]",
    b!"block: (>*[ [\" \\r\\n\\t\"] Comment ]> *stat ?retstat )",
    b!"chunk: block",
    b!"script: ?SheBang block"] := by decide +kernel

end Tok
