/-
C50 Invalid readers are detectable.
-/
import Verif.Props.C46
import Verif.Proofs.Back

namespace Tok
open Spec

/-- `Shown c r`: the reader `c` is `r` or a part of `r` that is not hidden behind a name, that
is, not below `Named`, a rule, `RuleName` or a grammar. -/
inductive Spec.Shown : Reader → Reader → Prop
  | self {r} : Shown r r
  | any {c r rs} (hr : r ∈ rs) (h : Shown c r) : Shown c (.any rs)
  | seq {c r rs} (hr : r ∈ rs) (h : Shown c r) : Shown c (.seq rs)
  | skip {c sk rs} (h : Shown c sk) : Shown c (.skipSeq sk rs)
  | skipSeq {c sk r rs} (hr : r ∈ rs) (h : Shown c r) : Shown c (.skipSeq sk rs)
  | at_ {c r} (h : Shown c r) : Shown c (.at_ r)
  | body {c b t} (h : Shown c b) : Shown c (.body b t)
  | bodyEnd {c b t} (h : Shown c t) : Shown c (.body b t)
  | bodyTail {c b t} (h : Shown c b) : Shown c (.bodyTail b t)
  | bodyTailEnd {c b t} (h : Shown c t) : Shown c (.bodyTail b t)
  | janus {c id nm r} (h : Shown c r) : Shown c (.janusBegin id nm r)
  | many {c r} (h : Shown c r) : Shown c (.many r)
  | map {c f r} (h : Shown c r) : Shown c (.map f r)
  | not {c r} (h : Shown c r) : Shown c (.not r)
  | opt {c r} (h : Shown c r) : Shown c (.opt r)
  | past {c r} (h : Shown c r) : Shown c (.past r)
  | times {c k r} (h : Shown c r) : Shown c (.times k r)
  | to {c r} (h : Shown c r) : Shown c (.to r)
  | zom {c r} (h : Shown c r) : Shown c (.zom r)
  | pick {c i b r} (h : Shown c r) : Shown c (.pick i b r)
  | monitor {c i l r} (h : Shown c r) : Shown c (.monitor i l r)

theorem mem_whats (rt : Rt) (G : Env) {r : Reader} : ∀ {rs : List Reader}, r ∈ rs → r.what rt G ∈ Reader.whats rt G rs
  | [], h => by cases h
  | a :: rs, h => by
    simp only [Reader.whats, List.mem_cons]
    rcases List.mem_cons.mp h with rfl | h
    · exact .inl rfl
    · exact .inr (mem_whats rt G h)

theorem infix_join {sep x : Bytes} : ∀ {l : List Bytes}, x ∈ l → x <:+: join sep l
  | [], h => by cases h
  | [a], h => by
    simp only [List.mem_singleton] at h
    subst h
    exact List.infix_refl _
  | a :: b :: l, h => by
    rcases List.mem_cons.mp h with rfl | h
    · exact ⟨[], sep ++ join sep (b :: l), by simp [join]⟩
    · obtain ⟨u, v, e⟩ := infix_join (sep := sep) h
      exact ⟨a ++ sep ++ u, v, by show _ = a ++ sep ++ join sep (b :: l); rw [← e]; simp⟩

theorem infix_put {x y : Bytes} (h : x <:+: y) (a b : Bytes) : x <:+: a ++ y ++ b :=
  h.trans ⟨a, b, rfl⟩

/-- The `What` of a part that shows is part of the whole. -/
theorem shown_what (rt : Rt) (G : Env) {c r : Reader} (h : Shown c r) : c.what rt G <:+: r.what rt G := by
  have pre : ∀ {x y : Bytes} (a : Bytes), x <:+: y → x <:+: a ++ y := fun a h => by simpa using infix_put h a []
  induction h with
  | self => exact List.infix_refl _
  | any hr h ih =>
    simp only [Reader.what]
    exact infix_put (ih.trans (infix_join (mem_whats rt G hr))) _ _
  | seq hr h ih =>
    simp only [Reader.what]
    exact ih.trans (infix_join (mem_whats rt G hr))
  | skip h ih =>
    simp only [Reader.what]
    exact (infix_put ih b!"(>" b!">").trans (infix_join (by simp))
  | skipSeq hr h ih =>
    simp only [Reader.what]
    exact ih.trans (infix_join (by simp [mem_whats rt G hr]))
  | body h ih =>
    simp only [Reader.what]
    simpa [List.append_assoc] using infix_put ih b!"-(" (b!"-" ++ Reader.what rt G _ ++ b!")-")
  | bodyEnd h ih =>
    simp only [Reader.what]
    exact infix_put ih _ _
  | bodyTail h ih =>
    simp only [Reader.what]
    simpa [List.append_assoc] using infix_put ih b!"-(" (b!"-+" ++ Reader.what rt G _ ++ b!")-")
  | bodyTailEnd h ih =>
    simp only [Reader.what]
    exact infix_put ih _ _
  | map h ih => exact ih
  | pick h ih => exact ih
  | monitor h ih => exact ih
  | _ h ih => simp only [Reader.what]; exact pre _ ih

/-- A reader that shows an invalid reader has the marker in its `What`. -/
theorem C50_marker (rt : Rt) (G : Env) (r : Reader) (err : Bytes) (h : Shown (.invalid err) r) :
    hasInvalidReader (r.what rt G) = true := by
  unfold hasInvalidReader contains
  rw [index_isSome]
  refine List.IsInfix.trans ?_ (shown_what rt G h)
  exact ⟨[], b!"{" ++ err ++ b!"}", by simp [Reader.what]⟩

/-- `HasInvalidReader` looks for `::INVALID-READER::`, and an invalid reader shows this text with its message. -/
theorem C50_text (rt : Rt) (G : Env) (str err : Bytes) :
    (hasInvalidReader str = true ↔ ∃ u v, str = u ++ b!"::INVALID-READER::" ++ v) ∧ (Reader.invalid err).what rt G = b!"::INVALID-READER::{" ++ err ++ b!"}" := by
  refine ⟨?_, rfl⟩
  unfold hasInvalidReader contains
  rw [index_isSome]
  exact ⟨fun ⟨u, v, h⟩ => ⟨u, v, h.symm⟩, fun ⟨u, v, h⟩ => ⟨u, v, h.symm⟩⟩

example : hasInvalidReader b!"> a ::INVALID-READER::{x}" = true ∧ hasInvalidReader b!"> a ::INVALID::{x}" = false := by decide

/-- A grammar with a rule that shows an invalid reader is found by `AnyHasInvalidReader` on the
lines of the grammar. -/
theorem C50_grammar (rt : Rt) (G : Env) (hr : ∀ r ∈ G, r.reader ≠ none) (rl : Rule) (hrl : rl ∈ G) (c : Reader) (hc : rl.reader = some c)
    (err : Bytes) (h : Shown (.invalid err) c) : ∃ lines, grammarLines rt G G = .ret lines ∧ anyHasInvalidReader lines = true := by
  refine ⟨_, (C46_lines rt G G).2 hr, ?_⟩
  have any_true : ∀ {l : List Bytes} {x : Bytes}, x ∈ l → hasInvalidReader x = true → anyHasInvalidReader l = true := by
    intro l
    induction l with
    | nil => intro x hx; cases hx
    | cons a l ih =>
      intro x hx hi
      unfold anyHasInvalidReader
      split
      · rfl
      · rcases List.mem_cons.mp hx with rfl | hx
        · contradiction
        · exact ih hx hi
  refine any_true (x := rl.name ++ b!": " ++ c.what rt G) (List.mem_filterMap.mpr ⟨rl, hrl, by rw [hc]; rfl⟩) ?_
  have := C50_marker rt G c err h
  unfold hasInvalidReader contains at *
  rw [index_isSome] at *
  exact this.trans ⟨rl.name ++ b!": ", [], by simp⟩

/-- An invalid reader fails and does not move; nothing at all changes. -/
theorem C50_fails (rt : Rt) (G : Env) (err : Bytes) (n : Nat) (s : Scanner) :
    ∃ e, read rt G (n + 1) (.invalid err) s = .ret (some e, s) := ⟨_, rfl⟩

/-- The error is not a `ReadError`, its text is the message of the reader behind `INVALID-READER: `. -/
theorem C50_error (rt : Rt) (G : Env) (err : Bytes) (n : Nat) (s : Scanner) :
    read rt G (n + 1) (.invalid err) s = .ret (some (.other (b!"INVALID-READER: " ++ err)), s) := rfl

/-! ### the constructors -/

theorem argReaders_error (ctor : Bytes) : ∀ (i : Nat) (l : List Arg),
    (∃ e, argReaders ctor i l = .error e) ↔ ∃ typ, Arg.other typ ∈ l
  | _, [] => by simp [argReaders]
  | i, a :: rest => by
    have ih := argReaders_error ctor (i + 1) rest
    have key : ∀ r, (∃ e, (argReaders ctor (i + 1) rest).map (List.cons r) = .error e) ↔ ∃ typ, Arg.other typ ∈ rest := by
      intro r
      rw [← ih]
      cases argReaders ctor (i + 1) rest <;> simp [Except.map]
    cases a with
    | other typ => simp [argReaders, asReader]
    | rune c => simpa [argReaders, asReader] using key _
    | str c => simpa [argReaders, asReader] using key _
    | reader c => simpa [argReaders, asReader] using key _

/-- `Any`, `Seq` and `SkipSeq` return an invalid reader exactly when an argument is neither a
rune, a string nor a reader. -/
theorem C50_lists (l : List Arg) (sk : Reader) :
    ((∃ e, mkAny l = .invalid e) ↔ ∃ typ, Arg.other typ ∈ l) ∧
    ((∃ e, mkSeq l = .invalid e) ↔ ∃ typ, Arg.other typ ∈ l) ∧
    ((∃ e, mkSkipSeq sk l = .invalid e) ↔ ∃ typ, Arg.other typ ∈ l) := by
  refine ⟨?_, ?_, ?_⟩
  · rw [← argReaders_error b!"Any" 1 l]
    unfold mkAny
    cases argReaders b!"Any" 1 l <;> simp
  · rw [← argReaders_error b!"Seq" 1 l]
    unfold mkSeq
    cases argReaders b!"Seq" 1 l <;> simp
  · rw [← argReaders_error b!"SkipSeq" 1 l]
    unfold mkSkipSeq
    cases argReaders b!"SkipSeq" 1 l <;> simp

/-- The one-argument constructors likewise. -/
theorem C50_single (a : Arg) :
    ((∃ e, mkMany a = .invalid e) ↔ ∃ typ, a = .other typ) ∧ ((∃ e, mkOpt a = .invalid e) ↔ ∃ typ, a = .other typ) ∧
    ((∃ e, mkPast a = .invalid e) ↔ ∃ typ, a = .other typ) ∧ ((∃ e, mkTo a = .invalid e) ↔ ∃ typ, a = .other typ) ∧
    ((∃ e, mkZom a = .invalid e) ↔ ∃ typ, a = .other typ) := by
  cases a <;> simp [mkMany, mkOpt, mkPast, mkTo, mkZom, mk1, asReader]

/-- With supported arguments the readers are, in order, the arguments themselves, a rune reader
for a rune and a literal for a string. -/
theorem C50_arguments (l : List Arg) (h : ∀ typ, Arg.other typ ∉ l) :
    ∃ rs, mkAny l = .any rs ∧ mkSeq l = .seq rs ∧ (∀ sk, mkSkipSeq sk l = .skipSeq sk rs) ∧
      List.Forall₂ (fun a r => a = .reader r ∨ (∃ c, a = .rune c ∧ r = .rune c) ∨ ∃ x, a = .str x ∧ r = .lit x) l rs := by
  have key : ∀ l : List Arg, (∀ typ, Arg.other typ ∉ l) → ∃ rs, (∀ ctor i, argReaders ctor i l = .ok rs) ∧
      List.Forall₂ (fun a r => a = .reader r ∨ (∃ c, a = .rune c ∧ r = .rune c) ∨ ∃ x, a = .str x ∧ r = .lit x) l rs := by
    intro l
    induction l with
    | nil => intro _; exact ⟨[], fun _ _ => rfl, .nil⟩
    | cons a l ih =>
      intro h
      obtain ⟨rs, h1, h2⟩ := ih fun typ ht => h typ (List.mem_cons_of_mem _ ht)
      cases a with
      | other typ => exact absurd List.mem_cons_self (h typ)
      | rune c => exact ⟨.rune c :: rs, fun ctor i => by simp [argReaders, asReader, h1, Except.map], .cons (.inr (.inl ⟨c, rfl, rfl⟩)) h2⟩
      | str c => exact ⟨.lit c :: rs, fun ctor i => by simp [argReaders, asReader, h1, Except.map], .cons (.inr (.inr ⟨c, rfl, rfl⟩)) h2⟩
      | reader c => exact ⟨c :: rs, fun ctor i => by simp [argReaders, asReader, h1, Except.map], .cons (.inl rfl) h2⟩
  obtain ⟨rs, h1, h2⟩ := key l h
  exact ⟨rs, by simp [mkAny, h1], by simp [mkSeq, h1], fun sk => by simp [mkSkipSeq, h1], h2⟩

theorem parseRanges_some : ∀ (l : List Rune) (rs : List (Rune × Rune)),
    parseRanges l = some rs ↔ l = rs.flatMap fun ab => [ab.1, 45, ab.2]
  | [], rs => by
    cases rs with
    | nil => simp [parseRanges]
    | cons a rs => simp [parseRanges]
  | [a], rs => by cases rs <;> simp [parseRanges]
  | [a, b], rs => by cases rs <;> simp [parseRanges]
  | a :: sep :: b :: rest, rs => by
    have ih := parseRanges_some rest
    unfold parseRanges
    by_cases hs : sep = 45
    · subst hs
      rw [if_pos rfl]
      cases rs with
      | nil => simp
      | cons ab rs =>
        obtain ⟨x, y⟩ := ab
        simp only [Option.map_eq_some_iff, List.cons.injEq, Prod.mk.injEq, List.flatMap_cons, List.cons_append, List.nil_append, true_and]
        constructor
        · rintro ⟨rs', h1, ⟨h2, h3⟩, h4⟩
          subst h4
          exact ⟨h2, h3, (ih _).mp h1⟩
        · rintro ⟨h2, h3, h4⟩
          exact ⟨rs, (ih _).mpr h4, ⟨h2, h3⟩, rfl⟩
    · rw [if_neg hs]
      cases rs with
      | nil => simp
      | cons ab rs => simp [hs]

theorem pairUp_some : ∀ (l : List Rune) (rs : List (Rune × Rune)), pairUp l = some rs ↔ l = rs.flatMap fun ab => [ab.1, ab.2]
  | [], rs => by cases rs <;> simp [pairUp]
  | [a], rs => by cases rs <;> simp [pairUp]
  | a :: b :: rest, rs => by
    have ih := pairUp_some rest
    unfold pairUp
    cases rs with
    | nil => simp
    | cons ab rs =>
      obtain ⟨x, y⟩ := ab
      simp only [Option.map_eq_some_iff, List.cons.injEq, Prod.mk.injEq, List.flatMap_cons, List.cons_append, List.nil_append]
      constructor
      · rintro ⟨rs', h1, ⟨h2, h3⟩, h4⟩
        subst h4
        exact ⟨h2, h3, (ih _).mp h1⟩
      · rintro ⟨h2, h3, h4⟩
        exact ⟨rs, (ih _).mpr h4, ⟨h2, h3⟩, rfl⟩

/-- `BetweenAny` and `Set` return an invalid reader exactly when the description is not a
sequence of `a-b`; otherwise the reader has exactly these ranges, and the singles. -/
theorem C50_ranges (str singles : Bytes) :
    ((∃ e, mkBetweenAny str = .invalid e) ↔ ¬ ∃ rs : List (Rune × Rune), runesOf str = rs.flatMap fun ab => [ab.1, 45, ab.2]) ∧
    ((∃ e, mkSet str singles = .invalid e) ↔ ¬ ∃ rs : List (Rune × Rune), runesOf str = rs.flatMap fun ab => [ab.1, 45, ab.2]) ∧
    (∀ rs : List (Rune × Rune), runesOf str = rs.flatMap (fun ab => [ab.1, 45, ab.2]) →
      mkBetweenAny str = .betweenAny rs [] ∧ mkSet str singles = .betweenAny rs singles) := by
  have hs := parseRanges_some (runesOf str)
  unfold mkSet mkBetweenAny
  cases h : parseRanges (runesOf str) with
  | none =>
    rw [h] at hs
    have hn : ¬ ∃ rs : List (Rune × Rune), runesOf str = rs.flatMap fun ab => [ab.1, 45, ab.2] := fun ⟨rs, e⟩ => by
      have := (hs rs).mpr e
      cases this
    refine ⟨by simpa using hn, by simpa using hn, fun rs e => absurd ⟨rs, e⟩ hn⟩
  | some rs =>
    rw [h] at hs
    have hy : ∃ rs : List (Rune × Rune), runesOf str = rs.flatMap fun ab => [ab.1, 45, ab.2] := ⟨rs, (hs rs).mp rfl⟩
    refine ⟨by simpa using hy, by simpa using hy, fun rs' e => ?_⟩
    have := (hs rs').mpr e
    cases this
    exact ⟨rfl, rfl⟩

/-- `BuildBetweenAny` returns an invalid reader exactly for an odd number of values; otherwise
the ranges are the pairs. -/
theorem C50_pairs (l : List Rune) :
    ((∃ e, mkBuildBetweenAny l = .invalid e) ↔ l.length % 2 = 1) ∧
    (∀ rs : List (Rune × Rune), l = rs.flatMap (fun ab => [ab.1, ab.2]) → mkBuildBetweenAny l = .betweenAny rs []) := by
  have even : ∀ l : List Rune, pairUp l = none ↔ l.length % 2 = 1 := fun l => by
    induction l using pairUp.induct with
    | case1 => simp [pairUp]
    | case2 a b rest ih => simp only [pairUp, Option.map_eq_none_iff, ih, List.length_cons]; omega
    | case3 l h1 h2 =>
      cases l with
      | nil => exact absurd rfl h1
      | cons a l =>
        cases l with
        | nil => simp [pairUp]
        | cons b l => exact absurd rfl (h2 a b l)
  have hs := pairUp_some l
  have he := even l
  unfold mkBuildBetweenAny
  cases h : pairUp l with
  | none =>
    rw [h] at hs he
    refine ⟨by simpa using he, fun rs e => ?_⟩
    have := (hs rs).mpr e
    cases this
  | some rs =>
    rw [h] at hs he
    refine ⟨by simpa using he, fun rs' e => ?_⟩
    have := (hs rs').mpr e
    cases this
    rfl

theorem argReaders_bad (ctor typ : Bytes) (post : List Arg) : ∀ (pre : List Arg) (i : Nat), (∀ t, Arg.other t ∉ pre) →
    argReaders ctor i (pre ++ .other typ :: post) =
      .error (b!"invalid " ++ ctor ++ b!" parameter at " ++ natDigits (i + pre.length) ++ b!": unknown type " ++ typ)
  | [], i, _ => by simp [argReaders, asReader]
  | a :: pre, i, h => by
    have ih := argReaders_bad ctor typ post pre (i + 1) fun t ht => h t (List.mem_cons_of_mem _ ht)
    rw [show i + 1 + pre.length = i + (a :: pre).length from by simp; omega] at ih
    cases a with
    | other t => exact absurd List.mem_cons_self (h t)
    | rune c => simp only [List.cons_append, argReaders, asReader, ih, Except.map]
    | str c => simp only [List.cons_append, argReaders, asReader, ih, Except.map]
    | reader c => simp only [List.cons_append, argReaders, asReader, ih, Except.map]

/-- What the invalid reader says: the constructor, the number of the first argument that is not
supported, counted from one, and its type. -/
theorem C50_messages (pre post : List Arg) (typ : Bytes) (sk : Reader) (h : ∀ t, Arg.other t ∉ pre) :
    mkAny (pre ++ .other typ :: post) =
      .invalid (b!"invalid Any parameter at " ++ natDigits (pre.length + 1) ++ b!": unknown type " ++ typ) ∧
    mkSeq (pre ++ .other typ :: post) =
      .invalid (b!"invalid Seq parameter at " ++ natDigits (pre.length + 1) ++ b!": unknown type " ++ typ) ∧
    mkSkipSeq sk (pre ++ .other typ :: post) =
      .invalid (b!"invalid SkipSeq parameter at " ++ natDigits (pre.length + 1) ++ b!": unknown type " ++ typ) ∧
    mkMany (.other typ) = .invalid (b!"invalid Many parameter: unknown type " ++ typ) ∧
    mkOpt (.other typ) = .invalid (b!"invalid Opt parameter: unknown type " ++ typ) ∧
    mkPast (.other typ) = .invalid (b!"invalid Past parameter: unknown type " ++ typ) ∧
    mkTo (.other typ) = .invalid (b!"invalid To parameter: unknown type " ++ typ) ∧
    mkZom (.other typ) = .invalid (b!"invalid Zom parameter: unknown type " ++ typ) := by
  have key : ∀ ctor, argReaders ctor 1 (pre ++ .other typ :: post) =
      .error (b!"invalid " ++ ctor ++ b!" parameter at " ++ natDigits (pre.length + 1) ++ b!": unknown type " ++ typ) := fun ctor => by
    rw [argReaders_bad ctor typ post pre 1 h, Nat.add_comm]
  refine ⟨?_, ?_, ?_, rfl, rfl, rfl, rfl, rfl⟩
  · unfold mkAny; rw [key]; rfl
  · unfold mkSeq; rw [key]; rfl
  · unfold mkSkipSeq; rw [key]; rfl

/-- An odd number of values for `BuildBetweenAny`: the message has their number. -/
theorem C50_odd (l : List Rune) (h : l.length % 2 = 1) :
    mkBuildBetweenAny l = .invalid (b!"odd number of min-max values for BetweenAny: " ++ natDigits l.length) := by
  obtain ⟨e, he⟩ := (C50_pairs l).1.mpr h
  unfold mkBuildBetweenAny at he ⊢
  cases hp : pairUp l with
  | none => rfl
  | some rs => rw [hp] at he; cases he

/-- An invalid reader that shows, in a rule that is used by another one; and readers with the
marker that contain no invalid reader. -/
example : Shown (.invalid b!"x") (.seq [.rune 97, .opt (.at_ (.invalid b!"x"))]) :=
  .seq (r := .opt (.at_ (.invalid b!"x"))) (by simp) (.opt (.at_ .self))
example : mkSeq [.rune 97, .other b!"int"] = .invalid b!"invalid Seq parameter at 2: unknown type int" := rfl
example : mkBetweenAny b!"a-zA" = .invalid b!"invalid init string for BetweenAny" := rfl
example : mkSet b!"a-z" b!"_" = .betweenAny [(97, 122)] b!"_" := rfl
example : hasInvalidReader ((Reader.named b!"n" (.invalid b!"x")).what exRt []) = false := rfl

/-- The marker alone does not prove that there is an invalid reader: a literal may contain it. -/
theorem C50_false_alarm (rt : Rt) : ∃ r : Reader, hasInvalidReader (r.what rt []) = true ∧ r.Every fun c => ∀ e, c ≠ .invalid e :=
  ⟨.lit invalidReaderMarker, rfl, .mk (r := .lit _) (by intro e h; cases h) (by simp [Reader.subs])⟩

end Tok
