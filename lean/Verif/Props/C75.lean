/-
C75 The rules of a grammar struct.
-/
import Verif.Model.Reflect
import Verif.Props.C46

namespace Tok
open Spec

/-- Field `i` of the struct is the rule `r`. -/
def Spec.RuleAt (g : Struct) (i : Nat) (r : Rule) : Prop := ∃ f, g[i]? = some f ∧ f.val = .rule r

/-! ### CollectRules -/

theorem collect_from : ∀ (g : Struct) (k : Nat), (∀ f ∈ g, f.exported = true) → ∃ ps, collectRules g k = .ret ps ∧ ps.Pairwise (· < ·) ∧
    (∀ i ∈ ps, k ≤ i) ∧ ∀ i, k + i ∈ ps ↔ ∃ r, RuleAt g i r
  | [], k, _ => ⟨[], rfl, .nil, by simp, fun i => by simp [RuleAt]⟩
  | f :: fs, k, h => by
    obtain ⟨ps, h1, h2, h3, h4⟩ := collect_from fs (k + 1) fun x hx => h x (List.mem_cons_of_mem _ hx)
    have he : f.exported = true := h f List.mem_cons_self
    have hk : k ∉ ps := fun hk => by have := h3 k hk; omega
    have next : ∀ i, k + (i + 1) ∈ ps ↔ ∃ r, RuleAt (f :: fs) (i + 1) r := fun i => by
      rw [show k + (i + 1) = k + 1 + i by omega, h4 i]
      rfl
    cases hv : f.val with
    | rule r =>
      refine ⟨k :: ps, ?_, ?_, ?_, fun i => ?_⟩
      · simp [collectRules, he, h1, hv, Exec.pure_eq]
      · exact List.pairwise_cons.mpr ⟨fun i hi => by have := h3 i hi; omega, h2⟩
      · intro i hi
        rcases List.mem_cons.mp hi with rfl | hi
        · exact Nat.le_refl _
        · have := h3 i hi; omega
      · cases i with
        | zero => exact ⟨fun _ => ⟨r, f, rfl, hv⟩, fun _ => List.mem_cons_self⟩
        | succ i =>
          rw [← next i, List.mem_cons]
          exact ⟨fun h => h.resolve_left (by omega), .inr⟩
    | other =>
      refine ⟨ps, ?_, h2, fun i hi => by have := h3 i hi; omega, fun i => ?_⟩
      · simp [collectRules, he, h1, hv, Exec.pure_eq]
      · cases i with
        | zero =>
          refine ⟨fun h => absurd h hk, ?_⟩
          rintro ⟨r, x, hx, hr⟩
          simp only [List.getElem?_cons_zero, Option.some.injEq] at hx
          subst hx
          rw [hv] at hr
          cases hr
        | succ i => exact next i

/-- `CollectRules` on a struct without unexported fields: pointers to all fields of type
`Rule`, in the order of the fields, and to nothing else.  The full claim has no condition; see `C75_collect_violated`. -/
theorem C75_collect_partial (g : Struct) (h : ∀ f ∈ g, f.exported = true) : ∃ ps, collectRules g 0 = .ret ps ∧ ps.Pairwise (· < ·) ∧
    ∀ i, i ∈ ps ↔ ∃ r, RuleAt g i r := by
  obtain ⟨ps, h1, h2, _, h4⟩ := collect_from g 0 h
  exact ⟨ps, h1, h2, fun i => by rw [← h4 i]; simp⟩

/-- On every struct with an unexported field, of whatever type, it panics. -/
theorem C75_collect_violated (g : Struct) (h : ∃ f ∈ g, f.exported = false) (k : Nat) : collectRules g k = .panic := by
  induction g generalizing k with
  | nil => obtain ⟨f, hf, _⟩ := h; cases hf
  | cons f fs ih =>
    cases he : f.exported with
    | false => simp [collectRules, he]
    | true =>
      obtain ⟨x, hx, hxe⟩ := h
      have : x ∈ fs := by
        rcases List.mem_cons.mp hx with rfl | hx
        · rw [he] at hxe; cases hxe
        · exact hx
      simp [collectRules, he, ih ⟨x, this, hxe⟩]

/-- Three rules with another field between, and the same with a private rule. -/
def exStruct (private_ : Bool) : Struct := [⟨b!"A", true, b!"first", .rule ⟨[], some .atEnd⟩⟩, ⟨b!"N", true, [], .other⟩,
  ⟨if private_ then b!"b" else b!"B", !private_, b!"second", .rule ⟨[], some (.rune 98)⟩⟩, ⟨b!"C", true, [], .rule ⟨b!"third", none⟩⟩]
example : collectRules (exStruct false) 0 = .ret [0, 2, 3] := rfl
example : collectRules (exStruct true) 0 = .panic := rfl

/-! ### SetRuleNames -/

/-- The field has nothing to be set, or it can be set. -/
def Spec.Settable (f : Field) : Prop := ∀ r, f.val = .rule r → f.tag ≠ [] → StartsWithLetter f.tag ∧ f.exported = true

/-- The field with its name set. -/
def Spec.withName (f : Field) : Field :=
  match f.val with
  | .rule r => if f.tag = [] then f else { f with val := .rule { r with name := f.tag } }
  | .other => f

/-- `SetRuleNames` on every struct.  If every tagged rule has a tag that starts with a letter and is exported, all of them get
their tags as names and nothing else changes.  Otherwise the fields before the first one
that is different are set, and then either its tag is reported (and it and the fields behind it stay), or the call panics, because
the field is unexported. -/
theorem C75_names_exact (rt : Rt) (g : Struct) :
    ((∀ f ∈ g, Settable f) → ∃ n, ∀ m, n ≤ m → setStructNames rt m g = .ret (none, g.map withName)) ∧
    ∀ pre f post r, g = pre ++ f :: post → (∀ x ∈ pre, Settable x) → f.val = .rule r → f.tag ≠ [] →
      (¬ StartsWithLetter f.tag → ∃ n e, ∀ m, n ≤ m → setStructNames rt m g =
        .ret (some (.other (b!"invalid name for " ++ f.name ++ b!": " ++ e)), pre.map withName ++ f :: post)) ∧
      (StartsWithLetter f.tag → f.exported = false → ∃ n, ∀ m, n ≤ m → setStructNames rt m g = .panic) := by
  have step : ∀ (f : Field) (fs : Struct), Settable f → ∃ n, ∀ m, n ≤ m → setStructNames rt m (f :: fs) =
      (setStructNames rt m fs >>= fun x => .ret (x.1, withName f :: x.2)) := by
    intro f fs hf
    cases hv : f.val with
    | other => exact ⟨0, fun m _ => by simp [setStructNames, withName, hv, Exec.pure_eq]⟩
    | rule r =>
      by_cases ht : f.tag = []
      · exact ⟨0, fun m _ => by simp [setStructNames, withName, hv, ht, Exec.pure_eq]⟩
      · obtain ⟨h1, h2⟩ := hf r hv ht
        obtain ⟨k, e, hk⟩ := C45_terminates rt f.tag
        have he := (C45_first_byte rt f.tag k e (hk k (Nat.le_refl _))).mpr h1
        subst he
        exact ⟨k, fun m hm => by simp [setStructNames, withName, hv, ht, hk m hm, h2, Exec.pure_eq]⟩
  have walk : ∀ (pre : Struct), (∀ x ∈ pre, Settable x) → ∀ rest, ∃ n, ∀ m, n ≤ m → setStructNames rt m (pre ++ rest) =
      (setStructNames rt m rest >>= fun x => .ret (x.1, pre.map withName ++ x.2)) := by
    intro pre
    induction pre with
    | nil => exact fun _ rest => ⟨0, fun m _ => by cases h : setStructNames rt m rest <;> simp [h]⟩
    | cons f fs ih =>
      intro h rest
      obtain ⟨n, hn⟩ := ih (fun x hx => h x (List.mem_cons_of_mem _ hx)) rest
      obtain ⟨k, hk⟩ := step f (fs ++ rest) (h f List.mem_cons_self)
      refine ⟨max n k, fun m hm => ?_⟩
      rw [List.cons_append, hk m (by omega), hn m (by omega)]
      cases setStructNames rt m rest <;> simp
  refine ⟨fun h => ?_, ?_⟩
  · obtain ⟨n, hn⟩ := walk g h []
    refine ⟨n, fun m hm => ?_⟩
    have := hn m hm
    rw [List.append_nil] at this
    rw [this]
    simp [setStructNames]
  · rintro pre f post r rfl hpre hv ht
    obtain ⟨n, hn⟩ := walk pre hpre (f :: post)
    obtain ⟨k, e, hk⟩ := C45_terminates rt f.tag
    have key := C45_first_byte rt f.tag k e (hk k (Nat.le_refl _))
    constructor
    · intro hs
      cases e with
      | none => exact absurd (key.mp rfl) hs
      | some e =>
        refine ⟨max n k, e.text, fun m hm => ?_⟩
        rw [hn m (by omega)]
        simp [setStructNames, hv, ht, hk m (by omega), Exec.pure_eq]
    · intro hs hx
      have := key.mpr hs
      subst this
      refine ⟨max n k, fun m hm => ?_⟩
      rw [hn m (by omega)]
      simp [setStructNames, hv, ht, hk m (by omega), hx]

/-- These are all cases: a struct whose fields cannot all be set has a first field that cannot. -/
theorem C75_names_cases (g : Struct) : (∀ f ∈ g, Settable f) ∨ ∃ pre f post r, g = pre ++ f :: post ∧ (∀ x ∈ pre, Settable x) ∧ f.val = .rule r ∧
    f.tag ≠ [] ∧ (¬ StartsWithLetter f.tag ∨ StartsWithLetter f.tag ∧ f.exported = false) := by
  induction g with
  | nil => exact .inl (by simp)
  | cons f fs ih =>
    by_cases hf : Settable f
    · rcases ih with ih | ⟨pre, x, post, r, h1, h2, h3⟩
      · exact .inl (by simpa using ⟨hf, ih⟩)
      · exact .inr ⟨f :: pre, x, post, r, by rw [h1]; rfl, by simpa using ⟨hf, h2⟩, h3⟩
    · right
      unfold Settable at hf
      push Not at hf
      obtain ⟨r, h1, h2, h3⟩ := hf
      refine ⟨[], f, fs, r, rfl, by simp, h1, h2, ?_⟩
      by_cases hs : StartsWithLetter f.tag
      · exact .inr ⟨hs, by simpa using h3 hs⟩
      · exact .inl hs

/-- The names of a struct, in the order of its rules. -/
def ruleNames : Exec (Option Err × Struct) → Option (Bool × List Bytes)
  | .ret (e, g) => some (e.isNone, g.filterMap fun f => match f.val with
    | .rule r => some r.name
    | .other => none)
  | _ => none
example : ruleNames (setStructNames exRt 30 (exStruct false)) = some (true, [b!"first", b!"second", b!"third"]) := rfl
/-- A tagged private rule makes `SetRuleNames` panic. -/
example : setStructNames exRt 30 (exStruct true) = .panic := rfl

/-! ### NewBasketFor and MonitorGrammar -/

theorem writeRule_get (w : Rule → Rule) : ∀ (g : Struct) (i j : Nat), (writeRule w g i)[j]? =
    if i = j then g[j]?.map (Field.write w) else g[j]?
  | [], i, j => by simp [writeRule]
  | x :: fs, 0, 0 => by simp [writeRule]
  | x :: fs, 0, j + 1 => by simp [writeRule]
  | x :: fs, i + 1, 0 => by simp [writeRule]
  | x :: fs, i + 1, j + 1 => by simp [writeRule, writeRule_get w fs i j]

theorem writeRules_get (w : Rule → Rule) : ∀ (ps : List Nat) (g : Struct) (j : Nat), ps.Nodup → (writeRules w g ps)[j]? =
    if j ∈ ps then g[j]?.map (Field.write w) else g[j]?
  | [], g, j, _ => by simp [writeRules]
  | i :: ps, g, j, h => by
    obtain ⟨h1, h2⟩ := List.nodup_cons.mp h
    have := writeRules_get w ps (writeRule w g i) j h2
    unfold writeRules at this ⊢
    rw [List.foldl_cons, this, writeRule_get]
    by_cases hij : i = j
    · subst hij
      simp [h1]
    · have : ¬ j = i := fun h => hij h.symm
      simp [hij, this]

/-- One wrapper around the reader of every rule, and nothing else changed. -/
def Spec.Wrapped (w : Rule → Rule) (g g' : Struct) : Prop := g'.length = g.length ∧
  ∀ (i : Nat) (f : Field), g[i]? = some f → ∃ f' : Field, g'[i]? = some f' ∧ f'.name = f.name ∧ f'.tag = f.tag ∧ f'.exported = f.exported ∧
    (∀ r, f.val = .rule r → f'.val = .rule (w r)) ∧ (f.val = .other → f'.val = .other)

theorem wrapped_of (w : Rule → Rule) (g : Struct) (h : ∀ f ∈ g, f.exported = true) :
    ∃ ps, collectRules g 0 = .ret ps ∧ Wrapped w g (writeRules w g ps) := by
  obtain ⟨ps, h1, h2, h3⟩ := C75_collect_partial g h
  have hn : ps.Nodup := h2.imp fun hab => by omega
  refine ⟨ps, h1, ?_, fun i f hf => ?_⟩
  · refine Nat.le_antisymm ?_ ?_
    · by_contra hc
      have hc : g.length < (writeRules w g ps).length := by omega
      have := writeRules_get w ps g g.length hn
      rw [List.getElem?_eq_getElem hc] at this
      simp at this
    · by_contra hc
      have hc : (writeRules w g ps).length < g.length := by omega
      have := writeRules_get w ps g (writeRules w g ps).length hn
      rw [List.getElem?_eq_getElem hc, List.getElem?_eq_none (Nat.le_refl _)] at this
      split at this <;> cases this
  · have := writeRules_get w ps g i hn
    rw [hf] at this
    cases hv : f.val with
    | rule r =>
      rw [if_pos ((h3 i).mpr ⟨r, f, hf, hv⟩)] at this
      simp only [Option.map_some, Field.write, hv] at this
      exact ⟨_, this, rfl, rfl, rfl, fun r' hr' => by cases hr'; rfl, fun h => nomatch h⟩
    | other =>
      rw [if_neg (fun hi => by
        obtain ⟨r, f', hf', hr⟩ := (h3 i).mp hi
        rw [hf] at hf'
        cases hf'
        rw [hv] at hr
        cases hr)] at this
      exact ⟨f, this, rfl, rfl, rfl, fun r' hr' => (nomatch hr'), fun _ => hv⟩

/-- `NewBasketFor` puts exactly one `Pick` for the new basket around the reader of every rule, with the name of the
rule, changes nothing else, and couples the empty basket with the scanner; `MonitorGrammar` puts one `Monitor` around
every reader.  For structs without unexported fields; otherwise both panic. -/
theorem C75_wraps_partial (s : Scanner) (k : Nat) (g : Struct) (h : ∀ f ∈ g, f.exported = true) :
    (∃ s' g', newBasketFor s k g = .ret (s', g') ∧ s'.full = s.full ∧ s'.pos = s.pos ∧ s'.tracker = some (.basket k) ∧ s'.heap.baskets k = [] ∧
      Wrapped (fun r => ⟨r.name, some (.pick r.name k (r.reader.getD nilReader))⟩) g g') ∧
    ∃ g', monitorStruct k g = .ret g' ∧ Wrapped (fun r => ⟨r.name, some (.monitor r.name k (r.reader.getD nilReader))⟩) g g' := by
  constructor
  · obtain ⟨ps, h1, h2⟩ := wrapped_of (Rule.pickAt k) g h
    refine ⟨s.newBasket k, _, ?_, rfl, rfl, rfl, by simp [Scanner.newBasket, upd], h2⟩
    unfold newBasketFor
    rw [h1]
    rfl
  · obtain ⟨ps, h1, h2⟩ := wrapped_of (Rule.monitorAt k) g h
    refine ⟨_, ?_, h2⟩
    unfold monitorStruct
    rw [h1]
    rfl

/-- With an unexported field both panic. -/
theorem C75_wraps_violated (s : Scanner) (k : Nat) (g : Struct) (h : ∃ f ∈ g, f.exported = false) :
    newBasketFor s k g = .panic ∧ monitorStruct k g = .panic := by
  unfold newBasketFor monitorStruct
  rw [C75_collect_violated g h 0]
  exact ⟨rfl, rfl⟩

/-- A rule without a reader is reported by `CheckRules` (C46).  After `NewBasketFor` and after
`MonitorGrammar` it is not reported any more if its name is fine, and reading it panics. -/
theorem C75_masked_violated (rt : Rt) (G : Env) (k : Nat) (r : Rule) (hr : r.reader = none) (hn : StartsWithLetter r.name) :
    (∃ n e, ∀ m, n ≤ m → checkRules rt m [r] = .ret (some e)) ∧
    (∃ n, ∀ m, n ≤ m → checkRules rt m [r.pickAt k] = .ret none ∧ checkRules rt m [r.monitorAt k] = .ret none) ∧
    ∀ c s, (r.pickAt k).reader = some c ∨ (r.monitorAt k).reader = some c → read rt G 2 c s = .panic := by
  obtain ⟨b, hb⟩ := C45_terminates rt r.name
  obtain ⟨e, hb⟩ := hb
  have he := (C45_first_byte rt r.name b e (hb b (Nat.le_refl _))).mpr hn
  subst he
  refine ⟨⟨b, .other (b!"the Reader of " ++ r.name ++ b!" is a nil value"), fun m hm => ?_⟩, ⟨b, fun m hm => ⟨?_, ?_⟩⟩, ?_⟩
  · unfold checkRules
    rw [hb m hm, Exec.bind_ret]
    simp only [hr]
    rfl
  · unfold checkRules
    rw [show (r.pickAt k).name = r.name from rfl, hb m hm]
    rfl
  · unfold checkRules
    rw [show (r.monitorAt k).name = r.name from rfl, hb m hm]
    rfl
  · intro c s hc
    rcases hc with hc | hc
    · simp only [Rule.pickAt, hr, Option.getD_none, Option.some.injEq] at hc
      subst hc
      rfl
    · simp only [Rule.monitorAt, hr, Option.getD_none, Option.some.injEq] at hc
      subst hc
      rfl

example : (⟨b!"third", none⟩ : Rule).reader = none ∧ StartsWithLetter b!"third" := ⟨rfl, _, _, rfl, by decide⟩

/-! ### the shipped grammars -/

theorem structOf_exported (fields : List (Bytes × Bytes × Bytes)) (G : List Rule) : ∀ f ∈ structOf fields G, f.exported = true := by
  intro f hf
  obtain ⟨x, _, rfl⟩ := List.mem_map.mp hf
  rfl

theorem structOf_cons (x : Bytes × Bytes × Bytes) (fields : List (Bytes × Bytes × Bytes)) (r : Rule) (G : List Rule) :
    structOf (x :: fields) (r :: G) = ⟨x.1, true, x.2.1, .rule r⟩ :: structOf fields G := rfl

theorem rulesAt_structOf : ∀ (fields : List (Bytes × Bytes × Bytes)) (G : List Rule), fields.length = G.length →
    rulesAt (structOf fields G) (List.range G.length) = G
  | [], [], _ => rfl
  | x :: fields, r :: G, h => by
    have ih := rulesAt_structOf fields G (by simpa using h)
    rw [structOf_cons, List.length_cons, List.range_succ_eq_map]
    unfold rulesAt at ih ⊢
    rw [List.filterMap_cons, List.filterMap_map]
    simp only [List.getElem?_cons_zero]
    conv => rhs; rw [← ih]
    rfl

theorem collect_structOf : ∀ (fields : List (Bytes × Bytes × Bytes)) (G : List Rule), fields.length = G.length → ∀ k,
    collectRules (structOf fields G) k = .ret ((List.range G.length).map (k + ·))
  | [], [], _, _ => rfl
  | x :: fields, r :: G, h, k => by
    rw [structOf_cons, List.length_cons, List.range_succ_eq_map]
    simp only [collectRules, if_true, collect_structOf fields G (by simpa using h) (k + 1), Exec.bind_ret, Exec.pure_eq, List.map_cons, List.map_map,
      Exec.ret.injEq, List.cons.injEq, Nat.add_zero, true_and]
    refine List.map_congr_left fun i _ => ?_
    simp only [Function.comp]
    omega

theorem write_structOf (w : Rule → Rule) (fields : List (Bytes × Bytes × Bytes)) (G : List Rule) (h : fields.length = G.length) :
    writeRules w (structOf fields G) (List.range G.length) = structOf fields (G.map w) := by
  refine List.ext_getElem? fun i => ?_
  rw [writeRules_get w _ _ _ List.nodup_range]
  by_cases hi : i < G.length
  · rw [if_pos (List.mem_range.mpr hi)]
    have h1 : (fields.zip G)[i]? = some (fields[i], G[i]) :=
      List.getElem?_zip_eq_some.mpr ⟨List.getElem?_eq_getElem (h ▸ hi), List.getElem?_eq_getElem hi⟩
    have h2 : (fields.zip (G.map w))[i]? = some (fields[i], w G[i]) :=
      List.getElem?_zip_eq_some.mpr ⟨List.getElem?_eq_getElem (h ▸ hi), by simp [hi]⟩
    unfold structOf
    rw [List.getElem?_map, List.getElem?_map, h1, h2]
    rfl
  · rw [if_neg (by simpa using hi)]
    rw [List.getElem?_eq_none (by unfold structOf; simp; omega), List.getElem?_eq_none (by unfold structOf; simp; omega)]

/-- A well-wired grammar, in particular each of the shipped ones (C46): before `SetRuleNames` its rules have no names and no
readers, after it they have the names of the grammar; `CollectRules` gives pointers to
exactly its rules; and `NewBasketFor` and `MonitorGrammar` make of it the grammar with all rules picked, or monitored. -/
theorem C75_wired (rt : Rt) (fields : List (Bytes × Bytes × Bytes)) (G : Env) (h : Wired fields G) (s : Scanner) (k : Nat) :
    (∃ n, ∀ m, n ≤ m → setStructNames rt m (structOf fields (G.map fun _ => ⟨[], none⟩)) =
      .ret (none, structOf fields (G.map fun r => ⟨r.name, none⟩))) ∧
    ∃ ps, collectRules (structOf fields G) 0 = .ret ps ∧ rulesAt (structOf fields G) ps = G ∧
      (∃ g, newBasketFor s k (structOf fields G) = .ret (s.newBasket k, g) ∧ rulesAt g ps = G.pickAll k) ∧
      ∃ g, monitorStruct k (structOf fields G) = .ret g ∧ rulesAt g ps = G.monitorAll k := by
  have hl : fields.length = G.length := by
    have := congrArg List.length h.names
    simpa using this.symm
  have hc := collect_structOf fields G hl 0
  simp only [Nat.zero_add, List.map_id'] at hc
  refine ⟨?_, _, hc, rulesAt_structOf fields G hl, ⟨structOf fields (G.map (Rule.pickAt k)), ?_, ?_⟩, structOf fields (G.map (Rule.monitorAt k)), ?_, ?_⟩
  · have tags : ∀ f ∈ fields, StartsWithLetter f.2.1 := fun f hf => by
      have : f.2.1 ∈ G.map (·.name) := by rw [h.names]; exact List.mem_map_of_mem hf
      obtain ⟨r, hr, h5⟩ := List.mem_map.mp this
      rw [← h5]
      exact (h.valid r hr).starts
    obtain ⟨n, hn⟩ := (C75_names_exact rt (structOf fields (G.map fun _ => ⟨[], none⟩))).1 (by
      intro f hf r _ _
      obtain ⟨x, hx, rfl⟩ := List.mem_map.mp hf
      exact ⟨tags _ (List.of_mem_zip hx).1, rfl⟩)
    refine ⟨n, fun m hm => ?_⟩
    rw [hn m hm]
    have key : ∀ (fs : List (Bytes × Bytes × Bytes)) (H : List Rule), H.map (·.name) = fs.map (·.2.1) → (∀ f ∈ fs, StartsWithLetter f.2.1) →
        (structOf fs (H.map fun _ => ⟨[], none⟩)).map withName = structOf fs (H.map fun r => ⟨r.name, none⟩) := by
      intro fs
      induction fs with
      | nil => intro H _ _; rfl
      | cons x fs ih =>
        intro H hH ht
        cases H with
        | nil => cases hH
        | cons r H =>
          simp only [List.map_cons, List.cons.injEq] at hH
          rw [List.map_cons, List.map_cons, structOf_cons, structOf_cons, List.map_cons, ih H hH.2 fun f hf => ht f (List.mem_cons_of_mem _ hf)]
          obtain ⟨b, t, h1, _⟩ := ht x List.mem_cons_self
          have hne : x.2.1 ≠ [] := by rw [h1]; simp
          simp [withName, hne, hH.1]
    rw [key fields G h.names tags]
  · unfold newBasketFor
    rw [hc, Exec.bind_ret, write_structOf _ _ _ hl]
    rfl
  · have := rulesAt_structOf fields (G.map (Rule.pickAt k)) (by simpa using hl)
    rw [List.length_map] at this
    rw [this]
    refine List.map_congr_left fun r hr => ?_
    obtain ⟨c, hc⟩ := h.readers r hr
    simp [Rule.pickAt, Rule.pick, hc]
  · unfold monitorStruct
    rw [hc, Exec.bind_ret, write_structOf _ _ _ hl]
    rfl
  · have := rulesAt_structOf fields (G.map (Rule.monitorAt k)) (by simpa using hl)
    rw [List.length_map] at this
    rw [this]
    refine List.map_congr_left fun r hr => ?_
    obtain ⟨c, hc⟩ := h.readers r hr
    simp [Rule.monitorAt, Rule.monitor, hc]

/-- The theorem applies to the shipped grammars. -/
example : Wired Json.fields Json.env ∧ Wired Mxt.fields Mxt.env ∧ Wired Lua.fields Lua.env := C46_shipped

end Tok
