/-
C83, the errors: rewriting by the laws changes the errors as little as what is read.
-/
import Verif.Props.C88

namespace Tok
open Spec

/-- Both readers fail with the same errors, in every text, at every place. -/
def SameError (rt : Rt) (G : Env) (a b : Reader) : Prop :=
  ∀ s h t, Between s h t → ∀ e, (∃ n s', read rt G n a s = .ret (some e, s')) ↔ ∃ n s', read rt G n b s = .ret (some e, s')

section
variable {rt : Rt} {G : Env}

theorem sameError_of (hG : G.Every (fun r => r.noWrap = true)) {a b : Reader} (ha : a.Every (fun r => r.noWrap = true)) (hb : b.Every (fun r => r.noWrap = true))
    (h : ∀ L st e, Blames rt G (E rt G) L (.read a) st [e] ↔ Blames rt G (E rt G) L (.read b) st [e]) : SameError rt G a b := by
  have key : ∀ {r : Reader}, r.Every (fun r => r.noWrap = true) → ∀ {s : Scanner} {h t : Bytes}, Between s h t → ∀ {e},
      (∃ n s', read rt G n r s = .ret (some e, s')) ↔ Blames rt G (E rt G) (h ++ t).length (.read r) ⟨t, s.heap.janus⟩ [e] := by
    intro r hr s h t hs e
    constructor
    · rintro ⟨n, s', h1⟩
      exact blames_noWrap hG (fun r hr _ _ h => (outcome_iff hG hr).mp h) hr (C88_error rt G hG _ hr _ _ _ hs n _ s' h1)
    · exact fun h1 => C88_complete rt G hG _ hr _ _ _ hs _ (blames_noWrap hG (fun r hr _ _ h => (outcome_iff hG hr).mpr h) hr h1)
  intro s h1 t hs e
  rw [key ha hs, key hb hs, h]

variable {L : Nat}

theorem e_seqCons {r : Reader} {rs : List Reader} {st m : St} : E rt G (.seq (r :: rs)) st (true, m) ↔ ∃ m', E rt G r st (true, m') ∧ E rt G (.seq rs) m' (true, m) := by
  constructor
  · intro h
    obtain ⟨y, h1, h2⟩ := e_seq.mp h
    have := of_orBack h2
    subst this
    obtain ⟨ok, m', h3, h4⟩ := eSeq_cons.mp h1
    cases ok
    · simp at h4
    · rw [if_pos rfl] at h4
      exact ⟨m', h3, e_seq.mpr ⟨_, h4, rfl⟩⟩
  · rintro ⟨m', h1, h2⟩
    obtain ⟨y, h3, h4⟩ := e_seq.mp h2
    have := of_orBack h4
    subst this
    exact e_seq.mpr ⟨_, eSeq_cons.mpr ⟨_, _, h1, by rw [if_pos rfl]; exact h3⟩, rfl⟩

theorem e_seqNil {st m : St} : E rt G (.seq []) st (true, m) ↔ m = st := by
  constructor
  · intro h
    obtain ⟨y, h1, h2⟩ := e_seq.mp h
    rw [eSeq_nil.mp h1] at h2
    cases h2
    rfl
  · rintro rfl
    exact e_seq.mpr ⟨_, eSeq_nil.mpr rfl, rfl⟩

theorem blames_seqNil {st : St} {e : Err} : ¬ Blames rt G (E rt G) L (.read (.seq [])) st [e] := fun h => by
  cases h with | self h _ => cases h

theorem blames_seqCons {r : Reader} {rs : List Reader} {st : St} {e : Err} : Blames rt G (E rt G) L (.read (.seq (r :: rs))) st [e] ↔
    Blames rt G (E rt G) L (.read r) st [e] ∨ ∃ m, E rt G r st (true, m) ∧ Blames rt G (E rt G) L (.read (.seq rs)) m [e] := by
  constructor
  · intro h
    cases h with
    | self h _ => cases h
    | seqFail h => exact .inl h
    | seqCons h h' => exact .inr ⟨_, h, h'⟩
  · rintro (h | ⟨m, h, h'⟩)
    · exact .seqFail h
    · exact .seqCons h h'

theorem blames_seqAppend : ∀ (as : List Reader) {bs : List Reader} {st : St} {e : Err}, Blames rt G (E rt G) L (.read (.seq (as ++ bs))) st [e] ↔
    Blames rt G (E rt G) L (.read (.seq as)) st [e] ∨ ∃ m, E rt G (.seq as) st (true, m) ∧ Blames rt G (E rt G) L (.read (.seq bs)) m [e]
  | [], bs, st, e => by
    constructor
    · exact fun h => .inr ⟨st, e_seqNil.mpr rfl, h⟩
    · rintro (h | ⟨m, h, h'⟩)
      · exact (blames_seqNil h).elim
      · rw [e_seqNil.mp h] at h'
        exact h'
  | a :: as, bs, st, e => by
    rw [List.cons_append, blames_seqCons, blames_seqCons]
    constructor
    · rintro (h | ⟨m, h, h'⟩)
      · exact .inl (.inl h)
      · rcases (blames_seqAppend as).mp h' with h' | ⟨m', h1, h2⟩
        · exact .inl (.inr ⟨m, h, h'⟩)
        · exact .inr ⟨m', e_seqCons.mpr ⟨m, h, h1⟩, h2⟩
    · rintro ((h | ⟨m, h, h'⟩) | ⟨m', h1, h2⟩)
      · exact .inl h
      · exact .inr ⟨m, h, (blames_seqAppend as).mpr (.inl h')⟩
      · obtain ⟨m, h3, h4⟩ := e_seqCons.mp h1
        exact .inr ⟨m, h3, (blames_seqAppend as).mpr (.inr ⟨m', h4, h2⟩)⟩

theorem e_seqAppend : ∀ (as : List Reader) {bs : List Reader} {st m : St}, E rt G (.seq (as ++ bs)) st (true, m) ↔
    ∃ m', E rt G (.seq as) st (true, m') ∧ E rt G (.seq bs) m' (true, m)
  | [], bs, st, m => by
    constructor
    · exact fun h => ⟨st, e_seqNil.mpr rfl, h⟩
    · rintro ⟨m', h, h'⟩
      rw [e_seqNil.mp h] at h'
      exact h'
  | a :: as, bs, st, m => by
    rw [List.cons_append, e_seqCons]
    constructor
    · rintro ⟨m1, h, h'⟩
      obtain ⟨m2, h1, h2⟩ := (e_seqAppend as).mp h'
      exact ⟨m2, e_seqCons.mpr ⟨m1, h, h1⟩, h2⟩
    · rintro ⟨m2, h, h'⟩
      obtain ⟨m1, h1, h2⟩ := e_seqCons.mp h
      exact ⟨m1, h1, (e_seqAppend as).mpr ⟨m2, h2, h'⟩⟩

theorem blames_skipSeq {sk : Reader} : ∀ (rs : List Reader) {st : St} {e : Err}, Blames rt G (E rt G) L (.read (.skipSeq sk rs)) st [e] ↔
    Blames rt G (E rt G) L (.read (.seq (weave sk rs))) st [e]
  | [], st, e => by
    show _ ↔ Blames rt G (E rt G) L (.read (.seq [sk])) st [e]
    rw [blames_seqCons]
    constructor
    · intro h
      cases h with
      | self h _ => cases h
      | skipFail h => exact .inl h
    · rintro (h | ⟨m, _, h⟩)
      · exact .skipFail h
      · exact (blames_seqNil h).elim
  | r :: rs, st, e => by
    show _ ↔ Blames rt G (E rt G) L (.read (.seq (sk :: r :: weave sk rs))) st [e]
    rw [blames_seqCons]
    constructor
    · intro h
      cases h with
      | self h _ => cases h
      | skipFail h => exact .inl h
      | skipStop h h' => exact .inr ⟨_, h, blames_seqCons.mpr (.inl h')⟩
      | skipCons h h' h'' => exact .inr ⟨_, h, blames_seqCons.mpr (.inr ⟨_, h', (blames_skipSeq rs).mp h''⟩)⟩
    · rintro (h | ⟨m, h, h'⟩)
      · exact .skipFail h
      · rcases blames_seqCons.mp h' with h' | ⟨m', h', h''⟩
        · exact .skipStop h h'
        · exact .skipCons h h' ((blames_skipSeq rs).mpr h'')

theorem blames_times {c : Reader} : ∀ (k : Nat) {st : St} {e : Err}, Blames rt G (E rt G) L (.read (.times k c)) st [e] ↔
    Blames rt G (E rt G) L (.read (.seq (.replicate k c))) st [e]
  | 0, st, e => by
    refine ⟨fun h => ?_, fun h => (blames_seqNil h).elim⟩
    generalize hg : ((0 : Nat) : Int) = j at h
    cases h with
    | self h _ => cases h
    | timesFail h _ => omega
    | timesCons h _ _ => omega
  | k + 1, st, e => by
    rw [List.replicate_succ, blames_seqCons]
    constructor
    · intro h
      generalize hg : ((k + 1 : Nat) : Int) = j at h
      cases h with
      | self h _ => cases h
      | timesFail _ h => exact .inl h
      | @timesCons k' _ _ _ _ h0 h h' =>
        have : k' = (k : Int) := by omega
        subst this
        exact .inr ⟨_, h, (blames_times k).mp h'⟩
    · rintro (h | ⟨m, h, h'⟩)
      · exact .timesFail (by omega) h
      · exact .timesCons (k := (k : Int)) (by omega) h ((blames_times k).mpr h')

/-! ### choices inside choices -/

/-- The later of two errors, if it is not nearer to the beginning. -/
def further : Option (Int × Bytes) → Option (Int × Bytes) → Option (Int × Bytes)
  | none, b => b
  | a, none => a
  | some a, some b => if a.1 ≤ b.1 then some b else some a

theorem further_assoc (a b c : Option (Int × Bytes)) : further (further a b) c = further a (further b c) := by
  rcases a with _ | ⟨a, v⟩ <;> rcases b with _ | ⟨b, w⟩ <;> rcases c with _ | ⟨c, x⟩ <;> simp only [further]
  · by_cases h1 : a ≤ b <;> simp [h1]
  · by_cases h1 : a ≤ b <;> by_cases h2 : b ≤ c
    · have : a ≤ c := by omega
      simp [h1, h2, this]
    · simp [h1, h2]
    · simp [h1, h2]
    · have : ¬ a ≤ c := by omega
      simp [h1, h2, this]

/-- The last of the read errors furthest in the text. -/
def furthest : List Err → Option (Int × Bytes)
  | [] => none
  | .read m w :: es => further (some (m, w)) (furthest es)
  | .other _ :: es => furthest es

theorem furthest_append (es fs : List Err) : furthest (es ++ fs) = further (furthest es) (furthest fs) := by
  induction es with
  | nil => rfl
  | cons e es ih =>
    cases e with
    | read m w => rw [List.cons_append, furthest, furthest, ih, further_assoc]
    | other t => exact ih

theorem furthest_le : ∀ {es : List Err} {m : Int} {w : Bytes}, .read m w ∈ es → ∃ k v, furthest es = some (k, v) ∧ m ≤ k
  | .other _ :: es, m, w, h => by
    rcases List.mem_cons.mp h with h | h
    · cases h
    · exact furthest_le (es := es) h
  | .read k v :: es, m, w, h => by
    rw [furthest]
    rcases List.mem_cons.mp h with h | h
    · cases h
      rcases furthest es with _ | ⟨l, x⟩
      · exact ⟨_, _, rfl, Int.le_refl _⟩
      · simp only [further]
        split
        · exact ⟨_, _, rfl, by assumption⟩
        · exact ⟨_, _, rfl, Int.le_refl _⟩
    · obtain ⟨l, x, h1, h2⟩ := furthest_le h
      rw [h1]
      simp only [further]
      split
      · exact ⟨_, _, rfl, h2⟩
      · exact ⟨_, _, rfl, by omega⟩

theorem deepest_furthest : ∀ es, Deepest es (match furthest es with | some (m, w) => .read m w | none => .read 0 [])
  | [] => .inr ⟨(fun _ _ h => by cases h), rfl⟩
  | .other t :: es => by
    rcases deepest_furthest es with ⟨pre, m, w, post, h1, h2, h3, h4⟩ | ⟨h1, h2⟩
    · exact .inl ⟨.other t :: pre, m, w, post, by rw [h1]; rfl, h2, fun k v h => by
        rcases List.mem_cons.mp h with h | h
        · cases h
        · exact h3 k v h, h4⟩
    · exact .inr ⟨fun k v h => by
        rcases List.mem_cons.mp h with h | h
        · cases h
        · exact h1 k v h, h2⟩
  | .read k v :: es => by
    have ih := deepest_furthest es
    rw [furthest]
    rcases h0 : furthest es with _ | ⟨m', w'⟩
    · refine .inl ⟨[], k, v, es, rfl, rfl, (fun _ _ h => by cases h), fun m w h => ?_⟩
      obtain ⟨_, _, h1, _⟩ := furthest_le h
      rw [h0] at h1; cases h1
    · rw [h0] at ih
      rcases ih with ⟨pre, m, w, post, h1, h2, h3, h4⟩ | ⟨h1, h2⟩
      · cases h2
        simp only [further]
        by_cases hk : k ≤ m'
        · rw [if_pos hk]
          refine .inl ⟨.read k v :: pre, m', w', post, by rw [h1]; rfl, rfl, fun l x h => ?_, h4⟩
          rcases List.mem_cons.mp h with h | h
          · cases h; exact hk
          · exact h3 l x h
        · rw [if_neg hk]
          refine .inl ⟨[], k, v, es, rfl, rfl, (fun _ _ h => by cases h), fun l x h => ?_⟩
          obtain ⟨_, _, h5, h6⟩ := furthest_le h
          rw [h0] at h5; cases h5
          omega
      · simp only [further]
        cases h2
        by_cases hk : k ≤ 0
        · exfalso
          -- a read error that is furthest is in the list
          have : ∀ (es : List Err) m w, furthest es = some (m, w) → .read m w ∈ es := by
            intro es
            induction es with
            | nil => intro m w h; cases h
            | cons e es ih =>
              intro m w h
              cases e with
              | other t => exact List.mem_cons_of_mem _ (ih m w h)
              | read a b =>
                rw [furthest] at h
                rcases h5 : furthest es with _ | ⟨c, d⟩
                · rw [h5] at h; cases h; exact List.mem_cons_self
                · rw [h5] at h
                  simp only [further] at h
                  split at h
                  · cases h; exact List.mem_cons_of_mem _ (ih _ _ h5)
                  · cases h; exact List.mem_cons_self
          exact h1 _ _ (this es _ _ h0)
        · rw [if_neg hk]
          refine .inl ⟨[], k, v, es, rfl, rfl, (fun _ _ h => by cases h), fun l x h => absurd h (h1 l x)⟩

theorem deepest_iff {es : List Err} {e : Err} : Deepest es e ↔ e = match furthest es with | some (m, w) => .read m w | none => .read 0 [] :=
  ⟨fun h => deepest_unique h (deepest_furthest es), fun h => h ▸ deepest_furthest es⟩

/-- The deepest of some errors may take their place. -/
theorem deepest_inner {es fs gs : List Err} {e f : Err} (hf : Deepest fs f) (hr : ∃ m w, .read m w ∈ fs) :
    Deepest (es ++ f :: gs) e ↔ Deepest (es ++ (fs ++ gs)) e := by
  obtain ⟨m, w, h⟩ := hr
  obtain ⟨k, v, h1, _⟩ := furthest_le h
  rw [deepest_iff, h1] at hf
  cases hf
  rw [deepest_iff, deepest_iff, furthest_append, furthest_append, furthest_append, h1, furthest]

theorem blames_altsAppend : ∀ (as : List Reader) {bs : List Reader} {st : St} {es : List Err}, Blames rt G (E rt G) L (.alts (as ++ bs)) st es ↔
    ∃ es1 m es2, Blames rt G (E rt G) L (.alts as) st es1 ∧ EAny rt G as st (false, m) ∧ Blames rt G (E rt G) L (.alts bs) m es2 ∧ es = es1 ++ es2
  | [], bs, st, es => ⟨fun h => ⟨[], st, es, .altsNil, eAny_nil.mpr rfl, h, rfl⟩, fun ⟨es1, m, es2, h1, h2, h3, h4⟩ => by
      cases h1
      cases eAny_nil.mp h2
      rw [h4]; exact h3⟩
  | r :: as, bs, st, es => by
    rw [List.cons_append]
    constructor
    · intro h
      cases h with
      | altsCons h1 h2 h3 =>
        obtain ⟨es1, m, es2, h4, h5, h6, rfl⟩ := (blames_altsAppend as).mp h3
        exact ⟨_, m, es2, .altsCons h1 h2 h4, eAny_cons.mpr ⟨false, _, h2, h5⟩, h6, rfl⟩
    · rintro ⟨es1, m, es2, h1, h2, h3, rfl⟩
      cases h1 with
      | altsCons h4 h5 h6 =>
        obtain ⟨ok, st1, h7, h8⟩ := eAny_cons.mp h2
        cases h5.det h7
        exact .altsCons h4 h5 ((blames_altsAppend as).mpr ⟨_, m, es2, h6, h8, h3, rfl⟩)

theorem blames_any {rs : List Reader} {st : St} {e : Err} : Blames rt G (E rt G) L (.read (.any rs)) st [e] ↔
    ∃ es, Blames rt G (E rt G) L (.alts rs) st es ∧ Deepest es e := by
  constructor
  · intro h
    cases h with
    | self h _ => cases h
    | any h1 h2 => exact ⟨_, h1, h2⟩
  · rintro ⟨es, h1, h2⟩
    exact .any h1 h2

end

theorem every_seq {P : Reader → Prop} (hP : ∀ rs, P (.seq rs)) {rs : List Reader} (h : ∀ r ∈ rs, r.Every P) : (Reader.seq rs).Every P := .mk (hP rs) h

/-- A `Seq` of one reader fails as the reader does. -/
theorem C83_error_one (rt : Rt) (G : Env) (hG : G.Every (fun r => r.noWrap = true)) (r : Reader) (hr : r.Every (fun r => r.noWrap = true)) :
    SameError rt G (.seq [r]) r := by
  refine sameError_of hG (every_seq (fun _ => rfl) fun c hc => by rw [List.mem_singleton.mp hc]; exact hr) hr fun L st e => ?_
  rw [blames_seqCons]
  exact ⟨fun h => h.elim id fun ⟨_, _, h⟩ => (blames_seqNil h).elim, .inl⟩

/-- A `Seq` in a `Seq` can be flattened: the errors stay. -/
theorem C83_error_flat (rt : Rt) (G : Env) (hG : G.Every (fun r => r.noWrap = true)) (as bs cs : List Reader)
    (ha : ∀ r ∈ as, r.Every (fun r => r.noWrap = true)) (hb : ∀ r ∈ bs, r.Every (fun r => r.noWrap = true))
    (hc : ∀ r ∈ cs, r.Every (fun r => r.noWrap = true)) : SameError rt G (.seq (as ++ .seq bs :: cs)) (.seq (as ++ bs ++ cs)) := by
  refine sameError_of hG (every_seq (fun _ => rfl) fun c hc' => ?_) (every_seq (fun _ => rfl) fun c hc' => ?_) fun L st e => ?_
  · simp only [List.mem_append, List.mem_cons] at hc'
    rcases hc' with h | rfl | h
    · exact ha c h
    · exact every_seq (fun _ => rfl) hb
    · exact hc c h
  · simp only [List.mem_append] at hc'
    rcases hc' with (h | h) | h
    · exact ha c h
    · exact hb c h
    · exact hc c h
  · rw [List.append_assoc, blames_seqAppend, blames_seqAppend as]
    refine or_congr Iff.rfl (exists_congr fun m => and_congr_right fun _ => ?_)
    rw [blames_seqCons, blames_seqAppend bs]

/-- `SkipSeq` fails as the `Seq` with the skipped reader in between. -/
theorem C83_error_skip (rt : Rt) (G : Env) (hG : G.Every (fun r => r.noWrap = true)) (sk : Reader) (rs : List Reader)
    (hk : sk.Every (fun r => r.noWrap = true)) (hr : ∀ r ∈ rs, r.Every (fun r => r.noWrap = true)) : SameError rt G (.skipSeq sk rs) (.seq (weave sk rs)) := by
  refine sameError_of hG (.mk rfl fun c hc => ?_) (every_seq (fun _ => rfl) fun c hc => ?_) fun L st e => blames_skipSeq rs
  · rcases List.mem_cons.mp hc with rfl | hc
    · exact hk
    · exact hr c hc
  · simp only [weave, List.mem_cons, List.mem_flatMap, List.not_mem_nil, or_false] at hc
    rcases hc with rfl | ⟨r, h, rfl | rfl⟩
    · exact hk
    · exact hr _ h
    · exact hk

/-- `Times(k, r)` fails as a `Seq` of `k` such readers. -/
theorem C83_error_times (rt : Rt) (G : Env) (hG : G.Every (fun r => r.noWrap = true)) (k : Nat) (c : Reader) (hc : c.Every (fun r => r.noWrap = true)) :
    SameError rt G (.times k c) (.seq (.replicate k c)) :=
  sameError_of hG (.mk rfl fun r hr => by rw [List.mem_singleton.mp hr]; exact hc)
    (every_seq (fun _ => rfl) fun r hr => by rw [(List.mem_replicate.mp hr).2]; exact hc) fun L st e => blames_times k

/-- An `Any` of one reader fails as the reader does, if the errors of the reader are read errors. -/
theorem C83_error_any_one_partial (rt : Rt) (G : Env) (hG : G.Every (fun r => r.noWrap = true)) (r : Reader) (hr : r.Every (fun r => r.noWrap = true))
    (hread : ∀ s h t, Between s h t → ∀ n e s', read rt G n r s = .ret (some e, s') → ∃ m w, e = .read m w) : SameError rt G (.any [r]) r := by
  have hra : (Reader.any [r]).Every (fun r => r.noWrap = true) := .mk rfl fun c hc => by rw [List.mem_singleton.mp hc]; exact hr
  have conv : ∀ {r : Reader}, r.Every (fun r => r.noWrap = true) → ∀ {s : Scanner} {h t : Bytes}, Between s h t → ∀ {e},
      (∃ n s', read rt G n r s = .ret (some e, s')) ↔ Blames rt G (Outcome rt G) (h ++ t).length (.read r) ⟨t, s.heap.janus⟩ [e] := by
    intro r hr s h t hs e
    exact ⟨fun ⟨n, s', h1⟩ => C88_error rt G hG _ hr _ _ _ hs n _ s' h1, fun h1 => C88_complete rt G hG _ hr _ _ _ hs _ h1⟩
  intro s h t hs e
  constructor
  · intro hx
    have hb := (conv hra hs).mp hx
    cases hb with
    | self h _ => cases h
    | any h1 h2 =>
      cases h1 with
      | altsCons k1 k2 k3 =>
        cases k3
        obtain ⟨n, s', h3⟩ := (conv hr hs).mpr k1
        obtain ⟨m, w, rfl⟩ := hread s h t hs n _ s' h3
        have : e = .read m w := deepest_unique h2 (.inl ⟨[], m, w, [], rfl, rfl, (fun _ _ h => by cases h), fun _ _ h => by cases h⟩)
        rw [this]
        exact ⟨n, s', h3⟩
  · rintro ⟨n, s', h1⟩
    obtain ⟨m, w, rfl⟩ := hread s h t hs n _ s' h1
    have k1 := (conv hr hs).mp ⟨n, s', h1⟩
    obtain ⟨m', hm⟩ := blames_fails (blames_noWrap hG (fun r hr _ _ h => (outcome_iff hG hr).mp h) hr k1)
    exact (conv hra hs).mpr (.any (.altsCons k1 ((outcome_iff hG hr).mpr hm) .altsNil) (.inl ⟨[], m, w, [], rfl, rfl, (fun _ _ h => by cases h), fun _ _ h => by cases h⟩))

theorem eAny_suffix {rt : Rt} {G : Env} : ∀ {rs : List Reader} {st : St} {x : Bool × St}, EAny rt G rs st x → x.2.rest <:+ st.rest
  | [], _, _, h => by rw [eAny_nil.mp h]; exact List.suffix_refl _
  | r :: rs, _, _, h => by
    obtain ⟨ok, st1, h1, h2⟩ := eAny_cons.mp h
    cases ok
    · exact (eAny_suffix (rs := rs) h2).trans h1.suffix
    · rw [show _ = _ from h2]; exact h1.suffix

/-- A choice inside a choice fails as if its members were members of the outer one, if these go back and their errors are read errors. -/
theorem C83_error_any_flat_partial (rt : Rt) (G : Env) (hG : G.Every (fun r => r.noWrap = true)) (as bs cs : List Reader) (hne : bs ≠ [])
    (h1 : ∀ r ∈ as, r.Every (fun r => r.noWrap = true)) (h2 : ∀ r ∈ bs, r.Every (fun r => r.noWrap = true)) (h3 : ∀ r ∈ cs, r.Every (fun r => r.noWrap = true))
    (hb : ∀ r ∈ bs, GoesBack rt G r)
    (hread : ∀ r ∈ bs, ∀ s h t, Between s h t → ∀ n e s', read rt G n r s = .ret (some e, s') → ∃ m w, e = .read m w) :
    SameError rt G (.any (as ++ .any bs :: cs)) (.any (as ++ (bs ++ cs))) := by
  have w1 : (Reader.any (as ++ .any bs :: cs)).Every (fun r => r.noWrap = true) := .mk rfl fun c hc => by
    rcases List.mem_append.mp hc with hc | hc
    · exact h1 c hc
    · rcases List.mem_cons.mp hc with rfl | hc
      · exact .mk rfl h2
      · exact h3 c hc
  have w2 : (Reader.any (as ++ (bs ++ cs))).Every (fun r => r.noWrap = true) := .mk rfl fun c hc => by
    rcases List.mem_append.mp hc with hc | hc
    · exact h1 c hc
    · exact (List.mem_append.mp hc).elim (h2 c) (h3 c)
  have hback : ∀ r ∈ bs, Back2 rt G r := fun r hr => goesBack_iff hG (h2 r hr) (hb r hr)
  -- the first of the inner errors is a read error
  have hone : ∀ L (st : St) es, st.rest.length ≤ L → Blames rt G (E rt G) L (.alts bs) st es → ∃ m w, .read m w ∈ es := by
    intro L st es hL h
    cases bs with
    | nil => exact absurd rfl hne
    | cons r bs =>
      cases h with
      | @altsCons _ _ _ _ e es k1 k2 k3 =>
        have hs : Between (⟨List.replicate (L - st.rest.length) 0 ++ st.rest, (L - st.rest.length : Nat), none, { Heap.empty with janus := st.jan }⟩ : Scanner)
            (List.replicate (L - st.rest.length) 0) st.rest := ⟨rfl, by simp⟩
        have hl : (List.replicate (L - st.rest.length) (0 : UInt8) ++ st.rest).length = L := by
          rw [List.length_append, List.length_replicate]; omega
        have hw := h2 r List.mem_cons_self
        obtain ⟨n, s', k4⟩ := C88_complete rt G hG _ hw _ _ _ hs e
          (blames_noWrap hG (fun r hr _ _ h => (outcome_iff hG hr).mpr h) hw (by rw [hl]; exact k1))
        obtain ⟨m, w, rfl⟩ := hread r List.mem_cons_self _ _ _ hs n e s' k4
        exact ⟨m, w, List.mem_cons_self⟩
  have key : ∀ {r : Reader}, r.Every (fun r => r.noWrap = true) → ∀ {s : Scanner} {h t : Bytes}, Between s h t → ∀ {e},
      (∃ n s', read rt G n r s = .ret (some e, s')) ↔ Blames rt G (E rt G) (h ++ t).length (.read r) ⟨t, s.heap.janus⟩ [e] := by
    intro r hr s h t hs e
    constructor
    · rintro ⟨n, s', h1⟩
      exact blames_noWrap hG (fun r hr _ _ h => (outcome_iff hG hr).mp h) hr (C88_error rt G hG _ hr _ _ _ hs n _ s' h1)
    · exact fun h1 => C88_complete rt G hG _ hr _ _ _ hs _ (blames_noWrap hG (fun r hr _ _ h => (outcome_iff hG hr).mpr h) hr h1)
  intro s h t hs e
  rw [key w1 hs, key w2 hs, blames_any, blames_any]
  have hL : t.length ≤ (h ++ t).length := by rw [List.length_append]; omega
  generalize (h ++ t).length = L at hL
  constructor
  · rintro ⟨es, k1, k2⟩
    obtain ⟨es1, m, es2, k3, k4, k5, rfl⟩ := (blames_altsAppend as).mp k1
    cases k5 with
    | @altsCons _ _ _ m2 f gs k6 k7 k8 =>
      obtain ⟨fs, k9, k10⟩ := blames_any.mp k6
      have hm : m.rest.length ≤ L := by
        have := (eAny_suffix k4).length_le
        simp only at this
        omega
      refine ⟨es1 ++ (fs ++ gs), (blames_altsAppend as).mpr ⟨es1, m, fs ++ gs, k3, k4, (blames_altsAppend bs).mpr ⟨fs, m2, gs, k9, (eAny_any hback).mp k7, k8, rfl⟩, rfl⟩, ?_⟩
      exact (deepest_inner k10 (hone L m fs hm k9)).mp k2
  · rintro ⟨es, k1, k2⟩
    obtain ⟨es1, m, es2, k3, k4, k5, rfl⟩ := (blames_altsAppend as).mp k1
    obtain ⟨fs, m2, gs, k6, k7, k8, rfl⟩ := (blames_altsAppend bs).mp k5
    have hm : m.rest.length ≤ L := by
      have := (eAny_suffix k4).length_le
      simp only at this
      omega
    have k9 := deepest_furthest fs
    refine ⟨_, (blames_altsAppend as).mpr ⟨es1, m, _, k3, k4, .altsCons (blames_any.mpr ⟨fs, k6, k9⟩) ((eAny_any hback).mpr k7) k8, rfl⟩, ?_⟩
    exact (deepest_inner k9 (hone L m fs hm k6)).mpr k2

/-- Otherwise not: a choice of invalid readers has an error without a name at the beginning of the text, which takes the place of that of a member in front of it. -/
theorem C83_error_any_flat_violated : ¬ SameError exRt [] (.any ([.rune 97] ++ .any [.invalid b!"x"] :: [])) (.any ([.rune 97] ++ ([.invalid b!"x"] ++ []))) := fun h => by
  obtain ⟨n, s', h1⟩ := (h (Scanner.new b!"b" Heap.empty) [] b!"b" ⟨rfl, rfl⟩ (.read 0 b!"'a'")).mpr ⟨9, _, rfl⟩
  have h2 := read_det h1 (y := (some (.read 0 []), _)) (m := 9) rfl
  cases h2

/-- The order of the members matters for the error, even if they exclude each other: of two errors at the same place it is the last one. -/
theorem C83_error_order_violated : ¬ SameError exRt [] (.any [.rune 97, .rune 98]) (.any [.rune 98, .rune 97]) := fun h => by
  obtain ⟨n, s', h1⟩ := (h (Scanner.new b!"c" Heap.empty) [] b!"c" ⟨rfl, rfl⟩ (.read 0 b!"'a'")).mpr ⟨9, _, rfl⟩
  have h2 := read_det h1 (y := (some (.read 0 b!"'b'"), _)) (m := 9) rfl
  cases h2

/-- Otherwise not: the message of an invalid reader is lost. -/
theorem C83_error_any_one_violated : ¬ SameError exRt [] (.any [.invalid b!"x"]) (.invalid b!"x") := fun h => by
  obtain ⟨n, s', h1⟩ := (h (Scanner.new b!"a" Heap.empty) [] b!"a" ⟨rfl, rfl⟩ (.other b!"INVALID-READER: x")).mpr ⟨1, _, rfl⟩
  cases n with
  | zero => cases h1
  | succ n =>
    cases n with
    | zero => cases h1
    | succ n => cases h1

/-- A choice inside a choice: what is missing furthest in the text. -/
example : errAfter (read exRt [] 20 (.any [.lit b!"xy", .any [.seq [.rune 97, .rune 98], .seq [.rune 97, .rune 99]], .rune 97]) (Scanner.new b!"ad" Heap.empty)) = none ∧
  errAfter (read exRt [] 20 (.any [.lit b!"xy", .any [.seq [.rune 97, .rune 98], .seq [.rune 97, .rune 99]], .rune 98]) (Scanner.new b!"ad" Heap.empty)) = some (.read 1 b!"'c'") ∧
  errAfter (read exRt [] 20 (.any [.lit b!"xy", .seq [.rune 97, .rune 98], .seq [.rune 97, .rune 99], .rune 98]) (Scanner.new b!"ad" Heap.empty)) = some (.read 1 b!"'c'") := ⟨rfl, rfl, rfl⟩

/-- `exBlame` with its parts exchanged by these laws: the same error. -/
example : errAfter (read exRt [] 20 (.skipSeq (.zom (.rune 32)) [.rune 97, .seq [.rune 98, .times 2 (.rune 99)]]) (Scanner.new b!"a bcd" Heap.empty)) =
    some (.read 4 b!"'c'") ∧
  errAfter (read exRt [] 20 (.seq [.zom (.rune 32), .rune 97, .zom (.rune 32), .rune 98, .rune 99, .rune 99, .zom (.rune 32)]) (Scanner.new b!"a bcd" Heap.empty)) =
    some (.read 4 b!"'c'") := ⟨rfl, rfl⟩

end Tok
