/-
The errors of reads are those of the rules of `Spec.Blame`.
-/
import Verif.Spec.Blame
import Verif.Props.C37
import Verif.Props.C87

namespace Tok
open Spec

/-! ### the deepest error -/

/-- A read error is not before the beginning of the text. -/
def Err.Pos (e : Err) : Prop := ∀ m w, e = .read m w → 0 ≤ m

theorem getDeepest_from : ∀ (es : List Err) (m : Int) (w : Bytes),
    (∃ pre m' w' post, es = pre ++ .read m' w' :: post ∧ getDeepest (m, w) es = .read m' w' ∧ m ≤ m' ∧ (∀ k v, .read k v ∈ pre → k ≤ m') ∧
      ∀ k v, .read k v ∈ post → k < m') ∨
    (∀ k v, .read k v ∈ es → k < m) ∧ getDeepest (m, w) es = .read m w
  | [], m, w => .inr ⟨(fun _ _ h => by cases h), rfl⟩
  | .other t :: es, m, w => by
    rcases getDeepest_from es m w with ⟨pre, m', w', post, h1, h2, h3, h4, h5⟩ | ⟨h1, h2⟩
    · refine .inl ⟨.other t :: pre, m', w', post, by rw [h1]; rfl, h2, h3, fun k v h => ?_, h5⟩
      rcases List.mem_cons.mp h with h | h
      · cases h
      · exact h4 k v h
    · refine .inr ⟨fun k v h => ?_, h2⟩
      rcases List.mem_cons.mp h with h | h
      · cases h
      · exact h1 k v h
  | .read k v :: es, m, w => by
    unfold getDeepest
    by_cases hk : k ≥ m
    · rw [if_pos hk]
      rcases getDeepest_from es k v with ⟨pre, m', w', post, h1, h2, h3, h4, h5⟩ | ⟨h1, h2⟩
      · refine .inl ⟨.read k v :: pre, m', w', post, by rw [h1]; rfl, h2, by omega, fun k' v' h => ?_, h5⟩
        rcases List.mem_cons.mp h with h | h
        · cases h; exact h3
        · exact h4 k' v' h
      · exact .inl ⟨[], k, v, es, rfl, h2, hk, (fun _ _ h => by cases h), h1⟩
    · rw [if_neg hk]
      rcases getDeepest_from es m w with ⟨pre, m', w', post, h1, h2, h3, h4, h5⟩ | ⟨h1, h2⟩
      · refine .inl ⟨.read k v :: pre, m', w', post, by rw [h1]; rfl, h2, h3, fun k' v' h => ?_, h5⟩
        rcases List.mem_cons.mp h with h | h
        · cases h; omega
        · exact h4 k' v' h
      · refine .inr ⟨fun k' v' h => ?_, h2⟩
        rcases List.mem_cons.mp h with h | h
        · cases h; omega
        · exact h1 k' v' h

theorem getDeepest_deepest {es : List Err} (h : ∀ e ∈ es, e.Pos) : Deepest es (getDeepest (0, []) es) := by
  rcases getDeepest_from es 0 [] with ⟨pre, m', w', post, h1, h2, h3, h4, h5⟩ | ⟨h1, h2⟩
  · exact .inl ⟨pre, m', w', post, h1, h2, h4, h5⟩
  · refine .inr ⟨fun m w hm => ?_, h2⟩
    have := h1 m w hm
    have := h _ hm m w rfl
    omega

theorem getDeepest_pos {es : List Err} : (getDeepest (0, []) es).Pos := by
  intro m w hm
  rcases getDeepest_from es 0 [] with ⟨pre, m', w', post, h1, h2, h3, h4, h5⟩ | ⟨h1, h2⟩
  · rw [h2] at hm; cases hm; exact h3
  · rw [h2] at hm; cases hm; exact Int.le_refl _

theorem deepest_unique {es : List Err} {e e' : Err} (h : Deepest es e) (h' : Deepest es e') : e = e' := by
  rcases h with ⟨pre, m, w, post, h1, h2, h3, h4⟩ | ⟨h1, h2⟩
  · rcases h' with ⟨pre', m', w', post', k1, k2, k3, k4⟩ | ⟨k1, k2⟩
    · rw [h2, k2]
      rw [h1] at k1
      rcases List.append_eq_append_iff.mp k1 with ⟨l, e1, e2⟩ | ⟨l, e1, e2⟩
      · cases l with
        | nil => cases e2; rfl
        | cons x l =>
          cases e2
          have a := h4 m' w' (by simp)
          have b := k3 m w (by rw [e1]; simp)
          omega
      · cases l with
        | nil => cases e2; rfl
        | cons x l =>
          cases e2
          have a := k4 m w (by simp)
          have b := h3 m' w' (by rw [e1]; simp)
          omega
    · exact absurd (by rw [h1]; simp) (k1 m w)
  · rcases h' with ⟨pre', m', w', post', k1, k2, k3, k4⟩ | ⟨k1, k2⟩
    · exact absurd (by rw [k1]; simp) (h1 m' w')
    · rw [h2, k2]

/-! ### readers with an error of their own -/

theorem bool_complaint {s : Scanner} {f : Bytes} {v : Bool} {e : Err} {s' : Scanner} (h : s.readBool f = .ret ((v, some e), s')) :
    e = if f ∈ [b!"", b!"*", b!"l", b!"U", b!"Cc"] then .read s'.pos b!"bool" else .other b!"invalid format" := by
  have key : ∀ (A : Exec (Bool × Scanner)) (B : Scanner → Exec (Bool × Scanner)),
      (A >>= fun a => if a.1 then pure ((true, none), a.2) else B a.2 >>= fun b =>
        if b.1 then pure ((false, none), b.2) else pure ((false, some (b.2.errorFor b!"bool")), b.2)) = .ret ((v, some e), s') →
      e = .read s'.pos b!"bool" := fun A B h => by
    obtain ⟨⟨ok, s1⟩, _, h⟩ := Exec.bind_eq_ret.mp h
    cases ok
    · simp only [Bool.false_eq_true, if_false] at h
      obtain ⟨⟨ok, s1⟩, _, h⟩ := Exec.bind_eq_ret.mp h
      cases ok
      · simp only [Bool.false_eq_true, if_false, Exec.pure_eq, Exec.ret.injEq, Prod.mk.injEq, Option.some.injEq, Scanner.errorFor] at h
        rw [← h.1.2, ← h.2]; rfl
      · simp at h
    · simp at h
  split
  next hf =>
    simp only [List.mem_cons, List.not_mem_nil, or_false] at hf
    rcases hf with rfl | rfl | rfl | rfl | rfl
    · exact key (s.ifAny [b!"true", b!"True", b!"TRUE"]) (fun s => s.ifAny [b!"false", b!"False", b!"FALSE"]) h
    · exact key (s.ifAny [b!"true", b!"True", b!"TRUE"]) (fun s => s.ifAny [b!"false", b!"False", b!"FALSE"]) h
    · exact key (s.ifStr b!"true") (fun s => s.ifStr b!"false") h
    · exact key (s.ifStr b!"TRUE") (fun s => s.ifStr b!"FALSE") h
    · exact key (s.ifStr b!"True") (fun s => s.ifStr b!"False") h
  next hf =>
    simp only [List.mem_cons, List.not_mem_nil, or_false, not_or] at hf
    obtain ⟨h1, h2, h3, h4, h5⟩ := hf
    unfold Scanner.readBool at h
    rw [if_neg (by simp [h1, h2])] at h
    simp only [beq_iff_eq, h3, h4, h5, if_false] at h
    cases h
    rfl

theorem charFunc_iff (b : Int) : (b ∈ [8, 10, 16] ∧ ∃ cf, charFunc b = some cf) ∨ (b ∉ ([8, 10, 16] : List Int) ∧ charFunc b = none) := by
  unfold charFunc
  by_cases h1 : b = 8
  · subst h1; exact .inl ⟨by simp, _, rfl⟩
  by_cases h2 : b = 10
  · subst h2; exact .inl ⟨by simp, _, rfl⟩
  by_cases h3 : b = 16
  · subst h3; exact .inl ⟨by simp, _, rfl⟩
  · exact .inr ⟨by simp [h1, h2, h3], by simp [h1, h2, h3]⟩

theorem intBounds_iff (z : Int) : (z ∈ [8, 16, 32, 64] ∧ ∃ b, intBounds z = some b) ∨ (z ∉ ([8, 16, 32, 64] : List Int) ∧ intBounds z = none) := by
  unfold intBounds
  by_cases h1 : z = 8
  · subst h1; exact .inl ⟨by simp, _, rfl⟩
  by_cases h2 : z = 16
  · subst h2; exact .inl ⟨by simp, _, rfl⟩
  by_cases h3 : z = 32
  · subst h3; exact .inl ⟨by simp, _, rfl⟩
  by_cases h4 : z = 64
  · subst h4; exact .inl ⟨by simp, _, rfl⟩
  · exact .inr ⟨by simp [h1, h2, h3, h4], by simp [h1, h2, h3, h4]⟩

theorem uintMax_iff (z : Int) : (z ∈ [8, 16, 32, 64] ∧ ∃ b, uintMax z = some b) ∨ (z ∉ ([8, 16, 32, 64] : List Int) ∧ uintMax z = none) := by
  unfold uintMax
  by_cases h1 : z = 8
  · subst h1; exact .inl ⟨by simp, _, rfl⟩
  by_cases h2 : z = 16
  · subst h2; exact .inl ⟨by simp, _, rfl⟩
  by_cases h3 : z = 32
  · subst h3; exact .inl ⟨by simp, _, rfl⟩
  by_cases h4 : z = 64
  · subst h4; exact .inl ⟨by simp, _, rfl⟩
  · exact .inr ⟨by simp [h1, h2, h3, h4], by simp [h1, h2, h3, h4]⟩

theorem int_complaint {s : Scanner} {b z : Int} {v : Int} {e : Err} {s' : Scanner} (h : s.readInt b z = .ret ((v, some e), s')) :
    e = if b ∉ ([8, 10, 16] : List Int) then .other (b!"invalid base value " ++ itoa b) else
      if z ∉ ([8, 16, 32, 64] : List Int) then .other (b!"invalid bitSize value " ++ itoa z) else .read s'.pos b!"integer" := by
  unfold Scanner.readInt at h
  rcases charFunc_iff b with ⟨hb, cf, h1⟩ | ⟨hb, h1⟩
  · rw [if_neg (fun h => h hb)]
    rcases intBounds_iff z with ⟨hz, ⟨lo, hi⟩, h2⟩ | ⟨hz, h2⟩
    · rw [if_neg (fun h => h hz)]
      simp only [h1, h2] at h
      obtain ⟨⟨m, s1⟩, _, h⟩ := Exec.bind_eq_ret.mp h
      have key : ∀ s2 : Scanner, (do
          let t ← s2.tail
          let (i64, n) := intLoop cf b lo hi m (rangeStr t) 0 (-1)
          if n = -1 then
            let s := (s2.toMarker s.pos).2
            pure ((0, some (s.errorFor b!"integer")), s)
          else pure ((i64, none), (s2.move (n + 1)).2)) = .ret ((v, some e), s') → e = .read s'.pos b!"integer" := fun s2 h => by
        obtain ⟨t, _, h⟩ := Exec.bind_eq_ret.mp h
        simp only at h
        split at h
        · simp only [Exec.pure_eq, Exec.ret.injEq, Prod.mk.injEq, Option.some.injEq, Scanner.errorFor] at h
          rw [← h.1.2, ← h.2]; rfl
        · simp at h
      cases m
      · obtain ⟨⟨m', s2⟩, _, h⟩ := Exec.bind_eq_ret.mp h
        exact key s2 h
      · exact key s1 h
    · rw [if_pos hz]
      simp only [h1, h2] at h
      cases h
      rfl
  · rw [if_pos hb]
    simp only [h1] at h
    cases h
    rfl

theorem uint_complaint {s : Scanner} {b z : Int} {v : Nat} {e : Err} {s' : Scanner} (h : s.readUint b z = .ret ((v, some e), s')) :
    e = if b ∉ ([8, 10, 16] : List Int) then .other (b!"invalid base value " ++ itoa b) else
      if z ∉ ([8, 16, 32, 64] : List Int) then .other (b!"invalid bitSize value " ++ itoa z) else .read s'.pos b!"unsigned integer" := by
  unfold Scanner.readUint at h
  rcases charFunc_iff b with ⟨hb, cf, h1⟩ | ⟨hb, h1⟩
  · rw [if_neg (fun h => h hb)]
    rcases uintMax_iff z with ⟨hz, hi, h2⟩ | ⟨hz, h2⟩
    · rw [if_neg (fun h => h hz)]
      simp only [h1, h2] at h
      obtain ⟨t, _, h⟩ := Exec.bind_eq_ret.mp h
      split at h
      · simp only [Exec.pure_eq, Exec.ret.injEq, Prod.mk.injEq, Option.some.injEq, Scanner.errorFor] at h
        rw [← h.1.2, ← h.2]; rfl
      · simp at h
    · rw [if_pos hz]
      simp only [h1, h2] at h
      cases h
      rfl
  · rw [if_pos hb]
    simp only [h1] at h
    cases h
    rfl

theorem own_complaint {rt : Rt} {G : Env} {r : Reader} (hr : r.owns = true) {n : Nat} {s s' : Scanner} {e : Err} (h : read rt G n r s = .ret (some e, s')) :
    e = complaint rt G s.heap.janus s'.pos r := by
  cases n with
  | zero => cases h
  | succ n =>
  have bad : ∀ {s2 : Scanner} {w : Bytes}, (.ret (some (s2.errorFor w), s2) : Exec (Option Err × Scanner)) = .ret (some e, s') →
      e = .read s'.pos w := fun he => by cases he; rfl
  cases r with
  | anyRune str => exact err_ifFalse h
  | atEnd => exact err_ifFalse (x := pure (s.atEnd, s)) h
  | between a b => exact err_ifFalse h
  | betweenAny l str =>
    simp only [read] at h
    obtain ⟨⟨ok, s1⟩, _, h⟩ := Exec.bind_eq_ret.mp h
    cases ok
    · simp only [Bool.false_eq_true, if_false] at h
      obtain ⟨⟨ok, s2⟩, _, h⟩ := Exec.bind_eq_ret.mp h
      cases ok
      · exact bad h
      · simp at h
    · simp at h
  | body b t =>
    simp only [read] at h
    obtain ⟨⟨res, s1⟩, _, h⟩ := Exec.bind_eq_ret.mp h
    cases res with
    | none => exact bad h
    | some p => simp at h
  | bodyTail b t =>
    simp only [read] at h
    obtain ⟨⟨res, s1⟩, _, h⟩ := Exec.bind_eq_ret.mp h
    cases res with
    | none => exact bad h
    | some p => simp at h
  | bool c f =>
    simp only [read] at h
    obtain ⟨⟨⟨v, err⟩, s1⟩, h1, h⟩ := Exec.bind_eq_ret.mp h
    cases h
    have := bool_complaint h1
    exact this
  | fold v => exact err_ifFalse h
  | holey a b hs =>
    simp only [read] at h
    obtain ⟨t, _, h⟩ := Exec.bind_eq_ret.mp h
    split at h
    · exact err_ifFalse (x := pure _) h
    · exact bad h
  | int c b z =>
    simp only [read] at h
    obtain ⟨⟨⟨v, err⟩, s1⟩, h1, h⟩ := Exec.bind_eq_ret.mp h
    cases h
    have := int_complaint h1
    exact this
  | janusEnd i nm =>
    simp only [read] at h
    obtain ⟨⟨err, s1⟩, h1, h⟩ := Exec.bind_eq_ret.mp h
    cases err with
    | none => simp at h
    | some e' =>
      simp only [Option.isNone_some, Bool.false_eq_true, if_false] at h
      cases h
      exact err_ifFalse h1
  | invalid w => cases h; rfl
  | lit str => exact err_ifFalse h
  | many c =>
    simp only [read] at h
    obtain ⟨s1, _, h⟩ := Exec.bind_eq_ret.mp h
    exact err_ifFalse (x := pure (decide (s.mark < s1.mark), s1)) h
  | match_ w f => exact err_ifFalse h
  | not c =>
    simp only [read] at h
    obtain ⟨⟨err, s1⟩, _, h⟩ := Exec.bind_eq_ret.mp h
    cases err with
    | none => exact bad h
    | some e' =>
      simp only [Option.isNone_some, Bool.false_eq_true, if_false] at h
      obtain ⟨_, _, h⟩ := Exec.bind_eq_ret.mp h
      simp at h
  | opt c =>
    simp only [read] at h
    obtain ⟨_, _, h⟩ := Exec.bind_eq_ret.mp h
    simp at h
  | past c =>
    simp only [read] at h
    obtain ⟨⟨ok, s1⟩, _, h⟩ := Exec.bind_eq_ret.mp h
    cases ok
    · exact bad h
    · simp at h
  | rune c => exact err_ifFalse h
  | «to» c =>
    simp only [read] at h
    obtain ⟨⟨ok, s1⟩, _, h⟩ := Exec.bind_eq_ret.mp h
    cases ok
    · exact bad h
    · simp at h
  | uint c b z =>
    simp only [read] at h
    obtain ⟨⟨⟨v, err⟩, s1⟩, h1, h⟩ := Exec.bind_eq_ret.mp h
    cases h
    have := uint_complaint h1
    exact this
  | zom c =>
    simp only [read] at h
    obtain ⟨_, _, h⟩ := Exec.bind_eq_ret.mp h
    simp at h
  | ruleName c =>
    simp only [read] at h
    obtain ⟨⟨err, s1⟩, _, h⟩ := Exec.bind_eq_ret.mp h
    exact err_ifFalse (x := pure (err.isNone, s1)) h
  | _ => cases hr

theorem complaint_pos {rt : Rt} {G : Env} {j : Nat → Bytes} {p : Int} (hp : 0 ≤ p) (r : Reader) : (complaint rt G j p r).Pos := by
  intro m w h
  unfold complaint at h
  split at h <;> (try split at h) <;> (try split at h) <;> cases h <;> exact hp

/-! ### reads -/

section
variable {rt : Rt} {G : Env}

/-- What a read says if it fails. -/
def Says (rt : Rt) (G : Env) (r : Reader) (f : ReadFunc) : Prop :=
  ∀ s, Inside s → ∀ e s', f s = .ret (some e, s') → Blames rt G (E rt G) s.full.length (.read r) s.st [e] ∧ e.Pos

/-- What comes of a read. -/
def Gets' (rt : Rt) (G : Env) (r : Reader) (f : ReadFunc) : Prop :=
  ∀ s, Inside s → ∀ e s', f s = .ret (e, s') → E rt G r s.st (e.isNone, s'.st) ∧ Forward s s'

theorem fails_blames {f : Reader → ReadFunc} {rs : List Reader} {s s' : Scanner} {es : List Err} (h : Fails f rs s es s') :
    (∀ r ∈ rs, Says rt G r (f r)) → (∀ r ∈ rs, Gets' rt G r (f r)) → Inside s → Blames rt G (E rt G) s.full.length (.alts rs) s.st es ∧ ∀ e ∈ es, e.Pos := by
  induction h with
  | nil => exact fun _ _ _ => ⟨.altsNil, fun _ h => by cases h⟩
  | cons h1 _ ih =>
    intro hs hg hi
    obtain ⟨k1, k2⟩ := hs _ List.mem_cons_self _ hi _ _ h1
    obtain ⟨k3, k4⟩ := hg _ List.mem_cons_self _ hi _ _ h1
    obtain ⟨k5, k6⟩ := ih (fun r h => hs r (List.mem_cons_of_mem _ h)) (fun r h => hg r (List.mem_cons_of_mem _ h)) k4.1
    rw [k4.2.1] at k5
    refine ⟨.altsCons k1 k3 k5, fun e he => ?_⟩
    rcases List.mem_cons.mp he with rfl | he
    · exact k2
    · exact k6 e he

theorem seqLoop_says {f : Reader → ReadFunc} : ∀ (rs : List Reader), (∀ r ∈ rs, Says rt G r (f r)) → (∀ r ∈ rs, Gets' rt G r (f r)) →
    Says rt G (.seq rs) (seqLoop f rs)
  | [], _, _, s, hi, e, s', h => by cases h
  | r :: rs, hs, hg, s, hi, e, s', h => by
    unfold seqLoop at h
    obtain ⟨⟨e1, s1⟩, h1, h⟩ := Exec.bind_eq_ret.mp h
    cases e1 with
    | some e1 =>
      cases h
      obtain ⟨k1, k2⟩ := hs _ List.mem_cons_self _ hi _ _ h1
      exact ⟨.seqFail k1, k2⟩
    | none =>
      obtain ⟨k3, k4⟩ := hg _ List.mem_cons_self _ hi _ _ h1
      obtain ⟨k5, k6⟩ := seqLoop_says rs (fun r h => hs r (List.mem_cons_of_mem _ h)) (fun r h => hg r (List.mem_cons_of_mem _ h)) s1 k4.1 e s' h
      rw [k4.2.1] at k5
      exact ⟨.seqCons k3 k5, k6⟩

theorem skipSeqLoop_says {f : Reader → ReadFunc} {sk : Reader} (hsk : Says rt G sk (f sk)) (hgk : Gets' rt G sk (f sk)) : ∀ (rs : List Reader),
    (∀ r ∈ rs, Says rt G r (f r)) → (∀ r ∈ rs, Gets' rt G r (f r)) → ∀ s s1 : Scanner, Inside s → E rt G sk s.st (true, s1.st) → Forward s s1 →
    ∀ e s', skipSeqLoop f sk rs s1 = .ret (some e, s') → Blames rt G (E rt G) s.full.length (.read (.skipSeq sk rs)) s.st [e] ∧ e.Pos
  | [], _, _, s, s1, hi, _, _, e, s', h => by cases h
  | r :: rs, hs, hg, s, s1, hi, hk, hf, e, s', h => by
    unfold skipSeqLoop at h
    obtain ⟨⟨e1, s2⟩, h1, h⟩ := Exec.bind_eq_ret.mp h
    cases e1 with
    | some e1 =>
      cases h
      obtain ⟨k1, k2⟩ := hs _ List.mem_cons_self _ hf.1 _ _ h1
      rw [hf.2.1] at k1
      exact ⟨.skipStop hk k1, k2⟩
    | none =>
      obtain ⟨k3, k4⟩ := hg _ List.mem_cons_self _ hf.1 _ _ h1
      obtain ⟨⟨e3, s3⟩, h3, h⟩ := Exec.bind_eq_ret.mp h
      have hf2 := hf.trans k4
      cases e3 with
      | some e3 =>
        cases h
        obtain ⟨k5, k6⟩ := hsk _ k4.1 _ _ h3
        rw [hf2.2.1] at k5
        exact ⟨.skipCons hk k3 (.skipFail k5), k6⟩
      | none =>
        obtain ⟨k7, k8⟩ := hgk _ k4.1 _ _ h3
        obtain ⟨k5, k6⟩ := skipSeqLoop_says hsk hgk rs (fun r h => hs r (List.mem_cons_of_mem _ h)) (fun r h => hg r (List.mem_cons_of_mem _ h)) s2 s3 k4.1 k7 k8 e s' h
        rw [hf2.2.1] at k5
        exact ⟨.skipCons hk k3 k5, k6⟩

theorem timesLoop_says {f : ReadFunc} {c : Reader} (hs : Says rt G c f) (hg : Gets' rt G c f) : ∀ k : Nat, Says rt G (.times k c) (timesLoop f k)
  | 0, s, hi, e, s', h => by cases h
  | k + 1, s, hi, e, s', h => by
    unfold timesLoop at h
    obtain ⟨⟨e1, s1⟩, h1, h⟩ := Exec.bind_eq_ret.mp h
    cases e1 with
    | some e1 =>
      cases h
      obtain ⟨k1, k2⟩ := hs _ hi _ _ h1
      exact ⟨.timesFail (by omega) k1, k2⟩
    | none =>
      obtain ⟨k3, k4⟩ := hg _ hi _ _ h1
      obtain ⟨k5, k6⟩ := timesLoop_says hs hg k s1 k4.1 e s' h
      rw [k4.2.1] at k5
      exact ⟨.timesCons (by omega) k3 k5, k6⟩

theorem read_gets (rt : Rt) (G : Env) (hG : G.Every (fun r => r.noWrap = true)) (n : Nat) (r : Reader) (hr : r.Every (fun r => r.noWrap = true)) :
    Gets' rt G r (read rt G n r) := fun s hs e s' h => by
  obtain ⟨es, h1, h2⟩ := read_does rt G hG n r hr s hs _ h
  exact ⟨trace_sound h1, h2.fwd⟩

/-- Every error follows the rules. -/
theorem read_says (rt : Rt) (G : Env) (hG : G.Every (fun r => r.noWrap = true)) : ∀ n r, r.Every (fun r => r.noWrap = true) → Says rt G r (read rt G n r)
  | 0, _, _, _, _, _, _, h => by cases h
  | n + 1, r, hr, s, hs, e, s', h => by
    have ih := fun c hc => read_says rt G hG n c hc
    have sub : ∀ c ∈ r.subs, Says rt G c (read rt G n c) := fun c hc => ih c (hr.sub hc)
    have got : ∀ c ∈ r.subs, Gets' rt G c (read rt G n c) := fun c hc => read_gets rt G hG n c (hr.sub hc)
    by_cases ho : r.owns = true
    · obtain ⟨k1, k2⟩ := read_gets rt G hG (n + 1) r hr s hs _ _ h
      have k3 := own_complaint ho h
      have k4 := inside_spot k2.1
      rw [k2.2.1] at k4
      have := k2.1.1
      refine ⟨?_, k3 ▸ complaint_pos this r⟩
      rw [k3, k4]
      exact .self ho k1
    have one : ∀ c, r.subs = [c] → Says rt G c (read rt G n c) := fun c hc => sub c (by rw [hc]; exact List.mem_cons_self)
    have tok : ∀ c, r.subs = [c] → ∀ {t e1 s1}, s.tokenizeUse (read rt G n c) = .ret ((t, some e1), s1) →
        Blames rt G (E rt G) s.full.length (.read c) s.st [e1] ∧ e1.Pos := by
      intro c hc t e1 s1 ha
      unfold Scanner.tokenizeUse at ha
      obtain ⟨⟨err', s2⟩, ha', hb'⟩ := Exec.bind_eq_ret.mp ha
      simp only [Exec.pure_eq, Exec.ret.injEq, Prod.mk.injEq] at hb'
      obtain ⟨⟨rfl, rfl⟩, rfl⟩ := hb'
      exact one c hc s hs _ _ ha'
    cases r with
    | any rs =>
      simp only [read] at h
      obtain ⟨⟨errs, s1⟩, ha, hb⟩ := Exec.bind_eq_ret.mp h
      cases errs with
      | none => simp at hb
      | some es =>
        obtain ⟨es', he, hf⟩ := anyLoop_fails ha
        simp only [List.nil_append] at he
        subst he
        cases hb
        obtain ⟨k1, k2⟩ := fails_blames hf sub got hs
        exact ⟨.any k1 (getDeepest_deepest k2), getDeepest_pos⟩
    | at_ c =>
      simp only [read] at h
      obtain ⟨⟨e1, s1⟩, ha, hb⟩ := Exec.bind_eq_ret.mp h
      cases hb
      obtain ⟨k1, k2⟩ := one c rfl s hs _ _ ha
      exact ⟨.at_ k1, k2⟩
    | seq rs =>
      simp only [read] at h
      obtain ⟨⟨e1, s1⟩, ha, hb⟩ := Exec.bind_eq_ret.mp h
      cases e1 with
      | none => simp at hb
      | some e1 =>
        simp only [Option.isSome_some, if_true] at hb
        cases hb
        exact seqLoop_says rs sub got s hs _ _ ha
    | skipSeq sk rs =>
      simp only [read] at h
      obtain ⟨⟨e1, s1⟩, ha, hb⟩ := Exec.bind_eq_ret.mp h
      have hk := sub sk (by simp [Reader.subs])
      have hg := got sk (by simp [Reader.subs])
      cases e1 with
      | some e1 =>
        simp only [Option.isSome_some, if_true, Exec.pure_eq, Exec.bind_ret] at hb
        cases hb
        obtain ⟨k1, k2⟩ := hk s hs _ _ ha
        exact ⟨.skipFail k1, k2⟩
      | none =>
        simp only [Option.isSome_none, Bool.false_eq_true, if_false] at hb
        obtain ⟨⟨e2, s2⟩, hb', hc⟩ := Exec.bind_eq_ret.mp hb
        cases e2 with
        | none => simp at hc
        | some e2 =>
          simp only [Option.isSome_some, if_true] at hc
          cases hc
          obtain ⟨k1, k2⟩ := hg s hs _ _ ha
          exact skipSeqLoop_says hk hg rs (fun r h => sub r (by simp [Reader.subs, h])) (fun r h => got r (by simp [Reader.subs, h])) s s1 hs k1 k2 _ _ hb'
    | times k c =>
      simp only [read] at h
      by_cases hk : 0 ≤ k
      · have := timesLoop_says (one c rfl) (got c (by simp [Reader.subs])) k.toNat s hs e s' h
        rw [show ((k.toNat : Nat) : Int) = k by omega] at this
        exact this
      · rw [show k.toNat = 0 by omega] at h
        cases h
    | janusBegin id nm c =>
      simp only [read] at h
      obtain ⟨⟨⟨t, err⟩, s1⟩, ha, hb⟩ := Exec.bind_eq_ret.mp h
      cases err with
      | none =>
        obtain ⟨_, _, hb⟩ := Exec.bind_eq_ret.mp hb
        cases hb
      | some e1 =>
        cases hb
        obtain ⟨k1, k2⟩ := tok c rfl ha
        exact ⟨.janusBegin k1, k2⟩
    | map f c =>
      simp only [read] at h
      obtain ⟨⟨⟨t, err⟩, s1⟩, ha, hb⟩ := Exec.bind_eq_ret.mp h
      cases err with
      | none =>
        cases hb
      | some e1 =>
        cases hb
        obtain ⟨k1, k2⟩ := tok c rfl ha
        exact ⟨.map k1, k2⟩
    | pick info b c =>
      simp only [read] at h
      obtain ⟨⟨⟨t, err⟩, s1⟩, ha, hb⟩ := Exec.bind_eq_ret.mp h
      cases err with
      | none =>
        cases hb
      | some e1 =>
        cases hb
        obtain ⟨k1, k2⟩ := tok c rfl ha
        exact ⟨.pick k1, k2⟩
    | monitor info l c =>
      simp only [read] at h
      obtain ⟨⟨e1, s1⟩, ha, hb⟩ := Exec.bind_eq_ret.mp h
      cases hb
      obtain ⟨k1, k2⟩ := one c rfl (s.enterLog rt info l) hs _ _ ha
      exact ⟨.monitor k1, k2⟩
    | named nm c =>
      obtain ⟨k1, k2⟩ := one c rfl s hs _ _ h
      exact ⟨.named k1, k2⟩
    | rule i =>
      simp only [read] at h
      rcases hi : G[i]? with _ | ⟨nm, _ | c⟩ <;> simp only [hi] at h
      · cases h
      · cases h
      · obtain ⟨k1, k2⟩ := ih c (hG.get hi) s hs _ _ h
        exact ⟨.rule hi k1, k2⟩
    | grammar w c =>
      simp only [read] at h
      obtain ⟨⟨e1, s1⟩, ha, hb⟩ := Exec.bind_eq_ret.mp h
      cases e1 with
      | none => cases hb
      | some e1 =>
        cases hb
        obtain ⟨k1, k2⟩ := one c rfl s hs _ _ ha
        exact ⟨.grammar k1, fun m w h => by cases h⟩
    | wrap w f => exact absurd hr.here (by simp [Reader.noWrap])
    | _ => exact absurd rfl ho

end

end Tok
