/-
C37 Error reporting.
-/
import Verif.Props.C32

namespace Tok
open Spec

/-- A `ReadError` with a position in the given range. -/
def Err.Within (lo hi : Int) (e : Err) : Prop := ∃ m w, e = .read m w ∧ lo ≤ m ∧ m ≤ hi

/-- The errors of a read function are `ReadError`s with a position between the start of the read and the
end of the text. -/
def Located (f : ReadFunc) : Prop := ∀ s, Inside s → ∀ e s', f s = .ret (some e, s') → e.Within s.pos s.full.length

/-- What C37 needs at one reader of an expression: no invalid reader or value reader with an
invalid format, base or size, no `Any` without alternatives, no grammar inside (its error is a
text); the function of a `Wrap` has to locate its errors itself. -/
def Reader.located : Reader → Prop
  | .any rs => rs ≠ []
  | .bool _ f => f ∈ [b!"", b!"*", b!"l", b!"U", b!"Cc"]
  | .int _ base bits => base ∈ [8, 10, 16] ∧ bits ∈ [8, 16, 32, 64]
  | .uint _ base bits => base ∈ [8, 10, 16] ∧ bits ∈ [8, 16, 32, 64]
  | .invalid _ => False
  | .grammar _ _ => False
  | .wrap _ f => Located f
  | _ => True

/-- The error names the position where the read function left the scanner. -/
def ErrHere (f : ReadFunc) : Prop := ∀ s e s', f s = .ret (some e, s') → ∃ w, e = .read s'.pos w

theorem ErrHere.located {f : ReadFunc} (h : ErrHere f) (hs : Safe True f) : Located f := fun s hi e s' he => by
  obtain ⟨w, hw⟩ := h s e s' he
  obtain ⟨h1, h2, h3⟩ := (hs s hi).2 _ he
  have := h1.2
  rw [h2] at this
  exact ⟨_, w, hw, h3, this⟩

theorem err_ifFalse {w : Bytes} {x : Exec (Bool × Scanner)} {e : Err} {s' : Scanner} (h : ifFalse w x = .ret (some e, s')) :
    e = .read s'.pos w := by
  obtain ⟨⟨ok, s1⟩, _, hb⟩ := Exec.bind_eq_ret.mp h
  cases ok
  · simp only [Scanner.errorIfFalse, Exec.pure_eq, Exec.ret.injEq, Prod.mk.injEq] at hb
    obtain ⟨h1, rfl⟩ := hb
    cases h1; rfl
  · simp [Scanner.errorIfFalse] at hb

theorem Err.Within.mono {lo lo' hi : Int} {e : Err} (h : e.Within lo hi) (hl : lo' ≤ lo) : e.Within lo' hi := by
  obtain ⟨m, w, h1, h2, h3⟩ := h
  exact ⟨m, w, h1, by omega, h3⟩

theorem Located.from {f : ReadFunc} (h : Located f) {s s1 : Scanner} (hf : Forward s s1) {e : Err} {s' : Scanner}
    (he : f s1 = .ret (some e, s')) : e.Within s.pos s.full.length := by
  have := h s1 hf.1 e s' he
  rw [hf.2.1] at this
  exact this.mono hf.2.2

theorem readBool_err {s : Scanner} {f : Bytes} (hf : f ∈ [b!"", b!"*", b!"l", b!"U", b!"Cc"]) {v : Bool} {e : Err} {s' : Scanner}
    (h : s.readBool f = .ret ((v, some e), s')) : ∃ w, e = .read s'.pos w := by
  have key : ∀ (A : Exec (Bool × Scanner)) (B : Scanner → Exec (Bool × Scanner)),
      (A >>= fun a => if a.1 then pure ((true, none), a.2) else B a.2 >>= fun b =>
        if b.1 then pure ((false, none), b.2) else pure ((false, some (b.2.errorFor b!"bool")), b.2)) = .ret ((v, some e), s') →
      ∃ w, e = .read s'.pos w := fun A B h => by
    obtain ⟨⟨ok, s1⟩, _, h⟩ := Exec.bind_eq_ret.mp h
    cases ok
    · simp only [Bool.false_eq_true, if_false] at h
      obtain ⟨⟨ok, s1⟩, _, h⟩ := Exec.bind_eq_ret.mp h
      cases ok
      · simp only [Bool.false_eq_true, if_false, Exec.pure_eq, Exec.ret.injEq, Prod.mk.injEq, Option.some.injEq, Scanner.errorFor] at h
        exact ⟨_, by rw [← h.1.2, ← h.2]; rfl⟩
      · simp at h
    · simp at h
  simp only [List.mem_cons, List.not_mem_nil, or_false] at hf
  rcases hf with rfl | rfl | rfl | rfl | rfl
  · exact key (s.ifAny [b!"true", b!"True", b!"TRUE"]) (fun s => s.ifAny [b!"false", b!"False", b!"FALSE"]) h
  · exact key (s.ifAny [b!"true", b!"True", b!"TRUE"]) (fun s => s.ifAny [b!"false", b!"False", b!"FALSE"]) h
  · exact key (s.ifStr b!"true") (fun s => s.ifStr b!"false") h
  · exact key (s.ifStr b!"TRUE") (fun s => s.ifStr b!"FALSE") h
  · exact key (s.ifStr b!"True") (fun s => s.ifStr b!"False") h

theorem readInt_err {s : Scanner} {base bits : Int} (hb : base ∈ [8, 10, 16]) (hz : bits ∈ [8, 16, 32, 64]) {v : Int} {e : Err} {s' : Scanner}
    (h : s.readInt base bits = .ret ((v, some e), s')) : ∃ w, e = .read s'.pos w := by
  have h1 : ∃ cf, charFunc base = some cf := by
    simp only [List.mem_cons, List.not_mem_nil, or_false] at hb
    rcases hb with rfl | rfl | rfl <;> exact ⟨_, rfl⟩
  have h2 : ∃ b, intBounds bits = some b := by
    simp only [List.mem_cons, List.not_mem_nil, or_false] at hz
    rcases hz with rfl | rfl | rfl | rfl <;> exact ⟨_, rfl⟩
  obtain ⟨cf, h1⟩ := h1
  obtain ⟨⟨lo, hi⟩, h2⟩ := h2
  unfold Scanner.readInt at h
  simp only [h1, h2] at h
  obtain ⟨⟨m, s1⟩, _, h⟩ := Exec.bind_eq_ret.mp h
  have key : ∀ s2 : Scanner, (do
      let t ← s2.tail
      let (i64, n) := intLoop cf base lo hi m (rangeStr t) 0 (-1)
      if n = -1 then
        let s := (s2.toMarker s.pos).2
        pure ((0, some (s.errorFor b!"integer")), s)
      else pure ((i64, none), (s2.move (n + 1)).2)) = .ret ((v, some e), s') → ∃ w, e = .read s'.pos w := fun s2 h => by
    obtain ⟨t, _, h⟩ := Exec.bind_eq_ret.mp h
    simp only at h
    split at h
    · simp only [Exec.pure_eq, Exec.ret.injEq, Prod.mk.injEq, Option.some.injEq, Scanner.errorFor] at h
      exact ⟨_, by rw [← h.1.2, ← h.2]; rfl⟩
    · simp at h
  cases m
  · obtain ⟨⟨m', s2⟩, _, h⟩ := Exec.bind_eq_ret.mp h
    exact key s2 h
  · exact key s1 h

theorem readUint_err {s : Scanner} {base bits : Int} (hb : base ∈ [8, 10, 16]) (hz : bits ∈ [8, 16, 32, 64]) {v : Nat} {e : Err} {s' : Scanner}
    (h : s.readUint base bits = .ret ((v, some e), s')) : ∃ w, e = .read s'.pos w := by
  have h1 : ∃ cf, charFunc base = some cf := by
    simp only [List.mem_cons, List.not_mem_nil, or_false] at hb
    rcases hb with rfl | rfl | rfl <;> exact ⟨_, rfl⟩
  have h2 : ∃ b, uintMax bits = some b := by
    simp only [List.mem_cons, List.not_mem_nil, or_false] at hz
    rcases hz with rfl | rfl | rfl | rfl <;> exact ⟨_, rfl⟩
  obtain ⟨cf, h1⟩ := h1
  obtain ⟨hi, h2⟩ := h2
  unfold Scanner.readUint at h
  simp only [h1, h2] at h
  obtain ⟨t, _, h⟩ := Exec.bind_eq_ret.mp h
  split at h
  · simp only [Exec.pure_eq, Exec.ret.injEq, Prod.mk.injEq, Option.some.injEq, Scanner.errorFor] at h
    exact ⟨_, by rw [← h.1.2, ← h.2]; rfl⟩
  · simp at h

/-! ### `Any` -/

/-- The alternatives fail one after the other with these errors. -/
inductive Fails (rd : Reader → ReadFunc) : List Reader → Scanner → List Err → Scanner → Prop
  | nil {s} : Fails rd [] s [] s
  | cons {r rs s e s1 es s2} : rd r s = .ret (some e, s1) → Fails rd rs s1 es s2 → Fails rd (r :: rs) s (e :: es) s2

theorem anyLoop_fails {rd : Reader → ReadFunc} : ∀ {rs : List Reader} {acc : List Err} {s s' : Scanner} {es : List Err},
    anyLoop rd rs acc s = .ret (some es, s') → ∃ es', es = acc ++ es' ∧ Fails rd rs s es' s'
  | [], acc, s, s', es, h => by
    simp only [anyLoop, Exec.pure_eq, Exec.ret.injEq, Prod.mk.injEq, Option.some.injEq] at h
    obtain ⟨rfl, rfl⟩ := h
    exact ⟨[], by simp, .nil⟩
  | r :: rs, acc, s, s', es, h => by
    unfold anyLoop at h
    obtain ⟨⟨e, s1⟩, h1, h2⟩ := Exec.bind_eq_ret.mp h
    cases e with
    | none => simp at h2
    | some e =>
      obtain ⟨es', h3, h4⟩ := anyLoop_fails h2
      exact ⟨e :: es', by simp [h3], .cons h1 h4⟩

theorem Fails.anyLoop {rd : Reader → ReadFunc} {rs : List Reader} {s s' : Scanner} {es : List Err} (h : Fails rd rs s es s') :
    ∀ acc, anyLoop rd rs acc s = .ret (some (acc ++ es), s') := by
  induction h with
  | nil => intro acc; simp [Tok.anyLoop]
  | cons h1 _ ih =>
    intro acc
    unfold Tok.anyLoop
    rw [h1]
    simp only [Exec.bind_ret]
    rw [ih]
    simp

theorem Fails.within {rd : Reader → ReadFunc} {rs : List Reader} {s s' : Scanner} {es : List Err} (h : Fails rd rs s es s')
    (hs : Inside s) (h1 : ∀ r ∈ rs, Safe True (rd r)) (h2 : ∀ r ∈ rs, Located (rd r)) :
    ∀ e ∈ es, e.Within s.pos s.full.length := by
  induction h with
  | nil => simp
  | @cons r rs s e s1 es s2 hr _ ih =>
    have hf := (h1 r List.mem_cons_self s hs).2 _ hr
    intro e' he
    rcases List.mem_cons.mp he with rfl | he
    · exact h2 r List.mem_cons_self s hs _ _ hr
    · have := ih hf.1 (fun r h => h1 r (List.mem_cons_of_mem _ h)) (fun r h => h2 r (List.mem_cons_of_mem _ h)) e' he
      rw [hf.2.1] at this
      exact this.mono hf.2.2

theorem getDeepest_spec : ∀ (es : List Err) (d : Int × Bytes), (∀ e ∈ es, ∃ m w, e = .read m w) →
    ∃ m w, getDeepest d es = .read m w ∧ (.read m w = Err.read d.1 d.2 ∧ (∀ m' w', Err.read m' w' ∈ es → m' < d.1) ∨
      ∃ pre post, es = pre ++ Err.read m w :: post ∧ d.1 ≤ m ∧ (∀ m' w', Err.read m' w' ∈ pre → m' ≤ m) ∧ ∀ m' w', Err.read m' w' ∈ post → m' < m)
  | [], d, _ => ⟨d.1, d.2, rfl, .inl ⟨rfl, by simp⟩⟩
  | e :: es, d, h => by
    obtain ⟨m0, w0, rfl⟩ := h e List.mem_cons_self
    have ih := getDeepest_spec es (if m0 ≥ d.1 then (m0, w0) else d) fun e he => h e (List.mem_cons_of_mem _ he)
    unfold getDeepest
    obtain ⟨m, w, h1, h2⟩ := ih
    refine ⟨m, w, h1, ?_⟩
    by_cases hm : m0 ≥ d.1
    · rw [if_pos hm] at h2
      rcases h2 with ⟨h2, h3⟩ | ⟨pre, post, h2, h3, h4, h5⟩
      · cases h2
        exact .inr ⟨[], es, rfl, hm, by simp, h3⟩
      · refine .inr ⟨.read m0 w0 :: pre, post, by rw [h2]; rfl, ?_, ?_, h5⟩
        · simp only at h3; omega
        · intro m' w' hm'
          rcases List.mem_cons.mp hm' with he | he
          · cases he; exact h3
          · exact h4 _ _ he
    · rw [if_neg hm] at h2
      rcases h2 with ⟨h2, h3⟩ | ⟨pre, post, h2, h3, h4, h5⟩
      · refine .inl ⟨h2, fun m' w' hm' => ?_⟩
        rcases List.mem_cons.mp hm' with he | he
        · cases he; omega
        · exact h3 _ _ he
      · refine .inr ⟨.read m0 w0 :: pre, post, by rw [h2]; rfl, h3, ?_, h5⟩
        intro m' w' hm'
        rcases List.mem_cons.mp hm' with he | he
        · cases he; omega
        · exact h4 _ _ he

theorem getDeepest_within {es : List Err} (hn : es ≠ []) {lo hi : Int} (h0 : 0 ≤ lo) (h : ∀ e ∈ es, e.Within lo hi) :
    ∃ pre m w post, es = pre ++ Err.read m w :: post ∧ getDeepest (0, []) es = .read m w ∧
      (∀ m' w', Err.read m' w' ∈ pre → m' ≤ m) ∧ ∀ m' w', Err.read m' w' ∈ post → m' < m := by
  obtain ⟨m, w, h1, h2⟩ := getDeepest_spec es (0, []) fun e he => let ⟨m, w, h, _⟩ := h e he; ⟨m, w, h⟩
  rcases h2 with ⟨_, h3⟩ | ⟨pre, post, h2, h3, h4, h5⟩
  · exfalso
    cases es with
    | nil => exact hn rfl
    | cons e es =>
      obtain ⟨m', w', rfl, h5, _⟩ := h e List.mem_cons_self
      have := h3 m' w' List.mem_cons_self
      simp only at this
      omega
  · exact ⟨pre, m, w, post, h2, h1, h4, h5⟩

theorem Fails.ne_nil {rd : Reader → ReadFunc} {rs : List Reader} {s s' : Scanner} {es : List Err} (h : Fails rd rs s es s') (hr : rs ≠ []) :
    es ≠ [] := by
  cases h with
  | nil => exact absurd rfl hr
  | cons => simp

/-! ### every reader -/

theorem seqLoop_located {rd : Reader → ReadFunc} : ∀ {rs : List Reader}, (∀ r ∈ rs, Safe True (rd r)) → (∀ r ∈ rs, Located (rd r)) →
    Located (seqLoop rd rs)
  | [], _, _, s, hs, e, s', h => by simp [seqLoop] at h
  | r :: rs, h1, h2, s, hs, e, s', h => by
    unfold seqLoop at h
    obtain ⟨⟨e1, s1⟩, hr, h⟩ := Exec.bind_eq_ret.mp h
    cases e1 with
    | some e1 =>
      simp only [Exec.pure_eq, Exec.ret.injEq, Prod.mk.injEq, Option.some.injEq] at h
      rw [← h.1]
      exact h2 r List.mem_cons_self s hs _ _ hr
    | none =>
      exact (seqLoop_located (fun r h => h1 r (List.mem_cons_of_mem _ h)) (fun r h => h2 r (List.mem_cons_of_mem _ h))).from
        ((h1 r List.mem_cons_self s hs).2 _ hr) h

theorem skipSeqLoop_located {rd : Reader → ReadFunc} {sk : Reader} (k1 : Safe True (rd sk)) (k2 : Located (rd sk)) :
    ∀ {rs : List Reader}, (∀ r ∈ rs, Safe True (rd r)) → (∀ r ∈ rs, Located (rd r)) → Located (skipSeqLoop rd sk rs)
  | [], _, _, s, hs, e, s', h => by simp [skipSeqLoop] at h
  | r :: rs, h1, h2, s, hs, e, s', h => by
    unfold skipSeqLoop at h
    obtain ⟨⟨e1, s1⟩, hr, h⟩ := Exec.bind_eq_ret.mp h
    cases e1 with
    | some e1 =>
      simp only [Exec.pure_eq, Exec.ret.injEq, Prod.mk.injEq, Option.some.injEq] at h
      rw [← h.1]
      exact h2 r List.mem_cons_self s hs _ _ hr
    | none =>
      have hf := (h1 r List.mem_cons_self s hs).2 _ hr
      obtain ⟨⟨e2, s2⟩, hk, h⟩ := Exec.bind_eq_ret.mp h
      cases e2 with
      | some e2 =>
        simp only [Exec.pure_eq, Exec.ret.injEq, Prod.mk.injEq, Option.some.injEq] at h
        rw [← h.1]
        exact k2.from hf hk
      | none =>
        exact (skipSeqLoop_located k1 k2 (fun r h => h1 r (List.mem_cons_of_mem _ h)) (fun r h => h2 r (List.mem_cons_of_mem _ h))).from
          (Forward.trans hf ((k1 s1 hf.1).2 _ hk)) h

theorem timesLoop_located {f : ReadFunc} (h1 : Safe True f) (h2 : Located f) : ∀ k, Located (timesLoop f k)
  | 0, s, hs, e, s', h => by simp [timesLoop] at h
  | k + 1, s, hs, e, s', h => by
    unfold timesLoop at h
    obtain ⟨⟨e1, s1⟩, hr, h⟩ := Exec.bind_eq_ret.mp h
    cases e1 with
    | some e1 =>
      simp only [Exec.pure_eq, Exec.ret.injEq, Prod.mk.injEq, Option.some.injEq] at h
      rw [← h.1]
      exact h2 s hs _ _ hr
    | none => exact (timesLoop_located h1 h2 k).from ((h1 s hs).2 _ hr) h

theorem tokenizeUse_err {s : Scanner} {f : ReadFunc} {t : Token} {e : Err} {s' : Scanner} (h : s.tokenizeUse f = .ret ((t, some e), s')) :
    ∃ s1, f s = .ret (some e, s1) := by
  obtain ⟨⟨e1, s1⟩, h1, h⟩ := Exec.bind_eq_ret.mp h
  simp only [Exec.pure_eq, Exec.ret.injEq, Prod.mk.injEq] at h
  exact ⟨s1, by rw [h1, h.1.2]⟩

theorem read_located (rt : Rt) (G : Env) (hG : G.Every (Reader.safeHere True G)) (hL : G.Every Reader.located) : ∀ n r,
    r.Every (Reader.safeHere True G) → r.Every Reader.located → Located (read rt G n r)
  | 0, _, _, _, s, hs, e, s', h => by simp [read] at h
  | n + 1, r, hr, hl, s, hs, e, s', h => by
    have ih := fun c (hc : c ∈ r.subs) => read_located rt G hG hL n c (hr.sub hc) (hl.sub hc)
    have safe : ∀ c ∈ r.subs, Safe True (read rt G n c) := fun c hc => read_safe rt G hG n c (hr.sub hc)
    have hsr := read_safe rt G hG (n + 1) r hr
    have here : (∃ w, e = .read s'.pos w) → e.Within s.pos s.full.length := fun hw => by
      obtain ⟨w, hw⟩ := hw
      obtain ⟨h1, h2, h3⟩ := (hsr s hs).2 _ h
      have := h1.2
      rw [h2] at this
      exact ⟨_, w, hw, h3, this⟩
    have bad : ∀ {s2 : Scanner} {w : Bytes}, (.ret (some (s2.errorFor w), s2) : Exec (Option Err × Scanner)) = .ret (some e, s') → ∃ w, e = .read s'.pos w := fun he => by
      cases he; exact ⟨_, rfl⟩
    cases r with
    | any rs =>
      simp only [read] at h
      obtain ⟨⟨errs, s1⟩, ha, hb⟩ := Exec.bind_eq_ret.mp h
      cases errs with
      | none => simp at hb
      | some es =>
        obtain ⟨es', he, hf⟩ := anyLoop_fails ha
        simp only [List.nil_append] at he
        subst he
        have hw := hf.within hs safe ih
        obtain ⟨pre, m, w, post, h1, h2, _⟩ := getDeepest_within (hf.ne_nil hl.here) hs.1 hw
        simp only [Exec.pure_eq, Exec.ret.injEq, Prod.mk.injEq, Option.some.injEq] at hb
        rw [← hb.1, h2]
        exact hw _ (by rw [h1]; simp)
    | anyRune str => exact here ⟨_, err_ifFalse h⟩
    | at_ c =>
      simp only [read] at h
      obtain ⟨⟨err, s1⟩, ha, hb⟩ := Exec.bind_eq_ret.mp h
      simp only [Exec.pure_eq, Exec.ret.injEq, Prod.mk.injEq] at hb
      rw [hb.1] at ha
      exact ih c (by simp [Reader.subs]) s hs _ _ ha
    | atEnd => exact here ⟨_, err_ifFalse (x := pure (s.atEnd, s)) h⟩
    | between a b => exact here ⟨_, err_ifFalse h⟩
    | betweenAny l str =>
      simp only [read] at h
      obtain ⟨⟨ok, s1⟩, ha, hb⟩ := Exec.bind_eq_ret.mp h
      cases ok
      · simp only [Bool.false_eq_true, if_false] at hb
        obtain ⟨⟨ok, s2⟩, _, hb⟩ := Exec.bind_eq_ret.mp hb
        cases ok
        · exact here (bad hb)
        · simp at hb
      · simp at hb
    | body b t =>
      simp only [read] at h
      obtain ⟨⟨res, s1⟩, ha, hb⟩ := Exec.bind_eq_ret.mp h
      cases res with
      | some x => simp at hb
      | none => exact here (bad hb)
    | bodyTail b t =>
      simp only [read] at h
      obtain ⟨⟨res, s1⟩, ha, hb⟩ := Exec.bind_eq_ret.mp h
      cases res with
      | some x => simp at hb
      | none => exact here (bad hb)
    | bool c f =>
      simp only [read] at h
      obtain ⟨⟨⟨v, err⟩, s1⟩, ha, hb⟩ := Exec.bind_eq_ret.mp h
      simp only [Exec.pure_eq, Exec.ret.injEq, Prod.mk.injEq] at hb
      rw [hb.1] at ha
      obtain ⟨w, hw⟩ := readBool_err hl.here ha
      exact here ⟨w, by rw [hw, ← hb.2]⟩
    | fold v => exact here ⟨_, err_ifFalse h⟩
    | holey a b c =>
      simp only [read] at h
      obtain ⟨t, ha, hb⟩ := Exec.bind_eq_ret.mp h
      split at hb
      · exact here ⟨_, err_ifFalse (x := pure (s.move _)) hb⟩
      · exact here (bad hb)
    | int c a b =>
      simp only [read] at h
      obtain ⟨⟨⟨v, err⟩, s1⟩, ha, hb⟩ := Exec.bind_eq_ret.mp h
      simp only [Exec.pure_eq, Exec.ret.injEq, Prod.mk.injEq] at hb
      rw [hb.1] at ha
      obtain ⟨w, hw⟩ := readInt_err hl.here.1 hl.here.2 ha
      exact here ⟨w, by rw [hw, ← hb.2]⟩
    | janusBegin id nm c =>
      simp only [read] at h
      obtain ⟨⟨⟨tk, err⟩, s1⟩, ha, hb⟩ := Exec.bind_eq_ret.mp h
      cases err with
      | none =>
        simp only [Option.isNone_none, if_true] at hb
        obtain ⟨str, _, hb⟩ := Exec.bind_eq_ret.mp hb
        simp at hb
      | some e1 =>
        simp only [Option.isNone_some, Bool.false_eq_true, if_false, Exec.pure_eq, Exec.ret.injEq, Prod.mk.injEq, Option.some.injEq] at hb
        obtain ⟨s2, h2⟩ := tokenizeUse_err ha
        rw [← hb.1]
        exact ih c (by simp [Reader.subs]) s hs _ _ h2
    | janusEnd id nm =>
      simp only [read] at h
      obtain ⟨⟨err, s1⟩, ha, hb⟩ := Exec.bind_eq_ret.mp h
      cases err with
      | none => simp at hb
      | some e1 =>
        simp only [Option.isNone_some, Bool.false_eq_true, if_false, Exec.pure_eq, Exec.ret.injEq, Prod.mk.injEq, Option.some.injEq] at hb
        obtain ⟨rfl, rfl⟩ := hb
        exact here ⟨_, err_ifFalse ha⟩
    | invalid x => exact hl.here.elim
    | lit x => exact here ⟨_, err_ifFalse h⟩
    | many c =>
      simp only [read] at h
      obtain ⟨s1, ha, hb⟩ := Exec.bind_eq_ret.mp h
      exact here ⟨_, err_ifFalse (x := pure (decide (s.mark < s1.mark), s1)) hb⟩
    | map f c =>
      simp only [read] at h
      obtain ⟨⟨⟨tk, err⟩, s1⟩, ha, hb⟩ := Exec.bind_eq_ret.mp h
      cases err with
      | none => simp at hb
      | some e1 =>
        simp only [Option.isNone_some, Bool.false_eq_true, if_false, Exec.pure_eq, Exec.ret.injEq, Prod.mk.injEq, Option.some.injEq] at hb
        obtain ⟨s2, h2⟩ := tokenizeUse_err ha
        rw [← hb.1]
        exact ih c (by simp [Reader.subs]) s hs _ _ h2
    | match_ w f => exact here ⟨_, err_ifFalse h⟩
    | named nm c => exact ih c (by simp [Reader.subs]) s hs e s' h
    | not c =>
      simp only [read] at h
      obtain ⟨⟨err, s1⟩, ha, hb⟩ := Exec.bind_eq_ret.mp h
      cases err with
      | none => exact here (bad hb)
      | some e1 =>
        simp only [Option.isNone_some, Bool.false_eq_true, if_false] at hb
        obtain ⟨⟨_, s2⟩, _, hb⟩ := Exec.bind_eq_ret.mp hb
        simp at hb
    | opt c =>
      simp only [read] at h
      obtain ⟨⟨err, s1⟩, ha, hb⟩ := Exec.bind_eq_ret.mp h
      simp at hb
    | past c =>
      simp only [read] at h
      obtain ⟨⟨ok, s1⟩, ha, hb⟩ := Exec.bind_eq_ret.mp h
      cases ok
      · exact here (bad hb)
      · simp at hb
    | rune c => exact here ⟨_, err_ifFalse h⟩
    | seq rs =>
      simp only [read] at h
      obtain ⟨⟨err, s1⟩, ha, hb⟩ := Exec.bind_eq_ret.mp h
      cases err with
      | none => simp at hb
      | some e1 =>
        simp only [Option.isSome_some, if_true, Exec.pure_eq, Exec.ret.injEq, Prod.mk.injEq, Option.some.injEq] at hb
        rw [← hb.1]
        exact seqLoop_located safe ih s hs _ _ ha
    | skipSeq sk rs =>
      simp only [read] at h
      obtain ⟨⟨err, s1⟩, ha, hb⟩ := Exec.bind_eq_ret.mp h
      cases err with
      | some e1 =>
        simp only [Option.isSome_some, if_true, Exec.pure_eq, Exec.bind_ret, Exec.ret.injEq, Prod.mk.injEq, Option.some.injEq] at hb
        rw [← hb.1]
        exact ih sk (by simp [Reader.subs]) s hs _ _ ha
      | none =>
        simp only [Option.isSome_none, Bool.false_eq_true, if_false] at hb
        obtain ⟨⟨err, s2⟩, ha2, hb⟩ := Exec.bind_eq_ret.mp hb
        cases err with
        | none => simp at hb
        | some e1 =>
          simp only [Option.isSome_some, if_true, Exec.pure_eq, Exec.ret.injEq, Prod.mk.injEq, Option.some.injEq] at hb
          rw [← hb.1]
          have hk := safe sk (by simp [Reader.subs])
          exact (skipSeqLoop_located hk (ih sk (by simp [Reader.subs])) (fun r hr => safe r (by simp [Reader.subs, hr]))
            (fun r hr => ih r (by simp [Reader.subs, hr]))).from ((hk s hs).2 _ ha) ha2
    | times k c => exact timesLoop_located (safe c (by simp [Reader.subs])) (ih c (by simp [Reader.subs])) _ s hs e s' h
    | «to» c =>
      simp only [read] at h
      obtain ⟨⟨ok, s1⟩, ha, hb⟩ := Exec.bind_eq_ret.mp h
      cases ok
      · exact here (bad hb)
      · simp at hb
    | uint c a b =>
      simp only [read] at h
      obtain ⟨⟨⟨v, err⟩, s1⟩, ha, hb⟩ := Exec.bind_eq_ret.mp h
      simp only [Exec.pure_eq, Exec.ret.injEq, Prod.mk.injEq] at hb
      rw [hb.1] at ha
      obtain ⟨w, hw⟩ := readUint_err hl.here.1 hl.here.2 ha
      exact here ⟨w, by rw [hw, ← hb.2]⟩
    | wrap w f => exact hl.here s hs e s' h
    | zom c =>
      simp only [read] at h
      obtain ⟨s1, ha, hb⟩ := Exec.bind_eq_ret.mp h
      simp at hb
    | pick i b c =>
      simp only [read] at h
      obtain ⟨⟨⟨tk, err⟩, s1⟩, ha, hb⟩ := Exec.bind_eq_ret.mp h
      cases err with
      | none => simp at hb
      | some e1 =>
        simp only [Option.isNone_some, Bool.false_eq_true, if_false, Exec.pure_eq, Exec.ret.injEq, Prod.mk.injEq, Option.some.injEq] at hb
        obtain ⟨s2, h2⟩ := tokenizeUse_err ha
        rw [← hb.1]
        exact ih c (by simp [Reader.subs]) s hs _ _ h2
    | monitor i l c =>
      simp only [read] at h
      obtain ⟨⟨err, s1⟩, ha, hb⟩ := Exec.bind_eq_ret.mp h
      simp only [Exec.pure_eq, Exec.ret.injEq, Prod.mk.injEq] at hb
      rw [hb.1] at ha
      have hs' : Inside { s with heap := { s.heap with logs := upd s.heap.logs l ((s.heap.logs l).enter rt i s.pos).2 } } := hs
      exact ih c (by simp [Reader.subs]) _ hs' _ _ ha
    | rule i =>
      simp only [read] at h
      rcases hi : G[i]? with _ | ⟨nm, _ | c⟩
      · simp [hi] at h
      · simp [hi] at h
      · simp only [hi] at h
        exact read_located rt G hG hL n c (hG.get hi) (hL.get hi) s hs e s' h
    | ruleName c =>
      simp only [read] at h
      obtain ⟨⟨err, s1⟩, ha, hb⟩ := Exec.bind_eq_ret.mp h
      exact here ⟨_, err_ifFalse (x := pure (err.isNone, s1)) hb⟩
    | grammar w c => exact hl.here.elim

/-- A failing read returns a `ReadError` whose position lies between the start of the read and
the end of the text, for every reader expression and grammar without invalid readers and
without an `Any` that has no alternatives.  The full claim has no such conditions;
`C37_violated` shows that it is false without them. -/
theorem C37_position_partial (rt : Rt) (G : Env) (r : Reader) (hG : G.Every (Reader.safeHere True G)) (hL : G.Every Reader.located)
    (hr : r.Every (Reader.safeHere True G)) (hl : r.Every Reader.located) (n : Nat) (s s' : Scanner) (hs : Inside s) (e : Err)
    (h : read rt G n r s = .ret (some e, s')) : ∃ m w, e = .read m w ∧ s.pos ≤ m ∧ m ≤ (s.full.length : Int) :=
  read_located rt G hG hL n r hr hl s hs e s' h

/-- `Any` reports the error of the deepest of its failing alternatives, and of equally deep
ones the last. -/
theorem C37_any_deepest (rt : Rt) (G : Env) (rs : List Reader) (hn : rs ≠ []) (hG : G.Every (Reader.safeHere True G)) (hL : G.Every Reader.located)
    (hr : ∀ r ∈ rs, r.Every (Reader.safeHere True G)) (hl : ∀ r ∈ rs, r.Every Reader.located) (n : Nat) (s s' : Scanner) (hs : Inside s)
    (e : Err) (h : read rt G (n + 1) (.any rs) s = .ret (some e, s')) :
    ∃ pre m w post s1, e = .read m w ∧ Fails (read rt G n) rs s (pre ++ e :: post) s1 ∧
      (∀ m' w', .read m' w' ∈ pre → m' ≤ m) ∧ (∀ m' w', .read m' w' ∈ post → m' < m) ∧
      ∀ e' ∈ pre ++ post, ∃ m' w', e' = .read m' w' := by
  simp only [read] at h
  obtain ⟨⟨errs, s1⟩, ha, hb⟩ := Exec.bind_eq_ret.mp h
  cases errs with
  | none => simp at hb
  | some es =>
    obtain ⟨es', he, hf⟩ := anyLoop_fails ha
    simp only [List.nil_append] at he
    subst he
    have hw := hf.within hs (fun r h => read_safe rt G hG n r (hr r h)) fun r h => read_located rt G hG hL n r (hr r h) (hl r h)
    obtain ⟨pre, m, w, post, h1, h2, h3, h4⟩ := getDeepest_within (hf.ne_nil hn) hs.1 hw
    simp only [Exec.pure_eq, Exec.ret.injEq, Prod.mk.injEq, Option.some.injEq] at hb
    have hee : e = .read m w := by rw [← hb.1, h2]
    refine ⟨pre, m, w, post, s1, hee, by rw [hee, ← h1]; exact hf, h3, h4, fun e' he' => ?_⟩
    obtain ⟨m', w', h5, _⟩ := hw e' (by
      rw [h1]
      rcases List.mem_append.mp he' with h | h
      · exact List.mem_append_left _ h
      · exact List.mem_append_right _ (List.mem_cons_of_mem _ h))
    exact ⟨m', w', h5⟩

/-- With restoring alternatives (C33) each of them was tried where `Any` started, the reported error
is the one of such a try, and no other is deeper. -/
theorem C37_any_from_start (rt : Rt) (G : Env) (rs : List Reader) (hn : rs ≠ []) (hG : G.Every (Reader.safeHere True G)) (hL : G.Every Reader.located)
    (hk : ∀ rl ∈ G, ∀ c, rl.reader = some c → c.keeps)
    (hr : ∀ r ∈ rs, r.Every (Reader.safeHere True G)) (hl : ∀ r ∈ rs, r.Every Reader.located) (hkr : ∀ r ∈ rs, r.keeps)
    (n : Nat) (s s' : Scanner) (hs : Inside s) (e : Err) (h : read rt G (n + 1) (.any rs) s = .ret (some e, s')) :
    ∃ m w, e = .read m w ∧
      (∃ r ∈ rs, ∃ s1 s2, s1.pos = s.pos ∧ s1.full = s.full ∧ read rt G n r s1 = .ret (some e, s2)) ∧
      ∀ r ∈ rs, ∃ s1 m' w' s2, s1.pos = s.pos ∧ s1.full = s.full ∧ read rt G n r s1 = .ret (some (.read m' w'), s2) ∧ m' ≤ m := by
  obtain ⟨pre, m, w, post, s1, h1, h2, h3, h4, h5⟩ := C37_any_deepest rt G rs hn hG hL hr hl n s s' hs e h
  have rest : ∀ r ∈ rs, Restores (read rt G n r) := fun r h => read_restores rt G hG hk n r (hr r h) (hkr r h)
  have safe : ∀ r ∈ rs, Safe True (read rt G n r) := fun r h => read_safe rt G hG n r (hr r h)
  have key : ∀ {rs : List Reader} {s s1 : Scanner} {es : List Err}, Fails (read rt G n) rs s es s1 → Inside s → (∀ r ∈ rs, Restores (read rt G n r)) →
      (∀ r ∈ rs, Safe True (read rt G n r)) →
      (∀ e ∈ es, ∃ r ∈ rs, ∃ s1 s2, s1.pos = s.pos ∧ s1.full = s.full ∧ read rt G n r s1 = .ret (some e, s2)) ∧
      ∀ r ∈ rs, ∃ e ∈ es, ∃ s1 s2, s1.pos = s.pos ∧ s1.full = s.full ∧ read rt G n r s1 = .ret (some e, s2) := by
    intro rs s s1 es hf
    induction hf with
    | nil => intro _ _ _; exact ⟨by simp, by simp⟩
    | @cons r rs s e s1 es s2 hr hf ih =>
      intro hs h1 h2
      have hp := h1 r List.mem_cons_self s hs _ _ hr
      have hw := (h2 r List.mem_cons_self s hs).2 _ hr
      obtain ⟨i1, i2⟩ := ih hw.1 (fun r h => h1 r (List.mem_cons_of_mem _ h)) (fun r h => h2 r (List.mem_cons_of_mem _ h))
      refine ⟨fun e' he' => ?_, fun r' hr' => ?_⟩
      · rcases List.mem_cons.mp he' with rfl | he'
        · exact ⟨r, List.mem_cons_self, s, s1, rfl, rfl, hr⟩
        · obtain ⟨r', a1, a2, a3, a4, a5, a6⟩ := i1 e' he'
          exact ⟨r', List.mem_cons_of_mem _ a1, a2, a3, by rw [a4, hp], by rw [a5, hw.2.1], a6⟩
      · rcases List.mem_cons.mp hr' with rfl | hr'
        · exact ⟨e, List.mem_cons_self, s, s1, rfl, rfl, hr⟩
        · obtain ⟨e', a1, a2, a3, a4, a5, a6⟩ := i2 r' hr'
          exact ⟨e', List.mem_cons_of_mem _ a1, a2, a3, by rw [a4, hp], by rw [a5, hw.2.1], a6⟩
  obtain ⟨k1, k2⟩ := key h2 hs rest safe
  refine ⟨m, w, h1, k1 e (by simp), fun r hr => ?_⟩
  obtain ⟨e', he', s2, s3, a1, a2, a3⟩ := k2 r hr
  have : ∃ m' w', e' = .read m' w' ∧ m' ≤ m := by
    rcases List.mem_append.mp he' with hp | hp
    · obtain ⟨m', w', rfl⟩ := h5 e' (List.mem_append_left _ hp)
      exact ⟨m', w', rfl, h3 m' w' hp⟩
    · rcases List.mem_cons.mp hp with rfl | hp
      · exact ⟨m, w, h1, by omega⟩
      · obtain ⟨m', w', rfl⟩ := h5 e' (List.mem_append_right _ hp)
        exact ⟨m', w', rfl, by have := h4 m' w' hp; omega⟩
  obtain ⟨m', w', rfl, hm⟩ := this
  exact ⟨s2, m', w', s3, a1, a2, a3, hm⟩

/-- Readers that report themselves at the start of the read. -/
def Reader.selfish : Reader → Bool
  | .anyRune _ | .atEnd | .between _ _ | .betweenAny _ _ | .fold _ | .holey _ _ _ | .lit _ | .match_ _ _ | .rune _
  | .body _ _ | .bodyTail _ _ | .past _ | .to _ | .many _ => true
  | _ => false

/-- The readers of runes and literals, the searching readers and `Many` report the position
where the read started and the text of their own `What`. -/
theorem C37_names_itself (rt : Rt) (G : Env) (r : Reader) (hself : r.selfish = true) (hG : G.Every (Reader.safeHere True G))
    (hr : r.Every (Reader.safeHere True G)) (n : Nat) (s s' : Scanner) (hs : Inside s) (e : Err)
    (h : read rt G n r s = .ret (some e, s')) : e = .read s.pos (r.what rt G) := by
  cases n with
  | zero => cases h
  | succ n =>
  have hkeep : ∃ w, e = .read s'.pos w ∧ w = r.what rt G := by
    have bad : ∀ {s2 : Scanner} {w : Bytes}, (.ret (some (s2.errorFor w), s2) : Exec (Option Err × Scanner)) = .ret (some e, s') →
        e = .read s'.pos w := fun he => by cases he; rfl
    cases r with
    | anyRune str => exact ⟨_, err_ifFalse h, rfl⟩
    | atEnd => exact ⟨_, err_ifFalse (x := pure (s.atEnd, s)) h, rfl⟩
    | between a b => exact ⟨_, err_ifFalse h, rfl⟩
    | betweenAny l str =>
      simp only [read] at h
      obtain ⟨⟨ok, s1⟩, ha, hb⟩ := Exec.bind_eq_ret.mp h
      cases ok
      · simp only [Bool.false_eq_true, if_false] at hb
        obtain ⟨⟨ok, s2⟩, _, hb⟩ := Exec.bind_eq_ret.mp hb
        cases ok
        · exact ⟨_, bad hb, rfl⟩
        · simp at hb
      · simp at hb
    | body b t =>
      simp only [read] at h
      obtain ⟨⟨res, s1⟩, ha, hb⟩ := Exec.bind_eq_ret.mp h
      cases res with
      | some x => simp at hb
      | none => exact ⟨_, bad hb, rfl⟩
    | bodyTail b t =>
      simp only [read] at h
      obtain ⟨⟨res, s1⟩, ha, hb⟩ := Exec.bind_eq_ret.mp h
      cases res with
      | some x => simp at hb
      | none => exact ⟨_, bad hb, rfl⟩
    | fold v => exact ⟨_, err_ifFalse h, rfl⟩
    | holey a b c =>
      simp only [read] at h
      obtain ⟨t, ha, hb⟩ := Exec.bind_eq_ret.mp h
      split at hb
      · exact ⟨_, err_ifFalse (x := pure (s.move _)) hb, rfl⟩
      · exact ⟨_, bad hb, rfl⟩
    | lit x => exact ⟨_, err_ifFalse h, rfl⟩
    | many c =>
      simp only [read] at h
      obtain ⟨s1, ha, hb⟩ := Exec.bind_eq_ret.mp h
      exact ⟨_, err_ifFalse (x := pure (decide (s.mark < s1.mark), s1)) hb, rfl⟩
    | match_ w f => exact ⟨_, err_ifFalse h, rfl⟩
    | past c =>
      simp only [read] at h
      obtain ⟨⟨ok, s1⟩, ha, hb⟩ := Exec.bind_eq_ret.mp h
      cases ok
      · exact ⟨_, bad hb, rfl⟩
      · simp at hb
    | rune c => exact ⟨_, err_ifFalse h, rfl⟩
    | «to» c =>
      simp only [read] at h
      obtain ⟨⟨ok, s1⟩, ha, hb⟩ := Exec.bind_eq_ret.mp h
      cases ok
      · exact ⟨_, bad hb, rfl⟩
      · simp at hb
    | _ => cases hself
  have hp : s'.pos = s.pos := by
    have hk : ∀ m, r = .many m → s'.pos = s.pos := fun c hc => by
      subst hc
      have hf := (read_safe rt G hG (n + 1) _ hr s hs).2 _ h
      simp only [read] at h
      obtain ⟨s1, ha, hb⟩ := Exec.bind_eq_ret.mp h
      by_cases hlt : s.mark < s1.mark
      · simp [Scanner.errorIfFalse, hlt] at hb
      · simp only [Exec.pure_eq, Exec.ret.injEq, Prod.mk.injEq] at hb
        rw [← hb.2] at hf ⊢
        have := hf.2.2
        simp only [Scanner.mark] at hlt this
        omega
    by_cases hleaf : r.leaf = true
    · exact leaf_restores rt G n hleaf s hs e s' h
    · have safe : ∀ c ∈ r.subs, Safe True (read rt G n c) := fun c hc => read_safe rt G hG n c (hr.sub hc)
      cases r with
      | many c => exact hk c rfl
      | body b t =>
        simp only [read] at h
        obtain ⟨⟨res, s1⟩, ha, hb⟩ := Exec.bind_eq_ret.mp h
        have hf := (bodyLoop_safe (safe b (by simp [Reader.subs])) (safe t (by simp [Reader.subs])) hs n s (Forward.refl hs)).2 _ ha
        cases res with
        | some x => simp at hb
        | none =>
          simp only [Exec.pure_eq, Exec.ret.injEq, Prod.mk.injEq] at hb
          rw [← hb.2]; exact back_pos hs hf.1
      | bodyTail b t =>
        simp only [read] at h
        obtain ⟨⟨res, s1⟩, ha, hb⟩ := Exec.bind_eq_ret.mp h
        have hf := (bodyLoop_safe (safe b (by simp [Reader.subs])) (safe t (by simp [Reader.subs])) hs n s (Forward.refl hs)).2 _ ha
        cases res with
        | some x => simp at hb
        | none =>
          simp only [Exec.pure_eq, Exec.ret.injEq, Prod.mk.injEq] at hb
          rw [← hb.2]; exact back_pos hs hf.1
      | past c =>
        simp only [read] at h
        obtain ⟨⟨ok, s1⟩, ha, hb⟩ := Exec.bind_eq_ret.mp h
        have hf := (pastLoop_safe (safe c (by simp [Reader.subs])) n s hs).2 _ ha
        cases ok
        · simp only [Bool.false_eq_true, if_false, Exec.pure_eq, Exec.ret.injEq, Prod.mk.injEq] at hb
          rw [← hb.2]; exact back_pos hs hf
        · simp at hb
      | «to» c =>
        simp only [read] at h
        obtain ⟨⟨ok, s1⟩, ha, hb⟩ := Exec.bind_eq_ret.mp h
        have hf := (toLoop_safe (safe c (by simp [Reader.subs])) n s hs).2 _ ha
        cases ok
        · simp only [Bool.false_eq_true, if_false, Exec.pure_eq, Exec.ret.injEq, Prod.mk.injEq] at hb
          rw [← hb.2]; exact back_pos hs hf
        · simp at hb
      | _ => first | exact absurd rfl hleaf | cases hself
  obtain ⟨w, h1, h2⟩ := hkeep
  rw [h1, h2, hp]

/-- A computable form of the condition of C37. -/
def Reader.locatedB : Reader → Bool
  | .any rs => !rs.isEmpty
  | .bool _ f => decide (f ∈ [b!"", b!"*", b!"l", b!"U", b!"Cc"])
  | .int _ base bits => decide (base ∈ [8, 10, 16] ∧ bits ∈ [8, 16, 32, 64])
  | .uint _ base bits => decide (base ∈ [8, 10, 16] ∧ bits ∈ [8, 16, 32, 64])
  | .invalid _ => false
  | .grammar _ _ => false
  | .wrap _ _ => false
  | _ => true

theorem located_of_B {r : Reader} (h : r.locatedB = true) : r.located := by
  cases r <;> first | trivial | exact of_decide_eq_true h | (cases h; done) | skip
  case any rs => intro e; subst e; cases h
  case bool => simpa [Reader.locatedB, Reader.located] using h
  case int => simpa [Reader.locatedB, Reader.located] using h
  case uint => simpa [Reader.locatedB, Reader.located] using h

/-- All rules of the shipped grammars locate their errors. -/
theorem C37_shipped (rt : Rt) (G : Env) (hG : G = Json.env ∨ G = Mxt.env ∨ G = Lua.env) (i : Nat)
    (n : Nat) (s s' : Scanner) (hs : Inside s) (e : Err) (h : read rt G n (.rule i) s = .ret (some e, s')) :
    ∃ m w, e = .read m w ∧ s.pos ≤ m ∧ m ≤ (s.full.length : Int) := by
  have hL : G.Every Reader.located := by
    rcases hG with rfl | rfl | rfl <;> exact (Env.everyB_sound (p := Reader.locatedB) (by decide)).imp fun _ => located_of_B
  exact C37_position_partial rt G _ (by rcases hG with rfl | rfl | rfl; exacts [Json.safe, Mxt.safe, Lua.safe]) hL
    (.mk (r := .rule i) (Or.inl trivial) (by simp [Reader.subs])) (.mk (r := .rule i) trivial (by simp [Reader.subs])) n s s' hs e h

/-- The claim fails without the conditions: started at position 1, `Any()` without alternatives
and `Any` of an invalid reader report position 0, with an empty text; the grammar readers
return an error without a position. -/
theorem C37_violated (rt : Rt) :
    (∃ s', read rt [] 1 (.any []) { Scanner.new b!"ab" Heap.empty with pos := 1 } = .ret (some (.read 0 b!""), s')) ∧
    (∃ s', read rt [] 2 (mkAny [.reader (mkOpt (.other b!"int"))]) { Scanner.new b!"ab" Heap.empty with pos := 1 } = .ret (some (.read 0 b!""), s')) ∧
    ∃ msg s', read rt Json.env 60 Json.reader (.new b!"x" Heap.empty) = .ret (some (.other msg), s') :=
  ⟨⟨_, rfl⟩, ⟨_, rfl⟩, ⟨_, _, rfl⟩⟩

/-- `Any("abd", Seq('a', 'b', 'c'))` on `abx` reports the `c` at position 2. -/
example : ∃ s', read exRt [] 4 (.any [.lit b!"abd", .seq [.rune 97, .rune 98, .rune 99]]) (.new b!"abx" Heap.empty) =
    .ret (some (.read 2 (Reader.what exRt [] (.rune 99))), s') := ⟨_, rfl⟩

end Tok
