/-
Readers that keep no state and go back when they fail, and the loops that look for one.
-/
import Verif.Spec.Match
import Verif.Props.C35
import Verif.Proofs.Place
import Verif.Proofs.Tidy

namespace Tok
open Spec

/-- No `Wrap` and no Janus reader. -/
def Reader.stateless (r : Reader) : Prop := r.noWrap = true ∧ r.janIn fun _ => False

theorem safe_of_noWrap {G : Env} {r : Reader} (h : r.noWrap = true) : r.safeHere True G := by
  cases r with
  | wrap w f => cases h
  | fold v => exact .inl trivial
  | rule i => exact .inl trivial
  | _ => trivial

theorem notJan_of {r : Reader} (h : r.janIn fun _ => False) (id : Nat) : r.notJan id := by
  cases r with
  | janusBegin i nm c => exact h.elim
  | janusEnd i nm => exact h.elim
  | _ => trivial

/-- A family of reads, by budget, that keeps the Janus strings and does not depend on them, and goes
back when it fails. -/
structure Steady (f : Nat → EatFunc) : Prop where
  le : ∀ {n m}, n ≤ m → ∀ st, LeE (f n st) (f m st)
  jan : ∀ {n t j ok st}, f n ⟨t, j⟩ = .ret (ok, st) → st.jan = j
  back : ∀ {n t j st}, f n ⟨t, j⟩ = .ret (false, st) → st.rest = t
  any : ∀ {n t j ok u} j', f n ⟨t, j⟩ = .ret (ok, ⟨u, j⟩) → f n ⟨t, j'⟩ = .ret (ok, ⟨u, j'⟩)

theorem eat_jan {rt : Rt} {G : Env} (hG : G.Every Reader.stateless) {r : Reader} (hr : r.Every Reader.stateless) {n : Nat} {t : Bytes}
    {j : Nat → Bytes} {ok : Bool} {st : St} (h : eat rt G n r ⟨t, j⟩ = .ret (ok, st)) : st.jan = j := by
  funext id
  exact eat_leaves rt G (id := id) (hG.imp fun _ h => notJan_of h.2 id) n r (hr.imp fun _ h => notJan_of h.2 id) _ _ h

theorem eat_any {rt : Rt} {G : Env} (hG : G.Every Reader.stateless) {r : Reader} (hr : r.Every Reader.stateless) {n : Nat} {t : Bytes}
    {j : Nat → Bytes} {ok : Bool} {u : Bytes} (j' : Nat → Bytes) (h : eat rt G n r ⟨t, j⟩ = .ret (ok, ⟨u, j⟩)) :
    eat rt G n r ⟨t, j'⟩ = .ret (ok, ⟨u, j'⟩) := by
  obtain ⟨⟨ok', st'⟩, h1, h2, h3, _⟩ := (eat_agrees rt G (I := fun _ => False) (hG.imp fun _ h => h.2) n r (hr.imp fun _ h => h.2) ⟨t, j⟩ ⟨t, j'⟩
    ⟨rfl, fun _ h => h.elim⟩).left h
  have h4 := eat_jan hG hr h1
  obtain ⟨u', k⟩ := st'
  simp only at h2 h3 h4
  subst h2 h3 h4
  exact h1

theorem eat_steady (rt : Rt) (G : Env) (hG : G.Every Reader.stateless) (hk : ∀ rl ∈ G, ∀ c, rl.reader = some c → c.keeps)
    (r : Reader) (hr : r.Every Reader.stateless) (hkr : r.keeps) : Steady (fun n => eat rt G n r) where
  le h st := eat_le rt G _ _ h r st
  jan h := eat_jan hG hr h
  back := by
    intro n t j st h
    let s : Scanner := .new t { Heap.empty with janus := j }
    have hb : Between s [] t := ⟨rfl, rfl⟩
    obtain ⟨⟨e, s'⟩, h1, h2, h3⟩ := (read_eat rt G (hG.imp fun _ h => h.1) n r (hr.imp fun _ h => h.1) s.full s _ (sees_between hb)).right h
    cases e with
    | none => cases h2
    | some e =>
      have h4 := read_restores rt G (hG.imp fun _ h => safe_of_noWrap h.1) hk n r (hr.imp fun _ h => safe_of_noWrap h.1) hkr s hb.inside e s' h1
      obtain ⟨x, hx, hb'⟩ := between_sees hb h3 (eat_shrinks rt G n r _ _ h)
      have : x.length = 0 := by
        have := hb'.2
        rw [h4, hb.2] at this
        simp at this
        omega
      rw [List.length_eq_zero_iff] at this
      subst this
      exact hx.symm
  any j' h := eat_any hG hr j' h

/-! ### one text, with and without what was before it -/

theorem read_of_eat {rt : Rt} {G : Env} (hG : G.Every Reader.stateless) {r : Reader} (hr : r.Every Reader.stateless) {n : Nat} {s : Scanner} {h t : Bytes}
    (hb : Between s h t) {ok : Bool} {st : St} (he : eat rt G n r ⟨t, s.heap.janus⟩ = .ret (ok, st)) :
    ∃ e s' x, read rt G n r s = .ret (e, s') ∧ e.isNone = ok ∧ t = x ++ st.rest ∧ Between s' (h ++ x) st.rest := by
  obtain ⟨⟨e, s'⟩, h1, h2, h3⟩ := (read_eat rt G (hG.imp fun _ h => h.1) n r (hr.imp fun _ h => h.1) s.full s _ (sees_between hb)).right he
  obtain ⟨x, hx, hb'⟩ := between_sees hb h3 (eat_shrinks rt G n r _ _ he)
  exact ⟨e, s', x, h1, h2, hx, hb'⟩

theorem eat_of_read {rt : Rt} {G : Env} (hG : G.Every Reader.stateless) {r : Reader} (hr : r.Every Reader.stateless) {n : Nat} {s : Scanner} {h t : Bytes}
    (hb : Between s h t) {e : Option Err} {s' : Scanner} (hs : read rt G n r s = .ret (e, s')) :
    ∃ x u, eat rt G n r ⟨t, s.heap.janus⟩ = .ret (e.isNone, ⟨u, s.heap.janus⟩) ∧ t = x ++ u ∧ Between s' (h ++ x) u := by
  obtain ⟨⟨ok, st⟩, h1, h2, h3⟩ := (read_eat rt G (hG.imp fun _ h => h.1) n r (hr.imp fun _ h => h.1) s.full s _ (sees_between hb)).left hs
  obtain ⟨x, hx, hb'⟩ := between_sees hb h3 (eat_shrinks rt G n r _ _ h1)
  have hj := eat_jan hG hr h1
  obtain ⟨u, j⟩ := st
  simp only at h2 hj hx hb'
  subst h2 hj
  exact ⟨x, u, h1, hx, hb'⟩

theorem matches_iff {rt : Rt} {G : Env} (hG : G.Every Reader.stateless) {r : Reader} (hr : r.Every Reader.stateless) (j : Nat → Bytes) {t x u : Bytes} (hx : t = x ++ u) :
    Matches rt G r t x u ↔ ∃ n, eat rt G n r ⟨t, j⟩ = .ret (true, ⟨u, j⟩) := by
  have hb : Between (.new t Heap.empty) [] t := ⟨rfl, rfl⟩
  constructor
  · rintro ⟨n, s', h1, h2, h3⟩
    obtain ⟨x', u', h4, h5, h6⟩ := eat_of_read hG hr hb h1
    have : u' = u := by
      have e1 := h3.1; have e2 := h6.1; have e3 := h3.2; have e4 := h6.2
      simp only [List.nil_append] at e2 e4
      rw [e1] at e2
      exact (List.append_inj e2 (by omega)).2.symm
    subst this
    exact ⟨n, eat_any hG hr j h4⟩
  · rintro ⟨n, h1⟩
    obtain ⟨e, s', x', h2, h3, h4, h5⟩ := read_of_eat hG hr hb (eat_any hG hr (Scanner.new t Heap.empty).heap.janus h1)
    cases e with
    | some e => cases h3
    | none =>
      simp only at h4 h5
      have : x' = x := List.append_cancel_right (h4.symm.trans hx)
      subst this
      exact ⟨n, s', h2, hx, h5⟩

theorem matches_ex {rt : Rt} {G : Env} (hG : G.Every Reader.stateless) {r : Reader} (hr : r.Every Reader.stateless) (j : Nat → Bytes) {t : Bytes} :
    (∃ x u, Matches rt G r t x u) ↔ ∃ n u, eat rt G n r ⟨t, j⟩ = .ret (true, ⟨u, j⟩) := by
  constructor
  · rintro ⟨x, u, h⟩
    have hx : t = x ++ u := by obtain ⟨_, _, _, h, _⟩ := h; exact h
    obtain ⟨n, h⟩ := (matches_iff hG hr j hx).mp h
    exact ⟨n, u, h⟩
  · rintro ⟨n, u, h⟩
    obtain ⟨x, hx⟩ := eat_shrinks rt G n r _ _ h
    exact ⟨x, u, (matches_iff hG hr j hx.symm).mpr ⟨n, h⟩⟩

theorem rejects_iff {rt : Rt} {G : Env} (hG : G.Every Reader.stateless) {r : Reader} (hr : r.Every Reader.stateless) (j : Nat → Bytes) {t : Bytes} :
    Rejects rt G r t ↔ ∃ n u, eat rt G n r ⟨t, j⟩ = .ret (false, ⟨u, j⟩) := by
  have hb : Between (.new t Heap.empty) [] t := ⟨rfl, rfl⟩
  constructor
  · rintro ⟨n, e, s', h1⟩
    obtain ⟨x', u', h4, h5, h6⟩ := eat_of_read hG hr hb h1
    exact ⟨n, u', eat_any hG hr j h4⟩
  · rintro ⟨n, u, h1⟩
    obtain ⟨e, s', x', h2, h3, h4, h5⟩ := read_of_eat hG hr hb (eat_any hG hr (Scanner.new t Heap.empty).heap.janus h1)
    cases e with
    | none => cases h3
    | some e => exact ⟨n, e, s', h2⟩

/-! ### the loops -/

section
variable {f : Nat → EatFunc}

/-- The read fails at `t`. -/
def MissAt (f : Nat → EatFunc) (j : Nat → Bytes) (t : Bytes) : Prop := ∃ n, f n ⟨t, j⟩ = .ret (false, ⟨t, j⟩)

/-- The read matches at `t`, with `u` left. -/
def HitAt (f : Nat → EatFunc) (j : Nat → Bytes) (t u : Bytes) : Prop := ∃ n, f n ⟨t, j⟩ = .ret (true, ⟨u, j⟩)

theorem Steady.mono (hf : Steady f) {n m : Nat} {st : St} {x : Bool × St} (h : n ≤ m) (e : f n st = .ret x) : f m st = .ret x :=
  (hf.le h st).ret e

theorem Steady.case (hf : Steady f) {n : Nat} {t : Bytes} {j : Nat → Bytes} {ok : Bool} {st : St} (h : f n ⟨t, j⟩ = .ret (ok, st)) :
    (ok = true ∧ HitAt f j t st.rest ∧ st.jan = j) ∨ ok = false ∧ st = ⟨t, j⟩ ∧ MissAt f j t := by
  have hj := hf.jan h
  obtain ⟨u, k⟩ := st
  simp only at hj
  subst hj
  cases ok with
  | true => exact .inl ⟨rfl, ⟨n, h⟩, rfl⟩
  | false =>
    have := hf.back h
    simp only at this
    subst this
    exact .inr ⟨rfl, rfl, n, h⟩

/-- The text ahead splits at the first match. -/
def FirstHit (f : Nat → EatFunc) (j : Nat → Bytes) (cs pre post : List Char) (u : Bytes) : Prop :=
  cs = pre ++ post ∧ HitAt f j (encText post) u ∧ ∀ a b, cs = a ++ b → a.length < pre.length → MissAt f j (encText b)

theorem FirstHit.here {j : Nat → Bytes} {cs : List Char} {u : Bytes} (h : HitAt f j (encText cs) u) : FirstHit f j cs [] cs u :=
  ⟨rfl, h, fun _ _ _ hl => absurd hl (by simp)⟩

theorem FirstHit.later {j : Nat → Bytes} {c : Char} {cs pre post : List Char} {u : Bytes} (h0 : MissAt f j (encText (c :: cs)))
    (h : FirstHit f j cs pre post u) : FirstHit f j (c :: cs) (c :: pre) post u := by
  obtain ⟨h1, h2, h3⟩ := h
  refine ⟨by rw [h1]; rfl, h2, fun a b hab hl => ?_⟩
  cases a with
  | nil => rw [List.nil_append] at hab; rw [← hab]; exact h0
  | cons a as =>
    simp only [List.cons_append, List.cons.injEq] at hab
    exact h3 as b hab.2 (by simpa using hl)

theorem FirstHit.inv {j : Nat → Bytes} {c : Char} {cs pre post : List Char} {u : Bytes} (h : FirstHit f j (c :: cs) pre post u) :
    (pre = [] ∧ post = c :: cs ∧ HitAt f j (encText (c :: cs)) u) ∨
      MissAt f j (encText (c :: cs)) ∧ ∃ pre', pre = c :: pre' ∧ FirstHit f j cs pre' post u := by
  obtain ⟨h1, h2, h3⟩ := h
  cases pre with
  | nil => rw [List.nil_append] at h1; subst h1; exact .inl ⟨rfl, rfl, h2⟩
  | cons p pre =>
    simp only [List.cons_append, List.cons.injEq] at h1
    obtain ⟨rfl, h1⟩ := h1
    refine .inr ⟨h3 [] (c :: cs) rfl (by simp), pre, rfl, h1, h2, fun a b hab hl => h3 (c :: a) b (by rw [hab]; rfl) (by simpa using hl)⟩

theorem allMiss_cons {p : List Char → Prop} {c : Char} {cs : List Char} (h0 : p (c :: cs)) (h : ∀ a b, cs = a ++ b → p b) :
    ∀ a b, c :: cs = a ++ b → p b := by
  intro a b hab
  cases a with
  | nil => rw [List.nil_append] at hab; rw [← hab]; exact h0
  | cons a as =>
    simp only [List.cons_append, List.cons.injEq] at hab
    exact h as b hab.2

theorem eatTo_run (hf : Steady f) (n : Nat) : ∀ k cs j x, eatTo (f n) k ⟨encText cs, j⟩ = .ret x →
    (∃ pre post u, x = (true, ⟨encText post, j⟩) ∧ FirstHit f j cs pre post u) ∨
      x.1 = false ∧ x.2.jan = j ∧ ∀ a b, cs = a ++ b → MissAt f j (encText b)
  | 0, _, _, _, h => by cases h
  | k + 1, cs, j, x, h => by
    unfold eatTo at h
    obtain ⟨⟨ok, st⟩, h1, h2⟩ := Exec.bind_eq_ret.mp h
    rcases hf.case h1 with ⟨rfl, h3, h4⟩ | ⟨rfl, rfl, h3⟩
    · simp only [if_true, Exec.pure_eq, Exec.ret.injEq] at h2
      exact .inl ⟨[], cs, st.rest, by rw [← h2, h4], .here h3⟩
    · simp only [Bool.false_eq_true, if_false] at h2
      cases cs with
      | nil =>
        cases h2
        refine .inr ⟨rfl, rfl, fun a b hab => ?_⟩
        obtain ⟨rfl, rfl⟩ := List.append_eq_nil_iff.mp hab.symm
        exact h3
      | cons c cs =>
        rw [encText_cons, eatStep_char] at h2
        simp only [if_true] at h2
        rcases eatTo_run hf n k cs j x h2 with ⟨pre, post, u, h4, h5⟩ | ⟨h4, h5, h6⟩
        · exact .inl ⟨c :: pre, post, u, h4, h5.later h3⟩
        · exact .inr ⟨h4, h5, allMiss_cons h3 h6⟩

theorem eatTo_hit (hf : Steady f) (j : Nat → Bytes) : ∀ cs pre post u, FirstHit f j cs pre post u →
    ∃ N, ∀ n, N ≤ n → eatTo (f n) n ⟨encText cs, j⟩ = .ret (true, ⟨encText post, j⟩)
  | cs, [], post, u, ⟨h1, ⟨n0, h2⟩, _⟩ => by
    rw [List.nil_append] at h1
    subst h1
    refine ⟨n0 + 1, fun n hn => ?_⟩
    obtain ⟨m, rfl⟩ : ∃ m, n = m + 1 := ⟨n - 1, by omega⟩
    unfold eatTo
    rw [hf.mono (by omega) h2]
    rfl
  | [], p :: pre, post, u, ⟨h1, _⟩ => by cases h1
  | c :: cs, p :: pre, post, u, h => by
    rcases h.inv with ⟨h1, _⟩ | ⟨⟨n0, h1⟩, pre', h2, h3⟩
    · cases h1
    · cases h2
      obtain ⟨N, hN⟩ := eatTo_hit hf j cs pre post u h3
      refine ⟨max n0 N + 1, fun n hn => ?_⟩
      obtain ⟨m, rfl⟩ : ∃ m, n = m + 1 := ⟨n - 1, by omega⟩
      unfold eatTo
      rw [hf.mono (by omega) h1]
      simp only [Exec.bind_ret, Bool.false_eq_true, if_false]
      rw [encText_cons, eatStep_char]
      simp only [if_true]
      exact (eatTo_le (fun st => hf.le (Nat.le_succ m) st) m m _ (Nat.le_refl _)).ret (hN m (by omega))

theorem eatTo_miss (hf : Steady f) (j : Nat → Bytes) : ∀ cs : List Char, (∀ a b, cs = a ++ b → MissAt f j (encText b)) →
    ∃ N, ∀ n, N ≤ n → ∃ st, eatTo (f n) n ⟨encText cs, j⟩ = .ret (false, st)
  | [], h => by
    obtain ⟨n0, h0⟩ := h [] [] rfl
    refine ⟨n0 + 1, fun n hn => ?_⟩
    obtain ⟨m, rfl⟩ : ∃ m, n = m + 1 := ⟨n - 1, by omega⟩
    unfold eatTo
    rw [hf.mono (by omega) h0]
    exact ⟨_, rfl⟩
  | c :: cs, h => by
    obtain ⟨n0, h0⟩ := h [] (c :: cs) rfl
    obtain ⟨N, hN⟩ := eatTo_miss hf j cs fun a b hab => h (c :: a) b (by rw [hab]; rfl)
    refine ⟨max n0 N + 1, fun n hn => ?_⟩
    obtain ⟨m, rfl⟩ : ∃ m, n = m + 1 := ⟨n - 1, by omega⟩
    unfold eatTo
    rw [hf.mono (by omega) h0]
    simp only [Exec.bind_ret, Bool.false_eq_true, if_false]
    rw [encText_cons, eatStep_char]
    simp only [if_true]
    obtain ⟨st, hst⟩ := hN m (by omega)
    exact ⟨st, (eatTo_le (fun st => hf.le (Nat.le_succ m) st) m m _ (Nat.le_refl _)).ret hst⟩

theorem encText_ne_nil (c : Char) (cs : List Char) : encText (c :: cs) ≠ [] := by
  rw [encText_cons]
  exact fun h => enc_ne_nil c (List.append_eq_nil_iff.mp h).1

theorem eatPast_run (hf : Steady f) (n : Nat) : ∀ k cs j x, eatPast (f n) k ⟨encText cs, j⟩ = .ret x →
    (∃ pre post u, x = (true, ⟨u, j⟩) ∧ post ≠ [] ∧ FirstHit f j cs pre post u) ∨
      x.1 = false ∧ x.2.jan = j ∧ ∀ a b, cs = a ++ b → b ≠ [] → MissAt f j (encText b)
  | 0, _, _, _, h => by cases h
  | k + 1, [], j, x, h => by
    unfold eatPast at h
    rw [if_pos encText_nil] at h
    cases h
    refine .inr ⟨rfl, rfl, fun a b hab hb => absurd (List.append_eq_nil_iff.mp hab.symm).2 hb⟩
  | k + 1, c :: cs, j, x, h => by
    unfold eatPast at h
    rw [if_neg (encText_ne_nil c cs)] at h
    obtain ⟨⟨ok, st⟩, h1, h2⟩ := Exec.bind_eq_ret.mp h
    rcases hf.case h1 with ⟨rfl, h3, h4⟩ | ⟨rfl, rfl, h3⟩
    · simp only [if_true, Exec.pure_eq, Exec.ret.injEq] at h2
      exact .inl ⟨[], c :: cs, st.rest, by rw [← h2, ← h4], by simp, .here h3⟩
    · simp only [Bool.false_eq_true, if_false] at h2
      rw [encText_cons, eatStep_char] at h2
      rcases eatPast_run hf n k cs j x h2 with ⟨pre, post, u, h4, hp, h5⟩ | ⟨h4, h5, h6⟩
      · exact .inl ⟨c :: pre, post, u, h4, hp, h5.later h3⟩
      · exact .inr ⟨h4, h5, allMiss_cons (p := fun b => b ≠ [] → MissAt f j (encText b)) (fun _ => h3) h6⟩

theorem eatPast_hit (hf : Steady f) (j : Nat → Bytes) : ∀ cs pre post u, post ≠ [] → FirstHit f j cs pre post u →
    ∃ N, ∀ n, N ≤ n → eatPast (f n) n ⟨encText cs, j⟩ = .ret (true, ⟨u, j⟩)
  | [], pre, post, u, hp, ⟨h1, _⟩ => absurd (List.append_eq_nil_iff.mp h1.symm).2 hp
  | c :: cs, pre, post, u, hp, h => by
    rcases h.inv with ⟨rfl, rfl, n0, h1⟩ | ⟨⟨n0, h1⟩, pre', h2, h3⟩
    · refine ⟨n0 + 1, fun n hn => ?_⟩
      obtain ⟨m, rfl⟩ : ∃ m, n = m + 1 := ⟨n - 1, by omega⟩
      unfold eatPast
      rw [if_neg (encText_ne_nil c cs), hf.mono (by omega) h1]
      rfl
    · obtain ⟨N, hN⟩ := eatPast_hit hf j cs pre' post u hp h3
      refine ⟨max n0 N + 1, fun n hn => ?_⟩
      obtain ⟨m, rfl⟩ : ∃ m, n = m + 1 := ⟨n - 1, by omega⟩
      unfold eatPast
      rw [if_neg (encText_ne_nil c cs), hf.mono (by omega) h1]
      simp only [Exec.bind_ret, Bool.false_eq_true, if_false]
      rw [encText_cons, eatStep_char]
      exact (eatPast_le (fun st => hf.le (Nat.le_succ m) st) m m _ (Nat.le_refl _)).ret (hN m (by omega))

theorem eatPast_miss (hf : Steady f) (j : Nat → Bytes) : ∀ cs : List Char, (∀ a b, cs = a ++ b → b ≠ [] → MissAt f j (encText b)) →
    ∃ N, ∀ n, N ≤ n → ∃ st, eatPast (f n) n ⟨encText cs, j⟩ = .ret (false, st)
  | [], _ => ⟨1, fun n hn => by
    obtain ⟨m, rfl⟩ : ∃ m, n = m + 1 := ⟨n - 1, by omega⟩
    unfold eatPast
    rw [if_pos encText_nil]
    exact ⟨_, rfl⟩⟩
  | c :: cs, h => by
    obtain ⟨n0, h0⟩ := h [] (c :: cs) rfl (by simp)
    obtain ⟨N, hN⟩ := eatPast_miss hf j cs fun a b hab => h (c :: a) b (by rw [hab]; rfl)
    refine ⟨max n0 N + 1, fun n hn => ?_⟩
    obtain ⟨m, rfl⟩ : ∃ m, n = m + 1 := ⟨n - 1, by omega⟩
    unfold eatPast
    rw [if_neg (encText_ne_nil c cs), hf.mono (by omega) h0]
    simp only [Exec.bind_ret, Bool.false_eq_true, if_false]
    rw [encText_cons, eatStep_char]
    obtain ⟨st, hst⟩ := hN m (by omega)
    exact ⟨st, (eatPast_le (fun st => hf.le (Nat.le_succ m) st) m m _ (Nat.le_refl _)).ret hst⟩

/-! `Body` and `BodyTail` -/

theorem take_before (pre cs : List Char) :
    (encText (pre ++ cs)).take ((encText (pre ++ cs)).length - (encText cs).length) = encText pre := by
  rw [encText_append, List.length_append, Nat.add_sub_cancel, List.take_left']
  rfl

variable {b : Nat → EatFunc}

theorem eatBody_run (hf : Steady f) (hb : ∀ {n t j ok st}, b n ⟨t, j⟩ = .ret (ok, st) → st.jan = j) (n : Nat) : ∀ k pre0 cs j x,
    eatBody (b n) (f n) (encText (pre0 ++ cs)) k ⟨encText cs, j⟩ = .ret x →
    x.2.jan = j ∧ ((∃ pre post u, x.1 = some (encText post) ∧ x.2.rest = u ∧ post ≠ [] ∧ FirstHit f j cs pre post u ∧ HitAt b j (encText (pre0 ++ pre)) []) ∨
      x.1 = none ∧ ((∀ a d, cs = a ++ d → d ≠ [] → MissAt f j (encText d)) ∨
        ∃ pre post u ok v, post ≠ [] ∧ FirstHit f j cs pre post u ∧ b n ⟨encText (pre0 ++ pre), j⟩ = .ret (ok, ⟨v, j⟩) ∧ (ok = true → v ≠ [])))
  | 0, _, _, _, _, h => by cases h
  | k + 1, pre0, [], j, x, h => by
    unfold eatBody at h
    rw [if_pos encText_nil] at h
    cases h
    exact ⟨rfl, .inr ⟨rfl, .inl fun a d had hd => absurd (List.append_eq_nil_iff.mp had.symm).2 hd⟩⟩
  | k + 1, pre0, c :: cs, j, x, h => by
    unfold eatBody at h
    rw [if_neg (encText_ne_nil c cs)] at h
    obtain ⟨⟨ok, st⟩, h1, h2⟩ := Exec.bind_eq_ret.mp h
    rcases hf.case h1 with ⟨rfl, h3, h4⟩ | ⟨rfl, rfl, h3⟩
    · simp only [if_true] at h2
      rw [h4, take_before] at h2
      obtain ⟨⟨ok, sub⟩, h5, h6⟩ := Exec.bind_eq_ret.mp h2
      have h7 := hb h5
      obtain ⟨v, w⟩ := sub
      simp only at h7 h6
      subst h7
      by_cases hv : (ok && v.isEmpty) = true
      · rw [if_pos hv] at h6
        cases h6
        simp only [Bool.and_eq_true, List.isEmpty_iff] at hv
        obtain ⟨rfl, rfl⟩ := hv
        exact ⟨rfl, .inl ⟨[], c :: cs, st.rest, rfl, rfl, by simp, .here h3, n, by rw [List.append_nil]; exact h5⟩⟩
      · rw [if_neg hv] at h6
        cases h6
        refine ⟨rfl, .inr ⟨rfl, .inr ⟨[], c :: cs, st.rest, ok, v, by simp, .here h3, by rw [List.append_nil]; exact h5, ?_⟩⟩⟩
        rintro rfl rfl
        exact hv rfl
    · simp only [Bool.false_eq_true, if_false] at h2
      rw [encText_cons, eatStep_char] at h2
      rw [show pre0 ++ c :: cs = (pre0 ++ [c]) ++ cs by simp] at h2
      obtain ⟨h4, h5⟩ := eatBody_run hf hb n k (pre0 ++ [c]) cs j x h2
      refine ⟨h4, ?_⟩
      rcases h5 with ⟨pre, post, u, h5, h6, h7, h8, h9⟩ | ⟨h5, h6 | ⟨pre, post, u, ok, v, h6, h7, h8, h9⟩⟩
      · exact .inl ⟨c :: pre, post, u, h5, h6, h7, h8.later h3, by simpa using h9⟩
      · exact .inr ⟨h5, .inl (allMiss_cons (p := fun b => b ≠ [] → MissAt f j (encText b)) (fun _ => h3) h6)⟩
      · exact .inr ⟨h5, .inr ⟨c :: pre, post, u, ok, v, h6, h7.later h3, by simpa using h8, h9⟩⟩

theorem eatBody_hit (hf : Steady f) (hm : ∀ {n m}, n ≤ m → ∀ st, LeE (b n st) (b m st)) (j : Nat → Bytes) (ok : Bool) (v : Bytes) :
    ∀ cs pre0 pre post u, post ≠ [] → FirstHit f j cs pre post u → (∃ n, b n ⟨encText (pre0 ++ pre), j⟩ = .ret (ok, ⟨v, j⟩)) →
    ∃ N, ∀ n, N ≤ n → eatBody (b n) (f n) (encText (pre0 ++ cs)) n ⟨encText cs, j⟩ =
      .ret (if ok && v.isEmpty then some (encText post) else none, ⟨u, j⟩)
  | [], _, pre, post, u, hp, ⟨h1, _⟩, _ => absurd (List.append_eq_nil_iff.mp h1.symm).2 hp
  | c :: cs, pre0, pre, post, u, hp, h, ⟨n1, hbd⟩ => by
    rcases h.inv with ⟨rfl, rfl, n0, h1⟩ | ⟨⟨n0, h1⟩, pre', h2, h3⟩
    · refine ⟨max n0 n1 + 1, fun n hn => ?_⟩
      obtain ⟨m, rfl⟩ : ∃ m, n = m + 1 := ⟨n - 1, by omega⟩
      unfold eatBody
      rw [if_neg (encText_ne_nil c cs), hf.mono (by omega) h1]
      simp only [Exec.bind_ret, if_true]
      rw [List.append_nil] at hbd
      rw [take_before, (hm (by omega) _).ret hbd]
      simp only [Exec.bind_ret]
      split <;> rfl
    · subst h2
      obtain ⟨N, hN⟩ := eatBody_hit hf hm j ok v cs (pre0 ++ [c]) pre' post u hp h3 ⟨n1, by simpa using hbd⟩
      refine ⟨max n0 N + 1, fun n hn => ?_⟩
      obtain ⟨m, rfl⟩ : ∃ m, n = m + 1 := ⟨n - 1, by omega⟩
      unfold eatBody
      rw [if_neg (encText_ne_nil c cs), hf.mono (by omega) h1]
      simp only [Exec.bind_ret, Bool.false_eq_true, if_false]
      rw [encText_cons, eatStep_char]
      have := hN m (by omega)
      rw [show (pre0 ++ [c]) ++ cs = pre0 ++ c :: cs by simp] at this
      exact (eatBody_le (fun st => hm (Nat.le_succ m) st) (fun st => hf.le (Nat.le_succ m) st) _ m m _ (Nat.le_refl _)).ret this

theorem eatBody_miss (hf : Steady f) (hm : ∀ {n m}, n ≤ m → ∀ st, LeE (b n st) (b m st)) (j : Nat → Bytes) (t0 : Bytes) : ∀ cs : List Char,
    (∀ a d, cs = a ++ d → d ≠ [] → MissAt f j (encText d)) →
    ∃ N, ∀ n, N ≤ n → ∃ st, eatBody (b n) (f n) t0 n ⟨encText cs, j⟩ = .ret (none, st)
  | [], _ => ⟨1, fun n hn => by
    obtain ⟨m, rfl⟩ : ∃ m, n = m + 1 := ⟨n - 1, by omega⟩
    unfold eatBody
    rw [if_pos encText_nil]
    exact ⟨_, rfl⟩⟩
  | c :: cs, h => by
    obtain ⟨n0, h0⟩ := h [] (c :: cs) rfl (by simp)
    obtain ⟨N, hN⟩ := eatBody_miss hf hm j t0 cs fun a b hab => h (c :: a) b (by rw [hab]; rfl)
    refine ⟨max n0 N + 1, fun n hn => ?_⟩
    obtain ⟨m, rfl⟩ : ∃ m, n = m + 1 := ⟨n - 1, by omega⟩
    unfold eatBody
    rw [if_neg (encText_ne_nil c cs), hf.mono (by omega) h0]
    simp only [Exec.bind_ret, Bool.false_eq_true, if_false]
    rw [encText_cons, eatStep_char]
    obtain ⟨st, hst⟩ := hN m (by omega)
    exact ⟨st, (eatBody_le (fun st => hm (Nat.le_succ m) st) (fun st => hf.le (Nat.le_succ m) st) _ m m _ (Nat.le_refl _)).ret hst⟩

end
end Tok
