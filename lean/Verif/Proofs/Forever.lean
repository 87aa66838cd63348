/-
Reads that go on for ever, on the text ahead.
-/
import Verif.Proofs.Term
import Verif.Proofs.LawSwap
import Verif.Props.C49
import Verif.Spec.Forever

namespace Tok
open Spec

theorem onward_eq (t : Bytes) : onward t = eatStep t := by
  have h : Sees t (Scanner.new t Heap.empty) ⟨t, Heap.empty.janus⟩ := ⟨rfl, ⟨[], rfl, rfl⟩, rfl⟩
  have := moveRunes_sim h
  unfold onward
  revert this
  generalize (Scanner.new t Heap.empty).moveRunes 1 = x
  intro hx
  obtain ⟨a, rfl, h1, h2⟩ := hx.right (show lift eatStep ⟨t, Heap.empty.janus⟩ = .ret _ from rfl)
  obtain ⟨ok, s⟩ := a
  obtain ⟨h3, ⟨g, h4, h5⟩, _⟩ := h2
  simp only at h1 h3 h4 h5 ⊢
  refine Prod.ext h1 ?_
  simp only
  rw [h5, Int.toNat_natCast]
  have : t = g ++ (eatStep t).2 := h3.symm.trans h4
  conv_lhs => rw [this]
  rw [List.drop_left]

section
variable {rt : Rt} {G : Env}

/-- The budget-indexed outcome. -/
theorem E.or {r : Reader} {st : St} {x : Bool × St} (h : E rt G r st x) (n : Nat) : eat rt G n r st = .timeout ∨ eat rt G n r st = .ret x := by
  obtain ⟨m, h⟩ := h
  exact eat_or h n

/-! ### calls that do not end -/

theorem eatAny_out {pre post : List Reader} {c : Reader} {st st' : St} (h : Falls (E rt G) pre st st') {n : Nat}
    (hc : eat rt G n c st' = .timeout) : eatAny (eat rt G n) (pre ++ c :: post) st = .timeout := by
  induction h with
  | nil st => show (eat rt G n c st).bind _ = _; rw [hc]; rfl
  | cons h _ ih =>
    show (eat rt G n _ _).bind _ = _
    rcases h.or n with h | h
    · rw [h]; rfl
    · rw [h]; exact ih hc

theorem eatSeq_out {pre post : List Reader} {c : Reader} {st st' : St} (h : Passes (E rt G) pre st st') {n : Nat}
    (hc : eat rt G n c st' = .timeout) : eatSeq (eat rt G n) (pre ++ c :: post) st = .timeout := by
  induction h with
  | nil st => show (eat rt G n c st).bind _ = _; rw [hc]; rfl
  | cons h _ ih =>
    show (eat rt G n _ _).bind _ = _
    rcases h.or n with h | h
    · rw [h]; rfl
    · rw [h]; exact ih hc

theorem eatSkip_eq (rd : Reader → EatFunc) (sk : Reader) : ∀ rs st, eatSkip rd sk rs st = eatSeq rd (rs.flatMap fun r => [r, sk]) st
  | [], st => rfl
  | r :: rs, st => by
    show (rd r st).bind _ = (rd r st).bind _
    congr 1
    funext ⟨ok, st'⟩
    cases ok
    · rfl
    · show (rd sk st').bind _ = (rd sk st').bind _
      congr 1
      funext ⟨ok, st''⟩
      cases ok
      · rfl
      · exact eatSkip_eq rd sk rs st''

theorem eatTimes_eq (rd : Reader → EatFunc) (c : Reader) : ∀ k st, eatTimes (rd c) k st = eatSeq rd (.replicate k c) st
  | 0, st => rfl
  | k + 1, st => by
    show (rd c st).bind _ = (rd c st).bind _
    congr 1
    funext ⟨ok, st'⟩
    cases ok
    · rfl
    · exact eatTimes_eq rd c k st'

/-- `SkipSeq` is a `Seq`. -/
theorem eat_weave (n : Nat) (sk : Reader) (rs : List Reader) (st : St) : eat rt G (n + 1) (.skipSeq sk rs) st = eat rt G (n + 1) (.seq (weave sk rs)) st := by
  show (do let (ok, st') ← eat rt G n sk st
           let x ← if ok then eatSkip (eat rt G n) sk rs st' else pure (false, st')
           pure (orBack st.rest x)) = (do let x ← eatSeq (eat rt G n) (sk :: rs.flatMap fun r => [r, sk]) st; pure (orBack st.rest x))
  simp only [eatSeq]
  cases eat rt G n sk st with
  | timeout => rfl
  | panic => rfl
  | ret a =>
    obtain ⟨ok, st'⟩ := a
    cases ok
    · rfl
    · show (eatSkip (eat rt G n) sk rs st').bind _ = _
      rw [eatSkip_eq]; rfl

theorem eatZom_out {c : Reader} {i : Nat} {st st' : St} (h : Passes (E rt G) (.replicate i c) st st') {n : Nat}
    (hc : eat rt G n c st' = .timeout) (k : Nat) : eatZom (eat rt G n c) k st = .timeout := by
  induction i generalizing st k with
  | zero =>
    cases h
    cases k with
    | zero => rfl
    | succ k => show (eat rt G n c st').bind _ = _; rw [hc]; rfl
  | succ i ih =>
    cases h with
    | cons h h' =>
    cases k with
    | zero => rfl
    | succ k =>
      show (eat rt G n c st).bind _ = _
      rcases h.or n with h | h
      · rw [h]; rfl
      · rw [h]; exact ih h' k

theorem eatPast_out {c : Reader} {st st' : St} (h : Searches (E rt G) c st st') {n : Nat} (hs : st'.rest ≠ [])
    (hc : eat rt G n c st' = .timeout) (k : Nat) : eatPast (eat rt G n c) k st = .timeout := by
  induction h generalizing k with
  | refl st =>
    cases k with
    | zero => rfl
    | succ k => unfold eatPast; rw [if_neg hs, hc]; rfl
  | step hn h _ ih =>
    cases k with
    | zero => rfl
    | succ k =>
      unfold eatPast
      rw [if_neg hn]
      rcases h.or n with h | h
      · rw [h]; rfl
      · rw [h]; simp only [Exec.bind_ret, Bool.false_eq_true, if_false]; rw [← onward_eq]; exact ih hs hc k

theorem eatTo_out {c : Reader} {st st' : St} (h : Seeks (E rt G) c st st') {n : Nat}
    (hc : eat rt G n c st' = .timeout) (k : Nat) : eatTo (eat rt G n c) k st = .timeout := by
  induction h generalizing k with
  | refl st =>
    cases k with
    | zero => rfl
    | succ k => unfold eatTo; rw [hc]; rfl
  | step h hn _ ih =>
    cases k with
    | zero => rfl
    | succ k =>
      unfold eatTo
      rcases h.or n with h | h
      · rw [h]; rfl
      · rw [h]
        show (if _ then _ else _) = _
        rw [onward_eq] at hn ih
        rw [if_pos hn]
        exact ih hc k

/-- A search for the tail that gets to a place where all ends with a timeout. -/
theorem eatBody_out {b t : Reader} {t0 : Bytes} {st st' : St} (h : Searches (E rt G) t st st') {n : Nat}
    (hc : ∀ k, eatBody (eat rt G n b) (eat rt G n t) t0 k st' = .timeout) (k : Nat) :
    eatBody (eat rt G n b) (eat rt G n t) t0 k st = .timeout := by
  induction h generalizing k with
  | refl st => exact hc k
  | step hn h _ ih =>
    cases k with
    | zero => rfl
    | succ k =>
      unfold eatBody
      rw [if_neg hn]
      rcases h.or n with h | h
      · rw [h]; rfl
      · rw [h]; simp only [Exec.bind_ret, Bool.false_eq_true, if_false]; rw [← onward_eq]; exact ih hc k

theorem bodySearch_out {b t : Reader} {t0 : Bytes} {st st' : St} (h : Searches (E rt G) t st st') {n : Nat} (hs : st'.rest ≠ [])
    (hc : eat rt G n t st' = .timeout) (k : Nat) : eatBody (eat rt G n b) (eat rt G n t) t0 k st = .timeout := by
  refine eatBody_out h (fun k => ?_) k
  cases k with
  | zero => rfl
  | succ k => unfold eatBody; rw [if_neg hs, hc]; rfl

theorem bodyFirst_out {b t : Reader} {t0 : Bytes} {st st' st'' : St} (h : Searches (E rt G) t st st') {n : Nat} (hs : st'.rest ≠ [])
    (ht : E rt G t st' (true, st'')) (hc : eat rt G n b ⟨t0.take (t0.length - st'.rest.length), st''.jan⟩ = .timeout) (k : Nat) :
    eatBody (eat rt G n b) (eat rt G n t) t0 k st = .timeout := by
  refine eatBody_out h (fun k => ?_) k
  cases k with
  | zero => rfl
  | succ k =>
    unfold eatBody
    rw [if_neg hs]
    rcases ht.or n with h | h
    · rw [h]; rfl
    · rw [h]
      simp only [Exec.bind_ret, if_true]
      rw [hc]; rfl

/-- If a call runs out of budget, so does the caller. -/
theorem calls_out {r c : Reader} {st st' : St} (h : Calls G (E rt G) r st c st') {n : Nat} (hc : eat rt G n c st' = .timeout) :
    eat rt G (n + 1) r st = .timeout := by
  cases h with
  | any h => show (eatAny _ _ _).bind _ = _; rw [eatAny_out h hc]; rfl
  | at_ => show (eat _ _ _ _ _).bind _ = _; rw [hc]; rfl
  | bodySearch h hs => show (eatBody _ _ _ _ _).bind _ = _; rw [bodySearch_out h hs hc]; rfl
  | bodyFirst h hs ht => show (eatBody _ _ _ _ _).bind _ = _; rw [bodyFirst_out h hs ht hc]; rfl
  | bodyTailSearch h hs => show (eatBody _ _ _ _ _).bind _ = _; rw [bodySearch_out h hs hc]; rfl
  | bodyTailFirst h hs ht => show (eatBody _ _ _ _ _).bind _ = _; rw [bodyFirst_out h hs ht hc]; rfl
  | janusBegin => show (eat _ _ _ _ _).bind _ = _; rw [hc]; rfl
  | many h => show (eatZom _ _ _).bind _ = _; rw [eatZom_out h hc]; rfl
  | map => show (eat _ _ _ _ _).bind _ = _; rw [hc]; rfl
  | named => exact hc
  | not => show (eat _ _ _ _ _).bind _ = _; rw [hc]; rfl
  | opt => show (eat _ _ _ _ _).bind _ = _; rw [hc]; rfl
  | past h hs => show (eatPast _ _ _).bind _ = _; rw [eatPast_out h hs hc]; rfl
  | seq h => show (eatSeq _ _ _).bind _ = _; rw [eatSeq_out h hc]; rfl
  | skipSeq hw h => rw [eat_weave, hw]; show (eatSeq _ _ _).bind _ = _; rw [eatSeq_out h hc]; rfl
  | @times k i c _ _ hi h =>
    show eatTimes (eat rt G n c) k.toNat st = _
    rw [eatTimes_eq, show k.toNat = i + ((k.toNat - i - 1) + 1) by omega, List.replicate_add, List.replicate_succ]
    exact eatSeq_out h hc
  | «to» h => show (eatTo _ _ _).bind _ = _; rw [eatTo_out h hc]; rfl
  | zom h => show (eatZom _ _ _).bind _ = _; rw [eatZom_out h hc]; rfl
  | pick => show (eat _ _ _ _ _).bind _ = _; rw [hc]; rfl
  | monitor => exact hc
  | rule hi => simp only [eat, hi]; exact hc
  | ruleName => exact hc
  | grammar => exact hc

theorem calls_noEnd {r c : Reader} {st st' : St} (h : Calls G (E rt G) r st c st') (hc : NoEnd rt G c st') : NoEnd rt G r st
  | 0 => rfl
  | n + 1 => calls_out h (hc n)

theorem getsTo_noEnd {r c : Reader} {st st' : St} (h : GetsTo G (E rt G) r st c st') (hc : NoEnd rt G c st') : NoEnd rt G r st := by
  induction h with
  | refl => exact hc
  | call h _ ih => exact calls_noEnd h (ih hc)

theorem circles_noEnd {r : Reader} {st : St} (h : Circles G (E rt G) r st) : NoEnd rt G r st := by
  obtain ⟨f, g, rfl, rfl, h⟩ := h
  intro n
  generalize 0 = i
  induction n generalizing i with
  | zero => rfl
  | succ n ih => exact calls_out (h i).1 (ih (i + 1))

theorem eatZom_repeats {c : Reader} {f : Nat → St} (h : ∀ i, E rt G c (f i) (true, f (i + 1))) (n : Nat) :
    ∀ k i, eatZom (eat rt G n c) k (f i) = .timeout
  | 0, _ => rfl
  | k + 1, i => by
    show (eat rt G n c (f i)).bind _ = _
    rcases (h i).or n with h' | h'
    · rw [h']; rfl
    · rw [h']; exact eatZom_repeats h n k (i + 1)

theorem eatZom_pass {c : Reader} {i : Nat} {st st' : St} (h : Passes (E rt G) (.replicate i c) st st') {n : Nat}
    (hc : ∀ k, eatZom (eat rt G n c) k st' = .timeout) (k : Nat) : eatZom (eat rt G n c) k st = .timeout := by
  induction i generalizing st k with
  | zero => cases h; exact hc k
  | succ i ih =>
    cases h with
    | cons h h' =>
    cases k with
    | zero => rfl
    | succ k =>
      show (eat rt G n c st).bind _ = _
      rcases h.or n with h | h
      · rw [h]; rfl
      · rw [h]; exact ih h' k

theorem eatPast_stalls {c : Reader} {f g : Nat → St}
    (h : ∀ i, E rt G c (f i) (false, g i) ∧ f (i + 1) = ⟨(onward (g i).rest).2, (g i).jan⟩ ∧ (f i).rest ≠ []) (n : Nat) :
    ∀ k i, eatPast (eat rt G n c) k (f i) = .timeout
  | 0, _ => rfl
  | k + 1, i => by
    unfold eatPast
    obtain ⟨h1, h2, h3⟩ := h i
    rw [if_neg h3]
    rcases h1.or n with h' | h'
    · rw [h']; rfl
    · rw [h']
      simp only [Exec.bind_ret, Bool.false_eq_true, if_false]
      rw [← onward_eq, ← h2]
      exact eatPast_stalls h n k (i + 1)

theorem eatPast_pass {c : Reader} {st st' : St} (h : Searches (E rt G) c st st') {n : Nat}
    (hc : ∀ k, eatPast (eat rt G n c) k st' = .timeout) (k : Nat) : eatPast (eat rt G n c) k st = .timeout := by
  induction h generalizing k with
  | refl st => exact hc k
  | step hn h _ ih =>
    cases k with
    | zero => rfl
    | succ k =>
      unfold eatPast
      rw [if_neg hn]
      rcases h.or n with h | h
      · rw [h]; rfl
      · rw [h]; simp only [Exec.bind_ret, Bool.false_eq_true, if_false]; rw [← onward_eq]; exact ih hc k

theorem eatBody_stalls {b c : Reader} {t0 : Bytes} {f g : Nat → St}
    (h : ∀ i, E rt G c (f i) (false, g i) ∧ f (i + 1) = ⟨(onward (g i).rest).2, (g i).jan⟩ ∧ (f i).rest ≠ []) (n : Nat) :
    ∀ k i, eatBody (eat rt G n b) (eat rt G n c) t0 k (f i) = .timeout
  | 0, _ => rfl
  | k + 1, i => by
    unfold eatBody
    obtain ⟨h1, h2, h3⟩ := h i
    rw [if_neg h3]
    rcases h1.or n with h' | h'
    · rw [h']; rfl
    · rw [h']
      simp only [Exec.bind_ret, Bool.false_eq_true, if_false]
      rw [← onward_eq, ← h2]
      exact eatBody_stalls h n k (i + 1)

theorem spins_noEnd {r : Reader} {st : St} (h : Spins (E rt G) r st) : NoEnd rt G r st := by
  intro n
  cases n with
  | zero => rfl
  | succ n =>
    have stalls : ∀ {c st}, Stalls (E rt G) c st → ∃ f g : Nat → St, f 0 = st ∧
        ∀ i, E rt G c (f i) (false, g i) ∧ f (i + 1) = ⟨(onward (g i).rest).2, (g i).jan⟩ ∧ (f i).rest ≠ [] := by
      rintro c st ⟨hn, f, g, h0, h⟩
      exact ⟨f, g, h0, fun i => ⟨(h i).1, (h i).2.1, by rw [(h i).2.2]; exact hn⟩⟩
    cases h with
    | zom hp h =>
      obtain ⟨f, rfl, h⟩ := h
      show (eatZom _ _ _).bind _ = _
      rw [eatZom_pass hp fun k => eatZom_repeats (fun i => (h i).1) n k 0]; rfl
    | many hp h =>
      obtain ⟨f, rfl, h⟩ := h
      show (eatZom _ _ _).bind _ = _
      rw [eatZom_pass hp fun k => eatZom_repeats (fun i => (h i).1) n k 0]; rfl
    | past hp h =>
      obtain ⟨f, g, rfl, hs⟩ := stalls h
      show (eatPast _ _ _).bind _ = _
      rw [eatPast_pass hp fun k => eatPast_stalls hs n k 0]; rfl
    | body hp h =>
      obtain ⟨f, g, rfl, hs⟩ := stalls h
      show (eatBody _ _ _ _ _).bind _ = _
      rw [eatBody_out hp fun k => eatBody_stalls hs n k 0]; rfl
    | bodyTail hp h =>
      obtain ⟨f, g, rfl, hs⟩ := stalls h
      show (eatBody _ _ _ _ _).bind _ = _
      rw [eatBody_out hp fun k => eatBody_stalls hs n k 0]; rfl

/-! ### calls that all end -/

/-- A sequence of numbers that does not grow stays the same in the end. -/
theorem settles (f : Nat → Nat) (h : ∀ i, f (i + 1) ≤ f i) : ∃ N, ∀ i, f (N + i) = f N := by
  suffices ∀ m j, f j ≤ m → ∃ N, ∀ i, f (N + i) = f N from this _ 0 (Nat.le_refl _)
  intro m
  have down : ∀ j i, f (j + i) ≤ f j := fun j i => by
    induction i with
    | zero => exact Nat.le_refl _
    | succ i ih => exact Nat.le_trans (h (j + i)) ih
  induction m with
  | zero => exact fun j hj => ⟨j, fun i => by have := down j i; omega⟩
  | succ m ih =>
    intro j hj
    by_cases hs : ∃ i, f (j + i) < f j
    · obtain ⟨i, hi⟩ := hs
      exact ih (j + i) (by omega)
    · refine ⟨j, fun i => ?_⟩
      have h1 := down j i
      exact Nat.le_antisymm h1 (Nat.le_of_not_lt fun h => hs ⟨i, h⟩)

theorem E.suffix' {r : Reader} {st : St} {x : Bool × St} (h : E rt G r st x) : x.2.rest <:+ st.rest := by
  obtain ⟨n, h⟩ := h
  exact (eat_shrinks rt G n r _ _ h : _)

theorem _root_.Tok.Spec.Falls.suffix {rs : List Reader} {st st' : St} (h : Falls (E rt G) rs st st') : st'.rest <:+ st.rest := by
  induction h with
  | nil => exact List.suffix_refl _
  | cons h _ ih => exact ih.trans h.suffix'

theorem _root_.Tok.Spec.Passes.suffix {rs : List Reader} {st st' : St} (h : Passes (E rt G) rs st st') : st'.rest <:+ st.rest := by
  induction h with
  | nil => exact List.suffix_refl _
  | cons h _ ih => exact ih.trans h.suffix'

theorem onward_suffix (t : Bytes) : (onward t).2 <:+ t := by rw [onward_eq]; exact eatStep_suffix t

theorem _root_.Tok.Spec.Searches.suffix {c : Reader} {st st' : St} (h : Searches (E rt G) c st st') : st'.rest <:+ st.rest := by
  induction h with
  | refl => exact List.suffix_refl _
  | step _ h _ ih => exact (ih.trans (onward_suffix _)).trans h.suffix'

theorem _root_.Tok.Spec.Seeks.suffix {c : Reader} {st st' : St} (h : Seeks (E rt G) c st st') : st'.rest <:+ st.rest := by
  induction h with
  | refl => exact List.suffix_refl _
  | step h _ _ ih => exact (ih.trans (onward_suffix _)).trans h.suffix'

/-- A call is on the text ahead, on an end of it or, for the first part of `Body`, on less. -/
theorem calls_suffix {r c : Reader} {st st' : St} (h : Calls G (E rt G) r st c st') :
    st'.rest <:+ st.rest ∨ st'.rest.length < st.rest.length := by
  have take : ∀ {t s : St}, s.rest <:+ t.rest → s.rest ≠ [] → (t.rest.take (t.rest.length - s.rest.length)).length < t.rest.length := fun h hn => by
    have := h.length_le
    have := List.length_pos_iff.mpr hn
    rw [List.length_take]; omega
  cases h with
  | any h => exact .inl h.suffix
  | bodySearch h => exact .inl h.suffix
  | bodyFirst h hs => exact .inr (take h.suffix hs)
  | bodyTailSearch h => exact .inl h.suffix
  | bodyTailFirst h hs => exact .inr (take h.suffix hs)
  | many h => exact .inl h.suffix
  | past h => exact .inl h.suffix
  | seq h => exact .inl h.suffix
  | skipSeq _ h => exact .inl h.suffix
  | times _ h => exact .inl h.suffix
  | «to» h => exact .inl h.suffix
  | zom h => exact .inl h.suffix
  | _ => exact .inl (List.suffix_refl _)

theorem calls_le {r c : Reader} {st st' : St} (h : Calls G (E rt G) r st c st') : st'.rest.length ≤ st.rest.length := by
  rcases calls_suffix h with h | h
  · exact h.length_le
  · omega

theorem calls_same {r c : Reader} {st st' : St} (h : Calls G (E rt G) r st c st') (hl : st'.rest.length = st.rest.length) : st'.rest = st.rest := by
  rcases calls_suffix h with h | h
  · exact h.eq_of_length hl
  · omega

theorem getsTo_trans {O : Reader → St → Bool × St → Prop} {r c d : Reader} {st st' st'' : St} (h : GetsTo G O r st c st') (h' : GetsTo G O c st' d st'') :
    GetsTo G O r st d st'' := by
  induction h with
  | refl => exact h'
  | call h _ ih => exact .call h (ih h')

/-- A chain that does not stop. -/
theorem unending {α : Type} {P : α → Prop} {R : α → α → Prop} (h : ∀ a, P a → ∃ b, R a b ∧ P b) {a : α} (ha : P a) :
    ∃ f : Nat → α, f 0 = a ∧ ∀ i, R (f i) (f (i + 1)) := by
  let next : {a // P a} → {a // P a} := fun x => ⟨(h x.1 x.2).choose, (h x.1 x.2).choose_spec.2⟩
  let f : Nat → {a // P a} := fun n => n.rec ⟨a, ha⟩ fun _ x => next x
  exact ⟨fun n => (f n).1, rfl, fun i => (h (f i).1 (f i).2).choose_spec.1⟩

/-- Without circles the calls end. -/
theorem calls_acc {r : Reader} {st : St} (hc : ∀ r' st', GetsTo G (E rt G) r st r' st' → ¬ Circles G (E rt G) r' st') :
    Acc (fun y x : Reader × St => Calls G (E rt G) x.1 x.2 y.1 y.2) (r, st) := by
  by_contra hn
  let R : Reader × St → Reader × St → Prop := fun x y => Calls G (E rt G) x.1 x.2 y.1 y.2
  have step : ∀ x, ¬ Acc (fun y x => R x y) x → ∃ y, R x y ∧ ¬ Acc (fun y x => R x y) y := by
    intro x hx
    by_contra hne
    refine hx (.intro x fun y hy => ?_)
    by_contra h
    exact hne ⟨y, hy, h⟩
  obtain ⟨f, hf, hR⟩ := unending step hn
  obtain ⟨N, hN⟩ := settles (fun i => (f i).2.rest.length) fun i => calls_le (hR i)
  have same : ∀ i, (f (N + i)).2.rest = (f N).2.rest := by
    intro i
    induction i with
    | zero => rfl
    | succ i ih => exact (calls_same (hR (N + i)) (by have h1 := hN i; have h2 := hN (i + 1); exact h2.trans h1.symm)).trans ih
  have gets : ∀ i, GetsTo G (E rt G) r st (f i).1 (f i).2 := by
    intro i
    induction i with
    | zero => rw [hf]; exact .refl _ _
    | succ i ih => exact getsTo_trans ih (.call (hR i) (.refl _ _))
  exact hc _ _ (gets N) ⟨fun i => (f (N + i)).1, fun i => (f (N + i)).2, rfl, rfl, fun i => ⟨hR (N + i), same i⟩⟩

theorem e_of {r : Reader} {st : St} {k : Nat} {x : Bool × St} (h : eat rt G k r st = .ret x) : E rt G r st x := ⟨k, h⟩

theorem any_halts : ∀ {rs : List Reader} {st : St}
    (_ : ∀ pre c post st', rs = pre ++ c :: post → Falls (E rt G) pre st st' → Halts (fun k => eat rt G k c st')),
    Halts (fun k => eatAny (eat rt G k) rs st)
  | [], _, _ => .ret
  | r :: rs, st, h => by
    refine (h [] r rs st rfl (.nil _)).bind fun k a ha => ?_
    obtain ⟨ok, st'⟩ := a
    cases ok
    · exact any_halts fun pre c post st'' e hp => h (r :: pre) c post st'' (by rw [e]; rfl) (.cons (e_of ha) hp)
    · exact .ret

theorem seq_halts : ∀ {rs : List Reader} {st : St}
    (_ : ∀ pre c post st', rs = pre ++ c :: post → Passes (E rt G) pre st st' → Halts (fun k => eat rt G k c st')),
    Halts (fun k => eatSeq (eat rt G k) rs st)
  | [], _, _ => .ret
  | r :: rs, st, h => by
    refine (h [] r rs st rfl (.nil _)).bind fun k a ha => ?_
    obtain ⟨ok, st'⟩ := a
    cases ok
    · exact .ret
    · exact seq_halts fun pre c post st'' e hp => h (r :: pre) c post st'' (by rw [e]; rfl) (.cons (e_of ha) hp)

theorem passes_snoc {c : Reader} {f : Nat → St} (h : ∀ i, E rt G c (f i) (true, f (i + 1))) : ∀ N i, Passes (E rt G) (.replicate N c) (f i) (f (i + N))
  | 0, i => .nil _
  | N + 1, i => by
    have := passes_snoc h N (i + 1)
    rw [show i + 1 + N = i + (N + 1) by omega] at this
    exact .cons (h i) this

theorem zom_halts {c : Reader} {st : St} (hc : ∀ i st', Passes (E rt G) (.replicate i c) st st' → Halts (fun k => eat rt G k c st'))
    (hs : ¬ Spins (E rt G) (.zom c) st) : Halts2 (fun k j => eatZom (eat rt G k c) j st) := by
  by_contra hn
  let P : St → Prop := fun st => ¬ Halts2 (fun k j => eatZom (eat rt G k c) j st) ∧
    ∀ i st', Passes (E rt G) (.replicate i c) st st' → Halts (fun k => eat rt G k c st')
  have step : ∀ a, P a → ∃ b, E rt G c a (true, b) ∧ P b := by
    rintro a ⟨ha, hca⟩
    by_contra hne
    refine ha (Halts2.shift (Halts2.bind (hca 0 a (.nil _)) fun k x hx => ?_))
    obtain ⟨ok, b⟩ := x
    cases ok
    · exact .ret
    · by_contra hb
      exact hne ⟨b, e_of hx, hb, fun i st' hp => hca (i + 1) st' (.cons (e_of hx) hp)⟩
  obtain ⟨f, rfl, hf⟩ := unending step ⟨hn, hc⟩
  obtain ⟨N, hN⟩ := settles (fun i => (f i).rest.length) fun i => (hf i).suffix'.length_le
  have same : ∀ i, (f (N + i)).rest = (f N).rest := by
    intro i
    induction i with
    | zero => rfl
    | succ i ih => exact ((hf (N + i)).suffix'.eq_of_length ((hN (i + 1)).trans (hN i).symm)).trans ih
  refine hs (.zom (i := N) (st' := f N) ?_ ⟨fun i => f (N + i), rfl, fun i => ⟨hf (N + i), same i⟩⟩)
  have := passes_snoc hf N 0
  rwa [Nat.zero_add] at this

theorem searches_snoc {c : Reader} {f : Nat → St} (h : ∀ i, (f i).rest ≠ [] ∧ ∃ m, E rt G c (f i) (false, m) ∧ f (i + 1) = ⟨(onward m.rest).2, m.jan⟩) :
    ∀ N i, Searches (E rt G) c (f i) (f (i + N))
  | 0, i => .refl _
  | N + 1, i => by
    have := searches_snoc h N (i + 1)
    rw [show i + 1 + N = i + (N + 1) by omega] at this
    obtain ⟨h1, m, h2, h3⟩ := h i
    rw [h3] at this
    exact .step h1 h2 this

/-- A search that does not stop comes to stay at one place. -/
theorem stalls_of {c : Reader} {f : Nat → St} (h : ∀ i, (f i).rest ≠ [] ∧ ∃ m, E rt G c (f i) (false, m) ∧ f (i + 1) = ⟨(onward m.rest).2, m.jan⟩) :
    ∃ st', Searches (E rt G) c (f 0) st' ∧ Stalls (E rt G) c st' := by
  have suf : ∀ i, (f (i + 1)).rest <:+ (f i).rest := fun i => by
    obtain ⟨_, m, h2, h3⟩ := h i
    rw [h3]
    exact (onward_suffix _).trans h2.suffix'
  obtain ⟨N, hN⟩ := settles (fun i => (f i).rest.length) fun i => (suf i).length_le
  have same : ∀ i, (f (N + i)).rest = (f N).rest := by
    intro i
    induction i with
    | zero => rfl
    | succ i ih => exact ((suf (N + i)).eq_of_length ((hN (i + 1)).trans (hN i).symm)).trans ih
  have := searches_snoc h N 0
  rw [Nat.zero_add] at this
  exact ⟨f N, this, (h N).1, fun i => f (N + i), fun i => (h (N + i)).2.choose, rfl, fun i =>
    ⟨(h (N + i)).2.choose_spec.1, (h (N + i)).2.choose_spec.2, same i⟩⟩

theorem past_halts {c : Reader} {st : St} (hc : ∀ st', Searches (E rt G) c st st' → st'.rest ≠ [] → Halts (fun k => eat rt G k c st'))
    (hs : ¬ ∃ st', Searches (E rt G) c st st' ∧ Stalls (E rt G) c st') : Halts2 (fun k j => eatPast (eat rt G k c) j st) := by
  by_contra hn
  let P : St → Prop := fun st => ¬ Halts2 (fun k j => eatPast (eat rt G k c) j st) ∧
    ∀ st', Searches (E rt G) c st st' → st'.rest ≠ [] → Halts (fun k => eat rt G k c st')
  have step : ∀ a, P a → ∃ b, (a.rest ≠ [] ∧ ∃ m, E rt G c a (false, m) ∧ b = ⟨(onward m.rest).2, m.jan⟩) ∧ P b := by
    rintro a ⟨ha, hca⟩
    by_contra hne
    refine ha (Halts2.shift ?_)
    simp only [eatPast]
    by_cases he : a.rest = []
    · simp only [if_pos he]; exact .ret
    · simp only [if_neg he]
      refine Halts2.bind (hca a (.refl _) he) fun k x hx => ?_
      obtain ⟨ok, m⟩ := x
      cases ok
      · by_contra hb
        refine hne ⟨⟨(onward m.rest).2, m.jan⟩, ⟨he, m, e_of hx, rfl⟩, ?_, fun st' hp => hca st' (.step he (e_of hx) hp)⟩
        rw [onward_eq]; exact hb
      · exact .ret
  obtain ⟨f, rfl, hf⟩ := unending step ⟨hn, hc⟩
  exact hs (stalls_of hf)

theorem body_halts {b c : Reader} {t0 : Bytes} {st : St} (hc : ∀ st', Searches (E rt G) c st st' → st'.rest ≠ [] → Halts (fun k => eat rt G k c st'))
    (hb : ∀ st' st'', Searches (E rt G) c st st' → st'.rest ≠ [] → E rt G c st' (true, st'') →
      Halts (fun k => eat rt G k b ⟨t0.take (t0.length - st'.rest.length), st''.jan⟩))
    (hs : ¬ ∃ st', Searches (E rt G) c st st' ∧ Stalls (E rt G) c st') :
    Halts2 (fun k j => eatBody (eat rt G k b) (eat rt G k c) t0 j st) := by
  by_contra hn
  let P : St → Prop := fun st => ¬ Halts2 (fun k j => eatBody (eat rt G k b) (eat rt G k c) t0 j st) ∧
    (∀ st', Searches (E rt G) c st st' → st'.rest ≠ [] → Halts (fun k => eat rt G k c st')) ∧
    (∀ st' st'', Searches (E rt G) c st st' → st'.rest ≠ [] → E rt G c st' (true, st'') →
      Halts (fun k => eat rt G k b ⟨t0.take (t0.length - st'.rest.length), st''.jan⟩))
  have step : ∀ a, P a → ∃ b, (a.rest ≠ [] ∧ ∃ m, E rt G c a (false, m) ∧ b = ⟨(onward m.rest).2, m.jan⟩) ∧ P b := by
    rintro a ⟨ha, hca, hba⟩
    by_contra hne
    refine ha (Halts2.shift ?_)
    simp only [eatBody]
    by_cases he : a.rest = []
    · simp only [if_pos he]; exact .ret
    · simp only [if_neg he]
      refine Halts2.bind (hca a (.refl _) he) fun k x hx => ?_
      obtain ⟨ok, m⟩ := x
      cases ok
      · by_contra hb
        refine hne ⟨⟨(onward m.rest).2, m.jan⟩, ⟨he, m, e_of hx, rfl⟩, ?_, fun st' hp => hca st' (.step he (e_of hx) hp),
          fun st' st'' hp => hba st' st'' (.step he (e_of hx) hp)⟩
        rw [onward_eq]; exact hb
      · simp only [if_true]
        refine Halts2.bind (hba a m (.refl _) he (e_of hx)) fun k y _ => ?_
        obtain ⟨ok, sub⟩ := y
        simp only
        split <;> exact .ret
  obtain ⟨f, rfl, hf⟩ := unending step ⟨hn, hc, hb⟩
  exact hs (stalls_of hf)

theorem to_halts {c : Reader} {L : Nat} : ∀ {st : St} (_ : st.rest.length ≤ L) (_ : ∀ st', Seeks (E rt G) c st st' → Halts (fun k => eat rt G k c st')),
    Halts2 (fun k j => eatTo (eat rt G k c) j st) := by
  induction L using Nat.strongRecOn with
  | _ L ih =>
  intro st hl hc
  refine Halts2.shift (Halts2.bind (hc st (.refl _)) fun k x hx => ?_)
  obtain ⟨ok, m⟩ := x
  cases ok
  · simp only [Bool.false_eq_true, if_false]
    by_cases ho : (eatStep m.rest).1 = true
    · simp only [if_pos ho]
      have h1 := eatStep_lt ho
      have h2 := (e_of hx).suffix'.length_le
      refine ih _ (show (eatStep m.rest).2.length < L by simp only at h2; omega) (Nat.le_refl _) fun st' hp => hc st' (.step (e_of hx) ?_ ?_)
      · rw [onward_eq]; exact ho
      · rw [onward_eq]; exact hp
    · simp only [if_neg ho]; exact .ret
  · exact .ret

/-- If all calls end and the loop does, the read ends. -/
theorem node_halts {r : Reader} {st : St} (hc : ∀ c st', Calls G (E rt G) r st c st' → Halts (fun k => eat rt G k c st'))
    (hs : ¬ Spins (E rt G) r st) : Halts (fun k => eat rt G k r st) := by
  refine Halts.shift ?_
  cases r with
  | any rs => exact (any_halts fun pre c post st' e hp => hc c st' (by rw [e]; exact .any hp)).bind fun _ _ _ => .ret
  | anyRune str => exact .ret
  | at_ sub => exact (hc sub st .at_).bind fun _ _ _ => .ret
  | atEnd => exact .ret
  | between a b => exact .ret
  | betweenAny a b => exact .ret
  | body b t =>
    refine Halts.bind (Halts2.diag (f := fun k j => eatBody (eat rt G k b) (eat rt G k t) st.rest j st)
      (body_halts (fun st' h1 h2 => hc _ _ (.bodySearch h1 h2)) (fun st' st'' h1 h2 h3 => hc _ _ (.bodyFirst h1 h2 h3)) fun ⟨_, h1, h2⟩ => hs (.body h1 h2)))
      fun _ a _ => ?_
    obtain ⟨res, st'⟩ := a
    cases res <;> exact .ret
  | bodyTail b t =>
    refine Halts.bind (Halts2.diag (f := fun k j => eatBody (eat rt G k b) (eat rt G k t) st.rest j st)
      (body_halts (fun st' h1 h2 => hc _ _ (.bodyTailSearch h1 h2)) (fun st' st'' h1 h2 h3 => hc _ _ (.bodyTailFirst h1 h2 h3)) fun ⟨_, h1, h2⟩ => hs (.bodyTail h1 h2)))
      fun _ a _ => ?_
    obtain ⟨res, st'⟩ := a
    cases res <;> exact .ret
  | bool c f => exact .ret
  | fold v =>
    simp only [eat]
    split
    · exact .panic
    · exact .ret
  | holey a b c => exact .ret
  | int a b c => exact .ret
  | janusBegin id nm sub =>
    refine (hc sub st .janusBegin).bind fun _ a _ => ?_
    obtain ⟨ok, st'⟩ := a
    cases ok <;> exact .ret
  | janusEnd id nm =>
    simp only [eat]
    split <;> exact .ret
  | invalid e => exact .ret
  | lit x => exact .ret
  | many sub =>
    refine (zom_halts (fun i st' hp => hc _ _ (.many hp)) fun h => hs ?_).diag.bind fun _ _ _ => .ret
    cases h with
    | zom h1 h2 => exact .many h1 h2
  | map f sub => exact (hc sub st .map).bind fun _ _ _ => .ret
  | match_ w f => exact .ret
  | named nm sub => exact hc sub st .named
  | not sub =>
    refine (hc sub st .not).bind fun _ a _ => ?_
    obtain ⟨ok, st'⟩ := a
    cases ok <;> exact .ret
  | opt sub => exact (hc sub st .opt).bind fun _ _ _ => .ret
  | past sub => exact (past_halts (fun st' h1 h2 => hc _ _ (.past h1 h2)) fun ⟨_, h1, h2⟩ => hs (.past h1 h2)).diag.bind fun _ _ _ => .ret
  | rune c => exact .ret
  | seq rs => exact (seq_halts fun pre c post st' e hp => hc c st' (by rw [e]; exact .seq hp)).bind fun _ _ _ => .ret
  | skipSeq sk rs =>
    simp only [eat_weave]
    exact (seq_halts fun pre c post st' e hp => hc c st' (.skipSeq e hp)).bind fun _ _ _ => .ret
  | times k sub =>
    have : (fun n => eat rt G (n + 1) (.times k sub) st) = fun n => eatSeq (eat rt G n) (.replicate k.toNat sub) st := by
      funext n
      exact eatTimes_eq _ _ _ _
    rw [this]
    refine seq_halts fun pre c post st' e hp => ?_
    have h1 := congrArg List.length e
    rw [List.length_replicate, List.length_append, List.length_cons] at h1
    have h2 : c = sub := List.eq_of_mem_replicate (e ▸ by simp : c ∈ List.replicate k.toNat sub)
    have h3 : pre = List.replicate pre.length sub := List.eq_replicate_of_mem fun x hx => List.eq_of_mem_replicate (e ▸ by simp [hx] : x ∈ List.replicate k.toNat sub)
    subst h2
    rw [h3] at hp
    exact hc _ _ (.times (by omega) hp)
  | «to» sub => exact (to_halts (Nat.le_refl _) fun st' h => hc _ _ (.to h)).diag.bind fun _ _ _ => .ret
  | uint a b c => exact .ret
  | wrap w f => exact .panic
  | zom sub => exact (zom_halts (fun i st' hp => hc _ _ (.zom hp)) hs).diag.bind fun _ _ _ => .ret
  | pick i b sub => exact (hc sub st .pick).bind fun _ _ _ => .ret
  | monitor i l sub => exact hc sub st .monitor
  | rule i =>
    rcases hi : G[i]? with _ | ⟨nm, _ | c⟩
    · simp only [eat, hi]; exact .panic
    · simp only [eat, hi]; exact .panic
    · simp only [eat, hi]
      exact hc c st (.rule hi)
  | ruleName sub => exact hc sub st .ruleName
  | grammar w sub => exact hc sub st .grammar

theorem halts_of_calm {r : Reader} {st : St} (hs : ∀ r' st', GetsTo G (E rt G) r st r' st' → ¬ Spins (E rt G) r' st')
    (hc : ∀ r' st', GetsTo G (E rt G) r st r' st' → ¬ Circles G (E rt G) r' st') : Halts (fun k => eat rt G k r st) := by
  have key : ∀ x, Acc (fun y x : Reader × St => Calls G (E rt G) x.1 x.2 y.1 y.2) x →
      (∀ r' st', GetsTo G (E rt G) x.1 x.2 r' st' → ¬ Spins (E rt G) r' st') → Halts (fun k => eat rt G k x.1 x.2) := by
    intro x hx
    induction hx with
    | intro x _ ih =>
      intro hs
      exact node_halts (fun c st' h => ih (c, st') h fun r' st'' h' => hs r' st'' (.call h h')) (hs _ _ (.refl _ _))
  exact key (r, st) (calls_acc hc) hs

/-- The read does not end exactly if it gets to a loop that stays at one place or into calls
that stay at one place. -/
theorem noEnd_iff {r : Reader} {st : St} : NoEnd rt G r st ↔
    ∃ r' st', GetsTo G (E rt G) r st r' st' ∧ (Spins (E rt G) r' st' ∨ Circles G (E rt G) r' st') := by
  constructor
  · intro h
    by_contra hn
    obtain ⟨m, x, hx, hm⟩ := halts_of_calm (rt := rt) (G := G) (r := r) (st := st) (fun r' st' h1 h2 => hn ⟨r', st', h1, .inl h2⟩)
      (fun r' st' h1 h2 => hn ⟨r', st', h1, .inr h2⟩)
    exact hx ((hm m (Nat.le_refl _)).symm.trans (h m))
  · rintro ⟨r', st', h, h' | h'⟩
    · exact getsTo_noEnd h (spins_noEnd h')
    · exact getsTo_noEnd h (circles_noEnd h')

end
end Tok
