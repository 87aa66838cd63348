/-
Where the expression has a result, the reader returns.
-/
import Verif.Proofs.PegEat

namespace Tok
open Spec PExp

/-- With enough fuel, always the same value. -/
def Conv {α : Type} (f : Nat → Exec α) : Prop := ∃ m a, ∀ k, m ≤ k → f k = .ret a

theorem Conv.ret {α : Type} {a : α} : Conv (fun _ => .ret a) := ⟨0, a, fun _ _ => rfl⟩

theorem Conv.bind {α β : Type} {f : Nat → Exec α} {g : Nat → α → Exec β} {m : Nat} {a : α} (hf : ∀ k, m ≤ k → f k = .ret a)
    (hg : Conv (fun k => g k a)) : Conv (fun k => f k >>= g k) := by
  obtain ⟨m', b, hg⟩ := hg
  exact ⟨max m m', b, fun k hk => by simp only [hf k (by omega), Exec.bind_ret]; exact hg k (by omega)⟩

theorem Conv.shift {α : Type} {f : Nat → Exec α} (h : Conv (fun k => f (k + 1))) : Conv f := by
  obtain ⟨m, a, h⟩ := h
  refine ⟨m + 1, a, fun k hk => ?_⟩
  obtain ⟨k, rfl⟩ : ∃ j, k = j + 1 := ⟨k - 1, by omega⟩
  exact h k (by omega)

variable {P : Nat → Option (PExp Piece)} {srch : Bool}

/-- `F` returns where the expression has a result with a derivation of height `n`. -/
def ConvLike (P : Nat → Option (PExp Piece)) (srch : Bool) (n : Nat) (e : PExp Piece) (F : Nat → EatFunc) : Prop :=
  ∀ st xs res, Pieces st.rest xs → Clean srch xs → PegH P n e xs res → Conv (fun k => F k st)

theorem ConvLike.mono {n m : Nat} {e : PExp Piece} {F : Nat → EatFunc} (h : ConvLike P srch n e F) (hm : m ≤ n) : ConvLike P srch m e F :=
  fun st xs res h1 h2 h3 => h st xs res h1 h2 (h3.mono hm)

theorem ConvLike.yes {n : Nat} {e : PExp Piece} {F : Nat → EatFunc} (h : ConvLike P srch n e F) {keep : Prop}
    (hl : ∀ k, EatsLike P srch e keep (F k)) {st : St} {xs ys : List Piece} (hp : Pieces st.rest xs) (hc : Clean srch xs)
    (hh : PegH P n e xs (some ys)) : ∃ m st', (∀ k, m ≤ k → F k st = .ret (true, st')) ∧ Pieces st'.rest ys := by
  obtain ⟨m, ⟨ok, st'⟩, hm⟩ := h st xs _ hp hc hh
  rcases hl m st xs hp hc _ (hm m (Nat.le_refl _)) with ⟨h1, zs, h2, h3⟩ | ⟨h1, h2, h3⟩
  · simp only at h1
    subst h1
    have := Peg.det hh.peg h2
    simp only [Option.some.injEq] at this
    subst this
    exact ⟨m, st', hm, h3⟩
  · cases Peg.det hh.peg h2

theorem ConvLike.no {n : Nat} {e : PExp Piece} {F : Nat → EatFunc} (h : ConvLike P srch n e F) {keep : Prop}
    (hl : ∀ k, EatsLike P srch e keep (F k)) {st : St} {xs : List Piece} (hp : Pieces st.rest xs) (hc : Clean srch xs)
    (hh : PegH P n e xs none) : ∃ m st', (∀ k, m ≤ k → F k st = .ret (false, st')) ∧ (keep → st'.rest = st.rest) := by
  obtain ⟨m, ⟨ok, st'⟩, hm⟩ := h st xs _ hp hc hh
  rcases hl m st xs hp hc _ (hm m (Nat.le_refl _)) with ⟨h1, zs, h2, h3⟩ | ⟨h1, h2, h3⟩
  · cases Peg.det hh.peg h2
  · simp only at h1
    subst h1
    exact ⟨m, st', hm, h3⟩

theorem Spec.PegH.suffix {n : Nat} {e : PExp Piece} {xs ys : List Piece} (h : PegH P n e xs (some ys)) : ys <:+ xs := h.peg.suffix rfl

theorem eatAny_conv {n : Nat} {F : Nat → Reader → EatFunc} : ∀ (rs : List Reader) (_ : ∀ r ∈ rs, ConvLike P srch n r.peg (fun k => F k r))
    (_ : ∀ r ∈ rs, ∀ k, EatsLike P srch r.peg True (F k r)), ConvLike P srch (n + 1) (choice (Reader.pegs rs)) (fun k => eatAny (F k) rs)
  | [], _, _, _, _, _, _, _, _ => .ret
  | r :: rs, h, hl, st, xs, res, hp, hc, hh => by
    have h0 := h r List.mem_cons_self
    have l0 := hl r List.mem_cons_self
    rcases hh with ⟨ys, h1, _⟩ | ⟨h1, h2⟩
    · obtain ⟨m, st', h3, h4⟩ := h0.yes l0 hp hc h1
      exact Conv.bind h3 .ret
    · obtain ⟨m, st', h3, h4⟩ := h0.no l0 hp hc h1
      have h5 := h4 trivial
      exact Conv.bind h3 (eatAny_conv rs (fun c hm => h c (List.mem_cons_of_mem _ hm)) (fun c hm => hl c (List.mem_cons_of_mem _ hm))
        st' xs res (by rw [h5]; exact hp) hc (show PegH P n (choice (Reader.pegs rs)) xs res from h2).succ)

theorem eatSeq_conv {n : Nat} {F : Nat → Reader → EatFunc} : ∀ (rs : List Reader) (_ : ∀ r ∈ rs, ConvLike P srch n r.peg (fun k => F k r))
    (_ : ∀ r ∈ rs, ∀ k, EatsLike P srch r.peg False (F k r)), ConvLike P srch (n + 1) (chain (Reader.pegs rs)) (fun k => eatSeq (F k) rs)
  | [], _, _, _, _, _, _, _, _ => .ret
  | r :: rs, h, hl, st, xs, res, hp, hc, hh => by
    have h0 := h r List.mem_cons_self
    have l0 := hl r List.mem_cons_self
    rcases hh with ⟨ys, h1, h2⟩ | ⟨h1, h2⟩
    · obtain ⟨m, st', h3, h4⟩ := h0.yes l0 hp hc h1
      exact Conv.bind h3 (eatSeq_conv rs (fun c hm => h c (List.mem_cons_of_mem _ hm)) (fun c hm => hl c (List.mem_cons_of_mem _ hm))
        st' ys res h4 (hc.suffix h1.suffix) (show PegH P n (chain (Reader.pegs rs)) ys res from h2).succ)
    · obtain ⟨m, st', h3, h4⟩ := h0.no l0 hp hc h1
      exact Conv.bind h3 .ret

theorem eatSkip_conv {n : Nat} {F : Nat → Reader → EatFunc} {sk : Reader} (hk : ConvLike P srch n sk.peg (fun k => F k sk))
    (lk : ∀ k, EatsLike P srch sk.peg False (F k sk)) :
    ∀ (rs : List Reader) (_ : ∀ r ∈ rs, ConvLike P srch n r.peg (fun k => F k r))
    (_ : ∀ r ∈ rs, ∀ k, EatsLike P srch r.peg False (F k r)),
    ConvLike P srch (n + 1) (chain ((Reader.pegs rs).map fun e => .seq e sk.peg)) (fun k => eatSkip (F k) sk rs)
  | [], _, _, _, _, _, _, _, _ => .ret
  | r :: rs, h, hl, st, xs, res, hp, hc, hh => by
    have h0 := h r List.mem_cons_self
    have l0 := hl r List.mem_cons_self
    have key : ∀ ys, PegH P n (.seq r.peg sk.peg) xs (some ys) → ∃ zs, PegH P n r.peg xs (some zs) ∧ PegH P n sk.peg zs (some ys) := by
      intro ys hy
      cases n with
      | zero => exact hy.elim
      | succ n =>
        rcases hy with ⟨zs, h1, h2⟩ | ⟨_, h2⟩
        · exact ⟨zs, h1.succ, h2.succ⟩
        · cases h2
    have key' : PegH P n (.seq r.peg sk.peg) xs none → (∃ zs, PegH P n r.peg xs (some zs) ∧ PegH P n sk.peg zs none) ∨ PegH P n r.peg xs none := by
      intro hy
      cases n with
      | zero => exact hy.elim
      | succ n =>
        rcases hy with ⟨zs, h1, h2⟩ | ⟨h1, h2⟩
        · exact .inl ⟨zs, h1.succ, h2.succ⟩
        · exact .inr h1.succ
    rcases hh with ⟨ys, h1, h2⟩ | ⟨h1, h2⟩
    · obtain ⟨zs, h1, h1'⟩ := key ys h1
      obtain ⟨m, st', h3, h4⟩ := h0.yes l0 hp hc h1
      have hc1 := hc.suffix h1.suffix
      obtain ⟨m', st'', h5, h6⟩ := hk.yes lk h4 hc1 h1'
      exact Conv.bind h3 (Conv.bind h5 (eatSkip_conv hk lk rs (fun c hm => h c (List.mem_cons_of_mem _ hm))
        (fun c hm => hl c (List.mem_cons_of_mem _ hm)) st'' ys res h6 (hc1.suffix h1'.suffix)
        (show PegH P n (chain ((Reader.pegs rs).map fun e => .seq e sk.peg)) ys res from h2).succ))
    · rcases key' h1 with ⟨zs, h1, h1'⟩ | h1
      · obtain ⟨m, st', h3, h4⟩ := h0.yes l0 hp hc h1
        obtain ⟨m', st'', h5, h6⟩ := hk.no lk h4 (hc.suffix h1.suffix) h1'
        exact Conv.bind h3 (Conv.bind h5 .ret)
      · obtain ⟨m, st', h3, h4⟩ := h0.no l0 hp hc h1
        exact Conv.bind h3 .ret

theorem eatTimes_conv {n : Nat} {F : Nat → EatFunc} {e : PExp Piece} (h : ConvLike P srch n e F)
    (hl : ∀ k, EatsLike P srch e False (F k)) : ∀ j, ConvLike P srch (n + 1) (PExp.times e j) (fun k => eatTimes (F k) j)
  | 0, _, _, _, _, _, _ => .ret
  | j + 1, st, xs, res, hp, hc, hh => by
    rcases hh with ⟨ys, h1, h2⟩ | ⟨h1, h2⟩
    · obtain ⟨m, st', h3, h4⟩ := h.yes hl hp hc h1
      exact Conv.bind h3 (eatTimes_conv h hl j st' ys res h4 (hc.suffix h1.suffix) (show PegH P n (PExp.times e j) ys res from h2).succ)
    · obtain ⟨m, st', h3, h4⟩ := h.no hl hp hc h1
      exact Conv.bind h3 .ret

/-- Convergence in the fuel and in the number of rounds. -/
def Conv2 {α : Type} (f : Nat → Nat → Exec α) : Prop := ∃ m a, ∀ k j, m ≤ k → m ≤ j → f k j = .ret a

theorem Conv2.diag {α : Type} {f : Nat → Nat → Exec α} (h : Conv2 f) : Conv (fun k => f k k) := by
  obtain ⟨m, a, h⟩ := h
  exact ⟨m, a, fun k hk => h k k hk hk⟩

theorem Conv2.get {α : Type} {f : Nat → Nat → Exec α} (h : Conv2 f) : ∃ m a, ∀ k, m ≤ k → f k k = .ret a := h.diag

theorem Conv2.shift {α : Type} {f : Nat → Nat → Exec α} (h : Conv2 (fun k j => f k (j + 1))) : Conv2 f := by
  obtain ⟨m, a, h⟩ := h
  refine ⟨m + 1, a, fun k j hk hj => ?_⟩
  obtain ⟨j, rfl⟩ : ∃ i, j = i + 1 := ⟨j - 1, by omega⟩
  exact h k j (by omega) (by omega)

theorem Conv2.bind {α β : Type} {f : Nat → Exec α} {g : Nat → Nat → α → Exec β} {m : Nat} {a : α} (hf : ∀ k, m ≤ k → f k = .ret a)
    (hg : Conv2 (fun k j => g k j a)) : Conv2 (fun k j => f k >>= g k j) := by
  obtain ⟨m', b, hg⟩ := hg
  exact ⟨max m m', b, fun k j hk hj => by simp only [hf k (by omega), Exec.bind_ret]; exact hg k j (by omega) (by omega)⟩

theorem Conv2.ret {α : Type} {a : α} : Conv2 (fun _ _ => .ret a) := ⟨0, a, fun _ _ _ _ => rfl⟩

theorem eatZom_conv {n : Nat} {F : Nat → EatFunc} {e : PExp Piece} (h : ConvLike P srch n e F)
    (hl : ∀ k, EatsLike P srch e True (F k)) : ∀ N, N ≤ n + 1 → ∀ st xs res, Pieces st.rest xs → Clean srch xs →
    PegH P N (.star e) xs res → Conv2 (fun k j => eatZom (F k) j st)
  | 0, _, _, _, _, _, _, hh => hh.elim
  | N + 1, hN, st, xs, res, hp, hc, hh => by
    have h' : ConvLike P srch N e F := h.mono (by omega)
    refine Conv2.shift ?_
    rcases hh with ⟨ys, h1, h2⟩ | ⟨h1, h2⟩
    · obtain ⟨m, st', h3, h4⟩ := h'.yes hl hp hc h1
      exact Conv2.bind h3 (eatZom_conv h hl N (by omega) st' ys res h4 (hc.suffix h1.suffix) h2)
    · obtain ⟨m, st', h3, h4⟩ := h'.no hl hp hc h1
      exact Conv2.bind h3 .ret

theorem pegH_until_step {n : Nat} {e : PExp Piece} {xs : List Piece} {res : Option (List Piece)}
    (h : PegH P n (.seq (amp dot) (.seq (.neg e) dot)) xs res) :
    (xs = [] ∧ res = none) ∨ ∃ x ys, xs = x :: ys ∧ ((PegH P n e xs none ∧ res = some ys) ∨ ∃ zs, PegH P n e xs (some zs) ∧ res = none) := by
  cases xs with
  | nil => exact .inl ⟨rfl, Peg.det h.peg (.seqNo peg_some_nil)⟩
  | cons x xs =>
    refine .inr ⟨x, xs, rfl, ?_⟩
    cases n with
    | zero => exact h.elim
    | succ n =>
      rcases h with ⟨ys, h1, h2⟩ | ⟨h1, h2⟩
      · have hy := Peg.det h1.peg peg_some_cons
        simp only [Option.some.injEq] at hy
        subst hy
        cases n with
        | zero => exact h2.elim
        | succ n =>
          have hneg : ∀ r, PegH P n (.neg e) (x :: xs) r → (PegH P n e (x :: xs) none ∧ r = some (x :: xs)) ∨
              ∃ zs, PegH P n e (x :: xs) (some zs) ∧ r = none := by
            intro r hr
            cases n with
            | zero => exact hr.elim
            | succ n =>
              rcases hr with ⟨h1, h2⟩ | ⟨zs, h1, h2⟩
              · exact .inl ⟨h1.succ, h2⟩
              · exact .inr ⟨zs, h1.succ, h2⟩
          rcases h2 with ⟨ys, h2, h3⟩ | ⟨h2, h3⟩
          · rcases hneg _ h2 with ⟨h4, h5⟩ | ⟨zs, h4, h5⟩
            · simp only [Option.some.injEq] at h5
              subst h5
              exact .inl ⟨h4.succ.succ, Peg.det h3.peg peg_dot_cons⟩
            · cases h5
          · rcases hneg _ h2 with ⟨h4, h5⟩ | ⟨zs, h4, h5⟩
            · cases h5
            · exact .inr ⟨zs, h4.succ.succ, h3⟩
      · cases Peg.det h1.peg peg_some_cons

theorem eatPast_conv (hs : srch = true) {n : Nat} {F : Nat → EatFunc} {e : PExp Piece} (h : ConvLike P srch n e F)
    (hl : ∀ k, EatsLike P srch e True (F k)) : ∀ N, N ≤ n + 1 → ∀ st xs res, Pieces st.rest xs → Clean srch xs →
    PegH P N (until_ e) xs res → Conv2 (fun k j => eatPast (F k) j st)
  | 0, _, _, _, _, _, _, hh => hh.elim
  | N + 1, hN, st, xs, res, hp, hc, hh => by
    have h' : ConvLike P srch N e F := h.mono (by omega)
    refine Conv2.shift ?_
    simp only [eatPast]
    split
    · exact .ret
    rename_i hne
    rcases hh with ⟨ys, h1, h2⟩ | ⟨h1, h2⟩
    · rcases pegH_until_step h1 with ⟨_, h3⟩ | ⟨x, zs, rfl, ⟨h3, h4⟩ | ⟨_, _, h4⟩⟩
      · cases h3
      · simp only [Option.some.injEq] at h4
        subst h4
        obtain ⟨m, st', h5, h6⟩ := h'.no hl hp hc h3
        have h7 := h6 trivial
        obtain ⟨h8, h9, h10⟩ := step_clean hs hp hc
        refine Conv2.bind h5 ?_
        simp only [Bool.false_eq_true, if_false]
        rw [h7, h8]
        exact eatPast_conv hs h hl N (by omega) _ ys res h9 (hc.suffix (List.suffix_cons _ _)) h2
      · cases h4
    · rcases pegH_until_step h1 with ⟨h3, _⟩ | ⟨x, zs, rfl, ⟨_, h4⟩ | ⟨us, h3, _⟩⟩
      · exact absurd ((pieces_nil_iff hp).mpr h3) hne
      · cases h4
      · obtain ⟨m, st', h5, h6⟩ := h'.yes hl hp hc h3
        exact Conv2.bind h5 .ret

theorem eatTo_conv (hs : srch = true) {n : Nat} {F : Nat → EatFunc} {e : PExp Piece} (h : ConvLike P srch n e F)
    (hl : ∀ k, EatsLike P srch e True (F k)) : ∀ N, N ≤ n + 1 → ∀ st xs ys r2, Pieces st.rest xs → Clean srch xs →
    PegH P N (until_ e) xs (some ys) → PegH P (n + 1) (amp e) ys r2 → Conv2 (fun k j => eatTo (F k) j st)
  | 0, _, _, _, _, _, _, _, hh, _ => hh.elim
  | N + 1, hN, st, xs, ys, r2, hp, hc, hh, hh2 => by
    have h' : ConvLike P srch N e F := h.mono (by omega)
    refine Conv2.shift ?_
    simp only [eatTo]
    rcases hh with ⟨ys', h1, h2⟩ | ⟨h1, h2⟩
    · rcases pegH_until_step h1 with ⟨_, h3⟩ | ⟨x, zs, rfl, ⟨h3, h4⟩ | ⟨_, _, h4⟩⟩
      · cases h3
      · simp only [Option.some.injEq] at h4
        subst h4
        obtain ⟨m, st', h5, h6⟩ := h'.no hl hp hc h3
        have h7 := h6 trivial
        obtain ⟨h8, h9, h10⟩ := step_clean hs hp hc
        refine Conv2.bind h5 ?_
        simp only [Bool.false_eq_true, if_false]
        rw [h7, h8]
        exact eatTo_conv hs h hl N (by omega) _ ys' ys r2 h9 (hc.suffix (List.suffix_cons _ _)) h2 hh2
      · cases h4
    · simp only [Option.some.injEq] at h2
      subst h2
      rcases pegH_until_step h1 with ⟨h3, _⟩ | ⟨x, zs, rfl, ⟨_, h4⟩ | ⟨us, h3, _⟩⟩
      · subst h3
        have hr : st.rest = [] := (pieces_nil_iff hp).mpr rfl
        have : ∃ r, PegH P n e [] r := by
          rcases hh2 with ⟨h4, _⟩ | ⟨_, h4, _⟩
          all_goals
            cases n with
            | zero => exact h4.elim
            | succ n =>
              rcases h4 with ⟨h5, _⟩ | ⟨_, h5, _⟩
              · exact ⟨_, h5.succ⟩
              · exact ⟨_, h5.succ⟩
        obtain ⟨r, h4⟩ := this
        cases r with
        | none =>
          obtain ⟨m, st', h5, h6⟩ := h.no hl hp hc h4
          refine Conv2.bind h5 ?_
          simp only [Bool.false_eq_true, if_false]
          rw [h6 trivial, hr, eatStep_nil]
          exact .ret
        | some zs =>
          obtain ⟨m, st', h5, h6⟩ := h.yes hl hp hc h4
          exact Conv2.bind h5 .ret
      · cases h4
      · obtain ⟨m, st', h5, h6⟩ := h'.yes hl hp hc h3
        exact Conv2.bind h5 .ret

theorem eatBody_conv (hs : srch = true) {n : Nat} {B T : Nat → EatFunc} {eb et : PExp Piece} {keep : Bool} (hb : ConvLike P srch n eb B)
    (ht : ConvLike P srch n et T) (lt : ∀ k, EatsLike P srch et True (T k)) {t0 : Bytes} :
    ∀ N, N ≤ n + 1 → ∀ st (ws : List Char) xs res,
    t0 = encText ws ++ st.rest → Pieces st.rest xs → Clean srch xs →
    PegH P N (.find eb et keep (ws.map fun c => (enc c, (c.toNat : Int)))) xs res → Conv2 (fun k j => eatBody (B k) (T k) t0 j st)
  | 0, _, _, _, _, _, _, _, _, hh => hh.elim
  | N + 1, hN, st, ws, xs, res, h0, hp, hc, hh => by
    have hb' : ConvLike P srch N eb B := hb.mono (by omega)
    have ht' : ConvLike P srch N et T := ht.mono (by omega)
    refine Conv2.shift ?_
    simp only [eatBody]
    split
    · exact .ret
    rename_i hne
    cases xs with
    | nil => exact absurd ((pieces_nil_iff hp).mpr rfl) hne
    | cons x xs =>
      have hw : Pieces (t0.take (t0.length - st.rest.length)) (ws.map fun c => (enc c, (c.toNat : Int))) := by
        rw [h0]
        simp only [List.length_append, Nat.add_sub_cancel, List.take_left']
        exact pieces_encText ws
      have hcw : Clean srch (ws.map fun c => (enc c, (c.toNat : Int))) := fun _ => ⟨ws, rfl⟩
      have found : ∀ ys r, PegH P N et (x :: xs) (some ys) → PegH P N eb (ws.map fun c => (enc c, (c.toNat : Int))) r →
          Conv2 (fun k j => do
            let __discr ← T k st
            match __discr with
              | (ok, st') =>
                if ok = true then do
                  let __discr ← B k ⟨t0.take (t0.length - st.rest.length), st'.jan⟩
                  match __discr with
                    | (ok, sub) =>
                      if (ok && sub.rest.isEmpty) = true then pure (some st.rest, ⟨st'.rest, sub.jan⟩)
                      else pure ((none : Option Bytes), (⟨st'.rest, sub.jan⟩ : St))
                else eatBody (B k) (T k) t0 j ⟨(eatStep st'.rest).2, st'.jan⟩) := by
        intro ys r h1 h2
        obtain ⟨m, st', h5, h6⟩ := ht'.yes lt hp hc h1
        refine Conv2.bind h5 ?_
        simp only [if_true]
        obtain ⟨m', ⟨ok, sub⟩, h7⟩ := hb' ⟨t0.take (t0.length - st.rest.length), st'.jan⟩ _ r hw hcw h2
        refine Conv2.bind h7 ?_
        simp only
        split
        · exact .ret
        · exact .ret
      rcases hh with ⟨ys, h1, ⟨h2, h3⟩ | ⟨r', h2, h3, h4⟩⟩ | ⟨h1, h2⟩
      · exact found ys _ h1 h2
      · exact found ys _ h1 h2
      · obtain ⟨m, st', h5, h6⟩ := ht'.no lt hp hc h1
        refine Conv2.bind h5 ?_
        have h3 := h6 trivial
        obtain ⟨h4, h7, h8⟩ := step_clean hs hp hc
        simp only [Bool.false_eq_true, if_false]
        rw [h3, h4]
        obtain ⟨cs, hcs⟩ := hc hs
        cases cs with
        | nil => cases hcs
        | cons c cs =>
          simp only [List.map_cons, List.cons.injEq] at hcs
          obtain ⟨hx, hxs⟩ := hcs
          refine eatBody_conv (keep := keep) hs hb ht lt N (by omega) _ (ws ++ [c]) xs res ?_ h7 (hc.suffix (List.suffix_cons _ _)) ?_
          · rw [h0, encText_append, encText_singleton]
            simp only [List.append_assoc]
            rw [h8, hx]
            simp
          · simp only [List.map_append, List.map_cons, List.map_nil]
            rw [← hx]
            exact h2

theorem pegH_star_no {e : PExp Piece} : ∀ {n : Nat} {xs : List Piece}, ¬ PegH P n (.star e) xs none
  | 0, _, h => h.elim
  | n + 1, xs, h => by
    rcases h with ⟨ys, _, h2⟩ | ⟨_, h2⟩
    · exact pegH_star_no h2
    · cases h2

theorem Conv.then {α β : Type} {f : Nat → Exec α} {g : α → Exec β} (hf : Conv f) (hg : ∀ a, ∃ b, g a = .ret b) :
    Conv (fun k => f k >>= g) := by
  obtain ⟨m, a, h⟩ := hf
  obtain ⟨b, hb⟩ := hg a
  exact ⟨m, b, fun k hk => by simp only [h k hk, Exec.bind_ret]; exact hb⟩

theorem eat_conv (rt : Rt) (G : Env) (hG : G.Every (Reader.pegOk srch)) (hK : G.keeps) (n : Nat) (r : Reader) (hr : r.Every (Reader.pegOk srch)) :
    ConvLike G.peg srch n r.peg (fun k => eat rt G k r) := by
  intro st xs res hp hc hh
  have lk : ∀ c, c.Every (Reader.pegOk srch) → ∀ k, EatsLike G.peg srch c.peg (c.keepsB = true) (eat rt G k c) :=
    fun c hc k => eat_like rt G hG hK k c hc
  have sub : ∀ c ∈ r.subs, c.Every (Reader.pegOk srch) := fun c hc => hr.sub hc
  have one : ∀ c, r.subs = [c] → c.Every (Reader.pegOk srch) := fun c hc => sub c (by rw [hc]; exact List.mem_cons_self)
  have here := hr.here
  refine Conv.shift ?_
  cases n with
  | zero => exact hh.elim
  | succ n =>
    have ih : ∀ c, c.Every (Reader.pegOk srch) → ConvLike G.peg srch n c.peg (fun k => eat rt G k c) :=
      fun c hc => eat_conv rt G hG hK n c hc
    cases r with
    | any rs =>
      exact (eatAny_conv rs (fun c hc => ih c (sub c hc)) (fun c hc k => (lk c (sub c hc) k).mono fun _ => here c hc) st xs res hp hc hh).then
        fun a => ⟨_, rfl⟩
    | anyRune str => exact .ret
    | at_ c =>
      have : ∃ r, PegH G.peg n c.peg xs r := by
        rcases hh with ⟨h4, _⟩ | ⟨_, h4, _⟩
        all_goals
          cases n with
          | zero => exact h4.elim
          | succ n =>
            rcases h4 with ⟨h5, _⟩ | ⟨_, h5, _⟩
            · exact ⟨_, h5.succ⟩
            · exact ⟨_, h5.succ⟩
      obtain ⟨r, h1⟩ := this
      exact (ih c (one c rfl) st xs r hp hc h1).then fun a => ⟨_, rfl⟩
    | atEnd => exact .ret
    | between a b => exact .ret
    | betweenAny l x => exact .ret
    | body b t =>
      refine (eatBody_conv (keep := false) here.2 (ih b (sub b (by simp [Reader.subs]))) (ih t (sub t (by simp [Reader.subs])))
        (fun k => (lk t (sub t (by simp [Reader.subs])) k).mono fun _ => here.1) (n + 1) (Nat.le_refl _) st [] xs res (by simp [encText]) hp hc hh).diag.then
        fun a => ?_
      obtain ⟨_ | x, st'⟩ := a
      · exact ⟨_, rfl⟩
      · exact ⟨_, rfl⟩
    | bodyTail b t =>
      refine (eatBody_conv (keep := true) here.2 (ih b (sub b (by simp [Reader.subs]))) (ih t (sub t (by simp [Reader.subs])))
        (fun k => (lk t (sub t (by simp [Reader.subs])) k).mono fun _ => here.1) (n + 1) (Nat.le_refl _) st [] xs res (by simp [encText]) hp hc hh).diag.then
        fun a => ?_
      obtain ⟨_ | x, st'⟩ := a
      · exact ⟨_, rfl⟩
      · exact ⟨_, rfl⟩
    | bool c f => exact .ret
    | fold v => exact here.elim
    | holey a b c => exact .ret
    | int a b c => exact here.elim
    | janusBegin id nm c => exact here.elim
    | janusEnd id nm => exact here.elim
    | invalid e => exact .ret
    | lit x => exact .ret
    | many c =>
      have lc : ∀ k, EatsLike G.peg srch c.peg True (eat rt G k c) := fun k => (lk c (one c rfl) k).mono fun _ => here
      refine Conv.then (Conv2.diag (f := fun k j => eatZom (eat rt G k c) j st) ?_) fun a => ⟨_, rfl⟩
      rcases hh with ⟨ys, h1, h2⟩ | ⟨h1, h2⟩
      · refine eatZom_conv (ih c (one c rfl)) lc (n + 1) (Nat.le_refl _) st xs res hp hc ?_
        exact .inl ⟨ys, h1, h2⟩
      · refine eatZom_conv (ih c (one c rfl)) lc (n + 1) (Nat.le_refl _) st xs (some xs) hp hc ?_
        exact .inr ⟨h1, rfl⟩
    | map f c => exact (eat_conv rt G hG hK (n + 1) c (one c rfl) st xs res hp hc hh).then fun a => ⟨_, rfl⟩
    | match_ w f => exact .ret
    | named nm c => exact eat_conv rt G hG hK (n + 1) c (one c rfl) st xs res hp hc hh
    | not c =>
      have : ∃ r, PegH G.peg n c.peg xs r := by
        rcases hh with ⟨_, h4, _⟩ | ⟨h4, _⟩
        all_goals
          cases n with
          | zero => exact h4.elim
          | succ n =>
            rcases h4 with ⟨h5, _⟩ | ⟨_, h5, _⟩
            · exact ⟨_, h5.succ⟩
            · exact ⟨_, h5.succ⟩
      obtain ⟨r, h1⟩ := this
      refine (ih c (one c rfl) st xs r hp hc h1).then fun a => ?_
      obtain ⟨ok, st'⟩ := a
      cases ok <;> exact ⟨_, rfl⟩
    | opt c =>
      have : ∃ r, PegH G.peg n c.peg xs r := by
        rcases hh with ⟨_, h4, _⟩ | ⟨h4, _⟩
        · exact ⟨_, h4⟩
        · exact ⟨_, h4⟩
      obtain ⟨r, h1⟩ := this
      exact (ih c (one c rfl) st xs r hp hc h1).then fun a => ⟨_, rfl⟩
    | past c =>
      have lc : ∀ k, EatsLike G.peg srch c.peg True (eat rt G k c) := fun k => (lk c (one c rfl) k).mono fun _ => here.1
      have : ∃ r, PegH G.peg n (until_ c.peg) xs r := by
        rcases hh with ⟨_, h4, _⟩ | ⟨h4, _⟩
        · exact ⟨_, h4⟩
        · exact ⟨_, h4⟩
      obtain ⟨r, h1⟩ := this
      exact (eatPast_conv here.2 (ih c (one c rfl)) lc n (by omega) st xs r hp hc h1).diag.then fun a => ⟨_, rfl⟩
    | rune c => exact .ret
    | seq rs =>
      exact (eatSeq_conv rs (fun c hc => ih c (sub c hc)) (fun c hc k => (lk c (sub c hc) k).mono False.elim) st xs res hp hc hh).then
        fun a => ⟨_, rfl⟩
    | skipSeq sk rs =>
      have hsk := sub sk (by simp [Reader.subs])
      have hrs : ∀ c ∈ rs, c.Every (Reader.pegOk srch) := fun c hc => sub c (by simp [Reader.subs, hc])
      rcases hh with ⟨ys, h1, h2⟩ | ⟨h1, h2⟩
      · obtain ⟨m, st', h3, h4⟩ := (ih sk hsk).yes (lk sk hsk) hp hc h1
        refine Conv.bind h3 ?_
        simp only [if_true]
        exact (eatSkip_conv (ih sk hsk) (fun k => (lk sk hsk k).mono False.elim) rs (fun c hc => ih c (hrs c hc))
          (fun c hc k => (lk c (hrs c hc) k).mono False.elim) st' ys res h4 (hc.suffix h1.suffix) (PegH.succ h2)).then fun a => ⟨_, rfl⟩
      · obtain ⟨m, st', h3, h4⟩ := (ih sk hsk).no (lk sk hsk) hp hc h1
        exact Conv.bind h3 .ret
    | times k c => exact eatTimes_conv (ih c (one c rfl)) (fun j => (lk c (one c rfl) j).mono False.elim) k.toNat st xs res hp hc hh
    | «to» c =>
      have lc : ∀ k, EatsLike G.peg srch c.peg True (eat rt G k c) := fun k => (lk c (one c rfl) k).mono fun _ => here.1
      rcases hh with ⟨ys, h1, h2⟩ | ⟨h1, h2⟩
      · exact (eatTo_conv here.2 (ih c (one c rfl)) lc n (by omega) st xs ys res hp hc h1 (PegH.succ h2)).diag.then fun a => ⟨_, rfl⟩
      · exact (pegH_star_no h1).elim
    | uint a b c => exact here.elim
    | wrap w f => exact here.elim
    | zom c =>
      have lc : ∀ k, EatsLike G.peg srch c.peg True (eat rt G k c) := fun k => (lk c (one c rfl) k).mono fun _ => here
      exact (eatZom_conv (ih c (one c rfl)) lc (n + 1) (Nat.le_refl _) st xs res hp hc hh).diag.then fun a => ⟨_, rfl⟩
    | pick i b c => exact (eat_conv rt G hG hK (n + 1) c (one c rfl) st xs res hp hc hh).then fun a => ⟨_, rfl⟩
    | monitor i l c => exact eat_conv rt G hG hK (n + 1) c (one c rfl) st xs res hp hc hh
    | rule i =>
      obtain ⟨e, h1, h2⟩ := hh
      simp only [eat]
      rcases hi : G[i]? with _ | ⟨nm, _ | c⟩
      · simp [Env.peg, hi] at h1
      · simp [Env.peg, hi] at h1
      · simp only [Env.peg, hi, Option.bind_some, Option.map_some, Option.some.injEq] at h1
        subst h1
        exact ih c (hG.get hi) st xs res hp hc h2
    | ruleName c => exact eat_conv rt G hG hK (n + 1) c (one c rfl) st xs res hp hc hh
    | grammar w c => exact eat_conv rt G hG hK (n + 1) c (one c rfl) st xs res hp hc hh
termination_by (n, sizeOf r)
decreasing_by
  all_goals simp_wf
  all_goals first | omega | (subst_vars; simp; omega) | skip

end Tok
