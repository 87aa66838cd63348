/-
The loops that look for a reader, on every text and for readers that stop anywhere when
they fail.
-/
import Verif.Proofs.Search
import Verif.Proofs.PegLeaf

namespace Tok
open Spec

/-! ### one step -/

theorem eatStep_hop {t u : Bytes} : Hop t u ↔ eatStep t = (true, u) := by
  constructor
  · intro h
    cases h with
    | char c u => exact eatStep_char c u
    | junk b b1 b2 u hno =>
      rcases decodeRune_cases (b :: b1 :: b2 :: u) with ⟨h, _⟩ | ⟨_, h, _⟩ | ⟨c, t, h, _⟩
      · cases h
      · unfold eatStep
        rw [h]
        have : runeLen runeError = 3 := rfl
        simp only [this]
        rw [if_pos ⟨by simp, by simp; omega⟩]
        rfl
      · exact absurd ⟨t, h.symm⟩ (hno c)
  · intro h
    rcases decodeRune_cases t with ⟨rfl, _⟩ | ⟨hn, hd, hno⟩ | ⟨c, t', rfl, hd⟩
    · cases h
    · unfold eatStep at h
      rw [hd] at h
      have h3 : runeLen runeError = 3 := rfl
      simp only [h3] at h
      split at h
      · rename_i hl
        cases t with
        | nil => exact absurd rfl hn
        | cons b t =>
          cases t with
          | nil => simp at hl
          | cons b1 t =>
            cases t with
            | nil => simp at hl
            | cons b2 t =>
              simp only [Prod.mk.injEq, true_and] at h
              have : u = t := by rw [← h]; rfl
              subst this
              exact .junk b b1 b2 u hno
      · cases h
    · rw [eatStep_char] at h
      cases h
      exact .char c _

theorem eatStep_cases (t : Bytes) : (∃ u, Hop t u ∧ eatStep t = (true, u)) ∨ ((¬ ∃ u, Hop t u) ∧ eatStep t = (false, t)) := by
  cases h : eatStep t with
  | mk b u =>
    cases b with
    | true => exact .inl ⟨u, eatStep_hop.mpr h, rfl⟩
    | false =>
      right
      refine ⟨fun ⟨v, hv⟩ => ?_, ?_⟩
      · rw [eatStep_hop.mp hv] at h; cases h
      · have : u = t := by
          unfold eatStep at h
          split at h
          · cases h
          · cases h; rfl
        rw [this]

/-- A search passes a character of one byte, and three bytes that begin with no character. -/
theorem no_hop {e : Bytes} (hh : ¬ ∃ u, Hop e u) : e = [] ∨ (∃ b v, e = b :: v ∧ 0x80 ≤ b.toNat) ∧ e.length ≤ 2 := by
  cases e with
  | nil => exact .inl rfl
  | cons b v =>
    right
    constructor
    · refine ⟨b, v, rfl, Nat.le_of_not_lt fun hb => hh ⟨v, ?_⟩⟩
      have key : ∀ n : Fin 128, enc (Char.ofNat n) = [UInt8.ofNat n] := by decide +kernel
      have : enc (Char.ofNat b.toNat) = [b] := by simpa using key ⟨b.toNat, hb⟩
      have h1 := Hop.char (Char.ofNat b.toNat) v
      rw [this] at h1
      exact h1
    · match v, hh with
      | [], _ => simp
      | [_], _ => simp
      | b1 :: b2 :: v, hh =>
        refine absurd ?_ hh
        by_cases hc : ∃ c, enc c <+: b :: b1 :: b2 :: v
        · obtain ⟨c, u, hu⟩ := hc
          exact ⟨u, hu ▸ Hop.char c u⟩
        · exact ⟨v, .junk b b1 b2 v fun c h => hc ⟨c, h⟩⟩

/-- A search gets on in a text whose last two bytes are ASCII. -/
theorem AsciiEnd.step {t : Bytes} (ht : AsciiEnd t) (hn : t ≠ []) : (eatStep t).1 = true := by
  rcases eatStep_cases t with ⟨u, _, h⟩ | ⟨h, _⟩
  · rw [h]
  · rcases no_hop h with rfl | ⟨⟨b, v, rfl, hb⟩, hl⟩
    · exact absurd rfl hn
    · have := ht _ (List.suffix_refl _) hl b List.mem_cons_self
      omega

theorem _root_.Tok.Spec.Hop.lt {t u : Bytes} (h : Hop t u) : u.length < t.length := by
  cases h with
  | char c u =>
    have := enc_ne_nil c
    cases h : enc c with
    | nil => exact absurd h this
    | cons => simp; omega
  | junk => simp; omega

theorem _root_.Tok.Spec.Hop.suffix {t u : Bytes} (h : Hop t u) : u <:+ t := by
  cases h with
  | char c u => exact List.suffix_append _ _
  | junk b b1 b2 u => exact ⟨[b, b1, b2], rfl⟩

/-! ### the loops -/

/-- A family of reads, by budget, that keeps the Janus strings. -/
structure Calm (f : Nat → EatFunc) : Prop where
  le : ∀ {n m}, n ≤ m → ∀ st, LeE (f n st) (f m st)
  jan : ∀ {n t j ok st}, f n ⟨t, j⟩ = .ret (ok, st) → st.jan = j

section
variable {f b : Nat → EatFunc}

/-- The read at `t` ends with `u` left. -/
def Ends (f : Nat → EatFunc) (j : Nat → Bytes) (ok : Bool) (t u : Bytes) : Prop := ∃ n, f n ⟨t, j⟩ = .ret (ok, ⟨u, j⟩)

theorem Calm.ends (hf : Calm f) {n : Nat} {t : Bytes} {j : Nat → Bytes} {ok : Bool} {st : St} (h : f n ⟨t, j⟩ = .ret (ok, st)) :
    Ends f j ok t st.rest ∧ st = ⟨st.rest, j⟩ := by
  have := hf.jan h
  obtain ⟨u, k⟩ := st
  simp only at this
  subst this
  exact ⟨⟨n, h⟩, rfl⟩

def ToStep (f : Nat → EatFunc) (j : Nat → Bytes) (t u : Bytes) : Prop := ∃ m, Ends f j false t m ∧ Hop m u

def PastStep (f : Nat → EatFunc) (j : Nat → Bytes) (t u : Bytes) : Prop :=
  t ≠ [] ∧ ∃ m, Ends f j false t m ∧ (Hop m u ∨ (¬ ∃ v, Hop m v) ∧ u = m)

theorem pastStep_of {j : Nat → Bytes} {t m : Bytes} (hn : t ≠ []) (h : Ends f j false t m) : PastStep f j t (eatStep m).2 := by
  refine ⟨hn, m, h, ?_⟩
  rcases eatStep_cases m with ⟨u, h1, h2⟩ | ⟨h1, h2⟩
  · rw [h2]; exact .inl h1
  · rw [h2]; exact .inr ⟨h1, rfl⟩

theorem eatStep_next {m u : Bytes} (h : Hop m u ∨ (¬ ∃ v, Hop m v) ∧ u = m) : (eatStep m).2 = u := by
  rcases h with h | ⟨h, rfl⟩
  · rw [eatStep_hop.mp h]
  · rcases eatStep_cases u with ⟨v, h1, _⟩ | ⟨_, h2⟩
    · exact absurd ⟨v, h1⟩ h
    · rw [h2]

theorem eatTo_all (hf : Calm f) (k : Nat) (j : Nat → Bytes) : ∀ n t x, eatTo (f k) n ⟨t, j⟩ = .ret x →
    x.2.jan = j ∧ ∃ u, Relation.ReflTransGen (ToStep f j) t u ∧
      (x.1 = true ∧ x.2.rest = u ∧ (∃ v, Ends f j true u v) ∨ x.1 = false ∧ ∃ m, Ends f j false u m ∧ ¬ ∃ v, Hop m v)
  | 0, _, _, h => by cases h
  | n + 1, t, x, h => by
    unfold eatTo at h
    obtain ⟨⟨ok, st⟩, h1, h2⟩ := Exec.bind_eq_ret.mp h
    obtain ⟨h3, h4⟩ := hf.ends h1
    cases ok with
    | true =>
      simp only [if_true, Exec.pure_eq, Exec.ret.injEq] at h2
      subst h2
      exact ⟨by rw [h4], t, .refl, .inl ⟨rfl, rfl, _, h3⟩⟩
    | false =>
      simp only [Bool.false_eq_true, if_false] at h2
      rcases eatStep_cases st.rest with ⟨u, h5, h6⟩ | ⟨h5, h6⟩
      · rw [h6] at h2
        simp only [if_true] at h2
        rw [h4] at h2
        obtain ⟨h7, v, h8, h9⟩ := eatTo_all hf k j n u x h2
        exact ⟨h7, v, .head ⟨_, h3, h5⟩ h8, h9⟩
      · rw [h6] at h2
        simp only [Bool.false_eq_true, if_false, Exec.pure_eq, Exec.ret.injEq] at h2
        subst h2
        exact ⟨by rw [h4], t, .refl, .inr ⟨rfl, _, h3, h5⟩⟩

theorem eatTo_reach (hf : Calm f) {j : Nat → Bytes} {t u : Bytes} (h : Relation.ReflTransGen (ToStep f j) t u) {ok : Bool} {v : Bytes}
    (hu : Ends f j ok u v) (hv : ok = false → ¬ ∃ w, Hop v w) : ∃ N, ∀ k, N ≤ k → ∀ n, N ≤ n → ∃ w, eatTo (f k) n ⟨t, j⟩ = .ret (ok, ⟨w, j⟩) ∧
      (ok = true → w = u) := by
  induction h using Relation.ReflTransGen.head_induction_on with
  | refl =>
    obtain ⟨N, hN⟩ := hu
    refine ⟨N + 1, fun k hk n hn => ?_⟩
    obtain ⟨n, rfl⟩ : ∃ m, n = m + 1 := ⟨n - 1, by omega⟩
    unfold eatTo
    rw [(hf.le (show N ≤ k by omega) _).ret hN]
    cases ok with
    | true => exact ⟨u, rfl, fun _ => rfl⟩
    | false =>
      rcases eatStep_cases v with ⟨w, h5, h6⟩ | ⟨h5, h6⟩
      · exact absurd ⟨w, h5⟩ (hv rfl)
      · refine ⟨v, ?_, fun h => nomatch h⟩
        simp [h6]
  | @head t w h1 h2 ih =>
    obtain ⟨N, hN⟩ := ih
    obtain ⟨m, ⟨M, hM⟩, hop⟩ := h1
    refine ⟨N + M + 1, fun k hk n hn => ?_⟩
    obtain ⟨n, rfl⟩ : ∃ m, n = m + 1 := ⟨n - 1, by omega⟩
    obtain ⟨y, hy⟩ := hN k (by omega) n (by omega)
    refine ⟨y, ?_, hy.2⟩
    unfold eatTo
    rw [(hf.le (show M ≤ k by omega) _).ret hM]
    simp only [Exec.bind_ret, Bool.false_eq_true, if_false]
    rw [eatStep_hop.mp hop]
    exact hy.1

theorem eatPast_all (hf : Calm f) (k : Nat) (j : Nat → Bytes) : ∀ n t x, eatPast (f k) n ⟨t, j⟩ = .ret x →
    x.2.jan = j ∧ (x.1 = true ∧ (∃ u, Relation.ReflTransGen (PastStep f j) t u ∧ u ≠ [] ∧ Ends f j true u x.2.rest) ∨
      x.1 = false ∧ Relation.ReflTransGen (PastStep f j) t [])
  | 0, _, _, h => by cases h
  | n + 1, t, x, h => by
    unfold eatPast at h
    split at h
    · rename_i ht
      simp only at ht
      subst ht
      cases h
      exact ⟨rfl, .inr ⟨rfl, .refl⟩⟩
    · rename_i ht
      simp only at ht
      obtain ⟨⟨ok, st⟩, h1, h2⟩ := Exec.bind_eq_ret.mp h
      obtain ⟨h3, h4⟩ := hf.ends h1
      cases ok with
      | true =>
        simp only [if_true, Exec.pure_eq, Exec.ret.injEq] at h2
        subst h2
        exact ⟨by rw [h4], .inl ⟨rfl, t, .refl, ht, h3⟩⟩
      | false =>
        simp only [Bool.false_eq_true, if_false] at h2
        rw [show st.jan = j by rw [h4]] at h2
        obtain ⟨h5, ⟨h6, u, h7, h8⟩ | ⟨h6, h7⟩⟩ := eatPast_all hf k j n _ x h2
        · exact ⟨h5, .inl ⟨h6, u, .head (pastStep_of ht h3) h7, h8⟩⟩
        · exact ⟨h5, .inr ⟨h6, .head (pastStep_of ht h3) h7⟩⟩

theorem eatPast_reach (hf : Calm f) {j : Nat → Bytes} {t u : Bytes} (h : Relation.ReflTransGen (PastStep f j) t u) {x : Bool × St}
    (hu : ∃ N, ∀ k, N ≤ k → ∀ n, N ≤ n → eatPast (f k) n ⟨u, j⟩ = .ret x) : ∃ N, ∀ k, N ≤ k → ∀ n, N ≤ n → eatPast (f k) n ⟨t, j⟩ = .ret x := by
  induction h using Relation.ReflTransGen.head_induction_on with
  | refl => exact hu
  | @head t w h1 h2 ih =>
    obtain ⟨N, hN⟩ := ih
    obtain ⟨hn, m, ⟨M, hM⟩, hop⟩ := h1
    refine ⟨N + M + 1, fun k hk n hn' => ?_⟩
    obtain ⟨n, rfl⟩ : ∃ m, n = m + 1 := ⟨n - 1, by omega⟩
    unfold eatPast
    rw [if_neg hn, (hf.le (show M ≤ k by omega) _).ret hM]
    simp only [Exec.bind_ret, Bool.false_eq_true, if_false]
    rw [eatStep_next hop]
    exact hN k (by omega) n (by omega)

theorem eatPast_hit' (hf : Calm f) {j : Nat → Bytes} {u v : Bytes} (hn : u ≠ []) (hu : Ends f j true u v) :
    ∃ N, ∀ k, N ≤ k → ∀ n, N ≤ n → eatPast (f k) n ⟨u, j⟩ = .ret (true, ⟨v, j⟩) := by
  obtain ⟨N, hN⟩ := hu
  refine ⟨N + 1, fun k hk n hn' => ?_⟩
  obtain ⟨n, rfl⟩ : ∃ m, n = m + 1 := ⟨n - 1, by omega⟩
  unfold eatPast
  rw [if_neg hn, (hf.le (show N ≤ k by omega) _).ret hN]
  rfl

theorem eatPast_nil {j : Nat → Bytes} : ∃ N, ∀ k, N ≤ k → ∀ n, N ≤ n → eatPast (f k) n ⟨[], j⟩ = .ret (false, ⟨[], j⟩) := by
  refine ⟨1, fun k _ n hn => ?_⟩
  obtain ⟨n, rfl⟩ : ∃ m, n = m + 1 := ⟨n - 1, by omega⟩
  rfl

/-- What the loop of `Body` does with the match of the tail that it finds. -/
theorem eatBody_all (hf : Calm f) (hb : Calm b) (k : Nat) (j : Nat → Bytes) (t0 : Bytes) : ∀ n t x, eatBody (b k) (f k) t0 n ⟨t, j⟩ = .ret x →
    x.2.jan = j ∧ ((∃ u v ok w, Relation.ReflTransGen (PastStep f j) t u ∧ u ≠ [] ∧ Ends f j true u v ∧ x.2.rest = v ∧
        Ends b j ok (t0.take (t0.length - u.length)) w ∧ x.1 = if ok && w.isEmpty then some u else none) ∨
      x.1 = none ∧ Relation.ReflTransGen (PastStep f j) t [])
  | 0, _, _, h => by cases h
  | n + 1, t, x, h => by
    unfold eatBody at h
    split at h
    · rename_i ht
      simp only at ht
      subst ht
      cases h
      exact ⟨rfl, .inr ⟨rfl, .refl⟩⟩
    · rename_i ht
      simp only at ht
      obtain ⟨⟨ok, st⟩, h1, h2⟩ := Exec.bind_eq_ret.mp h
      obtain ⟨h3, h4⟩ := hf.ends h1
      have hj : st.jan = j := by rw [h4]
      cases ok with
      | true =>
        simp only [if_true] at h2
        obtain ⟨⟨ok, sub⟩, h5, h6⟩ := Exec.bind_eq_ret.mp h2
        rw [hj] at h5
        obtain ⟨h7, h8⟩ := hb.ends h5
        have hj' : sub.jan = j := by rw [h8]
        have hx : x = (if ok && sub.rest.isEmpty then some t else none, ⟨st.rest, j⟩) := by
          cases hc : ok && sub.rest.isEmpty <;> simp only [hc, if_true, Bool.false_eq_true, if_false, Exec.pure_eq, Exec.ret.injEq, hj'] at h6 ⊢ <;>
            exact h6.symm
        subst hx
        exact ⟨rfl, .inl ⟨t, _, ok, _, .refl, ht, h3, rfl, h7, rfl⟩⟩
      | false =>
        simp only [Bool.false_eq_true, if_false] at h2
        rw [hj] at h2
        obtain ⟨h5, ⟨u, v, ok, w, h6, h7⟩ | ⟨h6, h7⟩⟩ := eatBody_all hf hb k j t0 n _ x h2
        · exact ⟨h5, .inl ⟨u, v, ok, w, .head (pastStep_of ht h3) h6, h7⟩⟩
        · exact ⟨h5, .inr ⟨h6, .head (pastStep_of ht h3) h7⟩⟩

theorem eatBody_reach (hf : Calm f) {j : Nat → Bytes} {t0 t u : Bytes} (h : Relation.ReflTransGen (PastStep f j) t u) {x : Option Bytes × St}
    (hu : ∃ N, ∀ k, N ≤ k → ∀ n, N ≤ n → eatBody (b k) (f k) t0 n ⟨u, j⟩ = .ret x) :
    ∃ N, ∀ k, N ≤ k → ∀ n, N ≤ n → eatBody (b k) (f k) t0 n ⟨t, j⟩ = .ret x := by
  induction h using Relation.ReflTransGen.head_induction_on with
  | refl => exact hu
  | @head t w h1 h2 ih =>
    obtain ⟨N, hN⟩ := ih
    obtain ⟨hn, m, ⟨M, hM⟩, hop⟩ := h1
    refine ⟨N + M + 1, fun k hk n hn' => ?_⟩
    obtain ⟨n, rfl⟩ : ∃ m, n = m + 1 := ⟨n - 1, by omega⟩
    unfold eatBody
    rw [if_neg hn, (hf.le (show M ≤ k by omega) _).ret hM]
    simp only [Exec.bind_ret, Bool.false_eq_true, if_false]
    rw [eatStep_next hop]
    exact hN k (by omega) n (by omega)

theorem eatBody_hit' (hf : Calm f) (hb : Calm b) {j : Nat → Bytes} {t0 u v w : Bytes} {ok : Bool} (hn : u ≠ []) (hu : Ends f j true u v)
    (hw : Ends b j ok (t0.take (t0.length - u.length)) w) :
    ∃ N, ∀ k, N ≤ k → ∀ n, N ≤ n → eatBody (b k) (f k) t0 n ⟨u, j⟩ = .ret (if ok && w.isEmpty then some u else none, ⟨v, j⟩) := by
  obtain ⟨N, hN⟩ := hu
  obtain ⟨M, hM⟩ := hw
  refine ⟨N + M + 1, fun k hk n hn' => ?_⟩
  obtain ⟨n, rfl⟩ : ∃ m, n = m + 1 := ⟨n - 1, by omega⟩
  unfold eatBody
  rw [if_neg hn, (hf.le (show N ≤ k by omega) _).ret hN]
  simp only [Exec.bind_ret, if_true]
  rw [(hb.le (show M ≤ k by omega) _).ret hM]
  simp only [Exec.bind_ret]
  cases ok && w.isEmpty <;> rfl

theorem eatBody_nil {j : Nat → Bytes} {t0 : Bytes} : ∃ N, ∀ k, N ≤ k → ∀ n, N ≤ n → eatBody (b k) (f k) t0 n ⟨[], j⟩ = .ret (none, ⟨[], j⟩) := by
  refine ⟨1, fun k _ n hn => ?_⟩
  obtain ⟨n, rfl⟩ : ∃ m, n = m + 1 := ⟨n - 1, by omega⟩
  rfl

end

/-! ### readers -/

section
variable {rt : Rt} {G : Env} (hG : G.Every Reader.stateless) {r : Reader} (hr : r.Every Reader.stateless)
include hG hr

theorem eat_calm : Calm (fun n => eat rt G n r) where
  le h st := eat_le rt G _ _ h r st
  jan h := eat_jan hG hr h

theorem ends_true (j : Nat → Bytes) {t x u : Bytes} (hx : t = x ++ u) : Ends (fun n => eat rt G n r) j true t u ↔ Matches rt G r t x u :=
  (matches_iff hG hr j hx).symm

theorem ends_hit (j : Nat → Bytes) {t : Bytes} : (∃ u, Ends (fun n => eat rt G n r) j true t u) ↔ ∃ x u, Matches rt G r t x u := by
  rw [matches_ex hG hr j]
  exact ⟨fun ⟨u, n, h⟩ => ⟨n, u, h⟩, fun ⟨n, u, h⟩ => ⟨u, n, h⟩⟩

theorem ends_false (j : Nat → Bytes) {t x u : Bytes} (hx : t = x ++ u) : Ends (fun n => eat rt G n r) j false t u ↔ FailsOver rt G r t x u := by
  have hb : Between (.new t Heap.empty) [] t := ⟨rfl, rfl⟩
  constructor
  · rintro ⟨n, h1⟩
    obtain ⟨e, s', x', h2, h3, h4, h5⟩ := read_of_eat hG hr hb (eat_any hG hr (Scanner.new t Heap.empty).heap.janus h1)
    cases e with
    | none => cases h3
    | some e =>
      simp only at h4 h5
      have : x' = x := List.append_cancel_right (h4.symm.trans hx)
      subst this
      exact ⟨n, e, s', h2, hx, h5⟩
  · rintro ⟨n, e, s', h1, h2, h3⟩
    obtain ⟨x', u', h4, h5, h6⟩ := eat_of_read hG hr hb h1
    have : u' = u := by
      have e1 := h3.1; have e2 := h6.1; have e3 := h3.2; have e4 := h6.2
      simp only [List.nil_append] at e2 e4
      rw [e1] at e2
      exact (List.append_inj e2 (by omega)).2.symm
    subst this
    exact ⟨n, eat_any hG hr j h4⟩

theorem ends_false_ex (j : Nat → Bytes) {t u : Bytes} : Ends (fun n => eat rt G n r) j false t u ↔ ∃ x, FailsOver rt G r t x u := by
  constructor
  · rintro ⟨n, h⟩
    obtain ⟨x, hx⟩ := eat_shrinks rt G n r _ _ h
    exact ⟨x, (ends_false hG hr j hx.symm).mp ⟨n, h⟩⟩
  · rintro ⟨x, h⟩
    have hx : t = x ++ u := by obtain ⟨_, _, _, _, h, _⟩ := h; exact h
    exact (ends_false hG hr j hx).mpr h

theorem toStep_iff (j : Nat → Bytes) : ToStep (fun n => eat rt G n r) j = ToNext rt G r := by
  funext t u
  apply propext
  constructor
  · rintro ⟨m, h1, h2⟩
    obtain ⟨x, h1⟩ := (ends_false_ex hG hr j).mp h1
    exact ⟨x, m, h1, h2⟩
  · rintro ⟨x, m, h1, h2⟩
    exact ⟨m, (ends_false_ex hG hr j).mpr ⟨x, h1⟩, h2⟩

theorem pastStep_iff (j : Nat → Bytes) : PastStep (fun n => eat rt G n r) j = PastNext rt G r := by
  funext t u
  apply propext
  constructor
  · rintro ⟨h0, m, h1, h2⟩
    obtain ⟨x, h1⟩ := (ends_false_ex hG hr j).mp h1
    exact ⟨h0, x, m, h1, h2⟩
  · rintro ⟨h0, x, m, h1, h2⟩
    exact ⟨h0, m, (ends_false_ex hG hr j).mpr ⟨x, h1⟩, h2⟩

omit hG hr in
theorem toNext_suffix {t u : Bytes} (h : ToNext rt G r t u) : u <:+ t := by
  obtain ⟨x, m, ⟨_, _, _, _, h1, _⟩, h2⟩ := h
  rw [h1]
  exact h2.suffix.trans (List.suffix_append _ _)

omit hG hr in
theorem pastNext_suffix {t u : Bytes} (h : PastNext rt G r t u) : u <:+ t := by
  obtain ⟨_, x, m, ⟨_, _, _, _, h1, _⟩, h2 | ⟨_, h2⟩⟩ := h
  · rw [h1]
    exact h2.suffix.trans (List.suffix_append _ _)
  · rw [h1, h2]
    exact List.suffix_append _ _

omit hG hr in
theorem reached_suffix {R : Bytes → Bytes → Prop} (hR : ∀ {t u}, R t u → u <:+ t) {t u : Bytes} (h : Reached R t u) : u <:+ t := by
  induction h with
  | refl => exact List.suffix_refl _
  | tail _ h ih => exact (hR h).trans ih
end

end Tok
