/-
Reading with a well-formed grammar comes to an end.
-/
import Verif.Proofs.Tidy
import Verif.Proofs.EatMono
import Verif.Proofs.Safe

namespace Tok
open Spec

/-! ### readers that are not `null` consume -/

/-- Success only with a shorter text ahead. -/
def Eats (f : EatFunc) : Prop := ∀ st, RetE (fun x : Bool × St => x.1 = true → x.2.rest.length < st.rest.length) (f st)

/-- The same for text functions. -/
def EatsT (f : Bytes → Bool × Bytes) : Prop := ∀ t, (f t).1 = true → (f t).2.length < t.length

theorem EatsT.eats {f : Bytes → Bool × Bytes} (h : EatsT f) : Eats (lift f) := fun st => .ret (h st.rest)

theorem drop_lt {t : Bytes} {k : Nat} (ht : t ≠ []) (hk : 0 < k) : (t.drop k).length < t.length := by
  have := List.length_pos_iff.mpr ht
  rw [List.length_drop]; omega

theorem decodeRune_pos {t : Bytes} (ht : t ≠ []) : 0 < (decodeRune t).2 := by
  obtain ⟨ps, hps⟩ := Pieces.exists t
  cases hps with
  | nil => exact absurd rfl ht
  | cons hs he _ =>
    rw [(step_iff.mp hs).2.1]
    exact List.length_pos_iff.mpr hs.ne_nil

theorem eatsT_one {p : Int → Bool} (h : p 0xFFFD = false) : EatsT (eatOne p) := fun t => by
  unfold eatOne
  split
  · next hp =>
    intro _
    refine drop_lt (fun he => ?_) (decodeRune_pos fun he => ?_) <;>
    · subst he
      rw [decodeRune_nil] at hp
      exact absurd (h.symm.trans hp) (by decide)
  · intro h; cases h

theorem eatsT_one_ne (p : Int → Bool) {t : Bytes} (ht : t ≠ []) (h : (eatOne p t).1 = true) : (eatOne p t).2.length < t.length := by
  unfold eatOne at h ⊢
  split at h
  · next hp =>
    rw [if_pos hp]
    exact drop_lt ht (decodeRune_pos ht)
  · cases h

theorem eatsT_between (a b : Int) : EatsT (eatBetween a b) := fun t h => by
  unfold eatBetween at h ⊢
  split at h
  · cases h
  · next ht => rw [if_neg ht]; exact eatsT_one_ne _ ht h

theorem eatsT_match (f : Int → Bool) : EatsT (eatMatch f) := fun t h => by
  unfold eatMatch at h ⊢
  split at h
  · cases h
  · next ht => rw [if_neg ht]; exact eatsT_one_ne _ ht h

theorem prefix_drop_lt {t x : Bytes} (h : hasPrefix t x = true) (hx : x ≠ []) : (t.drop x.length).length < t.length := by
  have h' : x <+: t := by simpa [hasPrefix] using h
  refine drop_lt (fun he => ?_) (List.length_pos_iff.mpr hx)
  subst he
  exact hx (List.prefix_nil.mp h')

theorem eatsT_lit {x : Bytes} (hx : x ≠ []) : EatsT (eatLit x) := fun t h => by
  unfold eatLit at h ⊢
  split at h
  · next hp => rw [if_pos hp]; exact prefix_drop_lt hp hx
  · cases h

theorem eatsT_lits : ∀ {l : List Bytes}, (∀ x ∈ l, x ≠ []) → EatsT (eatLits l)
  | [], _, _, h => by cases h
  | x :: l, hl, t, h => by
    unfold eatLits at h ⊢
    split at h
    · next hp => rw [if_pos hp]; exact prefix_drop_lt hp (hl x List.mem_cons_self)
    · next hp => rw [if_neg hp]; exact eatsT_lits (fun y hy => hl y (List.mem_cons_of_mem _ hy)) t h

theorem eatsT_bool (f : Bytes) : EatsT (eatBool f) := fun t h => by
  unfold eatBool at h ⊢
  repeat' split at h
  all_goals first
    | cases h
    | (simp_all only [if_true]; exact eatsT_lits (by decide) t h)

theorem eatsT_ranges : ∀ (l : List (Int × Int)), EatsT (eatRanges l)
  | [], _, h => by cases h
  | (a, b) :: l, t, h => by
    unfold eatRanges at h ⊢
    split at h
    · next hp => rw [if_pos hp]; exact eatsT_between a b t h
    · next hp => rw [if_neg hp]; exact eatsT_ranges l t h

theorem eatsT_set {l : List (Int × Int)} {x : Bytes} (hx : containsRune x 0xFFFD = false) : EatsT (eatSet l x) := fun t h => by
  unfold eatSet at h ⊢
  split at h
  · next hp => rw [if_pos hp]; exact eatsT_ranges l t h
  · next hp => rw [if_neg hp]; exact eatsT_one hx t h

theorem eatsT_fold (rt : Rt) {x t : Bytes} (hx : x ≠ []) (hl : x.length ≤ t.length) (h : (eatFold rt x t).1 = true) :
    (eatFold rt x t).2.length < t.length := by
  unfold eatFold at h ⊢
  split at h
  · next hp =>
    rw [if_pos hp]
    have := List.length_pos_iff.mpr hx
    simp only [List.length_drop]
    omega
  · cases h

theorem rangeStr_index_pos {l : List (Nat × Int)} {n : Int} (h : n = -1 ∨ ∃ x ∈ l, n = (x.1 : Int)) (hn : n ≠ -1) : 0 < (n + 1).toNat ∧ l ≠ [] := by
  rcases h with h | ⟨x, hx, h⟩
  · exact absurd h hn
  · exact ⟨by omega, List.ne_nil_of_mem hx⟩

theorem eatsT_int (a b : Int) : EatsT (eatInt a b) := fun t h => by
  unfold eatInt at h ⊢
  split at h
  · next hc hb =>
    simp only at h ⊢
    split at h
    · cases h
    · next hn =>
      rw [if_neg hn]
      obtain ⟨h1, h2⟩ := rangeStr_index_pos (intLoop_index _ _ _ _ _ _ _ _) hn
      have h3 : eatSign t ≠ [] := fun he => h2 (by rw [he]; rfl)
      exact Nat.lt_of_lt_of_le (drop_lt h3 h1) (eatSign_suffix t).length_le
  · cases h

theorem eatsT_uint (a b : Int) : EatsT (eatUint a b) := fun t h => by
  unfold eatUint at h ⊢
  split at h
  · next hc hb =>
    simp only at h ⊢
    split at h
    · cases h
    · next hn =>
      rw [if_neg hn]
      obtain ⟨h1, h2⟩ := rangeStr_index_pos (uintLoop_index _ _ _ _ _ _) hn
      exact drop_lt (fun he => h2 (by rw [he]; rfl)) h1
  · cases h

theorem Eats.orBack {st : St} {x : Bool × St} (h : x.1 = true → x.2.rest.length < st.rest.length) :
    (orBack st.rest x).1 = true → (orBack st.rest x).2.rest.length < st.rest.length := by
  unfold Tok.orBack
  split
  · exact h
  · intro h; cases h

section
variable {nul : Nat → Bool} {rd : Reader → EatFunc}

theorem eatAny_eats (hs : ∀ r, Shrinks (rd r)) : ∀ {rs : List Reader} (_ : ∀ r ∈ rs, r.null nul = false → Eats (rd r)),
    Reader.nullSome nul rs = false → Eats (eatAny rd rs)
  | [], _, _, _ => .ret (by simp)
  | r :: rs, h, hn, st => by
    simp only [Reader.nullSome, Bool.or_eq_false_iff] at hn
    refine ((h r List.mem_cons_self hn.1 st)).bind fun a ha h1 => ?_
    obtain ⟨ok, st'⟩ := a
    cases ok
    · have h2 := (hs r st _ ha).length_le
      exact (eatAny_eats hs (fun c hc => h c (List.mem_cons_of_mem _ hc)) hn.2 st').mono fun x _ hx hx1 => Nat.lt_of_lt_of_le (hx hx1) h2
    · exact .ret h1

theorem eatSeq_eats (hs : ∀ r, Shrinks (rd r)) : ∀ {rs : List Reader} (_ : ∀ r ∈ rs, r.null nul = false → Eats (rd r)),
    Reader.nullAll nul rs = false → Eats (eatSeq rd rs)
  | [], _, hn, _ => by cases hn
  | r :: rs, h, hn, st => by
    simp only [Reader.nullAll, Bool.and_eq_false_iff] at hn
    refine RetE.trivial.bind fun a ha _ => ?_
    obtain ⟨ok, st'⟩ := a
    cases ok
    · exact .ret (by simp)
    · have h2 := (hs r st _ ha).length_le
      rcases hn with hn | hn
      · have h1 := h r List.mem_cons_self hn st _ ha rfl
        exact fun x hx _ => Nat.lt_of_le_of_lt (eatSeq_shrinks hs rs st' x hx).length_le h1
      · exact (eatSeq_eats hs (fun c hc => h c (List.mem_cons_of_mem _ hc)) hn st').mono fun x _ hx hx1 => Nat.lt_of_lt_of_le (hx hx1) h2

theorem eatSkip_eats (hs : ∀ r, Shrinks (rd r)) {sk : Reader} : ∀ {rs : List Reader} (_ : ∀ r ∈ rs, r.null nul = false → Eats (rd r)),
    Reader.nullAll nul rs = false → Eats (eatSkip rd sk rs)
  | [], _, hn, _ => by cases hn
  | r :: rs, h, hn, st => by
    simp only [Reader.nullAll, Bool.and_eq_false_iff] at hn
    refine RetE.trivial.bind fun a ha _ => ?_
    obtain ⟨ok, st'⟩ := a
    cases ok
    · exact .ret (by simp)
    · have h2 := (hs r st _ ha).length_le
      refine RetE.trivial.bind fun a hb _ => ?_
      obtain ⟨ok, st''⟩ := a
      cases ok
      · exact .ret (by simp)
      · have h3 := (hs sk st' _ hb).length_le
        rcases hn with hn | hn
        · have h1 := h r List.mem_cons_self hn st _ ha rfl
          exact fun x hx _ => Nat.lt_of_le_of_lt (Nat.le_trans (eatSkip_shrinks hs sk rs st'' x hx).length_le h3) h1
        · exact (eatSkip_eats hs (fun c hc => h c (List.mem_cons_of_mem _ hc)) hn st'').mono fun x _ hx hx1 =>
            Nat.lt_of_lt_of_le (hx hx1) (Nat.le_trans h3 h2)

theorem eatTimes_eats {f : EatFunc} (hs : Shrinks f) (h : Eats f) : ∀ {k : Nat}, 0 < k → Eats (eatTimes f k)
  | 0, hk, _ => absurd hk (by omega)
  | k + 1, _, st => (h st).bind fun a _ h1 => by
    obtain ⟨ok, st'⟩ := a
    cases ok
    · exact .ret (by simp)
    · exact fun x hx _ => Nat.lt_of_le_of_lt (eatTimes_shrinks hs k st' x hx).length_le (h1 rfl)

theorem eatPast_eats {f : EatFunc} (hs : Shrinks f) (h : Eats f) : ∀ n, Eats (eatPast f n)
  | 0, _ => .timeout
  | n + 1, st => by
    unfold eatPast
    split
    · exact .ret (by simp)
    · refine (h st).bind fun a ha h1 => ?_
      obtain ⟨ok, st'⟩ := a
      cases ok
      · have h2 := (hs st _ ha).length_le
        exact (eatPast_eats hs h n _).mono fun x _ hx hx1 =>
          Nat.lt_of_lt_of_le (hx hx1) (Nat.le_trans (eatStep_suffix _).length_le h2)
      · exact .ret h1

theorem eatBody_eats {b t : EatFunc} (hs : Shrinks t) (h : Eats t) (t0 : Bytes) : ∀ n st,
    RetE (fun x : Option Bytes × St => x.1.isSome → x.2.rest.length < st.rest.length) (eatBody b t t0 n st)
  | 0, _ => .timeout
  | n + 1, st => by
    unfold eatBody
    split
    · exact .ret (by simp)
    · refine (h st).bind fun a ha h1 => ?_
      obtain ⟨ok, st'⟩ := a
      cases ok
      · have h2 := (hs st _ ha).length_le
        exact (eatBody_eats hs h t0 n _).mono fun x _ hx hx1 =>
          Nat.lt_of_lt_of_le (hx hx1) (Nat.le_trans (eatStep_suffix _).length_le h2)
      · refine RetE.trivial.bind fun a _ _ => ?_
        obtain ⟨ok, sub⟩ := a
        simp only
        split
        · exact .ret fun _ => h1 rfl
        · exact .ret (by simp)

end

theorem eat_eats (rt : Rt) (G : Env) {nul : Nat → Bool}
    (hG : ∀ (i : Nat) (nm : Bytes) (c : Reader), G[i]? = some ⟨nm, some c⟩ → c.null nul = true → nul i = true) :
    ∀ n r, r.null nul = false → Eats (eat rt G n r)
  | 0, _, _, _ => .timeout
  | n + 1, r, hn, st => by
    have ih := eat_eats rt G hG n
    have sh := eat_shrinks rt G n
    have hct : ∀ str, (runesOf str).contains (0xFFFD : Int) = false → containsRune str 0xFFFD = false := fun str h => by
      rw [containsRune_contains]; exact h
    cases r with
    | any rs =>
      exact (eatAny_eats sh (fun r _ => ih r) hn st).bind fun _ _ h => .ret (Eats.orBack h)
    | anyRune str => exact (eatsT_one (hct _ hn)).eats st
    | at_ sub => cases hn
    | atEnd => cases hn
    | between a b => exact (eatsT_between _ _).eats st
    | betweenAny a b => exact (eatsT_set (hct _ hn)).eats st
    | body b t => cases hn
    | bodyTail b t =>
      refine (eatBody_eats (sh t) (ih t hn) _ n st).bind fun a _ h => ?_
      obtain ⟨res, st'⟩ := a
      cases res with
      | none => exact .ret (by simp)
      | some x => exact .ret fun _ => h rfl
    | bool c f => exact (eatsT_bool _).eats st
    | fold v =>
      simp only [eat]
      split
      · exact .panic
      · next hl =>
        refine .ret fun h => ?_
        simp only [Reader.null, List.isEmpty_eq_false_iff] at hn
        exact eatsT_fold rt hn (by omega) h
    | holey a b c =>
      refine (eatsT_one ?_).eats st
      simp only [Reader.null, Bool.and_eq_false_iff, Bool.not_eq_false', decide_eq_false_iff_not] at hn
      simp only [Scanner.inRange, Bool.and_eq_false_iff, Bool.not_eq_false', decide_eq_false_iff_not]
      rw [containsRune_contains]
      exact hn
    | int a b c => exact (eatsT_int _ _).eats st
    | janusBegin id nm sub =>
      refine (ih sub hn st).bind fun a _ h => ?_
      obtain ⟨ok, st'⟩ := a
      cases ok
      · exact .ret (by simp)
      · exact .ret h
    | janusEnd id nm => cases hn
    | invalid e => exact .ret (by simp)
    | lit x =>
      simp only [Reader.null, List.isEmpty_eq_false_iff] at hn
      exact (eatsT_lit hn).eats st
    | many sub => exact RetE.trivial.bind fun st' _ _ => .ret fun h => of_decide_eq_true h
    | map f sub => exact (ih sub hn st).bind fun _ _ h => .ret (Eats.orBack h)
    | match_ w f => exact (eatsT_match _).eats st
    | named nm sub => exact ih sub hn st
    | not sub => cases hn
    | opt sub => cases hn
    | past sub => exact (eatPast_eats (sh sub) (ih sub hn) n st).bind fun _ _ h => .ret (Eats.orBack h)
    | rune c =>
      refine (eatsT_one ?_).eats st
      simp only [Reader.null, decide_eq_false_iff_not] at hn
      simpa using fun h => hn h.symm
    | seq rs => exact (eatSeq_eats sh (fun r _ => ih r) hn st).bind fun _ _ h => .ret (Eats.orBack h)
    | skipSeq sk rs =>
      simp only [Reader.null, Bool.and_eq_false_iff] at hn
      refine RetE.trivial.bind fun a ha _ => ?_
      obtain ⟨ok, st'⟩ := a
      cases ok
      · exact .ret (Eats.orBack (by simp))
      · refine RetE.trivial.bind fun x hx _ => .ret (Eats.orBack fun h => ?_)
        have h2 := (sh sk st _ ha).length_le
        have h3 := (eatSkip_shrinks sh sk rs st' _ hx).length_le
        rcases hn with hn | hn
        · have h1 := ih sk hn st _ ha rfl
          exact Nat.lt_of_le_of_lt h3 h1
        · exact Nat.lt_of_lt_of_le (eatSkip_eats sh (fun r _ => ih r) hn st' _ hx h) h2
    | times k sub =>
      simp only [Reader.null, Bool.or_eq_false_iff, decide_eq_false_iff_not] at hn
      exact eatTimes_eats (sh sub) (ih sub hn.2) (by omega) st
    | «to» sub => cases hn
    | uint a b c => exact (eatsT_uint _ _).eats st
    | wrap w f => cases hn
    | zom sub => cases hn
    | pick i b sub => exact (ih sub hn st).bind fun _ _ h => .ret (Eats.orBack h)
    | monitor i l sub => exact ih sub hn st
    | rule i =>
      simp only [eat]
      split
      · next hi =>
        refine ih _ ?_ st
        have := hG _ _ _ hi
        simp only [Reader.null] at hn
        rcases hc : Reader.null nul _ with _ | _
        · rfl
        · rw [this hc] at hn; cases hn
      · exact .panic
    | ruleName sub => exact ih sub hn st
    | grammar w sub => exact ih sub hn st

/-! ### halting -/

/-- With enough fuel always the same outcome, which is not "out of fuel". -/
def Halts {α : Type} (f : Nat → Exec α) : Prop := ∃ m x, x ≠ .timeout ∧ ∀ k, m ≤ k → f k = x

theorem Halts.ret {α : Type} {a : α} : Halts (fun _ => .ret a) := ⟨0, _, by simp, fun _ _ => rfl⟩
theorem Halts.panic {α : Type} : Halts (fun _ => (.panic : Exec α)) := ⟨0, _, by simp, fun _ _ => rfl⟩

theorem Halts.bind {α β : Type} {f : Nat → Exec α} {g : Nat → α → Exec β} (hf : Halts f)
    (hg : ∀ k a, f k = .ret a → Halts (fun k => g k a)) : Halts (fun k => f k >>= g k) := by
  obtain ⟨m, x, hx, hf⟩ := hf
  cases x with
  | timeout => exact absurd rfl hx
  | panic => exact ⟨m, .panic, by simp, fun k hk => by simp only [hf k hk, Exec.bind_panic]⟩
  | ret a =>
    obtain ⟨m', y, hy, hg⟩ := hg m a (hf m (Nat.le_refl _))
    exact ⟨max m m', y, hy, fun k hk => by simp only [hf k (by omega), Exec.bind_ret]; exact hg k (by omega)⟩

theorem Halts.shift {α : Type} {f : Nat → Exec α} (h : Halts (fun k => f (k + 1))) : Halts f := by
  obtain ⟨m, x, hx, h⟩ := h
  refine ⟨m + 1, x, hx, fun k hk => ?_⟩
  obtain ⟨k, rfl⟩ : ∃ j, k = j + 1 := ⟨k - 1, by omega⟩
  exact h k (by omega)

/-- The same for two amounts of fuel. -/
def Halts2 {α : Type} (f : Nat → Nat → Exec α) : Prop := ∃ m x, x ≠ .timeout ∧ ∀ k j, m ≤ k → m ≤ j → f k j = x

theorem Halts2.diag {α : Type} {f : Nat → Nat → Exec α} (h : Halts2 f) : Halts (fun k => f k k) := by
  obtain ⟨m, x, hx, h⟩ := h
  exact ⟨m, x, hx, fun k hk => h k k hk hk⟩

theorem Halts2.ret {α : Type} {a : α} : Halts2 (fun _ _ => .ret a) := ⟨0, _, by simp, fun _ _ _ _ => rfl⟩

theorem Halts2.shift {α : Type} {f : Nat → Nat → Exec α} (h : Halts2 (fun k j => f k (j + 1))) : Halts2 f := by
  obtain ⟨m, x, hx, h⟩ := h
  refine ⟨m + 1, x, hx, fun k j hk hj => ?_⟩
  obtain ⟨j, rfl⟩ : ∃ i, j = i + 1 := ⟨j - 1, by omega⟩
  exact h k j (by omega) (by omega)

theorem Halts2.bind {α β : Type} {f : Nat → Exec α} {g : Nat → Nat → α → Exec β} (hf : Halts f)
    (hg : ∀ k a, f k = .ret a → Halts2 (fun k j => g k j a)) : Halts2 (fun k j => f k >>= g k j) := by
  obtain ⟨m, x, hx, hf⟩ := hf
  cases x with
  | timeout => exact absurd rfl hx
  | panic => exact ⟨m, .panic, by simp, fun k j hk _ => by simp only [hf k hk, Exec.bind_panic]⟩
  | ret a =>
    obtain ⟨m', y, hy, hg⟩ := hg m a (hf m (Nat.le_refl _))
    exact ⟨max m m', y, hy, fun k j hk hj => by
      simp only [hf k (by omega), Exec.bind_ret]; exact hg k j (by omega) (by omega)⟩

theorem Halts.of1 {α : Type} {f : Nat → Exec α} (h : Halts f) : Halts2 (fun k _ => f k) := by
  obtain ⟨m, x, hx, h⟩ := h
  exact ⟨m, x, hx, fun k _ hk _ => h k hk⟩

section
variable {srch : Bool} {K : Bytes → Prop}

/-- The states in question: well-formed ones if searches are admitted; the text ahead is as
`K` says. -/
def OkSt (srch : Bool) (K : Bytes → Prop) (st : St) : Prop := (srch = true → Good st) ∧ K st.rest

/-- What is known about a reader with every amount of fuel. -/
structure Behaves (srch : Bool) (F : Nat → EatFunc) : Prop where
  tidy : srch = true → ∀ k, TidyF (F k)
  shrinks : ∀ k, Shrinks (F k)

/-- Stable when the text ahead gets shorter. -/
def Closed (K : Bytes → Prop) : Prop := ∀ x y : Bytes, y <:+ x → K x → K y

theorem Behaves.ok (hK : Closed K) {F : Nat → EatFunc} (h : Behaves srch F) {k : Nat} {st : St} {x : Bool × St} (hs : OkSt srch K st) (hx : F k st = .ret x) :
    OkSt srch K x.2 := ⟨fun e => (h.tidy e k st (hs.1 e) x hx).1, hK _ _ (h.shrinks k st x hx) hs.2⟩

theorem Behaves.le {F : Nat → EatFunc} (h : Behaves srch F) {k : Nat} {st : St} {x : Bool × St} (hx : F k st = .ret x) :
    x.2.rest.length ≤ st.rest.length := (h.shrinks k st x hx).length_le

theorem eatStep_lt {t : Bytes} (h : (eatStep t).1 = true) : (eatStep t).2.length < t.length := by
  unfold eatStep at h ⊢
  split at h
  · next hc =>
    rw [if_pos hc]
    refine drop_lt hc.1 ?_
    have : 1 ≤ runeLen (decodeRune t).1 := by
      obtain ⟨r, p, hs⟩ := Step.exists hc.1
      rw [(step_iff.mp hs).2.1]
      cases hs with
      | char c t =>
        have h1 := runeLen_char c
        have h2 := enc_length_pos c
        simp only
        omega
      | bad b t hb => simp only; decide
    omega
  · cases h

theorem Good.step_lt {st : St} (h : Good st) (hn : st.rest ≠ []) : (eatStep st.rest).2.length < st.rest.length := by
  obtain ⟨⟨cs, hc⟩, _⟩ := h
  refine eatStep_lt ?_
  rw [hc] at hn ⊢
  cases cs with
  | nil => exact absurd rfl hn
  | cons c cs => rw [encText_cons, eatStep_char]

theorem Good.step {st : St} (h : Good st) : Good ⟨(eatStep st.rest).2, st.jan⟩ := (Moves.refl h).step.1

theorem OkSt.step (hK : Closed K) {st : St} (h : OkSt srch K st) : OkSt srch K ⟨(eatStep st.rest).2, st.jan⟩ :=
  ⟨fun e => (h.1 e).step, hK _ _ (eatStep_suffix _) h.2⟩

section loops
variable {F : Nat → Reader → EatFunc} {nul : Nat → Bool} {W : Reader → Prop} (hK : Closed K) (hB : ∀ r, W r → Behaves srch (fun k => F k r))
include hK hB

theorem eatAny_halts {L : Nat} : ∀ {rs : List Reader} (_ : ∀ r ∈ rs, W r)
    (_ : ∀ r ∈ rs, ∀ st, OkSt srch K st → st.rest.length ≤ L → Halts (fun k => F k r st)) (st : St),
    OkSt srch K st → st.rest.length ≤ L → Halts (fun k => eatAny (F k) rs st)
  | [], _, _, _, _, _ => .ret
  | r :: rs, hw, h, st, hs, hl => by
    refine (h r List.mem_cons_self st hs hl).bind fun k a ha => ?_
    obtain ⟨ok, st'⟩ := a
    have hb := hB r (hw r List.mem_cons_self)
    cases ok
    · exact eatAny_halts (fun c hc => hw c (List.mem_cons_of_mem _ hc)) (fun c hc => h c (List.mem_cons_of_mem _ hc)) st' (hb.ok hK hs ha)
        (Nat.le_trans (hb.le ha) hl)
    · exact .ret

/-- Every part halts from here on. -/
theorem eatSeq_short {L : Nat} : ∀ {rs : List Reader} (_ : ∀ r ∈ rs, W r)
    (_ : ∀ r ∈ rs, ∀ st, OkSt srch K st → st.rest.length < L → Halts (fun k => F k r st)) (st : St),
    OkSt srch K st → st.rest.length < L → Halts (fun k => eatSeq (F k) rs st)
  | [], _, _, _, _, _ => .ret
  | r :: rs, hw, h, st, hs, hl => by
    refine (h r List.mem_cons_self st hs hl).bind fun k a ha => ?_
    obtain ⟨ok, st'⟩ := a
    have hb := hB r (hw r List.mem_cons_self)
    cases ok
    · exact .ret
    · exact eatSeq_short (fun c hc => hw c (List.mem_cons_of_mem _ hc)) (fun c hc => h c (List.mem_cons_of_mem _ hc)) st' (hb.ok hK hs ha)
        (Nat.lt_of_le_of_lt (hb.le ha) hl)

theorem eatSeq_halts (hE : ∀ r, r.null nul = false → ∀ k, Eats (F k r)) {L R : Nat} {rank : Nat → Nat} : ∀ {rs : List Reader}
    (_ : ∀ r ∈ rs, W r)
    (_ : ∀ r ∈ rs, ∀ st, OkSt srch K st → st.rest.length < L → Halts (fun k => F k r st))
    (_ : ∀ r ∈ rs, (∀ j ∈ r.left nul, rank j < R) → ∀ st, OkSt srch K st → st.rest.length ≤ L → Halts (fun k => F k r st))
    (_ : ∀ j ∈ Reader.leftSeq nul rs, rank j < R) (st : St),
    OkSt srch K st → st.rest.length ≤ L → Halts (fun k => eatSeq (F k) rs st)
  | [], _, _, _, _, _, _, _ => .ret
  | r :: rs, hw, hlt, h, hj, st, hs, hl => by
    simp only [Reader.leftSeq, List.mem_append] at hj
    refine (h r List.mem_cons_self (fun j h => hj j (.inl h)) st hs hl).bind fun k a ha => ?_
    obtain ⟨ok, st'⟩ := a
    have hb := hB r (hw r List.mem_cons_self)
    have hw' := fun c hc => hw c (List.mem_cons_of_mem r hc)
    have hlt' := fun c hc => hlt c (List.mem_cons_of_mem r hc)
    have hok : OkSt srch K st' := hb.ok hK hs ha
    cases ok
    · exact .ret
    · by_cases hlen : st'.rest.length < L
      · exact eatSeq_short hK hB hw' hlt' st' hok hlen
      · refine eatSeq_halts hE hw' hlt' (fun c hc => h c (List.mem_cons_of_mem _ hc)) (fun j hj' => hj j (.inr ?_)) st' hok
          (Nat.le_trans (hb.le ha) hl)
        rcases hn : r.null nul with _ | _
        · have h1 := hE r hn k st _ ha rfl
          exact absurd (Nat.lt_of_lt_of_le h1 hl) hlen
        · rw [if_pos rfl]; exact hj'

theorem eatSkip_short {L : Nat} {sk : Reader} (hk : W sk)
    (hkh : ∀ st, OkSt srch K st → st.rest.length < L → Halts (fun k => F k sk st)) : ∀ {rs : List Reader}
    (_ : ∀ r ∈ rs, W r)
    (_ : ∀ r ∈ rs, ∀ st, OkSt srch K st → st.rest.length < L → Halts (fun k => F k r st)) (st : St),
    OkSt srch K st → st.rest.length < L → Halts (fun k => eatSkip (F k) sk rs st)
  | [], _, _, _, _, _ => .ret
  | r :: rs, hw, h, st, hs, hl => by
    refine (h r List.mem_cons_self st hs hl).bind fun k a ha => ?_
    obtain ⟨ok, st'⟩ := a
    have hb := hB r (hw r List.mem_cons_self)
    have hok : OkSt srch K st' := hb.ok hK hs ha
    have hlen : st'.rest.length < L := Nat.lt_of_le_of_lt (hb.le ha) hl
    cases ok
    · exact .ret
    · refine (hkh st' hok hlen).bind fun k a ha => ?_
      obtain ⟨ok, st''⟩ := a
      have hb := hB sk hk
      cases ok
      · exact .ret
      · exact eatSkip_short hk hkh (fun c hc => hw c (List.mem_cons_of_mem _ hc)) (fun c hc => h c (List.mem_cons_of_mem _ hc)) st''
          (hb.ok hK hok ha) (Nat.lt_of_le_of_lt (hb.le ha) hlen)

theorem eatSkip_halts (hE : ∀ r, r.null nul = false → ∀ k, Eats (F k r)) {L R : Nat} {rank : Nat → Nat} {sk : Reader}
    (hk : W sk) (hkh : ∀ st, OkSt srch K st → st.rest.length ≤ L → Halts (fun k => F k sk st)) : ∀ {rs : List Reader}
    (_ : ∀ r ∈ rs, W r)
    (_ : ∀ r ∈ rs, ∀ st, OkSt srch K st → st.rest.length < L → Halts (fun k => F k r st))
    (_ : ∀ r ∈ rs, (∀ j ∈ r.left nul, rank j < R) → ∀ st, OkSt srch K st → st.rest.length ≤ L → Halts (fun k => F k r st))
    (_ : ∀ j ∈ Reader.leftSeq nul rs, rank j < R) (st : St),
    OkSt srch K st → st.rest.length ≤ L → Halts (fun k => eatSkip (F k) sk rs st)
  | [], _, _, _, _, _, _, _ => .ret
  | r :: rs, hw, hlt, h, hj, st, hs, hl => by
    simp only [Reader.leftSeq, List.mem_append] at hj
    refine (h r List.mem_cons_self (fun j h => hj j (.inl h)) st hs hl).bind fun k a ha => ?_
    obtain ⟨ok, st'⟩ := a
    have hb := hB r (hw r List.mem_cons_self)
    have hw' := fun c hc => hw c (List.mem_cons_of_mem r hc)
    have hlt' := fun c hc => hlt c (List.mem_cons_of_mem r hc)
    have hok : OkSt srch K st' := hb.ok hK hs ha
    have hle : st'.rest.length ≤ L := Nat.le_trans (hb.le ha) hl
    cases ok
    · exact .ret
    · refine (hkh st' hok hle).bind fun k2 a ha2 => ?_
      obtain ⟨ok, st''⟩ := a
      have hb2 := hB sk hk
      have hok2 : OkSt srch K st'' := hb2.ok hK hok ha2
      have hle2 : st''.rest.length ≤ st'.rest.length := hb2.le ha2
      cases ok
      · exact .ret
      · by_cases hlen : st''.rest.length < L
        · exact eatSkip_short hK hB hk (fun st hs hl => hkh st hs (Nat.le_of_lt hl)) hw' hlt' st'' hok2 hlen
        · refine eatSkip_halts hE hk hkh hw' hlt' (fun c hc => h c (List.mem_cons_of_mem _ hc)) (fun j hj' => hj j (.inr ?_)) st'' hok2
            (Nat.le_trans hle2 hle)
          rcases hn : r.null nul with _ | _
          · have h1 : st'.rest.length < st.rest.length := hE r hn k st _ ha rfl
            exact absurd (Nat.lt_of_le_of_lt hle2 (Nat.lt_of_lt_of_le h1 hl)) hlen
          · rw [if_pos rfl]; exact hj'

end loops

theorem eatTimes_halts (hK : Closed K) {F : Nat → EatFunc} (hb : Behaves srch F) {L : Nat} (h : ∀ st, OkSt srch K st → st.rest.length ≤ L → Halts (fun k => F k st)) :
    ∀ n st, OkSt srch K st → st.rest.length ≤ L → Halts (fun k => eatTimes (F k) n st)
  | 0, _, _, _ => .ret
  | n + 1, st, hs, hl => by
    refine (h st hs hl).bind fun k a ha => ?_
    obtain ⟨ok, st'⟩ := a
    cases ok
    · exact .ret
    · exact eatTimes_halts hK hb h n st' (hb.ok hK hs ha) (Nat.le_trans (hb.le ha) hl)

theorem eatZom_halts (hK : Closed K) {F : Nat → EatFunc} (hb : Behaves srch F) (hE : ∀ k, Eats (F k)) :
    ∀ L (_ : ∀ st, OkSt srch K st → st.rest.length ≤ L → Halts (fun k => F k st)) st, OkSt srch K st → st.rest.length ≤ L →
      Halts2 (fun k j => eatZom (F k) j st) := by
  intro L
  induction L with
  | zero =>
    intro h st hs hl
    refine Halts2.shift (Halts2.bind (h st hs hl) fun k a ha => ?_)
    obtain ⟨ok, st'⟩ := a
    cases ok
    · exact .ret
    · have : st'.rest.length < st.rest.length := hE k st _ ha rfl
      omega
  | succ L ih =>
    intro h st hs hl
    refine Halts2.shift (Halts2.bind (h st hs hl) fun k a ha => ?_)
    obtain ⟨ok, st'⟩ := a
    cases ok
    · exact .ret
    · have : st'.rest.length < st.rest.length := hE k st _ ha rfl
      exact ih (fun st hs hl => h st hs (by omega)) st' (hb.ok hK hs ha) (by omega)

/-- A search gets on. -/
def Goes (srch : Bool) (K : Bytes → Prop) : Prop := ∀ st, OkSt srch K st → st.rest ≠ [] → (eatStep st.rest).2.length < st.rest.length

theorem eatPast_halts (hK : Closed K) {F : Nat → EatFunc} (hgo : Goes srch K) (hb : Behaves srch F) :
    ∀ L (_ : ∀ st, OkSt srch K st → st.rest.length ≤ L → Halts (fun k => F k st)) st, OkSt srch K st → st.rest.length ≤ L →
      Halts2 (fun k j => eatPast (F k) j st) := by
  intro L
  induction L with
  | zero =>
    intro h st hs hl
    refine Halts2.shift ?_
    have : st.rest = [] := List.eq_nil_of_length_eq_zero (by omega)
    simp only [eatPast, if_pos this]
    exact .ret
  | succ L ih =>
    intro h st hs hl
    refine Halts2.shift ?_
    simp only [eatPast]
    by_cases he : st.rest = []
    · simp only [if_pos he]; exact .ret
    · simp only [if_neg he]
      refine Halts2.bind (h st hs hl) fun k a ha => ?_
      obtain ⟨ok, st'⟩ := a
      cases ok
      · have h1 : OkSt srch K st' := hb.ok hK hs ha
        have h2 : st'.rest.length ≤ st.rest.length := hb.le ha
        refine ih (fun st hs hl => h st hs (by omega)) _ (h1.step hK) ?_
        show (eatStep st'.rest).2.length ≤ L
        by_cases he' : st'.rest = []
        · rw [he']; exact Nat.zero_le _
        · have := hgo _ h1 he'
          omega
      · exact .ret

theorem eatTo_halts (hK : Closed K) {F : Nat → EatFunc} (hb : Behaves srch F) :
    ∀ L (_ : ∀ st, OkSt srch K st → st.rest.length ≤ L → Halts (fun k => F k st)) st, OkSt srch K st → st.rest.length ≤ L →
      Halts2 (fun k j => eatTo (F k) j st) := by
  intro L
  induction L with
  | zero =>
    intro h st hs hl
    refine Halts2.shift (Halts2.bind (h st hs hl) fun k a ha => ?_)
    obtain ⟨ok, st'⟩ := a
    cases ok
    · have h2 : st'.rest.length ≤ st.rest.length := hb.le ha
      have : st'.rest = [] := List.eq_nil_of_length_eq_zero (by omega)
      simp only [Bool.false_eq_true, if_false, this, eatStep_nil]
      exact .ret
    · exact .ret
  | succ L ih =>
    intro h st hs hl
    refine Halts2.shift (Halts2.bind (h st hs hl) fun k a ha => ?_)
    obtain ⟨ok, st'⟩ := a
    cases ok
    · have h1 : OkSt srch K st' := hb.ok hK hs ha
      have h2 : st'.rest.length ≤ st.rest.length := hb.le ha
      simp only [Bool.false_eq_true, if_false]
      by_cases hst : (eatStep st'.rest).1 = true
      · simp only [if_pos hst]
        refine ih (fun st hs hl => h st hs (by omega)) _ (h1.step hK) ?_
        have := eatStep_lt hst
        show (eatStep st'.rest).2.length ≤ L
        omega
      · simp only [if_neg hst]; exact .ret
    · exact .ret

theorem eatBody_halts (hK : Closed K) (hKp : ∀ x y : Bytes, y <+: x → K x → K y) {B T : Nat → EatFunc} (hsr : srch = true) (hbt : Behaves srch T) {L : Nat} {s0 : St} (h0 : OkSt srch K s0) (hl0 : s0.rest.length ≤ L)
    (hB : ∀ st, OkSt srch K st → st.rest.length < L → Halts (fun k => B k st))
    (hT : ∀ st, OkSt srch K st → st.rest.length ≤ L → Halts (fun k => T k st)) :
    ∀ n st, Moves s0 st → st.rest.length ≤ n → st.rest.length ≤ L → Halts2 (fun k j => eatBody (B k) (T k) s0.rest j st) := by
  intro n
  induction n with
  | zero =>
    intro st hm hn hl
    refine Halts2.shift ?_
    have : st.rest = [] := List.eq_nil_of_length_eq_zero (by omega)
    simp only [eatBody, if_pos this]
    exact .ret
  | succ n ih =>
    intro st hm hn hl
    refine Halts2.shift ?_
    simp only [eatBody]
    by_cases he : st.rest = []
    · simp only [if_pos he]; exact .ret
    · simp only [if_neg he]
      have hKs : ∀ {x : St}, Moves s0 x → K x.rest := fun h => hK _ _ (h.2.elim fun ws e => ⟨_, e.symm⟩) h0.2
      refine Halts2.bind (hT st ⟨fun _ => hm.1, hKs hm⟩ hl) fun k a ha => ?_
      obtain ⟨ok, st'⟩ := a
      have h2 : st'.rest.length ≤ st.rest.length := hbt.le ha
      have h3 : Moves st st' := hbt.tidy hsr k st hm.1 _ ha
      cases ok
      · have : (eatStep st'.rest).2.length < st.rest.length := by
          by_cases he' : st'.rest = []
          · have := List.length_pos_iff.mpr he
            rw [he']; exact this
          · have := h3.1.step_lt he'
            omega
        refine ih _ (hm.trans h3).step ?_ ?_
        · show (eatStep st'.rest).2.length ≤ n
          omega
        · show (eatStep st'.rest).2.length ≤ L
          omega
      · simp only [if_true]
        obtain ⟨ws, hws⟩ := hm.front
        have h4 := List.length_pos_iff.mpr he
        refine Halts2.bind (hB _ ⟨fun _ => ⟨⟨ws, hws⟩, h3.1.2⟩, hKp _ _ (List.take_prefix _ _) h0.2⟩ ?_) fun k a _ => ?_
        · show (s0.rest.take _).length < L
          obtain ⟨_, us, hu⟩ := hm
          have : st.rest.length ≤ s0.rest.length := by rw [hu]; simp
          rw [List.length_take]
          omega
        · obtain ⟨ok, sub⟩ := a
          simp only
          split <;> exact .ret

/-- The same where the first part ends on every text. -/
theorem eatBody_free (hK : Closed K) {B T : Nat → EatFunc} (hgo : Goes srch K) (hbt : Behaves srch T) {L : Nat} (t0 : Bytes)
    (hB : ∀ st, Halts (fun k => B k st)) (hT : ∀ st, OkSt srch K st → st.rest.length ≤ L → Halts (fun k => T k st)) :
    ∀ n st, OkSt srch K st → st.rest.length ≤ n → st.rest.length ≤ L → Halts2 (fun k j => eatBody (B k) (T k) t0 j st) := by
  intro n
  induction n with
  | zero =>
    intro st _ hn _
    refine Halts2.shift ?_
    have : st.rest = [] := List.eq_nil_of_length_eq_zero (by omega)
    simp only [eatBody, if_pos this]
    exact .ret
  | succ n ih =>
    intro st hs hn hl
    refine Halts2.shift ?_
    simp only [eatBody]
    by_cases he : st.rest = []
    · simp only [if_pos he]; exact .ret
    · simp only [if_neg he]
      refine Halts2.bind (hT st hs hl) fun k a ha => ?_
      obtain ⟨ok, st'⟩ := a
      have h1 : OkSt srch K st' := hbt.ok hK hs ha
      have h2 : st'.rest.length ≤ st.rest.length := hbt.le ha
      cases ok
      · have h4 := List.length_pos_iff.mpr he
        have : (eatStep st'.rest).2.length < st.rest.length := by
          by_cases he' : st'.rest = []
          · rw [he']; exact h4
          · have := hgo _ h1 he'
            omega
        refine ih _ (h1.step hK) ?_ ?_
        · show (eatStep st'.rest).2.length ≤ n
          omega
        · show (eatStep st'.rest).2.length ≤ L
          omega
      · simp only [if_true]
        refine Halts2.bind (hB _) fun k a _ => ?_
        obtain ⟨ok, sub⟩ := a
        simp only
        split <;> exact .ret
end

/-- A search gets on in a text of characters. -/
theorem goes_chars (K : Bytes → Prop) : Goes true K := fun _ hs hn => (hs.1 rfl).step_lt hn

/-- What every part of a reader expression has to satisfy; searches are admitted with `adm`; the
first parts of `Body` and `BodyTail` satisfy `bod`; the rules in use satisfy `vis`. -/
def Reader.sound (nul : Nat → Bool) (adm srch : Bool) (bod : Reader → Prop) (vis : Nat → Prop) (r : Reader) : Prop :=
  r.progress nul adm ∧ r.whole srch ∧ (match r with | .body b _ => bod b | .bodyTail b _ => bod b | .rule i => vis i | _ => True)

/-- The main induction.  The rules `base` are known to halt. -/
theorem eat_halts (rt : Rt) {G : Env} {nul : Nat → Bool} {adm srch : Bool} {rank : Nat → Nat} {K : Bytes → Prop} {bod : Reader → Prop} {vis base : Nat → Prop}
    (hK : Closed K) (hgo : adm = true → Goes srch K)
    (hbod : ∀ b, bod b → (srch = true ∧ ∀ x y : Bytes, y <+: x → K x → K y) ∨ ∀ st, Halts (fun k => eat rt G k b st))
    (hG : ∀ (i : Nat) (nm : Bytes) (c : Reader), G[i]? = some ⟨nm, some c⟩ → vis i → ¬ base i → c.Every (Reader.sound nul adm srch bod vis))
    (hGw : G.Every (Reader.whole srch))
    (hnul : ∀ (i : Nat) (nm : Bytes) (c : Reader), G[i]? = some ⟨nm, some c⟩ → c.null nul = true → nul i = true)
    (hrank : ∀ (i : Nat) (nm : Bytes) (c : Reader), G[i]? = some ⟨nm, some c⟩ → vis i → ¬ base i → ∀ j ∈ c.left nul, rank j < rank i)
    (hbase : ∀ i, base i → ∀ st, OkSt srch K st → Halts (fun k => eat rt G k (.rule i) st)) :
    ∀ (L R : Nat) (r : Reader), r.Every (Reader.sound nul adm srch bod vis) → (∀ j ∈ r.left nul, rank j < R) →
      ∀ st, OkSt srch K st → st.rest.length ≤ L → Halts (fun k => eat rt G k r st) := by
  let W : Reader → Prop := fun r => r.Every (Reader.sound nul adm srch bod vis)
  have hB : ∀ r, W r → Behaves srch (fun k => eat rt G k r) := fun r hr =>
    ⟨fun e k => by subst e; exact eat_tidy rt G hGw k r (hr.imp fun _ h => h.2.1), fun k => eat_shrinks rt G k r⟩
  have hE : ∀ r, r.null nul = false → ∀ k, Eats (eat rt G k r) := fun r hr k => eat_eats rt G hnul k r hr
  intro L
  induction L using Nat.strongRecOn with
  | _ L ihL =>
  have hlt : ∀ r, W r → ∀ st, OkSt srch K st → st.rest.length < L → Halts (fun k => eat rt G k r st) := by
    intro r hr st hs hl
    have : ∃ R, ∀ j ∈ r.left nul, rank j < R := by
      generalize r.left nul = l
      induction l with
      | nil => exact ⟨0, by simp⟩
      | cons x l ih =>
        obtain ⟨R, hR⟩ := ih
        refine ⟨max R (rank x + 1), fun j hj => ?_⟩
        rcases List.mem_cons.mp hj with rfl | hj
        · omega
        · have := hR j hj; omega
    obtain ⟨R, hR⟩ := this
    exact ihL _ hl R r hr hR st hs (Nat.le_refl _)
  intro R
  induction R using Nat.strongRecOn with
  | _ R ihR =>
  intro r hr
  induction hr with
  | @mk r hr hsub ih =>
  intro hj st hs hl
  have hrs : W r := .mk hr hsub
  refine Halts.shift ?_
  have one : ∀ c, c ∈ r.subs → c.left nul = r.left nul → Halts (fun k => eat rt G k c st) := fun c hc he =>
    ih c hc (by rw [he]; exact hj) st hs hl
  have all : ∀ c, c ∈ r.subs → c.left nul = r.left nul → ∀ st, OkSt srch K st → st.rest.length ≤ L → Halts (fun k => eat rt G k c st) :=
    fun c hc he => ih c hc (by rw [he]; exact hj)
  cases r with
  | any rs =>
    refine (eatAny_halts hK hB hsub (fun c hc => ih c hc fun j h => hj j ?_) st hs hl).bind fun _ _ _ => .ret
    simp only [Reader.subs] at hc
    clear ih hsub hrs one all hj hr
    simp only [Reader.left]
    induction rs with
    | nil => cases hc
    | cons x rs ih =>
      simp only [Reader.leftAny, List.mem_append]
      rcases List.mem_cons.mp hc with rfl | hc
      · exact .inl h
      · exact .inr (ih hc)
  | anyRune str => exact .ret
  | at_ sub => exact (one sub (by simp [Reader.subs]) (by simp [Reader.left])).bind fun _ _ _ => .ret
  | atEnd => exact .ret
  | between a b => exact .ret
  | betweenAny a b => exact .ret
  | body b t =>
    have hb : W b := hsub b (by simp [Reader.subs])
    have ht := hsub t (by simp [Reader.subs])
    have hat := all t (by simp [Reader.subs]) (by simp [Reader.left])
    refine Halts.bind (Halts2.diag (f := fun k j => eatBody (eat rt G k b) (eat rt G k t) st.rest j st) ?_) fun _ a _ => ?_
    · rcases hbod b hr.2.2 with ⟨he, hKp⟩ | hfree
      · exact eatBody_halts hK hKp he (hB t ht) hs hl (hlt b hb) hat L st (.refl (hs.1 he)) hl hl
      · exact eatBody_free hK (hgo hr.1) (hB t ht) _ hfree hat L st hs hl hl
    · obtain ⟨res, st'⟩ := a
      cases res <;> exact .ret
  | bodyTail b t =>
    have hb : W b := hsub b (by simp [Reader.subs])
    have ht := hsub t (by simp [Reader.subs])
    have hat := all t (by simp [Reader.subs]) (by simp [Reader.left])
    refine Halts.bind (Halts2.diag (f := fun k j => eatBody (eat rt G k b) (eat rt G k t) st.rest j st) ?_) fun _ a _ => ?_
    · rcases hbod b hr.2.2 with ⟨he, hKp⟩ | hfree
      · exact eatBody_halts hK hKp he (hB t ht) hs hl (hlt b hb) hat L st (.refl (hs.1 he)) hl hl
      · exact eatBody_free hK (hgo hr.1) (hB t ht) _ hfree hat L st hs hl hl
    · obtain ⟨res, st'⟩ := a
      cases res <;> exact .ret
  | bool c f => exact .ret
  | fold v =>
    simp only [eat]
    split
    · exact .panic
    · exact .ret
  | holey a b c => exact .ret
  | int a b c => exact .ret
  | janusBegin id nm sub =>
    refine (one sub (by simp [Reader.subs]) (by simp [Reader.left])).bind fun _ a _ => ?_
    obtain ⟨ok, st'⟩ := a
    cases ok <;> exact .ret
  | janusEnd id nm =>
    simp only [eat]
    split <;> exact .ret
  | invalid e => exact .ret
  | lit x => exact .ret
  | many sub =>
    exact (eatZom_halts hK (hB sub (hsub sub (by simp [Reader.subs]))) (hE sub hr.1) L (all sub (by simp [Reader.subs]) (by simp [Reader.left]))
      st hs hl).diag.bind fun _ _ _ => .ret
  | map f sub => exact (one sub (by simp [Reader.subs]) (by simp [Reader.left])).bind fun _ _ _ => .ret
  | match_ w f => exact .ret
  | named nm sub => exact one sub (by simp [Reader.subs]) (by simp [Reader.left])
  | not sub =>
    refine (one sub (by simp [Reader.subs]) (by simp [Reader.left])).bind fun _ a _ => ?_
    obtain ⟨ok, st'⟩ := a
    cases ok <;> exact .ret
  | opt sub => exact (one sub (by simp [Reader.subs]) (by simp [Reader.left])).bind fun _ _ _ => .ret
  | past sub =>
    exact (eatPast_halts hK (hgo hr.1) (hB sub (hsub sub (by simp [Reader.subs]))) L (all sub (by simp [Reader.subs]) (by simp [Reader.left]))
      st hs hl).diag.bind fun _ _ _ => .ret
  | rune c => exact .ret
  | seq rs =>
    exact (eatSeq_halts hK hB hE (rank := rank) (R := R) hsub (fun c hc => hlt c (hsub c hc)) (fun c hc => ih c hc)
      (by simpa [Reader.left, Reader.subs] using hj) st hs hl).bind fun _ _ _ => .ret
  | skipSeq sk rs =>
    simp only [Reader.left, List.mem_append] at hj
    have hskm : sk ∈ (Reader.skipSeq sk rs).subs := by simp [Reader.subs]
    have hrm : ∀ c ∈ rs, c ∈ (Reader.skipSeq sk rs).subs := fun c hc => by simp [Reader.subs, hc]
    have hk := hsub sk hskm
    have hkh := ih sk hskm fun j h => hj j (.inl h)
    refine (hkh st hs hl).bind fun k a ha => ?_
    obtain ⟨ok, st'⟩ := a
    have hb := hB sk hk
    have hok : OkSt srch K st' := hb.ok hK hs ha
    have hle : st'.rest.length ≤ st.rest.length := hb.le ha
    cases ok
    · exact .ret
    · simp only [if_true]
      by_cases hlen : st'.rest.length < L
      · exact (eatSkip_short hK hB hk (fun st hs hl => hkh st hs (Nat.le_of_lt hl)) (fun c hc => hsub c (hrm c hc))
          (fun c hc => hlt c (hsub c (hrm c hc))) st' hok hlen).bind fun _ _ _ => .ret
      · refine (eatSkip_halts hK hB hE (rank := rank) (R := R) hk hkh (fun c hc => hsub c (hrm c hc)) (fun c hc => hlt c (hsub c (hrm c hc)))
          (fun c hc => ih c (hrm c hc)) (fun j hj' => hj j (.inr ?_)) st' hok (Nat.le_trans hle hl)).bind fun _ _ _ => .ret
        rcases hn : sk.null nul with _ | _
        · have h1 : st'.rest.length < st.rest.length := hE sk hn k st _ ha rfl
          omega
        · rw [if_pos rfl]; exact hj'
  | times k sub =>
    exact eatTimes_halts hK (hB sub (hsub sub (by simp [Reader.subs]))) (all sub (by simp [Reader.subs]) (by simp [Reader.left])) _ st hs hl
  | «to» sub =>
    exact (eatTo_halts hK (hB sub (hsub sub (by simp [Reader.subs]))) L (all sub (by simp [Reader.subs]) (by simp [Reader.left]))
      st hs hl).diag.bind fun _ _ _ => .ret
  | uint a b c => exact .ret
  | wrap w f => exact .panic
  | zom sub =>
    exact (eatZom_halts hK (hB sub (hsub sub (by simp [Reader.subs]))) (hE sub hr.1) L (all sub (by simp [Reader.subs]) (by simp [Reader.left]))
      st hs hl).diag.bind fun _ _ _ => .ret
  | pick i b sub => exact (one sub (by simp [Reader.subs]) (by simp [Reader.left])).bind fun _ _ _ => .ret
  | monitor i l sub => exact one sub (by simp [Reader.subs]) (by simp [Reader.left])
  | rule i =>
    rcases hi : G[i]? with _ | ⟨nm, _ | c⟩
    · simp only [eat, hi]; exact .panic
    · simp only [eat, hi]; exact .panic
    · by_cases hb : base i
      · obtain ⟨m, x, hx, h⟩ := hbase i hb st hs
        exact ⟨m, x, hx, fun k hk => h (k + 1) (by omega)⟩
      · simp only [eat, hi]
        exact ihR (rank i) (hj i (by simp [Reader.left])) c (hG i nm c hi hr.2.2 hb) (hrank i nm c hi hr.2.2 hb) st hs hl
  | ruleName sub => exact one sub (by simp [Reader.subs]) (by simp [Reader.left])
  | grammar w sub => exact one sub (by simp [Reader.subs]) (by simp [Reader.left])

end Tok
