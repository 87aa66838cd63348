/-
Reading strings ends on texts that end with a control character: there the characters of a
string cannot run to the end of the text.
-/
import Verif.Proofs.Term
import Verif.Proofs.Number

namespace Tok
open Spec

/-- The text ends with a control character. -/
def LowEnd (t : Bytes) : Prop := ∃ y b, t = y ++ [b] ∧ b.toNat < 32

/-- Nothing is left, or the text ends with a control character. -/
def LowEnd? (t : Bytes) : Prop := t = [] ∨ LowEnd t

theorem LowEnd.ne_nil {t : Bytes} (h : LowEnd t) : t ≠ [] := by
  obtain ⟨y, b, rfl, _⟩ := h
  simp

theorem LowEnd.suffix {t t' : Bytes} (h : LowEnd t) (hs : t' <:+ t) (hn : t' ≠ []) : LowEnd t' := by
  obtain ⟨y, b, rfl, hb⟩ := h
  obtain ⟨x, hx⟩ := hs
  obtain ⟨y', b', rfl⟩ : ∃ y' b', t' = y' ++ [b'] := ⟨t'.dropLast, t'.getLast hn, (List.dropLast_concat_getLast hn).symm⟩
  rw [← List.append_assoc] at hx
  have := (List.append_inj' hx rfl).2
  simp only [List.cons.injEq, and_true] at this
  exact ⟨y', b', rfl, by rw [this]; exact hb⟩

theorem lowEnd?_closed : Closed LowEnd? := fun x y hs h => by
  by_cases hy : y = []
  · exact .inl hy
  · rcases h with h | h
    · subst h
      exact absurd (List.suffix_nil.mp hs) hy
    · exact .inr (h.suffix hs hy)

theorem Spec.Step.shape {t p : Bytes} {r : Int} (h : Step t r p) : (∃ c, p = enc c) ∨ ∃ b, p = [b] := by
  cases h with
  | char c x => exact .inl ⟨c, rfl⟩
  | bad b x hx => exact .inr ⟨b, rfl⟩

/-- A rune from 32 on does not reach to the end. -/
theorem LowEnd.step {t p t' : Bytes} {r : Int} (h : LowEnd t) (hs : Step t r p) (he : t = p ++ t') (hr : 32 ≤ r) : LowEnd t' := by
  refine h.suffix ⟨p, he.symm⟩ fun hn => ?_
  subst hn
  rw [List.append_nil] at he
  subst he
  obtain ⟨y, b, rfl, hb⟩ := h
  have key : y = [] → False := fun hy => by
    subst hy
    have h1 := (step_ascii (b := b) [] (by omega)).unique hs
    omega
  rcases hs.shape with ⟨c, hgt⟩ | ⟨b', hgt⟩
  · obtain ⟨b0, cs, h1, h2, h3, h4, h5, h6⟩ := enc_shape c
    rw [h1] at hgt
    by_cases hcs : cs = []
    · subst hcs
      have := congrArg List.length hgt
      simp at this
      exact key this
    · have hb' : b ∈ cs := by
        obtain ⟨cs', x, rfl⟩ : ∃ cs' x, cs = cs' ++ [x] := ⟨cs.dropLast, cs.getLast hcs, (List.dropLast_concat_getLast hcs).symm⟩
        rw [← List.cons_append] at hgt
        have := (List.append_inj' hgt rfl).2
        simp only [List.cons.injEq, and_true] at this
        rw [this]; simp
      have := h3 b hb'
      simp only [isCont, Bool.and_eq_true, decide_eq_true_eq] at this
      omega
  · have := congrArg List.length hgt
    simp at this
    exact key this

/-- From texts that end with a control character only to such texts. -/
def Keeps (f : EatFunc) : Prop := ∀ st, LowEnd st.rest → RetE (fun x : Bool × St => LowEnd x.2.rest) (f st)

def KeepsT (f : Bytes → Bool × Bytes) : Prop := ∀ t, LowEnd t → LowEnd (f t).2

theorem KeepsT.keeps {f : Bytes → Bool × Bytes} (h : KeepsT f) : Keeps (lift f) := fun st hs => .ret (h st.rest hs)

theorem keepsT_one {p : Int → Bool} (hp : ∀ r, p r = true → 32 ≤ r) : KeepsT (eatOne p) := fun t h => by
  unfold eatOne
  split
  · next hc =>
    obtain ⟨r, q, hs⟩ := Step.exists h.ne_nil
    obtain ⟨t', ht⟩ := hs.prefix
    have hd := (step_iff.mp hs).2.1
    rw [hd] at hc ⊢
    have := h.step hs ht.symm (hp r hc)
    simp only
    rw [← ht]
    simpa using this
  · exact h

theorem keepsT_between {a b : Int} (h : 32 ≤ a) : KeepsT (eatBetween a b) := fun t ht => by
  unfold eatBetween
  split
  · exact ht
  · exact keepsT_one (fun r hr => by simp only [Scanner.inRange, Bool.and_eq_true, decide_eq_true_eq] at hr; omega) t ht

theorem keepsT_ranges : ∀ {l : List (Int × Int)}, (∀ x ∈ l, 32 ≤ x.1) → KeepsT (eatRanges l)
  | [], _, _, ht => ht
  | (a, b) :: l, h, t, ht => by
    unfold eatRanges
    split
    · exact keepsT_between (h _ List.mem_cons_self) t ht
    · exact keepsT_ranges (fun x hx => h x (List.mem_cons_of_mem _ hx)) t ht

theorem keepsT_lit {x : Bytes} (hx : ∀ b ∈ x, 32 ≤ b.toNat) : KeepsT (eatLit x) := fun t h => by
  unfold eatLit
  split
  · next hp =>
    have h' : x <+: t := by simpa [hasPrefix] using hp
    obtain ⟨t', rfl⟩ := h'
    refine h.suffix (List.drop_suffix _ _) fun he => ?_
    rw [List.drop_left] at he
    subst he
    obtain ⟨y, b, h1, h2⟩ := h
    rw [List.append_nil] at h1
    have := hx b (by rw [h1]; simp)
    omega
  · exact h

/-- Readers that go over runes from 32 on only. -/
def Reader.high : Reader → Bool
  | .any _ => true
  | .seq _ => true
  | .times _ _ => true
  | .opt _ => true
  | .zom _ => true
  | .many _ => true
  | .rule _ => true
  | .anyRune str => (runesOf str).all (fun r => 32 ≤ r)
  | .between a _ => decide (32 ≤ a)
  | .betweenAny l str => l.all (fun x => 32 ≤ x.1) && (runesOf str).all (fun r => 32 ≤ r)
  | .holey a _ _ => decide (32 ≤ a)
  | .rune c => decide (32 ≤ c)
  | .lit x => x.all (fun b => 32 ≤ b.toNat)
  | _ => false

theorem Keeps.orBack {st : St} {x : Bool × St} (hs : LowEnd st.rest) (h : LowEnd x.2.rest) : LowEnd (orBack st.rest x).2.rest := by
  unfold Tok.orBack
  split
  · exact h
  · exact hs

section
variable {rd : Reader → EatFunc}

theorem eatAny_keeps : ∀ {rs : List Reader} (_ : ∀ r ∈ rs, Keeps (rd r)), Keeps (eatAny rd rs)
  | [], _, _, hg => .ret hg
  | r :: rs, h, st, hg => (h r List.mem_cons_self st hg).bind fun a _ ha => by
    obtain ⟨ok, st'⟩ := a
    cases ok
    · exact eatAny_keeps (fun c hc => h c (List.mem_cons_of_mem _ hc)) st' ha
    · exact .ret ha

theorem eatSeq_keeps : ∀ {rs : List Reader} (_ : ∀ r ∈ rs, Keeps (rd r)), Keeps (eatSeq rd rs)
  | [], _, _, hg => .ret hg
  | r :: rs, h, st, hg => (h r List.mem_cons_self st hg).bind fun a _ ha => by
    obtain ⟨ok, st'⟩ := a
    cases ok
    · exact .ret ha
    · exact eatSeq_keeps (fun c hc => h c (List.mem_cons_of_mem _ hc)) st' ha

theorem eatTimes_keeps {f : EatFunc} (h : Keeps f) : ∀ k, Keeps (eatTimes f k)
  | 0, _, hg => .ret hg
  | k + 1, st, hg => (h st hg).bind fun a _ ha => by
    obtain ⟨ok, st'⟩ := a
    cases ok
    · exact .ret ha
    · exact eatTimes_keeps h k st' ha

theorem eatZom_keeps {f : EatFunc} (h : Keeps f) : ∀ k st, LowEnd st.rest → RetE (fun x : St => LowEnd x.rest) (eatZom f k st)
  | 0, _, _ => .timeout
  | k + 1, st, hg => (h st hg).bind fun a _ ha => by
    obtain ⟨ok, st'⟩ := a
    cases ok
    · exact .ret ha
    · exact eatZom_keeps h k st' ha
end

theorem eat_keeps (rt : Rt) (G : Env) {vis : Nat → Prop}
    (hG : ∀ (i : Nat) (nm : Bytes) (c : Reader), G[i]? = some ⟨nm, some c⟩ → vis i → c.Every (fun r => r.high = true ∧ ∀ i, r = .rule i → vis i)) :
    ∀ n r, r.Every (fun r => r.high = true ∧ ∀ i, r = .rule i → vis i) → Keeps (eat rt G n r)
  | 0, _, _, _, _ => .timeout
  | n + 1, r, hr, st, hs => by
    have ih := fun c (hc : c ∈ r.subs) => eat_keeps rt G hG n c (hr.sub hc)
    have hct : ∀ {str : Bytes}, ((runesOf str).all (fun r => decide (32 ≤ r))) = true → ∀ r, containsRune str r = true → 32 ≤ r := by
      intro str h r hc
      rw [containsRune_iff] at hc
      exact of_decide_eq_true (List.all_eq_true.mp h r hc)
    obtain ⟨h, hv⟩ := hr.here
    cases r with
    | any rs => exact (eatAny_keeps ih st hs).bind fun _ _ h => .ret (Keeps.orBack hs h)
    | anyRune str => exact (keepsT_one (hct h)).keeps st hs
    | between a b => exact (keepsT_between (of_decide_eq_true h)).keeps st hs
    | betweenAny l str =>
      simp only [Reader.high, Bool.and_eq_true, List.all_eq_true, decide_eq_true_eq] at h
      refine KeepsT.keeps (fun t ht => ?_) st hs
      unfold eatSet
      split
      · exact keepsT_ranges h.1 t ht
      · exact keepsT_one (hct (List.all_eq_true.mpr fun x hx => decide_eq_true (h.2 x hx))) t ht
    | holey a b c =>
      refine (keepsT_one fun r hr => ?_).keeps st hs
      simp only [Scanner.inRange, Bool.and_eq_true, decide_eq_true_eq] at hr
      have : 32 ≤ a := of_decide_eq_true h
      omega
    | lit x =>
      exact (keepsT_lit fun b hb => of_decide_eq_true (List.all_eq_true.mp h b hb)).keeps st hs
    | many sub => exact (eatZom_keeps (ih sub (by simp [Reader.subs])) n st hs).bind fun _ _ h => .ret h
    | opt sub => exact (ih sub (by simp [Reader.subs]) st hs).bind fun _ _ h => .ret h
    | rune c =>
      refine (keepsT_one fun r hr => ?_).keeps st hs
      have : r = c := by simpa using hr
      have : 32 ≤ c := of_decide_eq_true h
      omega
    | seq rs => exact (eatSeq_keeps ih st hs).bind fun _ _ h => .ret (Keeps.orBack hs h)
    | times k sub => exact eatTimes_keeps (ih sub (by simp [Reader.subs])) _ st hs
    | zom sub => exact (eatZom_keeps (ih sub (by simp [Reader.subs])) n st hs).bind fun _ _ h => .ret h
    | rule i =>
      simp only [eat]
      split
      · next hi => exact eat_keeps rt G hG n _ (hG _ _ _ hi (hv i rfl)) st hs
      · exact .panic
    | _ => cases h

/-- A repetition that makes progress while something is left. -/
theorem eatZom_halts_low {F : Nat → EatFunc} (hk : ∀ k, Keeps (F k))
    (hE : ∀ k st, LowEnd st.rest → ∀ x, F k st = .ret x → x.1 = true → x.2.rest.length < st.rest.length)
    (hH : ∀ st, LowEnd st.rest → Halts (fun k => F k st)) :
    ∀ L st, LowEnd st.rest → st.rest.length ≤ L → Halts2 (fun k j => eatZom (F k) j st) := by
  intro L
  induction L with
  | zero =>
    intro st hs hl
    exact absurd (List.eq_nil_of_length_eq_zero (by omega)) hs.ne_nil
  | succ L ih =>
    intro st hs hl
    refine Halts2.shift (Halts2.bind (hH st hs) fun k a ha => ?_)
    obtain ⟨ok, st'⟩ := a
    cases ok
    · exact .ret
    · have h1 : st'.rest.length < st.rest.length := hE k st hs _ ha rfl
      exact ih st' (hk k st hs _ ha) (by omega)

/-- A reader that consumes if something is left: a rune test, or a reader that is not `null`. -/
theorem eatAny_holey {rt : Rt} {G : Env} {nul : Nat → Bool}
    (hG : ∀ (i : Nat) (nm : Bytes) (c : Reader), G[i]? = some ⟨nm, some c⟩ → c.null nul = true → nul i = true) {a b : Int} {holes : Bytes}
    {rs : List Reader} (hrs : Reader.nullSome nul rs = false) {k : Nat} {st : St} (hn : st.rest ≠ []) {x : Bool × St}
    (hx : eat rt G k (.any (.holey a b holes :: rs)) st = .ret x) (h1 : x.1 = true) : x.2.rest.length < st.rest.length := by
  cases k with
  | zero => cases hx
  | succ k =>
    simp only [eat, eatAny] at hx
    obtain ⟨y, hy, hx⟩ := Exec.bind_eq_ret.mp hx
    obtain ⟨⟨ok, z⟩, hz, hy⟩ := Exec.bind_eq_ret.mp hy
    cases hx
    have hy1 : y.1 = true ∧ (orBack st.rest y).2 = y.2 := by
      unfold orBack at h1 ⊢
      split at h1
      · next h => rw [if_pos h]; exact ⟨h, rfl⟩
      · cases h1
    rw [hy1.2]
    cases k with
    | zero => cases hz
    | succ k =>
      simp only [eat, lift] at hz
      simp only [Exec.ret.injEq, Prod.mk.injEq] at hz
      obtain ⟨rfl, rfl⟩ := hz
      cases hok : (eatOne (fun v => Scanner.inRange a v b && !containsRune holes v) st.rest).1
      · simp only [hok, Bool.false_eq_true, if_false] at hy
        have h2 := eatAny_eats (nul := nul) (rd := eat rt G (k + 1)) (fun r => eat_shrinks rt G (k + 1) r) (fun r _ => eat_eats rt G hG (k + 1) r) hrs
          _ _ hy hy1.1
        exact Nat.lt_of_lt_of_le h2 (eatOne_suffix _ _).length_le
      · simp only [hok, if_true] at hy
        cases hy
        exact eatsT_one_ne _ hn hok

/-- A string: a quote, characters, a quote. -/
theorem eatString_halts (rt : Rt) (G : Env) {q : Int} (hq : 32 ≤ q) (hq' : q ≠ 0xFFFD) {c : Reader}
    (hc : ∀ st, LowEnd st.rest → Halts (fun k => eat rt G k c st)) (st : St) (hs : LowEnd? st.rest) :
    Halts (fun k => eat rt G k (.seq [.rune q, c, .rune q]) st) := by
  have leaf : ∀ st, Halts (fun k => eat rt G k (.rune q) st) := fun st => Halts.shift .ret
  refine Halts.shift ?_
  simp only [eat]
  refine Halts.bind ?_ fun _ _ _ => .ret
  simp only [eatSeq]
  refine (leaf st).bind fun k a ha => ?_
  obtain ⟨ok, st'⟩ := a
  cases ok
  · exact .ret
  · have h1 : LowEnd st'.rest := by
      have hlt := eat_eats rt G (nul := fun _ => true) (fun _ _ _ _ _ => rfl) k (.rune q) (by simp [Reader.null, hq']) st _ ha rfl
      rcases hs with hs | hs
      · rw [hs] at hlt; cases hlt
      · exact eat_keeps rt G (vis := fun _ => False) (fun _ _ _ _ h => h.elim) k (.rune q)
          (.mk (r := .rune q) ⟨decide_eq_true hq, fun i h => by cases h⟩ (by simp [Reader.subs])) st hs _ ha
    simp only [if_true]
    refine (hc st' h1).bind fun k a ha => ?_
    obtain ⟨ok, st''⟩ := a
    cases ok
    · exact .ret
    · simp only [if_true]
      refine (leaf st'').bind fun k a ha => ?_
      obtain ⟨ok, st''⟩ := a
      cases ok
      · exact .ret
      · exact .ret

end Tok
