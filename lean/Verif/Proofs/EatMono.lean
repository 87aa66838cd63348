/-
The text-ahead semantics: a larger step budget does not change a result, and Janus strings
that a reader does not name do not matter.
-/
import Verif.Proofs.Eat

namespace Tok
open Spec

/-! ### growing the budget -/

theorem eatAny_le {f g : Reader → EatFunc} (h : ∀ r s, LeE (f r s) (g r s)) : ∀ rs s,
    LeE (eatAny f rs s) (eatAny g rs s)
  | [], _ => .refl _
  | r :: rs, s => (h r s).bind fun a => by
    obtain ⟨ok, s⟩ := a
    cases ok
    · exact eatAny_le h rs s
    · exact .refl _

theorem eatSeq_le {f g : Reader → EatFunc} (h : ∀ r s, LeE (f r s) (g r s)) : ∀ rs s,
    LeE (eatSeq f rs s) (eatSeq g rs s)
  | [], _ => .refl _
  | r :: rs, s => (h r s).bind fun a => by
    obtain ⟨ok, s⟩ := a
    cases ok
    · exact .refl _
    · exact eatSeq_le h rs s

theorem eatSkip_le {f g : Reader → EatFunc} (h : ∀ r s, LeE (f r s) (g r s)) (sk : Reader) : ∀ rs s,
    LeE (eatSkip f sk rs s) (eatSkip g sk rs s)
  | [], _ => .refl _
  | r :: rs, s => (h r s).bind fun a => by
    obtain ⟨ok, s⟩ := a
    cases ok
    · exact .refl _
    · refine (h sk s).bind fun a => ?_
      obtain ⟨ok, s⟩ := a
      cases ok
      · exact .refl _
      · exact eatSkip_le h sk rs s

theorem eatTimes_le {f g : EatFunc} (h : ∀ s, LeE (f s) (g s)) : ∀ k s, LeE (eatTimes f k s) (eatTimes g k s)
  | 0, _ => .refl _
  | k + 1, s => (h s).bind fun a => by
    obtain ⟨ok, s⟩ := a
    cases ok
    · exact .refl _
    · exact eatTimes_le h k s

theorem eatZom_le {f g : EatFunc} (h : ∀ s, LeE (f s) (g s)) : ∀ n m s, n ≤ m → LeE (eatZom f n s) (eatZom g m s)
  | 0, _, _, _ => .timeout _
  | n + 1, 0, _, hn => absurd hn (by omega)
  | n + 1, m + 1, s, hn => (h s).bind fun a => by
    obtain ⟨ok, s⟩ := a
    cases ok
    · exact .refl _
    · exact eatZom_le h n m s (by omega)

theorem eatBody_le {b b' t t' : EatFunc} (hb : ∀ s, LeE (b s) (b' s)) (ht : ∀ s, LeE (t s) (t' s)) (t0 : Bytes) :
    ∀ n m s, n ≤ m → LeE (eatBody b t t0 n s) (eatBody b' t' t0 m s)
  | 0, _, _, _ => .timeout _
  | n + 1, 0, _, hn => absurd hn (by omega)
  | n + 1, m + 1, s, hn => by
    unfold eatBody
    split
    · exact .refl _
    · refine (ht s).bind fun a => ?_
      obtain ⟨ok, s'⟩ := a
      cases ok
      · exact eatBody_le hb ht t0 n m _ (by omega)
      · exact (hb _).bind fun _ => .refl _

theorem eatPast_le {f g : EatFunc} (h : ∀ s, LeE (f s) (g s)) : ∀ n m s, n ≤ m → LeE (eatPast f n s) (eatPast g m s)
  | 0, _, _, _ => .timeout _
  | n + 1, 0, _, hn => absurd hn (by omega)
  | n + 1, m + 1, s, hn => by
    unfold eatPast
    split
    · exact .refl _
    · refine (h s).bind fun a => ?_
      obtain ⟨ok, s'⟩ := a
      cases ok
      · exact eatPast_le h n m _ (by omega)
      · exact .refl _

theorem eatTo_le {f g : EatFunc} (h : ∀ s, LeE (f s) (g s)) : ∀ n m s, n ≤ m → LeE (eatTo f n s) (eatTo g m s)
  | 0, _, _, _ => .timeout _
  | n + 1, 0, _, hn => absurd hn (by omega)
  | n + 1, m + 1, s, hn => by
    unfold eatTo
    refine (h s).bind fun a => ?_
    obtain ⟨ok, s'⟩ := a
    cases ok
    · simp only [Bool.false_eq_true, if_false]
      split
      · exact eatTo_le h n m _ (by omega)
      · exact .refl _
    · exact .refl _

/-- A larger step budget does not change how eating ends. -/
theorem eat_le (rt : Rt) (G : Env) : ∀ n m, n ≤ m → ∀ r s, LeE (eat rt G n r s) (eat rt G m r s)
  | 0, _, _, _, _ => .timeout _
  | n + 1, 0, hn, _, _ => absurd hn (by omega)
  | n + 1, m + 1, hn, r, s => by
    have hnm : n ≤ m := by omega
    have ih := eat_le rt G n m hnm
    cases r with
    | any rs => exact (eatAny_le ih rs s).bind fun _ => .refl _
    | at_ sub => exact (ih sub s).bind fun _ => .refl _
    | body b t => exact (eatBody_le (ih b) (ih t) _ n m s hnm).bind fun _ => .refl _
    | bodyTail b t => exact (eatBody_le (ih b) (ih t) _ n m s hnm).bind fun _ => .refl _
    | janusBegin id nm sub => exact (ih sub s).bind fun _ => .refl _
    | many sub => exact (eatZom_le (ih sub) n m s hnm).bind fun _ => .refl _
    | map f sub => exact (ih sub s).bind fun _ => .refl _
    | named nm sub => exact ih sub s
    | not sub => exact (ih sub s).bind fun _ => .refl _
    | opt sub => exact (ih sub s).bind fun _ => .refl _
    | past sub => exact (eatPast_le (ih sub) n m s hnm).bind fun _ => .refl _
    | seq rs => exact (eatSeq_le ih rs s).bind fun _ => .refl _
    | skipSeq sk rs =>
      refine (ih sk s).bind fun a => ?_
      obtain ⟨ok, s⟩ := a
      cases ok
      · exact .refl _
      · exact (eatSkip_le ih sk rs s).bind fun _ => .refl _
    | times k sub => exact eatTimes_le (ih sub) _ s
    | «to» sub => exact (eatTo_le (ih sub) n m s hnm).bind fun _ => .refl _
    | zom sub => exact (eatZom_le (ih sub) n m s hnm).bind fun _ => .refl _
    | pick i b sub => exact (ih sub s).bind fun _ => .refl _
    | monitor i l sub => exact ih sub s
    | rule i =>
      simp only [eat]
      split
      · exact ih _ s
      · exact .refl _
    | ruleName sub => exact ih sub s
    | grammar w sub => exact ih sub s
    | _ => exact .refl _

theorem eat_mono {rt : Rt} {G : Env} {n m : Nat} (h : n ≤ m) {r : Reader} {st : St} {x : Bool × St}
    (e : eat rt G n r st = .ret x) : eat rt G m r st = .ret x := (eat_le rt G n m h r st).ret e

theorem read_mono {rt : Rt} {G : Env} {n m : Nat} (h : n ≤ m) {r : Reader} {s : Scanner} {x : Option Err × Scanner}
    (e : read rt G n r s = .ret x) : read rt G m r s = .ret x := (read_le rt G n m h r s).ret e

/-- The result does not depend on the budget. -/
theorem eat_det {rt : Rt} {G : Env} {n m : Nat} {r : Reader} {st : St} {x y : Bool × St}
    (h : eat rt G n r st = .ret x) (h' : eat rt G m r st = .ret y) : x = y := by
  rcases Nat.le_total n m with h1 | h1
  · rw [eat_mono h1 h] at h'; exact (Exec.ret.inj h')
  · rw [eat_mono h1 h'] at h; exact (Exec.ret.inj h).symm

theorem read_det {rt : Rt} {G : Env} {n m : Nat} {r : Reader} {s : Scanner} {x y : Option Err × Scanner}
    (h : read rt G n r s = .ret x) (h' : read rt G m r s = .ret y) : x = y := by
  rcases Nat.le_total n m with h1 | h1
  · rw [read_mono h1 h] at h'; exact (Exec.ret.inj h')
  · rw [read_mono h1 h'] at h; exact (Exec.ret.inj h).symm

/-! ### the Janus strings that matter -/

/-- The Janus strings named by a reader belong to `I`. -/
def Reader.janIn (I : Nat → Prop) : Reader → Prop
  | .janusBegin id _ _ => I id
  | .janusEnd id _ => I id
  | _ => True

/-- Same text ahead, same Janus strings with a number in `I`. -/
def SameOn (I : Nat → Prop) (a b : St) : Prop := a.rest = b.rest ∧ ∀ id, I id → a.jan id = b.jan id

def SameRes (I : Nat → Prop) (a b : Bool × St) : Prop := a.1 = b.1 ∧ SameOn I a.2 b.2

/-- Two runs on states that agree on `I` end alike. -/
def Agrees (I : Nat → Prop) (f : EatFunc) : Prop := ∀ a b, SameOn I a b → RelE (SameRes I) (f a) (f b)

variable {I : Nat → Prop}

theorem SameOn.upd {a b : St} (h : SameOn I a b) (t : Bytes) (id : Nat) (x : Bytes) :
    SameOn I ⟨t, upd a.jan id x⟩ ⟨t, upd b.jan id x⟩ := by
  refine ⟨rfl, fun k hk => ?_⟩
  simp only [Tok.upd]
  split
  · rfl
  · exact h.2 k hk

theorem SameRes.orBack {a b : Bool × St} (h : SameRes I a b) (t : Bytes) : SameRes I (orBack t a) (orBack t b) := by
  obtain ⟨ok, a⟩ := a
  obtain ⟨ok', b⟩ := b
  obtain ⟨h1, h2⟩ := h
  simp only at h1
  subst h1
  cases ok
  · exact ⟨rfl, rfl, h2.2⟩
  · exact ⟨rfl, h2⟩

theorem lift_agrees (f : Bytes → Bool × Bytes) : Agrees I (lift f) := fun a b h => by
  unfold lift
  rw [h.1]
  exact .ret ⟨rfl, rfl, h.2⟩

theorem eatAny_agrees {f : Reader → EatFunc} : ∀ (rs : List Reader) (_ : ∀ r ∈ rs, Agrees I (f r)), Agrees I (eatAny f rs)
  | [], _, _, _, h => .ret ⟨rfl, h⟩
  | r :: rs, hr, a, b, h => (hr r List.mem_cons_self a b h).bind fun x y _ _ hxy => by
    obtain ⟨ok, a⟩ := x
    obtain ⟨ok', b⟩ := y
    obtain ⟨h1, h2⟩ := hxy
    simp only at h1
    subst h1
    cases ok
    · exact eatAny_agrees rs (fun r h => hr r (List.mem_cons_of_mem _ h)) a b h2
    · exact .ret ⟨rfl, h2⟩

theorem eatSeq_agrees {f : Reader → EatFunc} : ∀ (rs : List Reader) (_ : ∀ r ∈ rs, Agrees I (f r)), Agrees I (eatSeq f rs)
  | [], _, _, _, h => .ret ⟨rfl, h⟩
  | r :: rs, hr, a, b, h => (hr r List.mem_cons_self a b h).bind fun x y _ _ hxy => by
    obtain ⟨ok, a⟩ := x
    obtain ⟨ok', b⟩ := y
    obtain ⟨h1, h2⟩ := hxy
    simp only at h1
    subst h1
    cases ok
    · exact .ret ⟨rfl, h2⟩
    · exact eatSeq_agrees rs (fun r h => hr r (List.mem_cons_of_mem _ h)) a b h2

theorem eatSkip_agrees {f : Reader → EatFunc} {sk : Reader} (hk : Agrees I (f sk)) :
    ∀ (rs : List Reader) (_ : ∀ r ∈ rs, Agrees I (f r)), Agrees I (eatSkip f sk rs)
  | [], _, _, _, h => .ret ⟨rfl, h⟩
  | r :: rs, hr, a, b, h => (hr r List.mem_cons_self a b h).bind fun x y _ _ hxy => by
    obtain ⟨ok, a⟩ := x
    obtain ⟨ok', b⟩ := y
    obtain ⟨h1, h2⟩ := hxy
    simp only at h1
    subst h1
    cases ok
    · exact .ret ⟨rfl, h2⟩
    · refine (hk a b h2).bind fun x y _ _ hxy => ?_
      obtain ⟨ok, a⟩ := x
      obtain ⟨ok', b⟩ := y
      obtain ⟨h1, h2⟩ := hxy
      simp only at h1
      subst h1
      cases ok
      · exact .ret ⟨rfl, h2⟩
      · exact eatSkip_agrees hk rs (fun r h => hr r (List.mem_cons_of_mem _ h)) a b h2

theorem eatTimes_agrees {f : EatFunc} (hf : Agrees I f) : ∀ k, Agrees I (eatTimes f k)
  | 0, _, _, h => .ret ⟨rfl, h⟩
  | k + 1, a, b, h => (hf a b h).bind fun x y _ _ hxy => by
    obtain ⟨ok, a⟩ := x
    obtain ⟨ok', b⟩ := y
    obtain ⟨h1, h2⟩ := hxy
    simp only at h1
    subst h1
    cases ok
    · exact .ret ⟨rfl, h2⟩
    · exact eatTimes_agrees hf k a b h2

theorem eatZom_agrees {f : EatFunc} (hf : Agrees I f) : ∀ k a b, SameOn I a b →
    RelE (SameOn I) (eatZom f k a) (eatZom f k b)
  | 0, _, _, _ => .timeout
  | k + 1, a, b, h => (hf a b h).bind fun x y _ _ hxy => by
    obtain ⟨ok, a⟩ := x
    obtain ⟨ok', b⟩ := y
    obtain ⟨h1, h2⟩ := hxy
    simp only at h1
    subst h1
    cases ok
    · exact .ret h2
    · exact eatZom_agrees hf k a b h2

theorem eatBody_agrees {b t : EatFunc} (hb : Agrees I b) (ht : Agrees I t) (t0 : Bytes) : ∀ n x y, SameOn I x y →
    RelE (fun p q => p.1 = q.1 ∧ SameOn I p.2 q.2) (eatBody b t t0 n x) (eatBody b t t0 n y)
  | 0, _, _, _ => .timeout
  | n + 1, x, y, h => by
    unfold eatBody
    rw [h.1]
    split
    · exact .ret ⟨rfl, h⟩
    · refine (ht x y h).bind fun p q _ _ hpq => ?_
      obtain ⟨ok, p⟩ := p
      obtain ⟨ok', q⟩ := q
      obtain ⟨h1, h2⟩ := hpq
      simp only at h1
      subst h1
      cases ok
      · simp only [Bool.false_eq_true, if_false]
        rw [h2.1]
        exact eatBody_agrees hb ht t0 n _ _ ⟨rfl, h2.2⟩
      · simp only [if_true]
        refine (hb ⟨t0.take (t0.length - y.rest.length), p.jan⟩ ⟨t0.take (t0.length - y.rest.length), q.jan⟩ ⟨rfl, h2.2⟩).bind fun u v _ _ huv => ?_
        obtain ⟨ok, u⟩ := u
        obtain ⟨ok', v⟩ := v
        obtain ⟨h3, h4⟩ := huv
        simp only at h3
        subst h3
        have h5 : u.rest = v.rest := h4.1
        simp only [h5]
        cases hc : (ok && v.rest.isEmpty)
        · exact .ret ⟨rfl, h2.1, h4.2⟩
        · exact .ret ⟨rfl, h2.1, h4.2⟩

theorem eatPast_agrees {f : EatFunc} (hf : Agrees I f) : ∀ n, Agrees I (eatPast f n)
  | 0, _, _, _ => .timeout
  | n + 1, x, y, h => by
    unfold eatPast
    rw [h.1]
    split
    · exact .ret ⟨rfl, h⟩
    · refine (hf x y h).bind fun p q _ _ hpq => ?_
      obtain ⟨ok, p⟩ := p
      obtain ⟨ok', q⟩ := q
      obtain ⟨h1, h2⟩ := hpq
      simp only at h1
      subst h1
      cases ok
      · simp only [Bool.false_eq_true, if_false]
        rw [h2.1]
        exact eatPast_agrees hf n _ _ ⟨rfl, h2.2⟩
      · exact .ret ⟨rfl, h2⟩

theorem eatTo_agrees {f : EatFunc} (hf : Agrees I f) : ∀ n, Agrees I (eatTo f n)
  | 0, _, _, _ => .timeout
  | n + 1, x, y, h => by
    unfold eatTo
    refine (hf x y h).bind fun p q _ _ hpq => ?_
    obtain ⟨ok, p⟩ := p
    obtain ⟨ok', q⟩ := q
    obtain ⟨h1, h2⟩ := hpq
    simp only at h1
    subst h1
    cases ok
    · simp only [Bool.false_eq_true, if_false]
      rw [h2.1]
      split
      · exact eatTo_agrees hf n _ _ ⟨rfl, h2.2⟩
      · exact .ret ⟨rfl, h2⟩
    · exact .ret ⟨rfl, h.1, h2.2⟩

/-- Eating depends on the text ahead and on the Janus strings that are named, nothing else. -/
theorem eat_agrees (rt : Rt) (G : Env) (hG : G.Every (Reader.janIn I)) : ∀ n r, r.Every (Reader.janIn I) →
    Agrees I (eat rt G n r)
  | 0, _, _, _, _, _ => .timeout
  | n + 1, r, hr, a, b, h => by
    have ih := fun c hc => eat_agrees rt G hG n c hc
    have sub : ∀ c ∈ r.subs, Agrees I (eat rt G n c) := fun c hc => ih c (hr.sub hc)
    have one : ∀ c, r.subs = [c] → Agrees I (eat rt G n c) := fun c hc => sub c (by rw [hc]; exact List.mem_cons_self)
    cases r with
    | any rs =>
      refine (eatAny_agrees rs sub a b h).bind fun x y _ _ hxy => .ret ?_
      rw [h.1]; exact hxy.orBack _
    | anyRune str => exact lift_agrees _ a b h
    | at_ c => exact (one c rfl a b h).bind fun x y _ _ hxy => .ret ⟨hxy.1, h.1, hxy.2.2⟩
    | atEnd =>
      simp only [eat]; rw [h.1]; exact .ret ⟨rfl, h⟩
    | between x y => exact lift_agrees _ a b h
    | betweenAny x y => exact lift_agrees _ a b h
    | body bd tl =>
      simp only [eat]
      rw [h.1]
      refine (eatBody_agrees (sub bd (by simp [Reader.subs])) (sub tl (by simp [Reader.subs])) _ n a b h).bind
        fun x y _ _ hxy => ?_
      obtain ⟨res, x⟩ := x
      obtain ⟨res', y⟩ := y
      obtain ⟨h1, h2⟩ := hxy
      simp only at h1
      subst h1
      cases res
      · exact .ret ⟨rfl, rfl, h2.2⟩
      · exact .ret ⟨rfl, rfl, h2.2⟩
    | bodyTail bd tl =>
      simp only [eat]
      rw [h.1]
      refine (eatBody_agrees (sub bd (by simp [Reader.subs])) (sub tl (by simp [Reader.subs])) _ n a b h).bind
        fun x y _ _ hxy => ?_
      obtain ⟨res, x⟩ := x
      obtain ⟨res', y⟩ := y
      obtain ⟨h1, h2⟩ := hxy
      simp only at h1
      subst h1
      cases res
      · exact .ret ⟨rfl, rfl, h2.2⟩
      · exact .ret ⟨rfl, h2⟩
    | bool c f => exact lift_agrees _ a b h
    | fold v =>
      simp only [eat]
      rw [h.1]
      split
      · exact .panic
      · exact lift_agrees _ a b h
    | holey x y z => exact lift_agrees _ a b h
    | int x y z => exact lift_agrees _ a b h
    | janusBegin id nm c =>
      refine (one c rfl a b h).bind fun x y _ _ hxy => ?_
      obtain ⟨ok, x⟩ := x
      obtain ⟨ok', y⟩ := y
      obtain ⟨h1, h2⟩ := hxy
      simp only at h1
      subst h1
      cases ok
      · exact .ret ⟨rfl, h.1, h2.2⟩
      · refine .ret ⟨rfl, ?_⟩
        have h3 : x.rest = y.rest := h2.1
        simp only [h.1, h3]
        exact SameOn.upd h2 _ _ _
    | janusEnd id nm =>
      simp only [eat]
      rw [h.1, h.2 id hr.here]
      split
      · exact .ret ⟨rfl, h.upd _ _ _⟩
      · exact .ret ⟨rfl, h⟩
    | invalid e => exact .ret ⟨rfl, h⟩
    | lit x => exact lift_agrees _ a b h
    | many c =>
      refine (eatZom_agrees (one c rfl) n a b h).bind fun x y _ _ hxy => .ret ⟨?_, hxy⟩
      simp only [h.1, hxy.1]
    | map f c =>
      refine (one c rfl a b h).bind fun x y _ _ hxy => .ret ?_
      rw [h.1]; exact hxy.orBack _
    | match_ w f => exact lift_agrees _ a b h
    | named nm c => exact one c rfl a b h
    | not c =>
      refine (one c rfl a b h).bind fun x y _ _ hxy => ?_
      obtain ⟨ok, x⟩ := x
      obtain ⟨ok', y⟩ := y
      obtain ⟨h1, h2⟩ := hxy
      simp only at h1
      subst h1
      cases ok
      · refine .ret ⟨rfl, ?_, h2.2⟩
        simp only [h.1]
      · exact .ret ⟨rfl, h.1, h2.2⟩
    | opt c => exact (one c rfl a b h).bind fun x y _ _ hxy => .ret ⟨rfl, hxy.2⟩
    | past c =>
      refine (eatPast_agrees (one c rfl) n a b h).bind fun x y _ _ hxy => .ret ?_
      rw [h.1]; exact hxy.orBack _
    | rune c => exact lift_agrees _ a b h
    | seq rs =>
      refine (eatSeq_agrees rs sub a b h).bind fun x y _ _ hxy => .ret ?_
      rw [h.1]; exact hxy.orBack _
    | skipSeq sk rs =>
      refine (sub sk (by simp [Reader.subs]) a b h).bind fun x y _ _ hxy => ?_
      obtain ⟨ok, x⟩ := x
      obtain ⟨ok', y⟩ := y
      obtain ⟨h1, h2⟩ := hxy
      simp only at h1
      subst h1
      cases ok
      · refine .ret ?_
        rw [h.1]; exact SameRes.orBack (a := (false, x)) (b := (false, y)) ⟨rfl, h2⟩ _
      · refine (eatSkip_agrees (sub sk (by simp [Reader.subs])) rs (fun r hr => sub r (by simp [Reader.subs, hr])) x y h2).bind
          fun x y _ _ hxy => .ret ?_
        rw [h.1]; exact hxy.orBack _
    | times k c => exact eatTimes_agrees (one c rfl) _ a b h
    | «to» c =>
      refine (eatTo_agrees (one c rfl) n a b h).bind fun x y _ _ hxy => .ret ?_
      rw [h.1]; exact hxy.orBack _
    | uint x y z => exact lift_agrees _ a b h
    | wrap w f => exact .panic
    | zom c => exact (eatZom_agrees (one c rfl) n a b h).bind fun x y _ _ hxy => .ret ⟨rfl, hxy⟩
    | pick i bk c =>
      refine (one c rfl a b h).bind fun x y _ _ hxy => .ret ?_
      rw [h.1]; exact hxy.orBack _
    | monitor i l c => exact one c rfl a b h
    | rule i =>
      simp only [eat]
      rcases hi : G[i]? with _ | ⟨nm, _ | c⟩
      · exact .panic
      · exact .panic
      · exact ih c (hG.get hi) a b h
    | ruleName c => exact one c rfl a b h
    | grammar w c => exact one c rfl a b h

/-! ### Janus strings that are not named stay -/

/-- The string `id` is the same afterwards. -/
def Leaves (id : Nat) (f : EatFunc) : Prop := ∀ st, RetE (fun x : Bool × St => x.2.jan id = st.jan id) (f st)

/-- The reader does not name the Janus string `id`. -/
def Reader.notJan (id : Nat) : Reader → Prop
  | .janusBegin k _ _ => k ≠ id
  | .janusEnd k _ => k ≠ id
  | _ => True

theorem lift_leaves {id : Nat} (f : Bytes → Bool × Bytes) : Leaves id (lift f) := fun _ => .ret rfl

theorem orBack_jan (t : Bytes) (x : Bool × St) : (orBack t x).2.jan = x.2.jan := by
  unfold orBack; split <;> rfl

theorem eatAny_leaves {id : Nat} {f : Reader → EatFunc} : ∀ (rs : List Reader) (_ : ∀ r ∈ rs, Leaves id (f r)), Leaves id (eatAny f rs)
  | [], _, _ => .ret rfl
  | r :: rs, hr, st => (hr r List.mem_cons_self st).bind fun x _ hx => by
    obtain ⟨ok, st'⟩ := x
    cases ok
    · exact (eatAny_leaves rs (fun r h => hr r (List.mem_cons_of_mem _ h)) st').mono fun _ _ h => h.trans hx
    · exact .ret hx

theorem eatSeq_leaves {id : Nat} {f : Reader → EatFunc} : ∀ (rs : List Reader) (_ : ∀ r ∈ rs, Leaves id (f r)), Leaves id (eatSeq f rs)
  | [], _, _ => .ret rfl
  | r :: rs, hr, st => (hr r List.mem_cons_self st).bind fun x _ hx => by
    obtain ⟨ok, st'⟩ := x
    cases ok
    · exact .ret hx
    · exact (eatSeq_leaves rs (fun r h => hr r (List.mem_cons_of_mem _ h)) st').mono fun _ _ h => h.trans hx

theorem eatSkip_leaves {id : Nat} {f : Reader → EatFunc} {sk : Reader} (hk : Leaves id (f sk)) :
    ∀ (rs : List Reader) (_ : ∀ r ∈ rs, Leaves id (f r)), Leaves id (eatSkip f sk rs)
  | [], _, _ => .ret rfl
  | r :: rs, hr, st => (hr r List.mem_cons_self st).bind fun x _ hx => by
    obtain ⟨ok, st'⟩ := x
    cases ok
    · exact .ret hx
    · refine (hk st').bind fun x _ hx' => ?_
      obtain ⟨ok, st''⟩ := x
      cases ok
      · exact .ret (hx'.trans hx)
      · exact (eatSkip_leaves hk rs (fun r h => hr r (List.mem_cons_of_mem _ h)) st'').mono
          fun _ _ h => h.trans (hx'.trans hx)

theorem eatTimes_leaves {id : Nat} {f : EatFunc} (hf : Leaves id f) : ∀ k, Leaves id (eatTimes f k)
  | 0, _ => .ret rfl
  | k + 1, st => (hf st).bind fun x _ hx => by
    obtain ⟨ok, st'⟩ := x
    cases ok
    · exact .ret hx
    · exact (eatTimes_leaves hf k st').mono fun _ _ h => h.trans hx

theorem eatZom_leaves {id : Nat} {f : EatFunc} (hf : Leaves id f) : ∀ k st, RetE (fun x : St => x.jan id = st.jan id) (eatZom f k st)
  | 0, _ => .timeout
  | k + 1, st => (hf st).bind fun x _ hx => by
    obtain ⟨ok, st'⟩ := x
    cases ok
    · exact .ret hx
    · exact (eatZom_leaves hf k st').mono fun _ _ h => h.trans hx

theorem eatBody_leaves {id : Nat} {b t : EatFunc} (hb : Leaves id b) (ht : Leaves id t) (t0 : Bytes) : ∀ n st,
    RetE (fun x : Option Bytes × St => x.2.jan id = st.jan id) (eatBody b t t0 n st)
  | 0, _ => .timeout
  | n + 1, st => by
    unfold eatBody
    split
    · exact .ret rfl
    · refine (ht st).bind fun x _ hx => ?_
      obtain ⟨ok, st'⟩ := x
      cases ok
      · exact (eatBody_leaves hb ht t0 n ⟨(eatStep st'.rest).2, st'.jan⟩).mono fun _ _ h => h.trans hx
      · simp only [if_true]
        refine (hb ⟨t0.take (t0.length - st.rest.length), st'.jan⟩).bind fun y _ hy => ?_
        obtain ⟨ok, u⟩ := y
        simp only
        split
        · exact .ret (hy.trans hx)
        · exact .ret (hy.trans hx)

theorem eatPast_leaves {id : Nat} {f : EatFunc} (hf : Leaves id f) : ∀ n, Leaves id (eatPast f n)
  | 0, _ => .timeout
  | n + 1, st => by
    unfold eatPast
    split
    · exact .ret rfl
    · refine (hf st).bind fun x _ hx => ?_
      obtain ⟨ok, st'⟩ := x
      cases ok
      · exact (eatPast_leaves hf n ⟨(eatStep st'.rest).2, st'.jan⟩).mono fun _ _ h => h.trans hx
      · exact .ret hx

theorem eatTo_leaves {id : Nat} {f : EatFunc} (hf : Leaves id f) : ∀ n, Leaves id (eatTo f n)
  | 0, _ => .timeout
  | n + 1, st => by
    unfold eatTo
    refine (hf st).bind fun x _ hx => ?_
    obtain ⟨ok, st'⟩ := x
    cases ok
    · simp only [Bool.false_eq_true, if_false]
      split
      · exact (eatTo_leaves hf n ⟨(eatStep st'.rest).2, st'.jan⟩).mono fun _ _ h => h.trans hx
      · exact .ret hx
    · exact .ret hx

/-- A Janus string that is not named stays as it is. -/
theorem eat_leaves (rt : Rt) (G : Env) {id : Nat} (hG : G.Every (Reader.notJan id)) : ∀ n r, r.Every (Reader.notJan id) →
    Leaves id (eat rt G n r)
  | 0, _, _, _ => .timeout
  | n + 1, r, hr, st => by
    have ih := fun c hc => eat_leaves rt G hG n c hc
    have sub : ∀ c ∈ r.subs, Leaves id (eat rt G n c) := fun c hc => ih c (hr.sub hc)
    have one : ∀ c, r.subs = [c] → Leaves id (eat rt G n c) := fun c hc => sub c (by rw [hc]; exact List.mem_cons_self)
    cases r with
    | any rs => exact (eatAny_leaves rs sub st).bind fun x _ hx => .ret (by rw [orBack_jan]; exact hx)
    | anyRune str => exact lift_leaves _ st
    | at_ c => exact (one c rfl st).bind fun x _ hx => .ret hx
    | atEnd => exact .ret rfl
    | between a b => exact lift_leaves _ st
    | betweenAny a b => exact lift_leaves _ st
    | body b t =>
      refine (eatBody_leaves (sub b (by simp [Reader.subs])) (sub t (by simp [Reader.subs])) _ n st).bind fun x _ hx => ?_
      obtain ⟨res, x⟩ := x
      cases res <;> exact .ret hx
    | bodyTail b t =>
      refine (eatBody_leaves (sub b (by simp [Reader.subs])) (sub t (by simp [Reader.subs])) _ n st).bind fun x _ hx => ?_
      obtain ⟨res, x⟩ := x
      cases res <;> exact .ret hx
    | bool c f => exact lift_leaves _ st
    | fold v =>
      simp only [eat]
      split
      · exact .panic
      · exact lift_leaves _ st
    | holey a b c => exact lift_leaves _ st
    | int a b c => exact lift_leaves _ st
    | janusBegin k nm c =>
      refine (one c rfl st).bind fun x _ hx => ?_
      obtain ⟨ok, x⟩ := x
      cases ok
      · exact .ret hx
      · refine .ret ?_
        have : k ≠ id := hr.here
        show upd x.jan k _ id = _
        simp only [upd]
        rw [if_neg (by omega)]
        exact hx
    | janusEnd k nm =>
      simp only [eat]
      split
      · refine .ret ?_
        have : k ≠ id := hr.here
        show upd st.jan k _ id = _
        simp only [upd]
        rw [if_neg (by omega)]
      · exact .ret rfl
    | invalid e => exact .ret rfl
    | lit x => exact lift_leaves _ st
    | many c => exact (eatZom_leaves (one c rfl) n st).bind fun x _ hx => .ret hx
    | map f c => exact (one c rfl st).bind fun x _ hx => .ret (by rw [orBack_jan]; exact hx)
    | match_ w f => exact lift_leaves _ st
    | named nm c => exact one c rfl st
    | not c =>
      refine (one c rfl st).bind fun x _ hx => ?_
      obtain ⟨ok, x⟩ := x
      cases ok <;> exact .ret hx
    | opt c => exact (one c rfl st).bind fun x _ hx => .ret hx
    | past c => exact (eatPast_leaves (one c rfl) n st).bind fun x _ hx => .ret (by rw [orBack_jan]; exact hx)
    | rune c => exact lift_leaves _ st
    | seq rs => exact (eatSeq_leaves rs sub st).bind fun x _ hx => .ret (by rw [orBack_jan]; exact hx)
    | skipSeq sk rs =>
      refine (sub sk (by simp [Reader.subs]) st).bind fun x _ hx => ?_
      obtain ⟨ok, x⟩ := x
      cases ok
      · exact .ret (by rw [orBack_jan]; exact hx)
      · exact (eatSkip_leaves (sub sk (by simp [Reader.subs])) rs (fun r hr => sub r (by simp [Reader.subs, hr])) x).bind
          fun y _ hy => .ret (by rw [orBack_jan]; exact hy.trans hx)
    | times k c => exact eatTimes_leaves (one c rfl) _ st
    | «to» c => exact (eatTo_leaves (one c rfl) n st).bind fun x _ hx => .ret (by rw [orBack_jan]; exact hx)
    | uint a b c => exact lift_leaves _ st
    | wrap w f => exact .panic
    | zom c => exact (eatZom_leaves (one c rfl) n st).bind fun x _ hx => .ret hx
    | pick i b c => exact (one c rfl st).bind fun x _ hx => .ret (by rw [orBack_jan]; exact hx)
    | monitor i l c => exact one c rfl st
    | rule i =>
      simp only [eat]
      rcases hi : G[i]? with _ | ⟨nm, _ | c⟩
      · exact .panic
      · exact .panic
      · exact ih c (hG.get hi) st
    | ruleName c => exact one c rfl st
    | grammar w c => exact one c rfl st

end Tok
