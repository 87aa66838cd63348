/-
Which lists of tokens a reader accepts.
-/
import Verif.Proofs.LuaNote
import Verif.Spec.LuaLoose

namespace Tok
open Spec

theorem ret_of_bind {α β : Type} {x : Exec α} {f : α → Exec β} {y : β} (h : (x >>= f) = .ret y) : ∃ a, x = .ret a ∧ f a = .ret y := by
  cases x with
  | ret a => exact ⟨a, rfl, h⟩
  | panic => cases h
  | timeout => cases h

namespace Lua

theorem _root_.Tok.Spec.Spelt.append {k k' : List Bytes} {x x' : Bytes} (h : Spelt k x) (h' : Spelt k' x') : Spelt (k ++ k') (x ++ x') := by
  induction h with
  | nil => exact h'
  | gap hg _ ih => rw [List.append_assoc]; exact .gap hg ih
  | tok _ ih => rw [List.append_assoc]; exact .tok ih

theorem _root_.Tok.Spec.Spelt.one (x : Bytes) : Spelt [x] x := by simpa using Spelt.tok (k := x) .nil

/-- The text is spelt from tokens of this language. -/
def Says (C : List Bytes → Prop) (x : Bytes) : Prop := ∃ ks, C ks ∧ Spelt ks x

/-- Concatenation. -/
def Cat2 (C D : List Bytes → Prop) (ks : List Bytes) : Prop := ∃ a b, ks = a ++ b ∧ C a ∧ D b

/-- Repetition. -/
inductive Star (C : List Bytes → Prop) : List Bytes → Prop
  | nil : Star C []
  | cons {a b : List Bytes} : C a → Star C b → Star C (a ++ b)

theorem Says.mono {C D : List Bytes → Prop} {x : Bytes} (h : Says C x) (hD : ∀ ks, C ks → D ks) : Says D x := let ⟨ks, h1, h2⟩ := h; ⟨ks, hD ks h1, h2⟩
theorem Says.cat {C D : List Bytes → Prop} {x y : Bytes} (h : Says C x) (h' : Says D y) : Says (Cat2 C D) (x ++ y) :=
  let ⟨a, h1, h2⟩ := h; let ⟨b, h3, h4⟩ := h'; ⟨a ++ b, ⟨a, b, rfl, h1, h3⟩, h2.append h4⟩
theorem Says.gap {C : List Bytes → Prop} {g x : Bytes} (hg : LooseGap g) (h : Says C x) : Says C (g ++ x) := let ⟨ks, h1, h2⟩ := h; ⟨ks, h1, .gap hg h2⟩

/-- What is read is spelt from tokens of this language; a failed read moves nothing. -/
def Tells (f : EatFunc) (C : List Bytes → Prop) : Prop := ∀ st ok st', f st = .ret (ok, st') → if ok then ∃ x, st.rest = x ++ st'.rest ∧ Says C x else st'.rest = st.rest

/-- What is read is white space and comments. -/
def Gaps (f : EatFunc) : Prop := ∀ st ok st', f st = .ret (ok, st') → ∃ x, st.rest = x ++ st'.rest ∧ LooseGap x

variable {f : EatFunc} {C D : List Bytes → Prop} {rd : Reader → EatFunc} {rs : List Reader} {T : Reader → List Bytes → Prop}

theorem Tells.mono (h : Tells f C) (hD : ∀ ks, C ks → D ks) : Tells f D := fun st ok st' e => by
  have := h st ok st' e
  cases ok
  · exact this
  · obtain ⟨x, h1, h2⟩ := this
    exact ⟨x, h1, h2.mono hD⟩

/-- The languages of the readers one after the other. -/
def catAll (T : Reader → List Bytes → Prop) : List Reader → List Bytes → Prop
  | [] => fun ks => ks = []
  | r :: rs => Cat2 (T r) (catAll T rs)

theorem tells_seq (h : ∀ r ∈ rs, Tells (rd r) (T r)) : ∀ st st', eatSeq rd rs st = .ret (true, st') → ∃ x, st.rest = x ++ st'.rest ∧ Says (catAll T rs) x := by
  induction rs with
  | nil =>
    intro st st' e
    simp only [eatSeq, Exec.ret.injEq, Prod.mk.injEq, true_and] at e
    subst e
    exact ⟨[], rfl, [], rfl, .nil⟩
  | cons r rs ih =>
    intro st st' e
    obtain ⟨⟨ok, s1⟩, e1, e2⟩ := ret_of_bind e
    have h1 := h r (by simp) st ok s1 e1
    cases ok with
    | false => simp at e2
    | true =>
      obtain ⟨x, hx, hs⟩ := h1
      obtain ⟨y, hy, hs'⟩ := ih (fun r hr => h r (by simp [hr])) s1 st' e2
      exact ⟨x ++ y, by rw [hx, hy, List.append_assoc], hs.cat hs'⟩

theorem tells_skip {sk : Reader} (hk : Gaps (rd sk)) (h : ∀ r ∈ rs, Tells (rd r) (T r)) : ∀ st st', eatSkip rd sk rs st = .ret (true, st') →
    ∃ x, st.rest = x ++ st'.rest ∧ Says (catAll T rs) x := by
  induction rs with
  | nil =>
    intro st st' e
    simp only [eatSkip, Exec.ret.injEq, Prod.mk.injEq, true_and] at e
    subst e
    exact ⟨[], rfl, [], rfl, .nil⟩
  | cons r rs ih =>
    intro st st' e
    obtain ⟨⟨ok, s1⟩, e1, e2⟩ := ret_of_bind e
    have h1 := h r (by simp) st ok s1 e1
    cases ok with
    | false => simp at e2
    | true =>
      obtain ⟨x, hx, hs⟩ := h1
      simp only [if_true] at e2
      obtain ⟨⟨ok, s2⟩, e3, e4⟩ := ret_of_bind e2
      obtain ⟨g, hg, hg'⟩ := hk s1 ok s2 e3
      cases ok with
      | false => simp at e4
      | true =>
        obtain ⟨y, hy, hs'⟩ := ih (fun r hr => h r (by simp [hr])) s2 st' e4
        exact ⟨x ++ (g ++ y), by rw [hx, hg, hy]; simp, hs.cat (hs'.gap hg')⟩

theorem tells_any (h : ∀ r ∈ rs, Tells (rd r) (T r)) : Tells (eatAny rd rs) (fun ks => ∃ r ∈ rs, T r ks) := by
  induction rs with
  | nil =>
    intro st ok st' e
    simp only [eatAny, Exec.ret.injEq, Prod.mk.injEq] at e
    rw [← e.1, ← e.2]
    rfl
  | cons r rs ih =>
    intro st ok st' e
    obtain ⟨⟨ok1, s1⟩, e1, e2⟩ := ret_of_bind e
    have h1 := h r (by simp) st ok1 s1 e1
    cases ok1 with
    | true =>
      simp only [if_true, Exec.pure_eq, Exec.ret.injEq, Prod.mk.injEq] at e2
      obtain ⟨rfl, rfl⟩ := e2
      obtain ⟨x, hx, hs⟩ := h1
      exact ⟨x, hx, hs.mono fun ks hk => ⟨r, by simp, hk⟩⟩
    | false =>
      have h2 := ih (fun r hr => h r (by simp [hr])) s1 ok st' (by simpa using e2)
      simp only [Bool.false_eq_true, if_false] at h1
      rw [h1] at h2
      cases ok with
      | false => exact h2
      | true =>
        obtain ⟨x, hx, hs⟩ := h2
        exact ⟨x, hx, hs.mono fun ks ⟨r', hr, hk⟩ => ⟨r', by simp [hr], hk⟩⟩

theorem tells_zom (h : Tells f C) : ∀ n st st', eatZom f n st = .ret st' → ∃ x, st.rest = x ++ st'.rest ∧ Says (Star C) x := by
  intro n
  induction n with
  | zero => intro st st' e; cases e
  | succ n ih =>
    intro st st' e
    obtain ⟨⟨ok, s1⟩, e1, e2⟩ := ret_of_bind e
    have h1 := h st ok s1 e1
    cases ok with
    | true =>
      obtain ⟨x, hx, ks, hk, hs⟩ := h1
      obtain ⟨y, hy, ls, hl, ht⟩ := ih s1 st' (by simpa using e2)
      exact ⟨x ++ y, by rw [hx, hy, List.append_assoc], _, .cons hk hl, hs.append ht⟩
    | false =>
      simp only [Bool.false_eq_true, if_false, Exec.pure_eq, Exec.ret.injEq] at e2 h1
      subst e2
      exact ⟨[], by rw [h1]; rfl, [], .nil, .nil⟩

theorem tells_many (h : Tells f C) {n : Nat} {st st' : St} (e : eatZom f n st = .ret st') (hl : st'.rest.length < st.rest.length) :
    ∃ x, st.rest = x ++ st'.rest ∧ Says (Cat2 C (Star C)) x := by
  cases n with
  | zero => cases e
  | succ n =>
    obtain ⟨⟨ok, s1⟩, e1, e2⟩ := ret_of_bind e
    have h1 := h st ok s1 e1
    cases ok with
    | true =>
      obtain ⟨x, hx, hs⟩ := h1
      obtain ⟨y, hy, hs'⟩ := tells_zom h n s1 st' (by simpa using e2)
      exact ⟨x ++ y, by rw [hx, hy, List.append_assoc], hs.cat hs'⟩
    | false =>
      simp only [Bool.false_eq_true, if_false, Exec.pure_eq, Exec.ret.injEq] at e2 h1
      subst e2
      rw [h1] at hl
      omega

theorem orBack_ret {t : Bytes} {x : Bool × St} {ok : Bool} {st' : St} (h : orBack t x = (ok, st')) : if ok then x = (true, st') else st'.rest = t := by
  obtain ⟨b, s⟩ := x
  cases b
  · simp only [orBack, Bool.false_eq_true, if_false, Prod.mk.injEq] at h
    rw [← h.1, ← h.2]
    rfl
  · simp only [orBack, if_true, Prod.mk.injEq] at h
    rw [← h.1, ← h.2]
    rfl

/-! ### the languages of readers -/

/-- The readers of white space and comments. -/
def skips : Reader → Bool
  | .zom (.anyRune s) => s == b!" \r\n\t"
  | .zom (.any [.anyRune s, .rule i]) => s == b!" \r\n\t" && i == iComment
  | _ => false

mutual
/-- The tokens that a reader reads, where `L` tells those of the rules. -/
def lang (L : Nat → List Bytes → Prop) : Reader → List Bytes → Prop
  | .lit s => fun ks => ks = [s]
  | .rune c => fun ks => ∃ b : UInt8, (b.toNat : Int) = c ∧ ks = [[b]]
  | .anyRune s => fun ks => ∃ b ∈ s, ks = [[b]]
  | .seq rs => langCat L rs
  | .skipSeq _ rs => langCat L rs
  | .any rs => langAny L rs
  | .opt r => fun ks => ks = [] ∨ lang L r ks
  | .zom r => Star (lang L r)
  | .many r => Cat2 (lang L r) (Star (lang L r))
  | .rule i => L i
  | _ => fun _ => False
def langCat (L : Nat → List Bytes → Prop) : List Reader → List Bytes → Prop
  | [] => fun ks => ks = []
  | r :: rs => Cat2 (lang L r) (langCat L rs)
def langAny (L : Nat → List Bytes → Prop) : List Reader → List Bytes → Prop
  | [] => fun _ => False
  | r :: rs => fun ks => lang L r ks ∨ langAny L rs ks
end

mutual
/-- The readers to which `lang` applies. -/
def told : Reader → Bool
  | .lit _ => true
  | .rune c => decide (0 ≤ c ∧ c < 128)
  | .anyRune s => s == b!",;"
  | .seq rs => toldAll rs
  | .skipSeq sk rs => skips sk && toldAll rs
  | .any rs => toldAll rs
  | .opt r => told r
  | .zom r => told r
  | .many r => told r
  | .rule i => i != iSheBang && i != iComment && decide (i < iScript)
  | _ => false
def toldAll : List Reader → Bool
  | [] => true
  | r :: rs => told r && toldAll rs
end

variable {L : Nat → List Bytes → Prop} {rt : Rt}

theorem toldAll_iff : toldAll rs = true ↔ ∀ r ∈ rs, told r = true := by
  induction rs with
  | nil => simp [toldAll]
  | cons r rs ih => simp [toldAll, ih]

theorem langCat_eq : langCat L rs = catAll (lang L) rs := by
  induction rs with
  | nil => rfl
  | cons r rs ih => rw [langCat, catAll, ih]

theorem langAny_of {ks : List Bytes} (h : ∃ r ∈ rs, lang L r ks) : langAny L rs ks := by
  induction rs with
  | nil => simp at h
  | cons r rs ih =>
    obtain ⟨r', hr, h⟩ := h
    rcases List.mem_cons.mp hr with rfl | hr
    · exact .inl h
    · exact .inr (ih ⟨r', hr, h⟩)

theorem tells_one {r : Reader} {p : UInt8 → Bool} (hd : Does rt env r (oneB p)) (hp : ∀ b, p b = true → C [[b]]) (n : Nat) : Tells (eat rt env n r) C := fun st ok st' e => by
  obtain ⟨m, e'⟩ := hd st.rest st.jan
  have := eat_det e e'
  cases ht : st.rest with
  | nil =>
    rw [ht] at this
    simp only [oneB, outcome, Prod.mk.injEq] at this
    rw [this.1, this.2]
    rfl
  | cons b t =>
    rw [ht] at this
    cases hb : p b
    · simp only [oneB, hb, outcome, Bool.false_eq_true, if_false, Prod.mk.injEq] at this
      rw [this.1, this.2]
      rfl
    · simp only [oneB, hb, outcome, if_true, Prod.mk.injEq] at this
      rw [this.1, this.2]
      exact ⟨[b], rfl, [[b]], hp b hb, .one [b]⟩

theorem tells_all (hr : ∀ n i, told (.rule i) = true → (∀ m, m ≤ n → ∀ r, told r = true → Tells (eat rt env m r) (lang L r)) → Tells (eat rt env (n + 1) (.rule i)) (L i))
    (hk : ∀ n sk, skips sk = true → Gaps (eat rt env n sk)) : ∀ n r, told r = true → Tells (eat rt env n r) (lang L r) := by
  intro n
  induction n using Nat.strongRecOn with
  | _ n ih =>
  intro r ht
  cases n with
  | zero => intro st ok st' e; cases e
  | succ n =>
  have ih' := ih n (Nat.lt_succ_self n)
  cases r with
  | rule i => exact hr n i ht fun m hm => ih m (by omega)
  | lit s =>
    intro st ok st' e
    simp only [eat, lift, eatLit] at e
    split at e
    · next hp =>
      simp only [Exec.ret.injEq, Prod.mk.injEq] at e
      rw [← e.1, ← e.2]
      obtain ⟨u, hu⟩ := (hasPrefix_iff _ _).mp hp
      exact ⟨s, by rw [← hu]; simp, [s], by rw [lang], .one s⟩
    · simp only [Exec.ret.injEq, Prod.mk.injEq] at e
      rw [← e.1, ← e.2]
      rfl
  | rune c =>
    simp only [told, decide_eq_true_eq] at ht
    obtain ⟨k, rfl⟩ := Int.eq_ofNat_of_zero_le ht.1
    have hk : k < 128 := by omega
    have : ((UInt8.ofNat k).toNat : Int) = (k : Int) := by simp; omega
    refine tells_one (p := (· == UInt8.ofNat k)) ?_ (fun b hb => ?_) (n + 1)
    · rw [← this]
      exact does_rune (ascii_rune _ (by simp; omega))
    · rw [beq_iff_eq] at hb
      subst hb
      rw [lang]
      exact ⟨_, this, rfl⟩
  | anyRune s =>
    rw [told, beq_iff_eq] at ht
    subst ht
    refine tells_one (p := eitherB 44 59) (does_anyRune (ascii_contains (by decide +kernel) (bytes_all (by decide +kernel)) (bytes_all (by decide +kernel))))
      (fun b hb => ?_) (n + 1)
    rw [lang]
    exact ⟨b, by simpa [eitherB] using hb, rfl⟩
  | seq rs =>
    rw [told, toldAll_iff] at ht
    intro st ok st' e
    rw [eat] at e
    obtain ⟨x, e1, e2⟩ := ret_of_bind e
    have := orBack_ret (Exec.ret.inj e2)
    cases ok with
    | false => exact this
    | true =>
      rw [if_pos rfl] at this
      subst this
      rw [lang, langCat_eq]
      exact tells_seq (fun r hr => ih' r (ht r hr)) st st' e1
  | skipSeq sk rs =>
    rw [told, Bool.and_eq_true, toldAll_iff] at ht
    intro st ok st' e
    rw [eat] at e
    obtain ⟨⟨ok1, s1⟩, e1, e2⟩ := ret_of_bind e
    obtain ⟨g, hg, hg'⟩ := hk n sk ht.1 st ok1 s1 e1
    cases ok1 with
    | false =>
      have := orBack_ret (x := (false, s1)) (Exec.ret.inj e2)
      cases ok with
      | false => exact this
      | true => simp at this
    | true =>
      simp only [if_true] at e2
      obtain ⟨x, e3, e4⟩ := ret_of_bind e2
      have := orBack_ret (Exec.ret.inj e4)
      cases ok with
      | false => exact this
      | true =>
        rw [if_pos rfl] at this
        subst this
        obtain ⟨y, hy, hs⟩ := tells_skip (hk n sk ht.1) (fun r hr => ih' r (ht.2 r hr)) s1 st' e3
        rw [lang, langCat_eq]
        exact ⟨g ++ y, by rw [hg, hy, List.append_assoc], hs.gap hg'⟩
  | any rs =>
    rw [told, toldAll_iff] at ht
    intro st ok st' e
    rw [eat] at e
    obtain ⟨x, e1, e2⟩ := ret_of_bind e
    have := orBack_ret (Exec.ret.inj e2)
    cases ok with
    | false => exact this
    | true =>
      rw [if_pos rfl] at this
      subst this
      obtain ⟨x, hx, hs⟩ := tells_any (fun r hr => ih' r (ht r hr)) st true st' e1
      rw [lang]
      exact ⟨x, hx, hs.mono fun ks h => langAny_of h⟩
  | opt r =>
    rw [told] at ht
    intro st ok st' e
    rw [eat] at e
    obtain ⟨⟨ok1, s1⟩, e1, e2⟩ := ret_of_bind e
    simp only [Exec.pure_eq, Exec.ret.injEq, Prod.mk.injEq] at e2
    obtain ⟨rfl, rfl⟩ := e2
    have h1 := ih' r ht st ok1 s1 e1
    rw [lang]
    cases ok1 with
    | true =>
      obtain ⟨x, hx, hs⟩ := h1
      exact ⟨x, hx, hs.mono fun ks h => .inr h⟩
    | false => exact ⟨[], h1.symm, [], .inl rfl, .nil⟩
  | zom r =>
    rw [told] at ht
    intro st ok st' e
    rw [eat] at e
    obtain ⟨s1, e1, e2⟩ := ret_of_bind e
    simp only [Exec.pure_eq, Exec.ret.injEq, Prod.mk.injEq] at e2
    obtain ⟨rfl, rfl⟩ := e2
    rw [lang]
    exact tells_zom (ih' r ht) n st s1 e1
  | many r =>
    rw [told] at ht
    intro st ok st' e
    rw [eat] at e
    obtain ⟨s1, e1, e2⟩ := ret_of_bind e
    simp only [Exec.pure_eq, Exec.ret.injEq, Prod.mk.injEq] at e2
    obtain ⟨rfl, rfl⟩ := e2
    rw [lang]
    by_cases hl : s1.rest.length < st.rest.length
    · simp only [hl, decide_true, if_true]
      exact tells_many (ih' r ht) e1 hl
    · simp only [hl, decide_false, Bool.false_eq_true, if_false]
      obtain ⟨x, hx, _⟩ := tells_zom (ih' r ht) n st s1 e1
      have : x.length + s1.rest.length = st.rest.length := by rw [hx]; simp
      have : x = [] := List.length_eq_zero_iff.mp (by omega)
      rw [hx, this]; rfl
  | _ => cases ht

end Lua
end Tok
