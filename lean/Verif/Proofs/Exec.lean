/-
General facts about the `Exec` monad: relating two runs, growing a step budget, and
what holds of every returned value.
-/
import Verif.Model.Reader

namespace Tok

/-- Two runs end the same way, with related values. -/
inductive RelE {α β : Type} (R : α → β → Prop) : Exec α → Exec β → Prop
  | ret {a b} : R a b → RelE R (.ret a) (.ret b)
  | panic : RelE R .panic .panic
  | timeout : RelE R .timeout .timeout

theorem RelE.bind {α β γ δ : Type} {R : α → β → Prop} {R' : γ → δ → Prop} {x : Exec α} {y : Exec β}
    {f : α → Exec γ} {g : β → Exec δ} (h : RelE R x y)
    (hf : ∀ a b, x = .ret a → y = .ret b → R a b → RelE R' (f a) (g b)) : RelE R' (x >>= f) (y >>= g) := by
  cases h with
  | ret h => exact hf _ _ rfl rfl h
  | panic => exact .panic
  | timeout => exact .timeout

theorem RelE.mono {α β : Type} {R R' : α → β → Prop} {x : Exec α} {y : Exec β} (h : RelE R x y)
    (hR : ∀ a b, x = .ret a → y = .ret b → R a b → R' a b) : RelE R' x y := by
  cases h with
  | ret h => exact .ret (hR _ _ rfl rfl h)
  | panic => exact .panic
  | timeout => exact .timeout

theorem RelE.left {α β : Type} {R : α → β → Prop} {x : Exec α} {y : Exec β} (h : RelE R x y) {a : α}
    (hx : x = .ret a) : ∃ b, y = .ret b ∧ R a b := by
  cases h with
  | ret h => cases hx; exact ⟨_, rfl, h⟩
  | panic => cases hx
  | timeout => cases hx

theorem RelE.right {α β : Type} {R : α → β → Prop} {x : Exec α} {y : Exec β} (h : RelE R x y) {b : β}
    (hy : y = .ret b) : ∃ a, x = .ret a ∧ R a b := by
  cases h with
  | ret h => cases hy; exact ⟨_, rfl, h⟩
  | panic => cases hy
  | timeout => cases hy

theorem RelE.timeout_iff {α β : Type} {R : α → β → Prop} {x : Exec α} {y : Exec β} (h : RelE R x y) :
    x = .timeout ↔ y = .timeout := by cases h <;> simp

theorem RelE.panic_iff {α β : Type} {R : α → β → Prop} {x : Exec α} {y : Exec β} (h : RelE R x y) :
    x = .panic ↔ y = .panic := by cases h <;> simp

/-- `x` is out of budget, or `y` ends exactly like `x`. -/
def LeE {α : Type} (x y : Exec α) : Prop := x = .timeout ∨ x = y

theorem LeE.refl {α : Type} (x : Exec α) : LeE x x := .inr rfl
theorem LeE.timeout {α : Type} (x : Exec α) : LeE .timeout x := .inl rfl
theorem LeE.bind {α β : Type} {x y : Exec α} {f g : α → Exec β} (h : LeE x y) (hf : ∀ a, LeE (f a) (g a)) :
    LeE (x >>= f) (y >>= g) := by
  rcases h with rfl | rfl
  · exact .timeout _
  · cases x with
    | ret a => exact hf a
    | panic => exact .refl _
    | timeout => exact .refl _
theorem LeE.ret {α : Type} {x y : Exec α} {a : α} (h : LeE x y) (hx : x = .ret a) : y = .ret a := by
  rcases h with rfl | rfl
  · cases hx
  · exact hx
theorem LeE.trans {α : Type} {x y z : Exec α} (h : LeE x y) (h' : LeE y z) : LeE x z := by
  rcases h with rfl | rfl
  · exact .timeout _
  · exact h'

/-- Every returned value satisfies `P`, and a panic is possible only if `p` (a run that is
still going is fine). -/
def PostE {α : Type} (p : Prop) (P : α → Prop) (x : Exec α) : Prop := (x = .panic → p) ∧ ∀ a, x = .ret a → P a

theorem PostE.ret {α : Type} {p : Prop} {P : α → Prop} {a : α} (h : P a) : PostE p P (.ret a) :=
  ⟨by simp, fun _ e => by cases e; exact h⟩
theorem PostE.timeout {α : Type} {p : Prop} {P : α → Prop} : PostE p P (.timeout : Exec α) :=
  ⟨by simp, fun _ e => by cases e⟩
theorem PostE.panic {α : Type} {p : Prop} {P : α → Prop} (h : p) : PostE p P (.panic : Exec α) :=
  ⟨fun _ => h, fun _ e => by cases e⟩
theorem PostE.bind {α β : Type} {p : Prop} {P : α → Prop} {Q : β → Prop} {x : Exec α} {f : α → Exec β} (h : PostE p P x)
    (hf : ∀ a, x = .ret a → P a → PostE p Q (f a)) : PostE p Q (x >>= f) := by
  cases x with
  | ret a => exact hf a rfl (h.2 a rfl)
  | panic => exact .panic (h.1 rfl)
  | timeout => exact .timeout
theorem PostE.mono {α : Type} {p : Prop} {P Q : α → Prop} {x : Exec α} (h : PostE p P x)
    (hPQ : ∀ a, x = .ret a → P a → Q a) : PostE p Q x := ⟨h.1, fun a e => hPQ a e (h.2 a e)⟩

/-- Every returned value satisfies `P`; a panic is allowed. -/
def RetE {α : Type} (P : α → Prop) (x : Exec α) : Prop := ∀ a, x = .ret a → P a

theorem RetE.ret {α : Type} {P : α → Prop} {a : α} (h : P a) : RetE P (.ret a) := fun _ e => by cases e; exact h
theorem RetE.timeout {α : Type} {P : α → Prop} : RetE P (.timeout : Exec α) := fun _ e => by cases e
theorem RetE.panic {α : Type} {P : α → Prop} : RetE P (.panic : Exec α) := fun _ e => by cases e
theorem RetE.bind {α β : Type} {P : α → Prop} {Q : β → Prop} {x : Exec α} {f : α → Exec β} (h : RetE P x)
    (hf : ∀ a, x = .ret a → P a → RetE Q (f a)) : RetE Q (x >>= f) := by
  cases x with
  | ret a => exact hf a rfl (h a rfl)
  | panic => exact .panic
  | timeout => exact .timeout
theorem RetE.mono {α : Type} {P Q : α → Prop} {x : Exec α} (h : RetE P x) (hPQ : ∀ a, x = .ret a → P a → Q a) :
    RetE Q x := fun a e => hPQ a e (h a e)
theorem RetE.trivial {α : Type} {x : Exec α} : RetE (fun _ => True) x := fun _ _ => True.intro

/-- The immediate parts of a reader. -/
def Reader.subs : Reader → List Reader
  | .any rs => rs
  | .at_ r => [r]
  | .body b t => [b, t]
  | .bodyTail b t => [b, t]
  | .janusBegin _ _ r => [r]
  | .many r => [r]
  | .map _ r => [r]
  | .named _ r => [r]
  | .not r => [r]
  | .opt r => [r]
  | .past r => [r]
  | .seq rs => rs
  | .skipSeq sk rs => sk :: rs
  | .times _ r => [r]
  | .to r => [r]
  | .zom r => [r]
  | .pick _ _ r => [r]
  | .monitor _ _ r => [r]
  | .ruleName r => [r]
  | .grammar _ r => [r]
  | _ => []

/-- Every part of a reader expression, the expression included, satisfies `P`. -/
inductive Reader.Every (P : Reader → Prop) : Reader → Prop
  | mk {r : Reader} : P r → (∀ c ∈ r.subs, Reader.Every P c) → Reader.Every P r

theorem Reader.Every.here {P : Reader → Prop} {r : Reader} (h : r.Every P) : P r := by cases h; assumption
theorem Reader.Every.sub {P : Reader → Prop} {r c : Reader} (h : r.Every P) (hc : c ∈ r.subs) : c.Every P := by
  cases h with | mk _ h => exact h c hc
theorem Reader.Every.imp {P Q : Reader → Prop} (hPQ : ∀ r, P r → Q r) {r : Reader} (h : r.Every P) : r.Every Q := by
  induction h with
  | mk h _ ih => exact .mk (hPQ _ h) ih
theorem Reader.Every.and {P Q : Reader → Prop} {r : Reader} (h : r.Every P) (h' : r.Every Q) :
    r.Every (fun r => P r ∧ Q r) := by
  induction h with
  | mk h _ ih => exact .mk ⟨h, h'.here⟩ fun c hc => ih c hc (h'.sub hc)

/-- Every part of every rule satisfies `P`. -/
def Env.Every (P : Reader → Prop) (G : Env) : Prop := ∀ rl ∈ G, ∀ r, rl.reader = some r → r.Every P

theorem Env.Every.get {P : Reader → Prop} {G : Env} (h : G.Every P) {i : Nat} {nm : Bytes} {r : Reader}
    (hi : G[i]? = some ⟨nm, some r⟩) : r.Every P := h _ (List.mem_of_getElem? hi) r rfl

theorem Env.Every.imp {P Q : Reader → Prop} (hPQ : ∀ r, P r → Q r) {G : Env} (h : G.Every P) : G.Every Q :=
  fun rl hrl r hr => (h rl hrl r hr).imp hPQ

mutual
/-- A decision procedure for `Every`. -/
def Reader.everyB (p : Reader → Bool) : Reader → Bool
  | .any rs => p (.any rs) && Reader.everyBs p rs
  | .at_ r => p (.at_ r) && r.everyB p
  | .body b t => p (.body b t) && b.everyB p && t.everyB p
  | .bodyTail b t => p (.bodyTail b t) && b.everyB p && t.everyB p
  | .janusBegin i n r => p (.janusBegin i n r) && r.everyB p
  | .many r => p (.many r) && r.everyB p
  | .map f r => p (.map f r) && r.everyB p
  | .named n r => p (.named n r) && r.everyB p
  | .not r => p (.not r) && r.everyB p
  | .opt r => p (.opt r) && r.everyB p
  | .past r => p (.past r) && r.everyB p
  | .seq rs => p (.seq rs) && Reader.everyBs p rs
  | .skipSeq sk rs => p (.skipSeq sk rs) && sk.everyB p && Reader.everyBs p rs
  | .times n r => p (.times n r) && r.everyB p
  | .to r => p (.to r) && r.everyB p
  | .zom r => p (.zom r) && r.everyB p
  | .pick i b r => p (.pick i b r) && r.everyB p
  | .monitor i l r => p (.monitor i l r) && r.everyB p
  | .ruleName r => p (.ruleName r) && r.everyB p
  | .grammar w r => p (.grammar w r) && r.everyB p
  | .anyRune x => p (.anyRune x)
  | .atEnd => p .atEnd
  | .between a b => p (.between a b)
  | .betweenAny a b => p (.betweenAny a b)
  | .bool c f => p (.bool c f)
  | .fold v => p (.fold v)
  | .holey a b c => p (.holey a b c)
  | .int a b c => p (.int a b c)
  | .janusEnd a b => p (.janusEnd a b)
  | .invalid e => p (.invalid e)
  | .lit s => p (.lit s)
  | .match_ w f => p (.match_ w f)
  | .rune r => p (.rune r)
  | .uint a b c => p (.uint a b c)
  | .wrap w f => p (.wrap w f)
  | .rule i => p (.rule i)
/-- A decision procedure for `Every` on all readers of a list. -/
def Reader.everyBs (p : Reader → Bool) : List Reader → Bool
  | [] => true
  | r :: rs => r.everyB p && Reader.everyBs p rs
end

mutual
theorem Reader.everyB_sound (p : Reader → Bool) : ∀ r : Reader, r.everyB p = true → r.Every (fun r => p r = true)
  | .any rs, h => by
    simp only [Reader.everyB, Bool.and_eq_true] at h
    exact .mk h.1 (Reader.everyBs_sound p rs h.2)
  | .seq rs, h => by
    simp only [Reader.everyB, Bool.and_eq_true] at h
    exact .mk h.1 (Reader.everyBs_sound p rs h.2)
  | .skipSeq sk rs, h => by
    simp only [Reader.everyB, Bool.and_eq_true] at h
    refine .mk h.1.1 fun c hc => ?_
    rcases List.mem_cons.mp hc with hc | hc
    · rw [hc]; exact Reader.everyB_sound p _ h.1.2
    · exact Reader.everyBs_sound p rs h.2 c hc
  | .body b t, h => by
    simp only [Reader.everyB, Bool.and_eq_true] at h
    refine .mk h.1.1 fun c hc => ?_
    rcases List.mem_cons.mp hc with hc | hc
    · rw [hc]; exact Reader.everyB_sound p _ h.1.2
    · rw [List.mem_singleton.mp hc]; exact Reader.everyB_sound p _ h.2
  | .bodyTail b t, h => by
    simp only [Reader.everyB, Bool.and_eq_true] at h
    refine .mk h.1.1 fun c hc => ?_
    rcases List.mem_cons.mp hc with hc | hc
    · rw [hc]; exact Reader.everyB_sound p _ h.1.2
    · rw [List.mem_singleton.mp hc]; exact Reader.everyB_sound p _ h.2
  | .at_ r, h => by
    simp only [Reader.everyB, Bool.and_eq_true] at h
    exact .mk h.1 fun c hc => by rw [List.mem_singleton.mp hc]; exact Reader.everyB_sound p _ h.2
  | .janusBegin i n r, h => by
    simp only [Reader.everyB, Bool.and_eq_true] at h
    exact .mk h.1 fun c hc => by rw [List.mem_singleton.mp hc]; exact Reader.everyB_sound p _ h.2
  | .many r, h => by
    simp only [Reader.everyB, Bool.and_eq_true] at h
    exact .mk h.1 fun c hc => by rw [List.mem_singleton.mp hc]; exact Reader.everyB_sound p _ h.2
  | .map f r, h => by
    simp only [Reader.everyB, Bool.and_eq_true] at h
    exact .mk h.1 fun c hc => by rw [List.mem_singleton.mp hc]; exact Reader.everyB_sound p _ h.2
  | .named n r, h => by
    simp only [Reader.everyB, Bool.and_eq_true] at h
    exact .mk h.1 fun c hc => by rw [List.mem_singleton.mp hc]; exact Reader.everyB_sound p _ h.2
  | .not r, h => by
    simp only [Reader.everyB, Bool.and_eq_true] at h
    exact .mk h.1 fun c hc => by rw [List.mem_singleton.mp hc]; exact Reader.everyB_sound p _ h.2
  | .opt r, h => by
    simp only [Reader.everyB, Bool.and_eq_true] at h
    exact .mk h.1 fun c hc => by rw [List.mem_singleton.mp hc]; exact Reader.everyB_sound p _ h.2
  | .past r, h => by
    simp only [Reader.everyB, Bool.and_eq_true] at h
    exact .mk h.1 fun c hc => by rw [List.mem_singleton.mp hc]; exact Reader.everyB_sound p _ h.2
  | .times n r, h => by
    simp only [Reader.everyB, Bool.and_eq_true] at h
    exact .mk h.1 fun c hc => by rw [List.mem_singleton.mp hc]; exact Reader.everyB_sound p _ h.2
  | .to r, h => by
    simp only [Reader.everyB, Bool.and_eq_true] at h
    exact .mk h.1 fun c hc => by rw [List.mem_singleton.mp hc]; exact Reader.everyB_sound p _ h.2
  | .zom r, h => by
    simp only [Reader.everyB, Bool.and_eq_true] at h
    exact .mk h.1 fun c hc => by rw [List.mem_singleton.mp hc]; exact Reader.everyB_sound p _ h.2
  | .pick i b r, h => by
    simp only [Reader.everyB, Bool.and_eq_true] at h
    exact .mk h.1 fun c hc => by rw [List.mem_singleton.mp hc]; exact Reader.everyB_sound p _ h.2
  | .monitor i l r, h => by
    simp only [Reader.everyB, Bool.and_eq_true] at h
    exact .mk h.1 fun c hc => by rw [List.mem_singleton.mp hc]; exact Reader.everyB_sound p _ h.2
  | .ruleName r, h => by
    simp only [Reader.everyB, Bool.and_eq_true] at h
    exact .mk h.1 fun c hc => by rw [List.mem_singleton.mp hc]; exact Reader.everyB_sound p _ h.2
  | .grammar w r, h => by
    simp only [Reader.everyB, Bool.and_eq_true] at h
    exact .mk h.1 fun c hc => by rw [List.mem_singleton.mp hc]; exact Reader.everyB_sound p _ h.2
  | .anyRune _, h => .mk h (by simp [Reader.subs])
  | .atEnd, h => .mk h (by simp [Reader.subs])
  | .between _ _, h => .mk h (by simp [Reader.subs])
  | .betweenAny _ _, h => .mk h (by simp [Reader.subs])
  | .bool _ _, h => .mk h (by simp [Reader.subs])
  | .fold _, h => .mk h (by simp [Reader.subs])
  | .holey _ _ _, h => .mk h (by simp [Reader.subs])
  | .int _ _ _, h => .mk h (by simp [Reader.subs])
  | .janusEnd _ _, h => .mk h (by simp [Reader.subs])
  | .invalid _, h => .mk h (by simp [Reader.subs])
  | .lit _, h => .mk h (by simp [Reader.subs])
  | .match_ _ _, h => .mk h (by simp [Reader.subs])
  | .rune _, h => .mk h (by simp [Reader.subs])
  | .uint _ _ _, h => .mk h (by simp [Reader.subs])
  | .wrap _ _, h => .mk h (by simp [Reader.subs])
  | .rule _, h => .mk h (by simp [Reader.subs])
theorem Reader.everyBs_sound (p : Reader → Bool) : ∀ rs : List Reader, Reader.everyBs p rs = true →
    ∀ c ∈ rs, c.Every (fun r => p r = true)
  | [], _ => by simp
  | r :: rs, h => by
    simp only [Reader.everyBs, Bool.and_eq_true] at h
    intro c hc
    rcases List.mem_cons.mp hc with hc | hc
    · rw [hc]; exact Reader.everyB_sound p _ h.1
    · exact Reader.everyBs_sound p rs h.2 c hc
end

/-- A decision procedure for `Env.Every`. -/
def Env.everyB (p : Reader → Bool) (G : Env) : Bool :=
  G.all fun rl => match rl.reader with
    | some r => r.everyB p
    | none => true

theorem Env.everyB_sound {p : Reader → Bool} {G : Env} (h : G.everyB p = true) : G.Every (fun r => p r = true) := by
  intro rl hrl r hr
  have := List.all_eq_true.mp h rl hrl
  rw [hr] at this
  exact Reader.everyB_sound p r this

/-! ### growing the budget -/

theorem anyLoop_le {f g : Reader → ReadFunc} (h : ∀ r s, LeE (f r s) (g r s)) : ∀ rs errs s,
    LeE (anyLoop f rs errs s) (anyLoop g rs errs s)
  | [], _, _ => .refl _
  | r :: rs, errs, s => (h r s).bind fun a => by
    obtain ⟨e, s⟩ := a
    cases e with
    | none => exact .refl _
    | some e => exact anyLoop_le h rs _ s

theorem seqLoop_le {f g : Reader → ReadFunc} (h : ∀ r s, LeE (f r s) (g r s)) : ∀ rs s,
    LeE (seqLoop f rs s) (seqLoop g rs s)
  | [], _ => .refl _
  | r :: rs, s => (h r s).bind fun a => by
    obtain ⟨e, s⟩ := a
    cases e with
    | none => exact seqLoop_le h rs s
    | some e => exact .refl _

theorem skipSeqLoop_le {f g : Reader → ReadFunc} (h : ∀ r s, LeE (f r s) (g r s)) (sk : Reader) : ∀ rs s,
    LeE (skipSeqLoop f sk rs s) (skipSeqLoop g sk rs s)
  | [], _ => .refl _
  | r :: rs, s => (h r s).bind fun a => by
    obtain ⟨e, s⟩ := a
    cases e with
    | some e => exact .refl _
    | none =>
      refine (h sk s).bind fun a => ?_
      obtain ⟨e, s⟩ := a
      cases e with
      | some e => exact .refl _
      | none => exact skipSeqLoop_le h sk rs s

theorem timesLoop_le {f g : ReadFunc} (h : ∀ s, LeE (f s) (g s)) : ∀ k s, LeE (timesLoop f k s) (timesLoop g k s)
  | 0, _ => .refl _
  | k + 1, s => (h s).bind fun a => by
    obtain ⟨e, s⟩ := a
    cases e with
    | some e => exact .refl _
    | none => exact timesLoop_le h k s

theorem zomLoop_le {f g : ReadFunc} (h : ∀ s, LeE (f s) (g s)) : ∀ n m s, n ≤ m → LeE (zomLoop f n s) (zomLoop g m s)
  | 0, _, _, _ => .timeout _
  | n + 1, 0, _, hn => absurd hn (by omega)
  | n + 1, m + 1, s, hn => (h s).bind fun a => by
    obtain ⟨e, s⟩ := a
    cases e with
    | some e => exact .refl _
    | none => exact zomLoop_le h n m s (by omega)

theorem use_le {f g : ReadFunc} (h : ∀ s, LeE (f s) (g s)) (s : Scanner) : LeE (s.use f) (s.use g) :=
  (h s).bind fun _ => .refl _

theorem tokenizeUse_le {f g : ReadFunc} (h : ∀ s, LeE (f s) (g s)) (s : Scanner) :
    LeE (s.tokenizeUse f) (s.tokenizeUse g) :=
  (h s).bind fun _ => .refl _

theorem bodyLoop_le {b b' t t' : ReadFunc} (hb : ∀ s, LeE (b s) (b' s)) (ht : ∀ s, LeE (t s) (t' s)) (mk : Int) :
    ∀ n m s, n ≤ m → LeE (bodyLoop b t mk n s) (bodyLoop b' t' mk m s)
  | 0, _, _, _ => .timeout _
  | n + 1, 0, _, hn => absurd hn (by omega)
  | n + 1, m + 1, s, hn => by
    unfold bodyLoop
    split
    · exact .refl _
    · refine (ht s).bind fun a => ?_
      obtain ⟨e, s'⟩ := a
      cases e with
      | none =>
        refine (LeE.refl _).bind fun str => ?_
        exact (use_le hb _).bind fun _ => .refl _
      | some e =>
        refine (LeE.refl _).bind fun a => ?_
        exact bodyLoop_le hb ht mk n m _ (by omega)

theorem pastLoop_le {f g : ReadFunc} (h : ∀ s, LeE (f s) (g s)) : ∀ n m s, n ≤ m → LeE (pastLoop f n s) (pastLoop g m s)
  | 0, _, _, _ => .timeout _
  | n + 1, 0, _, hn => absurd hn (by omega)
  | n + 1, m + 1, s, hn => by
    unfold pastLoop
    split
    · exact .refl _
    · refine (h s).bind fun a => ?_
      obtain ⟨e, s'⟩ := a
      cases e with
      | none => exact .refl _
      | some e => exact (LeE.refl _).bind fun a => pastLoop_le h n m _ (by omega)

theorem toLoop_le {f g : ReadFunc} (h : ∀ s, LeE (f s) (g s)) : ∀ n m s, n ≤ m → LeE (toLoop f n s) (toLoop g m s)
  | 0, _, _, _ => .timeout _
  | n + 1, 0, _, hn => absurd hn (by omega)
  | n + 1, m + 1, s, hn => by
    unfold toLoop
    refine (h s).bind fun a => ?_
    obtain ⟨e, s'⟩ := a
    cases e with
    | none => exact .refl _
    | some e =>
      refine (LeE.refl _).bind fun a => ?_
      obtain ⟨ok, s'⟩ := a
      cases ok
      · exact .refl _
      · exact toLoop_le h n m _ (by omega)

/-- A larger step budget does not change how a read ends. -/
theorem read_le (rt : Rt) (G : Env) : ∀ n m, n ≤ m → ∀ r s, LeE (read rt G n r s) (read rt G m r s)
  | 0, _, _, _, _ => .timeout _
  | n + 1, 0, hn, _, _ => absurd hn (by omega)
  | n + 1, m + 1, hn, r, s => by
    have hnm : n ≤ m := by omega
    have ih := read_le rt G n m hnm
    cases r with
    | any rs => exact (anyLoop_le ih rs [] s).bind fun _ => .refl _
    | at_ sub => exact (ih sub s).bind fun _ => .refl _
    | body b t => exact (bodyLoop_le (ih b) (ih t) _ n m s hnm).bind fun _ => .refl _
    | bodyTail b t => exact (bodyLoop_le (ih b) (ih t) _ n m s hnm).bind fun _ => .refl _
    | janusBegin id nm sub => exact (tokenizeUse_le (ih sub) s).bind fun _ => .refl _
    | many sub => exact (zomLoop_le (ih sub) n m s hnm).bind fun _ => .refl _
    | map f sub => exact (tokenizeUse_le (ih sub) s).bind fun _ => .refl _
    | named nm sub => exact ih sub s
    | not sub => exact (ih sub s).bind fun _ => .refl _
    | opt sub => exact (ih sub s).bind fun _ => .refl _
    | past sub => exact (pastLoop_le (ih sub) n m s hnm).bind fun _ => .refl _
    | seq rs => exact (seqLoop_le ih rs s).bind fun _ => .refl _
    | skipSeq sk rs =>
      refine (ih sk s).bind fun a => ?_
      obtain ⟨e, s⟩ := a
      cases e with
      | some e => exact .refl _
      | none => exact (skipSeqLoop_le ih sk rs s).bind fun _ => .refl _
    | times k sub => exact timesLoop_le (ih sub) _ s
    | to sub => exact (toLoop_le (ih sub) n m s hnm).bind fun _ => .refl _
    | zom sub => exact (zomLoop_le (ih sub) n m s hnm).bind fun _ => .refl _
    | pick i b sub => exact (tokenizeUse_le (ih sub) s).bind fun _ => .refl _
    | monitor i l sub => exact (ih sub _).bind fun _ => .refl _
    | rule i =>
      simp only [read]
      split
      · exact ih _ s
      · exact .refl _
    | ruleName sub => exact (ih sub s).bind fun _ => .refl _
    | grammar w sub => exact (ih sub s).bind fun _ => .refl _
    | _ => exact .refl _

end Tok
