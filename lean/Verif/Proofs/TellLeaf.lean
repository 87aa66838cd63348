/-
What names, numerals, strings, white space and comments of the Lua grammar are made of.
-/
import Verif.Proofs.Tells

namespace Tok
open Spec

namespace Lua

variable {rt : Rt} {G : Env} {C : List Bytes → Prop}

theorem _root_.Tok.Does.inv {r : Reader} {f : Bytes → Option Bytes} (h : Does rt G r f) {n : Nat} {st st' : St} {ok : Bool} (e : eat rt G n r st = .ret (ok, st')) :
    st'.jan = st.jan ∧ if ok then f st.rest = some st'.rest else f st.rest = none ∧ st'.rest = st.rest := by
  obtain ⟨m, e'⟩ := h st.rest st.jan
  have := eat_det e e'
  cases hf : f st.rest with
  | none =>
    rw [hf] at this
    simp only [outcome, Prod.mk.injEq] at this
    rw [this.1, this.2]
    exact ⟨rfl, rfl, rfl⟩
  | some u =>
    rw [hf] at this
    simp only [outcome, Prod.mk.injEq] at this
    rw [this.1, this.2]
    exact ⟨rfl, rfl⟩

theorem tells_does {r : Reader} {f : Bytes → Option Bytes} (h : Does rt env r f) (hC : ∀ t u, f t = some u → ∃ x, t = x ++ u ∧ C [x]) (n : Nat) : Tells (eat rt env n r) C :=
  fun st ok st' e => by
    have := (h.inv e).2
    cases ok with
    | false => exact this.2
    | true =>
      obtain ⟨x, h1, h2⟩ := hC _ _ this
      exact ⟨x, h1, [x], h2, .one x⟩

theorem name_tells (n : Nat) : Tells (eat rt env n (.rule iName)) (fun ks => ∃ x, ks = [x] ∧ LuaIdent x) :=
  tells_does (name_does rt) (fun t u h => by
    obtain ⟨x, h1, h2⟩ := name_greedy.some h
    exact ⟨x, h1, x, rfl, h2.2.1⟩) n

theorem numeral_tells (n : Nat) : Tells (eat rt env n numeral) (fun ks => ∃ x, ks = [x] ∧ LuaNumeral x) :=
  tells_does (numeral_does rt env) (fun t u h => by
    obtain ⟨x, h1, h2⟩ := num_greedy.some h
    exact ⟨x, h1, x, rfl, full_numeral h2.2.1⟩) n

/-! ### sequences -/

theorem seq_inv {n : Nat} {rs : List Reader} {st st' : St} {ok : Bool} (e : eat rt env n (.seq rs) st = .ret (ok, st')) :
    ∃ m, n = m + 1 ∧ if ok then eatSeq (eat rt env m) rs st = .ret (true, st') else st'.rest = st.rest := by
  cases n with
  | zero => cases e
  | succ m =>
    rw [eat] at e
    obtain ⟨x, e1, e2⟩ := ret_of_bind e
    have := orBack_ret (Exec.ret.inj e2)
    refine ⟨m, rfl, ?_⟩
    cases ok with
    | false => exact this
    | true => rw [if_pos rfl] at this; subst this; exact e1

theorem eatSeq_inv {rd : Reader → EatFunc} {r : Reader} {rs : List Reader} {st st' : St} (e : eatSeq rd (r :: rs) st = .ret (true, st')) :
    ∃ s1, rd r st = .ret (true, s1) ∧ eatSeq rd rs s1 = .ret (true, st') := by
  obtain ⟨⟨ok, s1⟩, e1, e2⟩ := ret_of_bind e
  cases ok with
  | false => simp at e2
  | true => exact ⟨s1, e1, e2⟩

theorem rune_inv {b : UInt8} (hb : b.toNat < 128) {n : Nat} {st st' : St} (e : eat rt env n (.rune b.toNat) st = .ret (true, st')) :
    st.rest = b :: st'.rest ∧ st'.jan = st.jan := by
  have := (does_rune (rt := rt) (G := env) (ascii_rune b hb)).inv e
  obtain ⟨c, h1, h2⟩ := oneB_some this.2
  rw [beq_iff_eq] at h2
  subst h2
  exact ⟨h1, this.1⟩

theorem lit_inv {x : Bytes} {n : Nat} {st st' : St} (e : eat rt env n (.lit x) st = .ret (true, st')) : st.rest = x ++ st'.rest ∧ st'.jan = st.jan := by
  have := (does_lit (rt := rt) (G := env) x).inv e
  exact ⟨litB_some this.2, this.1⟩

/-! ### strings -/

theorem short_tells {q : UInt8} (hq : q = 34 ∨ q = 39) (n : Nat) : Tells (eat rt env n (shortReader q)) (fun ks => ∃ x, ks = [x] ∧ LooseString x) := by
  intro st ok st' e
  have hq' : q.toNat < 128 := by rcases hq with rfl | rfl <;> decide
  cases ok with
  | false =>
    obtain ⟨m, _, h⟩ := seq_inv e
    exact h
  | true =>
    obtain ⟨m, rfl, h⟩ := seq_inv e
    obtain ⟨s1, h1, _⟩ := eatSeq_inv h
    obtain ⟨h2, h3⟩ := rune_inv hq' h1
    have e' : eat rt env (m + 1) (shortReader q) ⟨q :: s1.rest, st.jan⟩ = .ret (true, st') := by rw [← h2]; exact e
    rcases short_cases (rt := rt) (G := env) hq s1.rest st.jan with ⟨y, v, h4, h5, k, hk⟩ | ⟨_, _, _, _, _, _, _, k, hk⟩ | ⟨_, h4⟩
    · have := eat_det e' hk
      simp only [Prod.mk.injEq, true_and] at this
      subst this
      exact ⟨q :: (y ++ [q]), by rw [h2, h4]; simp, _, ⟨_, rfl, .inl ⟨q, y, hq, rfl, h5⟩⟩, .one _⟩
    · have := eat_det e' hk
      simp at this
    · rw [h4] at e'
      cases e'

/-! ### long brackets -/

/-- The memory of the brackets is the given level or none. -/
def Keeps (id k : Nat) (j : Nat → Bytes) : Prop := j id = List.replicate k 61 ∨ j id = []

def closing (id : Nat) : Reader := .seq [.rune 93, (mkJanus id [] (mkZom (.str b!"="))).2, .rune 93]

theorem closing_inv {id k n : Nat} {st st' : St} {ok : Bool} (hj : Keeps id k st.jan) (e : eat rt env n (closing id) st = .ret (ok, st')) :
    Keeps id k st'.jan ∧ if ok then ∃ m, (m = k ∨ m = 0) ∧ st.rest = 93 :: (List.replicate m 61 ++ 93 :: st'.rest) else st'.rest = st.rest := by
  cases n with
  | zero => cases e
  | succ n =>
    have h93 := does_rune (rt := rt) (G := env) (ascii_rune 93 (by decide))
    simp only [closing, eat] at e
    obtain ⟨⟨ok0, z⟩, e1, e2⟩ := ret_of_bind e
    have e2 := Exec.ret.inj e2
    obtain ⟨⟨ok1, s1⟩, f1, f2⟩ := ret_of_bind e1
    have g1 := h93.inv f1
    cases ok1 with
    | false =>
      simp only [Bool.false_eq_true, if_false, Exec.pure_eq, Exec.ret.injEq, Prod.mk.injEq] at f2
      obtain ⟨rfl, rfl⟩ := f2
      simp only [orBack, Bool.false_eq_true, if_false, Prod.mk.injEq] at e2
      obtain ⟨rfl, rfl⟩ := e2
      exact ⟨by rw [Keeps, g1.1]; exact hj, rfl⟩
    | true =>
      have j1 : Keeps id k s1.jan := by rw [g1.1]; exact hj
      obtain ⟨c, t1, hc⟩ := oneB_some g1.2
      rw [beq_iff_eq] at hc
      subst hc
      simp only [if_true] at f2
      obtain ⟨⟨ok2, s2⟩, f3, f4⟩ := ret_of_bind f2
      cases n with
      | zero => cases f3
      | succ n =>
        simp only [mkJanus, eat] at f3
        split at f3
        · next hp =>
          simp only [Exec.ret.injEq, Prod.mk.injEq] at f3
          obtain ⟨rfl, rfl⟩ := f3
          simp only [if_true] at f4
          obtain ⟨⟨ok3, s3⟩, f5, f6⟩ := ret_of_bind f4
          have g3 := h93.inv f5
          have j3 : Keeps id k s3.jan := by rw [g3.1]; exact .inr (by simp [upd])
          cases ok3 with
          | false =>
            simp only [Bool.false_eq_true, if_false, Exec.pure_eq, Exec.ret.injEq, Prod.mk.injEq] at f6
            obtain ⟨rfl, rfl⟩ := f6
            simp only [orBack, Bool.false_eq_true, if_false, Prod.mk.injEq] at e2
            obtain ⟨rfl, rfl⟩ := e2
            exact ⟨j3, rfl⟩
          | true =>
            simp only [if_true, eatSeq, Exec.ret.injEq, Prod.mk.injEq] at f6
            obtain ⟨rfl, rfl⟩ := f6
            simp only [orBack, if_true, Prod.mk.injEq] at e2
            obtain ⟨rfl, rfl⟩ := e2
            obtain ⟨c, t2, hc⟩ := oneB_some g3.2
            rw [beq_iff_eq] at hc
            subst hc
            obtain ⟨w, hw⟩ := (hasPrefix_iff _ _).mp hp
            refine ⟨j3, ?_⟩
            have : s1.rest = s1.jan id ++ 93 :: s3.rest := by rw [← hw, ← t2]; simp [← hw]
            rcases j1 with j1 | j1
            · exact ⟨k, .inl rfl, by rw [t1, this, j1]⟩
            · exact ⟨0, .inr rfl, by rw [t1, this, j1]; rfl⟩
        · simp only [Exec.ret.injEq, Prod.mk.injEq] at f3
          obtain ⟨rfl, rfl⟩ := f3
          simp only [Bool.false_eq_true, if_false, Exec.pure_eq, Exec.ret.injEq, Prod.mk.injEq] at f4
          obtain ⟨rfl, rfl⟩ := f4
          simp only [orBack, Bool.false_eq_true, if_false, Prod.mk.injEq] at e2
          obtain ⟨rfl, rfl⟩ := e2
          exact ⟨j1, rfl⟩

theorem past_inv {id k m : Nat} : ∀ (n : Nat) {st st' : St}, Keeps id k st.jan → eatPast (eat rt env m (closing id)) n st = .ret (true, st') →
    ∃ y l, (l = k ∨ l = 0) ∧ st.rest = y ++ 93 :: (List.replicate l 61 ++ 93 :: st'.rest) := by
  intro n
  induction n with
  | zero => intro st st' _ e; cases e
  | succ n ih =>
    intro st st' hj e
    simp only [eatPast] at e
    split at e
    · simp at e
    · obtain ⟨⟨ok, s1⟩, e1, e2⟩ := ret_of_bind e
      obtain ⟨j1, h1⟩ := closing_inv hj e1
      cases ok with
      | true =>
        simp only [if_true, Exec.pure_eq, Exec.ret.injEq, Prod.mk.injEq, true_and] at e2 h1
        subst e2
        obtain ⟨l, hl, h⟩ := h1
        exact ⟨[], l, hl, h⟩
      | false =>
        simp only [Bool.false_eq_true, if_false] at e2 h1
        obtain ⟨y, l, hl, h⟩ := ih (st := ⟨(eatStep s1.rest).2, s1.jan⟩) j1 e2
        obtain ⟨z, hz⟩ := eatStep_suffix s1.rest
        refine ⟨z ++ y, l, hl, ?_⟩
        rw [← h1, ← hz, List.append_assoc]
        exact congrArg (z ++ ·) h

theorem levels_inv {m : Nat} : ∀ (n : Nat) {st st' : St}, eatZom (eat rt env m (.lit b!"=")) n st = .ret st' → ∃ k, st.rest = List.replicate k 61 ++ st'.rest := by
  intro n
  induction n with
  | zero => intro st st' e; cases e
  | succ n ih =>
    intro st st' e
    obtain ⟨⟨ok, s1⟩, e1, e2⟩ := ret_of_bind e
    cases ok with
    | true =>
      obtain ⟨k, hk⟩ := ih (by simpa using e2)
      exact ⟨k + 1, by rw [(lit_inv e1).1, hk]; rfl⟩
    | false =>
      have := ((does_lit _).inv e1).2
      simp only [Bool.false_eq_true, if_false, Exec.pure_eq, Exec.ret.injEq] at e2 this
      subst e2
      exact ⟨0, by rw [this.2]; rfl⟩

theorem past_yes {n : Nat} {r : Reader} {st st' : St} (e : eat rt env n (.past r) st = .ret (true, st')) : ∃ m, eatPast (eat rt env m r) m st = .ret (true, st') := by
  cases n with
  | zero => cases e
  | succ m =>
    rw [eat] at e
    obtain ⟨x, e1, e2⟩ := ret_of_bind e
    have := orBack_ret (Exec.ret.inj e2)
    rw [if_pos rfl] at this
    subst this
    exact ⟨m, e1⟩

theorem long_inv {id n : Nat} {beg : Reader} {x : Bytes} (hx : ∀ (n : Nat) (st st' : St), eat rt env n beg st = .ret (true, st') → st.rest = x ++ 91 :: st'.rest)
    {st st' : St} (e : eat rt env n (long id (.reader beg)) st = .ret (true, st')) : ∃ y, st.rest = x ++ (y ++ st'.rest) ∧ LooseLong y := by
  obtain ⟨n, rfl, e0⟩ := seq_inv e
  rw [if_pos rfl] at e0
  obtain ⟨s1, e1, e2⟩ := eatSeq_inv e0
  obtain ⟨s2, e3, e4⟩ := eatSeq_inv e2
  cases e4
  obtain ⟨n, rfl, f⟩ := seq_inv e1
  rw [if_pos rfl] at f
  obtain ⟨s3, f1, f2⟩ := eatSeq_inv f
  obtain ⟨s4, f3, f4⟩ := eatSeq_inv f2
  obtain ⟨s5, f5, f6⟩ := eatSeq_inv f4
  cases f6
  have h1 := hx _ _ _ f1
  have h5 := rune_inv (b := 91) (by decide) f5
  cases n with
  | zero => cases f3
  | succ n =>
    simp only [mkJanus, eat] at f3
    obtain ⟨⟨ok, s6⟩, g1, g2⟩ := ret_of_bind f3
    cases ok with
    | false => simp at g2
    | true =>
      simp only [if_true, Exec.pure_eq, Exec.ret.injEq, Prod.mk.injEq, true_and] at g2
      subst g2
      cases n with
      | zero => cases g1
      | succ n =>
        simp only [mkZom, eat] at g1
        obtain ⟨s7, g3, g4⟩ := ret_of_bind g1
        simp only [Exec.pure_eq, Exec.ret.injEq, Prod.mk.injEq, true_and] at g4
        subst g4
        obtain ⟨k, hk⟩ := levels_inv _ g3
        have hj : Keeps id k s1.jan := by
          rw [Keeps, h5.2]
          refine .inl ?_
          simp only [upd, if_true]
          rw [hk, List.take_left']
          simp
        obtain ⟨m, g5⟩ := past_yes (r := closing id) e3
        obtain ⟨y, l, hl, h6⟩ := past_inv _ hj g5
        refine ⟨_, ?_, k, l, y, rfl, hl⟩
        rw [h1, hk, h5.1, h6]
        simp

theorem rule_inv {i : Nat} {nm : Bytes} {c : Reader} (hi : env[i]? = some ⟨nm, some c⟩) {n : Nat} {st : St} {x : Bool × St} (e : eat rt env n (.rule i) st = .ret x) :
    ∃ m, n = m + 1 ∧ eat rt env m c st = .ret x := by
  cases n with
  | zero => cases e
  | succ m => exact ⟨m, rfl, by simpa only [eat, hi] using e⟩

theorem any_inv {rs : List Reader} {n : Nat} {st st' : St} {ok : Bool} (e : eat rt env n (.any rs) st = .ret (ok, st')) :
    ∃ m, n = m + 1 ∧ if ok then eatAny (eat rt env m) rs st = .ret (true, st') else st'.rest = st.rest := by
  cases n with
  | zero => cases e
  | succ m =>
    rw [eat] at e
    obtain ⟨x, e1, e2⟩ := ret_of_bind e
    have := orBack_ret (Exec.ret.inj e2)
    refine ⟨m, rfl, ?_⟩
    cases ok with
    | false => exact this
    | true => rw [if_pos rfl] at this; subst this; exact e1

theorem tells_any_reader {rs : List Reader} {T : Reader → List Bytes → Prop} {n : Nat} (h : ∀ m, n = m + 1 → ∀ r ∈ rs, Tells (eat rt env m r) (T r)) :
    Tells (eat rt env n (.any rs)) (fun ks => ∃ r ∈ rs, T r ks) := fun st ok st' e => by
  obtain ⟨m, hm, h'⟩ := any_inv e
  cases ok with
  | false => exact h'
  | true => exact tells_any (h m hm) st true st' h'

theorem long_tells (n : Nat) : Tells (eat rt env n (long 0 (ru '['))) (fun ks => ∃ x, ks = [x] ∧ LooseString x) := fun st ok st' e => by
  cases ok with
  | false => obtain ⟨m, _, h⟩ := seq_inv e; exact h
  | true =>
    obtain ⟨y, h1, h2⟩ := long_inv (beg := .rune 91) (x := []) (fun n st st' e => (rune_inv (b := 91) (by decide) e).1) e
    exact ⟨y, h1, [y], ⟨y, rfl, .inr h2⟩, .one y⟩

theorem literal_tells (n : Nat) : Tells (eat rt env n (.rule iLiteralString)) (fun ks => ∃ x, ks = [x] ∧ LooseString x) := fun st ok st' e => by
  obtain ⟨m, rfl, e1⟩ := rule_inv rfl e
  refine Tells.mono (tells_any_reader (T := fun _ ks => ∃ x, ks = [x] ∧ LooseString x) fun k _ r hr => ?_) (fun ks h => ?_) st ok st' e1
  · simp only [List.mem_cons, List.not_mem_nil, or_false] at hr
    rcases hr with rfl | rfl | rfl
    · exact short_tells (.inl rfl) k
    · exact short_tells (.inr rfl) k
    · exact long_tells k
  · obtain ⟨_, _, h⟩ := h
    exact h

/-! ### comments -/

theorem to_yes {n : Nat} {r : Reader} {st st' : St} (e : eat rt env n (.to r) st = .ret (true, st')) : ∃ m, eatTo (eat rt env m r) m st = .ret (true, st') := by
  cases n with
  | zero => cases e
  | succ m =>
    rw [eat] at e
    obtain ⟨x, e1, e2⟩ := ret_of_bind e
    have := orBack_ret (Exec.ret.inj e2)
    rw [if_pos rfl] at this
    subst this
    exact ⟨m, e1⟩

theorem feed_inv {m : Nat} : ∀ (n : Nat) {st st' : St}, eatTo (eat rt env m (.rune 10)) n st = .ret (true, st') →
    ∃ y u, st.rest = y ++ 10 :: u ∧ st'.rest = 10 :: u ∧ ∀ cs, y = encText cs → '\n' ∉ cs := by
  intro n
  induction n with
  | zero => intro st st' e; cases e
  | succ n ih =>
    intro st st' e
    obtain ⟨⟨ok, s1⟩, e1, e2⟩ := ret_of_bind e
    have h1 := (does_rune (rt := rt) (G := env) (ascii_rune 10 (by decide))).inv e1
    cases ok with
    | true =>
      obtain ⟨c, h2, hc⟩ := oneB_some h1.2
      rw [beq_iff_eq] at hc
      subst hc
      simp only [if_true, Exec.pure_eq, Exec.ret.injEq, Prod.mk.injEq, true_and] at e2
      subst e2
      refine ⟨[], s1.rest, h2, h2, fun cs hcs => ?_⟩
      cases cs with
      | nil => simp
      | cons c cs =>
        have h3 := enc_length_pos c
        have h4 := congrArg List.length hcs
        rw [encText_cons, List.length_append, List.length_nil] at h4
        omega
    | false =>
      simp only [Bool.false_eq_true, if_false] at e2 h1
      obtain ⟨_, h3, h4⟩ := h1
      split at e2
      · next hs =>
        obtain ⟨y, u, h5, h6, h7⟩ := ih e2
        simp only at h5
        rw [h4] at hs h5
        obtain ⟨z, hz⟩ := eatStep_suffix st.rest
        have hlt := eatStep_lt hs
        refine ⟨z ++ y, u, by rw [← hz, h5, List.append_assoc], h6, fun cs hcs => ?_⟩
        have hrest : st.rest = encText cs ++ 10 :: u := by rw [← hcs, ← hz, h5, List.append_assoc]
        cases cs with
        | nil => simp
        | cons c cs =>
          rw [encText_cons, List.append_assoc] at hrest
          rw [hrest, eatStep_char] at h5
          have h8 : y = encText cs := (List.append_cancel_right h5).symm
          have h9 := h7 cs h8
          rw [List.mem_cons, not_or]
          refine ⟨?_, h9⟩
          rintro rfl
          rw [hrest] at h3
          cases h3
      · simp at e2

theorem comment_inv {n : Nat} {st st' : St} {ok : Bool} (e : eat rt env n (.rule iComment) st = .ret (ok, st')) :
    if ok then (∃ y, st.rest = b!"--" ++ (y ++ st'.rest) ∧ LooseLong y) ∨
      ∃ y u, st.rest = b!"--" ++ (y ++ 10 :: u) ∧ st'.rest = 10 :: u ∧ ∀ cs, y = encText cs → '\n' ∉ cs
    else st'.rest = st.rest := by
  obtain ⟨m, rfl, e1⟩ := rule_inv rfl e
  obtain ⟨m, rfl, h⟩ := any_inv e1
  cases ok with
  | false => exact h
  | true =>
    rw [if_pos rfl] at h ⊢
    obtain ⟨⟨ok1, s1⟩, f1, f2⟩ := ret_of_bind h
    cases ok1 with
    | true =>
      simp only [if_true, Exec.pure_eq, Exec.ret.injEq, Prod.mk.injEq, true_and] at f2
      subst f2
      exact .inl (long_inv (beg := .lit b!"--[") (x := b!"--") (fun n st st' e => (lit_inv e).1) f1)
    | false =>
      obtain ⟨_, _, h1⟩ := seq_inv f1
      simp only [Bool.false_eq_true, if_false] at f2 h1
      obtain ⟨⟨ok2, s2⟩, f3, f4⟩ := ret_of_bind f2
      cases ok2 with
      | false => simp [eatAny] at f4
      | true =>
        simp only [if_true, Exec.pure_eq, Exec.ret.injEq, Prod.mk.injEq, true_and] at f4
        subst f4
        obtain ⟨k, rfl, h2⟩ := seq_inv f3
        rw [if_pos rfl] at h2
        obtain ⟨s3, g1, g2⟩ := eatSeq_inv h2
        obtain ⟨s4, g3, g4⟩ := eatSeq_inv g2
        cases g4
        obtain ⟨l, g5⟩ := to_yes (r := .rune 10) g3
        obtain ⟨y, u, h3, h4, h5⟩ := feed_inv _ g5
        exact .inr ⟨y, u, by rw [← h1, (lit_inv g1).1, h3], h4, h5⟩

/-! ### gaps -/

def whiteB (b : UInt8) : Bool := b == 32 || b == 9 || b == 10 || b == 13

theorem whiteB_iff (b : UInt8) : whiteB b = true ↔ b = 32 ∨ b = 9 ∨ b = 10 ∨ b = 13 := by simp [whiteB, or_assoc]

theorem white_does (rt : Rt) (G : Env) : Does rt G (.anyRune b!" \r\n\t") (oneB whiteB) :=
  does_anyRune (ascii_contains (by decide +kernel) (bytes_all (by decide +kernel)) (bytes_all (by decide +kernel)))

theorem white_gaps (n : Nat) : Gaps (eat rt env n (.zom (.anyRune b!" \r\n\t"))) := fun st ok st' e => by
  have := ((does_zom (white_does rt env)).inv e).2
  cases ok with
  | false => simp at this
  | true =>
    simp only [if_true, Option.some.injEq] at this
    refine ⟨st.rest.takeWhile whiteB, by rw [← this, List.takeWhile_append_dropWhile], ?_⟩
    generalize st.rest = t
    induction t with
    | nil => exact .nil
    | cons b t ih =>
      rw [List.takeWhile_cons]
      split
      · next hb => exact .white ((whiteB_iff b).mp hb) ih
      · exact .nil

theorem gap_zom {k : Nat} : ∀ (n : Nat) {st st' : St}, eatZom (eat rt env k (.any [.anyRune b!" \r\n\t", .rule iComment])) n st = .ret st' →
    ∃ x, st.rest = x ++ st'.rest ∧ LooseGap x := by
  intro n
  induction n using Nat.strongRecOn with
  | _ n ih =>
  intro st st' e
  cases n with
  | zero => cases e
  | succ n =>
    obtain ⟨⟨ok, s1⟩, e1, e2⟩ := ret_of_bind e
    obtain ⟨k', rfl, h⟩ := any_inv e1
    cases ok with
    | false =>
      simp only [Bool.false_eq_true, if_false, Exec.pure_eq, Exec.ret.injEq] at e2 h
      subst e2
      exact ⟨[], by rw [h]; rfl, .nil⟩
    | true =>
      simp only [if_true] at e2 h
      obtain ⟨⟨ok1, s2⟩, f1, f2⟩ := ret_of_bind h
      have h1 := ((white_does rt env).inv f1).2
      cases ok1 with
      | true =>
        simp only [if_true, Exec.pure_eq, Exec.ret.injEq, Prod.mk.injEq, true_and] at f2
        subst f2
        obtain ⟨b, h2, hb⟩ := oneB_some h1
        obtain ⟨x, h3, h4⟩ := ih n (Nat.lt_succ_self n) e2
        exact ⟨b :: x, by rw [h2, h3]; rfl, .white ((whiteB_iff b).mp hb) h4⟩
      | false =>
        simp only [Bool.false_eq_true, if_false] at f2 h1
        obtain ⟨⟨ok2, s3⟩, f3, f4⟩ := ret_of_bind f2
        have h2 := comment_inv f3
        cases ok2 with
        | false => simp [eatAny] at f4
        | true =>
          simp only [if_true, Exec.pure_eq, Exec.ret.injEq, Prod.mk.injEq, true_and] at f4 h2
          subst f4
          rcases h2 with ⟨y, h3, h4⟩ | ⟨y, u, h3, h4, h5⟩
          · obtain ⟨x, h6, h7⟩ := ih n (Nat.lt_succ_self n) e2
            exact ⟨b!"--" ++ (y ++ x), by rw [← h1.2, h3, h6]; simp, .long h4 h7⟩
          · cases n with
            | zero => cases e2
            | succ n =>
              obtain ⟨⟨ok, s4⟩, g1, g2⟩ := ret_of_bind e2
              have : ok = true ∧ s4.rest = u := by
                rw [eat] at g1
                obtain ⟨x, g3, g4⟩ := ret_of_bind g1
                obtain ⟨⟨ok5, s5⟩, g5, g6⟩ := ret_of_bind g3
                have h6 := ((white_does rt env).inv g5).2
                rw [h4] at h6
                cases ok5 with
                | false => simp [oneB, whiteB] at h6
                | true =>
                  simp only [if_true, oneB, whiteB, Exec.pure_eq, Exec.ret.injEq] at h6 g6
                  subst g6
                  simp only [orBack, if_true, Exec.pure_eq, Exec.ret.injEq, Prod.mk.injEq] at g4
                  exact ⟨g4.1.symm, by rw [← g4.2]; simpa using h6.symm⟩
              obtain ⟨rfl, h6⟩ := this
              obtain ⟨x, h7, h8⟩ := ih n (by omega) (by simpa using g2)
              refine ⟨b!"--" ++ (y ++ 10 :: x), ?_, .line h5 h8⟩
              rw [← h1.2, h3, ← h6, h7]
              simp

theorem skips_gaps (n : Nat) (sk : Reader) (h : skips sk = true) : Gaps (eat rt env n sk) := by
  unfold skips at h
  split at h
  · rw [beq_iff_eq] at h
    subst h
    exact white_gaps n
  · rw [Bool.and_eq_true, beq_iff_eq, beq_iff_eq] at h
    obtain ⟨rfl, rfl⟩ := h
    intro st ok st' e
    cases n with
    | zero => cases e
    | succ n =>
      rw [eat] at e
      obtain ⟨s1, e1, e2⟩ := ret_of_bind e
      simp only [Exec.pure_eq, Exec.ret.injEq, Prod.mk.injEq] at e2
      obtain ⟨rfl, rfl⟩ := e2
      exact gap_zom n e1
  · cases h

end Lua
end Tok
