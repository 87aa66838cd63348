/-
Readers and parsing expressions agree.
-/
import Verif.Proofs.PegLeaf

namespace Tok
open Spec PExp

/-- A reader that, when it fails, has not moved (the rules of the grammar given to be such). -/
def Reader.keepsB : Reader → Bool
  | .named _ r => r.keepsB
  | .monitor _ _ r => r.keepsB
  | .ruleName r => r.keepsB
  | .grammar _ r => r.keepsB
  | .times k r => decide (k ≤ 0) || (decide (k = 1) && r.keepsB)
  | .wrap _ _ => false
  | _ => true

/-- The readers with an expression: no `Fold`, `Int`, `Uint`, `Janus` and `Wrap`; literals are
UTF-8 texts; a reader after whose failure the reading goes on from where it stands does not
move when it fails; the readers that go rune by rune need `srch`. -/
def Reader.pegOk (srch : Bool) : Reader → Prop
  | .fold _ => False
  | .int _ _ _ => False
  | .uint _ _ _ => False
  | .janusBegin _ _ _ => False
  | .janusEnd _ _ => False
  | .wrap _ _ => False
  | .lit s => ∃ cs, s = encText cs
  | .any rs => ∀ r ∈ rs, r.keepsB = true
  | .opt c => c.keepsB = true
  | .zom c => c.keepsB = true
  | .many c => c.keepsB = true
  | .past c => c.keepsB = true ∧ srch = true
  | .to c => c.keepsB = true ∧ srch = true
  | .body _ t => t.keepsB = true ∧ srch = true
  | .bodyTail _ t => t.keepsB = true ∧ srch = true
  | .not _ => srch = true
  | _ => True

/-- The rules of a grammar do not move when they fail. -/
def Env.keeps (G : Env) : Prop := ∀ rl ∈ G, ∀ r, rl.reader = some r → r.keepsB = true

/-- With `srch` only texts without malformed bytes. -/
def Clean (srch : Bool) (xs : List Piece) : Prop := srch = true → ∃ cs : List Char, xs = cs.map (fun c => (enc c, (c.toNat : Int)))

theorem Clean.suffix {srch : Bool} {xs ys : List Piece} (h : Clean srch xs) (hy : ys <:+ xs) : Clean srch ys := fun hs => by
  obtain ⟨cs, rfl⟩ := h hs
  obtain ⟨zs, hz⟩ := hy
  obtain ⟨l1, l2, _, h2, h3⟩ := List.append_eq_map_iff.mp hz
  exact ⟨l2, h3.symm⟩

variable {P : Nat → Option (PExp Piece)} {srch : Bool}

/-- `f` does what the expression `e` says. -/
def EatsLike (P : Nat → Option (PExp Piece)) (srch : Bool) (e : PExp Piece) (keep : Prop) (f : EatFunc) : Prop :=
  ∀ st xs, Pieces st.rest xs → Clean srch xs → RetE (fun x : Bool × St => Fits P e st.rest xs keep x.1 x.2.rest) (f st)

theorem Fits.mono {e : PExp Piece} {t t' : Bytes} {xs : List Piece} {k k' : Prop} {ok : Bool} (h : Fits P e t xs k ok t') (hk : k' → k) :
    Fits P e t xs k' ok t' := by
  rcases h with h | ⟨h1, h2, h3⟩
  · exact .inl h
  · exact .inr ⟨h1, h2, fun h => h3 (hk h)⟩

theorem EatsLike.mono {e : PExp Piece} {k k' : Prop} {f : EatFunc} (h : EatsLike P srch e k f) (hk : k' → k) :
    EatsLike P srch e k' f := fun st xs h1 h2 => (h st xs h1 h2).mono fun _ _ h => h.mono hk

theorem Fits.orBack {e : PExp Piece} {t : Bytes} {xs : List Piece} {k : Prop} {x : Bool × St} (h : Fits P e t xs k x.1 x.2.rest) :
    Fits P e t xs True (orBack t x).1 (orBack t x).2.rest := by
  obtain ⟨ok, st⟩ := x
  cases ok
  · rcases h with ⟨h1, _⟩ | ⟨_, h2, _⟩
    · cases h1
    · exact .inr ⟨rfl, h2, fun _ => rfl⟩
  · rcases h with ⟨_, ys, h1⟩ | ⟨h2, _⟩
    · exact .inl ⟨rfl, ys, h1⟩
    · cases h2

theorem Fits.yes {e : PExp Piece} {t t' : Bytes} {xs : List Piece} {k : Prop} (h : Fits P e t xs k true t') :
    ∃ ys, Peg P e xs (some ys) ∧ Pieces t' ys := by
  rcases h with ⟨_, h⟩ | ⟨h, _⟩
  · exact h
  · cases h

theorem Fits.no {e : PExp Piece} {t t' : Bytes} {xs : List Piece} {k : Prop} (h : Fits P e t xs k false t') :
    Peg P e xs none ∧ (k → t' = t) := by
  rcases h with ⟨h, _⟩ | ⟨_, h⟩
  · cases h
  · exact h

theorem lift_like {e : PExp Piece} {f : Bytes → Bool × Bytes} (h : ∀ {t xs}, Pieces t xs → Fits P e t xs True (f t).1 (f t).2) :
    EatsLike P srch e True (lift f) := fun _ _ hp _ => .ret (h hp)

theorem eatAny_like {f : Reader → EatFunc} : ∀ (rs : List Reader) (_ : ∀ r ∈ rs, EatsLike P srch r.peg True (f r)),
    EatsLike P srch (choice (Reader.pegs rs)) True (eatAny f rs)
  | [], _, _, _, _, _ => .ret (.inr ⟨rfl, peg_fail, fun _ => rfl⟩)
  | r :: rs, h, st, xs, hp, hc => by
    refine (h r List.mem_cons_self st xs hp hc).bind fun a _ ha => ?_
    obtain ⟨ok, st'⟩ := a
    cases ok
    · obtain ⟨h1, h2⟩ := ha.no
      have h3 : st'.rest = st.rest := h2 trivial
      refine (eatAny_like rs (fun c hm => h c (List.mem_cons_of_mem _ hm)) st' xs (by rw [h3]; exact hp) hc).mono fun b _ hb => ?_
      rcases hb with ⟨h4, ys, h5, h6⟩ | ⟨h4, h5, h6⟩
      · exact .inl ⟨h4, ys, .altNo h1 h5, h6⟩
      · exact .inr ⟨h4, .altNo h1 h5, fun _ => (h6 trivial).trans h3⟩
    · obtain ⟨ys, h1, h2⟩ := ha.yes
      exact .ret (.inl ⟨rfl, ys, .alt h1, h2⟩)

theorem eatSeq_like {f : Reader → EatFunc} : ∀ (rs : List Reader) (_ : ∀ r ∈ rs, EatsLike P srch r.peg False (f r)),
    EatsLike P srch (chain (Reader.pegs rs)) False (eatSeq f rs)
  | [], _, _, xs, hp, _ => .ret (.inl ⟨rfl, xs, .eps, hp⟩)
  | r :: rs, h, st, xs, hp, hc => by
    refine (h r List.mem_cons_self st xs hp hc).bind fun a _ ha => ?_
    obtain ⟨ok, st'⟩ := a
    cases ok
    · exact .ret (.inr ⟨rfl, .seqNo ha.no.1, False.elim⟩)
    · obtain ⟨ys, h1, h2⟩ := ha.yes
      refine (eatSeq_like rs (fun c hm => h c (List.mem_cons_of_mem _ hm)) st' ys h2 (hc.suffix (h1.suffix rfl))).mono fun b _ hb => ?_
      rcases hb with ⟨h4, zs, h5, h6⟩ | ⟨h4, h5, h6⟩
      · exact .inl ⟨h4, zs, .seq h1 h5, h6⟩
      · exact .inr ⟨h4, .seq h1 h5, False.elim⟩

theorem eatSkip_like {f : Reader → EatFunc} {sk : Reader} (hk : EatsLike P srch sk.peg False (f sk)) :
    ∀ (rs : List Reader) (_ : ∀ r ∈ rs, EatsLike P srch r.peg False (f r)),
    EatsLike P srch (chain ((Reader.pegs rs).map fun e => .seq e sk.peg)) False (eatSkip f sk rs)
  | [], _, _, xs, hp, _ => .ret (.inl ⟨rfl, xs, .eps, hp⟩)
  | r :: rs, h, st, xs, hp, hc => by
    refine (h r List.mem_cons_self st xs hp hc).bind fun a _ ha => ?_
    obtain ⟨ok, st'⟩ := a
    cases ok
    · exact .ret (.inr ⟨rfl, .seqNo (.seqNo ha.no.1), False.elim⟩)
    · obtain ⟨ys, h1, h2⟩ := ha.yes
      have hc1 := hc.suffix (h1.suffix rfl)
      refine (hk st' ys h2 hc1).bind fun a _ ha => ?_
      obtain ⟨ok, st''⟩ := a
      cases ok
      · exact .ret (.inr ⟨rfl, .seqNo (.seq h1 ha.no.1), False.elim⟩)
      · obtain ⟨zs, h3, h4⟩ := ha.yes
        refine (eatSkip_like hk rs (fun c hm => h c (List.mem_cons_of_mem _ hm)) st'' zs h4 (hc1.suffix (h3.suffix rfl))).mono fun b _ hb => ?_
        rcases hb with ⟨h5, ws, h6, h7⟩ | ⟨h5, h6, h7⟩
        · exact .inl ⟨h5, ws, .seq (.seq h1 h3) h6, h7⟩
        · exact .inr ⟨h5, .seq (.seq h1 h3) h6, False.elim⟩

theorem eatTimes_like {f : EatFunc} {e : PExp Piece} (h : EatsLike P srch e False f) : ∀ k,
    EatsLike P srch (PExp.times e k) False (eatTimes f k)
  | 0, _, xs, hp, _ => .ret (.inl ⟨rfl, xs, .eps, hp⟩)
  | k + 1, st, xs, hp, hc => by
    refine (h st xs hp hc).bind fun a _ ha => ?_
    obtain ⟨ok, st'⟩ := a
    cases ok
    · exact .ret (.inr ⟨rfl, .seqNo ha.no.1, False.elim⟩)
    · obtain ⟨ys, h1, h2⟩ := ha.yes
      refine (eatTimes_like h k st' ys h2 (hc.suffix (h1.suffix rfl))).mono fun b _ hb => ?_
      rcases hb with ⟨h4, zs, h5, h6⟩ | ⟨h4, h5, h6⟩
      · exact .inl ⟨h4, zs, .seq h1 h5, h6⟩
      · exact .inr ⟨h4, .seq h1 h5, False.elim⟩

theorem eatZom_like {f : EatFunc} {e : PExp Piece} (h : EatsLike P srch e True f) : ∀ k st xs, Pieces st.rest xs → Clean srch xs →
    RetE (fun st' : St => ∃ ys, Peg P (.star e) xs (some ys) ∧ Pieces st'.rest ys) (eatZom f k st)
  | 0, _, _, _, _ => .timeout
  | k + 1, st, xs, hp, hc => by
    refine (h st xs hp hc).bind fun a _ ha => ?_
    obtain ⟨ok, st'⟩ := a
    cases ok
    · have h1 : st'.rest = st.rest := ha.no.2 trivial
      exact .ret ⟨xs, .starEnd ha.no.1, by rw [h1]; exact hp⟩
    · obtain ⟨ys, h1, h2⟩ := ha.yes
      refine (eatZom_like h k st' ys h2 (hc.suffix (h1.suffix rfl))).mono fun b _ hb => ?_
      obtain ⟨zs, h3, h4⟩ := hb
      exact ⟨zs, .star h1 h3, h4⟩

/-- A reader that succeeds without moving is repeated forever. -/
theorem eatZom_stuck {f : EatFunc} (hf : Agrees (fun _ => False) f) {st st1 : St} (h : f st = .ret (true, st1)) (hs : st1.rest = st.rest) :
    ∀ n st2, st2.rest = st.rest → ∀ x, eatZom f n st2 ≠ .ret x
  | 0, _, _, _ => fun h => by cases h
  | n + 1, st2, h2, x => by
    intro he
    unfold eatZom at he
    obtain ⟨⟨ok, st3⟩, h3, h4⟩ := (hf st st2 ⟨h2.symm, fun _ => False.elim⟩).left h
    rw [h3] at he
    obtain ⟨h5, h6⟩ := h4
    have h5' : ok = true := h5.symm
    subst h5'
    exact eatZom_stuck hf h hs n st3 (h6.1.symm.trans hs) x he

/-- Moving in a well-formed text. -/
theorem step_clean (hs : srch = true) {t : Bytes} {x : Piece} {xs : List Piece} (hp : Pieces t (x :: xs)) (hc : Clean srch (x :: xs)) :
    eatStep t = (true, t.drop x.1.length) ∧ Pieces (t.drop x.1.length) xs ∧ t = x.1 ++ t.drop x.1.length := by
  obtain ⟨b, r⟩ := x
  obtain ⟨h1, h2, t', h3, h4⟩ := pieces_cons_inv hp
  obtain ⟨cs, he⟩ := hc hs
  cases cs with
  | nil => cases he
  | cons c cs =>
    simp only [List.map_cons, List.cons.injEq, Prod.mk.injEq] at he
    obtain ⟨⟨hb, _⟩, _⟩ := he
    subst hb
    subst h3
    rw [eatStep_char]
    simp only [List.drop_left]
    exact ⟨trivial, h4, trivial⟩

theorem eatPast_like (hs : srch = true) {f : EatFunc} {e : PExp Piece} (h : EatsLike P srch e True f) : ∀ n,
    EatsLike P srch (.seq (until_ e) (.seq (amp dot) e)) False (eatPast f n)
  | 0, _, _, _, _ => .timeout
  | n + 1, st, xs, hp, hc => by
    unfold eatPast
    split
    · rename_i h0
      have : xs = [] := (pieces_nil_iff hp).mp h0
      subst this
      exact .ret (.inr ⟨rfl, .seq (.starEnd (.seqNo peg_some_nil)) (.seqNo peg_some_nil), False.elim⟩)
    · rename_i h0
      refine (h st xs hp hc).bind fun a _ ha => ?_
      cases xs with
      | nil => exact absurd ((pieces_nil_iff hp).mpr rfl) h0
      | cons x xs =>
        obtain ⟨ok, st'⟩ := a
        cases ok
        · obtain ⟨h1, h2⟩ := ha.no
          have h3 : st'.rest = st.rest := h2 trivial
          obtain ⟨h4, h5, h6⟩ := step_clean hs hp hc
          simp only
          rw [h3, h4]
          refine (eatPast_like hs h n _ xs h5 (hc.suffix (List.suffix_cons _ _))).mono fun b _ hb => ?_
          have key : ∀ res, Peg P (.seq (until_ e) (.seq (amp dot) e)) xs res →
              Peg P (.seq (until_ e) (.seq (amp dot) e)) (x :: xs) res := by
            intro res hr
            have hone : Peg P (.seq (amp dot) (.seq (.neg e) dot)) (x :: xs) (some xs) := .seq peg_some_cons (.seq (.neg h1) peg_dot_cons)
            cases hr with
            | seq h7 h8 => exact .seq (.star hone h7) h8
            | seqNo h7 => exact .seqNo (.star hone h7)
          rcases hb with ⟨h7, zs, h8, h9⟩ | ⟨h7, h8, h9⟩
          · exact .inl ⟨h7, zs, key _ h8, h9⟩
          · exact .inr ⟨h7, key _ h8, False.elim⟩
        · obtain ⟨ys, h1, h2⟩ := ha.yes
          exact .ret (.inl ⟨rfl, ys, .seq (.starEnd (.seq peg_some_cons (.seqNo (.negNo h1)))) (.seq peg_some_cons h1), h2⟩)

theorem eatTo_like (hs : srch = true) {f : EatFunc} {e : PExp Piece} (h : EatsLike P srch e True f) : ∀ n,
    EatsLike P srch (.seq (until_ e) (amp e)) False (eatTo f n)
  | 0, _, _, _, _ => .timeout
  | n + 1, st, xs, hp, hc => by
    unfold eatTo
    refine (h st xs hp hc).bind fun a _ ha => ?_
    obtain ⟨ok, st'⟩ := a
    cases ok
    · obtain ⟨h1, h2⟩ := ha.no
      have h3 : st'.rest = st.rest := h2 trivial
      simp only [Bool.false_eq_true, if_false]
      rw [h3]
      cases xs with
      | nil =>
        have : st.rest = [] := (pieces_nil_iff hp).mpr rfl
        rw [this, eatStep_nil]
        exact .ret (.inr ⟨rfl, .seq (.starEnd (.seqNo peg_some_nil)) (peg_ampNo h1), False.elim⟩)
      | cons x xs =>
        obtain ⟨h4, h5, h6⟩ := step_clean hs hp hc
        rw [h4]
        refine (eatTo_like hs h n _ xs h5 (hc.suffix (List.suffix_cons _ _))).mono fun b _ hb => ?_
        have key : ∀ res, Peg P (.seq (until_ e) (amp e)) xs res →
            Peg P (.seq (until_ e) (amp e)) (x :: xs) res := by
          intro res hr
          have hone : Peg P (.seq (amp dot) (.seq (.neg e) dot)) (x :: xs) (some xs) := .seq peg_some_cons (.seq (.neg h1) peg_dot_cons)
          cases hr with
          | seq h7 h8 => exact .seq (.star hone h7) h8
          | seqNo h7 => exact .seqNo (.star hone h7)
        rcases hb with ⟨h7, zs, h8, h9⟩ | ⟨h7, h8, h9⟩
        · exact .inl ⟨h7, zs, key _ h8, h9⟩
        · exact .inr ⟨h7, key _ h8, False.elim⟩
    · obtain ⟨ys, h1, h2⟩ := ha.yes
      refine .ret (.inl ⟨rfl, xs, .seq (.starEnd ?_) (peg_amp h1), hp⟩)
      cases xs with
      | nil => exact .seqNo peg_some_nil
      | cons x xs => exact .seq peg_some_cons (.seqNo (.negNo h1))

theorem pieces_chars {t : Bytes} {cs : List Char} (h : Pieces t (cs.map fun c => (enc c, (c.toNat : Int)))) : t = encText cs := by
  rw [← h.bytes]
  simp [bytesOf, encText, List.flatMap_map]

theorem eatBody_like (hs : srch = true) {b t : EatFunc} {eb et : PExp Piece} (hb : EatsLike P srch eb False b)
    (ht : EatsLike P srch et True t) {t0 : Bytes} : ∀ n st (ws : List Char) xs, t0 = encText ws ++ st.rest → Pieces st.rest xs → Clean srch xs →
    RetE (fun x : Option Bytes × St => (∃ rest, x.1 = some rest ∧ ∃ ys zs, Pieces rest ys ∧ Pieces x.2.rest zs ∧
        Peg P (.find eb et false (ws.map fun c => (enc c, (c.toNat : Int)))) xs (some ys) ∧
        Peg P (.find eb et true (ws.map fun c => (enc c, (c.toNat : Int)))) xs (some zs)) ∨
      (x.1 = none ∧ ∀ keep, Peg P (.find eb et keep (ws.map fun c => (enc c, (c.toNat : Int)))) xs none)) (eatBody b t t0 n st)
  | 0, _, _, _, _, _, _ => .timeout
  | n + 1, st, ws, xs, h0, hp, hc => by
    unfold eatBody
    split
    · rename_i hn
      have : xs = [] := (pieces_nil_iff hp).mp hn
      subst this
      exact .ret (.inr ⟨rfl, fun _ => .findEnd⟩)
    · rename_i hn
      cases xs with
      | nil => exact absurd ((pieces_nil_iff hp).mpr rfl) hn
      | cons x xs =>
        refine (ht st _ hp hc).bind fun a _ ha => ?_
        obtain ⟨ok, st'⟩ := a
        cases ok
        · obtain ⟨h1, h2⟩ := ha.no
          have h3 : st'.rest = st.rest := h2 trivial
          obtain ⟨h4, h5, h6⟩ := step_clean hs hp hc
          simp only [Bool.false_eq_true, if_false]
          rw [h3, h4]
          obtain ⟨cs, hcs⟩ := hc hs
          cases cs with
          | nil => cases hcs
          | cons c cs =>
            simp only [List.map_cons, List.cons.injEq] at hcs
            obtain ⟨hx, hxs⟩ := hcs
            refine (eatBody_like hs hb ht n _ (ws ++ [c]) xs ?_ h5 (hc.suffix (List.suffix_cons _ _))).mono fun y _ hy => ?_
            · rw [h0, encText_append, encText_singleton]
              simp only [List.append_assoc]
              rw [h6, hx]
              simp
            · simp only [List.map_append, List.map_cons, List.map_nil] at hy
              rw [← hx] at hy
              rcases hy with ⟨rest, h7, ys, zs, h8, h9, h10, h11⟩ | ⟨h7, h8⟩
              · exact .inl ⟨rest, h7, ys, zs, h8, h9, .findNext h1 h10, .findNext h1 h11⟩
              · exact .inr ⟨h7, fun keep => .findNext h1 (h8 keep)⟩
        · obtain ⟨zs, h1, h2⟩ := ha.yes
          have hw : Pieces (t0.take (t0.length - st.rest.length)) (ws.map fun c => (enc c, (c.toNat : Int))) := by
            rw [h0]
            simp only [List.length_append, Nat.add_sub_cancel, List.take_left']
            exact pieces_encText ws
          refine (hb ⟨_, st'.jan⟩ _ hw (fun _ => ⟨ws, rfl⟩)).bind fun a _ ha => ?_
          obtain ⟨ok, sub⟩ := a
          cases hok : (ok && sub.rest.isEmpty)
          · simp only [hok, Bool.false_eq_true, if_false]
            refine .ret (.inr ⟨rfl, fun keep => ?_⟩)
            cases ok
            · exact .findNo h1 ha.no.1 (by simp)
            · obtain ⟨us, h3, h4⟩ := ha.yes
              refine .findNo h1 h3 ?_
              intro hu
              simp only [Option.some.injEq] at hu
              rw [hu] at h4
              have hz : sub.rest = [] := (pieces_nil_iff h4).mpr rfl
              rw [hz] at hok
              cases hok
          · simp only [hok, if_true]
            simp only [Bool.and_eq_true, List.isEmpty_iff] at hok
            obtain ⟨hk1, hk2⟩ := hok
            subst hk1
            obtain ⟨us, h3, h4⟩ := ha.yes
            have hu : us = [] := (pieces_nil_iff h4).mp hk2
            subst hu
            exact .ret (.inl ⟨_, rfl, _, zs, hp, h2, .find (keep := false) h1 h3, .find (keep := true) h1 h3⟩)

theorem Reader.pegOk.janIn {r : Reader} (h : r.pegOk srch) : r.janIn (fun _ => False) := by
  cases r <;> first | exact h | trivial

theorem eat_like (rt : Rt) (G : Env) (hG : G.Every (Reader.pegOk srch)) (hK : G.keeps) : ∀ n r, r.Every (Reader.pegOk srch) →
    EatsLike G.peg srch r.peg (r.keepsB = true) (eat rt G n r)
  | 0, _, _, _, _, _, _ => .timeout
  | n + 1, r, hr, st, xs, hp, hc => by
    have ih := fun c hc => eat_like rt G hG hK n c hc
    have sub : ∀ c ∈ r.subs, EatsLike G.peg srch c.peg (c.keepsB = true) (eat rt G n c) := fun c hc => ih c (hr.sub hc)
    have one : ∀ c, r.subs = [c] → EatsLike G.peg srch c.peg (c.keepsB = true) (eat rt G n c) :=
      fun c hc => sub c (by rw [hc]; exact List.mem_cons_self)
    have here := hr.here
    cases r with
    | any rs =>
      exact (eatAny_like rs (fun c hc => (sub c hc).mono fun _ => here c hc) st xs hp hc).bind fun _ _ h => .ret (h.orBack.mono fun _ => trivial)
    | anyRune str => exact (lift_like (eatOne_cls (fun r => runeIn_iff_contains str r)) st xs hp hc).mono fun _ _ h => h.mono fun _ => trivial
    | at_ c =>
      refine (one c rfl st xs hp hc).bind fun a _ ha => ?_
      obtain ⟨ok, st'⟩ := a
      cases ok
      · exact .ret (.inr ⟨rfl, peg_ampNo ha.no.1, fun _ => rfl⟩)
      · obtain ⟨ys, h1, _⟩ := ha.yes
        exact .ret (.inl ⟨rfl, xs, peg_amp h1, hp⟩)
    | atEnd =>
      refine .ret ?_
      cases xs with
      | nil =>
        have : st.rest = [] := (pieces_nil_iff hp).mpr rfl
        exact .inl ⟨by rw [this]; rfl, [], peg_end_nil, hp⟩
      | cons x xs =>
        have : st.rest ≠ [] := fun h => by cases (pieces_nil_iff hp).mp h
        exact .inr ⟨by simp [this], peg_end_cons, fun _ => rfl⟩
    | between a b =>
      exact (lift_like (f := eatBetween a b) (fun h => eatOne_one (fun r => (inRange_iff a r b).symm) h) st xs hp hc).mono fun _ _ h => h.mono fun _ => trivial
    | betweenAny l x =>
      refine .ret ?_
      have h1 := eatRanges_one (P := G.peg) l hp
      have h2 := eatOne_cls (P := G.peg) (fun r => runeIn_iff_contains x r) hp
      show Fits _ _ _ _ _ (eatSet l x st.rest).1 (eatSet l x st.rest).2
      unfold eatSet
      split
      · rename_i hb
        rw [hb] at h1
        obtain ⟨ys, h3, h4⟩ := h1.yes
        exact .inl ⟨hb, ys, .alt h3, h4⟩
      · rename_i hb
        rw [Bool.not_eq_true] at hb
        rw [hb] at h1
        rcases h2 with ⟨h3, ys, h4, h5⟩ | ⟨h3, h4, h5⟩
        · exact .inl ⟨h3, ys, .altNo h1.no.1 h4, h5⟩
        · exact .inr ⟨h3, .altNo h1.no.1 h4, fun _ => h5 trivial⟩
    | body b t =>
      refine (eatBody_like here.2 ((sub b (by simp [Reader.subs])).mono False.elim) ((sub t (by simp [Reader.subs])).mono fun _ => here.1)
        (t0 := st.rest) n st [] xs (by simp [encText]) hp hc).bind fun a _ ha => ?_
      obtain ⟨res, st'⟩ := a
      rcases ha with ⟨rest, h7, ys, zs, h8, h9, h10, h11⟩ | ⟨h7, h8⟩
      · simp only at h7
        subst h7
        exact .ret (.inl ⟨rfl, ys, h10, h8⟩)
      · simp only at h7
        subst h7
        exact .ret (.inr ⟨rfl, h8 false, fun _ => rfl⟩)
    | bodyTail b t =>
      refine (eatBody_like here.2 ((sub b (by simp [Reader.subs])).mono False.elim) ((sub t (by simp [Reader.subs])).mono fun _ => here.1)
        (t0 := st.rest) n st [] xs (by simp [encText]) hp hc).bind fun a _ ha => ?_
      obtain ⟨res, st'⟩ := a
      rcases ha with ⟨rest, h7, ys, zs, h8, h9, h10, h11⟩ | ⟨h7, h8⟩
      · simp only at h7
        subst h7
        exact .ret (.inl ⟨rfl, zs, h11, h9⟩)
      · simp only at h7
        subst h7
        exact .ret (.inr ⟨rfl, h8 true, fun _ => rfl⟩)
    | bool c f =>
      refine .ret ?_
      show Fits _ _ _ _ _ (eatBool f st.rest).1 (eatBool f st.rest).2
      rw [eatBool_eq]
      exact (eatLits_lits (boolLits f) (boolLits_valid f) hp).mono fun _ => trivial
    | fold v => exact here.elim
    | holey a b c =>
      refine (lift_like (eatOne_cls ?_) st xs hp hc).mono fun _ _ h => h.mono fun _ => trivial
      intro r
      simp only [Bool.and_eq_true, inRange_iff, Bool.not_eq_true', runeIn_iff_contains, Bool.not_eq_true]
    | int a b c => exact here.elim
    | janusBegin id nm c => exact here.elim
    | janusEnd id nm => exact here.elim
    | invalid e => exact .ret (.inr ⟨rfl, peg_fail, fun _ => rfl⟩)
    | lit x =>
      obtain ⟨cs, rfl⟩ := here
      exact (lift_like (fun h => eatLit_lit cs h) st xs hp hc).mono fun _ _ h => h.mono fun _ => trivial
    | many c =>
      have hl : EatsLike G.peg srch c.peg True (eat rt G n c) := (one c rfl).mono fun _ => here
      have hag : Agrees (fun _ => False) (eat rt G n c) :=
        eat_agrees rt G (hG.imp fun _ h => h.janIn) n c ((hr.sub (by simp [Reader.subs])).imp fun _ h => h.janIn)
      intro x hx
      simp only [eat, Exec.pure_eq] at hx
      obtain ⟨st', h1, h2⟩ := Exec.bind_eq_ret.mp hx
      cases h2
      obtain ⟨m, rfl⟩ : ∃ m, n = m + 1 := by
        cases n with
        | zero => cases h1
        | succ m => exact ⟨m, rfl⟩
      unfold eatZom at h1
      obtain ⟨⟨ok, st1⟩, h3, h4⟩ := Exec.bind_eq_ret.mp h1
      have h5 := hl st xs hp hc _ h3
      cases ok
      · cases h4
        have h6 : st'.rest = st.rest := h5.no.2 trivial
        refine .inr ⟨?_, .seqNo h5.no.1, fun _ => h6⟩
        rw [h6]; simp
      · obtain ⟨ys, h6, h7⟩ := h5.yes
        have h8 := eatZom_like hl m st1 ys h7 (hc.suffix (h6.suffix rfl)) _ h4
        obtain ⟨zs, h9, h10⟩ := h8
        have hsh := eat_shrinks rt G (m + 1) c st _ h3
        have hsh' := eatZom_shrinks (eat_shrinks rt G (m + 1) c) m st1 _ h4
        have hlt : st1.rest.length < st.rest.length := by
          refine Nat.lt_of_le_of_ne hsh.length_le fun he => ?_
          exact eatZom_stuck hag h3 (hsh.eq_of_length he) m st1 (hsh.eq_of_length he) _ h4
        refine .inl ⟨?_, zs, .seq h6 h9, h10⟩
        have := hsh'.length_le
        simp only [decide_eq_true_eq]
        omega
    | map f c => exact (one c rfl st xs hp hc).bind fun _ _ h => .ret (h.orBack.mono fun _ => trivial)
    | match_ w f => exact (lift_like (f := eatMatch f) (fun h => eatOne_one (fun _ => Iff.rfl) h) st xs hp hc).mono fun _ _ h => h.mono fun _ => trivial
    | named nm c => exact one c rfl st xs hp hc
    | not c =>
      refine (one c rfl st xs hp hc).bind fun a _ ha => ?_
      obtain ⟨ok, st'⟩ := a
      cases ok
      · have h1 := ha.no.1
        simp only [Bool.false_eq_true, if_false]
        cases xs with
        | nil =>
          have : st.rest = [] := (pieces_nil_iff hp).mpr rfl
          rw [this, eatStep_nil]
          exact .ret (.inl ⟨rfl, [], .seq (.neg h1) (.altNo peg_dot_nil .eps), .nil⟩)
        | cons x xs =>
          obtain ⟨h4, h5, h6⟩ := step_clean here hp hc
          rw [h4]
          exact .ret (.inl ⟨rfl, xs, .seq (.neg h1) (.alt peg_dot_cons), h5⟩)
      · obtain ⟨ys, h1, _⟩ := ha.yes
        exact .ret (.inr ⟨rfl, .seqNo (.negNo h1), fun _ => rfl⟩)
    | opt c =>
      refine (one c rfl st xs hp hc).bind fun a _ ha => ?_
      obtain ⟨ok, st'⟩ := a
      cases ok
      · have h1 : st'.rest = st.rest := ha.no.2 here
        exact .ret (.inl ⟨rfl, xs, .altNo ha.no.1 .eps, by rw [h1]; exact hp⟩)
      · obtain ⟨ys, h1, h2⟩ := ha.yes
        exact .ret (.inl ⟨rfl, ys, .alt h1, h2⟩)
    | past c => exact (eatPast_like here.2 ((one c rfl).mono fun _ => here.1) n st xs hp hc).bind fun _ _ h => .ret (h.orBack.mono fun _ => trivial)
    | rune c => exact (lift_like (eatOne_cls (fun r => by simp)) st xs hp hc).mono fun _ _ h => h.mono fun _ => trivial
    | seq rs => exact (eatSeq_like rs (fun c hc => (sub c hc).mono False.elim) st xs hp hc).bind fun _ _ h => .ret (h.orBack.mono fun _ => trivial)
    | skipSeq sk rs =>
      refine (sub sk (by simp [Reader.subs]) st xs hp hc).bind fun a _ ha => ?_
      obtain ⟨ok, st'⟩ := a
      cases ok
      · exact .ret (.inr ⟨rfl, .seqNo ha.no.1, fun _ => rfl⟩)
      · obtain ⟨ys, h1, h2⟩ := ha.yes
        refine (eatSkip_like ((sub sk (by simp [Reader.subs])).mono False.elim) rs
          (fun c hc => (sub c (by simp [Reader.subs, hc])).mono False.elim) st' ys h2 (hc.suffix (h1.suffix rfl))).bind fun b _ hb => .ret ?_
        have : Fits G.peg (Reader.skipSeq sk rs).peg st.rest xs False b.1 b.2.rest := by
          rcases hb with ⟨h5, ws, h6, h7⟩ | ⟨h5, h6, h7⟩
          · exact .inl ⟨h5, ws, .seq h1 h6, h7⟩
          · exact .inr ⟨h5, .seq h1 h6, False.elim⟩
        exact this.orBack.mono fun _ => trivial
    | times k c =>
      refine (eatTimes_like ((one c rfl).mono False.elim) k.toNat st xs hp hc).mono fun x hx h => ?_
      rcases h with h | ⟨h1, h2, _⟩
      · exact .inl h
      · refine .inr ⟨h1, h2, fun hk => ?_⟩
        simp only [Reader.keepsB, Bool.or_eq_true, decide_eq_true_eq, Bool.and_eq_true] at hk
        rcases hk with hk | ⟨hk, hk'⟩
        · have : k.toNat = 0 := by omega
          simp only [eat, this, eatTimes] at hx
          cases hx
          cases h1
        · have : k.toNat = 1 := by omega
          simp only [eat, this, eatTimes] at hx
          obtain ⟨⟨ok, st1⟩, h3, h4⟩ := Exec.bind_eq_ret.mp hx
          have h5 := one c rfl st xs hp hc _ h3
          cases ok
          · cases h4
            exact h5.no.2 hk'
          · cases h4
            cases h1
    | «to» c => exact (eatTo_like here.2 ((one c rfl).mono fun _ => here.1) n st xs hp hc).bind fun _ _ h => .ret (h.orBack.mono fun _ => trivial)
    | uint a b c => exact here.elim
    | wrap w f => exact here.elim
    | zom c =>
      refine (eatZom_like ((one c rfl).mono fun _ => here) n st xs hp hc).bind fun a _ ha => ?_
      obtain ⟨ys, h1, h2⟩ := ha
      exact .ret (.inl ⟨rfl, ys, h1, h2⟩)
    | pick i b c => exact (one c rfl st xs hp hc).bind fun _ _ h => .ret (h.orBack.mono fun _ => trivial)
    | monitor i l c => exact one c rfl st xs hp hc
    | rule i =>
      simp only [eat]
      rcases hi : G[i]? with _ | ⟨nm, _ | c⟩
      · exact .panic
      · exact .panic
      · refine (ih c (hG.get hi) st xs hp hc).mono fun x _ h => ?_
        have hk : c.keepsB = true := hK _ (List.mem_of_getElem? hi) c rfl
        have hP : G.peg i = some c.peg := by simp [Env.peg, hi]
        rcases h with ⟨h1, ys, h2, h3⟩ | ⟨h1, h2, h3⟩
        · exact .inl ⟨h1, ys, .nt hP h2, h3⟩
        · exact .inr ⟨h1, .nt hP h2, fun _ => h3 hk⟩
    | ruleName c => exact one c rfl st xs hp hc
    | grammar w c => exact one c rfl st xs hp hc

end Tok
