/-
Reading while others change the memory.
-/
import Verif.Model.Disturb
import Verif.Proofs.Memory
import Verif.Proofs.Basket

namespace Tok
open Spec

/-- Related scanners stay related when one step is taken. -/
structure Lockstep (R : Scanner → Scanner → Prop) : Prop where
  moving : Pacing R
  heap : ∀ {s t s' t'}, R s t → R s' t' → R { s with heap := s'.heap } { t with heap := t'.heap }
  new : ∀ {s t}, R s t → ∀ str, R (.new str s.heap) (.new str t.heap)

/-- Both reads return the same and leave related scanners. -/
def Abreast (R : Scanner → Scanner → Prop) (f g : ReadFunc) : Prop := ∀ s t, R s t → RelE (Thru R) (f s) (g t)

section
variable {R : Scanner → Scanner → Prop} (hR : Lockstep R)
include hR

theorem abreast_any {rd rd' : Reader → ReadFunc} : ∀ (rs : List Reader), (∀ r ∈ rs, Abreast R (rd r) (rd' r)) → ∀ es s t, R s t →
    RelE (Thru (R)) (anyLoop rd rs es s) (anyLoop rd' rs es t)
  | [], _, _, _, _, h => .ret ⟨rfl, h⟩
  | r :: rs, hr, es, s, t, h => (hr r List.mem_cons_self s t h).bind fun a b _ _ hab => by
    obtain ⟨e, s⟩ := a
    obtain ⟨e', t⟩ := b
    obtain ⟨h1, h2⟩ := hab
    cases h1
    cases e with
    | none => exact .ret ⟨rfl, h2⟩
    | some e => exact abreast_any rs (fun r hr' => hr r (List.mem_cons_of_mem _ hr')) _ s t h2

theorem abreast_seq {rd rd' : Reader → ReadFunc} : ∀ (rs : List Reader), (∀ r ∈ rs, Abreast R (rd r) (rd' r)) → Abreast R (seqLoop rd rs) (seqLoop rd' rs)
  | [], _, _, _, h => .ret ⟨rfl, h⟩
  | r :: rs, hr, s, t, h => (hr r List.mem_cons_self s t h).bind fun a b _ _ hab => by
    obtain ⟨e, s⟩ := a
    obtain ⟨e', t⟩ := b
    obtain ⟨h1, h2⟩ := hab
    cases h1
    cases e with
    | some e => exact .ret ⟨rfl, h2⟩
    | none => exact abreast_seq rs (fun r hr' => hr r (List.mem_cons_of_mem _ hr')) s t h2

theorem abreast_skip {rd rd' : Reader → ReadFunc} {sk : Reader} (hk : Abreast R (rd sk) (rd' sk)) : ∀ (rs : List Reader), (∀ r ∈ rs, Abreast R (rd r) (rd' r)) →
    Abreast R (skipSeqLoop rd sk rs) (skipSeqLoop rd' sk rs)
  | [], _, _, _, h => .ret ⟨rfl, h⟩
  | r :: rs, hr, s, t, h => (hr r List.mem_cons_self s t h).bind fun a b _ _ hab => by
    obtain ⟨e, s⟩ := a
    obtain ⟨e', t⟩ := b
    obtain ⟨h1, h2⟩ := hab
    cases h1
    cases e with
    | some e => exact .ret ⟨rfl, h2⟩
    | none =>
      refine (hk s t h2).bind fun a b _ _ hab => ?_
      obtain ⟨e, s⟩ := a
      obtain ⟨e', t⟩ := b
      obtain ⟨h1, h2⟩ := hab
      cases h1
      cases e with
      | some e => exact .ret ⟨rfl, h2⟩
      | none => exact abreast_skip hk rs (fun r hr' => hr r (List.mem_cons_of_mem _ hr')) s t h2

theorem abreast_times {f g : ReadFunc} (h : Abreast R f g) : ∀ k, Abreast R (timesLoop f k) (timesLoop g k)
  | 0, _, _, hst => .ret ⟨rfl, hst⟩
  | k + 1, s, t, hst => (h s t hst).bind fun a b _ _ hab => by
    obtain ⟨e, s⟩ := a
    obtain ⟨e', t⟩ := b
    obtain ⟨h1, h2⟩ := hab
    cases h1
    cases e with
    | some e => exact .ret ⟨rfl, h2⟩
    | none => exact abreast_times h k s t h2

theorem abreast_zom {f g : ReadFunc} (h : Abreast R f g) : ∀ n s t, R s t → RelE (R) (zomLoop f n s) (zomLoop g n t)
  | 0, _, _, _ => .timeout
  | n + 1, s, t, hst => (h s t hst).bind fun a b _ _ hab => by
    obtain ⟨e, s⟩ := a
    obtain ⟨e', t⟩ := b
    obtain ⟨h1, h2⟩ := hab
    cases h1
    cases e with
    | some e => exact .ret h2
    | none => exact abreast_zom h n s t h2

theorem abreast_past {f g : ReadFunc} (h : Abreast R f g) : ∀ n s t, R s t → RelE (Thru (R)) (pastLoop f n s) (pastLoop g n t)
  | 0, _, _, _ => .timeout
  | n + 1, s, t, hst => by
    unfold pastLoop
    rw [hR.moving.atEnd hst]
    split
    · exact .ret ⟨rfl, hst⟩
    · refine (h s t hst).bind fun a b _ _ hab => ?_
      obtain ⟨e, s⟩ := a
      obtain ⟨e', t⟩ := b
      obtain ⟨h1, h2⟩ := hab
      cases h1
      cases e with
      | none => exact .ret ⟨rfl, h2⟩
      | some e => exact (hR.moving.moveRunes h2).bind fun a b _ _ hab => abreast_past h n a.2 b.2 hab.2

theorem abreast_to {f g : ReadFunc} (h : Abreast R f g) : ∀ n s t, R s t → RelE (Thru (R)) (toLoop f n s) (toLoop g n t)
  | 0, _, _, _ => .timeout
  | n + 1, s, t, hst => by
    unfold toLoop
    simp only [hR.moving.mark hst]
    refine (h s t hst).bind fun a b _ _ hab => ?_
    obtain ⟨e, s'⟩ := a
    obtain ⟨e', t'⟩ := b
    obtain ⟨h1, h2⟩ := hab
    cases h1
    cases e with
    | none => exact .ret ⟨rfl, hR.moving.toMarker h2 _⟩
    | some e =>
      refine (hR.moving.moveRunes h2).bind fun a b _ _ hab => ?_
      obtain ⟨ok, s'⟩ := a
      obtain ⟨ok', t'⟩ := b
      obtain ⟨h1, h2⟩ := hab
      cases h1
      cases ok with
      | true => exact abreast_to h n s' t' h2
      | false => exact .ret ⟨rfl, h2⟩

theorem abreast_use {f g : ReadFunc} (h : Abreast R f g) {s t : Scanner} (hst : R s t) : RelE (Thru (R)) (s.use f) (t.use g) := by
  unfold Scanner.use
  simp only [hR.moving.mark hst]
  refine (h s t hst).bind fun a b _ _ hab => ?_
  obtain ⟨e, s'⟩ := a
  obtain ⟨e', t'⟩ := b
  obtain ⟨h1, h2⟩ := hab
  cases h1
  cases e with
  | none => exact .ret ⟨rfl, h2⟩
  | some e => exact .ret ⟨rfl, hR.moving.toMarker h2 _⟩

theorem abreast_body {f g f' g' : ReadFunc} (hf : Abreast R f f') (hg : Abreast R g g') (m : Int) : ∀ n s t, R s t →
    RelE (Thru (R)) (bodyLoop f g m n s) (bodyLoop f' g' m n t)
  | 0, _, _, _ => .timeout
  | n + 1, s, t, hst => by
    unfold bodyLoop
    rw [hR.moving.atEnd hst]
    simp only [hR.moving.mark hst]
    split
    · exact .ret ⟨rfl, hst⟩
    · refine (hg s t hst).bind fun a b _ _ hab => ?_
      obtain ⟨e, s'⟩ := a
      obtain ⟨e', t'⟩ := b
      obtain ⟨h1, h2⟩ := hab
      cases h1
      cases e with
      | some e => exact (hR.moving.moveRunes h2).bind fun a b _ _ hab => abreast_body hf hg m n a.2 b.2 hab.2
      | none =>
        refine (hR.moving.getE h2 _).bind fun x y _ _ hxy => ?_
        subst hxy
        refine (abreast_use hR hf (hR.new h2 y)).bind fun a b _ _ hab => ?_
        obtain ⟨e, u⟩ := a
        obtain ⟨e', v⟩ := b
        obtain ⟨h3, h4⟩ := hab
        cases h3
        simp only [hR.moving.atEnd h4]
        split
        · exact .ret ⟨rfl, hR.heap h2 h4⟩
        · exact .ret ⟨rfl, hR.heap h2 h4⟩

theorem abreast_token {f g : ReadFunc} (h : Abreast R f g) {s t : Scanner} (hst : R s t) : RelE (Thru R) (s.tokenizeUse f) (t.tokenizeUse g) := by
  unfold Scanner.tokenizeUse
  simp only [hR.moving.mark hst]
  refine (h s t hst).bind fun a b _ _ hab => ?_
  obtain ⟨e, s'⟩ := a
  obtain ⟨e', t'⟩ := b
  obtain ⟨h1, h2⟩ := hab
  cases h1
  cases e with
  | none => exact .ret ⟨by simp only [Option.isSome_none, Bool.false_eq_true, if_false, hR.moving.mark h2], h2⟩
  | some e =>
    have h4 := hR.moving.toMarker h2 s.mark
    exact .ret ⟨by simp only [Option.isSome_some, if_true, hR.moving.mark h4], h4⟩

end

/-- What belongs to a client: strings of Janus pairs, baskets, trackers, logs, values and map functions. -/
structure Own where
  janus : Nat → Bool
  baskets : Nat → Bool
  tracks : Nat → Bool
  logs : Nat → Bool
  cells : Nat → Bool
  maps : Nat → Bool

/-- The two memories agree on what belongs to the client. -/
structure Own.Agree (O : Own) (h k : Heap) : Prop where
  janus : ∀ i, O.janus i = true → k.janus i = h.janus i
  baskets : ∀ i, O.baskets i = true → k.baskets i = h.baskets i
  tracks : ∀ i, O.tracks i = true → k.tracks i = h.tracks i
  logs : ∀ i, O.logs i = true → k.logs i = h.logs i
  cells : ∀ i, O.cells i = true → k.cells i = h.cells i
  maps : k.maps.filter (fun e => O.maps e.1) = h.maps.filter (fun e => O.maps e.1)

/-- The same scanner with two such memories. -/
structure Own.Like (O : Own) (s t : Scanner) : Prop extends O.Agree s.heap t.heap where
  full : t.full = s.full
  pos : t.pos = s.pos
  tracker : t.tracker = s.tracker

theorem agree_upd {α : Type} {o : Nat → Bool} {f g : Nat → α} (h : ∀ i, o i = true → g i = f i) (k : Nat) (F : α → α) :
    ∀ i, o i = true → upd g k (F (g k)) i = upd f k (F (f k)) i := by
  intro i hi
  simp only [upd]
  split
  · rename_i e; rw [h k (e ▸ hi)]
  · exact h i hi

namespace Own
variable {O : Own}

theorem Agree.refl (h : Heap) : O.Agree h h := ⟨fun _ _ => rfl, fun _ _ => rfl, fun _ _ => rfl, fun _ _ => rfl, fun _ _ => rfl, rfl⟩

theorem Agree.trans {h k l : Heap} (a : O.Agree h k) (b : O.Agree k l) : O.Agree h l :=
  ⟨fun i e => (b.janus i e).trans (a.janus i e), fun i e => (b.baskets i e).trans (a.baskets i e), fun i e => (b.tracks i e).trans (a.tracks i e),
    fun i e => (b.logs i e).trans (a.logs i e), fun i e => (b.cells i e).trans (a.cells i e), b.maps.trans a.maps⟩

theorem Like.move_at {s t : Scanner} (h : O.Like s t) (m : Int) : O.Like (s.at m) (t.at m) := by
  obtain ⟨f, p, tr, hp⟩ := s
  obtain ⟨f', p', tr', hp'⟩ := t
  obtain ⟨⟨h1, h2, h3, h4, h5, h6⟩, h7, h8, h9⟩ := h
  cases h9
  rcases tr with _ | ⟨b⟩ | ⟨c⟩
  · exact ⟨⟨h1, h2, h3, h4, h5, h6⟩, h7, rfl, rfl⟩
  · exact ⟨⟨h1, agree_upd h2 b _, h3, h4, h5, h6⟩, h7, rfl, rfl⟩
  · exact ⟨⟨h1, h2, agree_upd h3 c (fun x => x ++ [m]), h4, h5, h6⟩, h7, rfl, rfl⟩

theorem moving (O : Own) : Moving O.Like where
  full h := h.full
  pos h := h.pos
  at_ h m := h.move_at m
  setCell h c v := ⟨⟨h.janus, h.baskets, h.tracks, h.logs, agree_upd h.cells c (fun _ => v), h.maps⟩, h.full, h.pos, h.tracker⟩

theorem near (O : Own) : Lockstep O.Like where
  moving := O.moving.toPacing
  heap h h' := ⟨h'.toAgree, h.full, h.pos, h.tracker⟩
  new h str := ⟨h.toAgree, rfl, rfl, rfl⟩

end Own

/-- The Janus pairs are the client's, and functions of `Wrap` do not depend on what others do. -/
def Reader.minds (O : Own) : Reader → Prop
  | .janusEnd id _ => O.janus id = true
  | .wrap _ f => Abreast O.Like f f
  | _ => True

/-- One step. -/
theorem step_like {O : Own} (rt : Rt) (G : Env) {rd rd' : Reader → ReadFunc} (n : Nat) {r : Reader} (hr : r.minds O) (sub : ∀ c ∈ r.subs, Abreast O.Like (rd c) (rd' c))
    (hG : ∀ (i : Nat) (nm : Bytes) (c : Reader), G[i]? = some ⟨nm, some c⟩ → Abreast O.Like (rd c) (rd' c)) : Abreast O.Like (readStep rt G rd n r) (readStep rt G rd' n r) := by
  intro s t hst
  have hN := O.near
  have hB := hN.moving
  have hm := hB.mark hst
  by_cases hl : r.leaf = true
  · cases hj : r.isJanusEnd with
    | false =>
      have e1 : ∀ rd s, readStep rt G rd n r s = read rt G (n + 1) r s := by
        intro rd s
        cases r <;> first | rfl | simp [Reader.leaf] at hl
      rw [e1, e1]
      exact O.moving.leaf' hst rt G G n n hl hj
    | true =>
      match r, hj with
      | .janusEnd id nm, _ =>
        simp only [readStep]
        rw [hst.janus id hr]
        refine (hB.ifFalse _ (hB.ifStr hst _)).bind fun a b _ _ h => ?_
        obtain ⟨e, s'⟩ := a
        obtain ⟨e', t'⟩ := b
        obtain ⟨he, h⟩ := h
        cases he
        cases e with
        | none => exact .ret ⟨rfl, ⟨agree_upd h.janus id (fun _ => []), h.baskets, h.tracks, h.logs, h.cells, h.maps⟩, h.full, h.pos, h.tracker⟩
        | some e => exact .ret ⟨rfl, h⟩
  cases r with
  | any rs =>
    simp only [readStep, hm]
    refine (abreast_any hN rs (fun c hc => sub c hc) [] s t hst).bind fun a b _ _ hab => ?_
    obtain ⟨e, s'⟩ := a
    obtain ⟨e', t'⟩ := b
    obtain ⟨h1, h2⟩ := hab
    cases h1
    cases e with
    | none => exact .ret ⟨rfl, h2⟩
    | some es => exact .ret ⟨rfl, hB.toMarker h2 _⟩
  | at_ c =>
    simp only [readStep, hm]
    exact (sub c (by simp [Reader.subs]) s t hst).bind fun a b _ _ hab => .ret ⟨hab.1, hB.toMarker hab.2 _⟩
  | body b c =>
    simp only [readStep, hm]
    refine (abreast_body hN (sub b (by simp [Reader.subs])) (sub c (by simp [Reader.subs])) _ n s t hst).bind fun x y _ _ hab => ?_
    obtain ⟨e, s'⟩ := x
    obtain ⟨e', t'⟩ := y
    obtain ⟨h1, h2⟩ := hab
    cases h1
    cases e with
    | none =>
      have h3 := hB.toMarker h2 s.mark
      exact .ret ⟨by rw [hB.errorFor h3], h3⟩
    | some k => exact .ret ⟨rfl, hB.toMarker h2 _⟩
  | bodyTail b c =>
    simp only [readStep, hm]
    refine (abreast_body hN (sub b (by simp [Reader.subs])) (sub c (by simp [Reader.subs])) _ n s t hst).bind fun x y _ _ hab => ?_
    obtain ⟨e, s'⟩ := x
    obtain ⟨e', t'⟩ := y
    obtain ⟨h1, h2⟩ := hab
    cases h1
    cases e with
    | none =>
      have h3 := hB.toMarker h2 s.mark
      exact .ret ⟨by rw [hB.errorFor h3], h3⟩
    | some k => exact .ret ⟨rfl, h2⟩
  | janusBegin i nm c =>
    simp only [readStep]
    refine (abreast_token hN (sub c (by simp [Reader.subs])) hst).bind fun a b _ _ hab => ?_
    obtain ⟨⟨k, e⟩, s'⟩ := a
    obtain ⟨⟨k', e'⟩, t'⟩ := b
    obtain ⟨h1, h2⟩ := hab
    cases h1
    cases e with
    | none =>
      refine (hB.getE h2 _).bind fun a b _ _ hab => ?_
      subst hab
      exact .ret ⟨rfl, ⟨agree_upd h2.janus i (fun _ => _), h2.baskets, h2.tracks, h2.logs, h2.cells, h2.maps⟩, h2.full, h2.pos, h2.tracker⟩
    | some e => exact .ret ⟨rfl, h2⟩
  | many c =>
    simp only [readStep, hm]
    refine (abreast_zom hN (sub c (by simp [Reader.subs])) n s t hst).bind fun a b _ _ hab => .ret ⟨?_, hab⟩
    simp only [hB.errorIfFalse hab, hB.mark hab]
  | map f c =>
    simp only [readStep]
    refine (abreast_token hN (sub c (by simp [Reader.subs])) hst).bind fun a b _ _ hab => ?_
    obtain ⟨⟨k, e⟩, s'⟩ := a
    obtain ⟨⟨k', e'⟩, t'⟩ := b
    obtain ⟨h1, h2⟩ := hab
    cases h1
    cases e with
    | none =>
      refine .ret ⟨rfl, ⟨h2.janus, h2.baskets, h2.tracks, h2.logs, h2.cells, ?_⟩, h2.full, h2.pos, h2.tracker⟩
      have := h2.maps
      simp only [List.filter_append, this]
    | some e => exact .ret ⟨rfl, h2⟩
  | pick i bk c =>
    simp only [readStep]
    refine (abreast_token hN (sub c (by simp [Reader.subs])) hst).bind fun a b _ _ hab => ?_
    obtain ⟨⟨k, e⟩, s'⟩ := a
    obtain ⟨⟨k', e'⟩, t'⟩ := b
    obtain ⟨h1, h2⟩ := hab
    cases h1
    cases e with
    | none => exact .ret ⟨rfl, ⟨h2.janus, agree_upd h2.baskets bk (fun x => x ++ [⟨i, k⟩]), h2.tracks, h2.logs, h2.cells, h2.maps⟩, h2.full, h2.pos, h2.tracker⟩
    | some e => exact .ret ⟨rfl, h2⟩
  | monitor i l c =>
    simp only [readStep]
    have h0 : O.Like (s.enterLog rt i l) (t.enterLog rt i l) := by
      refine ⟨⟨hst.janus, hst.baskets, hst.tracks, ?_, hst.cells, hst.maps⟩, hst.full, hst.pos, hst.tracker⟩
      unfold Scanner.enterLog
      rw [hst.pos]
      exact agree_upd hst.logs l (fun x => (x.enter rt i s.pos).2)
    refine (sub c (by simp [Reader.subs]) (s.enterLog rt i l) (t.enterLog rt i l) h0).bind fun a b _ _ hab => ?_
    obtain ⟨e, s'⟩ := a
    obtain ⟨e', t'⟩ := b
    obtain ⟨h1, h2⟩ := hab
    cases h1
    refine .ret ⟨rfl, ⟨h2.janus, h2.baskets, h2.tracks, ?_, h2.cells, h2.maps⟩, h2.full, h2.pos, h2.tracker⟩
    intro k hk
    simp only [upd]
    split
    · rename_i e1
      subst e1
      have h4 := h2.logs k hk
      have h5 : t'.pos = s'.pos := h2.pos
      simp only at h4
      simp only [h4, h5, hst.logs k hk, hst.pos]
    · exact h2.logs k hk
  | named w c => exact sub c (by simp [Reader.subs]) s t hst
  | not c =>
    simp only [readStep, hm]
    refine (sub c (by simp [Reader.subs]) s t hst).bind fun a b _ _ hab => ?_
    obtain ⟨e, s'⟩ := a
    obtain ⟨e', t'⟩ := b
    obtain ⟨h1, h2⟩ := hab
    cases h1
    have h4 := hB.toMarker h2 s.mark
    cases e with
    | none => exact .ret ⟨by rw [hB.errorFor h4], h4⟩
    | some e => exact (hB.moveRunes h4).bind fun a b _ _ hab => .ret ⟨rfl, hab.2⟩
  | opt c =>
    simp only [readStep]
    exact (sub c (by simp [Reader.subs]) s t hst).bind fun a b _ _ hab => .ret ⟨rfl, hab.2⟩
  | past c =>
    simp only [readStep, hm]
    refine (abreast_past hN (sub c (by simp [Reader.subs])) n s t hst).bind fun a b _ _ hab => ?_
    obtain ⟨e, s'⟩ := a
    obtain ⟨e', t'⟩ := b
    obtain ⟨h1, h2⟩ := hab
    cases h1
    cases e with
    | false =>
      have h3 := hB.toMarker h2 s.mark
      exact .ret ⟨by rw [hB.errorFor h3], h3⟩
    | true => exact .ret ⟨rfl, h2⟩
  | «to» c =>
    simp only [readStep, hm]
    refine (abreast_to hN (sub c (by simp [Reader.subs])) n s t hst).bind fun a b _ _ hab => ?_
    obtain ⟨e, s'⟩ := a
    obtain ⟨e', t'⟩ := b
    obtain ⟨h1, h2⟩ := hab
    cases h1
    cases e with
    | false =>
      have h3 := hB.toMarker h2 s.mark
      exact .ret ⟨by rw [hB.errorFor h3], h3⟩
    | true => exact .ret ⟨rfl, h2⟩
  | seq rs =>
    simp only [readStep, hm]
    refine (abreast_seq hN rs (fun c hc => sub c hc) s t hst).bind fun a b _ _ hab => ?_
    obtain ⟨e, s'⟩ := a
    obtain ⟨e', t'⟩ := b
    obtain ⟨h1, h2⟩ := hab
    cases h1
    cases e with
    | none => exact .ret ⟨rfl, h2⟩
    | some e => exact .ret ⟨rfl, hB.toMarker h2 _⟩
  | skipSeq sk rs =>
    simp only [readStep, hm]
    have hsk := sub sk (by simp [Reader.subs])
    refine (hsk s t hst).bind fun a b _ _ hab => ?_
    obtain ⟨e, s'⟩ := a
    obtain ⟨e', t'⟩ := b
    obtain ⟨h1, h2⟩ := hab
    cases h1
    cases e with
    | some e => exact .ret ⟨rfl, hB.toMarker h2 _⟩
    | none =>
      refine (abreast_skip hN hsk rs (fun c hc => sub c (List.mem_cons_of_mem _ hc)) s' t' h2).bind fun a b _ _ hab => ?_
      obtain ⟨e, s''⟩ := a
      obtain ⟨e', t''⟩ := b
      obtain ⟨h1, h2⟩ := hab
      cases h1
      cases e with
      | none => exact .ret ⟨rfl, h2⟩
      | some e => exact .ret ⟨rfl, hB.toMarker h2 _⟩
  | times k c => exact abreast_times hN (sub c (by simp [Reader.subs])) _ s t hst
  | wrap w f => exact hr s t hst
  | zom c =>
    simp only [readStep]
    exact (abreast_zom hN (sub c (by simp [Reader.subs])) n s t hst).bind fun a b _ _ hab => .ret ⟨rfl, hab⟩
  | rule i =>
    simp only [readStep]
    rcases hi : G[i]? with _ | ⟨nm, _ | c⟩
    · exact .panic
    · exact .panic
    · exact hG i nm c hi s t hst
  | ruleName c =>
    simp only [readStep]
    refine (sub c (by simp [Reader.subs]) s t hst).bind fun a b _ _ hab => ?_
    obtain ⟨e, s'⟩ := a
    obtain ⟨e', t'⟩ := b
    obtain ⟨h1, h2⟩ := hab
    cases h1
    exact .ret ⟨by rw [hB.errorIfFalse h2], h2⟩
  | grammar w c =>
    simp only [readStep]
    refine (sub c (by simp [Reader.subs]) s t hst).bind fun a b _ _ hab => ?_
    obtain ⟨e, s'⟩ := a
    obtain ⟨e', t'⟩ := b
    obtain ⟨h1, h2⟩ := hab
    cases h1
    cases e with
    | none => exact .ret ⟨rfl, h2⟩
    | some e => exact .ret ⟨rfl, h2⟩
  | _ => simp [Reader.leaf] at hl

/-- Whole reads. -/
theorem among_like {O : Own} (rt : Rt) (G : Env) (I : Nat → Scanner → Heap) (hI : ∀ n s, O.Agree s.heap (I n s)) (hG : G.Every (Reader.minds O)) :
    ∀ n r, r.Every (Reader.minds O) → Abreast O.Like (read rt G n r) (readAmong rt G I n r)
  | 0, _, _, _, _, _ => .timeout
  | n + 1, r, hr, s, t, h => by
    rw [read_eq_step]
    have ih := among_like rt G I hI hG n
    have h1 := step_like rt G n hr.here (fun c hc => ih c (hr.sub hc)) (fun i nm c hi => ih c (hG.get hi)) s { t with heap := I n t }
      ⟨h.toAgree.trans (hI n t), h.full, h.pos, h.tracker⟩
    unfold readAmong
    revert h1
    generalize readStep rt G (read rt G n) n r s = x
    generalize readStep rt G (readAmong rt G I n) n r { t with heap := I n t } = y
    intro h1
    cases h1 with
    | panic => exact .panic
    | timeout => exact .timeout
    | ret h1 => exact .ret ⟨h1.1, h1.2.toAgree.trans (hI n _), h1.2.full, h1.2.pos, h1.2.tracker⟩

/-! ### what others do -/

/-- A tracker of others. -/
def Own.alien (O : Own) : Option TrackerRef → Prop
  | none => True
  | some (.basket b) => O.baskets b = false
  | some (.custom c) => O.tracks c = false

/-- A reader that has nothing of the client's. -/
def Reader.alien (O : Own) : Reader → Prop
  | .janusBegin k _ _ => O.janus k = false
  | .janusEnd k _ => O.janus k = false
  | .pick _ b _ => O.baskets b = false
  | .monitor _ l _ => O.logs l = false
  | .map f _ => O.maps f = false
  | .bool c _ => O.cells c = false
  | .int c _ _ => O.cells c = false
  | .uint c _ _ => O.cells c = false
  | .wrap _ _ => False
  | _ => True

theorem alien_upd {α : Type} {o : Nat → Bool} {f g : Nat → α} (h : ∀ i, o i = true → g i = f i) {k : Nat} (hk : o k = false) (v : α) :
    ∀ i, o i = true → upd g k v i = f i := by
  intro i hi
  rw [upd_ne _ _ (by rintro rfl; rw [hi] at hk; cases hk)]
  exact h i hi

theorem Own.alien_at {O : Own} {s s' : Scanner} (h : O.alien s'.tracker) (ha : O.Agree s.heap s'.heap) (m : Int) : O.Agree s.heap (s'.at m).heap := by
  obtain ⟨f, p, tr, hp⟩ := s'
  rcases tr with _ | ⟨b⟩ | ⟨c⟩
  · exact ha
  · exact ⟨ha.janus, alien_upd ha.baskets h _, ha.tracks, ha.logs, ha.cells, ha.maps⟩
  · exact ⟨ha.janus, ha.baskets, alien_upd ha.tracks h _, ha.logs, ha.cells, ha.maps⟩

theorem at_tracker (s : Scanner) (m : Int) : (s.at m).tracker = s.tracker := by
  unfold Scanner.at Scanner.notify
  split <;> rfl

theorem alien_frame (rt : Rt) (G : Env) (O : Own) : Frame rt G (Reader.alien O) (fun s => Inside s ∧ O.alien s.tracker)
    (fun s s' => Forward s s' ∧ s'.tracker = s.tracker ∧ O.Agree s.heap s'.heap) where
  inside h := h.1
  fwd _ h := h.1
  inv h h' := ⟨h'.1.1, by rw [h'.2.1]; exact h.2⟩
  refl h := ⟨Forward.refl h.1, rfl, .refl _⟩
  trans _ h h' := ⟨h.1.trans h'.1, h'.2.1.trans h.2.1, h.2.2.trans h'.2.2⟩
  go h h1 h2 := ⟨forward_go h.1 h1 h2, at_tracker _ _, Own.alien_at h.2 (.refl _) _⟩
  back h h' := ⟨forward_at h.1 h'.1, (at_tracker _ _).trans h'.2.1, Own.alien_at (by rw [h'.2.1]; exact h.2) h'.2.2 _⟩
  cells i v := fun ⟨r, hr, hi⟩ _ h => ⟨h.1, h.2.1, h.2.2.janus, h.2.2.baskets, h.2.2.tracks, h.2.2.logs, alien_upd h.2.2.cells (by
    cases r <;> simp only [Reader.cell, Option.some.injEq, reduceCtorEq] at hi <;> (subst hi; exact hr)) _, h.2.2.maps⟩
  janus i v := fun ⟨r, hr, hi⟩ _ h => ⟨h.1, h.2.1, alien_upd h.2.2.janus (by
    cases r <;> simp only [Reader.pair, Option.some.injEq, reduceCtorEq] at hi <;> (subst hi; exact hr)) _, h.2.2.baskets, h.2.2.tracks, h.2.2.logs, h.2.2.cells, h.2.2.maps⟩
  pick hp _ _ h := ⟨h.1, h.2.1, h.2.2.janus, alien_upd h.2.2.baskets hp _, h.2.2.tracks, h.2.2.logs, h.2.2.cells, h.2.2.maps⟩
  map hp _ h := ⟨h.1, h.2.1, h.2.2.janus, h.2.2.baskets, h.2.2.tracks, h.2.2.logs, h.2.2.cells, by
    have hf : O.maps _ = false := hp
    show List.filter _ (_ ++ [_]) = _
    rw [List.filter_append, h.2.2.maps]
    simp [hf]⟩
  enter _ h := h
  leave hp h _ h' := ⟨h'.1, h'.2.1, h'.2.2.janus, h'.2.2.baskets, h'.2.2.tracks,
    alien_upd (fun i hi => (h'.2.2.logs i hi).trans (alien_upd (fun _ _ => rfl) hp _ i hi)) hp _, h'.2.2.cells, h'.2.2.maps⟩
  wrap hp _ := hp.elim
  body _ h h' _ h2 h3 := by
    have hsub := h3 ⟨new_inside _ _, trivial⟩
    have hn := hsub.2.1
    refine ⟨⟨h'.1, h'.2.1, h'.2.2.trans hsub.2.2⟩, fun _ => ⟨h'.1, h'.2.1, h'.2.2.trans ?_⟩⟩
    exact Own.alien_at (by rw [hn]; trivial) hsub.2.2 0

end Tok
