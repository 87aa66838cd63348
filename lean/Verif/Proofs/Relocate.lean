/-
Two instances of the same reader do the same.
-/
import Verif.Spec.Relocate
import Verif.Proofs.Disturb

namespace Tok.Relocate
open Spec

variable {p : Places}

theorem placed_upd {α : Type} {q : Nat → Nat} (hq : Function.Injective q) {f g : Nat → α} (h : ∀ i, g (q i) = f i) (k : Nat) (F : α → α) :
    ∀ i, upd g (q k) (F (g (q k))) (q i) = upd f k (F (f k)) i := by
  intro i
  simp only [upd]
  by_cases e : i = k
  · subst e; simp [h]
  · rw [if_neg e, if_neg fun e' => e (hq e'), h]

theorem Paired.move_at (hp : p.Apart) {s t : Scanner} (h : Paired p s t) (m : Int) : Paired p (s.at m) (t.at m) := by
  obtain ⟨f, q, tr, hs⟩ := s
  obtain ⟨f', q', tr', ht⟩ := t
  obtain ⟨⟨h1, h2, h3, h4, h5, h6⟩, h7, h8, h9⟩ := h
  simp only at h9
  subst h9
  rcases tr with _ | ⟨b⟩ | ⟨c⟩
  · exact ⟨⟨h1, h2, h3, h4, h5, h6⟩, h7, rfl, rfl⟩
  · exact ⟨⟨h1, placed_upd hp.baskets h2 b _, h3, h4, h5, h6⟩, h7, rfl, rfl⟩
  · exact ⟨⟨h1, h2, placed_upd hp.tracks h3 c (fun x => x ++ [m]), h4, h5, h6⟩, h7, rfl, rfl⟩

theorem pacing (hp : p.Apart) : Lockstep (Paired p) where
  moving := ⟨fun h => h.full, fun h => h.pos, fun h m => Paired.move_at hp h m⟩
  heap h h' := ⟨h'.toPlaced, h.full, h.pos, h.tracker⟩
  new h _ := ⟨h.toPlaced, rfl, rfl, rfl⟩

theorem relocs_map : ∀ rs, Reader.relocs p rs = rs.map (Reader.reloc p)
  | [] => rfl
  | _ :: rs => by rw [Reader.relocs, relocs_map rs]; rfl

section
variable {rt : Rt} {G G' : Env} (hG : G' = G.map (Rule.reloc p))
include hG

mutual

theorem what_reloc : ∀ r : Reader, (Reader.reloc p r).what rt G' = r.what rt G
  | .any rs => by simp only [Reader.reloc, Reader.what, whats_reloc rs]
  | .at_ a => by simp only [Reader.reloc, Reader.what, what_reloc a]
  | .body a b => by simp only [Reader.reloc, Reader.what, what_reloc a, what_reloc b]
  | .bodyTail a b => by simp only [Reader.reloc, Reader.what, what_reloc a, what_reloc b]
  | .janusBegin i w a => by simp only [Reader.reloc, Reader.what, what_reloc a]
  | .many a => by simp only [Reader.reloc, Reader.what, what_reloc a]
  | .map k a => by simp only [Reader.reloc, Reader.what, what_reloc a]
  | .named w a => by simp only [Reader.reloc, Reader.what]
  | .not a => by simp only [Reader.reloc, Reader.what, what_reloc a]
  | .opt a => by simp only [Reader.reloc, Reader.what, what_reloc a]
  | .past a => by simp only [Reader.reloc, Reader.what, what_reloc a]
  | .seq rs => by simp only [Reader.reloc, Reader.what, whats_reloc rs]
  | .skipSeq a rs => by
    simp only [Reader.reloc, Reader.what, what_reloc a, whats_reloc rs]
  | .times k a => by simp only [Reader.reloc, Reader.what, what_reloc a]
  | .to a => by simp only [Reader.reloc, Reader.what, what_reloc a]
  | .zom a => by simp only [Reader.reloc, Reader.what, what_reloc a]
  | .pick w b a => by simp only [Reader.reloc, Reader.what, what_reloc a]
  | .monitor w l a => by simp only [Reader.reloc, Reader.what, what_reloc a]
  | .rule i => by
    simp only [Reader.reloc, Reader.what, hG, List.getElem?_map]
    cases G[i]? <;> rfl
  | .ruleName a => rfl
  | .grammar w a => rfl
  | .anyRune str => rfl
  | .atEnd => rfl
  | .between a b => rfl
  | .betweenAny a b => rfl
  | .bool c w => rfl
  | .fold w => rfl
  | .holey a b h => rfl
  | .int c b k => rfl
  | .janusEnd i w => rfl
  | .invalid w => rfl
  | .lit w => rfl
  | .match_ w p => rfl
  | .rune c => rfl
  | .uint c b k => rfl
  | .wrap w g => rfl

theorem whats_reloc : ∀ rs : List Reader, Reader.whats rt G' (Reader.relocs p rs) = Reader.whats rt G rs
  | [] => rfl
  | r :: rs => by simp only [Reader.relocs, Reader.whats, what_reloc r, whats_reloc rs]

end


end

variable {rd : Reader → ReadFunc}

theorem anyLoop_map (g : Reader → Reader) : ∀ (rs : List Reader) es s, anyLoop rd (rs.map g) es s = anyLoop (fun c => rd (g c)) rs es s
  | [], _, _ => rfl
  | r :: rs, es, s => by simp only [List.map, anyLoop, anyLoop_map g rs]

theorem seqLoop_map (g : Reader → Reader) : ∀ (rs : List Reader) s, seqLoop rd (rs.map g) s = seqLoop (fun c => rd (g c)) rs s
  | [], _ => rfl
  | r :: rs, s => by simp only [List.map, seqLoop, seqLoop_map g rs]

theorem skipSeqLoop_map (g : Reader → Reader) (sk : Reader) : ∀ (rs : List Reader) s, skipSeqLoop rd (g sk) (rs.map g) s = skipSeqLoop (fun c => rd (g c)) sk rs s
  | [], _ => rfl
  | r :: rs, s => by simp only [List.map, skipSeqLoop, skipSeqLoop_map g sk rs]

theorem abreast_of {f g : ReadFunc} (h : ∀ s t, Paired p s t → PairedE p (f s) (g t)) : Abreast (Paired p) f g := by
  intro s t hst
  have := h s t hst
  cases hf : f s <;> cases hg : g t <;> rw [hf, hg] at this <;> first | exact this.elim | exact .panic | exact .timeout | exact .ret this

theorem of_abreast {f g : ReadFunc} (h : Abreast (Paired p) f g) {s t : Scanner} (hst : Paired p s t) : PairedE p (f s) (g t) := by
  have := h s t hst
  cases hf : f s <;> cases hg : g t <;> rw [hf, hg] at this <;> cases this
  · assumption
  · trivial
  · trivial

/-- One step. -/
theorem step_alike (hp : p.Apart) (rt : Rt) {G G' : Env} (hG' : G' = G.map (Rule.reloc p)) {rd rd' : Reader → ReadFunc} (n : Nat) {r : Reader} (hr : Reader.wrapAlike p r)
    (sub : ∀ c ∈ r.subs, Abreast (Paired p) (rd c) (rd' (Reader.reloc p c)))
    (hG : ∀ (i : Nat) (nm : Bytes) (c : Reader), G[i]? = some ⟨nm, some c⟩ → Abreast (Paired p) (rd c) (rd' (Reader.reloc p c))) :
    Abreast (Paired p) (readStep rt G rd n r) (readStep rt G' rd' n (Reader.reloc p r)) := by
  intro s t hst
  have hN := pacing hp
  have hB := hN.moving
  have hm := hB.mark hst
  have hw := what_reloc (rt := rt) hG' r
  by_cases hl : r.leaf = true
  · cases hj : r.isJanusEnd with
    | false =>
      cases hv : r.isValue with
      | false =>
        have e1 : readStep rt G rd n r s = read rt G (n + 1) r s := by
          cases r <;> first | rfl | simp [Reader.leaf] at hl
        have e2 : readStep rt G' rd' n (Reader.reloc p r) t = read rt G' (n + 1) r t := by
          cases r <;> first | rfl | simp [Reader.leaf, Reader.isValue, Reader.isJanusEnd] at hl hv hj
        rw [e1, e2]
        exact hB.plain hst rt G G' n n hl hj hv
      | true =>
        match r, hv with
        | .bool c w, _ =>
          simp only [Reader.reloc, readStep]
          refine (hB.readBool hst w).bind fun a b _ _ h => ?_
          obtain ⟨⟨v, e⟩, s'⟩ := a
          obtain ⟨⟨v', e'⟩, t'⟩ := b
          obtain ⟨he, h⟩ := h
          cases he
          exact .ret ⟨rfl, ⟨h.janus, h.baskets, h.tracks, h.logs, placed_upd hp.cells h.cells c (fun _ => .bool v), h.maps⟩, h.full, h.pos, h.tracker⟩
        | .int c x y, _ =>
          simp only [Reader.reloc, readStep]
          refine (hB.readInt hst x y).bind fun a b _ _ h => ?_
          obtain ⟨⟨v, e⟩, s'⟩ := a
          obtain ⟨⟨v', e'⟩, t'⟩ := b
          obtain ⟨he, h⟩ := h
          cases he
          exact .ret ⟨rfl, ⟨h.janus, h.baskets, h.tracks, h.logs, placed_upd hp.cells h.cells c (fun _ => .int v), h.maps⟩, h.full, h.pos, h.tracker⟩
        | .uint c x y, _ =>
          simp only [Reader.reloc, readStep]
          refine (hB.readUint hst x y).bind fun a b _ _ h => ?_
          obtain ⟨⟨v, e⟩, s'⟩ := a
          obtain ⟨⟨v', e'⟩, t'⟩ := b
          obtain ⟨he, h⟩ := h
          cases he
          exact .ret ⟨rfl, ⟨h.janus, h.baskets, h.tracks, h.logs, placed_upd hp.cells h.cells c (fun _ => .uint v), h.maps⟩, h.full, h.pos, h.tracker⟩
    | true =>
      match r, hj with
      | .janusEnd id nm, _ =>
        simp only [Reader.reloc, readStep]
        rw [hst.janus id]
        refine (hB.ifFalse _ (hB.ifStr hst _)).bind fun a b _ _ h => ?_
        obtain ⟨e, s'⟩ := a
        obtain ⟨e', t'⟩ := b
        obtain ⟨he, h⟩ := h
        cases he
        cases e with
        | none => exact .ret ⟨rfl, ⟨placed_upd hp.janus h.janus id (fun _ => []), h.baskets, h.tracks, h.logs, h.cells, h.maps⟩, h.full, h.pos, h.tracker⟩
        | some e => exact .ret ⟨rfl, h⟩
  cases r with
  | any rs =>
    simp only [Reader.reloc] at hw
    simp only [Reader.reloc, readStep, hm, relocs_map, anyLoop_map]
    refine (abreast_any hN rs (fun c hc => sub c hc) [] s t hst).bind fun a b _ _ hab => ?_
    obtain ⟨e, s'⟩ := a
    obtain ⟨e', t'⟩ := b
    obtain ⟨h1, h2⟩ := hab
    cases h1
    cases e with
    | none => exact .ret ⟨rfl, h2⟩
    | some es => exact .ret ⟨rfl, hB.toMarker h2 _⟩
  | at_ c =>
    simp only [Reader.reloc] at hw
    simp only [Reader.reloc, readStep, hm, hw]
    exact (sub c (by simp [Reader.subs]) s t hst).bind fun a b _ _ hab => .ret ⟨hab.1, hB.toMarker hab.2 _⟩
  | body b c =>
    simp only [Reader.reloc] at hw
    simp only [Reader.reloc, readStep, hm, hw]
    refine (abreast_body hN (sub b (by simp [Reader.subs])) (sub c (by simp [Reader.subs])) _ n s t hst).bind fun x y _ _ hab => ?_
    obtain ⟨e, s'⟩ := x
    obtain ⟨e', t'⟩ := y
    obtain ⟨h1, h2⟩ := hab
    cases h1
    cases e with
    | none =>
      have h3 := hB.toMarker h2 s.mark
      exact .ret ⟨by rw [hB.errorFor h3], h3⟩
    | some k => exact .ret ⟨rfl, hB.toMarker h2 _⟩
  | bodyTail b c =>
    simp only [Reader.reloc] at hw
    simp only [Reader.reloc, readStep, hm, hw]
    refine (abreast_body hN (sub b (by simp [Reader.subs])) (sub c (by simp [Reader.subs])) _ n s t hst).bind fun x y _ _ hab => ?_
    obtain ⟨e, s'⟩ := x
    obtain ⟨e', t'⟩ := y
    obtain ⟨h1, h2⟩ := hab
    cases h1
    cases e with
    | none =>
      have h3 := hB.toMarker h2 s.mark
      exact .ret ⟨by rw [hB.errorFor h3], h3⟩
    | some k => exact .ret ⟨rfl, h2⟩
  | janusBegin i nm c =>
    simp only [Reader.reloc] at hw
    simp only [Reader.reloc, readStep, hw]
    refine (abreast_token hN (sub c (by simp [Reader.subs])) hst).bind fun a b _ _ hab => ?_
    obtain ⟨⟨k, e⟩, s'⟩ := a
    obtain ⟨⟨k', e'⟩, t'⟩ := b
    obtain ⟨h1, h2⟩ := hab
    cases h1
    cases e with
    | none =>
      refine (hB.getE h2 _).bind fun a b _ _ hab => ?_
      subst hab
      exact .ret ⟨rfl, ⟨placed_upd hp.janus h2.janus i (fun _ => _), h2.baskets, h2.tracks, h2.logs, h2.cells, h2.maps⟩, h2.full, h2.pos, h2.tracker⟩
    | some e => exact .ret ⟨rfl, h2⟩
  | many c =>
    simp only [Reader.reloc] at hw
    simp only [Reader.reloc, readStep, hm, hw]
    refine (abreast_zom hN (sub c (by simp [Reader.subs])) n s t hst).bind fun a b _ _ hab => .ret ⟨?_, hab⟩
    simp only [hB.errorIfFalse hab, hB.mark hab]
  | map f c =>
    simp only [Reader.reloc] at hw
    simp only [Reader.reloc, readStep, hw]
    refine (abreast_token hN (sub c (by simp [Reader.subs])) hst).bind fun a b _ _ hab => ?_
    obtain ⟨⟨k, e⟩, s'⟩ := a
    obtain ⟨⟨k', e'⟩, t'⟩ := b
    obtain ⟨h1, h2⟩ := hab
    cases h1
    cases e with
    | none =>
      refine .ret ⟨rfl, ⟨h2.janus, h2.baskets, h2.tracks, h2.logs, h2.cells, ?_⟩, h2.full, h2.pos, h2.tracker⟩
      have := h2.maps
      simp only at this ⊢
      rw [this, List.map_append, List.append_assoc]
      rfl
    | some e => exact .ret ⟨rfl, h2⟩
  | pick i bk c =>
    simp only [Reader.reloc] at hw
    simp only [Reader.reloc, readStep, hw]
    refine (abreast_token hN (sub c (by simp [Reader.subs])) hst).bind fun a b _ _ hab => ?_
    obtain ⟨⟨k, e⟩, s'⟩ := a
    obtain ⟨⟨k', e'⟩, t'⟩ := b
    obtain ⟨h1, h2⟩ := hab
    cases h1
    cases e with
    | none => exact .ret ⟨rfl, ⟨h2.janus, placed_upd hp.baskets h2.baskets bk (fun x => x ++ [⟨i, k⟩]), h2.tracks, h2.logs, h2.cells, h2.maps⟩, h2.full, h2.pos, h2.tracker⟩
    | some e => exact .ret ⟨rfl, h2⟩
  | monitor i l c =>
    simp only [Reader.reloc] at hw
    simp only [Reader.reloc, readStep, hw]
    have h0 : Paired p (s.enterLog rt i l) (t.enterLog rt i (p.logs l)) := by
      refine ⟨⟨hst.janus, hst.baskets, hst.tracks, ?_, hst.cells, hst.maps⟩, hst.full, hst.pos, hst.tracker⟩
      unfold Scanner.enterLog
      rw [hst.pos]
      exact placed_upd hp.logs hst.logs l (fun x => (x.enter rt i s.pos).2)
    refine (sub c (by simp [Reader.subs]) (s.enterLog rt i l) (t.enterLog rt i (p.logs l)) h0).bind fun a b _ _ hab => ?_
    obtain ⟨e, s'⟩ := a
    obtain ⟨e', t'⟩ := b
    obtain ⟨h1, h2⟩ := hab
    cases h1
    refine .ret ⟨rfl, ⟨h2.janus, h2.baskets, h2.tracks, ?_, h2.cells, h2.maps⟩, h2.full, h2.pos, h2.tracker⟩
    intro k
    simp only [upd]
    by_cases e1 : k = l
    · subst e1
      have h4 := h2.logs k
      have h5 : t'.pos = s'.pos := h2.pos
      simp only at h4
      simp only [h4, h5, hst.logs k, hst.pos, if_true]
    · rw [if_neg e1, if_neg fun e' => e1 (hp.logs e')]
      exact h2.logs k
  | named w c => exact sub c (by simp [Reader.subs]) s t hst
  | not c =>
    simp only [Reader.reloc] at hw
    simp only [Reader.reloc, readStep, hm, hw]
    refine (sub c (by simp [Reader.subs]) s t hst).bind fun a b _ _ hab => ?_
    obtain ⟨e, s'⟩ := a
    obtain ⟨e', t'⟩ := b
    obtain ⟨h1, h2⟩ := hab
    cases h1
    have h4 := hB.toMarker h2 s.mark
    cases e with
    | none => exact .ret ⟨by rw [hB.errorFor h4, what_reloc hG' c], h4⟩
    | some e => exact (hB.moveRunes h4).bind fun a b _ _ hab => .ret ⟨rfl, hab.2⟩
  | opt c =>
    simp only [Reader.reloc] at hw
    simp only [Reader.reloc, readStep, hw]
    exact (sub c (by simp [Reader.subs]) s t hst).bind fun a b _ _ hab => .ret ⟨rfl, hab.2⟩
  | past c =>
    simp only [Reader.reloc] at hw
    simp only [Reader.reloc, readStep, hm, hw]
    refine (abreast_past hN (sub c (by simp [Reader.subs])) n s t hst).bind fun a b _ _ hab => ?_
    obtain ⟨e, s'⟩ := a
    obtain ⟨e', t'⟩ := b
    obtain ⟨h1, h2⟩ := hab
    cases h1
    cases e with
    | false =>
      have h3 := hB.toMarker h2 s.mark
      exact .ret ⟨by rw [hB.errorFor h3], h3⟩
    | true => exact .ret ⟨rfl, h2⟩
  | «to» c =>
    simp only [Reader.reloc] at hw
    simp only [Reader.reloc, readStep, hm, hw]
    refine (abreast_to hN (sub c (by simp [Reader.subs])) n s t hst).bind fun a b _ _ hab => ?_
    obtain ⟨e, s'⟩ := a
    obtain ⟨e', t'⟩ := b
    obtain ⟨h1, h2⟩ := hab
    cases h1
    cases e with
    | false =>
      have h3 := hB.toMarker h2 s.mark
      exact .ret ⟨by rw [hB.errorFor h3], h3⟩
    | true => exact .ret ⟨rfl, h2⟩
  | seq rs =>
    simp only [Reader.reloc] at hw
    simp only [Reader.reloc, readStep, hm, relocs_map, seqLoop_map]
    refine (abreast_seq hN rs (fun c hc => sub c hc) s t hst).bind fun a b _ _ hab => ?_
    obtain ⟨e, s'⟩ := a
    obtain ⟨e', t'⟩ := b
    obtain ⟨h1, h2⟩ := hab
    cases h1
    cases e with
    | none => exact .ret ⟨rfl, h2⟩
    | some e => exact .ret ⟨rfl, hB.toMarker h2 _⟩
  | skipSeq sk rs =>
    simp only [Reader.reloc] at hw
    simp only [Reader.reloc, readStep, hm, relocs_map, skipSeqLoop_map]
    have hsk := sub sk (by simp [Reader.subs])
    refine (hsk s t hst).bind fun a b _ _ hab => ?_
    obtain ⟨e, s'⟩ := a
    obtain ⟨e', t'⟩ := b
    obtain ⟨h1, h2⟩ := hab
    cases h1
    cases e with
    | some e => exact .ret ⟨rfl, hB.toMarker h2 _⟩
    | none =>
      refine (abreast_skip (rd' := fun c => rd' (Reader.reloc p c)) hN hsk rs (fun c hc => sub c (List.mem_cons_of_mem _ hc)) s' t' h2).bind fun a b _ _ hab => ?_
      obtain ⟨e, s''⟩ := a
      obtain ⟨e', t''⟩ := b
      obtain ⟨h1, h2⟩ := hab
      cases h1
      cases e with
      | none => exact .ret ⟨rfl, h2⟩
      | some e => exact .ret ⟨rfl, hB.toMarker h2 _⟩
  | times k c => exact abreast_times hN (sub c (by simp [Reader.subs])) _ s t hst
  | wrap w f => exact abreast_of hr s t hst
  | zom c =>
    simp only [Reader.reloc] at hw
    simp only [Reader.reloc, readStep, hw]
    exact (abreast_zom hN (sub c (by simp [Reader.subs])) n s t hst).bind fun a b _ _ hab => .ret ⟨rfl, hab⟩
  | rule i =>
    simp only [Reader.reloc] at hw
    simp only [Reader.reloc, readStep, hw]
    rw [hG', List.getElem?_map]
    rcases hi : G[i]? with _ | ⟨nm, _ | c⟩
    · exact .panic
    · exact .panic
    · exact hG i nm c hi s t hst
  | ruleName c =>
    simp only [Reader.reloc] at hw
    simp only [Reader.reloc, readStep, hw]
    refine (sub c (by simp [Reader.subs]) s t hst).bind fun a b _ _ hab => ?_
    obtain ⟨e, s'⟩ := a
    obtain ⟨e', t'⟩ := b
    obtain ⟨h1, h2⟩ := hab
    cases h1
    exact .ret ⟨by rw [hB.errorIfFalse h2], h2⟩
  | grammar w c =>
    simp only [Reader.reloc] at hw
    simp only [Reader.reloc, readStep, hw]
    refine (sub c (by simp [Reader.subs]) s t hst).bind fun a b _ _ hab => ?_
    obtain ⟨e, s'⟩ := a
    obtain ⟨e', t'⟩ := b
    obtain ⟨h1, h2⟩ := hab
    cases h1
    cases e with
    | none => exact .ret ⟨rfl, h2⟩
    | some e => exact .ret ⟨rfl, h2⟩
  | _ => simp [Reader.leaf] at hl

/-- Whole reads. -/
theorem read_alike (hp : p.Apart) (rt : Rt) {G : Env} (hG : G.Every (Reader.wrapAlike p)) :
    ∀ n r, r.Every (Reader.wrapAlike p) → Abreast (Paired p) (read rt G n r) (read rt (G.map (Rule.reloc p)) n (Reader.reloc p r))
  | 0, _, _, _, _, _ => .timeout
  | n + 1, r, hr, s, t, h => by
    rw [read_eq_step, read_eq_step]
    exact step_alike hp rt rfl n hr.here (fun c hc => read_alike hp rt hG n c (hr.sub hc)) (fun i nm c hi => read_alike hp rt hG n c (hG.get hi)) s t h

end Tok.Relocate
