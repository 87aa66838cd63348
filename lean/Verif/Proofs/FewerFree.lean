/-
Picking less, with a scanner that tracks no basket.
-/
import Verif.Proofs.Fewer

namespace Tok.Free
open Spec Less

variable {lt gt : Prop}

section
variable {q : Leave}

/-- A scanner that goes somewhere changes its position, and what the tracker of the client was told. -/
theorem at_apart {s : Scanner} (h : ∀ b, s.tracker ≠ some (.basket b)) (m : Int) : ∃ tk, s.at m = { s with pos := m, heap := { s.heap with tracks := tk } } := by
  obtain ⟨f, p, tr, hp⟩ := s
  rcases tr with _ | b | k
  · exact ⟨hp.tracks, rfl⟩
  · exact absurd rfl (h b)
  · exact ⟨_, rfl⟩

theorem _root_.Tok.Spec.FewerApart.at {s t : Scanner} (h : FewerApart q s t) (m : Int) : FewerApart q (s.at m) (t.at m) := by
  obtain ⟨tk, h1⟩ := at_apart h.tracked m
  obtain ⟨tk', h2⟩ := at_apart (h.tracker ▸ h.tracked : ∀ b, t.tracker ≠ some (.basket b)) m
  rw [h1, h2]
  exact ⟨h.full, rfl, h.tracked, h.tracker, h.cells, h.janus, h.maps, h.logs, h.others, h.kept⟩

/-- Going to the place where the scanner is. -/
theorem _root_.Tok.Spec.FewerApart.stay {s t : Scanner} (h : FewerApart q s t) : FewerApart q (s.at s.pos) t := by
  obtain ⟨tk, h1⟩ := at_apart h.tracked s.pos
  rw [h1]
  exact ⟨h.full, h.pos, h.tracked, h.tracker, h.cells, h.janus, h.maps, h.logs, h.others, h.kept⟩

/-- A pick on the left only. -/
theorem _root_.Tok.Spec.FewerApart.leave {s t : Scanner} (h : FewerApart q s t) {i : Bytes} {bk : Nat} (hg : q.out i bk = true) {k : Token} :
    FewerApart q { s with heap := { s.heap with baskets := upd s.heap.baskets bk (s.heap.baskets bk ++ [⟨i, k⟩]) } } t := by
  simp only [Leave.out, Bool.and_eq_true, beq_iff_eq] at hg
  obtain ⟨rfl, hd⟩ := hg
  refine ⟨h.full, h.pos, h.tracked, h.tracker, h.cells, h.janus, h.maps, h.logs, fun j hj => ?_, ?_⟩
  · simp only [upd_ne _ _ hj]; exact h.others j hj
  · simp only [upd_self]
    rw [h.kept]
    simp [Leave.rest, hd]

/-- A pick on both sides. -/
theorem _root_.Tok.Spec.FewerApart.put {s t : Scanner} (h : FewerApart q s t) {i : Bytes} {bk : Nat} (hg : q.out i bk = false) {k : Token} :
    FewerApart q { s with heap := { s.heap with baskets := upd s.heap.baskets bk (s.heap.baskets bk ++ [⟨i, k⟩]) } }
      { t with heap := { t.heap with baskets := upd t.heap.baskets bk (t.heap.baskets bk ++ [⟨i, k⟩]) } } := by
  by_cases hb : bk = q.basket
  · subst hb
    have hd : q.drop i = false := by simpa [Leave.out] using hg
    refine ⟨h.full, h.pos, h.tracked, h.tracker, h.cells, h.janus, h.maps, h.logs, fun j hj => ?_, ?_⟩
    · simp only [upd_ne _ _ hj]; exact h.others j hj
    · simp only [upd_self]
      rw [h.kept]
      simp [Leave.rest, hd]
  · have hb' : q.basket ≠ bk := fun e => hb e.symm
    refine ⟨h.full, h.pos, h.tracked, h.tracker, h.cells, h.janus, h.maps, h.logs, fun j hj => ?_, ?_⟩
    · simp only [upd]
      rw [h.others bk hb]
      split
      · rfl
      · exact h.others j hj
    · simp only [upd_ne _ _ hb']; exact h.kept

/-- A new scanner for a piece of text. -/
theorem _root_.Tok.Spec.FewerApart.new {s t : Scanner} (h : FewerApart q s t) (x : Bytes) : FewerApart q (.new x s.heap) (.new x t.heap) :=
  ⟨rfl, rfl, by simp [Scanner.new], rfl, h.cells, h.janus, h.maps, h.logs, h.others, h.kept⟩

/-- Going on with the heap of that scanner. -/
theorem _root_.Tok.Spec.FewerApart.heap {s t s1 t1 : Scanner} (h : FewerApart q s t) (h1 : FewerApart q s1 t1) :
    FewerApart q { s with heap := s1.heap } { t with heap := t1.heap } :=
  ⟨h.full, h.pos, h.tracked, h.tracker, h1.cells, h1.janus, h1.maps, h1.logs, h1.others, h1.kept⟩

theorem apart_blind (q : Leave) : Blind (FewerApart q) where
  full h := h.full
  pos h := h.pos
  at_ h m := h.at m
  janus h := h.janus
  setCell h c v := ⟨h.full, h.pos, h.tracked, h.tracker, congrArg (fun f => upd f c v) h.cells, h.janus, h.maps, h.logs, h.others, h.kept⟩
  setJanus h _ := ⟨h.full, h.pos, h.tracked, h.tracker, h.cells, rfl, h.maps, h.logs, h.others, h.kept⟩

/-- What a sub-reader does on both sides. -/
def Both (q : Leave) (lt gt : Prop) (f g : ReadFunc) : Prop :=
  ∀ s t, Inside s → FewerApart q s t → SimE lt gt (fun a b => ResSame a.1 b.1 ∧ FewerApart q a.2 b.2 ∧ Inside a.2) (f s) (g t)

/-- What the comparison needs: functions of the client that do not look at the basket, and a reader inside a pick that is left out goes back on failure. -/
def Reader.pickableApart (rt : Rt) (G : Env) (q : Leave) : Reader → Prop
  | .wrap _ f => DoesSame (FewerApart q) f
  | .pick i b c => q.out i b = true → ∀ n, Restores (read rt G n c)
  | _ => True

theorem any_both {rd rd' : Reader → ReadFunc} : ∀ (rs : List Reader), (∀ r ∈ rs, Both q lt gt (rd r) (rd' (Reader.fewer q r))) →
    ∀ es s t, Inside s → FewerApart q s t → SimE lt gt (fun a b => FewerApart q a.2 b.2 ∧ b.1 = a.1) (anyLoop rd rs es s) (anyLoop rd' (Reader.fewers q rs) es t)
  | [], _, es, s, t, _, h => .ret ⟨h, rfl⟩
  | r :: rs, hr, es, s, t, hs, h => (hr r (by simp) s t hs h).bind fun a b _ _ hab => by
    obtain ⟨e, s'⟩ := a
    obtain ⟨e', t'⟩ := b
    obtain ⟨h1, h2, h3⟩ := hab
    cases e <;> cases e' <;> simp only [ResSame] at h1
    · exact .ret ⟨h2, rfl⟩
    · subst h1
      exact any_both rs (fun r hr' => hr r (List.mem_cons_of_mem _ hr')) _ _ _ h3 h2

theorem seq_both {rd rd' : Reader → ReadFunc} : ∀ (rs : List Reader), (∀ r ∈ rs, Both q lt gt (rd r) (rd' (Reader.fewer q r))) →
    Both q lt gt (seqLoop rd rs) (seqLoop rd' (Reader.fewers q rs))
  | [], _, _, _, hs, h => .ret ⟨trivial, h, hs⟩
  | r :: rs, hr, s, t, hs, h => (hr r (by simp) s t hs h).bind fun a b _ _ hab => by
    obtain ⟨e, s'⟩ := a
    obtain ⟨e', t'⟩ := b
    obtain ⟨h1, h2, h3⟩ := hab
    cases e <;> cases e' <;> simp only [ResSame] at h1
    · exact seq_both rs (fun r hr' => hr r (List.mem_cons_of_mem _ hr')) _ _ h3 h2
    · exact .ret ⟨h1, h2, h3⟩

theorem skip_both {rd rd' : Reader → ReadFunc} {sk : Reader} (hsk : Both q lt gt (rd sk) (rd' (Reader.fewer q sk))) : ∀ (rs : List Reader),
    (∀ r ∈ rs, Both q lt gt (rd r) (rd' (Reader.fewer q r))) →
    Both q lt gt (skipSeqLoop rd sk rs) (skipSeqLoop rd' (Reader.fewer q sk) (Reader.fewers q rs))
  | [], _, _, _, hs, h => .ret ⟨trivial, h, hs⟩
  | r :: rs, hr, s, t, hs, h => (hr r (by simp) s t hs h).bind fun a b _ _ hab => by
    obtain ⟨e, s'⟩ := a
    obtain ⟨e', t'⟩ := b
    obtain ⟨h1, h2, h3⟩ := hab
    cases e <;> cases e' <;> simp only [ResSame] at h1
    · refine (hsk _ _ h3 h2).bind fun a b _ _ hab => ?_
      obtain ⟨e, s'⟩ := a
      obtain ⟨e', t'⟩ := b
      obtain ⟨h1, h2, h3⟩ := hab
      cases e <;> cases e' <;> simp only [ResSame] at h1
      · exact skip_both hsk rs (fun r hr' => hr r (List.mem_cons_of_mem _ hr')) _ _ h3 h2
      · exact .ret ⟨h1, h2, h3⟩
    · exact .ret ⟨h1, h2, h3⟩

theorem times_both {f g : ReadFunc} (hf : Both q lt gt f g) : ∀ k, Both q lt gt (timesLoop f k) (timesLoop g k)
  | 0, _, _, hs, h => .ret ⟨trivial, h, hs⟩
  | k + 1, s, t, hs, h => (hf s t hs h).bind fun a b _ _ hab => by
    obtain ⟨e, s'⟩ := a
    obtain ⟨e', t'⟩ := b
    obtain ⟨h1, h2, h3⟩ := hab
    cases e <;> cases e' <;> simp only [ResSame] at h1
    · exact times_both hf k _ _ h3 h2
    · exact .ret ⟨h1, h2, h3⟩

theorem zom_both {f g : ReadFunc} (hf : Both q lt gt f g) : ∀ n m, Fuel lt gt n m → ∀ s t, Inside s → FewerApart q s t →
    SimE lt gt (fun a b => FewerApart q a b ∧ Inside a) (zomLoop f n s) (zomLoop g m t)
  | 0, m, hnm, s, t, _, _ => hnm.zero (fun h => by subst h; rfl)
  | n + 1, 0, hnm, s, t, _, _ => hnm.zero'
  | n + 1, m + 1, hnm, s, t, hs, h => (hf s t hs h).bind fun a b _ _ hab => by
    obtain ⟨e, s'⟩ := a
    obtain ⟨e', t'⟩ := b
    obtain ⟨h1, h2, h3⟩ := hab
    cases e <;> cases e' <;> simp only [ResSame] at h1
    · exact zom_both hf n m hnm.pred _ _ h3 h2
    · exact .ret ⟨h2, h3⟩

theorem runes_both {s t : Scanner} (hs : Inside s) (h : FewerApart q s t) :
    SimE lt gt (fun a b => b.1 = a.1 ∧ FewerApart q a.2 b.2 ∧ Inside a.2) (s.moveRunes 1) (t.moveRunes 1) :=
  (((apart_blind q).moveRunes h).mono fun a b ha _ hab => ⟨hab.1, hab.2, ((moveRunes_safe (p := True) hs).2 a ha).1⟩).sim

theorem past_both {f g : ReadFunc} (hf : Both q lt gt f g) : ∀ n m, Fuel lt gt n m → ∀ s t, Inside s → FewerApart q s t →
    SimE lt gt (fun a b => b.1 = a.1 ∧ FewerApart q a.2 b.2) (pastLoop f n s) (pastLoop g m t)
  | 0, m, hnm, s, t, _, _ => hnm.zero (fun h => by subst h; rfl)
  | n + 1, 0, hnm, s, t, _, _ => hnm.zero'
  | n + 1, m + 1, hnm, s, t, hs, h => by
    unfold pastLoop
    rw [(apart_blind q).atEnd h]
    split
    · exact .ret ⟨rfl, h⟩
    · refine (hf s t hs h).bind fun a b _ _ hab => ?_
      obtain ⟨e, s'⟩ := a
      obtain ⟨e', t'⟩ := b
      obtain ⟨h1, h2, h3⟩ := hab
      cases e <;> cases e' <;> simp only [ResSame] at h1
      · exact .ret ⟨rfl, h2⟩
      · refine (runes_both h3 h2).bind fun a b _ _ hab => ?_
        exact past_both hf n m hnm.pred _ _ hab.2.2 hab.2.1

theorem to_both {f g : ReadFunc} (hf : Both q lt gt f g) : ∀ n m, Fuel lt gt n m → ∀ s t, Inside s → FewerApart q s t →
    SimE lt gt (fun a b => b.1 = a.1 ∧ FewerApart q a.2 b.2) (toLoop f n s) (toLoop g m t)
  | 0, m, hnm, s, t, _, _ => hnm.zero (fun h => by subst h; rfl)
  | n + 1, 0, hnm, s, t, _, _ => hnm.zero'
  | n + 1, m + 1, hnm, s, t, hs, h => by
    unfold toLoop
    have hm := (apart_blind q).mark h
    refine (hf s t hs h).bind fun a b _ _ hab => ?_
    obtain ⟨e, s'⟩ := a
    obtain ⟨e', t'⟩ := b
    obtain ⟨h1, h2, h3⟩ := hab
    cases e <;> cases e' <;> simp only [ResSame] at h1
    · simp only [hm]
      exact .ret ⟨rfl, (apart_blind q).toMarker h2 _⟩
    · refine (runes_both h3 h2).bind fun a b _ _ hab => ?_
      obtain ⟨ok, s'⟩ := a
      obtain ⟨ok', t'⟩ := b
      obtain ⟨h1, h2, h3⟩ := hab
      cases h1
      cases ok
      · exact .ret ⟨rfl, h2⟩
      · exact to_both hf n m hnm.pred _ _ h3 h2

theorem body_both {f g f' g' : ReadFunc} (hf : Both q lt gt f f') (hg : Both q lt gt g g') (mk : Int) :
    ∀ n m, Fuel lt gt n m → ∀ s t, Inside s → FewerApart q s t →
    SimE lt gt (fun a b => b.1 = a.1 ∧ FewerApart q a.2 b.2) (bodyLoop f g mk n s) (bodyLoop f' g' mk m t)
  | 0, m, hnm, s, t, _, _ => hnm.zero (fun h => by subst h; rfl)
  | n + 1, 0, hnm, s, t, _, _ => hnm.zero'
  | n + 1, m + 1, hnm, s, t, hs, h => by
    unfold bodyLoop
    rw [(apart_blind q).atEnd h]
    split
    · exact .ret ⟨rfl, h⟩
    · have hm := (apart_blind q).mark h
      refine (hg s t hs h).bind fun a b _ _ hab => ?_
      obtain ⟨e, s'⟩ := a
      obtain ⟨e', t'⟩ := b
      obtain ⟨h1, h2, h3⟩ := hab
      cases e <;> cases e' <;> simp only [ResSame] at h1
      · simp only [hm]
        refine (((apart_blind q).getE h2 _).sim (lt := lt) (gt := gt)).bind fun a b _ _ hab => ?_
        subst hab
        unfold Scanner.use
        refine SimE.bind (R := fun a b => ResSame a.1 b.1 ∧ FewerApart q a.2 b.2) ?_ fun a b _ _ hab => ?_
        · refine (hf _ _ ⟨by simp [Scanner.new], by simp [Scanner.new]⟩ (h2.new _)).bind fun a b _ _ hab => ?_
          obtain ⟨e, s'⟩ := a
          obtain ⟨e', t'⟩ := b
          obtain ⟨h1, h2, h3⟩ := hab
          cases e <;> cases e' <;> simp only [ResSame] at h1
          · exact .ret ⟨trivial, h2⟩
          · exact .ret ⟨h1, (apart_blind q).toMarker h2 _⟩
        · obtain ⟨e, s1⟩ := a
          obtain ⟨e', t1⟩ := b
          obtain ⟨h4, h5⟩ := hab
          have hh := h2.heap h5
          simp only [(apart_blind q).atEnd h5]
          cases e <;> cases e' <;> simp only [ResSame] at h4
          · split
            · exact .ret ⟨rfl, hh⟩
            · exact .ret ⟨rfl, hh⟩
          · exact .ret ⟨rfl, hh⟩
      · refine (runes_both h3 h2).bind fun a b _ _ hab => ?_
        exact body_both hf hg mk n m hnm.pred _ _ hab.2.2 hab.2.1

theorem errorFor_apart (rt : Rt) (G : Env) (r : Reader) {s t : Scanner} (h : FewerApart q s t) :
    t.errorFor ((Reader.fewer q r).what rt (Env.fewer q G)) = s.errorFor (r.what rt G) := by
  unfold Scanner.errorFor
  rw [what_fewer, (apart_blind q).mark h]

theorem token_both {f g : ReadFunc} (h : Both q lt gt f g) (hf : Safe True f) {s t : Scanner} (hs : Inside s)
    (ha : FewerApart q s t) : SimE lt gt (fun a b => b.1.1 = a.1.1 ∧ ResSame a.1.2 b.1.2 ∧ FewerApart q a.2 b.2 ∧ (a.1.2 = none → a.1.1.to = a.2.pos)) (s.tokenizeUse f) (t.tokenizeUse g) := by
  unfold Scanner.tokenizeUse
  have hm := (apart_blind q).mark ha
  refine (h s t hs ha).bind fun a b hx _ hab => ?_
  have hfw := ((hf s hs).2 a hx).2.2
  obtain ⟨e, s'⟩ := a
  obtain ⟨e', t'⟩ := b
  obtain ⟨h1, h2, h3⟩ := hab
  simp only [hm]
  cases e <;> cases e' <;> simp only [ResSame] at h1
  · refine .ret ⟨congrArg (makeToken s.pos) h2.pos, trivial, h2, fun _ => ?_⟩
    simp only at hfw
    show (makeToken s.pos s'.pos).to = s'.pos
    unfold makeToken
    split
    · omega
    · rfl
  · have := (apart_blind q).toMarker h2 s.mark
    exact .ret ⟨congrArg (makeToken s.pos) this.pos, h1, this, fun h => nomatch h⟩

/-- The token of a reader on the left only. -/
theorem token_gone {f g : ReadFunc} (h : Both q lt gt f g) (hb : Restores f) (hf : Safe True f) {s t : Scanner} (hs : Inside s)
    (ha : FewerApart q s t) : SimE lt gt (fun a b => ResSame a.1.2 b.1 ∧ FewerApart q a.2 b.2 ∧ (a.1.2 = none → a.1.1.to = a.2.pos)) (s.tokenizeUse f) (g t) := by
  refine SimE.out ?_
  unfold Scanner.tokenizeUse
  refine (h s t hs ha).bind fun a b hx _ hab => ?_
  have hfw := ((hf s hs).2 a hx).2.2
  obtain ⟨e, s'⟩ := a
  obtain ⟨e', t'⟩ := b
  obtain ⟨h1, h2, h3⟩ := hab
  cases e <;> cases e' <;> simp only [ResSame] at h1
  · refine .ret ⟨trivial, h2, fun _ => ?_⟩
    simp only at hfw
    show (makeToken s.pos s'.pos).to = s'.pos
    unfold makeToken
    split
    · omega
    · rfl
  · refine .ret ⟨h1, ?_, fun h => nomatch h⟩
    have hp := hb s hs _ _ hx
    simp only [Option.isSome_some, if_true, Scanner.mark, ← hp, toMarker_at h3.1]
    exact h2.stay

/-- Reading with a pick that is left out. -/
theorem gone_both (rt : Rt) (G : Env) {n m : Nat} {i : Bytes} {bk : Nat} {c : Reader} (hg : q.out i bk = true) (hb : Restores (read rt G n c)) (hf : Safe True (read rt G n c))
    (h : Both q lt gt (read rt G n c) (read rt (Env.fewer q G) m (Reader.fewer q c))) {s t : Scanner} (hs : Inside s) (ha : FewerApart q s t) :
    SimE lt gt (fun a b => ResSame a.1 b.1 ∧ FewerApart q a.2 b.2) (read rt G (n + 1) (.pick i bk c) s) (read rt (Env.fewer q G) m (Reader.fewer q (.pick i bk c)) t) := by
  simp only [Reader.fewer, hg, if_true]
  refine SimE.out ?_
  simp only [read]
  refine (token_gone h hb hf hs ha).bind fun a b _ _ hab => ?_
  obtain ⟨⟨k, e⟩, s'⟩ := a
  obtain ⟨e', t'⟩ := b
  obtain ⟨h1, h2, h5⟩ := hab
  cases e <;> cases e' <;> simp only [ResSame] at h1
  · exact .ret ⟨trivial, h2.leave hg⟩
  · exact .ret ⟨h1, h2⟩

/-- Reading with anything else. -/
theorem step_both (rt : Rt) (G : Env) {n m : Nat} (hnm : Fuel lt gt n m) {r : Reader} (hg : q.gone r = false) (hb : Reader.pickableApart rt G q r)
    (hsf : ∀ c ∈ r.subs, Safe True (read rt G n c))
    (ih : ∀ c ∈ r.subs, Both q lt gt (read rt G n c) (read rt (Env.fewer q G) m (Reader.fewer q c)))
    (ihG : ∀ i, r = .rule i → ∀ nm c, G[i]? = some ⟨nm, some c⟩ → Both q lt gt (read rt G n c) (read rt (Env.fewer q G) m (Reader.fewer q c)))
    {s t : Scanner} (hs : Inside s) (ha : FewerApart q s t) :
    SimE lt gt (fun a b => ResSame a.1 b.1 ∧ FewerApart q a.2 b.2) (read rt G (n + 1) r s)
      (read rt (Env.fewer q G) (m + 1) (Reader.fewer q r) t) := by
  by_cases hl : r.leaf = true
  · rw [leaf_fewer hl]
    exact (((apart_blind q).leaf ha rt G (Env.fewer q G) n m hl).mono fun a b _ _ hab => ⟨ResSame.of hab.1, hab.2⟩).sim
  have hB := apart_blind q
  have hm := hB.mark ha
  have hw : ∀ {s t : Scanner}, FewerApart q s t →
    t.errorFor ((Reader.fewer q r).what rt (Env.fewer q G)) = s.errorFor (r.what rt G) := fun h => errorFor_apart rt G r h
  cases r with
  | any rs =>
    simp only [Reader.fewer, read, hm]
    refine (any_both rs ih [] s t hs ha).bind fun a b _ _ hab => ?_
    obtain ⟨e, s'⟩ := a
    obtain ⟨e', t'⟩ := b
    obtain ⟨h1, h2⟩ := hab
    cases h2
    cases e
    · exact .ret ⟨trivial, h1⟩
    · exact .ret ⟨rfl, hB.toMarker h1 _⟩
  | at_ c =>
    simp only [Reader.fewer, read, hm]
    refine (ih c (by simp [Reader.subs]) s t hs ha).bind fun a b _ _ hab => ?_
    exact .ret ⟨hab.1, hB.toMarker hab.2.1 _⟩
  | body b c =>
    simp only [Reader.fewer] at hw ⊢
    simp only [read, hm]
    refine (body_both (ih b (by simp [Reader.subs])) (ih c (by simp [Reader.subs])) _ n m hnm s t hs ha).bind fun a b _ _ hab => ?_
    obtain ⟨e, s'⟩ := a
    obtain ⟨e', t'⟩ := b
    obtain ⟨h1, h2⟩ := hab
    cases h1
    cases e with
    | none => exact .ret ⟨hw (hB.toMarker h2 _), hB.toMarker h2 _⟩
    | some k => exact .ret ⟨trivial, hB.toMarker h2 _⟩
  | bodyTail b c =>
    simp only [Reader.fewer] at hw ⊢
    simp only [read, hm]
    refine (body_both (ih b (by simp [Reader.subs])) (ih c (by simp [Reader.subs])) _ n m hnm s t hs ha).bind fun a b _ _ hab => ?_
    obtain ⟨e, s'⟩ := a
    obtain ⟨e', t'⟩ := b
    obtain ⟨h1, h2⟩ := hab
    cases h1
    cases e with
    | none => exact .ret ⟨hw (hB.toMarker h2 _), hB.toMarker h2 _⟩
    | some k => exact .ret ⟨trivial, h2⟩
  | janusBegin i nm c =>
    simp only [Reader.fewer, read]
    refine (token_both (ih c (by simp [Reader.subs])) (hsf c (by simp [Reader.subs])) hs ha).bind fun a b _ _ hab => ?_
    obtain ⟨⟨k, e⟩, s'⟩ := a
    obtain ⟨⟨k', e'⟩, t'⟩ := b
    obtain ⟨h0, h1, h2, _⟩ := hab
    cases h0
    cases e <;> cases e' <;> simp only [ResSame] at h1
    · refine ((hB.getE h2 _).sim (lt := lt) (gt := gt)).bind fun a b _ _ hab => ?_
      subst hab
      exact .ret ⟨trivial, hB.setJan h2 _ _⟩
    · exact .ret ⟨h1, h2⟩
  | many c =>
    simp only [Reader.fewer] at hw ⊢
    simp only [read, hm]
    refine (zom_both (ih c (by simp [Reader.subs])) n m hnm s t hs ha).bind fun a b _ _ hab => ?_
    refine .ret ⟨?_, hab.1⟩
    unfold Scanner.errorIfFalse
    rw [hB.mark hab.1]
    split
    · have := hw hab.1
      unfold Scanner.errorFor at this
      rw [hB.mark hab.1] at this
      exact this
    · trivial
  | map f c =>
    simp only [Reader.fewer, read]
    refine (token_both (ih c (by simp [Reader.subs])) (hsf c (by simp [Reader.subs])) hs ha).bind fun a b _ _ hab => ?_
    obtain ⟨⟨k, e⟩, s'⟩ := a
    obtain ⟨⟨k', e'⟩, t'⟩ := b
    obtain ⟨h0, h1, h2, _⟩ := hab
    cases h0
    cases e <;> cases e' <;> simp only [ResSame] at h1
    · exact .ret ⟨trivial, h2.full, h2.pos, h2.tracked, h2.tracker, h2.cells, h2.janus, congrArg (· ++ [(f, k)]) h2.maps, h2.logs, h2.others, h2.kept⟩
    · exact .ret ⟨h1, h2⟩
  | pick i bk c =>
    simp only [Leave.gone] at hg
    simp only [Reader.fewer, hg, Bool.false_eq_true, if_false, read]
    refine (token_both (ih c (by simp [Reader.subs])) (hsf c (by simp [Reader.subs])) hs ha).bind fun a b _ _ hab => ?_
    obtain ⟨⟨k, e⟩, s'⟩ := a
    obtain ⟨⟨k', e'⟩, t'⟩ := b
    obtain ⟨h0, h1, h2, h5⟩ := hab
    cases h0
    cases e <;> cases e' <;> simp only [ResSame] at h1
    · refine .ret ⟨trivial, ?_⟩
      exact h2.put hg
    · exact .ret ⟨h1, h2⟩
  | monitor i l c =>
    simp only [Reader.fewer, read]
    refine (ih c (by simp [Reader.subs]) (s.enterLog rt i l) (t.enterLog rt i l) hs ⟨ha.full, ha.pos, ha.tracked, ha.tracker, ha.cells, ha.janus, ha.maps,
      ?_, ha.others, ha.kept⟩).bind fun a b _ _ hab => ?_
    · have := ha.pos
      unfold Scanner.enterLog
      simp only [ha.logs, this]
    obtain ⟨h1, h2, h3⟩ := hab
    have h1' := ResSame.eq h1
    refine .ret ⟨h1, h2.full, h2.pos, h2.tracked, h2.tracker, h2.cells, h2.janus, h2.maps, ?_, h2.others, h2.kept⟩
    simp only [h2.logs, ha.logs, ha.pos, h2.pos, h1']
  | named w c =>
    simp only [Reader.fewer, read]
    exact (ih c (by simp [Reader.subs]) s t hs ha).mono fun a b _ _ hab => ⟨hab.1, hab.2.1⟩
  | not c =>
    simp only [Reader.fewer, read, hm]
    refine (ih c (by simp [Reader.subs]) s t hs ha).bind fun a b ha1 _ hab => ?_
    obtain ⟨e, s'⟩ := a
    obtain ⟨e', t'⟩ := b
    obtain ⟨h1, h2, h3⟩ := hab
    have h4 := hB.toMarker h2 s.mark
    cases e <;> cases e' <;> simp only [ResSame] at h1
    · exact .ret ⟨errorFor_apart rt G c h4, h4⟩
    · exact ((hB.moveRunes h4).sim (lt := lt) (gt := gt)).bind fun a b _ _ hab => .ret ⟨trivial, hab.2⟩
  | opt c =>
    simp only [Reader.fewer, read]
    exact (ih c (by simp [Reader.subs]) s t hs ha).bind fun a b _ _ hab => .ret ⟨trivial, hab.2.1⟩
  | past c =>
    simp only [Reader.fewer] at hw ⊢
    simp only [read, hm]
    refine (past_both (ih c (by simp [Reader.subs])) n m hnm s t hs ha).bind fun a b _ _ hab => ?_
    obtain ⟨e, s'⟩ := a
    obtain ⟨e', t'⟩ := b
    obtain ⟨h1, h2⟩ := hab
    cases h1
    cases e with
    | false => exact .ret ⟨hw (hB.toMarker h2 _), hB.toMarker h2 _⟩
    | true => exact .ret ⟨trivial, h2⟩
  | «to» c =>
    simp only [Reader.fewer] at hw ⊢
    simp only [read, hm]
    refine (to_both (ih c (by simp [Reader.subs])) n m hnm s t hs ha).bind fun a b _ _ hab => ?_
    obtain ⟨e, s'⟩ := a
    obtain ⟨e', t'⟩ := b
    obtain ⟨h1, h2⟩ := hab
    cases h1
    cases e with
    | false => exact .ret ⟨hw (hB.toMarker h2 _), hB.toMarker h2 _⟩
    | true => exact .ret ⟨trivial, h2⟩
  | seq rs =>
    simp only [Reader.fewer, read, hm]
    refine (seq_both rs ih s t hs ha).bind fun a b _ _ hab => ?_
    obtain ⟨e, s'⟩ := a
    obtain ⟨e', t'⟩ := b
    obtain ⟨h1, h2, h3⟩ := hab
    cases e <;> cases e' <;> simp only [ResSame] at h1
    · exact .ret ⟨trivial, h2⟩
    · exact .ret ⟨h1, hB.toMarker h2 _⟩
  | skipSeq sk rs =>
    simp only [Reader.fewer, read, hm]
    have hsk := ih sk (by simp [Reader.subs])
    refine (hsk s t hs ha).bind fun a b _ _ hab => ?_
    obtain ⟨e, s'⟩ := a
    obtain ⟨e', t'⟩ := b
    obtain ⟨h1, h2, h3⟩ := hab
    cases e <;> cases e' <;> simp only [ResSame] at h1
    · refine (skip_both hsk rs (fun c hc => ih c (List.mem_cons_of_mem _ hc)) s' t' h3 h2).bind fun a b _ _ hab => ?_
      obtain ⟨e, s'⟩ := a
      obtain ⟨e', t'⟩ := b
      obtain ⟨h1, h2, h3⟩ := hab
      cases e <;> cases e' <;> simp only [ResSame] at h1
      · exact .ret ⟨trivial, h2⟩
      · exact .ret ⟨h1, hB.toMarker h2 _⟩
    · exact .ret ⟨h1, hB.toMarker h2 _⟩
  | times k c =>
    simp only [Reader.fewer, read]
    exact (times_both (ih c (by simp [Reader.subs])) k.toNat s t hs ha).mono fun a b _ _ hab => ⟨hab.1, hab.2.1⟩
  | wrap w f =>
    simp only [Reader.fewer, read]
    exact (hb.sim hs ha).mono fun a b _ _ hab => ⟨ResSame.of hab.1, hab.2⟩
  | zom c =>
    simp only [Reader.fewer, read]
    exact (zom_both (ih c (by simp [Reader.subs])) n m hnm s t hs ha).bind fun a b _ _ hab => .ret ⟨trivial, hab.1⟩
  | rule i =>
    simp only [Reader.fewer, read, fewer_get]
    have := ihG i rfl
    rcases hi : G[i]? with _ | ⟨nm, _ | c⟩
    · exact .panic
    · exact .panic
    · exact (this nm c hi s t hs ha).mono fun a b _ _ hab => ⟨hab.1, hab.2.1⟩
  | ruleName c =>
    simp only [Reader.fewer, read]
    refine (ih c (by simp [Reader.subs]) s t hs ha).bind fun a b _ _ hab => ?_
    obtain ⟨e, s'⟩ := a
    obtain ⟨e', t'⟩ := b
    obtain ⟨h1, h2, h3⟩ := hab
    cases e <;> cases e' <;> simp only [ResSame] at h1
    · exact .ret ⟨trivial, h2⟩
    · exact .ret ⟨ResSame.of (by simpa [Scanner.errorIfFalse, Scanner.errorFor, Scanner.mark, Reader.what] using h2.pos), h2⟩
  | grammar w c =>
    simp only [Reader.fewer, read]
    refine (ih c (by simp [Reader.subs]) s t hs ha).bind fun a b _ _ hab => ?_
    obtain ⟨e, s'⟩ := a
    obtain ⟨e', t'⟩ := b
    obtain ⟨h1, h2, h3⟩ := hab
    cases e <;> cases e' <;> simp only [ResSame] at h1
    · exact .ret ⟨trivial, h2⟩
    · exact .ret ⟨by simp only [h1]; rfl, h2⟩
  | _ => simp [Reader.leaf] at hl

theorem Both.of (rt : Rt) (G : Env) {n m : Nat} {r : Reader} (hsafe : Safe True (read rt G n r))
    (h : ∀ s t, Inside s → FewerApart q s t → SimE lt gt (fun a b => ResSame a.1 b.1 ∧ FewerApart q a.2 b.2) (read rt G n r s)
      (read rt (Env.fewer q G) m (Reader.fewer q r) t)) : Both q lt gt (read rt G n r) (read rt (Env.fewer q G) m (Reader.fewer q r)) :=
  fun s t hs ha => (h s t hs ha).mono fun a _ hx _ hab => ⟨hab.1, hab.2, ((hsafe s hs).2 a hx).1⟩

/-- What the comparison needs of every part. -/
def Reader.pickyApart (rt : Rt) (G : Env) (q : Leave) (r : Reader) : Prop := r.safeHere True G ∧ Reader.pickableApart rt G q r

theorem pickyApart_safe {rt : Rt} {G : Env} (hG : G.Every (Reader.pickyApart rt G q)) {r : Reader} (hr : r.Every (Reader.pickyApart rt G q)) (n : Nat) :
    Safe True (read rt G n r) := read_safe rt G (hG.imp fun _ h => h.1) n r (hr.imp fun _ h => h.1)

/-- No pick is left out: the same budget. -/
theorem apart_equal (rt : Rt) (G : Env) (hG : G.Every fun r => Reader.pickyApart rt G q r ∧ q.gone r = false) : ∀ n r,
    (r.Every fun r => Reader.pickyApart rt G q r ∧ q.gone r = false) → Both q False False (read rt G n r) (read rt (Env.fewer q G) n (Reader.fewer q r))
  | 0, _, _ => fun _ _ _ _ => .timeout
  | n + 1, r, hr => by
    have hG' := hG.imp fun _ h => h.1
    refine Both.of rt G (pickyApart_safe hG' (hr.imp fun _ h => h.1) _) fun s t hs ha => ?_
    refine step_both rt G ⟨fun h => by omega, fun h => by omega⟩ hr.here.2 hr.here.1.2 (fun c hc => pickyApart_safe hG' ((hr.sub hc).imp fun _ h => h.1) n)
      (fun c hc => apart_equal rt G hG n c (hr.sub hc)) (fun i _ nm c hi => ?_) hs ha
    exact apart_equal rt G hG n c (hG.get hi)

/-- Without the wrappers the budget lasts at least as long. -/
theorem apart_forward (rt : Rt) (G : Env) (hG : G.Every (Reader.pickyApart rt G q)) : ∀ n m r, r.Every (Reader.pickyApart rt G q) → n ≤ m →
    Both q True False (read rt G n r) (read rt (Env.fewer q G) m (Reader.fewer q r))
  | 0, _, _, _, _ => fun _ _ _ _ => .left trivial
  | n + 1, m, r, hr, hnm => by
    refine Both.of rt G (pickyApart_safe hG hr _) fun s t hs ha => ?_
    cases hg : q.gone r with
    | true =>
      match r, hg, hr with
      | .pick i bk c, hg, hr =>
        exact gone_both rt G hg (hr.here.2 hg n) (pickyApart_safe hG (hr.sub (by simp [Reader.subs])) n) (apart_forward rt G hG n m c (hr.sub (by simp [Reader.subs])) (by omega)) hs ha
    | false =>
      obtain ⟨m, rfl⟩ : ∃ k, m = k + 1 := ⟨m - 1, by omega⟩
      refine step_both rt G ⟨fun _ => trivial, fun _ => by omega⟩ hg hr.here.2 (fun c hc => pickyApart_safe hG (hr.sub hc) n)
        (fun c hc => apart_forward rt G hG n m c (hr.sub hc) (by omega)) (fun i _ nm c hi => ?_) hs ha
      exact apart_forward rt G hG n m c (hG.get hi) (by omega)

/-- Every budget without the wrappers is matched by a large enough one with them. -/
theorem apart_backward (rt : Rt) (G : Env) (hG : G.Every (Reader.pickyApart rt G q)) : ∀ m r, r.Every (Reader.pickyApart rt G q) →
    ∃ n₀, ∀ n, n₀ ≤ n → Both q False True (read rt G n r) (read rt (Env.fewer q G) m (Reader.fewer q r))
  | 0, _, _ => ⟨0, fun _ _ _ _ _ _ => .right trivial⟩
  | m + 1, r, hr => by
    have all : ∀ l : List Reader, (∀ c ∈ l, c.Every (Reader.pickyApart rt G q)) →
        ∃ n₀, ∀ n, n₀ ≤ n → ∀ c ∈ l, Both q False True (read rt G n c) (read rt (Env.fewer q G) m (Reader.fewer q c)) := by
      intro l hl
      induction l with
      | nil => exact ⟨0, by simp⟩
      | cons c l ih =>
        obtain ⟨n1, h1⟩ := ih fun c hc => hl c (List.mem_cons_of_mem _ hc)
        obtain ⟨n2, h2⟩ := apart_backward rt G hG m c (hl c (by simp))
        refine ⟨max n1 n2, fun n hn c' hc' => ?_⟩
        rcases List.mem_cons.mp hc' with rfl | hc'
        · exact h2 n (by omega)
        · exact h1 n (by omega) c' hc'
    induction hr with
    | @mk r hp hsub ih =>
      have hr : r.Every (Reader.pickyApart rt G q) := .mk hp hsub
      cases hg : q.gone r with
      | true =>
        match r, hg, hr, ih with
        | .pick i bk c, hg, hr, ih =>
          obtain ⟨n₀, h⟩ := ih c (by simp [Reader.subs])
          refine ⟨n₀ + 1, fun n hn => ?_⟩
          obtain ⟨n, rfl⟩ : ∃ k, n = k + 1 := ⟨n - 1, by omega⟩
          exact Both.of rt G (pickyApart_safe hG hr _) fun s t hs ha =>
            gone_both rt G hg (hr.here.2 hg n) (pickyApart_safe hG (hr.sub (by simp [Reader.subs])) n) (h n (by omega)) hs ha
      | false =>
        obtain ⟨n1, h1⟩ := all r.subs hsub
        have : ∃ n2, ∀ n, n2 ≤ n → ∀ i, r = .rule i → ∀ nm c, G[i]? = some ⟨nm, some c⟩ →
            Both q False True (read rt G n c) (read rt (Env.fewer q G) m (Reader.fewer q c)) := by
          by_cases hx : ∃ i nm c, r = .rule i ∧ G[i]? = some ⟨nm, some c⟩
          · obtain ⟨i, nm, c, rfl, hi⟩ := hx
            obtain ⟨n2, h2⟩ := apart_backward rt G hG m c (hG.get hi)
            refine ⟨n2, fun n hn j hj nm' c' hi' => ?_⟩
            cases hj
            rw [hi] at hi'
            cases hi'
            exact h2 n hn
          · exact ⟨0, fun n _ i hi nm c hc => absurd ⟨i, nm, c, hi, hc⟩ hx⟩
        obtain ⟨n2, h2⟩ := this
        refine ⟨max (max n1 n2) m + 1, fun n hn => ?_⟩
        obtain ⟨n, rfl⟩ : ∃ k, n = k + 1 := ⟨n - 1, by omega⟩
        exact Both.of rt G (pickyApart_safe hG hr _) fun s t hs ha => step_both rt G ⟨fun _ => by omega, fun _ => trivial⟩ hg hr.here.2 (fun c hc => pickyApart_safe hG (hr.sub hc) n)
          (h1 n (by omega)) (h2 n (by omega)) hs ha

/-- With or without the wrappers: the same result and scanners that differ in the records only. -/
theorem apart_ret (rt : Rt) (G : Env) (hG : G.Every (Reader.pickyApart rt G q)) {r : Reader} (hr : r.Every (Reader.pickyApart rt G q)) {s t : Scanner}
    (hs : Inside s) (ha : FewerApart q s t) {n : Nat} {e : Option Err} {s' : Scanner} (h : read rt G n r s = .ret (e, s')) :
    ∃ e' t', read rt (Env.fewer q G) n (Reader.fewer q r) t = .ret (e', t') ∧ ResSame e e' ∧ FewerApart q s' t' := by
  have := apart_forward rt G hG n n r hr (Nat.le_refl _) s t hs ha
  rw [h] at this
  generalize read rt (Env.fewer q G) n (Reader.fewer q r) t = y at this
  cases this with
  | @ret _ b hab => exact ⟨b.1, b.2, rfl, hab.1, hab.2.1⟩
  | right h => exact h.elim

theorem apart_ret' (rt : Rt) (G : Env) (hG : G.Every (Reader.pickyApart rt G q)) {r : Reader} (hr : r.Every (Reader.pickyApart rt G q)) {s t : Scanner}
    (hs : Inside s) (ha : FewerApart q s t) {m : Nat} {e' : Option Err} {t' : Scanner}
    (h : read rt (Env.fewer q G) m (Reader.fewer q r) t = .ret (e', t')) :
    ∃ n e s', read rt G n r s = .ret (e, s') ∧ ResSame e e' ∧ FewerApart q s' t' := by
  obtain ⟨n, hn⟩ := apart_backward rt G hG m r hr
  have := hn n (Nat.le_refl _) s t hs ha
  rw [h] at this
  generalize hx : read rt G n r s = x at this
  cases this with
  | @ret a _ hab => exact ⟨n, a.1, a.2, hx, hab.1, hab.2.1⟩
  | left h => exact h.elim

end
end Tok.Free
