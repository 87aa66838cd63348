/-
Picking less.
-/
import Verif.Spec.Fewer
import Verif.Proofs.Strip
import Verif.Proofs.Basket

namespace Tok.Less
open Spec

variable {lt gt : Prop}

section
variable {q : Leave}

/-- No error in both cases, or the same error. -/
def ResSame : Option Err → Option Err → Prop
  | none, none => True
  | some e, some e' => e' = e
  | _, _ => False

theorem ResSame.eq {e e' : Option Err} (h : ResSame e e') : e' = e := by
  cases e <;> cases e' <;> simp_all [ResSame]

theorem _root_.Tok.Spec.DoesSame.sim {R : Scanner → Scanner → Prop} {f : ReadFunc} (h : DoesSame R f) {s t : Scanner} (hi : Inside s) (hs : R s t) :
    SimE lt gt (fun a b => b.1 = a.1 ∧ R a.2 b.2) (f s) (f t) := by
  have := h s t hi.1 hi.2 hs
  revert this
  rcases f s with ⟨e, s'⟩ | _ | _ <;> rcases f t with ⟨e', t'⟩ | _ | _ <;> intro h <;> first | exact h.elim | exact .ret h | exact .panic | exact .timeout

theorem _root_.Tok.Spec.DoesSame.of_sim {R : Scanner → Scanner → Prop} {f : ReadFunc}
    (h : ∀ s t, Inside s → R s t → SimE False False (fun a b => b.1 = a.1 ∧ R a.2 b.2) (f s) (f t)) : DoesSame R f := by
  intro s t h1 h2 hR
  generalize hx : f s = x
  generalize hy : f t = y
  have := hx ▸ hy ▸ h s t ⟨h1, h2⟩ hR
  cases this <;> first | assumption | trivial | contradiction

theorem ResSame.of {e e' : Option Err} (h : e' = e) : ResSame e e' := by
  subst h; cases e' <;> simp [ResSame]

theorem update_filter {m : Int} {l : List Segment} (h : l.Pairwise fun a c => a.tok.to ≤ c.tok.to) : basketUpdate m l = l.filter fun g => decide (g.tok.to ≤ m) := by
  simpa using basketUpdate_append (m := m) (p := []) (l := l) (by simp) h

theorem _root_.Tok.Spec.Fewer.at {s t : Scanner} (h : Fewer q s t) (m : Int) : Fewer q (s.at m) (t.at m) := by
  obtain ⟨f, p, tr, hp⟩ := s
  obtain ⟨f', p', tr', hp'⟩ := t
  obtain ⟨h1, h2, ⟨b, h0, h11, h12⟩, h3, h4, h5, h6, h7, h8, h9, h10⟩ := h
  simp only at h0 h3
  subst h0 h3
  have hu := update_filter (m := m) h11
  refine ⟨h1, rfl, ⟨b, rfl, ?_, ?_⟩, rfl, h4, h5, h6, h7, h8, fun i hi => ?_, ?_⟩
  · show (upd hp.baskets b _ b).Pairwise _
    rw [upd_self, hu]
    exact h11.filter _
  · show ∀ g ∈ upd hp.baskets b _ b, g.tok.to ≤ m
    rw [upd_self, hu]
    intro g hg
    simpa using (List.mem_filter.mp hg).2
  · show upd hp'.baskets b _ i = upd hp.baskets b _ i
    by_cases e : i = b
    · subst e
      rw [upd_self, upd_self, show hp'.baskets i = hp.baskets i from h9 i hi]
    · rw [upd_ne _ _ e, upd_ne _ _ e]
      exact h9 i hi
  · show upd hp'.baskets b _ q.basket = q.rest (upd hp.baskets b _ q.basket)
    by_cases e : q.basket = b
    · subst e
      have hu' := update_filter (m := m) (h10 ▸ h11.filter _ : (hp'.baskets q.basket).Pairwise _)
      simp only at h10
      rw [upd_self, upd_self, hu, hu', h10]
      simp only [Leave.rest, List.filter_filter, Bool.and_comm]
    · rw [upd_ne _ _ e, upd_ne _ _ e]
      exact h10

/-- Going to the place where the scanner is. -/
theorem _root_.Tok.Spec.Fewer.stay {s t : Scanner} (h : Fewer q s t) : Fewer q (s.at s.pos) t := by
  have : s.at s.pos = s := by
    obtain ⟨f, p, tr, hp⟩ := s
    obtain ⟨b, h0, _, h12⟩ := h.tracked
    simp only at h0
    subst h0
    show (⟨f, p, _, { hp with baskets := upd hp.baskets b (basketUpdate p (hp.baskets b)) }⟩ : Scanner) = _
    rw [basketUpdate_self h12]
    have : upd hp.baskets b (hp.baskets b) = hp.baskets := by
      funext i
      unfold upd
      split
      · rename_i e; rw [e]
      · rfl
    rw [this]
  rw [this]; exact h

/-- A pick keeps the segments of the tracked basket in order. -/
theorem add_tracked {s : Scanner} (h : ∃ b, s.tracker = some (.basket b) ∧ (s.heap.baskets b).Pairwise (fun a c => a.tok.to ≤ c.tok.to) ∧
    ∀ g ∈ s.heap.baskets b, g.tok.to ≤ s.pos) {i : Bytes} {bk : Nat} {k : Token} (hk : k.to = s.pos) :
    ∃ b, s.tracker = some (.basket b) ∧ (upd s.heap.baskets bk (s.heap.baskets bk ++ [⟨i, k⟩]) b).Pairwise (fun a c => a.tok.to ≤ c.tok.to) ∧
      ∀ g ∈ upd s.heap.baskets bk (s.heap.baskets bk ++ [⟨i, k⟩]) b, g.tok.to ≤ s.pos := by
  obtain ⟨b, h1, h2, h3⟩ := h
  refine ⟨b, h1, ?_⟩
  by_cases e : b = bk
  · subst e
    rw [upd_self]
    refine ⟨List.pairwise_append.mpr ⟨h2, by simp, fun a ha c hc => ?_⟩, fun g hg => ?_⟩
    · obtain rfl := List.mem_singleton.mp hc
      have := h3 a ha
      simp only [hk]
      exact this
    · rcases List.mem_append.mp hg with hg | hg
      · exact h3 g hg
      · obtain rfl := List.mem_singleton.mp hg
        simp only [hk]
        exact Int.le_refl _
  · rw [upd_ne _ _ e]
    exact ⟨h2, h3⟩

/-- A pick on the left only. -/
theorem _root_.Tok.Spec.Fewer.leave {s t : Scanner} (h : Fewer q s t) {i : Bytes} {bk : Nat} (hg : q.out i bk = true) {k : Token} (hk : k.to = s.pos) :
    Fewer q { s with heap := { s.heap with baskets := upd s.heap.baskets bk (s.heap.baskets bk ++ [⟨i, k⟩]) } } t := by
  simp only [Leave.out, Bool.and_eq_true, beq_iff_eq] at hg
  obtain ⟨rfl, hd⟩ := hg
  refine ⟨h.full, h.pos, add_tracked h.tracked hk, h.tracker, h.cells, h.janus, h.tracks, h.maps, h.logs, fun j hj => ?_, ?_⟩
  · simp only [upd_ne _ _ hj]; exact h.others j hj
  · simp only [upd_self]
    rw [h.kept]
    simp [Leave.rest, hd]

/-- A pick on both sides. -/
theorem _root_.Tok.Spec.Fewer.put {s t : Scanner} (h : Fewer q s t) {i : Bytes} {bk : Nat} (hg : q.out i bk = false) {k : Token} (hk : k.to = s.pos) :
    Fewer q { s with heap := { s.heap with baskets := upd s.heap.baskets bk (s.heap.baskets bk ++ [⟨i, k⟩]) } }
      { t with heap := { t.heap with baskets := upd t.heap.baskets bk (t.heap.baskets bk ++ [⟨i, k⟩]) } } := by
  refine ⟨h.full, h.pos, add_tracked h.tracked hk, h.tracker, h.cells, h.janus, h.tracks, h.maps, h.logs, fun j hj => ?_, ?_⟩
  · by_cases hb : bk = q.basket
    · subst hb
      simp only [upd_ne _ _ hj]; exact h.others j hj
    · simp only [upd]
      rw [h.others bk hb]
      split
      · rfl
      · exact h.others j hj
  · by_cases hb : bk = q.basket
    · subst hb
      have hd : q.drop i = false := by simpa [Leave.out] using hg
      simp only [upd_self]
      rw [h.kept]
      simp [Leave.rest, hd]
    · have hb' : q.basket ≠ bk := fun e => hb e.symm
      simp only [upd_ne _ _ hb']; exact h.kept

theorem fewer_blind (q : Leave) : Blind (Fewer q) where
  full h := h.full
  pos h := h.pos
  at_ h m := h.at m
  janus h := h.janus
  setCell h c v := ⟨h.full, h.pos, h.tracked, h.tracker, congrArg (fun f => upd f c v) h.cells, h.janus, h.tracks, h.maps, h.logs, h.others, h.kept⟩
  setJanus h _ := ⟨h.full, h.pos, h.tracked, h.tracker, h.cells, rfl, h.tracks, h.maps, h.logs, h.others, h.kept⟩

/-- What a sub-reader does on both sides. -/
def Both (q : Leave) (lt gt : Prop) (f g : ReadFunc) : Prop :=
  ∀ s t, Inside s → Fewer q s t → SimE lt gt (fun a b => ResSame a.1 b.1 ∧ Fewer q a.2 b.2 ∧ Inside a.2) (f s) (g t)

/-- The picks that are left out. -/
def _root_.Tok.Spec.Leave.gone (q : Leave) : Reader → Bool
  | .pick i b _ => q.out i b
  | _ => false

/-- A read that left the baskets and what the trackers were told as they are. -/
def Still (s s' : Scanner) : Prop := s'.heap.baskets = s.heap.baskets ∧ s'.heap.tracks = s.heap.tracks

/-- The read of a body, whose scanner has no tracker, picks nothing and does the same on both sides. -/
def SubSame (rt : Rt) (G : Env) (q : Leave) (b : Reader) : Prop := ∀ lt gt n m, Fuel lt gt n m → ∀ s t, Inside s → s.tracker = none → FewerApart q s t →
  SimE lt gt (fun x y => ResSame x.1 y.1 ∧ FewerApart q x.2 y.2 ∧ x.2.tracker = none ∧ Still s x.2 ∧ Still t y.2) (read rt G n b s)
    (read rt (Env.fewer q G) m (Reader.fewer q b) t)

/-- What the comparison needs: bodies that pick nothing, functions of the client that do not look at the basket, and a reader inside a pick that is left out goes back on failure. -/
def Reader.pickable (rt : Rt) (G : Env) (q : Leave) : Reader → Prop
  | .wrap _ f => DoesSame (Fewer q) f
  | .body b _ => SubSame rt G q b
  | .bodyTail b _ => SubSame rt G q b
  | .pick i b c => q.out i b = true → ∀ n, Restores (read rt G n c)
  | _ => True

theorem fewer_get (q : Leave) (G : Env) (i : Nat) : (Env.fewer q G)[i]? = G[i]?.map fun rl => ⟨rl.name, rl.reader.map (Reader.fewer q)⟩ := by
  unfold Env.fewer
  rw [List.getElem?_map]

theorem any_both {rd rd' : Reader → ReadFunc} : ∀ (rs : List Reader), (∀ r ∈ rs, Both q lt gt (rd r) (rd' (Reader.fewer q r))) →
    ∀ es s t, Inside s → Fewer q s t → SimE lt gt (fun a b => Fewer q a.2 b.2 ∧ b.1 = a.1) (anyLoop rd rs es s) (anyLoop rd' (Reader.fewers q rs) es t)
  | [], _, es, s, t, _, h => .ret ⟨h, rfl⟩
  | r :: rs, hr, es, s, t, hs, h => (hr r (by simp) s t hs h).bind fun a b _ _ hab => by
    obtain ⟨e, s'⟩ := a
    obtain ⟨e', t'⟩ := b
    obtain ⟨h1, h2, h3⟩ := hab
    cases e <;> cases e' <;> simp only [ResSame] at h1
    · exact .ret ⟨h2, rfl⟩
    · subst h1
      exact any_both rs (fun r hr' => hr r (List.mem_cons_of_mem _ hr')) _ _ _ h3 h2

theorem seq_both {rd rd' : Reader → ReadFunc} : ∀ (rs : List Reader), (∀ r ∈ rs, Both q lt gt (rd r) (rd' (Reader.fewer q r))) →
    Both q lt gt (seqLoop rd rs) (seqLoop rd' (Reader.fewers q rs))
  | [], _, _, _, hs, h => .ret ⟨trivial, h, hs⟩
  | r :: rs, hr, s, t, hs, h => (hr r (by simp) s t hs h).bind fun a b _ _ hab => by
    obtain ⟨e, s'⟩ := a
    obtain ⟨e', t'⟩ := b
    obtain ⟨h1, h2, h3⟩ := hab
    cases e <;> cases e' <;> simp only [ResSame] at h1
    · exact seq_both rs (fun r hr' => hr r (List.mem_cons_of_mem _ hr')) _ _ h3 h2
    · exact .ret ⟨h1, h2, h3⟩

theorem skip_both {rd rd' : Reader → ReadFunc} {sk : Reader} (hsk : Both q lt gt (rd sk) (rd' (Reader.fewer q sk))) : ∀ (rs : List Reader),
    (∀ r ∈ rs, Both q lt gt (rd r) (rd' (Reader.fewer q r))) →
    Both q lt gt (skipSeqLoop rd sk rs) (skipSeqLoop rd' (Reader.fewer q sk) (Reader.fewers q rs))
  | [], _, _, _, hs, h => .ret ⟨trivial, h, hs⟩
  | r :: rs, hr, s, t, hs, h => (hr r (by simp) s t hs h).bind fun a b _ _ hab => by
    obtain ⟨e, s'⟩ := a
    obtain ⟨e', t'⟩ := b
    obtain ⟨h1, h2, h3⟩ := hab
    cases e <;> cases e' <;> simp only [ResSame] at h1
    · refine (hsk _ _ h3 h2).bind fun a b _ _ hab => ?_
      obtain ⟨e, s'⟩ := a
      obtain ⟨e', t'⟩ := b
      obtain ⟨h1, h2, h3⟩ := hab
      cases e <;> cases e' <;> simp only [ResSame] at h1
      · exact skip_both hsk rs (fun r hr' => hr r (List.mem_cons_of_mem _ hr')) _ _ h3 h2
      · exact .ret ⟨h1, h2, h3⟩
    · exact .ret ⟨h1, h2, h3⟩

theorem times_both {f g : ReadFunc} (hf : Both q lt gt f g) : ∀ k, Both q lt gt (timesLoop f k) (timesLoop g k)
  | 0, _, _, hs, h => .ret ⟨trivial, h, hs⟩
  | k + 1, s, t, hs, h => (hf s t hs h).bind fun a b _ _ hab => by
    obtain ⟨e, s'⟩ := a
    obtain ⟨e', t'⟩ := b
    obtain ⟨h1, h2, h3⟩ := hab
    cases e <;> cases e' <;> simp only [ResSame] at h1
    · exact times_both hf k _ _ h3 h2
    · exact .ret ⟨h1, h2, h3⟩

theorem zom_both {f g : ReadFunc} (hf : Both q lt gt f g) : ∀ n m, Fuel lt gt n m → ∀ s t, Inside s → Fewer q s t →
    SimE lt gt (fun a b => Fewer q a b ∧ Inside a) (zomLoop f n s) (zomLoop g m t)
  | 0, m, hnm, s, t, _, _ => hnm.zero (fun h => by subst h; rfl)
  | n + 1, 0, hnm, s, t, _, _ => hnm.zero'
  | n + 1, m + 1, hnm, s, t, hs, h => (hf s t hs h).bind fun a b _ _ hab => by
    obtain ⟨e, s'⟩ := a
    obtain ⟨e', t'⟩ := b
    obtain ⟨h1, h2, h3⟩ := hab
    cases e <;> cases e' <;> simp only [ResSame] at h1
    · exact zom_both hf n m hnm.pred _ _ h3 h2
    · exact .ret ⟨h2, h3⟩

theorem runes_both {s t : Scanner} (hs : Inside s) (h : Fewer q s t) :
    SimE lt gt (fun a b => b.1 = a.1 ∧ Fewer q a.2 b.2 ∧ Inside a.2) (s.moveRunes 1) (t.moveRunes 1) :=
  (((fewer_blind q).moveRunes h).mono fun a b ha _ hab => ⟨hab.1, hab.2, ((moveRunes_safe (p := True) hs).2 a ha).1⟩).sim

theorem past_both {f g : ReadFunc} (hf : Both q lt gt f g) : ∀ n m, Fuel lt gt n m → ∀ s t, Inside s → Fewer q s t →
    SimE lt gt (fun a b => b.1 = a.1 ∧ Fewer q a.2 b.2) (pastLoop f n s) (pastLoop g m t)
  | 0, m, hnm, s, t, _, _ => hnm.zero (fun h => by subst h; rfl)
  | n + 1, 0, hnm, s, t, _, _ => hnm.zero'
  | n + 1, m + 1, hnm, s, t, hs, h => by
    unfold pastLoop
    rw [(fewer_blind q).atEnd h]
    split
    · exact .ret ⟨rfl, h⟩
    · refine (hf s t hs h).bind fun a b _ _ hab => ?_
      obtain ⟨e, s'⟩ := a
      obtain ⟨e', t'⟩ := b
      obtain ⟨h1, h2, h3⟩ := hab
      cases e <;> cases e' <;> simp only [ResSame] at h1
      · exact .ret ⟨rfl, h2⟩
      · refine (runes_both h3 h2).bind fun a b _ _ hab => ?_
        exact past_both hf n m hnm.pred _ _ hab.2.2 hab.2.1

theorem to_both {f g : ReadFunc} (hf : Both q lt gt f g) : ∀ n m, Fuel lt gt n m → ∀ s t, Inside s → Fewer q s t →
    SimE lt gt (fun a b => b.1 = a.1 ∧ Fewer q a.2 b.2) (toLoop f n s) (toLoop g m t)
  | 0, m, hnm, s, t, _, _ => hnm.zero (fun h => by subst h; rfl)
  | n + 1, 0, hnm, s, t, _, _ => hnm.zero'
  | n + 1, m + 1, hnm, s, t, hs, h => by
    unfold toLoop
    have hm := (fewer_blind q).mark h
    refine (hf s t hs h).bind fun a b _ _ hab => ?_
    obtain ⟨e, s'⟩ := a
    obtain ⟨e', t'⟩ := b
    obtain ⟨h1, h2, h3⟩ := hab
    cases e <;> cases e' <;> simp only [ResSame] at h1
    · simp only [hm]
      exact .ret ⟨rfl, (fewer_blind q).toMarker h2 _⟩
    · refine (runes_both h3 h2).bind fun a b _ _ hab => ?_
      obtain ⟨ok, s'⟩ := a
      obtain ⟨ok', t'⟩ := b
      obtain ⟨h1, h2, h3⟩ := hab
      cases h1
      cases ok
      · exact .ret ⟨rfl, h2⟩
      · exact to_both hf n m hnm.pred _ _ h3 h2

theorem at_none {s : Scanner} (h : s.tracker = none) (m : Int) : s.at m = { s with pos := m } := by
  obtain ⟨f, p, tr, hp⟩ := s
  simp only at h
  subst h
  rfl

theorem body_both (rt : Rt) (G : Env) {b : Reader} (hf : SubSame rt G q b) {g g' : ReadFunc} (hg : Both q lt gt g g') {k l : Nat} (hkl : Fuel lt gt k l) (mk : Int) :
    ∀ n m, Fuel lt gt n m → ∀ s t, Inside s → Fewer q s t →
    SimE lt gt (fun a b => b.1 = a.1 ∧ Fewer q a.2 b.2) (bodyLoop (read rt G k b) g mk n s) (bodyLoop (read rt (Env.fewer q G) l (Reader.fewer q b)) g' mk m t)
  | 0, m, hnm, s, t, _, _ => hnm.zero (fun h => by subst h; rfl)
  | n + 1, 0, hnm, s, t, _, _ => hnm.zero'
  | n + 1, m + 1, hnm, s, t, hs, h => by
    unfold bodyLoop
    rw [(fewer_blind q).atEnd h]
    split
    · exact .ret ⟨rfl, h⟩
    · have hm := (fewer_blind q).mark h
      refine (hg s t hs h).bind fun a b _ _ hab => ?_
      obtain ⟨e, s'⟩ := a
      obtain ⟨e', t'⟩ := b
      obtain ⟨h1, h2, h3⟩ := hab
      cases e <;> cases e' <;> simp only [ResSame] at h1
      · simp only [hm]
        refine (((fewer_blind q).getE h2 _).sim (lt := lt) (gt := gt)).bind fun a b _ _ hab => ?_
        subst hab
        unfold Scanner.use
        refine SimE.bind (R := fun a c => ResSame a.1 c.1 ∧ c.2.atEnd = a.2.atEnd ∧ Fewer q { s' with heap := a.2.heap } { t' with heap := c.2.heap }) ?_ fun a b _ _ hab => ?_
        · refine (hf lt gt k l hkl (Scanner.new b s'.heap) (Scanner.new b t'.heap) ⟨by simp [Scanner.new], by simp [Scanner.new]⟩ rfl
            ⟨rfl, rfl, by simp [Scanner.new], rfl, h2.cells, h2.janus, h2.maps, h2.logs, h2.others, h2.kept⟩).bind fun a c _ _ hab => ?_
          obtain ⟨e, s1⟩ := a
          obtain ⟨e', t1⟩ := c
          obtain ⟨h1, h4, h5, ⟨h6, h7⟩, h8, h9⟩ := hab
          have hh : Fewer q { s' with heap := s1.heap } { t' with heap := t1.heap } := by
            refine ⟨h2.full, h2.pos, ?_, h2.tracker, h4.cells, h4.janus, h9.trans (h2.tracks.trans h7.symm), h4.maps, h4.logs, h4.others, h4.kept⟩
            simp only at h6
            simp only [h6]
            exact h2.tracked
          have hend : t1.atEnd = s1.atEnd := by unfold Scanner.atEnd; rw [h4.full, h4.pos]
          cases e <;> cases e' <;> simp only [ResSame] at h1
          · exact .ret ⟨trivial, hend, hh⟩
          · refine .ret ⟨h1, ?_, ?_⟩
            · simp only [Scanner.mark, Scanner.new, toMarker_at (Int.le_refl 0), at_none h5, at_none (h4.tracker.trans h5)]
              unfold Scanner.atEnd
              rw [h4.full]
            · simp only [Scanner.mark, Scanner.new, toMarker_at (Int.le_refl 0), at_none h5, at_none (h4.tracker.trans h5)]
              exact hh
        · obtain ⟨e, s1⟩ := a
          obtain ⟨e', t1⟩ := b
          obtain ⟨h4, h5, hh⟩ := hab
          simp only [h5]
          cases e <;> cases e' <;> simp only [ResSame] at h4
          · split
            · exact .ret ⟨rfl, hh⟩
            · exact .ret ⟨rfl, hh⟩
          · exact .ret ⟨rfl, hh⟩
      · refine (runes_both h3 h2).bind fun a b _ _ hab => ?_
        exact body_both rt G hf hg hkl mk n m hnm.pred _ _ hab.2.2 hab.2.1

mutual

theorem what_fewer (rt : Rt) (G : Env) : ∀ r : Reader, (Reader.fewer q r).what rt (Env.fewer q G) = r.what rt G
  | .any rs => by simp only [Reader.fewer, Reader.what, whats_fewer rt G rs]
  | .at_ r => by simp only [Reader.fewer, Reader.what, what_fewer rt G r]
  | .body b t => by simp only [Reader.fewer, Reader.what, what_fewer rt G b, what_fewer rt G t]
  | .bodyTail b t => by simp only [Reader.fewer, Reader.what, what_fewer rt G b, what_fewer rt G t]
  | .janusBegin i n r => by simp only [Reader.fewer, Reader.what, what_fewer rt G r]
  | .many r => by simp only [Reader.fewer, Reader.what, what_fewer rt G r]
  | .map f r => by simp only [Reader.fewer, Reader.what, what_fewer rt G r]
  | .named n r => by simp only [Reader.fewer, Reader.what]
  | .not r => by simp only [Reader.fewer, Reader.what, what_fewer rt G r]
  | .opt r => by simp only [Reader.fewer, Reader.what, what_fewer rt G r]
  | .past r => by simp only [Reader.fewer, Reader.what, what_fewer rt G r]
  | .seq rs => by simp only [Reader.fewer, Reader.what, whats_fewer rt G rs]
  | .skipSeq sk rs => by simp only [Reader.fewer, Reader.what, what_fewer rt G sk, whats_fewer rt G rs]
  | .times n r => by simp only [Reader.fewer, Reader.what, what_fewer rt G r]
  | .to r => by simp only [Reader.fewer, Reader.what, what_fewer rt G r]
  | .zom r => by simp only [Reader.fewer, Reader.what, what_fewer rt G r]
  | .pick i b r => by
    unfold Reader.fewer
    split
    · simp only [Reader.what, what_fewer rt G r]
    · simp only [Reader.what, what_fewer rt G r]
  | .monitor i l r => by simp only [Reader.fewer, Reader.what, what_fewer rt G r]
  | .ruleName r => by simp only [Reader.fewer, Reader.what]
  | .grammar w r => by simp only [Reader.fewer, Reader.what]
  | .anyRune _ => rfl
  | .atEnd => rfl
  | .between _ _ => rfl
  | .betweenAny _ _ => rfl
  | .bool _ _ => rfl
  | .fold _ => rfl
  | .holey _ _ _ => rfl
  | .int _ _ _ => rfl
  | .janusEnd _ _ => rfl
  | .invalid _ => rfl
  | .lit _ => rfl
  | .match_ _ _ => rfl
  | .rune _ => rfl
  | .uint _ _ _ => rfl
  | .wrap _ _ => rfl
  | .rule i => by
    simp only [Reader.fewer, Reader.what, fewer_get]
    rcases G[i]? with _ | rl <;> rfl

theorem whats_fewer (rt : Rt) (G : Env) : ∀ rs : List Reader,
    Reader.whats rt (Env.fewer q G) (Reader.fewers q rs) = Reader.whats rt G rs
  | [] => rfl
  | r :: rs => by simp only [Reader.fewers, Reader.whats, what_fewer rt G r, whats_fewer rt G rs]

end

theorem errorFor_fewer (rt : Rt) (G : Env) (r : Reader) {s t : Scanner} (h : Fewer q s t) :
    t.errorFor ((Reader.fewer q r).what rt (Env.fewer q G)) = s.errorFor (r.what rt G) := by
  unfold Scanner.errorFor
  rw [what_fewer, (fewer_blind q).mark h]

theorem token_both {f g : ReadFunc} (h : Both q lt gt f g) (hf : Safe True f) {s t : Scanner} (hs : Inside s)
    (ha : Fewer q s t) : SimE lt gt (fun a b => b.1.1 = a.1.1 ∧ ResSame a.1.2 b.1.2 ∧ Fewer q a.2 b.2 ∧ (a.1.2 = none → a.1.1.to = a.2.pos)) (s.tokenizeUse f) (t.tokenizeUse g) := by
  unfold Scanner.tokenizeUse
  have hm := (fewer_blind q).mark ha
  refine (h s t hs ha).bind fun a b hx _ hab => ?_
  have hfw := ((hf s hs).2 a hx).2.2
  obtain ⟨e, s'⟩ := a
  obtain ⟨e', t'⟩ := b
  obtain ⟨h1, h2, h3⟩ := hab
  simp only [hm]
  cases e <;> cases e' <;> simp only [ResSame] at h1
  · refine .ret ⟨congrArg (makeToken s.pos) h2.pos, trivial, h2, fun _ => ?_⟩
    simp only at hfw
    show (makeToken s.pos s'.pos).to = s'.pos
    unfold makeToken
    split
    · omega
    · rfl
  · have := (fewer_blind q).toMarker h2 s.mark
    exact .ret ⟨congrArg (makeToken s.pos) this.pos, h1, this, fun h => nomatch h⟩

/-- The token of a reader on the left only. -/
theorem token_gone {f g : ReadFunc} (h : Both q lt gt f g) (hb : Restores f) (hf : Safe True f) {s t : Scanner} (hs : Inside s)
    (ha : Fewer q s t) : SimE lt gt (fun a b => ResSame a.1.2 b.1 ∧ Fewer q a.2 b.2 ∧ (a.1.2 = none → a.1.1.to = a.2.pos)) (s.tokenizeUse f) (g t) := by
  refine SimE.out ?_
  unfold Scanner.tokenizeUse
  refine (h s t hs ha).bind fun a b hx _ hab => ?_
  have hfw := ((hf s hs).2 a hx).2.2
  obtain ⟨e, s'⟩ := a
  obtain ⟨e', t'⟩ := b
  obtain ⟨h1, h2, h3⟩ := hab
  cases e <;> cases e' <;> simp only [ResSame] at h1
  · refine .ret ⟨trivial, h2, fun _ => ?_⟩
    simp only at hfw
    show (makeToken s.pos s'.pos).to = s'.pos
    unfold makeToken
    split
    · omega
    · rfl
  · refine .ret ⟨h1, ?_, fun h => nomatch h⟩
    have hp := hb s hs _ _ hx
    simp only [Option.isSome_some, if_true, Scanner.mark, ← hp, toMarker_at h3.1]
    exact h2.stay

/-- Reading with a pick that is left out. -/
theorem gone_both (rt : Rt) (G : Env) {n m : Nat} {i : Bytes} {bk : Nat} {c : Reader} (hg : q.out i bk = true) (hb : Restores (read rt G n c)) (hf : Safe True (read rt G n c))
    (h : Both q lt gt (read rt G n c) (read rt (Env.fewer q G) m (Reader.fewer q c))) {s t : Scanner} (hs : Inside s) (ha : Fewer q s t) :
    SimE lt gt (fun a b => ResSame a.1 b.1 ∧ Fewer q a.2 b.2) (read rt G (n + 1) (.pick i bk c) s) (read rt (Env.fewer q G) m (Reader.fewer q (.pick i bk c)) t) := by
  simp only [Reader.fewer, hg, if_true]
  refine SimE.out ?_
  simp only [read]
  refine (token_gone h hb hf hs ha).bind fun a b _ _ hab => ?_
  obtain ⟨⟨k, e⟩, s'⟩ := a
  obtain ⟨e', t'⟩ := b
  obtain ⟨h1, h2, h5⟩ := hab
  cases e <;> cases e' <;> simp only [ResSame] at h1
  · exact .ret ⟨trivial, h2.leave hg (h5 rfl)⟩
  · exact .ret ⟨h1, h2⟩

theorem leaf_fewer {r : Reader} (hr : r.leaf = true) : Reader.fewer q r = r := by
  cases r <;> first | rfl | simp [Reader.leaf] at hr

/-- Reading with anything else. -/
theorem step_both (rt : Rt) (G : Env) {n m : Nat} (hnm : Fuel lt gt n m) {r : Reader} (hg : q.gone r = false) (hb : Reader.pickable rt G q r)
    (hsf : ∀ c ∈ r.subs, Safe True (read rt G n c))
    (ih : ∀ c ∈ r.subs, Both q lt gt (read rt G n c) (read rt (Env.fewer q G) m (Reader.fewer q c)))
    (ihG : ∀ i, r = .rule i → ∀ nm c, G[i]? = some ⟨nm, some c⟩ → Both q lt gt (read rt G n c) (read rt (Env.fewer q G) m (Reader.fewer q c)))
    {s t : Scanner} (hs : Inside s) (ha : Fewer q s t) :
    SimE lt gt (fun a b => ResSame a.1 b.1 ∧ Fewer q a.2 b.2) (read rt G (n + 1) r s)
      (read rt (Env.fewer q G) (m + 1) (Reader.fewer q r) t) := by
  by_cases hl : r.leaf = true
  · rw [leaf_fewer hl]
    exact (((fewer_blind q).leaf ha rt G (Env.fewer q G) n m hl).mono fun a b _ _ hab => ⟨ResSame.of hab.1, hab.2⟩).sim
  have hB := fewer_blind q
  have hm := hB.mark ha
  have hw : ∀ {s t : Scanner}, Fewer q s t →
    t.errorFor ((Reader.fewer q r).what rt (Env.fewer q G)) = s.errorFor (r.what rt G) := fun h => errorFor_fewer rt G r h
  cases r with
  | any rs =>
    simp only [Reader.fewer, read, hm]
    refine (any_both rs ih [] s t hs ha).bind fun a b _ _ hab => ?_
    obtain ⟨e, s'⟩ := a
    obtain ⟨e', t'⟩ := b
    obtain ⟨h1, h2⟩ := hab
    cases h2
    cases e
    · exact .ret ⟨trivial, h1⟩
    · exact .ret ⟨rfl, hB.toMarker h1 _⟩
  | at_ c =>
    simp only [Reader.fewer, read, hm]
    refine (ih c (by simp [Reader.subs]) s t hs ha).bind fun a b _ _ hab => ?_
    exact .ret ⟨hab.1, hB.toMarker hab.2.1 _⟩
  | body b c =>
    simp only [Reader.fewer] at hw ⊢
    simp only [read, hm]
    refine (body_both rt G hb (ih c (by simp [Reader.subs])) hnm s.mark n m hnm s t hs ha).bind fun a b _ _ hab => ?_
    obtain ⟨e, s'⟩ := a
    obtain ⟨e', t'⟩ := b
    obtain ⟨h1, h2⟩ := hab
    cases h1
    cases e
    · exact .ret ⟨hw (hB.toMarker h2 _), hB.toMarker h2 _⟩
    · exact .ret ⟨trivial, hB.toMarker h2 _⟩
  | bodyTail b c =>
    simp only [Reader.fewer] at hw ⊢
    simp only [read, hm]
    refine (body_both rt G hb (ih c (by simp [Reader.subs])) hnm s.mark n m hnm s t hs ha).bind fun a b _ _ hab => ?_
    obtain ⟨e, s'⟩ := a
    obtain ⟨e', t'⟩ := b
    obtain ⟨h1, h2⟩ := hab
    cases h1
    cases e
    · exact .ret ⟨hw (hB.toMarker h2 _), hB.toMarker h2 _⟩
    · exact .ret ⟨trivial, h2⟩
  | janusBegin i nm c =>
    simp only [Reader.fewer, read]
    refine (token_both (ih c (by simp [Reader.subs])) (hsf c (by simp [Reader.subs])) hs ha).bind fun a b _ _ hab => ?_
    obtain ⟨⟨k, e⟩, s'⟩ := a
    obtain ⟨⟨k', e'⟩, t'⟩ := b
    obtain ⟨h0, h1, h2, _⟩ := hab
    cases h0
    cases e <;> cases e' <;> simp only [ResSame] at h1
    · refine ((hB.getE h2 _).sim (lt := lt) (gt := gt)).bind fun a b _ _ hab => ?_
      subst hab
      exact .ret ⟨trivial, hB.setJan h2 _ _⟩
    · exact .ret ⟨h1, h2⟩
  | many c =>
    simp only [Reader.fewer] at hw ⊢
    simp only [read, hm]
    refine (zom_both (ih c (by simp [Reader.subs])) n m hnm s t hs ha).bind fun a b _ _ hab => ?_
    refine .ret ⟨?_, hab.1⟩
    unfold Scanner.errorIfFalse
    rw [hB.mark hab.1]
    split
    · have := hw hab.1
      unfold Scanner.errorFor at this
      rw [hB.mark hab.1] at this
      exact this
    · trivial
  | map f c =>
    simp only [Reader.fewer, read]
    refine (token_both (ih c (by simp [Reader.subs])) (hsf c (by simp [Reader.subs])) hs ha).bind fun a b _ _ hab => ?_
    obtain ⟨⟨k, e⟩, s'⟩ := a
    obtain ⟨⟨k', e'⟩, t'⟩ := b
    obtain ⟨h0, h1, h2, _⟩ := hab
    cases h0
    cases e <;> cases e' <;> simp only [ResSame] at h1
    · exact .ret ⟨trivial, h2.full, h2.pos, h2.tracked, h2.tracker, h2.cells, h2.janus, h2.tracks, congrArg (· ++ [(f, k)]) h2.maps, h2.logs, h2.others, h2.kept⟩
    · exact .ret ⟨h1, h2⟩
  | pick i bk c =>
    simp only [Leave.gone] at hg
    simp only [Reader.fewer, hg, Bool.false_eq_true, if_false, read]
    refine (token_both (ih c (by simp [Reader.subs])) (hsf c (by simp [Reader.subs])) hs ha).bind fun a b _ _ hab => ?_
    obtain ⟨⟨k, e⟩, s'⟩ := a
    obtain ⟨⟨k', e'⟩, t'⟩ := b
    obtain ⟨h0, h1, h2, h5⟩ := hab
    cases h0
    cases e <;> cases e' <;> simp only [ResSame] at h1
    · refine .ret ⟨trivial, ?_⟩
      exact h2.put hg (h5 rfl)
    · exact .ret ⟨h1, h2⟩
  | monitor i l c =>
    simp only [Reader.fewer, read]
    refine (ih c (by simp [Reader.subs]) (s.enterLog rt i l) (t.enterLog rt i l) hs ⟨ha.full, ha.pos, ha.tracked, ha.tracker, ha.cells, ha.janus, ha.tracks, ha.maps,
      ?_, ha.others, ha.kept⟩).bind fun a b _ _ hab => ?_
    · have := ha.pos
      unfold Scanner.enterLog
      simp only [ha.logs, this]
    obtain ⟨h1, h2, h3⟩ := hab
    have h1' := ResSame.eq h1
    refine .ret ⟨h1, h2.full, h2.pos, h2.tracked, h2.tracker, h2.cells, h2.janus, h2.tracks, h2.maps, ?_, h2.others, h2.kept⟩
    simp only [h2.logs, ha.logs, ha.pos, h2.pos, h1']
  | named w c =>
    simp only [Reader.fewer, read]
    exact (ih c (by simp [Reader.subs]) s t hs ha).mono fun a b _ _ hab => ⟨hab.1, hab.2.1⟩
  | not c =>
    simp only [Reader.fewer, read, hm]
    refine (ih c (by simp [Reader.subs]) s t hs ha).bind fun a b ha1 _ hab => ?_
    obtain ⟨e, s'⟩ := a
    obtain ⟨e', t'⟩ := b
    obtain ⟨h1, h2, h3⟩ := hab
    have h4 := hB.toMarker h2 s.mark
    cases e <;> cases e' <;> simp only [ResSame] at h1
    · exact .ret ⟨errorFor_fewer rt G c h4, h4⟩
    · exact ((hB.moveRunes h4).sim (lt := lt) (gt := gt)).bind fun a b _ _ hab => .ret ⟨trivial, hab.2⟩
  | opt c =>
    simp only [Reader.fewer, read]
    exact (ih c (by simp [Reader.subs]) s t hs ha).bind fun a b _ _ hab => .ret ⟨trivial, hab.2.1⟩
  | past c =>
    simp only [Reader.fewer] at hw ⊢
    simp only [read, hm]
    refine (past_both (ih c (by simp [Reader.subs])) n m hnm s t hs ha).bind fun a b _ _ hab => ?_
    obtain ⟨e, s'⟩ := a
    obtain ⟨e', t'⟩ := b
    obtain ⟨h1, h2⟩ := hab
    cases h1
    cases e with
    | false => exact .ret ⟨hw (hB.toMarker h2 _), hB.toMarker h2 _⟩
    | true => exact .ret ⟨trivial, h2⟩
  | «to» c =>
    simp only [Reader.fewer] at hw ⊢
    simp only [read, hm]
    refine (to_both (ih c (by simp [Reader.subs])) n m hnm s t hs ha).bind fun a b _ _ hab => ?_
    obtain ⟨e, s'⟩ := a
    obtain ⟨e', t'⟩ := b
    obtain ⟨h1, h2⟩ := hab
    cases h1
    cases e with
    | false => exact .ret ⟨hw (hB.toMarker h2 _), hB.toMarker h2 _⟩
    | true => exact .ret ⟨trivial, h2⟩
  | seq rs =>
    simp only [Reader.fewer, read, hm]
    refine (seq_both rs ih s t hs ha).bind fun a b _ _ hab => ?_
    obtain ⟨e, s'⟩ := a
    obtain ⟨e', t'⟩ := b
    obtain ⟨h1, h2, h3⟩ := hab
    cases e <;> cases e' <;> simp only [ResSame] at h1
    · exact .ret ⟨trivial, h2⟩
    · exact .ret ⟨h1, hB.toMarker h2 _⟩
  | skipSeq sk rs =>
    simp only [Reader.fewer, read, hm]
    have hsk := ih sk (by simp [Reader.subs])
    refine (hsk s t hs ha).bind fun a b _ _ hab => ?_
    obtain ⟨e, s'⟩ := a
    obtain ⟨e', t'⟩ := b
    obtain ⟨h1, h2, h3⟩ := hab
    cases e <;> cases e' <;> simp only [ResSame] at h1
    · refine (skip_both hsk rs (fun c hc => ih c (List.mem_cons_of_mem _ hc)) s' t' h3 h2).bind fun a b _ _ hab => ?_
      obtain ⟨e, s'⟩ := a
      obtain ⟨e', t'⟩ := b
      obtain ⟨h1, h2, h3⟩ := hab
      cases e <;> cases e' <;> simp only [ResSame] at h1
      · exact .ret ⟨trivial, h2⟩
      · exact .ret ⟨h1, hB.toMarker h2 _⟩
    · exact .ret ⟨h1, hB.toMarker h2 _⟩
  | times k c =>
    simp only [Reader.fewer, read]
    exact (times_both (ih c (by simp [Reader.subs])) k.toNat s t hs ha).mono fun a b _ _ hab => ⟨hab.1, hab.2.1⟩
  | wrap w f =>
    simp only [Reader.fewer, read]
    exact (hb.sim hs ha).mono fun a b _ _ hab => ⟨ResSame.of hab.1, hab.2⟩
  | zom c =>
    simp only [Reader.fewer, read]
    exact (zom_both (ih c (by simp [Reader.subs])) n m hnm s t hs ha).bind fun a b _ _ hab => .ret ⟨trivial, hab.1⟩
  | rule i =>
    simp only [Reader.fewer, read, fewer_get]
    have := ihG i rfl
    rcases hi : G[i]? with _ | ⟨nm, _ | c⟩
    · exact .panic
    · exact .panic
    · exact (this nm c hi s t hs ha).mono fun a b _ _ hab => ⟨hab.1, hab.2.1⟩
  | ruleName c =>
    simp only [Reader.fewer, read]
    refine (ih c (by simp [Reader.subs]) s t hs ha).bind fun a b _ _ hab => ?_
    obtain ⟨e, s'⟩ := a
    obtain ⟨e', t'⟩ := b
    obtain ⟨h1, h2, h3⟩ := hab
    cases e <;> cases e' <;> simp only [ResSame] at h1
    · exact .ret ⟨trivial, h2⟩
    · exact .ret ⟨ResSame.of (by simpa [Scanner.errorIfFalse, Scanner.errorFor, Scanner.mark, Reader.what] using h2.pos), h2⟩
  | grammar w c =>
    simp only [Reader.fewer, read]
    refine (ih c (by simp [Reader.subs]) s t hs ha).bind fun a b _ _ hab => ?_
    obtain ⟨e, s'⟩ := a
    obtain ⟨e', t'⟩ := b
    obtain ⟨h1, h2, h3⟩ := hab
    cases e <;> cases e' <;> simp only [ResSame] at h1
    · exact .ret ⟨trivial, h2⟩
    · exact .ret ⟨by simp only [h1]; rfl, h2⟩
  | _ => simp [Reader.leaf] at hl

theorem Both.of (rt : Rt) (G : Env) {n m : Nat} {r : Reader} (hsafe : Safe True (read rt G n r))
    (h : ∀ s t, Inside s → Fewer q s t → SimE lt gt (fun a b => ResSame a.1 b.1 ∧ Fewer q a.2 b.2) (read rt G n r s)
      (read rt (Env.fewer q G) m (Reader.fewer q r) t)) : Both q lt gt (read rt G n r) (read rt (Env.fewer q G) m (Reader.fewer q r)) :=
  fun s t hs ha => (h s t hs ha).mono fun a _ hx _ hab => ⟨hab.1, hab.2, ((hsafe s hs).2 a hx).1⟩

/-- What the comparison needs of every part. -/
def Reader.picky (rt : Rt) (G : Env) (q : Leave) (r : Reader) : Prop := r.safeHere True G ∧ Reader.pickable rt G q r

theorem picky_safe {rt : Rt} {G : Env} (hG : G.Every (Reader.picky rt G q)) {r : Reader} (hr : r.Every (Reader.picky rt G q)) (n : Nat) :
    Safe True (read rt G n r) := read_safe rt G (hG.imp fun _ h => h.1) n r (hr.imp fun _ h => h.1)

/-- No pick is left out: the same budget. -/
theorem fewer_equal (rt : Rt) (G : Env) (hG : G.Every fun r => Reader.picky rt G q r ∧ q.gone r = false) : ∀ n r,
    (r.Every fun r => Reader.picky rt G q r ∧ q.gone r = false) → Both q False False (read rt G n r) (read rt (Env.fewer q G) n (Reader.fewer q r))
  | 0, _, _ => fun _ _ _ _ => .timeout
  | n + 1, r, hr => by
    have hG' := hG.imp fun _ h => h.1
    refine Both.of rt G (picky_safe hG' (hr.imp fun _ h => h.1) _) fun s t hs ha => ?_
    refine step_both rt G ⟨fun h => by omega, fun h => by omega⟩ hr.here.2 hr.here.1.2 (fun c hc => picky_safe hG' ((hr.sub hc).imp fun _ h => h.1) n)
      (fun c hc => fewer_equal rt G hG n c (hr.sub hc)) (fun i _ nm c hi => ?_) hs ha
    exact fewer_equal rt G hG n c (hG.get hi)

/-- Without the wrappers the budget lasts at least as long. -/
theorem fewer_forward (rt : Rt) (G : Env) (hG : G.Every (Reader.picky rt G q)) : ∀ n m r, r.Every (Reader.picky rt G q) → n ≤ m →
    Both q True False (read rt G n r) (read rt (Env.fewer q G) m (Reader.fewer q r))
  | 0, _, _, _, _ => fun _ _ _ _ => .left trivial
  | n + 1, m, r, hr, hnm => by
    refine Both.of rt G (picky_safe hG hr _) fun s t hs ha => ?_
    cases hg : q.gone r with
    | true =>
      match r, hg, hr with
      | .pick i bk c, hg, hr =>
        exact gone_both rt G hg (hr.here.2 hg n) (picky_safe hG (hr.sub (by simp [Reader.subs])) n) (fewer_forward rt G hG n m c (hr.sub (by simp [Reader.subs])) (by omega)) hs ha
    | false =>
      obtain ⟨m, rfl⟩ : ∃ k, m = k + 1 := ⟨m - 1, by omega⟩
      refine step_both rt G ⟨fun _ => trivial, fun _ => by omega⟩ hg hr.here.2 (fun c hc => picky_safe hG (hr.sub hc) n)
        (fun c hc => fewer_forward rt G hG n m c (hr.sub hc) (by omega)) (fun i _ nm c hi => ?_) hs ha
      exact fewer_forward rt G hG n m c (hG.get hi) (by omega)

/-- Every budget without the wrappers is matched by a large enough one with them. -/
theorem fewer_backward (rt : Rt) (G : Env) (hG : G.Every (Reader.picky rt G q)) : ∀ m r, r.Every (Reader.picky rt G q) →
    ∃ n₀, ∀ n, n₀ ≤ n → Both q False True (read rt G n r) (read rt (Env.fewer q G) m (Reader.fewer q r))
  | 0, _, _ => ⟨0, fun _ _ _ _ _ _ => .right trivial⟩
  | m + 1, r, hr => by
    have all : ∀ l : List Reader, (∀ c ∈ l, c.Every (Reader.picky rt G q)) →
        ∃ n₀, ∀ n, n₀ ≤ n → ∀ c ∈ l, Both q False True (read rt G n c) (read rt (Env.fewer q G) m (Reader.fewer q c)) := by
      intro l hl
      induction l with
      | nil => exact ⟨0, by simp⟩
      | cons c l ih =>
        obtain ⟨n1, h1⟩ := ih fun c hc => hl c (List.mem_cons_of_mem _ hc)
        obtain ⟨n2, h2⟩ := fewer_backward rt G hG m c (hl c (by simp))
        refine ⟨max n1 n2, fun n hn c' hc' => ?_⟩
        rcases List.mem_cons.mp hc' with rfl | hc'
        · exact h2 n (by omega)
        · exact h1 n (by omega) c' hc'
    induction hr with
    | @mk r hp hsub ih =>
      have hr : r.Every (Reader.picky rt G q) := .mk hp hsub
      cases hg : q.gone r with
      | true =>
        match r, hg, hr, ih with
        | .pick i bk c, hg, hr, ih =>
          obtain ⟨n₀, h⟩ := ih c (by simp [Reader.subs])
          refine ⟨n₀ + 1, fun n hn => ?_⟩
          obtain ⟨n, rfl⟩ : ∃ k, n = k + 1 := ⟨n - 1, by omega⟩
          exact Both.of rt G (picky_safe hG hr _) fun s t hs ha =>
            gone_both rt G hg (hr.here.2 hg n) (picky_safe hG (hr.sub (by simp [Reader.subs])) n) (h n (by omega)) hs ha
      | false =>
        obtain ⟨n1, h1⟩ := all r.subs hsub
        have : ∃ n2, ∀ n, n2 ≤ n → ∀ i, r = .rule i → ∀ nm c, G[i]? = some ⟨nm, some c⟩ →
            Both q False True (read rt G n c) (read rt (Env.fewer q G) m (Reader.fewer q c)) := by
          by_cases hx : ∃ i nm c, r = .rule i ∧ G[i]? = some ⟨nm, some c⟩
          · obtain ⟨i, nm, c, rfl, hi⟩ := hx
            obtain ⟨n2, h2⟩ := fewer_backward rt G hG m c (hG.get hi)
            refine ⟨n2, fun n hn j hj nm' c' hi' => ?_⟩
            cases hj
            rw [hi] at hi'
            cases hi'
            exact h2 n hn
          · exact ⟨0, fun n _ i hi nm c hc => absurd ⟨i, nm, c, hi, hc⟩ hx⟩
        obtain ⟨n2, h2⟩ := this
        refine ⟨max (max n1 n2) m + 1, fun n hn => ?_⟩
        obtain ⟨n, rfl⟩ : ∃ k, n = k + 1 := ⟨n - 1, by omega⟩
        exact Both.of rt G (picky_safe hG hr _) fun s t hs ha => step_both rt G ⟨fun _ => by omega, fun _ => trivial⟩ hg hr.here.2 (fun c hc => picky_safe hG (hr.sub hc) n)
          (h1 n (by omega)) (h2 n (by omega)) hs ha

/-- With or without the wrappers: the same result and scanners that differ in the records only. -/
theorem fewer_ret (rt : Rt) (G : Env) (hG : G.Every (Reader.picky rt G q)) {r : Reader} (hr : r.Every (Reader.picky rt G q)) {s t : Scanner}
    (hs : Inside s) (ha : Fewer q s t) {n : Nat} {e : Option Err} {s' : Scanner} (h : read rt G n r s = .ret (e, s')) :
    ∃ e' t', read rt (Env.fewer q G) n (Reader.fewer q r) t = .ret (e', t') ∧ ResSame e e' ∧ Fewer q s' t' := by
  have := fewer_forward rt G hG n n r hr (Nat.le_refl _) s t hs ha
  rw [h] at this
  generalize read rt (Env.fewer q G) n (Reader.fewer q r) t = y at this
  cases this with
  | @ret _ b hab => exact ⟨b.1, b.2, rfl, hab.1, hab.2.1⟩
  | right h => exact h.elim

theorem fewer_ret' (rt : Rt) (G : Env) (hG : G.Every (Reader.picky rt G q)) {r : Reader} (hr : r.Every (Reader.picky rt G q)) {s t : Scanner}
    (hs : Inside s) (ha : Fewer q s t) {m : Nat} {e' : Option Err} {t' : Scanner}
    (h : read rt (Env.fewer q G) m (Reader.fewer q r) t = .ret (e', t')) :
    ∃ n e s', read rt G n r s = .ret (e, s') ∧ ResSame e e' ∧ Fewer q s' t' := by
  obtain ⟨n, hn⟩ := fewer_backward rt G hG m r hr
  have := hn n (Nat.le_refl _) s t hs ha
  rw [h] at this
  generalize hx : read rt G n r s = x at this
  cases this with
  | @ret a _ hab => exact ⟨n, a.1, a.2, hx, hab.1, hab.2.1⟩
  | left h => exact h.elim

end
end Tok.Less
