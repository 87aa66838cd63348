/-
Leaving out functions that are given to `Map`.
-/
import Verif.Spec.Muted
import Verif.Proofs.Fewer

namespace Tok.Mute
open Spec Less

variable {lt gt : Prop}

section
variable {d : Nat → Bool} {x : Option (Nat × Int)}

theorem cut_ends {m : Int} : ∀ {l : List Segment}, (∀ g ∈ l.head?, g.tok.to ≤ m) → basketCut m l = l
  | [], _ => by simp [basketCut]
  | g :: l, h => by
    have := h g (by simp)
    simp [basketCut]
    omega

theorem cut_head {m : Int} : ∀ (l : List Segment), ∀ g ∈ (basketCut m l).head?, g.tok.to ≤ m
  | [], g, h => by simp [basketCut] at h
  | a :: l, g, h => by
    rw [basketCut] at h
    split at h
    · obtain rfl : a = g := by simpa using h
      assumption
    · exact cut_head l g h

theorem update_ends {m : Int} {l : List Segment} (h : EndsBy m l) : basketUpdate m l = l := by
  unfold basketUpdate
  rw [cut_ends (by simpa [EndsBy, List.head?_reverse] using h), List.reverse_reverse]

theorem ends_update (m : Int) (l : List Segment) : EndsBy m (basketUpdate m l) := by
  intro g hg
  unfold basketUpdate at hg
  rw [List.getLast?_reverse] at hg
  exact cut_head _ g hg

theorem ends_add {m : Int} (l : List Segment) {g : Segment} (h : g.tok.to ≤ m) : EndsBy m (l ++ [g]) := by
  intro c hc
  simp at hc
  exact hc ▸ h

theorem _root_.Tok.Spec.InStep.not {s : Scanner} (h : InStep x s) (hn : ∀ b, s.tracker ≠ some (.basket b)) : ∃ c m, x = some (c, m) ∧ (s.full.length : Int) ≤ m ∧ EndsBy m (s.heap.baskets c) := by
  rcases x with _ | ⟨c, m⟩
  · obtain ⟨b, h, _⟩ := h
    exact absurd h (hn b)
  · exact ⟨c, m, rfl, h.2⟩

theorem _root_.Tok.Spec.InStep.has {s : Scanner} (h : InStep x s) {b : Nat} (hb : s.tracker = some (.basket b)) : x = none ∧ EndsBy s.pos (s.heap.baskets b) := by
  rcases x with _ | ⟨c, m⟩
  · obtain ⟨b', h, h'⟩ := h
    obtain rfl : b' = b := by
      have := h.symm.trans hb
      simpa using this
    exact ⟨rfl, h'⟩
  · exact absurd hb (h.1 b)

/-- A scanner that goes somewhere. -/
theorem at_cases (s : Scanner) (m : Int) : (∃ tk, (∀ b, s.tracker ≠ some (.basket b)) ∧ s.at m = { s with pos := m, heap := { s.heap with tracks := tk } }) ∨
    ∃ b, s.tracker = some (.basket b) ∧ s.at m = { s with pos := m, heap := { s.heap with baskets := upd s.heap.baskets b (basketUpdate m (s.heap.baskets b)) } } := by
  obtain ⟨f, p, tr, hp⟩ := s
  rcases tr with _ | b | k
  · exact .inl ⟨hp.tracks, by simp, rfl⟩
  · exact .inr ⟨b, rfl, rfl⟩
  · exact .inl ⟨_, by simp, rfl⟩

theorem _root_.Tok.Spec.MutedStep.at {s t : Scanner} (h : MutedStep d x s t) (m : Int) : MutedStep d x (s.at m) (t.at m) := by
  rcases at_cases s m with ⟨tk, h0, h1⟩ | ⟨b, h0, h1⟩ <;> rcases at_cases t m with ⟨tk', h0', h1'⟩ | ⟨b', h0', h1'⟩
  · rw [h1, h1']
    exact ⟨⟨h.full, rfl, h.tracker, h.cells, h.janus, h.logs, h.baskets, h.maps⟩, by obtain ⟨c, n, rfl, he⟩ := h.ends.not h0; exact ⟨h0, he⟩⟩
  · exact absurd (h.tracker.symm.trans h0') (h0 b')
  · exact absurd (h.tracker.trans h0) (h0' b)
  · obtain rfl : b' = b := by
      have := h0'.symm.trans (h.tracker.trans h0)
      simpa using this
    rw [h1, h1']
    refine ⟨⟨h.full, rfl, h.tracker, h.cells, h.janus, h.logs, ?_, h.maps⟩, ?_⟩
    · show upd t.heap.baskets b' _ = upd s.heap.baskets b' _
      rw [h.baskets]
    · obtain ⟨rfl, _⟩ := h.ends.has h0
      refine ⟨b', h0, ?_⟩
      show EndsBy m (upd s.heap.baskets b' _ b')
      rw [upd_self]
      exact ends_update _ _

/-- Going to the place where the scanner is. -/
theorem _root_.Tok.Spec.MutedStep.stay {s t : Scanner} (h : MutedStep d x s t) : MutedStep d x (s.at s.pos) t := by
  rcases at_cases s s.pos with ⟨tk, h0, h1⟩ | ⟨b, h0, h1⟩
  · rw [h1]
    exact ⟨⟨h.full, h.pos, h.tracker, h.cells, h.janus, h.logs, h.baskets, h.maps⟩, by obtain ⟨c, n, rfl, he⟩ := h.ends.not h0; exact ⟨h0, he⟩⟩
  · have : upd s.heap.baskets b (basketUpdate s.pos (s.heap.baskets b)) = s.heap.baskets := by
      funext i
      rw [update_ends (h.ends.has h0).2]
      unfold upd
      split
      · rename_i e; rw [e]
      · rfl
    rw [h1, this]
    exact ⟨⟨h.full, h.pos, h.tracker, h.cells, h.janus, h.logs, h.baskets, h.maps⟩, h.ends⟩

/-- A call on the left only. -/
theorem _root_.Tok.Spec.MutedStep.leave {s t : Scanner} (h : MutedStep d x s t) {f : Nat} (hg : d f = true) {k : Token} :
    MutedStep d x { s with heap := { s.heap with maps := s.heap.maps ++ [(f, k)] } } t :=
  ⟨⟨h.full, h.pos, h.tracker, h.cells, h.janus, h.logs, h.baskets, by simp [h.maps, hg]⟩, h.ends⟩

/-- A call on both sides. -/
theorem _root_.Tok.Spec.MutedStep.call {s t : Scanner} (h : MutedStep d x s t) {f : Nat} (hg : d f = false) {k : Token} :
    MutedStep d x { s with heap := { s.heap with maps := s.heap.maps ++ [(f, k)] } } { t with heap := { t.heap with maps := t.heap.maps ++ [(f, k)] } } :=
  ⟨⟨h.full, h.pos, h.tracker, h.cells, h.janus, h.logs, h.baskets, by simp [h.maps, hg]⟩, h.ends⟩

/-- A pick on both sides. -/
theorem _root_.Tok.Spec.MutedStep.put {s t : Scanner} (hs : Inside s) (h : MutedStep d x s t) {i : Bytes} {bk : Nat} {k : Token} (hk : k.to = s.pos) :
    MutedStep d x { s with heap := { s.heap with baskets := upd s.heap.baskets bk (s.heap.baskets bk ++ [⟨i, k⟩]) } }
      { t with heap := { t.heap with baskets := upd t.heap.baskets bk (t.heap.baskets bk ++ [⟨i, k⟩]) } } := by
  have key : ∀ m c, s.pos ≤ m → EndsBy m (s.heap.baskets c) → EndsBy m (upd s.heap.baskets bk (s.heap.baskets bk ++ [⟨i, k⟩]) c) := fun m c hm hc => by
    by_cases e : c = bk
    · subst e
      rw [upd_self]
      exact ends_add _ (by simp only [hk]; exact hm)
    · rw [upd_ne _ _ e]
      exact hc
  refine ⟨⟨h.full, h.pos, h.tracker, h.cells, h.janus, h.logs, by simp only [h.baskets], h.maps⟩, ?_⟩
  rcases x with _ | ⟨c, m⟩
  · obtain ⟨b, h1, h2⟩ := h.ends
    exact ⟨b, h1, key _ _ (Int.le_refl _) h2⟩
  · obtain ⟨h0, h1, h2⟩ := h.ends
    exact ⟨h0, h1, key _ _ (Int.le_trans hs.2 h1) h2⟩

/-- A new scanner for a piece of text. -/
theorem _root_.Tok.Spec.MutedStep.new {s t : Scanner} (h : MutedStep d x s t) {str : Bytes} {y : Nat × Int} (h1 : (str.length : Int) ≤ y.2) (h2 : EndsBy y.2 (s.heap.baskets y.1)) :
    MutedStep d (some y) (.new str s.heap) (.new str t.heap) :=
  ⟨⟨rfl, rfl, rfl, h.cells, h.janus, h.logs, h.baskets, h.maps⟩, fun b hb => by simp [Scanner.new] at hb, h1, h2⟩

theorem mut_blind (d : Nat → Bool) (x : Option (Nat × Int)) : Blind (MutedStep d x) where
  full h := h.full
  pos h := h.pos
  at_ h m := h.at m
  janus h := h.janus
  setCell h c v := ⟨⟨h.full, h.pos, h.tracker, congrArg (fun f => upd f c v) h.cells, h.janus, h.logs, h.baskets, h.maps⟩, h.ends⟩
  setJanus h _ := ⟨⟨h.full, h.pos, h.tracker, h.cells, rfl, h.logs, h.baskets, h.maps⟩, h.ends⟩

/-- What a sub-reader does on both sides. -/
def Both (d : Nat → Bool) (x : Option (Nat × Int)) (lt gt : Prop) (f g : ReadFunc) : Prop :=
  ∀ s t, Inside s → MutedStep d x s t → SimE lt gt (fun a b => ResSame a.1 b.1 ∧ MutedStep d x a.2 b.2 ∧ Inside a.2) (f s) (g t)

/-- A `Map` that is left out. -/
def gone (d : Nat → Bool) : Reader → Bool
  | .map f _ => d f
  | _ => false

/-- What the comparison needs: functions of the client that do the same, and a reader inside a `Map` that is left out goes back on failure. -/
def mutable (rt : Rt) (G : Env) (d : Nat → Bool) : Reader → Prop
  | .wrap _ f => ∀ x, DoesSame (MutedStep d x) f
  | .map f c => d f = true → ∀ n, Restores (read rt G n c)
  | _ => True

theorem mute_get (d : Nat → Bool) (G : Env) (i : Nat) : (Env.mute d G)[i]? = G[i]?.map fun rl => ⟨rl.name, rl.reader.map (Reader.mute d)⟩ := by
  unfold Env.mute
  rw [List.getElem?_map]

theorem any_both {rd rd' : Reader → ReadFunc} : ∀ (rs : List Reader), (∀ r ∈ rs, Both d x lt gt (rd r) (rd' (Reader.mute d r))) →
    ∀ es s t, Inside s → MutedStep d x s t → SimE lt gt (fun a b => MutedStep d x a.2 b.2 ∧ b.1 = a.1) (anyLoop rd rs es s) (anyLoop rd' (Reader.mutes d rs) es t)
  | [], _, es, s, t, _, h => .ret ⟨h, rfl⟩
  | r :: rs, hr, es, s, t, hs, h => (hr r (by simp) s t hs h).bind fun a b _ _ hab => by
    obtain ⟨e, s'⟩ := a
    obtain ⟨e', t'⟩ := b
    obtain ⟨h1, h2, h3⟩ := hab
    cases e <;> cases e' <;> simp only [ResSame] at h1
    · exact .ret ⟨h2, rfl⟩
    · subst h1
      exact any_both rs (fun r hr' => hr r (List.mem_cons_of_mem _ hr')) _ _ _ h3 h2

theorem seq_both {rd rd' : Reader → ReadFunc} : ∀ (rs : List Reader), (∀ r ∈ rs, Both d x lt gt (rd r) (rd' (Reader.mute d r))) →
    Both d x lt gt (seqLoop rd rs) (seqLoop rd' (Reader.mutes d rs))
  | [], _, _, _, hs, h => .ret ⟨trivial, h, hs⟩
  | r :: rs, hr, s, t, hs, h => (hr r (by simp) s t hs h).bind fun a b _ _ hab => by
    obtain ⟨e, s'⟩ := a
    obtain ⟨e', t'⟩ := b
    obtain ⟨h1, h2, h3⟩ := hab
    cases e <;> cases e' <;> simp only [ResSame] at h1
    · exact seq_both rs (fun r hr' => hr r (List.mem_cons_of_mem _ hr')) _ _ h3 h2
    · exact .ret ⟨h1, h2, h3⟩

theorem skip_both {rd rd' : Reader → ReadFunc} {sk : Reader} (hsk : Both d x lt gt (rd sk) (rd' (Reader.mute d sk))) : ∀ (rs : List Reader),
    (∀ r ∈ rs, Both d x lt gt (rd r) (rd' (Reader.mute d r))) →
    Both d x lt gt (skipSeqLoop rd sk rs) (skipSeqLoop rd' (Reader.mute d sk) (Reader.mutes d rs))
  | [], _, _, _, hs, h => .ret ⟨trivial, h, hs⟩
  | r :: rs, hr, s, t, hs, h => (hr r (by simp) s t hs h).bind fun a b _ _ hab => by
    obtain ⟨e, s'⟩ := a
    obtain ⟨e', t'⟩ := b
    obtain ⟨h1, h2, h3⟩ := hab
    cases e <;> cases e' <;> simp only [ResSame] at h1
    · refine (hsk _ _ h3 h2).bind fun a b _ _ hab => ?_
      obtain ⟨e, s'⟩ := a
      obtain ⟨e', t'⟩ := b
      obtain ⟨h1, h2, h3⟩ := hab
      cases e <;> cases e' <;> simp only [ResSame] at h1
      · exact skip_both hsk rs (fun r hr' => hr r (List.mem_cons_of_mem _ hr')) _ _ h3 h2
      · exact .ret ⟨h1, h2, h3⟩
    · exact .ret ⟨h1, h2, h3⟩

theorem times_both {f g : ReadFunc} (hf : Both d x lt gt f g) : ∀ k, Both d x lt gt (timesLoop f k) (timesLoop g k)
  | 0, _, _, hs, h => .ret ⟨trivial, h, hs⟩
  | k + 1, s, t, hs, h => (hf s t hs h).bind fun a b _ _ hab => by
    obtain ⟨e, s'⟩ := a
    obtain ⟨e', t'⟩ := b
    obtain ⟨h1, h2, h3⟩ := hab
    cases e <;> cases e' <;> simp only [ResSame] at h1
    · exact times_both hf k _ _ h3 h2
    · exact .ret ⟨h1, h2, h3⟩

theorem zom_both {f g : ReadFunc} (hf : Both d x lt gt f g) : ∀ n m, Fuel lt gt n m → ∀ s t, Inside s → MutedStep d x s t →
    SimE lt gt (fun a b => MutedStep d x a b ∧ Inside a) (zomLoop f n s) (zomLoop g m t)
  | 0, m, hnm, s, t, _, _ => hnm.zero (fun h => by subst h; rfl)
  | n + 1, 0, hnm, s, t, _, _ => hnm.zero'
  | n + 1, m + 1, hnm, s, t, hs, h => (hf s t hs h).bind fun a b _ _ hab => by
    obtain ⟨e, s'⟩ := a
    obtain ⟨e', t'⟩ := b
    obtain ⟨h1, h2, h3⟩ := hab
    cases e <;> cases e' <;> simp only [ResSame] at h1
    · exact zom_both hf n m hnm.pred _ _ h3 h2
    · exact .ret ⟨h2, h3⟩

theorem runes_both {s t : Scanner} (hs : Inside s) (h : MutedStep d x s t) :
    SimE lt gt (fun a b => b.1 = a.1 ∧ MutedStep d x a.2 b.2 ∧ Inside a.2) (s.moveRunes 1) (t.moveRunes 1) :=
  (((mut_blind d x).moveRunes h).mono fun a b ha _ hab => ⟨hab.1, hab.2, ((moveRunes_safe (p := True) hs).2 a ha).1⟩).sim

theorem past_both {f g : ReadFunc} (hf : Both d x lt gt f g) : ∀ n m, Fuel lt gt n m → ∀ s t, Inside s → MutedStep d x s t →
    SimE lt gt (fun a b => b.1 = a.1 ∧ MutedStep d x a.2 b.2) (pastLoop f n s) (pastLoop g m t)
  | 0, m, hnm, s, t, _, _ => hnm.zero (fun h => by subst h; rfl)
  | n + 1, 0, hnm, s, t, _, _ => hnm.zero'
  | n + 1, m + 1, hnm, s, t, hs, h => by
    unfold pastLoop
    rw [(mut_blind d x).atEnd h]
    split
    · exact .ret ⟨rfl, h⟩
    · refine (hf s t hs h).bind fun a b _ _ hab => ?_
      obtain ⟨e, s'⟩ := a
      obtain ⟨e', t'⟩ := b
      obtain ⟨h1, h2, h3⟩ := hab
      cases e <;> cases e' <;> simp only [ResSame] at h1
      · exact .ret ⟨rfl, h2⟩
      · refine (runes_both h3 h2).bind fun a b _ _ hab => ?_
        exact past_both hf n m hnm.pred _ _ hab.2.2 hab.2.1

theorem to_both {f g : ReadFunc} (hf : Both d x lt gt f g) : ∀ n m, Fuel lt gt n m → ∀ s t, Inside s → MutedStep d x s t →
    SimE lt gt (fun a b => b.1 = a.1 ∧ MutedStep d x a.2 b.2) (toLoop f n s) (toLoop g m t)
  | 0, m, hnm, s, t, _, _ => hnm.zero (fun h => by subst h; rfl)
  | n + 1, 0, hnm, s, t, _, _ => hnm.zero'
  | n + 1, m + 1, hnm, s, t, hs, h => by
    unfold toLoop
    have hm := (mut_blind d x).mark h
    refine (hf s t hs h).bind fun a b _ _ hab => ?_
    obtain ⟨e, s'⟩ := a
    obtain ⟨e', t'⟩ := b
    obtain ⟨h1, h2, h3⟩ := hab
    cases e <;> cases e' <;> simp only [ResSame] at h1
    · simp only [hm]
      exact .ret ⟨rfl, (mut_blind d x).toMarker h2 _⟩
    · refine (runes_both h3 h2).bind fun a b _ _ hab => ?_
      obtain ⟨ok, s'⟩ := a
      obtain ⟨ok', t'⟩ := b
      obtain ⟨h1, h2, h3⟩ := hab
      cases h1
      cases ok
      · exact .ret ⟨rfl, h2⟩
      · exact to_both hf n m hnm.pred _ _ h3 h2

theorem runes_both' {s t : Scanner} (hs : Inside s) (h : MutedStep d x s t) :
    SimE lt gt (fun a b => b.1 = a.1 ∧ MutedStep d x a.2 b.2 ∧ Inside a.2 ∧ s.pos ≤ a.2.pos) (s.moveRunes 1) (t.moveRunes 1) :=
  (((mut_blind d x).moveRunes h).mono fun a b ha _ hab => ⟨hab.1, hab.2, ((moveRunes_safe (p := True) hs).2 a ha).1, ((moveRunes_safe (p := True) hs).2 a ha).2.2⟩).sim

theorem get_length {s : Scanner} {t : Token} {str : Bytes} (h : s.get t = .ret str) : (str.length : Int) ≤ t.to := by
  unfold Scanner.get at h
  split at h
  · cases h
    simp
    omega
  · cases h

theorem body_both {f g f' g' : ReadFunc} (hf : ∀ y, Both d y lt gt f f') (hg : Both d x lt gt g g') (hgs : Safe True g) {mk : Int} (h0 : 0 ≤ mk) :
    ∀ n m, Fuel lt gt n m → ∀ s t, Inside s → mk ≤ s.pos → MutedStep d x s t →
    SimE lt gt (fun a b => b.1 = a.1 ∧ MutedStep d x a.2 b.2) (bodyLoop f g mk n s) (bodyLoop f' g' mk m t)
  | 0, m, hnm, s, t, _, _, _ => hnm.zero (fun h => by subst h; rfl)
  | n + 1, 0, hnm, s, t, _, _, _ => hnm.zero'
  | n + 1, m + 1, hnm, s, t, hs, hle, h => by
    unfold bodyLoop
    rw [(mut_blind d x).atEnd h]
    split
    · exact .ret ⟨rfl, h⟩
    · have hm := (mut_blind d x).mark h
      refine (hg s t hs h).bind fun a b hx _ hab => ?_
      have hfw := ((hgs s hs).2 a hx).2.2
      obtain ⟨e, s'⟩ := a
      obtain ⟨e', t'⟩ := b
      obtain ⟨h1, h2, h3⟩ := hab
      simp only at hfw
      cases e <;> cases e' <;> simp only [ResSame] at h1
      · simp only [hm]
        refine (((mut_blind d x).getE h2 _).sim (lt := lt) (gt := gt)).bind fun a b hstr _ hab => ?_
        subst hab
        have hlen := get_length hstr
        have hlen' : (b.length : Int) ≤ s'.pos := by
          refine Int.le_trans hlen ?_
          have : (makeToken mk s.mark).to = s.pos := by
            unfold makeToken Scanner.mark
            split
            · simp only; omega
            · rfl
          omega
        obtain ⟨y, hy1, hy2, hy3⟩ : ∃ y : Nat × Int, (b.length : Int) ≤ y.2 ∧ EndsBy y.2 (s'.heap.baskets y.1) ∧
            ∀ h' : Heap, (EndsBy y.2 (h'.baskets y.1)) → InStep x { s' with heap := h' } := by
          have he := h2.ends
          rcases x with _ | ⟨c, l⟩
          · obtain ⟨k, hk, hk'⟩ := he
            exact ⟨(k, s'.pos), hlen', hk', fun h' hh => ⟨k, hk, hh⟩⟩
          · obtain ⟨hk, h4, h5⟩ := he
            exact ⟨(c, l), Int.le_trans hlen' (Int.le_trans h3.2 h4), h5, fun h' hh => ⟨hk, h4, hh⟩⟩
        unfold Scanner.use
        refine SimE.bind (R := fun a b => ResSame a.1 b.1 ∧ MutedStep d (some y) a.2 b.2) ?_ fun a b _ _ hab => ?_
        · refine (hf (some y) _ _ ⟨by simp [Scanner.new], by simp [Scanner.new]⟩ (h2.new hy1 hy2)).bind fun a b _ _ hab => ?_
          obtain ⟨e, s'⟩ := a
          obtain ⟨e', t'⟩ := b
          obtain ⟨h1, h2, h3⟩ := hab
          cases e <;> cases e' <;> simp only [ResSame] at h1
          · exact .ret ⟨trivial, h2⟩
          · exact .ret ⟨h1, (mut_blind d (some y)).toMarker h2 _⟩
        · obtain ⟨e, s1⟩ := a
          obtain ⟨e', t1⟩ := b
          obtain ⟨h4, h5⟩ := hab
          have hh : MutedStep d x { s' with heap := s1.heap } { t' with heap := t1.heap } :=
            ⟨⟨h2.full, h2.pos, h2.tracker, h5.cells, h5.janus, h5.logs, h5.baskets, h5.maps⟩, hy3 _ h5.ends.2.2⟩
          simp only [(mut_blind d (some y)).atEnd h5]
          cases e <;> cases e' <;> simp only [ResSame] at h4
          · split
            · exact .ret ⟨rfl, hh⟩
            · exact .ret ⟨rfl, hh⟩
          · exact .ret ⟨rfl, hh⟩
      · refine (runes_both' h3 h2).bind fun a b _ _ hab => ?_
        exact body_both hf hg hgs h0 n m hnm.pred _ _ hab.2.2.1 (by have := hab.2.2.2; simp only at this; omega) hab.2.1

mutual

theorem what_mute (rt : Rt) (G : Env) : ∀ r : Reader, (Reader.mute d r).what rt (Env.mute d G) = r.what rt G
  | .any rs => by simp only [Reader.mute, Reader.what, whats_mute rt G rs]
  | .at_ r => by simp only [Reader.mute, Reader.what, what_mute rt G r]
  | .body b t => by simp only [Reader.mute, Reader.what, what_mute rt G b, what_mute rt G t]
  | .bodyTail b t => by simp only [Reader.mute, Reader.what, what_mute rt G b, what_mute rt G t]
  | .janusBegin i n r => by simp only [Reader.mute, Reader.what, what_mute rt G r]
  | .many r => by simp only [Reader.mute, Reader.what, what_mute rt G r]
  | .map f r => by
    unfold Reader.mute
    split
    · simp only [Reader.what, what_mute rt G r]
    · simp only [Reader.what, what_mute rt G r]
  | .named n r => by simp only [Reader.mute, Reader.what]
  | .not r => by simp only [Reader.mute, Reader.what, what_mute rt G r]
  | .opt r => by simp only [Reader.mute, Reader.what, what_mute rt G r]
  | .past r => by simp only [Reader.mute, Reader.what, what_mute rt G r]
  | .seq rs => by simp only [Reader.mute, Reader.what, whats_mute rt G rs]
  | .skipSeq sk rs => by simp only [Reader.mute, Reader.what, what_mute rt G sk, whats_mute rt G rs]
  | .times n r => by simp only [Reader.mute, Reader.what, what_mute rt G r]
  | .to r => by simp only [Reader.mute, Reader.what, what_mute rt G r]
  | .zom r => by simp only [Reader.mute, Reader.what, what_mute rt G r]
  | .pick i b r => by simp only [Reader.mute, Reader.what, what_mute rt G r]
  | .monitor i l r => by simp only [Reader.mute, Reader.what, what_mute rt G r]
  | .ruleName r => by simp only [Reader.mute, Reader.what]
  | .grammar w r => by simp only [Reader.mute, Reader.what]
  | .anyRune _ => rfl
  | .atEnd => rfl
  | .between _ _ => rfl
  | .betweenAny _ _ => rfl
  | .bool _ _ => rfl
  | .fold _ => rfl
  | .holey _ _ _ => rfl
  | .int _ _ _ => rfl
  | .janusEnd _ _ => rfl
  | .invalid _ => rfl
  | .lit _ => rfl
  | .match_ _ _ => rfl
  | .rune _ => rfl
  | .uint _ _ _ => rfl
  | .wrap _ _ => rfl
  | .rule i => by
    simp only [Reader.mute, Reader.what, mute_get]
    rcases G[i]? with _ | rl <;> rfl

theorem whats_mute (rt : Rt) (G : Env) : ∀ rs : List Reader,
    Reader.whats rt (Env.mute d G) (Reader.mutes d rs) = Reader.whats rt G rs
  | [] => rfl
  | r :: rs => by simp only [Reader.mutes, Reader.whats, what_mute rt G r, whats_mute rt G rs]

end

theorem errorFor_mute (rt : Rt) (G : Env) (r : Reader) {s t : Scanner} (h : MutedStep d x s t) :
    t.errorFor ((Reader.mute d r).what rt (Env.mute d G)) = s.errorFor (r.what rt G) := by
  unfold Scanner.errorFor
  rw [what_mute, (mut_blind d x).mark h]

theorem token_both {f g : ReadFunc} (h : Both d x lt gt f g) (hf : Safe True f) {s t : Scanner} (hs : Inside s)
    (ha : MutedStep d x s t) : SimE lt gt (fun a b => b.1.1 = a.1.1 ∧ ResSame a.1.2 b.1.2 ∧ MutedStep d x a.2 b.2 ∧ (a.1.2 = none → a.1.1.to = a.2.pos ∧ Inside a.2)) (s.tokenizeUse f) (t.tokenizeUse g) := by
  unfold Scanner.tokenizeUse
  have hm := (mut_blind d x).mark ha
  refine (h s t hs ha).bind fun a b hx _ hab => ?_
  have hfw := ((hf s hs).2 a hx).2.2
  obtain ⟨e, s'⟩ := a
  obtain ⟨e', t'⟩ := b
  obtain ⟨h1, h2, h3⟩ := hab
  simp only [hm]
  cases e <;> cases e' <;> simp only [ResSame] at h1
  · refine .ret ⟨congrArg (makeToken s.pos) h2.pos, trivial, h2, fun _ => ⟨?_, h3⟩⟩
    simp only at hfw
    show (makeToken s.pos s'.pos).to = s'.pos
    unfold makeToken
    split
    · omega
    · rfl
  · have := (mut_blind d x).toMarker h2 s.mark
    exact .ret ⟨congrArg (makeToken s.pos) this.pos, h1, this, fun h => nomatch h⟩

/-- The token of a reader on the left only. -/
theorem token_gone {f g : ReadFunc} (h : Both d x lt gt f g) (hb : Restores f) (hf : Safe True f) {s t : Scanner} (hs : Inside s)
    (ha : MutedStep d x s t) : SimE lt gt (fun a b => ResSame a.1.2 b.1 ∧ MutedStep d x a.2 b.2 ∧ (a.1.2 = none → a.1.1.to = a.2.pos ∧ Inside a.2)) (s.tokenizeUse f) (g t) := by
  refine SimE.out ?_
  unfold Scanner.tokenizeUse
  refine (h s t hs ha).bind fun a b hx _ hab => ?_
  have hfw := ((hf s hs).2 a hx).2.2
  obtain ⟨e, s'⟩ := a
  obtain ⟨e', t'⟩ := b
  obtain ⟨h1, h2, h3⟩ := hab
  cases e <;> cases e' <;> simp only [ResSame] at h1
  · refine .ret ⟨trivial, h2, fun _ => ⟨?_, h3⟩⟩
    simp only at hfw
    show (makeToken s.pos s'.pos).to = s'.pos
    unfold makeToken
    split
    · omega
    · rfl
  · refine .ret ⟨h1, ?_, fun h => nomatch h⟩
    have hp := hb s hs _ _ hx
    simp only [Option.isSome_some, if_true, Scanner.mark, ← hp, toMarker_at h3.1]
    exact h2.stay

/-- Reading with a `Map` that is left out. -/
theorem gone_both (rt : Rt) (G : Env) {n m : Nat} {f : Nat} {c : Reader} (hg : d f = true) (hb : Restores (read rt G n c)) (hf : Safe True (read rt G n c))
    (h : Both d x lt gt (read rt G n c) (read rt (Env.mute d G) m (Reader.mute d c))) {s t : Scanner} (hs : Inside s) (ha : MutedStep d x s t) :
    SimE lt gt (fun a b => ResSame a.1 b.1 ∧ MutedStep d x a.2 b.2) (read rt G (n + 1) (.map f c) s) (read rt (Env.mute d G) m (Reader.mute d (.map f c)) t) := by
  simp only [Reader.mute, hg, if_true]
  refine SimE.out ?_
  simp only [read]
  refine (token_gone h hb hf hs ha).bind fun a b _ _ hab => ?_
  obtain ⟨⟨k, e⟩, s'⟩ := a
  obtain ⟨e', t'⟩ := b
  obtain ⟨h1, h2, h5⟩ := hab
  cases e <;> cases e' <;> simp only [ResSame] at h1
  · exact .ret ⟨trivial, h2.leave hg⟩
  · exact .ret ⟨h1, h2⟩

theorem leaf_mute {r : Reader} (hr : r.leaf = true) : Reader.mute d r = r := by
  cases r <;> first | rfl | simp [Reader.leaf] at hr

/-- Reading with anything else. -/
theorem step_both (rt : Rt) (G : Env) {n m : Nat} (hnm : Fuel lt gt n m) {r : Reader} (hg : gone d r = false) (hb : mutable rt G d r)
    (hsf : ∀ c ∈ r.subs, Safe True (read rt G n c))
    (ih : ∀ c ∈ r.subs, ∀ x, Both d x lt gt (read rt G n c) (read rt (Env.mute d G) m (Reader.mute d c)))
    (ihG : ∀ i, r = .rule i → ∀ nm c, G[i]? = some ⟨nm, some c⟩ → ∀ x, Both d x lt gt (read rt G n c) (read rt (Env.mute d G) m (Reader.mute d c)))
    {s t : Scanner} (hs : Inside s) (ha : MutedStep d x s t) :
    SimE lt gt (fun a b => ResSame a.1 b.1 ∧ MutedStep d x a.2 b.2) (read rt G (n + 1) r s)
      (read rt (Env.mute d G) (m + 1) (Reader.mute d r) t) := by
  have ihx := fun c hc => ih c hc x
  by_cases hl : r.leaf = true
  · rw [leaf_mute hl]
    exact (((mut_blind d x).leaf ha rt G (Env.mute d G) n m hl).mono fun a b _ _ hab => ⟨ResSame.of hab.1, hab.2⟩).sim
  have hB := mut_blind d x
  have hm := hB.mark ha
  have hw : ∀ {s t : Scanner}, MutedStep d x s t →
    t.errorFor ((Reader.mute d r).what rt (Env.mute d G)) = s.errorFor (r.what rt G) := fun h => errorFor_mute rt G r h
  cases r with
  | any rs =>
    simp only [Reader.mute, read, hm]
    refine (any_both rs ihx [] s t hs ha).bind fun a b _ _ hab => ?_
    obtain ⟨e, s'⟩ := a
    obtain ⟨e', t'⟩ := b
    obtain ⟨h1, h2⟩ := hab
    cases h2
    cases e
    · exact .ret ⟨trivial, h1⟩
    · exact .ret ⟨rfl, hB.toMarker h1 _⟩
  | at_ c =>
    simp only [Reader.mute, read, hm]
    refine (ihx c (by simp [Reader.subs]) s t hs ha).bind fun a b _ _ hab => ?_
    exact .ret ⟨hab.1, hB.toMarker hab.2.1 _⟩
  | body b c =>
    simp only [Reader.mute] at hw ⊢
    simp only [read, hm]
    refine (body_both (ih b (by simp [Reader.subs])) (ihx c (by simp [Reader.subs])) (hsf c (by simp [Reader.subs])) hs.1 n m hnm s t hs (Int.le_refl _) ha).bind fun a b _ _ hab => ?_
    obtain ⟨e, s'⟩ := a
    obtain ⟨e', t'⟩ := b
    obtain ⟨h1, h2⟩ := hab
    cases h1
    cases e with
    | none => exact .ret ⟨hw (hB.toMarker h2 _), hB.toMarker h2 _⟩
    | some k => exact .ret ⟨trivial, hB.toMarker h2 _⟩
  | bodyTail b c =>
    simp only [Reader.mute] at hw ⊢
    simp only [read, hm]
    refine (body_both (ih b (by simp [Reader.subs])) (ihx c (by simp [Reader.subs])) (hsf c (by simp [Reader.subs])) hs.1 n m hnm s t hs (Int.le_refl _) ha).bind fun a b _ _ hab => ?_
    obtain ⟨e, s'⟩ := a
    obtain ⟨e', t'⟩ := b
    obtain ⟨h1, h2⟩ := hab
    cases h1
    cases e with
    | none => exact .ret ⟨hw (hB.toMarker h2 _), hB.toMarker h2 _⟩
    | some k => exact .ret ⟨trivial, h2⟩
  | janusBegin i nm c =>
    simp only [Reader.mute, read]
    refine (token_both (ihx c (by simp [Reader.subs])) (hsf c (by simp [Reader.subs])) hs ha).bind fun a b _ _ hab => ?_
    obtain ⟨⟨k, e⟩, s'⟩ := a
    obtain ⟨⟨k', e'⟩, t'⟩ := b
    obtain ⟨h0, h1, h2, _⟩ := hab
    cases h0
    cases e <;> cases e' <;> simp only [ResSame] at h1
    · refine ((hB.getE h2 _).sim (lt := lt) (gt := gt)).bind fun a b _ _ hab => ?_
      subst hab
      exact .ret ⟨trivial, hB.setJan h2 _ _⟩
    · exact .ret ⟨h1, h2⟩
  | many c =>
    simp only [Reader.mute] at hw ⊢
    simp only [read, hm]
    refine (zom_both (ihx c (by simp [Reader.subs])) n m hnm s t hs ha).bind fun a b _ _ hab => ?_
    refine .ret ⟨?_, hab.1⟩
    unfold Scanner.errorIfFalse
    rw [hB.mark hab.1]
    split
    · have := hw hab.1
      unfold Scanner.errorFor at this
      rw [hB.mark hab.1] at this
      exact this
    · trivial
  | map f c =>
    simp only [gone] at hg
    simp only [Reader.mute, hg, Bool.false_eq_true, if_false, read]
    refine (token_both (ihx c (by simp [Reader.subs])) (hsf c (by simp [Reader.subs])) hs ha).bind fun a b _ _ hab => ?_
    obtain ⟨⟨k, e⟩, s'⟩ := a
    obtain ⟨⟨k', e'⟩, t'⟩ := b
    obtain ⟨h0, h1, h2, _⟩ := hab
    cases h0
    cases e <;> cases e' <;> simp only [ResSame] at h1
    · exact .ret ⟨trivial, h2.call hg⟩
    · exact .ret ⟨h1, h2⟩
  | pick i bk c =>
    simp only [Reader.mute, read]
    refine (token_both (ihx c (by simp [Reader.subs])) (hsf c (by simp [Reader.subs])) hs ha).bind fun a b _ _ hab => ?_
    obtain ⟨⟨k, e⟩, s'⟩ := a
    obtain ⟨⟨k', e'⟩, t'⟩ := b
    obtain ⟨h0, h1, h2, h5⟩ := hab
    cases h0
    cases e <;> cases e' <;> simp only [ResSame] at h1
    · exact .ret ⟨trivial, MutedStep.put (h5 rfl).2 h2 (h5 rfl).1⟩
    · exact .ret ⟨h1, h2⟩
  | monitor i l c =>
    simp only [Reader.mute, read]
    refine (ihx c (by simp [Reader.subs]) (s.enterLog rt i l) (t.enterLog rt i l) hs ⟨⟨ha.full, ha.pos, ha.tracker, ha.cells, ha.janus, ?_, ha.baskets, ha.maps⟩, ha.ends⟩).bind fun a b _ _ hab => ?_
    · have := ha.pos
      unfold Scanner.enterLog
      simp only [ha.logs, this]
    obtain ⟨h1, h2, h3⟩ := hab
    have h1' := ResSame.eq h1
    refine .ret ⟨h1, ⟨h2.full, h2.pos, h2.tracker, h2.cells, h2.janus, ?_, h2.baskets, h2.maps⟩, h2.ends⟩
    simp only [h2.logs, ha.logs, ha.pos, h2.pos, h1']
  | named w c =>
    simp only [Reader.mute, read]
    exact (ihx c (by simp [Reader.subs]) s t hs ha).mono fun a b _ _ hab => ⟨hab.1, hab.2.1⟩
  | not c =>
    simp only [Reader.mute, read, hm]
    refine (ihx c (by simp [Reader.subs]) s t hs ha).bind fun a b ha1 _ hab => ?_
    obtain ⟨e, s'⟩ := a
    obtain ⟨e', t'⟩ := b
    obtain ⟨h1, h2, h3⟩ := hab
    have h4 := hB.toMarker h2 s.mark
    cases e <;> cases e' <;> simp only [ResSame] at h1
    · exact .ret ⟨errorFor_mute rt G c h4, h4⟩
    · exact ((hB.moveRunes h4).sim (lt := lt) (gt := gt)).bind fun a b _ _ hab => .ret ⟨trivial, hab.2⟩
  | opt c =>
    simp only [Reader.mute, read]
    exact (ihx c (by simp [Reader.subs]) s t hs ha).bind fun a b _ _ hab => .ret ⟨trivial, hab.2.1⟩
  | past c =>
    simp only [Reader.mute] at hw ⊢
    simp only [read, hm]
    refine (past_both (ihx c (by simp [Reader.subs])) n m hnm s t hs ha).bind fun a b _ _ hab => ?_
    obtain ⟨e, s'⟩ := a
    obtain ⟨e', t'⟩ := b
    obtain ⟨h1, h2⟩ := hab
    cases h1
    cases e with
    | false => exact .ret ⟨hw (hB.toMarker h2 _), hB.toMarker h2 _⟩
    | true => exact .ret ⟨trivial, h2⟩
  | «to» c =>
    simp only [Reader.mute] at hw ⊢
    simp only [read, hm]
    refine (to_both (ihx c (by simp [Reader.subs])) n m hnm s t hs ha).bind fun a b _ _ hab => ?_
    obtain ⟨e, s'⟩ := a
    obtain ⟨e', t'⟩ := b
    obtain ⟨h1, h2⟩ := hab
    cases h1
    cases e with
    | false => exact .ret ⟨hw (hB.toMarker h2 _), hB.toMarker h2 _⟩
    | true => exact .ret ⟨trivial, h2⟩
  | seq rs =>
    simp only [Reader.mute, read, hm]
    refine (seq_both rs ihx s t hs ha).bind fun a b _ _ hab => ?_
    obtain ⟨e, s'⟩ := a
    obtain ⟨e', t'⟩ := b
    obtain ⟨h1, h2, h3⟩ := hab
    cases e <;> cases e' <;> simp only [ResSame] at h1
    · exact .ret ⟨trivial, h2⟩
    · exact .ret ⟨h1, hB.toMarker h2 _⟩
  | skipSeq sk rs =>
    simp only [Reader.mute, read, hm]
    have hsk := ihx sk (by simp [Reader.subs])
    refine (hsk s t hs ha).bind fun a b _ _ hab => ?_
    obtain ⟨e, s'⟩ := a
    obtain ⟨e', t'⟩ := b
    obtain ⟨h1, h2, h3⟩ := hab
    cases e <;> cases e' <;> simp only [ResSame] at h1
    · refine (skip_both hsk rs (fun c hc => ihx c (List.mem_cons_of_mem _ hc)) s' t' h3 h2).bind fun a b _ _ hab => ?_
      obtain ⟨e, s'⟩ := a
      obtain ⟨e', t'⟩ := b
      obtain ⟨h1, h2, h3⟩ := hab
      cases e <;> cases e' <;> simp only [ResSame] at h1
      · exact .ret ⟨trivial, h2⟩
      · exact .ret ⟨h1, hB.toMarker h2 _⟩
    · exact .ret ⟨h1, hB.toMarker h2 _⟩
  | times k c =>
    simp only [Reader.mute, read]
    exact (times_both (ihx c (by simp [Reader.subs])) k.toNat s t hs ha).mono fun a b _ _ hab => ⟨hab.1, hab.2.1⟩
  | wrap w f =>
    simp only [Reader.mute, read]
    exact ((hb x).sim hs ha).mono fun a b _ _ hab => ⟨ResSame.of hab.1, hab.2⟩
  | zom c =>
    simp only [Reader.mute, read]
    exact (zom_both (ihx c (by simp [Reader.subs])) n m hnm s t hs ha).bind fun a b _ _ hab => .ret ⟨trivial, hab.1⟩
  | rule i =>
    simp only [Reader.mute, read, mute_get]
    have := ihG i rfl
    rcases hi : G[i]? with _ | ⟨nm, _ | c⟩
    · exact .panic
    · exact .panic
    · exact (this nm c hi x s t hs ha).mono fun a b _ _ hab => ⟨hab.1, hab.2.1⟩
  | ruleName c =>
    simp only [Reader.mute, read]
    refine (ihx c (by simp [Reader.subs]) s t hs ha).bind fun a b _ _ hab => ?_
    obtain ⟨e, s'⟩ := a
    obtain ⟨e', t'⟩ := b
    obtain ⟨h1, h2, h3⟩ := hab
    cases e <;> cases e' <;> simp only [ResSame] at h1
    · exact .ret ⟨trivial, h2⟩
    · exact .ret ⟨ResSame.of (by simpa [Scanner.errorIfFalse, Scanner.errorFor, Scanner.mark, Reader.what] using h2.pos), h2⟩
  | grammar w c =>
    simp only [Reader.mute, read]
    refine (ihx c (by simp [Reader.subs]) s t hs ha).bind fun a b _ _ hab => ?_
    obtain ⟨e, s'⟩ := a
    obtain ⟨e', t'⟩ := b
    obtain ⟨h1, h2, h3⟩ := hab
    cases e <;> cases e' <;> simp only [ResSame] at h1
    · exact .ret ⟨trivial, h2⟩
    · exact .ret ⟨by simp only [h1]; rfl, h2⟩
  | _ => simp [Reader.leaf] at hl

theorem Both.of (rt : Rt) (G : Env) {n m : Nat} {r : Reader} (hsafe : Safe True (read rt G n r))
    (h : ∀ s t, Inside s → MutedStep d x s t → SimE lt gt (fun a b => ResSame a.1 b.1 ∧ MutedStep d x a.2 b.2) (read rt G n r s)
      (read rt (Env.mute d G) m (Reader.mute d r) t)) : Both d x lt gt (read rt G n r) (read rt (Env.mute d G) m (Reader.mute d r)) :=
  fun s t hs ha => (h s t hs ha).mono fun a _ hx _ hab => ⟨hab.1, hab.2, ((hsafe s hs).2 a hx).1⟩

/-- What the comparison needs of every part. -/
def fine (rt : Rt) (G : Env) (d : Nat → Bool) (r : Reader) : Prop := r.safeHere True G ∧ mutable rt G d r

theorem fine_safe {rt : Rt} {G : Env} (hG : G.Every (fine rt G d)) {r : Reader} (hr : r.Every (fine rt G d)) (n : Nat) :
    Safe True (read rt G n r) := read_safe rt G (hG.imp fun _ h => h.1) n r (hr.imp fun _ h => h.1)

/-- Without the functions the budget lasts at least as long. -/
theorem mute_forward (rt : Rt) (G : Env) (hG : G.Every (fine rt G d)) : ∀ n m r, r.Every (fine rt G d) → n ≤ m →
    ∀ x, Both d x True False (read rt G n r) (read rt (Env.mute d G) m (Reader.mute d r))
  | 0, _, _, _, _ => fun _ _ _ _ _ => .left trivial
  | n + 1, m, r, hr, hnm => by
    refine fun x => Both.of rt G (fine_safe hG hr _) fun s t hs ha => ?_
    cases hg : gone d r with
    | true =>
      match r, hg, hr with
      | .map f c, hg, hr =>
        exact gone_both rt G hg (hr.here.2 hg n) (fine_safe hG (hr.sub (by simp [Reader.subs])) n) (mute_forward rt G hG n m c (hr.sub (by simp [Reader.subs])) (by omega) x) hs ha
    | false =>
      obtain ⟨m, rfl⟩ : ∃ k, m = k + 1 := ⟨m - 1, by omega⟩
      refine step_both rt G ⟨fun _ => trivial, fun _ => by omega⟩ hg hr.here.2 (fun c hc => fine_safe hG (hr.sub hc) n)
        (fun c hc => mute_forward rt G hG n m c (hr.sub hc) (by omega)) (fun i _ nm c hi => ?_) hs ha
      exact mute_forward rt G hG n m c (hG.get hi) (by omega)

/-- Every budget without the functions is matched by a large enough one with them. -/
theorem mute_backward (rt : Rt) (G : Env) (hG : G.Every (fine rt G d)) : ∀ m r, r.Every (fine rt G d) →
    ∃ n₀, ∀ n, n₀ ≤ n → ∀ x, Both d x False True (read rt G n r) (read rt (Env.mute d G) m (Reader.mute d r))
  | 0, _, _ => ⟨0, fun _ _ _ _ _ _ _ => .right trivial⟩
  | m + 1, r, hr => by
    have all : ∀ l : List Reader, (∀ c ∈ l, c.Every (fine rt G d)) →
        ∃ n₀, ∀ n, n₀ ≤ n → ∀ c ∈ l, ∀ x, Both d x False True (read rt G n c) (read rt (Env.mute d G) m (Reader.mute d c)) := by
      intro l hl
      induction l with
      | nil => exact ⟨0, by simp⟩
      | cons c l ih =>
        obtain ⟨n1, h1⟩ := ih fun c hc => hl c (List.mem_cons_of_mem _ hc)
        obtain ⟨n2, h2⟩ := mute_backward rt G hG m c (hl c (by simp))
        refine ⟨max n1 n2, fun n hn c' hc' => ?_⟩
        rcases List.mem_cons.mp hc' with rfl | hc'
        · exact h2 n (by omega)
        · exact h1 n (by omega) c' hc'
    induction hr with
    | @mk r hp hsub ih =>
      have hr : r.Every (fine rt G d) := .mk hp hsub
      cases hg : gone d r with
      | true =>
        match r, hg, hr, ih with
        | .map f c, hg, hr, ih =>
          obtain ⟨n₀, h⟩ := ih c (by simp [Reader.subs])
          refine ⟨n₀ + 1, fun n hn => ?_⟩
          obtain ⟨n, rfl⟩ : ∃ k, n = k + 1 := ⟨n - 1, by omega⟩
          exact fun x => Both.of rt G (fine_safe hG hr _) fun s t hs ha =>
            gone_both rt G hg (hr.here.2 hg n) (fine_safe hG (hr.sub (by simp [Reader.subs])) n) (h n (by omega) x) hs ha
      | false =>
        obtain ⟨n1, h1⟩ := all r.subs hsub
        have : ∃ n2, ∀ n, n2 ≤ n → ∀ i, r = .rule i → ∀ nm c, G[i]? = some ⟨nm, some c⟩ →
            ∀ x, Both d x False True (read rt G n c) (read rt (Env.mute d G) m (Reader.mute d c)) := by
          by_cases hx : ∃ i nm c, r = .rule i ∧ G[i]? = some ⟨nm, some c⟩
          · obtain ⟨i, nm, c, rfl, hi⟩ := hx
            obtain ⟨n2, h2⟩ := mute_backward rt G hG m c (hG.get hi)
            refine ⟨n2, fun n hn j hj nm' c' hi' => ?_⟩
            cases hj
            rw [hi] at hi'
            cases hi'
            exact h2 n hn
          · exact ⟨0, fun n _ i hi nm c hc => absurd ⟨i, nm, c, hi, hc⟩ hx⟩
        obtain ⟨n2, h2⟩ := this
        refine ⟨max (max n1 n2) m + 1, fun n hn => ?_⟩
        obtain ⟨n, rfl⟩ : ∃ k, n = k + 1 := ⟨n - 1, by omega⟩
        exact fun x => Both.of rt G (fine_safe hG hr _) fun s t hs ha => step_both rt G ⟨fun _ => by omega, fun _ => trivial⟩ hg hr.here.2 (fun c hc => fine_safe hG (hr.sub hc) n)
          (h1 n (by omega)) (h2 n (by omega)) hs ha

/-- With or without the functions: the same result. -/
theorem mute_ret (rt : Rt) (G : Env) (hG : G.Every (fine rt G d)) {r : Reader} (hr : r.Every (fine rt G d)) {s t : Scanner}
    (hs : Inside s) (ha : MutedStep d x s t) {n : Nat} {e : Option Err} {s' : Scanner} (h : read rt G n r s = .ret (e, s')) :
    ∃ e' t', read rt (Env.mute d G) n (Reader.mute d r) t = .ret (e', t') ∧ ResSame e e' ∧ MutedStep d x s' t' := by
  have := mute_forward rt G hG n n r hr (Nat.le_refl _) x s t hs ha
  rw [h] at this
  generalize read rt (Env.mute d G) n (Reader.mute d r) t = y at this
  cases this with
  | @ret _ b hab => exact ⟨b.1, b.2, rfl, hab.1, hab.2.1⟩
  | right h => exact h.elim

theorem mute_ret' (rt : Rt) (G : Env) (hG : G.Every (fine rt G d)) {r : Reader} (hr : r.Every (fine rt G d)) {s t : Scanner}
    (hs : Inside s) (ha : MutedStep d x s t) {m : Nat} {e' : Option Err} {t' : Scanner}
    (h : read rt (Env.mute d G) m (Reader.mute d r) t = .ret (e', t')) :
    ∃ n e s', read rt G n r s = .ret (e, s') ∧ ResSame e e' ∧ MutedStep d x s' t' := by
  obtain ⟨n, hn⟩ := mute_backward rt G hG m r hr
  have := hn n (Nat.le_refl _) x s t hs ha
  rw [h] at this
  generalize hx : read rt G n r s = x at this
  cases this with
  | @ret a _ hab => exact ⟨n, a.1, a.2, hx, hab.1, hab.2.1⟩
  | left h => exact h.elim

end
end Tok.Mute
