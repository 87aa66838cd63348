/-
Reading with and without the observing wrappers.
-/
import Verif.Spec.Strip
import Verif.Proofs.Blind
import Verif.Props.C32

namespace Tok
open Spec

/-- Two runs end the same way; the left one may be out of budget if `lt`, the right one if `gt`. -/
inductive SimE {α β : Type} (lt gt : Prop) (R : α → β → Prop) : Exec α → Exec β → Prop
  | ret {a b} : R a b → SimE lt gt R (.ret a) (.ret b)
  | panic : SimE lt gt R .panic .panic
  | timeout : SimE lt gt R .timeout .timeout
  | left {y} : lt → SimE lt gt R .timeout y
  | right {x} : gt → SimE lt gt R x .timeout

variable {lt gt : Prop}

theorem RelE.sim {α β : Type} {R : α → β → Prop} {x : Exec α} {y : Exec β} (h : RelE R x y) : SimE lt gt R x y := by
  cases h with
  | ret h => exact .ret h
  | panic => exact .panic
  | timeout => exact .timeout

theorem SimE.bind {α β γ δ : Type} {R : α → β → Prop} {R' : γ → δ → Prop} {x : Exec α} {y : Exec β}
    {f : α → Exec γ} {g : β → Exec δ} (h : SimE lt gt R x y)
    (hf : ∀ a b, x = .ret a → y = .ret b → R a b → SimE lt gt R' (f a) (g b)) : SimE lt gt R' (x >>= f) (y >>= g) := by
  cases h with
  | ret h => exact hf _ _ rfl rfl h
  | panic => exact .panic
  | timeout => exact .timeout
  | left h => exact .left h
  | right h => exact .right h

theorem SimE.mono {α β : Type} {R R' : α → β → Prop} {x : Exec α} {y : Exec β} (h : SimE lt gt R x y)
    (hR : ∀ a b, x = .ret a → y = .ret b → R a b → R' a b) : SimE lt gt R' x y := by
  cases h with
  | ret h => exact .ret (hR _ _ rfl rfl h)
  | panic => exact .panic
  | timeout => exact .timeout
  | left h => exact .left h
  | right h => exact .right h

section
variable {d : Del}

theorem Spec.Alike.refl (s : Scanner) : Alike d s s := ⟨rfl, rfl, rfl, rfl, rfl, fun _ _ => rfl, fun _ _ => rfl, fun _ => rfl, fun _ _ => rfl⟩

theorem Spec.ErrAlike.refl (e : Err) : ErrAlike d e e := by
  cases e with
  | read m w => exact ⟨rfl, fun _ => rfl⟩
  | other w => exact fun _ => rfl
theorem Spec.ErrAlike.eq (hd : d.named = false) {e e' : Err} (h : ErrAlike d e e') : e' = e := by
  cases e <;> cases e' <;> simp_all [ErrAlike]
theorem Spec.ResAlike.refl (e : Option Err) : ResAlike d e e := by
  cases e with
  | none => trivial
  | some e => exact ErrAlike.refl e
theorem Spec.ResAlike.eq (hd : d.named = false) {e e' : Option Err} (h : ResAlike d e e') : e' = e := by
  cases e <;> cases e' <;> simp_all [ResAlike]
  exact ErrAlike.eq hd h
theorem Spec.ResAlike.of (e : Option Err) (e' : Option Err) (h : e' = e) : ResAlike d e e' := h ▸ .refl _

theorem Spec.Alike.at {s t : Scanner} (h : Alike d s t) (m : Int) : Alike d (s.at m) (t.at m) := by
  obtain ⟨f, p, tr, hp⟩ := s
  obtain ⟨f', p', tr', hp'⟩ := t
  obtain ⟨h1, h2, h3, h4, h5, h6, h7, h8, h9⟩ := h
  cases h3
  rcases tr with _ | ⟨b⟩ | ⟨c⟩
  · exact ⟨h1, rfl, rfl, h4, h5, h6, h7, h8, h9⟩
  · refine ⟨h1, rfl, rfl, h4, h5, fun a b => ?_, h7, h8, h9⟩
    have := h6 a b
    simp only [Scanner.at, Scanner.notify] at this ⊢
    rw [this]
  · refine ⟨h1, rfl, rfl, h4, h5, h6, fun a b => ?_, h8, h9⟩
    have := h7 a b
    simp only [Scanner.at, Scanner.notify] at this ⊢
    rw [this]

theorem alike_blind (d : Del) : Blind (Alike d) where
  full h := h.full
  pos h := h.pos
  at_ h m := h.at m
  janus h := h.janus
  setCell h c v := ⟨h.full, h.pos, h.tracker, congrArg (fun f => upd f c v) h.cells, h.janus, h.baskets, h.tracks, h.maps, h.logs⟩
  setJanus h _ := ⟨h.full, h.pos, h.tracker, h.cells, rfl, h.baskets, h.tracks, h.maps, h.logs⟩

theorem Spec.Alike.heap {s t s' t' : Scanner} (h : Alike d s t) (h' : Alike d s' t') :
    Alike d { s with heap := s'.heap } { t with heap := t'.heap } :=
  ⟨h.full, h.pos, h.tracker, h'.cells, h'.janus, h'.baskets, h'.tracks, h'.maps, h'.logs⟩

theorem Spec.Alike.new {s t : Scanner} (h : Alike d s t) (str : Bytes) : Alike d (.new str s.heap) (.new str t.heap) :=
  ⟨rfl, rfl, rfl, h.cells, h.janus, h.baskets, h.tracks, h.maps, h.logs⟩

/-- What a sub-reader does on both sides. -/
def Both (d : Del) (lt gt : Prop) (f g : ReadFunc) : Prop :=
  ∀ s t, Inside s → Alike d s t → SimE lt gt (fun a b => ResAlike d a.1 b.1 ∧ Alike d a.2 b.2 ∧ Inside a.2) (f s) (g t)

/-- Budgets: a side may be out of budget only when it has the smaller one. -/
def Fuel (lt gt : Prop) (n m : Nat) : Prop := (n < m → lt) ∧ (m < n → gt)

/-- Results of loops. -/
def Pair (d : Del) (s t : Scanner) : Prop := Alike d s t ∧ Inside s

/-- Errors collected on both sides. -/
inductive ErrsAlike (d : Del) : List Err → List Err → Prop
  | nil : ErrsAlike d [] []
  | cons {e e' es es'} : ErrAlike d e e' → ErrsAlike d es es' → ErrsAlike d (e :: es) (e' :: es')

theorem ErrsAlike.snoc {e e' : Err} {es es' : List Err} (h : ErrsAlike d es es') (he : ErrAlike d e e') :
    ErrsAlike d (es ++ [e]) (es' ++ [e']) := by
  induction h with
  | nil => exact .cons he .nil
  | cons h1 _ ih => exact .cons h1 ih

theorem deepest_alike {es es' : List Err} (h : ErrsAlike d es es') : ∀ (m : Int) (w w' : Bytes), (d.named = false → w' = w) →
    ErrAlike d (getDeepest (m, w) es) (getDeepest (m, w') es') := by
  induction h with
  | nil => exact fun m w w' h => ⟨rfl, h⟩
  | @cons e e' es es' h1 _ ih =>
    intro m w w' hw
    cases e <;> cases e' <;> simp only [ErrAlike] at h1
    · obtain ⟨rfl, h1⟩ := h1
      unfold getDeepest
      split
      · exact ih _ _ _ h1
      · exact ih _ _ _ hw
    · exact ih _ _ _ hw

theorem any_both {rd rd' : Reader → ReadFunc} : ∀ (rs : List Reader), (∀ r ∈ rs, Both d lt gt (rd r) (rd' (strip d r))) →
    ∀ es es' s t, ErrsAlike d es es' → Inside s → Alike d s t →
    SimE lt gt (fun a b => Alike d a.2 b.2 ∧ (match a.1, b.1 with
      | none, none => True
      | some es, some es' => ErrsAlike d es es'
      | _, _ => False)) (anyLoop rd rs es s) (anyLoop rd' (strips d rs) es' t)
  | [], _, es, es', s, t, he, _, h => .ret ⟨h, he⟩
  | r :: rs, hr, es, es', s, t, he, hs, h => (hr r (by simp) s t hs h).bind fun a b _ _ hab => by
    obtain ⟨e, s'⟩ := a
    obtain ⟨e', t'⟩ := b
    obtain ⟨h1, h2, h3⟩ := hab
    cases e <;> cases e' <;> simp only [ResAlike] at h1
    · exact .ret ⟨h2, trivial⟩
    · exact any_both rs (fun r hr' => hr r (List.mem_cons_of_mem _ hr')) _ _ _ _ (he.snoc h1) h3 h2

theorem seq_both {rd rd' : Reader → ReadFunc} : ∀ (rs : List Reader), (∀ r ∈ rs, Both d lt gt (rd r) (rd' (strip d r))) →
    Both d lt gt (seqLoop rd rs) (seqLoop rd' (strips d rs))
  | [], _, _, _, hs, h => .ret ⟨trivial, h, hs⟩
  | r :: rs, hr, s, t, hs, h => (hr r (by simp) s t hs h).bind fun a b _ _ hab => by
    obtain ⟨e, s'⟩ := a
    obtain ⟨e', t'⟩ := b
    obtain ⟨h1, h2, h3⟩ := hab
    cases e <;> cases e' <;> simp only [ResAlike] at h1
    · exact seq_both rs (fun r hr' => hr r (List.mem_cons_of_mem _ hr')) _ _ h3 h2
    · exact .ret ⟨h1, h2, h3⟩

theorem skip_both {rd rd' : Reader → ReadFunc} {sk : Reader} (hsk : Both d lt gt (rd sk) (rd' (strip d sk))) : ∀ (rs : List Reader),
    (∀ r ∈ rs, Both d lt gt (rd r) (rd' (strip d r))) →
    Both d lt gt (skipSeqLoop rd sk rs) (skipSeqLoop rd' (strip d sk) (strips d rs))
  | [], _, _, _, hs, h => .ret ⟨trivial, h, hs⟩
  | r :: rs, hr, s, t, hs, h => (hr r (by simp) s t hs h).bind fun a b _ _ hab => by
    obtain ⟨e, s'⟩ := a
    obtain ⟨e', t'⟩ := b
    obtain ⟨h1, h2, h3⟩ := hab
    cases e <;> cases e' <;> simp only [ResAlike] at h1
    · refine (hsk _ _ h3 h2).bind fun a b _ _ hab => ?_
      obtain ⟨e, s'⟩ := a
      obtain ⟨e', t'⟩ := b
      obtain ⟨h1, h2, h3⟩ := hab
      cases e <;> cases e' <;> simp only [ResAlike] at h1
      · exact skip_both hsk rs (fun r hr' => hr r (List.mem_cons_of_mem _ hr')) _ _ h3 h2
      · exact .ret ⟨h1, h2, h3⟩
    · exact .ret ⟨h1, h2, h3⟩

theorem times_both {f g : ReadFunc} (hf : Both d lt gt f g) : ∀ k, Both d lt gt (timesLoop f k) (timesLoop g k)
  | 0, _, _, hs, h => .ret ⟨trivial, h, hs⟩
  | k + 1, s, t, hs, h => (hf s t hs h).bind fun a b _ _ hab => by
    obtain ⟨e, s'⟩ := a
    obtain ⟨e', t'⟩ := b
    obtain ⟨h1, h2, h3⟩ := hab
    cases e <;> cases e' <;> simp only [ResAlike] at h1
    · exact times_both hf k _ _ h3 h2
    · exact .ret ⟨h1, h2, h3⟩

theorem Fuel.pred {n m : Nat} (h : Fuel lt gt (n + 1) (m + 1)) : Fuel lt gt n m := ⟨fun h' => h.1 (by omega), fun h' => h.2 (by omega)⟩
theorem Fuel.zero {α β : Type} {R : α → β → Prop} {m : Nat} {y : Exec β} (h : Fuel lt gt 0 m) (h0 : m = 0 → y = .timeout) :
    SimE lt gt R .timeout y := by
  by_cases hm : m = 0
  · rw [h0 hm]; exact .timeout
  · exact .left (h.1 (by omega))
theorem Fuel.zero' {α β : Type} {R : α → β → Prop} {n : Nat} {x : Exec α} (h : Fuel lt gt (n + 1) 0) : SimE lt gt R x (.timeout : Exec β) :=
  .right (h.2 (by omega))

theorem zom_both {f g : ReadFunc} (hf : Both d lt gt f g) : ∀ n m, Fuel lt gt n m → ∀ s t, Inside s → Alike d s t →
    SimE lt gt (fun a b => Alike d a b ∧ Inside a) (zomLoop f n s) (zomLoop g m t)
  | 0, m, hnm, s, t, _, _ => hnm.zero (fun h => by subst h; rfl)
  | n + 1, 0, hnm, s, t, _, _ => hnm.zero'
  | n + 1, m + 1, hnm, s, t, hs, h => (hf s t hs h).bind fun a b _ _ hab => by
    obtain ⟨e, s'⟩ := a
    obtain ⟨e', t'⟩ := b
    obtain ⟨h1, h2, h3⟩ := hab
    cases e <;> cases e' <;> simp only [ResAlike] at h1
    · exact zom_both hf n m hnm.pred _ _ h3 h2
    · exact .ret ⟨h2, h3⟩

theorem runes_both {s t : Scanner} (hs : Inside s) (h : Alike d s t) :
    SimE lt gt (fun a b => b.1 = a.1 ∧ Alike d a.2 b.2 ∧ Inside a.2) (s.moveRunes 1) (t.moveRunes 1) :=
  (((alike_blind d).moveRunes h).mono fun a b ha _ hab => ⟨hab.1, hab.2, ((moveRunes_safe (p := True) hs).2 a ha).1⟩).sim

theorem past_both {f g : ReadFunc} (hf : Both d lt gt f g) : ∀ n m, Fuel lt gt n m → ∀ s t, Inside s → Alike d s t →
    SimE lt gt (fun a b => b.1 = a.1 ∧ Alike d a.2 b.2) (pastLoop f n s) (pastLoop g m t)
  | 0, m, hnm, s, t, _, _ => hnm.zero (fun h => by subst h; rfl)
  | n + 1, 0, hnm, s, t, _, _ => hnm.zero'
  | n + 1, m + 1, hnm, s, t, hs, h => by
    unfold pastLoop
    rw [(alike_blind d).atEnd h]
    split
    · exact .ret ⟨rfl, h⟩
    · refine (hf s t hs h).bind fun a b _ _ hab => ?_
      obtain ⟨e, s'⟩ := a
      obtain ⟨e', t'⟩ := b
      obtain ⟨h1, h2, h3⟩ := hab
      cases e <;> cases e' <;> simp only [ResAlike] at h1
      · exact .ret ⟨rfl, h2⟩
      · refine (runes_both h3 h2).bind fun a b _ _ hab => ?_
        exact past_both hf n m hnm.pred _ _ hab.2.2 hab.2.1

theorem to_both {f g : ReadFunc} (hf : Both d lt gt f g) : ∀ n m, Fuel lt gt n m → ∀ s t, Inside s → Alike d s t →
    SimE lt gt (fun a b => b.1 = a.1 ∧ Alike d a.2 b.2) (toLoop f n s) (toLoop g m t)
  | 0, m, hnm, s, t, _, _ => hnm.zero (fun h => by subst h; rfl)
  | n + 1, 0, hnm, s, t, _, _ => hnm.zero'
  | n + 1, m + 1, hnm, s, t, hs, h => by
    unfold toLoop
    have hm := (alike_blind d).mark h
    refine (hf s t hs h).bind fun a b _ _ hab => ?_
    obtain ⟨e, s'⟩ := a
    obtain ⟨e', t'⟩ := b
    obtain ⟨h1, h2, h3⟩ := hab
    cases e <;> cases e' <;> simp only [ResAlike] at h1
    · simp only [hm]
      exact .ret ⟨rfl, (alike_blind d).toMarker h2 _⟩
    · refine (runes_both h3 h2).bind fun a b _ _ hab => ?_
      obtain ⟨ok, s'⟩ := a
      obtain ⟨ok', t'⟩ := b
      obtain ⟨h1, h2, h3⟩ := hab
      cases h1
      cases ok
      · exact .ret ⟨rfl, h2⟩
      · exact to_both hf n m hnm.pred _ _ h3 h2

theorem body_both {f g f' g' : ReadFunc} (hf : Both d lt gt f f') (hg : Both d lt gt g g') (mk : Int) :
    ∀ n m, Fuel lt gt n m → ∀ s t, Inside s → Alike d s t →
    SimE lt gt (fun a b => b.1 = a.1 ∧ Alike d a.2 b.2) (bodyLoop f g mk n s) (bodyLoop f' g' mk m t)
  | 0, m, hnm, s, t, _, _ => hnm.zero (fun h => by subst h; rfl)
  | n + 1, 0, hnm, s, t, _, _ => hnm.zero'
  | n + 1, m + 1, hnm, s, t, hs, h => by
    unfold bodyLoop
    rw [(alike_blind d).atEnd h]
    split
    · exact .ret ⟨rfl, h⟩
    · have hm := (alike_blind d).mark h
      refine (hg s t hs h).bind fun a b _ _ hab => ?_
      obtain ⟨e, s'⟩ := a
      obtain ⟨e', t'⟩ := b
      obtain ⟨h1, h2, h3⟩ := hab
      cases e <;> cases e' <;> simp only [ResAlike] at h1
      · simp only [hm]
        refine (((alike_blind d).getE h2 _).sim (lt := lt) (gt := gt)).bind fun a b _ _ hab => ?_
        subst hab
        unfold Scanner.use
        refine SimE.bind (R := fun a b => ResAlike d a.1 b.1 ∧ Alike d a.2 b.2) ?_ fun a b _ _ hab => ?_
        · refine (hf _ _ ⟨by simp [Scanner.new], by simp [Scanner.new]⟩ (h2.new _)).bind fun a b _ _ hab => ?_
          obtain ⟨e, s'⟩ := a
          obtain ⟨e', t'⟩ := b
          obtain ⟨h1, h2, h3⟩ := hab
          cases e <;> cases e' <;> simp only [ResAlike] at h1
          · exact .ret ⟨trivial, h2⟩
          · exact .ret ⟨h1, (alike_blind d).toMarker h2 _⟩
        · obtain ⟨e, s1⟩ := a
          obtain ⟨e', t1⟩ := b
          obtain ⟨h4, h5⟩ := hab
          have hh := h2.heap h5
          simp only [(alike_blind d).atEnd h5]
          cases e <;> cases e' <;> simp only [ResAlike] at h4
          · split
            · exact .ret ⟨rfl, hh⟩
            · exact .ret ⟨rfl, hh⟩
          · exact .ret ⟨rfl, hh⟩
      · refine (runes_both h3 h2).bind fun a b _ _ hab => ?_
        exact body_both hf hg mk n m hnm.pred _ _ hab.2.2 hab.2.1

theorem stripEnv_get (d : Del) (G : Env) (i : Nat) : (stripEnv d G)[i]? = G[i]?.map fun rl => ⟨rl.name, rl.reader.map (strip d)⟩ := by
  simp [stripEnv]

mutual

theorem what_strip (rt : Rt) (G : Env) (hd : d.named = false) : ∀ r : Reader, (strip d r).what rt (stripEnv d G) = r.what rt G
  | .any rs => by simp only [strip, Reader.what, whats_strip rt G hd rs]
  | .at_ r => by simp only [strip, Reader.what, what_strip rt G hd r]
  | .body b t => by simp only [strip, Reader.what, what_strip rt G hd b, what_strip rt G hd t]
  | .bodyTail b t => by simp only [strip, Reader.what, what_strip rt G hd b, what_strip rt G hd t]
  | .janusBegin i n r => by simp only [strip, Reader.what, what_strip rt G hd r]
  | .many r => by simp only [strip, Reader.what, what_strip rt G hd r]
  | .map f r => by
    unfold strip
    split
    · simp only [Reader.what, what_strip rt G hd r]
    · simp only [Reader.what, what_strip rt G hd r]
  | .named n r => by simp only [strip, hd, Bool.false_eq_true, if_false, Reader.what]
  | .not r => by simp only [strip, Reader.what, what_strip rt G hd r]
  | .opt r => by simp only [strip, Reader.what, what_strip rt G hd r]
  | .past r => by simp only [strip, Reader.what, what_strip rt G hd r]
  | .seq rs => by simp only [strip, Reader.what, whats_strip rt G hd rs]
  | .skipSeq sk rs => by simp only [strip, Reader.what, what_strip rt G hd sk, whats_strip rt G hd rs]
  | .times n r => by simp only [strip, Reader.what, what_strip rt G hd r]
  | .to r => by simp only [strip, Reader.what, what_strip rt G hd r]
  | .zom r => by simp only [strip, Reader.what, what_strip rt G hd r]
  | .pick i b r => by
    unfold strip
    split
    · simp only [Reader.what, what_strip rt G hd r]
    · simp only [Reader.what, what_strip rt G hd r]
  | .monitor i l r => by
    unfold strip
    split
    · simp only [Reader.what, what_strip rt G hd r]
    · simp only [Reader.what, what_strip rt G hd r]
  | .ruleName r => by simp only [strip, Reader.what]
  | .grammar w r => by simp only [strip, Reader.what]
  | .anyRune _ => rfl
  | .atEnd => rfl
  | .between _ _ => rfl
  | .betweenAny _ _ => rfl
  | .bool _ _ => rfl
  | .fold _ => rfl
  | .holey _ _ _ => rfl
  | .int _ _ _ => rfl
  | .janusEnd _ _ => rfl
  | .invalid _ => rfl
  | .lit _ => rfl
  | .match_ _ _ => rfl
  | .rune _ => rfl
  | .uint _ _ _ => rfl
  | .wrap _ _ => rfl
  | .rule i => by
    simp only [strip, Reader.what, stripEnv_get]
    rcases G[i]? with _ | rl <;> rfl

theorem whats_strip (rt : Rt) (G : Env) (hd : d.named = false) : ∀ rs : List Reader,
    Reader.whats rt (stripEnv d G) (strips d rs) = Reader.whats rt G rs
  | [] => rfl
  | r :: rs => by simp only [strips, Reader.whats, what_strip rt G hd r, whats_strip rt G hd rs]

end

theorem errorFor_both (rt : Rt) (G : Env) (r : Reader) {s t : Scanner} (h : Alike d s t) :
    ErrAlike d (s.errorFor (r.what rt G)) (t.errorFor ((strip d r).what rt (stripEnv d G))) :=
  ⟨h.pos, fun hd => what_strip rt G hd r⟩

/-- The wrappers that are taken out. -/
def Spec.Del.gone (d : Del) : Reader → Bool
  | .map _ _ => d.map
  | .pick _ _ _ => d.pick
  | .monitor _ _ _ => d.monitor
  | .named _ _ => d.named
  | _ => false

/-- What the comparison needs: the function of a `Wrap` does not look at records, and a reader inside a `Map` or `Pick` that is taken
out goes back on failure. -/
def Reader.blind (rt : Rt) (G : Env) (d : Del) : Reader → Prop
  | .wrap _ f => ∀ s t, Inside s → Alike d s t → RelE (fun a b => ResAlike d a.1 b.1 ∧ Alike d a.2 b.2) (f s) (f t)
  | .map _ c => d.map = true → ∀ n, Restores (read rt G n c)
  | .pick _ _ c => d.pick = true → ∀ n, Restores (read rt G n c)
  | _ => True

/-- Going to the place where the scanner is. -/
theorem Spec.Alike.stay {s t : Scanner} (h : Alike d s t) (hd : d.map = true ∨ d.pick = true) : Alike d (s.at s.pos) t := by
  obtain ⟨f, p, tr, hp⟩ := s
  obtain ⟨h1, h2, h3, h4, h5, h6, h7, h8, h9⟩ := h
  have no {P : Prop} (a : d.map = false) (b : d.pick = false) : P := by
    rcases hd with hd | hd <;> simp_all
  rcases tr with _ | ⟨b⟩ | ⟨c⟩
  · exact ⟨h1, h2, h3, h4, h5, h6, h7, h8, h9⟩
  · exact ⟨h1, h2, h3, h4, h5, fun a b => no a b, h7, h8, h9⟩
  · exact ⟨h1, h2, h3, h4, h5, h6, fun a b => no a b, h8, h9⟩

theorem SimE.out {α β : Type} {R : α → β → Prop} {x : Exec α} {y : Exec β} (h : SimE lt gt R x (y >>= pure)) : SimE lt gt R x y := by
  cases y <;> exact h

theorem token_gone (hd : d.map = true ∨ d.pick = true) {f g : ReadFunc} (h : Both d lt gt f g) (hb : Restores f) {s t : Scanner} (hs : Inside s)
    (ha : Alike d s t) : SimE lt gt (fun a b => ResAlike d a.1.2 b.1 ∧ Alike d a.2 b.2) (s.tokenizeUse f) (g t) := by
  refine SimE.out ?_
  unfold Scanner.tokenizeUse
  refine (h s t hs ha).bind fun a b hx _ hab => ?_
  obtain ⟨e, s'⟩ := a
  obtain ⟨e', t'⟩ := b
  obtain ⟨h1, h2, h3⟩ := hab
  cases e <;> cases e' <;> simp only [ResAlike] at h1
  · exact .ret ⟨trivial, h2⟩
  · refine .ret ⟨h1, ?_⟩
    have hp := hb s hs _ _ hx
    simp only [Option.isSome_some, if_true, Scanner.mark, ← hp, toMarker_at h3.1]
    exact h2.stay hd

/-- Reading with a wrapper that is taken out. -/
theorem gone_both (rt : Rt) (G : Env) {n m : Nat} {r c : Reader} (hg : d.gone r = true) (hc : c ∈ r.subs) (hb : r.blind rt G d)
    (h : Both d lt gt (read rt G n c) (read rt (stripEnv d G) m (strip d c))) {s t : Scanner} (hs : Inside s) (ha : Alike d s t) :
    SimE lt gt (fun a b => ResAlike d a.1 b.1 ∧ Alike d a.2 b.2) (read rt G (n + 1) r s) (read rt (stripEnv d G) m (strip d r) t) := by
  cases r with
  | map f c' =>
    obtain rfl := List.mem_singleton.mp hc
    simp only [Del.gone] at hg
    simp only [strip, hg, if_true]
    refine SimE.out ?_
    simp only [read]
    refine (token_gone (.inl hg) h (hb hg n) hs ha).bind fun a b _ _ hab => ?_
    obtain ⟨⟨k, e⟩, s'⟩ := a
    obtain ⟨e', t'⟩ := b
    obtain ⟨h1, h2⟩ := hab
    cases e <;> cases e' <;> simp only [ResAlike] at h1
    · exact .ret ⟨trivial, h2.full, h2.pos, h2.tracker, h2.cells, h2.janus, h2.baskets, h2.tracks, fun a => (by simp_all), h2.logs⟩
    · exact .ret ⟨h1, h2⟩
  | pick i b c' =>
    obtain rfl := List.mem_singleton.mp hc
    simp only [Del.gone] at hg
    simp only [strip, hg, if_true]
    refine SimE.out ?_
    simp only [read]
    refine (token_gone (.inr hg) h (hb hg n) hs ha).bind fun a b _ _ hab => ?_
    obtain ⟨⟨k, e⟩, s'⟩ := a
    obtain ⟨e', t'⟩ := b
    obtain ⟨h1, h2⟩ := hab
    cases e <;> cases e' <;> simp only [ResAlike] at h1
    · exact .ret ⟨trivial, h2.full, h2.pos, h2.tracker, h2.cells, h2.janus, fun _ a => (by simp_all), h2.tracks, h2.maps, h2.logs⟩
    · exact .ret ⟨h1, h2⟩
  | monitor i l c' =>
    obtain rfl := List.mem_singleton.mp hc
    simp only [Del.gone] at hg
    simp only [strip, hg, if_true]
    refine SimE.out ?_
    simp only [read]
    refine (h (s.enterLog rt i l) t hs ⟨ha.full, ha.pos, ha.tracker, ha.cells, ha.janus, ha.baskets, ha.tracks, ha.maps, fun a => (by simp_all)⟩).bind
      fun a b _ _ hab => ?_
    obtain ⟨h1, h2, h3⟩ := hab
    exact .ret ⟨h1, h2.full, h2.pos, h2.tracker, h2.cells, h2.janus, h2.baskets, h2.tracks, h2.maps, fun a => (by simp_all)⟩
  | named w c' =>
    obtain rfl := List.mem_singleton.mp hc
    simp only [Del.gone] at hg
    simp only [strip, hg, if_true]
    exact (h s t hs ha).mono fun a b _ _ hab => ⟨hab.1, hab.2.1⟩
  | _ => simp [Del.gone] at hg

theorem token_both {f g : ReadFunc} (h : Both d lt gt f g) {s t : Scanner} (hs : Inside s)
    (ha : Alike d s t) : SimE lt gt (fun a b => b.1.1 = a.1.1 ∧ ResAlike d a.1.2 b.1.2 ∧ Alike d a.2 b.2) (s.tokenizeUse f) (t.tokenizeUse g) := by
  unfold Scanner.tokenizeUse
  have hm := (alike_blind d).mark ha
  refine (h s t hs ha).bind fun a b hx _ hab => ?_
  obtain ⟨e, s'⟩ := a
  obtain ⟨e', t'⟩ := b
  obtain ⟨h1, h2, h3⟩ := hab
  simp only [hm]
  cases e <;> cases e' <;> simp only [ResAlike] at h1
  · exact .ret ⟨congrArg (makeToken s.pos) h2.pos, trivial, h2⟩
  · have := (alike_blind d).toMarker h2 s.mark
    exact .ret ⟨congrArg (makeToken s.pos) this.pos, h1, this⟩

theorem leaf_strip {r : Reader} (hr : r.leaf = true) : strip d r = r := by
  cases r <;> first | rfl | simp [Reader.leaf] at hr

/-- Reading with anything else. -/
theorem step_both (rt : Rt) (G : Env) {n m : Nat} (hnm : Fuel lt gt n m) {r : Reader} (hg : d.gone r = false) (hb : r.blind rt G d)
    (ih : ∀ c ∈ r.subs, Both d lt gt (read rt G n c) (read rt (stripEnv d G) m (strip d c)))
    (ihG : ∀ i, r = .rule i → ∀ nm c, G[i]? = some ⟨nm, some c⟩ → Both d lt gt (read rt G n c) (read rt (stripEnv d G) m (strip d c)))
    {s t : Scanner} (hs : Inside s) (ha : Alike d s t) :
    SimE lt gt (fun a b => ResAlike d a.1 b.1 ∧ Alike d a.2 b.2) (read rt G (n + 1) r s)
      (read rt (stripEnv d G) (m + 1) (strip d r) t) := by
  by_cases hl : r.leaf = true
  · rw [leaf_strip hl]
    exact (((alike_blind d).leaf ha rt G (stripEnv d G) n m hl).mono fun a b _ _ hab => ⟨hab.1 ▸ .refl _, hab.2⟩).sim
  have hB := alike_blind d
  have hm := hB.mark ha
  have hw : ∀ {s t : Scanner}, Alike d s t →
    ErrAlike d (s.errorFor (r.what rt G)) (t.errorFor ((strip d r).what rt (stripEnv d G))) := fun h => errorFor_both rt G r h
  cases r with
  | any rs =>
    simp only [strip, read, hm]
    refine (any_both rs ih [] [] s t .nil hs ha).bind fun a b _ _ hab => ?_
    obtain ⟨e, s'⟩ := a
    obtain ⟨e', t'⟩ := b
    obtain ⟨h1, h2⟩ := hab
    cases e <;> cases e' <;> simp only at h2
    · exact .ret ⟨trivial, h1⟩
    · exact .ret ⟨deepest_alike h2 _ _ _ fun _ => rfl, hB.toMarker h1 _⟩
  | at_ c =>
    simp only [strip, read, hm]
    refine (ih c (by simp [Reader.subs]) s t hs ha).bind fun a b _ _ hab => ?_
    exact .ret ⟨hab.1, hB.toMarker hab.2.1 _⟩
  | body b c =>
    simp only [strip] at hw ⊢
    simp only [read, hm]
    refine (body_both (ih b (by simp [Reader.subs])) (ih c (by simp [Reader.subs])) _ n m hnm s t hs ha).bind fun a b _ _ hab => ?_
    obtain ⟨e, s'⟩ := a
    obtain ⟨e', t'⟩ := b
    obtain ⟨h1, h2⟩ := hab
    cases h1
    cases e with
    | none => exact .ret ⟨hw (hB.toMarker h2 _), hB.toMarker h2 _⟩
    | some k => exact .ret ⟨trivial, hB.toMarker h2 _⟩
  | bodyTail b c =>
    simp only [strip] at hw ⊢
    simp only [read, hm]
    refine (body_both (ih b (by simp [Reader.subs])) (ih c (by simp [Reader.subs])) _ n m hnm s t hs ha).bind fun a b _ _ hab => ?_
    obtain ⟨e, s'⟩ := a
    obtain ⟨e', t'⟩ := b
    obtain ⟨h1, h2⟩ := hab
    cases h1
    cases e with
    | none => exact .ret ⟨hw (hB.toMarker h2 _), hB.toMarker h2 _⟩
    | some k => exact .ret ⟨trivial, h2⟩
  | janusBegin i nm c =>
    simp only [strip, read]
    refine (token_both (ih c (by simp [Reader.subs])) hs ha).bind fun a b _ _ hab => ?_
    obtain ⟨⟨k, e⟩, s'⟩ := a
    obtain ⟨⟨k', e'⟩, t'⟩ := b
    obtain ⟨h0, h1, h2⟩ := hab
    cases h0
    cases e <;> cases e' <;> simp only [ResAlike] at h1
    · refine ((hB.getE h2 _).sim (lt := lt) (gt := gt)).bind fun a b _ _ hab => ?_
      subst hab
      exact .ret ⟨trivial, hB.setJan h2 _ _⟩
    · exact .ret ⟨h1, h2⟩
  | many c =>
    simp only [strip] at hw ⊢
    simp only [read, hm]
    refine (zom_both (ih c (by simp [Reader.subs])) n m hnm s t hs ha).bind fun a b _ _ hab => ?_
    refine .ret ⟨?_, hab.1⟩
    unfold Scanner.errorIfFalse
    rw [hB.mark hab.1]
    split
    · have := hw hab.1
      unfold Scanner.errorFor at this
      rw [hB.mark hab.1] at this
      exact this
    · trivial
  | map f c =>
    simp only [Del.gone] at hg
    simp only [strip, hg, Bool.false_eq_true, if_false, read]
    refine (token_both (ih c (by simp [Reader.subs])) hs ha).bind fun a b _ _ hab => ?_
    obtain ⟨⟨k, e⟩, s'⟩ := a
    obtain ⟨⟨k', e'⟩, t'⟩ := b
    obtain ⟨h0, h1, h2⟩ := hab
    cases h0
    cases e <;> cases e' <;> simp only [ResAlike] at h1
    · refine .ret ⟨trivial, h2.full, h2.pos, h2.tracker, h2.cells, h2.janus, h2.baskets, h2.tracks, fun a => ?_, h2.logs⟩
      have := h2.maps a
      simp_all
    · exact .ret ⟨h1, h2⟩
  | pick i bk c =>
    simp only [Del.gone] at hg
    simp only [strip, hg, Bool.false_eq_true, if_false, read]
    refine (token_both (ih c (by simp [Reader.subs])) hs ha).bind fun a b _ _ hab => ?_
    obtain ⟨⟨k, e⟩, s'⟩ := a
    obtain ⟨⟨k', e'⟩, t'⟩ := b
    obtain ⟨h0, h1, h2⟩ := hab
    cases h0
    cases e <;> cases e' <;> simp only [ResAlike] at h1
    · refine .ret ⟨trivial, h2.full, h2.pos, h2.tracker, h2.cells, h2.janus, fun a b => ?_, h2.tracks, h2.maps, h2.logs⟩
      have := h2.baskets a b
      simp_all
    · exact .ret ⟨h1, h2⟩
  | monitor i l c =>
    simp only [Del.gone] at hg
    simp only [strip, hg, Bool.false_eq_true, if_false, read]
    have hlog : d.named = false → t.heap.logs = s.heap.logs := ha.logs hg
    refine (ih c (by simp [Reader.subs]) (s.enterLog rt i l) (t.enterLog rt i l) hs ⟨ha.full, ha.pos, ha.tracker, ha.cells, ha.janus, ha.baskets, ha.tracks, ha.maps,
      fun a b => ?_⟩).bind fun a b _ _ hab => ?_
    · have := ha.pos
      unfold Scanner.enterLog
      simp only [hlog b, this]
    obtain ⟨h1, h2, h3⟩ := hab
    refine .ret ⟨h1, h2.full, h2.pos, h2.tracker, h2.cells, h2.janus, h2.baskets, h2.tracks, h2.maps, fun a b => ?_⟩
    have := h1.eq b
    simp only [h2.logs a b, hlog b, ha.pos, h2.pos, this]
  | named w c =>
    simp only [Del.gone] at hg
    simp only [strip, hg, Bool.false_eq_true, if_false, read]
    exact (ih c (by simp [Reader.subs]) s t hs ha).mono fun a b _ _ hab => ⟨hab.1, hab.2.1⟩
  | not c =>
    simp only [strip, read, hm]
    refine (ih c (by simp [Reader.subs]) s t hs ha).bind fun a b ha1 _ hab => ?_
    obtain ⟨e, s'⟩ := a
    obtain ⟨e', t'⟩ := b
    obtain ⟨h1, h2, h3⟩ := hab
    have h4 := hB.toMarker h2 s.mark
    cases e <;> cases e' <;> simp only [ResAlike] at h1
    · exact .ret ⟨errorFor_both rt G c h4, h4⟩
    · exact ((hB.moveRunes h4).sim (lt := lt) (gt := gt)).bind fun a b _ _ hab => .ret ⟨trivial, hab.2⟩
  | opt c =>
    simp only [strip, read]
    exact (ih c (by simp [Reader.subs]) s t hs ha).bind fun a b _ _ hab => .ret ⟨trivial, hab.2.1⟩
  | past c =>
    simp only [strip] at hw ⊢
    simp only [read, hm]
    refine (past_both (ih c (by simp [Reader.subs])) n m hnm s t hs ha).bind fun a b _ _ hab => ?_
    obtain ⟨e, s'⟩ := a
    obtain ⟨e', t'⟩ := b
    obtain ⟨h1, h2⟩ := hab
    cases h1
    cases e with
    | false => exact .ret ⟨hw (hB.toMarker h2 _), hB.toMarker h2 _⟩
    | true => exact .ret ⟨trivial, h2⟩
  | «to» c =>
    simp only [strip] at hw ⊢
    simp only [read, hm]
    refine (to_both (ih c (by simp [Reader.subs])) n m hnm s t hs ha).bind fun a b _ _ hab => ?_
    obtain ⟨e, s'⟩ := a
    obtain ⟨e', t'⟩ := b
    obtain ⟨h1, h2⟩ := hab
    cases h1
    cases e with
    | false => exact .ret ⟨hw (hB.toMarker h2 _), hB.toMarker h2 _⟩
    | true => exact .ret ⟨trivial, h2⟩
  | seq rs =>
    simp only [strip, read, hm]
    refine (seq_both rs ih s t hs ha).bind fun a b _ _ hab => ?_
    obtain ⟨e, s'⟩ := a
    obtain ⟨e', t'⟩ := b
    obtain ⟨h1, h2, h3⟩ := hab
    cases e <;> cases e' <;> simp only [ResAlike] at h1
    · exact .ret ⟨trivial, h2⟩
    · exact .ret ⟨h1, hB.toMarker h2 _⟩
  | skipSeq sk rs =>
    simp only [strip, read, hm]
    have hsk := ih sk (by simp [Reader.subs])
    refine (hsk s t hs ha).bind fun a b _ _ hab => ?_
    obtain ⟨e, s'⟩ := a
    obtain ⟨e', t'⟩ := b
    obtain ⟨h1, h2, h3⟩ := hab
    cases e <;> cases e' <;> simp only [ResAlike] at h1
    · refine (skip_both hsk rs (fun c hc => ih c (List.mem_cons_of_mem _ hc)) s' t' h3 h2).bind fun a b _ _ hab => ?_
      obtain ⟨e, s'⟩ := a
      obtain ⟨e', t'⟩ := b
      obtain ⟨h1, h2, h3⟩ := hab
      cases e <;> cases e' <;> simp only [ResAlike] at h1
      · exact .ret ⟨trivial, h2⟩
      · exact .ret ⟨h1, hB.toMarker h2 _⟩
    · exact .ret ⟨h1, hB.toMarker h2 _⟩
  | times k c =>
    simp only [strip, read]
    exact (times_both (ih c (by simp [Reader.subs])) k.toNat s t hs ha).mono fun a b _ _ hab => ⟨hab.1, hab.2.1⟩
  | wrap w f => exact (hb s t hs ha).sim
  | zom c =>
    simp only [strip, read]
    exact (zom_both (ih c (by simp [Reader.subs])) n m hnm s t hs ha).bind fun a b _ _ hab => .ret ⟨trivial, hab.1⟩
  | rule i =>
    simp only [strip, read, stripEnv_get]
    have := ihG i rfl
    rcases hi : G[i]? with _ | ⟨nm, _ | c⟩
    · exact .panic
    · exact .panic
    · exact (this nm c hi s t hs ha).mono fun a b _ _ hab => ⟨hab.1, hab.2.1⟩
  | ruleName c =>
    simp only [strip, read]
    refine (ih c (by simp [Reader.subs]) s t hs ha).bind fun a b _ _ hab => ?_
    obtain ⟨e, s'⟩ := a
    obtain ⟨e', t'⟩ := b
    obtain ⟨h1, h2, h3⟩ := hab
    cases e <;> cases e' <;> simp only [ResAlike] at h1
    · exact .ret ⟨trivial, h2⟩
    · exact .ret ⟨⟨h2.pos, fun _ => rfl⟩, h2⟩
  | grammar w c =>
    simp only [strip, read]
    refine (ih c (by simp [Reader.subs]) s t hs ha).bind fun a b _ _ hab => ?_
    obtain ⟨e, s'⟩ := a
    obtain ⟨e', t'⟩ := b
    obtain ⟨h1, h2, h3⟩ := hab
    cases e <;> cases e' <;> simp only [ResAlike] at h1
    · exact .ret ⟨trivial, h2⟩
    · exact .ret ⟨fun hd => by rw [h1.eq hd], h2⟩
  | _ => simp [Reader.leaf] at hl

theorem Both.of (rt : Rt) (G : Env) {n m : Nat} {r : Reader} (hsafe : Safe True (read rt G n r))
    (h : ∀ s t, Inside s → Alike d s t → SimE lt gt (fun a b => ResAlike d a.1 b.1 ∧ Alike d a.2 b.2) (read rt G n r s)
      (read rt (stripEnv d G) m (strip d r) t)) : Both d lt gt (read rt G n r) (read rt (stripEnv d G) m (strip d r)) :=
  fun s t hs ha => (h s t hs ha).mono fun a _ hx _ hab => ⟨hab.1, hab.2, ((hsafe s hs).2 a hx).1⟩

/-- What the comparison needs of every part. -/
def Reader.offhand (rt : Rt) (G : Env) (d : Del) (r : Reader) : Prop := r.safeHere True G ∧ r.blind rt G d

theorem plain_safe {rt : Rt} {G : Env} (hG : G.Every (Reader.offhand rt G d)) {r : Reader} (hr : r.Every (Reader.offhand rt G d)) (n : Nat) :
    Safe True (read rt G n r) := read_safe rt G (hG.imp fun _ h => h.1) n r (hr.imp fun _ h => h.1)

/-- Without the wrappers the budget lasts at least as long. -/
theorem strip_forward (rt : Rt) (G : Env) (hG : G.Every (Reader.offhand rt G d)) : ∀ n m r, r.Every (Reader.offhand rt G d) → n ≤ m →
    Both d True False (read rt G n r) (read rt (stripEnv d G) m (strip d r))
  | 0, _, _, _, _ => fun _ _ _ _ => .left trivial
  | n + 1, m, r, hr, hnm => by
    refine Both.of rt G (plain_safe hG hr _) fun s t hs ha => ?_
    cases hg : d.gone r with
    | true =>
      have : ∃ c, c ∈ r.subs := by
        cases r <;> first | exact ⟨_, List.mem_singleton.mpr rfl⟩ | simp [Del.gone] at hg
      obtain ⟨c, hc⟩ := this
      exact gone_both rt G hg hc hr.here.2 (strip_forward rt G hG n m c (hr.sub hc) (by omega)) hs ha
    | false =>
      obtain ⟨m, rfl⟩ : ∃ k, m = k + 1 := ⟨m - 1, by omega⟩
      refine step_both rt G ⟨fun _ => trivial, fun _ => by omega⟩ hg hr.here.2
        (fun c hc => strip_forward rt G hG n m c (hr.sub hc) (by omega)) (fun i _ nm c hi => ?_) hs ha
      exact strip_forward rt G hG n m c (hG.get hi) (by omega)

/-- Every budget without the wrappers is matched by a large enough one with them. -/
theorem strip_backward (rt : Rt) (G : Env) (hG : G.Every (Reader.offhand rt G d)) : ∀ m r, r.Every (Reader.offhand rt G d) →
    ∃ n₀, ∀ n, n₀ ≤ n → Both d False True (read rt G n r) (read rt (stripEnv d G) m (strip d r))
  | 0, _, _ => ⟨0, fun _ _ _ _ _ _ => .right trivial⟩
  | m + 1, r, hr => by
    have all : ∀ l : List Reader, (∀ c ∈ l, c.Every (Reader.offhand rt G d)) →
        ∃ n₀, ∀ n, n₀ ≤ n → ∀ c ∈ l, Both d False True (read rt G n c) (read rt (stripEnv d G) m (strip d c)) := by
      intro l hl
      induction l with
      | nil => exact ⟨0, by simp⟩
      | cons c l ih =>
        obtain ⟨n1, h1⟩ := ih fun c hc => hl c (List.mem_cons_of_mem _ hc)
        obtain ⟨n2, h2⟩ := strip_backward rt G hG m c (hl c (by simp))
        refine ⟨max n1 n2, fun n hn c' hc' => ?_⟩
        rcases List.mem_cons.mp hc' with rfl | hc'
        · exact h2 n (by omega)
        · exact h1 n (by omega) c' hc'
    induction hr with
    | @mk r hp hsub ih =>
      have hr : r.Every (Reader.offhand rt G d) := .mk hp hsub
      cases hg : d.gone r with
      | true =>
        have : ∃ c, c ∈ r.subs := by
          cases r <;> first | exact ⟨_, List.mem_singleton.mpr rfl⟩ | simp [Del.gone] at hg
        obtain ⟨c, hc⟩ := this
        obtain ⟨n₀, h⟩ := ih c hc
        refine ⟨n₀ + 1, fun n hn => ?_⟩
        obtain ⟨n, rfl⟩ : ∃ k, n = k + 1 := ⟨n - 1, by omega⟩
        exact Both.of rt G (plain_safe hG hr _) fun s t hs ha => gone_both rt G hg hc hr.here.2 (h n (by omega)) hs ha
      | false =>
        obtain ⟨n1, h1⟩ := all r.subs hsub
        have : ∃ n2, ∀ n, n2 ≤ n → ∀ i, r = .rule i → ∀ nm c, G[i]? = some ⟨nm, some c⟩ →
            Both d False True (read rt G n c) (read rt (stripEnv d G) m (strip d c)) := by
          by_cases hx : ∃ i nm c, r = .rule i ∧ G[i]? = some ⟨nm, some c⟩
          · obtain ⟨i, nm, c, rfl, hi⟩ := hx
            obtain ⟨n2, h2⟩ := strip_backward rt G hG m c (hG.get hi)
            refine ⟨n2, fun n hn j hj nm' c' hi' => ?_⟩
            cases hj
            rw [hi] at hi'
            cases hi'
            exact h2 n hn
          · exact ⟨0, fun n _ i hi nm c hc => absurd ⟨i, nm, c, hi, hc⟩ hx⟩
        obtain ⟨n2, h2⟩ := this
        refine ⟨max (max n1 n2) m + 1, fun n hn => ?_⟩
        obtain ⟨n, rfl⟩ : ∃ k, n = k + 1 := ⟨n - 1, by omega⟩
        exact Both.of rt G (plain_safe hG hr _) fun s t hs ha => step_both rt G ⟨fun _ => by omega, fun _ => trivial⟩ hg hr.here.2
          (h1 n (by omega)) (h2 n (by omega)) hs ha

/-- With or without the wrappers: the same result and scanners that differ in the records only. -/
theorem strip_ret (rt : Rt) (G : Env) (hG : G.Every (Reader.offhand rt G d)) {r : Reader} (hr : r.Every (Reader.offhand rt G d)) {s t : Scanner}
    (hs : Inside s) (ha : Alike d s t) {n : Nat} {e : Option Err} {s' : Scanner} (h : read rt G n r s = .ret (e, s')) :
    ∃ e' t', read rt (stripEnv d G) n (strip d r) t = .ret (e', t') ∧ ResAlike d e e' ∧ Alike d s' t' := by
  have := strip_forward rt G hG n n r hr (Nat.le_refl _) s t hs ha
  rw [h] at this
  generalize read rt (stripEnv d G) n (strip d r) t = y at this
  cases this with
  | @ret _ b hab => exact ⟨b.1, b.2, rfl, hab.1, hab.2.1⟩
  | right h => exact h.elim

theorem strip_ret' (rt : Rt) (G : Env) (hG : G.Every (Reader.offhand rt G d)) {r : Reader} (hr : r.Every (Reader.offhand rt G d)) {s t : Scanner}
    (hs : Inside s) (ha : Alike d s t) {m : Nat} {e' : Option Err} {t' : Scanner}
    (h : read rt (stripEnv d G) m (strip d r) t = .ret (e', t')) :
    ∃ n e s', read rt G n r s = .ret (e, s') ∧ ResAlike d e e' ∧ Alike d s' t' := by
  obtain ⟨n, hn⟩ := strip_backward rt G hG m r hr
  have := hn n (Nat.le_refl _) s t hs ha
  rw [h] at this
  generalize hx : read rt G n r s = x at this
  cases this with
  | @ret a _ hab => exact ⟨n, a.1, a.2, hx, hab.1, hab.2.1⟩
  | left h => exact h.elim

end
end Tok
