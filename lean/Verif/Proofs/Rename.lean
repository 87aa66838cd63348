/-
Two reads with readers that differ in names only.
-/
import Verif.Spec.Rename
import Verif.Proofs.Blind
import Verif.Model.Disturb

namespace Tok
open Spec

variable {I : Bytes → Bytes → Prop}

theorem cut_aside (m : Int) {xs ys : List Segment} (h : List.Forall₂ (SegAside I) xs ys) : List.Forall₂ (SegAside I) (basketCut m xs) (basketCut m ys) := by
  induction h with
  | nil => exact .nil
  | cons h1 h2 ih =>
    unfold basketCut
    rw [h1.1]
    split
    · exact .cons h1 h2
    · exact ih

theorem update_aside (m : Int) {xs ys : List Segment} (h : List.Forall₂ (SegAside I) xs ys) :
    List.Forall₂ (SegAside I) (basketUpdate m xs) (basketUpdate m ys) :=
  List.rel_reverse (cut_aside m (List.rel_reverse h))

theorem all_upd {α : Type} {P : α → α → Prop} {f g : Nat → α} (h : ∀ i, P (f i) (g i)) (k : Nat) {x y : α} (hk : P x y) :
    ∀ i, P (upd f k x i) (upd g k y i) := by
  intro i
  simp only [upd]
  split
  · exact hk
  · exact h i

theorem Spec.Aside.move_at {s t : Scanner} (h : Aside I s t) (m : Int) : Aside I (s.at m) (t.at m) := by
  obtain ⟨f, p, tr, hp⟩ := s
  obtain ⟨f', p', tr', hp'⟩ := t
  obtain ⟨h1, h2, h3, h4, h5, h6, h7, h8, h9⟩ := h
  cases h3
  rcases tr with _ | ⟨b⟩ | ⟨c⟩
  · exact ⟨h1, rfl, rfl, h4, h5, h6, h7, h8, h9⟩
  · exact ⟨h1, rfl, rfl, h4, h5, h6, h7, all_upd h8 b (update_aside m (h8 b)), h9⟩
  · exact ⟨h1, rfl, rfl, h4, h5, by simp only [Scanner.at, Scanner.notify] at h6 ⊢; rw [h6], h7, h8, h9⟩

theorem aside_blind (I : Bytes → Bytes → Prop) : Blind (Aside I) where
  full h := h.full
  pos h := h.pos
  at_ h m := h.move_at m
  setCell h c v := ⟨h.full, h.pos, h.tracker, by simp only [h.cells], h.janus, h.tracks, h.maps, h.baskets, h.logs⟩
  janus h := h.janus
  setJanus h c := ⟨h.full, h.pos, h.tracker, h.cells, rfl, h.tracks, h.maps, h.baskets, h.logs⟩

theorem Spec.Aside.heap {s t u v : Scanner} (h : Aside I s t) (h' : Aside I u v) : Aside I { s with heap := u.heap } { t with heap := v.heap } :=
  ⟨h.full, h.pos, h.tracker, h'.cells, h'.janus, h'.tracks, h'.maps, h'.baskets, h'.logs⟩

theorem Spec.Aside.new {s t : Scanner} (h : Aside I s t) (str : Bytes) : Aside I (Scanner.new str s.heap) (Scanner.new str t.heap) :=
  ⟨rfl, rfl, rfl, h.cells, h.janus, h.tracks, h.maps, h.baskets, h.logs⟩

/-- What a reader does on both sides. -/
def Along (I : Bytes → Bytes → Prop) (f g : ReadFunc) : Prop :=
  ∀ s t, Aside I s t → RelE (fun a b => ResAside a.1 b.1 ∧ Aside I a.2 b.2) (f s) (g t)

theorem along_of {f g : ReadFunc} (h : SameAside I f g) : Along I f g := by
  intro s t hst
  have := h s t hst
  cases hf : f s with
  | ret a =>
    cases hg : g t with
    | ret b => rw [hf, hg] at this; exact .ret this
    | panic => rw [hf, hg] at this; exact this.elim
    | timeout => rw [hf, hg] at this; exact this.elim
  | panic =>
    cases hg : g t with
    | ret b => rw [hf, hg] at this; exact this.elim
    | panic => exact .panic
    | timeout => rw [hf, hg] at this; exact this.elim
  | timeout =>
    cases hg : g t with
    | ret b => rw [hf, hg] at this; exact this.elim
    | panic => rw [hf, hg] at this; exact this.elim
    | timeout => exact .timeout

theorem of_along {f g : ReadFunc} (h : Along I f g) : SameAside I f g := by
  intro s t hst
  have := h s t hst
  cases hf : f s <;> cases hg : g t <;> rw [hf, hg] at this <;> cases this
  · assumption
  · trivial
  · trivial

theorem errAside_refl (e : Err) : ErrAside e e := by cases e <;> simp [ErrAside]
theorem resAside_refl (e : Option Err) : ResAside e e := by cases e with
  | none => trivial
  | some e => exact errAside_refl e

theorem res_of_thru {x y : Exec (Option Err × Scanner)} (h : RelE (Thru (Aside I)) x y) : RelE (fun a b => ResAside a.1 b.1 ∧ Aside I a.2 b.2) x y :=
  h.mono fun a b _ _ h => ⟨by rw [h.1]; exact resAside_refl _, h.2⟩

theorem res_none {e e' : Option Err} (h : ResAside e e') : e'.isNone = e.isNone := by
  cases e <;> cases e' <;> simp [ResAside] at h ⊢

theorem deepest_aside {es es' : List Err} (h : List.Forall₂ ErrAside es es') : ∀ (m : Int) (w w' : Bytes),
    ErrAside (getDeepest (m, w) es) (getDeepest (m, w') es') := by
  induction h with
  | nil => exact fun m w w' => rfl
  | @cons e e' es es' h1 _ ih =>
    intro m w w'
    cases e <;> cases e' <;> simp only [ErrAside] at h1
    · subst h1
      unfold getDeepest
      split
      · exact ih _ _ _
      · exact ih _ _ _
    · exact ih _ _ _

/-- The readers of two lists do the same one by one. -/
inductive Rows (rd rd' : Reader → ReadFunc) (I : Bytes → Bytes → Prop) : List Reader → List Reader → Prop
  | nil : Rows rd rd' I [] []
  | cons {a b rs rs'} : Along I (rd a) (rd' b) → Rows rd rd' I rs rs' → Rows rd rd' I (a :: rs) (b :: rs')

section
variable {rd rd' : Reader → ReadFunc}

theorem any_along {rs rs' : List Reader} (hr : Rows rd rd' I rs rs') : ∀ es es' s t, List.Forall₂ ErrAside es es' → Aside I s t →
    RelE (fun a b => Aside I a.2 b.2 ∧ (match a.1, b.1 with
      | none, none => True
      | some es, some es' => List.Forall₂ ErrAside es es'
      | _, _ => False)) (anyLoop rd rs es s) (anyLoop rd' rs' es' t) := by
  induction hr with
  | nil => exact fun es es' s t he h => .ret ⟨h, he⟩
  | cons h1 _ ih =>
    intro es es' s t he h
    refine (h1 s t h).bind fun a b _ _ hab => ?_
    obtain ⟨e, s'⟩ := a
    obtain ⟨e', t'⟩ := b
    obtain ⟨h1, h2⟩ := hab
    cases e <;> cases e' <;> simp only [ResAside] at h1
    · exact .ret ⟨h2, trivial⟩
    · exact ih _ _ _ _ (List.rel_append he (.cons h1 .nil)) h2

theorem seq_along {rs rs' : List Reader} (hr : Rows rd rd' I rs rs') : Along I (seqLoop rd rs) (seqLoop rd' rs') := by
  induction hr with
  | nil => exact fun s t h => .ret ⟨trivial, h⟩
  | cons h1 _ ih =>
    intro s t h
    refine (h1 s t h).bind fun a b _ _ hab => ?_
    obtain ⟨e, s'⟩ := a
    obtain ⟨e', t'⟩ := b
    obtain ⟨h1, h2⟩ := hab
    cases e <;> cases e' <;> simp only [ResAside] at h1
    · exact ih _ _ h2
    · exact .ret ⟨h1, h2⟩

theorem skip_along {sk sk' : Reader} (hk : Along I (rd sk) (rd' sk')) {rs rs' : List Reader} (hr : Rows rd rd' I rs rs') :
    Along I (skipSeqLoop rd sk rs) (skipSeqLoop rd' sk' rs') := by
  induction hr with
  | nil => exact fun s t h => .ret ⟨trivial, h⟩
  | cons h1 _ ih =>
    intro s t h
    refine (h1 s t h).bind fun a b _ _ hab => ?_
    obtain ⟨e, s'⟩ := a
    obtain ⟨e', t'⟩ := b
    obtain ⟨h1, h2⟩ := hab
    cases e <;> cases e' <;> simp only [ResAside] at h1
    · refine (hk _ _ h2).bind fun a b _ _ hab => ?_
      obtain ⟨e, s'⟩ := a
      obtain ⟨e', t'⟩ := b
      obtain ⟨h1, h2⟩ := hab
      cases e <;> cases e' <;> simp only [ResAside] at h1
      · exact ih _ _ h2
      · exact .ret ⟨h1, h2⟩
    · exact .ret ⟨h1, h2⟩

theorem times_along {f g : ReadFunc} (hf : Along I f g) : ∀ k, Along I (timesLoop f k) (timesLoop g k)
  | 0, _, _, h => .ret ⟨trivial, h⟩
  | k + 1, s, t, h => (hf s t h).bind fun a b _ _ hab => by
    obtain ⟨e, s'⟩ := a
    obtain ⟨e', t'⟩ := b
    obtain ⟨h1, h2⟩ := hab
    cases e <;> cases e' <;> simp only [ResAside] at h1
    · exact times_along hf k _ _ h2
    · exact .ret ⟨h1, h2⟩

theorem zom_along {f g : ReadFunc} (hf : Along I f g) : ∀ n s t, Aside I s t → RelE (Aside I) (zomLoop f n s) (zomLoop g n t)
  | 0, _, _, _ => .timeout
  | n + 1, s, t, h => (hf s t h).bind fun a b _ _ hab => by
    obtain ⟨e, s'⟩ := a
    obtain ⟨e', t'⟩ := b
    obtain ⟨h1, h2⟩ := hab
    cases e <;> cases e' <;> simp only [ResAside] at h1
    · exact zom_along hf n _ _ h2
    · exact .ret h2

theorem past_along {f g : ReadFunc} (hf : Along I f g) : ∀ n s t, Aside I s t → RelE (Thru (Aside I)) (pastLoop f n s) (pastLoop g n t)
  | 0, _, _, _ => .timeout
  | n + 1, s, t, h => by
    unfold pastLoop
    rw [(aside_blind I).atEnd h]
    split
    · exact .ret ⟨rfl, h⟩
    · refine (hf s t h).bind fun a b _ _ hab => ?_
      obtain ⟨e, s'⟩ := a
      obtain ⟨e', t'⟩ := b
      obtain ⟨h1, h2⟩ := hab
      cases e <;> cases e' <;> simp only [ResAside] at h1
      · exact .ret ⟨rfl, h2⟩
      · exact ((aside_blind I).moveRunes h2).bind fun a b _ _ hab => past_along hf n _ _ hab.2

theorem to_along {f g : ReadFunc} (hf : Along I f g) : ∀ n s t, Aside I s t → RelE (Thru (Aside I)) (toLoop f n s) (toLoop g n t)
  | 0, _, _, _ => .timeout
  | n + 1, s, t, h => by
    unfold toLoop
    have hm := (aside_blind I).mark h
    refine (hf s t h).bind fun a b _ _ hab => ?_
    obtain ⟨e, s'⟩ := a
    obtain ⟨e', t'⟩ := b
    obtain ⟨h1, h2⟩ := hab
    cases e <;> cases e' <;> simp only [ResAside] at h1
    · simp only [hm]
      exact .ret ⟨rfl, (aside_blind I).toMarker h2 _⟩
    · refine ((aside_blind I).moveRunes h2).bind fun a b _ _ hab => ?_
      obtain ⟨ok, s'⟩ := a
      obtain ⟨ok', t'⟩ := b
      obtain ⟨h1, h2⟩ := hab
      cases h1
      cases ok
      · exact .ret ⟨rfl, h2⟩
      · exact to_along hf n _ _ h2

theorem use_along {f g : ReadFunc} (hf : Along I f g) {s t : Scanner} (h : Aside I s t) :
    RelE (fun a b => ResAside a.1 b.1 ∧ Aside I a.2 b.2) (s.use f) (t.use g) := by
  unfold Scanner.use
  simp only [(aside_blind I).mark h]
  refine (hf s t h).bind fun a b _ _ hab => ?_
  obtain ⟨e, s'⟩ := a
  obtain ⟨e', t'⟩ := b
  obtain ⟨h1, h2⟩ := hab
  cases e <;> cases e' <;> simp only [ResAside] at h1
  · exact .ret ⟨trivial, h2⟩
  · exact .ret ⟨h1, (aside_blind I).toMarker h2 _⟩

theorem body_along {f g f' g' : ReadFunc} (hf : Along I f f') (hg : Along I g g') (mk : Int) : ∀ n s t, Aside I s t →
    RelE (Thru (Aside I)) (bodyLoop f g mk n s) (bodyLoop f' g' mk n t)
  | 0, _, _, _ => .timeout
  | n + 1, s, t, h => by
    unfold bodyLoop
    rw [(aside_blind I).atEnd h]
    split
    · exact .ret ⟨rfl, h⟩
    · have hm := (aside_blind I).mark h
      refine (hg s t h).bind fun a b _ _ hab => ?_
      obtain ⟨e, s'⟩ := a
      obtain ⟨e', t'⟩ := b
      obtain ⟨h1, h2⟩ := hab
      cases e <;> cases e' <;> simp only [ResAside] at h1
      · simp only [hm]
        refine ((aside_blind I).getE h2 _).bind fun a b _ _ hab => ?_
        subst hab
        refine (use_along hf (h2.new _)).bind fun a b _ _ hab => ?_
        obtain ⟨e, s1⟩ := a
        obtain ⟨e', t1⟩ := b
        obtain ⟨h4, h5⟩ := hab
        have hh := h2.heap h5
        simp only [(aside_blind I).atEnd h5]
        cases e <;> cases e' <;> simp only [ResAside] at h4
        · split
          · exact .ret ⟨rfl, hh⟩
          · exact .ret ⟨rfl, hh⟩
        · exact .ret ⟨rfl, hh⟩
      · exact ((aside_blind I).moveRunes h2).bind fun a b _ _ hab => body_along hf hg mk n _ _ hab.2

theorem token_along {f g : ReadFunc} (hf : Along I f g) {s t : Scanner} (h : Aside I s t) :
    RelE (fun a b => b.1.1 = a.1.1 ∧ ResAside a.1.2 b.1.2 ∧ Aside I a.2 b.2) (s.tokenizeUse f) (t.tokenizeUse g) := by
  unfold Scanner.tokenizeUse
  simp only [(aside_blind I).mark h]
  refine (hf s t h).bind fun a b _ _ hab => ?_
  obtain ⟨e, s'⟩ := a
  obtain ⟨e', t'⟩ := b
  obtain ⟨h1, h2⟩ := hab
  cases e <;> cases e' <;> simp only [ResAside] at h1
  · exact .ret ⟨by simp only [Option.isSome_none, Bool.false_eq_true, if_false, (aside_blind I).mark h2], trivial, h2⟩
  · have h4 := (aside_blind I).toMarker h2 s.mark
    exact .ret ⟨by simp only [Option.isSome_some, if_true, (aside_blind I).mark h4], h1, h4⟩

end

theorem enter_aside (rt : Rt) {x y : Log} (h : LogAside I x y) {i i' : Bytes} (hi : I i i') (p : Int) :
    (y.enter rt i' p).1 = (x.enter rt i p).1 ∧ LogAside I (x.enter rt i p).2 (y.enter rt i' p).2 := by
  have hl := h.entries.length_eq
  have he : List.Forall₂ (EntryAside I) (x.entries ++ [⟨p, i, x.level + 1, 0, none⟩]) (y.entries ++ [⟨p, i', y.level + 1, 0, none⟩]) :=
    List.rel_append h.entries (.cons ⟨rfl, hi, by rw [h.level], rfl, trivial⟩ .nil)
  unfold Log.enter
  simp only [← hl, h.cap, h.gen]
  split
  · exact ⟨rfl, he, rfl, rfl, by rw [h.level]⟩
  · exact ⟨rfl, he, rfl, rfl, by rw [h.level]⟩

theorem modify_aside {xs ys : List LogEntry} (h : List.Forall₂ (EntryAside I) xs ys) {f g : LogEntry → LogEntry}
    (hf : ∀ x y, EntryAside I x y → EntryAside I (f x) (g y)) : ∀ k, List.Forall₂ (EntryAside I) (xs.modify k f) (ys.modify k g) := by
  induction h with
  | nil => intro k; cases k <;> exact .nil
  | cons h1 h2 ih =>
    intro k
    cases k with
    | zero => exact .cons (hf _ _ h1) h2
    | succ k => exact .cons h1 (ih k)

theorem exit_aside {x y : Log} (h : LogAside I x y) (e : EntryPtr) (p : Int) {r r' : Option Err} (hr : ResAside r r') :
    LogAside I (x.exit e p r) (y.exit e p r') := by
  unfold Log.exit
  refine ⟨?_, h.cap, h.gen, by simp only [h.level]⟩
  simp only [h.gen]
  split
  · exact modify_aside (f := fun en => { en with exitAt := p, err := r }) (g := fun en => { en with exitAt := p, err := r' }) h.entries
      (fun a b hab => ⟨hab.enterAt, hab.info, hab.level, rfl, hr⟩) _
  · exact h.entries

/-- Parts in the same place. -/
theorem renamed_rows {rd rd' : Reader → ReadFunc} : ∀ {rs rs' : List Reader}, RenamedL I rs rs' →
    (∀ a b, Renamed I a b → Along I (rd a) (rd' b)) → Rows rd rd' I rs rs'
  | _, _, .nil, _ => .nil
  | _, _, .cons h hs, H => .cons (H _ _ h) (renamed_rows hs H)

/-- The rule with a number. -/
theorem rules_get {G G' : Env} (h : RenamedRules I G G') : ∀ i : Nat, (G[i]? = none ∧ G'[i]? = none) ∨
    (∃ nm nm', G[i]? = some ⟨nm, none⟩ ∧ G'[i]? = some ⟨nm', none⟩) ∨
    ∃ nm nm' a b, G[i]? = some ⟨nm, some a⟩ ∧ G'[i]? = some ⟨nm', some b⟩ ∧ Renamed I a b := by
  induction h with
  | nil => exact fun i => .inl ⟨rfl, rfl⟩
  | @cons x y xs ys h1 _ ih =>
    intro i
    cases i with
    | zero =>
      obtain ⟨nm, r⟩ := x
      obtain ⟨nm', r'⟩ := y
      rcases h1 with ⟨h1, h2⟩ | ⟨a, b, h1, h2, h3⟩ <;> cases h1 <;> cases h2
      · exact .inr (.inl ⟨nm, nm', rfl, rfl⟩)
      · exact .inr (.inr ⟨nm, nm', a, b, rfl, rfl, h3⟩)
    | succ i => simpa using ih i

/-- One step. -/
theorem step_along (rt : Rt) {G G' : Env} (hG : RenamedRules I G G') {rd rd' : Reader → ReadFunc} (n : Nat)
    (H : ∀ a b, Renamed I a b → Along I (rd a) (rd' b)) {a b : Reader} (hab : Renamed I a b) :
    Along I (readStep rt G rd n a) (readStep rt G' rd' n b) := by
  intro s t hst
  have hB := aside_blind I
  have hm := hB.mark hst
  have leaf : ∀ {r : Reader}, r.leaf = true → RelE (fun a b => ResAside a.1 b.1 ∧ Aside I a.2 b.2) (readStep rt G rd n r s) (readStep rt G' rd' n r t) := by
    intro r hr
    have e1 : ∀ G rd s, readStep rt G rd n r s = read rt G (n + 1) r s := by
      intro G rd s
      cases r <;> first | rfl | simp [Reader.leaf] at hr
    rw [e1, e1]
    exact res_of_thru (hB.leaf hst rt G G' n n hr)
  have hw : ∀ {s t : Scanner} (w w' : Bytes), Aside I s t → ResAside (some (s.errorFor w)) (some (t.errorFor w')) := by
    intro s t w w' h
    exact hB.mark h
  have hi : ∀ {s t : Scanner} (c : Bool) (w w' : Bytes), Aside I s t → ResAside (s.errorIfFalse c w) (t.errorIfFalse c w') := by
    intro s t c w w' h
    unfold Scanner.errorIfFalse
    split
    · exact hB.mark h
    · trivial
  cases hab with
  | anyRune _ => exact leaf rfl
  | atEnd => exact leaf rfl
  | between _ _ => exact leaf rfl
  | betweenAny _ _ => exact leaf rfl
  | bool _ _ => exact leaf rfl
  | fold _ => exact leaf rfl
  | holey _ _ _ => exact leaf rfl
  | int _ _ _ => exact leaf rfl
  | lit _ => exact leaf rfl
  | rune _ => exact leaf rfl
  | uint _ _ _ => exact leaf rfl
  | janusEnd i w w' => exact leaf (r := .janusEnd i w) rfl
  | invalid w w' => exact .ret ⟨trivial, hst⟩
  | match_ w w' f =>
    have := leaf (r := .match_ w f) rfl
    simp only [readStep, Tok.ifFalse] at this ⊢
    refine (hB.ifMatch hst f).bind fun a b _ _ h => ?_
    obtain ⟨ok, s'⟩ := a
    obtain ⟨ok', t'⟩ := b
    obtain ⟨he, h⟩ := h
    cases he
    exact .ret ⟨hi _ _ _ h, h⟩
  | any hs =>
    simp only [readStep, hm]
    refine (any_along (renamed_rows hs H) [] [] s t .nil hst).bind fun a b _ _ hab => ?_
    obtain ⟨e, s'⟩ := a
    obtain ⟨e', t'⟩ := b
    obtain ⟨h1, h2⟩ := hab
    cases e <;> cases e' <;> simp only at h2
    · exact .ret ⟨trivial, h1⟩
    · exact .ret ⟨deepest_aside h2 _ _ _, hB.toMarker h1 _⟩
  | at_ h =>
    simp only [readStep, hm]
    exact (H _ _ h s t hst).bind fun a b _ _ hab => .ret ⟨hab.1, hB.toMarker hab.2 _⟩
  | body h h' =>
    simp only [readStep, hm]
    refine (body_along (H _ _ h) (H _ _ h') _ n s t hst).bind fun x y _ _ hab => ?_
    obtain ⟨e, s'⟩ := x
    obtain ⟨e', t'⟩ := y
    obtain ⟨h1, h2⟩ := hab
    cases h1
    cases e with
    | none => exact .ret ⟨hw _ _ (hB.toMarker h2 _), hB.toMarker h2 _⟩
    | some k => exact .ret ⟨trivial, hB.toMarker h2 _⟩
  | bodyTail h h' =>
    simp only [readStep, hm]
    refine (body_along (H _ _ h) (H _ _ h') _ n s t hst).bind fun x y _ _ hab => ?_
    obtain ⟨e, s'⟩ := x
    obtain ⟨e', t'⟩ := y
    obtain ⟨h1, h2⟩ := hab
    cases h1
    cases e with
    | none => exact .ret ⟨hw _ _ (hB.toMarker h2 _), hB.toMarker h2 _⟩
    | some k => exact .ret ⟨trivial, h2⟩
  | janusBegin i w w' h =>
    simp only [readStep]
    refine (token_along (H _ _ h) hst).bind fun a b _ _ hab => ?_
    obtain ⟨⟨k, e⟩, s'⟩ := a
    obtain ⟨⟨k', e'⟩, t'⟩ := b
    obtain ⟨h1, h2, h3⟩ := hab
    cases h1
    cases e <;> cases e' <;> simp only [ResAside] at h2
    · refine (hB.getE h3 _).bind fun a b _ _ hab => ?_
      subst hab
      refine .ret ⟨trivial, ?_⟩
      rw [h3.janus]
      exact hB.setJanus h3 _
    · exact .ret ⟨h2, h3⟩
  | many h =>
    simp only [readStep, hm]
    refine (zom_along (H _ _ h) n s t hst).bind fun a b _ _ hab => ?_
    rw [hB.mark hab]
    exact .ret ⟨hi _ _ _ hab, hab⟩
  | map f h =>
    simp only [readStep]
    refine (token_along (H _ _ h) hst).bind fun a b _ _ hab => ?_
    obtain ⟨⟨k, e⟩, s'⟩ := a
    obtain ⟨⟨k', e'⟩, t'⟩ := b
    obtain ⟨h1, h2, h3⟩ := hab
    cases h1
    cases e <;> cases e' <;> simp only [ResAside] at h2
    · exact .ret ⟨trivial, h3.full, h3.pos, h3.tracker, h3.cells, h3.janus, h3.tracks, by have := h3.maps; simp only at this; simp only [this], h3.baskets, h3.logs⟩
    · exact .ret ⟨h2, h3⟩
  | named w w' h => exact H _ _ h s t hst
  | not h =>
    simp only [readStep, hm]
    refine (H _ _ h s t hst).bind fun a b _ _ hab => ?_
    obtain ⟨e, s'⟩ := a
    obtain ⟨e', t'⟩ := b
    obtain ⟨h1, h2⟩ := hab
    have h4 := hB.toMarker h2 s.mark
    cases e <;> cases e' <;> simp only [ResAside] at h1
    · exact .ret ⟨hw _ _ h4, h4⟩
    · exact (hB.moveRunes h4).bind fun a b _ _ hab => .ret ⟨trivial, hab.2⟩
  | opt h =>
    simp only [readStep]
    exact (H _ _ h s t hst).bind fun a b _ _ hab => .ret ⟨trivial, hab.2⟩
  | past h =>
    simp only [readStep, hm]
    refine (past_along (H _ _ h) n s t hst).bind fun a b _ _ hab => ?_
    obtain ⟨e, s'⟩ := a
    obtain ⟨e', t'⟩ := b
    obtain ⟨h1, h2⟩ := hab
    cases h1
    cases e with
    | false => exact .ret ⟨hw _ _ (hB.toMarker h2 _), hB.toMarker h2 _⟩
    | true => exact .ret ⟨trivial, h2⟩
  | «to» h =>
    simp only [readStep, hm]
    refine (to_along (H _ _ h) n s t hst).bind fun a b _ _ hab => ?_
    obtain ⟨e, s'⟩ := a
    obtain ⟨e', t'⟩ := b
    obtain ⟨h1, h2⟩ := hab
    cases h1
    cases e with
    | false => exact .ret ⟨hw _ _ (hB.toMarker h2 _), hB.toMarker h2 _⟩
    | true => exact .ret ⟨trivial, h2⟩
  | seq hs =>
    simp only [readStep, hm]
    refine (seq_along (renamed_rows hs H) s t hst).bind fun a b _ _ hab => ?_
    obtain ⟨e, s'⟩ := a
    obtain ⟨e', t'⟩ := b
    obtain ⟨h1, h2⟩ := hab
    cases e <;> cases e' <;> simp only [ResAside] at h1
    · exact .ret ⟨trivial, h2⟩
    · exact .ret ⟨h1, hB.toMarker h2 _⟩
  | skipSeq h hs =>
    simp only [readStep, hm]
    refine (H _ _ h s t hst).bind fun a b _ _ hab => ?_
    obtain ⟨e, s'⟩ := a
    obtain ⟨e', t'⟩ := b
    obtain ⟨h1, h2⟩ := hab
    cases e <;> cases e' <;> simp only [ResAside] at h1
    · refine (skip_along (H _ _ h) (renamed_rows hs H) s' t' h2).bind fun a b _ _ hab => ?_
      obtain ⟨e, s''⟩ := a
      obtain ⟨e', t''⟩ := b
      obtain ⟨h1, h2⟩ := hab
      cases e <;> cases e' <;> simp only [ResAside] at h1
      · exact .ret ⟨trivial, h2⟩
      · exact .ret ⟨h1, hB.toMarker h2 _⟩
    · exact .ret ⟨h1, hB.toMarker h2 _⟩
  | times k h => exact times_along (H _ _ h) _ s t hst
  | wrap w w' h => exact along_of h s t hst
  | zom h =>
    simp only [readStep]
    exact (zom_along (H _ _ h) n s t hst).bind fun a b _ _ hab => .ret ⟨trivial, hab⟩
  | pick bk hI h =>
    simp only [readStep]
    refine (token_along (H _ _ h) hst).bind fun a b _ _ hab => ?_
    obtain ⟨⟨k, e⟩, s'⟩ := a
    obtain ⟨⟨k', e'⟩, t'⟩ := b
    obtain ⟨h1, h2, h3⟩ := hab
    cases h1
    cases e <;> cases e' <;> simp only [ResAside] at h2
    · exact .ret ⟨trivial, h3.full, h3.pos, h3.tracker, h3.cells, h3.janus, h3.tracks, h3.maps,
        all_upd h3.baskets bk (List.rel_append (h3.baskets bk) (.cons ⟨rfl, hI⟩ .nil)), h3.logs⟩
    · exact .ret ⟨h2, h3⟩
  | monitor l hI h =>
    simp only [readStep, hst.pos]
    obtain ⟨h5, h6⟩ := enter_aside rt (hst.logs l) hI s.pos
    rw [h5]
    refine RelE.bind (H _ _ h _ _ ?_) fun a b _ _ hab => ?_
    · exact ⟨hst.full, rfl, hst.tracker, hst.cells, hst.janus, hst.tracks, hst.maps, hst.baskets, all_upd hst.logs l h6⟩
    obtain ⟨e, s'⟩ := a
    obtain ⟨e', t'⟩ := b
    obtain ⟨h1, h2⟩ := hab
    refine .ret ⟨h1, h2.full, h2.pos, h2.tracker, h2.cells, h2.janus, h2.tracks, h2.maps, h2.baskets, ?_⟩
    have h7 : t'.pos = s'.pos := h2.pos
    simp only [h7]
    exact all_upd h2.logs l (exit_aside (h2.logs l) _ _ h1)
  | rule i =>
    simp only [readStep]
    rcases rules_get hG i with ⟨h1, h2⟩ | ⟨nm, nm', h1, h2⟩ | ⟨nm, nm', a, b, h1, h2, h3⟩
    · rw [h1, h2]; exact .panic
    · rw [h1, h2]; exact .panic
    · rw [h1, h2]; exact H _ _ h3 s t hst
  | ruleName h =>
    simp only [readStep]
    refine (H _ _ h s t hst).bind fun a b _ _ hab => ?_
    obtain ⟨e, s'⟩ := a
    obtain ⟨e', t'⟩ := b
    obtain ⟨h1, h2⟩ := hab
    rw [res_none h1]
    exact .ret ⟨hi _ _ _ h2, h2⟩
  | grammar w w' h =>
    simp only [readStep]
    refine (H _ _ h s t hst).bind fun a b _ _ hab => ?_
    obtain ⟨e, s'⟩ := a
    obtain ⟨e', t'⟩ := b
    obtain ⟨h1, h2⟩ := hab
    cases e <;> cases e' <;> simp only [ResAside] at h1
    · exact .ret ⟨trivial, h2⟩
    · exact .ret ⟨trivial, h2⟩

/-- Whole reads. -/
theorem read_along (rt : Rt) {G G' : Env} (hG : RenamedRules I G G') : ∀ n a b, Renamed I a b → Along I (read rt G n a) (read rt G' n b)
  | 0, _, _, _ => fun _ _ _ => .timeout
  | n + 1, a, b, h => by
    have : Along I (readStep rt G (read rt G n) n a) (readStep rt G' (read rt G' n) n b) := step_along rt hG n (read_along rt hG n) h
    intro s t hst
    rw [read_eq_step, read_eq_step]
    exact this s t hst

end Tok
