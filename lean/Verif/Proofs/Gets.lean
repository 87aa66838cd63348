/-
What a reader makes of a text, whatever strings are remembered by Janus readers: it is successful and leaves a rest, or it fails and leaves the
text as it was.
-/
import Verif.Props.C64

namespace Tok
open Spec

/-- On the text `t` the reader is successful and leaves the text in `o`, or it fails (`none`). -/
def Gets (rt : Rt) (G : Env) (r : Reader) (t : Bytes) (o : Option Bytes) : Prop :=
  ∀ j, ∃ n j', eat rt G n r ⟨t, j⟩ = .ret (o.isSome, ⟨o.getD t, j'⟩)

/-- The readers one after the other. -/
def GetsSeq (rt : Rt) (G : Env) (rs : List Reader) (t : Bytes) (o : Option Bytes) : Prop :=
  ∀ j, ∃ n j' u, eatSeq (eat rt G n) rs ⟨t, j⟩ = .ret (o.isSome, ⟨u, j'⟩) ∧ ∀ v, o = some v → u = v

/-- The readers one after the other, the skipper behind each. -/
def GetsSkip (rt : Rt) (G : Env) (sk : Reader) (rs : List Reader) (t : Bytes) (o : Option Bytes) : Prop :=
  ∀ j, ∃ n j' u, eatSkip (eat rt G n) sk rs ⟨t, j⟩ = .ret (o.isSome, ⟨u, j'⟩) ∧ ∀ v, o = some v → u = v

/-- The first reader that is successful. -/
def GetsAny (rt : Rt) (G : Env) (rs : List Reader) (t : Bytes) (o : Option Bytes) : Prop :=
  ∀ j, ∃ n j', eatAny (eat rt G n) rs ⟨t, j⟩ = .ret (o.isSome, ⟨o.getD t, j'⟩)

variable {rt : Rt} {G : Env} {r sk : Reader} {rs : List Reader} {t u v : Bytes} {o : Option Bytes}

theorem Gets.det {o' : Option Bytes} (h : Gets rt G r t o) (h' : Gets rt G r t o') : o = o' := by
  obtain ⟨n, j, e⟩ := h fun _ => []
  obtain ⟨n', j', e'⟩ := h' fun _ => []
  have := eat_det e e'
  cases o <;> cases o' <;> simp_all

theorem Does.gets {f : Bytes → Option Bytes} (h : Does rt G r f) (t : Bytes) : Gets rt G r t (f t) := fun j => by
  obtain ⟨n, e⟩ := h t j
  refine ⟨n, j, ?_⟩
  rw [e]
  cases f t <;> rfl

theorem Gets.at1 (h : ∀ j, ∃ j', eat rt G 1 r ⟨t, j⟩ = .ret (o.isSome, ⟨o.getD t, j'⟩)) : Gets rt G r t o := fun j => ⟨1, h j⟩

/-! ### sequences -/

theorem GetsSeq.nil : GetsSeq rt G [] t (some t) := fun j => ⟨0, j, t, rfl, fun _ h => Option.some.inj h⟩

theorem GetsSeq.cons (h : Gets rt G r t (some u)) (h' : GetsSeq rt G rs u o) : GetsSeq rt G (r :: rs) t o := fun j => by
  obtain ⟨n1, j1, e1⟩ := h j
  obtain ⟨n2, j2, w, e2, e3⟩ := h' j1
  refine ⟨n1 + n2, j2, w, ?_, e3⟩
  rw [eatSeq, eat_mono (by omega) e1]
  exact (eatSeq_le (fun r s => eat_le rt G n2 (n1 + n2) (by omega) r s) rs _).ret e2

theorem GetsSeq.stop (h : Gets rt G r t none) : GetsSeq rt G (r :: rs) t none := fun j => by
  obtain ⟨n1, j1, e1⟩ := h j
  refine ⟨n1, j1, t, ?_, fun _ h => by cases h⟩
  rw [eatSeq, e1]
  rfl

theorem Gets.seq (h : GetsSeq rt G rs t o) : Gets rt G (.seq rs) t o := fun j => by
  obtain ⟨n, j', w, e1, e2⟩ := h j
  refine ⟨n + 1, j', ?_⟩
  simp only [eat, e1]
  cases o with
  | none => rfl
  | some v => cases e2 v rfl; rfl

theorem GetsSkip.nil : GetsSkip rt G sk [] t (some t) := fun j => ⟨0, j, t, rfl, fun _ h => Option.some.inj h⟩

theorem GetsSkip.cons (h : Gets rt G r t (some u)) (hs : Gets rt G sk u (some v)) (h' : GetsSkip rt G sk rs v o) : GetsSkip rt G sk (r :: rs) t o := fun j => by
  obtain ⟨n1, j1, e1⟩ := h j
  obtain ⟨n2, j2, e2⟩ := hs j1
  obtain ⟨n3, j3, w, e3, e4⟩ := h' j2
  refine ⟨n1 + n2 + n3, j3, w, ?_, e4⟩
  rw [eatSkip, eat_mono (by omega) e1]
  simp only [Exec.bind_ret, Option.isSome_some, if_true, Option.getD_some]
  rw [eat_mono (by omega) e2]
  exact (eatSkip_le (fun r s => eat_le rt G n3 (n1 + n2 + n3) (by omega) r s) sk rs _).ret e3

theorem GetsSkip.stop (h : Gets rt G r t none) : GetsSkip rt G sk (r :: rs) t none := fun j => by
  obtain ⟨n1, j1, e1⟩ := h j
  refine ⟨n1, j1, t, ?_, fun _ h => by cases h⟩
  rw [eatSkip, e1]
  rfl

theorem Gets.skipSeq (hs : Gets rt G sk t (some u)) (h : GetsSkip rt G sk rs u o) : Gets rt G (.skipSeq sk rs) t o := fun j => by
  obtain ⟨n1, j1, e1⟩ := hs j
  obtain ⟨n2, j2, w, e2, e3⟩ := h j1
  refine ⟨n1 + n2 + 1, j2, ?_⟩
  simp only [eat]
  rw [eat_mono (by omega) e1]
  simp only [Exec.bind_ret, Option.isSome_some, if_true, Option.getD_some]
  rw [(eatSkip_le (fun r s => eat_le rt G n2 (n1 + n2) (by omega) r s) sk rs _).ret e2]
  cases o with
  | none => rfl
  | some v => cases e3 v rfl; rfl

/-! ### alternatives -/

theorem GetsAny.nil : GetsAny rt G [] t none := fun j => ⟨0, j, rfl⟩

theorem GetsAny.hit (h : Gets rt G r t (some u)) : GetsAny rt G (r :: rs) t (some u) := fun j => by
  obtain ⟨n, j', e⟩ := h j
  refine ⟨n, j', ?_⟩
  rw [eatAny, e]
  rfl

theorem GetsAny.next (h : Gets rt G r t none) (h' : GetsAny rt G rs t o) : GetsAny rt G (r :: rs) t o := fun j => by
  obtain ⟨n1, j1, e1⟩ := h j
  obtain ⟨n2, j2, e2⟩ := h' j1
  refine ⟨n1 + n2, j2, ?_⟩
  rw [eatAny, eat_mono (by omega) e1]
  exact (eatAny_le (fun r s => eat_le rt G n2 (n1 + n2) (by omega) r s) rs _).ret e2

theorem Gets.any (h : GetsAny rt G rs t o) : Gets rt G (.any rs) t o := fun j => by
  obtain ⟨n, j', e1⟩ := h j
  refine ⟨n + 1, j', ?_⟩
  simp only [eat, e1]
  cases o <;> rfl

/-! ### repetitions -/

theorem Gets.opt (h : Gets rt G r t o) : Gets rt G (.opt r) t (some (o.getD t)) := fun j => by
  obtain ⟨n, j', e⟩ := h j
  refine ⟨n + 1, j', ?_⟩
  simp only [eat, e]
  rfl

theorem Gets.zom_stop (h : Gets rt G r t none) : Gets rt G (.zom r) t (some t) := fun j => by
  obtain ⟨n, j', e⟩ := h j
  refine ⟨n + 2, j', ?_⟩
  show (eatZom (eat rt G (n + 1) r) (n + 1) ⟨t, j⟩ >>= fun st => pure (true, st)) = _
  rw [eatZom, eat_mono (by omega) e]
  rfl

theorem zom_loop {n : Nat} {j j' : Nat → Bytes} (e : eat rt G n (.zom r) ⟨t, j⟩ = .ret (true, ⟨u, j'⟩)) :
    ∃ m, eatZom (eat rt G m r) m ⟨t, j⟩ = .ret ⟨u, j'⟩ := by
  cases n with
  | zero => cases e
  | succ n =>
    refine ⟨n, ?_⟩
    simp only [eat] at e
    obtain ⟨st, e1, e2⟩ := Exec.bind_eq_ret.mp e
    rw [e1]
    simp only [Exec.pure_eq, Exec.ret.injEq, Prod.mk.injEq, true_and] at e2
    rw [e2]

theorem Gets.zom_step (h : Gets rt G r t (some u)) (h' : Gets rt G (.zom r) u (some v)) : Gets rt G (.zom r) t (some v) := fun j => by
  obtain ⟨n1, j1, e1⟩ := h j
  obtain ⟨n2, j2, e2⟩ := h' j1
  obtain ⟨m, e3⟩ := zom_loop e2
  refine ⟨n1 + m + 2, j2, ?_⟩
  show (eatZom (eat rt G (n1 + m + 1) r) (n1 + m + 1) ⟨t, j⟩ >>= fun st => pure (true, st)) = _
  rw [eatZom, eat_mono (by omega) e1]
  simp only [Exec.bind_ret, Option.isSome_some, if_true, Option.getD_some]
  rw [(eatZom_le (fun s => eat_le rt G m (n1 + m + 1) (by omega) r s) m (n1 + m) _ (by omega)).ret e3]
  rfl

theorem Gets.many (h : Gets rt G (.zom r) t (some u)) : Gets rt G (.many r) t (if u.length < t.length then some u else none) ∨ u ≠ t ∧ ¬ u.length < t.length := by
  by_cases hl : u.length < t.length
  · left
    rw [if_pos hl]
    intro j
    obtain ⟨n, j', e⟩ := h j
    obtain ⟨m, e⟩ := zom_loop e
    refine ⟨m + 1, j', ?_⟩
    simp only [eat, e]
    simp [hl]
  · by_cases he : u = t
    · left
      rw [if_neg hl]
      intro j
      obtain ⟨n, j', e⟩ := h j
      obtain ⟨m, e⟩ := zom_loop e
      refine ⟨m + 1, j', ?_⟩
      simp only [eat, e]
      simp [he]
    · exact .inr ⟨he, hl⟩

theorem Gets.many_yes (h : Gets rt G (.zom r) t (some u)) (hl : u.length < t.length) : Gets rt G (.many r) t (some u) := by
  rcases h.many with h | h
  · rwa [if_pos hl] at h
  · exact absurd hl h.2

theorem Gets.many_no (h : Gets rt G r t none) : Gets rt G (.many r) t none := by
  rcases (Gets.zom_stop h).many with h | h
  · rwa [if_neg (Nat.lt_irrefl _)] at h
  · exact absurd rfl h.1

theorem Gets.rule {i : Nat} {nm : Bytes} (hi : G[i]? = some ⟨nm, some r⟩) (h : Gets rt G r t o) : Gets rt G (.rule i) t o := fun j => by
  obtain ⟨n, j', e⟩ := h j
  refine ⟨n + 1, j', ?_⟩
  simp only [eat, hi, e]

theorem Gets.grammar {nm : Bytes} (h : Gets rt G r t o) : Gets rt G (.grammar nm r) t o := fun j => by
  obtain ⟨n, j', e⟩ := h j
  exact ⟨n + 1, j', by simp only [eat, e]⟩

/-! ### literals -/

theorem Gets.lit (x t : Bytes) : Gets rt G (.lit x) (x ++ t) (some t) := .at1 fun j => ⟨j, by
  have : hasPrefix (x ++ t) x = true := (hasPrefix_iff _ _).mpr (List.prefix_append _ _)
  simp [eat, lift, eatLit, this]⟩

theorem Gets.lit_no {x : Bytes} (h : ¬ x <+: t) : Gets rt G (.lit x) t none := .at1 fun j => ⟨j, by
  have : hasPrefix t x = false := by
    cases h' : hasPrefix t x
    · rfl
    · exact absurd ((hasPrefix_iff _ _).mp h') h
  simp [eat, lift, eatLit, this]⟩

/-- One rune below 128. -/
theorem Gets.one {P : Int → Bool} {b : UInt8} (hb : b.toNat < 128) (he : ∀ j, eat rt G 1 r ⟨b :: t, j⟩ = lift (eatOne P) ⟨b :: t, j⟩) :
    Gets rt G r (b :: t) (if P b.toNat then some t else none) := .at1 fun j => ⟨j, by
  have hd : decodeRune (b :: t) = ((b.toNat : Int), 1) := by
    exact decodeRune_one (by simpa using hb) t
  rw [he]
  simp only [lift, eatOne, hd]
  by_cases hP : P b.toNat = true
  · simp [hP]
  · simp [hP]⟩

/-! ### texts of which only the beginning is known -/

def symSeq (f : Reader → Bytes → Option (Option Bytes)) : List Reader → Bytes → Option (Option Bytes)
  | [], p => some (some p)
  | r :: rs, p => match f r p with
    | some (some p') => symSeq f rs p'
    | some none => some none
    | none => none

def symSkip (f : Reader → Bytes → Option (Option Bytes)) (sk : Reader) : List Reader → Bytes → Option (Option Bytes)
  | [], p => some (some p)
  | r :: rs, p => match f r p with
    | some (some p') => match f sk p' with
      | some (some p'') => symSkip f sk rs p''
      | _ => none
    | some none => some none
    | none => none

def symAny (f : Reader → Bytes → Option (Option Bytes)) : List Reader → Bytes → Option (Option Bytes)
  | [], _ => some none
  | r :: rs, p => match f r p with
    | some (some p') => some (some p')
    | some none => symAny f rs p
    | none => none

def symZom (f : Bytes → Option (Option Bytes)) : Nat → Bytes → Option Bytes
  | 0, _ => none
  | n + 1, p => match f p with
    | some none => some p
    | some (some p') => symZom f n p'
    | none => none

/-- A test of one rune, if the beginning tells. -/
def symOne (fin : Bool) (P : Int → Bool) : Bytes → Option (Option Bytes)
  | [] => if fin && !P 0xFFFD then some none else none
  | b :: t => if b.toNat < 128 then some (if P b.toNat then some t else none) else none

/-- What a reader makes of a text that begins with `p`, if this is enough to tell.  With `fin` the text is `p`; none of the literals in `nots` is a
beginning of the whole text, whose known beginning has the length `len`. -/
def sym (G : Env) (fin : Bool) (nots : List Bytes) (len : Nat) : Nat → Reader → Bytes → Option (Option Bytes)
  | 0, _, _ => none
  | n + 1, r, p =>
    let f := sym G fin nots len n
    match r with
    | .lit x =>
      if x.isPrefixOf p then some (some (p.drop x.length))
      else if fin || !p.isPrefixOf x || (p.length == len && nots.any (fun y => y.isPrefixOf x)) then some none
      else none
    | .rune c => symOne fin (· == c) p
    | .anyRune str => symOne fin (containsRune str) p
    | .between a b => symOne fin (fun v => Scanner.inRange a v b) p
    | .betweenAny ranges singles => symOne fin (fun v => ranges.any (fun x => Scanner.inRange x.1 v x.2) || containsRune singles v) p
    | .seq rs => symSeq f rs p
    | .any rs => symAny f rs p
    | .skipSeq sk rs => match f sk p with
      | some (some p') => symSkip f sk rs p'
      | _ => none
    | .opt r => (f r p).map fun o => some (o.getD p)
    | .zom r => (symZom (f r) n p).map some
    | .many r => match f r p with
      | some none => some none
      | some (some p') => if p'.length < p.length then (symZom (f r) n p').map some else none
      | none => none
    | .rule i => match G[i]? with
      | some ⟨_, some sub⟩ => f sub p
      | _ => none
    | _ => none

/-- Everything about the text that `sym` may use. -/
structure Begins (fin : Bool) (nots : List Bytes) (p0 t : Bytes) : Prop where
  fin : fin = true → t = []
  nots : ∀ y ∈ nots, ¬ y <+: p0 ++ t

/-- `sym` is right. -/
def Sound (rt : Rt) (G : Env) (p0 t : Bytes) (r : Reader) (f : Bytes → Option (Option Bytes)) : Prop :=
  ∀ p o, p <:+ p0 → f p = some o → Gets rt G r (p ++ t) (o.map (· ++ t)) ∧ ∀ p', o = some p' → p' <:+ p

section sound
variable {fin : Bool} {nots : List Bytes} {p0 : Bytes}

theorem eatSet_one (ranges : List (Int × Int)) (singles : Bytes) {t : Bytes} (ht : t ≠ []) :
    eatSet ranges singles t = eatOne (fun v => ranges.any (fun x => Scanner.inRange x.1 v x.2) || containsRune singles v) t := by
  have hr : ∀ ranges : List (Int × Int), eatRanges ranges t = eatOne (fun v => ranges.any (fun x => Scanner.inRange x.1 v x.2)) t := by
    intro ranges
    induction ranges with
    | nil => simp [eatRanges, eatOne]
    | cons x xs ih =>
      obtain ⟨a, b⟩ := x
      rw [eatRanges, ih]
      simp only [eatBetween, if_neg ht, eatOne, List.any_cons]
      by_cases h : Scanner.inRange a (decodeRune t).1 b = true
      · simp [h]
      · simp only [Bool.or_eq_true, h, false_or, if_false, Bool.false_eq_true]
  unfold eatSet
  rw [hr]
  simp only [eatOne]
  by_cases h : (ranges.any fun x => Scanner.inRange x.1 (decodeRune t).1 x.2) = true
  · simp [h]
  · simp [h]

theorem Begins.fin_nil (hb : Begins fin nots p0 t) (h : fin = true) : t = [] := hb.fin h

theorem sound_one (hb : Begins fin nots p0 t) {P : Int → Bool}
    (he : ∀ b t j, eat rt G 1 r ⟨b :: t, j⟩ = lift (eatOne P) ⟨b :: t, j⟩)
    (hn : P 0xFFFD = false → ∀ j, eat rt G 1 r ⟨[], j⟩ = .ret (false, ⟨[], j⟩)) : Sound rt G p0 t r (symOne fin P) := by
  intro p o hp h
  cases p with
  | nil =>
    simp only [symOne] at h
    split at h
    · next hc =>
      simp only [Bool.and_eq_true, Bool.not_eq_true'] at hc
      cases h
      cases hb.fin hc.1
      exact ⟨.at1 fun j => ⟨j, hn hc.2 j⟩, fun _ h => by cases h⟩
    · cases h
  | cons b q =>
    simp only [symOne] at h
    split at h
    · next hc =>
      cases h
      have := Gets.one (rt := rt) (G := G) (t := q ++ t) hc (he b (q ++ t))
      by_cases hP : P b.toNat = true
      · rw [if_pos hP] at this ⊢
        exact ⟨this, fun p' h => by cases h; exact List.suffix_cons _ _⟩
      · rw [if_neg hP] at this ⊢
        exact ⟨this, fun _ h => by cases h⟩
    · cases h

variable {f : Reader → Bytes → Option (Option Bytes)}

theorem sound_seq (hf : ∀ r, Sound rt G p0 t r (f r)) : ∀ rs p o, p <:+ p0 → symSeq f rs p = some o →
    GetsSeq rt G rs (p ++ t) (o.map (· ++ t)) ∧ ∀ p', o = some p' → p' <:+ p
  | [], p, o, _, h => by cases h; exact ⟨.nil, fun _ h => by cases h; exact List.suffix_refl _⟩
  | r :: rs, p, o, hp, h => by
    simp only [symSeq] at h
    split at h
    · next p' e =>
      obtain ⟨h1, h2⟩ := hf r p _ hp e
      have h3 := h2 _ rfl
      obtain ⟨h4, h5⟩ := sound_seq hf rs p' o (h3.trans hp) h
      exact ⟨.cons h1 h4, fun q hq => (h5 q hq).trans h3⟩
    · next e => cases h; exact ⟨.stop (hf r p _ hp e).1, fun _ h => by cases h⟩
    · cases h

theorem sound_skip (hf : ∀ r, Sound rt G p0 t r (f r)) : ∀ rs p o, p <:+ p0 → symSkip f sk rs p = some o →
    GetsSkip rt G sk rs (p ++ t) (o.map (· ++ t)) ∧ ∀ p', o = some p' → p' <:+ p
  | [], p, o, _, h => by cases h; exact ⟨.nil, fun _ h => by cases h; exact List.suffix_refl _⟩
  | r :: rs, p, o, hp, h => by
    simp only [symSkip] at h
    split at h
    · next p' e =>
      obtain ⟨h1, h2⟩ := hf r p _ hp e
      have h3 := h2 _ rfl
      split at h
      · next p'' e' =>
        obtain ⟨k1, k2⟩ := hf sk p' _ (h3.trans hp) e'
        have k3 := k2 _ rfl
        obtain ⟨h4, h5⟩ := sound_skip hf rs p'' o (k3.trans (h3.trans hp)) h
        exact ⟨.cons h1 k1 h4, fun q hq => (h5 q hq).trans (k3.trans h3)⟩
      · cases h
    · next e => cases h; exact ⟨.stop (hf r p _ hp e).1, fun _ h => by cases h⟩
    · cases h

theorem sound_any (hf : ∀ r, Sound rt G p0 t r (f r)) : ∀ rs p o, p <:+ p0 → symAny f rs p = some o →
    GetsAny rt G rs (p ++ t) (o.map (· ++ t)) ∧ ∀ p', o = some p' → p' <:+ p
  | [], p, o, _, h => by cases h; exact ⟨.nil, fun _ h => by cases h⟩
  | r :: rs, p, o, hp, h => by
    simp only [symAny] at h
    split at h
    · next p' e =>
      cases h
      obtain ⟨h1, h2⟩ := hf r p _ hp e
      exact ⟨.hit h1, h2⟩
    · next e =>
      obtain ⟨h4, h5⟩ := sound_any hf rs p o hp h
      exact ⟨.next (hf r p _ hp e).1 h4, h5⟩
    · cases h

theorem sound_zom {f : Bytes → Option (Option Bytes)} (hf : Sound rt G p0 t r f) : ∀ n p q, p <:+ p0 → symZom f n p = some q →
    Gets rt G (.zom r) (p ++ t) (some (q ++ t)) ∧ q <:+ p
  | 0, _, _, _, h => by cases h
  | n + 1, p, q, hp, h => by
    simp only [symZom] at h
    split at h
    · next e => cases h; exact ⟨.zom_stop (hf p _ hp e).1, List.suffix_refl _⟩
    · next p' e =>
      obtain ⟨h1, h2⟩ := hf p _ hp e
      have h3 := h2 _ rfl
      obtain ⟨h4, h5⟩ := sound_zom hf n p' q (h3.trans hp) h
      exact ⟨.zom_step h1 h4, h5.trans h3⟩
    · cases h

theorem sym_sound (hb : Begins fin nots p0 t) : ∀ n r, Sound rt G p0 t r (sym G fin nots p0.length n r)
  | 0, _ => fun _ _ _ h => by cases h
  | n + 1, r => by
    have ih := sym_sound hb n
    cases r with
    | lit x =>
      intro p o hp h
      simp only [sym] at h
      split at h
      · next hx =>
        cases h
        obtain ⟨z, rfl⟩ := List.isPrefixOf_iff_prefix.mp hx
        rw [List.drop_left, Option.map_some, List.append_assoc]
        exact ⟨.lit x (z ++ t), fun _ h => by cases h; exact List.suffix_append _ _⟩
      · next hx =>
        split at h
        · next hc =>
          cases h
          refine ⟨.lit_no fun hpre => ?_, fun _ h => by cases h⟩
          rw [List.isPrefixOf_iff_prefix] at hx
          simp only [Bool.or_eq_true, Bool.and_eq_true, beq_iff_eq, Bool.not_eq_true', List.any_eq_true, List.isPrefixOf_iff_prefix] at hc
          rcases hc with (hc | hc) | ⟨hc, y, hm, hy⟩
          · rw [hb.fin hc, List.append_nil] at hpre
            exact hx hpre
          · rcases List.prefix_or_prefix_of_prefix hpre (List.prefix_append p t) with h | h
            · exact hx h
            · rw [List.isPrefixOf_iff_prefix.mpr h] at hc
              cases hc
          · rw [hp.eq_of_length hc] at hpre
            exact hb.nots y hm (hy.trans hpre)
        · cases h
    | rune c =>
      refine sound_one (P := (· == c)) hb (fun _ _ _ => rfl) fun h j => ?_
      have hd : (decodeRune []).1 = 0xFFFD := rfl
      simp only [eat, lift, eatOne, hd, h, Bool.false_eq_true, if_false]
    | anyRune str =>
      refine sound_one (P := (containsRune str)) hb (fun _ _ _ => rfl) fun h j => ?_
      have hd : (decodeRune []).1 = 0xFFFD := rfl
      simp only [eat, lift, eatOne, hd, h, Bool.false_eq_true, if_false]
    | between a b => exact sound_one (P := fun v => Scanner.inRange a v b) hb (fun _ _ _ => rfl) fun _ _ => rfl
    | betweenAny ranges singles =>
        refine sound_one (P := fun v => ranges.any (fun x => Scanner.inRange x.1 v x.2) || containsRune singles v) hb (fun b t j => by
          simp only [eat, lift, eatSet_one ranges singles (List.cons_ne_nil b t)]) fun h j => ?_
        have hr : ∀ l, eatRanges l [] = (false, []) := by
          intro l
          induction l with
          | nil => rfl
          | cons x xs ih => obtain ⟨a, b⟩ := x; rw [eatRanges, ih]; rfl
        simp only [eat, lift, eatSet, hr, eatOne]
        have : (decodeRune []).1 = 0xFFFD := rfl
        rw [this]
        simp only [Bool.or_eq_false_iff] at h
        simp [h.2]
    | seq rs => exact fun p o hp h => have := sound_seq ih rs p o hp h; ⟨.seq this.1, this.2⟩
    | any rs => exact fun p o hp h => have := sound_any ih rs p o hp h; ⟨.any this.1, this.2⟩
    | skipSeq sk rs =>
      intro p o hp h
      simp only [sym] at h
      split at h
      · next p' e =>
        obtain ⟨h1, h2⟩ := ih sk p _ hp e
        have h3 := h2 _ rfl
        obtain ⟨h4, h5⟩ := sound_skip ih rs p' o (h3.trans hp) h
        exact ⟨.skipSeq h1 h4, fun q hq => (h5 q hq).trans h3⟩
      · cases h
    | opt r =>
      intro p o hp h
      simp only [sym, Option.map_eq_some_iff] at h
      obtain ⟨o', h1, rfl⟩ := h
      obtain ⟨h2, h3⟩ := ih r p _ hp h1
      cases o' with
      | none => exact ⟨.opt h2, fun _ h => by cases h; exact List.suffix_refl _⟩
      | some q => exact ⟨.opt h2, fun _ h => by cases h; exact h3 _ rfl⟩
    | zom r =>
      intro p o hp h
      simp only [sym, Option.map_eq_some_iff] at h
      obtain ⟨q, h1, rfl⟩ := h
      obtain ⟨h2, h3⟩ := sound_zom (ih r) n p q hp h1
      exact ⟨h2, fun _ h => by cases h; exact h3⟩
    | many r =>
      intro p o hp h
      simp only [sym] at h
      split at h
      · next e => cases h; exact ⟨.many_no (ih r p _ hp e).1, fun _ h => by cases h⟩
      · next p' e =>
        split at h
        · next hl =>
          simp only [Option.map_eq_some_iff] at h
          obtain ⟨q, h1, rfl⟩ := h
          obtain ⟨k1, k2⟩ := ih r p _ hp e
          have k3 := k2 _ rfl
          obtain ⟨h2, h3⟩ := sound_zom (ih r) n p' q (k3.trans hp) h1
          refine ⟨.many_yes (.zom_step k1 h2) ?_, fun _ h => by cases h; exact h3.trans k3⟩
          have := h3.length_le
          simp only [List.length_append]
          omega
        · cases h
      · cases h
    | rule i =>
      intro p o hp h
      simp only [sym] at h
      split at h
      · next nm sub e => exact ⟨.rule e (ih sub p o hp h).1, (ih sub p o hp h).2⟩
      · cases h
    | _ => exact fun _ _ _ h => by cases h

/-- The use of `sym`: success. -/
theorem Gets.sym_yes {n : Nat} {q : Bytes} (hb : Begins fin nots p0 t) (h : sym G fin nots p0.length n r p0 = some (some q)) :
    Gets rt G r (p0 ++ t) (some (q ++ t)) := (sym_sound hb n r p0 _ (List.suffix_refl _) h).1

/-- The use of `sym`: failure. -/
theorem Gets.sym_no {n : Nat} (hb : Begins fin nots p0 t) (h : sym G fin nots p0.length n r p0 = some none) :
    Gets rt G r (p0 ++ t) none := (sym_sound hb n r p0 _ (List.suffix_refl _) h).1

end sound

end Tok
