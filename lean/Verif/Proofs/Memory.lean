/-
What the Janus pairs of a grammar remember from earlier reads.
-/
import Verif.Proofs.Blind
import Verif.Proofs.EatMono

namespace Tok
open Spec

/-! ### which strings are looked at before they are set -/

mutual
/-- The Janus pairs whose first reader has certainly matched when the reader has matched. -/
def Reader.gives : Reader → List Nat
  | .janusBegin id _ sub => id :: sub.gives
  | .seq rs => Reader.givesAll rs
  | .named _ sub | .monitor _ _ sub | .pick _ _ sub | .map _ sub => sub.gives
  | _ => []

def Reader.givesAll : List Reader → List Nat
  | [] => []
  | r :: rs => r.gives ++ Reader.givesAll rs
end

mutual
/-- The Janus pairs whose second reader may be read before the first one has matched, inside the reader itself; rules are looked at separately. -/
def Reader.needs : Reader → List Nat
  | .janusEnd id _ => [id]
  | .seq rs => Reader.needsSeq rs
  | .any rs => Reader.needsAll rs
  | .skipSeq sk rs => sk.needs ++ Reader.needsAll rs
  | .body b t | .bodyTail b t => b.needs ++ t.needs
  | .at_ r | .janusBegin _ _ r | .many r | .map _ r | .named _ r | .not r | .opt r | .past r | .times _ r | .to r | .zom r | .pick _ _ r | .monitor _ _ r
  | .ruleName r | .grammar _ r => r.needs
  | _ => []

def Reader.needsSeq : List Reader → List Nat
  | [] => []
  | r :: rs => r.needs ++ (Reader.needsSeq rs).filter (fun id => !r.gives.contains id)

def Reader.needsAll : List Reader → List Nat
  | [] => []
  | r :: rs => r.needs ++ Reader.needsAll rs
end

/-! ### scanners that differ in what is remembered -/

/-- The same scanner, text, position, values and records; the strings of the Janus pairs in `K` are the same. -/
structure Rem (K : Nat → Prop) (s t : Scanner) : Prop where
  full : t.full = s.full
  pos : t.pos = s.pos
  tracker : t.tracker = s.tracker
  cells : t.heap.cells = s.heap.cells
  baskets : t.heap.baskets = s.heap.baskets
  tracks : t.heap.tracks = s.heap.tracks
  maps : t.heap.maps = s.heap.maps
  logs : t.heap.logs = s.heap.logs
  jan : ∀ id, K id → t.heap.janus id = s.heap.janus id

namespace Rem
variable {K : Nat → Prop} {s t : Scanner}

theorem move_at (h : Rem K s t) (m : Int) : Rem K (s.at m) (t.at m) := by
  obtain ⟨f, p, tr, hp⟩ := s
  obtain ⟨f', p', tr', hp'⟩ := t
  obtain ⟨h1, h2, h3, h4, h5, h6, h7, h8, h9⟩ := h
  cases h3
  rcases tr with _ | ⟨b⟩ | ⟨c⟩
  · exact ⟨h1, rfl, rfl, h4, h5, h6, h7, h8, h9⟩
  · refine ⟨h1, rfl, rfl, h4, ?_, h6, h7, h8, h9⟩
    simp only [Scanner.at, Scanner.notify] at h5 ⊢
    rw [h5]
  · refine ⟨h1, rfl, rfl, h4, h5, ?_, h7, h8, h9⟩
    simp only [Scanner.at, Scanner.notify] at h6 ⊢
    rw [h6]

theorem moving (K : Nat → Prop) : Moving (Rem K) where
  full h := h.full
  pos h := h.pos
  at_ h m := h.move_at m
  setCell h c v := ⟨h.full, h.pos, h.tracker, congrArg (fun f => upd f c v) h.cells, h.baskets, h.tracks, h.maps, h.logs, h.jan⟩

theorem heap {s' t' : Scanner} (h : Rem K s t) (h' : Rem K s' t') : Rem K { s with heap := s'.heap } { t with heap := t'.heap } :=
  ⟨h.full, h.pos, h.tracker, h'.cells, h'.baskets, h'.tracks, h'.maps, h'.logs, h'.jan⟩

theorem new (h : Rem K s t) (str : Bytes) : Rem K (.new str s.heap) (.new str t.heap) :=
  ⟨rfl, rfl, rfl, h.cells, h.baskets, h.tracks, h.maps, h.logs, h.jan⟩

/-- Both sides get the same string. -/
theorem set (h : Rem K s t) (id : Nat) (x : Bytes) :
    Rem (fun k => K k ∨ k = id) { s with heap := { s.heap with janus := upd s.heap.janus id x } } { t with heap := { t.heap with janus := upd t.heap.janus id x } } := by
  refine ⟨h.full, h.pos, h.tracker, h.cells, h.baskets, h.tracks, h.maps, h.logs, fun k hk => ?_⟩
  simp only [upd]
  split
  · rfl
  · exact h.jan k (hk.resolve_right ‹_›)

theorem mono {L : Nat → Prop} (h : Rem K s t) (hl : ∀ id, L id → K id) : Rem L s t :=
  ⟨h.full, h.pos, h.tracker, h.cells, h.baskets, h.tracks, h.maps, h.logs, fun k hk => h.jan k (hl k hk)⟩

theorem add {L : Nat → Prop} (h : Rem K s t) (hl : ∀ id, L id → t.heap.janus id = s.heap.janus id) : Rem (fun k => K k ∨ L k) s t :=
  ⟨h.full, h.pos, h.tracker, h.cells, h.baskets, h.tracks, h.maps, h.logs, fun k hk => hk.elim (h.jan k) (hl k)⟩

/-- The position of the token is the only thing `tokenizeUse` adds. -/
theorem same_pos (h : Rem K s t) (m : Int) : Rem K { s with pos := m } { t with pos := m } :=
  ⟨h.full, rfl, h.tracker, h.cells, h.baskets, h.tracks, h.maps, h.logs, h.jan⟩

end Rem

/-! ### the loops -/

/-- Both runs do the same, in lock step. -/
def Joint (K : Nat → Prop) (f g : ReadFunc) : Prop := ∀ s t, Rem K s t → RelE (Thru (Rem K)) (f s) (g t)

/-- And on success the strings of the list are the same. -/
def Gain (K : Nat → Prop) (l : List Nat) (a b : Option Err × Scanner) : Prop :=
  b.1 = a.1 ∧ Rem K a.2 b.2 ∧ (a.1 = none → ∀ id ∈ l, b.2.heap.janus id = a.2.heap.janus id)

def Step (K : Nat → Prop) (l : List Nat) (f g : ReadFunc) : Prop := ∀ s t, Rem K s t → RelE (Gain K l) (f s) (g t)

variable {K : Nat → Prop}

theorem Step.joint {l : List Nat} {f g : ReadFunc} (h : Step K l f g) : Joint K f g := fun s t hst =>
  (h s t hst).mono fun _ _ _ _ hab => ⟨hab.1, hab.2.1⟩

theorem Joint.step {f g : ReadFunc} (h : Joint K f g) : Step K [] f g := fun s t hst =>
  (h s t hst).mono fun _ _ _ _ hab => ⟨hab.1, hab.2, by simp⟩

theorem joint_any {rd rd' : Reader → ReadFunc} : ∀ (rs : List Reader), (∀ r ∈ rs, Joint K (rd r) (rd' r)) → ∀ es s t, Rem K s t →
    RelE (Thru (Rem K)) (anyLoop rd rs es s) (anyLoop rd' rs es t)
  | [], _, _, _, _, h => .ret ⟨rfl, h⟩
  | r :: rs, hr, es, s, t, h => (hr r List.mem_cons_self s t h).bind fun a b _ _ hab => by
    obtain ⟨e, s⟩ := a
    obtain ⟨e', t⟩ := b
    obtain ⟨h1, h2⟩ := hab
    cases h1
    cases e with
    | none => exact .ret ⟨rfl, h2⟩
    | some e => exact joint_any rs (fun r hr' => hr r (List.mem_cons_of_mem _ hr')) _ s t h2

theorem joint_skip {rd rd' : Reader → ReadFunc} {sk : Reader} (hk : Joint K (rd sk) (rd' sk)) : ∀ (rs : List Reader), (∀ r ∈ rs, Joint K (rd r) (rd' r)) →
    Joint K (skipSeqLoop rd sk rs) (skipSeqLoop rd' sk rs)
  | [], _, _, _, h => .ret ⟨rfl, h⟩
  | r :: rs, hr, s, t, h => (hr r List.mem_cons_self s t h).bind fun a b _ _ hab => by
    obtain ⟨e, s⟩ := a
    obtain ⟨e', t⟩ := b
    obtain ⟨h1, h2⟩ := hab
    cases h1
    cases e with
    | some e => exact .ret ⟨rfl, h2⟩
    | none =>
      refine (hk s t h2).bind fun a b _ _ hab => ?_
      obtain ⟨e, s⟩ := a
      obtain ⟨e', t⟩ := b
      obtain ⟨h1, h2⟩ := hab
      cases h1
      cases e with
      | some e => exact .ret ⟨rfl, h2⟩
      | none => exact joint_skip hk rs (fun r hr' => hr r (List.mem_cons_of_mem _ hr')) s t h2

theorem joint_times {f g : ReadFunc} (h : Joint K f g) : ∀ k, Joint K (timesLoop f k) (timesLoop g k)
  | 0, _, _, hst => .ret ⟨rfl, hst⟩
  | k + 1, s, t, hst => (h s t hst).bind fun a b _ _ hab => by
    obtain ⟨e, s⟩ := a
    obtain ⟨e', t⟩ := b
    obtain ⟨h1, h2⟩ := hab
    cases h1
    cases e with
    | some e => exact .ret ⟨rfl, h2⟩
    | none => exact joint_times h k s t h2

theorem joint_zom {f g : ReadFunc} (h : Joint K f g) : ∀ n s t, Rem K s t → RelE (Rem K) (zomLoop f n s) (zomLoop g n t)
  | 0, _, _, _ => .timeout
  | n + 1, s, t, hst => (h s t hst).bind fun a b _ _ hab => by
    obtain ⟨e, s⟩ := a
    obtain ⟨e', t⟩ := b
    obtain ⟨h1, h2⟩ := hab
    cases h1
    cases e with
    | some e => exact .ret h2
    | none => exact joint_zom h n s t h2

theorem joint_past {f g : ReadFunc} (h : Joint K f g) : ∀ n s t, Rem K s t → RelE (Thru (Rem K)) (pastLoop f n s) (pastLoop g n t)
  | 0, _, _, _ => .timeout
  | n + 1, s, t, hst => by
    unfold pastLoop
    rw [(Rem.moving K).atEnd hst]
    split
    · exact .ret ⟨rfl, hst⟩
    · refine (h s t hst).bind fun a b _ _ hab => ?_
      obtain ⟨e, s⟩ := a
      obtain ⟨e', t⟩ := b
      obtain ⟨h1, h2⟩ := hab
      cases h1
      cases e with
      | none => exact .ret ⟨rfl, h2⟩
      | some e => exact ((Rem.moving K).moveRunes h2).bind fun a b _ _ hab => joint_past h n a.2 b.2 hab.2

theorem joint_to {f g : ReadFunc} (h : Joint K f g) : ∀ n s t, Rem K s t → RelE (Thru (Rem K)) (toLoop f n s) (toLoop g n t)
  | 0, _, _, _ => .timeout
  | n + 1, s, t, hst => by
    unfold toLoop
    simp only [(Rem.moving K).mark hst]
    refine (h s t hst).bind fun a b _ _ hab => ?_
    obtain ⟨e, s'⟩ := a
    obtain ⟨e', t'⟩ := b
    obtain ⟨h1, h2⟩ := hab
    cases h1
    cases e with
    | none => exact .ret ⟨rfl, (Rem.moving K).toMarker h2 _⟩
    | some e =>
      refine ((Rem.moving K).moveRunes h2).bind fun a b _ _ hab => ?_
      obtain ⟨ok, s'⟩ := a
      obtain ⟨ok', t'⟩ := b
      obtain ⟨h1, h2⟩ := hab
      cases h1
      cases ok with
      | true => exact joint_to h n s' t' h2
      | false => exact .ret ⟨rfl, h2⟩

theorem joint_use {f g : ReadFunc} (h : Joint K f g) {s t : Scanner} (hst : Rem K s t) : RelE (Thru (Rem K)) (s.use f) (t.use g) := by
  unfold Scanner.use
  simp only [(Rem.moving K).mark hst]
  refine (h s t hst).bind fun a b _ _ hab => ?_
  obtain ⟨e, s'⟩ := a
  obtain ⟨e', t'⟩ := b
  obtain ⟨h1, h2⟩ := hab
  cases h1
  cases e with
  | none => exact .ret ⟨rfl, h2⟩
  | some e => exact .ret ⟨rfl, (Rem.moving K).toMarker h2 _⟩

theorem joint_body {f g f' g' : ReadFunc} (hf : Joint K f f') (hg : Joint K g g') (m : Int) : ∀ n s t, Rem K s t →
    RelE (Thru (Rem K)) (bodyLoop f g m n s) (bodyLoop f' g' m n t)
  | 0, _, _, _ => .timeout
  | n + 1, s, t, hst => by
    unfold bodyLoop
    rw [(Rem.moving K).atEnd hst]
    simp only [(Rem.moving K).mark hst]
    split
    · exact .ret ⟨rfl, hst⟩
    · refine (hg s t hst).bind fun a b _ _ hab => ?_
      obtain ⟨e, s'⟩ := a
      obtain ⟨e', t'⟩ := b
      obtain ⟨h1, h2⟩ := hab
      cases h1
      cases e with
      | some e => exact ((Rem.moving K).moveRunes h2).bind fun a b _ _ hab => joint_body hf hg m n a.2 b.2 hab.2
      | none =>
        refine ((Rem.moving K).getE h2 _).bind fun x y _ _ hxy => ?_
        subst hxy
        refine (joint_use hf (h2.new y)).bind fun a b _ _ hab => ?_
        obtain ⟨e, u⟩ := a
        obtain ⟨e', v⟩ := b
        obtain ⟨h3, h4⟩ := hab
        cases h3
        simp only [(Rem.moving K).atEnd h4]
        split
        · exact .ret ⟨rfl, h2.heap h4⟩
        · exact .ret ⟨rfl, h2.heap h4⟩

theorem gain_token {l : List Nat} {f g : ReadFunc} (h : Step K l f g) {s t : Scanner} (hst : Rem K s t) :
    RelE (fun a b => b.1 = a.1 ∧ Rem K a.2 b.2 ∧ (a.1.2 = none → ∀ id ∈ l, b.2.heap.janus id = a.2.heap.janus id)) (s.tokenizeUse f) (t.tokenizeUse g) := by
  unfold Scanner.tokenizeUse
  simp only [(Rem.moving K).mark hst]
  refine (h s t hst).bind fun a b _ _ hab => ?_
  obtain ⟨e, s'⟩ := a
  obtain ⟨e', t'⟩ := b
  obtain ⟨h1, h2, h3⟩ := hab
  cases h1
  cases e with
  | none => exact .ret ⟨by simp only [Option.isSome_none, Bool.false_eq_true, if_false, (Rem.moving K).mark h2], h2, h3⟩
  | some e =>
    have h4 := (Rem.moving K).toMarker h2 s.mark
    exact .ret ⟨by simp only [Option.isSome_some, if_true, (Rem.moving K).mark h4], h4, by simp⟩

theorem mem_needsAll {r : Reader} : ∀ {rs : List Reader}, r ∈ rs → ∀ id ∈ r.needs, id ∈ Reader.needsAll rs
  | r' :: rs, h, id, hid => by
    rw [Reader.needsAll]
    rcases List.mem_cons.mp h with rfl | h
    · exact List.mem_append_left _ hid
    · exact List.mem_append_right _ (mem_needsAll h id hid)

/-- A sequence: later parts can rely on what earlier ones have set. -/
theorem gain_seq {J : Nat → Prop} {rd rd' : Reader → ReadFunc} (hrd : ∀ (L : Nat → Prop) (r : Reader), (∀ id, J id → L id) → (∀ id ∈ r.needs, L id) → r.Every (fun r => r.noWrap = true) → Step L r.gives (rd r) (rd' r)) :
    ∀ (rs : List Reader) (K : Nat → Prop), (∀ id, J id → K id) → (∀ id ∈ Reader.needsSeq rs, K id) → (∀ r ∈ rs, r.Every (fun r => r.noWrap = true)) →
      Step K (Reader.givesAll rs) (seqLoop rd rs) (seqLoop rd' rs)
  | [], _, _, _, _, _, _, h => .ret ⟨rfl, h, by simp [Reader.givesAll]⟩
  | r :: rs, K, hJ, hn, hw, s, t, h => by
    rw [Reader.needsSeq] at hn
    refine (hrd K r hJ (fun id hid => hn id (List.mem_append_left _ hid)) (hw r List.mem_cons_self) s t h).bind fun a b _ _ hab => ?_
    obtain ⟨e, s⟩ := a
    obtain ⟨e', t⟩ := b
    obtain ⟨h1, h2, h3⟩ := hab
    cases h1
    cases e with
    | some e => exact .ret ⟨rfl, h2, by simp⟩
    | none =>
      have h4 := h2.add (h3 rfl)
      refine (gain_seq hrd rs _ (fun id h => .inl (hJ id h)) (fun id hid => ?_) (fun r hr => hw r (List.mem_cons_of_mem _ hr)) s t h4).mono fun a b _ _ hab => ⟨hab.1, hab.2.1.mono fun _ h => .inl h, fun he id hid => ?_⟩
      · by_cases hg : id ∈ r.gives
        · exact .inr hg
        · exact .inl (hn id (List.mem_append_right _ (List.mem_filter.mpr ⟨hid, by simpa using hg⟩)))
      · rw [Reader.givesAll] at hid
        rcases List.mem_append.mp hid with hid | hid
        · exact hab.2.1.jan id (.inr hid)
        · exact hab.2.2 he id hid

/-- The second reader of a pair. -/
theorem joint_end (rt : Rt) (G : Env) (n id : Nat) (nm : Bytes) (hK : K id) : Joint K (read rt G (n + 1) (.janusEnd id nm)) (read rt G (n + 1) (.janusEnd id nm)) :=
  fun s t hst => by
    simp only [read]
    rw [hst.jan id hK]
    refine ((Rem.moving K).ifFalse _ ((Rem.moving K).ifStr hst _)).bind fun a b _ _ h => ?_
    obtain ⟨e, s'⟩ := a
    obtain ⟨e', t'⟩ := b
    obtain ⟨he, h⟩ := h
    cases he
    cases e with
    | none => exact .ret ⟨rfl, (h.set id []).mono fun _ h => .inl h⟩
    | some e => exact .ret ⟨rfl, h⟩

/-- Two reads that differ only in what is remembered, of strings that neither the reader nor a rule needs, go the same way, with the same results and records. -/
theorem read_step (rt : Rt) (G : Env) {J : Nat → Prop} (hG : G.Every (fun r => r.noWrap = true)) (hN : ∀ (i : Nat) (nm : Bytes) (c : Reader), G[i]? = some ⟨nm, some c⟩ → ∀ id ∈ c.needs, J id) :
    ∀ n (K : Nat → Prop) (r : Reader), (∀ id, J id → K id) → (∀ id ∈ r.needs, K id) → r.Every (fun r => r.noWrap = true) → Step K r.gives (read rt G n r) (read rt G n r)
  | 0, _, _, _, _, _, _, _, _ => .timeout
  | n + 1, K, r, hJ, hK, hr, s, t, hst => by
    have ih := read_step rt G hG hN n
    have hB := Rem.moving K
    have hm := hB.mark hst
    by_cases hl : r.leaf = true
    · cases hj : r.isJanusEnd with
      | false =>
        have hg : r.gives = [] := by cases r <;> first | rfl | simp [Reader.leaf] at hl
        rw [hg]
        exact (hB.leaf' hst rt G G n n hl hj).mono fun a b _ _ hab => ⟨hab.1, hab.2, by simp⟩
      | true =>
        match r, hj with
        | .janusEnd id nm, _ => exact (joint_end rt G n id nm (hK id (by simp [Reader.needs]))).step s t hst
    have sub : ∀ c ∈ r.subs, (∀ id ∈ c.needs, K id) → Step K c.gives (read rt G n c) (read rt G n c) := fun c hc hk => ih K c hJ hk (hr.sub hc)
    cases r with
    | any rs =>
      simp only [read, hm]
      refine (joint_any rs (fun c hc => (sub c hc fun id hid => hK id (by rw [Reader.needs]; exact mem_needsAll hc id hid)).joint) [] s t hst).bind fun a b _ _ hab => ?_
      obtain ⟨e, s'⟩ := a
      obtain ⟨e', t'⟩ := b
      obtain ⟨h1, h2⟩ := hab
      cases h1
      cases e with
      | none => exact .ret ⟨rfl, h2, by simp [Reader.gives]⟩
      | some es => exact .ret ⟨rfl, hB.toMarker h2 _, by simp⟩
    | at_ c =>
      simp only [read, hm]
      exact (sub c (by simp [Reader.subs]) hK s t hst).bind fun a b _ _ hab => .ret ⟨hab.1, hB.toMarker hab.2.1 _, by simp [Reader.gives]⟩
    | body b c =>
      rw [Reader.needs] at hK
      simp only [read, hm]
      refine (joint_body (sub b (by simp [Reader.subs]) fun id h => hK id (List.mem_append_left _ h)).joint
        (sub c (by simp [Reader.subs]) fun id h => hK id (List.mem_append_right _ h)).joint _ n s t hst).bind fun x y _ _ hab => ?_
      obtain ⟨e, s'⟩ := x
      obtain ⟨e', t'⟩ := y
      obtain ⟨h1, h2⟩ := hab
      cases h1
      cases e with
      | none =>
        have h3 := hB.toMarker h2 s.mark
        exact .ret ⟨by rw [hB.errorFor h3], h3, by simp⟩
      | some k => exact .ret ⟨rfl, hB.toMarker h2 _, by simp [Reader.gives]⟩
    | bodyTail b c =>
      rw [Reader.needs] at hK
      simp only [read, hm]
      refine (joint_body (sub b (by simp [Reader.subs]) fun id h => hK id (List.mem_append_left _ h)).joint
        (sub c (by simp [Reader.subs]) fun id h => hK id (List.mem_append_right _ h)).joint _ n s t hst).bind fun x y _ _ hab => ?_
      obtain ⟨e, s'⟩ := x
      obtain ⟨e', t'⟩ := y
      obtain ⟨h1, h2⟩ := hab
      cases h1
      cases e with
      | none =>
        have h3 := hB.toMarker h2 s.mark
        exact .ret ⟨by rw [hB.errorFor h3], h3, by simp⟩
      | some k => exact .ret ⟨rfl, h2, by simp [Reader.gives]⟩
    | janusBegin i nm c =>
      simp only [read]
      refine (gain_token (sub c (by simp [Reader.subs]) hK) hst).bind fun a b _ _ hab => ?_
      obtain ⟨⟨k, e⟩, s'⟩ := a
      obtain ⟨⟨k', e'⟩, t'⟩ := b
      obtain ⟨h1, h2, h3⟩ := hab
      cases h1
      cases e with
      | none =>
        refine (hB.getE h2 _).bind fun a b _ _ hab => ?_
        subst hab
        refine .ret ⟨rfl, (h2.set i _).mono fun _ h => .inl h, fun _ id hid => ?_⟩
        rw [Reader.gives] at hid
        simp only [upd]
        split
        · rfl
        · exact h3 rfl id ((List.mem_cons.mp hid).resolve_left ‹_›)
      | some e => exact .ret ⟨rfl, h2, by simp⟩
    | many c =>
      simp only [read, hm]
      refine (joint_zom (sub c (by simp [Reader.subs]) hK).joint n s t hst).bind fun a b _ _ hab => .ret ⟨?_, hab, by simp [Reader.gives]⟩
      simp only [hB.errorIfFalse hab, hB.mark hab]
    | map f c =>
      simp only [read]
      refine (gain_token (sub c (by simp [Reader.subs]) hK) hst).bind fun a b _ _ hab => ?_
      obtain ⟨⟨k, e⟩, s'⟩ := a
      obtain ⟨⟨k', e'⟩, t'⟩ := b
      obtain ⟨h1, h2, h3⟩ := hab
      cases h1
      cases e with
      | none => exact .ret ⟨rfl, ⟨h2.full, h2.pos, h2.tracker, h2.cells, h2.baskets, h2.tracks, congrArg (· ++ [(f, k)]) (show t'.heap.maps = s'.heap.maps from h2.maps), h2.logs, h2.jan⟩, h3⟩
      | some e => exact .ret ⟨rfl, h2, by simp⟩
    | pick i bk c =>
      simp only [read]
      refine (gain_token (sub c (by simp [Reader.subs]) hK) hst).bind fun a b _ _ hab => ?_
      obtain ⟨⟨k, e⟩, s'⟩ := a
      obtain ⟨⟨k', e'⟩, t'⟩ := b
      obtain ⟨h1, h2, h3⟩ := hab
      cases h1
      cases e with
      | none => exact .ret ⟨rfl, ⟨h2.full, h2.pos, h2.tracker, h2.cells, congrArg (fun b => upd b bk (b bk ++ [⟨i, k⟩])) (show t'.heap.baskets = s'.heap.baskets from h2.baskets), h2.tracks, h2.maps, h2.logs, h2.jan⟩, h3⟩
      | some e => exact .ret ⟨rfl, h2, by simp⟩
    | monitor i l c =>
      simp only [read]
      have h0 : Rem K (s.enterLog rt i l) (t.enterLog rt i l) := by
        refine ⟨hst.full, hst.pos, hst.tracker, hst.cells, hst.baskets, hst.tracks, hst.maps, ?_, hst.jan⟩
        unfold Scanner.enterLog
        simp only [hst.logs, hst.pos]
      refine (sub c (by simp [Reader.subs]) hK (s.enterLog rt i l) (t.enterLog rt i l) h0).bind fun a b _ _ hab => ?_
      obtain ⟨e, s'⟩ := a
      obtain ⟨e', t'⟩ := b
      obtain ⟨h1, h2, h3⟩ := hab
      cases h1
      refine .ret ⟨rfl, ⟨h2.full, h2.pos, h2.tracker, h2.cells, h2.baskets, h2.tracks, h2.maps, ?_, h2.jan⟩, h3⟩
      have h4 : t'.heap.logs = s'.heap.logs := h2.logs
      have h5 : t'.pos = s'.pos := h2.pos
      simp only [h4, h5, hst.logs, hst.pos]
    | named w c => exact sub c (by simp [Reader.subs]) hK s t hst
    | not c =>
      simp only [read, hm]
      refine (sub c (by simp [Reader.subs]) hK s t hst).bind fun a b _ _ hab => ?_
      obtain ⟨e, s'⟩ := a
      obtain ⟨e', t'⟩ := b
      obtain ⟨h1, h2, h3⟩ := hab
      cases h1
      have h4 := hB.toMarker h2 s.mark
      cases e with
      | none => exact .ret ⟨by rw [hB.errorFor h4], h4, by simp⟩
      | some e => exact (hB.moveRunes h4).bind fun a b _ _ hab => .ret ⟨rfl, hab.2, by simp [Reader.gives]⟩
    | opt c =>
      simp only [read]
      exact (sub c (by simp [Reader.subs]) hK s t hst).bind fun a b _ _ hab => .ret ⟨rfl, hab.2.1, by simp [Reader.gives]⟩
    | past c =>
      simp only [read, hm]
      refine (joint_past (sub c (by simp [Reader.subs]) hK).joint n s t hst).bind fun a b _ _ hab => ?_
      obtain ⟨e, s'⟩ := a
      obtain ⟨e', t'⟩ := b
      obtain ⟨h1, h2⟩ := hab
      cases h1
      cases e with
      | false =>
        have h3 := hB.toMarker h2 s.mark
        exact .ret ⟨by rw [hB.errorFor h3], h3, by simp⟩
      | true => exact .ret ⟨rfl, h2, by simp [Reader.gives]⟩
    | «to» c =>
      simp only [read, hm]
      refine (joint_to (sub c (by simp [Reader.subs]) hK).joint n s t hst).bind fun a b _ _ hab => ?_
      obtain ⟨e, s'⟩ := a
      obtain ⟨e', t'⟩ := b
      obtain ⟨h1, h2⟩ := hab
      cases h1
      cases e with
      | false =>
        have h3 := hB.toMarker h2 s.mark
        exact .ret ⟨by rw [hB.errorFor h3], h3, by simp⟩
      | true => exact .ret ⟨rfl, h2, by simp [Reader.gives]⟩
    | seq rs =>
      rw [Reader.needs] at hK
      simp only [read, hm]
      refine (gain_seq (fun L r hj h hw => ih L r hj h hw) rs K hJ hK (fun c hc => hr.sub hc) s t hst).bind fun a b _ _ hab => ?_
      obtain ⟨e, s'⟩ := a
      obtain ⟨e', t'⟩ := b
      obtain ⟨h1, h2, h3⟩ := hab
      cases h1
      cases e with
      | none => exact .ret ⟨rfl, h2, by rw [Reader.gives]; exact h3⟩
      | some e => exact .ret ⟨rfl, hB.toMarker h2 _, by simp⟩
    | skipSeq sk rs =>
      rw [Reader.needs] at hK
      simp only [read, hm]
      have hsk := (sub sk (by simp [Reader.subs]) fun id h => hK id (List.mem_append_left _ h)).joint
      refine (hsk s t hst).bind fun a b _ _ hab => ?_
      obtain ⟨e, s'⟩ := a
      obtain ⟨e', t'⟩ := b
      obtain ⟨h1, h2⟩ := hab
      cases h1
      cases e with
      | some e => exact .ret ⟨rfl, hB.toMarker h2 _, by simp⟩
      | none =>
        refine (joint_skip hsk rs (fun c hc => (sub c (List.mem_cons_of_mem _ hc) fun id h => hK id (List.mem_append_right _ (mem_needsAll hc id h))).joint) s' t' h2).bind fun a b _ _ hab => ?_
        obtain ⟨e, s''⟩ := a
        obtain ⟨e', t''⟩ := b
        obtain ⟨h1, h2⟩ := hab
        cases h1
        cases e with
        | none => exact .ret ⟨rfl, h2, by simp [Reader.gives]⟩
        | some e => exact .ret ⟨rfl, hB.toMarker h2 _, by simp⟩
    | times k c => exact (joint_times (sub c (by simp [Reader.subs]) hK).joint _).step s t hst
    | wrap w f => exact absurd hr.here (by simp [Reader.noWrap])
    | zom c =>
      simp only [read]
      exact (joint_zom (sub c (by simp [Reader.subs]) hK).joint n s t hst).bind fun a b _ _ hab => .ret ⟨rfl, hab, by simp [Reader.gives]⟩
    | rule i =>
      simp only [read]
      rcases hi : G[i]? with _ | ⟨nm, _ | c⟩
      · exact .panic
      · exact .panic
      · exact (ih K c hJ (fun id h => hJ id (hN i nm c hi id h)) (hG.get hi)).joint.step s t hst
    | ruleName c =>
      simp only [read]
      refine (sub c (by simp [Reader.subs]) hK s t hst).bind fun a b _ _ hab => ?_
      obtain ⟨e, s'⟩ := a
      obtain ⟨e', t'⟩ := b
      obtain ⟨h1, h2, h3⟩ := hab
      cases h1
      exact .ret ⟨by rw [hB.errorIfFalse h2], h2, by simp [Reader.gives]⟩
    | grammar w c =>
      simp only [read]
      refine (sub c (by simp [Reader.subs]) hK s t hst).bind fun a b _ _ hab => ?_
      obtain ⟨e, s'⟩ := a
      obtain ⟨e', t'⟩ := b
      obtain ⟨h1, h2, h3⟩ := hab
      cases h1
      cases e with
      | none => exact .ret ⟨rfl, h2, by simp [Reader.gives]⟩
      | some e => exact .ret ⟨rfl, h2, by simp⟩
    | _ => simp [Reader.leaf] at hl

end Tok
