/-
C69 The slice that `Picked` returns.
-/
import Verif.Model.Slice
import Verif.Props.C41

namespace Tok
open Spec

/-! ### slices and lists -/

/-- A slice within its array. -/
def Slice.Fits (m : Arrays) (s : Slice) : Prop :=
  s.len ≤ s.cap ∧ (s.cap = 0 ∨ (s.arr < m.length ∧ (m.at s.arr).length = s.cap))

/-- All slices are within their arrays. -/
def Shop.Fits (w : Shop) : Prop := w.basket.Fits w.arrays ∧ ∀ p ∈ w.got, p.Fits w.arrays

theorem Slice.none_fits (m : Arrays) : Slice.none.Fits m := ⟨Nat.le_refl _, .inl rfl⟩

theorem Arrays.at_append {m : Arrays} {l : List Segment} {a : Nat} (h : a < m.length) : Arrays.at (m ++ [l]) a = m.at a := by
  simp [Arrays.at, List.getElem?_append_left h]

theorem Arrays.at_new (m : Arrays) (l : List Segment) : Arrays.at (m ++ [l]) m.length = l := by
  simp [Arrays.at]

theorem Arrays.at_modify {m : Arrays} {f : List Segment → List Segment} {a b : Nat} :
    Arrays.at (m.modify a f) b = if a = b ∧ b < m.length then f (m.at b) else m.at b := by
  unfold Arrays.at
  rw [List.getElem?_modify]
  by_cases h : a = b
  · subst h
    by_cases hb : a < m.length
    · simp [hb]
    · simp [hb]
  · simp [h]

theorem Slice.view_length {m : Arrays} {s : Slice} (h : s.Fits m) : (s.view m).length = s.len := by
  obtain ⟨h1, h2 | ⟨_, h2⟩⟩ := h
  · have : s.len = 0 := by omega
    simp [Slice.view, this]
  · simp [Slice.view, h2, h1]

/-- A slice keeps its place when arrays keep their lengths. -/
theorem Slice.Fits.mono {m m' : Arrays} {s : Slice} (h : s.Fits m) (h1 : m.length ≤ m'.length)
    (h2 : ∀ a < m.length, (m'.at a).length = (m.at a).length) : s.Fits m' := by
  obtain ⟨h3, h4 | ⟨h4, h5⟩⟩ := h
  · exact ⟨h3, .inl h4⟩
  · exact ⟨h3, .inr ⟨by omega, by rw [h2 _ h4, h5]⟩⟩

/-- `append`: the result is the old slice and the new element, arrays keep their lengths, and all elements of old arrays are kept but the
one behind the slice. -/
theorem Slice.append_spec {rt : Rt} (hrt : rt.Ok) {m m' : Arrays} {s s' : Slice} {seg : Segment} (h : s.Fits m)
    (e : s.append rt m seg = (s', m')) :
    s'.view m' = s.view m ++ [seg] ∧ s'.Fits m' ∧ m.length ≤ m'.length ∧ (∀ a < m.length, (m'.at a).length = (m.at a).length) ∧
      ∀ a < m.length, ∀ i, i ≠ s.len ∨ a ≠ s.arr ∨ s.len = s.cap → (m'.at a)[i]? = (m.at a)[i]? := by
  unfold Slice.append at e
  split at e
  · next hlt =>
    cases e
    obtain ⟨h1, h2 | ⟨h2, h3⟩⟩ := h
    · omega
    · refine ⟨?_, ⟨hlt, .inr ⟨by simpa using h2, ?_⟩⟩, by simp, fun a ha => ?_, fun a ha i hi => ?_⟩
      · have ht : ((m.at s.arr).set s.len seg).take (s.len + 1) = (m.at s.arr).take s.len ++ [seg] := by
          rw [List.take_add_one, List.take_set_of_le (Nat.le_refl _), List.getElem?_set_self (by omega)]
          rfl
        simpa [Slice.view, Arrays.at_modify, h2] using ht
      · rw [Arrays.at_modify]
        simp [h2, h3]
      · rw [Arrays.at_modify]
        split <;> simp
      · rw [Arrays.at_modify]
        split
        · next hc =>
          rw [List.getElem?_set_ne]
          obtain ⟨rfl, _⟩ := hc
          rcases hi with hi | hi | hi
          · exact fun e => hi e.symm
          · exact (hi rfl).elim
          · omega
        · rfl
  · next hge =>
    cases e
    have hg := hrt.grow s.cap
    have hl := Slice.view_length h
    have hc := h.1
    refine ⟨?_, ⟨?_, .inr ⟨by simp, ?_⟩⟩, by simp, fun a ha => ?_, fun a ha i _ => ?_⟩
    · show (Arrays.at _ m.length).take (s.len + 1) = _
      rw [Arrays.at_new, List.take_append_of_le_length (by simp [hl]), List.take_of_length_le (by simp [hl])]
    · show s.len + 1 ≤ rt.growCap s.cap
      omega
    · show (Arrays.at _ m.length).length = rt.growCap s.cap
      rw [Arrays.at_new]
      simp [hl]
      omega
    · rw [Arrays.at_append ha]
    · rw [Arrays.at_append ha]

/-! ### the basket as a list -/

/-- The loop of `Update` finds the index up to which the list version keeps the segments. -/
theorem cutAt_spec (mark : Int) (segs : List Segment) : ∀ n ≤ segs.length,
    basketUpdate mark (segs.take n) = segs.take ((cutAt mark segs n).getD 0) ∧ (cutAt mark segs n).getD 0 ≤ n
  | 0, _ => by simp [cutAt, basketUpdate, basketCut]
  | n + 1, h => by
    have ih := cutAt_spec mark segs n (by omega)
    have hn : n < segs.length := by omega
    unfold cutAt
    rw [List.getElem?_eq_getElem hn]
    simp only
    have e : segs.take (n + 1) = segs.take n ++ [segs[n]] := by rw [List.take_add_one, List.getElem?_eq_getElem hn]; rfl
    have e2 : basketUpdate mark (segs.take (n + 1)) = if segs[n].tok.to ≤ mark then segs.take (n + 1) else basketUpdate mark (segs.take n) := by
      rw [e]
      unfold basketUpdate
      rw [List.reverse_append]
      show (basketCut mark (segs[n] :: (segs.take n).reverse)).reverse = _
      rw [show basketCut mark (segs[n] :: (segs.take n).reverse) = if segs[n].tok.to ≤ mark then segs[n] :: (segs.take n).reverse
        else basketCut mark (segs.take n).reverse from rfl]
      split
      · simp
      · rfl
    rw [e2]
    split
    · exact ⟨rfl, Nat.le_refl _⟩
    · exact ⟨ih.1, by omega⟩

/-- The operation seen from the basket, if the client does not write. -/
def ShopOp.event : ShopOp → Option BasketEvent
  | .add seg => some (.add seg)
  | .update m => some (.update m)
  | _ => none

/-- The client does not write to the slices they got. -/
def ShopOp.Quiet : ShopOp → Prop
  | .add _ | .update _ | .picked => True
  | _ => False

theorem Shop.add_spec {rt : Rt} (hrt : rt.Ok) {w : Shop} (h : w.Fits) (seg : Segment) :
    (w.step rt (.add seg)).Fits ∧ (w.step rt (.add seg)).held = w.held ++ [seg] ∧ (w.step rt (.add seg)).got = w.got ∧
      ∀ a < w.arrays.length, ∀ i, i ≠ w.basket.len ∨ a ≠ w.basket.arr ∨ w.basket.len = w.basket.cap →
        ((w.step rt (.add seg)).arrays.at a)[i]? = (w.arrays.at a)[i]? := by
  have hs : w.step rt (.add seg) = ⟨(w.basket.append rt w.arrays seg).2, (w.basket.append rt w.arrays seg).1, w.got⟩ := rfl
  obtain ⟨h1, h2, h3, h4, h5⟩ := Slice.append_spec hrt h.1 (s' := (w.basket.append rt w.arrays seg).1) (m' := (w.basket.append rt w.arrays seg).2) rfl
  rw [hs]
  exact ⟨⟨h2, fun p hp => (h.2 p hp).mono h3 h4⟩, h1, rfl, h5⟩

theorem Shop.update_spec {rt : Rt} {w : Shop} (h : w.Fits) (m : Int) :
    (w.step rt (.update m)).Fits ∧ (w.step rt (.update m)).held = basketUpdate m w.held ∧ (w.step rt (.update m)).got = w.got ∧
      (w.step rt (.update m)).arrays = w.arrays := by
  have hl := Slice.view_length h.1
  obtain ⟨h1, h2⟩ := cutAt_spec m w.held w.basket.len (Nat.le_of_eq hl.symm)
  rw [List.take_of_length_le (l := w.held) (Nat.le_of_eq hl)] at h1
  have hs : w.step rt (.update m) = match cutAt m w.held w.basket.len with
    | some i => { w with basket := { w.basket with len := i } }
    | none => { w with basket := Slice.none } := rfl
  rw [hs, h1]
  cases hc : cutAt m w.held w.basket.len with
  | none =>
    refine ⟨⟨Slice.none_fits _, h.2⟩, ?_, rfl, rfl⟩
    simp [Shop.held, Slice.view, Slice.none]
  | some i =>
    rw [hc] at h2
    simp only [Option.getD_some] at h2 ⊢
    refine ⟨⟨⟨Nat.le_trans h2 h.1.1, h.1.2⟩, h.2⟩, ?_, ?_⟩
    rotate_left
    · simp
    show (w.arrays.at w.basket.arr).take i = ((w.arrays.at w.basket.arr).take w.basket.len).take i
    rw [List.take_take, Nat.min_eq_left h2]

theorem Shop.quiet_step {rt : Rt} (hrt : rt.Ok) {w : Shop} (h : w.Fits) {op : ShopOp} (hq : op.Quiet) :
    (w.step rt op).Fits ∧ (w.step rt op).held = runBasket w.held op.event.toList := by
  cases op with
  | add seg => exact ⟨(w.add_spec hrt h seg).1, (w.add_spec hrt h seg).2.1⟩
  | update m => exact ⟨(w.update_spec h m).1, (w.update_spec h m).2.1⟩
  | picked => exact ⟨⟨h.1, fun p hp => (List.mem_append.mp hp).elim (h.2 p) fun hp => by rw [List.mem_singleton.mp hp]; exact h.1⟩, rfl⟩
  | _ => exact hq.elim

theorem runBasket_append : ∀ (a b : List BasketEvent) (l : List Segment), runBasket l (a ++ b) = runBasket (runBasket l a) b
  | [], _, _ => rfl
  | .add _ :: a, b, _ => runBasket_append a b _
  | .update _ :: a, b, _ => runBasket_append a b _

/-- **The lists of the model are right**: as long as the client only looks at the slices they get, the basket made of Go slices holds
what the list says, after any additions, updates and calls of `Picked`, with any growth of slices. -/
theorem C69_basket {rt : Rt} (hrt : rt.Ok) : ∀ (ops : List ShopOp) (w : Shop), w.Fits → (∀ op ∈ ops, op.Quiet) →
    (w.run rt ops).Fits ∧ (w.run rt ops).held = runBasket w.held (ops.filterMap ShopOp.event)
  | [], w, h, _ => ⟨h, rfl⟩
  | op :: ops, w, h, hq => by
    have h1 := Shop.quiet_step hrt h (hq op List.mem_cons_self)
    have h2 := C69_basket hrt ops (w.step rt op) h1.1 fun o ho => hq o (List.mem_cons_of_mem _ ho)
    refine ⟨h2.1, ?_⟩
    show (Shop.run rt (w.step rt op) ops).held = _
    rw [h2.2, h1.2, ← runBasket_append]
    congr 1
    cases he : op.event <;> simp [he]

theorem Shop.new_fits : Shop.new.Fits := ⟨Slice.none_fits _, by simp [Shop.new]⟩

/-- A new basket, filled and moved back: the slices do what the lists do. -/
example (rt : Rt) (hrt : rt.Ok) :
    (Shop.new.run rt [.add ⟨b!"a", ⟨0, 1⟩⟩, .add ⟨b!"b", ⟨1, 2⟩⟩, .picked, .update 1, .add ⟨b!"c", ⟨1, 3⟩⟩]).held = [⟨b!"a", ⟨0, 1⟩⟩, ⟨b!"c", ⟨1, 3⟩⟩] := by
  rw [(C69_basket hrt _ _ Shop.new_fits (by simp [ShopOp.Quiet])).2]
  decide

/-! ### what the client sees -/

theorem Slice.view_getElem? (m : Arrays) (s : Slice) (i : Nat) : (s.view m)[i]? = if i < s.len then (m.at s.arr)[i]? else Option.none := by
  unfold Slice.view
  rw [List.getElem?_take]

theorem Shop.seen_of {w : Shop} {k : Nat} {p : Slice} (h : w.got[k]? = some p) : w.seen k = p.view w.arrays := by
  simp [Shop.seen, h]

/-- When one `Add` changes what the client sees: exactly when the client's slice looks at the array of the basket, there is room in it, the
basket has become shorter than the slice, and the new segment differs from the one at its place. -/
theorem C69_add_exact {rt : Rt} (hrt : rt.Ok) {w : Shop} (h : w.Fits) {k : Nat} {p : Slice} (hp : w.got[k]? = some p) (seg : Segment) :
    (w.step rt (.add seg)).seen k ≠ w.seen k ↔
      p.arr = w.basket.arr ∧ w.basket.len < w.basket.cap ∧ w.basket.len < p.len ∧ (w.seen k)[w.basket.len]? ≠ some seg := by
  obtain ⟨h1, h2, h3, h4⟩ := w.add_spec hrt h seg
  have hf := h.2 p (List.mem_of_getElem? hp)
  have hp' : (w.step rt (.add seg)).got[k]? = some p := by rw [h3]; exact hp
  rw [Shop.seen_of hp, Shop.seen_of hp']
  by_cases hz : p.cap = 0
  · have : p.len = 0 := by have := hf.1; omega
    simp [Slice.view, this]
  have ha : p.arr < w.arrays.length := (hf.2.resolve_left hz).1
  have hal : (w.arrays.at p.arr).length = p.cap := (hf.2.resolve_left hz).2
  constructor
  · intro hne
    have : ∃ i : Nat, ¬ (p.view (w.step rt (.add seg)).arrays)[i]? = (p.view w.arrays)[i]? := by
      by_contra hc
      exact hne (List.ext_getElem? fun i => by_contra fun he => hc ⟨i, he⟩)
    obtain ⟨i, hi⟩ := this
    rw [Slice.view_getElem?, Slice.view_getElem?] at hi
    by_cases hil : i < p.len
    · simp only [hil, if_true] at hi
      have hc : ¬ (i ≠ w.basket.len ∨ p.arr ≠ w.basket.arr ∨ w.basket.len = w.basket.cap) := fun hc => hi (h4 _ ha i hc)
      simp only [not_or, not_not] at hc
      obtain ⟨e1, e2, e3⟩ := hc
      have := h.1.1
      subst e1
      refine ⟨e2, by omega, hil, ?_⟩
      rw [Slice.view_getElem?, if_pos hil]
      intro he
      apply hi
      rw [he]
      have hh := congrArg (fun l : List Segment => l[w.basket.len]?) h2
      have hl := Slice.view_length h.1
      rw [List.getElem?_append_right (by simp [Shop.held, hl])] at hh
      simp only [Shop.held, hl, Nat.sub_self, List.getElem?_cons_zero] at hh
      rw [Slice.view_getElem?] at hh
      have hb : (w.step rt (.add seg)).basket = ⟨w.basket.arr, w.basket.len + 1, w.basket.cap⟩ := by
        show (Slice.append rt w.arrays w.basket seg).1 = _
        unfold Slice.append
        rw [if_pos (by omega)]
      rw [hb, ← e2] at hh
      simpa using hh
    · simp [hil] at hi
  · rintro ⟨e1, e2, e3, e4⟩ heq
    rw [← heq, Slice.view_getElem?, if_pos e3] at e4
    apply e4
    have hs : (w.step rt (.add seg)).arrays = w.arrays.modify w.basket.arr (·.set w.basket.len seg) := by
      show (Slice.append rt w.arrays w.basket seg).2 = _
      unfold Slice.append
      rw [if_pos e2]
    rw [hs, Arrays.at_modify, if_pos ⟨e1.symm, ha⟩, List.getElem?_set_self]
    have := hf.1
    omega

/-- The client's slices are never changed by `Update` and `Picked`. -/
theorem C69_update_keeps {rt : Rt} {w : Shop} (h : w.Fits) (m : Int) (k : Nat) : (w.step rt (.update m)).seen k = w.seen k := by
  obtain ⟨_, _, h3, h4⟩ := w.update_spec (rt := rt) h m
  unfold Shop.seen
  rw [h3, h4]

/-- **What is true**: a slice from `Picked` keeps its segments while the basket, after whatever additions and updates, never holds fewer
segments than the slice. -/
theorem C69_kept_partial {rt : Rt} (hrt : rt.Ok) {k : Nat} {p : Slice} : ∀ (ops : List ShopOp) (w : Shop), w.Fits → (∀ op ∈ ops, op.Quiet) →
    w.got[k]? = some p → (∀ n, p.len ≤ (runBasket w.held ((ops.take n).filterMap ShopOp.event)).length) →
    (w.run rt ops).seen k = w.seen k
  | [], _, _, _, _, _ => rfl
  | op :: ops, w, h, hq, hp, hn => by
    have h1 := Shop.quiet_step hrt h (hq op List.mem_cons_self)
    have h0 : p.len ≤ w.basket.len := by
      have := hn 0
      simpa [runBasket, Shop.held, Slice.view_length h.1] using this
    have hstep : (w.step rt op).seen k = w.seen k ∧ (w.step rt op).got[k]? = some p := by
      cases op with
      | add seg =>
        refine ⟨?_, by rw [(w.add_spec hrt h seg).2.2.1]; exact hp⟩
        by_contra hc
        have := ((C69_add_exact hrt h hp seg).mp hc).2.2.1
        omega
      | update m => exact ⟨C69_update_keeps h m k, by rw [(w.update_spec (rt := rt) h m).2.2.1]; exact hp⟩
      | picked =>
        have hk : (w.got ++ [w.basket])[k]? = some p := by
          rw [List.getElem?_append_left (List.getElem?_eq_some_iff.mp hp).1]; exact hp
        refine ⟨?_, hk⟩
        rw [Shop.seen_of hp, Shop.seen_of (w := w.step rt .picked) hk]
        rfl
      | _ => exact (hq _ List.mem_cons_self).elim
    have h2 := C69_kept_partial hrt ops (w.step rt op) h1.1 (fun o ho => hq o (List.mem_cons_of_mem _ ho)) hstep.2 (fun n => by
      have := hn (n + 1)
      rw [h1.2, ← runBasket_append]
      have e : ((op :: ops).take (n + 1)).filterMap ShopOp.event = op.event.toList ++ (ops.take n).filterMap ShopOp.event := by
        cases he : op.event <;> simp [he]
      rwa [e] at this)
    show (Shop.run rt (w.step rt op) ops).seen k = _
    rw [h2, hstep.1]

/-- The segments seen after a call of `Picked` are those of the basket. -/
theorem C69_picked {rt : Rt} (w : Shop) : (w.step rt .picked).seen w.got.length = w.held := by
  simp [Shop.step, Shop.seen, Shop.held]

/-- An update keeps segments at the front that end at or before the position. -/
theorem basketUpdate_front {m : Int} {p : List Segment} (hp : ∀ g ∈ p, g.tok.to ≤ m) (l : List Segment) : p <+: basketUpdate m (p ++ l) := by
  have h : ∀ l : List Segment, p.reverse <:+ basketCut m (l ++ p.reverse) := by
    intro l
    induction l with
    | nil =>
      have := basketUpdate_self hp
      unfold basketUpdate at this
      rw [List.nil_append, ← List.reverse_reverse (basketCut m p.reverse), this]
      exact List.suffix_refl _
    | cons g l ih =>
      rw [List.cons_append, show basketCut m (g :: (l ++ p.reverse)) = if g.tok.to ≤ m then g :: (l ++ p.reverse) else basketCut m (l ++ p.reverse) from rfl]
      split
      · exact ⟨g :: l, rfl⟩
      · exact ih
  unfold basketUpdate
  rw [List.reverse_append, ← List.reverse_reverse p, List.reverse_prefix, List.reverse_reverse]
  exact h _

theorem runBasket_front {p : List Segment} : ∀ (evs : List BasketEvent) (l : List Segment), p <+: l →
    (∀ m, .update m ∈ evs → ∀ g ∈ p, g.tok.to ≤ m) → p <+: runBasket l evs
  | [], _, h, _ => h
  | .add _ :: evs, _, h, hm => runBasket_front evs _ (h.trans (List.prefix_append _ _)) fun m hm' => hm m (List.mem_cons_of_mem _ hm')
  | .update m :: evs, _, ⟨t, ht⟩, hm => runBasket_front evs _ (ht ▸ basketUpdate_front (hm m List.mem_cons_self) t) fun m hm' => hm m (List.mem_cons_of_mem _ hm')

/-- **In terms of positions**: the slice from a call of `Picked` keeps its segments while the scanner never goes back before the end of one of
them. -/
theorem C69_ahead_partial {rt : Rt} (hrt : rt.Ok) {w : Shop} (h : w.Fits) (ops : List ShopOp) (hq : ∀ op ∈ ops, op.Quiet)
    (hm : ∀ m, .update m ∈ ops → ∀ g ∈ w.held, g.tok.to ≤ m) :
    (w.run rt (.picked :: ops)).seen w.got.length = w.held := by
  have h1 := Shop.quiet_step (rt := rt) hrt h (op := .picked) trivial
  have hp : (w.step rt .picked).got[w.got.length]? = some w.basket := by simp [Shop.step]
  show (Shop.run rt (w.step rt .picked) ops).seen _ = _
  rw [C69_kept_partial hrt ops (w.step rt .picked) h1.1 hq hp, C69_picked]
  intro n
  rw [h1.2]
  show w.basket.len ≤ (runBasket w.held _).length
  rw [← Slice.view_length h.1]
  refine (runBasket_front _ _ (List.prefix_refl w.held) fun m hm' => hm m ?_).length_le
  rw [List.mem_filterMap] at hm'
  obtain ⟨op, ho, he⟩ := hm'
  have := List.mem_of_mem_take ho
  cases op <;> simp [ShopOp.event] at he
  subst he
  exact this

/-- Two segments are picked and looked at, and then the scanner goes on to 5, back to 2 and picks another one. -/
example (rt : Rt) (hrt : rt.Ok) :
    (Shop.new.run rt [.add ⟨b!"a", ⟨0, 1⟩⟩, .add ⟨b!"b", ⟨1, 2⟩⟩, .picked, .update 5, .add ⟨b!"c", ⟨2, 5⟩⟩, .update 2, .add ⟨b!"d", ⟨2, 2⟩⟩]).seen 0 =
      [⟨b!"a", ⟨0, 1⟩⟩, ⟨b!"b", ⟨1, 2⟩⟩] := by
  have h := C69_basket hrt [.add ⟨b!"a", ⟨0, 1⟩⟩, .add ⟨b!"b", ⟨1, 2⟩⟩] _ Shop.new_fits (by simp [ShopOp.Quiet])
  have e : (Shop.new.run rt [.add ⟨b!"a", ⟨0, 1⟩⟩, .add ⟨b!"b", ⟨1, 2⟩⟩]).held = [⟨b!"a", ⟨0, 1⟩⟩, ⟨b!"b", ⟨1, 2⟩⟩] := h.2
  have := C69_ahead_partial hrt h.1 [.update 5, .add ⟨b!"c", ⟨2, 5⟩⟩, .update 2, .add ⟨b!"d", ⟨2, 2⟩⟩] (by simp [ShopOp.Quiet]) (by
    rw [e]
    intro m hm
    simp at hm
    rcases hm with rfl | rfl <;> simp)
  rw [e] at this
  exact this

/-! ### what is false -/

/-- The basket after two additions has room for two segments in one array. -/
theorem two_added {rt : Rt} (hrt : rt.Ok) (x y : Segment) : ∃ w : Shop, Shop.new.run rt [.add x, .add y, .picked] = w ∧ w.Fits ∧
    w.held = [x, y] ∧ w.seen 0 = [x, y] ∧ w.got = [w.basket] ∧ w.basket.len = 2 ∧ 2 ≤ w.basket.cap := by
  have h := C69_basket hrt [.add x, .add y] _ Shop.new_fits (by simp [ShopOp.Quiet])
  have hh : (Shop.new.run rt [.add x, .add y]).held = [x, y] := h.2
  have hg : (Shop.new.run rt [.add x, .add y]).got = [] := by
    show (Shop.step rt (Shop.step rt Shop.new (.add x)) (.add y)).got = []
    rw [(Shop.add_spec hrt (Shop.add_spec hrt Shop.new_fits x).1 y).2.2.1, (Shop.add_spec hrt Shop.new_fits x).2.2.1]
    rfl
  have hl : (Shop.new.run rt [.add x, .add y]).basket.len = 2 := by
    rw [← Slice.view_length h.1.1]
    exact congrArg List.length hh
  refine ⟨_, rfl, (Shop.quiet_step hrt h.1 (op := .picked) trivial).1, hh, ?_, ?_, hl, ?_⟩
  · have := C69_picked (rt := rt) (Shop.new.run rt [.add x, .add y])
    rw [hg, hh] at this
    exact this
  · show (Shop.new.run rt [.add x, .add y]).got ++ [_] = [_]
    rw [hg]
    rfl
  · rw [← hl]
    exact h.1.1.1

/-- **Violated**: two segments are picked and looked at; the scanner goes back and picks another segment; now the slice that the client got
before has the new segment in it. -/
theorem C69_overwritten_violated {rt : Rt} (hrt : rt.Ok) :
    (Shop.new.run rt [.add ⟨b!"a", ⟨0, 1⟩⟩, .add ⟨b!"b", ⟨1, 2⟩⟩, .picked]).seen 0 = [⟨b!"a", ⟨0, 1⟩⟩, ⟨b!"b", ⟨1, 2⟩⟩] ∧
    (Shop.new.run rt [.add ⟨b!"a", ⟨0, 1⟩⟩, .add ⟨b!"b", ⟨1, 2⟩⟩, .picked, .update 1, .add ⟨b!"c", ⟨1, 3⟩⟩]).seen 0 =
      [⟨b!"a", ⟨0, 1⟩⟩, ⟨b!"c", ⟨1, 3⟩⟩] := by
  obtain ⟨w, e, hf, hh, hs, hg, hl, hc⟩ := two_added hrt ⟨b!"a", ⟨0, 1⟩⟩ ⟨b!"b", ⟨1, 2⟩⟩
  refine ⟨e ▸ hs, ?_⟩
  show (Shop.run rt (Shop.new.run rt [.add _, .add _, .picked]) [.update 1, .add ⟨b!"c", ⟨1, 3⟩⟩]).seen 0 = _
  rw [e]
  have hu : w.step rt (.update 1) = { w with basket := { w.basket with len := 1 } } := by
    show (match cutAt 1 w.held w.basket.len with
      | some i => { w with basket := { w.basket with len := i } }
      | none => { w with basket := Slice.none } : Shop) = _
    rw [hh, hl]
    rfl
  show ((w.step rt (.update 1)).step rt (.add _)).seen 0 = _
  have ha : w.basket.arr < w.arrays.length := (hf.1.2.resolve_left (by omega)).1
  rw [hu]
  show (((w.got[0]?).getD Slice.none).view (Slice.append rt w.arrays { w.basket with len := 1 } ⟨b!"c", ⟨1, 3⟩⟩).2) = _
  rw [hg]
  unfold Slice.append
  rw [if_pos (by simp only; omega)]
  show (Arrays.at (w.arrays.modify w.basket.arr _) w.basket.arr).take w.basket.len = _
  rw [Arrays.at_modify, if_pos ⟨rfl, ha⟩, hl]
  have hv : (w.arrays.at w.basket.arr).take 2 = [⟨b!"a", ⟨0, 1⟩⟩, ⟨b!"b", ⟨1, 2⟩⟩] := hl ▸ hh
  rw [List.take_set, hv]
  rfl

/-- **Violated**: sorting the slice from `Picked` sorts the basket, and then going back keeps a segment that ends behind the new position and that
is dropped without the sorting. -/
theorem C69_sort_violated {rt : Rt} (hrt : rt.Ok) :
    (Shop.new.run rt [.add ⟨b!"a", ⟨0, 1⟩⟩, .add ⟨b!"ab", ⟨0, 2⟩⟩, .picked, .update 1]).held = [⟨b!"a", ⟨0, 1⟩⟩] ∧
    (Shop.new.run rt [.add ⟨b!"a", ⟨0, 1⟩⟩, .add ⟨b!"ab", ⟨0, 2⟩⟩, .picked, .sort 0]).held = [⟨b!"ab", ⟨0, 2⟩⟩, ⟨b!"a", ⟨0, 1⟩⟩] ∧
    (Shop.new.run rt [.add ⟨b!"a", ⟨0, 1⟩⟩, .add ⟨b!"ab", ⟨0, 2⟩⟩, .picked, .sort 0, .update 1]).held = [⟨b!"ab", ⟨0, 2⟩⟩, ⟨b!"a", ⟨0, 1⟩⟩] := by
  obtain ⟨w, e, hf, hh, hs, hg, hl, hc⟩ := two_added hrt ⟨b!"a", ⟨0, 1⟩⟩ ⟨b!"ab", ⟨0, 2⟩⟩
  have ha : w.basket.arr < w.arrays.length := (hf.1.2.resolve_left (by omega)).1
  have hv : (w.arrays.at w.basket.arr).take 2 = [⟨b!"a", ⟨0, 1⟩⟩, ⟨b!"ab", ⟨0, 2⟩⟩] := hl ▸ hh
  have hsort : (w.step rt (.sort 0)).held = [⟨b!"ab", ⟨0, 2⟩⟩, ⟨b!"a", ⟨0, 1⟩⟩] ∧ (w.step rt (.sort 0)).basket = w.basket := by
    have : w.step rt (.sort 0) = { w with arrays := w.basket.sort w.arrays } := by
      show (match w.got[0]? with | some p => { w with arrays := p.sort w.arrays } | none => w : Shop) = _
      rw [hg]
      rfl
    rw [this]
    refine ⟨?_, rfl⟩
    show (Arrays.at (w.arrays.modify w.basket.arr _) w.basket.arr).take w.basket.len = _
    rw [Arrays.at_modify, if_pos ⟨rfl, ha⟩, hl, hv]
    have : sortSegments [⟨b!"a", ⟨0, 1⟩⟩, ⟨b!"ab", ⟨0, 2⟩⟩] = [⟨b!"ab", ⟨0, 2⟩⟩, ⟨b!"a", ⟨0, 1⟩⟩] := by decide
    rw [this]
    rfl
  refine ⟨?_, ?_, ?_⟩
  · show ((Shop.new.run rt [.add _, .add _, .picked]).step rt (.update 1)).held = _
    rw [e, (w.update_spec hf 1).2.1, hh]
    decide
  · show ((Shop.new.run rt [.add _, .add _, .picked]).step rt (.sort 0)).held = _
    rw [e]
    exact hsort.1
  · show (((Shop.new.run rt [.add _, .add _, .picked]).step rt (.sort 0)).step rt (.update 1)).held = _
    rw [e]
    have hu : (w.step rt (.sort 0)).step rt (.update 1) = w.step rt (.sort 0) := by
      show (match cutAt 1 (w.step rt (.sort 0)).held (w.step rt (.sort 0)).basket.len with
        | some i => { w.step rt (.sort 0) with basket := { (w.step rt (.sort 0)).basket with len := i } }
        | none => { w.step rt (.sort 0) with basket := Slice.none } : Shop) = _
      rw [hsort.1, hsort.2, hl, show cutAt 1 [⟨b!"ab", ⟨0, 2⟩⟩, ⟨b!"a", ⟨0, 1⟩⟩] 2 = some 2 from rfl]
      show (⟨(w.step rt (.sort 0)).arrays, { w.basket with len := 2 }, (w.step rt (.sort 0)).got⟩ : Shop) = _
      rw [← hl]
      show (⟨(w.step rt (.sort 0)).arrays, w.basket, (w.step rt (.sort 0)).got⟩ : Shop) = _
      rw [← hsort.2]
    rw [hu]
    exact hsort.1

/-- A write at an index outside of the slice changes nothing (it panics), even if the backing array goes on and the basket has segments there. -/
theorem C69_outside (rt : Rt) (w : Shop) (k i : Nat) (seg : Segment) (h : ∀ p, w.got[k]? = some p → p.len ≤ i) : w.step rt (.write k i seg) = w := by
  show (match w.got[k]? with
    | some p => { w with arrays := p.set w.arrays i seg }
    | none => w : Shop) = w
  cases hp : w.got[k]? with
  | none => rfl
  | some p =>
    have := h p hp
    simp only [Slice.set, if_neg (by omega : ¬ i < p.len)]

/-- The client has a slice of one segment, the basket two in the same array. -/
example (rt : Rt) : (Shop.mk [[⟨b!"a", ⟨0, 1⟩⟩, ⟨b!"b", ⟨1, 2⟩⟩]] ⟨0, 2, 2⟩ [⟨0, 1, 2⟩]).step rt (.write 0 1 ⟨b!"c", ⟨5, 6⟩⟩) =
    Shop.mk [[⟨b!"a", ⟨0, 1⟩⟩, ⟨b!"b", ⟨1, 2⟩⟩]] ⟨0, 2, 2⟩ [⟨0, 1, 2⟩] := rfl

end Tok
