/-
Baskets that follow a scanner.
-/
import Verif.Proofs.Frame
import Mathlib.Data.List.Basic

namespace Tok
open Spec

theorem basketCut_append (m : Int) : ∀ (l p : List Segment), (∀ g ∈ p, g.tok.to ≤ m) →
    l.Pairwise (fun a c => c.tok.to ≤ a.tok.to) → basketCut m (l ++ p) = l.filter (fun g => g.tok.to ≤ m) ++ p
  | [], [], _, _ => rfl
  | [], g :: p, hp, _ => by
    show (if g.tok.to ≤ m then g :: p else basketCut m p) = g :: p
    rw [if_pos (hp g List.mem_cons_self)]
  | g :: l, p, hp, hl => by
    rw [List.pairwise_cons] at hl
    show (if g.tok.to ≤ m then g :: (l ++ p) else basketCut m (l ++ p)) = _
    by_cases hg : g.tok.to ≤ m
    · simp only [hg, if_true]
      rw [List.filter_eq_self.mpr]
      · rfl
      · intro x hx
        rcases List.mem_cons.mp hx with rfl | hx
        · simpa using hg
        · have := hl.1 x hx
          simp only [decide_eq_true_eq]
          omega
    · simp only [hg, if_false]
      rw [List.filter_cons_of_neg (by simpa using hg)]
      exact basketCut_append m l p hp hl.2

/-- `Update` drops exactly the segments that end behind `m`, when they are ordered by their end; those in
front that end at or before `m` need no order. -/
theorem basketUpdate_append {m : Int} {p l : List Segment} (hp : ∀ g ∈ p, g.tok.to ≤ m)
    (hl : l.Pairwise (fun a c => a.tok.to ≤ c.tok.to)) : basketUpdate m (p ++ l) = p ++ l.filter (fun g => g.tok.to ≤ m) := by
  unfold basketUpdate
  rw [List.reverse_append, basketCut_append m l.reverse p.reverse (by simpa using hp) (by rwa [List.pairwise_reverse])]
  rw [List.reverse_append, List.reverse_reverse, ← List.filter_reverse, List.reverse_reverse]

theorem basketUpdate_self {m : Int} {p : List Segment} (hp : ∀ g ∈ p, g.tok.to ≤ m) : basketUpdate m p = p := by
  have := basketUpdate_append (l := []) hp .nil
  simpa using this

/-! ### reads that do not touch a basket -/

/-- No pick into the basket `b` and no `Wrap`. -/
def Reader.noPick (b : Nat) : Reader → Prop
  | .pick _ k _ => k ≠ b
  | .wrap _ _ => False
  | _ => True

/-- The scanner has no tracker and the basket is the same. -/
def Same (b : Nat) (s s' : Scanner) : Prop := Forward s s' ∧ s'.tracker = s.tracker ∧ s'.heap.baskets b = s.heap.baskets b

theorem at_none {s : Scanner} (h : s.tracker = none) (m : Int) : s.at m = { s with pos := m } := notify_none h

theorem forward_at {s s' : Scanner} (hs : Inside s) (h : Forward s s') : Forward s (s'.at s.pos) := by
  have := Forward.back hs h
  rwa [toMarker_at hs.1] at this

theorem forward_go {s : Scanner} {m : Int} (hs : Inside s) (h1 : s.pos ≤ m) (h2 : m ≤ (s.full.length : Int)) : Forward s (s.at m) := by
  have := hs.1
  unfold Scanner.at
  exact ⟨⟨by rw [notify_pos]; simp only; omega, by rw [notify_pos, notify_full]; exact h2⟩, notify_full _, by rw [notify_pos]; exact h1⟩

theorem upd_ne {α : Type} (f : Nat → α) {i j : Nat} (v : α) (h : j ≠ i) : upd f i v j = f j := if_neg h
theorem upd_self {α : Type} (f : Nat → α) (i : Nat) (v : α) : upd f i v i = v := if_pos rfl

theorem new_inside (str : Bytes) (h : Heap) : Inside (Scanner.new str h) := ⟨by simp [Scanner.new], by simp [Scanner.new]⟩

theorem quiet_frame (rt : Rt) (G : Env) (b : Nat) (P : Reader → Prop) (hP : ∀ r, P r → r.noPick b) :
    Frame rt G P (fun s => Inside s ∧ s.tracker = none) (Same b) where
  inside h := h.1
  fwd _ h := h.1
  inv h h' := ⟨h'.1.1, h'.2.1.trans h.2⟩
  refl h := ⟨Forward.refl h.1, rfl, rfl⟩
  trans _ h h' := ⟨h.1.trans h'.1, h'.2.1.trans h.2.1, h'.2.2.trans h.2.2⟩
  go h h1 h2 := ⟨forward_go h.1 h1 h2, notify_tracker _, by rw [at_none h.2]⟩
  back h h' := ⟨forward_at h.1 h'.1, (notify_tracker _).trans h'.2.1, by rw [at_none (h'.2.1.trans h.2)]; exact h'.2.2⟩
  cells _ _ _ _ h := h
  janus _ _ _ _ h := h
  pick hp _ _ h := by
    refine ⟨h.1, h.2.1, ?_⟩
    show upd _ _ _ b = _
    rw [upd_ne _ _ (fun e => (hP _ hp) e.symm)]
    exact h.2.2
  map _ _ h := h
  enter _ h := h
  leave _ _ _ h := h
  wrap hp _ := (hP _ hp).elim
  body _ h h' _ h2 h3 := by
    have hsub := h3 ⟨new_inside _ _, rfl⟩
    refine ⟨⟨h'.1, h'.2.1, hsub.2.2.trans h'.2.2⟩, fun _ => ⟨h'.1, h'.2.1, ?_⟩⟩
    show (Scanner.at _ 0).heap.baskets b = _
    rw [at_none hsub.2.1]
    exact hsub.2.2.trans h'.2.2

/-! ### reads of a scanner coupled with a basket -/

/-- The scanner stands inside its text, is coupled with the basket `b`, and the segments in it end at or before
its position. -/
def Coupled (b : Nat) (s : Scanner) : Prop :=
  Inside s ∧ s.tracker = some (.basket b) ∧ ∀ g ∈ s.heap.baskets b, g.tok.to ≤ s.pos

/-- Two segments picked one after the other: the second ends where the first ends or later, and
comes after it or covers it. -/
def Nest (a c : Segment) : Prop := a.tok.to ≤ c.tok.to ∧ (a.tok.to ≤ c.tok.frm ∨ c.tok.frm ≤ a.tok.frm)

/-- New segments lie between the two positions and are nested. -/
def Grew (b : Nat) (s s' : Scanner) : Prop :=
  Forward s s' ∧ s'.tracker = s.tracker ∧ ∃ new, s'.heap.baskets b = s.heap.baskets b ++ new ∧
    (∀ g ∈ new, s.pos ≤ g.tok.frm ∧ g.tok.frm ≤ g.tok.to ∧ g.tok.to ≤ s'.pos) ∧ new.Pairwise Nest

theorem Grew.refl {b : Nat} {s : Scanner} (h : Inside s) : Grew b s s := ⟨Forward.refl h, rfl, [], by simp, by simp, .nil⟩

theorem Grew.trans {b : Nat} {s s' s'' : Scanner} (h : Grew b s s') (h' : Grew b s' s'') : Grew b s s'' := by
  obtain ⟨f, t, n1, e1, p1, q1⟩ := h
  obtain ⟨f', t', n2, e2, p2, q2⟩ := h'
  refine ⟨f.trans f', t'.trans t, n1 ++ n2, by rw [e2, e1, List.append_assoc], ?_, ?_⟩
  · intro g hg
    have := f.2.2
    have := f'.2.2
    rcases List.mem_append.mp hg with hg | hg
    · have := p1 g hg; omega
    · have := p2 g hg; omega
  · rw [List.pairwise_append]
    refine ⟨q1, q2, fun a ha c hc => ?_⟩
    have := p1 a ha
    have := p2 c hc
    exact ⟨by omega, .inl (by omega)⟩

theorem Grew.inv {b : Nat} {s s' : Scanner} (hs : Coupled b s) (h : Grew b s s') : Coupled b s' := by
  obtain ⟨f, t, n1, e1, p1, q1⟩ := h
  refine ⟨f.1, t.trans hs.2.1, fun g hg => ?_⟩
  rw [e1] at hg
  have := f.2.2
  rcases List.mem_append.mp hg with hg | hg
  · have := hs.2.2 g hg; omega
  · have := p1 g hg; omega

theorem at_basket {s : Scanner} {b : Nat} (h : s.tracker = some (.basket b)) (m : Int) :
    s.at m = { s with pos := m, heap := { s.heap with baskets := upd s.heap.baskets b (basketUpdate m (s.heap.baskets b)) } } := by
  unfold Scanner.at Scanner.notify
  simp only [h]

theorem Grew.back {b : Nat} {s s' : Scanner} (hs : Coupled b s) (h : Grew b s s') :
    Grew b s (s'.at s.pos) ∧ ∀ g ∈ (s'.at s.pos).heap.baskets b, g ∈ s.heap.baskets b ∨ g.tok = ⟨s.pos, s.pos⟩ := by
  obtain ⟨f, t, new, e1, p1, q1⟩ := h
  have ho : new.Pairwise (fun a c : Segment => a.tok.to ≤ c.tok.to) := q1.imp fun h => h.1
  have hb : (s'.at s.pos).heap.baskets b = s.heap.baskets b ++ new.filter (fun g => g.tok.to ≤ s.pos) := by
    rw [at_basket (t.trans hs.2.1)]
    show upd _ _ _ b = _
    rw [upd_self, e1, basketUpdate_append hs.2.2 ho]
  refine ⟨⟨forward_at hs.1 f, (notify_tracker _).trans t, _, hb, ?_, q1.sublist List.filter_sublist⟩, ?_⟩
  · intro g hg
    rw [List.mem_filter, decide_eq_true_eq] at hg
    have := p1 g hg.1
    refine ⟨this.1, this.2.1, ?_⟩
    show _ ≤ (Scanner.notify _).pos
    rw [notify_pos]
    exact hg.2
  · intro g hg
    rw [hb] at hg
    rcases List.mem_append.mp hg with hg | hg
    · exact .inl hg
    · rw [List.mem_filter, decide_eq_true_eq] at hg
      have := p1 g hg.1
      refine .inr ?_
      obtain ⟨i, ⟨x, y⟩⟩ := g
      simp only at this hg
      rw [Token.mk.injEq]
      omega

/-- What the coupling needs at one reader: the text between of `Body` and `BodyTail` is read without picks (directly
or in a rule), and the function of a `Wrap` keeps to the rules. -/
def Reader.tracked (G : Env) (b : Nat) : Reader → Prop
  | .body c _ => ∃ Q : Reader → Prop, (∀ r, Q r → r.noPick b) ∧ c.Every Q ∧
      ∀ (i : Nat) (nm : Bytes) (d : Reader), Q (.rule i) → G[i]? = some ⟨nm, some d⟩ → d.Every Q
  | .bodyTail c _ => ∃ Q : Reader → Prop, (∀ r, Q r → r.noPick b) ∧ c.Every Q ∧
      ∀ (i : Nat) (nm : Bytes) (d : Reader), Q (.rule i) → G[i]? = some ⟨nm, some d⟩ → d.Every Q
  | .wrap _ f => ∀ s, Coupled b s → RetE (fun x => Grew b s x.2) (f s)
  | _ => True

theorem grew_frame (rt : Rt) (G : Env) (b : Nat) : Frame rt G (Reader.tracked G b) (Coupled b) (Grew b) where
  inside h := h.1
  fwd _ h := h.1
  inv h h' := h'.inv h
  refl h := .refl h.1
  trans _ h h' := h.trans h'
  go {s m} h h1 h2 := by
    refine ⟨forward_go h.1 h1 h2, notify_tracker _, [], ?_, by simp, .nil⟩
    rw [at_basket h.2.1]
    show upd _ _ _ b = _
    rw [upd_self, basketUpdate_self, List.append_nil]
    intro g hg
    have := h.2.2 g hg
    omega
  back h h' := (h'.back h).1
  cells _ _ _ _ h := h
  janus _ _ _ _ h := h
  pick {s s' info k c n} _ hs _ h := by
    obtain ⟨f, t, new, e1, p1, q1⟩ := h
    have hf := f.2.2
    by_cases hk : b = k
    · subst hk
      refine ⟨f, t, new ++ [⟨info, makeToken s.pos s'.pos⟩], ?_, ?_, ?_⟩
      · show upd _ _ _ b = _
        rw [upd_self, e1, List.append_assoc]
      · intro g hg
        rcases List.mem_append.mp hg with hg | hg
        · exact p1 g hg
        · rw [List.mem_singleton] at hg
          subst hg
          unfold makeToken
          rw [if_neg (by omega)]
          show _ ≤ _ ∧ _ ≤ s'.pos ∧ _ ≤ s'.pos
          simp only
          omega
      · rw [List.pairwise_append]
        refine ⟨q1, by simp, fun a ha c hc => ?_⟩
        rw [List.mem_singleton] at hc
        subst hc
        have := p1 a ha
        unfold makeToken
        rw [if_neg (by omega)]
        exact ⟨by simp only; omega, .inr (by simp only; omega)⟩
    · refine ⟨f, t, new, ?_, p1, q1⟩
      show upd _ _ _ b = _
      rw [upd_ne _ _ hk]
      exact e1
  map _ _ h := h
  enter _ h := h
  leave _ _ _ h := h
  wrap hp hs := hp _ hs
  body {s s' c t n str e sub} hp hs h _ h2 _ := by
    have hq : ∃ Q : Reader → Prop, (∀ r, Q r → r.noPick b) ∧ c.Every Q ∧
      ∀ (i : Nat) (nm : Bytes) (d : Reader), Q (.rule i) → G[i]? = some ⟨nm, some d⟩ → d.Every Q := hp.elim id id
    obtain ⟨Q, hQ, hc, hG⟩ := hq
    have hsub := (quiet_frame rt G b Q hQ).read hG n c hc _ ⟨new_inside str s'.heap, rfl⟩ _ h2
    obtain ⟨f, tr, new, e1, p1, q1⟩ := h
    have key : ∀ hp : Heap, hp.baskets b = s'.heap.baskets b → Grew b s { s' with heap := hp } :=
      fun hp hh => ⟨f, tr, new, hh.trans e1, p1, q1⟩
    refine ⟨key _ hsub.2.2, fun _ => key _ ?_⟩
    rw [at_none hsub.2.1]
    exact hsub.2.2

end Tok
