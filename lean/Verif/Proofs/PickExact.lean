/-
Baskets without empty segments: if no picked reader can succeed without reading, a failed read
that restores the position leaves the basket as it was.
-/
import Verif.Proofs.Term
import Verif.Props.C41

namespace Tok
open Spec

theorem basketCut_mem (m : Int) : ∀ (l : List Segment) g, g ∈ basketCut m l → g ∈ l
  | [], _, h => by simp [basketCut] at h
  | a :: l, g, h => by
    unfold basketCut at h
    split at h
    · exact h
    · exact List.mem_cons_of_mem _ (basketCut_mem m l g h)

theorem basketUpdate_mem {m : Int} {l : List Segment} {g : Segment} (h : g ∈ basketUpdate m l) : g ∈ l := by
  unfold basketUpdate at h
  have := basketCut_mem m _ g (List.mem_reverse.mp h)
  exact List.mem_reverse.mp this

/-- The picks read something, with readers whose nullable rules are among `nul`. -/
def Reader.solid (nul : Nat → Bool) : Reader → Prop
  | .pick _ _ c => c.null nul = false ∧ c.Every (fun r => r.noWrap = true)
  | _ => True

/-- No segment is empty. -/
def Solid (b : Nat) (s : Scanner) : Prop := Coupled b s ∧ ∀ g ∈ s.heap.baskets b, g.tok.frm < g.tok.to

/-- A step to such a basket. -/
def GrewSolid (b : Nat) (s s' : Scanner) : Prop := Grew b s s' ∧ ∀ g ∈ s'.heap.baskets b, g.tok.frm < g.tok.to

/-- A read that is not nullable moves on. -/
theorem read_moves (rt : Rt) {G : Env} {nul : Nat → Bool} (hG : G.Every (fun r => r.noWrap = true))
    (hN : ∀ (i : Nat) (nm : Bytes) (c : Reader), G[i]? = some ⟨nm, some c⟩ → c.null nul = true → nul i = true) {n : Nat} {c : Reader}
    (hc : c.Every (fun r => r.noWrap = true)) (h0 : c.null nul = false) {s s' : Scanner} (hs : Inside s)
    (h : read rt G n c s = .ret (none, s')) : s.pos < s'.pos := by
  obtain ⟨⟨ok, st'⟩, h5, h6, h7, ⟨x, hx⟩, _⟩ := (read_eat rt G hG n c hc s.full s _ (sees_st hs)).left h
  have h6 : true = ok := h6
  subst h6
  have h8 := eat_eats rt G hN n c h0 _ _ h5 rfl
  have h9 := hx.2
  have h10 := congrArg List.length (h7.symm.trans hx.1)
  have h11 := hs.1
  have h12 := hs.2
  simp only [List.length_append, Scanner.st, List.length_drop] at h8 h9 h10
  omega

theorem solid_frame (rt : Rt) (G : Env) (b : Nat) (nul : Nat → Bool) (hW : G.Every (fun r => r.noWrap = true))
    (hN : ∀ (i : Nat) (nm : Bytes) (c : Reader), G[i]? = some ⟨nm, some c⟩ → c.null nul = true → nul i = true) :
    Frame rt G (fun r => r.trackedB = true ∧ r.solid nul) (Solid b) (GrewSolid b) where
  inside h := h.1.1
  fwd _ h := h.1.1
  inv h h' := ⟨h'.1.inv h.1, h'.2⟩
  refl h := ⟨.refl h.1.1, h.2⟩
  trans _ h h' := ⟨h.1.trans h'.1, h'.2⟩
  go {s m} h h1 h2 := ⟨(grew_frame rt G b).go h.1 h1 h2, fun g hg => by
    rw [at_basket h.1.2.1] at hg
    have hg : g ∈ upd _ _ _ b := hg
    rw [upd_self] at hg
    exact h.2 g (basketUpdate_mem hg)⟩
  back {s s'} h h' := ⟨(grew_frame rt G b).back h.1 h'.1, fun g hg => by
    rw [at_basket (h'.1.2.1.trans h.1.2.1)] at hg
    have hg : g ∈ upd _ _ _ b := hg
    rw [upd_self] at hg
    exact h'.2 g (basketUpdate_mem hg)⟩
  cells _ _ _ _ h := h
  janus _ _ _ _ h := h
  pick {s s' info k c n} hp hs hr h := by
    refine ⟨(grew_frame rt G b).pick (tracked_of_B hp.1) hs.1 hr h.1, fun g hg => ?_⟩
    by_cases hk : b = k
    · subst hk
      have hg : g ∈ upd _ _ _ b := hg
      rw [upd_self] at hg
      rcases List.mem_append.mp hg with hg | hg
      · exact h.2 g hg
      · rw [List.mem_singleton] at hg
        subst hg
        have := read_moves rt hW hN hp.2.2 hp.2.1 hs.1.1 hr
        unfold makeToken
        rw [if_neg (by omega)]
        exact this
    · have hg : g ∈ upd _ _ _ b := hg
      rw [upd_ne _ _ hk] at hg
      exact h.2 g hg
  map _ _ h := h
  enter _ h := h
  leave _ _ _ h := h
  wrap hp := by cases hp.1
  body hp := by rcases hp with hp | hp <;> cases hp.1

/-- The basket after a failed read that restored the position. -/
theorem GrewSolid.same {b : Nat} {s s' : Scanner} (h : GrewSolid b s s') (hp : s'.pos = s.pos) : s'.heap.baskets b = s.heap.baskets b := by
  obtain ⟨⟨_, _, new, e1, p1, _⟩, h2⟩ := h
  cases new with
  | nil => simpa using e1
  | cons g new =>
    have := p1 g List.mem_cons_self
    have := h2 g (by rw [e1]; simp)
    omega

/-- A read without picks leaves the basket as it was. -/
theorem silent_frame (rt : Rt) (G : Env) (b : Nat) (P : Reader → Prop) (hP : ∀ r, P r → r.noPick b ∧ r.tracked G b) :
    Frame rt G P (Coupled b) (Still b) where
  inside h := h.1
  fwd _ h := h.1
  inv h h' := h'.grew.inv h
  refl h := ⟨Forward.refl h.1, rfl, rfl⟩
  trans _ h h' := ⟨h.1.trans h'.1, h'.2.1.trans h.2.1, h'.2.2.trans h.2.2⟩
  go {s m} h h1 h2 := ⟨forward_go h.1 h1 h2, notify_tracker _, still_at h.2.1 fun g hg => by have := h.2.2 g hg; omega⟩
  back {s s'} h h' := ⟨forward_at h.1 h'.1, (notify_tracker _).trans h'.2.1,
    (still_at (h'.2.1.trans h.2.1) (by rw [h'.2.2]; exact h.2.2)).trans h'.2.2⟩
  cells _ _ _ _ h := h
  janus _ _ _ _ h := h
  pick {s s' info k c n} hp _ _ h := by
    refine ⟨h.1, h.2.1, ?_⟩
    show upd _ _ _ b = _
    rw [upd_ne _ _ (fun e => (hP _ hp).1 e.symm)]
    exact h.2.2
  map _ _ h := h
  enter _ h := h
  leave _ _ _ h := h
  wrap hp := (hP _ hp).1.elim
  body {s s' c t n str e sub} hp hs h _ h2 _ := by
    have hq : ∃ Q : Reader → Prop, (∀ r, Q r → r.noPick b) ∧ c.Every Q ∧
      ∀ (i : Nat) (nm : Bytes) (d : Reader), Q (.rule i) → G[i]? = some ⟨nm, some d⟩ → d.Every Q := hp.elim (fun h => (hP _ h).2) (fun h => (hP _ h).2)
    obtain ⟨Q, hQ, hc, hG⟩ := hq
    have hsub := (quiet_frame rt G b Q hQ).read hG n c hc _ ⟨new_inside str s'.heap, rfl⟩ _ h2
    refine ⟨⟨h.1, h.2.1, hsub.2.2.trans h.2.2⟩, fun _ => ⟨h.1, h.2.1, ?_⟩⟩
    rw [at_none hsub.2.1]
    exact hsub.2.2.trans h.2.2

end Tok
