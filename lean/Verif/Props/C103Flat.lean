/-
C103, picks that do not contain each other: `Segmentate` takes the picked segments as they are.
-/
import Verif.Props.C103
import Verif.Proofs.PickExact

namespace Tok
open Spec

theorem basketCut_sublist (m : Int) : ∀ l : List Segment, (basketCut m l).Sublist l
  | [] => by simp [basketCut]
  | a :: l => by
    unfold basketCut
    split
    · exact .refl _
    · exact (basketCut_sublist m l).cons a

theorem basketUpdate_sublist (m : Int) (l : List Segment) : (basketUpdate m l).Sublist l := by
  have := (basketCut_sublist m l.reverse).reverse
  rwa [List.reverse_reverse] at this

/-- Every segment begins at or behind the end of those before it. -/
def Rowed (l : List Segment) : Prop := l.Pairwise (fun x y => x.tok.to ≤ y.tok.frm)

/-- What is picked for the basket is read with readers of which `D` holds. -/
def Reader.picksOnly (b : Nat) (D : Reader → Prop) : Reader → Prop
  | .pick _ k c => k = b → c.Every D
  | _ => True

/-- What this needs at one reader: the text between of `Body` and `BodyTail` is read without picks for the basket, and the function of a `Wrap` adds
segments of what it reads, one behind the other. -/
def Reader.rows (G : Env) (b : Nat) : Reader → Prop
  | .wrap _ f => (∀ s, Coupled b s → RetE (fun x => Grew b s x.2) (f s)) ∧
      ∀ s, Coupled b s → Rowed (s.heap.baskets b) → RetE (fun x => Rowed (x.2.heap.baskets b)) (f s)
  | r => r.tracked G b

theorem rows_tracked {G : Env} {b : Nat} {r : Reader} (h : r.rows G b) : r.tracked G b := by
  cases r <;> first | exact h | exact h.1

theorem rows_of_B {G : Env} {b : Nat} {r : Reader} (h : r.trackedB = true) : r.rows G b := by
  cases r <;> first | trivial | cases h

theorem rowed_frame (rt : Rt) (G : Env) (b : Nat) (D : Reader → Prop) (hD : ∀ r, D r → r.noPick b ∧ r.tracked G b)
    (hR : ∀ (i : Nat) (nm : Bytes) (c : Reader), D (.rule i) → G[i]? = some ⟨nm, some c⟩ → c.Every D) :
    Frame rt G (fun r => r.rows G b ∧ r.picksOnly b D) (fun s => Coupled b s ∧ Rowed (s.heap.baskets b))
      (fun s s' => Grew b s s' ∧ Rowed (s'.heap.baskets b)) where
  inside h := h.1.1
  fwd _ h := h.1.1
  inv h h' := ⟨h'.1.inv h.1, h'.2⟩
  refl h := ⟨.refl h.1.1, h.2⟩
  trans _ h h' := ⟨h.1.trans h'.1, h'.2⟩
  go {s m} h h1 h2 := ⟨(grew_frame rt G b).go h.1 h1 h2, by
    rw [at_basket h.1.2.1]
    show Rowed (upd _ _ _ b)
    rw [upd_self]
    exact h.2.sublist (basketUpdate_sublist _ _)⟩
  back {s s'} h h' := ⟨(grew_frame rt G b).back h.1 h'.1, by
    rw [at_basket (h'.1.2.1.trans h.1.2.1)]
    show Rowed (upd _ _ _ b)
    rw [upd_self]
    exact h'.2.sublist (basketUpdate_sublist _ _)⟩
  cells _ _ _ _ h := h
  janus _ _ _ _ h := h
  pick {s s' info k c n} hp hs hr h := by
    refine ⟨(grew_frame rt G b).pick (rows_tracked hp.1) hs.1 hr h.1, ?_⟩
    by_cases hk : b = k
    · subst hk
      show Rowed (upd _ _ _ b)
      rw [upd_self]
      have hq := (silent_frame rt G b D hD).read hR n c (hp.2 rfl) s hs.1 _ hr
      refine List.pairwise_append.mpr ⟨h.2, by simp, fun x hx y hy => ?_⟩
      rw [List.mem_singleton.mp hy]
      have h2 : s'.heap.baskets b = s.heap.baskets b := hq.2.2
      rw [h2] at hx
      have := hs.1.2.2 x hx
      have : s.pos ≤ s'.pos := hq.1.2.2
      unfold makeToken
      rw [if_neg (by omega)]
      simpa using hs.1.2.2 x hx
    · show Rowed (upd _ _ _ b)
      rw [upd_ne _ _ hk]
      exact h.2
  map _ _ h := h
  enter _ h := h
  leave _ _ _ h := h
  wrap hp hs := fun x hx => ⟨hp.1.1 _ hs.1 x hx, hp.1.2 _ hs.1 hs.2 x hx⟩
  body {s s' c t n str e sub} hp hs h hstr h2 _ := by
    have h3 := (grew_frame rt G b).body (hp.imp (fun h => rows_tracked h.1) fun h => rows_tracked h.1) hs.1 h.1 hstr h2
    have hq : ∃ Q : Reader → Prop, (∀ r, Q r → r.noPick b) ∧ c.Every Q ∧
      ∀ (i : Nat) (nm : Bytes) (d : Reader), Q (.rule i) → G[i]? = some ⟨nm, some d⟩ → d.Every Q := hp.elim (fun h => h.1) (fun h => h.1)
    obtain ⟨Q, hQ, hc, hG⟩ := hq
    have hsub := (quiet_frame rt G b Q hQ).read hG n c hc _ ⟨new_inside str s'.heap, rfl⟩ _ h2
    have key : ∀ hp : Heap, hp.baskets b = s'.heap.baskets b → Grew b s { s' with heap := hp } ∧ Rowed (hp.baskets b) := fun hp hh => by
      obtain ⟨⟨f, tr, new, e1, p1, q1⟩, hr⟩ := h
      exact ⟨⟨f, tr, new, hh.trans e1, p1, q1⟩, by rw [hh]; exact hr⟩
    refine ⟨key _ hsub.2.2, fun _ => key _ ?_⟩
    rw [at_none hsub.2.1]
    exact hsub.2.2

/-- What a program does with a scanner and a basket, as `Picking`, with readers in which no pick is read inside another one. -/
inductive Rowing (rt : Rt) (G : Env) (b : Nat) (D : Reader → Prop) : Scanner → Prop
  | start (s : Scanner) : Inside s → Rowing rt G b D (s.newBasket b)
  | read (n : Nat) (r : Reader) (s : Scanner) (e : Option Err) (s' : Scanner) : Rowing rt G b D s →
      r.Every (fun r => r.rows G b ∧ r.picksOnly b D) → read rt G n r s = .ret (e, s') → Rowing rt G b D s'
  | move (s : Scanner) (k : Int) : Rowing rt G b D s → Rowing rt G b D (s.move k).2
  | jump (s : Scanner) (m : Int) : Rowing rt G b D s → 0 ≤ m → m ≤ (s.full.length : Int) → Rowing rt G b D (s.toMarker m).2

theorem Rowing.history {rt : Rt} {G : Env} {b : Nat} {D : Reader → Prop} {s : Scanner} (h : Rowing rt G b D s) : History rt G b s := by
  induction h with
  | start s hs => exact .start s hs
  | read n r s e s' _ hr hrd ih => exact .read n r s e s' ih (hr.imp fun _ h => rows_tracked h.1) hrd
  | move s k _ ih => exact .move s k ih
  | jump s m _ h0 h1 ih => exact .jump s m ih h0 h1

/-- If no pick is read inside another one (`D` holds of no pick, and of what the rules for which it holds are made of), then at every moment of every
history of reads and moves `Segmentate` takes the picked segments without a graph, and the known ones among the parts are these. -/
theorem C103_flat (rt : Rt) (G : Env) (b : Nat) (D : Reader → Prop) (hD : ∀ r, D r → r.noPick b ∧ r.tracked G b)
    (hR : ∀ (i : Nat) (nm : Bytes) (c : Reader), D (.rule i) → G[i]? = some ⟨nm, some c⟩ → c.Every D)
    (hG : G.Every (fun r => r.rows G b ∧ r.picksOnly b D)) (s : Scanner) (h : Rowing rt G b D s) :
    ∃ out, s.segmentate (s.heap.baskets b) = (out, none) ∧ Contiguous 0 out s.full.length ∧ Filled [] (s.heap.baskets b) out ∧
      ∃ parts : List Bytes, List.Forall₂ (fun x p => s.get x.tok = .ret p) out parts ∧ parts.flatten = s.full := by
  have hT : G.Every (Reader.tracked G b) := hG.imp fun _ h => rows_tracked h.1
  have hr : Rowed (s.heap.baskets b) := by
    induction h with
    | start s hs => simp [Rowed, Scanner.newBasket, upd]
    | read n r s e s' hs hr hrd ih =>
      exact ((rowed_frame rt G b D hD hR).read (fun _ _ _ _ hi => hG.get hi) n r hr s ⟨(hs.history.follows hT).toCoupled, ih⟩ _ hrd).2
    | move s k hs ih =>
      unfold Scanner.move
      simp only
      split
      · exact ih
      · show Rowed ((s.at _).heap.baskets b)
        rw [at_basket (hs.history.follows hT).toCoupled.2.1]
        show Rowed (upd _ _ _ b)
        rw [upd_self]
        exact ih.sublist (basketUpdate_sublist _ _)
    | jump s m hs h0 h1 ih =>
      rw [toMarker_at h0]
      rw [at_basket (hs.history.follows hT).toCoupled.2.1]
      show Rowed (upd _ _ _ b)
      rw [upd_self]
      exact ih.sublist (basketUpdate_sublist _ _)
  have hl := (C41_always_partial rt G b hT s h.history).1
  have hok := (segmentate_iff s _ fun g hg => by have := hl g hg; exact ⟨this.1, this.2.1, this.2.2.2⟩).mpr hr
  obtain ⟨h1, h2, h3⟩ := C25_scanner s _ _ (fun g hg => (hl g hg).2.1) (show s.segmentate _ = (_, none) by rw [← hok])
  exact ⟨_, by rw [← hok], h1, h2, h3⟩

/-- The words of a text: `[ word+' ' ]*`, in which only the words are picked. -/
example (rt : Rt) (t : Bytes) (n : Nat) (e : Option Err) (s : Scanner)
    (h : read rt [] n (.zom (.any [.pick b!"word" 0 (.many (.between 97 122)), .rune 32])) ((Scanner.new t Heap.empty).newBasket 0) = .ret (e, s)) :
    ∃ out, s.segmentate (s.heap.baskets 0) = (out, none) := by
  have hE : (Reader.zom (.any [.pick b!"word" 0 (.many (.between 97 122)), .rune 32])).Every
      (fun r => r.rows [] 0 ∧ r.picksOnly 0 (fun r => r.noPick 0 ∧ r.tracked [] 0)) := by
    refine .mk (r := .zom _) ⟨trivial, trivial⟩ fun c hc => ?_
    simp only [Reader.subs, List.mem_singleton] at hc
    subst hc
    refine .mk (r := .any _) ⟨trivial, trivial⟩ fun c hc => ?_
    simp only [Reader.subs, List.mem_cons, List.not_mem_nil, or_false] at hc
    have hb : (Reader.between 97 122).Every (fun r => r.noPick 0 ∧ r.tracked [] 0) := .mk (r := .between _ _) ⟨trivial, trivial⟩ (by simp [Reader.subs])
    rcases hc with rfl | rfl
    · refine .mk (r := .pick _ _ _) ⟨trivial, fun _ => .mk (r := .many _) ⟨trivial, trivial⟩ (by simpa [Reader.subs] using hb)⟩ fun c hc => ?_
      simp only [Reader.subs, List.mem_singleton] at hc
      subst hc
      refine .mk (r := .many _) ⟨trivial, trivial⟩ fun c hc => ?_
      simp only [Reader.subs, List.mem_singleton] at hc
      subst hc
      exact .mk (r := .between _ _) ⟨trivial, trivial⟩ (by simp [Reader.subs])
    · exact .mk (r := .rune _) ⟨trivial, trivial⟩ (by simp [Reader.subs])
  obtain ⟨out, h1, _⟩ := C103_flat rt [] 0 (fun r => r.noPick 0 ∧ r.tracked [] 0) (fun _ h => h) (by simp) (by intro rl hrl; cases hrl) s
    (.read n _ _ e s (.start _ (new_inside _ _)) hE h)
  exact ⟨out, h1⟩

end Tok
