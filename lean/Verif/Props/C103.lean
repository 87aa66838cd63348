/-
C103: the segments of a text by the leafs of the graph of what was picked.
-/
import Verif.Props.GraphBuild
import Verif.Props.C41
import Verif.Proofs.PickExact

namespace Tok
open Spec

/-- The segments lie inside a text of the given length. -/
def LieIn (len : Nat) (segs : List Segment) : Prop := ∀ g ∈ segs, 0 ≤ g.tok.frm ∧ g.tok.frm ≤ g.tok.to ∧ g.tok.to ≤ (len : Int)

theorem inOrder_iff (b : Int) : ∀ (segs : List Segment) (a : Int), InOrder a segs b ↔
    a ≤ b ∧ (∀ g ∈ segs, a ≤ g.tok.frm ∧ g.tok.frm ≤ g.tok.to ∧ g.tok.to ≤ b) ∧ segs.Pairwise (fun x y => x.tok.to ≤ y.tok.frm)
  | [], a => by simp [InOrder]
  | s :: ss, a => by
    rw [InOrder, inOrder_iff b ss, List.pairwise_cons]
    constructor
    · rintro ⟨h1, h2, h3, h4, h5⟩
      refine ⟨by omega, fun g hg => ?_, fun g hg => (h4 g hg).1, h5⟩
      rcases List.mem_cons.mp hg with rfl | hg
      · exact ⟨h1, h2, h3⟩
      · have := h4 g hg
        omega
    · rintro ⟨h1, h2, h3, h4⟩
      have := h2 s (by simp)
      exact ⟨this.1, this.2.1, this.2.2, fun g hg => ⟨h3 g hg, (h2 g (by simp [hg])).2⟩, h4⟩

theorem segmentate_whole (s : Scanner) (segs : List Segment) :
    s.segmentate segs = (⟨[], ⟨0, s.full.length⟩⟩ : Segment).segmentate segs := by
  show (Segment.mk [] (makeToken 0 s.full.length)).segmentate segs = _
  unfold makeToken
  rw [if_neg (by omega)]

/-- A leaf of a graph is one of its segments, unless the graph has none. -/
theorem leaf_under (g : Graph) (h : g.root.under ≠ []) : ∀ x ∈ g.leafs, x ∈ g.root.under := by
  intro x hx
  obtain ⟨r⟩ := g
  obtain ⟨s, ns⟩ := r
  cases ns with
  | nil => exact absurd rfl h
  | cons c cs =>
    rw [Graph.leafs, Node.leafs, leafsList_flatMap, ← List.flatMap_cons (f := Node.leafs)] at hx
    obtain ⟨n, hn, hx⟩ := List.mem_flatMap.mp hx
    rw [Node.under_eq]
    exact List.mem_flatMap.mpr ⟨n, hn, leafs_mem hx⟩

/-- `Scanner.Segmentate` accepts exactly the segments that lie in the text, none of them behind the start of a later one. -/
theorem segmentate_iff (s : Scanner) (segs : List Segment) (h : LieIn s.full.length segs) :
    (s.segmentate segs).2 = none ↔ segs.Pairwise (fun x y => x.tok.to ≤ y.tok.frm) := by
  rw [segmentate_whole, (C25_segmentate ⟨[], ⟨0, s.full.length⟩⟩ segs (by simp [Token.Ordered]) (fun g hg => (h g hg).2.1)).1, inOrder_iff]
  exact ⟨fun h => h.2.2, fun hp => ⟨by simp, h, hp⟩⟩

theorem taken_sub : ∀ (segs acc : List Segment), ∀ x ∈ taken acc segs, x ∈ acc ∨ x ∈ segs
  | [], _, _, h => .inl h
  | s :: ss, acc, x, h => by
    rw [taken] at h
    split at h
    · rcases taken_sub ss _ x h with h | h
      · rcases List.mem_cons.mp h with rfl | h
        · exact .inr (by simp)
        · exact .inl h
      · exact .inr (by simp [h])
    · rcases taken_sub ss _ x h with h | h
      · exact .inl h
      · exact .inr (by simp [h])

theorem taken_keeps : ∀ (segs acc : List Segment), ∀ x ∈ acc, x ∈ taken acc segs
  | [], _, _, h => h
  | s :: ss, acc, x, h => by
    rw [taken]
    split
    · exact taken_keeps ss _ x (by simp [h])
    · exact taken_keeps ss _ x h

theorem taken_ne (a : Segment) (as : List Segment) : taken [] (a :: as) ≠ [] := by
  rw [taken, if_pos (by simp)]
  exact List.ne_nil_of_mem (taken_keeps as [a] a (by simp))

theorem buildLoop_mono {fuel fuel' : Nat} (hle : fuel ≤ fuel') : ∀ (segs : List Segment) (g g' : Graph),
    Graph.buildLoop fuel g segs = .ret g' → Graph.buildLoop fuel' g segs = .ret g'
  | [], _, _, h => h
  | v :: vs, g, g', h => by
    obtain ⟨⟨ok, g1⟩, h1, h2⟩ := Exec.bind_eq_ret.mp h
    rw [Graph.buildLoop, append_mono g v fuel fuel' _ hle h1]
    exact buildLoop_mono hle vs g1 g' h2

/-- The leafs of the graph of some segments are among them. -/
theorem leafs_picked {g : Graph} {segs : List Segment} (h : g.root.under.Perm (taken [] segs)) (hne : segs ≠ []) : ∀ x ∈ g.leafs, x ∈ segs := by
  obtain ⟨a, as, rfl⟩ := List.exists_cons_of_ne_nil hne
  have hu : g.root.under ≠ [] := fun e => taken_ne a as (by rw [e] at h; exact h.nil_eq.symm)
  exact fun x hx => (taken_sub _ [] x (h.mem_iff.mp (leaf_under g hu x hx))).resolve_left (by simp)

/-- The leafs of the graph of any segments that lie in a text, also of segments that clash, cut it into parts that make up the text: `Segmentate`
accepts them, and its result is the leafs with parts of the text that belong to no leaf between them. -/
theorem C103_leafs (s : Scanner) (segs : List Segment) (h : LieIn s.full.length segs) (name : Bytes) :
    ∃ N g out, (∀ fuel, N ≤ fuel → Graph.build fuel name segs = .ret g) ∧ s.segmentate g.leafs = (out, none) ∧
      Contiguous 0 out s.full.length ∧ Filled [] g.leafs out ∧
      ∃ parts : List Bytes, List.Forall₂ (fun x p => s.get x.tok = .ret p) out parts ∧ parts.flatten = s.full := by
  obtain ⟨N, g, h1, h2, h3⟩ := C28_build name segs fun x hx => (h x hx).2.1
  have hin : LieIn s.full.length g.leafs := by
    cases segs with
    | nil =>
      cases h1 N (Nat.le_refl _)
      intro x hx
      cases List.mem_singleton.mp hx
      simp
    | cons a as =>
      exact fun x hx => h x (leafs_picked h3 (by simp) x hx)
  have hok := (segmentate_iff s g.leafs hin).mpr (C30_leafs name _ g h2).2
  refine ⟨N, g, (s.segmentate g.leafs).1, h1, Prod.ext rfl hok, ?_⟩
  exact C25_scanner s g.leafs _ (fun x hx => (hin x hx).2.1) (Prod.ext rfl hok)

theorem taken_mem : ∀ (segs acc : List Segment), ∀ x ∈ segs, (∀ y ∈ acc ++ segs, x.tok.clashes y.tok = false) → x ∈ taken acc segs
  | [], _, _, h, _ => by simp at h
  | s :: ss, acc, x, h, hc => by
    rw [taken]
    rcases List.mem_cons.mp h with rfl | h
    · rw [if_pos fun a ha => hc a (by simp [ha])]
      exact taken_keeps ss _ x (by simp)
    · split
      · exact taken_mem ss _ x h fun y hy => hc y (by simpa [or_left_comm] using hy)
      · exact taken_mem ss _ x h fun y hy => hc y (by
          rcases List.mem_append.mp hy with hy | hy <;> simp [hy])

mutual
theorem leafs_of_every : ∀ (r n : Node), n ∈ r.every → ∀ y ∈ n.leafs, y ∈ r.leafs
  | .mk s ns, n, h, y, hy => by
    rw [Node.every] at h
    rcases List.mem_cons.mp h with rfl | h
    · exact hy
    · have := leafs_of_everyList ns n h y hy
      cases ns with
      | nil => simp [Node.everyList] at h
      | cons c cs => rwa [Node.leafs]
theorem leafs_of_everyList : ∀ (rs : List Node) (n : Node), n ∈ Node.everyList rs → ∀ y ∈ n.leafs, y ∈ Node.leafsList rs
  | [], n, h, _, _ => by simp [Node.everyList] at h
  | r :: rs, n, h, y, hy => by
    rw [Node.everyList] at h
    rw [Node.leafsList]
    rcases List.mem_append.mp h with h | h
    · exact List.mem_append_left _ (leafs_of_every r n h y hy)
    · exact List.mem_append_right _ (leafs_of_everyList rs n h y hy)
end

theorem leafs_ne : ∀ n : Node, n.leafs ≠ []
  | .mk s [] => by simp [Node.leafs]
  | .mk s (c :: cs) => by rw [Node.leafs]; simp [leafs_ne c]

theorem everyList_mem {n : Node} : ∀ {ns : List Node}, n ∈ Node.everyList ns → ∃ c ∈ ns, n ∈ c.every
  | [], h => by simp [Node.everyList] at h
  | c :: cs, h => by
    rw [Node.everyList] at h
    rcases List.mem_append.mp h with h | h
    · exact ⟨c, by simp, h⟩
    · obtain ⟨d, hd, h⟩ := everyList_mem h
      exact ⟨d, by simp [hd], h⟩

theorem tree_every {r : Node} (h : Tree r) : ∀ n ∈ r.every, Tree n := by
  induction h with
  | @mk s ns h1 h2 h3 h4 ih =>
    intro n hn
    rw [Node.every] at hn
    rcases List.mem_cons.mp hn with rfl | hn
    · exact .mk h1 h2 h3 h4
    · obtain ⟨c, hc, hn⟩ := everyList_mem hn
      exact ih c hc n hn

/-- A segment that clashes with none of the others and covers only such with the same token shows up: a leaf has its token, the segment itself if no
other one has its token.  (Partial: it may not cover an empty one.) -/
theorem C103_smallest_partial (segs : List Segment) (hs : ∀ x ∈ segs, x.tok.Ordered) (name : Bytes) (fuel : Nat) (g : Graph)
    (hg : Graph.build fuel name segs = .ret g) (x : Segment) (hx : x ∈ segs) (hc : ∀ y ∈ segs, x.tok.clashes y.tok = false)
    (hm : ∀ y ∈ segs, x.tok.covers y.tok = true → y.tok = x.tok) : ∃ y ∈ g.leafs, y ∈ segs ∧ y.tok = x.tok := by
  obtain ⟨N, g', h1, h2, h3⟩ := C28_build name segs hs
  cases (buildLoop_mono (Nat.le_max_left fuel N) _ _ _ hg).symm.trans (h1 _ (Nat.le_max_right fuel N))
  have hu : x ∈ g.root.under := h3.mem_iff.mpr (taken_mem segs [] x hx (by simpa using hc))
  have ha : x ∈ g.root.all := by rw [Node.all_eq]; exact List.mem_cons_of_mem _ hu
  rw [← every_segs] at ha
  obtain ⟨n, hn, rfl⟩ := List.mem_map.mp ha
  obtain ⟨y, hy⟩ := List.exists_mem_of_ne_nil _ (leafs_ne n)
  have hyl : y ∈ g.leafs := leafs_of_every g.root n hn y hy
  have hcov := ((tree_every (C29_tree name _ g h2) n hn).covers_all y (leafs_mem hy)).1
  have hyp := leafs_picked h3 (List.ne_nil_of_mem hx) y hyl
  exact ⟨y, hyl, hyp, hm y hyp hcov⟩

/-- Two segments with the token that the third one has between its parts. -/
example (fuel : Nat) (g : Graph) (hg : Graph.build fuel b!"g" [⟨b!"a", ⟨2, 4⟩⟩, ⟨b!"b", ⟨2, 4⟩⟩, ⟨b!"c", ⟨0, 9⟩⟩] = .ret g) :
    ∃ y ∈ g.leafs, y ∈ [⟨b!"a", ⟨2, 4⟩⟩, ⟨b!"b", ⟨2, 4⟩⟩, (⟨b!"c", ⟨0, 9⟩⟩ : Segment)] ∧ y.tok = ⟨2, 4⟩ :=
  C103_smallest_partial [⟨b!"a", ⟨2, 4⟩⟩, ⟨b!"b", ⟨2, 4⟩⟩, ⟨b!"c", ⟨0, 9⟩⟩] (by decide) b!"g" fuel g hg ⟨b!"a", ⟨2, 4⟩⟩ (by simp) (by decide) (by decide)

/-! ### what reads pick -/

/-- What is picked into the basket `b` has an info with `K`; a `Wrap` function moves forward and adds to the basket only such segments that lie in
the text. -/
def Reader.picksIn (b : Nat) (K : Bytes → Prop) : Reader → Prop
  | .wrap _ f => ∀ s, Inside s → RetE (fun x => Forward s x.2 ∧ ∀ g ∈ x.2.heap.baskets b, g ∈ s.heap.baskets b ∨
      ((0 ≤ g.tok.frm ∧ g.tok.frm ≤ g.tok.to ∧ g.tok.to ≤ (s.full.length : Int)) ∧ K g.info)) (f s)
  | .pick info k _ => k = b → K info
  | _ => True

/-- A segment in a text of the length `N`. -/
def Segment.lies (N : Nat) (g : Segment) : Prop := 0 ≤ g.tok.frm ∧ g.tok.frm ≤ g.tok.to ∧ g.tok.to ≤ (N : Int)

theorem at_baskets {s : Scanner} {m : Int} {b : Nat} {g : Segment} (h : g ∈ (s.at m).heap.baskets b) : g ∈ s.heap.baskets b := by
  unfold Scanner.at Scanner.notify at h
  split at h
  · exact h
  · rename_i id _
    by_cases e : b = id
    · subst e
      simp only [upd_self] at h
      exact basketUpdate_mem h
    · simp only [upd_ne _ _ e] at h
      exact h
  · exact h

theorem lies_frame (rt : Rt) (G : Env) (b N : Nat) (K : Bytes → Prop) : Frame rt G (Reader.picksIn b K) (fun s => Inside s ∧ s.full.length ≤ N)
    (fun s s' => Forward s s' ∧ ∀ g ∈ s'.heap.baskets b, g ∈ s.heap.baskets b ∨ (g.lies N ∧ K g.info)) where
  inside h := h.1
  fwd _ h := h.1
  inv hs h := ⟨h.1.1, by rw [h.1.2.1]; exact hs.2⟩
  refl h := ⟨Forward.refl h.1, fun _ h => .inl h⟩
  trans _ h h' := ⟨h.1.trans h'.1, fun g hg => (h'.2 g hg).elim (h.2 g) .inr⟩
  go h h1 h2 := ⟨forward_go h.1 h1 h2, fun g hg => .inl (at_baskets hg)⟩
  back h h' := ⟨forward_at h.1 h'.1, fun g hg => h'.2 g (at_baskets hg)⟩
  cells _ _ _ _ h := h
  janus _ _ _ _ h := h
  pick {s s' info k c n} hp hs _ h := by
    refine ⟨h.1, fun g hg => ?_⟩
    have hg : g ∈ upd s'.heap.baskets k (s'.heap.baskets k ++ [⟨info, makeToken s.pos s'.pos⟩]) b := hg
    by_cases e : b = k
    · subst e
      rw [upd_self] at hg
      rcases List.mem_append.mp hg with hg | hg
      · exact h.2 g hg
      · right
        cases List.mem_singleton.mp hg
        refine ⟨?_, hp rfl⟩
        have h1 := h.1.2.2
        have h2 := h.1.1.2
        rw [h.1.2.1] at h2
        have h3 := hs.1.1
        have h4 := hs.2
        unfold Segment.lies makeToken
        rw [if_neg (by omega)]
        simp only
        omega
    · rw [upd_ne _ _ e] at hg
      exact h.2 g hg
  map _ _ h := h
  enter _ h := h
  leave _ _ _ h := h
  wrap {w f s} hp hs := (hp s hs.1).mono fun x _ h => ⟨h.1, fun g hg => (h.2 g hg).imp id fun h => ⟨⟨h.1.1, h.1.2.1, by have := hs.2; omega⟩, h.2⟩⟩
  body {s s' c t n str e sub} _ hs h hstr _ h3 := by
    have hl : str.length ≤ N := by
      have := hstr.length_le
      rw [h.1.2.1] at this
      exact Nat.le_trans this hs.2
    have hsub := h3 ⟨new_inside _ _, hl⟩
    exact ⟨⟨h.1, fun g hg => (hsub.2 g hg).elim (h.2 g) .inr⟩, fun _ => ⟨h.1, fun g hg => (hsub.2 g (at_baskets hg)).elim (h.2 g) .inr⟩⟩

/-- What a program does with a scanner and a basket: it makes a basket for a scanner, reads with any readers of the rules, and moves the scanner. -/
inductive Picking (rt : Rt) (G : Env) (b : Nat) (K : Bytes → Prop) : Scanner → Prop
  | start (s : Scanner) : Inside s → Picking rt G b K (s.newBasket b)
  | read (n : Nat) (r : Reader) (s : Scanner) (e : Option Err) (s' : Scanner) : Picking rt G b K s → r.Every (Reader.picksIn b K) →
      read rt G n r s = .ret (e, s') → Picking rt G b K s'
  | move (s : Scanner) (k : Int) : Picking rt G b K s → Picking rt G b K (s.move k).2
  | jump (s : Scanner) (m : Int) : Picking rt G b K s → 0 ≤ m → m ≤ (s.full.length : Int) → Picking rt G b K (s.toMarker m).2
  | untrack (s : Scanner) (t : Option TrackerRef) : Picking rt G b K s → Picking rt G b K { s with tracker := t }

theorem Picking.lies {rt : Rt} {G : Env} {b : Nat} {K : Bytes → Prop} (hG : G.Every (Reader.picksIn b K)) {s : Scanner} (h : Picking rt G b K s) :
    Inside s ∧ LieIn s.full.length (s.heap.baskets b) ∧ ∀ g ∈ s.heap.baskets b, K g.info := by
  induction h with
  | start s hs => exact ⟨hs, by simp [LieIn, Scanner.newBasket, upd], by simp [Scanner.newBasket, upd]⟩
  | read n r s e s' _ hr hrd ih =>
    have := (lies_frame rt G b s.full.length K).read (fun _ _ _ _ hi => hG.get hi) n r hr s ⟨ih.1, Nat.le_refl _⟩ _ hrd
    refine ⟨this.1.1, fun g hg => ?_, fun g hg => (this.2 g hg).elim (ih.2.2 g) fun h => h.2⟩
    have e : s'.full = s.full := this.1.2.1
    rw [e]
    exact (this.2 g hg).elim (ih.2.1 g) fun h => h.1
  | move s k _ ih =>
    unfold Scanner.move
    simp only
    split
    · exact ih
    · next h =>
      simp only [Bool.or_eq_true, decide_eq_true_eq, not_or] at h
      exact ⟨⟨by rw [notify_pos]; simp only; omega, by rw [notify_pos, notify_full]; simp only; omega⟩, fun g hg => by
        rw [notify_full]; exact ih.2.1 g (at_baskets hg), fun g hg => ih.2.2 g (at_baskets hg)⟩
  | jump s m _ h0 h1 ih =>
    rw [toMarker_at h0]
    exact ⟨⟨by rw [Scanner.at, notify_pos]; exact h0, by rw [Scanner.at, notify_pos, notify_full]; exact h1⟩, fun g hg => by
      rw [Scanner.at, notify_full]; exact ih.2.1 g (at_baskets hg), fun g hg => ih.2.2 g (at_baskets hg)⟩
  | untrack s t _ ih => exact ih

/-- Whatever was read with whatever grammar, the leafs of the graph of the picked segments cut the text into parts that make up the text. -/
theorem C103_picked (rt : Rt) (G : Env) (b : Nat) (K : Bytes → Prop) (hG : G.Every (Reader.picksIn b K)) (s : Scanner) (h : Picking rt G b K s)
    (name : Bytes) :
    ∃ N g out, (∀ fuel, N ≤ fuel → Graph.build fuel name (s.heap.baskets b) = .ret g) ∧ s.segmentate g.leafs = (out, none) ∧
      Contiguous 0 out s.full.length ∧ Filled [] g.leafs out ∧
      ∃ parts : List Bytes, List.Forall₂ (fun x p => s.get x.tok = .ret p) out parts ∧ parts.flatten = s.full :=
  C103_leafs s _ (h.lies hG).2.1 name

/-- Once something was picked, and nothing with an empty info, the known ones among the parts are the leafs, and they were picked.  (Partial: not so if
nothing was picked.) -/
theorem C103_known_partial (rt : Rt) (G : Env) (b : Nat) (hG : G.Every (Reader.picksIn b (· ≠ []))) (s : Scanner) (h : Picking rt G b (· ≠ []) s)
    (hne : s.heap.baskets b ≠ []) (name : Bytes) (fuel : Nat) (g : Graph) (hg : Graph.build fuel name (s.heap.baskets b) = .ret g) :
    (s.segmentate g.leafs).1.filter Segment.known = g.leafs ∧ ∀ x ∈ g.leafs, x ∈ s.heap.baskets b := by
  obtain ⟨_, hl, hk⟩ := h.lies hG
  obtain ⟨N, g', h1, h2, h3⟩ := C28_build name (s.heap.baskets b) fun x hx => (hl x hx).2.1
  cases (buildLoop_mono (Nat.le_max_left fuel N) _ _ _ hg).symm.trans (h1 _ (Nat.le_max_right fuel N))
  have hm := leafs_picked h3 hne
  refine ⟨?_, hm⟩
  have hin : LieIn s.full.length g.leafs := fun x hx => hl x (hm x hx)
  have hok := (segmentate_iff s g.leafs hin).mpr (C30_leafs name _ g h2).2
  rw [segmentate_whole] at hok ⊢
  exact C25_known _ g.leafs (by simp [Token.Ordered]) (fun x hx => (hin x hx).2.1) rfl (fun x hx => hk x (hm x hx)) hok

/-- Without the graph: `Segmentate` accepts the picked segments themselves exactly when each begins at or behind the end of those picked before it, so
none of them may have been picked inside another one. -/
theorem C103_direct (rt : Rt) (G : Env) (b : Nat) (K : Bytes → Prop) (hG : G.Every (Reader.picksIn b K)) (s : Scanner) (h : Picking rt G b K s) :
    (s.segmentate (s.heap.baskets b)).2 = none ↔ (s.heap.baskets b).Pairwise (fun x y => x.tok.to ≤ y.tok.frm) :=
  segmentate_iff s _ (h.lies hG).2.1

/-! ### the grammars of the library -/

/-- A check for `picksIn`. -/
def Reader.picksInB : Reader → Bool
  | .wrap _ _ => false
  | .pick info _ _ => !info.isEmpty
  | _ => true

theorem picksIn_of_B {b : Nat} {r : Reader} (h : r.picksInB = true) : r.picksIn b (· ≠ []) := by
  cases r with
  | wrap w f => cases h
  | pick info k c => exact fun _ => by simpa [Reader.picksInB] using h
  | _ => trivial

/-- JSON, Lua and MXT with all rules picked, read by any rule, whether the read succeeds or not. -/
theorem C103_shipped (rt : Rt) (G : Env) (hG : G = Json.env ∨ G = Lua.env ∨ G = Mxt.env) (i n : Nat) (text : Bytes) (e : Option Err) (s : Scanner)
    (h : read rt (G.pickAll 0) n (.rule i) ((Scanner.new text Heap.empty).newBasket 0) = .ret (e, s)) (name : Bytes) :
    ∃ N g out, (∀ fuel, N ≤ fuel → Graph.build fuel name (s.heap.baskets 0) = .ret g) ∧ s.segmentate g.leafs = (out, none) ∧
      (∃ parts : List Bytes, List.Forall₂ (fun x p => s.get x.tok = .ret p) out parts ∧ parts.flatten = text) ∧
      (s.heap.baskets 0 ≠ [] → out.filter Segment.known = g.leafs ∧ ∀ x ∈ g.leafs, x ∈ s.heap.baskets 0) := by
  have hE : (G.pickAll 0).Every (Reader.picksIn 0 (· ≠ [])) := by
    rcases hG with rfl | rfl | rfl
    · exact (Env.everyB_sound (p := Reader.picksInB) (by decide +kernel)).imp fun _ => picksIn_of_B
    · exact (Env.everyB_sound (p := Reader.picksInB) (by decide +kernel)).imp fun _ => picksIn_of_B
    · exact (Env.everyB_sound (p := Reader.picksInB) (by decide +kernel)).imp fun _ => picksIn_of_B
  have hr : (Reader.rule i).Every (Reader.picksIn 0 (· ≠ [])) := .mk (r := .rule i) trivial (by simp [Reader.subs])
  have hp : Picking rt (G.pickAll 0) 0 (· ≠ []) s := .read n (.rule i) _ e s (.start _ (new_inside _ _)) hr h
  obtain ⟨N, g, out, h1, h2, _, _, h3⟩ := C103_picked rt _ 0 _ hE s hp name
  have hf : s.full = text := ((lies_frame rt (G.pickAll 0) 0 text.length (· ≠ [])).read (fun _ _ _ _ hi => hE.get hi) n _ hr
    ((Scanner.new text Heap.empty).newBasket 0) ⟨new_inside text Heap.empty, Nat.le_refl _⟩ _ h).1.2.1
  refine ⟨N, g, out, h1, h2, by rwa [hf] at h3, fun hne => ?_⟩
  have := C103_known_partial rt _ 0 hE s hp hne name N g (h1 N (Nat.le_refl _))
  rwa [h2] at this

/-- The parts by the leafs of the graph of what a read picked, each with its text. -/
def partsAfter (name : Bytes) : Exec (Option Err × Scanner) → List (Bytes × Option Bytes)
  | .ret (_, s) =>
    match Graph.build 100 name (s.heap.baskets 0) with
    | .ret g => (s.segmentate g.leafs).1.map fun x => (x.info, match s.get x.tok with | .ret p => some p | _ => none)
    | _ => []
  | _ => []

/-- Digits and words are picked, and lists of them, with blanks and a comma that no leaf has. -/
example : partsAfter b!"f" (read exRt [] 40
    (.seq [.pick b!"list" 0 (.seq [.pick b!"num" 0 (.many (.between 48 57)), .rune 44, .pick b!"word" 0 (.many (.between 97 122))]), .zom (.rune 32)])
      ((Scanner.new b!"12,ab !" Heap.empty).newBasket 0)) =
    [(b!"num", some b!"12"), (b!"", some b!","), (b!"word", some b!"ab"), (b!"", some b!" !")] := by decide +kernel

example := C103_leafs (Scanner.new b!"some text" Heap.empty) [⟨b!"a", ⟨0, 4⟩⟩, ⟨b!"b", ⟨2, 6⟩⟩, ⟨b!"c", ⟨5, 9⟩⟩] (by unfold LieIn; decide)

/-- If nothing was picked, the name of the graph is a known part, though nobody picked it.  An empty segment hides those that it ends: reading `[7, 8]`
as JSON with all rules picked picks the numbers, yet the numbers are unknown parts, as the graph has the empty `fraction` below them.  And the picked segments themselves are refused when one was
picked inside another one. -/
theorem C103_violated :
    partsAfter b!"f" (read exRt [] 9 (.pick b!"a" 0 (.rune 97)) ((Scanner.new b!"b" Heap.empty).newBasket 0)) = [(b!"f", some b!""), (b!"", some b!"b")] ∧
    basketAfter 0 (read exRt [] 9 (.pick b!"a" 0 (.rune 97)) ((Scanner.new b!"b" Heap.empty).newBasket 0)) = some (false, 0, []) ∧
    basketAfter 0 (read exRt [] 9 (.pick b!"ab" 0 (.seq [.pick b!"a" 0 (.rune 97), .rune 98])) ((Scanner.new b!"ab" Heap.empty).newBasket 0)) =
      some (true, 2, [⟨b!"a", ⟨0, 1⟩⟩, ⟨b!"ab", ⟨0, 2⟩⟩]) ∧
    partsAfter b!"f" (read exRt (Json.env.pickAll 0) 80 Json.reader ((Scanner.new b!"[7, 8]" Heap.empty).newBasket 0)) =
      [(b!"ws", some b!""), (b!"", some b!"["), (b!"ws", some b!""), (b!"", some b!"7"), (b!"fraction", some b!""), (b!"", some b!","),
        (b!"ws", some b!" "), (b!"", some b!"8"), (b!"fraction", some b!""), (b!"", some b!"]"), (b!"ws", some b!"")] ∧
    ((Scanner.new b!"ab" Heap.empty).segmentate [⟨b!"a", ⟨0, 1⟩⟩, ⟨b!"ab", ⟨0, 2⟩⟩]).2 = some ⟨b!"ab", ⟨0, 2⟩⟩ := by
  refine ⟨?_, ?_, ?_, ?_, ?_⟩ <;> decide +kernel

end Tok
