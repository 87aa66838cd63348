/-
C70 The nodes of a graph form a tree in memory.
-/
import Verif.Proofs.GraphMem
import Mathlib.Logic.Relation

namespace Tok

/-! ### trees in memory -/

/-- `q` is in the slice `Nodes` of the node at `p`. -/
def NodeMem.Child (m : NodeMem) (p q : Nat) : Prop := q ∈ (m p).kids

/-- `q` can be reached from `p` along pointers. -/
def NodeMem.Reach (m : NodeMem) (p q : Nat) : Prop := Relation.ReflTransGen m.Child p q

/-- What can be reached from `p` is a tree: nothing points to `p`, every node is in at most one slice and there once, and no node can be
reached from itself along one pointer or more. -/
structure NodeMem.TreeAt (m : NodeMem) (p : Nat) : Prop where
  top : ∀ q, m.Reach p q → ¬ m.Child q p
  parent : ∀ q q' r, m.Reach p q → m.Reach p q' → m.Child q r → m.Child q' r → q = q'
  once : ∀ q, m.Reach p q → (m q).kids.Nodup
  acyclic : ∀ q, m.Reach p q → ¬ Relation.TransGen m.Child q q

section
variable {m : NodeMem} {p : Nat} {t : Node} {F : Nat → Prop}

theorem Rep.closed (h : Rep m p t F) : ∀ {q r}, F q → m.Child q r → F r := by
  induction h with
  | @mk p s l h1 h2 h3 h4 ih =>
    intro q r hq hc
    rcases hq with rfl | ⟨x, hx, hq⟩
    · unfold NodeMem.Child at hc
      rw [h1] at hc
      obtain ⟨x, hx, rfl⟩ := List.mem_map.1 hc
      exact .inr ⟨x, hx, (h2 x hx).self⟩
    · exact .inr ⟨x, hx, ih x hx hq hc⟩

theorem Rep.reach (h : Rep m p t F) : ∀ {q}, F q ↔ m.Reach p q := by
  have h1 : ∀ q, m.Reach p q → F q := by
    intro q hq
    induction hq with
    | refl => exact h.self
    | tail _ hc ih => exact h.closed ih hc
  have h2 : ∀ q, F q → m.Reach p q := by
    clear h1
    induction h with
    | @mk p s l h1 h2 h3 h4 ih =>
      intro q hq
      rcases hq with rfl | ⟨x, hx, hq⟩
      · exact .refl
      · refine .head ?_ (ih x hx q hq)
        unfold NodeMem.Child
        rw [h1]
        exact List.mem_map_of_mem hx
  exact fun {q} => ⟨h2 q, h1 q⟩

theorem Rep.no_parent (h : Rep m p t F) {q : Nat} (hq : F q) : ¬ m.Child q p := by
  intro hc
  cases h with
  | @mk _ s l h1 h2 h3 h4 =>
    rcases hq with rfl | ⟨x, hx, hq⟩
    · unfold NodeMem.Child at hc
      rw [h1] at hc
      obtain ⟨x, hx, e⟩ := List.mem_map.1 hc
      exact h4 x hx (e ▸ (h2 x hx).self)
    · exact h4 x hx ((h2 x hx).closed hq hc)

theorem Rep.one_parent (h : Rep m p t F) : ∀ {q q' r}, F q → F q' → m.Child q r → m.Child q' r → q = q' := by
  induction h with
  | @mk p s l h1 h2 h3 h4 ih =>
    have hsame : ∀ x ∈ l, ∀ y ∈ l, ∀ r, x.foot r → y.foot r → x = y := by
      intro x hx y hy r hxr hyr
      rcases pairwise_mem (fun a b h q hb ha => h q ha hb) h3 x hx y hy with e | e
      · exact e
      · exact (e r hxr hyr).elim
    have hp : ∀ {q r}, (∃ x ∈ l, x.foot q) → m.Child q r → m.Child p r → False := by
      rintro q r ⟨x, hx, hq⟩ hc hpc
      unfold NodeMem.Child at hpc
      rw [h1] at hpc
      obtain ⟨y, hy, rfl⟩ := List.mem_map.1 hpc
      have := hsame x hx y hy _ ((h2 x hx).closed hq hc) (h2 y hy).self
      subst this
      exact (h2 x hx).no_parent hq hc
    intro q q' r hq hq' hc hc'
    rcases hq with rfl | hq <;> rcases hq' with rfl | hq'
    · rfl
    · exact (hp hq' hc' hc).elim
    · exact (hp hq hc hc').elim
    · obtain ⟨x, hx, hq⟩ := hq
      obtain ⟨y, hy, hq'⟩ := hq'
      have := hsame x hx y hy r ((h2 x hx).closed hq hc) ((h2 y hy).closed hq' hc')
      subst this
      exact ih x hx hq hq' hc hc'

theorem Rep.nodup (h : Rep m p t F) : ∀ {q}, F q → (m q).kids.Nodup := by
  induction h with
  | @mk p s l h1 h2 h3 h4 ih =>
    intro q hq
    rcases hq with rfl | ⟨x, hx, hq⟩
    · rw [h1]
      show (l.map Leg.ptr).Nodup
      unfold List.Nodup
      rw [List.pairwise_map]
      refine h3.imp_of_mem ?_
      intro x y hx hy hxy e
      exact hxy _ (h2 x hx).self (e ▸ (h2 y hy).self)
    · exact ih x hx hq

theorem Rep.acyclic (h : Rep m p t F) : ∀ {q}, F q → ¬ Relation.TransGen m.Child q q := by
  induction h with
  | @mk p s l h1 h2 h3 h4 ih =>
    intro q hq hc
    rcases hq with rfl | ⟨x, hx, hq⟩
    · have : ∀ r, Relation.TransGen m.Child q r → ∃ x ∈ l, x.foot r := by
        intro r hr
        induction hr with
        | single hc =>
          unfold NodeMem.Child at hc
          rw [h1] at hc
          obtain ⟨x, hx, rfl⟩ := List.mem_map.1 hc
          exact ⟨x, hx, (h2 x hx).self⟩
        | tail _ hc ihr =>
          obtain ⟨x, hx, hr⟩ := ihr
          exact ⟨x, hx, (h2 x hx).closed hr hc⟩
      obtain ⟨x, hx, hq⟩ := this q hc
      exact h4 x hx hq
    · exact ih x hx hq hc

theorem Rep.treeAt (h : Rep m p t F) : m.TreeAt p :=
  ⟨fun _ hq => h.no_parent (h.reach.2 hq), fun _ _ _ hq hq' => h.one_parent (h.reach.2 hq) (h.reach.2 hq'), fun _ hq => h.nodup (h.reach.2 hq),
    fun _ hq => h.acyclic (h.reach.2 hq)⟩

theorem Rep.setTok (h : Rep m p t F) (k : Token) : Rep (PGraph.setTok m p k) p (t.setTok k) F := by
  cases h with
  | @mk _ s l h1 h2 h3 h4 =>
    refine .mk l ?_ (fun x hx => (h2 x hx).congr fun q hq => upd_off _ _ (fun e => h4 x hx (e ▸ hq))) h3 h4
    show upd m p _ p = _
    rw [upd_at, h1]
    rfl

end

/-! ### Append -/

/-- The graph in memory stands for the tree. -/
structure PGraph.Is (g : PGraph) (t : Node) : Prop where
  rep : ∃ F, Rep g.mem g.root t F ∧ ∀ q, F q → q < g.next
  ok : GraphOk ⟨t⟩

/-- The root as `Append` prepares it. -/
theorem append_root {t : Node} (hg : GraphOk ⟨t⟩) {seg : Segment} (hs : seg.tok.Ordered) :
    Tree (if !t.tok.covers seg.tok then (if t.nodes.length > 0 then t.setTok (t.tok.merge seg.tok) else t.setTok seg.tok) else t) ∧
    (if !t.tok.covers seg.tok then (if t.nodes.length > 0 then t.setTok (t.tok.merge seg.tok) else t.setTok seg.tok) else t).tok.covers seg.tok = true := by
  obtain ⟨⟨info, tok⟩, ns⟩ := t
  obtain ⟨hT, _, _⟩ := hg
  simp only at hT
  by_cases h1 : tok.covers seg.tok = true
  · rw [if_neg (by simp only [Node.tok, Node.seg, h1]; decide)]
    exact ⟨hT, h1⟩
  · rw [if_pos (by simp only [Node.tok, Node.seg]; simpa using h1)]
    by_cases hn : ns = []
    · subst hn
      rw [if_neg (by show ¬ (0 > 0); omega)]
      exact ⟨.mk hs (fun _ h => nomatch h) (fun _ h => nomatch h) .nil, C24_covers_partialOrder.1 _⟩
    · rw [if_pos (by simpa [Node.nodes] using List.length_pos_iff.2 hn)]
      refine ⟨?_, (C24_merge_least _ _).2.1⟩
      have hord : (tok.merge seg.tok).Ordered := by
        have := (C24_merge_least tok seg.tok).2.1
        unfold Token.Ordered at *
        simp only [Token.covers, Bool.and_eq_true, decide_eq_true_eq] at this
        omega
      exact .mk hord (fun n hn => hT.child hn) (fun n hn => covers_trans (C24_merge_least _ _).1 (hT.covers hn)) hT.apart

theorem rankLoopP_seg {rank : NodeMem → Nat → Nat → Exec (Bool × NodeMem)} (hr : ∀ m a b ok m', rank m a b = .ret (ok, m') → ∀ q, (m' q).seg = (m q).seg)
    (a b : Nat) : ∀ n i kept m ok m', rankLoopP rank a b n i kept m = .ret (ok, m') → ∀ q, (m' q).seg = (m q).seg := by
  intro n
  induction n with
  | zero => intro i kept m ok m' h; cases h
  | succ n ih =>
    intro i kept m ok m' h q
    rw [rankLoopP] at h
    split at h
    · simp only [Exec.ret.injEq, Prod.mk.injEq] at h
      rw [← h.2]
      unfold upd
      split
      · next e => rw [e]
      · rfl
    · split at h
      · rw [Exec.bind_eq_ret] at h
        obtain ⟨⟨ok1, m1⟩, e1, e2⟩ := h
        simp only at e2
        split at e2
        · simp only [Exec.pure_eq, Exec.ret.injEq, Prod.mk.injEq] at e2
          rw [← e2.2]
          exact hr _ _ _ _ _ e1 q
        · rw [ih _ _ _ _ _ e2 q]
          exact hr _ _ _ _ _ e1 q
      · split at h
        · simp only [Exec.ret.injEq, Prod.mk.injEq] at h
          rw [← h.2]
        · split at h
          · exact hr _ _ _ _ _ h q
          · exact ih _ _ _ _ _ h q

/-- `rankNodes` changes no segment. -/
theorem rankP_seg : ∀ n m a b ok m', rankP n m a b = .ret (ok, m') → ∀ q, (m' q).seg = (m q).seg := by
  intro n
  induction n with
  | zero => intro m a b ok m' h; cases h
  | succ n ih =>
    intro m a b ok m' h q
    rw [rankP] at h
    split at h
    · simp only [Exec.ret.injEq, Prod.mk.injEq] at h
      rw [← h.2]
    · exact rankLoopP_seg ih a b _ _ _ _ _ _ h q

/-- **Append in memory**: on a graph whose nodes are a tree in memory, `Append` does what the model on trees says; the nodes are a tree
afterwards; the nodes of the graph are those it had and, if the segment was accepted, the new one; if it was refused, no node of the graph has
changed. -/
theorem C70_append {g : PGraph} {t : Node} (hg : g.Is t) {seg : Segment} (hs : seg.tok.Ordered) {n : Nat} (hn : t.all.length + 2 ≤ n) :
    ∃ ok g' t', g.append n seg = .ret (ok, g') ∧ Graph.append n ⟨t⟩ seg = .ret (ok, ⟨t'⟩) ∧ g'.Is t' ∧ g'.mem.TreeAt g'.root ∧ g'.root = g.root ∧
      (∀ q, g'.mem.Reach g'.root q ↔ g.mem.Reach g.root q ∨ (ok = true ∧ q = g.next)) ∧
      (∀ q, g.mem.Reach g.root q → q ≠ g.root → (g'.mem q).seg = (g.mem q).seg) ∧
      (ok = true → (g'.mem g.next).seg = seg) ∧ (ok = false → ∀ q, g.mem.Reach g.root q → g'.mem q = g.mem q) := by
  obtain ⟨⟨F, hrep, hlt⟩, hok⟩ := hg
  have hnF : ¬ F g.next := fun h => Nat.lt_irrefl _ (hlt _ h)
  have hroot : g.root ≠ g.next := fun e => hnF (e ▸ hrep.self)
  let m0 : NodeMem := upd g.mem g.next ⟨seg, []⟩
  have hm0 : ∀ q, q ≠ g.next → m0 q = g.mem q := fun q hq => upd_off _ _ hq
  have hrep0 : Rep m0 g.root t F := hrep.congr fun q hq => hm0 q (fun e => hnF (e ▸ hq))
  have htr : m0.tok g.root = t.tok := hrep0.tok
  have htn : m0.tok g.next = seg.tok := by show (upd g.mem g.next _ g.next).seg.tok = _; rw [upd_at]
  have hkids : (m0 g.root).kids.length = t.nodes.length := by
    cases hrep0 with
    | mk l h1 => rw [h1]; simp [Node.nodes]
  obtain ⟨hT1, hcov1⟩ := append_root hok hs
  -- the memory and the tree before ranking
  obtain ⟨m1, t1, e1, e2, hrep1, hm1, hseg1, hkid1, hT, hcov, hlen, hback⟩ : ∃ (m1 : NodeMem) (t1 : Node),
      (if !(m0.tok g.root).covers (m0.tok g.next) then
        if (m0 g.root).kids.length > 0 then PGraph.setTok m0 g.root ((m0.tok g.root).merge (m0.tok g.next))
        else PGraph.setTok m0 g.root (m0.tok g.next)
      else m0) = m1 ∧
      (if !t.tok.covers seg.tok then (if t.nodes.length > 0 then t.setTok (t.tok.merge seg.tok) else t.setTok seg.tok) else t) = t1 ∧
      Rep m1 g.root t1 F ∧ (∀ q, q ≠ g.root → m1 q = m0 q) ∧ (m1 g.root).seg.info = (m0 g.root).seg.info ∧ (m1 g.root).kids = (m0 g.root).kids ∧
      Tree t1 ∧ t1.tok.covers seg.tok = true ∧ t1.all.length = t.all.length ∧ t1.setTok t.tok = t := by
    rw [htr, htn, hkids]
    have hset : ∀ k : Token, Rep (PGraph.setTok m0 g.root k) g.root (t.setTok k) F ∧ (∀ q, q ≠ g.root → PGraph.setTok m0 g.root k q = m0 q) ∧
        (PGraph.setTok m0 g.root k g.root).seg.info = (m0 g.root).seg.info ∧ (PGraph.setTok m0 g.root k g.root).kids = (m0 g.root).kids ∧
        (t.setTok k).all.length = t.all.length ∧ (t.setTok k).setTok t.tok = t := by
      intro k
      refine ⟨hrep0.setTok k, fun q hq => upd_off _ _ hq, ?_, ?_, ?_, ?_⟩
      · show (upd m0 g.root _ g.root).seg.info = _; rw [upd_at]
      · show (upd m0 g.root _ g.root).kids = _; rw [upd_at]
      · cases t; rw [Node.all_eq, Node.all_eq]; rfl
      · cases t; rfl
    split at hT1
    · next hc =>
      rw [if_pos hc] at hcov1
      rw [if_pos hc, if_pos hc]
      split at hT1
      · next hl =>
        rw [if_pos hl] at hcov1
        rw [if_pos hl, if_pos hl]
        obtain ⟨a1, a2, a3, a4, a5, a6⟩ := hset (t.tok.merge seg.tok)
        exact ⟨_, _, rfl, rfl, a1, a2, a3, a4, hT1, hcov1, a5, a6⟩
      · next hl =>
        rw [if_neg hl] at hcov1
        rw [if_neg hl, if_neg hl]
        obtain ⟨a1, a2, a3, a4, a5, a6⟩ := hset seg.tok
        exact ⟨_, _, rfl, rfl, a1, a2, a3, a4, hT1, hcov1, a5, a6⟩
    · next hc =>
      rw [if_neg hc] at hcov1
      rw [if_neg hc, if_neg hc]
      exact ⟨_, _, rfl, rfl, hrep0, fun _ _ => rfl, rfl, rfl, hT1, hcov1, rfl, by cases t; rfl⟩
  have hmn : m1 g.next = ⟨seg, []⟩ := by rw [hm1 _ hroot.symm]; exact upd_at _ _ _
  obtain ⟨ok, t', b', m', r1, r2, r3, r4, r5, r6⟩ := (rankP_spec hs n m1 g.root t1 F hrep1 hT hcov hnF hmn (by omega)).both
  have ha : g.append n seg = if !ok then .ret (ok, ⟨PGraph.setTok m' g.root (m0.tok g.root), g.next + 1, g.root⟩) else .ret (ok, ⟨m', g.next + 1, g.root⟩) := by
    show (rankP n (if !(m0.tok g.root).covers (m0.tok g.next) then
        if (m0 g.root).kids.length > 0 then PGraph.setTok m0 g.root ((m0.tok g.root).merge (m0.tok g.next))
        else PGraph.setTok m0 g.root (m0.tok g.next)
      else m0) g.root g.next >>= fun x => _) = _
    rw [e1, r2]
    rfl
  have hb : Graph.append n ⟨t⟩ seg = if !ok then .ret (ok, ⟨t'.setTok t.tok⟩) else .ret (ok, ⟨t'⟩) := by
    show (rankNodes n (if !t.tok.covers seg.tok then (if t.nodes.length > 0 then t.setTok (t.tok.merge seg.tok) else t.setTok seg.tok) else t) (.mk seg []) >>= fun x => _) = _
    rw [e2, r1]
    rfl
  cases ok with
  | false =>
    obtain ⟨g1, rfl⟩ := r5 rfl
    simp only [Bool.not_false, if_true] at ha hb
    rw [hback] at hb
    have hsame : ∀ q, q ≠ g.next → PGraph.setTok m' g.root (m0.tok g.root) q = g.mem q := by
      intro q hq
      by_cases hqr : q = g.root
      · subst hqr
        show upd m' _ _ _ = _
        rw [upd_at, g1 _ hq, hseg1, hkid1, hm0 _ hq]
        show PNode.mk ⟨_, (m0 g.root).seg.tok⟩ _ = _
        rw [hm0 _ hq]
      · show upd m' _ _ _ = _
        rw [upd_off _ _ hqr, g1 _ hq, hm1 _ hqr, hm0 _ hq]
    have hsF : ∀ q, F q → PGraph.setTok m' g.root (m0.tok g.root) q = g.mem q := fun q hq => hsame q (fun e => hnF (e ▸ hq))
    have hrep' := hrep.congr hsF
    refine ⟨false, _, t, ha, hb, ⟨⟨F, hrep', fun q hq => Nat.lt_succ_of_lt (hlt q hq)⟩, hok⟩, hrep'.treeAt, rfl, ?_, ?_, by simp, ?_⟩
    · intro q
      show NodeMem.Reach _ g.root q ↔ _
      rw [← hrep'.reach, ← hrep.reach]
      simp
    · intro q hq _
      show (PGraph.setTok m' _ _ q).seg = _
      rw [hsF q (hrep.reach.2 hq)]
    · intro _ q hq
      exact hsF q (hrep.reach.2 hq)
  | true =>
    simp only [Bool.not_true, Bool.false_eq_true, if_false] at ha hb
    have hrep' := r6 rfl
    have happ : (Graph.mk t).Appends seg true ⟨t'⟩ := ⟨n, hb⟩
    have hok' : GraphOk ⟨t'⟩ := by
      rcases append_spec ⟨t⟩ hok seg hs with ⟨_, hf⟩ | ⟨_, g'', ht, hok'', _⟩
      · have := (appends_unique happ hf).1; simp at this
      · obtain ⟨_, e⟩ := appends_unique happ ht
        rw [e]; exact hok''
    refine ⟨true, _, t', ha, hb, ⟨⟨_, hrep', ?_⟩, hok'⟩, hrep'.treeAt, rfl, ?_, ?_, ?_, by simp⟩
    · rintro q (hq | rfl)
      · exact Nat.lt_succ_of_lt (hlt q hq)
      · exact Nat.lt_succ_self _
    · intro q
      show NodeMem.Reach _ g.root q ↔ _
      rw [← hrep'.reach, ← hrep.reach]
      simp
    · intro q hq hqr
      have hqn : q ≠ g.next := fun e => hnF (e ▸ hrep.reach.2 hq)
      show (m' q).seg = _
      rw [r4 q hqn, hm1 q hqr, hm0 q hqn]
    · intro _
      show (m' g.next).seg = _
      rw [rankP_seg _ _ _ _ _ _ r2, hmn]

theorem append_length {t t' : Node} (hok : GraphOk ⟨t⟩) {seg : Segment} (hs : seg.tok.Ordered) {n : Nat} {ok : Bool}
    (h : Graph.append n ⟨t⟩ seg = .ret (ok, ⟨t'⟩)) : t'.all.length ≤ t.all.length + 1 := by
  have happ : (Graph.mk t).Appends seg ok ⟨t'⟩ := ⟨n, h⟩
  rcases append_spec ⟨t⟩ hok seg hs with ⟨_, hf⟩ | ⟨_, g'', ht, _, _, _, hp⟩
  · obtain ⟨_, e⟩ := appends_unique happ hf
    cases e
    omega
  · obtain ⟨_, e⟩ := appends_unique happ ht
    cases e
    rw [Node.all_eq, Node.all_eq, List.length_cons, List.length_cons, hp.length_eq]
    simp

/-- The graph of `NewGraph` is a tree in memory. -/
theorem C70_new (name : Bytes) : (PGraph.new name).Is (Graph.new name).root := by
  refine ⟨⟨_, .mk (p := 0) (s := ⟨name, ⟨0, 0⟩⟩) [] rfl (by simp) .nil (by simp), ?_⟩, new_ok name⟩
  rintro q (rfl | ⟨x, hx, _⟩)
  · exact Nat.zero_lt_one
  · cases hx

theorem C70_buildLoop {segs : List Segment} : ∀ {g : PGraph} {t : Node}, g.Is t → (∀ s ∈ segs, s.tok.Ordered) → ∀ {n : Nat},
    t.all.length + segs.length + 2 ≤ n →
    ∃ g' t', PGraph.buildLoop n g segs = .ret g' ∧ Graph.buildLoop n ⟨t⟩ segs = .ret ⟨t'⟩ ∧ g'.Is t' := by
  induction segs with
  | nil => intro g t hg _ n _; exact ⟨g, t, rfl, rfl, hg⟩
  | cons s segs ih =>
    intro g t hg hs n hn
    simp only [List.length_cons] at hn
    obtain ⟨ok, g1, t1, a1, a2, a3, _⟩ := C70_append hg (hs s (by simp)) (n := n) (by omega)
    obtain ⟨g', t', b1, b2, b3⟩ := ih a3 (fun x hx => hs x (by simp [hx])) (n := n) (by
      have := append_length hg.ok (hs s (by simp)) a2
      omega)
    refine ⟨g', t', ?_, ?_, b3⟩
    · rw [PGraph.buildLoop, a1]; exact b1
    · rw [Graph.buildLoop, a2]; exact b2

/-- **BuildGraph**: the nodes of a graph built from any segments with ordered tokens, some of them refused perhaps, are a tree in memory, and it
is the tree of the model without pointers. -/
theorem C70_build (name : Bytes) {segs : List Segment} (hs : ∀ s ∈ segs, s.tok.Ordered) {n : Nat} (hn : segs.length + 3 ≤ n) :
    ∃ g t, PGraph.build n name segs = .ret g ∧ Graph.build n name segs = .ret ⟨t⟩ ∧ g.Is t ∧ g.mem.TreeAt g.root := by
  obtain ⟨g, t, h1, h2, h3⟩ := C70_buildLoop (C70_new name) hs (n := n) (by
    show 1 + segs.length + 2 ≤ n
    omega)
  obtain ⟨F, hF, _⟩ := h3.rep
  exact ⟨g, t, h1, h2, h3, hF.treeAt⟩

/-! ### examples -/

/-- The slices `Nodes` of the first nodes of a graph. -/
def PGraph.dump (g : PGraph) : List (List Nat) := (List.range g.next).map fun p => (g.mem p).kids

/-- Five segments: the third takes the first two below it, the fourth is refused, the fifth goes below the second. -/
example : (PGraph.build 10 b!"g" [⟨b!"a", ⟨0, 2⟩⟩, ⟨b!"b", ⟨3, 5⟩⟩, ⟨b!"c", ⟨0, 6⟩⟩, ⟨b!"d", ⟨4, 8⟩⟩, ⟨b!"e", ⟨3, 4⟩⟩] >>= fun g => pure g.dump) =
    .ret [[3], [], [5], [1, 2], [], []] := by decide +kernel

/-- A graph whose exported fields the client has filled in: below the root are `(0,0)`, `(0,2)` and `(2,5)`, though the second covers the
first. -/
def handmade : PGraph :=
  ⟨fun p => match p with
    | 0 => ⟨⟨b!"g", ⟨0, 5⟩⟩, [1, 2, 3]⟩
    | 1 => ⟨⟨b!"d", ⟨0, 0⟩⟩, []⟩
    | 2 => ⟨⟨b!"c", ⟨0, 2⟩⟩, []⟩
    | 3 => ⟨⟨b!"e", ⟨2, 5⟩⟩, []⟩
    | _ => ⟨⟨[], ⟨0, 0⟩⟩, []⟩, 4, 0⟩

/-- **A graph not built by `Append`**: here a refused `Append` leaves a node that is in the slices of two others, so that the condition on the
tree in `C70_append` cannot be dropped. -/
theorem C70_handmade : handmade.mem.TreeAt handmade.root ∧
    ∃ g', handmade.append 9 ⟨b!"b", ⟨0, 3⟩⟩ = .ret (false, g') ∧ g'.dump = [[1, 2, 3], [], [1], [], [2]] ∧ ¬ g'.mem.TreeAt g'.root := by
  have hrep : Rep handmade.mem handmade.root
      (.mk ⟨b!"g", ⟨0, 5⟩⟩ [.mk ⟨b!"d", ⟨0, 0⟩⟩ [], .mk ⟨b!"c", ⟨0, 2⟩⟩ [], .mk ⟨b!"e", ⟨2, 5⟩⟩ []])
      (fun q => q = 0 ∨ ∃ x ∈ ([⟨1, .mk ⟨b!"d", ⟨0, 0⟩⟩ [], (· = 1)⟩, ⟨2, .mk ⟨b!"c", ⟨0, 2⟩⟩ [], (· = 2)⟩, ⟨3, .mk ⟨b!"e", ⟨2, 5⟩⟩ [], (· = 3)⟩] : List Leg), x.foot q) := by
    refine .mk [⟨1, .mk ⟨b!"d", ⟨0, 0⟩⟩ [], (· = 1)⟩, ⟨2, .mk ⟨b!"c", ⟨0, 2⟩⟩ [], (· = 2)⟩, ⟨3, .mk ⟨b!"e", ⟨2, 5⟩⟩ [], (· = 3)⟩]
      rfl ?_ ?_ ?_
    · intro x hx
      have hl : ∀ (p : Nat) (s : Segment), handmade.mem p = ⟨s, []⟩ → Rep handmade.mem p (.mk s []) (· = p) := by
        intro p s h
        exact (Rep.mk (m := handmade.mem) (p := p) (s := s) [] h (by simp) .nil (by simp)).of_eq (by simp)
      simp only [List.mem_cons, List.not_mem_nil, or_false] at hx
      rcases hx with rfl | rfl | rfl
      · exact hl 1 _ rfl
      · exact hl 2 _ rfl
      · exact hl 3 _ rfl
    · simp
    · simp [handmade]
  refine ⟨hrep.treeAt, _, rfl, by decide +kernel, ?_⟩
  intro h
  have h0 := h.parent 0 2 1 .refl (.single ?_) ?_ ?_
  · cases h0
  all_goals (unfold NodeMem.Child; decide +kernel)

end Tok
