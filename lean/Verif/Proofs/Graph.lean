/-
Proofs about /repo/graph.go: what `rankNodes` and `Append` do to a tree.
-/
import Verif.Spec.Graph
import Verif.Proofs.Sort

namespace Tok
namespace Node

theorem allList_eq (ns : List Node) : allList ns = ns.flatMap all := by
  induction ns with
  | nil => rfl
  | cons n ns ih => rw [allList, ih, List.flatMap_cons]

theorem all_eq (n : Node) : n.all = n.seg :: n.under := by cases n; rfl

theorem under_eq (n : Node) : n.under = n.nodes.flatMap all := allList_eq _

theorem mem_under {n : Node} {s : Segment} : s ∈ n.under ↔ ∃ c ∈ n.nodes, s ∈ c.all := by
  rw [under_eq, List.mem_flatMap]

end Node

theorem Tree.ordered {n : Node} (h : Tree n) : n.tok.Ordered := by cases h; assumption
theorem Tree.child {n c : Node} (h : Tree n) (hc : c ∈ n.nodes) : Tree c := by
  cases h with | mk h1 h2 h3 h4 => exact h2 c hc
theorem Tree.covers {n c : Node} (h : Tree n) (hc : c ∈ n.nodes) : n.tok.covers c.tok = true := by
  cases h with | mk h1 h2 h3 h4 => exact h3 c hc
theorem Tree.apart {n : Node} (h : Tree n) : n.nodes.Pairwise (fun a b => Apart a.tok b.tok) := by
  cases h with | mk h1 h2 h3 h4 => exact h4

theorem covers_trans {a b c : Token} (h1 : a.covers b = true) (h2 : b.covers c = true) : a.covers c = true :=
  C24_covers_partialOrder.2.2 a b c h1 h2

/-- A tree covers all its segments. -/
theorem Tree.covers_all {n : Node} (h : Tree n) : ∀ s ∈ n.all, n.tok.covers s.tok = true ∧ s.tok.Ordered := by
  induction h with
  | @mk s ns h1 h2 h3 h4 ih =>
    intro x hx
    rw [Node.all_eq] at hx
    rcases List.mem_cons.1 hx with rfl | hx
    · exact ⟨C24_covers_partialOrder.1 _, h1⟩
    · obtain ⟨c, hc, hxc⟩ := Node.mem_under.1 hx
      have := ih c hc x hxc
      exact ⟨covers_trans (h3 c hc) this.1, this.2⟩

theorem Tree.covers_under {n : Node} (h : Tree n) {s : Segment} (hs : s ∈ n.under) :
    n.tok.covers s.tok = true ∧ s.tok.Ordered :=
  h.covers_all s (by rw [Node.all_eq]; exact List.mem_cons_of_mem _ hs)

theorem Apart.frm_lt {a b : Token} (h : Apart a b) (ha : a.Ordered) (hb : b.Ordered) : a.frm < b.frm := by
  obtain ⟨h1, h2, h3⟩ := h
  unfold Token.Ordered at *
  simp only [Token.covers, Bool.and_eq_false_iff, decide_eq_false_iff_not] at h2 h3
  omega

/-! ### sorting siblings -/

theorem pairwise_mem {α : Type} {R : α → α → Prop} (hs : ∀ a b, R a b → R b a) {l : List α} (h : l.Pairwise R) :
    ∀ x ∈ l, ∀ y ∈ l, x = y ∨ R x y := by
  induction l with
  | nil => intro x hx; simp at hx
  | cons a l ih =>
    rw [List.pairwise_cons] at h
    intro x hx y hy
    rcases List.mem_cons.1 hx with e | hx' <;> rcases List.mem_cons.1 hy with e' | hy'
    · exact .inl (e.trans e'.symm)
    · rw [e]; exact .inr (h.1 y hy')
    · rw [e']; exact .inr (hs _ _ (h.1 x hx'))
    · exact ih h.2 x hx' y hy'

theorem sortNodes_spec (l : List Node) (ho : ∀ n ∈ l, n.tok.Ordered)
    (h : l.Pairwise (fun a b => Apart a.tok b.tok ∨ Apart b.tok a.tok)) :
    (sortStable Node.less l).Perm l ∧ (sortStable Node.less l).Pairwise (fun a b => Apart a.tok b.tok) := by
  have hp := sortStable_perm Node.less l
  have hcases := pairwise_mem (fun _ _ h => h.symm) h
  have hlt : ∀ x ∈ l, ∀ y ∈ l, x = y ∨ (Apart x.tok y.tok ∧ x.tok.frm < y.tok.frm) ∨
      (Apart y.tok x.tok ∧ y.tok.frm < x.tok.frm) := by
    intro x hx y hy
    rcases hcases x hx y hy with h | h | h
    · exact .inl h
    · exact .inr (.inl ⟨h, h.frm_lt (ho x hx) (ho y hy)⟩)
    · exact .inr (.inr ⟨h, h.frm_lt (ho y hy) (ho x hx)⟩)
  have hless : ∀ x y : Node, Node.less x y = true ↔ x.tok.to ≤ y.tok.frm := by
    intro x y; simp [Node.less, Token.before]
  have hs := sortStable_on Node.less (fun a b => a.tok.frm ≤ b.tok.frm) l
    (fun _ _ => Int.le_refl _) (fun _ _ _ _ _ _ h1 h2 => Int.le_trans h1 h2)
    (fun a ha b hb h1 => by
      rw [hless] at h1
      have := ho a ha
      unfold Token.Ordered at this
      omega)
    (fun a ha b hb h1 => by
      rw [← Bool.not_eq_true, hless] at h1
      rcases hlt a ha b hb with h | ⟨h, _⟩ | ⟨_, h⟩
      · rw [h]; exact Int.le_refl _
      · exact absurd h.1 h1
      · omega)
    (fun y hy y' hy' x hx x' hx' h1 h2 h3 => by
      rw [hless] at *
      have o := ho x hx
      unfold Token.Ordered at o
      rcases hlt x' hx' y' hy' with h | ⟨h, _⟩ | ⟨_, h⟩
      · subst h
        have e1 : x' = y := by
          rcases hlt x' hx' y hy with h | ⟨_, h⟩ | ⟨_, h⟩
          · exact h
          · omega
          · omega
        have e2 : x' = x := by
          rcases hlt x' hx' x hx with h | ⟨_, h⟩ | ⟨_, h⟩
          · exact h
          · omega
          · omega
        subst e1; subst e2
        exact h1
      · exact h.1
      · omega)
  refine ⟨hp, ?_⟩
  have h' : (sortStable Node.less l).Pairwise (fun a b => Apart a.tok b.tok ∨ Apart b.tok a.tok) :=
    (hp.pairwise_iff (fun h => h.symm)).2 h
  refine (hs.and h').imp_of_mem ?_
  rintro a b ha hb ⟨h1, h2 | h2⟩
  · exact h2
  · have := h2.frm_lt (ho b (hp.mem_iff.1 hb)) (ho a (hp.mem_iff.1 ha))
    omega

/-- Siblings that are in order already stay as they are. -/
theorem sortNodes_id (l : List Node) (ho : ∀ n ∈ l, n.tok.Ordered) (h : l.Pairwise (fun a b => Apart a.tok b.tok)) :
    sortStable Node.less l = l := by
  obtain ⟨hp, hs⟩ := sortNodes_spec l ho (h.imp (fun h => .inl h))
  refine hp.eq_of_pairwise ?_ hs h
  intro a b ha hb h1 h2
  have oa := ho a (hp.mem_iff.1 ha)
  have ob := ho b hb
  have := h1.frm_lt oa ob
  have := h2.frm_lt ob oa
  omega

/-! ### rankNodes -/

theorem clash_cases {a b : Token} (ha : a.Ordered) (hb : b.Ordered) (h1 : b.covers a = false)
    (h2 : b.clashes a = false) (h3 : a.covers b = false) : Apart a b ∨ Apart b a := by
  unfold Token.Ordered at *
  unfold Apart
  simp only [Token.clashes, Token.before, Token.after, Token.covers, Bool.and_eq_false_iff, Bool.not_eq_false',
    decide_eq_true_eq, Bool.and_eq_true, decide_eq_false_iff_not] at *
  omega

theorem no_clash_of_apart {a b t : Token} (h : Apart a b ∨ Apart b a) (ht : t.Ordered) (hc : a.covers t = true) (hb : b.Ordered) :
    b.clashes t = false := by
  unfold Token.Ordered at *
  unfold Apart at h
  simp only [Token.clashes, Token.before, Token.after, Token.covers, Bool.and_eq_false_iff, Bool.not_eq_false',
    decide_eq_true_eq, Bool.and_eq_true, decide_eq_false_iff_not] at *
  omega

theorem no_clash_of_covers {a b : Token} (h : a.covers b = true) : a.clashes b = false := by
  unfold Token.clashes; rw [h]; simp

theorem not_covers_of_apart {a b : Token} (h : Apart a b ∨ Apart b a) : a.covers b = false ∧ b.covers a = false := by
  rcases h with ⟨_, h1, h2⟩ | ⟨_, h1, h2⟩
  · exact ⟨h1, h2⟩
  · exact ⟨h2, h1⟩

/-- A child that the new node covers is appended to the new node's children. -/
theorem rankNodes_absorb (fuel : Nat) (B : Segment) (moved : List Node) (c : Node) (hB : B.tok.Ordered)
    (hBc : B.tok.covers c.tok = true) (hc : c.tok.Ordered) (hm : ∀ d ∈ moved, d.tok.Ordered)
    (hap : (moved ++ [c]).Pairwise (fun a b => Apart a.tok b.tok)) :
    rankNodes (fuel + 1) (.mk B moved) c = .ret (true, .mk B (moved ++ [c]), c) := by
  have hcl : (Node.mk B moved).tok.clashes c.tok = false := no_clash_of_covers hBc
  rw [rankNodes, hcl]
  simp only [Bool.false_eq_true, if_false]
  have hsort : sortStable Node.less (moved ++ [c]) = moved ++ [c] :=
    sortNodes_id _ (by
      intro n hn
      rcases List.mem_append.1 hn with h | h
      · exact hm n h
      · rw [List.mem_singleton.1 h]; exact hc) hap
  have loop : ∀ rest done kept, kept ++ rest = moved →
      rankLoop (rankNodes fuel) (.mk B moved) done kept rest c = .ret (true, .mk B (moved ++ [c]), c) := by
    intro rest
    induction rest with
    | nil =>
      intro done kept hk
      rw [List.append_nil] at hk
      subst hk
      rw [rankLoop, hsort]; rfl
    | cons d rest ih =>
      intro done kept hk
      have hd : d ∈ moved := by rw [← hk]; simp
      have hdc : Apart d.tok c.tok := (List.pairwise_append.1 hap).2.2 d hd c (by simp)
      obtain ⟨n1, n2⟩ := not_covers_of_apart (.inl hdc)
      have n3 : c.tok.clashes d.tok = false :=
        no_clash_of_apart (.inl hdc) (hm d hd) (C24_covers_partialOrder.1 _) hc
      rw [rankLoop, n2, n3, n1]
      simp only [Bool.false_eq_true, if_false]
      exact ih _ _ (by rw [← hk]; simp)
  exact loop moved [] [] rfl

/-- The result of `rankNodes(a, b)` for a tree `a` that covers the new node `b`. -/
def RankSpec (a : Node) (B : Segment) (res : Exec RankRes) : Prop :=
  ((∃ s ∈ a.under, B.tok.clashes s.tok = true) ∧ ∃ b, res = .ret (false, a, b)) ∨
  ((∀ s ∈ a.under, B.tok.clashes s.tok = false) ∧ ∃ a' b, res = .ret (true, a', b) ∧ Tree a' ∧ a'.seg = a.seg ∧
    a'.nodes ≠ [] ∧ a'.under.Perm (B :: a.under))

theorem all_length_child {n c : Node} (h : c ∈ n.nodes) : c.all.length < n.all.length := by
  rw [Node.all_eq n, List.length_cons, Node.under_eq, List.length_flatMap]
  obtain ⟨l1, l2, e⟩ := List.append_of_mem h
  rw [e]
  simp only [List.map_append, List.map_cons, List.sum_append, List.sum_cons]
  omega

/-- The loop of `rankNodes`: `kept` and `moved` are the children seen so far that stay
and that went below the new node. -/
theorem rankLoop_spec (fuel : Nat) (a : Node) (B : Segment) (hTa : Tree a) (hB : B.tok.Ordered)
    (haB : a.tok.covers B.tok = true)
    (ih : ∀ c ∈ a.nodes, c.tok.covers B.tok = true → RankSpec c B (rankNodes (fuel + 1) c (.mk B []))) :
    ∀ (rest done kept moved : List Node), done ++ rest = a.nodes → (kept ++ moved).Perm done →
      kept.Sublist done → moved.Sublist done →
      (∀ k ∈ kept, Apart k.tok B.tok ∨ Apart B.tok k.tok) → (∀ m ∈ moved, B.tok.covers m.tok = true) →
      RankSpec a B (rankLoop (rankNodes (fuel + 1)) a done kept rest (.mk B moved)) := by
  intro rest
  induction rest with
  | nil =>
    intro done kept moved h1 h2 h3 h4 h5 h6
    rw [List.append_nil] at h1
    subst h1
    right
    have hap := hTa.apart
    have ho : ∀ n ∈ kept ++ [Node.mk B moved], n.tok.Ordered := by
      intro n hn
      rcases List.mem_append.1 hn with h | h
      · exact (hTa.child (h3.subset h)).ordered
      · rw [List.mem_singleton.1 h]; exact hB
    have hpw : (kept ++ [Node.mk B moved]).Pairwise (fun a b => Apart a.tok b.tok ∨ Apart b.tok a.tok) := by
      rw [List.pairwise_append]
      refine ⟨(hap.sublist h3).imp (fun h => .inl h), List.pairwise_singleton _ _, ?_⟩
      intro x hx y hy
      rw [List.mem_singleton.1 hy]
      exact h5 x hx
    obtain ⟨s1, s2⟩ := sortNodes_spec _ ho hpw
    have hTB : Tree (.mk B moved) :=
      .mk hB (fun n hn => hTa.child (h4.subset hn)) h6 (hap.sublist h4)
    refine ⟨?_, a.setNodes (sortStable Node.less (kept ++ [.mk B moved])), _, by rw [rankLoop], ?_, rfl, ?_, ?_⟩
    · intro s hs
      obtain ⟨c, hc, hsc⟩ := Node.mem_under.1 hs
      have hcs := (hTa.child hc).covers_all s hsc
      rcases List.mem_append.1 (h2.mem_iff.2 hc) with hk | hm
      · exact no_clash_of_apart (h5 c hk) hcs.2 hcs.1 hB
      · exact no_clash_of_covers (covers_trans (h6 c hm) hcs.1)
    · refine .mk hTa.ordered ?_ ?_ s2
      · intro n hn
        rcases List.mem_append.1 (s1.mem_iff.1 hn) with h | h
        · exact hTa.child (h3.subset h)
        · rw [List.mem_singleton.1 h]; exact hTB
      · intro n hn
        rcases List.mem_append.1 (s1.mem_iff.1 hn) with h | h
        · exact hTa.covers (h3.subset h)
        · rw [List.mem_singleton.1 h]; exact haB
    · intro h
      have := s1.length_eq
      have h' : sortStable Node.less (kept ++ [Node.mk B moved]) = [] := h
      rw [h'] at this
      simp at this
    · show (Node.allList (sortStable Node.less (kept ++ [Node.mk B moved]))).Perm _
      rw [Node.allList_eq]
      refine (s1.flatMap_right _).trans ?_
      rw [List.flatMap_append, List.flatMap_singleton, Node.all_eq, Node.under_eq, Node.under_eq]
      refine List.perm_middle.trans (List.Perm.cons _ ?_)
      show (kept.flatMap Node.all ++ moved.flatMap Node.all).Perm _
      rw [← List.flatMap_append]
      exact h2.flatMap_right _
  | cons c rest ihr =>
    intro done kept moved h1 h2 h3 h4 h5 h6
    have hc : c ∈ a.nodes := by rw [← h1]; simp
    have hTc := hTa.child hc
    have hset : a.setNodes (done ++ c :: rest) = a := by rw [h1]; cases a; rfl
    have hap := hTa.apart
    rw [← h1, List.pairwise_append] at hap
    have hdc : ∀ d ∈ done, Apart d.tok c.tok := fun d hd => hap.2.2 d hd c (by simp)
    rw [rankLoop]
    simp only [show (Node.mk B moved).tok = B.tok from rfl]
    by_cases hBc : B.tok.covers c.tok = true
    · rw [if_pos hBc, rankNodes_absorb fuel B moved c hB hBc hTc.ordered
        (fun d hd => (hTa.child (by rw [← h1]; exact List.mem_append_left _ (h4.subset hd))).ordered) (by
          rw [List.pairwise_append]
          refine ⟨hap.1.sublist h4, List.pairwise_singleton _ _, ?_⟩
          intro x hx y hy
          rw [List.mem_singleton.1 hy]
          exact hdc x (h4.subset hx))]
      simp only [Exec.bind_ret, Bool.not_true, Bool.false_eq_true, if_false]
      refine ihr (done ++ [c]) kept (moved ++ [c]) (by rw [← h1]; simp) ?_ (h3.trans (List.sublist_append_left _ _))
        (h4.append (List.Sublist.refl _)) h5 ?_
      · rw [← List.append_assoc]; exact h2.append_right _
      · intro m hm
        rcases List.mem_append.1 hm with h | h
        · exact h6 m h
        · rw [List.mem_singleton.1 h]; exact hBc
    · rw [if_neg hBc]
      by_cases hcl : B.tok.clashes c.tok = true
      · rw [if_pos hcl, hset]
        left
        exact ⟨⟨c.seg, Node.mem_under.2 ⟨c, hc, by rw [Node.all_eq]; simp⟩, hcl⟩, _, rfl⟩
      · rw [if_neg hcl]
        by_cases hcB : c.tok.covers B.tok = true
        · rw [if_pos hcB]
          have hmoved : moved = [] := by
            rw [List.eq_nil_iff_forall_not_mem]
            intro m hm
            have := (not_covers_of_apart (.inl (hdc m (h4.subset hm)))).2
            rw [covers_trans hcB (h6 m hm)] at this
            simp at this
          subst hmoved
          have hother : ∀ d ∈ a.nodes, d ≠ c → ∀ s ∈ d.all, B.tok.clashes s.tok = false := by
            intro d hd hdne s hs
            have hds := (hTa.child hd).covers_all s hs
            have hdc' : Apart d.tok c.tok ∨ Apart c.tok d.tok := by
              rw [← h1] at hd
              rcases List.mem_append.1 hd with h | h
              · exact .inl (hdc d h)
              · rcases List.mem_cons.1 h with h | h
                · exact absurd h hdne
                · exact .inr ((List.pairwise_cons.1 hap.2.1).1 d h)
            have := no_clash_of_apart hdc' hds.2 hds.1 hTc.ordered
            unfold Apart at hdc'
            have o1 := (hTa.child hd).ordered
            have o2 := hTc.ordered
            have o3 := hds.2
            have o4 := hds.1
            unfold Token.Ordered at *
            simp only [Token.clashes, Token.before, Token.after, Token.covers, Bool.and_eq_false_iff, Bool.not_eq_false',
              decide_eq_true_eq, Bool.and_eq_true, decide_eq_false_iff_not] at *
            omega
          rcases ih c hc hcB with ⟨⟨s, hs, hsc⟩, b', hr⟩ | ⟨hno, c', b', hr, hT', hseg, hne, hperm⟩
          · rw [hr]
            simp only [Exec.bind_ret, Exec.pure_eq]
            rw [hset]
            left
            refine ⟨⟨s, Node.mem_under.2 ⟨c, hc, by rw [Node.all_eq]; exact List.mem_cons_of_mem _ hs⟩, hsc⟩, _, rfl⟩
          · rw [hr]
            simp only [Exec.bind_ret, Exec.pure_eq]
            right
            refine ⟨?_, _, _, rfl, ?_, rfl, ?_, ?_⟩
            · intro s hs
              obtain ⟨d, hd, hsd⟩ := Node.mem_under.1 hs
              by_cases hdc' : d = c
              · subst hdc'
                rw [Node.all_eq] at hsd
                rcases List.mem_cons.1 hsd with rfl | h
                · have : B.tok.clashes d.tok = false := by simpa using hcl
                  exact this
                · exact hno s h
              · exact hother d hd hdc' s hsd
            · have htok : c'.tok = c.tok := by unfold Node.tok; rw [hseg]
              refine .mk hTa.ordered ?_ ?_ ?_
              · intro n hn
                rcases List.mem_append.1 hn with h | h
                · exact hTa.child (by rw [← h1]; exact List.mem_append_left _ h)
                · rcases List.mem_cons.1 h with rfl | h
                  · exact hT'
                  · exact hTa.child (by rw [← h1]; exact List.mem_append_right _ (List.mem_cons_of_mem _ h))
              · intro n hn
                rcases List.mem_append.1 hn with h | h
                · exact hTa.covers (by rw [← h1]; exact List.mem_append_left _ h)
                · rcases List.mem_cons.1 h with rfl | h
                  · rw [htok]; exact hTa.covers hc
                  · exact hTa.covers (by rw [← h1]; exact List.mem_append_right _ (List.mem_cons_of_mem _ h))
              · rw [List.pairwise_append, List.pairwise_cons] at *
                refine ⟨hap.1, ⟨?_, hap.2.1.2⟩, ?_⟩
                · rw [htok]; exact hap.2.1.1
                · intro x hx y hy
                  rcases List.mem_cons.1 hy with rfl | hy
                  · rw [htok]; exact hdc x hx
                  · exact hap.2.2 x hx y (List.mem_cons_of_mem _ hy)
            · show done ++ c' :: rest ≠ []
              simp
            · show (Node.allList (done ++ c' :: rest)).Perm _
              rw [Node.allList_eq, Node.under_eq a, ← h1]
              simp only [List.flatMap_append, List.flatMap_cons]
              rw [Node.all_eq c', Node.all_eq c, hseg]
              have hp1 : (c.seg :: c'.under).Perm (B :: (c.seg :: c.under)) :=
                (hperm.cons _).trans (.swap _ _ _)
              exact ((hp1.append_right _).append_left _).trans List.perm_middle
        · rw [if_neg hcB]
          have hapart : Apart c.tok B.tok ∨ Apart B.tok c.tok :=
            clash_cases hTc.ordered hB (by simpa using hBc) (by simpa using hcl) (by simpa using hcB)
          refine ihr (done ++ [c]) (kept ++ [c]) moved (by rw [← h1]; simp) ?_ (h3.append (List.Sublist.refl _))
            (h4.trans (List.sublist_append_left _ _)) ?_ h6
          · rw [List.append_assoc]
            refine (List.Perm.append_left kept List.perm_append_comm).trans ?_
            rw [← List.append_assoc]
            exact h2.append_right _
          · intro k hk
            rcases List.mem_append.1 hk with h | h
            · exact h5 k h
            · rw [List.mem_singleton.1 h]; exact hapart

theorem rankNodes_spec (B : Segment) (hB : B.tok.Ordered) : ∀ (fuel : Nat) (a : Node), Tree a →
    a.tok.covers B.tok = true → a.all.length < fuel → RankSpec a B (rankNodes fuel a (.mk B [])) := by
  intro fuel
  induction fuel with
  | zero => intro a _ _ h; omega
  | succ fuel ih =>
    intro a hT hc hf
    have hcl : a.tok.clashes (Node.mk B []).tok = false := no_clash_of_covers hc
    rw [rankNodes, hcl]
    simp only [Bool.false_eq_true, if_false]
    have hpos : 0 < a.all.length := by rw [Node.all_eq]; simp
    obtain ⟨f, rfl⟩ : ∃ f, fuel = f + 1 := ⟨fuel - 1, by omega⟩
    refine rankLoop_spec f a B hT hB hc ?_ a.nodes [] [] [] rfl (.refl _) (.refl _) (.refl _) (by simp) (by simp)
    intro c hcn hcB
    exact ih c (hT.child hcn) hcB (by have := all_length_child hcn; omega)

/-! ### fuel -/

theorem rankLoop_mono {rank rank' : Node → Node → Exec RankRes} (h : ∀ a b r, rank a b = .ret r → rank' a b = .ret r)
    (a : Node) : ∀ (rest done kept : List Node) (b : Node) (r : RankRes),
    rankLoop rank a done kept rest b = .ret r → rankLoop rank' a done kept rest b = .ret r := by
  intro rest
  induction rest with
  | nil => intro done kept b r h; exact h
  | cons c rest ih =>
    intro done kept b r hr
    rw [rankLoop] at hr ⊢
    split at hr
    · next h1 =>
      rw [if_pos h1]
      rw [Exec.bind_eq_ret] at hr
      obtain ⟨⟨ok, b', c'⟩, e1, e2⟩ := hr
      rw [h _ _ _ e1]
      simp only [Exec.bind_ret]
      cases ok
      · exact e2
      · exact ih _ _ _ _ e2
    · next h1 =>
      rw [if_neg h1]
      split at hr
      · next h2 => rw [if_pos h2]; exact hr
      · next h2 =>
        rw [if_neg h2]
        split at hr
        · next h3 =>
          rw [if_pos h3]
          rw [Exec.bind_eq_ret] at hr
          obtain ⟨⟨ok, c', b'⟩, e1, e2⟩ := hr
          rw [h _ _ _ e1]
          exact e2
        · next h3 => rw [if_neg h3]; exact ih _ _ _ _ hr

theorem rankNodes_mono : ∀ (fuel fuel' : Nat) (a b : Node) (r : RankRes), fuel ≤ fuel' →
    rankNodes fuel a b = .ret r → rankNodes fuel' a b = .ret r := by
  intro fuel
  induction fuel with
  | zero => intro fuel' a b r _ h; simp [rankNodes] at h
  | succ fuel ih =>
    intro fuel' a b r hle h
    obtain ⟨f, rfl⟩ : ∃ f, fuel' = f + 1 := ⟨fuel' - 1, by omega⟩
    rw [rankNodes] at h ⊢
    split at h
    · next h1 => rw [if_pos h1]; exact h
    · next h1 =>
      rw [if_neg h1]
      exact rankLoop_mono (fun a b r => ih f a b r (by omega)) _ _ _ _ _ _ h

theorem append_mono (g : Graph) (seg : Segment) (fuel fuel' : Nat) (r : Bool × Graph) (hle : fuel ≤ fuel')
    (h : g.append fuel seg = .ret r) : g.append fuel' seg = .ret r := by
  unfold Graph.append at h ⊢
  simp only at h ⊢
  rw [Exec.bind_eq_ret] at h
  obtain ⟨x, e1, e2⟩ := h
  rw [rankNodes_mono fuel fuel' _ _ _ hle e1]
  exact e2

/-- `Append` has one result. -/
theorem appends_unique {g : Graph} {seg : Segment} {ok ok' : Bool} {g1 g2 : Graph} (h1 : g.Appends seg ok g1)
    (h2 : g.Appends seg ok' g2) : ok = ok' ∧ g1 = g2 := by
  obtain ⟨f1, h1⟩ := h1
  obtain ⟨f2, h2⟩ := h2
  have a := append_mono g seg f1 (max f1 f2) _ (Nat.le_max_left _ _) h1
  have b := append_mono g seg f2 (max f1 f2) _ (Nat.le_max_right _ _) h2
  rw [a] at b
  simpa using b

/-! ### Append -/

/-- The root covers everything tightly. -/
def Hull (root : Node) : Prop :=
  ∀ t : Token, (∀ s ∈ root.under, t.covers s.tok = true) → t.covers root.tok = true

/-- What holds of every graph built by `Append`. -/
def GraphOk (g : Graph) : Prop :=
  Tree g.root ∧ (g.root.nodes = [] → g.root.tok.frm = g.root.tok.to) ∧ (g.root.nodes ≠ [] → Hull g.root)

/-- What `Append` does. -/
theorem append_spec (g : Graph) (hg : GraphOk g) (seg : Segment) (hs : seg.tok.Ordered) :
    ((∃ s ∈ g.root.under, seg.tok.clashes s.tok = true) ∧ g.Appends seg false g) ∨
    ((∀ s ∈ g.root.under, seg.tok.clashes s.tok = false) ∧ ∃ g', g.Appends seg true g' ∧ GraphOk g' ∧
      g'.root.seg.info = g.root.seg.info ∧ g'.root.nodes ≠ [] ∧ g'.root.under.Perm (seg :: g.root.under)) := by
  obtain ⟨root⟩ := g
  obtain ⟨⟨info, tok⟩, ns⟩ := root
  obtain ⟨hT, hE, hH⟩ := hg
  simp only at hT hE hH
  -- the token of the root before ranking
  obtain ⟨t, ht1, ht2, ht3, ht4⟩ : ∃ t : Token,
      (if !(Node.mk ⟨info, tok⟩ ns).tok.covers (Node.mk seg []).tok then
        if (Node.mk ⟨info, tok⟩ ns).nodes.length > 0 then
          (Node.mk ⟨info, tok⟩ ns).setTok ((Node.mk ⟨info, tok⟩ ns).tok.merge (Node.mk seg []).tok)
        else (Node.mk ⟨info, tok⟩ ns).setTok (Node.mk seg []).tok
      else Node.mk ⟨info, tok⟩ ns) = Node.mk ⟨info, t⟩ ns ∧ t.covers seg.tok = true ∧
      (∀ n ∈ ns, t.covers n.tok = true) ∧
      (∀ t' : Token, t'.covers seg.tok = true → (∀ s ∈ Node.allList ns, t'.covers s.tok = true) → t'.covers t = true) := by
    by_cases h1 : tok.covers seg.tok = true
    · refine ⟨tok, ?_, h1, fun n hn => hT.covers hn, ?_⟩
      · rw [if_neg]; simp only [Node.tok, Node.seg, h1]; decide
      · intro t' h2 h3
        by_cases hn : ns = []
        · have e := hE hn
          simp only [Node.tok, Node.seg] at e
          unfold Token.Ordered at hs
          simp only [Token.covers, Bool.and_eq_true, decide_eq_true_eq] at h1 h2 ⊢
          omega
        · exact hH hn t' h3
    · have h1' : (!(Node.mk ⟨info, tok⟩ ns).tok.covers (Node.mk seg []).tok) = true := by
        simp only [Node.tok, Node.seg]; simpa using h1
      by_cases hn : ns = []
      · subst hn
        refine ⟨seg.tok, ?_, C24_covers_partialOrder.1 _, by simp, fun t' h2 _ => h2⟩
        rw [if_pos h1', if_neg (by simp [Node.nodes])]; rfl
      · refine ⟨tok.merge seg.tok, ?_, (C24_merge_least _ _).2.1, ?_, ?_⟩
        · rw [if_pos h1', if_pos (by simpa [Node.nodes] using List.length_pos_iff.2 hn)]; rfl
        · intro n hn'; exact covers_trans (C24_merge_least _ _).1 (hT.covers hn')
        · intro t' h2 h3
          exact (C24_merge_least _ _).2.2 t' (hH hn t' h3) h2
  have hTt : Tree (.mk ⟨info, t⟩ ns) := by
    have hord : t.Ordered := by
      unfold Token.Ordered at *
      simp only [Token.covers, Bool.and_eq_true, decide_eq_true_eq] at ht2
      omega
    exact .mk hord (fun n hn => hT.child hn) ht3 hT.apart
  have hrank := rankNodes_spec seg hs _ (.mk ⟨info, t⟩ ns) hTt ht2 (Nat.lt_succ_self _)
  generalize hN : (Node.mk ⟨info, t⟩ ns).all.length.succ = N at hrank
  rcases hrank with ⟨hcl, b, hr⟩ | ⟨hno, a', b, hr, hT', hseg, hne, hperm⟩
  · left
    refine ⟨hcl, N, ?_⟩
    unfold Graph.append
    simp only
    rw [ht1, hr]
    rfl
  · right
    refine ⟨hno, ⟨a'⟩, ⟨N, ?_⟩, ⟨hT', fun h => absurd h hne, fun _ => ?_⟩, ?_, hne, hperm⟩
    · unfold Graph.append
      simp only
      rw [ht1, hr]
      rfl
    · intro t' h
      have e : a'.tok = t := by unfold Node.tok; rw [hseg]; rfl
      show t'.covers a'.tok = true
      rw [e]
      refine ht4 t' (h seg (hperm.mem_iff.2 (by simp))) (fun s hs' => h s (hperm.mem_iff.2 ?_))
      exact List.mem_cons_of_mem _ hs'
    · show a'.seg.info = _
      rw [hseg]; rfl

theorem new_ok (name : Bytes) : GraphOk (Graph.new name) :=
  ⟨.mk (Int.le_refl _) (by simp) (by simp) .nil, fun _ => rfl, fun h => absurd rfl h⟩

theorem Graph.Built.ok {name : Bytes} {acc : List Segment} {g : Graph} (h : Graph.Built name acc g) :
    GraphOk g ∧ g.root.seg.info = name ∧ g.root.under.Perm acc := by
  induction h with
  | new => exact ⟨new_ok name, rfl, .refl _⟩
  | accept hb hs ha ih =>
    obtain ⟨h1, h2, h3⟩ := ih
    rcases append_spec _ h1 _ hs with ⟨_, hf⟩ | ⟨_, g'', ht, hok, hi, _, hp⟩
    · have := (appends_unique ha hf).1; simp at this
    · obtain ⟨_, rfl⟩ := appends_unique ha ht
      exact ⟨hok, hi.trans h2, hp.trans (h3.cons _)⟩
  | refuse hb hs ha ih =>
    obtain ⟨h1, h2, h3⟩ := ih
    rcases append_spec _ h1 _ hs with ⟨_, hf⟩ | ⟨_, g'', ht, hok, hi, _, hp⟩
    · obtain ⟨_, rfl⟩ := appends_unique ha hf
      exact ⟨h1, h2, h3⟩
    · have := (appends_unique ha ht).1; simp at this

end Tok
