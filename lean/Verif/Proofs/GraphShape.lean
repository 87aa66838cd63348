/-
Where `Append` puts a segment, and the shape of a graph whose segments come in the order of their ends.
-/
import Verif.Proofs.Graph
import Verif.Spec.PickTree
import Verif.Spec.JsonTree

namespace Tok
open Spec

/-- The children of a node before and after `rankNodes` has put `B` below it. -/
inductive Slots (B : Segment) : List Node → List Node → Prop
  | here {ns ns' : List Node} : ns'.Perm (ns.filter (fun c => !B.tok.covers c.tok) ++ [.mk B (ns.filter fun c => B.tok.covers c.tok)]) →
      ns'.Pairwise (fun a b => Apart a.tok b.tok) → Slots B ns ns'
  | deeper {l l' : List Node} {s : Segment} {ms ms' : List Node} : s.tok.covers B.tok = true → B.tok.covers s.tok = false → Slots B ms ms' →
      Slots B (l ++ .mk s ms :: l') (l ++ .mk s ms' :: l')

theorem rankLoop_placed (fuel : Nat) (a : Node) (B : Segment) (hTa : Tree a) (hB : B.tok.Ordered)
    (ih : ∀ c ∈ a.nodes, c.tok.covers B.tok = true → ∀ c' b', rankNodes (fuel + 1) c (.mk B []) = .ret (true, c', b') → c'.seg = c.seg ∧ Slots B c.nodes c'.nodes) :
    ∀ (rest done kept moved : List Node), done ++ rest = a.nodes → kept = done.filter (fun c => !B.tok.covers c.tok) →
      moved = done.filter (fun c => B.tok.covers c.tok) → (∀ k ∈ kept, Apart k.tok B.tok ∨ Apart B.tok k.tok) →
      ∀ a' b', rankLoop (rankNodes (fuel + 1)) a done kept rest (.mk B moved) = .ret (true, a', b') → a'.seg = a.seg ∧ Slots B a.nodes a'.nodes := by
  intro rest
  induction rest with
  | nil =>
    intro done kept moved h1 h2 h3 h4 a' b' h
    rw [List.append_nil] at h1
    subst h1
    rw [rankLoop] at h
    have hk : kept.Sublist a.nodes := h2 ▸ List.filter_sublist
    have ho : ∀ n ∈ kept ++ [Node.mk B moved], n.tok.Ordered := by
      intro n hn
      rcases List.mem_append.1 hn with h | h
      · exact (hTa.child (hk.subset h)).ordered
      · rw [List.mem_singleton.1 h]; exact hB
    have hpw : (kept ++ [Node.mk B moved]).Pairwise (fun a b => Apart a.tok b.tok ∨ Apart b.tok a.tok) := by
      rw [List.pairwise_append]
      refine ⟨(hTa.apart.sublist hk).imp (fun h => .inl h), List.pairwise_singleton _ _, ?_⟩
      intro x hx y hy
      rw [List.mem_singleton.1 hy]
      exact h4 x hx
    obtain ⟨s1, s2⟩ := sortNodes_spec _ ho hpw
    cases h
    refine ⟨rfl, .here ?_ s2⟩
    rw [← h2, ← h3]
    exact s1
  | cons c rest ihr =>
    intro done kept moved h1 h2 h3 h4 a' b' h
    have hc : c ∈ a.nodes := by rw [← h1]; simp
    have hTc := hTa.child hc
    have hap := hTa.apart
    rw [← h1, List.pairwise_append] at hap
    have hdc : ∀ d ∈ done, Apart d.tok c.tok := fun d hd => hap.2.2 d hd c (by simp)
    have hm : moved.Sublist done := h3 ▸ List.filter_sublist
    rw [rankLoop] at h
    simp only [show (Node.mk B moved).tok = B.tok from rfl] at h
    by_cases hBc : B.tok.covers c.tok = true
    · rw [if_pos hBc, rankNodes_absorb fuel B moved c hB hBc hTc.ordered
        (fun d hd => (hTa.child (by rw [← h1]; exact List.mem_append_left _ (hm.subset hd))).ordered) (by
          rw [List.pairwise_append]
          refine ⟨hap.1.sublist hm, List.pairwise_singleton _ _, ?_⟩
          intro x hx y hy
          rw [List.mem_singleton.1 hy]
          exact hdc x (hm.subset hx))] at h
      simp only [Exec.bind_ret, Bool.not_true, Bool.false_eq_true, if_false] at h
      exact ihr (done ++ [c]) kept (moved ++ [c]) (by rw [← h1]; simp) (by simp [h2, List.filter_append, hBc]) (by simp [h3, List.filter_append, hBc]) h4 a' b' h
    · rw [if_neg hBc] at h
      have hBc' : B.tok.covers c.tok = false := by simpa using hBc
      by_cases hcl : B.tok.clashes c.tok = true
      · rw [if_pos hcl] at h
        cases h
      · rw [if_neg hcl] at h
        by_cases hcB : c.tok.covers B.tok = true
        · rw [if_pos hcB] at h
          have hmoved : moved = [] := by
            rw [List.eq_nil_iff_forall_not_mem]
            intro m hmm
            have := (not_covers_of_apart (.inl (hdc m (hm.subset hmm)))).2
            rw [h3, List.mem_filter] at hmm
            rw [covers_trans hcB hmm.2] at this
            simp at this
          subst hmoved
          obtain ⟨⟨ok, c', b1⟩, h5, h6⟩ := Exec.bind_eq_ret.mp h
          cases h6
          obtain ⟨h7, h8⟩ := ih c hc hcB _ _ h5
          refine ⟨rfl, ?_⟩
          rw [← h1]
          show Slots B _ (done ++ c' :: rest)
          obtain ⟨s, ms⟩ := c
          obtain ⟨s', ms'⟩ := c'
          have h7 : s' = s := h7
          subst h7
          exact .deeper hcB hBc' h8
        · rw [if_neg hcB] at h
          have hapart : Apart c.tok B.tok ∨ Apart B.tok c.tok :=
            clash_cases hTc.ordered hB hBc' (by simpa using hcl) (by simpa using hcB)
          refine ihr (done ++ [c]) (kept ++ [c]) moved (by rw [← h1]; simp) (by simp [h2, List.filter_append, hBc']) (by simp [h3, List.filter_append, hBc']) ?_ a' b' h
          intro k hk
          rcases List.mem_append.1 hk with h | h
          · exact h4 k h
          · rw [List.mem_singleton.1 h]; exact hapart

theorem rankNodes_placed (B : Segment) (hB : B.tok.Ordered) : ∀ (fuel : Nat) (a : Node), Tree a →
    a.tok.covers B.tok = true → a.all.length < fuel → ∀ a' b', rankNodes fuel a (.mk B []) = .ret (true, a', b') → a'.seg = a.seg ∧ Slots B a.nodes a'.nodes := by
  intro fuel
  induction fuel with
  | zero => intro a _ _ h; omega
  | succ fuel ih =>
    intro a hT hc hf a' b' h
    have hcl : a.tok.clashes (Node.mk B []).tok = false := no_clash_of_covers hc
    rw [rankNodes, hcl] at h
    simp only [Bool.false_eq_true, if_false] at h
    have hpos : 0 < a.all.length := by rw [Node.all_eq]; simp
    obtain ⟨f, rfl⟩ : ∃ f, fuel = f + 1 := ⟨fuel - 1, by omega⟩
    refine rankLoop_placed f a B hT hB ?_ a.nodes [] [] [] rfl rfl rfl (by simp) a' b' h
    intro c hcn hcB
    exact ih c (hT.child hcn) hcB (by have := all_length_child hcn; omega)

/-- The children of the root before and after `Append` has taken a segment. -/
theorem append_placed {g g' : Graph} (hg : GraphOk g) {seg : Segment} (hs : seg.tok.Ordered) (h : g.Appends seg true g') : Slots seg g.root.nodes g'.root.nodes := by
  obtain ⟨n, h⟩ := h
  have h := append_mono g seg n (max n (g.root.all.length + 1)) _ (Nat.le_max_left _ _) h
  obtain ⟨root⟩ := g
  obtain ⟨⟨info, tok⟩, ns⟩ := root
  unfold Graph.append at h
  simp only at h
  obtain ⟨t, ht, hc, hT⟩ : ∃ t : Token, (if !(Node.mk ⟨info, tok⟩ ns).tok.covers (Node.mk seg []).tok then
        if (Node.mk ⟨info, tok⟩ ns).nodes.length > 0 then
          (Node.mk ⟨info, tok⟩ ns).setTok ((Node.mk ⟨info, tok⟩ ns).tok.merge (Node.mk seg []).tok)
        else (Node.mk ⟨info, tok⟩ ns).setTok (Node.mk seg []).tok
      else Node.mk ⟨info, tok⟩ ns) = Node.mk ⟨info, t⟩ ns ∧ t.covers seg.tok = true ∧ Tree (.mk ⟨info, t⟩ ns) := by
    have hT : Tree (.mk ⟨info, tok⟩ ns) := hg.1
    have hord : ∀ {t : Token}, t.covers seg.tok = true → t.Ordered := fun h => by
      unfold Token.Ordered at *
      simp only [Token.covers, Bool.and_eq_true, decide_eq_true_eq] at h
      omega
    by_cases h1 : tok.covers seg.tok = true
    · refine ⟨tok, ?_, h1, hT⟩
      rw [if_neg]; simp only [Node.tok, Node.seg, h1]; decide
    · have h1' : (!(Node.mk ⟨info, tok⟩ ns).tok.covers (Node.mk seg []).tok) = true := by
        simp only [Node.tok, Node.seg]; simpa using h1
      by_cases hn : ns = []
      · subst hn
        refine ⟨seg.tok, ?_, C24_covers_partialOrder.1 _, .mk hs (by simp) (by simp) .nil⟩
        rw [if_pos h1', if_neg (by simp [Node.nodes])]; rfl
      · refine ⟨tok.merge seg.tok, ?_, (C24_merge_least _ _).2.1, .mk (hord (C24_merge_least _ _).2.1) (fun n hn => hT.child hn) (fun n hn => ?_) hT.apart⟩
        · rw [if_pos h1', if_pos (by simpa [Node.nodes] using List.length_pos_iff.2 hn)]; rfl
        · exact covers_trans (C24_merge_least _ _).1 (hT.covers hn)
  rw [ht] at h
  obtain ⟨⟨ok, root', b'⟩, h1, h2⟩ := Exec.bind_eq_ret.mp h
  simp only at h2
  cases ok
  · cases h2
  · cases h2
    exact (rankNodes_placed seg hs _ _ hT hc (by
      have : (Node.mk ⟨info, t⟩ ns).all.length = (Node.mk ⟨info, tok⟩ ns).all.length := rfl
      have := Nat.le_max_right n ((Node.mk ⟨info, tok⟩ ns).all.length + 1)
      omega) _ _ h1).2

/-! ### leaving out empty tokens -/

theorem solidList_append (l l' : List Node) : Node.solidList (l ++ l') = Node.solidList l ++ Node.solidList l' := by
  induction l with
  | nil => rfl
  | cons n l ih => simp [Node.solidList, ih]

/-- A node has a token that is not empty. -/
def Node.wide (n : Node) : Bool := decide (n.tok.frm < n.tok.to)

theorem solidList_filter (l : List Node) : Node.solidList (l.filter Node.wide) = Node.solidList l := by
  induction l with
  | nil => rfl
  | cons n l ih =>
    obtain ⟨s, ms⟩ := n
    by_cases h : s.tok.frm < s.tok.to
    · rw [List.filter_cons_of_pos (show Node.wide (.mk s ms) = true from decide_eq_true h)]
      simp only [Node.solidList, ih]
    · rw [List.filter_cons_of_neg (by rw [show Node.wide (.mk s ms) = false from decide_eq_false h]; decide)]
      simp only [Node.solidList, Node.solid, if_neg h, ih, List.nil_append]

/-- Lists of siblings with the same members are the same. -/
theorem apart_unique {l l' : List Node} (hp : l.Perm l') (ho : ∀ n ∈ l, n.tok.Ordered) (h : l.Pairwise (fun a b => Apart a.tok b.tok))
    (h' : l'.Pairwise (fun a b => Apart a.tok b.tok)) : l = l' := by
  refine hp.eq_of_pairwise ?_ h h'
  intro a b ha hb h1 h2
  have oa := ho a ha
  have ob := ho b (hp.mem_iff.mpr hb)
  have := h1.frm_lt oa ob
  have := h2.frm_lt ob oa
  omega

/-- A list of siblings. -/
def Siblings (ns : List Node) : Prop := (∀ n ∈ ns, Tree n) ∧ ns.Pairwise (fun a b => Apart a.tok b.tok)

theorem Tree.siblings {n : Node} (h : Tree n) : Siblings n.nodes := ⟨fun _ => h.child, h.apart⟩

theorem placed_empty {B : Segment} (hB : B.tok.frm = B.tok.to) {ns ns' : List Node} (h : Slots B ns ns') (hs : Siblings ns) :
    Node.solidList ns' = Node.solidList ns := by
  induction h with
  | @here ns ns' hp ha =>
    rw [← solidList_filter ns', ← solidList_filter ns]
    congr 1
    have h1 : ∀ c : Node, B.tok.covers c.tok = true → c.wide = false := fun c hc => by
      unfold Node.wide
      simp only [Token.covers, Bool.and_eq_true, decide_eq_true_eq, decide_eq_false_iff_not] at *
      omega
    have h2 : (ns.filter (fun c => !B.tok.covers c.tok) ++ [Node.mk B (ns.filter fun c => B.tok.covers c.tok)]).filter Node.wide = ns.filter Node.wide := by
      rw [List.filter_append, List.filter_cons_of_neg (by simp [Node.wide, Node.tok, Node.seg, hB]), List.filter_nil, List.append_nil, List.filter_filter]
      refine List.filter_congr fun c _ => ?_
      cases hw : c.wide
      · rfl
      · have : B.tok.covers c.tok = false := by
          cases hc : B.tok.covers c.tok
          · rfl
          · rw [h1 c hc] at hw; cases hw
        simp [this]
    have h3 := hp.filter Node.wide
    rw [h2] at h3
    exact apart_unique h3 (fun n hn => (hs.1 n (List.mem_filter.mp (h3.mem_iff.mp hn)).1).ordered) (ha.sublist List.filter_sublist) (hs.2.sublist List.filter_sublist)
  | @deeper l l' s ms ms' h1 h2 _ ih =>
    have hT : Tree (.mk s ms) := hs.1 _ (by simp)
    rw [solidList_append, solidList_append]
    simp only [Node.solidList, Node.solid, ih hT.siblings]

/-- A new node behind siblings: it takes those below it that it covers. -/
def push (ns : List Node) (B : Segment) : List Node :=
  ns.filter (fun c => !B.tok.covers c.tok) ++ [.mk B (ns.filter fun c => B.tok.covers c.tok)]

theorem solidList_sift (p : Token → Bool) (ns : List Node) : Node.solidList (ns.filter fun c => p c.tok) = (Node.solidList ns).filter fun c => p c.tok := by
  induction ns with
  | nil => rfl
  | cons n ns ih =>
    obtain ⟨s, ms⟩ := n
    by_cases hp : p s.tok = true
    · rw [List.filter_cons_of_pos (by exact hp)]
      simp only [Node.solidList, List.filter_append, ih]
      congr 1
      simp only [Node.solid]
      split
      · rw [List.filter_cons_of_pos (by exact hp)]
        rfl
      · rfl
    · rw [List.filter_cons_of_neg (by exact hp)]
      simp only [Node.solidList, List.filter_append, ih]
      simp only [Node.solid]
      split
      · rw [List.filter_cons_of_neg (by exact hp)]
        rfl
      · rfl

/-- The order in which segments are picked: each ends behind the ones before it, and comes after or covers each of them. -/
def Nests (a c : Token) : Prop := a.to ≤ c.to ∧ (a.to ≤ c.frm ∨ c.frm ≤ a.frm)

theorem placed_wide {B : Segment} (hB : B.tok.frm < B.tok.to) {ns ns' : List Node} (h : Slots B ns ns') (hs : Siblings ns)
    (hn : ∀ n ∈ ns, Nests n.tok B.tok) : Node.solidList ns' = push (Node.solidList ns) B := by
  cases h with
  | here hp ha =>
    have h1 : (ns.filter (fun c => !B.tok.covers c.tok) ++ [Node.mk B (ns.filter fun c => B.tok.covers c.tok)]).Pairwise (fun a b => Apart a.tok b.tok) := by
      rw [List.pairwise_append]
      refine ⟨hs.2.sublist List.filter_sublist, List.pairwise_singleton _ _, fun x hx y hy => ?_⟩
      rw [List.mem_singleton.mp hy]
      rw [List.mem_filter] at hx
      have h2 := hn x hx.1
      have h3 := hx.2
      have h4 := (hs.1 x hx.1).ordered
      unfold Nests at h2
      unfold Token.Ordered at h4
      simp only [Bool.not_eq_true', Token.covers, Bool.and_eq_false_iff, decide_eq_false_iff_not] at h3
      show Apart x.tok B.tok
      unfold Apart
      simp only [Token.covers, Bool.and_eq_false_iff, decide_eq_false_iff_not]
      show x.tok.to ≤ B.tok.frm ∧ (¬ x.tok.frm ≤ B.tok.frm ∨ ¬ B.tok.to ≤ x.tok.to) ∧ (¬ B.tok.frm ≤ x.tok.frm ∨ ¬ x.tok.to ≤ B.tok.to)
      omega
    have h2 := apart_unique hp (fun n h => by
      rcases List.mem_append.mp (hp.mem_iff.mp h) with h | h
      · exact (hs.1 n (List.mem_filter.mp h).1).ordered
      · rw [List.mem_singleton.mp h]; exact Int.le_of_lt hB) ha h1
    subst h2
    rw [solidList_append]
    simp only [Node.solidList, Node.solid, if_pos hB, List.append_nil]
    unfold push
    rw [solidList_sift (fun t => !B.tok.covers t), solidList_sift (fun t => B.tok.covers t)]
  | @deeper l l' s ms ms' h1 h2 _ =>
    have h3 : Nests s.tok B.tok := hn (.mk s ms) (by simp)
    exfalso
    unfold Nests at h3
    simp only [Token.covers, Bool.and_eq_false_iff, decide_eq_false_iff_not, Bool.and_eq_true, decide_eq_true_eq] at h1 h2
    omega

/-- The shape of a graph whose segments come in the order of their ends. -/
theorem buildLoop_shape {name : Bytes} : ∀ (segs acc : List Segment) (g g' : Graph) (fuel : Nat), Graph.Built name acc g → (∀ x ∈ segs, x.tok.Ordered) →
    (∀ x ∈ acc, ∀ y ∈ segs, Nests x.tok y.tok) → segs.Pairwise (fun x y => Nests x.tok y.tok) → Graph.buildLoop fuel g segs = .ret g' →
    Graph.Built name (segs.reverse ++ acc) g' ∧
      Node.solidList g'.root.nodes = (segs.filter fun x => decide (x.tok.frm < x.tok.to)).foldl push (Node.solidList g.root.nodes)
  | [], _, g, g', fuel, hb, _, _, _, h => by
    cases h
    exact ⟨hb, rfl⟩
  | x :: segs, acc, g, g', fuel, hb, ho, hn, hp, h => by
    rw [List.pairwise_cons] at hp
    obtain ⟨⟨ok, g1⟩, h1, h2⟩ := Exec.bind_eq_ret.mp h
    have hx := ho x List.mem_cons_self
    obtain ⟨hok, _, hperm⟩ := hb.ok
    have hin : ∀ s ∈ g.root.under, Nests s.tok x.tok := fun s hs => hn s (hperm.mem_iff.mp hs) x List.mem_cons_self
    have hok1 : ok = true := by
      rcases append_spec g hok x hx with ⟨⟨s, hs, hc⟩, _⟩ | ⟨_, g'', h3, _⟩
      · exfalso
        have h3 := hin s hs
        have h4 := (hok.1.covers_under hs).2
        unfold Nests at h3
        unfold Token.Ordered at *
        simp only [Token.clashes, Token.before, Token.after, Token.covers, Bool.and_eq_false_iff, Bool.not_eq_true', Bool.and_eq_true,
          decide_eq_false_iff_not] at hc
        omega
      · exact (appends_unique ⟨fuel, h1⟩ h3).1
    subst hok1
    have hpl := append_placed hok hx ⟨fuel, h1⟩
    obtain ⟨h5, h6⟩ := buildLoop_shape segs (x :: acc) g1 g' fuel (.accept hb hx ⟨fuel, h1⟩) (fun y hy => ho y (List.mem_cons_of_mem _ hy))
      (fun y hy z hz => by
        rcases List.mem_cons.mp hy with rfl | hy
        · exact hp.1 z hz
        · exact hn y hy z (List.mem_cons_of_mem _ hz)) hp.2 h2
    refine ⟨by simpa using h5, ?_⟩
    rw [h6]
    by_cases hw : x.tok.frm < x.tok.to
    · rw [List.filter_cons_of_pos (by simpa using hw), List.foldl_cons]
      rw [placed_wide hw hpl hok.1.siblings fun n hn' => hin n.seg (Node.mem_under.mpr ⟨n, hn', by rw [Node.all_eq]; simp⟩)]
    · rw [List.filter_cons_of_neg (by simpa using hw)]
      rw [placed_empty (by unfold Token.Ordered at hx; omega) hpl hok.1.siblings]

end Tok
