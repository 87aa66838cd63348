/-
C28 Graph.Append is exact and atomic, C29 tree invariant, C30 no segment is lost,
C31 the shape does not depend on the order of the calls.

A graph of the theorems is one built from `NewGraph` by any sequence of `Append` calls
with ordered tokens (`Graph.Built`, which also lists the accepted segments).
-/
import Verif.Proofs.Graph
import Mathlib.Data.List.Forall2

namespace Tok

/-! ### C28 -/

/-- `Append` always returns; it returns true exactly when the segment clashes with none of
the segments accepted before; when it returns false the graph is unchanged. -/
theorem C28_append (name : Bytes) (acc : List Segment) (g : Graph) (hg : Graph.Built name acc g) (seg : Segment)
    (hs : seg.tok.Ordered) : ∃ ok g', g.Appends seg ok g' ∧ (ok = true ↔ ∀ s ∈ acc, seg.tok.clashes s.tok = false) ∧
      (ok = false → g' = g) ∧ ∀ ok2 g2, g.Appends seg ok2 g2 → ok2 = ok ∧ g2 = g' := by
  obtain ⟨h1, _, h3⟩ := hg.ok
  rcases append_spec g h1 seg hs with ⟨⟨s, hs1, hs2⟩, hf⟩ | ⟨hno, g', ht, _⟩
  · refine ⟨false, g, hf, ⟨fun h => by simp at h, fun h => ?_⟩, fun _ => rfl, fun _ _ h => appends_unique h hf⟩
    have := h s (h3.mem_iff.1 hs1)
    rw [hs2] at this
    simp at this
  · refine ⟨true, g', ht, ⟨fun _ s hs' => hno s (h3.mem_iff.2 hs'), fun _ => rfl⟩, fun h => by simp at h,
      fun _ _ h => appends_unique h ht⟩

/-- A fixed number of rounds is enough: the recursion of `rankNodes` is never deeper than
the number of nodes. -/
theorem C28_terminates (name : Bytes) (acc : List Segment) (g : Graph) (hg : Graph.Built name acc g) (seg : Segment)
    (hs : seg.tok.Ordered) : ∃ N, ∀ fuel, N ≤ fuel → ∃ r, g.append fuel seg = .ret r := by
  obtain ⟨ok, g', ⟨N, h⟩, _⟩ := C28_append name acc g hg seg hs
  exact ⟨N, fun fuel hf => ⟨_, append_mono g seg N fuel _ hf h⟩⟩

example : (Graph.new b!"g").append 9 ⟨b!"a", ⟨2, 6⟩⟩ = .ret (true, ⟨.mk ⟨b!"g", ⟨2, 6⟩⟩ [.mk ⟨b!"a", ⟨2, 6⟩⟩ []]⟩) := rfl
example : (⟨.mk ⟨b!"g", ⟨2, 6⟩⟩ [.mk ⟨b!"a", ⟨2, 6⟩⟩ []]⟩ : Graph).append 9 ⟨b!"b", ⟨4, 8⟩⟩ =
    .ret (false, ⟨.mk ⟨b!"g", ⟨2, 6⟩⟩ [.mk ⟨b!"a", ⟨2, 6⟩⟩ []]⟩) := rfl

/-! ### C29 -/

/-- Every node covers its children, siblings are disjoint and in text order. -/
theorem C29_tree (name : Bytes) (acc : List Segment) (g : Graph) (hg : Graph.Built name acc g) : Tree g.root :=
  hg.ok.1.1

/-- The root covers every accepted segment and, once a segment was accepted, is the least
token that does. -/
theorem C29_root (name : Bytes) (acc : List Segment) (g : Graph) (hg : Graph.Built name acc g) :
    g.root.seg.info = name ∧ (∀ s ∈ acc, g.root.tok.covers s.tok = true) ∧
    (acc ≠ [] → ∀ t : Token, (∀ s ∈ acc, t.covers s.tok = true) → t.covers g.root.tok = true) := by
  obtain ⟨⟨h1, _, h2⟩, h3, h4⟩ := hg.ok
  refine ⟨h3, fun s hs => (h1.covers_under (h4.mem_iff.2 hs)).1, fun hne t ht => ?_⟩
  refine h2 ?_ t (fun s hs => ht s (h4.mem_iff.1 hs))
  intro hn
  apply hne
  have : g.root.under = [] := by rw [Node.under_eq, hn]; rfl
  rw [this] at h4
  exact h4.nil_eq.symm

/-- The segments of different siblings' subtrees never overlap and stand in text order. -/
theorem C29_siblings (n a b : Node) (l1 l2 l3 : List Node) (hT : Tree n) (hn : n.nodes = l1 ++ a :: l2 ++ b :: l3) :
    ∀ s ∈ a.all, ∀ s' ∈ b.all, s.tok.to ≤ s'.tok.frm := by
  intro s hs s' hs'
  have hap := hT.apart
  rw [hn, List.pairwise_append] at hap
  have h := (hap.2.2 a (by simp) b (by simp)).1
  have c1 := ((hT.child (c := a) (by rw [hn]; simp)).covers_all s hs).1
  have c2 := ((hT.child (c := b) (by rw [hn]; simp)).covers_all s' hs').1
  simp only [Token.covers, Bool.and_eq_true, decide_eq_true_eq] at c1 c2
  omega

/-! ### C30 -/

/-- The nodes below the root are the accepted segments, each as often as it was accepted. -/
theorem C30_segments (name : Bytes) (acc : List Segment) (g : Graph) (hg : Graph.Built name acc g) :
    g.root.under.Perm acc := hg.ok.2.2

mutual
theorem leafs_eq : ∀ n : Node, n.leafs = (n.every.filter (fun x => x.nodes.isEmpty)).map Node.seg
  | .mk s [] => by simp [Node.leafs, Node.every, Node.everyList, Node.nodes, Node.seg]
  | .mk s (n :: ns) => by
    rw [Node.leafs, Node.every, Node.everyList, List.filter_cons_of_neg (by simp [Node.nodes]), List.filter_append,
      List.map_append, leafs_eq n, leafsList_eq ns]
theorem leafsList_eq : ∀ ns : List Node, Node.leafsList ns =
    ((Node.everyList ns).filter (fun x => x.nodes.isEmpty)).map Node.seg
  | [] => by simp [Node.leafsList, Node.everyList]
  | n :: ns => by
    rw [Node.leafsList, Node.everyList, List.filter_append, List.map_append, leafs_eq n, leafsList_eq ns]
end

theorem leafsList_flatMap (ns : List Node) : Node.leafsList ns = ns.flatMap Node.leafs := by
  induction ns with
  | nil => rfl
  | cons n ns ih => rw [Node.leafsList, List.flatMap_cons, ih]

mutual
theorem every_segs : ∀ n : Node, n.every.map Node.seg = n.all
  | .mk s ns => by rw [Node.every, Node.all, List.map_cons, everyList_segs ns]; rfl
theorem everyList_segs : ∀ ns : List Node, (Node.everyList ns).map Node.seg = Node.allList ns
  | [] => rfl
  | n :: ns => by rw [Node.everyList, Node.allList, List.map_append, every_segs n, everyList_segs ns]
end

theorem leafs_mem {n : Node} {s : Segment} (h : s ∈ n.leafs) : s ∈ n.all := by
  rw [leafs_eq, List.mem_map] at h
  obtain ⟨x, hx, rfl⟩ := h
  rw [← every_segs]
  exact List.mem_map.2 ⟨x, (List.mem_filter.1 hx).1, rfl⟩

/-- `Leafs` lists exactly the nodes without children, and in text order. -/
theorem C30_leafs (name : Bytes) (acc : List Segment) (g : Graph) (hg : Graph.Built name acc g) :
    g.leafs = (g.root.every.filter (fun x => x.nodes.isEmpty)).map Node.seg ∧
    g.leafs.Pairwise (fun a b => a.tok.to ≤ b.tok.frm) := by
  refine ⟨leafs_eq _, ?_⟩
  have gen : ∀ n : Node, Tree n → n.leafs.Pairwise (fun a b => a.tok.to ≤ b.tok.frm) := by
    intro n h
    induction h with
    | @mk s ns h1 h2 h3 h4 ih =>
      cases ns with
      | nil => simp [Node.leafs]
      | cons c cs =>
        have : (Node.mk s (c :: cs)).leafs = (c :: cs).flatMap Node.leafs := by
          rw [Node.leafs, leafsList_flatMap, List.flatMap_cons]
        rw [this, List.flatMap_def, List.pairwise_flatten]
        refine ⟨?_, ?_⟩
        · intro l hl
          obtain ⟨x, hx, rfl⟩ := List.mem_map.1 hl
          exact ih x hx
        · rw [List.pairwise_map]
          refine h4.imp_of_mem ?_
          intro a b ha hb hab x hx y hy
          have c1 := ((h2 a ha).covers_all x (leafs_mem hx)).1
          have c2 := ((h2 b hb).covers_all y (leafs_mem hy)).1
          have := hab.1
          simp only [Token.covers, Bool.and_eq_true, decide_eq_true_eq] at c1 c2
          omega
  exact gen _ (C29_tree name acc g hg)

/-- A line of the flame stack for a segment: something, its text, its length. -/
def StackLine (s : Segment) (line : Bytes) : Prop := ∃ pre, line = pre ++ b!"." ++ s.string ++ b!" " ++ itoa s.tok.len

theorem natDigits_line (n : Nat) : (10 : UInt8) ∉ natDigits n := by
  unfold natDigits
  rw [List.mem_map]
  rintro ⟨c, hc, h⟩
  have := Nat.isDigit_of_mem_toDigits (by omega) (by omega) hc
  simp only [Char.isDigit, Bool.and_eq_true, decide_eq_true_eq] at this
  have h1 : 48 ≤ c.toNat := this.1
  have h2 : c.toNat ≤ 57 := this.2
  have h3 := congrArg UInt8.toNat h
  rw [UInt8.toNat_ofNat'] at h3
  have : (10 : UInt8).toNat = 10 := rfl
  omega

theorem itoa_line (n : Int) : (10 : UInt8) ∉ itoa n := by
  cases n with
  | ofNat n => exact natDigits_line n
  | negSucc n =>
    show (10 : UInt8) ∉ ([45] ++ natDigits (n + 1) : Bytes)
    rw [List.mem_append, not_or]
    exact ⟨by decide, natDigits_line _⟩

theorem seg_string_line (s : Segment) (h : (10 : UInt8) ∉ s.info) : (10 : UInt8) ∉ s.string := by
  unfold Segment.string Token.string
  simp only [List.mem_append, not_or]
  exact ⟨h, ⟨⟨⟨by decide, itoa_line _⟩, by decide⟩, itoa_line _⟩, by decide⟩

mutual
theorem stackLines_spec : ∀ (n : Node) (pre : Bytes) (i : Nat), ∃ lines : List Bytes,
    stackLines pre i n = (lines.map (· ++ b!"\n")).flatten ∧ List.Forall₂ StackLine n.all lines ∧
    ((10 : UInt8) ∉ pre → (∀ s ∈ n.all, (10 : UInt8) ∉ s.info) → ∀ l ∈ lines, (10 : UInt8) ∉ l)
  | .mk s ns, pre, i => by
    obtain ⟨lines, h1, h2, h3⟩ := stackLinesList_spec ns (pre ++ natDigits i ++ b!"." ++ s.string ++ b!";") 1
    refine ⟨(pre ++ natDigits i ++ b!"." ++ s.string ++ b!" " ++ itoa s.tok.len) :: lines, ?_, ?_, ?_⟩
    · rw [stackLines, h1, List.map_cons, List.flatten_cons]
    · rw [Node.all]
      exact .cons ⟨pre ++ natDigits i, rfl⟩ h2
    · intro hp hi l hl
      rw [Node.all] at hi
      have hs := seg_string_line s (hi s (by simp))
      have hd := natDigits_line i
      rcases List.mem_cons.1 hl with rfl | hl
      · have := itoa_line s.tok.len
        simp only [List.mem_append, not_or]
        exact ⟨⟨⟨⟨⟨hp, hd⟩, by decide⟩, hs⟩, by decide⟩, this⟩
      · refine h3 ?_ (fun x hx => hi x (by simp [hx])) l hl
        simp only [List.mem_append, not_or]
        exact ⟨⟨⟨⟨hp, hd⟩, by decide⟩, hs⟩, by decide⟩
theorem stackLinesList_spec : ∀ (ns : List Node) (pre : Bytes) (i : Nat), ∃ lines : List Bytes,
    stackLinesList pre i ns = (lines.map (· ++ b!"\n")).flatten ∧ List.Forall₂ StackLine (Node.allList ns) lines ∧
    ((10 : UInt8) ∉ pre → (∀ s ∈ Node.allList ns, (10 : UInt8) ∉ s.info) → ∀ l ∈ lines, (10 : UInt8) ∉ l)
  | [], _, _ => ⟨[], rfl, .nil, by simp⟩
  | n :: ns, pre, i => by
    obtain ⟨l1, a1, a2, a3⟩ := stackLines_spec n pre i
    obtain ⟨l2, b1, b2, b3⟩ := stackLinesList_spec ns pre (i + 1)
    refine ⟨l1 ++ l2, ?_, ?_, ?_⟩
    · rw [stackLinesList, a1, b1, List.map_append, List.flatten_append]
    · rw [Node.allList]; exact List.rel_append a2 b2
    · intro hp hi l hl
      rw [Node.allList] at hi
      rcases List.mem_append.1 hl with h | h
      · exact a3 hp (fun s hs => hi s (by simp [hs])) l h
      · exact b3 hp (fun s hs => hi s (by simp [hs])) l h
end

/-- `FlameStack` prints one line per node, the root first and every node before the nodes
below it; each line ends with the text of its segment and its length, and when no info
contains a line break there are no other line breaks. -/
theorem C30_flameStack (g : Graph) : ∃ lines : List Bytes,
    g.flameStack = (lines.map (· ++ b!"\n")).flatten ∧ List.Forall₂ StackLine g.root.all lines ∧
    ((∀ s ∈ g.root.all, (10 : UInt8) ∉ s.info) → ∀ l ∈ lines, (10 : UInt8) ∉ l) := by
  obtain ⟨lines, h1, h2, h3⟩ := stackLines_spec g.root [] 1
  exact ⟨lines, h1, h2, h3 (by simp)⟩

theorem intercalate_snoc {α : Type} (sep x : List α) : ∀ l : List (List α), sep.intercalate (l ++ [x]) = (l.map (· ++ sep)).flatten ++ x
  | [] => by simp
  | [a] => by simp [List.intercalate]
  | a :: b :: l => by
    have := intercalate_snoc sep x (b :: l)
    simp only [List.intercalate, List.cons_append, List.intersperse_cons₂, List.flatten_cons] at this ⊢
    rw [this]
    simp

mutual
theorem stackLines_paths : ∀ (n : Node) (above : List (Nat × Segment)) (i : Nat),
    stackLines ((above.map fun x => natDigits x.1 ++ b!"." ++ x.2.string ++ b!";").flatten) i n =
      ((Node.paths above i n).map pathLine).flatten
  | .mk s ns, above, i => by
    have h := stackLinesList_paths ns (above ++ [(i, s)]) 1
    simp only [List.map_append, List.map_cons, List.map_nil, List.flatten_append, List.flatten_cons, List.flatten_nil, List.append_nil] at h
    rw [stackLines, Node.paths, List.map_cons, List.flatten_cons, ← h]
    simp only [pathLine, List.map_append, List.map_cons, List.map_nil, intercalate_snoc, List.map_map, List.getLast?_append,
      List.getLast?_singleton, Option.some_or, Option.map_some, Option.getD_some, List.append_assoc,
      Function.comp_def]
theorem stackLinesList_paths : ∀ (ns : List Node) (above : List (Nat × Segment)) (i : Nat),
    stackLinesList ((above.map fun x => natDigits x.1 ++ b!"." ++ x.2.string ++ b!";").flatten) i ns =
      ((Node.pathsList above i ns).map pathLine).flatten
  | [], _, _ => rfl
  | n :: ns, above, i => by
    rw [stackLinesList, Node.pathsList, List.map_append, List.flatten_append, stackLines_paths n, stackLinesList_paths ns]
end

/-- The lines exactly: `FlameStack` prints for every node the path from the root to it. -/
theorem C30_paths (g : Graph) : g.flameStack = ((Node.paths [] 1 g.root).map pathLine).flatten :=
  stackLines_paths g.root [] 1

/-- A root with two nodes below it. -/
example : Graph.flameStack ⟨.mk ⟨b!"g", ⟨0, 9⟩⟩ [.mk ⟨b!"a", ⟨0, 4⟩⟩ [], .mk ⟨b!"b", ⟨5, 9⟩⟩ []]⟩ =
    b!"1.g[0-9) 9\n1.g[0-9);1.a[0-4) 4\n1.g[0-9);2.b[5-9) 4\n" := by rw [C30_paths]; decide

/-! ### C31 -/

mutual
theorem node_equal_iff : ∀ a b : Node, a.equal b = true ↔ a = b
  | .mk s ns, .mk s' ns' => by
    rw [Node.equal]
    by_cases h1 : s = s'
    · subst h1
      rw [if_neg (by simp)]
      by_cases h2 : ns.length = ns'.length
      · rw [if_neg (by simpa using h2), node_equals_iff ns ns' h2]; simp
      · rw [if_pos h2]
        constructor
        · intro h; simp at h
        · intro h; simp only [Node.mk.injEq] at h; exact absurd (congrArg List.length h.2) h2
    · rw [if_pos h1]
      constructor
      · intro h; simp at h
      · intro h; simp only [Node.mk.injEq] at h; exact absurd h.1 h1
theorem node_equals_iff : ∀ as bs : List Node, as.length = bs.length → (Node.equals as bs = true ↔ as = bs)
  | [], [], _ => by simp [Node.equals]
  | a :: as, b :: bs, h => by
    rw [Node.equals]
    have ih := node_equal_iff a b
    cases he : a.equal b
    · simp only [Bool.not_false, if_true]
      constructor
      · intro h; simp at h
      · intro h; rw [List.cons.injEq] at h
        rw [ih.2 h.1] at he; simp at he
    · simp only [Bool.not_true, Bool.false_eq_true, if_false]
      rw [node_equals_iff as bs (by simpa using h), List.cons.injEq]
      exact ⟨fun h => ⟨ih.1 he, h⟩, fun h => h.2⟩
end

/-- `Equal` is structural equality. -/
theorem C31_equal (g g' : Graph) : g.equal g' = true ↔ g = g' := by
  unfold Graph.equal
  rw [node_equal_iff]
  cases g; cases g'; simp

/-- No two segments have the same token. -/
def Distinct (l : List Segment) : Prop := l.Pairwise (fun a b => a.tok ≠ b.tok)

private theorem distinct_eq {l : List Segment} (h : Distinct l) {a b : Segment} (ha : a ∈ l) (hb : b ∈ l)
    (hab : a.tok = b.tok) : a = b := by
  rcases pairwise_mem (fun _ _ h => Ne.symm h) h a ha b hb with h | h
  · exact h
  · exact absurd hab h

private theorem disjoint_nonempty {a b t : Token} (h : Apart a b ∨ Apart b a) (ht : t.frm < t.to)
    (h1 : a.covers t = true) (h2 : b.covers t = true) : False := by
  unfold Apart at h
  simp only [Token.covers, Bool.and_eq_true, decide_eq_true_eq] at *
  omega

/-- The segments below a child are the ones it covers, apart from itself. -/
private theorem under_child {s : Segment} {ns : List Node} (hT : Tree (.mk s ns))
    (hne : ∀ x ∈ (Node.mk s ns).under, x.tok.frm < x.tok.to) (hd : Distinct (Node.mk s ns).under) {c : Node} (hc : c ∈ ns) :
    ((Node.mk s ns).under.filter (fun x => c.tok.covers x.tok && decide (x.tok ≠ c.tok))) = c.under := by
  obtain ⟨l1, l2, rfl⟩ := List.append_of_mem hc
  have hap : (l1 ++ c :: l2).Pairwise (fun a b => Apart a.tok b.tok) := hT.apart
  rw [List.pairwise_append, List.pairwise_cons] at hap
  have hother : ∀ d ∈ l1 ++ c :: l2, (Apart d.tok c.tok ∨ Apart c.tok d.tok) → ∀ x ∈ d.all,
      ¬ (c.tok.covers x.tok && decide (x.tok ≠ c.tok)) = true := by
    intro d hdm hdc x hx h
    have h1 := ((hT.child (c := d) hdm).covers_all x hx).1
    rw [Bool.and_eq_true] at h
    refine disjoint_nonempty hdc (hne x ?_) h1 h.1
    exact Node.mem_under.2 ⟨d, hdm, hx⟩
  have e1 : (l1.flatMap Node.all).filter (fun x => c.tok.covers x.tok && decide (x.tok ≠ c.tok)) = [] := by
    rw [List.filter_eq_nil_iff]
    intro x hx
    obtain ⟨d, hdm, hxd⟩ := List.mem_flatMap.1 hx
    exact hother d (by simp [hdm]) (.inl (hap.2.2 d hdm c (by simp))) x hxd
  have e2 : (l2.flatMap Node.all).filter (fun x => c.tok.covers x.tok && decide (x.tok ≠ c.tok)) = [] := by
    rw [List.filter_eq_nil_iff]
    intro x hx
    obtain ⟨d, hdm, hxd⟩ := List.mem_flatMap.1 hx
    exact hother d (by simp [hdm]) (.inr (hap.2.1.1 d hdm)) x hxd
  rw [Node.under_eq]
  show ((l1 ++ c :: l2).flatMap Node.all).filter _ = _
  rw [List.flatMap_append, List.flatMap_cons, List.filter_append, List.filter_append, e1, e2, List.nil_append,
    List.append_nil, Node.all_eq, List.filter_cons_of_neg (by simp [Node.tok])]
  rw [List.filter_eq_self]
  intro x hx
  have hcov := ((hT.child (c := c) hc).covers_under hx).1
  rw [hcov, Bool.true_and, decide_eq_true_eq]
  -- `c` and `x` are two entries of the list of distinct segments
  have : Distinct c.all := by
    unfold Distinct at *
    rw [Node.under_eq] at hd
    have hd' : ((l1 ++ c :: l2).flatMap Node.all).Pairwise (fun a b => a.tok ≠ b.tok) := hd
    rw [List.flatMap_append, List.flatMap_cons, List.pairwise_append, List.pairwise_append] at hd'
    exact hd'.2.1.1
  unfold Distinct at this
  rw [Node.all_eq, List.pairwise_cons] at this
  exact fun h => this.1 x hx h.symm

/-- The children are the segments that no other segment covers. -/
private theorem children_iff {s : Segment} {ns : List Node} (hT : Tree (.mk s ns))
    (hne : ∀ x ∈ (Node.mk s ns).under, x.tok.frm < x.tok.to) (hd : Distinct (Node.mk s ns).under) (x : Segment) :
    x ∈ ns.map Node.seg ↔ x ∈ (Node.mk s ns).under ∧ ∀ y ∈ (Node.mk s ns).under, y.tok.covers x.tok = true → y = x := by
  constructor
  · intro hx
    obtain ⟨c, hc, rfl⟩ := List.mem_map.1 hx
    have hcm : c.seg ∈ (Node.mk s ns).under := Node.mem_under.2 ⟨c, hc, by rw [Node.all_eq]; simp⟩
    refine ⟨hcm, ?_⟩
    intro y hy hyc
    obtain ⟨d, hdm, hyd⟩ := Node.mem_under.1 hy
    have hdy := ((hT.child hdm).covers_all y hyd).1
    rcases pairwise_mem (R := fun a b : Node => Apart a.tok b.tok ∨ Apart b.tok a.tok) (fun _ _ h => h.symm)
      (hT.apart.imp (fun h => .inl h)) d hdm c hc with h | h
    · subst h
      apply distinct_eq hd hy hcm
      exact C24_covers_partialOrder.2.1 _ _ hyc hdy
    · exact (disjoint_nonempty h (hne _ hcm) (covers_trans hdy hyc) (C24_covers_partialOrder.1 _)).elim
  · rintro ⟨hx, hmax⟩
    obtain ⟨c, hc, hxc⟩ := Node.mem_under.1 hx
    have hcx := ((hT.child hc).covers_all x hxc).1
    have := hmax c.seg (Node.mem_under.2 ⟨c, hc, by rw [Node.all_eq]; simp⟩) hcx
    rw [← this]
    exact List.mem_map.2 ⟨c, hc, rfl⟩

/-- Two trees with the same root and the same segments below are equal. -/
theorem tree_unique {a : Node} (ha : Tree a) : ∀ b : Node, Tree b → a.seg = b.seg → a.under.Perm b.under →
    (∀ x ∈ a.under, x.tok.frm < x.tok.to) → Distinct a.under → a = b := by
  induction ha with
  | @mk s ns h1 h2 h3 h4 ih =>
    intro b hb hseg hperm hne hd
    obtain ⟨s', ns'⟩ := b
    have : s = s' := hseg
    subst this
    have hTa : Tree (.mk s ns) := .mk h1 h2 h3 h4
    have hne' : ∀ x ∈ (Node.mk s ns').under, x.tok.frm < x.tok.to := fun x hx => hne x (hperm.mem_iff.2 hx)
    have hd' : Distinct (Node.mk s ns').under := (hperm.pairwise_iff (fun h => Ne.symm h)).1 hd
    -- the children carry the same segments in the same order
    have hmem : ∀ x, x ∈ ns.map Node.seg ↔ x ∈ ns'.map Node.seg := by
      intro x
      rw [children_iff hTa hne hd, children_iff hb hne' hd', hperm.mem_iff]
      refine and_congr_right (fun _ => ?_)
      exact ⟨fun h y hy => h y (hperm.mem_iff.2 hy), fun h y hy => h y (hperm.mem_iff.1 hy)⟩
    have hord : ∀ (ns : List Node), Tree (.mk s ns) →
        (ns.map Node.seg).Pairwise (fun a b => Apart a.tok b.tok ∧ a.tok.Ordered ∧ b.tok.Ordered) := by
      intro ns hT
      rw [List.pairwise_map]
      exact hT.apart.imp_of_mem (fun ha hb h => ⟨h, (hT.child ha).ordered, (hT.child hb).ordered⟩)
    have hnd : ∀ (ns : List Node), Tree (.mk s ns) → (ns.map Node.seg).Nodup := by
      intro ns hT
      refine (hord ns hT).imp ?_
      rintro a b ⟨h1, h2, h3⟩ rfl
      have := h1.frm_lt h2 h3
      omega
    have hp : (ns.map Node.seg).Perm (ns'.map Node.seg) :=
      (List.perm_ext_iff_of_nodup (hnd ns hTa) (hnd ns' hb)).2 hmem
    have hsegs : ns.map Node.seg = ns'.map Node.seg := by
      refine hp.eq_of_pairwise ?_ (hord ns hTa) (hord ns' hb)
      rintro a b _ _ ⟨h1, h2, h3⟩ ⟨h4, h5, h6⟩
      have := h1.frm_lt h2 h3
      have := h4.frm_lt h5 h6
      omega
    have hlen : ns.length = ns'.length := by simpa using congrArg List.length hsegs
    congr 1
    refine List.ext_getElem hlen (fun i hi hi' => ?_)
    have hmi : ns[i] ∈ ns := List.getElem_mem hi
    have hmi' : ns'[i] ∈ ns' := List.getElem_mem hi'
    have hse : ns[i].seg = ns'[i].seg := by
      have := congrArg (fun l => l[i]?) hsegs
      simp only [List.getElem?_map, List.getElem?_eq_getElem hi, List.getElem?_eq_getElem hi', Option.map_some,
        Option.some.injEq] at this
      exact this
    have htok : ns[i].tok = ns'[i].tok := by unfold Node.tok; rw [hse]
    have e1 := under_child hTa hne hd hmi
    have e2 := under_child hb hne' hd' hmi'
    rw [← htok] at e2
    have hpu : ns[i].under.Perm ns'[i].under := by
      rw [← e1, ← e2]; exact hperm.filter _
    have hsub : ns[i].under.Sublist (Node.mk s ns).under := by
      rw [← e1]; exact List.filter_sublist
    refine ih _ hmi _ (hb.child hmi') hse hpu (fun x hx => hne x (hsub.subset hx)) (hd.sublist hsub)

private theorem built_nil {name : Bytes} {acc : List Segment} {g : Graph} (h : Graph.Built name acc g) (he : acc = []) :
    g = Graph.new name := by
  induction h with
  | new => rfl
  | accept => simp at he
  | refuse hb hs ha ih =>
    rcases append_spec _ hb.ok.1 _ hs with ⟨_, hf⟩ | ⟨_, g'', ht, _⟩
    · rw [(appends_unique ha hf).2]; exact ih he
    · have := (appends_unique ha ht).1; simp at this

/-- Two graphs with the same name in which the same non-empty, pairwise different tokens
were accepted, in whatever order and with whatever refused segments in between, are
equal. -/
theorem C31_order_partial (name : Bytes) (acc acc' : List Segment) (g g' : Graph) (hg : Graph.Built name acc g)
    (hg' : Graph.Built name acc' g') (hp : acc.Perm acc') (hd : Distinct acc) (hne : ∀ s ∈ acc, s.tok.frm < s.tok.to) :
    g = g' ∧ g.equal g' = true := by
  have heq : g = g' := by
    by_cases hsome : acc = []
    · subst hsome
      rw [built_nil hg rfl, built_nil hg' hp.nil_eq.symm]
    obtain ⟨_, i1, p1⟩ := hg.ok
    obtain ⟨_, i2, p2⟩ := hg'.ok
    obtain ⟨_, r1, r2⟩ := C29_root name acc g hg
    obtain ⟨_, r1', r2'⟩ := C29_root name acc' g' hg'
    have hsome' : acc' ≠ [] := by rintro rfl; exact hsome hp.eq_nil
    have htok : g.root.tok = g'.root.tok := by
      apply C24_covers_partialOrder.2.1
      · exact r2' hsome' _ (fun s hs => r1 s (hp.mem_iff.2 hs))
      · exact r2 hsome _ (fun s hs => r1' s (hp.mem_iff.1 hs))
    have hseg : g.root.seg = g'.root.seg := by
      have e1 := i1.trans i2.symm
      have e2 : g.root.seg.tok = g'.root.seg.tok := htok
      cases h : g.root.seg; cases h' : g'.root.seg
      rw [h, h'] at e1 e2
      simp only at e1 e2
      rw [e1, e2]
    have := tree_unique (C29_tree name acc g hg) g'.root (C29_tree name acc' g' hg') hseg
      (p1.trans (hp.trans p2.symm)) (fun x hx => hne x (p1.mem_iff.1 hx))
      ((p1.pairwise_iff (fun h => Ne.symm h)).2 hd)
    cases g; cases g'; simp only at this; rw [this]
  exact ⟨heq, (C31_equal g g').2 heq⟩

/-- With an empty token between two touching tokens the shape depends on the order: the
empty segment hangs below the first of the two that was appended. -/
theorem C31_empty_violated :
    ∃ g g', Graph.build 9 b!"g" [⟨b!"s", ⟨5, 5⟩⟩, ⟨b!"e", ⟨0, 5⟩⟩, ⟨b!"c", ⟨5, 9⟩⟩] = .ret g ∧
      Graph.build 9 b!"g" [⟨b!"s", ⟨5, 5⟩⟩, ⟨b!"c", ⟨5, 9⟩⟩, ⟨b!"e", ⟨0, 5⟩⟩] = .ret g' ∧ g.equal g' = false :=
  ⟨_, _, rfl, rfl, by decide⟩

/-- With equal tokens the shape depends on the order: the later segment becomes the
parent of the earlier one. -/
theorem C31_equal_tokens_violated :
    ∃ g g', Graph.build 9 b!"g" [⟨b!"a", ⟨0, 5⟩⟩, ⟨b!"b", ⟨0, 5⟩⟩] = .ret g ∧
      Graph.build 9 b!"g" [⟨b!"b", ⟨0, 5⟩⟩, ⟨b!"a", ⟨0, 5⟩⟩] = .ret g' ∧ g.equal g' = false :=
  ⟨_, _, rfl, rfl, by decide⟩

private def exA : Segment := ⟨b!"a", ⟨0, 9⟩⟩
private def exB : Segment := ⟨b!"b", ⟨2, 4⟩⟩

-- Two orders for the same segments.
private theorem exAB : Graph.Built b!"g" [exB, exA] ⟨.mk ⟨b!"g", ⟨0, 9⟩⟩ [.mk exA [.mk exB []]]⟩ :=
  .accept (.accept .new (by decide) ⟨9, rfl⟩) (by decide) ⟨9, rfl⟩
private theorem exBA : Graph.Built b!"g" [exA, exB] ⟨.mk ⟨b!"g", ⟨0, 9⟩⟩ [.mk exA [.mk exB []]]⟩ :=
  .accept (.accept .new (by decide) ⟨9, rfl⟩) (by decide) ⟨9, rfl⟩
example := C31_order_partial _ _ _ _ _ exAB exBA (.swap _ _ _) (by unfold Distinct; decide) (by decide)
example := C28_append _ _ _ exAB ⟨b!"x", ⟨3, 12⟩⟩ (by decide)

end Tok
