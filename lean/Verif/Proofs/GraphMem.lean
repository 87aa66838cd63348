/-
The nodes in memory and the tree they stand for.
-/
import Verif.Model.GraphMem
import Verif.Proofs.Graph

namespace Tok

/-- A child: its address, the tree below it and the addresses of that tree. -/
structure Leg where
  ptr : Nat
  tree : Node
  foot : Nat → Prop

/-- The node at an address and everything below it are the given tree and lie at the given addresses, each node at its own. -/
inductive Rep (m : NodeMem) : Nat → Node → (Nat → Prop) → Prop
  | mk {p : Nat} {s : Segment} (l : List Leg) : m p = ⟨s, l.map Leg.ptr⟩ → (∀ x ∈ l, Rep m x.ptr x.tree x.foot) →
      l.Pairwise (fun x y => ∀ q, x.foot q → ¬ y.foot q) → (∀ x ∈ l, ¬ x.foot p) →
      Rep m p (.mk s (l.map Leg.tree)) (fun q => q = p ∨ ∃ x ∈ l, x.foot q)

theorem Rep.congr {m m' : NodeMem} {p : Nat} {t : Node} {F : Nat → Prop} (h : Rep m p t F) : (∀ q, F q → m' q = m q) → Rep m' p t F := by
  induction h with
  | @mk p s l h1 h2 h3 h4 ih =>
    intro hm
    exact .mk l ((hm p (.inl rfl)).trans h1) (fun x hx => ih x hx fun q hq => hm q (.inr ⟨x, hx, hq⟩)) h3 h4

theorem Rep.self {m : NodeMem} {p : Nat} {t : Node} {F : Nat → Prop} (h : Rep m p t F) : F p := by
  cases h; exact .inl rfl

theorem Rep.seg {m : NodeMem} {p : Nat} {t : Node} {F : Nat → Prop} (h : Rep m p t F) : (m p).seg = t.seg := by
  cases h with | mk l h1 => rw [h1]; rfl

theorem Rep.tok {m : NodeMem} {p : Nat} {t : Node} {F : Nat → Prop} (h : Rep m p t F) : m.tok p = t.tok := by
  unfold NodeMem.tok Node.tok
  rw [h.seg]

theorem Rep.of_eq {m : NodeMem} {p : Nat} {t : Node} {F F' : Nat → Prop} (h : Rep m p t F) (e : ∀ q, F q ↔ F' q) : Rep m p t F' := by
  have : F = F' := funext fun q => propext (e q)
  exact this ▸ h

theorem upd_at {α : Type} (f : Nat → α) (i : Nat) (v : α) : upd f i v i = v := if_pos rfl
theorem upd_off {α : Type} (f : Nat → α) {i j : Nat} (v : α) (h : j ≠ i) : upd f i v j = f j := if_neg h

/-! ### sorting pointers -/

/-- Sorting the addresses of children is sorting the children. -/
theorem sort_legs {less : Nat → Nat → Bool} (l : List Leg) (h : ∀ x ∈ l, ∀ y ∈ l, less x.ptr y.ptr = Node.less x.tree y.tree) :
    ∃ l' : List Leg, l'.Perm l ∧ sortStable less (l.map Leg.ptr) = l'.map Leg.ptr ∧ sortStable Node.less (l.map Leg.tree) = l'.map Leg.tree := by
  let lt : {x // x ∈ l} → {x // x ∈ l} → Bool := fun x y => Node.less x.1.tree y.1.tree
  have h1 := sortStable_map (less := lt) (less' := less) (f := fun x => x.1.ptr) (fun a b => h _ a.2 _ b.2) l.attach
  have h2 := sortStable_map (less := lt) (less' := Node.less) (f := fun x => x.1.tree) (fun _ _ => rfl) l.attach
  refine ⟨(sortStable lt l.attach).map Subtype.val, ?_, ?_, ?_⟩
  · have := (sortStable_perm lt l.attach).map Subtype.val
    rwa [List.attach_map_subtype_val] at this
  · rw [List.map_map]
    rw [show l.attach.map (fun x => x.1.ptr) = l.map Leg.ptr by
      conv_rhs => rw [← List.attach_map_subtype_val l, List.map_map]
      rfl] at h1
    exact h1
  · rw [List.map_map]
    rw [show l.attach.map (fun x => x.1.tree) = l.map Leg.tree by
      conv_rhs => rw [← List.attach_map_subtype_val l, List.map_map]
      rfl] at h2
    exact h2

/-- Addresses that are in order already stay as they are. -/
theorem sortPtrs_id (m : NodeMem) (l : List Nat) (ho : ∀ p ∈ l, (m.tok p).Ordered) (h : l.Pairwise (fun p q => Apart (m.tok p) (m.tok q))) :
    sortStable m.less l = l := by
  have h1 := sortStable_map (less := m.less) (less' := Node.less) (f := fun p => Node.mk (m p).seg []) (fun _ _ => rfl) l
  rw [sortNodes_id (l.map fun p => Node.mk (m p).seg []) (by
    intro n hn
    obtain ⟨p, hp, rfl⟩ := List.mem_map.1 hn
    exact ho p hp) (by rw [List.pairwise_map]; exact h)] at h1
  have hp := sortStable_perm m.less l
  have hs : (sortStable m.less l).Pairwise (fun p q => Apart (m.tok p) (m.tok q)) := by
    have : ((sortStable m.less l).map fun p => Node.mk (m p).seg []).Pairwise (fun a b => Apart a.tok b.tok) := by
      rw [← h1, List.pairwise_map]; exact h
    rw [List.pairwise_map] at this
    exact this
  refine hp.eq_of_pairwise ?_ hs h
  intro a b ha hb h1 h2
  have := h1.frm_lt (ho a (hp.mem_iff.1 ha)) (ho b hb)
  have := h2.frm_lt (ho b hb) (ho a (hp.mem_iff.1 ha))
  omega

/-! ### rankNodes -/

/-- A child that the new node covers is appended to the new node's children. -/
theorem rankP_absorb {n : Nat} {m : NodeMem} {b c : Nat} {B : Segment} {moved : List Nat} (hb : m b = ⟨B, moved⟩)
    (hBc : B.tok.covers (m.tok c) = true) (hc : (m.tok c).Ordered) (hm : ∀ d ∈ moved, (m.tok d).Ordered)
    (hap : (moved ++ [c]).Pairwise (fun p q => Apart (m.tok p) (m.tok q))) (hn : moved.length + 2 ≤ n) :
    rankP n m b c = .ret (true, upd m b ⟨B, moved ++ [c]⟩) := by
  obtain ⟨n, rfl⟩ : ∃ k, n = k + 1 := ⟨n - 1, by omega⟩
  have htok : m.tok b = B.tok := by unfold NodeMem.tok; rw [hb]
  rw [rankP, htok, no_clash_of_covers hBc]
  simp only [Bool.false_eq_true, if_false]
  have hsort : sortStable m.less (moved ++ [c]) = moved ++ [c] :=
    sortPtrs_id m _ (by
      intro p hp
      rcases List.mem_append.1 hp with h | h
      · exact hm p h
      · rw [List.mem_singleton.1 h]; exact hc) hap
  have loop : ∀ k i, i ≤ moved.length → moved.length - i < k →
      rankLoopP (rankP n) b c k i (moved.take i) m = .ret (true, upd m b ⟨B, moved ++ [c]⟩) := by
    intro k
    induction k with
    | zero => intro i _ h; omega
    | succ k ih =>
      intro i hi hk
      rw [rankLoopP, hb]
      simp only
      by_cases he : i = moved.length
      · subst he
        rw [List.getElem?_eq_none (Nat.le_refl _), List.take_length]
        simp only
        rw [hsort]
      · have hil : i < moved.length := by omega
        rw [List.getElem?_eq_getElem hil]
        simp only
        have hd : moved[i] ∈ moved := List.getElem_mem hil
        have hdc : Apart (m.tok moved[i]) (m.tok c) := (List.pairwise_append.1 hap).2.2 _ hd c (by simp)
        obtain ⟨n1, n2⟩ := not_covers_of_apart (.inl hdc)
        have n3 : (m.tok c).clashes (m.tok moved[i]) = false :=
          no_clash_of_apart (.inl hdc) (hm _ hd) (C24_covers_partialOrder.1 _) hc
        rw [n2, n3, n1]
        simp only [Bool.false_eq_true, if_false]
        have : moved.take i ++ [moved[i]] = moved.take (i + 1) := by rw [List.take_add_one, List.getElem?_eq_getElem hil]; rfl
        rw [this]
        exact ih (i + 1) (by omega) (by omega)
  have := loop n 0 (by omega) (by omega)
  simpa using this

/-- What `rankNodes` does in memory, beside what it does to trees. -/
structure RankBoth (m : NodeMem) (a b : Nat) (t : Node) (F : Nat → Prop) (res : Exec RankRes) (resP : Exec (Bool × NodeMem)) : Prop where
  both : ∃ ok t' b' m', res = .ret (ok, t', b') ∧ resP = .ret (ok, m') ∧ (∀ q, ¬ F q → q ≠ b → m' q = m q) ∧ (∀ q, q ≠ b → (m' q).seg = (m q).seg) ∧
    (ok = false → (∀ q, q ≠ b → m' q = m q) ∧ t' = t) ∧ (ok = true → Rep m' a t' (fun q => F q ∨ q = b))

theorem legs_child {l : List Leg} {x : Leg} (hx : x ∈ l) : x.tree ∈ l.map Leg.tree := List.mem_map_of_mem hx

/-- The loop: `kept` and `moved` are the children seen so far that stay and that went below the new node. -/
theorem rankLoopP_spec (n : Nat) {m : NodeMem} {a b : Nat} {s B : Segment} {legs : List Leg} (hB : B.tok.Ordered)
    (hTa : Tree (.mk s (legs.map Leg.tree))) (ha : m a = ⟨s, legs.map Leg.ptr⟩) (hreps : ∀ x ∈ legs, Rep m x.ptr x.tree x.foot)
    (hdis : legs.Pairwise (fun x y => ∀ q, x.foot q → ¬ y.foot q)) (haf : ∀ x ∈ legs, ¬ x.foot a) (hab : b ≠ a) (hbf : ∀ x ∈ legs, ¬ x.foot b)
    (hb : m b = ⟨B, []⟩) (hn : legs.length + 2 ≤ n)
    (ih : ∀ x ∈ legs, x.tree.tok.covers B.tok = true → RankBoth m x.ptr b x.tree x.foot (rankNodes n x.tree (.mk B [])) (rankP n m x.ptr b)) :
    ∀ (rest done kept moved : List Leg) (k : Nat), done ++ rest = legs → (kept ++ moved).Perm done → kept.Sublist done → moved.Sublist done →
      (∀ x ∈ moved, B.tok.covers x.tree.tok = true) → rest.length < k →
      RankBoth m a b (.mk s (legs.map Leg.tree)) (fun q => q = a ∨ ∃ x ∈ legs, x.foot q)
        (rankLoop (rankNodes n) (.mk s (legs.map Leg.tree)) (done.map Leg.tree) (kept.map Leg.tree) (rest.map Leg.tree) (.mk B (moved.map Leg.tree)))
        (rankLoopP (rankP n) a b k done.length (kept.map Leg.ptr) (upd m b ⟨B, moved.map Leg.ptr⟩)) := by
  intro rest
  induction rest with
  | nil =>
    intro done kept moved k h1 h2 h3 h4 h5 hk
    rw [List.append_nil] at h1
    subst h1
    obtain ⟨k, rfl⟩ : ∃ j, k = j + 1 := ⟨k - 1, by omega⟩
    rw [List.map_nil, rankLoop, rankLoopP, upd_off _ _ hab.symm, ha]
    simp only
    rw [List.getElem?_eq_none (by simp)]
    simp only
    let lb : Leg := ⟨b, .mk B (moved.map Leg.tree), fun q => q = b ∨ ∃ x ∈ moved, x.foot q⟩
    have hk3 : ∀ x ∈ kept, x ∈ done := fun x hx => h3.subset hx
    have hk4 : ∀ x ∈ moved, x ∈ done := fun x hx => h4.subset hx
    have hbptr : ∀ x ∈ done, x.ptr ≠ b := fun x hx e => hbf x hx (e ▸ (hreps x hx).self)
    obtain ⟨l', hl1, hl2, hl3⟩ := sort_legs (less := NodeMem.less (upd m b ⟨B, moved.map Leg.ptr⟩)) (kept ++ [lb]) (by
      have hx : ∀ x ∈ kept ++ [lb], NodeMem.tok (upd m b ⟨B, moved.map Leg.ptr⟩) x.ptr = x.tree.tok := by
        intro x hx
        rcases List.mem_append.1 hx with h | h
        · show (upd m b _ x.ptr).seg.tok = _
          rw [upd_off _ _ (hbptr x (hk3 x h))]
          exact (hreps x (hk3 x h)).tok
        · rw [List.mem_singleton.1 h]
          show (upd m b _ b).seg.tok = _
          rw [upd_at]
          rfl
      intro x hx' y hy'
      show (NodeMem.tok (upd m b ⟨B, moved.map Leg.ptr⟩) x.ptr).before (NodeMem.tok (upd m b ⟨B, moved.map Leg.ptr⟩) y.ptr) = _
      rw [hx x hx', hx y hy']
      rfl)
    rw [List.map_append] at hl2 hl3
    refine ⟨true, _, _, _, rfl, rfl, ?_, ?_, fun h => (by cases h), fun _ => ?_⟩
    · intro q hq hqb
      rw [upd_off _ _ (fun e => hq (.inl e)), upd_off _ _ hqb]
    · intro q hqb
      by_cases hqa : q = a
      · rw [hqa, upd_at, ha]
      · rw [upd_off _ _ hqa, upd_off _ _ hqb]
    · have hkeep : ∀ x ∈ done, Rep (upd (upd m b ⟨B, moved.map Leg.ptr⟩) a ⟨s, l'.map Leg.ptr⟩) x.ptr x.tree x.foot := by
        intro x hx
        refine (hreps x hx).congr fun q hq => ?_
        rw [upd_off _ _ (show q ≠ a from fun e => haf x hx (e ▸ hq)), upd_off _ _ (show q ≠ b from fun e => hbf x hx (e ▸ hq))]
      have hrb : Rep (upd (upd m b ⟨B, moved.map Leg.ptr⟩) a ⟨s, l'.map Leg.ptr⟩) b lb.tree lb.foot :=
        .mk moved (by rw [upd_off _ _ hab, upd_at]) (fun x hx => hkeep x (hk4 x hx)) (hdis.sublist h4) (fun x hx => hbf x (hk4 x hx))
      have hsym : ∀ {x y : Leg}, (∀ q, x.foot q → ¬ y.foot q) → ∀ q, y.foot q → ¬ x.foot q := fun h q hy hx => h q hx hy
      have hkm : ∀ x ∈ kept, ∀ y ∈ moved, ∀ q, x.foot q → ¬ y.foot q := by
        have : (kept ++ moved).Pairwise (fun x y => ∀ q, x.foot q → ¬ y.foot q) := (h2.pairwise_iff hsym).2 hdis
        exact (List.pairwise_append.1 this).2.2
      have hfin : Rep (upd (upd m b ⟨B, moved.map Leg.ptr⟩) a ⟨s, l'.map Leg.ptr⟩) a (.mk s (l'.map Leg.tree)) (fun q => q = a ∨ ∃ x ∈ l', x.foot q) := by
        refine .mk l' (upd_at _ _ _) ?_ ?_ ?_
        · intro x hx
          rcases List.mem_append.1 (hl1.mem_iff.1 hx) with h | h
          · exact hkeep x (hk3 x h)
          · rw [List.mem_singleton.1 h]; exact hrb
        · refine (hl1.pairwise_iff hsym).2 ?_
          rw [List.pairwise_append]
          refine ⟨hdis.sublist h3, List.pairwise_singleton _ _, ?_⟩
          intro x hx y hy q hq hq'
          rw [List.mem_singleton.1 hy] at hq'
          rcases hq' with rfl | ⟨z, hz, hq'⟩
          · exact hbf x (hk3 x hx) hq
          · exact hkm x hx z hz q hq hq'
        · intro x hx hxa
          rcases List.mem_append.1 (hl1.mem_iff.1 hx) with h | h
          · exact haf x (hk3 x h) hxa
          · rw [List.mem_singleton.1 h] at hxa
            rcases hxa with h | ⟨z, hz, h⟩
            · exact hab h.symm
            · exact haf z (hk4 z hz) h
      have hfin2 := hfin.of_eq (F' := fun q => (q = a ∨ ∃ x ∈ done, x.foot q) ∨ q = b) (by
        intro q
        constructor
        · rintro (h | ⟨x, hx, h⟩)
          · exact .inl (.inl h)
          · rcases List.mem_append.1 (hl1.mem_iff.1 hx) with h' | h'
            · exact .inl (.inr ⟨x, hk3 x h', h⟩)
            · rw [List.mem_singleton.1 h'] at h
              rcases h with h | ⟨z, hz, h⟩
              · exact .inr h
              · exact .inl (.inr ⟨z, hk4 z hz, h⟩)
        · rintro ((h | ⟨x, hx, h⟩) | h)
          · exact .inl h
          · rcases List.mem_append.1 (h2.mem_iff.2 hx) with h' | h'
            · exact .inr ⟨x, hl1.mem_iff.2 (List.mem_append_left _ h'), h⟩
            · exact .inr ⟨lb, hl1.mem_iff.2 (by simp), .inr ⟨x, h', h⟩⟩
          · exact .inr ⟨lb, hl1.mem_iff.2 (by simp), .inl h⟩)
      have e1 : (Node.mk s (done.map Leg.tree)).setNodes (sortStable Node.less (kept.map Leg.tree ++ [.mk B (moved.map Leg.tree)])) = .mk s (l'.map Leg.tree) := by
        show Node.mk s _ = _
        rw [← hl3]
        rfl
      have e2 : sortStable (NodeMem.less (upd m b ⟨B, moved.map Leg.ptr⟩)) (kept.map Leg.ptr ++ [b]) = l'.map Leg.ptr := hl2
      rw [e1, e2]
      exact hfin2
  | cons c rest ihr =>
    intro done kept moved k h1 h2 h3 h4 h5 hk
    obtain ⟨k, rfl⟩ : ∃ j, k = j + 1 := ⟨k - 1, by omega⟩
    have hc : c ∈ legs := by rw [← h1]; simp
    have hct : c.tree ∈ (Node.mk s (legs.map Leg.tree)).nodes := legs_child hc
    have hTc := hTa.child hct
    have hap : legs.Pairwise (fun x y => Apart x.tree.tok y.tree.tok) := by
      have h : (legs.map Leg.tree).Pairwise (fun a b => Apart a.tok b.tok) := hTa.apart
      rw [List.pairwise_map] at h
      exact h
    have hap' := hap
    rw [← h1, List.pairwise_append] at hap'
    have hdc : ∀ d ∈ done, Apart d.tree.tok c.tree.tok := fun d hd => hap'.2.2 d hd c (by simp)
    have hd : ∀ d ∈ done, d ∈ legs := fun d hd => by rw [← h1]; exact List.mem_append_left _ hd
    have hptr : ∀ x ∈ legs, x.ptr ≠ b := fun x hx e => hbf x hx (e ▸ (hreps x hx).self)
    have htok : ∀ x ∈ legs, NodeMem.tok (upd m b ⟨B, moved.map Leg.ptr⟩) x.ptr = x.tree.tok := by
      intro x hx
      show (upd m b _ x.ptr).seg.tok = _
      rw [upd_off _ _ (hptr x hx)]
      exact (hreps x hx).tok
    have htb : NodeMem.tok (upd m b ⟨B, moved.map Leg.ptr⟩) b = B.tok := by
      show (upd m b _ b).seg.tok = _
      rw [upd_at]
    have hget : (legs.map Leg.ptr)[done.length]? = some c.ptr := by
      rw [← h1]; simp
    have hset : (Node.mk s (legs.map Leg.tree)).setNodes (done.map Leg.tree ++ c.tree :: rest.map Leg.tree) = .mk s (legs.map Leg.tree) := by
      show Node.mk s _ = _
      rw [← h1]; simp
    rw [List.map_cons, rankLoop, rankLoopP, upd_off _ _ hab.symm, ha]
    simp only
    rw [hget]
    simp only [show (Node.mk B (moved.map Leg.tree)).tok = B.tok from rfl]
    rw [htb, htok c hc]
    obtain ⟨n', hn'⟩ : ∃ j, n = j + 1 := ⟨n - 1, by omega⟩
    by_cases hBc : B.tok.covers c.tree.tok = true
    · have hml : moved.length + 2 ≤ n := by
        have := h4.length_le
        have : done.length ≤ legs.length := by rw [← h1]; simp
        omega
      have hr1 := rankNodes_absorb n' B (moved.map Leg.tree) c.tree hB hBc hTc.ordered
        (by
          intro d hd'
          obtain ⟨x, hx, rfl⟩ := List.mem_map.1 hd'
          exact (hTa.child (legs_child (hd x (h4.subset hx)))).ordered) (by
          have : (moved ++ [c]).Pairwise (fun x y => Apart x.tree.tok y.tree.tok) := by
            rw [List.pairwise_append]
            refine ⟨hap'.1.sublist h4, List.pairwise_singleton _ _, ?_⟩
            intro x hx y hy
            rw [List.mem_singleton.1 hy]
            exact hdc x (h4.subset hx)
          rw [show moved.map Leg.tree ++ [c.tree] = (moved ++ [c]).map Leg.tree by simp, List.pairwise_map]
          exact this)
      have hr2 := rankP_absorb (n := n) (m := upd m b ⟨B, moved.map Leg.ptr⟩) (b := b) (c := c.ptr) (B := B) (moved := moved.map Leg.ptr) (upd_at _ _ _)
        (by rw [htok c hc]; exact hBc) (by rw [htok c hc]; exact hTc.ordered)
        (by
          intro d hd'
          obtain ⟨x, hx, rfl⟩ := List.mem_map.1 hd'
          rw [htok x (hd x (h4.subset hx))]
          exact (hTa.child (legs_child (hd x (h4.subset hx)))).ordered) (by
          rw [show moved.map Leg.ptr ++ [c.ptr] = (moved ++ [c]).map Leg.ptr by simp, List.pairwise_map]
          have : (moved ++ [c]).Pairwise (fun x y => Apart x.tree.tok y.tree.tok) := by
            rw [List.pairwise_append]
            refine ⟨hap'.1.sublist h4, List.pairwise_singleton _ _, ?_⟩
            intro x hx y hy
            rw [List.mem_singleton.1 hy]
            exact hdc x (h4.subset hx)
          refine this.imp_of_mem ?_
          intro x y hx hy hxy
          have hin : ∀ z ∈ moved ++ [c], z ∈ legs := by
            intro z hz
            rcases List.mem_append.1 hz with h | h
            · exact hd z (h4.subset h)
            · rw [List.mem_singleton.1 h]; exact hc
          rw [htok x (hin x hx), htok y (hin y hy)]
          exact hxy) (by simpa using hml)
      rw [if_pos hBc, if_pos hBc, hr2, hn', hr1]
      simp only [Exec.bind_ret, Bool.not_true, Bool.false_eq_true, if_false]
      have hupd : upd (upd m b ⟨B, moved.map Leg.ptr⟩) b ⟨B, moved.map Leg.ptr ++ [c.ptr]⟩ = upd m b ⟨B, (moved ++ [c]).map Leg.ptr⟩ := by
        funext q
        unfold upd
        split <;> simp
      rw [hupd]
      have := ihr (done ++ [c]) kept (moved ++ [c]) k (by rw [← h1]; simp) (by
        rw [← List.append_assoc]; exact h2.append_right _) (h3.trans (List.sublist_append_left _ _)) (h4.append (List.Sublist.refl _)) (by
        intro x hx
        rcases List.mem_append.1 hx with h | h
        · exact h5 x h
        · rw [List.mem_singleton.1 h]; exact hBc) (by simp at hk; omega)
      simpa [hn'] using this
    · rw [if_neg hBc, if_neg hBc]
      by_cases hcl : B.tok.clashes c.tree.tok = true
      · rw [if_pos hcl, if_pos hcl, hset]
        refine ⟨false, _, _, _, rfl, rfl, fun q _ hq => upd_off _ _ hq, fun q hq => by rw [upd_off _ _ hq], fun _ => ⟨fun q hq => upd_off _ _ hq, rfl⟩, fun h => by cases h⟩
      · rw [if_neg hcl, if_neg hcl]
        by_cases hcB : c.tree.tok.covers B.tok = true
        · rw [if_pos hcB, if_pos hcB]
          have hmoved : moved = [] := by
            rw [List.eq_nil_iff_forall_not_mem]
            intro x hx
            have := (not_covers_of_apart (.inl (hdc x (h4.subset hx)))).2
            rw [covers_trans hcB (h5 x hx)] at this
            simp at this
          subst hmoved
          have hm : upd m b ⟨B, ([] : List Leg).map Leg.ptr⟩ = m := by
            funext q
            unfold upd
            split
            · next e => rw [e, hb]; rfl
            · rfl
          rw [hm, List.map_nil]
          obtain ⟨ok, t', b', m', r1, r2, r3, r4, r5, r6⟩ := (ih c hc hcB).both
          rw [r1, r2]
          simp only [Exec.bind_ret, Exec.pure_eq]
          refine ⟨ok, _, _, _, rfl, rfl, ?_, r4, ?_, ?_⟩
          · intro q hq hqb
            exact r3 q (fun h => hq (.inr ⟨c, hc, h⟩)) hqb
          · intro hok
            obtain ⟨e1, e2⟩ := r5 hok
            refine ⟨e1, ?_⟩
            rw [e2]
            exact hset
          · intro hok
            have hrep := r6 hok
            let c' : Leg := ⟨c.ptr, t', fun q => c.foot q ∨ q = b⟩
            have hfin : Rep m' a (.mk s ((done ++ c' :: rest).map Leg.tree)) (fun q => q = a ∨ ∃ x ∈ done ++ c' :: rest, x.foot q) := by
              have hd1 : ∀ x ∈ done ++ rest, x ∈ legs ∧ ∀ q, x.foot q → ¬ c.foot q := by
                intro x hx
                have hd' := hdis
                rw [← h1, List.pairwise_append] at hd'
                rcases List.mem_append.1 hx with h | h
                · exact ⟨hd x h, hd'.2.2 x h c (by simp)⟩
                · refine ⟨by rw [← h1]; simp [h], fun q hq hq' => ?_⟩
                  exact (List.pairwise_cons.1 hd'.2.1).1 x h q hq' hq
              refine .mk _ ?_ ?_ ?_ ?_
              · rw [r3 a (haf c hc) hab.symm, ha, ← h1]
                simp [c']
              · intro x hx
                have hx' : x = c' ∨ x ∈ done ++ rest := by
                  simp only [List.mem_append, List.mem_cons] at hx ⊢
                  tauto
                rcases hx' with rfl | hx'
                · exact hrep
                · obtain ⟨g1, g2⟩ := hd1 x hx'
                  exact (hreps x g1).congr fun q hq => r3 q (g2 q hq) (fun e => hbf x g1 (e ▸ hq))
              · have hd' := hdis
                rw [← h1, List.pairwise_append, List.pairwise_cons] at hd'
                rw [List.pairwise_append, List.pairwise_cons]
                refine ⟨hd'.1, ⟨?_, hd'.2.1.2⟩, ?_⟩
                · intro y hy q hq hq'
                  rcases hq with hq | rfl
                  · exact hd'.2.1.1 y hy q hq hq'
                  · exact hbf y (by rw [← h1]; simp [hy]) hq'
                · intro x hx y hy q hq hq'
                  rcases List.mem_cons.1 hy with rfl | hy
                  · rcases hq' with hq' | rfl
                    · exact hd'.2.2 x hx c (by simp) q hq hq'
                    · exact hbf x (hd x hx) hq
                  · exact hd'.2.2 x hx y (by simp [hy]) q hq hq'
              · intro x hx hxa
                have hx' : x = c' ∨ x ∈ done ++ rest := by
                  simp only [List.mem_append, List.mem_cons] at hx ⊢
                  tauto
                rcases hx' with rfl | hx'
                · rcases hxa with h | h
                  · exact haf c hc h
                  · exact hab h.symm
                · exact haf x (hd1 x hx').1 hxa
            have e : (Node.mk s (legs.map Leg.tree)).setNodes (done.map Leg.tree ++ t' :: rest.map Leg.tree) = .mk s ((done ++ c' :: rest).map Leg.tree) := by
              show Node.mk s _ = _
              simp [c']
            rw [e]
            refine hfin.of_eq fun q => ?_
            rw [← h1]
            simp only [List.mem_append, List.mem_cons]
            constructor
            · rintro (h | ⟨x, hx | rfl | hx, h⟩)
              · exact .inl (.inl h)
              · exact .inl (.inr ⟨x, .inl hx, h⟩)
              · rcases h with h | h
                · exact .inl (.inr ⟨c, .inr (.inl rfl), h⟩)
                · exact .inr h
              · exact .inl (.inr ⟨x, .inr (.inr hx), h⟩)
            · rintro ((h | ⟨x, hx | rfl | hx, h⟩) | h)
              · exact .inl h
              · exact .inr ⟨x, .inl hx, h⟩
              · exact .inr ⟨c', .inr (.inl rfl), .inl h⟩
              · exact .inr ⟨x, .inr (.inr hx), h⟩
              · exact .inr ⟨c', .inr (.inl rfl), .inr h⟩
        · rw [if_neg hcB, if_neg hcB]
          have := ihr (done ++ [c]) (kept ++ [c]) moved k (by rw [← h1]; simp) (by
            rw [List.append_assoc]
            refine (List.Perm.append_left kept List.perm_append_comm).trans ?_
            rw [← List.append_assoc]
            exact h2.append_right _) (h3.append (List.Sublist.refl _)) (h4.trans (List.sublist_append_left _ _)) h5 (by simp at hk; omega)
          simpa using this

theorem legs_length (s : Segment) (l : List Leg) : l.length + 1 ≤ (Node.mk s (l.map Leg.tree)).all.length := by
  rw [Node.all_eq, List.length_cons, Node.under_eq]
  show _ ≤ ((l.map Leg.tree).flatMap Node.all).length + 1
  have : ∀ l : List Node, l.length ≤ (l.flatMap Node.all).length := by
    intro l
    induction l with
    | nil => simp
    | cons x l ih => rw [List.flatMap_cons, List.length_append, Node.all_eq, List.length_cons, List.length_cons]; omega
  have := this (l.map Leg.tree)
  simp only [List.length_map] at this
  omega

/-- `rankNodes` in memory does what it does to trees, and the result is a tree again. -/
theorem rankP_spec {B : Segment} (hB : B.tok.Ordered) {b : Nat} : ∀ (n : Nat) (m : NodeMem) (a : Nat) (t : Node) (F : Nat → Prop), Rep m a t F → Tree t →
    t.tok.covers B.tok = true → ¬ F b → m b = ⟨B, []⟩ → t.all.length + 2 ≤ n →
    RankBoth m a b t F (rankNodes n t (.mk B [])) (rankP n m a b) := by
  intro n
  induction n with
  | zero => intro m a t F _ _ _ _ _ h; omega
  | succ n ih =>
    intro m a t F hrep hT hcov hFb hb hn
    cases hrep with
    | @mk _ s l h1 h2 h3 h4 =>
      have hab : b ≠ a := fun e => hFb (.inl e)
      have hbf : ∀ x ∈ l, ¬ x.foot b := fun x hx h => hFb (.inr ⟨x, hx, h⟩)
      have hll := legs_length s l
      have hta : m.tok a = s.tok := by unfold NodeMem.tok; rw [h1]
      have htb : m.tok b = B.tok := by unfold NodeMem.tok; rw [hb]
      rw [rankNodes, rankP, hta, htb]
      have hcl : s.tok.clashes B.tok = false := no_clash_of_covers hcov
      simp only [show (Node.mk s (l.map Leg.tree)).tok = s.tok from rfl, show (Node.mk B []).tok = B.tok from rfl, hcl, Bool.false_eq_true, if_false]
      have := rankLoopP_spec n hB hT h1 h2 h3 h4 hab hbf hb (by omega) (fun x hx hxB => by
        have := all_length_child (n := .mk s (l.map Leg.tree)) (legs_child hx)
        exact ih m x.ptr x.tree x.foot (h2 x hx) (hT.child (legs_child hx)) hxB (hbf x hx) hb (by omega))
        l [] [] [] n rfl (.refl _) (.refl _) (.refl _) (by simp) (by omega)
      have hm : upd m b ⟨B, ([] : List Leg).map Leg.ptr⟩ = m := by
        funext q
        unfold upd
        split
        · next e => rw [e, hb]; rfl
        · rfl
      rw [hm] at this
      exact this

end Tok
