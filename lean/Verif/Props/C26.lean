/-
C26 SortSegments, C27 SortSegmentsByOrder.

Both sort with `sort.Stable` and a comparison that is only a consistent order when the
segments do not clash and no empty token stands at the left edge of a longer one (such a
pair is "before" and "covered" at the same time).  For those slices the full claim is
proved, except for the stability of `SortSegments`, whose comparison says "less" for
equal tokens; the `violated` theorems show that each restriction is needed.
-/
import Verif.Proofs.Sort
import Verif.Props.C24

namespace Tok

/-- The tokens are ordered, do not clash, and none is empty at the left edge of a longer
one. -/
def Nested (l : List Segment) : Prop :=
  ∀ a ∈ l, a.tok.Ordered ∧ ∀ b ∈ l, a.tok.clashes b.tok = false ∧
    (a.tok.frm = a.tok.to → a.tok.frm = b.tok.frm → b.tok.frm = b.tok.to)

/-- `b` need not come before `a`: it neither covers `a` nor lies before `a`, or the
tokens are equal. -/
def InPlace (a b : Segment) : Prop :=
  a.tok = b.tok ∨ ¬ (b.tok.covers a.tok ∨ b.tok.before a.tok)

/-- Sorting permutes the slice, whatever the segments. -/
theorem C26_perm (l : List Segment) : (sortSegments l).Perm l := sortStable_perm _ l

/-- The order of the start, longer tokens first. -/
private def tle (a b : Token) : Prop := a.frm < b.frm ∨ (a.frm = b.frm ∧ b.to ≤ a.to)

private theorem segLess_iff {l : List Segment} (hl : Nested l) {a b : Segment} (ha : a ∈ l) (hb : b ∈ l) :
    segLess a b = true ↔ tle a.tok b.tok := by
  obtain ⟨o1, h1⟩ := hl a ha
  obtain ⟨h1, h2⟩ := h1 b hb
  obtain ⟨o2, _⟩ := hl b hb
  unfold Token.Ordered at o1 o2
  unfold segLess tle
  simp only [Token.clashes, Token.before, Token.after, Token.covers, Bool.and_eq_false_iff, Bool.not_eq_false',
    decide_eq_true_eq, Bool.and_eq_true, Bool.or_eq_true] at *
  omega

private theorem inPlace_of_tle {l : List Segment} (hl : Nested l) {a b : Segment} (ha : a ∈ l) (hb : b ∈ l)
    (h : tle a.tok b.tok) : InPlace a b := by
  obtain ⟨o1, h1⟩ := hl a ha
  obtain ⟨h1, h2⟩ := h1 b hb
  obtain ⟨o2, h3⟩ := hl b hb
  obtain ⟨_, h4⟩ := h3 a ha
  unfold InPlace
  by_cases heq : a.tok = b.tok
  · exact .inl heq
  · refine .inr ?_
    have hne : ¬ (a.tok.frm = b.tok.frm ∧ a.tok.to = b.tok.to) := by
      rintro ⟨e1, e2⟩
      apply heq
      cases h : a.tok; cases h' : b.tok
      rw [h, h'] at e1 e2
      simp only at e1 e2
      rw [e1, e2]
    unfold Token.Ordered at o1 o2
    unfold tle at h
    simp only [Token.before, Token.covers, decide_eq_true_eq, Bool.and_eq_true] at *
    omega

/-- Segments that cover another or lie before it come first. -/
theorem C26_sort_partial (l : List Segment) (hl : Nested l) :
    (sortSegments l).Perm l ∧ (sortSegments l).Pairwise InPlace := by
  refine ⟨C26_perm l, ?_⟩
  have h := sortStable_on segLess (fun a b => tle a.tok b.tok) l
    (fun a _ => .inr ⟨rfl, Int.le_refl _⟩)
    (fun a _ b _ c _ h1 h2 => by unfold tle at *; omega)
    (fun a ha b hb h => (segLess_iff hl ha hb).1 h)
    (fun a ha b hb h => by
      have : ¬ tle a.tok b.tok := fun h' => by rw [(segLess_iff hl ha hb).2 h'] at h; simp at h
      unfold tle at *; omega)
    (fun y hy y' hy' x hx x' hx' h1 h2 h3 => by
      rw [segLess_iff hl hx hy] at h1
      rw [segLess_iff hl hx' hy']
      unfold tle at *; omega)
  refine h.imp_of_mem ?_
  intro a b ha hb hab
  have hp := C26_perm l
  exact inPlace_of_tle hl (hp.mem_iff.1 ha) (hp.mem_iff.1 hb) hab

/-- Equal tokens do not keep their order: the comparison says "less" for them, so a short
slice of equal tokens is reversed. -/
theorem C26_stable_violated :
    sortSegments [⟨b!"a", ⟨0, 1⟩⟩, ⟨b!"b", ⟨0, 1⟩⟩] = [⟨b!"b", ⟨0, 1⟩⟩, ⟨b!"a", ⟨0, 1⟩⟩] := by decide

/-- With clashing segments a covering segment can come after the covered one. -/
theorem C26_clash_violated :
    sortSegments [⟨b!"w", ⟨1, 2⟩⟩, ⟨b!"u", ⟨5, 15⟩⟩, ⟨b!"v", ⟨0, 10⟩⟩] =
      [⟨b!"w", ⟨1, 2⟩⟩, ⟨b!"u", ⟨5, 15⟩⟩, ⟨b!"v", ⟨0, 10⟩⟩] ∧ (⟨0, 10⟩ : Token).covers ⟨1, 2⟩ := by decide

/-- An empty token at the left edge of a longer one can come before it although it is
covered. -/
theorem C26_empty_violated :
    sortSegments [⟨b!"a", ⟨0, 1⟩⟩, ⟨b!"e", ⟨0, 0⟩⟩] = [⟨b!"e", ⟨0, 0⟩⟩, ⟨b!"a", ⟨0, 1⟩⟩] ∧
      (⟨0, 1⟩ : Token).covers ⟨0, 0⟩ := by decide

private theorem nested_ex : Nested [⟨b!"b", ⟨2, 3⟩⟩, ⟨b!"c", ⟨0, 1⟩⟩, ⟨b!"a", ⟨0, 5⟩⟩, ⟨b!"a", ⟨2, 3⟩⟩] := by
  unfold Nested Token.Ordered; decide

example : sortSegments [⟨b!"b", ⟨2, 3⟩⟩, ⟨b!"c", ⟨0, 1⟩⟩, ⟨b!"a", ⟨0, 5⟩⟩, ⟨b!"a", ⟨2, 3⟩⟩] =
    [⟨b!"a", ⟨0, 5⟩⟩, ⟨b!"c", ⟨0, 1⟩⟩, ⟨b!"a", ⟨2, 3⟩⟩, ⟨b!"b", ⟨2, 3⟩⟩] := by decide
example := C26_sort_partial _ nested_ex

/-! ### C27 -/

/-- The place of an info in the order slice, -1 if it is not listed. -/
private def rank (order : List Bytes) (a : Bytes) : Int := if a ∈ order then (order.idxOf a : Int) else -1

private theorem idxOf_ne {a x : Bytes} (l : List Bytes) (h : x ≠ a) : (x :: l).idxOf a = l.idxOf a + 1 := by
  rw [List.idxOf_cons, beq_eq_false_iff_ne.2 h]; rfl

private theorem orderIdx_spec (a b : Bytes) (hab : a ≠ b) : ∀ (order : List Bytes) (i ai bi : Int), order.Nodup →
    (ai ≠ -1 → a ∉ order) → (bi ≠ -1 → b ∉ order) →
    orderIdx a b i ai bi order = (if a ∈ order then i + (order.idxOf a : Int) else ai,
      if b ∈ order then i + (order.idxOf b : Int) else bi) := by
  intro order
  induction order with
  | nil => intro i ai bi _ _ _; simp [orderIdx]
  | cons x rest ih =>
    intro i ai bi hn h1 h2
    rw [List.nodup_cons] at hn
    rw [orderIdx]
    by_cases hax : a = x
    · subst hax
      rw [if_pos rfl, ih (i + 1) i bi hn.2 (fun _ => hn.1) (fun h => fun hm => h2 h (by simp [hm]))]
      rw [if_neg hn.1]
      have hba : b ≠ a := fun h => hab h.symm
      simp only [List.mem_cons, true_or, if_true, hba, false_or, List.idxOf_cons_self, Prod.mk.injEq]
      refine ⟨by simp, ?_⟩
      split
      · rw [idxOf_ne _ (Ne.symm hba)]; push_cast; omega
      · rfl
    · rw [if_neg hax]
      by_cases hbx : b = x
      · subst hbx
        rw [if_pos rfl, ih (i + 1) ai i hn.2 (fun h => fun hm => h1 h (by simp [hm])) (fun _ => hn.1)]
        rw [if_neg hn.1]
        simp only [List.mem_cons, true_or, if_true, hab, false_or, List.idxOf_cons_self, Prod.mk.injEq]
        refine ⟨?_, by simp⟩
        split
        · rw [idxOf_ne _ (Ne.symm hab)]; push_cast; omega
        · rfl
      · rw [if_neg hbx]
        by_cases hbr : ai ≠ -1 ∧ bi ≠ -1
        · rw [if_pos hbr, if_neg (h1 hbr.1), if_neg (h2 hbr.2)]
        · rw [if_neg hbr, ih (i + 1) ai bi hn.2 (fun h => fun hm => h1 h (by simp [hm])) (fun h => fun hm => h2 h (by simp [hm]))]
          simp only [List.mem_cons, hax, hbx, false_or, Prod.mk.injEq]
          constructor
          · split
            · rw [idxOf_ne _ (Ne.symm hax)]; push_cast; omega
            · rfl
          · split
            · rw [idxOf_ne _ (Ne.symm hbx)]; push_cast; omega
            · rfl

private theorem orderIdx_self (a : Bytes) : ∀ (order : List Bytes) (i ai : Int), -1 ≤ ai → 0 ≤ i →
    (orderIdx a a i ai (-1) order).2 = -1 ∧ -1 ≤ (orderIdx a a i ai (-1) order).1 := by
  intro order
  induction order with
  | nil => intro i ai h _; exact ⟨rfl, h⟩
  | cons x rest ih =>
    intro i ai h hi
    rw [orderIdx]
    by_cases hax : a = x
    · rw [if_pos hax]; exact ih _ _ (by omega) (by omega)
    · rw [if_neg hax, if_neg hax, if_neg (by simp)]; exact ih _ _ h (by omega)

/-- The order that the comparison decides. -/
private def slt (order : List Bytes) (a b : Segment) : Prop :=
  a.tok.frm < b.tok.frm ∨ (a.tok.frm = b.tok.frm ∧ b.tok.to < a.tok.to) ∨
    (a.tok.frm = b.tok.frm ∧ b.tok.to = a.tok.to ∧ rank order a.info < rank order b.info)

private theorem tok_eq {a b : Token} : a = b ↔ a.frm = b.frm ∧ a.to = b.to := by
  cases a; cases b; simp

private theorem segLessBy_iff {l : List Segment} {order : List Bytes} (hn : order.Nodup) (hl : Nested l) {a b : Segment}
    (ha : a ∈ l) (hb : b ∈ l) : segLessBy order a b = true ↔ slt order a b := by
  unfold segLessBy
  by_cases ht : a.tok = b.tok
  · rw [if_neg (by simpa using ht)]
    rw [tok_eq] at ht
    have hcmp : (decide ((orderIdx a.info b.info 0 (-1) (-1) order).1 < (orderIdx a.info b.info 0 (-1) (-1) order).2)) = true ↔
        rank order a.info < rank order b.info := by
      rw [decide_eq_true_eq]
      by_cases hi : a.info = b.info
      · rw [hi]
        have := orderIdx_self b.info order 0 (-1) (by omega) (by omega)
        omega
      · rw [orderIdx_spec _ _ hi order 0 (-1) (-1) hn (by simp) (by simp)]
        simp only [Int.zero_add]
        rfl
    refine hcmp.trans ?_
    unfold slt; omega
  · rw [if_pos (by simpa using ht)]
    have h := segLess_iff hl ha hb
    unfold segLess at h
    rw [h]
    rw [tok_eq] at ht
    unfold slt tle
    omega

private theorem rank_get {order : List Bytes} (hn : order.Nodup) {a : Bytes} {i : Nat} (h : order[i]? = some a) :
    rank order a = i := by
  have hi : i < order.length := by
    by_contra hc
    rw [List.getElem?_eq_none (by omega)] at h; simp at h
  rw [List.getElem?_eq_getElem hi, Option.some.injEq] at h
  unfold rank
  rw [if_pos (by rw [← h]; exact List.getElem_mem hi), ← h, List.Nodup.idxOf_getElem hn]

/-- Segments that cover another or lie before it come first; among equal tokens the ones
whose info is listed earlier in `order` come first, infos that are not listed come before
all listed ones, and segments with the same info keep the order of the input.  `out` is
the sorted slice with every segment tagged by its index in the input. -/
theorem C27_sort_partial (l : List Segment) (order : List Bytes) (hl : Nested l) (hn : order.Nodup) :
    ∃ out : List (Segment × Nat), out.Perm l.zipIdx ∧ sortSegmentsByOrder l order = out.map Prod.fst ∧
      out.Pairwise (fun p q => InPlace p.1 q.1 ∧
        (p.1.tok = q.1.tok →
          (∀ i j : Nat, order[i]? = some p.1.info → order[j]? = some q.1.info → i ≤ j) ∧
          (q.1.info ∉ order → p.1.info ∉ order) ∧
          (p.1.info = q.1.info → p.2 < q.2))) := by
  obtain ⟨out, h1, h2, h3⟩ := sortStable_stable (segLessBy order) l
    (fun a ha => by
      rw [← Bool.not_eq_true, segLessBy_iff hn hl ha ha]; unfold slt; omega)
    (fun a ha b hb c hc => by
      rw [← Bool.not_eq_true, ← Bool.not_eq_true, ← Bool.not_eq_true, segLessBy_iff hn hl ha hb,
        segLessBy_iff hn hl hb hc, segLessBy_iff hn hl ha hc]
      unfold slt; omega)
    (fun a ha b hb => by
      rw [← Bool.not_eq_true, segLessBy_iff hn hl ha hb, segLessBy_iff hn hl hb ha]
      unfold slt; omega)
  refine ⟨out, h1, h2, h3.imp_of_mem ?_⟩
  intro p q hp hq hpq
  have mem : ∀ x ∈ out, x.1 ∈ l := fun x hx => by
    have := List.mem_zipIdx (x := x.1) (i := x.2) (k := 0) (h1.mem_iff.1 hx)
    rw [this.2.2]; exact List.getElem_mem _
  have hp' := mem p hp
  have hq' := mem q hq
  obtain ⟨a1, a2⟩ := hpq
  rw [← Bool.not_eq_true, segLessBy_iff hn hl hq' hp'] at a1
  rw [← Bool.not_eq_true, segLessBy_iff hn hl hp' hq'] at a2
  refine ⟨inPlace_of_tle hl hp' hq' (by unfold slt at a1; unfold tle; omega), fun ht => ?_⟩
  have ht' := tok_eq.1 ht
  have hr : rank order p.1.info ≤ rank order q.1.info := by unfold slt at a1; omega
  refine ⟨fun i j hi hj => ?_, fun hnq hmp => ?_, fun hi => ?_⟩
  · rw [rank_get hn hi, rank_get hn hj] at hr; omega
  · unfold rank at hr
    rw [if_pos hmp, if_neg hnq] at hr; omega
  · refine a2 ?_
    unfold slt; rw [hi]; omega

theorem C27_perm (l : List Segment) (order : List Bytes) : (sortSegmentsByOrder l order).Perm l := sortStable_perm _ l

/-- When an info is listed twice, a later entry can win: "b" before "a" although "a" is
listed first. -/
theorem C27_duplicate_violated :
    sortSegmentsByOrder [⟨b!"a", ⟨0, 1⟩⟩, ⟨b!"b", ⟨0, 1⟩⟩] [b!"a", b!"b", b!"a"] =
      [⟨b!"b", ⟨0, 1⟩⟩, ⟨b!"a", ⟨0, 1⟩⟩] := by decide

/-- With clashing segments a covering segment can come after the covered one. -/
theorem C27_clash_violated :
    sortSegmentsByOrder [⟨b!"w", ⟨1, 2⟩⟩, ⟨b!"u", ⟨5, 15⟩⟩, ⟨b!"v", ⟨0, 10⟩⟩] [] =
      [⟨b!"w", ⟨1, 2⟩⟩, ⟨b!"u", ⟨5, 15⟩⟩, ⟨b!"v", ⟨0, 10⟩⟩] ∧ (⟨0, 10⟩ : Token).covers ⟨1, 2⟩ := by decide

example := C27_sort_partial _ [b!"c", b!"b", b!"a"] nested_ex (by decide)
example : sortSegmentsByOrder [⟨b!"a", ⟨2, 3⟩⟩, ⟨b!"c", ⟨0, 1⟩⟩, ⟨b!"a", ⟨0, 5⟩⟩, ⟨b!"b", ⟨2, 3⟩⟩] [b!"c", b!"b", b!"a"] =
    [⟨b!"a", ⟨0, 5⟩⟩, ⟨b!"c", ⟨0, 1⟩⟩, ⟨b!"b", ⟨2, 3⟩⟩, ⟨b!"a", ⟨2, 3⟩⟩] := by decide

end Tok
