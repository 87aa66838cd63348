/-
C24 Token algebra, C25 Segmentate partitions the text.

A token `[frm, to)` stands for the set of byte offsets `i` with `frm ≤ i < to`; the
theorems about `Covers`, `Clashes`, `Before` are stated with that set or with the end
points.
-/
import Verif.Model.Scanner
import Mathlib.Tactic.Common

namespace Tok

/-- The end points of a token are in order. -/
def Token.Ordered (t : Token) : Prop := t.frm ≤ t.to

instance (t : Token) : Decidable t.Ordered := inferInstanceAs (Decidable (t.frm ≤ t.to))

/-- The offset `i` lies in the token. -/
def Token.Has (t : Token) (i : Int) : Prop := t.frm ≤ i ∧ i < t.to

/-- `MakeToken` orders its arguments. -/
theorem C24_makeToken (a b : Int) :
    (makeToken a b).Ordered ∧ makeToken a b = makeToken b a ∧ (makeToken a b).frm = min a b ∧
      (makeToken a b).to = max a b := by
  unfold makeToken Token.Ordered
  refine ⟨?_, ?_, ?_, ?_⟩
  · split <;> (simp only; omega)
  · split <;> split <;> simp only [Token.mk.injEq] <;> omega
  · split <;> (simp only; omega)
  · split <;> (simp only; omega)

/-- `Covers` is a partial order. -/
theorem C24_covers_partialOrder :
    (∀ a : Token, a.covers a) ∧ (∀ a b : Token, a.covers b → b.covers a → a = b) ∧
    (∀ a b c : Token, a.covers b → b.covers c → a.covers c) := by
  simp only [Token.covers, Bool.and_eq_true, decide_eq_true_eq]
  refine ⟨fun a => ⟨Int.le_refl _, Int.le_refl _⟩, fun a b h1 h2 => ?_, fun a b c h1 h2 => ?_⟩
  · obtain ⟨f, t⟩ := a; obtain ⟨f', t'⟩ := b
    simp only [Token.mk.injEq] at *; omega
  · omega

/-- `Covers` is inclusion of the offsets, for a sub token that is not empty. -/
theorem C24_covers_has (a b : Token) (hb : b.frm < b.to) : a.covers b ↔ ∀ i, b.Has i → a.Has i := by
  simp only [Token.covers, Bool.and_eq_true, decide_eq_true_eq, Token.Has]
  constructor
  · intro h i hi; omega
  · intro h
    have h1 := h b.frm ⟨Int.le_refl _, hb⟩
    have h2 := h (b.to - 1) ⟨by omega, by omega⟩
    omega

/-- `Merge` covers both tokens and is covered by every token that covers both. -/
theorem C24_merge_least (a b : Token) :
    (a.merge b).covers a ∧ (a.merge b).covers b ∧ ∀ c : Token, c.covers a → c.covers b → c.covers (a.merge b) := by
  simp only [Token.covers, Token.merge, Bool.and_eq_true, decide_eq_true_eq]
  refine ⟨?_, ?_, fun c h1 h2 => ?_⟩ <;> constructor <;> split <;> rw [decide_eq_true_eq] <;> omega

/-- `Before` and `After` of ordered tokens: every offset of one is left of every offset
of the other, and the two are mirror images. -/
theorem C24_before_after (a b : Token) : (a.before b = b.after a) ∧
    (a.before b → ∀ i j, a.Has i → b.Has j → i < j) ∧
    (a.frm < a.to → b.frm < b.to → (∀ i j, a.Has i → b.Has j → i < j) → a.before b) := by
  simp only [Token.before, Token.after, Token.Has, decide_eq_true_eq]
  refine ⟨trivial, fun h i j hi hj => by omega, fun h1 h2 h => ?_⟩
  have := h (a.to - 1) b.frm ⟨by omega, by omega⟩ ⟨by omega, by omega⟩
  omega

/-- `Clashes` is symmetric, and for ordered tokens it holds exactly when the tokens share
an offset and each has an offset the other has not. -/
theorem C24_clashes (a b : Token) (ha : a.Ordered) (hb : b.Ordered) : (a.clashes b = b.clashes a) ∧
    (a.clashes b ↔ (∃ i, a.Has i ∧ b.Has i) ∧ (∃ i, a.Has i ∧ ¬ b.Has i) ∧ ∃ i, b.Has i ∧ ¬ a.Has i) := by
  unfold Token.Ordered at ha hb
  have key : a.clashes b ↔ (a.frm < b.frm ∧ b.frm < a.to ∧ a.to < b.to) ∨ (b.frm < a.frm ∧ a.frm < b.to ∧ b.to < a.to) := by
    simp only [Token.clashes, Token.before, Token.after, Token.covers, Bool.and_eq_true, Bool.not_eq_true',
      decide_eq_false_iff_not, Bool.and_eq_false_iff]
    omega
  have key' : b.clashes a ↔ (b.frm < a.frm ∧ a.frm < b.to ∧ b.to < a.to) ∨ (a.frm < b.frm ∧ b.frm < a.to ∧ a.to < b.to) := by
    simp only [Token.clashes, Token.before, Token.after, Token.covers, Bool.and_eq_true, Bool.not_eq_true',
      decide_eq_false_iff_not, Bool.and_eq_false_iff]
    omega
  refine ⟨?_, ?_⟩
  · rw [Bool.eq_iff_iff, key, key']; exact or_comm
  · rw [key]
    unfold Token.Has
    constructor
    · rintro (h | h)
      · exact ⟨⟨b.frm, by omega⟩, ⟨a.frm, by omega⟩, ⟨a.to, by omega⟩⟩
      · exact ⟨⟨a.frm, by omega⟩, ⟨b.to, by omega⟩, ⟨b.frm, by omega⟩⟩
    · rintro ⟨⟨i, hi⟩, ⟨j, hj⟩, ⟨k, hk⟩⟩
      omega

/-- `Clashes` is symmetric for all tokens, ordered or not. -/
theorem C24_clashes_symm (a b : Token) : a.clashes b = b.clashes a := by
  rw [Bool.eq_iff_iff]
  simp only [Token.clashes, Token.before, Token.after, Token.covers, Bool.and_eq_true, Bool.not_eq_true',
    decide_eq_false_iff_not, Bool.and_eq_false_iff]
  omega

/-- `Split` by a covered token returns what is left and what is right of it. -/
theorem C24_split (t sep : Token) (hs : sep.Ordered) (hc : t.covers sep) :
    t.split sep = (⟨t.frm, sep.frm⟩, ⟨sep.to, t.to⟩) ∧
    (∀ i, t.Has i ↔ (t.split sep).1.Has i ∨ sep.Has i ∨ (t.split sep).2.Has i) ∧
    t.len = (t.split sep).1.len + sep.len + (t.split sep).2.len := by
  simp only [Token.covers, Bool.and_eq_true, decide_eq_true_eq] at hc
  unfold Token.Ordered at hs
  have h : t.split sep = (⟨t.frm, sep.frm⟩, ⟨sep.to, t.to⟩) := by
    unfold Token.split makeToken
    rw [if_neg (by omega), if_neg (by omega)]
  rw [h]
  refine ⟨rfl, fun i => ?_, ?_⟩
  · simp only [Token.Has]; omega
  · simp only [Token.len]; omega

/-- `Len` counts the offsets. -/
theorem C24_len (t : Token) (h : t.Ordered) : ∃ is : List Int, is.Nodup ∧ (∀ i, i ∈ is ↔ t.Has i) ∧
    (is.length : Int) = t.len := by
  refine ⟨(List.range t.len.toNat).map (fun (k : Nat) => t.frm + k), ?_, fun i => ?_, ?_⟩
  · refine List.Pairwise.map _ (fun a b hab => ?_) (List.nodup_range (n := t.len.toNat))
    omega
  · unfold Token.Ordered Token.len Token.Has at *
    simp only [List.mem_map, List.mem_range]
    constructor
    · rintro ⟨k, hk, rfl⟩; omega
    · intro hi; exact ⟨(i - t.frm).toNat, by omega, by omega⟩
  · unfold Token.Ordered Token.len at *
    simp only [List.length_map, List.length_range]; omega

example : (makeToken 7 3).Ordered ∧ (makeToken 7 3).clashes (makeToken 5 9) ∧ (makeToken 7 3).merge (makeToken 5 9) = ⟨3, 9⟩ :=
  ⟨(C24_makeToken 7 3).1, by decide, by decide⟩

/-! ### C25 -/

/-- The segments follow each other without gap or overlap from `a` to `b`. -/
def Contiguous : Int → List Segment → Int → Prop
  | a, [], b => a = b
  | a, s :: ss, b => s.tok.frm = a ∧ a ≤ s.tok.to ∧ Contiguous s.tok.to ss b

/-- The segments are ordered, disjoint and inside `[a, b)`. -/
def InOrder : Int → List Segment → Int → Prop
  | a, [], b => a ≤ b
  | a, s :: ss, b => a ≤ s.tok.frm ∧ s.tok.frm ≤ s.tok.to ∧ InOrder s.tok.to ss b

/-- `out` is `segs` with some further segments, all non-empty and with info `info`. -/
inductive Filled (info : Bytes) : List Segment → List Segment → Prop
  | nil : Filled info [] []
  | keep {s segs out} : Filled info segs out → Filled info (s :: segs) (s :: out)
  | fill {f segs out} : f.info = info → f.tok.frm < f.tok.to → Filled info segs out → Filled info segs (f :: out)

private theorem loop_acc (segs : List Segment) : ∀ (rest : Segment) (res : List Segment),
    Segment.segmentateLoop rest res segs =
      (res ++ (Segment.segmentateLoop rest [] segs).1, (Segment.segmentateLoop rest [] segs).2) := by
  induction segs with
  | nil => intro rest res; simp [Segment.segmentateLoop]
  | cons seg segs ih =>
    intro rest res
    unfold Segment.segmentateLoop
    split
    · simp
    · simp only
      rw [ih]
      conv_rhs => rw [ih]
      split <;> simp [List.append_assoc]

private theorem inOrder_le {a b : Int} {segs : List Segment} (h : InOrder a segs b) : a ≤ b := by
  induction segs generalizing a with
  | nil => exact h
  | cons s ss ih => have := ih h.2.2; have := h.1; have := h.2.1; omega

private theorem segmentate_cons (rest seg : Segment) (segs : List Segment) (ho : seg.tok.Ordered)
    (hc : rest.tok.covers seg.tok) :
    rest.segmentate (seg :: segs) =
      ((if rest.tok.frm < seg.tok.frm then [⟨rest.info, ⟨rest.tok.frm, seg.tok.frm⟩⟩] else []) ++ seg ::
        ((⟨rest.info, ⟨seg.tok.to, rest.tok.to⟩⟩ : Segment).segmentate segs).1,
        ((⟨rest.info, ⟨seg.tok.to, rest.tok.to⟩⟩ : Segment).segmentate segs).2) := by
  have hs := (C24_split rest.tok seg.tok ho hc).1
  have e1 : rest.split seg = (⟨rest.info, ⟨rest.tok.frm, seg.tok.frm⟩⟩, ⟨rest.info, ⟨seg.tok.to, rest.tok.to⟩⟩) := by
    unfold Segment.split; rw [hs]
  have e2 : Segment.segmentateLoop rest [] (seg :: segs) =
      Segment.segmentateLoop ⟨rest.info, ⟨seg.tok.to, rest.tok.to⟩⟩
        ((if (⟨rest.tok.frm, seg.tok.frm⟩ : Token).len > 0 then [⟨rest.info, ⟨rest.tok.frm, seg.tok.frm⟩⟩] else []) ++ [seg])
        segs := by
    rw [Segment.segmentateLoop, if_neg (by rw [hc]; decide), e1]
    rfl
  unfold Segment.segmentate
  rw [e2, loop_acc]
  cases h : Segment.segmentateLoop ⟨rest.info, ⟨seg.tok.to, rest.tok.to⟩⟩ [] segs with
  | mk r e =>
    have hif : ((⟨rest.tok.frm, seg.tok.frm⟩ : Token).len > 0) = (rest.tok.frm < seg.tok.frm) := by
      simp only [Token.len, eq_iff_iff]; omega
    cases e with
    | error x =>
      simp only [hif]
      split <;> simp
    | ok x =>
      simp only [hif]
      split <;> split <;> simp

/-- A successful `Segmentate` partitions the segment, contains the given segments in
order, and adds only non-empty segments with the info of the whole; it succeeds exactly
when the given segments are ordered, disjoint and inside. -/
theorem C25_segmentate (s : Segment) (segs : List Segment) (hs : s.tok.Ordered) (ho : ∀ g ∈ segs, g.tok.Ordered) :
    ((s.segmentate segs).2 = none ↔ InOrder s.tok.frm segs s.tok.to) ∧
    ((s.segmentate segs).2 = none →
      Contiguous s.tok.frm (s.segmentate segs).1 s.tok.to ∧ Filled s.info segs (s.segmentate segs).1) := by
  induction segs generalizing s with
  | nil =>
    simp only [Segment.segmentate, Segment.segmentateLoop, InOrder, List.nil_append]
    unfold Token.Ordered at hs
    refine ⟨by simp [hs], fun _ => ?_⟩
    split
    · next h =>
      unfold Token.len at h
      exact ⟨⟨rfl, hs, rfl⟩, .fill rfl (by omega) .nil⟩
    · next h =>
      unfold Token.len at h
      exact ⟨by simp only [Contiguous]; omega, .nil⟩
  | cons g segs ih =>
    have hg := ho g (by simp)
    by_cases hc : s.tok.covers g.tok
    · rw [segmentate_cons s g segs hg hc]
      simp only [Token.covers, Bool.and_eq_true, decide_eq_true_eq] at hc
      have hrest : (⟨s.info, ⟨g.tok.to, s.tok.to⟩⟩ : Segment).tok.Ordered := hc.2
      obtain ⟨i1, i2⟩ := ih ⟨s.info, ⟨g.tok.to, s.tok.to⟩⟩ hrest (fun x hx => ho x (by simp [hx]))
      simp only at i1 i2 ⊢
      rw [i1]
      refine ⟨?_, fun h => ?_⟩
      · constructor
        · intro h; exact ⟨hc.1, hg, h⟩
        · intro h; exact h.2.2
      · rw [← i1] at h
        obtain ⟨j1, j2⟩ := i2 h
        split
        · next hlt =>
          exact ⟨⟨rfl, hc.1, rfl, hg, j1⟩, .fill rfl hlt (.keep j2)⟩
        · next hlt =>
          exact ⟨⟨by omega, by unfold Token.Ordered at hg; omega, j1⟩, .keep j2⟩
    · have h1 : (s.segmentate (g :: segs)).2 = some g := by
        unfold Segment.segmentate Segment.segmentateLoop
        simp [hc]
      rw [h1]
      refine ⟨?_, by simp⟩
      constructor
      · intro h; simp at h
      · intro h
        exfalso
        apply hc
        have := inOrder_le h.2.2
        simp only [Token.covers, Bool.and_eq_true, decide_eq_true_eq]
        exact ⟨h.1, this⟩

/-- The error names the first segment that is not inside what the segments before it
left over. -/
theorem C25_error (s : Segment) (pre post : List Segment) (g : Segment) (ho : ∀ x ∈ pre, x.tok.Ordered)
    (hs : s.tok.Ordered) (hpre : InOrder s.tok.frm pre s.tok.to)
    (hg : ¬ (((pre.getLast?.map (fun x => x.tok.to)).getD s.tok.frm ≤ g.tok.frm) ∧ g.tok.to ≤ s.tok.to)) :
    (s.segmentate (pre ++ g :: post)).2 = some g := by
  induction pre generalizing s with
  | nil =>
    have hc : ¬ s.tok.covers g.tok = true := by
      simpa [Token.covers] using hg
    unfold Segment.segmentate
    simp [Segment.segmentateLoop, hc]
  | cons p pre ih =>
    have hp := ho p (by simp)
    have hc : s.tok.covers p.tok := by
      have := inOrder_le hpre.2.2
      simp only [Token.covers, Bool.and_eq_true, decide_eq_true_eq]
      exact ⟨hpre.1, this⟩
    rw [List.cons_append, segmentate_cons s p _ hp hc]
    simp only
    refine ih ⟨s.info, ⟨p.tok.to, s.tok.to⟩⟩ (fun x hx => ho x (by simp [hx])) (inOrder_le hpre.2.2) hpre.2.2 ?_
    cases pre with
    | nil => simpa using hg
    | cons q pre =>
      have e : ∀ d : Int, (((q :: pre).getLast?).map (fun x : Segment => x.tok.to)).getD d =
          ((q :: pre).getLast (by simp)).tok.to := by
        intro d; rw [List.getLast?_eq_some_getLast (by simp)]; rfl
      have e' : ((p :: q :: pre).getLast?) = (q :: pre).getLast? := by simp
      rw [e', e] at hg
      rw [e]
      exact hg

/-- The sub strings of contiguous segments give back the text they span. -/
theorem contiguous_text (text : Bytes) (out : List Segment) : ∀ (a : Nat), Contiguous a out text.length →
    (out.map (fun s => (text.drop s.tok.frm.toNat).take (s.tok.to - s.tok.frm).toNat)).flatten = text.drop a := by
  induction out with
  | nil =>
    intro a h
    have h' : (a : Int) = text.length := h
    simp
    omega
  | cons s ss ih =>
    intro a h
    obtain ⟨h1, h2, h3⟩ := h
    obtain ⟨k, hk⟩ : ∃ k : Nat, s.tok.to = k := ⟨s.tok.to.toNat, by omega⟩
    rw [hk] at h3
    simp only [List.map_cons, List.flatten_cons]
    rw [ih k h3, h1, hk]
    have : ((k : Int) - (a : Int)).toNat = k - a := by omega
    rw [this]
    have hka : a ≤ k := by omega
    simp only [Int.toNat_natCast]
    have : text.drop k = (text.drop a).drop (k - a) := by rw [List.drop_drop]; congr 1; omega
    rw [this, List.take_append_drop]

/-- `Scanner.Segmentate` (segment.go:110-113): a successful result, read with `Get`,
gives back the whole text. -/
theorem C25_scanner (s : Scanner) (segs out : List Segment) (ho : ∀ g ∈ segs, g.tok.Ordered)
    (h : s.segmentate segs = (out, none)) :
    Contiguous 0 out s.full.length ∧ Filled [] segs out ∧
    ∃ parts : List Bytes, List.Forall₂ (fun g p => s.get g.tok = .ret p) out parts ∧ parts.flatten = s.full := by
  have hm : makeToken 0 (s.full.length : Int) = ⟨0, s.full.length⟩ := by
    unfold makeToken; rw [if_neg (by omega)]
  have hseg : s.segmentate segs = (⟨[], ⟨0, s.full.length⟩⟩ : Segment).segmentate segs := by
    rw [← hm]; rfl
  rw [hseg] at h
  obtain ⟨h1, h2⟩ := C25_segmentate ⟨[], ⟨0, s.full.length⟩⟩ segs (by simp [Token.Ordered]) ho
  rw [h] at h2
  obtain ⟨h3, h4⟩ := h2 rfl
  simp only at h3 h4
  refine ⟨h3, h4, out.map (fun g => (s.full.drop g.tok.frm.toNat).take (g.tok.to - g.tok.frm).toNat), ?_, ?_⟩
  · have gen : ∀ (out : List Segment) (a : Int), 0 ≤ a → Contiguous a out s.full.length →
        List.Forall₂ (fun g p => s.get g.tok = .ret p) out
          (out.map (fun g => (s.full.drop g.tok.frm.toNat).take (g.tok.to - g.tok.frm).toNat)) := by
      intro out
      induction out with
      | nil => intro a _ _; exact .nil
      | cons g out ih =>
        intro a ha hc
        have hle : ∀ (out : List Segment) (a b : Int), Contiguous a out b → a ≤ b := by
          intro out
          induction out with
          | nil => intro a b h; exact Int.le_of_eq h
          | cons x xs ih => intro a b h; have := ih _ _ h.2.2; have := h.2.1; omega
        have := hle _ _ _ hc.2.2
        refine .cons ?_ (ih g.tok.to (by have := hc.2.1; omega) hc.2.2)
        unfold Scanner.get
        have h5 := hc.1
        have h6 := hc.2.1
        rw [if_pos (by omega)]
    exact gen out 0 (Int.le_refl _) h3
  · have := contiguous_text s.full out 0 h3
    simpa using this

example : (Scanner.new b!"a := 1" Heap.empty).segmentate [⟨b!"op", ⟨2, 4⟩⟩, ⟨b!"num", ⟨5, 6⟩⟩] =
    ([⟨[], ⟨0, 2⟩⟩, ⟨b!"op", ⟨2, 4⟩⟩, ⟨[], ⟨4, 5⟩⟩, ⟨b!"num", ⟨5, 6⟩⟩], none) := by decide
example : (Scanner.new b!"a := 1" Heap.empty).segmentate [⟨b!"op", ⟨2, 4⟩⟩, ⟨b!"num", ⟨3, 6⟩⟩] =
    ([⟨[], ⟨0, 2⟩⟩, ⟨b!"op", ⟨2, 4⟩⟩], some ⟨b!"num", ⟨3, 6⟩⟩) := by decide

end Tok
