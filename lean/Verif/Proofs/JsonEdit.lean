/-
What a client makes of a text by `Segmentate`, and what the JSON grammar picks for it.
-/
import Verif.Spec.JsonEdit
import Verif.Proofs.JsonTrim
import Verif.Props.C56
import Verif.Props.C102

namespace Tok
open Spec

/-- `Swaps f p cs l bs`: with other texts in the place of the segments `l` the characters `cs`, which begin at the byte `p`, are `bs`. -/
inductive Swaps (f : Bytes → Bytes → Bytes) : Nat → List Char → List Segment → List Char → Prop
  | nil {p} : Swaps f p [] [] []
  | keep {p c cs l bs} : Swaps f (p + (enc c).length) cs l bs → Swaps f p (c :: cs) l (c :: bs)
  | swap {p us g vs cs l bs} : g.tok = spanAt p us → f g.info (encText us) = encText vs → Swaps f (p + (encText us).length) cs l bs →
      Swaps f p (us ++ cs) (g :: l) (vs ++ bs)

variable {f : Bytes → Bytes → Bytes}

theorem Swaps.append {p : Nat} {cs ds bs es : List Char} {l m : List Segment} (h : Swaps f p cs l bs) (h' : Swaps f (p + (encText cs).length) ds m es) :
    Swaps f p (cs ++ ds) (l ++ m) (bs ++ es) := by
  induction h with
  | nil => simpa [encText_nil] using h'
  | @keep p c cs l bs _ ih => exact .keep (ih (by rw [encText_cons, List.length_append, ← Nat.add_assoc] at h'; exact h'))
  | @swap p us g vs cs l bs hg hf _ ih =>
    rw [List.append_assoc, List.append_assoc]
    exact .swap hg hf (ih (by rw [encText_append, List.length_append, ← Nat.add_assoc] at h'; exact h'))

theorem Swaps.all {p : Nat} : ∀ {cs : List Char}, Swaps f p cs [] cs
  | [] => .nil
  | _ :: _ => .keep .all

theorem Swaps.one {p : Nat} {cs bs : List Char} {g : Segment} (hg : g.tok = spanAt p cs) (h : f g.info (encText cs) = encText bs) : Swaps f p cs [g] bs := by
  simpa using Swaps.swap (cs := []) hg h .nil

theorem loop_swaps {s : Scanner} {p : Nat} {cs bs : List Char} {l : List Segment} (h : Swaps f p cs l bs) (hi : ∀ g ∈ l, g.info ≠ []) :
    ∀ (pre pend tail : Bytes) (res : List Segment), s.full = pre ++ (pend ++ (encText cs ++ tail)) → pre.length + pend.length = p →
      ∃ out rest, Segment.segmentateLoop ⟨[], ⟨pre.length, s.full.length⟩⟩ res l = (res ++ out, .ok rest) ∧
        editText s f (if rest.tok.len > 0 then out ++ [rest] else out) = .ret (pend ++ (encText bs ++ tail)) := by
  induction h with
  | @nil p =>
    intro pre pend tail res hf hp
    refine ⟨[], ⟨[], ⟨pre.length, s.full.length⟩⟩, by simp [Segment.segmentateLoop], ?_⟩
    rw [encText_nil, List.nil_append] at hf
    have hl : (s.full.length : Int) = pre.length + (pend ++ tail).length := by rw [hf]; simp
    have hg := get_part (s := s) (pre := pre) (x := pend ++ tail) (tail := []) (by simpa using hf)
    unfold Token.len
    rw [encText_nil, List.nil_append, hl]
    split
    · simp only [List.nil_append, editText, Segment.known, List.isEmpty_nil, Bool.not_true, Bool.false_eq_true, if_false]
      rw [hg]
      simp
    · have : pend ++ tail = [] := List.length_eq_zero_iff.mp (by simp only at *; omega)
      show _ = Exec.ret (pend ++ tail)
      rw [this]
      rfl
  | @keep p c cs l bs _ ih =>
    intro pre pend tail res hf hp
    obtain ⟨out, rest, h1, h2⟩ := ih hi pre (pend ++ enc c) tail res (by rw [hf, encText_cons]; simp) (by simp only [List.length_append]; omega)
    exact ⟨out, rest, h1, by rw [h2, encText_cons]; simp⟩
  | @swap p us g vs cs l bs hg hgf _ ih =>
    intro pre pend tail res hf hp
    have hk : g.known = true := by
      have := hi g List.mem_cons_self
      unfold Segment.known
      cases h : g.info with
      | nil => exact absurd h this
      | cons => rfl
    have hN : s.full.length = p + (encText us).length + (encText cs ++ tail).length := by
      rw [hf, encText_append]
      simp only [List.length_append]
      omega
    have hc : Token.covers ⟨pre.length, s.full.length⟩ g.tok = true := by
      rw [hg]
      show (decide ((pre.length : Int) ≤ p) && decide ((s.full.length : Int) ≥ p + (encText us).length)) = true
      simp only [Bool.and_eq_true, decide_eq_true_eq]
      omega
    have hsp : Segment.split ⟨[], ⟨pre.length, s.full.length⟩⟩ g =
        (⟨[], ⟨pre.length, (pre.length : Int) + pend.length⟩⟩, ⟨[], ⟨(pre ++ pend ++ encText us).length, s.full.length⟩⟩) := by
      have e1 : makeToken (pre.length : Int) p = ⟨pre.length, (pre.length : Int) + pend.length⟩ := by
        unfold makeToken
        rw [if_neg (by omega), ← hp]
        rfl
      have e2 : makeToken ((p : Int) + (encText us).length) s.full.length = ⟨(pre ++ pend ++ encText us).length, s.full.length⟩ := by
        unfold makeToken
        rw [if_neg (by omega), ← hp]
        simp only [List.length_append, Int.natCast_add]
      unfold Segment.split Token.split
      rw [hg]
      simp only [spanAt, e1, e2]
    have hg2 := get_part (s := s) (pre := pre) (x := pend) (tail := encText (us ++ cs) ++ tail) hf
    have hg3 : s.get g.tok = .ret (encText us) := by
      rw [hg]
      have := get_part (s := s) (pre := pre ++ pend) (x := encText us) (tail := encText cs ++ tail) (by rw [hf, encText_append]; simp)
      rw [List.length_append, hp] at this
      exact this
    obtain ⟨out, rest, h1, h2⟩ := ih (fun g hg => hi g (List.mem_cons_of_mem _ hg)) (pre ++ pend ++ encText us) [] tail
      ((if (⟨pre.length, (pre.length : Int) + pend.length⟩ : Token).len > 0 then res ++ [⟨[], ⟨pre.length, (pre.length : Int) + pend.length⟩⟩] else res) ++ [g])
      (by rw [hf, encText_append]; simp) (by simp only [List.length_append, List.length_nil]; omega)
    rw [List.nil_append] at h2
    refine ⟨(if (⟨pre.length, (pre.length : Int) + pend.length⟩ : Token).len > 0 then [⟨[], ⟨pre.length, (pre.length : Int) + pend.length⟩⟩] else []) ++ g :: out, rest, ?_, ?_⟩
    · unfold Segment.segmentateLoop
      simp only [hc, Bool.not_true, Bool.false_eq_true, if_false, hsp]
      rw [h1]
      split <;> simp
    · have h3 : editText s f (if rest.tok.len > 0 then g :: out ++ [rest] else g :: out) = .ret (encText (vs ++ bs) ++ tail) := by
        have : (if rest.tok.len > 0 then g :: out ++ [rest] else g :: out) = g :: if rest.tok.len > 0 then out ++ [rest] else out := by split <;> rfl
        rw [this, editText, hg3]
        simp only [Exec.bind_ret, h2, hk, if_true, hgf, Exec.pure_eq, encText_append, List.append_assoc]
      have h4 : ∀ xs ys : List Segment, (if rest.tok.len > 0 then xs ++ ys ++ [rest] else xs ++ ys) = xs ++ if rest.tok.len > 0 then ys ++ [rest] else ys := by
        intro xs ys; split <;> simp
      rw [h4]
      split
      · rw [List.singleton_append]
        rw [editText, hg2]
        simp only [Exec.bind_ret, h3, Exec.pure_eq, Segment.known, List.isEmpty_nil, Bool.not_true, Bool.false_eq_true, if_false]
      · rename_i hn
        have : pend = [] := List.length_eq_zero_iff.mp (by unfold Token.len at hn; simp only at hn; omega)
        rw [this]
        simpa using h3

/-- `Segmentate` accepts the segments, and the parts, changed where they are known, make up the other text. -/
theorem segmentate_swaps {s : Scanner} {cs bs : List Char} {l : List Segment} (h : Swaps f 0 cs l bs) (hi : ∀ g ∈ l, g.info ≠ []) (tail : Bytes)
    (hf : s.full = encText cs ++ tail) : ∃ parts, s.segmentate l = (parts, none) ∧ editText s f parts = .ret (encText bs ++ tail) := by
  obtain ⟨out, rest, h1, h2⟩ := loop_swaps h hi [] [] tail [] (by simpa using hf) rfl
  refine ⟨_, ?_, h2⟩
  unfold Scanner.segmentate Segment.segmentate makeToken
  rw [if_neg (by omega)]
  have h1 : Segment.segmentateLoop ⟨[], ⟨0, s.full.length⟩⟩ [] l = ([] ++ out, .ok rest) := h1
  rw [h1]
  simp only [List.nil_append]

/-! ### the tree and the edited text -/

variable {names : List Bytes} {g : JVal → JVal} {k : List Nat → List Nat}

/-- The segments of the nodes with these names. -/
def chosen (names : List Bytes) (ns : List Node) : List Segment := (Node.postList ns).filter fun x => names.contains x.info

theorem chosen_append (ns ms : List Node) : chosen names (ns ++ ms) = chosen names ns ++ chosen names ms := by
  unfold chosen
  rw [Json.postList_append, List.filter_append]

theorem chosen_cons (n : Node) (ms : List Node) : chosen names (n :: ms) = chosen names [n] ++ chosen names ms := chosen_append [n] ms

theorem chosen_leaf (nm : Bytes) (p : Nat) (cs : List Char) : chosen names [leafAt nm p cs] = if names.contains nm then [⟨nm, spanAt p cs⟩] else [] := by
  unfold chosen
  rw [Json.leaf_post, List.filter_cons, List.filter_nil]

theorem chosen_inner {nm : Bytes} {t : Token} {ns : List Node} (h : nm ∉ names) : chosen names [.mk ⟨nm, t⟩ ns] = chosen names ns := by
  have h' : names.contains nm = false := by simpa using h
  unfold chosen
  simp only [Node.postList, Node.post, List.append_nil, List.filter_append, List.filter_cons, h', List.filter_nil, Bool.false_eq_true, if_false]

theorem swaps_value (he : Edits names f g k) {v : JVal} {nm : Bytes} (hk : v.kind = some nm) {cs : List Char} (hv : JsonValue v cs) (p : Nat) :
    ∃ ds, Swaps f p cs (chosen names [leafAt nm p cs]) ds ∧ JsonValue (g v) ds := by
  rw [chosen_leaf]
  by_cases h : nm ∈ names
  · obtain ⟨ds, h1, h2⟩ := he.value v nm cs hk h hv
    rw [if_pos (by simpa using h)]
    exact ⟨ds, .one rfl h1, h2⟩
  · rw [if_neg (by simpa using h), he.other v nm hk h]
    exact ⟨cs, .all, hv⟩

theorem swaps_key (he : Edits names f g k) {us : List Nat} {cs : List Char} (hu : JsonUnits us cs) (p : Nat) :
    ∃ ds, Swaps f p ('"' :: (cs ++ ['"'])) (chosen names [leafAt b!"key" p ('"' :: (cs ++ ['"']))]) ('"' :: (ds ++ ['"'])) ∧ JsonUnits (k us) ds := by
  rw [chosen_leaf]
  by_cases h : b!"key" ∈ names
  · obtain ⟨ds, h1, h2⟩ := he.key h us cs hu
    rw [if_pos (by simpa using h)]
    exact ⟨ds, .one rfl h1, h2⟩
  · rw [if_neg (by simpa using h), he.otherKey h]
    exact ⟨cs, .all, hu⟩

theorem Swaps.wrap {p : Nat} {a b : Char} {cs bs : List Char} {l : List Segment} (ha : (enc a).length = 1) (h : Swaps f (p + 1) cs l bs) :
    Swaps f p (a :: (cs ++ [b])) l (a :: (bs ++ [b])) := by
  refine .keep ?_
  rw [ha]
  simpa using h.append (Swaps.all (cs := [b]))

theorem Swaps.sep {p : Nat} {a : Char} {cs bs ds es : List Char} {l m : List Segment} (ha : (enc a).length = 1) (h : Swaps f p cs l bs)
    (h' : Swaps f (p + (encText cs).length + 1) ds m es) : Swaps f p (cs ++ a :: ds) (l ++ m) (bs ++ a :: es) :=
  h.append (.keep (by rw [ha]; exact h'))

section
variable (he : Edits names f g k) (hn : ∀ nm ∈ names, nm ∈ jsonLeaves)
include he hn

mutual
theorem value_swaps : ∀ {v : JVal} {cs : List Char}, JsonValue v cs → ∀ p,
    ∃ ns ds, JsonTree .value p cs ns ∧ Swaps f p cs (chosen names ns) ds ∧ JsonValue (v.edit g k) ds
  | _, _, .null, p => let ⟨ds, h1, h2⟩ := swaps_value he rfl .null p; ⟨_, ds, .value_null, h1, h2⟩
  | _, _, .yes, p => let ⟨ds, h1, h2⟩ := swaps_value he rfl .yes p; ⟨_, ds, .value_true, h1, h2⟩
  | _, _, .no, p => let ⟨ds, h1, h2⟩ := swaps_value he rfl .no p; ⟨_, ds, .value_false, h1, h2⟩
  | _, _, .num h, p => let ⟨ds, h1, h2⟩ := swaps_value he rfl (.num h) p; ⟨_, ds, .value_number h, h1, h2⟩
  | _, _, .str h, p => let ⟨ds, h1, h2⟩ := swaps_value he rfl (.str h) p; ⟨_, ds, .value_string (string_text h), h1, h2⟩
  | _, _, .arrNone h, p => ⟨_, _, .value_array (.array_ws h), by
      rw [show chosen names _ = [] from chosen_inner fun h => absurd (hn _ h) (by decide)]; exact .all, .arrNone h⟩
  | _, _, .arr h, p => let ⟨ns, ds, h1, h2, h3⟩ := elements_swaps h (p + 1); ⟨_, '[' :: (ds ++ [']']), .value_array (.array_elements h1), by
      rw [chosen_inner fun h => absurd (hn _ h) (by decide)]; exact .wrap rfl h2, .arr h3⟩
  | _, _, .objNone h, p => ⟨_, _, .value_object (.object_ws h), by
      rw [show chosen names _ = [] from chosen_inner fun h => absurd (hn _ h) (by decide)]; exact .all, .objNone h⟩
  | _, _, .obj h, p => let ⟨ns, ds, h1, h2, h3⟩ := members_swaps h (p + 1); ⟨_, '{' :: (ds ++ ['}']), .value_object (.object_members h1), by
      rw [chosen_inner fun h => absurd (hn _ h) (by decide)]; exact .wrap rfl h2, .obj h3⟩
theorem element_swaps : ∀ {v : JVal} {cs : List Char}, JsonElement v cs → ∀ p,
    ∃ ns ds, JsonTree .element p cs ns ∧ Swaps f p cs (chosen names ns) ds ∧ JsonElement (v.edit g k) ds
  | _, _, .mk (us := us) (vs := vs) h1 h2 h3, p =>
    let ⟨ns, ds, h4, h5, h6⟩ := value_swaps h2 (p + (encText us).length)
    ⟨ns, us ++ (ds ++ vs), .element h1 h4 h3, by
      have := (Swaps.all (f := f) (p := p) (cs := us)).append (h5.append (Swaps.all (cs := vs)))
      simpa using this, .mk h1 h6 h3⟩
theorem elements_swaps : ∀ {vs : List JVal} {cs : List Char}, JsonElements vs cs → ∀ p,
    ∃ ns ds, JsonTree .elements p cs ns ∧ Swaps f p cs (chosen names ns) ds ∧ JsonElements (JVal.edits g k vs) ds
  | _, _, .one h, p => let ⟨ns, ds, h1, h2, h3⟩ := element_swaps h p; ⟨ns, ds, .elements_one h1, h2, .one h3⟩
  | _, _, .more (cs := cs) h h', p =>
    let ⟨ns, ds, h1, h2, h3⟩ := element_swaps h p
    let ⟨ms, es, h4, h5, h6⟩ := elements_swaps h' (p + (encText cs).length + 1)
    ⟨ns ++ ms, ds ++ ',' :: es, .elements_more h1 h4, by rw [chosen_append]; exact .sep rfl h2 h5, .more h3 h6⟩
theorem member_swaps : ∀ {m : List Nat × JVal} {cs : List Char}, JsonMember m cs → ∀ p,
    ∃ ns ds, JsonTree .member p cs ns ∧ Swaps f p cs (chosen names ns) ds ∧ JsonMember (k m.1, m.2.edit g k) ds
  | _, _, .mk (us := us) (cs := cs) (vs := vs) h1 h2 h3 h4, p =>
    let ⟨ks, h5, h6⟩ := swaps_key he h2 (p + (encText us).length)
    let ⟨ns, ds, h7, h8, h9⟩ := element_swaps h4 (p + (encText us).length + (encText ('"' :: (cs ++ ['"']))).length + (encText vs).length + 1)
    ⟨_, us ++ (('"' :: (ks ++ ['"'])) ++ (vs ++ ':' :: ds)), .member h1 (string_text h2) h3 h7, by
      rw [chosen_cons]
      have := (Swaps.all (f := f) (p := p) (cs := us)).append (h5.append ((Swaps.all (cs := vs)).sep (a := ':') rfl h8))
      simpa using this, .mk h1 h6 h3 h9⟩
theorem members_swaps : ∀ {ms : List (List Nat × JVal)} {cs : List Char}, JsonMembers ms cs → ∀ p,
    ∃ ns ds, JsonTree .members p cs ns ∧ Swaps f p cs (chosen names ns) ds ∧ JsonMembers (JVal.editMembers g k ms) ds
  | _, _, .one (m := (_, _)) h, p => let ⟨ns, ds, h1, h2, h3⟩ := member_swaps h p; ⟨ns, ds, .members_one h1, h2, .one h3⟩
  | _, _, .more (m := (_, _)) (cs := cs) h h', p =>
    let ⟨ns, ds, h1, h2, h3⟩ := member_swaps h p
    let ⟨ms, es, h4, h5, h6⟩ := members_swaps h' (p + (encText cs).length + 1)
    ⟨ns ++ ms, ds ++ ',' :: es, .members_more h1 h4, by rw [chosen_append]; exact .sep rfl h2 h5, .more h3 h6⟩
end

end

end Tok
