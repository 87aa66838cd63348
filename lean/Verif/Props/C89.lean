/-
C89: the errors of the MXT grammar.
-/
import Verif.Props.C61
import Verif.Props.C81
import Verif.Props.C82
import Verif.Props.C88
import Verif.Spec.MxtFault

namespace Tok
open Spec

theorem Gives.e {rt : Rt} {G : Env} (hG : G.Every (fun r => r.noWrap = true)) {r : Reader} (hr : r.Every (fun r => r.noWrap = true)) {h t : Bytes} {j : Nat → Bytes}
    {M : List (Nat × Token)} {ok : Bool} {b : View} (hg : Gives rt G r ⟨h, t, j, M⟩ ok b) : E rt G r ⟨t, j⟩ (ok, ⟨b.rest, b.jan⟩) := by
  obtain ⟨_, n, h1⟩ := hg
  have hb : Between ({ Scanner.new (h ++ t) { Heap.empty with janus := j, maps := M } with pos := h.length } : Scanner) h t := ⟨rfl, rfl⟩
  obtain ⟨e, s', h2, h3, h4, h5, h6⟩ := h1 _ ⟨hb, rfl, rfl⟩
  obtain ⟨⟨ok', st⟩, h7, h8, h9⟩ := (read_eat rt G hG n r hr _ _ _ (sees_between hb)).left h2
  have h8 : e.isNone = ok' := h8
  have h10 := (st_of_sees h9).symm.trans (st_of_sees (sees_between h4))
  rw [h5] at h10
  have h10 : st = ⟨b.rest, b.jan⟩ := h10
  subst h10
  exact ⟨n, h7.trans (by rw [show ok' = ok from h8.symm.trans h3])⟩

namespace MxtB
open Spec.MxtB
open Mxt (mapped iNL iWordChar iWord iMarker iName iComment iArrow iSalt iHeader iNextMarker iEmptyContent iContent iChunk iChunks)
variable {rt : Rt} {L : Nat} {t u x : Bytes} {j : Nat → Bytes}

theorem mapped_noWrap : mapped.Every (fun r => r.noWrap = true) := Env.everyB_sound (by decide)

/-- From the calculus of views. -/
theorem toE {r : Reader} {h : Bytes} {M : List (Nat × Token)} {ok : Bool} {b : View} (hg : Gives rt mapped r ⟨h, t, j, M⟩ ok b)
    (hr : r.everyB Reader.noWrap = true) : E rt mapped r ⟨t, j⟩ (ok, ⟨b.rest, b.jan⟩) := hg.e mapped_noWrap (Reader.everyB_sound Reader.noWrap _ hr)

/-- The error of reading `r`. -/
abbrev Blame (rt : Rt) (L : Nat) (r : Reader) (t : Bytes) (j : Nat → Bytes) (e : Err) : Prop := Blames rt mapped (E rt mapped) L (.read r) ⟨t, j⟩ [e]

theorem own {r : Reader} {e : Err} {m : St} (h : r.owns = true) (h' : E rt mapped r ⟨t, j⟩ (false, m)) (he : complaint rt mapped j (spot L m) r = e) : Blame rt L r t j e :=
  he ▸ Blames.self h h'

/-! ### names -/

theorem quote_slashes : quoteToGraphic rt b!"//" = b!"\"//\"" := by
  have e : encodeRune 47 = [47] := by decide
  have h : ∀ u, decodeRune (47 :: u) = (47, 1) := fun u => rfl
  simp [quoteToGraphic, quoteGo, h, escapeRune, e, runeError]

set_option maxRecDepth 8000 in
theorem quote_nl : quoteToGraphic rt b!"\n" = b!"\"\\n\"" := by rfl

set_option maxRecDepth 8000 in
theorem quote_crnl : quoteToGraphic rt b!"\r\n" = b!"\"\\r\\n\"" := by rfl

theorem what_space : (Reader.many (.rune ((' ' : Char).toNat))).what rt mapped = b!"+' '" := by
  have e : encodeRune 32 = [32] := by decide
  have h : quoteRuneToGraphic rt 32 = b!"' '" := by simp [quoteRuneToGraphic, escapeRune, validRune, e]
  show b!"+" ++ quoteRuneToGraphic rt 32 = _
  rw [h]
  rfl

set_option maxRecDepth 8000 in
theorem what_word : (Reader.many (.rule iWordChar)).what rt mapped = b!"+wordchar" := by rfl

set_option maxRecDepth 8000 in
theorem what_arrow : (Reader.to (.named b!"arrow" Mxt.arrow)).what rt mapped = b!"->arrow" := by rfl

set_option maxRecDepth 8000 in
theorem what_content : (Reader.to (.any [.rule iNextMarker, .atEnd])).what rt mapped = b!"->[ next-marker @END ]" := by rfl

/-! ### the parts of a header -/

theorem stop_of (h : Bare u) : Stop u := fun b v e => by have := h b v e; omega

theorem noSpace_of (h : Bare u) : NoSpace u := fun v e => by have := h 32 v e; revert this; decide

theorem bare_of (h : Stop u) (h' : NoSpace u) : Bare u := by
  intro b v e
  have h1 := h b v e
  have : b.toNat ≠ 32 := fun hb => h' v (by rw [e]; congr 1; exact UInt8.toNat_inj.mp hb)
  omega

theorem in_header {e : Err} (h : Blame rt L (.seq [.rule iMarker, .many (.rune ((' ' : Char).toNat)), .rule iName, .rule iComment, .rule iArrow, .opt (.rule iSalt)]) t j e) :
    Blame rt L (.rule iChunk) t j e := .rule (nm := b!"chunk") rfl (.seqFail (.rule (nm := b!"header") rfl h))

theorem marker_missing (h0 : ¬ b!"//" <+: t) : Blame rt L (.rule iChunk) t j (.read (spot L ⟨t, j⟩) (MxtMissing.marker.words rt)) := by
  refine in_header (.seqFail (.rule (nm := b!"marker") (c := .seq [.lit b!"//", .zom (.rule iWordChar)]) rfl (.seqFail (own (m := ⟨t, j⟩) rfl ?_ ?_))))
  · exact toE (Gives.lit_no (h := []) (M := []) h0) rfl
  · exact congrArg (Err.read _) quote_slashes

theorem space_missing {mark : Bytes} (hm : Words mark) (hu : Bare u) :
    Blame rt L (.rule iChunk) (b!"//" ++ (mark ++ u)) j (.read (spot L ⟨u, j⟩) (MxtMissing.space.words rt)) := by
  refine in_header (.seqCons (m := ⟨u, j⟩) ?_ (.seqFail (own (m := ⟨u, j⟩) rfl ?_ ?_)))
  · exact toE (marker (h := []) (M := []) hm (stop_of hu)) rfl
  · exact toE (manySpace_no (h := []) (M := []) (noSpace_of hu)) rfl
  · exact congrArg (Err.read _) what_space

theorem name_missing {mark : Bytes} {gap : Nat} (hm : Words mark) (hu : Bare u) :
    Blame rt L (.rule iChunk) (b!"//" ++ (mark ++ (spaces (gap + 1) ++ u))) j (.read (spot L ⟨u, j⟩) (MxtMissing.name.words rt)) := by
  refine in_header (.seqCons (m := ⟨spaces (gap + 1) ++ u, j⟩) ?_ (.seqCons (m := ⟨u, j⟩) ?_ (.seqFail (.rule (nm := b!"name") rfl (.map (.rule (nm := b!"word") rfl (own (m := ⟨u, j⟩) rfl ?_ ?_)))))))
  · exact toE (marker (h := []) (M := []) hm (stop_spaces1 gap)) rfl
  · exact toE (manySpace (h := []) (M := []) gap (noSpace_of hu)) rfl
  · obtain ⟨nm, c, h1, h2⟩ := e_rule.mp (toE (word_no (rt := rt) (j := j) (h := []) (M := []) (stop_of hu)) rfl)
    cases h1
    exact h2
  · exact congrArg (Err.read _) what_word

theorem arrow_missing {mark name : Bytes} {gap : Nat} (hn : NameHere t mark gap name u) (hm : Misses Arrow u []) :
    Blame rt L (.rule iChunk) t j (.read (spot L ⟨u, j⟩) (MxtMissing.arrow.words rt)) := by
  obtain ⟨rfl, hm1, hm2, hne, hst⟩ := hn
  refine in_header (.seqCons (m := ⟨spaces (gap + 1) ++ (name ++ u), j⟩) ?_ (.seqCons (m := ⟨name ++ u, j⟩) ?_ (.seqCons (m := ⟨u, j⟩) ?_
    (.seqFail (.rule (nm := b!"comment") rfl (own (m := ⟨u, j⟩) rfl ?_ ?_))))))
  · exact toE (marker (h := []) (M := []) hm1 (stop_spaces1 gap)) rfl
  · exact toE (manySpace (h := []) (M := []) gap (noSpace_words hm2 hne)) rfl
  · exact toE (MxtB.name (h := []) (M := []) hm2 hne hst) rfl
  · exact toE (comment_none (h := []) (M := []) hm rfl) rfl
  · exact congrArg (Err.read _) what_arrow

/-! ### behind the header -/

theorem deepest_second {p p' : Int} {w w' : Bytes} (h : p' ≤ p) : Deepest [.read p' w', .read p w] (.read p w) :=
  .inl ⟨[.read p' w'], p, w, [], rfl, rfl, fun m x hm => by
    cases List.mem_singleton.mp hm
    exact h, fun m x hm => by cases hm⟩

theorem deepest_first {p p' : Int} {w w' : Bytes} (h : p < p') : Deepest [.read p' w', .read p w] (.read p' w') :=
  .inl ⟨[], p', w', [.read p w], rfl, rfl, (fun m x hm => by cases hm), fun m x hm => by
    cases List.mem_singleton.mp hm
    exact h⟩

theorem in_chunk {c : MxtPart} {e : Err} (hc : c.HeadAt u) (hg : Greedy c u)
    (h : Blame rt L (.any [.rule iEmptyContent, .seq [.rule iNL, .rule iContent]]) u (after c j) e) : Blame rt L (.rule iChunk) (c.headText ++ u) j e :=
  .rule (nm := b!"chunk") rfl (.seqCons (m := ⟨u, after c j⟩) (toE (header (h := []) (M := []) c hc hg) rfl) (.seqFail h))

theorem nl_missing (hq : ∀ l v, u ≠ nl l ++ v) : Blame rt L (.rule iNL) u j (.read (spot L ⟨u, j⟩) (MxtMissing.line.words rt)) := by
  refine .rule (nm := b!"nl") (c := .any [.lit b!"\n", .lit b!"\r\n"]) rfl (.any (es := [.read (spot L ⟨u, j⟩) b!"\"\\n\"", .read (spot L ⟨u, j⟩) b!"\"\\r\\n\""]) ?_ (deepest_second (Int.le_refl _)))
  have h1 : E rt mapped (.lit b!"\n") ⟨u, j⟩ (false, ⟨u, j⟩) := toE (Gives.lit_no (h := []) (M := []) fun ⟨v, hv⟩ => hq false v hv.symm) rfl
  have h2 : E rt mapped (.lit b!"\r\n") ⟨u, j⟩ (false, ⟨u, j⟩) := toE (Gives.lit_no (h := []) (M := []) fun ⟨v, hv⟩ => hq true v hv.symm) rfl
  exact .altsCons (own rfl h1 (congrArg (Err.read _) quote_nl)) h1 (.altsCons (own rfl h2 (congrArg (Err.read _) quote_crnl)) h2 .altsNil)

/-- The error of `EmptyContent` is that of the next marker. -/
theorem in_empty {x : Bytes} {e : Err} {p : Int} {w : Bytes} (hj : j 0 = x) (hu : ¬ Close x u) (he : e = .read p w) (hp : spot L ⟨u, j⟩ ≤ p) (h : Blame rt L (.rule iNextMarker) u j e) :
    Blame rt L (.rule iEmptyContent) u j e := by
  subst he
  have h1 : E rt mapped .atEnd ⟨u, j⟩ (false, ⟨u, j⟩) := toE (Gives.atEnd_no (h := []) (M := []) fun h => hu (.inl h)) rfl
  have h2 : E rt mapped (.at_ (.rule iNextMarker)) ⟨u, j⟩ (false, ⟨u, j⟩) := toE (Gives.at_ (next_no (h := []) (M := []) hj fun h => hu (.inr h))) rfl
  exact .rule (nm := b!"empty-content") (c := .map 1 (.any [.atEnd, .at_ (.rule iNextMarker)])) rfl
    (.map (.any (.altsCons (own (e := .read (spot L ⟨u, j⟩) b!"@END") rfl h1 rfl) h1 (.altsCons (.at_ h) h2 .altsNil)) (deepest_second hp)))

theorem line_missing {c : MxtPart} (hc : c.HeadAt u) (hg : Greedy c u) (hj : j 0 = []) (hne : u ≠ []) (hq : ∀ l v, u ≠ nl l ++ v) :
    Blame rt L (.rule iChunk) (c.headText ++ u) j (.read (spot L ⟨u, j⟩) (MxtMissing.line.words rt)) := by
  have hcl : ¬ Close c.salt u := by
    rintro (h | ⟨l, v, h⟩)
    · exact hne h
    · exact hq l _ h
  have hj' := after_zero c hj
  have h0 := nl_missing (rt := rt) (L := L) (j := after c j) hq
  have h1 : E rt mapped (.rule iEmptyContent) ⟨u, after c j⟩ (false, ⟨u, after c j⟩) := toE (empty_no (h := []) (M := []) hj' hcl) rfl
  have h2 : E rt mapped (.seq [.rule iNL, .rule iContent]) ⟨u, after c j⟩ (false, ⟨u, after c j⟩) :=
    toE (Gives.seq_no (b := ⟨[], u, after c j, []⟩) (a := ⟨[], u, after c j, []⟩) (.fail (nl_no hq))) rfl
  exact in_chunk hc hg (.any (.altsCons (in_empty hj' hcl rfl (Int.le_refl _) (.rule (nm := b!"next-marker") rfl (.seqFail h0))) h1 (.altsCons (.seqFail h0) h2 .altsNil))
    (deepest_second (Int.le_refl _)))

/-- The error of the second alternative when the end of the content is not found. -/
theorem in_content {l : Bool} {v e : Bytes} (hj : j 0 = x) (hm : Misses (Close x) v e) :
    Blame rt L (.seq [.rule iNL, .rule iContent]) (nl l ++ v) j (.read (spot L ⟨v, j⟩) (MxtMissing.content.words rt)) ∧
    E rt mapped (.seq [.rule iNL, .rule iContent]) ⟨nl l ++ v, j⟩ (false, ⟨nl l ++ v, j⟩) := by
  have h1 := nl_yes (rt := rt) (h := []) (q := v) (j := j) (M := []) l
  have h2 : E rt mapped (.to (.any [.rule iNextMarker, .atEnd])) ⟨v, j⟩ (false, ⟨v, j⟩) := toE (content_no (h := []) (M := []) hj hm) rfl
  constructor
  · exact .seqCons (m := ⟨v, j⟩) (toE h1 rfl) (.seqFail (.rule (nm := b!"content") rfl (.map (own rfl h2 (congrArg (Err.read _) what_content)))))
  · exact toE (Gives.seq_no (rs := [.rule iNL, .rule iContent]) (.cons h1 (.fail (Gives.rule (i := iContent) (nm := b!"content") rfl (Gives.map_no (f := 2) (content_no hj hm)))))) rfl

theorem spot_lt {v w : Bytes} {i : Nat → Bytes} (h : w.length < v.length) : spot L ⟨v, j⟩ < spot L ⟨w, i⟩ := by
  unfold spot
  simp only
  omega

theorem content_missing {c : MxtPart} {l : Bool} {v e : Bytes} (hc : c.HeadAt (nl l ++ v)) (hj : j 0 = []) (hv : ¬ b!"//" <+: v) (hm : Misses (Close c.salt) v e) :
    Blame rt L (.rule iChunk) (c.headText ++ (nl l ++ v)) j (.read (spot L ⟨v, j⟩) (MxtMissing.content.words rt)) := by
  have hnx : ¬ Next c.salt (nl l ++ v) := by
    rintro ⟨l', w, e⟩
    rw [nl_inj e] at hv
    exact hv ⟨_, rfl⟩
  have hcl := not_close l hnx
  have hj' := after_zero c hj
  have h1 : E rt mapped (.rule iEmptyContent) ⟨nl l ++ v, after c j⟩ (false, ⟨nl l ++ v, after c j⟩) := toE (empty_no (h := []) (M := []) hj' hcl) rfl
  obtain ⟨h2, h3⟩ := in_content (rt := rt) (L := L) (l := l) hj' hm
  have h4 : E rt mapped (.lit b!"//") ⟨v, after c j⟩ (false, ⟨v, after c j⟩) := toE (Gives.lit_no (h := []) (M := []) hv) rfl
  have h5 : Blame rt L (.rule iNextMarker) (nl l ++ v) (after c j) (.read (spot L ⟨v, after c j⟩) (MxtMissing.marker.words rt)) :=
    .rule (nm := b!"next-marker") (c := .seq [.rule iNL, .lit b!"//", .janusEnd 0 []]) rfl (.seqCons (m := ⟨v, after c j⟩) (toE (nl_yes (h := []) (M := []) l) rfl)
      (.seqFail (own rfl h4 (congrArg (Err.read _) quote_slashes))))
  exact in_chunk hc (greedy_of c (.inr ⟨l, v, rfl⟩)) (.any (.altsCons (in_empty hj' hcl rfl (by unfold spot; simp only [List.length_append]; omega) h5) h1 (.altsCons h2 h3 .altsNil))
    (deepest_second (Int.le_refl _)))

theorem salt_missing {c : MxtPart} {l : Bool} {v e : Bytes} (hc : c.HeadAt (nl l ++ (b!"//" ++ v))) (hj : j 0 = []) (hv : ¬ c.salt <+: v) (hm : Misses (Close c.salt) (b!"//" ++ v) e) :
    Blame rt L (.rule iChunk) (c.headText ++ (nl l ++ (b!"//" ++ v))) j (.read (spot L ⟨v, j⟩) ((MxtMissing.salt c.salt).words rt)) := by
  have hnx : ¬ Next c.salt (nl l ++ (b!"//" ++ v)) := by
    rintro ⟨l', w, e⟩
    have := List.append_cancel_left (nl_inj e)
    exact hv ⟨w, this.symm⟩
  have hcl := not_close l hnx
  have hj' := after_zero c hj
  have h1 : E rt mapped (.rule iEmptyContent) ⟨nl l ++ (b!"//" ++ v), after c j⟩ (false, ⟨nl l ++ (b!"//" ++ v), after c j⟩) := toE (empty_no (h := []) (M := []) hj' hcl) rfl
  obtain ⟨h2, h3⟩ := in_content (rt := rt) (L := L) (l := l) hj' hm
  have h4 : E rt mapped (.janusEnd 0 []) ⟨v, after c j⟩ (false, ⟨v, after c j⟩) := toE (Gives.janusEnd_no (h := []) (M := []) (by rw [hj']; exact hv)) rfl
  have h5 : Blame rt L (.rule iNextMarker) (nl l ++ (b!"//" ++ v)) (after c j) (.read (spot L ⟨v, after c j⟩) ((MxtMissing.salt c.salt).words rt)) :=
    .rule (nm := b!"next-marker") (c := .seq [.rule iNL, .lit b!"//", .janusEnd 0 []]) rfl (.seqCons (m := ⟨b!"//" ++ v, after c j⟩) (toE (nl_yes (h := []) (M := []) l) rfl)
      (.seqCons (m := ⟨v, after c j⟩) (toE (Gives.lit (h := []) (M := [])) rfl) (.seqFail (own rfl h4 (by show Err.read _ (quoteToGraphic rt (after c j 0)) = _; rw [hj']; rfl)))))
  exact in_chunk hc (greedy_of c (.inr ⟨l, _, rfl⟩)) (.any (.altsCons (in_empty hj' hcl rfl (by unfold spot; simp only [List.length_append]; omega) h5) h1 (.altsCons h2 h3 .altsNil))
    (deepest_first (spot_lt (by rw [List.length_append]; show _ < 2 + _; omega))))

/-! ### what is missing is what the error names -/

theorem greedy_over {c : MxtPart} : Greedy c u ↔ c.SaltOver u :=
  ⟨fun h => ⟨h.1, fun h1 h2 => bare_of (h.2 h1 h2) h.1, fun h1 h2 => bare_of (h.3 h1 h2) h.1⟩, fun h => ⟨h.1, fun h1 h2 => stop_of (h.2 h1 h2), fun h1 h2 => stop_of (h.3 h1 h2)⟩⟩

theorem fault_blames {k : Nat} {m : MxtMissing} (hf : MxtFault t k m) (hj : j 0 = []) : Blame rt L (.rule iChunk) t j (.read ((L : Int) - t.length + k) (m.words rt)) := by
  have at' : ∀ {a v : Bytes} {i : Nat → Bytes} {k : Nat}, a.length = k → (L : Int) - (a ++ v).length + k = spot L ⟨v, i⟩ := by
    intro a v i k h
    unfold spot
    rw [List.length_append]
    simp only
    omega
  cases hf with
  | marker h => exact (show (L : Int) - t.length + (0 : Nat) = spot L ⟨t, j⟩ by unfold spot; simp) ▸ marker_missing h
  | space ht hm hu =>
    subst ht
    rw [← List.append_assoc, at' (i := j) (by simp; omega), List.append_assoc]
    exact space_missing hm hu
  | @name mark gap u ht hm hu =>
    subst ht
    have := name_missing (rt := rt) (L := L) (j := j) (gap := gap) hm hu
    rwa [← at' (i := j) (k := 2 + mark.length + (gap + 1)) (a := b!"//" ++ (mark ++ spaces (gap + 1))) (by simp [spaces]; omega), show (b!"//" ++ (mark ++ spaces (gap + 1))) ++ u = b!"//" ++ (mark ++ (spaces (gap + 1) ++ u)) by simp] at this
  | @arrow mark gap name u hn hm =>
    have := arrow_missing (rt := rt) (L := L) (j := j) hn hm
    rwa [← at' (i := j) (k := 2 + mark.length + (gap + 1) + name.length) (a := b!"//" ++ (mark ++ (spaces (gap + 1) ++ name))) (by simp [spaces]; omega),
      show (b!"//" ++ (mark ++ (spaces (gap + 1) ++ name))) ++ u = t by rw [hn.text]; simp] at this
  | line ht hc hg hne hq =>
    subst ht
    rw [at' (i := j) rfl]
    exact line_missing hc (greedy_over.mpr hg) hj hne hq
  | @content c l v e ht hc hv hm =>
    subst ht
    have := content_missing (rt := rt) (L := L) hc hj hv hm
    rwa [← at' (i := j) (k := c.headText.length + (nl l).length) (a := c.headText ++ nl l) (by simp), List.append_assoc] at this
  | @salt c l v e ht hc hv hm =>
    subst ht
    have := salt_missing (rt := rt) (L := L) hc hj hv hm
    rwa [← at' (i := j) (k := c.headText.length + (nl l).length + 2) (a := c.headText ++ (nl l ++ b!"//")) (by simp; omega), List.append_assoc, List.append_assoc] at this

/-- Something is missing if the text does not begin with a chunk and the search for the arrow comes to an end. -/
theorem fault_ex (hq : ¬ PartHere t) (hs : ¬ StuckHere t) : ∃ k m, MxtFault t k m := by
  by_cases h0 : b!"//" <+: t
  · obtain ⟨q1, rfl⟩ := h0
    obtain ⟨mark, q2, rfl, hm, hst1⟩ := split_words q1
    obtain ⟨gap, q3, rfl, hsp⟩ := split_spaces q2
    cases gap with
    | zero => exact ⟨_, _, .space (u := q3) rfl hm (bare_of hst1 hsp)⟩
    | succ gap =>
      obtain ⟨name, q4, rfl, hw, hst⟩ := split_words q3
      by_cases hne : name = []
      · subst hne
        exact ⟨_, _, .name (u := q4) rfl hm (bare_of hst hsp)⟩
      · have hN : NameHere (b!"//" ++ (mark ++ (spaces (gap + 1) ++ (name ++ q4)))) mark gap name q4 := ⟨rfl, hm, hw, hne, hst⟩
        rcases finds_or_misses Arrow _ q4 (Nat.le_refl _) with ⟨v, hf⟩ | ⟨e, hmi⟩
        · obtain ⟨q5, hv⟩ := Finds.holds hf
          subst hv
          obtain ⟨note, rfl⟩ := Finds.split hf
          obtain ⟨pre, salt, post, u, hsw, hse, hgr⟩ := split_salt q5
          obtain ⟨ch, rfl, rfl, rfl, rfl, hch, hg, hsa, hbody⟩ : ∃ ch : MxtPart, mark = ch.mark ∧ gap = ch.gap ∧ name = ch.name ∧ note = ch.note ∧ q5 = ch.saltText ++ u ∧ Greedy ch u ∧ Words ch.salt ∧ ch.body = none :=
            ⟨⟨mark, gap, name, note, pre, salt, post, none⟩, rfl, rfl, rfl, rfl, hse _ _ _ _ _, hgr _ _ _ _ _, hsw, rfl⟩
          subst hch
          have hc : ch.HeadAt u := ⟨hm, hw, hsa, hne, by
            cases hn : ch.note with
            | nil =>
              rw [hn] at hst
              exact absurd (hst 45 (45 :: 62 :: (ch.saltText ++ u)) rfl) (by decide)
            | cons d ds => exact ⟨d, ds, rfl, hst d (ds ++ (b!"-->" ++ (ch.saltText ++ u))) (by rw [hn]; rfl)⟩, hf⟩
          have e : b!"//" ++ (ch.mark ++ (spaces (ch.gap + 1) ++ (ch.name ++ (ch.note ++ (b!"-->" ++ (ch.saltText ++ u)))))) = ch.headText ++ u := by simp [MxtPart.headText, MxtPart.lead]
          have hcl : ¬ Close ch.salt u := fun hcl => hq ⟨ch, u, by rw [e]; simp [MxtPart.text, MxtPart.bodyText, hbody],
            ⟨by simpa [MxtPart.bodyText, hbody] using hc, hcl, fun l cs hb => by rw [hbody] at hb; cases hb⟩⟩
          by_cases hl : ∃ l v, u = nl l ++ v
          · obtain ⟨l, v, rfl⟩ := hl
            rcases finds_or_misses (Close ch.salt) _ v (Nat.le_refl _) with ⟨w, hf'⟩ | ⟨e', hm'⟩
            · exfalso
              obtain ⟨cs, rfl⟩ := Finds.split hf'
              refine hq ⟨{ ch with body := some (l, cs) }, w, ?_, ⟨?_, Finds.holds hf', ?_⟩⟩
              · simp [MxtPart.text, MxtPart.bodyText, MxtPart.headText, MxtPart.lead, MxtPart.saltText]
              · have : MxtPart.HeadAt { ch with body := some (l, cs) } (nl l ++ (cs ++ w)) := ⟨hc.mark, hc.name, hc.salt, hc.name_ne, hc.note_head, hc.first⟩
                simpa [MxtPart.bodyText] using this
              · rintro l' cs' hb
                cases hb
                exact ⟨fun h => hcl (.inr h), hf'⟩
            · by_cases h2 : b!"//" <+: v
              · obtain ⟨v, rfl⟩ := h2
                refine ⟨_, _, .salt e hc (fun ⟨w, hw⟩ => hcl (.inr ⟨l, w, ?_⟩)) hm'⟩
                rw [← hw]
              · exact ⟨_, _, .content e hc h2 hm'⟩
          · exact ⟨_, _, .line e hc (greedy_over.mp hg) (fun h => hcl (.inl h)) fun l v h => hl ⟨l, v, h⟩⟩
        · have he : e = [] := Classical.byContradiction fun he => hs ⟨_, _, _, _, e, hN, hmi, he⟩
          subst he
          exact ⟨_, _, .arrow hN hmi⟩
  · exact ⟨_, _, .marker h0⟩

theorem doc_blames {k : Nat} {m : MxtMissing} (hf : MxtFault t k m) (hj : j 0 = []) :
    Blame rt L Mxt.reader t j (.other (b!"mxt parse error: not able to read " ++ m.words rt ++ b!" at " ++ itoa ((L : Int) - t.length + k))) := by
  have := Blames.grammar (w := b!"mxt") (Blames.rule (i := iChunks) (nm := b!"chunks") rfl (Blames.seqFail (rs := [again]) (fault_blames (rt := rt) (L := L) hf hj)))
  rw [show b!"mxt" ++ b!" parse error: " ++ (Err.read ((L : Int) - t.length + k) (m.words rt)).text = b!"mxt parse error: not able to read " ++ m.words rt ++ b!" at " ++ itoa ((L : Int) - t.length + k) by
    simp [Err.text]] at this
  exact this

/-! ### UTF-8 -/

theorem misses_utf {P : Bytes → Prop} {e : Bytes} (hm : Misses P u e) : ∀ z, u = encText z → e = [] := by
  induction hm with
  | stop hp hh =>
    rintro z rfl
    cases z with
    | nil => rfl
    | cons c z => rw [encText_cons] at hh; exact absurd ⟨_, Hop.char c (encText z)⟩ hh
  | @hop _ w _ hp hh hm ih =>
    rintro z rfl
    cases z with
    | nil =>
      have := hop_lt hh
      simp [encText_nil] at this
    | cons c z =>
      rw [encText_cons] at hh
      generalize hx : enc c ++ encText z = x at hh
      cases hh with
      | char d =>
        obtain ⟨vs, _, h2⟩ := encText_split (ds := [d]) (cs := c :: z) (x := w) (by rw [encText_cons, hx]; simp [encText_cons, encText_nil])
        exact ih vs h2
      | junk b b1 b2 u h => exact absurd ⟨_, hx⟩ (h c)

/-- A place in front of an ASCII byte is one between two characters. -/
theorem utf_cut : ∀ {z : List Char} {a u : Bytes}, encText z = a ++ u → (∀ b v, u = b :: v → b.toNat < 0x80) → ∃ y, u = encText y
  | [], a, u, h, _ => ⟨[], by
    rw [encText_nil] at h
    rw [encText_nil]
    exact (List.append_eq_nil_iff.mp h.symm).2⟩
  | c :: z, a, u, h, hu => by
    rw [encText_cons] at h
    rcases List.append_eq_append_iff.mp h with ⟨w, h1, h2⟩ | ⟨w, h1, h2⟩
    · exact utf_cut h2 hu
    · cases w with
      | nil => exact utf_cut (a := []) h2.symm hu
      | cons b w =>
        have hb := hu b (w ++ encText z) h2
        have hc := enc_low (enc_mem_low (c := c) (b := b) (by rw [h1]; simp) hb) hb
        cases a with
        | nil => exact ⟨c :: z, by rw [encText_cons]; exact h.symm⟩
        | cons d a =>
          have := congrArg List.length (hc.symm.trans h1)
          simp at this

end MxtB

open MxtB

/-- The error of the MXT reader names what is missing first and its place. -/
theorem C89_fault (rt : Rt) (s : Scanner) (h t : Bytes) (hj : s.heap.janus 0 = []) (hb : Between s h t) (e : Err) :
    (∃ n s', read rt Mxt.mapped n Mxt.reader s = .ret (some e, s')) ↔
    ∃ k m, MxtFault t k m ∧ e = .other (b!"mxt parse error: not able to read " ++ m.words rt ++ b!" at " ++ itoa (h.length + k)) := by
  have hr : Mxt.reader.Every (fun r => r.noWrap = true) := Reader.everyB_sound Reader.noWrap _ rfl
  have conv : ∀ {k m}, MxtFault t k m → Blames rt Mxt.mapped (Outcome rt Mxt.mapped) (h ++ t).length (.read Mxt.reader) ⟨t, s.heap.janus⟩
      [.other (b!"mxt parse error: not able to read " ++ m.words rt ++ b!" at " ++ itoa (h.length + k))] := by
    intro k m hf
    have := doc_blames (rt := rt) (L := (h ++ t).length) hf hj
    rw [show ((h ++ t).length : Int) - t.length + k = h.length + k by rw [List.length_append]; omega] at this
    exact blames_noWrap mapped_noWrap (fun r hr _ _ h => (outcome_iff mapped_noWrap hr).mpr h) hr this
  constructor
  · rintro ⟨n, s', h1⟩
    obtain ⟨h2, h3⟩ := (C82_error rt s h t hj hb).mp ⟨n, e, s', h1⟩
    obtain ⟨k, m, hf⟩ := fault_ex h2 h3
    refine ⟨k, m, hf, ?_⟩
    have := C88_unique rt Mxt.mapped mapped_noWrap Mxt.reader hr _ _ _ _ (C88_error rt Mxt.mapped mapped_noWrap Mxt.reader hr s h t hb n e s' h1) (conv hf)
    exact List.singleton_inj.mp this
  · rintro ⟨k, m, hf, rfl⟩
    exact C88_complete rt Mxt.mapped mapped_noWrap Mxt.reader hr s h t hb _ (conv hf)

/-- The same for the grammar without map functions. -/
theorem C89_plain (rt : Rt) (s : Scanner) (h t : Bytes) (hj : s.heap.janus 0 = []) (hb : Between s h t) (e : Err) :
    (∃ n s', read rt Mxt.env n Mxt.reader s = .ret (some e, s')) ↔
    ∃ k m, MxtFault t k m ∧ e = .other (b!"mxt parse error: not able to read " ++ m.words rt ++ b!" at " ++ itoa (h.length + k)) := by
  have key := fun pos => C44_rules_partial rt Mxt.env ((Env.everyB_sound (p := Reader.tameB) (by decide)).imp fun _ => tame_of_B) (restoresB_env (by decide))
    (fun i => if i = 5 then [.map 0] else if i = 9 then [.map 1] else if i = 10 then [.map 2] else []) Mxt.reader (.mk trivial fun c hc => by
      rw [List.mem_singleton.mp hc]
      exact .mk trivial (by simp [Reader.subs])) s hb.inside (some e) pos
  rw [← Mxt.mapped_dress] at key
  rw [← C89_fault rt s h t hj hb e]
  constructor
  · rintro ⟨n, s', h1⟩
    obtain ⟨n, s', h2, _⟩ := (key s'.pos).mp ⟨n, s', h1, rfl⟩
    exact ⟨n, s', h2⟩
  · rintro ⟨n, s', h1⟩
    obtain ⟨n, s', h2, _⟩ := (key s'.pos).mpr ⟨n, s', h1, rfl⟩
    exact ⟨n, s', h2⟩

/-- Only one thing is missing first. -/
theorem C89_unique (t : Bytes) (k k' : Nat) (m m' : MxtMissing) (hf : MxtFault t k m) (hf' : MxtFault t k' m') :
    k = k' ∧ ∀ rt, m.words rt = m'.words rt := by
  have key : ∀ rt : Rt, (.read ((t.length : Int) - t.length + k) (m.words rt) : Err) = .read ((t.length : Int) - t.length + k') (m'.words rt) := fun rt =>
    List.singleton_inj.mp (blames_unique (fault_blames (rt := rt) (L := t.length) (j := fun _ => []) hf' rfl) (fault_blames (rt := rt) (L := t.length) (j := fun _ => []) hf rfl))
  constructor
  · have := key ⟨fun x => x, fun _ => true, fun n => n⟩
    injection this with h1 h2
    omega
  · intro rt
    have := key rt
    injection this

/-- In a UTF-8 text the content is never missing: a header and a line break are a chunk. -/
theorem C89_utf8 (z : List Char) (k : Nat) (m : MxtMissing) (hf : MxtFault (encText z) k m) : m = .marker ∨ m = .space ∨ m = .name ∨ m = .arrow ∨ m = .line := by
  have nl_cut : ∀ {a v : Bytes} {l : Bool}, encText z = a ++ (nl l ++ v) → ∃ y, v = encText y := by
    intro a v l h
    obtain ⟨y, hy⟩ := utf_cut h (fun b w e => by cases l <;> (simp [nl] at e; simp [← e.1]))
    have : encText y = encText (if l then ['\r', '\n'] else ['\n']) ++ v := by
      rw [← hy]
      cases l <;> rfl
    obtain ⟨vs, _, h2⟩ := encText_split this
    exact ⟨vs, h2⟩
  cases hf with
  | marker => simp
  | space => simp
  | name => simp
  | arrow => simp
  | line => simp
  | content ht hc hv hm =>
    obtain ⟨y, hy⟩ := nl_cut ht
    exact absurd (.inl (misses_utf hm y hy)) (misses_end hm).2.1
  | salt ht hc hv hm =>
    obtain ⟨y, hy⟩ := nl_cut ht
    exact absurd (.inl (misses_utf hm y hy)) (misses_end hm).2.1

/-- Nothing but `hello`; a marker without anything behind it; a name and no arrow; a line that goes on behind the salt. -/
example (rt : Rt) : ∃ n s', read rt Mxt.env n Mxt.reader (.new b!"hello" Heap.empty) = .ret (some (.other b!"mxt parse error: not able to read \"//\" at 0"), s') :=
  (C89_plain rt _ [] b!"hello" rfl ⟨rfl, rfl⟩ _).mpr ⟨0, .marker, .marker (by decide), rfl⟩

example (rt : Rt) : ∃ n s', read rt Mxt.env n Mxt.reader (.new b!"//X\n" Heap.empty) = .ret (some (.other b!"mxt parse error: not able to read +' ' at 3"), s') :=
  (C89_plain rt _ [] b!"//X\n" rfl ⟨rfl, rfl⟩ _).mpr ⟨3, .space, .space (mark := b!"X") (u := b!"\n") rfl (by simp [Words]) (by rintro b v e; cases e; decide), rfl⟩

example (rt : Rt) : ∃ n s', read rt Mxt.env n Mxt.reader (.new b!"//X  \n" Heap.empty) = .ret (some (.other b!"mxt parse error: not able to read +wordchar at 5"), s') :=
  (C89_plain rt _ [] b!"//X  \n" rfl ⟨rfl, rfl⟩ _).mpr ⟨5, .name, .name (mark := b!"X") (gap := 1) (u := b!"\n") rfl (by simp [Words]) (by rintro b v e; cases e; decide), rfl⟩

example (rt : Rt) : ∃ n s', read rt Mxt.env n Mxt.reader (.new b!"// a -\n" Heap.empty) = .ret (some (.other b!"mxt parse error: not able to read ->arrow at 4"), s') :=
  (C89_plain rt _ [] b!"// a -\n" rfl ⟨rfl, rfl⟩ _).mpr ⟨4, .arrow, .arrow (mark := []) (gap := 0) (name := b!"a") (u := b!" -\n") ⟨rfl, by simp [Words], by simp [Words], by simp, by rintro b v e; cases e; decide⟩
    (.hop (by rintro ⟨w, hw⟩; simp at hw) (Hop.char ' ' _) (.hop (by rintro ⟨w, hw⟩; simp at hw) (Hop.char '-' _) (.hop (by rintro ⟨w, hw⟩; simp at hw) (Hop.char '\n' []) (.stop (by rintro ⟨w, hw⟩; simp at hw) no_hop_nil)))), rfl⟩

example (rt : Rt) : ∃ n s', read rt Mxt.env n Mxt.reader (.new b!"// a --> X u" Heap.empty) = .ret (some (.other b!"mxt parse error: not able to read \"\\r\\n\" at 11"), s') :=
  (C89_plain rt _ [] b!"// a --> X u" rfl ⟨rfl, rfl⟩ _).mpr ⟨11, .line, .line (c := ⟨[], 0, b!"a", [32], 0, b!"X", 1, none⟩) (u := b!"u") rfl
    ⟨by simp [Words], by simp [Words], by simp [Words], by simp, ⟨32, [], rfl, by decide⟩, .hop (by rintro ⟨w, hw⟩; simp at hw) (Hop.char ' ' _) (.here ⟨_, rfl⟩)⟩
    ⟨by simp, by simp, by simp⟩ (by simp) (by intro l v; cases l <;> simp [nl]), rfl⟩

/-- A stray byte in the content: with a line that begins like a marker it is the salt that is missing. -/
example (rt : Rt) : ∃ n s', read rt Mxt.env n Mxt.reader (.new (b!"// a -->\nx" ++ [0xff]) Heap.empty) = .ret (some (.other b!"mxt parse error: not able to read ->[ next-marker @END ] at 9"), s') :=
  (C89_plain rt _ [] (b!"// a -->\nx" ++ [0xff]) rfl ⟨rfl, rfl⟩ _).mpr ⟨9, .content, .content (c := ⟨[], 0, b!"a", [32], 0, [], 0, none⟩) (l := false) (v := b!"x" ++ [0xff]) (e := [0xff]) rfl (MxtB.head_a _ _) (by decide)
    (.hop (by rintro (h | ⟨l, v, h⟩) <;> [simp at h; (cases l <;> simp [nl] at h)]) (Hop.char 'x' _)
      (.stop (by rintro (h | ⟨l, v, h⟩) <;> [simp at h; (cases l <;> simp [nl] at h)]) (MxtB.Stray.no_hop ⟨0xff, by decide, .inl rfl⟩))), rfl⟩

end Tok
