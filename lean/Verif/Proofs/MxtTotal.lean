/-
What the MXT grammar does on every text.
-/
import Verif.Props.C54
import Verif.Spec.MxtRead

namespace Tok
open Spec

namespace Mxt
open Spec.Mxt
variable {rt : Rt} {h : Bytes} {p q x z : List Char} {c d : Char} {j : Nat → Bytes} {M : List (Nat × Token)}

/-! ### taking texts apart -/

theorem split_words : ∀ q : List Char, ∃ x u, q = x ++ u ∧ Words x ∧ Stop u
  | [] => ⟨[], [], rfl, by simp [Words], by simp [Stop]⟩
  | c :: q => by
    obtain ⟨x, u, h1, h2, h3⟩ := split_words q
    by_cases hc : 0x21 ≤ c.toNat
    · exact ⟨c :: x, u, by simp [h1], by simpa [Words, hc] using h2, h3⟩
    · refine ⟨[], c :: q, rfl, by simp [Words], ?_⟩
      intro d u e
      cases e
      omega

theorem split_spaces : ∀ q : List Char, ∃ n u, q = spaces n ++ u ∧ NoSpace u
  | [] => ⟨0, [], rfl, by simp [NoSpace]⟩
  | c :: q => by
    obtain ⟨n, u, h1, h2⟩ := split_spaces q
    by_cases hc : c = ' '
    · exact ⟨n + 1, u, by simp [hc, h1, spaces, List.replicate_succ], h2⟩
    · exact ⟨0, c :: q, rfl, fun u e => hc (by cases e; rfl)⟩

/-- There is no arrow. -/
def NoArrow (q : List Char) : Prop := ∀ a b, q ≠ a ++ (arrowText ++ b)

theorem split_arrow : ∀ q : List Char, NoArrow q ∨ ∃ z u, q = z ++ (arrowText ++ u) ∧ First z
  | [] => .inl fun a b e => by simp [arrowText] at e
  | c :: q => by
    by_cases h0 : arrowText <+: c :: q
    · obtain ⟨u, hu⟩ := h0
      refine .inr ⟨[], u, hu.symm, fun pre post e => ?_⟩
      have := congrArg List.length e
      simp [arrowText] at this
      exact List.eq_nil_of_length_eq_zero (by omega)
    · rcases split_arrow q with hn | ⟨z, u, h1, h2⟩
      · refine .inl fun a b e => ?_
        cases a with
        | nil => exact h0 ⟨b, e.symm⟩
        | cons d a =>
          simp only [List.cons_append, List.cons.injEq] at e
          exact hn a b e.2
      · refine .inr ⟨c :: z, u, by rw [h1]; rfl, fun pre post e => ?_⟩
        cases pre with
        | nil =>
          refine absurd ⟨?_, ?_⟩ h0
          · exact post ++ u
          · rw [h1]
            have := congrArg (· ++ u) e
            simpa using this.symm
        | cons d pre =>
          simp only [List.cons_append, List.cons.injEq] at e
          exact h2 pre post (by simpa using e.2)

theorem NoArrow.tail (hn : NoArrow (c :: q)) : NoArrow q := fun a b e => hn (c :: a) b (by rw [e]; rfl)

/-! ### no arrow -/

theorem arrowLoop_none (p0 : List Char) : ∀ (q w : List Char), NoArrow q →
    GivesBody rt mapped (.zom (.rule iWordChar)) (.lit b!"-->") (h ++ encText p0) (CV h (p0 ++ w) q j M) none (CV h (p0 ++ w ++ q) [] j M)
  | [], w, _ => by
    have := GivesBody.end_ (rt := rt) (G := mapped) (bd := .zom (.rule iWordChar)) (tl := .lit b!"-->") (h0 := h ++ encText p0) (a := CV h (p0 ++ w) [] j M) rfl
    simpa using this
  | c :: q, w, hn => by
    have ih := arrowLoop_none p0 q (w ++ [c]) hn.tail
    have h1 := CV.lit_no (rt := rt) (G := mapped) (x := arrowText) (h := h) (p := p0 ++ w) (q := c :: q) (j := j) (M := M) fun ⟨u, hu⟩ => hn [] u hu.symm
    have := GivesBody.step (tl := .lit b!"-->") (h := h ++ encText (p0 ++ w)) (ch := c) (t := encText q) (j := j) (M := M)
      (a := CV h (p0 ++ w) (c :: q) j M) CV.rest_ne
      (by rw [CV.cons] at h1 ⊢; exact h1) (by rw [← CV.snoc]; simpa using ih)
    simpa using this

theorem arrow_none (hn : NoArrow q) : Gives rt mapped Mxt.arrow (CV h p q j M) false (CV h p q j M) := by
  have := arrowLoop_none (rt := rt) (h := h) (j := j) (M := M) p q [] hn
  rw [List.append_nil] at this
  exact .bodyTail_no this

theorem comment_none : ∀ (q p : List Char), NoArrow q → Gives rt mapped (.to (.named b!"arrow" Mxt.arrow)) (CV h p q j M) false (CV h p q j M)
  | [], p, hn => Gives.to_end (Gives.named (arrow_none hn))
  | c :: q, p, hn => by
    have ih := comment_none q (p ++ [c]) hn.tail
    have h1 := Gives.named (nm := b!"arrow") (arrow_none (rt := rt) (h := h) (p := p) (j := j) (M := M) hn)
    rw [CV.snoc] at ih
    exact Gives.to_step_no (h := h ++ encText p) (ch := c) (t := encText q) (j := j) (M := M) (a := CV h p (c :: q) j M) (by rw [CV.cons] at h1 ⊢; exact h1) ih

/-! ### the salt -/

/-- The salt of the chunk goes as far as possible. -/
structure Greedy (ch : MxtChunk) (q : List Char) : Prop where
  noSpace : NoSpace q
  none : ch.salt = [] → ch.pre ≠ 0 → Stop q
  some : ch.salt ≠ [] → ch.post = 0 → Stop q

theorem salt_greedy (ch : MxtChunk) (hs : Words ch.salt) (hq : Greedy ch q) :
    Gives rt mapped (.opt (.rule iSalt)) (CV h p (ch.saltText ++ q) j M) true (CV h (p ++ ch.saltText) q (after ch j) M) := by
  unfold MxtChunk.saltText after
  by_cases h0 : ch.salt = []
  · rw [if_pos h0]
    cases hn : ch.pre with
    | zero =>
      rw [if_pos ⟨h0, rfl⟩]
      have h1 := Gives.many_no (CV.rune_no (rt := rt) (G := mapped) (c := ' ') (h := h) (p := p) (j := j) (M := M) hq.noSpace (by decide)) (Nat.le_refl _)
      have := Gives.opt (Gives.rule (i := iSalt) (nm := b!"salt") rfl (Gives.seq_no (rs := [.many (.rune ((' ' : Char).toNat)), .janusBegin 0 [] (.opt (.rule iWord)), .zom (.rune ((' ' : Char).toNat))]) (.fail h1)))
      simpa [spaces, View.back, CV] using this
    | succ n =>
      rw [if_neg (by simp)]
      have h1 := manySpace (rt := rt) (h := h) (p := p) (j := j) (M := M) n hq.noSpace
      have h2 := Gives.janusBegin (id := 0) (nm := []) (x := []) (Gives.opt (word_no (rt := rt) (h := h) (p := p ++ spaces (n + 1)) (j := j) (M := M) (hq.none h0 (by omega)))) (by simp)
      have h3 := Gives.zom_stop (CV.rune_no (rt := rt) (G := mapped) (c := ' ') (h := h) (p := p ++ spaces (n + 1)) (j := upd j 0 []) (M := M) hq.noSpace (by decide))
      rw [h0]
      exact .opt (.rule (nm := b!"salt") rfl (.seq (.cons h1 (.cons h2 (.cons h3 .nil)))))
  · rw [if_neg h0, if_neg (fun h => h0 h.1)]
    have hst : Stop (spaces ch.post ++ q) := by
      cases hp : ch.post with
      | zero => exact hq.some h0 hp
      | succ n => exact stop_spaces1 n
    have h1 := manySpace (rt := rt) (h := h) (p := p) (j := j) (M := M) ch.pre (noSpace_words (q := spaces ch.post ++ q) hs h0)
    have h2 := Gives.janusBegin (id := 0) (nm := []) (x := encText ch.salt)
      (Gives.opt (word (rt := rt) (h := h) (p := p ++ spaces (ch.pre + 1)) (j := j) (M := M) hs h0 hst)) (by simp [CV, encText_append])
    have h3 := zomSpace (rt := rt) (h := h) (j := upd j 0 (encText ch.salt)) (M := M) ch.post (p ++ spaces (ch.pre + 1) ++ ch.salt) hq.noSpace
    have := Gives.opt (Gives.rule (i := iSalt) (nm := b!"salt") rfl (Gives.seq (.cons h1 (.cons h2 (.cons h3 .nil)))))
    simpa using this

theorem split_salt (q : List Char) : ∃ pre salt post u, Words salt ∧ (∀ m g n o b, q = (MxtChunk.mk m g n o pre salt post b).saltText ++ u) ∧ ∀ m g n o b, Greedy (MxtChunk.mk m g n o pre salt post b) u := by
  obtain ⟨n, u, rfl, h2⟩ := split_spaces q
  cases n with
  | zero => exact ⟨0, [], 0, u, by simp [Words], fun _ _ _ _ _ => by simp [MxtChunk.saltText, spaces], fun _ _ _ _ _ => ⟨h2, fun _ h => absurd rfl h, fun h => absurd rfl h⟩⟩
  | succ n =>
    obtain ⟨x, v, rfl, hx, hv⟩ := split_words u
    by_cases h0 : x = []
    · subst h0
      exact ⟨n + 1, [], 0, v, hx, fun _ _ _ _ _ => by simp [MxtChunk.saltText], fun _ _ _ _ _ => ⟨h2, fun _ _ => hv, fun h => absurd rfl h⟩⟩
    · obtain ⟨k, w, rfl, hw⟩ := split_spaces v
      refine ⟨n, x, k, w, hx, fun _ _ _ _ _ => by simp [MxtChunk.saltText, h0], fun _ _ _ _ _ => ⟨hw, fun h => absurd h h0, fun _ hk => ?_⟩⟩
      have hk : k = 0 := hk
      subst hk
      exact hv

/-! ### chunks -/

/-- A line break. -/
def Breaks (q : List Char) : Prop := ∃ l u, q = nl l ++ u

/-- The text begins with a header that is followed by the end of the text or a line break. -/
def Starts (q : List Char) : Prop := ∃ ch : MxtChunk, ch.Head ∧ ∃ u, q = headText ch ++ u ∧ (u = [] ∨ Breaks u)

/-- The place where the content ends. -/
theorem split_content (hj : j 0 = encText x) : ∀ u : List Char, ∃ cs q, u = cs ++ q ∧ Ends j q ∧ ∀ a b, cs = a ++ b → b ≠ [] → NoNext j (b ++ q)
  | [] => ⟨[], [], rfl, .inl rfl, fun a b e hb => absurd (List.append_eq_nil_iff.mp e.symm).2 hb⟩
  | c :: u => by
    by_cases he : Ends j (c :: u)
    · exact ⟨[], c :: u, rfl, he, fun a b e hb => absurd (List.append_eq_nil_iff.mp e.symm).2 hb⟩
    · obtain ⟨cs, q, h1, h2, h3⟩ := split_content hj u
      refine ⟨c :: cs, q, by rw [h1]; rfl, h2, fun a b e hb => ?_⟩
      cases a with
      | nil =>
        rw [← List.nil_append b, ← e, List.cons_append, ← h1]
        intro l v hv hp
        rw [hj] at hp
        obtain ⟨w, hw⟩ := hp
        obtain ⟨vs, h4, _⟩ := encText_split hw.symm
        exact he (.inr ⟨l, x, vs, by rw [hv, h4], hj⟩)
      | cons d a =>
        simp only [List.cons_append, List.cons.injEq] at e
        exact h3 a b e.2 hb

theorem noNext_of (hj : j 0 = encText x) (hn : ¬ Ends j q) : NoNext j q := by
  intro l v hv hp
  rw [hj] at hp
  obtain ⟨w, hw⟩ := hp
  obtain ⟨vs, h4, _⟩ := encText_split hw.symm
  exact hn (.inr ⟨l, x, vs, by rw [hv, h4], hj⟩)

theorem after_text (ch : MxtChunk) (hj : j 0 = encText x) : ∃ y, after ch j 0 = encText y := by
  unfold after
  split
  · exact ⟨x, hj⟩
  · exact ⟨ch.salt, by simp [upd]⟩

/-- A text that begins with a header begins with a chunk. -/
theorem chunk_ex (hj : j 0 = encText x) (hq : Starts q) : ∃ (ch : MxtChunk) (u : List Char), ch.Head ∧ q = ch.text ++ u ∧ Ends (after ch j) u ∧ Clean (after ch j) ch u := by
  obtain ⟨ch, hc, u, rfl, hu⟩ := hq
  obtain ⟨y, hy⟩ := after_text ch hj
  by_cases he : Ends (after ch j) u
  · refine ⟨{ ch with body := none }, u, ⟨hc.mark, hc.name, hc.salt, hc.name_ne, hc.note_head, hc.first⟩, ?_, he, fun a b e hb => absurd (List.append_eq_nil_iff.mp e.symm).2 hb⟩
    rw [text_eq]
    simp [MxtChunk.bodyText, headText, lead, MxtChunk.saltText]
  · rcases hu with rfl | ⟨l, u, rfl⟩
    · exact absurd (.inl rfl) he
    · obtain ⟨cs, q, rfl, h1, h2⟩ := split_content hy u
      refine ⟨{ ch with body := some (l, cs) }, q, ⟨hc.mark, hc.name, hc.salt, hc.name_ne, hc.note_head, hc.first⟩, ?_, h1, fun a b e hb => ?_⟩
      · rw [text_eq]
        simp [MxtChunk.bodyText, headText, lead, MxtChunk.saltText]
      · have e : nl l ++ cs = a ++ b := e
        show NoNext (after ch j) (b ++ q)
        have h0 := noNext_of hy he
        rcases List.append_eq_append_iff.mp e with ⟨w, h3, h4⟩ | ⟨w, h3, h4⟩
        · exact h2 w b h4 hb
        · cases l with
          | false =>
            cases a with
            | nil =>
              rw [← List.nil_append b, ← e]
              simpa using h0
            | cons d a =>
              simp only [nl, Bool.false_eq_true, if_false, List.cons_append, List.cons.injEq] at h3
              obtain ⟨h3, h5⟩ := List.append_eq_nil_iff.mp h3.2.symm
              subst h5
              exact h2 [] b (by simpa using h4.symm) hb
          | true =>
            match a, h3, e with
            | [], h3, e =>
              rw [← List.nil_append b, ← e]
              simpa using h0
            | [d], h3, e =>
              simp only [nl, if_true, List.cons_append, List.nil_append, List.cons.injEq] at h3
              obtain ⟨rfl, h5⟩ := h3
              rw [h4, ← h5]
              intro l' v hv hp
              cases l' with
              | true => simp [nl] at hv
              | false =>
                refine h0 true v ?_ hp
                simp only [nl, Bool.false_eq_true, if_false, List.cons_append, List.nil_append, List.cons.injEq, true_and] at hv
                simp [nl, hv]
            | d :: d' :: a, h3, e =>
              simp only [nl, if_true, List.cons_append, List.cons.injEq] at h3
              obtain ⟨h5, h6⟩ := List.append_eq_nil_iff.mp h3.2.2.symm
              subst h6
              exact h2 [] b (by simpa using h4.symm) hb

/-- A marker and a name. -/
structure Named (q mark : List Char) (gap : Nat) (name u : List Char) : Prop where
  text : q = slashes ++ (mark ++ (spaces (gap + 1) ++ (name ++ u)))
  markW : Words mark
  nameW : Words name
  name_ne : name ≠ []
  stop : Stop u

/-- What is noted when a chunk cannot be read: its name, if it gets that far. -/
inductive Half (p q : List Char) : List (Nat × List Char × List Char) → Prop
  | none : (∀ mark gap name u, ¬ Named q mark gap name u) → Half p q []
  | name {mark : List Char} {gap : Nat} {name u : List Char} : Named q mark gap name u → Half p q [(0, p ++ (slashes ++ mark ++ spaces (gap + 1)), name)]

theorem CV.same (b : View) : (CV h p q j M).back b = CV h p q b.jan b.maps := rfl

theorem words_stop {x y u v : List Char} (e : x ++ u = y ++ v) (hx : Words x) (hy : Words y) (hu : Stop u) (hv : Stop v) : x = y ∧ u = v := by
  rcases List.append_eq_append_iff.mp e with ⟨w, rfl, rfl⟩ | ⟨w, rfl, rfl⟩
  · cases w with
    | nil => simp
    | cons d w =>
      have := hu d _ rfl
      have := hy d (by simp)
      omega
  · cases w with
    | nil => simp
    | cons d w =>
      have := hv d _ rfl
      have := hx d (by simp)
      omega

theorem spaces_noSpace {n m : Nat} {u v : List Char} (e : spaces n ++ u = spaces m ++ v) (hu : NoSpace u) (hv : NoSpace v) : n = m ∧ u = v := by
  induction n generalizing m with
  | zero =>
    cases m with
    | zero => exact ⟨rfl, by simpa [spaces] using e⟩
    | succ m => exact absurd e (hu (spaces m ++ v))
  | succ n ih =>
    cases m with
    | zero => exact absurd e.symm (hv (spaces n ++ u))
    | succ m =>
      simp only [spaces, List.replicate_succ, List.cons_append, List.cons.injEq, true_and] at e
      obtain ⟨h1, h2⟩ := ih e
      exact ⟨by rw [h1], h2⟩

theorem manySpace_no (hq : NoSpace q) : Gives rt mapped (.many (.rune ((' ' : Char).toNat))) (CV h p q j M) false (CV h p q j M) :=
  .many_no (CV.rune_no hq (by decide)) (Nat.le_refl _)

theorem header_greedy (ch : MxtChunk) (hc : ch.Head) (hq : Greedy ch q) :
    Gives rt mapped (.rule iHeader) (CV h p (headText ch ++ q) j M) true (CV h (p ++ headText ch) q (after ch j) (M ++ [tk h (0, p ++ lead ch, ch.name)])) := by
  obtain ⟨d, ds, hn, hd⟩ := hc.note_head
  have hstop : Stop (ch.note ++ (arrowText ++ (ch.saltText ++ q))) := by
    intro c u e
    rw [hn] at e
    cases e
    exact hd
  have h1 := marker (rt := rt) (h := h) (p := p) (j := j) (M := M) hc.mark (stop_spaces1 ch.gap (q := ch.name ++ (ch.note ++ (arrowText ++ (ch.saltText ++ q)))))
  have h2 := manySpace (rt := rt) (h := h) (p := p ++ slashes ++ ch.mark) (j := j) (M := M) ch.gap
    (noSpace_words (q := ch.note ++ (arrowText ++ (ch.saltText ++ q))) hc.name hc.name_ne)
  have h3 := name (rt := rt) (h := h) (p := p ++ slashes ++ ch.mark ++ spaces (ch.gap + 1)) (j := j) (M := M) hc.name hc.name_ne hstop
  obtain ⟨a, b, e, hb, hf, h4⟩ := comment (rt := rt) (h := h) (q := ch.saltText ++ q) (j := j)
    (M := M ++ [tk h (0, p ++ slashes ++ ch.mark ++ spaces (ch.gap + 1), ch.name)]) ch.note (p ++ slashes ++ ch.mark ++ spaces (ch.gap + 1) ++ ch.name) hc.first
  have h4' := Gives.rule (i := iComment) (nm := b!"comment") rfl h4
  have h5 := Gives.rule (i := iArrow) (nm := b!"arrow") rfl (arrow_yes (rt := rt) (h := h) (p := p ++ slashes ++ ch.mark ++ spaces (ch.gap + 1) ++ ch.name ++ a)
    (q := ch.saltText ++ q) (j := j) (M := M ++ [tk h (0, p ++ slashes ++ ch.mark ++ spaces (ch.gap + 1), ch.name)]) hf hb)
  have h6 := salt_greedy (rt := rt) (h := h) (p := p ++ slashes ++ ch.mark ++ spaces (ch.gap + 1) ++ ch.name ++ a ++ b ++ arrowText) (j := j)
    (M := M ++ [tk h (0, p ++ slashes ++ ch.mark ++ spaces (ch.gap + 1), ch.name)]) ch hc.salt hq
  have := Gives.rule (i := iHeader) (nm := b!"header") rfl (Gives.seq (.cons h1 (.cons h2 (.cons h3 (.cons h4' (.cons h5 (.cons h6 .nil)))))))
  simpa [headText, lead, e] using this

/-- A text that does not begin with a header and a line break is not read. -/
theorem chunk_no (hq : ¬ Starts q) : ∃ ex j', Half p q ex ∧ Gives rt mapped (.rule iChunk) (CV h p q j M) false (CV h p q j' (M ++ ex.map (tk h))) := by
  -- the header fails without a name
  have early : (∀ mark gap name u, ¬ Named q mark gap name u) → (∃ b, b.jan = j ∧ b.maps = M ∧ GivesSeq rt mapped [.rule iMarker, .many (.rune ((' ' : Char).toNat)), .rule iName, .rule iComment, .rule iArrow, .opt (.rule iSalt)] (CV h p q j M) false b) →
      ∃ ex j', Half p q ex ∧ Gives rt mapped (.rule iChunk) (CV h p q j M) false (CV h p q j' (M ++ ex.map (tk h))) := by
    rintro hn ⟨b, h1, h2, h3⟩
    refine ⟨[], j, .none hn, ?_⟩
    have := Gives.rule (i := iChunk) (nm := b!"chunk") rfl (Gives.seq_no (rs := [.rule iHeader, .any [.rule iEmptyContent, .seq [.rule iNL, .rule iContent]]]) (.fail (Gives.rule (i := iHeader) (nm := b!"header") rfl (Gives.seq_no h3))))
    simpa [View.back, CV, h1, h2] using this
  by_cases h0 : slashes <+: q
  · obtain ⟨q1, rfl⟩ := h0
    obtain ⟨mark, q2, rfl, hm, hs⟩ := split_words q1
    have g1 := marker (rt := rt) (h := h) (p := p) (j := j) (M := M) hm hs
    obtain ⟨gap, q3, rfl, hsp⟩ := split_spaces q2
    -- a marker and a name determine the rest
    have uniq : ∀ mark' gap' name' u', Named (slashes ++ (mark ++ (spaces gap ++ q3))) mark' gap' name' u' → gap = gap' + 1 ∧ q3 = name' ++ u' := by
      intro mark' gap' name' u' hn
      have e := List.append_cancel_left hn.text
      obtain ⟨_, e2⟩ := words_stop e hm hn.markW hs (stop_spaces1 gap')
      exact spaces_noSpace e2 hsp (noSpace_words hn.nameW hn.name_ne)
    cases gap with
    | zero =>
      refine early (fun mark' gap' name' u' hn => ?_) ⟨_, rfl, rfl, .cons g1 (.fail (manySpace_no (by simpa [spaces] using hsp)))⟩
      have := (uniq _ _ _ _ hn).1
      omega
    | succ gap =>
      have g2 := manySpace (rt := rt) (h := h) (p := p ++ slashes ++ mark) (j := j) (M := M) gap hsp
      obtain ⟨name, q4, rfl, hw, hst⟩ := split_words q3
      by_cases hne : name = []
      · subst hne
        refine early (fun mark' gap' name' u' hn => ?_) ⟨CV h (p ++ slashes ++ mark ++ spaces (gap + 1)) ([] ++ q4) j M, rfl, rfl, .cons g1 (.cons g2 (.fail ?_))⟩
        · have e := (uniq _ _ _ _ hn).2
          obtain ⟨e1, _⟩ := words_stop e hw hn.nameW hst hn.stop
          exact hn.name_ne e1.symm
        · have := Gives.rule (i := iName) (nm := b!"name") rfl (Gives.map_no (f := 0) (word_no (rt := rt) (h := h) (p := p ++ slashes ++ mark ++ spaces (gap + 1)) (q := [] ++ q4) (j := j) (M := M) hst))
          exact this
      · have g3 := Mxt.name (rt := rt) (h := h) (p := p ++ slashes ++ mark ++ spaces (gap + 1)) (j := j) (M := M) hw hne hst
        have hN : Named (slashes ++ (mark ++ (spaces (gap + 1) ++ (name ++ q4)))) mark gap name q4 := ⟨rfl, hm, hw, hne, hst⟩
        rcases split_arrow q4 with hna | ⟨note, q5, rfl, hf⟩
        · refine ⟨_, j, .name hN, ?_⟩
          have g4 := Gives.rule (i := iComment) (nm := b!"comment") rfl (comment_none (rt := rt) (h := h) (j := j) (M := M ++ [tk h (0, p ++ slashes ++ mark ++ spaces (gap + 1), name)]) q4 (p ++ slashes ++ mark ++ spaces (gap + 1) ++ name) hna)
          have := Gives.rule (i := iChunk) (nm := b!"chunk") rfl (Gives.seq_no (rs := [.rule iHeader, .any [.rule iEmptyContent, .seq [.rule iNL, .rule iContent]]]) (.fail (Gives.rule (i := iHeader) (nm := b!"header") rfl (Gives.seq_no (rs := [.rule iMarker, .many (.rune ((' ' : Char).toNat)), .rule iName, .rule iComment, .rule iArrow, .opt (.rule iSalt)])
            (.cons g1 (.cons g2 (.cons g3 (.fail g4))))))))
          simpa [View.back, CV] using this
        · obtain ⟨pre, salt, post, u, hsw, hse, hgr⟩ := split_salt q5
          obtain ⟨ch, rfl, rfl, rfl, rfl, hch, hg, hsa⟩ : ∃ ch : MxtChunk, mark = ch.mark ∧ gap = ch.gap ∧ name = ch.name ∧ note = ch.note ∧ q5 = ch.saltText ++ u ∧ Greedy ch u ∧ Words ch.salt :=
            ⟨⟨mark, gap, name, note, pre, salt, post, none⟩, rfl, rfl, rfl, rfl, hse _ _ _ _ _, hgr _ _ _ _ _, hsw⟩
          subst hch
          have hc : ch.Head := ⟨hm, hw, hsa, hne, by
            cases hn : ch.note with
            | nil =>
              rw [hn] at hst
              exact absurd (hst '-' ('-' :: '>' :: (ch.saltText ++ u)) rfl) (by decide)
            | cons d ds => exact ⟨d, ds, rfl, hst d (ds ++ (arrowText ++ (ch.saltText ++ u))) (by rw [hn]; rfl)⟩, hf⟩
          have hu : ¬ (u = [] ∨ Breaks u) := fun hu => hq ⟨ch, hc, u, by simp [headText, lead], hu⟩
          rw [not_or] at hu
          have g4 := header_greedy (rt := rt) (h := h) (p := p) (j := j) (M := M) ch hc hg
          have g5 : Gives rt mapped (.rule iNL) (CV h (p ++ headText ch) u (after ch j) (M ++ [tk h (0, p ++ lead ch, ch.name)])) false (CV h (p ++ headText ch) u (after ch j) (M ++ [tk h (0, p ++ lead ch, ch.name)])) :=
            nl_no fun l v e => hu.2 ⟨l, v, e⟩
          have g6 : Gives rt mapped (.rule iEmptyContent) (CV h (p ++ headText ch) u (after ch j) (M ++ [tk h (0, p ++ lead ch, ch.name)])) false (CV h (p ++ headText ch) u (after ch j) (M ++ [tk h (0, p ++ lead ch, ch.name)])) := by
            refine .rule (nm := b!"empty-content") rfl (.map_no (b := CV h (p ++ headText ch) u (after ch j) (M ++ [tk h (0, p ++ lead ch, ch.name)])) (.any_no (b := CV h (p ++ headText ch) u (after ch j) (M ++ [tk h (0, p ++ lead ch, ch.name)])) ?_))
            exact .next (CV.atEnd_no hu.1) (.next (.at_ (next_no fun l v e => absurd ⟨l, _, e⟩ hu.2)) .nil)
          have g7 : Gives rt mapped (.any [.rule iEmptyContent, .seq [.rule iNL, .rule iContent]]) (CV h (p ++ headText ch) u (after ch j) (M ++ [tk h (0, p ++ lead ch, ch.name)])) false (CV h (p ++ headText ch) u (after ch j) (M ++ [tk h (0, p ++ lead ch, ch.name)])) :=
            .any_no (b := CV h (p ++ headText ch) u (after ch j) (M ++ [tk h (0, p ++ lead ch, ch.name)])) (.next g6 (.next (Gives.seq_no (.fail g5)) .nil))
          have e : slashes ++ (ch.mark ++ (spaces (ch.gap + 1) ++ (ch.name ++ (ch.note ++ (arrowText ++ (ch.saltText ++ u)))))) = headText ch ++ u := by simp [headText, lead]
          refine ⟨_, after ch j, .name hN, ?_⟩
          rw [e]
          exact .rule (nm := b!"chunk") rfl (Gives.seq_no (b := CV h (p ++ headText ch) u (after ch j) (M ++ [tk h (0, p ++ lead ch, ch.name)])) (.cons g4 (.fail g7)))
  · refine early (fun mark gap name u hn => h0 ⟨_, hn.text.symm⟩) ⟨_, rfl, rfl, .fail (?_ : Gives rt mapped (.rule iMarker) (CV h p q j M) false (CV h p q j M))⟩
    exact .rule (nm := b!"marker") rfl (Gives.seq_no (rs := [.lit (encText slashes), .zom (.rule iWordChar)]) (.fail (CV.lit_no h0)))

/-! ### documents -/

theorem header_eq (ch : MxtChunk) : ch.header = headText ch := by simp [MxtChunk.header, headText, lead]

theorem starts_iff : MxtStarts q ↔ Starts q := by
  unfold MxtStarts Starts Breaks
  simp only [header_eq]

theorem named_of {mark name u : List Char} {gap : Nat} (hn : Named q mark gap name u) : MxtNamed q name :=
  ⟨mark, gap, u, hn.text, hn.markW, hn.nameW, hn.name_ne, hn.stop⟩

theorem named_ex {name : List Char} (hn : MxtNamed q name) : ∃ mark gap u, Named q mark gap name u := by
  obtain ⟨mark, gap, u, h1, h2, h3, h4, h5⟩ := hn
  exact ⟨mark, gap, u, h1, h2, h3, h4, h5⟩

theorem ok_of (ch : MxtChunk) (hc : ch.Head) (hj : j 0 = encText ch.salt) (hn : Clean j ch q) : ch.Ok := by
  refine ⟨hc, fun l cs hb pre post e => ?_⟩
  have := hn pre ('\n' :: '/' :: '/' :: ch.salt ++ post) (by rw [MxtChunk.bodyText, hb]; simpa using e) (by simp) false (ch.salt ++ post ++ q) (by simp [nl, slashes])
  exact this (by rw [hj, List.append_assoc, encText_append]; exact List.prefix_append _ _)

/-- What follows a chunk. -/
theorem rest_total : ∀ (n : Nat) (q : List Char) (ch : MxtChunk) (p : List Char) (j : Nat → Bytes) (M : List (Nat × Token)), q.length ≤ n → ch.Head → j 0 = encText ch.salt → Ends j q → Clean j ch q →
    ∃ cs rest ex j', q = mxtRest cs ++ rest ∧ MxtOk ch cs ∧ MxtTail (mxtLast ch cs) rest ∧
      ((rest = [] ∧ ex = []) ∨ ∃ l q', rest = nl l ++ q' ∧ Half (p ++ mxtRest cs ++ nl l) q' ex) ∧
      Gives rt mapped (.zom (.seq [.rule iNL, .rule iChunk])) (CV h p q (fin j q) M) true (CV h (p ++ mxtRest cs) rest j' (M ++ (restPicks p cs ++ ex).map (tk h))) := by
  intro n
  induction n with
  | zero =>
    intro q ch p j M hl hc hj he hn
    have hq : q = [] := List.eq_nil_of_length_eq_zero (by omega)
    subst hq
    refine ⟨[], [], [], j, rfl, ok_of ch hc hj hn, .inl rfl, .inl ⟨rfl, rfl⟩, ?_⟩
    have h1 := nl_no (rt := rt) (h := h) (p := p) (q := []) (j := j) (M := M) (fun l u e => nl_ne l e.symm)
    have := Gives.zom_stop (Gives.seq_no (rs := [.rule iNL, .rule iChunk]) (.fail h1))
    simpa [mxtRest, restPicks, View.back, CV, fin] using this
  | succ n ih =>
    intro q ch p j M hl hc hj he hn
    by_cases h0 : q = []
    · subst h0
      exact ih [] ch p j M (by simp) hc hj he hn |>.imp fun _ h => h
    obtain ⟨l, x, u, hq, hx⟩ := he.resolve_left h0
    have hx' : x = ch.salt := encText_inj (by rw [← hx, hj])
    subst hx'
    have hfin : fin j q = upd j 0 [] := by rw [fin, if_neg h0]
    have hf0 : (upd j 0 []) 0 = encText [] := by simp [upd]; rfl
    by_cases hs : Starts (slashes ++ (ch.salt ++ u))
    · obtain ⟨d, q', hd, hdq, hE, hC⟩ := chunk_ex hf0 hs
      have hda : after d (upd j 0 []) 0 = encText d.salt := after_zero d hf0
      have hlen : q'.length ≤ n := by
        have e1 := congrArg List.length hdq
        rw [hq] at hl
        have : 0 < (nl l).length := by cases l <;> simp [nl]
        simp only [List.length_append] at hl e1
        omega
      have g1 := chunk (rt := rt) (h := h) (M := M) d (p ++ nl l) hd hE hC
      obtain ⟨cs, rest, ex, j', e1, e2, e3, e4, e5⟩ := ih q' d (p ++ nl l ++ d.text) (after d (upd j 0 [])) (M ++ (picks (p ++ nl l) d).map (tk h)) hlen hd hda hE hC
      have hb : ch.Before l d := by
        constructor
        · have e := List.append_cancel_left (hdq.trans (by rw [MxtChunk.text, List.append_assoc] : d.text ++ q' = slashes ++ _))
          rw [List.append_assoc] at e
          rcases List.append_eq_append_iff.mp e with ⟨w, h1, _⟩ | ⟨w, h1, h2⟩
          · exact ⟨w, h1.symm⟩
          · cases w with
            | nil => exact ⟨[], by rw [h1]; simp⟩
            | cons a w =>
              simp only [spaces, List.replicate_succ, List.cons_append, List.append_assoc, List.cons.injEq] at h2
              have := hc.salt a (by rw [h1]; simp)
              rw [← h2.1] at this
              exact absurd this (by decide)
        · rintro l' cs' hb rfl hlast
          obtain ⟨ys, rfl⟩ := List.getLast?_eq_some_iff.mp hlast
          have := hn (nl l' ++ ys) ['\r'] (by simp [MxtChunk.bodyText, hb]) (by simp) true (ch.salt ++ u) (by rw [hq]; simp [nl])
          exact this (by rw [hj, encText_append]; exact List.prefix_append _ _)
      refine ⟨(l, d) :: cs, rest, ex, j', ?_, ⟨ok_of ch hc hj hn, hb, e2⟩, e3, ?_, ?_⟩
      · rw [hq, hdq, e1]; simp [mxtRest]
      · simpa [mxtRest] using e4
      · rw [hfin, hq, hdq]
        have := Gives.zom_step (.seq (.cons (nl_yes (rt := rt) (h := h) (p := p) (j := upd j 0 []) (M := M) l) (.cons g1 .nil))) e5
        simpa [mxtRest, restPicks] using this
    · obtain ⟨ex, j', e1, e2⟩ := chunk_no (rt := rt) (h := h) (p := p ++ nl l) (j := upd j 0 []) (M := M) hs
      refine ⟨[], q, ex, j', rfl, ok_of ch hc hj hn, .inr ⟨l, u, hq, fun h => hs (starts_iff.mp h)⟩, .inr ⟨l, _, hq, by simpa [mxtRest] using e1⟩, ?_⟩
      have := Gives.zom_stop (Gives.seq_no (rs := [.rule iNL, .rule iChunk]) (.cons (nl_yes (rt := rt) (h := h) (p := p) (j := upd j 0 []) (M := M) l) (.fail e2)))
      rw [hfin, hq]
      simpa [mxtRest, restPicks, View.back, CV] using this

/-- A text that begins with a header is read. -/
theorem total_yes (hj : j 0 = []) (hq : Starts q) : ∃ ch cs rest ex j', q = ch.text ++ (mxtRest cs ++ rest) ∧ MxtOk ch cs ∧ MxtTail (mxtLast ch cs) rest ∧
    ((rest = [] ∧ ex = []) ∨ ∃ l q', rest = nl l ++ q' ∧ Half (ch.text ++ mxtRest cs ++ nl l) q' ex) ∧
    Gives rt mapped Mxt.reader (CV h [] q j M) true (CV h (ch.text ++ mxtRest cs) rest j' (M ++ (picks [] ch ++ restPicks ch.text cs ++ ex).map (tk h))) := by
  obtain ⟨ch, q', hc, rfl, hE, hC⟩ := chunk_ex (x := []) hj hq
  have g1 := chunk (rt := rt) (h := h) (M := M) ch [] hc hE hC
  obtain ⟨cs, rest, ex, j', e1, e2, e3, e4, e5⟩ := rest_total (rt := rt) (h := h) q'.length q' ch ch.text (after ch j) (M ++ (picks [] ch).map (tk h)) (Nat.le_refl _) hc (after_zero ch hj) hE hC
  refine ⟨ch, cs, rest, ex, j', by rw [e1], e2, e3, e4, ?_⟩
  have := Gives.grammar (w := b!"mxt") (Gives.rule (i := iChunks) (nm := b!"chunks") rfl (Gives.seq (.cons g1 (.cons e5 .nil))))
  simpa [Mxt.reader] using this

/-- A text that does not is not. -/
theorem total_no (hq : ¬ Starts q) : ∃ ex j', Half [] q ex ∧ Gives rt mapped Mxt.reader (CV h [] q j M) false (CV h [] q j' (M ++ ex.map (tk h))) := by
  obtain ⟨ex, j', e1, e2⟩ := chunk_no (rt := rt) (h := h) (p := []) (j := j) (M := M) hq
  exact ⟨ex, j', e1, Gives.grammar (w := b!"mxt") (Gives.rule (i := iChunks) (nm := b!"chunks") rfl (Gives.seq_no (.fail e2)))⟩

end Mxt
end Tok
