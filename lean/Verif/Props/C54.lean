/-
C54 The MXT grammar yields names and contents.
-/
import Verif.Props.C53
import Verif.Proofs.Search
import Verif.Spec.Mxt

namespace Tok
open Spec

/-! ### views of characters -/

/-- The characters before and behind the position. -/
def CV (h : Bytes) (p q : List Char) (j : Nat → Bytes) (M : List (Nat × Token)) : View := ⟨h ++ encText p, encText q, j, M⟩

namespace CV
variable {rt : Rt} {G : Env} {h : Bytes} {p q x : List Char} {c d : Char} {j : Nat → Bytes} {M : List (Nat × Token)}

theorem snoc : CV h (p ++ [c]) q j M = ⟨h ++ encText p ++ enc c, encText q, j, M⟩ := by
  simp [CV, encText_append, encText_singleton]

theorem cons : CV h p (c :: q) j M = ⟨h ++ encText p, enc c ++ encText q, j, M⟩ := by
  simp [CV, encText_cons]

theorem lit : Gives rt G (.lit (encText x)) (CV h p (x ++ q) j M) true (CV h (p ++ x) q j M) := by
  have := Gives.lit (rt := rt) (G := G) (x := encText x) (h := h ++ encText p) (t := encText q) (j := j) (M := M)
  simpa [CV, encText_append] using this

theorem lit_no (hn : ¬ x <+: q) : Gives rt G (.lit (encText x)) (CV h p q j M) false (CV h p q j M) := by
  refine .lit_no fun ⟨u, hu⟩ => hn ?_
  obtain ⟨vs, h1, _⟩ := encText_split hu.symm
  exact ⟨vs, h1.symm⟩

theorem rune : Gives rt G (.rune c.toNat) (CV h p (c :: q) j M) true (CV h (p ++ [c]) q j M) := by
  rw [snoc, cons]; exact .rune

theorem rune_no (hn : ∀ u, q ≠ c :: u) (hc : c.toNat ≠ 0xFFFD) : Gives rt G (.rune c.toNat) (CV h p q j M) false (CV h p q j M) := by
  cases q with
  | nil => exact Lua.rune_end hc
  | cons d q =>
    rw [cons]
    exact .rune_no fun e => hn q (by rw [e])

theorem janusEnd {id : Nat} {nm : Bytes} (hj : j id = encText x) :
    Gives rt G (.janusEnd id nm) (CV h p (x ++ q) j M) true (CV h (p ++ x) q (upd j id []) M) := by
  have := Gives.janusEnd (rt := rt) (G := G) (id := id) (nm := nm) (h := h ++ encText p) (t := encText q) (M := M) hj
  simpa [CV, encText_append] using this

theorem janusEnd_no {id : Nat} {nm : Bytes} (hj : j id = encText x) (hn : ¬ x <+: q) :
    Gives rt G (.janusEnd id nm) (CV h p q j M) false (CV h p q j M) := by
  refine .janusEnd_no fun ⟨u, hu⟩ => hn ?_
  rw [hj] at hu
  obtain ⟨vs, h1, _⟩ := encText_split hu.symm
  exact ⟨vs, h1.symm⟩

theorem atEnd : Gives rt G .atEnd (CV h p [] j M) true (CV h p [] j M) := Gives.atEnd

theorem atEnd_no (hq : q ≠ []) : Gives rt G .atEnd (CV h p q j M) false (CV h p q j M) := by
  cases q with
  | nil => exact absurd rfl hq
  | cons d q => exact Gives.atEnd_no (encText_ne_nil d q)

theorem rest_ne : (CV h p (c :: q) j M).rest ≠ [] := encText_ne_nil c q

end CV

/-! ### the grammar with its three maps (grammar/mxt_test.go:124-134) -/

namespace Mxt
open Spec.Mxt

/-- The rules after `r.Name.Map(…)`, `r.EmptyContent.Map(…)` and `r.Content.Map(…)`; the functions are numbered. -/
def mapped : Env := ((Mxt.env.modify iName (Rule.map 0)).modify iEmptyContent (Rule.map 1)).modify iContent (Rule.map 2)

variable {rt : Rt} {h : Bytes} {p q x z : List Char} {c d : Char} {j : Nat → Bytes} {M : List (Nat × Token)}

/-- The text does not go on with a word character. -/
def Stop (q : List Char) : Prop := ∀ c u, q = c :: u → c.toNat < 0x21

theorem char_le (c : Char) : (c.toNat : Int) ≤ maxRune := by
  have := c.valid
  simp only [UInt32.isValidChar, Nat.isValidChar] at this
  have h2 : c.toNat = c.val.toNat := rfl
  simp only [maxRune]
  omega

theorem wordChar (hc : 0x21 ≤ c.toNat) : Gives rt mapped (.rule iWordChar) (CV h p (c :: q) j M) true (CV h (p ++ [c]) q j M) := by
  rw [CV.snoc, CV.cons]
  exact .rule (nm := b!"wordchar") rfl (.between (by omega) (char_le c))

theorem wordChar_no (hq : Stop q) : Gives rt mapped (.rule iWordChar) (CV h p q j M) false (CV h p q j M) := by
  refine .rule (nm := b!"wordchar") rfl ?_
  cases q with
  | nil => exact .between_end
  | cons c q =>
    rw [CV.cons]
    have := hq c q rfl
    exact .between_no (.inl (by omega))

theorem zomWord : ∀ (x p : List Char), Words x → Stop q → Gives rt mapped (.zom (.rule iWordChar)) (CV h p (x ++ q) j M) true (CV h (p ++ x) q j M)
  | [], p, _, hq => by simpa using Gives.zom_stop (wordChar_no (rt := rt) (h := h) (p := p) (j := j) (M := M) hq)
  | c :: x, p, hx, hq => by
    have ih := zomWord x (p ++ [c]) (fun d hd => hx d (List.mem_cons_of_mem _ hd)) hq
    have := Gives.zom_step (wordChar (rt := rt) (h := h) (p := p) (q := x ++ q) (j := j) (M := M) (hx c (by simp))) ih
    simpa using this

theorem grow {x : List Char} (hx : x ≠ []) : (CV h p (x ++ q) j M).head.length < (CV h (p ++ x) q j M).head.length := by
  cases x with
  | nil => exact absurd rfl hx
  | cons c x =>
    have : 0 < (enc c).length := by
      have := enc_ne_nil c
      cases h : enc c with
      | nil => exact absurd h this
      | cons _ _ => simp
    simp [CV, encText_append, encText_cons]; omega

theorem word (hx : Words x) (hne : x ≠ []) (hq : Stop q) : Gives rt mapped (.rule iWord) (CV h p (x ++ q) j M) true (CV h (p ++ x) q j M) :=
  .rule (nm := b!"word") rfl (.many (zomWord x p hx hq) (grow hne))

theorem word_no (hq : Stop q) : Gives rt mapped (.rule iWord) (CV h p q j M) false (CV h p q j M) :=
  .rule (nm := b!"word") rfl (.many_no (wordChar_no hq) (Nat.le_refl _))

/-- No space here. -/
def NoSpace (q : List Char) : Prop := ∀ u, q ≠ ' ' :: u

theorem zomSpace : ∀ (n : Nat) (p : List Char), NoSpace q →
    Gives rt mapped (.zom (.rune ((' ' : Char).toNat))) (CV h p (spaces n ++ q) j M) true (CV h (p ++ spaces n) q j M)
  | 0, p, hq => by simpa [spaces] using Gives.zom_stop (CV.rune_no (rt := rt) (G := mapped) (h := h) (p := p) (j := j) (M := M) hq (by decide))
  | n + 1, p, hq => by
    have ih := zomSpace n (p ++ [' ']) hq
    have := Gives.zom_step (CV.rune (rt := rt) (G := mapped) (h := h) (p := p) (q := spaces n ++ q) (c := ' ') (j := j) (M := M)) ih
    simpa [spaces, List.replicate_succ] using this

theorem manySpace (n : Nat) (hq : NoSpace q) :
    Gives rt mapped (.many (.rune ((' ' : Char).toNat))) (CV h p (spaces (n + 1) ++ q) j M) true (CV h (p ++ spaces (n + 1)) q j M) :=
  .many (zomSpace (n + 1) p hq) (grow (by simp [spaces, List.replicate_succ]))

theorem marker (hx : Words x) (hq : Stop q) : Gives rt mapped (.rule iMarker) (CV h p (slashes ++ (x ++ q)) j M) true (CV h (p ++ slashes ++ x) q j M) :=
  .rule (nm := b!"marker") rfl (.seq (.cons (CV.lit (x := slashes)) (.cons (zomWord x _ hx hq) .nil)))

/-! ### the arrow -/

/-- The arrow behind `z` is the first one. -/
def First (z : List Char) : Prop := ∀ pre post, z ++ arrowText = pre ++ arrowText ++ post → post = []

theorem First.tail (hf : First (c :: z)) : First z := fun pre post he => hf (c :: pre) post (by simp [he])

theorem First.here (hf : First (c :: z)) (q : List Char) : ¬ arrowText <+: (c :: z) ++ (arrowText ++ q) := by
  rintro ⟨u, hu⟩
  match z, hf, hu with
  | [], hf, hu => simp [arrowText] at hu
  | [d], hf, hu => simp [arrowText] at hu
  | d :: e :: z, hf, hu =>
    simp only [arrowText, List.cons_append, List.nil_append, List.cons.injEq] at hu
    obtain ⟨rfl, rfl, rfl, _⟩ := hu
    have := hf [] (z ++ arrowText) (by simp [arrowText])
    simp [arrowText] at this

/-- The words before the arrow, seen by the loop of the body reader. -/
theorem arrowLoop (p0 : List Char) : ∀ (z w : List Char), First z →
    GivesBody rt mapped (.zom (.rule iWordChar)) (.lit b!"-->") (h ++ encText p0) (CV h (p0 ++ w) (z ++ (arrowText ++ q)) j M)
      (if (w ++ z).all (fun c => decide (0x21 ≤ c.toNat)) then some (h ++ encText (p0 ++ (w ++ z))) else none) (CV h (p0 ++ w ++ z ++ arrowText) q j M)
  | [], w, _ => by
    obtain ⟨x, y, hw, hx, hy⟩ : ∃ x y, w = x ++ y ∧ Words x ∧ Stop y ∧ (w.all (fun c => decide (0x21 ≤ c.toNat)) = y.isEmpty) := by
      clear * -
      induction w with
      | nil => exact ⟨[], [], rfl, by simp [Words], by simp [Stop], rfl⟩
      | cons c w ih =>
        obtain ⟨x, y, h1, h2, h3, h4⟩ := ih
        by_cases hc : 0x21 ≤ c.toNat
        · exact ⟨c :: x, y, by simp [h1], by simpa [Words, hc] using h2, h3, by simp [hc, h4]⟩
        · refine ⟨[], c :: w, rfl, by simp [Words], ?_, by simp [hc]⟩
          intro d u e
          cases e
          omega
    have hb := zomWord (rt := rt) (h := []) (j := j) (M := M) x [] hx hy.1
    rw [← hw] at hb
    have h1 := CV.lit (rt := rt) (G := mapped) (x := arrowText) (h := h) (p := p0 ++ w) (q := q) (j := j) (M := M)
    have := GivesBody.here (h0 := h ++ encText p0) (x := encText w) (a := CV h (p0 ++ w) (arrowText ++ q) j M) (tl := .lit b!"-->") CV.rest_ne
      (by simp [CV, encText_append]) h1 (by simpa [CV, encText_nil] using hb)
    have he : (encText y).isEmpty = y.isEmpty := by
      cases y with
      | nil => rfl
      | cons c y => simpa using encText_ne_nil c y
    simpa [CV, he, hy.2, encText_append] using this
  | c :: z, w, hf => by
    have ih := arrowLoop p0 z (w ++ [c]) hf.tail
    have h1 := CV.lit_no (rt := rt) (G := mapped) (h := h) (p := p0 ++ w) (j := j) (M := M) (hf.here q)
    have := GivesBody.step (tl := .lit b!"-->") (h := h ++ encText (p0 ++ w)) (ch := c) (t := encText (z ++ (arrowText ++ q))) (j := j) (M := M)
      (a := CV h (p0 ++ w) (c :: z ++ (arrowText ++ q)) j M) CV.rest_ne
      (by rw [List.cons_append, CV.cons] at h1 ⊢; exact h1) (by rw [← CV.snoc]; simpa using ih)
    simpa using this

theorem words_iff : (z.all fun c => decide (0x21 ≤ c.toNat)) = true ↔ Words z := by simp [Words]

theorem arrow_yes (hf : First z) (hw : Words z) : Gives rt mapped Mxt.arrow (CV h p (z ++ (arrowText ++ q)) j M) true (CV h (p ++ z ++ arrowText) q j M) := by
  have := arrowLoop (rt := rt) (h := h) (q := q) (j := j) (M := M) p z [] hf
  rw [List.nil_append, words_iff.mpr hw, if_pos rfl, List.append_nil] at this
  exact .bodyTail this

theorem arrow_no (hf : First z) (hw : ¬ Words z) : Gives rt mapped Mxt.arrow (CV h p (z ++ (arrowText ++ q)) j M) false (CV h p (z ++ (arrowText ++ q)) j M) := by
  have := arrowLoop (rt := rt) (h := h) (q := q) (j := j) (M := M) p z [] hf
  rw [List.nil_append, if_neg (fun h => hw (words_iff.mp h)), List.append_nil] at this
  exact .bodyTail_no this

/-- The comment goes up to the last word before the arrow. -/
theorem comment : ∀ (z p : List Char), First z → ∃ a b, z = a ++ b ∧ Words b ∧ First b ∧
    Gives rt mapped (.to (.named b!"arrow" Mxt.arrow)) (CV h p (z ++ (arrowText ++ q)) j M) true (CV h (p ++ a) (b ++ (arrowText ++ q)) j M)
  | z, p, hf => by
    by_cases hw : Words z
    · exact ⟨[], z, rfl, hw, hf, by simpa [View.back, CV] using Gives.to_hit (Gives.named (nm := b!"arrow") (arrow_yes (rt := rt) (h := h) (p := p) (q := q) (j := j) (M := M) hf hw))⟩
    · match z, hf, hw with
      | [], _, hw => exact absurd (by simp [Words]) hw
      | c :: z, hf, hw =>
        obtain ⟨a, b, h1, h2, h3, h4⟩ := comment z (p ++ [c]) hf.tail
        refine ⟨c :: a, b, by rw [h1]; rfl, h2, h3, ?_⟩
        have h5 := Gives.named (nm := b!"arrow") (arrow_no (rt := rt) (h := h) (p := p) (q := q) (j := j) (M := M) hf hw)
        rw [CV.snoc] at h4
        have := Gives.to_step (h := h ++ encText p) (ch := c) (t := encText (z ++ (arrowText ++ q))) (j := j) (M := M)
          (a := CV h p (c :: z ++ (arrowText ++ q)) j M) (by rw [List.cons_append, CV.cons] at h5 ⊢; exact h5) h4
        simpa using this

/-! ### the header -/

/-- What the salt of a chunk leaves in the memory: a header without space behind the arrow leaves it as it is. -/
def after (c : MxtChunk) (j : Nat → Bytes) : Nat → Bytes := if c.salt = [] ∧ c.pre = 0 then j else upd j 0 (encText c.salt)

/-- The header ends here. -/
def Eol (q : List Char) : Prop := ∀ c u, q = c :: u → c = '\n' ∨ c = '\r'

theorem Eol.stop (hq : Eol q) : Stop q := by
  intro c u e
  rcases hq c u e with rfl | rfl <;> decide

theorem Eol.noSpace (hq : Eol q) : NoSpace q := by
  intro u e
  rcases hq _ u e with h | h <;> cases h

theorem noSpace_words (hx : Words x) (hne : x ≠ []) : NoSpace (x ++ q) := by
  intro u e
  cases x with
  | nil => exact hne rfl
  | cons d x =>
    cases e
    exact absurd (hx ' ' (by simp)) (by decide)

theorem stop_spaces (n : Nat) (hq : Stop q) : Stop (spaces n ++ q) := by
  cases n with
  | zero => exact hq
  | succ n =>
    intro c u e
    simp only [spaces, List.replicate_succ, List.cons_append, List.cons.injEq] at e
    rw [← e.1]; decide

theorem stop_spaces1 (n : Nat) : Stop (spaces (n + 1) ++ q) := by
  intro c u e
  simp only [spaces, List.replicate_succ, List.cons_append, List.cons.injEq] at e
  rw [← e.1]; decide

theorem salt_yes (ch : MxtChunk) (hs : Words ch.salt) (hq : Eol q) :
    Gives rt mapped (.opt (.rule iSalt)) (CV h p (ch.saltText ++ q) j M) true (CV h (p ++ ch.saltText) q (after ch j) M) := by
  unfold MxtChunk.saltText after
  by_cases h0 : ch.salt = []
  · rw [if_pos h0]
    cases hn : ch.pre with
    | zero =>
      rw [if_pos ⟨h0, rfl⟩]
      have h1 := Gives.many_no (CV.rune_no (rt := rt) (G := mapped) (c := ' ') (h := h) (p := p) (j := j) (M := M) hq.noSpace (by decide)) (Nat.le_refl _)
      have := Gives.opt (Gives.rule (i := iSalt) (nm := b!"salt") rfl (Gives.seq_no (rs := [.many (.rune ((' ' : Char).toNat)), .janusBegin 0 [] (.opt (.rule iWord)), .zom (.rune ((' ' : Char).toNat))]) (.fail h1)))
      simpa [spaces, View.back, CV] using this
    | succ n =>
      rw [if_neg (by simp)]
      have h1 := manySpace (rt := rt) (h := h) (p := p) (j := j) (M := M) n hq.noSpace
      have h2 := Gives.janusBegin (id := 0) (nm := []) (x := []) (Gives.opt (word_no (rt := rt) (h := h) (p := p ++ spaces (n + 1)) (j := j) (M := M) hq.stop)) (by simp)
      have h3 := Gives.zom_stop (CV.rune_no (rt := rt) (G := mapped) (c := ' ') (h := h) (p := p ++ spaces (n + 1)) (j := upd j 0 []) (M := M) hq.noSpace (by decide))
      rw [h0]
      exact .opt (.rule (nm := b!"salt") rfl (.seq (.cons h1 (.cons h2 (.cons h3 .nil)))))
  · rw [if_neg h0, if_neg (fun h => h0 h.1)]
    have h1 := manySpace (rt := rt) (h := h) (p := p) (j := j) (M := M) ch.pre (noSpace_words (q := spaces ch.post ++ q) hs h0)
    have h2 := Gives.janusBegin (id := 0) (nm := []) (x := encText ch.salt)
      (Gives.opt (word (rt := rt) (h := h) (p := p ++ spaces (ch.pre + 1)) (j := j) (M := M) hs h0 (stop_spaces ch.post hq.stop))) (by simp [CV, encText_append])
    have h3 := zomSpace (rt := rt) (h := h) (j := upd j 0 (encText ch.salt)) (M := M) ch.post (p ++ spaces (ch.pre + 1) ++ ch.salt) hq.noSpace
    have := Gives.opt (Gives.rule (i := iSalt) (nm := b!"salt") rfl (Gives.seq (.cons h1 (.cons h2 (.cons h3 .nil)))))
    simpa using this

/-- What a map call notes. -/
def tk (h : Bytes) (e : Nat × List Char × List Char) : Nat × Token :=
  (e.1, ⟨(h ++ encText e.2.1).length, (h ++ encText (e.2.1 ++ e.2.2)).length⟩)

/-- Everything before the name. -/
def lead (c : MxtChunk) : List Char := slashes ++ c.mark ++ spaces (c.gap + 1)

/-- The header. -/
def headText (c : MxtChunk) : List Char := lead c ++ c.name ++ c.note ++ arrowText ++ c.saltText

theorem text_eq (c : MxtChunk) : c.text = headText c ++ c.bodyText := by simp [MxtChunk.text, headText, lead]

theorem name (hx : Words x) (hne : x ≠ []) (hq : Stop q) :
    Gives rt mapped (.rule iName) (CV h p (x ++ q) j M) true (CV h (p ++ x) q j (M ++ [tk h (0, p, x)])) :=
  .rule (nm := b!"name") rfl (.map (word hx hne hq) (Nat.le_of_lt (grow hne)))

theorem header (ch : MxtChunk) (hc : ch.Head) (hq : Eol q) :
    Gives rt mapped (.rule iHeader) (CV h p (headText ch ++ q) j M) true (CV h (p ++ headText ch) q (after ch j) (M ++ [tk h (0, p ++ lead ch, ch.name)])) := by
  obtain ⟨d, ds, hn, hd⟩ := hc.note_head
  have hstop : Stop (ch.note ++ (arrowText ++ (ch.saltText ++ q))) := by
    intro c u e
    rw [hn] at e
    cases e
    exact hd
  have h1 := marker (rt := rt) (h := h) (p := p) (j := j) (M := M) hc.mark (stop_spaces1 ch.gap (q := ch.name ++ (ch.note ++ (arrowText ++ (ch.saltText ++ q)))))
  have h2 := manySpace (rt := rt) (h := h) (p := p ++ slashes ++ ch.mark) (j := j) (M := M) ch.gap
    (noSpace_words (q := ch.note ++ (arrowText ++ (ch.saltText ++ q))) hc.name hc.name_ne)
  have h3 := name (rt := rt) (h := h) (p := p ++ slashes ++ ch.mark ++ spaces (ch.gap + 1)) (j := j) (M := M) hc.name hc.name_ne hstop
  obtain ⟨a, b, e, hb, hf, h4⟩ := comment (rt := rt) (h := h) (q := ch.saltText ++ q) (j := j)
    (M := M ++ [tk h (0, p ++ slashes ++ ch.mark ++ spaces (ch.gap + 1), ch.name)]) ch.note (p ++ slashes ++ ch.mark ++ spaces (ch.gap + 1) ++ ch.name) hc.first
  have h4' := Gives.rule (i := iComment) (nm := b!"comment") rfl h4
  have h5 := Gives.rule (i := iArrow) (nm := b!"arrow") rfl (arrow_yes (rt := rt) (h := h) (p := p ++ slashes ++ ch.mark ++ spaces (ch.gap + 1) ++ ch.name ++ a)
    (q := ch.saltText ++ q) (j := j) (M := M ++ [tk h (0, p ++ slashes ++ ch.mark ++ spaces (ch.gap + 1), ch.name)]) hf hb)
  have h6 := salt_yes (rt := rt) (h := h) (p := p ++ slashes ++ ch.mark ++ spaces (ch.gap + 1) ++ ch.name ++ a ++ b ++ arrowText) (j := j)
    (M := M ++ [tk h (0, p ++ slashes ++ ch.mark ++ spaces (ch.gap + 1), ch.name)]) ch hc.salt hq
  have := Gives.rule (i := iHeader) (nm := b!"header") rfl (Gives.seq (.cons h1 (.cons h2 (.cons h3 (.cons h4' (.cons h5 (.cons h6 .nil)))))))
  simpa [headText, lead, e] using this

/-! ### line breaks and the next marker -/

theorem nl_yes (l : Bool) : Gives rt mapped (.rule iNL) (CV h p (nl l ++ q) j M) true (CV h (p ++ nl l) q j M) := by
  refine .rule (nm := b!"nl") rfl (.any ?_)
  cases l with
  | false => exact .hit (CV.lit (x := ['\n']))
  | true => exact .next (CV.lit_no (x := ['\n']) (by simp [nl])) (.hit (CV.lit (x := ['\r', '\n'])))

theorem nl_no (hq : ∀ l u, q ≠ nl l ++ u) : Gives rt mapped (.rule iNL) (CV h p q j M) false (CV h p q j M) := by
  refine .rule (nm := b!"nl") rfl (.any_no (b := CV h p q j M) ?_)
  exact .next (CV.lit_no (x := ['\n']) fun ⟨u, hu⟩ => hq false u hu.symm) (.next (CV.lit_no (x := ['\r', '\n']) fun ⟨u, hu⟩ => hq true u hu.symm) .nil)

/-- No line break, two slashes and the remembered salt. -/
def NoNext (j : Nat → Bytes) (q : List Char) : Prop := ∀ l u, q = nl l ++ (slashes ++ u) → ¬ j 0 <+: encText u

theorem next_yes (l : Bool) (hj : j 0 = encText x) :
    Gives rt mapped (.rule iNextMarker) (CV h p (nl l ++ (slashes ++ (x ++ q))) j M) true (CV h (p ++ nl l ++ slashes ++ x) q (upd j 0 []) M) :=
  .rule (nm := b!"next-marker") rfl (.seq (.cons (nl_yes l) (.cons (CV.lit (x := slashes)) (.cons (CV.janusEnd hj) .nil))))

theorem next_no (hq : NoNext j q) : Gives rt mapped (.rule iNextMarker) (CV h p q j M) false (CV h p q j M) := by
  refine .rule (nm := b!"next-marker") (r := .seq [.rule iNL, .lit (encText slashes), .janusEnd 0 []]) rfl ?_
  by_cases h1 : ∃ l u, q = nl l ++ u
  · obtain ⟨l, u, rfl⟩ := h1
    by_cases h2 : slashes <+: u
    · obtain ⟨v, rfl⟩ := h2
      refine .seq_no (b := CV h (p ++ nl l ++ slashes) v j M) (.cons (nl_yes l) (.cons CV.lit (.fail (.janusEnd_no (hq l v rfl)))))
    · exact .seq_no (b := CV h (p ++ nl l) u j M) (.cons (nl_yes l) (.fail (CV.lit_no h2)))
  · exact .seq_no (b := CV h p q j M) (.fail (nl_no fun l u e => h1 ⟨l, u, e⟩))

/-! ### the content -/

/-- The end of the text or the next chunk. -/
def Ends (j : Nat → Bytes) (q : List Char) : Prop := q = [] ∨ ∃ l x u, q = nl l ++ (slashes ++ (x ++ u)) ∧ j 0 = encText x

/-- The memory after the content. -/
def fin (j : Nat → Bytes) (q : List Char) : Nat → Bytes := if q = [] then j else upd j 0 []

theorem nl_ne (l : Bool) : nl l ++ x ≠ [] := by cases l <;> simp [nl]

theorem any_ends (he : Ends j q) : ∃ b, Gives rt mapped (.any [.rule iNextMarker, .atEnd]) (CV h p q j M) true b ∧ b.jan = fin j q ∧ b.maps = M := by
  rcases he with rfl | ⟨l, x, u, rfl, hj⟩
  · exact ⟨_, .any (.next (next_no fun l u e => absurd e.symm (nl_ne l)) (.hit CV.atEnd)), rfl, rfl⟩
  · exact ⟨_, .any (.hit (next_yes l hj)), by rw [fin, if_neg (nl_ne l)]; rfl, rfl⟩

theorem content (he : Ends j q) : ∀ (cs p : List Char), (∀ a b, cs = a ++ b → b ≠ [] → NoNext j (b ++ q)) →
    Gives rt mapped (.to (.any [.rule iNextMarker, .atEnd])) (CV h p (cs ++ q) j M) true (CV h (p ++ cs) q (fin j q) M)
  | [], p, _ => by
    obtain ⟨b, h1, h2, h3⟩ := any_ends (rt := rt) (h := h) (p := p) (M := M) he
    have := Gives.to_hit h1
    simpa [View.back, CV, h2, h3] using this
  | c :: cs, p, hn => by
    have ih := content he cs (p ++ [c]) (fun a b e => hn (c :: a) b (by rw [e]; rfl))
    have h1 : Gives rt mapped (.any [.rule iNextMarker, .atEnd]) (CV h p (c :: cs ++ q) j M) false (CV h p (c :: cs ++ q) j M) :=
      .any_no (b := CV h p (c :: cs ++ q) j M) (.next (next_no (hn [] _ rfl (by simp))) (.next (CV.atEnd_no (by simp)) .nil))
    rw [CV.snoc] at ih
    have := Gives.to_step (h := h ++ encText p) (ch := c) (t := encText (cs ++ q)) (j := j) (M := M)
      (a := CV h p (c :: cs ++ q) j M) (by rw [List.cons_append, CV.cons] at h1 ⊢; exact h1) ih
    simpa using this

/-- What is noted for the body of a chunk. -/
def bodyPick (p : List Char) (c : MxtChunk) : Nat × List Char × List Char :=
  match c.body with
  | none => (1, p ++ headText c, [])
  | some (l, cs) => (2, p ++ headText c ++ nl l, cs)

def picks (p : List Char) (c : MxtChunk) : List (Nat × List Char × List Char) := [(0, p ++ lead c, c.name), bodyPick p c]

/-- The body of the chunk stops nowhere. -/
def Clean (j : Nat → Bytes) (c : MxtChunk) (q : List Char) : Prop := ∀ a b, c.bodyText = a ++ b → b ≠ [] → NoNext j (b ++ q)

theorem body (ch : MxtChunk) (p : List Char) (he : Ends j q) (hn : Clean j ch q) :
    Gives rt mapped (.any [.rule iEmptyContent, .seq [.rule iNL, .rule iContent]]) (CV h (p ++ headText ch) (ch.bodyText ++ q) j M) true
      (CV h (p ++ ch.text) q (fin j q) (M ++ [tk h (bodyPick p ch)])) := by
  rw [text_eq, ← List.append_assoc]
  unfold Clean at hn
  unfold MxtChunk.bodyText bodyPick at *
  generalize p ++ headText ch = p' at *
  cases hb : ch.body with
  | none =>
    simp only [hb] at hn ⊢
    have h1 : Gives rt mapped (.any [.atEnd, .at_ (.rule iNextMarker)]) (CV h p' q j M) true (CV h p' q (fin j q) M) := by
      rcases he with rfl | ⟨l, x, u, rfl, hj⟩
      · exact .any (.hit CV.atEnd)
      · rw [fin, if_neg (nl_ne l)]
        exact .any (.next (CV.atEnd_no (nl_ne l)) (.hit (.at_ (next_yes l hj))))
    have := Gives.any (rs := [.rule iEmptyContent, .seq [.rule iNL, .rule iContent]]) (.hit (Gives.rule (i := iEmptyContent) (nm := b!"empty-content") rfl (Gives.map (f := 1) h1 (Nat.le_refl _))))
    simpa [tk, CV] using this
  | some lc =>
    obtain ⟨l, cs⟩ := lc
    simp only [hb] at hn ⊢
    have h1 : Gives rt mapped (.rule iEmptyContent) (CV h p' (nl l ++ cs ++ q) j M) false (CV h p' (nl l ++ cs ++ q) j M) := by
      have h0 : nl l ++ cs ++ q ≠ [] := by rw [List.append_assoc]; exact nl_ne l
      refine .rule (nm := b!"empty-content") rfl (.map_no (b := CV h p' (nl l ++ cs ++ q) j M) (.any_no (b := CV h p' (nl l ++ cs ++ q) j M) ?_))
      exact .next (CV.atEnd_no h0) (.next (.at_ (next_no (hn [] _ rfl (nl_ne l)))) .nil)
    have h2 := content (rt := rt) (h := h) (M := M) he cs (p' ++ nl l) (fun a b e => hn (nl l ++ a) b (by rw [e, List.append_assoc]))
    have h3 := Gives.rule (i := iContent) (nm := b!"content") rfl (Gives.map (f := 2) h2 (by simp [CV, encText_append]))
    have h4 := Gives.seq (.cons (nl_yes (rt := rt) (h := h) (p := p') (q := cs ++ q) (j := j) (M := M) l) (.cons h3 .nil))
    have := Gives.any (.next h1 (.hit (rs := []) (by rw [List.append_assoc]; exact h4)))
    simpa [tk, CV] using this

theorem chunk (ch : MxtChunk) (p : List Char) (hc : ch.Head) (he : Ends (after ch j) q) (hn : Clean (after ch j) ch q) :
    Gives rt mapped (.rule iChunk) (CV h p (ch.text ++ q) j M) true (CV h (p ++ ch.text) q (fin (after ch j) q) (M ++ (picks p ch).map (tk h))) := by
  have hq : Eol (ch.bodyText ++ q) := by
    intro c u e
    unfold MxtChunk.bodyText at e
    have hl : ∀ l x, nl l ++ x = c :: u → c = '\n' ∨ c = '\r' := by
      intro l x e
      cases l <;> simp [nl] at e <;> simp [← e.1]
    cases hb : ch.body with
    | some lc =>
      rw [hb] at e
      exact hl lc.1 (lc.2 ++ q) (by simpa using e)
    | none =>
      rw [hb] at e
      rcases he with rfl | ⟨l, x, v, rfl, _⟩
      · cases e
      · exact hl l _ e
  have h1 := header (rt := rt) (h := h) (p := p) (j := j) (M := M) ch hc hq
  have h2 := body (rt := rt) (h := h) (M := M ++ [tk h (0, p ++ lead ch, ch.name)]) ch p he hn
  have := Gives.rule (i := iChunk) (nm := b!"chunk") rfl (Gives.seq (.cons h1 (.cons h2 .nil)))
  simpa [picks, text_eq] using this

theorem clean_of (ch : MxtChunk) {x : List Char} (hx : Words x) (hc : ch.Clean x) (hj : j 0 = encText x ∨ x = [])
    (hq : q = [] ∨ ∃ l d u, ch.Before l d ∧ q = nl l ++ (slashes ++ u)) : Clean j ch q := by
  intro a b hab hb l u hu hp
  obtain ⟨l', cs, hbody, he⟩ : ∃ l' cs, ch.body = some (l', cs) ∧ nl l' ++ cs = a ++ b := by
    unfold MxtChunk.bodyText at hab
    cases hbd : ch.body with
    | none => rw [hbd] at hab; exact absurd (List.append_eq_nil_iff.mp hab.symm).2 hb
    | some lc => rw [hbd] at hab; exact ⟨lc.1, lc.2, rfl, hab⟩
  obtain ⟨v, rfl⟩ : ∃ v, u = x ++ v := by
    rcases hj with hj | hj
    · rw [hj] at hp
      obtain ⟨w, hw⟩ := hp
      obtain ⟨vs, h1, _⟩ := encText_split hw.symm
      exact ⟨vs, h1⟩
    · exact ⟨u, by simp [hj]⟩
  -- a line feed, slashes and salt
  have core : ∀ a b, nl l' ++ cs = a ++ b → b ≠ [] → b ++ q ≠ '\n' :: '/' :: '/' :: x ++ v := by
    intro a b he hb hu
    rcases List.append_eq_append_iff.mp hu with ⟨w, h1, h2⟩ | ⟨w, h1, h2⟩
    · cases w with
      | nil => exact hc l' cs hbody a [] (by rw [he]; simp [h1])
      | cons d w =>
        cases b with
        | nil => exact hb rfl
        | cons e b =>
          simp only [List.cons_append, List.cons.injEq] at h1
          have hm : d ∈ '/' :: '/' :: x := by rw [h1.2]; simp
          have hd : 0x21 ≤ d.toNat := by
            simp only [List.mem_cons] at hm
            rcases hm with rfl | rfl | hm
            · decide
            · decide
            · exact hx d hm
          rcases hq with rfl | ⟨l, _, y, _, rfl⟩
          · simp at h2
          · cases l <;> (simp [nl] at h2; rw [← h2.1] at hd; revert hd; decide)
    · exact hc l' cs hbody a w (by rw [he, h1]; simp)
  cases l with
  | false => exact core a b he hb (by simpa [nl, slashes] using hu)
  | true =>
    cases b with
    | nil => exact hb rfl
    | cons e b =>
      simp only [nl, if_true, List.cons_append, List.cons.injEq] at hu
      obtain ⟨rfl, hu⟩ := hu
      cases b with
      | nil =>
        rcases hq with rfl | ⟨l, d, y, hbef, rfl⟩
        · simp at hu
        · cases l with
          | true => simp [nl] at hu
          | false =>
            have h1 := hbef.break_ l' cs hbody rfl
            have h2 := congrArg List.getLast? he
            cases cs with
            | nil => cases l' <;> simp [nl] at h2
            | cons f cs => exact h1 (by simpa using h2)
      | cons f b => exact core (a ++ ['\r']) (f :: b) (by simpa using he) (by simp) (by simpa [nl, slashes] using hu)

/-! ### documents -/

theorem after_zero (ch : MxtChunk) (hj : j 0 = []) : after ch j 0 = encText ch.salt := by
  unfold after
  split
  · next h => rw [h.1, hj]; rfl
  · simp [upd]

theorem text_slashes (d : MxtChunk) (x : List Char) (hx : x <+: d.mark) : ∃ u, d.text = slashes ++ (x ++ u) := by
  obtain ⟨u, hu⟩ := hx
  exact ⟨_, by rw [MxtChunk.text, ← hu, List.append_assoc]⟩

theorem first (ch : MxtChunk) (cs : List (Bool × MxtChunk)) (p : List Char) (hok : MxtOk ch cs) (ha : after ch j 0 = encText ch.salt) :
    Gives rt mapped (.rule iChunk) (CV h p (ch.text ++ mxtRest cs) j M) true
      (CV h (p ++ ch.text) (mxtRest cs) (fin (after ch j) (mxtRest cs)) (M ++ (picks p ch).map (tk h))) := by
  cases cs with
  | nil => exact chunk ch p hok.toHead (.inl rfl) (clean_of ch hok.salt hok.clean (.inl ha) (.inl rfl))
  | cons lc cs =>
    obtain ⟨l, d⟩ := lc
    obtain ⟨hc, hbef, _⟩ := hok
    obtain ⟨u, hu⟩ := text_slashes d _ hbef.salt
    have e : mxtRest ((l, d) :: cs) = nl l ++ (slashes ++ (ch.salt ++ (u ++ mxtRest cs))) := by simp [mxtRest, hu]
    rw [e]
    exact chunk ch p hc.toHead (.inr ⟨l, ch.salt, _, rfl, ha⟩) (clean_of ch hc.salt hc.clean (.inl ha) (.inr ⟨l, d, _, hbef, rfl⟩))

def restPicks (p : List Char) : List (Bool × MxtChunk) → List (Nat × List Char × List Char)
  | [] => []
  | (l, c) :: cs => picks (p ++ nl l) c ++ restPicks (p ++ nl l ++ c.text) cs

theorem rest : ∀ (cs : List (Bool × MxtChunk)) (p : List Char) (j : Nat → Bytes) (M : List (Nat × Token)), (∀ l d ds, cs = (l, d) :: ds → MxtOk d ds ∧ j 0 = []) →
    ∃ j', Gives rt mapped (.zom (.seq [.rule iNL, .rule iChunk])) (CV h p (mxtRest cs) j M) true (CV h (p ++ mxtRest cs) [] j' (M ++ (restPicks p cs).map (tk h)))
  | [], p, j, M, _ => ⟨j, by
      have h1 := nl_no (rt := rt) (h := h) (p := p) (q := []) (j := j) (M := M) (fun l u e => nl_ne l e.symm)
      have := Gives.zom_stop (Gives.seq_no (rs := [.rule iNL, .rule iChunk]) (.fail h1))
      simpa [mxtRest, restPicks, View.back, CV] using this⟩
  | (l, d) :: cs, p, j, M, hok => by
    obtain ⟨hd, hj⟩ := hok l d cs rfl
    have h1 := first (rt := rt) (h := h) (M := M) d cs (p ++ nl l) hd (after_zero d hj)
    obtain ⟨j', h2⟩ := rest cs (p ++ nl l ++ d.text) (fin (after d j) (mxtRest cs)) (M ++ (picks (p ++ nl l) d).map (tk h)) (by
      rintro l' d' ds rfl
      refine ⟨hd.2.2, ?_⟩
      rw [fin, if_neg (by rw [mxtRest]; exact nl_ne l')]
      simp [upd])
    refine ⟨j', ?_⟩
    have := Gives.zom_step (.seq (.cons (nl_yes (rt := rt) (h := h) (p := p) (j := j) (M := M) l) (.cons h1 .nil))) h2
    simpa [mxtRest, restPicks] using this

theorem chunks (ch : MxtChunk) (cs : List (Bool × MxtChunk)) (hok : MxtOk ch cs) (ha : after ch j 0 = encText ch.salt) :
    ∃ j', Gives rt mapped Mxt.reader (CV h [] (ch.text ++ mxtRest cs) j M) true
      (CV h (ch.text ++ mxtRest cs) [] j' (M ++ (picks [] ch ++ restPicks ch.text cs).map (tk h))) := by
  have h1 := first (rt := rt) (h := h) (M := M) ch cs [] hok ha
  obtain ⟨j', h2⟩ := rest (rt := rt) (h := h) cs ch.text (fin (after ch j) (mxtRest cs)) (M ++ (picks [] ch).map (tk h)) (by
    rintro l' d' ds rfl
    refine ⟨hok.2.2, ?_⟩
    rw [fin, if_neg (by rw [mxtRest]; exact nl_ne l')]
    simp [upd])
  refine ⟨j', ?_⟩
  have := Gives.grammar (w := b!"mxt") (Gives.rule (i := iChunks) (nm := b!"chunks") rfl (Gives.seq (.cons h1 (.cons h2 .nil))))
  simpa [Mxt.reader] using this

/-- Every noted piece lies in the text. -/
def In (all : List Char) (e : Nat × List Char × List Char) : Prop := ∃ b, all = e.2.1 ++ e.2.2 ++ b

theorem picks_in (p : List Char) (c : MxtChunk) (u : List Char) : ∀ e ∈ picks p c, In (p ++ (c.text ++ u)) e := by
  intro e he
  simp only [picks, List.mem_cons, List.not_mem_nil, or_false] at he
  rcases he with rfl | rfl
  · exact ⟨c.note ++ arrowText ++ c.saltText ++ c.bodyText ++ u, by simp [text_eq, headText]⟩
  · unfold bodyPick
    rw [text_eq, MxtChunk.bodyText]
    cases c.body with
    | none => exact ⟨u, by simp⟩
    | some lc => exact ⟨u, by simp⟩

theorem restPicks_in : ∀ (cs : List (Bool × MxtChunk)) (p : List Char), ∀ e ∈ restPicks p cs, In (p ++ mxtRest cs) e
  | [], _, _, he => by cases he
  | (l, c) :: cs, p, e, he => by
    rw [restPicks, List.mem_append] at he
    have e1 : p ++ mxtRest ((l, c) :: cs) = p ++ nl l ++ (c.text ++ mxtRest cs) := by simp [mxtRest]
    rw [e1]
    rcases he with he | he
    · exact picks_in _ c _ e he
    · have := restPicks_in cs _ e he
      simpa using this

theorem get_tk {s : Scanner} {all : List Char} (hf : s.full = h ++ encText all) {e : Nat × List Char × List Char} (he : In all e) :
    s.get (tk h e).2 = .ret (encText e.2.2) := by
  obtain ⟨b, rfl⟩ := he
  have e1 : (tk h e).2 = makeToken ((h ++ encText e.2.1).length : Int) ((h ++ encText (e.2.1 ++ e.2.2)).length : Int) := by
    unfold makeToken tk
    rw [if_neg (by simp [encText_append]; omega)]
  rw [e1]
  exact get_between (s := s) (s1 := { s with pos := (h ++ encText e.2.1).length }) (s2 := { s with pos := (h ++ encText (e.2.1 ++ e.2.2)).length })
    (h := h ++ encText e.2.1) (x := encText e.2.2) (u := encText b) ⟨by simp [hf, encText_append], rfl⟩ ⟨by simp [hf, encText_append], by simp [encText_append]⟩ rfl

theorem picks_yields (p : List Char) (c : MxtChunk) : (picks p c).map (fun e => (e.1, e.2.2)) = c.yields := by
  unfold picks bodyPick MxtChunk.yields
  cases c.body <;> rfl

theorem restPicks_yields : ∀ (cs : List (Bool × MxtChunk)) (p : List Char), (restPicks p cs).map (fun e => (e.1, e.2.2)) = cs.flatMap fun d => d.2.yields
  | [], _ => rfl
  | (l, c) :: cs, p => by rw [restPicks, List.map_append, picks_yields, restPicks_yields cs, List.flatMap_cons]

end Mxt

/-- The read ends at the end of the text, and the map functions were given the pieces `want`. -/
def Yields (rt : Rt) (s : Scanner) (text : Bytes) (want : List (Nat × List Char)) : Prop :=
  ∃ n s' toks, (∀ m, n ≤ m → read rt Mxt.mapped m Mxt.reader s = .ret (none, s')) ∧ Between s' text [] ∧
    s'.heap.maps = s.heap.maps ++ toks ∧ toks.map (fun t => (t.1, s'.get t.2)) = want.map fun e => (e.1, .ret (encText e.2))

theorem Mxt.yields_of {rt : Rt} {s : Scanner} {h : Bytes} {all : List Char} {j' : Nat → Bytes} {ps : List (Nat × List Char × List Char)} (hb : Between s h (encText all))
    (hg : Gives rt mapped Mxt.reader (CV h [] all s.heap.janus s.heap.maps) true (CV h all [] j' (s.heap.maps ++ ps.map (tk h))))
    (hi : ∀ e ∈ ps, In all e) : Yields rt s (h ++ encText all) (ps.map fun e => (e.1, e.2.2)) := by
  obtain ⟨n, e, s', h1, h2, h3⟩ := hg.reads (s := s) ⟨by simpa [CV, encText_nil] using hb, rfl, rfl⟩
  cases e with
  | some e => cases h2
  | none =>
    refine ⟨n, s', ps.map (tk h), h1, h3.1, h3.2.2, ?_⟩
    rw [List.map_map, List.map_map]
    refine List.map_congr_left fun e he => ?_
    have hf : s'.full = h ++ encText all := by simpa [CV, encText_nil] using h3.1.1
    simp only [Function.comp_apply, get_tk hf (hi e he)]
    rfl

/-- A chunk up to the end of the text. -/
theorem Mxt.single (rt : Rt) (s : Scanner) (h : Bytes) (c : MxtChunk) (hc : c.Head) (hn : Clean (after c s.heap.janus) c []) (hb : Between s h (encText c.text)) :
    ∃ n s' toks, (∀ m, n ≤ m → read rt Mxt.mapped m Mxt.reader s = .ret (none, s')) ∧ Between s' (h ++ encText c.text) [] ∧
      s'.heap.janus = after c s.heap.janus ∧
      s'.heap.maps = s.heap.maps ++ toks ∧ toks.map (fun t => (t.1, s'.get t.2)) = c.yields.map fun e => (e.1, .ret (encText e.2)) := by
  have h1 := Mxt.chunk (rt := rt) (h := h) (q := []) (j := s.heap.janus) (M := s.heap.maps) c [] hc (.inl rfl) hn
  have h0 := nl_no (rt := rt) (h := h) (p := c.text) (q := []) (j := after c s.heap.janus) (M := s.heap.maps ++ (picks [] c).map (tk h)) (fun l u e => nl_ne l e.symm)
  have h2 := Gives.zom_stop (Gives.seq_no (rs := [.rule iNL, .rule iChunk]) (.fail h0))
  have h3 := Gives.grammar (w := b!"mxt") (Gives.rule (i := Mxt.iChunks) (nm := b!"chunks") rfl (Gives.seq (.cons h1 (.cons h2 .nil))))
  rw [← Mxt.picks_yields [] c]
  have hg : Gives rt mapped Mxt.reader (CV h [] c.text s.heap.janus s.heap.maps) true (CV h c.text [] (after c s.heap.janus) (s.heap.maps ++ (picks [] c).map (tk h))) := by
    simpa [Mxt.reader, View.back, CV, fin] using h3
  obtain ⟨n, s', toks, r1, r2, r3, r4⟩ := Mxt.yields_of hb hg (by simpa using Mxt.picks_in [] c [])
  obtain ⟨n2, e, s2, h1, h2, h3⟩ := hg.reads (s := s) ⟨by simpa [CV, encText_nil] using hb, rfl, rfl⟩
  have e1 := r1 (n + n2) (by omega)
  rw [h1 (n + n2) (by omega)] at e1
  cases e1
  exact ⟨n, s', toks, r1, r2, h3.2.1, r3, r4⟩

/-- A document of one chunk yields its name and its content and is read to the end, whatever was read before with the same reader. -/
theorem C54 (rt : Rt) (s : Scanner) (h : Bytes) (c : MxtChunk) (hc : c.Ok) (hb : Between s h (encText c.text)) :
    Yields rt s (h ++ encText c.text) c.yields := by
  have hj : Mxt.after c s.heap.janus 0 = encText c.salt ∨ c.salt = [] := by
    unfold Mxt.after
    split
    · next h => exact .inr h.1
    · exact .inl (by simp [upd])
  obtain ⟨n, s', toks, h1, h2, _, h3⟩ := Mxt.single rt s h c hc.toHead (Mxt.clean_of c hc.salt hc.clean hj (.inl rfl)) hb
  exact ⟨n, s', toks, h1, h2, h3⟩

theorem Mxt.document (rt : Rt) (s : Scanner) (h : Bytes) (c : MxtChunk) (cs : List (Bool × MxtChunk)) (hok : MxtOk c cs) (ha : Mxt.after c s.heap.janus 0 = encText c.salt)
    (hb : Between s h (encText (c.text ++ mxtRest cs))) : Yields rt s (h ++ encText (c.text ++ mxtRest cs)) (mxtYields c cs) := by
  obtain ⟨j', hg⟩ := Mxt.chunks (rt := rt) (h := h) (M := s.heap.maps) c cs hok ha
  have := Mxt.yields_of hb hg (by
    intro e he
    rcases List.mem_append.mp he with he | he
    · simpa using Mxt.picks_in [] c (mxtRest cs) e he
    · exact Mxt.restPicks_in cs c.text e he)
  rwa [List.map_append, Mxt.picks_yields, Mxt.restPicks_yields] at this

/-- A document of any number of chunks yields all names and contents in their order and is read to the end by a reader
that has no salt in its memory. -/
theorem C54_document (rt : Rt) (s : Scanner) (h : Bytes) (c : MxtChunk) (cs : List (Bool × MxtChunk)) (hok : MxtOk c cs) (hj : s.heap.janus 0 = [])
    (hb : Between s h (encText (c.text ++ mxtRest cs))) : Yields rt s (h ++ encText (c.text ++ mxtRest cs)) (mxtYields c cs) :=
  Mxt.document rt s h c cs hok (Mxt.after_zero c hj) hb

/-- The condition on the memory is needed.  A salt at the end of one document stays in the memory of the reader. -/
theorem C54_left (rt : Rt) (s : Scanner) (h : Bytes) (c : MxtChunk) (hc : c.Ok) (hs : c.salt ≠ []) (hb : Between s h (encText c.text)) :
    ∃ n s', (∀ m, n ≤ m → read rt Mxt.mapped m Mxt.reader s = .ret (none, s')) ∧ s'.heap.janus 0 = encText c.salt := by
  have hj : Mxt.after c s.heap.janus 0 = encText c.salt := by
    unfold Mxt.after
    rw [if_neg (fun h => hs h.1)]
    simp [upd]
  obtain ⟨n, s', toks, h1, _, h3, _⟩ := Mxt.single rt s h c hc.toHead (Mxt.clean_of c hc.salt hc.clean (.inl hj) (.inl rfl)) hb
  exact ⟨n, s', h1, by rw [h3, hj]⟩

/-- With a salt `x` in the memory everything below a header without salt is its content, the chunks that follow included, as long as no line starts with `//` and `x`. -/
theorem C54_swallowed (rt : Rt) (s : Scanner) (h : Bytes) (x : List Char) (hx : Spec.Mxt.Words x) (hj : s.heap.janus 0 = encText x) (c : MxtChunk) (hc : c.Head) (h0 : c.salt = [] ∧ c.pre = 0)
    (hn : c.Clean x) (hb : Between s h (encText c.text)) : Yields rt s (h ++ encText c.text) c.yields := by
  have hj : Mxt.after c s.heap.janus 0 = encText x := by rw [Mxt.after, if_pos h0, hj]
  obtain ⟨n, s', toks, h1, h2, _, h3⟩ := Mxt.single rt s h c hc (Mxt.clean_of c hx hn (.inl hj) (.inl rfl)) hb
  exact ⟨n, s', toks, h1, h2, h3⟩

/-! ### concrete cases -/

namespace Mxt
open Spec.Mxt

/-- `// a --> X`, line break, `u`. -/
def exA : MxtChunk := ⟨[], 0, ['a'], [' '], 0, ['X'], 0, some (false, ['u'])⟩
/-- `// b -->`, line break, `v`. -/
def exB : MxtChunk := ⟨[], 0, ['b'], [' '], 0, [], 0, some (false, ['v'])⟩
/-- `//X c`, line break, two slashes and the arrow, line break, `w`. -/
def exC : MxtChunk := ⟨['X'], 0, ['c'], ['\n', '/', '/'], 0, [], 0, some (false, ['w'])⟩
/-- The chunks of `b` and `d` as one. -/
def exBD : MxtChunk := ⟨[], 0, ['b'], [' '], 0, [], 0, some (false, "v\n// d -->\nw".toList)⟩

theorem clean_bool {c : MxtChunk} {x : List Char} {l : Bool} {cs : List Char} (hb : c.body = some (l, cs))
    (h : (List.range (nl l ++ cs).length).all (fun i => ! ('\n' :: '/' :: '/' :: x).isPrefixOf ((nl l ++ cs).drop i)) = true) : c.Clean x := by
  intro l' cs' e pre post he
  rw [hb] at e
  cases e
  rw [List.all_eq_true] at h
  have := h pre.length (by rw [List.mem_range, he]; simp)
  rw [he, List.append_assoc, List.drop_left] at this
  have hp : x.isPrefixOf (x ++ post) = true := List.isPrefixOf_iff_prefix.mpr ⟨post, rfl⟩
  simp [hp] at this

theorem first_bool (z : List Char) (h : (List.range z.length).all (fun i => ! arrowText.isPrefixOf ((z ++ arrowText).drop i)) = true) :
    ∀ pre post, z ++ arrowText = pre ++ arrowText ++ post → post = [] := by
  intro pre post he
  rw [List.all_eq_true] at h
  by_cases hl : pre.length < z.length
  · have := h pre.length (List.mem_range.mpr hl)
    rw [he, List.append_assoc, List.drop_left] at this
    simp [arrowText] at this
  · have := congrArg List.length he
    simp [arrowText] at this
    exact List.length_eq_zero_iff.mp (by omega)

theorem exA_ok : exA.Ok :=
  ⟨⟨by simp [exA, Words], by simp [exA, Words], by simp [exA, Words], by simp [exA], ⟨' ', [], rfl, by decide⟩, first_bool _ (by decide)⟩, clean_bool rfl (by decide)⟩

theorem exB_ok : exB.Ok :=
  ⟨⟨by simp [exB, Words], by simp [exB, Words], by simp [exB, Words], by simp [exB], ⟨' ', [], rfl, by decide⟩, first_bool _ (by decide)⟩, clean_bool rfl (by decide)⟩

theorem exC_ok : exC.Ok :=
  ⟨⟨by simp [exC, Words], by simp [exC, Words], by simp [exC, Words], by simp [exC], ⟨'\n', _, rfl, by decide⟩, first_bool _ (by decide)⟩, clean_bool rfl (by decide)⟩

theorem exBD_head : exBD.Head :=
  ⟨by simp [exBD, Words], by simp [exBD, Words], by simp [exBD, Words], by simp [exBD], ⟨' ', [], rfl, by decide⟩, first_bool _ (by decide)⟩

end Mxt

example (rt : Rt) : Yields rt (.new b!"// a --> X\nu" Heap.empty) b!"// a --> X\nu" [(0, ['a']), (2, ['u'])] :=
  C54 rt _ [] Mxt.exA Mxt.exA_ok ⟨rfl, rfl⟩

/-- Three chunks; the salt of the second protects a line that starts with slashes. -/
example (rt : Rt) : Yields rt (.new b!"// b -->\nv\n// a --> X\nu\r\n//X c\n//-->\nw" Heap.empty) b!"// b -->\nv\n// a --> X\nu\r\n//X c\n//-->\nw"
    [(0, ['b']), (2, ['v']), (0, ['a']), (2, ['u']), (0, ['c']), (2, ['w'])] :=
  C54_document rt _ [] Mxt.exB [(false, Mxt.exA), (true, Mxt.exC)]
    ⟨Mxt.exB_ok, ⟨by simp [Mxt.exB], by intro l cs e; cases e; simp⟩, Mxt.exA_ok, ⟨by simp [Mxt.exA, Mxt.exC], by simp⟩, Mxt.exC_ok⟩ rfl ⟨rfl, rfl⟩

/-- The second of two documents that are read with the same reader loses a chunk.  A new reader would yield
`b`, `v`, `d`, `w` (`C54_document`). -/
theorem C54_stale (rt : Rt) : ∃ n s1, read rt Mxt.mapped n Mxt.reader (.new b!"// a --> X\nu" Heap.empty) = .ret (none, s1) ∧
    Yields rt (.new b!"// b -->\nv\n// d -->\nw" s1.heap) b!"// b -->\nv\n// d -->\nw" [(0, ['b']), (2, "v\n// d -->\nw".toList)] := by
  obtain ⟨n, s1, h1, h2⟩ := C54_left rt (.new b!"// a --> X\nu" Heap.empty) [] Mxt.exA Mxt.exA_ok (by simp [Mxt.exA]) ⟨rfl, rfl⟩
  exact ⟨n, s1, h1 n (Nat.le_refl n), C54_swallowed rt (.new _ s1.heap) [] ['X'] (by simp [Spec.Mxt.Words]) h2 Mxt.exBD Mxt.exBD_head ⟨rfl, rfl⟩ (Mxt.clean_bool rfl (by decide)) ⟨rfl, rfl⟩⟩

end Tok
