/-
C94 JSON documents one after the other: a client that reads with the JSON grammar until the end of the text gets the documents of the text one by one.
-/
import Verif.Props.C84
import Verif.Props.C90
import Verif.Proofs.Front
import Verif.Props.C91
import Verif.Props.C49Exact
import Verif.Spec.JsonStream

namespace Tok
open Spec PExp

/-- The client: while the scanner is not at the end of the text, call `Read`; keep what was read, stop at the first error.  At most `k` rounds, with fuel `n` each. -/
def drain (rt : Rt) (n : Nat) : Nat → Scanner → Exec (List Bytes × Option Err × Scanner)
  | 0, _ => .timeout
  | k + 1, s =>
    if s.atEnd then .ret ([], none, s)
    else do
      let (e, s') ← read rt Json.env n Json.reader s
      match e with
      | some e => .ret ([], some e, s')
      | none => do
        let (l, e, s'') ← drain rt n k s'
        .ret ((s.full.drop s.pos.toNat).take (s'.pos.toNat - s.pos.toNat) :: l, e, s'')

namespace Json

theorem between_text {s s' : Scanner} {h x t : Bytes} (hb : Between s h (x ++ t)) (hb' : Between s' (h ++ x) t) :
    (s.full.drop s.pos.toNat).take (s'.pos.toNat - s.pos.toNat) = x := by
  have e : s'.pos.toNat - s.pos.toNat = x.length := by rw [hb'.2, hb.2, List.length_append]; omega
  rw [e, hb.1, hb.2, Int.toNat_natCast, List.drop_left, List.take_left]

theorem encText_nil_iff {cs : List Char} : encText cs = [] ↔ cs = [] :=
  ⟨fun h => encText_len (by rw [h]; rfl), fun h => by rw [h]; rfl⟩

theorem atEnd_between {s : Scanner} {h : Bytes} {cs : List Char} (hb : Between s h (encText cs)) : s.atEnd = true ↔ cs = [] := by
  unfold Scanner.atEnd
  rw [hb.1, hb.2, ← encText_nil_iff, ← List.length_eq_zero_iff]
  simp only [List.length_append, decide_eq_true_eq]
  omega

/-- A failed read leaves the scanner where it was. -/
theorem fail_between {rt : Rt} {n : Nat} {s s' : Scanner} {h t : Bytes} {e : Err} (hb : Between s h t) (hr : read rt Json.env n Json.reader s = .ret (some e, s')) :
    Between s' h t := by
  have hsafe : Json.reader.Every (Reader.safeHere True Json.env) := (Reader.everyB_sound (Reader.safeB Json.env) Json.reader (by decide)).imp fun _ => safeHere_of_safeB
  have h1 := (read_safe rt Json.env Json.safe n Json.reader hsafe s hb.inside).2 _ hr
  have h2 := C33_restores_partial rt Json.env Json.reader Json.safe (fun rl hrl c hc => keeps_of_keepsB (Json.keeps rl hrl c hc)) hsafe (keeps_of_keepsB (by decide)) n s s' hb.inside e hr
  exact ⟨h1.2.1.trans hb.1, h2.trans hb.2⟩

theorem doc_ne_nil {d : List Char} (h : JsonDoc d) : d ≠ [] := by
  cases h with
  | @element us cs vs h1 h2 h3 =>
    obtain ⟨c, cs', rfl, _⟩ := (want h2).1
    simp

theorem row_split : ∀ {ds : List (List Char)} {cs es : List Char}, JsonRow ds cs es → cs = ds.flatten ++ es
  | [], _, _, h => h
  | d :: ds, cs, es, ⟨fs, h1, _, _, h2⟩ => by rw [h1, row_split h2, List.flatten_cons, List.append_assoc]

theorem row_at (h : Bytes) (d : List Char) (ds : List (List Char)) (f : List Char) :
    ((h ++ encText d).length : Int) + (encText (ds.flatten ++ f)).length = h.length + (encText ((d :: ds).flatten ++ f)).length := by
  rw [List.flatten_cons, List.append_assoc, encText_append d, List.length_append, List.length_append]
  omega

theorem drain_sound (rt : Rt) (n : Nat) : ∀ (k : Nat) (s s' : Scanner) (h : Bytes) (cs : List Char) (l : List Bytes) (e : Option Err), Between s h (encText cs) →
    drain rt n k s = .ret (l, e, s') →
    ∃ ds es, l = ds.map encText ∧ JsonRow ds cs es ∧ Between s' (h ++ encText ds.flatten) (encText es) ∧ (e = none ∧ es = [] ∨ es ≠ [] ∧ ∃ f m, JsonFault es f m ∧
      e = some (.other (b!"json parse error: not able to read " ++ m.words ++ b!" at " ++ itoa (h.length + (encText (ds.flatten ++ f)).length)))) := by
  intro k
  induction k with
  | zero => intro _ _ _ _ _ _ _ hr; cases hr
  | succ k ih =>
    intro s s' h cs l e hb hr
    unfold drain at hr
    by_cases he : s.atEnd = true
    · rw [if_pos he] at hr
      cases hr
      have hn := (atEnd_between hb).mp he
      subst hn
      exact ⟨[], [], rfl, rfl, by simpa [encText] using hb, .inl ⟨rfl, rfl⟩⟩
    · rw [if_neg he] at hr
      have hne := mt (atEnd_between hb).mpr he
      cases hrd : read rt Json.env n Json.reader s with
      | timeout => rw [hrd] at hr; cases hr
      | panic => rw [hrd] at hr; cases hr
      | ret x =>
        obtain ⟨e1, s1⟩ := x
        rw [hrd] at hr
        cases e1 with
        | some e1 =>
          cases hr
          obtain ⟨f, m, h1, h2⟩ := (C91_fault rt s h cs hb e1).mp ⟨n, _, hrd⟩
          exact ⟨[], cs, rfl, rfl, by simpa [encText] using fail_between hb hrd, .inr ⟨hne, f, m, h1, by rw [h2, List.flatten_nil, List.nil_append]⟩⟩
        | none =>
          obtain ⟨d, fs, h1, h2, h3⟩ := C47_text rt s s1 h cs hb n hrd
          subst h1
          obtain ⟨_, h4⟩ := (C84_longest rt s h d fs hb).mp ⟨n, s1, hrd, h2⟩
          cases hk : drain rt n k s1 with
          | timeout => simp only [bind, Exec.bind, hk] at hr; cases hr
          | panic => simp only [bind, Exec.bind, hk] at hr; cases hr
          | ret y =>
            obtain ⟨l', e', s2⟩ := y
            simp only [bind, Exec.bind, hk] at hr
            cases hr
            obtain ⟨ds, es, h5, h6, hb', h7⟩ := ih s1 _ (h ++ encText d) fs l' _ h2 hk
            refine ⟨d :: ds, es, ?_, ⟨fs, rfl, h3, h4, h6⟩, by rw [List.flatten_cons, encText_append, ← List.append_assoc]; exact hb', ?_⟩
            · rw [List.map_cons, h5, between_text (by rw [← encText_append]; exact hb) h2]
            · rcases h7 with h7 | ⟨h7, f, m, h8, h9⟩
              · exact .inl h7
              · exact .inr ⟨h7, f, m, h8, by rw [h9, row_at]⟩

theorem drain_complete (rt : Rt) (es : List Char) (e : Option Err) : ∀ (ds : List (List Char)) (s : Scanner) (h : Bytes) (cs : List Char), Between s h (encText cs) →
    JsonRow ds cs es → (e = none ∧ es = [] ∨ es ≠ [] ∧ ∃ f m, JsonFault es f m ∧
      e = some (.other (b!"json parse error: not able to read " ++ m.words ++ b!" at " ++ itoa (h.length + (encText (ds.flatten ++ f)).length)))) →
    ∃ N s', ∀ n, N ≤ n → drain rt n (ds.length + 1) s = .ret (ds.map encText, e, s') := by
  intro ds
  induction ds with
  | nil =>
    intro s h cs hb hrow hend
    cases hrow
    rcases hend with ⟨rfl, rfl⟩ | ⟨hne, f, m, hf, rfl⟩
    · exact ⟨0, s, fun n _ => by unfold drain; rw [if_pos ((atEnd_between hb).mpr rfl)]; rfl⟩
    · obtain ⟨N, s', h1⟩ := (C91_fault rt s h es hb _).mpr ⟨f, m, hf, rfl⟩
      refine ⟨N, s', fun n hn => ?_⟩
      unfold drain
      rw [if_neg (mt (atEnd_between hb).mp hne), read_mono hn h1]
      rfl
  | cons d ds ih =>
    intro s h cs hb hrow hend
    obtain ⟨fs, rfl, h1, h2, h3⟩ := hrow
    obtain ⟨N, s1, h4, h5⟩ := longest_read rt s h d fs hb h1 h2
    obtain ⟨M, s2, h6⟩ := ih s1 _ fs h5 h3 (by
      rcases hend with hend | ⟨h7, f, m, h8, h9⟩
      · exact .inl hend
      · exact .inr ⟨h7, f, m, h8, by rw [h9, row_at]⟩)
    refine ⟨max N M, s2, fun n hn => ?_⟩
    rw [List.length_cons, drain, if_neg (mt (atEnd_between hb).mp (by simp [doc_ne_nil h1])), h4 n (by omega)]
    simp only [bind, Exec.bind, h6 n (by omega)]
    rw [List.map_cons, between_text (by rw [← encText_append]; exact hb) h5]

end Json
open Json

/-- What the client returns: the documents of the text one by one, each the longest from where it begins; without error nothing is left; an error is the one of
`JsonFault` for what is left. -/
theorem C94_exact (rt : Rt) (s : Scanner) (h : Bytes) (cs : List Char) (l : List Bytes) (e : Option Err) (hb : Between s h (encText cs)) :
    (∃ n k s', drain rt n k s = .ret (l, e, s')) ↔
    ∃ ds es, l = ds.map encText ∧ JsonRow ds cs es ∧ (e = none ∧ es = [] ∨
      es ≠ [] ∧ ∃ f m, JsonFault es f m ∧ e = some (.other (b!"json parse error: not able to read " ++ m.words ++ b!" at " ++ itoa (h.length + (encText (ds.flatten ++ f)).length)))) := by
  constructor
  · rintro ⟨n, k, s', hr⟩
    obtain ⟨ds, es, h1, h2, _, h3⟩ := drain_sound rt n k s s' h cs l e hb hr
    exact ⟨ds, es, h1, h2, h3⟩
  · rintro ⟨ds, es, rfl, hrow, hend⟩
    obtain ⟨N, s', h1⟩ := drain_complete rt es e ds s h cs hb hrow hend
    exact ⟨N, _, s', h1 N (Nat.le_refl _)⟩

/-- Where the client stands then: behind these documents. -/
theorem C94_position (rt : Rt) (n k : Nat) (s s' : Scanner) (h : Bytes) (cs : List Char) (l : List Bytes) (e : Option Err) (hb : Between s h (encText cs))
    (hr : drain rt n k s = .ret (l, e, s')) : ∃ (ds : List (List Char)) (es : List Char), l = ds.map encText ∧ cs = ds.flatten ++ es ∧ Between s' (h ++ encText ds.flatten) (encText es) := by
  obtain ⟨ds, es, h1, h2, h3, _⟩ := drain_sound rt n k s s' h cs l e hb hr
  exact ⟨ds, es, h1, row_split h2, h3⟩

namespace Json

/-- Every text begins with a row behind which no document begins. -/
theorem row_exists : ∀ (k : Nat) (cs : List Char), cs.length ≤ k → ∃ ds es, JsonRow ds cs es ∧ ∀ u v, es = u ++ v → ¬ JsonDoc u := by
  intro k
  induction k with
  | zero =>
    intro cs hk
    cases List.eq_nil_of_length_eq_zero (Nat.le_zero.mp hk)
    refine ⟨[], [], rfl, fun u v e hu => doc_ne_nil hu ?_⟩
    exact (List.append_eq_nil_iff.mp e.symm).1
  | succ k ih =>
    intro cs hk
    by_cases hd : ∃ u v, cs = u ++ v ∧ JsonDoc u
    · obtain ⟨u, v, rfl, hu⟩ := hd
      obtain ⟨d, fs, h1, _, h3, h4⟩ := longest_of (ds := []) v.length u v (Nat.le_refl _) hu
      rw [List.nil_append] at h3
      have hl := congrArg List.length h1
      rw [List.length_append, List.length_append] at hl
      rw [List.length_append] at hk
      have hne := List.length_pos_iff.mpr (doc_ne_nil h3)
      obtain ⟨ds, es, h5, h6⟩ := ih fs (by omega)
      exact ⟨d :: ds, es, ⟨fs, h1, h3, h4, h5⟩, h6⟩
    · exact ⟨[], cs, rfl, fun u v e hu => hd ⟨u, v, e, hu⟩⟩

/-- A value is taken whatever follows, a number if what follows cannot be a part of it. -/
theorem value_followed {cs rest : List Char} (h : JsonText .value cs) (hr : JsonText .number cs → Avoid inNum rest) : Peg Json.env.peg (.nt 0) (img (cs ++ rest)) (some (img rest)) := by
  cases h with
  | value_number h => exact (want (.value_number h)).2 rest (hr h)
  | value_object h => exact .nt rfl (.alt ((want h).2 rest trivial))
  | value_array h =>
    have ih := want h
    exact .nt rfl (.altNo (object_no (ih.1.append.avoid fun n h => by omega)) (.alt (ih.2 rest trivial)))
  | value_string h =>
    have ih := want h
    exact .nt rfl (.altNo (object_no (ih.1.append.avoid fun n h => by omega)) (.altNo (array_no (ih.1.append.avoid fun n h => by omega))
      (.alt (ih.2.1 rest trivial))))
  | value_true =>
    refine .nt rfl (.altNo (object_no ?_) (.altNo (array_no ?_) (.altNo (string_no ?_) (.altNo (number_no ?_) (.alt ?_)))))
    · exact .cons (by decide)
    · exact .cons (by decide)
    · exact .cons (by decide)
    · exact .cons (by unfold isDigit; decide)
    · exact .nt (e := choice [litExp (encText ['t', 'r', 'u', 'e']), litExp (encText ['f', 'a', 'l', 's', 'e'])]) rfl (.alt (peg_lit_yes _))
  | value_false =>
    refine .nt rfl (.altNo (object_no ?_) (.altNo (array_no ?_) (.altNo (string_no ?_) (.altNo (number_no ?_) (.alt ?_)))))
    · exact .cons (by decide)
    · exact .cons (by decide)
    · exact .cons (by decide)
    · exact .cons (by unfold isDigit; decide)
    · exact .nt (e := choice [litExp (encText ['t', 'r', 'u', 'e']), litExp (encText ['f', 'a', 'l', 's', 'e'])]) rfl
        (.altNo (peg_lit_no 't' (.cons (by decide))) (.alt (peg_lit_yes _)))
  | value_null =>
    refine .nt rfl (.altNo (object_no ?_) (.altNo (array_no ?_) (.altNo (string_no ?_) (.altNo (number_no ?_) (.altNo (bool_no ?_) (.alt ?_))))))
    · exact .cons (by decide)
    · exact .cons (by decide)
    · exact .cons (by decide)
    · exact .cons (by unfold isDigit; decide)
    · exact .cons (by decide)
    · exact .nt (e := litExp (encText ['n', 'u', 'l', 'l'])) rfl (peg_lit_yes _)

theorem stream_head {ds : List (List Char)} (h : JsonStream ds) : ds.flatten = [] ∨ Head isHead ds.flatten := by
  cases h with
  | nil => exact .inl rfl
  | cons h1 _ _ _ =>
    right
    rw [List.flatten_cons, List.append_assoc]
    exact (want h1).1.append

theorem stream_row {ds : List (List Char)} (h : JsonStream ds) : ∀ us, JsonText .ws us → ∀ d ds', ds = d :: ds' → JsonRow ((us ++ d) :: ds') (us ++ ds.flatten) [] := by
  induction h with
  | nil => intro _ _ _ _ e; cases e
  | @cons v w ds hv hw hn hs ih =>
    intro us hu d ds' e
    cases e
    have hws : Avoid isWS ds.flatten := by
      rcases stream_head hs with e | e
      · rw [e]; exact fun _ _ e => by cases e
      · exact e.avoid fun n h => by unfold isHead isDigit at h; unfold isWS; omega
    have hpeg : Peg Json.env.peg (.nt 7) (img ((us ++ (v ++ w)) ++ ds.flatten)) (some (img ds.flatten)) := by
      refine .nt (e := chain [.nt 23, .nt 0, .nt 23]) rfl (.seq (ys := img (v ++ (w ++ ds.flatten))) ?_
        (.seq (value_followed hv ?_) (.seq ((want hw).2.1 _ hws) .eps)))
      · rw [List.append_assoc, List.append_assoc]
        exact (want hu).2.1 _ ((want hv).1.append.avoid fun n h => by unfold isHead isDigit at h; unfold isWS; omega)
      · intro hnum
        rcases (want hw).1 with rfl | hw'
        · rw [List.nil_append]
          intro c cs e
          have h1 := hn rfl hnum c cs e
          rcases stream_head hs with e' | ⟨c', cs', e', h2⟩
          · rw [e'] at e; cases e
          · rw [e] at e'
            cases e'
            have : '0'.toNat = 48 := rfl
            have : '9'.toNat = 57 := rfl
            unfold isHead isDigit at h2
            unfold inNum isDigit
            omega
        · exact hw'.append.avoid fun n h => by unfold isWS at h; unfold inNum isDigit; omega
    obtain ⟨h1, _, h2⟩ := (element_longest _ _).mp hpeg
    refine ⟨ds.flatten, by rw [List.flatten_cons, List.append_assoc us], h1, fun x y e hx => ?_, ?_⟩
    · have h3 := h2 _ hx ⟨y, by rw [e]; simp⟩
      rw [List.length_append (as := us ++ (v ++ w))] at h3
      exact List.eq_nil_of_length_eq_zero (by omega)
    · cases hs with
      | nil => rfl
      | cons h4 h5 h6 h7 => exact ih [] .ws_none _ _ rfl

end Json

/-- The client comes to no end exactly if, behind some of the documents, the text is cut off in a string. -/
theorem C94_hangs (rt : Rt) (s : Scanner) (h : Bytes) (cs : List Char) (hb : Between s h (encText cs)) :
    (∀ n k, drain rt n k s = .timeout) ↔ ∃ ds es, JsonRow ds cs es ∧ JsonCut .element es := by
  have cut : ∀ {s h es}, Between s h (encText es) → ((∀ n, read rt Json.env n Json.reader s = .timeout) ↔ JsonCut .element es) := fun {s h es} hb =>
    C49_exact_partial rt s h _ hb hb.inside _ (pieces_encText es) es (by simp [Function.comp_def])
  constructor
  · intro hall
    obtain ⟨ds, es, h1, h2⟩ := row_exists cs.length cs (Nat.le_refl _)
    refine ⟨ds, es, h1, ?_⟩
    have stop : ∀ e : Option Err, ¬ (e = none ∧ es = [] ∨ es ≠ [] ∧ ∃ f m, JsonFault es f m ∧
        e = some (.other (b!"json parse error: not able to read " ++ m.words ++ b!" at " ++ itoa (h.length + (encText (ds.flatten ++ f)).length)))) := by
      intro e he
      obtain ⟨N, s', h3⟩ := drain_complete rt es e ds s h cs hb h1 he
      have := h3 N (Nat.le_refl _)
      rw [hall] at this
      cases this
    have hne : es ≠ [] := fun e => stop none (.inl ⟨rfl, e⟩)
    have hb1 : Between (.new (encText es) Heap.empty) [] (encText es) := ⟨rfl, rfl⟩
    rw [← cut hb1]
    intro n
    cases hrd : read rt Json.env n Json.reader (.new (encText es) Heap.empty) with
    | timeout => rfl
    | panic =>
      have hsafe : Json.reader.Every (Reader.safeHere False Json.env) := (Reader.everyB_sound (Reader.safeB Json.env) Json.reader (by decide)).imp fun _ => safeHere_of_safeB
      exact ((read_safe rt Json.env Json.safe n Json.reader hsafe _ hb1.inside).1 hrd).elim
    | ret x =>
      obtain ⟨e, s'⟩ := x
      cases e with
      | none =>
        obtain ⟨u, v, h3, _, h4⟩ := C47_text rt _ s' _ es hb1 n hrd
        exact (h2 u v h3 h4).elim
      | some e =>
        obtain ⟨f, m, h3, _⟩ := (C91_fault rt _ _ es hb1 e).mp ⟨n, s', hrd⟩
        exact (stop _ (.inr ⟨hne, f, m, h3, rfl⟩)).elim
  · rintro ⟨ds, es, hrow, hcut⟩ n k
    induction ds generalizing s h cs k with
    | nil =>
      cases hrow
      have ht := (cut hb).mpr hcut
      cases k with
      | zero => rfl
      | succ k =>
        have hne : es ≠ [] := by
          rintro rfl
          obtain ⟨n, s', h1⟩ := (C91_fault rt s h [] hb _).mpr ⟨[], .value, .value (r := []) rfl .ws_none (by simp [NotIn]) (by simp) (by simp) (by simp), rfl⟩
          rw [ht] at h1
          cases h1
        unfold drain
        rw [if_neg (mt (atEnd_between hb).mp hne), ht]
        rfl
    | cons d ds ih =>
      obtain ⟨fs, rfl, h1, h2, h3⟩ := hrow
      obtain ⟨N, s1, h4, h5⟩ := longest_read rt s h d fs hb h1 h2
      cases k with
      | zero => rfl
      | succ k =>
        unfold drain
        rw [if_neg (mt (atEnd_between hb).mp (by simp [doc_ne_nil h1]))]
        rcases (read_le rt Json.env n (max n N) (Nat.le_max_left _ _) Json.reader s) with h6 | h6
        · rw [h6]; rfl
        · rw [h6, h4 _ (Nat.le_max_right _ _)]
          simp only [bind, Exec.bind, ih s1 _ fs h5 h3 k]

/-- JSON values one after the other are read one by one, with the white space in front of the first one and behind each of them. -/
theorem C94_stream (rt : Rt) (s : Scanner) (h : Bytes) (us d : List Char) (ds : List (List Char)) (hu : JsonText .ws us) (hs : JsonStream (d :: ds))
    (hb : Between s h (encText (us ++ (d :: ds).flatten))) : ∃ n k s', drain rt n k s = .ret (encText (us ++ d) :: ds.map encText, none, s') ∧ s'.atEnd = true := by
  obtain ⟨n, k, s', h1⟩ := (C94_exact rt s h _ (encText (us ++ d) :: ds.map encText) none hb).mpr ⟨(us ++ d) :: ds, [], rfl, stream_row hs us hu d ds rfl, .inl ⟨rfl, rfl⟩⟩
  refine ⟨n, k, s', h1, ?_⟩
  obtain ⟨_, es, _, _, h2, h3⟩ := drain_sound rt n k s s' h _ _ _ hb h1
  rcases h3 with ⟨_, rfl⟩ | ⟨_, f, m, _, h3⟩
  · exact (atEnd_between h2).mpr rfl
  · cases h3

/-- The client never panics. -/
theorem C94_no_panic (rt : Rt) (n : Nat) : ∀ (k : Nat) (s : Scanner), Inside s → drain rt n k s ≠ .panic
  | 0, _, _ => fun e => by cases e
  | k + 1, s, hs => by
    have hsafe : Json.reader.Every (Reader.safeHere False Json.env) := (Reader.everyB_sound (Reader.safeB Json.env) Json.reader (by decide)).imp fun _ => safeHere_of_safeB
    have h1 := read_safe rt Json.env Json.safe n Json.reader hsafe s hs
    unfold drain
    split
    · exact fun e => by cases e
    · cases hrd : read rt Json.env n Json.reader s with
      | timeout => exact fun e => by cases e
      | panic => exact (h1.1 hrd).elim
      | ret x =>
        obtain ⟨e, s'⟩ := x
        cases e with
        | some e => exact fun e => by cases e
        | none =>
          have ih := C94_no_panic rt n k s' (h1.2 _ hrd).1
          cases hk : drain rt n k s' with
          | panic => exact absurd hk ih
          | timeout => simp [bind, Exec.bind, hk]
          | ret y => simp [bind, Exec.bind, hk]

/-- The number of one digit from `1` to `9`. -/
theorem Json.number_one {c : Char} (h1 : '1'.toNat ≤ c.toNat) (h2 : c.toNat ≤ '9'.toNat) : JsonText .number [c] :=
  .number (is := [c]) (.integer_digit (.digit_onenine (.onenine h1 h2))) .fraction_none .exponent_none

/-- Two numbers that touch are one number: the client reads `1` and `2`, written one after the other, as `12`. -/
theorem C94_joined (rt : Rt) : JsonDoc ['1'] ∧ JsonDoc ['2'] ∧ ∃ n k s', drain rt n k (.new (encText (['1'] ++ ['2'])) Heap.empty) = .ret ([b!"12"], none, s') :=
  ⟨.element (us := []) (cs := ['1']) .ws_none (.value_number (number_one (by decide) (by decide))) .ws_none,
    .element (us := []) (cs := ['2']) .ws_none (.value_number (number_one (by decide) (by decide))) .ws_none, 60, 3, _, rfl⟩

/-- `[1] 2`, a line feed and `"x"true7` are five documents. -/
theorem C94_ex_stream : JsonStream [['[', '1', ']', ' '], ['2', '\n'], ['"', 'x', '"'], ['t', 'r', 'u', 'e'], ['7']] :=
  .cons (v := ['[', '1', ']']) (w := [' '])
    (.value_array (.array_elements (cs := ['1']) (.elements_one (.element (us := []) (cs := ['1']) .ws_none (.value_number (number_one (by decide) (by decide))) .ws_none))))
    (.ws_space .ws_none) (fun e => by cases e) <|
  .cons (v := ['2']) (w := ['\n']) (.value_number (number_one (by decide) (by decide))) (.ws_lf .ws_none) (fun e => by cases e) <|
  .cons (v := ['"', 'x', '"']) (w := []) (.value_string (.string (cs := ['x']) (.characters_more (cs := ['x']) (.character_plain (by decide) (by decide) (by decide) (by decide)) .characters_none)))
    .ws_none (fun _ _ c cs e => by cases e; decide) <|
  .cons (v := ['t', 'r', 'u', 'e']) (w := []) .value_true .ws_none (fun _ h => by obtain ⟨c, cs, h1, h2⟩ := (want h).1; cases h1; exact absurd h2 (by unfold isDigit; decide)) <|
  .cons (v := ['7']) (w := []) (.value_number (number_one (by decide) (by decide))) .ws_none (fun _ _ c cs e => by cases e) .nil

example (rt : Rt) : ∃ n k s', drain rt n k (.new b!" [1] 2\n\"x\"true7" Heap.empty) = .ret ([b!" [1] ", b!"2\n", b!"\"x\"", b!"true", b!"7"], none, s') ∧ s'.atEnd = true :=
  C94_stream rt _ [] [' '] _ _ (.ws_space .ws_none) C94_ex_stream ⟨rfl, rfl⟩

/-- A fault behind a document: the error says where in the whole text. -/
example (rt : Rt) : ∃ n k s', drain rt n k (.new b!"1 ?" Heap.empty) = .ret ([b!"1 "], some (.other b!"json parse error: not able to read \"null\" at 2"), s') := by
  refine (C94_exact rt _ [] ['1', ' ', '?'] [b!"1 "] _ ⟨rfl, rfl⟩).mpr ⟨[['1', ' ']], ['?'], rfl, ⟨_, rfl, ?_, fun u v e hu => ?_, rfl⟩, .inr ⟨by simp, [], .value, ?_, rfl⟩⟩
  · exact .element (us := []) (cs := ['1']) .ws_none (.value_number (number_one (by decide) (by decide))) (.ws_space .ws_none)
  · obtain ⟨s', h1, h2⟩ : ∃ s', read exRt Json.env 60 Json.reader (.new b!"1 ?" Heap.empty) = .ret (none, s') ∧ Between s' b!"1 " b!"?" := ⟨_, rfl, rfl, rfl⟩
    exact ((C84_longest exRt (.new b!"1 ?" Heap.empty) [] ['1', ' '] ['?'] ⟨rfl, rfl⟩).mp ⟨60, s', h1, h2⟩).2 u v e hu
  · exact .value (r := ['?']) rfl .ws_none (by simp [NotIn]) (by decide) (by decide) (by decide)

/-- A string without its closing quote behind a document. -/
example (rt : Rt) : ∀ n k, drain rt n k (.new b!"1 \"a" Heap.empty) = .timeout := by
  refine (C94_hangs rt _ [] ['1', ' ', '"', 'a'] ⟨rfl, rfl⟩).mpr ⟨[['1', ' ']], ['"', 'a'], ⟨_, rfl, ?_, fun u v e hu => ?_, rfl⟩, ?_⟩
  · exact .element (us := []) (cs := ['1']) .ws_none (.value_number (number_one (by decide) (by decide))) (.ws_space .ws_none)
  · obtain ⟨s', h1, h2⟩ : ∃ s', read exRt Json.env 60 Json.reader (.new b!"1 \"a" Heap.empty) = .ret (none, s') ∧ Between s' b!"1 " b!"\"a" := ⟨_, rfl, rfl, rfl⟩
    exact ((C84_longest exRt (.new b!"1 \"a" Heap.empty) [] ['1', ' '] ['"', 'a'] ⟨rfl, rfl⟩).mp ⟨60, s', h1, h2⟩).2 u v e hu
  · exact .element (us := []) .ws_none (.value_string (.string (.characters_more (cs := ['a']) (.character_plain (by decide) (by decide) (by decide) (by decide)) .characters_none)))

end Tok
