/-
C81. The MXT grammar reads MXT documents and nothing else.
-/
import Verif.Proofs.MxtTotal
import Verif.Props.C44
import Verif.Props.C79

namespace Tok
open Spec

namespace Mxt
open Spec.Mxt

theorem half_names {p q : List Char} {ex : List (Nat × List Char × List Char)} (hx : Half p q ex) : ∃ names : List (List Char), ex.map (fun e => (e.1, e.2.2)) = names.map (fun n => (0, n)) ∧
    ((names = [] ∧ ∀ name, ¬ MxtNamed q name) ∨ ∃ name, MxtNamed q name ∧ names = [name]) ∧ ∀ e ∈ ex, In (p ++ q) e := by
  cases hx with
  | none hn =>
    refine ⟨[], rfl, .inl ⟨rfl, fun name hm => ?_⟩, by simp⟩
    obtain ⟨a, b, c, h⟩ := named_ex hm
    exact hn _ _ _ _ h
  | name hn =>
    refine ⟨[_], rfl, .inr ⟨_, named_of hn, rfl⟩, ?_⟩
    intro e he
    rw [List.mem_singleton.mp he]
    rename_i mark gap name u
    exact ⟨u, by rw [hn.text]; simp⟩

theorem nl_inj {l l' : Bool} {u v : List Char} (e : nl l ++ u = nl l' ++ v) : u = v := by
  cases l <;> cases l' <;> simp_all [nl]

/-- What the grammar does with a text that begins with a header. -/
theorem reads_yes (rt : Rt) (s : Scanner) (h : Bytes) (t : List Char) (hj : s.heap.janus 0 = []) (hb : Between s h (encText t)) (ht : MxtStarts t) :
    ∃ n s' c cs rest names toks, (∀ m, n ≤ m → read rt Mxt.mapped m Mxt.reader s = .ret (none, s')) ∧
      t = c.text ++ (mxtRest cs ++ rest) ∧ MxtOk c cs ∧ MxtTail (mxtLast c cs) rest ∧ MxtHalf rest names ∧
      Between s' (h ++ encText (c.text ++ mxtRest cs)) (encText rest) ∧
      s'.heap.maps = s.heap.maps ++ toks ∧ toks.map (fun t => (t.1, s'.get t.2)) = (mxtYields c cs ++ names.map fun n => (0, n)).map fun e : Nat × List Char => (e.1, .ret (encText e.2)) := by
  obtain ⟨c, cs, rest, ex, j', h1, h2, h3, h4, h5⟩ := total_yes (rt := rt) (h := h) (M := s.heap.maps) hj (starts_iff.mp ht)
  obtain ⟨n, e, s', r1, r2, r3⟩ := h5.reads (s := s) ⟨by simpa [CV, encText_nil] using hb, rfl, rfl⟩
  obtain ⟨names, hn1, hn2, hn3⟩ : ∃ names : List (List Char), ex.map (fun e => (e.1, e.2.2)) = names.map (fun n => (0, n)) ∧ MxtHalf rest names ∧ ∀ e ∈ ex, In t e := by
    rcases h4 with ⟨rfl, rfl⟩ | ⟨l, q', rfl, hx⟩
    · exact ⟨[], rfl, .inl ⟨rfl, fun l q name e => absurd e.symm (nl_ne l)⟩, by simp⟩
    · obtain ⟨names, k1, k2, k3⟩ := half_names hx
      refine ⟨names, k1, ?_, fun e he => by rw [h1]; simpa using k3 e he⟩
      rcases k2 with ⟨k2, k4⟩ | ⟨name, k2, k4⟩
      · exact .inl ⟨k2, fun l' q name e hm => k4 name (by rw [nl_inj e]; exact hm)⟩
      · exact .inr ⟨l, q', name, rfl, k2, k4⟩
  cases e with
  | some e => cases r2
  | none =>
    have hf : s'.full = h ++ encText t := by rw [h1]; simpa [CV, encText_append] using r3.1.1
    refine ⟨n, s', c, cs, rest, names, _, r1, h1, h2, h3, hn2, r3.1, r3.2.2, ?_⟩
    have e1 : (mxtYields c cs ++ names.map fun n => (0, n)) = (picks [] c ++ restPicks c.text cs ++ ex).map fun e => (e.1, e.2.2) := by
      rw [List.map_append, List.map_append, picks_yields, restPicks_yields, hn1]
      rfl
    rw [e1, List.map_map, List.map_map]
    refine List.map_congr_left fun e he => ?_
    have hi : In t e := by
      rw [h1]
      rcases List.mem_append.mp he with he | he
      · rcases List.mem_append.mp he with he | he
        · simpa using picks_in [] c (mxtRest cs ++ rest) e he
        · obtain ⟨b, hb⟩ := restPicks_in cs c.text e he
          exact ⟨b ++ rest, by rw [← List.append_assoc, hb, List.append_assoc]⟩
      · rw [← h1]; exact hn3 e he
    simp only [Function.comp_apply, get_tk hf hi]
    rfl

/-- What it does with another text. -/
theorem reads_no (rt : Rt) (s : Scanner) (h : Bytes) (t : List Char) (hb : Between s h (encText t)) (ht : ¬ MxtStarts t) :
    ∃ n e s' names toks, (∀ m, n ≤ m → read rt Mxt.mapped m Mxt.reader s = .ret (some e, s')) ∧ Between s' h (encText t) ∧
      ((names = [] ∧ ∀ name, ¬ MxtNamed t name) ∨ ∃ name, MxtNamed t name ∧ names = [name]) ∧
      s'.heap.maps = s.heap.maps ++ toks ∧ toks.map (fun t => (t.1, s'.get t.2)) = names.map fun x => (0, .ret (encText x)) := by
  obtain ⟨ex, j', h1, h2⟩ := total_no (rt := rt) (h := h) (j := s.heap.janus) (M := s.heap.maps) (fun h => ht (starts_iff.mpr h))
  obtain ⟨n, e, s', r1, r2, r3⟩ := h2.reads (s := s) ⟨by simpa [CV, encText_nil] using hb, rfl, rfl⟩
  obtain ⟨names, k1, k2, k3⟩ := half_names h1
  cases e with
  | none => cases r2
  | some e =>
    have hf : s'.full = h ++ encText t := by simpa [CV, encText_nil] using r3.1.1
    refine ⟨n, e, s', names, _, r1, by simpa [CV, encText_nil] using r3.1, k2, r3.2.2, ?_⟩
    have e1 : (names.map fun x => ((0 : Nat), (Exec.ret (encText x) : Exec Bytes))) = (ex.map fun e => (e.1, e.2.2)).map fun e => (e.1, .ret (encText e.2)) := by
      rw [k1, List.map_map]
      rfl
    rw [e1, List.map_map, List.map_map]
    refine List.map_congr_left fun e he => ?_
    simp only [Function.comp_apply, get_tk hf (k3 e he)]
    rfl

/-- The name is the only one. -/
theorem named_unique {q mark name u mark' name' u' : List Char} {gap gap' : Nat} (h1 : Named q mark gap name u) (h2 : Named q mark' gap' name' u') :
    mark = mark' ∧ name = name' ∧ u = u' := by
  have e := List.append_cancel_left (h1.text.symm.trans h2.text)
  have hs : ∀ (g : Nat) (v : List Char), Stop (spaces (g + 1) ++ v) := by
    intro g v c w e
    simp only [spaces, List.replicate_succ, List.cons_append, List.cons.injEq] at e
    rw [← e.1]
    decide
  have hw : ∀ {x v : List Char}, Words x → x ≠ [] → NoSpace (x ++ v) := by
    intro x v hx hne
    cases x with
    | nil => exact absurd rfl hne
    | cons c x =>
      rintro w e
      simp only [List.cons_append, List.cons.injEq] at e
      have := hx c (by simp)
      rw [e.1] at this
      exact absurd this (by decide)
  obtain ⟨e1, e2⟩ := words_stop e h1.markW h2.markW (hs _ _) (hs _ _)
  obtain ⟨_, e3⟩ := spaces_noSpace e2 (hw h1.nameW h1.name_ne) (hw h2.nameW h2.name_ne)
  obtain ⟨e4, e5⟩ := words_stop e3 h1.nameW h2.nameW h1.stop h2.stop
  exact ⟨e1, e4, e5⟩

/-- A marker and a name at the end of the text do not begin a chunk. -/
theorem named_end {q mark name : List Char} {gap : Nat} (h1 : Named q mark gap name []) : ¬ Starts q := by
  rintro ⟨ch, hc, u, e, _⟩
  obtain ⟨d, ds, hd, hl⟩ := hc.note_head
  have h2 : Named q ch.mark ch.gap ch.name (ch.note ++ (arrowText ++ (ch.saltText ++ u))) :=
    ⟨by rw [e]; simp [headText, lead], hc.mark, hc.name, hc.name_ne, by
      intro c v e
      rw [hd] at e
      simp only [List.cons_append, List.cons.injEq] at e
      rw [← e.1]
      exact hl⟩
  have := (named_unique h1 h2).2.2
  rw [hd] at this
  cases this

end Mxt

/-- What a new MXT reader has read is a document: chunks with names, arrows and salts, none of which has the marker of the next one in its content.  It is read as far as possible, and the map
functions were given its names and contents in their order, and perhaps the name of a further chunk, see `C81_name_violated`. -/
theorem C81_sound_partial (rt : Rt) (s s' : Scanner) (h : Bytes) (t : List Char) (hj : s.heap.janus 0 = []) (hb : Between s h (encText t)) (m : Nat)
    (hr : read rt Mxt.mapped m Mxt.reader s = .ret (none, s')) :
    ∃ c cs rest names toks, t = c.text ++ (mxtRest cs ++ rest) ∧ MxtOk c cs ∧ MxtTail (mxtLast c cs) rest ∧ MxtHalf rest names ∧
      Between s' (h ++ encText (c.text ++ mxtRest cs)) (encText rest) ∧
      s'.heap.maps = s.heap.maps ++ toks ∧ toks.map (fun t => (t.1, s'.get t.2)) = (mxtYields c cs ++ names.map fun n => (0, n)).map fun e : Nat × List Char => (e.1, .ret (encText e.2)) := by
  by_cases ht : MxtStarts t
  · obtain ⟨n, s1, c, cs, rest, names, toks, r1, r2⟩ := Mxt.reads_yes rt s h t hj hb ht
    have e1 := r1 (m + n) (by omega)
    rw [read_mono (by omega) hr] at e1
    cases e1
    exact ⟨c, cs, rest, names, toks, r2⟩
  · obtain ⟨n, e, s1, names, toks, r1, _⟩ := Mxt.reads_no rt s h t hb ht
    have e1 := r1 (m + n) (by omega)
    rw [read_mono (by omega) hr] at e1
    cases e1

open Spec.Mxt in
/-- A line behind a chunk with the marker of a next one and a name, but no arrow, is not read.  The map function of names is given the name all the same. -/
theorem C81_name_violated (rt : Rt) (s : Scanner) (h : Bytes) (c : MxtChunk) (hc : c.Ok) (l : Bool) (hl : ∀ l' cs, c.body = some (l', cs) → l = false → cs.getLast? ≠ some '\r')
    (gap : Nat) (name : List Char) (hw : Words name) (hne : name ≠ []) (hj : s.heap.janus 0 = [])
    (hb : Between s h (encText (c.text ++ (nl l ++ (slashes ++ (c.salt ++ (spaces (gap + 1) ++ name))))))) :
    ∃ n s' toks, (∀ m, n ≤ m → read rt Mxt.mapped m Mxt.reader s = .ret (none, s')) ∧
      Between s' (h ++ encText c.text) (encText (nl l ++ (slashes ++ (c.salt ++ (spaces (gap + 1) ++ name))))) ∧
      s'.heap.maps = s.heap.maps ++ toks ∧ toks.map (fun t => (t.1, s'.get t.2)) = (c.yields ++ [(0, name)]).map fun e : Nat × List Char => (e.1, .ret (encText e.2)) := by
  have hq : Mxt.Named (slashes ++ (c.salt ++ (spaces (gap + 1) ++ name))) c.salt gap name [] := ⟨by simp, hc.salt, hw, hne, by simp [Mxt.Stop]⟩
  have hbe : c.Before l ⟨c.salt, 0, [], [], 0, [], 0, none⟩ := ⟨⟨[], by simp⟩, hl⟩
  have hja := Mxt.after_zero c hj
  have g1 := Mxt.chunk (rt := rt) (h := h) (M := s.heap.maps) (q := nl l ++ (slashes ++ (c.salt ++ (spaces (gap + 1) ++ name)))) c [] hc.toHead (.inr ⟨l, _, _, rfl, hja⟩)
    (Mxt.clean_of c hc.salt hc.clean (.inl hja) (.inr ⟨l, _, _, hbe, rfl⟩))
  obtain ⟨ex, j', e1, e2⟩ := Mxt.chunk_no (rt := rt) (h := h) (p := c.text ++ nl l) (q := slashes ++ (c.salt ++ (spaces (gap + 1) ++ name))) (j := upd (Mxt.after c s.heap.janus) 0 [])
    (M := s.heap.maps ++ (Mxt.picks [] c).map (Mxt.tk h)) (Mxt.named_end hq)
  have g2 := Gives.zom_stop (Gives.seq_no (rs := [.rule Mxt.iNL, .rule Mxt.iChunk]) (.cons (Mxt.nl_yes l) (.fail e2)))
  have g3 := Gives.grammar (w := b!"mxt") (Gives.rule (i := Mxt.iChunks) (nm := b!"chunks") rfl (Gives.seq (.cons g1 (.cons (by
    rw [Mxt.fin, if_neg (Mxt.nl_ne l)]
    exact g2) .nil))))
  obtain ⟨n, e, s', r1, r2, r3⟩ := Gives.reads (s := s) g3 ⟨by simpa [CV, encText_nil] using hb, rfl, rfl⟩
  obtain ⟨pp, hex, hpp⟩ : ∃ pp, ex = [(0, pp, name)] ∧ Mxt.In (c.text ++ (nl l ++ (slashes ++ (c.salt ++ (spaces (gap + 1) ++ name))))) (0, pp, name) := by
    cases e1 with
    | none hn => exact absurd hq (hn _ _ _ _)
    | name hn =>
      rename_i mark' gap' name' u'
      obtain ⟨k1, k2, k3⟩ := Mxt.named_unique hq hn
      subst k1 k2 k3
      exact ⟨_, rfl, [], by
        have := hn.text
        rw [this]
        simp⟩
  cases e with
  | some e => cases r2
  | none =>
    have hbs : Between s' (h ++ encText c.text) (encText (nl l ++ (slashes ++ (c.salt ++ (spaces (gap + 1) ++ name))))) := by simpa [CV, View.back] using r3.1
    have hm : s'.heap.maps = s.heap.maps ++ (Mxt.picks [] c ++ [(0, pp, name)]).map (Mxt.tk h) := by
      have := r3.2.2
      rw [hex] at this
      simpa [CV, View.back] using this
    refine ⟨n, s', _, r1, hbs, hm, ?_⟩
    have e1 : c.yields ++ [(0, name)] = (Mxt.picks [] c ++ [(0, pp, name)]).map fun e : Nat × List Char × List Char => (e.1, e.2.2) := by
      rw [List.map_append, Mxt.picks_yields]
      rfl
    rw [e1, List.map_map, List.map_map]
    refine List.map_congr_left fun e he => ?_
    have hf : s'.full = h ++ encText (c.text ++ (nl l ++ (slashes ++ (c.salt ++ (spaces (gap + 1) ++ name))))) := by rw [hbs.1]; simp only [encText_append, List.append_assoc]
    have hi : Mxt.In (c.text ++ (nl l ++ (slashes ++ (c.salt ++ (spaces (gap + 1) ++ name))))) e := by
      rcases List.mem_append.mp he with he | he
      · simpa using Mxt.picks_in [] c (nl l ++ (slashes ++ (c.salt ++ (spaces (gap + 1) ++ name)))) e he
      · rw [List.mem_singleton.mp he]
        exact hpp
    simp only [Function.comp_apply, Mxt.get_tk hf hi]
    rfl

/-- A new reader reports an error exactly if the text does not begin with a header that is followed by a line break or the end of the text; it always comes to an end. -/
theorem C81_error (rt : Rt) (s : Scanner) (h : Bytes) (t : List Char) (hj : s.heap.janus 0 = []) (hb : Between s h (encText t)) :
    (MxtStarts t ∧ ∃ n s', ∀ m, n ≤ m → read rt Mxt.mapped m Mxt.reader s = .ret (none, s')) ∨
    (¬ MxtStarts t ∧ ∃ n e s', (∀ m, n ≤ m → read rt Mxt.mapped m Mxt.reader s = .ret (some e, s')) ∧ s'.pos = s.pos) := by
  by_cases ht : MxtStarts t
  · obtain ⟨n, s1, c, cs, rest, names, toks, r1, r2⟩ := Mxt.reads_yes rt s h t hj hb ht
    exact .inl ⟨ht, n, s1, r1⟩
  · obtain ⟨n, e, s1, names, toks, r1, r2, _⟩ := Mxt.reads_no rt s h t hb ht
    exact .inr ⟨ht, n, e, s1, r1, by rw [r2.2, hb.2]⟩

/-- The texts that a new reader reads to the end are exactly the documents. -/
theorem C81_exact (rt : Rt) (s : Scanner) (h : Bytes) (t : List Char) (hj : s.heap.janus 0 = []) (hb : Between s h (encText t)) :
    (∃ n s', read rt Mxt.mapped n Mxt.reader s = .ret (none, s') ∧ s'.pos = s'.full.length) ↔ ∃ c cs, t = c.text ++ mxtRest cs ∧ MxtOk c cs := by
  constructor
  · rintro ⟨n, s', h1, h2⟩
    obtain ⟨c, cs, rest, names, toks, r1, r2, r3, r4, r5, r6⟩ := C81_sound_partial rt s s' h t hj hb n h1
    refine ⟨c, cs, ?_, r2⟩
    rw [r5.1, r5.2] at h2
    cases rest with
    | nil => rw [r1, List.append_nil]
    | cons d rest =>
      have := encText_ne_nil d rest
      have : 0 < (encText (d :: rest)).length := List.length_pos_iff.mpr this
      simp only [List.length_append] at h2
      omega
  · rintro ⟨c, cs, rfl, h2⟩
    obtain ⟨n, s', toks, r1, r2, _⟩ := C54_document rt s h c cs h2 hj hb
    exact ⟨n, s', r1 n (Nat.le_refl n), by rw [r2.1, r2.2]; simp⟩

theorem Mxt.mapped_dress : Mxt.mapped = dress (fun i => if i = 5 then [.map 0] else if i = 9 then [.map 1] else if i = 10 then [.map 2] else []) Mxt.env := rfl

/-- The same for the grammar without map functions. -/
theorem C81_plain (rt : Rt) (s : Scanner) (h : Bytes) (t : List Char) (hj : s.heap.janus 0 = []) (hb : Between s h (encText t)) :
    (∃ n s', read rt Mxt.env n Mxt.reader s = .ret (none, s') ∧ s'.pos = (h ++ encText t).length) ↔ ∃ c cs, t = c.text ++ mxtRest cs ∧ MxtOk c cs := by
  have key := C44_rules_partial rt Mxt.env ((Env.everyB_sound (p := Reader.tameB) (by decide)).imp fun _ => tame_of_B) (restoresB_env (by decide))
    (fun i => if i = 5 then [.map 0] else if i = 9 then [.map 1] else if i = 10 then [.map 2] else []) Mxt.reader (.mk trivial fun c hc => by
      rw [List.mem_singleton.mp hc]
      exact .mk trivial (by simp [Reader.subs])) s hb.inside none (h ++ encText t).length
  rw [← Mxt.mapped_dress] at key
  rw [key, ← C81_exact rt s h t hj hb]
  constructor
  · rintro ⟨n, s', h1, h2⟩
    obtain ⟨c, cs, rest, names, toks, r1, r2, r3, r4, r5, r6⟩ := C81_sound_partial rt s s' h t hj hb n h1
    refine ⟨n, s', h1, ?_⟩
    rw [h2, r5.1, r1]
    simp [encText_append]
  · rintro ⟨n, s', h1, h2⟩
    obtain ⟨c, cs, rest, names, toks, r1, r2, r3, r4, r5, r6⟩ := C81_sound_partial rt s s' h t hj hb n h1
    refine ⟨n, s', h1, ?_⟩
    rw [h2, r5.1, r1]
    simp [encText_append]

/-- A document behind which a line is left, and the name in that line. -/
example (rt : Rt) : ∃ n s' toks, (∀ m, n ≤ m → read rt Mxt.mapped m Mxt.reader (.new b!"// a --> X\nu\n//X b" Heap.empty) = .ret (none, s')) ∧ s'.pos = 12 ∧
    s'.heap.maps = toks ∧ toks.map (fun t => (t.1, s'.get t.2)) = [(0, .ret b!"a"), (2, .ret b!"u"), (0, .ret b!"b")] := by
  obtain ⟨n, s', toks, h1, h2, h3, h4⟩ := C81_name_violated rt (.new b!"// a --> X\nu\n//X b" Heap.empty) [] Mxt.exA Mxt.exA_ok false (by intro l cs e _; cases e; simp) 0 ['b']
    (by simp [Spec.Mxt.Words]) (by simp) rfl ⟨rfl, rfl⟩
  exact ⟨n, s', toks, h1, h2.2, h3, h4⟩

/-- A text that is a document, and one that is none. -/
example (rt : Rt) : (∃ n s', read rt Mxt.env n Mxt.reader (.new b!"// a --> X\nu" Heap.empty) = .ret (none, s') ∧ s'.pos = 12) ∧
    ∃ e s', read rt Mxt.env 40 Mxt.reader (.new b!"// a --> X u" Heap.empty) = .ret (some e, s') :=
  ⟨(C81_plain rt (.new b!"// a --> X\nu" Heap.empty) [] "// a --> X\nu".toList rfl ⟨rfl, rfl⟩).mpr ⟨Mxt.exA, [], rfl, Mxt.exA_ok⟩, _, _, rfl⟩

end Tok
