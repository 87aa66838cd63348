/-
C82. The MXT grammar on files that need not be UTF-8.
-/
import Verif.Proofs.MxtBytes

namespace Tok
open Spec Spec.MxtB

/-- What the MXT reader does on a text: it does not come to an end, or reports an error and stays where it was, or reads a number of chunks. -/
theorem C82_cases (rt : Rt) (s : Scanner) (h t : Bytes) (hj : s.heap.janus 0 = []) (hb : Between s h t) :
    (MxtHangs t ∧ ∀ n, read rt Mxt.mapped n Mxt.reader s = .timeout) ∨
    (¬ PartHere t ∧ ¬ StuckHere t ∧ ∃ n e s' names toks, (∀ m, n ≤ m → read rt Mxt.mapped m Mxt.reader s = .ret (some e, s')) ∧ Between s' h t ∧
      ((names = [] ∧ ∀ mark gap name u, ¬ NameHere t mark gap name u) ∨ ∃ mark gap name u, NameHere t mark gap name u ∧ names = [name]) ∧
      s'.heap.maps = s.heap.maps ++ toks ∧ toks.map (fun t => (t.1, s'.get t.2)) = names.map fun x => (0, .ret x)) ∨
    ∃ c cs rest, t = c.text ++ (partsText cs ++ rest) ∧ PartsAt c cs rest ∧ PartsOver rest ∧ (∀ l q, rest = nl l ++ q → ¬ StuckHere q) ∧
      ∃ n s' names toks, (∀ m, n ≤ m → read rt Mxt.mapped m Mxt.reader s = .ret (none, s')) ∧ Between s' (h ++ (c.text ++ partsText cs)) rest ∧ HalfPart rest names ∧
      s'.heap.maps = s.heap.maps ++ toks ∧ toks.map (fun t => (t.1, s'.get t.2)) = (partsYield c cs ++ names.map fun n => (0, n)).map fun e : Nat × Bytes => (e.1, .ret e.2) := by
  have hv : Views s ⟨h, t, s.heap.janus, s.heap.maps⟩ := ⟨hb, rfl, rfl⟩
  by_cases hs : StuckHere t
  · exact .inl ⟨.inl hs, fun n => MxtB.doc_stuck hs n s hv⟩
  by_cases hp : PartHere t
  · obtain ⟨c, cs, rest, rfl, h1, h2⟩ := MxtB.parts_ex _ t (Nat.le_refl _) hp
    by_cases h3 : ∃ l q, rest = nl l ++ q ∧ StuckHere q
    · obtain ⟨l, q, rfl, h4⟩ := h3
      exact .inl ⟨.inr ⟨c, cs, l, q, rfl, h1, h4⟩, fun n => MxtB.doc_never hj h1 h4 n s hv⟩
    have h3 : ∀ l q, rest = nl l ++ q → ¬ StuckHere q := fun l q e hq => h3 ⟨l, q, e, hq⟩
    refine .inr (.inr ⟨c, cs, rest, rfl, h1, h2, h3, ?_⟩)
    obtain ⟨ex, j', k1, k2⟩ := MxtB.doc_gives (rt := rt) (h := h) (M := s.heap.maps) hj h1 h2 h3
    obtain ⟨n, e, s', r1, r2, r3⟩ := k2.reads hv
    cases e with
    | some e => cases r2
    | none =>
      have hf : s'.full = h ++ (c.text ++ (partsText cs ++ rest)) := by simpa using r3.1.1
      obtain ⟨names, m1, m2, m3⟩ : ∃ names : List Bytes, ex.map (fun e => (e.1, e.2.2)) = names.map (fun n => (0, n)) ∧ HalfPart rest names ∧ ∀ e ∈ ex, MxtB.Lies s'.full e := by
        rcases k1 with ⟨rfl, rfl⟩ | ⟨l, q', rfl, hx⟩
        · exact ⟨[], rfl, .inl ⟨rfl, fun l q _ _ _ _ e => absurd e.symm (MxtB.nl_ne l)⟩, by simp⟩
        · obtain ⟨names, k1, k2, k3⟩ := MxtB.half_names hx
          refine ⟨names, k1, ?_, fun e he => by rw [hf]; simpa using k3 e he⟩
          rcases k2 with ⟨k2, k4⟩ | ⟨mark, gap, name, u, k2, k4⟩
          · exact .inl ⟨k2, fun l' q mark gap name u e hm => k4 mark gap name u (by rw [MxtB.nl_inj e]; exact hm)⟩
          · exact .inr ⟨l, q', mark, gap, name, u, rfl, k2, k4⟩
      refine ⟨n, s', names, _, r1, by simpa using r3.1, m2, r3.2.2, MxtB.gets_of ?_ ?_⟩
      · intro e he
        rcases List.mem_append.mp he with he | he
        · rcases List.mem_append.mp he with he | he
          · rw [hf]; exact MxtB.picks_in h c _ e he
          · obtain ⟨b, hb⟩ := MxtB.restPicks_in cs _ e he
            exact ⟨b ++ rest, by rw [hf, ← List.append_assoc, ← List.append_assoc, hb, List.append_assoc]⟩
        · exact m3 e he
      · rw [List.map_append, List.map_append, MxtB.picks_yields, MxtB.restPicks_yields, m1]
        rfl
  · refine .inr (.inl ⟨hp, hs, ?_⟩)
    obtain ⟨ex, j', k1, k2⟩ := MxtB.doc_no (rt := rt) (h := h) (M := s.heap.maps) hj hp hs
    obtain ⟨n, e, s', r1, r2, r3⟩ := k2.reads hv
    obtain ⟨names, m1, m2, m3⟩ := MxtB.half_names k1
    cases e with
    | none => cases r2
    | some e =>
      refine ⟨n, e, s', names, _, r1, r3.1, m2, r3.2.2, ?_⟩
      rw [MxtB.gets_of (fun e he => by rw [r3.1.1]; exact m3 e he) m1, List.map_map]
      rfl

/-- The reader hangs on these texts and no others. -/
theorem C82_hang (rt : Rt) (s : Scanner) (h t : Bytes) (hj : s.heap.janus 0 = []) (hb : Between s h t) :
    (∀ n, read rt Mxt.mapped n Mxt.reader s = .timeout) ↔ MxtHangs t := by
  constructor
  · intro hn
    rcases C82_cases rt s h t hj hb with ⟨h1, _⟩ | ⟨_, _, n, e, s', _, _, r, _⟩ | ⟨_, _, _, _, _, _, _, n, s', _, _, r, _⟩
    · exact h1
    · have := r n (Nat.le_refl n); rw [hn] at this; cases this
    · have := r n (Nat.le_refl n); rw [hn] at this; cases this
  · have hv : Views s ⟨h, t, s.heap.janus, s.heap.maps⟩ := ⟨hb, rfl, rfl⟩
    rintro (hs | ⟨c, cs, l, q, rfl, h1, h2⟩) n
    · exact MxtB.doc_stuck hs n s hv
    · exact MxtB.doc_never hj h1 h2 n s hv

/-- It reports an error on these texts and no others. -/
theorem C82_error (rt : Rt) (s : Scanner) (h t : Bytes) (hj : s.heap.janus 0 = []) (hb : Between s h t) :
    (∃ n e s', read rt Mxt.mapped n Mxt.reader s = .ret (some e, s')) ↔ ¬ PartHere t ∧ ¬ StuckHere t := by
  constructor
  · rintro ⟨n, e, s', hr⟩
    rcases C82_cases rt s h t hj hb with ⟨_, h1⟩ | ⟨h1, h2, _⟩ | ⟨_, _, _, _, _, _, _, m, s1, _, _, r, _⟩
    · rw [h1] at hr; cases hr
    · exact ⟨h1, h2⟩
    · have := r (m + n) (by omega); rw [read_mono (by omega) hr] at this; cases this
  · rintro ⟨h1, h2⟩
    rcases C82_cases rt s h t hj hb with ⟨h3, h4⟩ | ⟨_, _, n, e, s', _, _, r, _⟩ | ⟨c, cs, rest, rfl, h3, _⟩
    · rcases h3 with h3 | ⟨c, cs, l, q, rfl, h3, _⟩
      · exact absurd h3 h2
      · exact absurd ⟨c, _, rfl, MxtB.parts_first h3⟩ h1
    · exact ⟨n, e, s', r n (Nat.le_refl n)⟩
    · exact absurd ⟨c, _, rfl, MxtB.parts_first h3⟩ h1

/-- It reads these texts to the end and no others. -/
theorem C82_end (rt : Rt) (s : Scanner) (h t : Bytes) (hj : s.heap.janus 0 = []) (hb : Between s h t) :
    (∃ n s', read rt Mxt.mapped n Mxt.reader s = .ret (none, s') ∧ Between s' (h ++ t) []) ↔ ∃ c cs, t = c.text ++ partsText cs ∧ PartsAt c cs [] := by
  constructor
  · rintro ⟨n, s', hr, hs⟩
    rcases C82_cases rt s h t hj hb with ⟨_, h1⟩ | ⟨_, _, m, e, s1, _, _, r, _⟩ | ⟨c, cs, rest, e, h1, _, _, m, s1, _, _, r, r2, _⟩
    · rw [h1] at hr; cases hr
    · have := r (m + n) (by omega); rw [read_mono (by omega) hr] at this; cases this
    · have := r (m + n) (by omega)
      rw [read_mono (by omega) hr] at this
      cases this
      have e1 := hs.2
      have e2 := r2.2
      rw [e1, e] at e2
      have : rest = [] := List.eq_nil_of_length_eq_zero (by simp at e2; omega)
      subst this
      exact ⟨c, cs, by simpa using e, h1⟩
  · rintro ⟨c, cs, rfl, h1⟩
    obtain ⟨ex, j', _, k2⟩ := MxtB.doc_gives (rt := rt) (h := h) (M := s.heap.maps) (rest := []) hj h1 (.inl rfl) (fun l q e => absurd e.symm (MxtB.nl_ne l))
    obtain ⟨n, e, s', r1, r2, r3⟩ := k2.reads (s := s) ⟨by simpa using hb, rfl, rfl⟩
    cases e with
    | some e => cases r2
    | none => exact ⟨n, s', r1 n (Nat.le_refl n), by simpa using r3.1⟩

/-- What it has read to the end was given to the map functions byte for byte. -/
theorem C82_yields (rt : Rt) (s : Scanner) (h : Bytes) (c : MxtPart) (cs : List (Bool × MxtPart)) (hp : PartsAt c cs []) (hj : s.heap.janus 0 = []) (hb : Between s h (c.text ++ partsText cs)) :
    ∃ n s' toks, (∀ m, n ≤ m → read rt Mxt.mapped m Mxt.reader s = .ret (none, s')) ∧ Between s' (h ++ (c.text ++ partsText cs)) [] ∧
      s'.heap.maps = s.heap.maps ++ toks ∧ toks.map (fun t => (t.1, s'.get t.2)) = (partsYield c cs).map fun e : Nat × Bytes => (e.1, .ret e.2) := by
  obtain ⟨ex, j', k1, k2⟩ := MxtB.doc_gives (rt := rt) (h := h) (M := s.heap.maps) (rest := []) hj hp (.inl rfl) (fun l q e => absurd e.symm (MxtB.nl_ne l))
  obtain ⟨n, e, s', r1, r2, r3⟩ := k2.reads (s := s) ⟨by simpa using hb, rfl, rfl⟩
  have hx : ex = [] := by
    rcases k1 with ⟨_, h⟩ | ⟨l, q, e, _⟩
    · exact h
    · exact absurd e.symm (MxtB.nl_ne l)
  subst hx
  cases e with
  | some e => cases r2
  | none =>
    have hf : s'.full = h ++ (c.text ++ partsText cs) := by simpa using r3.1.1
    refine ⟨n, s', _, r1, by simpa using r3.1, r3.2.2, MxtB.gets_of ?_ ?_⟩
    · intro e he
      rw [List.append_nil] at he
      rcases List.mem_append.mp he with he | he
      · rw [hf]; exact MxtB.picks_in h c _ e he
      · rw [hf, ← List.append_assoc]; exact MxtB.restPicks_in cs _ e he
    · rw [List.append_nil, List.map_append, MxtB.picks_yields, MxtB.restPicks_yields]
      rfl

namespace MxtB

/-- The last bytes of a text at which a search makes no step: a byte that begins no character, and perhaps one more below 0x80. -/
def Stray (e : Bytes) : Prop := ∃ b, 0x80 ≤ b.toNat ∧ (e = [b] ∨ ∃ x, x.toNat < 0x80 ∧ e = [b, x])

theorem Stray.no_hop {e : Bytes} (he : Stray e) : ¬ ∃ u, Hop e u := by
  rintro ⟨u, hu⟩
  obtain ⟨b, hb, he⟩ := he
  cases hu with
  | char c u =>
    obtain ⟨b', cs, hc, _, hcs, h1, h2, _⟩ := enc_shape c
    rw [hc] at he
    cases cs with
    | nil =>
      have := (h1 rfl).1
      rcases he with he | ⟨x, _, he⟩ <;> simp only [List.cons_append, List.nil_append, List.cons.injEq] at he <;> (rw [he.1] at this; omega)
    | cons d ds =>
      have := hcs d (by simp)
      rcases he with he | ⟨x, hx, he⟩ <;> simp at he
      rw [← he.2.1] at hx
      simp [isCont] at this
      omega
  | junk b' b1 b2 u h =>
    rcases he with he | ⟨x, _, he⟩ <;> simp at he

theorem Stray.head {e : Bytes} (he : Stray e) : ∃ b v, e = b :: v ∧ 0x80 ≤ b.toNat := by
  obtain ⟨b, hb, rfl | ⟨x, _, rfl⟩⟩ := he
  · exact ⟨b, [], rfl, hb⟩
  · exact ⟨b, [x], rfl, hb⟩

/-- ASCII text does not go beyond a byte from 0x80 on. -/
theorem prefix_high {b : UInt8} {v : Bytes} (hb : 0x80 ≤ b.toNat) : ∀ {p w : Bytes}, (∀ x ∈ p, x.toNat < 0x80) → p <+: w ++ b :: v → p <+: w
  | [], _, _, _ => List.nil_prefix
  | x :: p, [], hp, h => by
    have := hp x (by simp)
    simp only [List.nil_append, List.cons_prefix_cons] at h
    rw [h.1] at this
    omega
  | x :: p, y :: w, hp, h => by
    simp only [List.cons_append, List.cons_prefix_cons] at h ⊢
    exact ⟨h.1, prefix_high hb (fun z hz => hp z (by simp [hz])) h.2⟩

theorem infix_of_suffix {p a b : Bytes} (hp : p <+: b) : p <:+: a ++ b := by
  obtain ⟨u, rfl⟩ := hp
  exact ⟨a, u, by simp⟩

theorem no_arrow {z : List Char} {b : UInt8} {v : Bytes} (hb : 0x80 ≤ b.toNat) (hz : ¬ b!"-->" <:+: encText z) : ∀ a c, z = a ++ c → ¬ Arrow (encText c ++ b :: v) := by
  rintro a c rfl h
  exact hz (by rw [encText_append]; exact infix_of_suffix (prefix_high hb (by decide) h))

theorem next_prefix {x u : Bytes} (h : Next x u) : b!"\n//" <+: u ∨ b!"\r\n//" <+: u := by
  obtain ⟨l, v, rfl⟩ := h
  cases l
  · exact .inl ⟨x ++ v, rfl⟩
  · exact .inr ⟨x ++ v, rfl⟩

theorem no_next {x : Bytes} {z : List Char} {b : UInt8} {v : Bytes} (hb : 0x80 ≤ b.toNat) (hz : ¬ b!"\n//" <:+: encText z) : ∀ a c, z = a ++ c → ¬ Next x (encText c ++ b :: v) := by
  rintro a c rfl h
  refine hz ?_
  rw [encText_append]
  rcases next_prefix h with h | h
  · exact infix_of_suffix (prefix_high hb (by decide) h)
  · obtain ⟨u, hu⟩ := prefix_high hb (by decide) h
    exact ⟨encText a ++ b!"\r", u, by rw [← hu]; simp⟩

theorem no_next_end {x : Bytes} {z : List Char} (hz : ¬ b!"\n//" <:+: encText z) : ∀ a c, z = a ++ c → ¬ Next x (encText c) := by
  rintro a c rfl h
  refine hz ?_
  rw [encText_append]
  rcases next_prefix h with h | h
  · exact infix_of_suffix h
  · obtain ⟨u, hu⟩ := h
    exact ⟨encText a ++ b!"\r", u, by rw [← hu]; simp⟩

theorem misses_chars {P : Bytes → Prop} {e : Bytes} (he : ¬ ∃ u, Hop e u) : ∀ {z : List Char}, (∀ a c, z = a ++ c → ¬ P (encText c ++ e)) → Misses P (encText z ++ e) e
  | [], hP => by simpa [encText_nil] using Misses.stop (by simpa [encText_nil] using hP [] [] rfl) he
  | c :: z, hP => by
    refine .hop (hP [] _ rfl) (u := encText z ++ e) ?_ (misses_chars he fun a d h => hP (c :: a) d (by rw [h]; rfl))
    rw [encText_cons, List.append_assoc]
    exact Hop.char c _

theorem finds_chars {P : Bytes → Prop} {e u : Bytes} (he : Finds P e u) : ∀ {z : List Char}, (∀ a c, z = a ++ c → c ≠ [] → ¬ P (encText c ++ e)) → Finds P (encText z ++ e) u
  | [], _ => by simpa [encText_nil] using he
  | c :: z, hP => by
    refine .hop (hP [] _ rfl (by simp)) (u := encText z ++ e) ?_ (finds_chars he fun a d h => hP (c :: a) d (by rw [h]; rfl))
    rw [encText_cons, List.append_assoc]
    exact Hop.char c _

/-- A chunk whose content the search does not come through. -/
theorem chunk_cut {rt : Rt} {h v e : Bytes} {j : Nat → Bytes} {M : List (Nat × Token)} (c : MxtPart) (l : Bool) (hj : j 0 = []) (hc : c.HeadAt (nl l ++ v)) (hn : ¬ Next c.salt (nl l ++ v)) (hm : Misses (Close c.salt) v e) :
    Gives rt Mxt.mapped (.rule Mxt.iChunk) ⟨h, c.headText ++ (nl l ++ v), j, M⟩ false ⟨h, c.headText ++ (nl l ++ v), after c j, M ++ [tk (0, h ++ c.lead, c.name)]⟩ := by
  have g4 := header (rt := rt) (h := h) (j := j) (M := M) c hc (greedy_of c (.inr ⟨l, v, rfl⟩))
  have hj' := after_zero c hj
  have g6 := empty_no (rt := rt) (h := h ++ c.headText) (M := M ++ [tk (0, h ++ c.lead, c.name)]) hj' (not_close l hn)
  have g5 := Gives.seq_no (rs := [.rule Mxt.iNL, .rule Mxt.iContent]) (.cons (nl_yes (rt := rt) (h := h ++ c.headText) (q := v) (j := after c j) (M := M ++ [tk (0, h ++ c.lead, c.name)]) l)
    (.fail (Gives.rule (i := Mxt.iContent) (nm := b!"content") rfl (Gives.map_no (f := 2) (content_no hj' hm)))))
  have g7 : Gives rt Mxt.mapped (.any [.rule Mxt.iEmptyContent, .seq [.rule Mxt.iNL, .rule Mxt.iContent]]) ⟨h ++ c.headText, nl l ++ v, after c j, M ++ [tk (0, h ++ c.lead, c.name)]⟩ false ⟨h ++ c.headText, nl l ++ v, after c j, M ++ [tk (0, h ++ c.lead, c.name)]⟩ :=
    .any_no (b := ⟨h ++ c.headText, nl l ++ v, after c j, M ++ [tk (0, h ++ c.lead, c.name)]⟩) (.next g6 (.next g5 .nil))
  exact .rule (nm := b!"chunk") rfl (Gives.seq_no (b := ⟨h ++ c.headText, nl l ++ v, after c j, M ++ [tk (0, h ++ c.lead, c.name)]⟩) (.cons g4 (.fail g7)))

theorem nl_next (l : Bool) {x v : Bytes} (hv : ¬ b!"//" <+: v) : ¬ Next x (nl l ++ v) := by
  rintro ⟨l', w, e⟩
  rw [nl_inj e] at hv
  exact hv (List.prefix_append _ _)

end MxtB

/-- A marker, a name and a note without an arrow at the end of a file, the last byte or the last but one of which is no part of a character: the read never ends. -/
theorem C82_hang_violated (rt : Rt) (s : Scanner) (h mark name e : Bytes) (gap : Nat) (note : List Char) (hm : Words mark) (hw : Words name) (hne : name ≠ [])
    (ha : ¬ b!"-->" <:+: encText note) (he : MxtB.Stray e)
    (hb : Between s h (b!"//" ++ (mark ++ (spaces (gap + 1) ++ (name ++ (32 :: (encText note ++ e))))))) :
    ∀ n, read rt Mxt.mapped n Mxt.reader s = .timeout := by
  obtain ⟨b, v, hbv, hb8⟩ := he.head
  have hs : StuckHere (b!"//" ++ (mark ++ (spaces (gap + 1) ++ (name ++ (32 :: (encText note ++ e)))))) := by
    refine ⟨mark, gap, name, _, e, ⟨rfl, hm, hw, hne, ?_⟩, ?_, by rw [hbv]; simp⟩
    · rintro x y e
      cases e
      decide
    · refine .hop ?_ (Hop.char ' ' _) (MxtB.misses_chars he.no_hop ?_)
      · rintro ⟨w, hw⟩
        simp at hw
      · rw [hbv]
        exact MxtB.no_arrow hb8 ha
  exact fun n => MxtB.doc_stuck hs n s ⟨hb, rfl, rfl⟩

/-- A file with such an end in a content is refused, though the content up to there was found. -/
theorem C82_content_violated (rt : Rt) (s : Scanner) (h e : Bytes) (c : MxtPart) (l : Bool) (z : List Char) (hz : ¬ b!"\n//" <:+: encText z) (h2 : ¬ b!"//" <+: encText z) (he : MxtB.Stray e)
    (hc : c.HeadAt (nl l ++ (encText z ++ e))) (hj : s.heap.janus 0 = []) (hb : Between s h (c.headText ++ (nl l ++ (encText z ++ e)))) :
    ∃ n err s' tok, (∀ m, n ≤ m → read rt Mxt.mapped m Mxt.reader s = .ret (some err, s')) ∧ Between s' h (c.headText ++ (nl l ++ (encText z ++ e))) ∧
      s'.heap.maps = s.heap.maps ++ [(0, tok)] ∧ s'.get tok = .ret c.name := by
  obtain ⟨b, v, hbv, hb8⟩ := he.head
  have hn : ¬ b!"//" <+: encText z ++ e := by
    rw [hbv]
    exact fun h => h2 (MxtB.prefix_high hb8 (by decide) h)
  have hm : Misses (Close c.salt) (encText z ++ e) e := by
    refine MxtB.misses_chars he.no_hop fun a d hd hcl => ?_
    rcases hcl with hcl | hcl
    · rw [hbv] at hcl; simp at hcl
    · rw [hbv] at hcl
      exact MxtB.no_next hb8 hz a d hd hcl
  have g := MxtB.chunk_cut (rt := rt) (h := h) (M := s.heap.maps) c l hj hc (MxtB.nl_next l hn) hm
  have g := Gives.grammar (w := b!"mxt") (Gives.rule (i := Mxt.iChunks) (nm := b!"chunks") rfl (Gives.seq_no (rs := [.rule Mxt.iChunk, MxtB.again]) (.fail g)))
  obtain ⟨n, err, s', r1, r2, r3⟩ := Gives.reads (s := s) g ⟨hb, rfl, rfl⟩
  cases err with
  | none => cases r2
  | some err =>
    refine ⟨n, err, s', _, r1, r3.1, r3.2.2, MxtB.get_tk (e := (0, h ++ c.lead, c.name)) ?_⟩
    rw [r3.1.1]
    exact ⟨c.note ++ (b!"-->" ++ (c.saltText ++ (nl l ++ (encText z ++ e)))), by simp [MxtPart.headText, View.back]⟩

/-- A byte that is no part of a character in front of a line break: the line below is part of the content, whatever marker, name and arrow it may have. -/
theorem C82_marker_violated (rt : Rt) (s : Scanner) (h : Bytes) (c : MxtPart) (l : Bool) (z w : List Char) (b : UInt8) (hb8 : 0x80 ≤ b.toNat)
    (hz : ¬ b!"\n//" <:+: encText z) (h2 : ¬ b!"//" <+: encText z) (hw : ¬ b!"\n//" <:+: encText w)
    (hbody : c.body = some (l, encText z ++ b :: (b!"\n//" ++ encText w))) (hc : c.HeadAt c.bodyText) (hj : s.heap.janus 0 = []) (hb : Between s h c.text) :
    ∃ n s' toks, (∀ m, n ≤ m → read rt Mxt.mapped m Mxt.reader s = .ret (none, s')) ∧ Between s' (h ++ c.text) [] ∧
      s'.heap.maps = s.heap.maps ++ toks ∧ toks.map (fun t => (t.1, s'.get t.2)) = [(0, .ret c.name), (2, .ret (encText z ++ b :: (b!"\n//" ++ encText w)))] := by
  have hp : PartsAt c [] [] := by
    refine ⟨by simpa using hc, .inl rfl, fun l' cs e => ?_⟩
    rw [hbody] at e
    cases e
    rw [List.append_nil]
    refine ⟨MxtB.nl_next l fun h => h2 (MxtB.prefix_high hb8 (by decide) h), ?_⟩
    refine MxtB.finds_chars ?_ fun a d hd _ hcl => ?_
    · refine .hop ?_ (u := 47 :: encText w) (Hop.junk b 10 47 _ ?_) ?_
      · rintro (h | h)
        · cases h
        · exact MxtB.no_next (x := c.salt) (v := b!"\n//" ++ encText w) (z := []) hb8 (by simp [encText_nil]) [] [] rfl (by simpa [encText_nil] using h)
      · intro ch hch
        obtain ⟨b', cs, he, _, hcs, h1, _⟩ := enc_shape ch
        rw [he, List.cons_prefix_cons] at hch
        cases cs with
        | nil =>
          have := (h1 rfl).1
          rw [hch.1] at this
          omega
        | cons d ds =>
          have := hcs d (by simp)
          rw [List.cons_prefix_cons] at hch
          rw [hch.2.1] at this
          exact absurd this (by decide)
      · refine .hop ?_ (u := encText w) (Hop.char '/' _) ?_
        · rintro (h | h)
          · cases h
          · rcases MxtB.next_prefix h with h | h <;> simp [List.cons_prefix_cons] at h
        · have := MxtB.finds_chars (P := Close c.salt) (e := []) (u := []) (z := w) (.here (.inl rfl)) fun a d hd hne hcl => by
            rw [List.append_nil] at hcl
            rcases hcl with h | h
            · cases d with
              | nil => exact hne rfl
              | cons x d => exact encText_ne_nil x d h
            · exact MxtB.no_next_end hw a d hd h
          simpa using this
    · rcases hcl with h | h
      · simp at h
      · exact MxtB.no_next hb8 hz a d hd h
  obtain ⟨n, s', toks, r1, r2, r3, r4⟩ := C82_yields rt s h c [] hp hj (by simpa [partsText] using hb)
  refine ⟨n, s', toks, r1, by simpa [partsText] using r2, r3, ?_⟩
  rw [r4]
  simp [partsYield, MxtPart.yields, hbody]

namespace MxtB

theorem no_miss {P : Bytes → Prop} {t u e : Bytes} (ht : AsciiEnd t) (hu : u <:+ t) (hm : Misses P u e) : e = [] := by
  obtain ⟨⟨z, rfl⟩, _, hh⟩ := misses_end hm
  rcases no_hop hh with h | ⟨⟨b, v, rfl, hb⟩, hl⟩
  · exact h
  · have := ht (b :: v) ((List.suffix_append z _).trans hu) hl b (by simp)
    omega

theorem name_suffix {q mark name u : Bytes} {gap : Nat} (hn : NameHere q mark gap name u) : u <:+ q :=
  ⟨b!"//" ++ (mark ++ (spaces (gap + 1) ++ name)), by rw [hn.text]; simp⟩

end MxtB

/-- A file that ends with two ASCII bytes does not make the reader hang. -/
theorem C82_ends_partial (rt : Rt) (s : Scanner) (h t : Bytes) (hj : s.heap.janus 0 = []) (hb : Between s h t) (ht : AsciiEnd t) :
    ∃ n e s', ∀ m, n ≤ m → read rt Mxt.mapped m Mxt.reader s = .ret (e, s') := by
  have hn : ¬ MxtHangs t := by
    rintro (⟨mark, gap, name, u, e, hn, hm, he⟩ | ⟨c, cs, l, q, rfl, _, mark, gap, name, u, e, hn, hm, he⟩)
    · exact he (MxtB.no_miss ht (MxtB.name_suffix hn) hm)
    · refine he (MxtB.no_miss ht ((MxtB.name_suffix hn).trans ⟨c.text ++ (partsText cs ++ nl l), by simp⟩) hm)
  rcases C82_cases rt s h t hj hb with ⟨h1, _⟩ | ⟨_, _, n, e, s', _, _, r, _⟩ | ⟨_, _, _, _, _, _, _, n, s', _, _, r, _⟩
  · exact absurd h1 hn
  · exact ⟨n, some e, s', r⟩
  · exact ⟨n, none, s', r⟩

/-- If it begins with a header and a line break, it is read, at least the first chunk. -/
theorem C82_header_partial (rt : Rt) (s : Scanner) (h v : Bytes) (c : MxtPart) (l : Bool) (hc : c.HeadAt (nl l ++ v)) (hj : s.heap.janus 0 = []) (hb : Between s h (c.headText ++ (nl l ++ v)))
    (ht : AsciiEnd (c.headText ++ (nl l ++ v))) : ∃ n s', ∀ m, n ≤ m → read rt Mxt.mapped m Mxt.reader s = .ret (none, s') := by
  have hp : PartHere (c.headText ++ (nl l ++ v)) := by
    by_cases hn : Next c.salt (nl l ++ v)
    · exact ⟨{ c with body := none }, nl l ++ v, by simp [MxtPart.text, MxtPart.bodyText, MxtPart.headText, MxtPart.lead, MxtPart.saltText],
        ⟨⟨hc.mark, hc.name, hc.salt, hc.name_ne, hc.note_head, hc.first⟩, .inr hn, fun _ _ e => by cases e⟩⟩
    rcases MxtB.finds_or_misses (Close c.salt) _ v (Nat.le_refl _) with ⟨u, hf⟩ | ⟨e, hm⟩
    · obtain ⟨cs, rfl⟩ := MxtB.Finds.split hf
      refine ⟨{ c with body := some (l, cs) }, u, by simp [MxtPart.text, MxtPart.bodyText, MxtPart.headText, MxtPart.lead, MxtPart.saltText], ⟨?_, MxtB.Finds.holds hf, ?_⟩⟩
      · have : MxtPart.HeadAt { c with body := some (l, cs) } (nl l ++ (cs ++ u)) := ⟨hc.mark, hc.name, hc.salt, hc.name_ne, hc.note_head, hc.first⟩
        simpa [MxtPart.bodyText] using this
      · rintro l' cs' e
        cases e
        exact ⟨hn, hf⟩
    · have he := MxtB.no_miss ht ⟨c.headText ++ nl l, by simp⟩ hm
      exact absurd (.inl he) (MxtB.misses_end hm).2.1
  obtain ⟨n, e, s', r⟩ := C82_ends_partial rt s h _ hj hb ht
  cases e with
  | none => exact ⟨n, s', r⟩
  | some e => exact absurd hp ((C82_error rt s h _ hj hb).mp ⟨n, e, s', r n (Nat.le_refl n)⟩).1

/-! ### cases -/

/-- `// a ` and a stray byte, with and without a line break at the end. -/
example (rt : Rt) (n : Nat) : read rt Mxt.mapped n Mxt.reader (.new (b!"// a " ++ [0xff]) Heap.empty) = .timeout ∧
    read rt Mxt.mapped n Mxt.reader (.new (b!"// a " ++ [0xff, 10]) Heap.empty) = .timeout :=
  ⟨C82_hang_violated rt _ [] [] b!"a" [0xff] 0 [] (by simp [Words]) (by simp [Words]) (by simp) (by simp [encText_nil]) ⟨0xff, by decide, .inl rfl⟩ ⟨rfl, rfl⟩ n,
   C82_hang_violated rt _ [] [] b!"a" [0xff, 10] 0 [] (by simp [Words]) (by simp [Words]) (by simp) (by simp [encText_nil]) ⟨0xff, by decide, .inr ⟨10, by decide, rfl⟩⟩ ⟨rfl, rfl⟩ n⟩

/-- The header `// a -->`. -/
theorem MxtB.head_a (body : Option (Bool × Bytes)) (u : Bytes) : (MxtPart.mk [] 0 b!"a" [32] 0 [] 0 body).HeadAt u where
  mark := by simp [Words]
  name := by simp [Words]
  salt := by simp [Words]
  name_ne := by simp
  note_head := ⟨32, [], rfl, by decide⟩
  first := .hop (by rintro ⟨w, hw⟩; simp at hw) (Hop.char ' ' _) (.here ⟨_, rfl⟩)

/-- `// a -->`, a line break, `x` and a stray byte. -/
example (rt : Rt) : ∃ n err s' tok, (∀ m, n ≤ m → read rt Mxt.mapped m Mxt.reader (.new (b!"// a -->\nx" ++ [0xff]) Heap.empty) = .ret (some err, s')) ∧ Between s' [] (b!"// a -->\nx" ++ [0xff]) ∧
    s'.heap.maps = [(0, tok)] ∧ s'.get tok = .ret b!"a" :=
  C82_content_violated rt (.new (b!"// a -->\nx" ++ [0xff]) Heap.empty) [] [0xff] ⟨[], 0, b!"a", [32], 0, [], 0, none⟩ false ['x'] (by decide) (by decide) ⟨0xff, by decide, .inl rfl⟩
    (MxtB.head_a _ _) rfl ⟨rfl, rfl⟩

/-- With two further bytes behind it, it is read to the end. -/
example (rt : Rt) : ∃ n s', ∀ m, n ≤ m → read rt Mxt.mapped m Mxt.reader (.new (b!"// a -->\nx" ++ [0xff, 10, 10]) Heap.empty) = .ret (none, s') :=
  C82_header_partial rt (.new (b!"// a -->\nx" ++ [0xff, 10, 10]) Heap.empty) [] (b!"x" ++ [0xff, 10, 10]) ⟨[], 0, b!"a", [32], 0, [], 0, none⟩ false (MxtB.head_a _ _) rfl ⟨rfl, rfl⟩ (by
    rintro e ⟨z, hz⟩ hl b hb
    have hlen := congrArg List.length hz
    have : e = (b!"// a -->\nx" ++ [0xff, 10, 10]).drop z.length := by
      have : (b!"// a -->\nx" ++ [0xff, 10, 10] : Bytes) = z ++ e := hz.symm
      rw [this, List.drop_left]
    have hz' : z.length = 11 ∨ z.length = 12 ∨ z.length = 13 := by
      have h13 : z.length + e.length = 13 := by simpa [MxtPart.headText, MxtPart.lead, MxtPart.saltText, spaces, nl] using hlen
      omega
    rcases hz' with h | h | h <;> rw [h] at this <;> subst this <;> simp at hb <;> simp [hb])

/-- A stray byte above the second of two chunks: there is one content. -/
example (rt : Rt) : ∃ n s' toks, (∀ m, n ≤ m → read rt Mxt.mapped m Mxt.reader (.new (b!"// a -->\nx" ++ 0xff :: b!"\n// b -->\ny") Heap.empty) = .ret (none, s')) ∧
    s'.heap.maps = toks ∧ toks.map (fun t => (t.1, s'.get t.2)) = [(0, .ret b!"a"), (2, .ret (b!"x" ++ 0xff :: b!"\n// b -->\ny"))] := by
  obtain ⟨n, s', toks, r1, _, r3, r4⟩ := C82_marker_violated rt (.new (b!"// a -->\nx" ++ 0xff :: b!"\n// b -->\ny") Heap.empty) []
    ⟨[], 0, b!"a", [32], 0, [], 0, some (false, b!"x" ++ 0xff :: b!"\n// b -->\ny")⟩ false ['x'] [' ', 'b', ' ', '-', '-', '>', '\n', 'y'] 0xff (by decide) (by decide) (by decide) (by decide) rfl (MxtB.head_a _ _) rfl ⟨rfl, rfl⟩
  exact ⟨n, s', toks, r1, by simpa [Scanner.new, Heap.empty] using r3, r4⟩

end Tok
