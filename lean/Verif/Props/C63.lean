/-
C63 Numerals of the Lua grammar.
-/
import Verif.Props.C62

namespace Tok
open Spec

namespace Lua

def hexB (b : UInt8) : Bool := (48 ≤ b && b ≤ 57) || (97 ≤ b && b ≤ 102) || (65 ≤ b && b ≤ 70)

theorem hexB_iff (b : UInt8) : hexB b = true ↔ HexDigit b := by
  simp only [hexB, HexDigit, Bool.or_eq_true, Bool.and_eq_true, decide_eq_true_eq]
  tauto

theorem ascii_digit : Ascii (fun v => Scanner.inRange 48 v 57) digitB where
  low := bytes_all (by decide +kernel)
  high := bytes_all (by decide +kernel)
  none v hv := by simp [Scanner.inRange]; omega

theorem ascii_hex : Ascii (fun v => Scanner.inRange 48 v 57 || Scanner.inRange 97 v 102 || Scanner.inRange 65 v 70) hexB where
  low := bytes_all (by decide +kernel)
  high := bytes_all (by decide +kernel)
  none v hv := by simp [Scanner.inRange]; omega

theorem ascii_none : Ascii (containsRune []) (fun _ => false) := ascii_contains (by decide +kernel) (bytes_all (by decide +kernel)) (by simp)

/-- A test by one rune. -/
theorem ascii_rune (c : UInt8) (hc : c.toNat < 128) : Ascii (· == (c.toNat : Int)) (· == c) where
  low b hb := by
    rw [Bool.eq_iff_iff, beq_iff_eq, beq_iff_eq, ← UInt8.toNat_inj]
    omega
  high b hb := by
    rw [beq_eq_false_iff_ne]
    rintro rfl
    omega
  none v hv := by
    rw [beq_eq_false_iff_ne]
    omega

theorem digit_does {rt : Rt} {G : Env} : Does rt G mkDigit (oneB digitB) := does_between ascii_digit

theorem hex_does {rt : Rt} {G : Env} : Does rt G mkHexDigit (oneB hexB) :=
  (does_set ascii_hex ascii_none (ranges := [(48, 57), (97, 102), (65, 70)]) (fun v => by simp [List.any, Bool.or_assoc])).congr
    fun t => by simp

/-- One of two letters. -/
def eitherB (a b c : UInt8) : Bool := c == a || c == b

theorem eitherB_iff (a b c : UInt8) : eitherB a b c = true ↔ (c = a ∨ c = b) := by simp [eitherB]

theorem ascii_p : Ascii (containsRune b!"pP") (eitherB 112 80) := ascii_contains (by decide +kernel) (bytes_all (by decide +kernel)) (bytes_all (by decide +kernel))
theorem ascii_e : Ascii (containsRune b!"eE") (eitherB 101 69) := ascii_contains (by decide +kernel) (bytes_all (by decide +kernel)) (bytes_all (by decide +kernel))
theorem ascii_x : Ascii (containsRune b!"xX") (eitherB 120 88) := ascii_contains (by decide +kernel) (bytes_all (by decide +kernel)) (bytes_all (by decide +kernel))
theorem ascii_sign : Ascii (containsRune b!"+-") (eitherB 43 45) := ascii_contains (by decide +kernel) (bytes_all (by decide +kernel)) (bytes_all (by decide +kernel))

/-- Mark, sign and digits. -/
def expB (p : UInt8 → Bool) (t : Bytes) : Option Bytes := ((oneB p t).bind (optB (oneB (eitherB 43 45)))).bind (manyB digitB)

/-- Digits, and a point with digits. -/
def mantB (p : UInt8 → Bool) (t : Bytes) : Option Bytes := (manyB p t).bind (optB (fun t => (oneB (· == 46) t).bind (manyB p)))

def decB (t : Bytes) : Option Bytes := (mantB digitB t).bind (optB (expB (eitherB 101 69)))
def hexaB (t : Bytes) : Option Bytes :=
  ((oneB (· == 48) t).bind (oneB (eitherB 120 88))).bind (fun t => (mantB hexB t).bind (optB (expB (eitherB 112 80))))
def hexValB (t : Bytes) : Option Bytes := ((oneB (· == 48) t).bind (oneB (eitherB 120 88))).bind (manyB hexB)

def numB (t : Bytes) : Option Bytes := anyB [hexaB, hexValB, decB, manyB digitB] t

theorem numeral_does (rt : Rt) (G : Env) : Does rt G numeral numB := by
  have exp : ∀ {r : Reader} {p : UInt8 → Bool}, Does rt G r (oneB p) → Does rt G (.seq [r, .opt (.anyRune b!"+-"), .many mkDigit]) (expB p) := fun h =>
    (does_seq (.cons h (.cons (does_opt (does_anyRune ascii_sign)) (.cons (does_many digit_does) .nil)))).congr fun t => by
      simp [seqB, expB, Option.bind_assoc]
  have pt : ∀ {r : Reader} {p : UInt8 → Bool}, Does rt G r (oneB p) → Does rt G (.seq [.rune 46, .many r]) (fun t => (oneB (· == 46) t).bind (manyB p)) := fun h =>
    (does_seq (.cons (does_rune (ascii_rune 46 (by decide))) (.cons (does_many h) .nil))).congr fun t => by simp [seqB]
  have zx : DoAll rt G [.rune 48, .anyRune b!"xX"] [oneB (· == 48), oneB (eitherB 120 88)] :=
    .cons (does_rune (ascii_rune 48 (by decide))) (.cons (does_anyRune ascii_x) .nil)
  refine (does_any (rs := [.seq [.rune 48, .anyRune b!"xX", .many mkHexDigit, .opt (.seq [.rune 46, .many mkHexDigit]),
      .opt (.seq [.anyRune b!"pP", .opt (.anyRune b!"+-"), .many mkDigit])], .seq [.rune 48, .anyRune b!"xX", .many mkHexDigit],
      .seq [.many mkDigit, .opt (.seq [.rune 46, .many mkDigit]), .opt (.seq [.anyRune b!"eE", .opt (.anyRune b!"+-"), .many mkDigit])], .many mkDigit])
    (.cons (f := hexaB) ?_ (.cons (f := hexValB) ?_ (.cons (f := decB) ?_ (.cons (does_many digit_does) .nil)))))
  · cases zx with
    | cons h h' =>
      cases h' with
      | cons h1 _ =>
        exact (does_seq (.cons h (.cons h1 (.cons (does_many hex_does) (.cons (does_opt (pt hex_does)) (.cons (does_opt (exp (does_anyRune ascii_p))) .nil)))))).congr
          fun t => by simp [seqB, hexaB, mantB, Option.bind_assoc]
  · cases zx with
    | cons h h' =>
      cases h' with
      | cons h1 _ => exact (does_seq (.cons h (.cons h1 (.cons (does_many hex_does) .nil)))).congr fun t => by simp [seqB, hexValB, Option.bind_assoc]
  · exact (does_seq (.cons (does_many digit_does) (.cons (does_opt (pt digit_does)) (.cons (does_opt (exp (does_anyRune ascii_e))) .nil)))).congr
      fun t => by simp [seqB, decB, mantB, Option.bind_assoc]

theorem exp_greedy (m M : UInt8) : Greedy (expB (eitherB m M)) (Exponent m M) := by
  refine (greedy_seq (greedy_opt (greedy_one (eitherB_iff m M)) (greedy_one (eitherB_iff 43 45)) ?_) (greedy_many digitB_iff) ?_).congr fun x => ?_
  · refine ⟨?_, by rintro ⟨b, h, _⟩; cases h⟩
    rintro a d z ⟨b, rfl, _⟩ ⟨c, h, _⟩
    simp at h
  · refine ⟨?_, fun h => h.1 rfl⟩
    rintro a d z ⟨a1, a2, rfl, ⟨b, rfl, hb⟩, ha2⟩ ⟨c1, c2, h, ⟨b', rfl, hb'⟩, hc2⟩ w hw
    have hd := hw.2 d List.mem_cons_self
    simp only [List.cons_append, List.nil_append, List.cons.injEq] at h
    have h1 : d ∈ c2 := by rw [← h.2]; simp
    rcases hc2 with rfl | ⟨s, rfl, hs⟩
    · cases h1
    · rw [List.mem_singleton] at h1
      subst h1
      rcases hs with rfl | rfl <;> revert hd <;> unfold DecDigit <;> decide
  · constructor
    · rintro ⟨a, d, rfl, ⟨c, s, rfl, ⟨c, rfl, hc⟩, hs⟩, hd⟩
      refine ⟨c, s, d, by simp, hc, ?_, hd⟩
      rcases hs with rfl | ⟨b, rfl, rfl | rfl⟩ <;> simp
    · rintro ⟨c, s, d, rfl, hc, hs, hd⟩
      refine ⟨c :: s, d, by simp, ⟨[c], s, rfl, ⟨c, rfl, hc⟩, ?_⟩, hd⟩
      rcases hs with rfl | rfl | rfl
      · exact .inl rfl
      · exact .inr ⟨43, rfl, .inl rfl⟩
      · exact .inr ⟨45, rfl, .inr rfl⟩

theorem mant_greedy {p : UInt8 → Bool} {D : UInt8 → Prop} (h : ∀ b, p b = true ↔ D b) (hp : ¬ D 46) : Greedy (mantB p) (FullMantissa D) := by
  refine (greedy_opt (greedy_many h) (greedy_seq (greedy_one (D := fun b => b = 46) (by simp)) (greedy_many h) ?_) ?_).congr fun x => ?_
  · refine ⟨?_, fun h => h.1 rfl⟩
    rintro a d z ⟨b, rfl, _⟩ ⟨c, h, _⟩
    simp at h
  · refine ⟨?_, by rintro ⟨a, b, h, ⟨c, rfl, _⟩, _⟩; cases h⟩
    rintro a d z _ h2 w ⟨a', b, h3, ⟨c, rfl, rfl⟩, _⟩
    simp only [List.cons_append, List.nil_append, List.cons.injEq] at h3
    rw [h3.1] at h2
    exact hp (h2.2 46 (by simp))
  · constructor
    · rintro ⟨a, b, rfl, ha, rfl | ⟨c, d, rfl, ⟨_, rfl, rfl⟩, hd⟩⟩
      · rw [List.append_nil]; exact .inl ha
      · exact .inr ⟨a, d, rfl, ha, hd⟩
    · rintro (ha | ⟨a, d, rfl, ha, hd⟩)
      · exact ⟨x, [], by simp, ha, .inl rfl⟩
      · exact ⟨a, 46 :: d, rfl, ha, .inr ⟨[46], d, rfl, ⟨46, rfl, rfl⟩, hd⟩⟩

/-- The bytes of a mantissa. -/
theorem mant_bytes {D : UInt8 → Prop} {x : Bytes} (h : FullMantissa D x) : ∀ b ∈ x, D b ∨ b = 46 := by
  intro b hb
  rcases h with h | ⟨a, c, rfl, ha, hc⟩
  · exact .inl (h.2 b hb)
  · rcases List.mem_append.mp hb with hb | hb
    · exact .inl (ha.2 b hb)
    · rcases List.mem_cons.mp hb with rfl | hb
      · exact .inr rfl
      · exact .inl (hc.2 b hb)

theorem full_greedy {p : UInt8 → Bool} {D : UInt8 → Prop} (h : ∀ b, p b = true ↔ D b) (hp : ¬ D 46) {m M : UInt8} (hm : ¬ D m ∧ m ≠ 46) (hM : ¬ D M ∧ M ≠ 46) :
    Greedy (fun t => (mantB p t).bind (optB (expB (eitherB m M)))) (fun x => ∃ a e, x = a ++ e ∧ FullMantissa D a ∧ (e = [] ∨ Exponent m M e)) := by
  refine greedy_opt (mant_greedy h hp) (exp_greedy m M) ⟨?_, by rintro ⟨c, s, d, h, _⟩; cases h⟩
  rintro a d z _ h2 w ⟨c, s, e, h3, hc, _⟩
  simp only [List.cons.injEq] at h3
  have h4 := mant_bytes h2 d (by simp)
  rw [h3.1] at h4
  rcases hc with rfl | rfl
  · exact h4.elim hm.1 hm.2
  · exact h4.elim hM.1 hM.2

theorem dec_greedy : Greedy decB (fun x => ∃ m e, x = m ++ e ∧ FullMantissa DecDigit m ∧ (e = [] ∨ Exponent 101 69 e)) :=
  full_greedy digitB_iff (by unfold DecDigit; decide) (by unfold DecDigit; decide) (by unfold DecDigit; decide)

theorem hexa_greedy : Greedy hexaB
    (fun x => ∃ c m e, x = 48 :: c :: (m ++ e) ∧ (c = 120 ∨ c = 88) ∧ FullMantissa HexDigit m ∧ (e = [] ∨ Exponent 112 80 e)) := by
  refine (greedy_seq (greedy_seq (greedy_one (D := fun b => b = 48) (by simp)) (greedy_one (eitherB_iff 120 88)) ?_)
    (full_greedy hexB_iff (by unfold HexDigit; decide) (m := 112) (M := 80) (by unfold HexDigit; decide) (by unfold HexDigit; decide)) ?_).congr fun x => ?_
  · refine ⟨?_, by rintro ⟨b, h, _⟩; cases h⟩
    rintro a d z ⟨b, rfl, _⟩ ⟨c, h, _⟩
    simp at h
  · refine ⟨?_, ?_⟩
    · rintro a d z ⟨a1, a2, rfl, ⟨b, rfl, _⟩, ⟨c, rfl, _⟩⟩ ⟨c1, c2, h, ⟨b', rfl, _⟩, ⟨c', rfl, _⟩⟩
      simp at h
    · rintro ⟨a, e, h, hm, _⟩
      rw [List.nil_eq, List.append_eq_nil_iff] at h
      rw [h.1] at hm
      rcases hm with hm | ⟨a, b, h, _⟩
      · exact hm.1 rfl
      · simp at h
  · constructor
    · rintro ⟨_, _, rfl, ⟨_, _, rfl, ⟨_, rfl, rfl⟩, ⟨c, rfl, hc⟩⟩, m, e, rfl, hm, he⟩
      exact ⟨c, m, e, rfl, hc, hm, he⟩
    · rintro ⟨c, m, e, rfl, hc, hm, he⟩
      exact ⟨[48, c], m ++ e, rfl, ⟨[48], [c], rfl, ⟨48, rfl, rfl⟩, c, rfl, hc⟩, m, e, rfl, hm, he⟩

theorem num_greedy : Greedy numB FullNumeral := by
  have hv : ∀ t, hexaB t = none → hexValB t = none := by
    intro t h
    unfold hexaB at h
    unfold hexValB
    cases h1 : (oneB (· == 48) t).bind (oneB (eitherB 120 88)) with
    | none => rfl
    | some v =>
      rw [h1] at h
      simp only [Option.bind_some, mantB] at h ⊢
      cases h2 : manyB hexB v with
      | none => rfl
      | some w =>
        rw [h2] at h
        cases h
  have di : ∀ t, decB t = none → manyB digitB t = none := by
    intro t h
    unfold decB mantB at h
    cases h2 : manyB digitB t with
    | none => rfl
    | some w =>
      rw [h2] at h
      cases h
  have hn : ∀ t, numB t = (hexaB t).or (decB t) := by
    intro t
    simp only [numB, anyB]
    cases h1 : hexaB t with
    | some v => rfl
    | none =>
      rw [hv t h1]
      cases h2 : decB t with
      | some v => rfl
      | none => simp [di t h2]
  constructor
  · intro t u h
    rw [hn] at h
    cases h1 : hexaB t with
    | some v =>
      rw [h1] at h
      cases h
      obtain ⟨x, hx, hl⟩ := hexa_greedy.some h1
      refine ⟨x, hx, hl.1, .inr hl.2.1, ?_⟩
      rintro y hy (h2 | h2)
      · obtain ⟨m, e, rfl, hm, he⟩ := h2
        obtain ⟨c, m', e', hx', hc, _⟩ := hl.2.1
        have h48 : (m ++ e).length ≤ 1 := by
          obtain ⟨z, hz⟩ := hy
          rw [hx, hx'] at hz
          rcases hw : m ++ e with _ | ⟨b, _ | ⟨b', w⟩⟩
          · simp
          · simp
          · rw [hw] at hz
            simp only [List.cons_append, List.cons.injEq] at hz
            obtain ⟨rfl, rfl, _⟩ := hz
            exfalso
            cases m with
            | nil =>
              rcases hm with hm | ⟨a, b, h, _⟩
              · exact hm.1 rfl
              · simp at h
            | cons d m =>
              simp only [List.cons_append, List.cons.injEq] at hw
              obtain ⟨rfl, hw⟩ := hw
              cases m with
              | nil =>
                simp only [List.nil_append] at hw
                rcases he with rfl | ⟨k, s, d, rfl, hk, _⟩
                · cases hw
                · simp only [List.cons.injEq] at hw
                  obtain ⟨rfl, _⟩ := hw
                  rcases hc with rfl | rfl <;> revert hk <;> decide
              | cons d m =>
                simp only [List.cons_append, List.cons.injEq] at hw
                obtain ⟨rfl, _⟩ := hw
                have := mant_bytes hm d (by simp)
                rcases hc with rfl | rfl <;> revert this <;> unfold DecDigit <;> decide
        rw [hx']
        simp only [List.length_cons]
        omega
      · exact hl.2.2 y hy h2
    | none =>
      rw [h1] at h
      obtain ⟨x, hx, hl⟩ := dec_greedy.some h
      refine ⟨x, hx, hl.1, .inl hl.2.1, ?_⟩
      rintro y hy (h2 | h2)
      · exact hl.2.2 y hy h2
      · exact absurd h2 (hexa_greedy.none h1 y hy)
  · intro t h x hx
    rw [hn] at h
    cases h1 : hexaB t with
    | some v => rw [h1] at h; cases h
    | none =>
      rw [h1] at h
      rintro (h2 | h2)
      · exact dec_greedy.none h x hx h2
      · exact hexa_greedy.none h1 x hx h2

end Lua

/-- The rule reads the longest beginning that is a numeral with digits on both sides of a radix point, and nothing else, on every text. -/
theorem C63_reads_partial (rt : Rt) (s : Scanner) (h x u : Bytes) (hb : Between s h (x ++ u)) :
    (∃ n s', read rt Lua.env n (.rule Lua.iNumeral) s = .ret (none, s') ∧ Between s' (h ++ x) u) ↔ Longest FullNumeral (x ++ u) x :=
  ((does_rule (G := Lua.env) (i := Lua.iNumeral) rfl (Lua.numeral_does rt Lua.env)).success Lua.noWraps (Lua.rule_noWrap _) hb x u rfl).trans (Lua.num_greedy.iff rfl)

/-- It reports an error exactly where no such numeral begins. -/
theorem C63_fails_partial (rt : Rt) (s : Scanner) (h t : Bytes) (hb : Between s h t) :
    (∃ n e s', read rt Lua.env n (.rule Lua.iNumeral) s = .ret (some e, s')) ↔ ∀ x, x <+: t → ¬ FullNumeral x :=
  ((does_rule (G := Lua.env) (i := Lua.iNumeral) rfl (Lua.numeral_does rt Lua.env)).failure Lua.noWraps (Lua.rule_noWrap _) hb).trans Lua.num_greedy.none_iff

theorem full_mantissa {D : UInt8 → Prop} {x : Bytes} (h : FullMantissa D x) : Mantissa D x := by
  rcases h with h | ⟨a, b, rfl, ha, hb⟩
  · exact .inl h
  · exact .inr ⟨a, b, rfl, ha.2, hb.2, .inl ha.1⟩

theorem full_numeral {x : Bytes} (h : FullNumeral x) : LuaNumeral x := by
  rcases h with ⟨m, e, rfl, hm, he⟩ | ⟨c, m, e, rfl, hc, hm, he⟩
  · exact .inl ⟨m, e, rfl, full_mantissa hm, he⟩
  · exact .inr ⟨c, m, e, rfl, hc, full_mantissa hm, he⟩

/-- Whatever is read is a numeral of Lua. -/
theorem C63_sound (rt : Rt) (s : Scanner) (h x u : Bytes) (hb : Between s h (x ++ u)) (n : Nat) (s' : Scanner)
    (hr : read rt Lua.env n (.rule Lua.iNumeral) s = .ret (none, s')) (hb' : Between s' (h ++ x) u) : LuaNumeral x :=
  full_numeral ((C63_reads_partial rt s h x u hb).mp ⟨n, s', hr, hb'⟩).2.1

/-- A numeral that ends with its radix point is read without the point; one that begins with it is not read at all, also in
hexadecimal: there only the zero in front is read. -/
theorem C63_violated (rt : Rt) :
    (LuaNumeral b!"3." ∧ ∃ s', read rt Lua.env 9 (.rule Lua.iNumeral) (.new b!"3." Heap.empty) = .ret (none, s') ∧ Between s' b!"3" b!".") ∧
    (LuaNumeral b!".5" ∧ ∃ e s', read rt Lua.env 9 (.rule Lua.iNumeral) (.new b!".5" Heap.empty) = .ret (some e, s')) ∧
    (LuaNumeral b!"0x.8" ∧ ∃ s', read rt Lua.env 9 (.rule Lua.iNumeral) (.new b!"0x.8" Heap.empty) = .ret (none, s') ∧ Between s' b!"0" b!"x.8") := by
  refine ⟨⟨.inl ⟨b!"3.", [], rfl, .inr ⟨b!"3", [], rfl, ?_, by simp, .inl (by simp)⟩, .inl rfl⟩, _, rfl, rfl, rfl⟩,
    ⟨.inl ⟨b!".5", [], rfl, .inr ⟨[], b!"5", rfl, by simp, ?_, .inr (by simp)⟩, .inl rfl⟩, _, _, rfl⟩,
    ⟨.inr ⟨120, b!".8", [], rfl, .inl rfl, .inr ⟨[], b!"8", rfl, by simp, ?_, .inr (by simp)⟩, .inl rfl⟩, _, rfl, rfl, rfl⟩⟩
  · unfold DecDigit; decide
  · unfold DecDigit; decide
  · unfold HexDigit; decide

example (rt : Rt) : ∃ n s', read rt Lua.env n (.rule Lua.iNumeral) (.new b!"0xA.8p-1)" Heap.empty) = .ret (none, s') ∧ Between s' b!"0xA.8p-1" b!")" :=
  ⟨9, _, rfl, rfl, rfl⟩

end Tok
