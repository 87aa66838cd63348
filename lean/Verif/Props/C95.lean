/-
C95 Numbers written in base 8, 10 or 16 are read back, for all sizes.
-/
import Verif.Props.C55

namespace Tok
open Spec

/-- `strconv.FormatUint(n, base)`: the digits of `n`, without leading zeros. -/
def formatNat (base n : Nat) : Bytes := (Nat.toDigits base n).map fun c => UInt8.ofNat c.toNat

/-- `strconv.FormatInt(z, base)`. -/
def formatInt (base : Nat) (z : Int) : Bytes := if z < 0 then 45 :: formatNat base z.natAbs else formatNat base z.natAbs

/-- The text does not go on with a digit. -/
def NoDigit (base : Nat) (rest : Bytes) : Prop := ∀ d w t, rest = d :: t → ¬ IsDigit base d w

namespace Num

theorem digit_char : ∀ v < 16, b!"0123456789abcdef"[v]? = some (UInt8.ofNat (Nat.digitChar v).toNat) := by decide

theorem digits_mid {base : Nat} {ds : Bytes} {d : UInt8} {e : Bytes} {ws : List Nat}
    (h : List.Forall₂ (IsDigit base) (ds ++ d :: e) ws) : ∃ w, IsDigit base d w := by
  induction ds generalizing ws with
  | nil => cases h with | cons h1 _ => exact ⟨_, h1⟩
  | cons _ _ ih => cases h with | cons _ h2 => exact ih h2

theorem numeral_snoc {base v w : Nat} {ds : Bytes} {d : UInt8} (h : Numeral base ds v) (hd : IsDigit base d w) : Numeral base (ds ++ [d]) (v * base + w) := by
  obtain ⟨_, vs, h1, rfl⟩ := h
  exact ⟨by simp, vs ++ [w], List.rel_append h1 (.cons hd .nil), positional_snoc _ _ _⟩

theorem numeral_zero {base v : Nat} {ds : Bytes} (hb : 1 < base) (h : Numeral base ds v) : Numeral base (48 :: ds) v := by
  obtain ⟨_, vs, h1, rfl⟩ := h
  exact ⟨by simp, 0 :: vs, .cons ⟨by omega, .inl rfl⟩ h1, by simp [positional]⟩

/-- The whole numeral is the longest one if no digit follows. -/
theorem longest_whole {base max v : Nat} {ds rest : Bytes} (hn : Numeral base ds v) (hv : v ≤ max) (hend : NoDigit base rest) :
    LongestNumeral base max (ds ++ rest) ds v := by
  refine ⟨⟨rest, rfl⟩, hn, hv, fun ds' v' hp hn' _ => ?_⟩
  by_contra hlt
  obtain ⟨r, hr⟩ := hp
  obtain ⟨e, rfl⟩ : ∃ e, ds' = ds ++ e := by
    obtain ⟨e, he⟩ := List.prefix_of_prefix_length_le ⟨rest, rfl⟩ ⟨r, hr⟩ (Nat.le_of_lt (by omega))
    exact ⟨e, he.symm⟩
  rw [List.append_assoc, List.append_cancel_left_eq] at hr
  cases e with
  | nil => simp at hlt
  | cons d e =>
    obtain ⟨_, ws, hws, _⟩ := hn'
    obtain ⟨w, hw⟩ := digits_mid hws
    exact hend d w (e ++ r) hr.symm hw

theorem no_next {base v' : Nat} {ds rest : Bytes} {d : UInt8} (hend : NoDigit base rest) (hp : [d] <+: rest) (hn : Numeral base (ds ++ [d]) v') : False := by
  obtain ⟨t, rfl⟩ := hp
  obtain ⟨_, ws, hws, _⟩ := hn
  obtain ⟨w, hw⟩ := digits_mid (e := []) hws
  exact hend d w t rfl hw

end Num
open Num

/-- What is written is a numeral of the number. -/
theorem C95_format (base : Nat) (hbase : base = 8 ∨ base = 10 ∨ base = 16) (n : Nat) : Numeral base (formatNat base n) n := by
  induction n using Nat.strongRecOn with
  | ind n ih =>
    have hb : 1 < base := by omega
    have hd : ∀ w < base, IsDigit base (UInt8.ofNat (Nat.digitChar w).toNat) w := fun w hw => ⟨hw, .inl (digit_char w (by omega))⟩
    unfold formatNat
    by_cases hn : n < base
    · rw [Nat.toDigits_of_lt_base hn]
      exact ⟨by simp, [n], .cons (hd n hn) .nil, by simp [positional]⟩
    · rw [Nat.toDigits_of_base_le hb (by omega), List.map_append]
      have h1 := numeral_snoc (ih (n / base) (Nat.div_lt_self (by omega) hb)) (hd (n % base) (Nat.mod_lt _ (by omega)))
      rw [Nat.mul_comm, Nat.div_add_mod] at h1
      exact h1

theorem Num.digit_inj : ∀ v < 16, ∀ w < 16, ∀ d, IsDigit 16 d v → IsDigit 16 d w → v = w := by
  have key : ∀ v < 16, ∀ w < 16, ∀ x ∈ [b!"0123456789abcdef"[v]?, b!"0123456789ABCDEF"[v]?], ∀ y ∈ [b!"0123456789abcdef"[w]?, b!"0123456789ABCDEF"[w]?], x = y → v = w := by decide
  rintro v hv w hw d ⟨_, h1⟩ ⟨_, h2⟩
  refine key v hv w hw (some d) ?_ (some d) ?_ rfl
  · rcases h1 with h1 | h1 <;> simp [h1]
  · rcases h2 with h2 | h2 <;> simp [h2]

theorem Num.numeral_inj {base : Nat} (hbase : base ≤ 16) {ds : Bytes} {v w : Nat} (h : Numeral base ds v) (h' : Numeral base ds w) : v = w := by
  obtain ⟨_, vs, h1, rfl⟩ := h
  obtain ⟨_, ws, h2, rfl⟩ := h'
  congr 1
  clear * - h1 h2 hbase
  induction h1 generalizing ws with
  | nil => cases h2; rfl
  | cons hd _ ih =>
    cases h2 with
    | cons hd' h2 =>
      rw [ih _ h2, digit_inj _ (by have := hd.1; omega) _ (by have := hd'.1; omega) _ ⟨by have := hd.1; omega, hd.2⟩ ⟨by have := hd'.1; omega, hd'.2⟩]

theorem Num.no_minus {base : Nat} {ds : Bytes} {v : Nat} (h : Numeral base (45 :: ds) v) (hbase : base ≤ 16) : False := by
  obtain ⟨_, vs, h1, _⟩ := h
  cases h1 with
  | @cons _ w _ _ hd _ =>
    have key : ∀ w < 16, b!"0123456789abcdef"[w]? ≠ some 45 ∧ b!"0123456789ABCDEF"[w]? ≠ some 45 := by decide
    have := key w (by have := hd.1; omega)
    rcases hd.2 with h | h
    · exact this.1 h
    · exact this.2 h

/-- Different numbers are written differently. -/
theorem C95_format_inj (base : Nat) (hbase : base = 8 ∨ base = 10 ∨ base = 16) (z z' : Int) (h : formatInt base z = formatInt base z') : z = z' := by
  have h1 := C95_format base hbase z.natAbs
  have h2 := C95_format base hbase z'.natAbs
  unfold formatInt at h
  split at h <;> split at h
  · rw [(List.cons.inj h).2] at h1
    have := numeral_inj (by omega) h1 h2
    omega
  · rw [← h] at h2
    exact (no_minus h2 (by omega)).elim
  · rw [h] at h1
    exact (no_minus h1 (by omega)).elim
  · rw [h] at h1
    have := numeral_inj (by omega) h1 h2
    omega

/-- `ReadUint` reads every numeral whose value fits, whatever the size: all of it, if no digit follows. -/
theorem C95_uint (s : Scanner) (h ds rest : Bytes) (base bits v : Nat) (hbase : base = 8 ∨ base = 10 ∨ base = 16) (hbits : bits = 8 ∨ bits = 16 ∨ bits = 32 ∨ bits = 64)
    (hb : Between s h (ds ++ rest)) (hn : Numeral base ds v) (hv : v < 2 ^ bits) (hend : NoDigit base rest) :
    ∃ s', s.readUint base bits = .ret ((v, none), s') ∧ Reaches s s' (h ++ ds) rest := by
  have hl := longest_whole (max := 2 ^ bits - 1) hn (by omega) hend
  rcases hbits with h1 | h1 | h1 | rfl
  · exact C22_readUint s h ds rest base bits v hbase (.inl h1) hb hl
  · exact C22_readUint s h ds rest base bits v hbase (.inr (.inl h1)) hb hl
  · exact C22_readUint s h ds rest base bits v hbase (.inr (.inr h1)) hb hl
  · exact (C22_readUint64_partial s h ds rest base v hbase hb hl).mpr fun d v' hp hn' => (no_next hend hp hn').elim

theorem C95_int (s : Scanner) (h sgn ds rest : Bytes) (neg : Bool) (base bits v : Nat) (hbase : base = 8 ∨ base = 10 ∨ base = 16)
    (hbits : bits = 8 ∨ bits = 16 ∨ bits = 32 ∨ bits = 64) (hb : Between s h (sgn ++ (ds ++ rest))) (hs : Sign sgn neg) (hn : Numeral base ds v)
    (hv : v ≤ magnitude bits neg) (hend : NoDigit base rest) :
    ∃ s', s.readInt base bits = .ret ((if neg then -(v : Int) else v, none), s') ∧ Reaches s s' (h ++ sgn ++ ds) rest := by
  have hl := longest_whole hn hv hend
  rcases hbits with h1 | h1 | h1 | rfl
  · exact C23_readInt s h sgn ds rest neg base bits v hbase (.inl h1) hb hs hl
  · exact C23_readInt s h sgn ds rest neg base bits v hbase (.inr (.inl h1)) hb hs hl
  · exact C23_readInt s h sgn ds rest neg base bits v hbase (.inr (.inr h1)) hb hs hl
  · exact (C23_readInt64_partial s h sgn ds rest neg base v hbase hb hs hl).mpr fun d v' hp hn' => (no_next hend hp hn').elim

/-- Every unsigned number of a size, written and read. -/
theorem C95_uint_back (s : Scanner) (h rest : Bytes) (base bits n : Nat) (hbase : base = 8 ∨ base = 10 ∨ base = 16) (hbits : bits = 8 ∨ bits = 16 ∨ bits = 32 ∨ bits = 64)
    (hb : Between s h (formatNat base n ++ rest)) (hn : n < 2 ^ bits) (hend : NoDigit base rest) :
    ∃ s', s.readUint base bits = .ret ((n, none), s') ∧ Reaches s s' (h ++ formatNat base n) rest :=
  C95_uint s h _ rest base bits n hbase hbits hb (C95_format base hbase n) hn hend

/-- Every number of a size, from the smallest to the largest, written and read. -/
theorem C95_int_back (s : Scanner) (h rest : Bytes) (base bits : Nat) (z : Int) (hbase : base = 8 ∨ base = 10 ∨ base = 16) (hbits : bits = 8 ∨ bits = 16 ∨ bits = 32 ∨ bits = 64)
    (hb : Between s h (formatInt base z ++ rest)) (h1 : -2 ^ (bits - 1) ≤ z) (h2 : z < 2 ^ (bits - 1)) (hend : NoDigit base rest) :
    ∃ s', s.readInt base bits = .ret ((z, none), s') ∧ Reaches s s' (h ++ formatInt base z) rest := by
  have hf := C95_format base hbase z.natAbs
  have hp : ((2 ^ (bits - 1) : Nat) : Int) = 2 ^ (bits - 1) := by push_cast; rfl
  rw [← hp] at h1 h2
  unfold formatInt at hb ⊢
  by_cases hz : z < 0
  · rw [if_pos hz] at hb ⊢
    obtain ⟨s', h3, h4⟩ := C95_int s h [45] _ rest true base bits z.natAbs hbase hbits hb .minus hf (by unfold magnitude; rw [if_pos rfl]; omega) hend
    refine ⟨s', ?_, by simpa using h4⟩
    rw [h3, if_pos rfl]
    congr 3
    omega
  · rw [if_neg hz] at hb ⊢
    obtain ⟨s', h3, h4⟩ := C95_int s h [] _ rest false base bits z.natAbs hbase hbits hb .none hf (by unfold magnitude; rw [if_neg (by simp)]; omega) hend
    refine ⟨s', ?_, by simpa using h4⟩
    rw [h3, if_neg (by simp)]
    congr 3
    omega

/-- The value readers hold the numbers. -/
theorem C95_uint_reader (rt : Rt) (G : Env) (m k : Nat) (s : Scanner) (h rest : Bytes) (base bits n : Nat) (hbase : base = 8 ∨ base = 10 ∨ base = 16)
    (hbits : bits = 8 ∨ bits = 16 ∨ bits = 32 ∨ bits = 64) (hb : Between s h (formatNat base n ++ rest)) (hn : n < 2 ^ bits) (hend : NoDigit base rest) :
    ∃ s', read rt G (m + 1) (.uint k base bits) s = .ret (none, s') ∧ Between s' (h ++ formatNat base n) rest ∧ s'.heap.cells k = .uint n := by
  obtain ⟨s1, h1, h2⟩ := C95_uint_back s h rest base bits n hbase hbits hb hn hend
  obtain ⟨s', h3, h4⟩ := C55_uint rt G m k base bits s s1 hb.inside n none h1
  exact ⟨s', h3, ⟨h4.full.trans h2.1.1, h4.pos.trans h2.1.2⟩, h4.value⟩

theorem C95_int_reader (rt : Rt) (G : Env) (m k : Nat) (s : Scanner) (h rest : Bytes) (base bits : Nat) (z : Int) (hbase : base = 8 ∨ base = 10 ∨ base = 16)
    (hbits : bits = 8 ∨ bits = 16 ∨ bits = 32 ∨ bits = 64) (hb : Between s h (formatInt base z ++ rest)) (h1 : -2 ^ (bits - 1) ≤ z) (h2 : z < 2 ^ (bits - 1))
    (hend : NoDigit base rest) :
    ∃ s', read rt G (m + 1) (.int k base bits) s = .ret (none, s') ∧ Between s' (h ++ formatInt base z) rest ∧ s'.heap.cells k = .int z := by
  obtain ⟨s1, h3, h4⟩ := C95_int_back s h rest base bits z hbase hbits hb h1 h2 hend
  obtain ⟨s', h5, h6⟩ := C55_int rt G m k base bits s s1 hb.inside z none h3
  exact ⟨s', h5, ⟨h6.full.trans h4.1.1, h6.pos.trans h4.1.2⟩, h6.value⟩

/-- A client that reads a list of numbers with commas between them: `ReadInt`, and as long as `If(",")` another one. -/
def readInts (base bits : Int) : Nat → Scanner → Exec (Option (List Int) × Scanner)
  | 0, _ => .timeout
  | k + 1, s => do
    let ((v, e), s) ← s.readInt base bits
    if e.isSome then .ret (none, s)
    else do
      let (b, s) ← s.ifStr b!","
      if b then do
        let (l, s) ← readInts base bits k s
        .ret (l.map (v :: ·), s)
      else .ret (some [v], s)

/-- A list of numbers with commas between them. -/
def formatInts (base : Nat) : List Int → Bytes
  | [] => []
  | [z] => formatInt base z
  | z :: zs => formatInt base z ++ 44 :: formatInts base zs

/-- Every list of numbers of a size, written with commas and read. -/
theorem C95_list (base bits : Nat) (hbase : base = 8 ∨ base = 10 ∨ base = 16) (hbits : bits = 8 ∨ bits = 16 ∨ bits = 32 ∨ bits = 64) (zs : List Int)
    (hz : ∀ z ∈ zs, -2 ^ (bits - 1) ≤ z ∧ z < 2 ^ (bits - 1)) (hne : zs ≠ []) (s : Scanner) (h : Bytes) (hb : Between s h (formatInts base zs)) :
    ∃ s', readInts base bits zs.length s = .ret (some zs, s') ∧ Between s' (h ++ formatInts base zs) [] := by
  induction zs generalizing s h with
  | nil => exact absurd rfl hne
  | cons z zs ih =>
    have hcomma : ∀ t, NoDigit base (44 :: t) := by
      rintro t d w t' e ⟨hw, hd⟩
      cases e
      have key : ∀ w < 16, b!"0123456789abcdef"[w]? ≠ some 44 ∧ b!"0123456789ABCDEF"[w]? ≠ some 44 := by decide
      have := key w (by omega)
      rcases hd with h | h
      · exact this.1 h
      · exact this.2 h
    have hz1 := hz z (by simp)
    cases zs with
    | nil =>
      obtain ⟨s1, h1, h2⟩ := C95_int_back s h [] base bits z hbase hbits (by simpa [formatInts] using hb) hz1.1 hz1.2 (fun _ _ _ e => by cases e)
      refine ⟨s1, ?_, h2.1⟩
      rw [List.length_singleton, readInts, h1]
      simp only [bind, Exec.bind, C05_if_nomatch s1 _ [] b!"," h2.1 (by simp)]
      rfl
    | cons z' zs =>
      obtain ⟨s1, h1, h2⟩ := C95_int_back s h (44 :: formatInts base (z' :: zs)) base bits z hbase hbits hb hz1.1 hz1.2 (hcomma _)
      obtain ⟨s2, h3, h4⟩ := C05_if_match s1 _ b!"," (formatInts base (z' :: zs)) h2.1
      obtain ⟨s3, h5, h6⟩ := ih (fun x hx => hz x (List.mem_cons_of_mem _ hx)) (by simp) s2 _ h4.1
      refine ⟨s3, ?_, by simpa [formatInts] using h6⟩
      rw [List.length_cons, readInts, h1]
      simp only [bind, Exec.bind, h3]
      rw [h5]
      rfl

/-- The smallest and the largest number of 64 bits. -/
example : ∃ s', (Scanner.new b!"-9223372036854775808 " Heap.empty).readInt 10 64 = .ret ((-9223372036854775808, none), s') := by
  obtain ⟨s', h, _⟩ := C95_int_back (.new b!"-9223372036854775808 " Heap.empty) [] b!" " 10 64 (-9223372036854775808) (by omega) (by omega) ⟨by decide, rfl⟩ (by decide) (by decide)
    (by rintro d w t e ⟨h1, h2⟩; cases e; revert h2; revert w; decide)
  exact ⟨s', h⟩

example : formatInt 16 (-255) = b!"-ff" ∧ formatInts 8 [8, -1, 0] = b!"10,-1,0" := by decide

end Tok
