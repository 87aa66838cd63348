/-
C22 ReadUint and C23 ReadInt.
-/
import Verif.Proofs.Number

namespace Tok
open Spec

private theorem charFunc_ok {base : Nat} (h : base = 8 ∨ base = 10 ∨ base = 16) : ∃ cf, charFunc base = some cf := by
  rcases h with rfl | rfl | rfl
  · exact ⟨octValue, rfl⟩
  · exact ⟨decValue, rfl⟩
  · exact ⟨hexValue, rfl⟩

private theorem move_pos (s : Scanner) (n : Int) : (s.move n).2.pos = s.pos ∨ (s.move n).2.pos = s.pos + n := by
  unfold Scanner.move
  simp only
  split
  · exact .inl rfl
  · right
    unfold Scanner.notify
    split <;> rfl

private theorem uint_core (s : Scanner) (h ds rest : Bytes) (base max v : Nat) (bits : Int)
    (hbase : base = 8 ∨ base = 10 ∨ base = 16) (hmax : uintMax bits = some max) (hlt : max < 2 ^ 64)
    (hb : Between s h (ds ++ rest)) (hl : LongestNumeral base max (ds ++ rest) ds v)
    : (∃ s', s.readUint base bits = .ret ((v, none), s') ∧ Reaches s s' (h ++ ds) rest) ↔
      ∀ d v', [d] <+: rest → Numeral base (ds ++ [d]) v' → ¬ (v ≤ v' % 2 ^ 64 ∧ v' % 2 ^ 64 ≤ max) := by
  obtain ⟨cf, hcf⟩ := charFunc_ok hbase
  rw [← stops_iff hbase hl.2.1]
  obtain ⟨_, ⟨hne, vs, hvs, rfl⟩, hle, _⟩ := hl
  have hpos : 0 < ds.length := List.length_pos_iff.mpr hne
  constructor
  · rintro ⟨s', h1, h2⟩
    by_contra hgo
    obtain ⟨ps, hps⟩ := Pieces.exists (ds ++ rest)
    obtain ⟨ps', hp1, hp2⟩ := uintLoop_prefix hcf hlt hvs hps 0 0 (-1) (by rw [acc_zero]; exact hle)
    rw [acc_zero] at hp2
    have hon := uintLoop_on hcf hp1 (positional base vs) (0 + ds.length) (if ds = [] then -1 else ((0 + ds.length : Nat) : Int) - 1) hgo
    rw [← hp2] at hon
    unfold Scanner.readUint at h1
    rw [hcf, hmax] at h1
    simp only [tail_of hb, Exec.bind_ret, rangeStr_pieces hps, Int.toNat_natCast] at h1
    rw [if_neg (by omega)] at h1
    simp only [Exec.pure_eq, Exec.ret.injEq, Prod.mk.injEq] at h1
    have hp := h2.1.2
    have hq := hb.2
    rw [← h1.2, List.length_append] at hp
    rcases move_pos s ((uintLoop cf base max (offsets 0 ps) 0 (-1)).2 + 1) with h3 | h3 <;> omega
  intro hst
  obtain ⟨ps, hps⟩ := Pieces.exists (ds ++ rest)
  obtain ⟨s', h1, h2⟩ := move_fwd hb
  refine ⟨s', ?_, h2⟩
  unfold Scanner.readUint
  rw [hcf, hmax]
  simp only [tail_of hb, Exec.bind_ret, rangeStr_pieces hps, Int.toNat_natCast]
  rw [uintLoop_spec hcf hlt hvs hps 0 0 (-1) (by rw [acc_zero]; exact hle) (by rw [acc_zero]; exact hst)]
  simp only [hne, if_false, acc_zero, Nat.zero_add]
  rw [if_neg (by omega), Int.sub_add_cancel, h1]
  rfl

/-- `ReadUint(base, bitSize)` for 8, 16 and 32 bits consumes the longest numeral that
fits and returns its value. -/
theorem C22_readUint (s : Scanner) (h ds rest : Bytes) (base bits v : Nat)
    (hbase : base = 8 ∨ base = 10 ∨ base = 16) (hbits : bits = 8 ∨ bits = 16 ∨ bits = 32)
    (hb : Between s h (ds ++ rest)) (hl : LongestNumeral base (2 ^ bits - 1) (ds ++ rest) ds v) :
    ∃ s', s.readUint base bits = .ret ((v, none), s') ∧ Reaches s s' (h ++ ds) rest := by
  have hpow : (2 : Nat) ^ bits ≤ 4294967296 := by rcases hbits with rfl | rfl | rfl <;> decide
  refine (uint_core s h ds rest base (2 ^ bits - 1) v bits hbase ?_ (by omega) hb hl).mpr ?_
  · rcases hbits with rfl | rfl | rfl <;> rfl
  · rintro d v' ⟨t, rfl⟩ hn
    have hov := longest_over hl
    obtain ⟨_, ⟨_, vs, hvs, rfl⟩, hle, _⟩ := hl
    obtain ⟨_, ws, hws, rfl⟩ := hn
    -- the value with one more digit is at most (2^32-1)*16+15
    have := digits_snoc hbase hvs hws
    obtain ⟨w, rfl, hw⟩ := this
    have hov := hov d w t rfl hw
    have hw := hw.1
    rw [positional_snoc]
    have : positional base vs * base ≤ 4294967295 * 16 := Nat.mul_le_mul (by omega) (by omega)
    omega

/-- `ReadUint(base, 64)` consumes the longest numeral that fits and returns its value exactly if the value with the next digit, reduced to 64
bits, is less than the value.

Missing for the full property: in the other case the overflow goes unnoticed (`C22_violated`). -/
theorem C22_readUint64_partial (s : Scanner) (h ds rest : Bytes) (base v : Nat)
    (hbase : base = 8 ∨ base = 10 ∨ base = 16)
    (hb : Between s h (ds ++ rest)) (hl : LongestNumeral base (2 ^ 64 - 1) (ds ++ rest) ds v) :
    (∃ s', s.readUint base 64 = .ret ((v, none), s') ∧ Reaches s s' (h ++ ds) rest) ↔
      ∀ d v', [d] <+: rest → Numeral base (ds ++ [d]) v' → v' % 2 ^ 64 < v := by
  rw [uint_core s h ds rest base (2 ^ 64 - 1) v 64 hbase rfl (by omega) hb hl]
  refine forall_congr' fun d => forall_congr' fun v' => imp_congr_right fun _ => imp_congr_right fun _ => ?_
  omega

private theorem digits_mid {base : Nat} {ds : Bytes} {d : UInt8} {e : Bytes} {ws : List Nat}
    (h : List.Forall₂ (IsDigit base) (ds ++ d :: e) ws) : ∃ w, IsDigit base d w := by
  induction ds generalizing ws with
  | nil => cases h with | cons h1 _ => exact ⟨_, h1⟩
  | cons _ _ ih => cases h with | cons _ h2 => exact ih h2

private theorem positional_lt {base : Nat} (hb : 0 < base) {ds : Bytes} {vs : List Nat} (h : List.Forall₂ (IsDigit base) ds vs) :
    positional base vs < base ^ ds.length := by
  induction h with
  | nil => exact Nat.one_pos
  | @cons d v ds vs h1 h2 ih =>
    have h3 := h1.1
    simp only [positional, List.length_cons, ← h2.length_eq, Nat.pow_succ]
    have : (v + 1) * base ^ ds.length ≤ base * base ^ ds.length := Nat.mul_le_mul_right _ h3
    rw [Nat.add_mul, Nat.mul_comm base] at this
    omega

/-- With at most 19 decimal digits `ReadUint(10, 64)` is always right: it reads all of them. -/
theorem C22_short (s : Scanner) (h ds rest : Bytes) (v : Nat) (hb : Between s h (ds ++ rest)) (hn : Numeral 10 ds v) (hlen : ds.length ≤ 19)
    (hend : ∀ d w t, rest = d :: t → ¬ IsDigit 10 d w) :
    ∃ s', s.readUint 10 64 = .ret ((v, none), s') ∧ Reaches s s' (h ++ ds) rest := by
  have hv : v < 10 ^ 19 := by
    obtain ⟨_, vs, hvs, rfl⟩ := hn
    refine Nat.lt_of_lt_of_le (positional_lt (by omega) hvs) (Nat.pow_le_pow_right (by omega) hlen)
  refine (C22_readUint64_partial s h ds rest 10 v (by omega) hb ⟨⟨rest, rfl⟩, hn, by omega, ?_⟩).mpr ?_
  · intro ds' v' hp hn' _
    by_contra hlt
    obtain ⟨r, hr⟩ := hp
    obtain ⟨e, rfl⟩ : ∃ e, ds' = ds ++ e := by
      obtain ⟨e, he⟩ := List.prefix_of_prefix_length_le ⟨rest, rfl⟩ ⟨r, hr⟩ (Nat.le_of_lt (by omega))
      exact ⟨e, he.symm⟩
    rw [List.append_assoc, List.append_cancel_left_eq] at hr
    cases e with
    | nil => simp at hlt
    | cons d e =>
      obtain ⟨_, ws, hws, _⟩ := hn'
      obtain ⟨w, hw⟩ := digits_mid hws
      exact hend d w (e ++ r) hr.symm hw
  · rintro d v' ⟨t, rfl⟩ ⟨_, ws, hws, _⟩
    obtain ⟨w, hw⟩ := digits_mid (e := []) hws
    exact absurd hw (hend d w t rfl)

/-- Without a digit at the position `ReadUint` returns an error and does nothing. -/
theorem C22_noDigit (s : Scanner) (h t : Bytes) (base bits : Nat)
    (hbase : base = 8 ∨ base = 10 ∨ base = 16) (hbits : bits = 8 ∨ bits = 16 ∨ bits = 32 ∨ bits = 64)
    (hb : Between s h t) (hno : ∀ ds v, ds <+: t → ¬ Numeral base ds v) :
    s.readUint base bits = .ret ((0, some (.read s.pos b!"unsigned integer")), s) := by
  obtain ⟨cf, hcf⟩ := charFunc_ok hbase
  have hnd := no_digit hno
  obtain ⟨max, hmax, hlt⟩ : ∃ max, uintMax bits = some max ∧ max < 2 ^ 64 := by
    rcases hbits with rfl | rfl | rfl | rfl
    · exact ⟨_, rfl, by decide⟩
    · exact ⟨_, rfl, by decide⟩
    · exact ⟨_, rfl, by decide⟩
    · exact ⟨_, rfl, by decide⟩
  obtain ⟨ps, hps⟩ := Pieces.exists t
  unfold Scanner.readUint
  rw [hcf, hmax]
  simp only [tail_of hb, Exec.bind_ret, rangeStr_pieces hps, Int.toNat_natCast]
  rw [uintLoop_spec hcf hlt (ds := []) (vs := []) .nil hps 0 0 (-1) (by rw [acc_nil]; omega)
    (fun d w t' he hd => absurd hd (hnd d w t' he))]
  rfl

/-- An unsupported base or bit size is an error and does nothing. -/
theorem C22_invalid (s : Scanner) (base bits : Int)
    (h : (base ≠ 8 ∧ base ≠ 10 ∧ base ≠ 16) ∨ (bits ≠ 8 ∧ bits ≠ 16 ∧ bits ≠ 32 ∧ bits ≠ 64)) :
    ∃ e, s.readUint base bits = .ret ((0, some e), s) := by
  unfold Scanner.readUint
  rcases hcf : charFunc base with _ | cf
  · exact ⟨_, rfl⟩
  · have hbits : uintMax bits = none := by
      rcases h with ⟨h1, h2, h3⟩ | ⟨h1, h2, h3, h4⟩
      · simp [charFunc, h1, h2, h3] at hcf
      · simp [uintMax, h1, h2, h3, h4]
    rw [hbits]
    exact ⟨_, rfl⟩

/-- Whenever there is a digit there is a longest fitting numeral, so the theorems above
cover every text. -/
theorem C22_total (base max : Nat) (t : Bytes) (hbase : base = 8 ∨ base = 10 ∨ base = 16) (hmax : 15 ≤ max)
    (h : ∃ ds v, ds <+: t ∧ Numeral base ds v) : ∃ ds rest v, t = ds ++ rest ∧ LongestNumeral base max t ds v := by
  classical
  have h0 : ∃ ds v, ds <+: t ∧ Numeral base ds v ∧ v ≤ max := by
    obtain ⟨ds, v, ⟨rest, rfl⟩, hne, vs, hvs, -⟩ := h
    cases hvs with
    | nil => exact absurd rfl hne
    | @cons d w ds vs h1 _ =>
      refine ⟨[d], w, ⟨ds ++ rest, rfl⟩, ⟨by simp, [w], .cons h1 .nil, by simp [positional]⟩, ?_⟩
      have := h1.1
      omega
  -- take the longest by well-founded search on the length
  have key : ∀ k, (∃ ds v, ds <+: t ∧ Numeral base ds v ∧ v ≤ max ∧ t.length ≤ ds.length + k) →
      ∃ ds v, LongestNumeral base max t ds v := by
    intro k
    induction k with
    | zero =>
      rintro ⟨ds, v, h1, h2, h3, h4⟩
      exact ⟨ds, v, h1, h2, h3, fun ds' v' h5 _ _ => Nat.le_trans h5.length_le (by omega)⟩
    | succ k ih =>
      rintro ⟨ds, v, h1, h2, h3, h4⟩
      by_cases hlong : ∃ ds' v', ds' <+: t ∧ Numeral base ds' v' ∧ v' ≤ max ∧ ds.length < ds'.length
      · obtain ⟨ds', v', h5, h6, h7, h8⟩ := hlong
        exact ih ⟨ds', v', h5, h6, h7, by omega⟩
      · refine ⟨ds, v, h1, h2, h3, fun ds' v' h5 h6 h7 => ?_⟩
        by_contra hcon
        exact hlong ⟨ds', v', h5, h6, h7, by omega⟩
  obtain ⟨ds, v, h1, h2, h3⟩ := h0
  obtain ⟨ds, v, hL⟩ := key t.length ⟨ds, v, h1, h2, h3, by omega⟩
  obtain ⟨rest, hr⟩ := hL.1
  exact ⟨ds, rest, v, hr.symm, hL⟩

/-- `ReadUint(10, 64)` accepts "50000000000000000000", which does not fit in 64 bits,
and returns another number. -/
theorem C22_violated : (Scanner.new b!"50000000000000000000" Heap.empty).readUint 10 64 =
      .ret ((13106511852580896768, none), ⟨b!"50000000000000000000", 20, none, Heap.empty⟩) ∧
    Numeral 10 b!"50000000000000000000" 50000000000000000000 := by
  refine ⟨rfl, by simp, [5,0,0,0,0,0,0,0,0,0,0,0,0,0,0,0,0,0,0,0], ?_, by decide⟩
  repeat (first | exact .nil | refine .cons (by decide) ?_)

private theorem ifRune_sign {s : Scanner} {h t : Bytes} (b : UInt8) (hlt : b.toNat < 128) (hb : Between s h t) :
    (∀ t', t = b :: t' → ∃ s', s.ifRune (b.toNat : Int) = .ret (true, s') ∧ Reaches s s' (h ++ [b]) t') ∧
    ((∀ t', t ≠ b :: t') → s.ifRune (b.toNat : Int) = .ret (false, s)) := by
  rw [ifRune_eq hb]
  constructor
  · rintro t' rfl
    obtain ⟨_, h1, _⟩ := step_iff.mp (step_ascii t' hlt)
    rw [h1, if_pos rfl]
    obtain ⟨s', h2, h3⟩ := move_fwd (x := [b]) hb
    exact ⟨s', by rw [← h2], h3⟩
  · intro hno
    rw [if_neg]
    intro he
    rcases step_cases t with ⟨_, h2⟩ | ⟨r, p, t', h1, h2, h3, h4⟩
    · rw [h2] at he
      have : runeError = 65533 := rfl
      simp only [this] at he
      omega
    · rw [h3] at he
      simp only at he
      subst he
      obtain ⟨b', t'', h5, h6, h7, h8⟩ := step_small h1 (by omega)
      have : b' = b := UInt8.toNat_inj.mp (by omega)
      exact hno t'' (by rw [h5, this])

/-- The sign part of a signed numeral. -/
inductive Sign : Bytes → Bool → Prop
  | none : Sign [] false
  | plus : Sign [43] false
  | minus : Sign [45] true

/-- The largest magnitude of a `bits`-bit signed number of the given sign. -/
def magnitude (bits : Nat) (neg : Bool) : Nat := if neg then 2 ^ (bits - 1) else 2 ^ (bits - 1) - 1

private theorem digit_not_sign {base : Nat} {d : UInt8} {v : Nat} (hb : base ≤ 16) (h : IsDigit base d v) :
    d ≠ 43 ∧ d ≠ 45 := by
  have key : ∀ v : Fin 16, ∀ d ∈ [(43 : UInt8), 45],
      ¬ (b!"0123456789abcdef"[v.1]? = some d ∨ b!"0123456789ABCDEF"[v.1]? = some d) := by
    decide +kernel
  constructor
  · rintro rfl
    exact key ⟨v, by have := h.1; omega⟩ 43 (by simp) h.2
  · rintro rfl
    exact key ⟨v, by have := h.1; omega⟩ 45 (by simp) h.2

/-- What the sign reading of `ReadInt` does. -/
private theorem sign_core {α : Type} {s : Scanner} {h sgn t : Bytes} {neg : Bool} (hb : Between s h (sgn ++ t))
    (hs : Sign sgn neg) (hns : sgn = [] → ∀ t', t ≠ 43 :: t' ∧ t ≠ 45 :: t') (k : Bool → Scanner → Exec α) :
    ∃ s', Reaches s s' (h ++ sgn) t ∧
      (do let (minus, s) ← s.ifRune 45
          let (_, s) ← if minus then pure (true, s) else s.ifRune 43
          k minus s) = k neg s' := by
  cases hs with
  | none =>
    have h1 := (ifRune_sign 45 (by decide) hb).2 (fun t' => (hns rfl t').2)
    have h2 := (ifRune_sign 43 (by decide) hb).2 (fun t' => (hns rfl t').1)
    refine ⟨s, by simpa using reaches_self hb, ?_⟩
    change s.ifRune 45 = _ at h1
    change s.ifRune 43 = _ at h2
    rw [h1]
    simp [h2]
  | plus =>
    have h1 := (ifRune_sign 45 (by decide) hb).2 (by rintro t' h; simp at h)
    obtain ⟨s', h2, h3⟩ := (ifRune_sign 43 (by decide) hb).1 t rfl
    refine ⟨s', h3, ?_⟩
    change s.ifRune 45 = _ at h1
    change s.ifRune 43 = _ at h2
    rw [h1]
    simp [h2]
  | minus =>
    obtain ⟨s', h2, h3⟩ := (ifRune_sign 45 (by decide) hb).1 t rfl
    refine ⟨s', h3, ?_⟩
    change s.ifRune 45 = _ at h2
    rw [h2]
    simp

private theorem int_core (s : Scanner) (h sgn ds rest : Bytes) (neg : Bool) (base bits v : Nat)
    (hbase : base = 8 ∨ base = 10 ∨ base = 16) (hbits : bits = 8 ∨ bits = 16 ∨ bits = 32 ∨ bits = 64)
    (hb : Between s h (sgn ++ (ds ++ rest))) (hs : Sign sgn neg)
    (hl : LongestNumeral base (magnitude bits neg) (ds ++ rest) ds v) :
    (∃ s', s.readInt base bits = .ret ((if neg then -(v : Int) else v, none), s') ∧ Reaches s s' (h ++ sgn ++ ds) rest) ↔
      ∀ d v', [d] <+: rest → Numeral base (ds ++ [d]) v' → ¬ (v ≤ v' % 2 ^ 64 ∧ v' % 2 ^ 64 ≤ magnitude bits neg) := by
  obtain ⟨cf, hcf⟩ := charFunc_ok hbase
  rw [← stops_iff hbase hl.2.1]
  have hov := longest_over hl
  obtain ⟨_, ⟨hne, vs, hvs, rfl⟩, hle, _⟩ := hl
  obtain ⟨ps, hps⟩ := Pieces.exists (ds ++ rest)
  have hpos : 0 < ds.length := List.length_pos_iff.mpr hne
  obtain ⟨min, max, hbd, hmin, hmax⟩ : ∃ min max, intBounds bits = some (min, max) ∧
      (neg = true → min = -(magnitude bits neg : Int) ∧ magnitude bits neg ≤ 9223372036854775808) ∧
      (neg = false → max = magnitude bits neg ∧ magnitude bits neg ≤ 9223372036854775807) := by
    rcases hbits with rfl | rfl | rfl | rfl <;>
      exact ⟨_, _, rfl, by rintro rfl; decide, by rintro rfl; decide⟩
  have hns : sgn = [] → ∀ t', ds ++ rest ≠ 43 :: t' ∧ ds ++ rest ≠ 45 :: t' := by
    rintro - t'
    cases hvs with
    | nil => exact absurd rfl hne
    | cons h1 _ =>
      obtain ⟨h2, h3⟩ := digit_not_sign (by omega) h1
      constructor
      · intro he; exact h2 (List.cons.inj he).1
      · intro he; exact h3 (List.cons.inj he).1
  obtain ⟨s1, hr1, hk⟩ := sign_core hb hs hns (fun minus s2 => do
      let t ← s2.tail
      let (i64, n) := intLoop cf base min max minus (rangeStr t) 0 (-1)
      if n = -1 then
        let s2 := (s2.toMarker s.mark).2
        pure ((0, some (s2.errorFor b!"integer")), s2)
      else pure ((i64, none), (s2.move (n + 1)).2))
  have hz : (if neg then -((0 : Nat) : Int) else ((0 : Nat) : Int)) = 0 := by cases neg <;> rfl
  constructor
  · rintro ⟨s', h1, h2⟩
    by_contra hgo
    obtain ⟨ps', hp1, hp2⟩ := intLoop_prefix hcf hmax hmin hvs hps 0 0 (-1) (by rw [acc_zero]; exact hle)
    rw [acc_zero, hz] at hp2
    have hon := intLoop_on hcf hmax hmin hp1 (positional base vs) (0 + ds.length) (if ds = [] then -1 else ((0 + ds.length : Nat) : Int) - 1)
      hle hov hgo
    rw [← hp2] at hon
    unfold Scanner.readInt at h1
    rw [hcf, hbd] at h1
    simp only at h1
    rw [hk] at h1
    simp only [tail_of hr1.1, Exec.bind_ret, rangeStr_pieces hps] at h1
    rw [if_neg (by omega)] at h1
    simp only [Exec.pure_eq, Exec.ret.injEq, Prod.mk.injEq] at h1
    have hp := h2.1.2
    have hq := hr1.1.2
    rw [← h1.2, List.length_append] at hp
    rcases move_pos s1 ((intLoop cf base min max neg (offsets 0 ps) 0 (-1)).2 + 1) with h3 | h3 <;> omega
  intro hst
  obtain ⟨s', h1, h2⟩ := move_fwd hr1.1
  refine ⟨s', ?_, h2.1, h2.2.1.trans hr1.2.1, h2.2.2.1.trans hr1.2.2.1, ?_⟩
  · unfold Scanner.readInt
    rw [hcf, hbd]
    simp only
    refine hk.trans ?_
    simp only [tail_of hr1.1, Exec.bind_ret, rangeStr_pieces hps]
    have := intLoop_spec hcf hmax hmin hvs hps 0 0 (-1) (by rw [acc_zero]; exact hle) (by rw [acc_zero]; exact hov) (by rw [acc_zero]; exact hst)
    rw [hz] at this
    rw [this]
    simp only [hne, if_false, acc_zero, Nat.zero_add]
    rw [if_neg (by omega), Int.sub_add_cancel, h1]
    rfl
  · intro ht
    rw [h2.2.2.2 (hr1.2.2.1.trans ht), hr1.2.2.2 ht]

/-- C23: `ReadInt(base, bitSize)` for 8, 16 and 32 bits consumes an optional sign and the
longest numeral whose signed value fits, and returns that value. -/
theorem C23_readInt (s : Scanner) (h sgn ds rest : Bytes) (neg : Bool) (base bits v : Nat)
    (hbase : base = 8 ∨ base = 10 ∨ base = 16) (hbits : bits = 8 ∨ bits = 16 ∨ bits = 32)
    (hb : Between s h (sgn ++ (ds ++ rest))) (hs : Sign sgn neg)
    (hl : LongestNumeral base (magnitude bits neg) (ds ++ rest) ds v) :
    ∃ s', s.readInt base bits = .ret ((if neg then -(v : Int) else v, none), s') ∧
      Reaches s s' (h ++ sgn ++ ds) rest := by
  have hmag : magnitude bits neg ≤ 4294967296 := by
    rcases hbits with rfl | rfl | rfl <;> cases neg <;> decide
  refine (int_core s h sgn ds rest neg base bits v hbase (by omega) hb hs hl).mpr ?_
  rintro d v' ⟨t, rfl⟩ hn
  have hov := longest_over hl
  obtain ⟨_, ⟨_, vs, hvs, rfl⟩, hle, _⟩ := hl
  obtain ⟨_, ws, hws, rfl⟩ := hn
  have := digits_snoc hbase hvs hws
  obtain ⟨w, rfl, hw⟩ := this
  have hov := hov d w t rfl hw
  have hw := hw.1
  rw [positional_snoc]
  have : positional base vs * base ≤ 4294967296 * 16 := Nat.mul_le_mul (by omega) (by omega)
  omega

/-- C23: the same for 64 bits exactly if the magnitude with the next digit, reduced to 64 bits, is less than the magnitude read or more than
64 bits allow.

Missing for the full property: in the other case the overflow goes unnoticed (`C23_violated`). -/
theorem C23_readInt64_partial (s : Scanner) (h sgn ds rest : Bytes) (neg : Bool) (base v : Nat)
    (hbase : base = 8 ∨ base = 10 ∨ base = 16)
    (hb : Between s h (sgn ++ (ds ++ rest))) (hs : Sign sgn neg)
    (hl : LongestNumeral base (magnitude 64 neg) (ds ++ rest) ds v) :
    (∃ s', s.readInt base 64 = .ret ((if neg then -(v : Int) else v, none), s') ∧ Reaches s s' (h ++ sgn ++ ds) rest) ↔
      ∀ d v', [d] <+: rest → Numeral base (ds ++ [d]) v' → v' % 2 ^ 64 < v ∨ magnitude 64 neg < v' % 2 ^ 64 := by
  refine (int_core s h sgn ds rest neg base 64 v hbase (by omega) hb hs hl).trans ?_
  refine forall_congr' fun d => forall_congr' fun v' => imp_congr_right fun _ => imp_congr_right fun _ => ?_
  omega

/-- C23: without a digit after the optional sign `ReadInt` returns an error and the scanner
is where it was. -/
theorem C23_noDigit (s : Scanner) (h sgn t : Bytes) (neg : Bool) (base bits : Nat)
    (hbase : base = 8 ∨ base = 10 ∨ base = 16) (hbits : bits = 8 ∨ bits = 16 ∨ bits = 32 ∨ bits = 64)
    (hb : Between s h (sgn ++ t)) (hs : Sign sgn neg) (hns : sgn = [] → ∀ t', t ≠ 43 :: t' ∧ t ≠ 45 :: t')
    (hno : ∀ ds v, ds <+: t → ¬ Numeral base ds v) :
    ∃ s', s.readInt base bits = .ret ((0, some (.read s.pos b!"integer")), s') ∧ Reaches s s' h (sgn ++ t) := by
  obtain ⟨cf, hcf⟩ := charFunc_ok hbase
  have hnd := no_digit hno
  obtain ⟨ps, hps⟩ := Pieces.exists t
  obtain ⟨min, max, hbd, hmin, hmax⟩ : ∃ min max, intBounds bits = some (min, max) ∧
      (neg = true → min = -(magnitude bits neg : Int) ∧ magnitude bits neg ≤ 9223372036854775808) ∧
      (neg = false → max = magnitude bits neg ∧ magnitude bits neg ≤ 9223372036854775807) := by
    rcases hbits with rfl | rfl | rfl | rfl <;>
      exact ⟨_, _, rfl, by rintro rfl; decide, by rintro rfl; decide⟩
  obtain ⟨s1, hr1, hk⟩ := sign_core hb hs hns (fun minus s2 => do
      let t ← s2.tail
      let (i64, n) := intLoop cf base min max minus (rangeStr t) 0 (-1)
      if n = -1 then
        let s2 := (s2.toMarker s.mark).2
        pure ((0, some (s2.errorFor b!"integer")), s2)
      else pure ((i64, none), (s2.move (n + 1)).2))
  obtain ⟨s', h1, h2⟩ := toMarker_to (s := s1) (m := s.pos) (h := h) (t := sgn ++ t)
    (by rw [hr1.2.1, hb.1]) hb.2
  refine ⟨s', ?_, h2.1, h2.2.1.trans hr1.2.1, h2.2.2.1.trans hr1.2.2.1, ?_⟩
  · unfold Scanner.readInt
    rw [hcf, hbd]
    simp only
    refine hk.trans ?_
    simp only [tail_of hr1.1, Exec.bind_ret, rangeStr_pieces hps]
    have hz : (if neg then -((0 : Nat) : Int) else ((0 : Nat) : Int)) = 0 := by cases neg <;> rfl
    have := intLoop_spec hcf hmax hmin (ds := []) (vs := []) .nil hps 0 0 (-1) (by rw [acc_nil]; omega)
      (fun d w t' he hd => absurd hd (hnd d w t' he)) (fun d w t' he hd => absurd hd (hnd d w t' he))
    rw [hz] at this
    rw [this]
    simp only [if_true, Scanner.mark, h1, Exec.pure_eq, Scanner.errorFor]
    rw [h2.1.2, hb.2]
  · intro ht
    rw [h2.2.2.2 (hr1.2.2.1.trans ht), hr1.2.2.2 ht]

/-- C23: an unsupported base or bit size is an error and does nothing. -/
theorem C23_invalid (s : Scanner) (base bits : Int)
    (h : (base ≠ 8 ∧ base ≠ 10 ∧ base ≠ 16) ∨ (bits ≠ 8 ∧ bits ≠ 16 ∧ bits ≠ 32 ∧ bits ≠ 64)) :
    ∃ e, s.readInt base bits = .ret ((0, some e), s) := by
  unfold Scanner.readInt
  rcases hcf : charFunc base with _ | cf
  · exact ⟨_, rfl⟩
  · have hbits : intBounds bits = none := by
      rcases h with ⟨h1, h2, h3⟩ | ⟨h1, h2, h3, h4⟩
      · simp [charFunc, h1, h2, h3] at hcf
      · simp [intBounds, h1, h2, h3, h4]
    rw [hbits]
    exact ⟨_, rfl⟩

/-- `ReadInt(10, 64)` accepts "25000000000000000000", which does not fit in 64 bits, and
returns another number. -/
theorem C23_violated : (Scanner.new b!"25000000000000000000" Heap.empty).readInt 10 64 =
      .ret ((6553255926290448384, none), ⟨b!"25000000000000000000", 20, none, Heap.empty⟩) ∧
    Numeral 10 b!"25000000000000000000" 25000000000000000000 := by
  have hl : intLoop decValue 10 (-9223372036854775808) 9223372036854775807 false
      (rangeStr b!"25000000000000000000") 0 (-1) = (6553255926290448384, 19) := by decide +kernel
  refine ⟨?_, by simp, [2,5,0,0,0,0,0,0,0,0,0,0,0,0,0,0,0,0,0,0], ?_, by decide⟩
  · have hb : Between (Scanner.new b!"25000000000000000000" Heap.empty) [] b!"25000000000000000000" := ⟨rfl, rfl⟩
    have h1 : (Scanner.new b!"25000000000000000000" Heap.empty).ifRune 45 = .ret (false, Scanner.new _ Heap.empty) := rfl
    have h2 : (Scanner.new b!"25000000000000000000" Heap.empty).ifRune 43 = .ret (false, Scanner.new _ Heap.empty) := rfl
    unfold Scanner.readInt
    rw [show charFunc 10 = some decValue from rfl,
      show intBounds 64 = some (-9223372036854775808, 9223372036854775807) from rfl]
    simp only
    rw [h1]
    simp only [Exec.bind_ret, Bool.false_eq_true, if_false]
    rw [h2]
    simp only [Exec.bind_ret, tail_of hb]
    rw [hl]
    rfl
  · repeat (first | exact .nil | refine .cons (by decide) ?_)

-- "256" read with 8 bits: the longest numeral that fits is "25".
example : LongestNumeral 10 (2 ^ 8 - 1) (b!"25" ++ b!"6") b!"25" 25 := by
  have h25 : Numeral 10 b!"25" 25 := ⟨by simp, [2, 5], .cons (by decide) (.cons (by decide) .nil), by decide⟩
  refine ⟨⟨b!"6", rfl⟩, h25, by decide, ?_⟩
  rintro ds v ⟨r, hr⟩ ⟨hne, vs, hvs, rfl⟩ hle
  by_contra hcon
  have hlen := congrArg List.length hr
  simp only [List.length_append, List.length_cons, List.length_nil] at hlen hcon
  have : r = [] := List.eq_nil_of_length_eq_zero (by omega)
  subst this
  rw [List.append_nil] at hr
  subst hr
  cases hvs with | cons h1 hvs => cases hvs with | cons h2 hvs => cases hvs with | cons h3 hvs =>
    cases hvs
    have e1 := digit_unique (base := 10) (by simp) h1 (show IsDigit 10 50 2 by decide)
    have e2 := digit_unique (base := 10) (by simp) h2 (show IsDigit 10 53 5 by decide)
    have e3 := digit_unique (base := 10) (by simp) h3 (show IsDigit 10 54 6 by decide)
    subst e1 e2 e3
    exact absurd hle (by decide)
example : (Scanner.new b!"-129" Heap.empty).readInt 10 8 = .ret ((-12, none), ⟨b!"-129", 3, none, Heap.empty⟩) := rfl

end Tok
