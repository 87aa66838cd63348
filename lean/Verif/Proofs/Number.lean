/-
The digit loops of ReadInt and ReadUint against the specification of numerals.
-/
import Verif.Spec.Number
import Verif.Proofs.BackScan

namespace Tok
open Spec

theorem digit_unique {base : Nat} (hbase : base = 8 ∨ base = 10 ∨ base = 16) {b : UInt8} {v w : Nat}
    (h1 : IsDigit base b v) (h2 : IsDigit base b w) : v = w := by
  have key : ∀ b : Fin 256, ∀ v w : Fin 16,
      (b!"0123456789abcdef"[v.1]? = some (UInt8.ofNat b) ∨ b!"0123456789ABCDEF"[v.1]? = some (UInt8.ofNat b)) →
      (b!"0123456789abcdef"[w.1]? = some (UInt8.ofNat b) ∨ b!"0123456789ABCDEF"[w.1]? = some (UInt8.ofNat b)) →
      v = w := by
    decide +kernel
  have := key ⟨b.toNat, b.toNat_lt⟩ ⟨v, by have := h1.1; omega⟩ ⟨w, by have := h2.1; omega⟩
  simp only [UInt8.ofNat_toNat] at this
  exact Fin.mk.inj (this h1.2 h2.2)

theorem digit_lt {base : Nat} (hbase : base = 8 ∨ base = 10 ∨ base = 16) {b : UInt8} {v : Nat}
    (h : IsDigit base b v) : b.toNat < 128 := by
  have key : ∀ b : Fin 256, ∀ v : Fin 16,
      (b!"0123456789abcdef"[v.1]? = some (UInt8.ofNat b) ∨ b!"0123456789ABCDEF"[v.1]? = some (UInt8.ofNat b)) →
      b.1 < 128 := by
    decide +kernel
  have := key ⟨b.toNat, b.toNat_lt⟩ ⟨v, by have := h.1; omega⟩
  simp only [UInt8.ofNat_toNat] at this
  exact this h.2

/-- The `charFunc` of a base computes the digit value. -/
theorem charFunc_spec {base : Nat} {cf : Int → Int} (h : charFunc base = some cf) :
    (base = 8 ∨ base = 10 ∨ base = 16) ∧
    (∀ b : UInt8, ∀ v, IsDigit base b v → cf (b.toNat : Int) = v) ∧
    (∀ b : UInt8, (∀ v, ¬ IsDigit base b v) → cf (b.toNat : Int) = -1) ∧
    (∀ r : Int, r < 0 ∨ 128 ≤ r → cf r = -1) := by
  have fin : ∀ (base : Nat) (cf : Int → Int), base ≤ 16 →
      (∀ b : Fin 256, ∀ v : Fin 16, IsDigit base (UInt8.ofNat b) v → cf (b : Nat) = v) →
      (∀ b : Fin 256, (∀ v : Fin 16, ¬ IsDigit base (UInt8.ofNat b) v) → cf (b : Nat) = -1) →
      (∀ b : UInt8, ∀ v, IsDigit base b v → cf (b.toNat : Int) = v) ∧
      (∀ b : UInt8, (∀ v, ¬ IsDigit base b v) → cf (b.toNat : Int) = -1) := by
    intro base cf hb h1 h2
    constructor
    · intro b v hv
      have := h1 ⟨b.toNat, b.toNat_lt⟩ ⟨v, by have := hv.1; omega⟩
      simp only [UInt8.ofNat_toNat] at this
      exact this hv
    · intro b hv
      have := h2 ⟨b.toNat, b.toNat_lt⟩
      simp only [UInt8.ofNat_toNat] at this
      exact this (fun v => hv v)
  unfold charFunc at h
  split_ifs at h with h1 h2 h3
  · cases h
    have hb : base = 8 := by omega
    subst hb
    obtain ⟨a, b⟩ := fin 8 octValue (by omega) (by decide +kernel) (by decide +kernel)
    refine ⟨by simp, a, b, ?_⟩
    intro r hr
    unfold octValue; rw [if_neg]; rw [inRange_iff]; omega
  · cases h
    have hb : base = 10 := by omega
    subst hb
    obtain ⟨a, b⟩ := fin 10 decValue (by omega) (by decide +kernel) (by decide +kernel)
    refine ⟨by simp, a, b, ?_⟩
    intro r hr
    unfold decValue; rw [if_neg]; rw [inRange_iff]; omega
  · cases h
    have hb : base = 16 := by omega
    subst hb
    obtain ⟨a, b⟩ := fin 16 hexValue (by omega) (by decide +kernel) (by decide +kernel)
    refine ⟨by simp, a, b, ?_⟩
    intro r hr
    unfold hexValue
    rw [if_neg, if_neg, if_neg] <;> (rw [inRange_iff]; omega)

/-- A byte below 0x80 is a rune of its own. -/
theorem step_ascii {b : UInt8} (t : Bytes) (h : b.toNat < 128) : Step (b :: t) (b.toNat : Int) [b] := by
  have : enc (Char.ofNat b.toNat) = [b] ∧ (Char.ofNat b.toNat).toNat = b.toNat := by
    have key : ∀ n : Fin 128, enc (Char.ofNat n) = [UInt8.ofNat n] ∧ (Char.ofNat n).toNat = n := by
      decide +kernel
    have := key ⟨b.toNat, h⟩
    simpa using this
  have hs := Step.char (Char.ofNat b.toNat) t
  rw [this.1, this.2] at hs
  exact hs

/-- A rune below 0x80 occupies one byte of that value. -/
theorem step_small {t : Bytes} {r : Int} {p : Bytes} (h : Step t r p) (hr : r < 128) :
    ∃ b t', t = b :: t' ∧ p = [b] ∧ (b.toNat : Int) = r ∧ b.toNat < 128 := by
  cases h with
  | char c t =>
    obtain ⟨b, cs, he, _, hcs, h1, h2, _⟩ := enc_shape c
    by_cases hnil : cs = []
    · obtain ⟨h3, h4⟩ := h1 hnil
      subst hnil
      refine ⟨b, t, by rw [he]; rfl, he, by omega, h3⟩
    · exfalso
      have h5 := h2 hnil
      have h6 : c.toNat < 128 := by omega
      have key : ∀ n : Fin 128, enc (Char.ofNat n) = [UInt8.ofNat n] := by decide +kernel
      have := key ⟨c.toNat, h6⟩
      simp only [Char.ofNat_toNat] at this
      rw [he] at this
      exact hnil (List.cons.inj this).2
  | bad b t hb => omega

private theorem positional_step (base u : Nat) (v : Nat) (vs : List Nat) :
    u * base ^ (v :: vs).length + positional base (v :: vs) = (u * base + v) * base ^ vs.length + positional base vs := by
  simp only [positional, List.length_cons, Nat.pow_succ]
  rw [Nat.add_mul, Nat.mul_assoc, Nat.mul_comm base]; omega

/-- The accumulated value after reading digits `vs` from `u`. -/
def acc (base u : Nat) (vs : List Nat) : Nat := u * base ^ vs.length + positional base vs

theorem acc_cons (base u v : Nat) (vs : List Nat) : acc base u (v :: vs) = acc base (u * base + v) vs :=
  positional_step base u v vs

theorem acc_nil (base u : Nat) : acc base u [] = u := by simp [acc, positional]

theorem acc_zero (base : Nat) (vs : List Nat) : acc base 0 vs = positional base vs := by simp [acc]

theorem acc_ge {base u : Nat} (h : 0 < base) (vs : List Nat) : u ≤ acc base u vs := by
  unfold acc
  exact Nat.le_trans (Nat.le_mul_of_pos_right u (Nat.pow_pos h)) (Nat.le_add_right _ _)

theorem acc_append (base u : Nat) (vs ws : List Nat) : acc base u (vs ++ ws) = acc base (acc base u vs) ws := by
  induction vs generalizing u with
  | nil => rw [List.nil_append, acc_nil]
  | cons v vs ih => rw [List.cons_append, acc_cons, ih, acc_cons]

theorem positional_snoc (base : Nat) (vs : List Nat) (w : Nat) :
    positional base (vs ++ [w]) = positional base vs * base + w := by
  rw [← acc_zero, acc_append, acc_zero, acc_cons, acc_nil]

/-- What stops the digit loops: no digit follows, or the value with the next digit, reduced to 64 bits, is less than the value read so far or
too big. -/
def Stops (base max v : Nat) (rest : Bytes) : Prop :=
  ∀ d w rest', rest = d :: rest' → IsDigit base d w → ¬ (v ≤ (v * base + w) % 2 ^ 64 ∧ (v * base + w) % 2 ^ 64 ≤ max)

/-- A rune that is a digit is one byte. -/
theorem digit_piece {base : Nat} {cf : Int → Int} (hcf : charFunc base = some cf) {t : Bytes} {r : Int} {p : Bytes} (hs : Step t r p)
    (hneg : cf r ≠ -1) : ∃ b t' w, t = b :: t' ∧ p = [b] ∧ IsDigit base b w ∧ cf r = w := by
  obtain ⟨hbase, hc1, hc2, hc3⟩ := charFunc_spec hcf
  have hr : 0 ≤ r ∧ r < 128 := by
    by_contra hcon
    exact hneg (hc3 r (by omega))
  obtain ⟨b, t', rfl, rfl, rfl, hb⟩ := step_small hs hr.2
  obtain ⟨w, hw⟩ : ∃ w, IsDigit base b w := by
    by_contra hcon
    exact hneg (hc2 b (fun v hv => hcon ⟨v, hv⟩))
  exact ⟨b, t', w, rfl, rfl, hw, hc1 b w hw⟩

theorem uintLoop_prefix {base : Nat} {cf : Int → Int} (hcf : charFunc base = some cf) {max : Nat}
    (hmax : max < 2 ^ 64) {ds : Bytes} {vs : List Nat} (hd : List.Forall₂ (IsDigit base) ds vs)
    {rest : Bytes} {ps : List (Bytes × Int)} (hps : Pieces (ds ++ rest) ps) (u k : Nat) (n : Int)
    (hu : acc base u vs ≤ max) :
    ∃ ps', Pieces rest ps' ∧ uintLoop cf base max (offsets k ps) u n =
      uintLoop cf base max (offsets (k + ds.length) ps') (acc base u vs) (if ds = [] then n else ((k + ds.length : Nat) : Int) - 1) := by
  obtain ⟨hbase, hc1, hc2, hc3⟩ := charFunc_spec hcf
  induction hd generalizing u k n ps with
  | nil => exact ⟨ps, hps, by rw [acc_nil]; rfl⟩
  | @cons d v ds vs hdv hds ih =>
    have hlt := digit_lt hbase hdv
    cases hps with
    | @cons _ p t r ps hs he ht =>
      obtain ⟨rfl, rfl⟩ := hs.unique (step_ascii (ds ++ rest) hlt)
      have ht' : t = ds ++ rest := by simpa using he.symm
      subst ht'
      rw [acc_cons] at *
      have hge := acc_ge (base := base) (u := u * base + v) (by omega) vs
      have hub : u ≤ u * base := Nat.le_mul_of_pos_right u (by omega)
      have hno : wrapU64 (wrapU64 (u * base) + v) = u * base + v := by
        simp only [wrapU64, Nat.mod_add_mod]; exact Nat.mod_eq_of_lt (by omega)
      obtain ⟨ps', h1, h2⟩ := ih ht (u * base + v) (k + 1) (k : Int) hu
      refine ⟨ps', h1, ?_⟩
      simp only [offsets, uintLoop, hc1 d v hdv, Int.toNat_natCast, hno]
      rw [if_neg (by omega), if_neg (by simp only [Bool.or_eq_true, decide_eq_true_eq]; omega)]
      simp only [List.length_cons, List.length_nil, reduceCtorEq, if_false, Nat.zero_add]
      rw [h2, Nat.add_assoc, Nat.add_comm 1]
      congr 1
      by_cases hnil : ds = []
      · subst hnil; simp
      · rw [if_neg hnil]

theorem uintLoop_stop {base : Nat} {cf : Int → Int} (hcf : charFunc base = some cf) {max : Nat} {rest : Bytes} {ps : List (Bytes × Int)}
    (hps : Pieces rest ps) (u k : Nat) (n : Int) (hstop : Stops base max u rest) : uintLoop cf base max (offsets k ps) u n = (u, n) := by
  cases hps with
  | nil => rfl
  | @cons _ p t r ps hs he ht =>
    simp only [offsets, uintLoop]
    by_cases hneg : cf r = -1
    · rw [if_pos hneg]
    · rw [if_neg hneg]
      obtain ⟨b, t', w, rfl, rfl, hw, hv⟩ := digit_piece hcf hs hneg
      have := hstop b w t' rfl hw
      rw [hv, if_pos]
      simp only [Int.toNat_natCast, wrapU64, Bool.or_eq_true, decide_eq_true_eq, Nat.mod_add_mod]
      omega

theorem uintLoop_lb (cf : Int → Int) (base max : Nat) (ps : List (Bytes × Int)) (u k : Nat) (n : Int) (h : n ≤ k) :
    n ≤ (uintLoop cf base max (offsets k ps) u n).2 := by
  induction ps generalizing u k n with
  | nil => exact Int.le_refl n
  | cons q ps ih =>
    simp only [offsets, uintLoop]
    split
    · exact Int.le_refl n
    · split
      · exact Int.le_refl n
      · exact Int.le_trans h (ih _ _ _ (by omega))

theorem uintLoop_on {base : Nat} {cf : Int → Int} (hcf : charFunc base = some cf) {max : Nat} {rest : Bytes} {ps : List (Bytes × Int)}
    (hps : Pieces rest ps) (u k : Nat) (n : Int) (hgo : ¬ Stops base max u rest) : (k : Int) ≤ (uintLoop cf base max (offsets k ps) u n).2 := by
  obtain ⟨hbase, hc1, hc2, hc3⟩ := charFunc_spec hcf
  simp only [Stops, not_forall, not_not] at hgo
  obtain ⟨d, w, t', rfl, hd, h1, h2⟩ := hgo
  have hlt := digit_lt hbase hd
  cases hps with
  | @cons _ p t r ps hs he ht =>
    obtain ⟨rfl, rfl⟩ := hs.unique (step_ascii t' hlt)
    simp only [offsets, uintLoop, hc1 d w hd, Int.toNat_natCast]
    rw [if_neg (by omega), if_neg]
    · exact uintLoop_lb cf base max ps _ _ _ (by omega)
    · simp only [wrapU64, Bool.or_eq_true, decide_eq_true_eq, Nat.mod_add_mod]
      omega

theorem uintLoop_spec {base : Nat} {cf : Int → Int} (hcf : charFunc base = some cf) {max : Nat}
    (hmax : max < 2 ^ 64) {ds : Bytes} {vs : List Nat} (hd : List.Forall₂ (IsDigit base) ds vs)
    {rest : Bytes} {ps : List (Bytes × Int)} (hps : Pieces (ds ++ rest) ps) (u k : Nat) (n : Int)
    (hu : acc base u vs ≤ max) (hstop : Stops base max (acc base u vs) rest) :
    uintLoop cf base max (offsets k ps) u n =
      (acc base u vs, if ds = [] then n else ((k + ds.length : Nat) : Int) - 1) := by
  obtain ⟨ps', h1, h2⟩ := uintLoop_prefix hcf hmax hd hps u k n hu
  rw [h2, uintLoop_stop hcf h1 _ _ _ hstop]

theorem wrapI64_small {x : Int} (h1 : -9223372036854775808 ≤ x) (h2 : x ≤ 9223372036854775807) : wrapI64 x = x := by
  unfold wrapI64
  rw [Int.bmod_def]
  split <;> omega

theorem wrapI64_add (x y : Int) : wrapI64 (wrapI64 x + y) = wrapI64 (x + y) := by
  unfold wrapI64; rw [Int.bmod_add_bmod]

theorem wrapI64_sub (x y : Int) : wrapI64 (wrapI64 x - y) = wrapI64 (x - y) := by
  have := wrapI64_add x (-y)
  simpa [Int.sub_eq_add_neg] using this

theorem intLoop_prefix {base : Nat} {cf : Int → Int} (hcf : charFunc base = some cf) {bound : Nat} {min max : Int}
    {neg : Bool} (hmax : neg = false → max = bound ∧ bound ≤ 9223372036854775807)
    (hmin : neg = true → min = -(bound : Int) ∧ bound ≤ 9223372036854775808)
    {ds : Bytes} {vs : List Nat} (hd : List.Forall₂ (IsDigit base) ds vs)
    {rest : Bytes} {ps : List (Bytes × Int)} (hps : Pieces (ds ++ rest) ps) (u k : Nat) (n : Int)
    (hu : acc base u vs ≤ bound) :
    ∃ ps', Pieces rest ps' ∧ intLoop cf base min max neg (offsets k ps) (if neg then -(u : Int) else u) n =
      intLoop cf base min max neg (offsets (k + ds.length) ps') (if neg then -(acc base u vs : Int) else acc base u vs)
        (if ds = [] then n else ((k + ds.length : Nat) : Int) - 1) := by
  obtain ⟨hbase, hc1, hc2, hc3⟩ := charFunc_spec hcf
  induction hd generalizing u k n ps with
  | nil => exact ⟨ps, hps, by rw [acc_nil]; rfl⟩
  | @cons d v ds vs hdv hds ih =>
    have hlt := digit_lt hbase hdv
    cases hps with
    | @cons _ p t r ps hs he ht =>
      obtain ⟨rfl, rfl⟩ := hs.unique (step_ascii (ds ++ rest) hlt)
      have ht' : t = ds ++ rest := by simpa using he.symm
      subst ht'
      rw [acc_cons] at *
      have hge := acc_ge (base := base) (u := u * base + v) (by omega) vs
      have hub : u ≤ u * base := Nat.le_mul_of_pos_right u (by omega)
      have hcast : ((u * base + v : Nat) : Int) = (u : Int) * base + v := by push_cast; rfl
      obtain ⟨ps', hp1, hp2⟩ := ih ht (u * base + v) (k + 1) (k : Int) hu
      refine ⟨ps', hp1, ?_⟩
      simp only [offsets, intLoop, hc1 d v hdv]
      rw [if_neg (by omega)]
      have hfin : ∀ i64 : Int, i64 = (if neg then -((u * base + v : Nat) : Int) else ((u * base + v : Nat) : Int)) →
          intLoop cf base min max neg (offsets (k + 1) ps) i64 k =
          intLoop cf base min max neg (offsets (k + (d :: ds).length) ps')
            (if neg then -(acc base (u * base + v) vs : Int) else acc base (u * base + v) vs)
            (if d :: ds = [] then n else ((k + (d :: ds).length : Nat) : Int) - 1) := by
        rintro _ rfl
        rw [hp2]
        simp only [List.length_cons, reduceCtorEq, if_false]
        rw [Nat.add_assoc, Nat.add_comm 1]
        congr 1
        by_cases hnil : ds = []
        · subst hnil; simp
        · rw [if_neg hnil]
      cases neg with
      | true =>
        obtain ⟨rfl, hbd⟩ := hmin rfl
        simp only [if_true, wrapI64_sub] at *
        have he2 : (-(u : Int)) * base - v = -((u * base + v : Nat) : Int) := by rw [hcast, Int.neg_mul]; omega
        rw [he2, wrapI64_small (by omega) (by omega), if_neg (by simp; omega)]
        exact hfin _ rfl
      | false =>
        obtain ⟨rfl, hbd⟩ := hmax rfl
        simp only [Bool.false_eq_true, if_false, wrapI64_add] at *
        rw [← hcast, wrapI64_small (by omega) (by omega), if_neg (by simp; omega)]
        exact hfin _ rfl

/-- When a round of the loop ends it, for both signs: `u` is the magnitude read so far, `M` the next one. -/
theorem int_round {bound : Nat} {min max : Int} {neg : Bool} (hmax : neg = false → max = bound ∧ bound ≤ 9223372036854775807)
    (hmin : neg = true → min = -(bound : Int) ∧ bound ≤ 9223372036854775808) {u M : Nat} (hu : u ≤ bound) (hb : bound < M) :
    (neg = true → ((-(u : Int) < wrapI64 (-(M : Int)) ∨ wrapI64 (-(M : Int)) < min) ↔ ¬ (u ≤ M % 2 ^ 64 ∧ M % 2 ^ 64 ≤ bound))) ∧
    (neg = false → (((u : Int) > wrapI64 M ∨ wrapI64 M > max) ↔ ¬ (u ≤ M % 2 ^ 64 ∧ M % 2 ^ 64 ≤ bound))) := by
  unfold wrapI64
  rw [Int.bmod_def, Int.bmod_def]
  constructor
  · intro h
    obtain ⟨rfl, hbd⟩ := hmin h
    split <;> omega
  · intro h
    obtain ⟨rfl, hbd⟩ := hmax h
    split <;> omega

/-- A step of the loop at a digit. -/
theorem intLoop_digit {base : Nat} {cf : Int → Int} {bound : Nat} {min max : Int}
    {neg : Bool} (hmax : neg = false → max = bound ∧ bound ≤ 9223372036854775807)
    (hmin : neg = true → min = -(bound : Int) ∧ bound ≤ 9223372036854775808) {u w : Nat} {r : Int} (hv : cf r = w) (hu : u ≤ bound)
    (hb : bound < u * base + w) (k : Nat) (l : List (Nat × Int)) (n : Int) :
    (¬ (u ≤ (u * base + w) % 2 ^ 64 ∧ (u * base + w) % 2 ^ 64 ≤ bound) →
      intLoop cf base min max neg ((k, r) :: l) (if neg then -(u : Int) else u) n = (if neg then -(u : Int) else u, n)) ∧
    (u ≤ (u * base + w) % 2 ^ 64 ∧ (u * base + w) % 2 ^ 64 ≤ bound → ∃ i,
      intLoop cf base min max neg ((k, r) :: l) (if neg then -(u : Int) else u) n = intLoop cf base min max neg l i k) := by
  have hcast : ((u * base + w : Nat) : Int) = (u : Int) * base + w := by push_cast; rfl
  have hr := int_round hmax hmin hu hb
  simp only [intLoop, hv]
  rw [if_neg (by omega)]
  generalize hM : u * base + w = M at *
  cases neg with
  | true =>
    have he2 : (-(u : Int)) * base - w = -(M : Int) := by rw [hcast, Int.neg_mul]; omega
    have := hr.1 rfl
    simp only [if_true, wrapI64_sub, he2, Bool.or_eq_true, decide_eq_true_eq]
    exact ⟨fun h => if_pos (this.mpr h), fun h => ⟨_, if_neg (fun h' => this.mp h' h)⟩⟩
  | false =>
    have := hr.2 rfl
    simp only [Bool.false_eq_true, if_false, wrapI64_add, ← hcast, Bool.or_eq_true, decide_eq_true_eq]
    exact ⟨fun h => if_pos (this.mpr h), fun h => ⟨_, if_neg (fun h' => this.mp h' h)⟩⟩

/-- Only numbers above the bound can follow. -/
def NumOver (base max v : Nat) (rest : Bytes) : Prop := ∀ d w rest', rest = d :: rest' → IsDigit base d w → max < v * base + w

theorem intLoop_stop {base : Nat} {cf : Int → Int} (hcf : charFunc base = some cf) {bound : Nat} {min max : Int}
    {neg : Bool} (hmax : neg = false → max = bound ∧ bound ≤ 9223372036854775807)
    (hmin : neg = true → min = -(bound : Int) ∧ bound ≤ 9223372036854775808) {rest : Bytes} {ps : List (Bytes × Int)}
    (hps : Pieces rest ps) (u k : Nat) (n : Int) (hu : u ≤ bound) (ho : NumOver base bound u rest) (hstop : Stops base bound u rest) :
    intLoop cf base min max neg (offsets k ps) (if neg then -(u : Int) else u) n = (if neg then -(u : Int) else u, n) := by
  cases hps with
  | nil => rfl
  | @cons _ p t r ps hs he ht =>
    by_cases hneg : cf r = -1
    · simp only [offsets, intLoop]
      rw [if_pos hneg]
    · obtain ⟨b, t', w, rfl, rfl, hw, hv⟩ := digit_piece hcf hs hneg
      exact (intLoop_digit hmax hmin hv hu (ho b w t' rfl hw) k _ n).1 (hstop b w t' rfl hw)

theorem intLoop_lb (cf : Int → Int) (base min max : Int) (neg : Bool) (ps : List (Bytes × Int)) (u : Int) (k : Nat) (n : Int) (h : n ≤ k) :
    n ≤ (intLoop cf base min max neg (offsets k ps) u n).2 := by
  induction ps generalizing u k n with
  | nil => exact Int.le_refl n
  | cons q ps ih =>
    simp only [offsets, intLoop]
    split
    · exact Int.le_refl n
    · split <;> split
      · exact Int.le_refl n
      · exact Int.le_trans h (ih _ _ _ (by omega))
      · exact Int.le_refl n
      · exact Int.le_trans h (ih _ _ _ (by omega))

theorem intLoop_on {base : Nat} {cf : Int → Int} (hcf : charFunc base = some cf) {bound : Nat} {min max : Int}
    {neg : Bool} (hmax : neg = false → max = bound ∧ bound ≤ 9223372036854775807)
    (hmin : neg = true → min = -(bound : Int) ∧ bound ≤ 9223372036854775808) {rest : Bytes} {ps : List (Bytes × Int)}
    (hps : Pieces rest ps) (u k : Nat) (n : Int) (hu : u ≤ bound) (ho : NumOver base bound u rest) (hgo : ¬ Stops base bound u rest) :
    (k : Int) ≤ (intLoop cf base min max neg (offsets k ps) (if neg then -(u : Int) else u) n).2 := by
  obtain ⟨hbase, hc1, hc2, hc3⟩ := charFunc_spec hcf
  simp only [Stops, not_forall, not_not] at hgo
  obtain ⟨d, w, t', rfl, hd, h1⟩ := hgo
  have hlt := digit_lt hbase hd
  cases hps with
  | @cons _ p t r ps hs he ht =>
    obtain ⟨rfl, rfl⟩ := hs.unique (step_ascii t' hlt)
    obtain ⟨i, h2⟩ := (intLoop_digit hmax hmin (hc1 d w hd) hu (ho d w t' rfl hd) k (offsets (k + 1) ps) n).2 h1
    rw [show offsets k (([d], (d.toNat : Int)) :: ps) = (k, (d.toNat : Int)) :: offsets (k + 1) ps from rfl, h2]
    exact intLoop_lb cf base min max neg ps _ _ _ (by omega)

theorem intLoop_spec {base : Nat} {cf : Int → Int} (hcf : charFunc base = some cf) {bound : Nat} {min max : Int}
    {neg : Bool} (hmax : neg = false → max = bound ∧ bound ≤ 9223372036854775807)
    (hmin : neg = true → min = -(bound : Int) ∧ bound ≤ 9223372036854775808)
    {ds : Bytes} {vs : List Nat} (hd : List.Forall₂ (IsDigit base) ds vs)
    {rest : Bytes} {ps : List (Bytes × Int)} (hps : Pieces (ds ++ rest) ps) (u k : Nat) (n : Int)
    (hu : acc base u vs ≤ bound) (ho : NumOver base bound (acc base u vs) rest) (hstop : Stops base bound (acc base u vs) rest) :
    intLoop cf base min max neg (offsets k ps) (if neg then -(u : Int) else u) n =
      (if neg then -(acc base u vs : Int) else acc base u vs,
        if ds = [] then n else ((k + ds.length : Nat) : Int) - 1) := by
  obtain ⟨ps', h1, h2⟩ := intLoop_prefix hcf hmax hmin hd hps u k n hu
  rw [h2, intLoop_stop hcf hmax hmin h1 _ _ _ hu ho hstop]

/-- A text that starts with no digit ends the loops at once. -/
theorem no_digit {base : Nat} {t : Bytes} (h : ∀ ds v, ds <+: t → ¬ Numeral base ds v) :
    ∀ d w t', t = d :: t' → ¬ IsDigit base d w := by
  rintro d w t' rfl hw
  exact h [d] w ⟨t', rfl⟩ ⟨by simp, [w], .cons hw .nil, by simp [positional]⟩

theorem digits_snoc {base : Nat} (hbase : base = 8 ∨ base = 10 ∨ base = 16) {ds : Bytes} {d : UInt8}
    {vs ws : List Nat} (hvs : List.Forall₂ (IsDigit base) ds vs) (hws : List.Forall₂ (IsDigit base) (ds ++ [d]) ws) :
    ∃ w, ws = vs ++ [w] ∧ IsDigit base d w := by
  induction hvs generalizing ws with
  | nil =>
    cases hws with
    | cons h1 h2 => cases h2; exact ⟨_, rfl, h1⟩
  | cons h0 _ ih =>
    cases hws with
    | cons h1 h2 =>
      obtain ⟨w, rfl, hw⟩ := ih h2
      exact ⟨w, by rw [digit_unique hbase h0 h1]; rfl, hw⟩

/-- Behind the longest fitting numeral only numbers above the bound can follow. -/
theorem longest_over {base max : Nat} {ds rest : Bytes} {v : Nat}
    (h : LongestNumeral base max (ds ++ rest) ds v) : NumOver base max v rest := by
  rintro d w rest' rfl hd
  obtain ⟨_, ⟨hne, vs, hvs, rfl⟩, hle, hmax⟩ := h
  have hnum : Numeral base (ds ++ [d]) (positional base vs * base + w) :=
    ⟨by simp, vs ++ [w], List.rel_append hvs (.cons hd .nil), positional_snoc base vs w⟩
  by_contra hcon
  have := hmax (ds ++ [d]) _ ⟨rest', by simp⟩ hnum (by omega)
  simp at this
  omega

/-- What stops the loop, in terms of the numeral with one more digit. -/
theorem stops_iff {base max : Nat} (hbase : base = 8 ∨ base = 10 ∨ base = 16) {ds rest : Bytes} {v : Nat} (h : Numeral base ds v) :
    Stops base max v rest ↔ ∀ d v', [d] <+: rest → Numeral base (ds ++ [d]) v' → ¬ (v ≤ v' % 2 ^ 64 ∧ v' % 2 ^ 64 ≤ max) := by
  obtain ⟨hne, vs, hvs, rfl⟩ := h
  constructor
  · rintro hs d v' ⟨t, rfl⟩ ⟨_, ws, hws, rfl⟩
    obtain ⟨w, rfl, hw⟩ := digits_snoc hbase hvs hws
    rw [positional_snoc]
    exact hs d w t rfl hw
  · rintro hs d w rest' rfl hd
    rw [← positional_snoc]
    exact hs d _ ⟨rest', rfl⟩ ⟨by simp, vs ++ [w], List.rel_append hvs (.cons hd .nil), rfl⟩

end Tok
