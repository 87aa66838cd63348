/-
Readers without memory that end on every text, as functions on the text ahead.
-/
import Verif.Proofs.Quote
import Verif.Proofs.EatMono
import Verif.Props.C52

namespace Tok
open Spec

/-- Success with the text that is left, or failure with the text as it was. -/
def outcome (t : Bytes) (j : Nat → Bytes) : Option Bytes → Bool × St
  | some u => (true, ⟨u, j⟩)
  | none => (false, ⟨t, j⟩)

/-- On every text the reader does what the function says. -/
def Does (rt : Rt) (G : Env) (r : Reader) (f : Bytes → Option Bytes) : Prop :=
  ∀ t j, ∃ n, eat rt G n r ⟨t, j⟩ = .ret (outcome t j (f t))

variable {rt : Rt} {G : Env}

theorem Does.congr {r : Reader} {f g : Bytes → Option Bytes} (h : Does rt G r f) (e : ∀ t, f t = g t) : Does rt G r g := fun t j => by
  rw [← e t]; exact h t j

/-! ### one byte -/

/-- One byte that passes a test. -/
def oneB (p : UInt8 → Bool) : Bytes → Option Bytes
  | b :: t => if p b then some t else none
  | [] => none

theorem decode_high {b : UInt8} (hb : 128 ≤ b.toNat) (t : Bytes) : 128 ≤ (decodeRune (b :: t)).1 := by
  rcases decodeRune_cases (b :: t) with ⟨h, _⟩ | ⟨_, h, _⟩ | ⟨c, u, h, h2⟩
  · cases h
  · rw [h]; simp [runeError]
  · rw [h2]
    obtain ⟨b', cs, e1, e2, e3, e4, e5, e6⟩ := enc_shape c
    rw [e1] at h
    injection h with h _
    subst h
    simp only
    by_contra hc
    have hc' : c.toNat < 128 := by omega
    have := enc_low (c := c) rfl hc'
    rw [e1] at this
    injection this with h7 h8
    have := (e4 h8).1
    omega

/-- An ASCII test. -/
structure Ascii (P : Int → Bool) (p : UInt8 → Bool) : Prop where
  low : ∀ b : UInt8, b.toNat < 128 → P b.toNat = p b
  high : ∀ b : UInt8, 128 ≤ b.toNat → p b = false
  none : ∀ v : Int, 128 ≤ v → P v = false

theorem eatOne_ascii {P : Int → Bool} {p : UInt8 → Bool} (h : Ascii P p) (t : Bytes) :
    eatOne P t = ((oneB p t).isSome, (oneB p t).getD t) := by
  unfold eatOne
  cases t with
  | nil =>
    have : (decodeRune []).1 = 0xFFFD := rfl
    rw [this, h.none _ (by decide)]
    rfl
  | cons b t =>
    by_cases hb : b.toNat < 128
    · rw [decodeRune_one hb]
      simp only [h.low b hb, oneB]
      split <;> simp
    · rw [h.none _ (decode_high (by omega) t)]
      simp [oneB, h.high b (by omega)]

theorem does_lift {r : Reader} {g : Bytes → Bool × Bytes} {f : Bytes → Option Bytes} (h : ∀ st, eat rt G 1 r st = lift g st)
    (hg : ∀ t, g t = ((f t).isSome, (f t).getD t)) : Does rt G r f := fun t j => ⟨1, by
  rw [h]
  simp only [lift, hg]
  cases f t <;> rfl⟩

theorem does_anyRune {str : Bytes} {p : UInt8 → Bool} (h : Ascii (containsRune str) p) : Does rt G (.anyRune str) (oneB p) :=
  does_lift (fun _ => rfl) (eatOne_ascii h)

theorem does_rune {c : Int} {p : UInt8 → Bool} (h : Ascii (· == c) p) : Does rt G (.rune c) (oneB p) :=
  does_lift (fun _ => rfl) (eatOne_ascii h)

theorem does_between {a b : Int} {p : UInt8 → Bool} (h : Ascii (fun v => Scanner.inRange a v b) p) : Does rt G (.between a b) (oneB p) :=
  does_lift (fun _ => rfl) fun t => by
    unfold eatBetween
    split
    · next e => subst e; rfl
    · exact eatOne_ascii h t

theorem eatRanges_ascii {P : Int → Bool} {p : UInt8 → Bool} (h : Ascii P p) {ranges : List (Int × Int)}
    (hr : ∀ v, ranges.any (fun ab => Scanner.inRange ab.1 v ab.2) = P v) (t : Bytes) : eatRanges ranges t = ((oneB p t).isSome, (oneB p t).getD t) := by
  have hn : t ≠ [] → eatRanges ranges t = eatOne (fun v => ranges.any (fun ab => Scanner.inRange ab.1 v ab.2)) t := by
    intro ht
    clear hr
    induction ranges with
    | nil => rfl
    | cons ab l ih =>
      obtain ⟨a, b⟩ := ab
      simp only [eatRanges, eatBetween, if_neg ht, ih]
      unfold eatOne
      have e : List.any ((a, b) :: l) (fun ab => Scanner.inRange ab.1 (decodeRune t).1 ab.2) =
          (Scanner.inRange a (decodeRune t).1 b || l.any (fun ab => Scanner.inRange ab.1 (decodeRune t).1 ab.2)) := rfl
      beta_reduce
      rw [e]
      generalize Scanner.inRange a (decodeRune t).1 b = x
      generalize l.any (fun ab => Scanner.inRange ab.1 (decodeRune t).1 ab.2) = y
      cases x <;> cases y <;> rfl
  by_cases ht : t = []
  · subst ht
    clear hn hr
    induction ranges with
    | nil => rfl
    | cons ab l ih => simpa [eatRanges, eatBetween] using ih
  · rw [hn ht, show (fun v => ranges.any (fun ab => Scanner.inRange ab.1 v ab.2)) = P from funext hr]
    exact eatOne_ascii h t

theorem does_set {ranges : List (Int × Int)} {singles : Bytes} {P : Int → Bool} {p q : UInt8 → Bool} (hp : Ascii P p) (hq : Ascii (containsRune singles) q)
    (hr : ∀ v, ranges.any (fun ab => Scanner.inRange ab.1 v ab.2) = P v) :
    Does rt G (.betweenAny ranges singles) (oneB (fun b => p b || q b)) :=
  does_lift (fun _ => rfl) fun t => by
    unfold eatSet
    rw [eatRanges_ascii hp hr, eatOne_ascii hq]
    cases t with
    | nil => rfl
    | cons b t =>
      simp only [oneB]
      rcases Bool.eq_false_or_eq_true (p b) with e | e <;> rcases Bool.eq_false_or_eq_true (q b) with e' | e' <;> simp [e, e']

/-! ### literals -/

def litB (x t : Bytes) : Option Bytes := if hasPrefix t x then some (t.drop x.length) else none

theorem does_lit (x : Bytes) : Does rt G (.lit x) (litB x) :=
  does_lift (fun _ => rfl) fun t => by
    unfold eatLit litB
    split <;> rfl

/-! ### combinations -/

def seqB : List (Bytes → Option Bytes) → Bytes → Option Bytes
  | [], t => some t
  | f :: fs, t => (f t).bind (seqB fs)

def anyB : List (Bytes → Option Bytes) → Bytes → Option Bytes
  | [], _ => none
  | f :: fs, t => (f t).or (anyB fs t)

/-- The readers do what the functions say, one by one. -/
inductive DoAll (rt : Rt) (G : Env) : List Reader → List (Bytes → Option Bytes) → Prop
  | nil : DoAll rt G [] []
  | cons {r : Reader} {f : Bytes → Option Bytes} {rs : List Reader} {fs : List (Bytes → Option Bytes)} (h : Does rt G r f) (h' : DoAll rt G rs fs) :
    DoAll rt G (r :: rs) (f :: fs)

theorem eatSeq_mono {n m : Nat} (h : n ≤ m) {rs : List Reader} {st : St} {x : Bool × St} (e : eatSeq (eat rt G n) rs st = .ret x) :
    eatSeq (eat rt G m) rs st = .ret x := (eatSeq_le (eat_le rt G n m h) rs st).ret e

theorem eatAny_mono {n m : Nat} (h : n ≤ m) {rs : List Reader} {st : St} {x : Bool × St} (e : eatAny (eat rt G n) rs st = .ret x) :
    eatAny (eat rt G m) rs st = .ret x := (eatAny_le (eat_le rt G n m h) rs st).ret e

/-- The same when nothing is said about the text that a failure leaves. -/
def Tries (rt : Rt) (G : Env) (r : Reader) (f : Bytes → Option Bytes) : Prop :=
  ∀ t j, ∃ n u, eat rt G n r ⟨t, j⟩ = .ret ((f t).isSome, ⟨u, j⟩) ∧ ∀ v, f t = some v → u = v

theorem Does.tries {r : Reader} {f : Bytes → Option Bytes} (h : Does rt G r f) : Tries rt G r f := fun t j => by
  obtain ⟨n, hn⟩ := h t j
  cases hf : f t with
  | none => rw [hf] at hn; exact ⟨n, t, hn, by simp⟩
  | some v => rw [hf] at hn; exact ⟨n, v, hn, by simp⟩

inductive TryAll (rt : Rt) (G : Env) : List Reader → List (Bytes → Option Bytes) → Prop
  | nil : TryAll rt G [] []
  | cons {r : Reader} {f : Bytes → Option Bytes} {rs : List Reader} {fs : List (Bytes → Option Bytes)} (h : Tries rt G r f) (h' : TryAll rt G rs fs) :
    TryAll rt G (r :: rs) (f :: fs)

theorem DoAll.tries {rs : List Reader} {fs : List (Bytes → Option Bytes)} (h : DoAll rt G rs fs) : TryAll rt G rs fs := by
  induction h with
  | nil => exact .nil
  | cons h h' ih => exact .cons h.tries ih

theorem tries_seq {rs : List Reader} {fs : List (Bytes → Option Bytes)} (h : TryAll rt G rs fs) : Does rt G (.seq rs) (seqB fs) := by
  have main : ∀ t j, ∃ n u, eatSeq (eat rt G n) rs ⟨t, j⟩ = .ret ((seqB fs t).isSome, ⟨u, j⟩) ∧ ∀ v, seqB fs t = some v → u = v := by
    induction h with
    | nil => exact fun t j => ⟨0, t, rfl, fun v h => by cases h; rfl⟩
    | @cons r f rs fs h h' ih =>
      intro t j
      obtain ⟨n, u, hn, hu⟩ := h t j
      cases hf : f t with
      | none =>
        refine ⟨n, u, ?_, by simp [seqB, hf]⟩
        rw [eatSeq, hn, hf]
        simp [seqB, hf]
      | some v =>
        obtain rfl := hu v hf
        obtain ⟨m, w, hm, hw⟩ := ih u j
        refine ⟨max n m, w, ?_, by simpa [seqB, hf] using hw⟩
        rw [eatSeq, eat_mono (Nat.le_max_left n m) hn, hf]
        simp only [Option.isSome_some, Exec.bind_ret, if_true, seqB, hf, Option.bind_some]
        exact eatSeq_mono (Nat.le_max_right n m) hm
  intro t j
  obtain ⟨n, u, h1, h2⟩ := main t j
  refine ⟨n + 1, ?_⟩
  show (do let x ← eatSeq (eat rt G n) rs ⟨t, j⟩; Exec.ret (orBack t x)) = _
  rw [h1]
  cases hs : seqB fs t with
  | none => rfl
  | some v => rw [h2 v hs]; rfl

theorem does_seq {rs : List Reader} {fs : List (Bytes → Option Bytes)} (h : DoAll rt G rs fs) : Does rt G (.seq rs) (seqB fs) := tries_seq h.tries

theorem does_any {rs : List Reader} {fs : List (Bytes → Option Bytes)} (h : DoAll rt G rs fs) : Does rt G (.any rs) (anyB fs) := by
  have main : ∀ t j, ∃ n, eatAny (eat rt G n) rs ⟨t, j⟩ = .ret (outcome t j (anyB fs t)) := by
    induction h with
    | nil => exact fun t j => ⟨0, rfl⟩
    | @cons r f rs fs h h' ih =>
      intro t j
      obtain ⟨n, hn⟩ := h t j
      cases hf : f t with
      | none =>
        obtain ⟨m, hm⟩ := ih t j
        refine ⟨max n m, ?_⟩
        rw [eatAny, eat_mono (Nat.le_max_left n m) hn, hf]
        simp only [outcome, Exec.bind_ret, Bool.false_eq_true, if_false, anyB, hf, Option.none_or]
        exact eatAny_mono (Nat.le_max_right n m) hm
      | some v =>
        refine ⟨n, ?_⟩
        rw [eatAny, hn, hf]
        simp [anyB, hf, outcome]
  intro t j
  obtain ⟨n, h1⟩ := main t j
  refine ⟨n + 1, ?_⟩
  show (do let x ← eatAny (eat rt G n) rs ⟨t, j⟩; Exec.ret (orBack t x)) = _
  rw [h1]
  cases anyB fs t <;> rfl

def optB (f : Bytes → Option Bytes) (t : Bytes) : Option Bytes := some ((f t).getD t)

theorem does_opt {r : Reader} {f : Bytes → Option Bytes} (h : Does rt G r f) : Does rt G (.opt r) (optB f) := fun t j => by
  obtain ⟨n, hn⟩ := h t j
  refine ⟨n + 1, ?_⟩
  simp only [eat, hn]
  cases hf : f t <;> simp [outcome, optB, hf]

theorem does_zom {r : Reader} {p : UInt8 → Bool} (h : Does rt G r (oneB p)) : Does rt G (.zom r) (fun t => some (t.dropWhile p)) := by
  have main : ∀ t j, ∃ n, ∀ k, n ≤ k → eatZom (eat rt G k r) k ⟨t, j⟩ = .ret ⟨t.dropWhile p, j⟩ := by
    intro t j
    have aux : ∀ t, ∃ n, ∀ k l, n ≤ k → n ≤ l → eatZom (eat rt G k r) l ⟨t, j⟩ = .ret ⟨t.dropWhile p, j⟩ := by
      intro t
      induction t with
      | nil =>
        obtain ⟨n, hn⟩ := h [] j
        refine ⟨n + 1, fun k l hk hl => ?_⟩
        obtain ⟨l, rfl⟩ : ∃ l', l = l' + 1 := ⟨l - 1, by omega⟩
        rw [eatZom, eat_mono (by omega) hn]
        rfl
      | cons b t ih =>
        obtain ⟨n, hn⟩ := h (b :: t) j
        obtain ⟨m, hm⟩ := ih
        refine ⟨max n m + 1, fun k l hk hl => ?_⟩
        obtain ⟨l, rfl⟩ : ∃ l', l = l' + 1 := ⟨l - 1, by omega⟩
        rw [eatZom, eat_mono (by omega) hn]
        cases hp : p b
        · simp [oneB, hp, outcome]
        · simp only [oneB, hp, outcome, if_true, Exec.bind_ret]
          rw [hm k l (by omega) (by omega)]
          simp [hp]
    obtain ⟨n, hn⟩ := aux t
    exact ⟨n, fun k hk => hn k k hk hk⟩
  intro t j
  obtain ⟨n, hn⟩ := main t j
  refine ⟨n + 1, ?_⟩
  simp only [eat, hn n (Nat.le_refl _)]
  rfl

/-- At least one byte that passes the test, and all that follow. -/
def manyB (p : UInt8 → Bool) (t : Bytes) : Option Bytes := (oneB p t).map (List.dropWhile p)

theorem does_many {r : Reader} {p : UInt8 → Bool} (h : Does rt G r (oneB p)) : Does rt G (.many r) (manyB p) := by
  intro t j
  obtain ⟨n, hn⟩ := does_zom h t j
  refine ⟨n, ?_⟩
  cases n with
  | zero => cases hn
  | succ n =>
    simp only [eat] at hn ⊢
    cases hz : eatZom (eat rt G n r) n ⟨t, j⟩ with
    | ret st =>
      rw [hz] at hn
      simp only [Exec.bind_ret, Exec.pure_eq, outcome, Exec.ret.injEq, Prod.mk.injEq, true_and] at hn ⊢
      subst hn
      cases t with
      | nil => simp [manyB, oneB]
      | cons b t =>
        cases hp : p b
        · simp [manyB, oneB, hp]
        · have := (List.dropWhile_suffix (l := t) p).length_le
          simp [manyB, oneB, hp]
          omega
    | panic => rw [hz] at hn; cases hn
    | timeout => rw [hz] at hn; cases hn

theorem tries_times {r : Reader} {f : Bytes → Option Bytes} (h : Does rt G r f) (k : Nat) :
    Tries rt G (.times k r) (seqB (List.replicate k f)) := by
  intro t j
  have main : ∀ k t, ∃ n u, eatTimes (eat rt G n r) k ⟨t, j⟩ = .ret ((seqB (List.replicate k f) t).isSome, ⟨u, j⟩) ∧
      ∀ v, seqB (List.replicate k f) t = some v → u = v := by
    intro k
    induction k with
    | zero => exact fun t => ⟨0, t, rfl, fun v h => by cases h; rfl⟩
    | succ k ih =>
      intro t
      obtain ⟨n, hn⟩ := h t j
      cases hf : f t with
      | none =>
        refine ⟨n, t, ?_, by simp [List.replicate_succ, seqB, hf]⟩
        rw [eatTimes, hn, hf]
        simp [List.replicate_succ, seqB, hf, outcome]
      | some v =>
        obtain ⟨m, u, hm, hu⟩ := ih v
        refine ⟨max n m, u, ?_, by simpa [List.replicate_succ, seqB, hf] using hu⟩
        rw [eatTimes, eat_mono (Nat.le_max_left n m) hn, hf]
        simp only [outcome, Exec.bind_ret, if_true, List.replicate_succ, seqB, hf, Option.bind_some]
        exact (eatTimes_le (eat_le rt G m _ (Nat.le_max_right n m) r) k _).ret hm
  obtain ⟨n, u, h1, h2⟩ := main k t
  exact ⟨n + 1, u, h1, h2⟩

theorem does_rule {i : Nat} {nm : Bytes} {c : Reader} (hi : G[i]? = some ⟨nm, some c⟩) {f : Bytes → Option Bytes} (h : Does rt G c f) :
    Does rt G (.rule i) f := fun t j => by
  obtain ⟨n, hn⟩ := h t j
  exact ⟨n + 1, by simp only [eat, hi, hn]⟩

/-! ### reading -/

/-- Success exactly where the function says. -/
theorem Does.success {r : Reader} {f : Bytes → Option Bytes} (hd : Does rt G r f) (hG : G.Every (fun r => r.noWrap = true)) (hr : r.Every (fun r => r.noWrap = true))
    {s : Scanner} {h t : Bytes} (hb : Between s h t) (x u : Bytes) (ht : t = x ++ u) :
    (∃ n s', read rt G n r s = .ret (none, s') ∧ Between s' (h ++ x) u) ↔ f t = some u := by
  obtain ⟨m, hm⟩ := hd t s.heap.janus
  obtain ⟨e, s2, y, h1, h2, h3, h4⟩ := read_by_eat hG hr hb hm
  constructor
  · rintro ⟨n, s', h5, h6⟩
    obtain ⟨rfl, rfl⟩ : none = e ∧ s' = s2 := by simpa using read_det h5 h1
    cases hf : f t with
    | none => rw [hf] at h2; cases h2
    | some v =>
      rw [hf] at h4
      have e1 := h6.1
      have e2 := h6.2
      have e1 : h ++ y ++ v = h ++ x ++ u := h4.1.symm.trans e1
      rw [h4.2] at e2
      simp only [List.length_append] at e2
      have := (List.append_inj e1 (by simp only [List.length_append]; omega)).2
      rw [this]
  · intro hf
    rw [hf] at h2 h3 h4
    cases e with
    | some e => cases h2
    | none =>
      refine ⟨m, s2, h1, ?_⟩
      have : x = y := List.append_cancel_right (ht.symm.trans h3)
      rw [this]
      exact h4

/-- Failure exactly where the function says. -/
theorem Does.failure {r : Reader} {f : Bytes → Option Bytes} (hd : Does rt G r f) (hG : G.Every (fun r => r.noWrap = true)) (hr : r.Every (fun r => r.noWrap = true))
    {s : Scanner} {h t : Bytes} (hb : Between s h t) : (∃ n e s', read rt G n r s = .ret (some e, s')) ↔ f t = none := by
  obtain ⟨m, hm⟩ := hd t s.heap.janus
  obtain ⟨e, s2, y, h1, h2, h3, h4⟩ := read_by_eat hG hr hb hm
  constructor
  · rintro ⟨n, e', s', h5⟩
    obtain ⟨rfl, rfl⟩ : some e' = e ∧ s' = s2 := by simpa using read_det h5 h1
    cases hf : f t with
    | none => rfl
    | some v => rw [hf] at h2; cases h2
  · intro hf
    rw [hf] at h2
    cases e with
    | none => cases h2
    | some e => exact ⟨m, e, s2, h1⟩

end Tok
