/-
What the MXT grammar does on every byte string.
-/
import Verif.Props.C54
import Verif.Proofs.GivesAll
import Verif.Proofs.Does
import Verif.Spec.MxtBytes

namespace Tok
open Spec

namespace MxtB
open Spec.MxtB
open Mxt (mapped iNL iWordChar iWord iMarker iName iComment iArrow iSalt iHeader iNextMarker iEmptyContent iContent iChunk iChunks)
variable {rt : Rt} {h q x z : Bytes} {j : Nat → Bytes} {M : List (Nat × Token)}

/-! ### words -/

/-- The text does not go on with a word. -/
def Stop (q : Bytes) : Prop := ∀ b u, q = b :: u → b.toNat < 0x21

theorem between_low {b : UInt8} (hb : b.toNat < 0x21) : Gives rt mapped (.between 0x21 maxRune) ⟨h, b :: q, j, M⟩ false ⟨h, b :: q, j, M⟩ := by
  refine .leaf_no rfl ?_
  have hd : decodeRune (b :: q) = ((b.toNat : Int), 1) := decodeRune_one (by omega) q
  have : Scanner.inRange 0x21 (b.toNat : Int) maxRune = false := by
    simp only [Scanner.inRange, Bool.and_eq_false_iff, decide_eq_false_iff_not]; omega
  simp [eat, lift, eatBetween, eatOne, hd, this]

theorem wordChar_no (hq : Stop q) : Gives rt mapped (.rule iWordChar) ⟨h, q, j, M⟩ false ⟨h, q, j, M⟩ := by
  refine .rule (nm := b!"wordchar") rfl ?_
  cases q with
  | nil => exact .between_end
  | cons b q => exact between_low (hq b q rfl)

/-- One word character: all of its bytes belong to the word. -/
theorem wordChar (hx : Words x) (hne : x ≠ []) (hq : Stop q) : ∃ y z, y ≠ [] ∧ x = y ++ z ∧ Gives rt mapped (.rule iWordChar) ⟨h, x ++ q, j, M⟩ true ⟨h ++ y, z ++ q, j, M⟩ := by
  cases x with
  | nil => exact absurd rfl hne
  | cons b x =>
    have hb := hx b (by simp)
    rcases decodeRune_cases (b :: x ++ q) with ⟨e, _⟩ | ⟨_, hd, _⟩ | ⟨c, t, e, hd⟩
    · cases e
    · refine ⟨[b], x, by simp, rfl, .rule (nm := b!"wordchar") rfl ?_⟩
      refine Gives.leaf (x := [b]) (t := x ++ q) rfl ?_
      simp only [List.cons_append] at hd
      simp [eat, lift, eatBetween, eatOne, hd, Scanner.inRange, runeError, maxRune]
    · obtain ⟨b', cs, e1, e2, e3, e4, e5, e6⟩ := enc_shape c
      rw [e1] at e
      simp only [List.cons_append, List.cons.injEq] at e
      obtain ⟨rfl, e⟩ := e
      have hc : 0x21 ≤ c.toNat := by
        by_cases h0 : cs = []
        · rw [(e4 h0).2]; exact hb
        · have := decode_high (e5 h0) (x ++ q)
          simp only [List.cons_append] at hd
          rw [hd] at this
          simp only at this
          omega
      have hz : ∃ z, x = cs ++ z := by
        rcases List.append_eq_append_iff.mp e with ⟨w, h1, h2⟩ | ⟨w, h1, h2⟩
        · cases w with
          | nil => exact ⟨[], by simpa using h1.symm⟩
          | cons d w =>
            have h3 := hq d _ h2
            have h4 := e3 d (by rw [h1]; simp)
            simp [isCont] at h4
            omega
        · exact ⟨w, h1⟩
      obtain ⟨z, rfl⟩ := hz
      refine ⟨b :: cs, z, by simp, rfl, .rule (nm := b!"wordchar") rfl ?_⟩
      have := Gives.between (rt := rt) (G := mapped) (lo := 0x21) (hi := maxRune) (c := c) (by omega) (Mxt.char_le c) (h := h) (t := z ++ q) (j := j) (M := M)
      rw [e1] at this
      simpa using this

theorem zomWord : ∀ (n : Nat) (x h : Bytes), x.length ≤ n → Words x → Stop q → Gives rt mapped (.zom (.rule iWordChar)) ⟨h, x ++ q, j, M⟩ true ⟨h ++ x, q, j, M⟩
  | n, [], h, _, _, hq => by simpa using Gives.zom_stop (wordChar_no (rt := rt) (h := h) (j := j) (M := M) hq)
  | 0, _ :: _, _, hn, _, _ => by simp at hn
  | n + 1, b :: x, h, hn, hx, hq => by
    obtain ⟨y, z, hy, e, h1⟩ := wordChar (rt := rt) (h := h) (j := j) (M := M) hx (by simp) hq
    have hl : z.length ≤ n := by
      have := congrArg List.length e
      have : 0 < y.length := List.length_pos_iff.mpr hy
      simp only [List.length_append, List.length_cons] at *
      omega
    have ih := zomWord n z (h ++ y) hl (fun d hd => hx d (by rw [e]; simp [hd])) hq
    have := Gives.zom_step h1 ih
    rw [e]
    rw [e] at this
    simpa using this

theorem grow {x : Bytes} (hx : x ≠ []) : h.length < (h ++ x).length := by
  have := List.length_pos_iff.mpr hx
  simp; omega

theorem word (hx : Words x) (hne : x ≠ []) (hq : Stop q) : Gives rt mapped (.rule iWord) ⟨h, x ++ q, j, M⟩ true ⟨h ++ x, q, j, M⟩ :=
  .rule (nm := b!"word") rfl (.many (zomWord _ x h (Nat.le_refl _) hx hq) (grow hne))

theorem word_no (hq : Stop q) : Gives rt mapped (.rule iWord) ⟨h, q, j, M⟩ false ⟨h, q, j, M⟩ :=
  .rule (nm := b!"word") rfl (.many_no (wordChar_no hq) (Nat.le_refl _))

/-! ### spaces -/

def NoSpace (q : Bytes) : Prop := ∀ u, q ≠ 32 :: u

theorem space : Gives rt mapped (.rune ((' ' : Char).toNat)) ⟨h, 32 :: q, j, M⟩ true ⟨h ++ [32], q, j, M⟩ := Gives.rune (c := ' ') (t := q)

theorem space_no (hq : NoSpace q) : Gives rt mapped (.rune ((' ' : Char).toNat)) ⟨h, q, j, M⟩ false ⟨h, q, j, M⟩ := by
  refine .leaf_no rfl ?_
  cases q with
  | nil => rfl
  | cons b q =>
    have : (decodeRune (b :: q)).1 ≠ 32 := by
      intro h32
      by_cases hb : b.toNat < 0x80
      · rw [decodeRune_one hb] at h32
        simp only at h32
        exact hq q (by rw [show b = 32 from UInt8.toNat_inj.mp (by simp; omega)])
      · have := decode_high (by omega : 128 ≤ b.toNat) q
        omega
    have h2 : ((decodeRune (b :: q)).1 == (((' ' : Char).toNat : Nat) : Int)) = false := by
      rw [beq_eq_false_iff_ne]
      exact this
    simp only [eat, lift, eatOne]
    rw [h2]
    rfl

theorem zomSpace : ∀ (n : Nat) (h : Bytes), NoSpace q → Gives rt mapped (.zom (.rune ((' ' : Char).toNat))) ⟨h, spaces n ++ q, j, M⟩ true ⟨h ++ spaces n, q, j, M⟩
  | 0, h, hq => by simpa [spaces] using Gives.zom_stop (space_no (rt := rt) (h := h) (j := j) (M := M) hq)
  | n + 1, h, hq => by
    have ih := zomSpace n (h ++ [32]) hq
    have := Gives.zom_step (space (rt := rt) (h := h) (q := spaces n ++ q) (j := j) (M := M)) ih
    simpa [spaces, List.replicate_succ] using this

theorem manySpace (n : Nat) (hq : NoSpace q) : Gives rt mapped (.many (.rune ((' ' : Char).toNat))) ⟨h, spaces (n + 1) ++ q, j, M⟩ true ⟨h ++ spaces (n + 1), q, j, M⟩ :=
  .many (zomSpace (n + 1) h hq) (grow (by simp [spaces, List.replicate_succ]))

theorem manySpace_no (hq : NoSpace q) : Gives rt mapped (.many (.rune ((' ' : Char).toNat))) ⟨h, q, j, M⟩ false ⟨h, q, j, M⟩ :=
  .many_no (space_no hq) (Nat.le_refl _)

theorem marker (hx : Words x) (hq : Stop q) : Gives rt mapped (.rule iMarker) ⟨h, b!"//" ++ (x ++ q), j, M⟩ true ⟨h ++ b!"//" ++ x, q, j, M⟩ :=
  .rule (nm := b!"marker") rfl (.seq (.cons .lit (.cons (zomWord _ x _ (Nat.le_refl _) hx hq) .nil)))

theorem noSpace_words (hx : Words x) (hne : x ≠ []) : NoSpace (x ++ q) := by
  intro u e
  cases x with
  | nil => exact hne rfl
  | cons d x =>
    cases e
    exact absurd (hx 32 (by simp)) (by decide)

theorem stop_spaces1 (n : Nat) : Stop (spaces (n + 1) ++ q) := by
  intro c u e
  simp only [spaces, List.replicate_succ, List.cons_append, List.cons.injEq] at e
  rw [← e.1]; decide

theorem split_words : ∀ q : Bytes, ∃ x u, q = x ++ u ∧ Words x ∧ Stop u
  | [] => ⟨[], [], rfl, by simp [Words], by simp [Stop]⟩
  | c :: q => by
    obtain ⟨x, u, h1, h2, h3⟩ := split_words q
    by_cases hc : 0x21 ≤ c.toNat
    · refine ⟨c :: x, u, by simp [h1], ?_, h3⟩
      intro b hb
      rcases List.mem_cons.mp hb with rfl | hb
      · exact hc
      · exact h2 b hb
    · refine ⟨[], c :: q, rfl, by simp [Words], ?_⟩
      intro d u e
      cases e
      omega

theorem split_spaces : ∀ q : Bytes, ∃ n u, q = spaces n ++ u ∧ NoSpace u
  | [] => ⟨0, [], rfl, by simp [NoSpace]⟩
  | c :: q => by
    obtain ⟨n, u, h1, h2⟩ := split_spaces q
    by_cases hc : c = 32
    · exact ⟨n + 1, u, by simp [hc, h1, spaces, List.replicate_succ], h2⟩
    · exact ⟨0, c :: q, rfl, fun u e => hc (by cases e; rfl)⟩

theorem words_stop {x y u v : Bytes} (e : x ++ u = y ++ v) (hx : Words x) (hy : Words y) (hu : Stop u) (hv : Stop v) : x = y ∧ u = v := by
  rcases List.append_eq_append_iff.mp e with ⟨w, rfl, rfl⟩ | ⟨w, rfl, rfl⟩
  · cases w with
    | nil => simp
    | cons d w =>
      have := hu d _ rfl
      have := hy d (by simp)
      omega
  · cases w with
    | nil => simp
    | cons d w =>
      have := hv d _ rfl
      have := hx d (by simp)
      omega

theorem spaces_noSpace {n m : Nat} {u v : Bytes} (e : spaces n ++ u = spaces m ++ v) (hu : NoSpace u) (hv : NoSpace v) : n = m ∧ u = v := by
  induction n generalizing m with
  | zero =>
    cases m with
    | zero => exact ⟨rfl, by simpa [spaces] using e⟩
    | succ m => exact absurd e (hu (spaces m ++ v))
  | succ n ih =>
    cases m with
    | zero => exact absurd e.symm (hv (spaces n ++ u))
    | succ m =>
      simp only [spaces, List.replicate_succ, List.cons_append, List.cons.injEq, true_and] at e
      obtain ⟨h1, h2⟩ := ih e
      exact ⟨by rw [h1], h2⟩

/-! ### searching -/

theorem hop_lt {t u : Bytes} (hh : Hop t u) : u.length < t.length := by
  obtain ⟨x, hx, rfl⟩ := hop_split hh
  have := List.length_pos_iff.mpr hx
  simp; omega

/-- A search ends in one of two ways. -/
theorem finds_or_misses (P : Bytes → Prop) : ∀ (n : Nat) (t : Bytes), t.length ≤ n → (∃ u, Finds P t u) ∨ ∃ e, Misses P t e := by
  intro n
  induction n with
  | zero =>
    intro t ht
    by_cases hp : P t
    · exact .inl ⟨t, .here hp⟩
    · refine .inr ⟨t, .stop hp fun ⟨u, hu⟩ => ?_⟩
      have := hop_lt hu
      omega
  | succ n ih =>
    intro t ht
    by_cases hp : P t
    · exact .inl ⟨t, .here hp⟩
    · by_cases hh : ∃ u, Hop t u
      · obtain ⟨u, hu⟩ := hh
        rcases ih u (by have := hop_lt hu; omega) with ⟨v, hv⟩ | ⟨e, he⟩
        · exact .inl ⟨v, .hop hp hu hv⟩
        · exact .inr ⟨e, .hop hp hu he⟩
      · exact .inr ⟨t, .stop hp hh⟩

theorem Finds.holds {P : Bytes → Prop} {t u : Bytes} (hf : Finds P t u) : P u := by
  induction hf with
  | here h => exact h
  | hop _ _ _ ih => exact ih

theorem Finds.split {P : Bytes → Prop} {t u : Bytes} (hf : Finds P t u) : ∃ x, t = x ++ u := by
  induction hf with
  | here h => exact ⟨[], rfl⟩
  | hop _ hh _ ih =>
    obtain ⟨x, _, e⟩ := hop_split hh
    obtain ⟨y, e2⟩ := ih
    exact ⟨x ++ y, by rw [e, e2]; simp⟩

theorem no_hop_nil : ¬ ∃ u, Hop [] u := fun ⟨_, hu⟩ => by have := hop_lt hu; simp at this

/-! ### the arrow -/

theorem arrow_ne : b!"-->" ++ q ≠ [] := by simp

theorem words_or (w : Bytes) : Words w ∨ ¬ Words w := Classical.em _

/-- The text before the arrow is given to the body. -/
theorem arrowHere {h0 w : Bytes} : (Words w → GivesBody rt mapped (.zom (.rule iWordChar)) (.lit b!"-->") h0 ⟨h0 ++ w, b!"-->" ++ q, j, M⟩ (some (h0 ++ w)) ⟨h0 ++ w ++ b!"-->", q, j, M⟩) ∧
    (¬ Words w → GivesBody rt mapped (.zom (.rule iWordChar)) (.lit b!"-->") h0 ⟨h0 ++ w, b!"-->" ++ q, j, M⟩ none ⟨h0 ++ w ++ b!"-->", q, j, M⟩) := by
  obtain ⟨x, y, e, hx, hy⟩ := split_words w
  have hb := zomWord (rt := rt) (j := j) (M := M) _ x [] (Nat.le_refl _) hx hy
  rw [← e] at hb
  have := GivesBody.here (rt := rt) (G := mapped) (bd := .zom (.rule iWordChar)) (tl := .lit b!"-->") (h0 := h0) (x := w) (a := ⟨h0 ++ w, b!"-->" ++ q, j, M⟩) arrow_ne rfl Gives.lit hb
  constructor
  · intro hw
    have : y = [] := by
      cases y with
      | nil => rfl
      | cons b y =>
        have h1 := hy b y rfl
        have h2 := hw b (by rw [e]; simp)
        omega
    subst this
    simpa using this
  · intro hw
    cases y with
    | nil => exact absurd (by rw [e, List.append_nil]; exact hx) hw
    | cons b y => simpa using this

theorem arrowLoop {t u : Bytes} (hf : Finds Arrow t u) : ∀ {h0 w z : Bytes}, u = b!"-->" ++ q → t = z ++ u →
    (Words (w ++ z) → ∃ y, GivesBody rt mapped (.zom (.rule iWordChar)) (.lit b!"-->") h0 ⟨h0 ++ w, t, j, M⟩ (some y) ⟨h0 ++ (w ++ z) ++ b!"-->", q, j, M⟩) ∧
    (¬ Words (w ++ z) → GivesBody rt mapped (.zom (.rule iWordChar)) (.lit b!"-->") h0 ⟨h0 ++ w, t, j, M⟩ none ⟨h0 ++ (w ++ z) ++ b!"-->", q, j, M⟩) := by
  induction hf with
  | here hp =>
    intro h0 w z hu ht
    have hz : z = [] := by simpa using ht
    subst hz hu
    rw [List.append_nil]
    exact ⟨fun h => ⟨_, arrowHere.1 h⟩, arrowHere.2⟩
  | @hop t t' u hp hh hf ih =>
    intro h0 w z hu ht
    obtain ⟨x, hx, rfl⟩ := hop_split hh
    obtain ⟨y, rfl⟩ := Finds.split hf
    have hz : z = x ++ y := List.append_cancel_right (by rw [← ht, List.append_assoc])
    subst hz
    have h1 := Gives.lit_no (rt := rt) (G := mapped) (x := b!"-->") (h := h0 ++ w) (j := j) (M := M) hp
    have ih := ih (h0 := h0) (w := w ++ x) (z := y) hu rfl
    rw [← List.append_assoc]
    constructor
    · intro hw
      obtain ⟨v, hv⟩ := ih.1 hw
      exact ⟨v, .hop hh (by simpa using fun h => absurd h hx) h1 (by simpa using hv)⟩
    · intro hw
      exact .hop hh (by simpa using fun h => absurd h hx) h1 (by simpa using ih.2 hw)

theorem arrow_yes (hf : Finds Arrow (z ++ (b!"-->" ++ q)) (b!"-->" ++ q)) (hw : Words z) :
    Gives rt mapped Mxt.arrow ⟨h, z ++ (b!"-->" ++ q), j, M⟩ true ⟨h ++ z ++ b!"-->", q, j, M⟩ := by
  obtain ⟨y, this⟩ := (arrowLoop (rt := rt) (j := j) (M := M) hf (h0 := h) (w := []) (z := z) rfl rfl).1 hw
  rw [List.append_nil, List.nil_append] at this
  exact .bodyTail this

theorem arrow_no (hf : Finds Arrow (z ++ (b!"-->" ++ q)) (b!"-->" ++ q)) (hw : ¬ Words z) :
    Gives rt mapped Mxt.arrow ⟨h, z ++ (b!"-->" ++ q), j, M⟩ false ⟨h, z ++ (b!"-->" ++ q), j, M⟩ := by
  have := (arrowLoop (rt := rt) (j := j) (M := M) hf (h0 := h) (w := []) (z := z) rfl rfl).2 hw
  rw [List.append_nil] at this
  exact .bodyTail_no this

theorem arrowLoop_none {t e : Bytes} (hm : Misses Arrow t e) (he : e = []) : ∀ {h0 h : Bytes},
    GivesBody rt mapped (.zom (.rule iWordChar)) (.lit b!"-->") h0 ⟨h, t, j, M⟩ none ⟨h ++ t, [], j, M⟩ := by
  induction hm with
  | stop hp hh =>
    intro h0 h
    subst he
    simpa using GivesBody.end_ (rt := rt) (G := mapped) (bd := .zom (.rule iWordChar)) (tl := .lit b!"-->") (h0 := h0) (a := ⟨h, [], j, M⟩) rfl
  | hop hp hh hm ih =>
    intro h0 h
    obtain ⟨x, hx, rfl⟩ := hop_split hh
    have := ih he (h0 := h0) (h := h ++ x)
    exact .hop hh (by simpa using fun h => absurd h hx) (.lit_no hp) (by simpa using this)

theorem arrowLoop_stuck {t e : Bytes} (hm : Misses Arrow t e) (he : e ≠ []) : ∀ {h : Bytes},
    NeverBody rt mapped (.zom (.rule iWordChar)) (.lit b!"-->") ⟨h, t, j, M⟩ := by
  induction hm with
  | stop hp hh =>
    intro h
    exact .stuck he hh (.lit_no hp)
  | hop hp hh hm ih =>
    intro h
    obtain ⟨x, hx, rfl⟩ := hop_split hh
    exact .hop hh (by simpa using fun h => absurd h hx) (.lit_no hp) (ih he (h := h ++ x))

/-- The comment goes up to the last word before the arrow. -/
theorem comment {t u : Bytes} (hf : Finds Arrow t u) : ∀ {h z : Bytes}, u = b!"-->" ++ q → t = z ++ u → ∃ a b, z = a ++ b ∧ Words b ∧ Finds Arrow (b ++ u) u ∧
    Gives rt mapped (.to (.named b!"arrow" Mxt.arrow)) ⟨h, t, j, M⟩ true ⟨h ++ a, b ++ u, j, M⟩ := by
  induction hf with
  | here hp =>
    intro h z hu ht
    have hz : z = [] := by simpa using ht
    subst hz hu
    refine ⟨[], [], rfl, by simp [Words], .here hp, ?_⟩
    have h1 := arrow_yes (rt := rt) (h := h) (z := []) (q := q) (j := j) (M := M) (.here hp) (by simp [Words])
    simpa [View.back] using Gives.to_hit (Gives.named (nm := b!"arrow") h1)
  | @hop t t' u hp hh hf ih =>
    intro h z hu ht
    subst hu
    have hft : Finds Arrow t (b!"-->" ++ q) := .hop hp hh hf
    subst ht
    by_cases hw : Words z
    · refine ⟨[], z, rfl, hw, hft, ?_⟩
      have h1 := arrow_yes (rt := rt) (h := h) (q := q) (j := j) (M := M) hft hw
      simpa [View.back] using Gives.to_hit (Gives.named (nm := b!"arrow") h1)
    · obtain ⟨x, hx, e⟩ := hop_split hh
      obtain ⟨y, rfl⟩ := Finds.split hf
      have hz : z = x ++ y := List.append_cancel_right (by rw [e, List.append_assoc])
      subst hz
      obtain ⟨a, b, h1, h2, h3, h4⟩ := ih (h := h ++ x) (z := y) rfl rfl
      refine ⟨x ++ a, b, by rw [h1, List.append_assoc], h2, h3, ?_⟩
      have h5 := Gives.named (nm := b!"arrow") (arrow_no (rt := rt) (h := h) (q := q) (j := j) (M := M) hft hw)
      rw [e] at hh h5 ⊢
      simpa using Gives.to_hop hh h5 h4

theorem arrow_none {t : Bytes} (hm : Misses Arrow t []) : Gives rt mapped Mxt.arrow ⟨h, t, j, M⟩ false ⟨h, t, j, M⟩ :=
  .bodyTail_no (arrowLoop_none (rt := rt) (j := j) (M := M) hm rfl (h0 := h) (h := h))

theorem comment_none {t e : Bytes} (hm : Misses Arrow t e) (he : e = []) : ∀ {h : Bytes}, Gives rt mapped (.to (.named b!"arrow" Mxt.arrow)) ⟨h, t, j, M⟩ false ⟨h, t, j, M⟩ := by
  induction hm with
  | stop hp hh =>
    intro h
    subst he
    exact Gives.to_stop hh (Gives.named (arrow_none (.stop hp hh)))
  | hop hp hh hm ih =>
    intro h
    have hm' := Misses.hop hp hh hm
    subst he
    obtain ⟨x, hx, rfl⟩ := hop_split hh
    exact Gives.to_hop_no hh (Gives.named (arrow_none hm')) (ih rfl (h := h ++ x))

theorem comment_stuck {t e : Bytes} (hm : Misses Arrow t e) (he : e ≠ []) : Never rt mapped (.to (.named b!"arrow" Mxt.arrow)) ⟨h, t, j, M⟩ :=
  .to_ (.named (.bodyTail (arrowLoop_stuck hm he)))

/-! ### the salt -/

/-- What the salt of a chunk leaves in the memory. -/
def after (c : MxtPart) (j : Nat → Bytes) : Nat → Bytes := if c.salt = [] ∧ c.pre = 0 then j else upd j 0 c.salt

theorem after_zero (ch : MxtPart) (hj : j 0 = []) : after ch j 0 = ch.salt := by
  unfold after
  split
  · next h => rw [h.1, hj]
  · simp [upd]

/-- The salt of the chunk goes as far as possible. -/
structure Greedy (ch : MxtPart) (q : Bytes) : Prop where
  noSpace : NoSpace q
  none : ch.salt = [] → ch.pre ≠ 0 → Stop q
  some : ch.salt ≠ [] → ch.post = 0 → Stop q

theorem salt_greedy (ch : MxtPart) (hs : Words ch.salt) (hq : Greedy ch q) :
    Gives rt mapped (.opt (.rule iSalt)) ⟨h, ch.saltText ++ q, j, M⟩ true ⟨h ++ ch.saltText, q, after ch j, M⟩ := by
  unfold MxtPart.saltText after
  by_cases h0 : ch.salt = []
  · rw [if_pos h0]
    cases hn : ch.pre with
    | zero =>
      rw [if_pos ⟨h0, rfl⟩]
      have h1 := manySpace_no (rt := rt) (h := h) (j := j) (M := M) hq.noSpace
      have := Gives.opt (Gives.rule (i := iSalt) (nm := b!"salt") rfl (Gives.seq_no (rs := [.many (.rune ((' ' : Char).toNat)), .janusBegin 0 [] (.opt (.rule iWord)), .zom (.rune ((' ' : Char).toNat))]) (.fail h1)))
      simpa [spaces, View.back] using this
    | succ n =>
      rw [if_neg (by simp)]
      have h1 := manySpace (rt := rt) (h := h) (j := j) (M := M) n hq.noSpace
      have h2 := Gives.janusBegin (id := 0) (nm := []) (x := []) (Gives.opt (word_no (rt := rt) (h := h ++ spaces (n + 1)) (j := j) (M := M) (hq.none h0 (by omega)))) (by simp)
      have h3 := Gives.zom_stop (space_no (rt := rt) (h := h ++ spaces (n + 1)) (j := upd j 0 []) (M := M) hq.noSpace)
      rw [h0]
      exact .opt (.rule (nm := b!"salt") rfl (.seq (.cons h1 (.cons h2 (.cons h3 .nil)))))
  · rw [if_neg h0, if_neg (fun h => h0 h.1)]
    have hst : Stop (spaces ch.post ++ q) := by
      cases hp : ch.post with
      | zero => exact hq.some h0 hp
      | succ n => exact stop_spaces1 n
    have h1 := manySpace (rt := rt) (h := h) (j := j) (M := M) ch.pre (noSpace_words (q := spaces ch.post ++ q) hs h0)
    have h2 := Gives.janusBegin (id := 0) (nm := []) (x := ch.salt)
      (Gives.opt (word (rt := rt) (h := h ++ spaces (ch.pre + 1)) (j := j) (M := M) hs h0 hst)) rfl
    have h3 := zomSpace (rt := rt) (j := upd j 0 ch.salt) (M := M) ch.post (h ++ spaces (ch.pre + 1) ++ ch.salt) hq.noSpace
    have := Gives.opt (Gives.rule (i := iSalt) (nm := b!"salt") rfl (Gives.seq (.cons h1 (.cons h2 (.cons h3 .nil)))))
    simpa using this

theorem split_salt (q : Bytes) : ∃ pre salt post u, Words salt ∧ (∀ m g n o b, q = (MxtPart.mk m g n o pre salt post b).saltText ++ u) ∧ ∀ m g n o b, Greedy (MxtPart.mk m g n o pre salt post b) u := by
  obtain ⟨n, u, rfl, h2⟩ := split_spaces q
  cases n with
  | zero => exact ⟨0, [], 0, u, by simp [Words], fun _ _ _ _ _ => by simp [MxtPart.saltText, spaces], fun _ _ _ _ _ => ⟨h2, fun _ h => absurd rfl h, fun h => absurd rfl h⟩⟩
  | succ n =>
    obtain ⟨x, v, rfl, hx, hv⟩ := split_words u
    by_cases h0 : x = []
    · subst h0
      exact ⟨n + 1, [], 0, v, hx, fun _ _ _ _ _ => by simp [MxtPart.saltText], fun _ _ _ _ _ => ⟨h2, fun _ _ => hv, fun h => absurd rfl h⟩⟩
    · obtain ⟨k, w, rfl, hw⟩ := split_spaces v
      refine ⟨n, x, k, w, hx, fun _ _ _ _ _ => by simp [MxtPart.saltText, h0], fun _ _ _ _ _ => ⟨hw, fun h => absurd h h0, fun _ hk => ?_⟩⟩
      have hk : k = 0 := hk
      subst hk
      exact hv

/-! ### the header -/

/-- What a map call notes. -/
def tk (e : Nat × Bytes × Bytes) : Nat × Token := (e.1, ⟨e.2.1.length, (e.2.1 ++ e.2.2).length⟩)

theorem name (hx : Words x) (hne : x ≠ []) (hq : Stop q) :
    Gives rt mapped (.rule iName) ⟨h, x ++ q, j, M⟩ true ⟨h ++ x, q, j, M ++ [tk (0, h, x)]⟩ :=
  .rule (nm := b!"name") rfl (.map (word hx hne hq) (Nat.le_of_lt (grow hne)))

theorem header (ch : MxtPart) (hc : ch.HeadAt q) (hq : Greedy ch q) :
    Gives rt mapped (.rule iHeader) ⟨h, ch.headText ++ q, j, M⟩ true ⟨h ++ ch.headText, q, after ch j, M ++ [tk (0, h ++ ch.lead, ch.name)]⟩ := by
  obtain ⟨d, ds, hn, hd⟩ := hc.note_head
  have hstop : Stop (ch.note ++ (b!"-->" ++ (ch.saltText ++ q))) := by
    intro c u e
    rw [hn] at e
    cases e
    exact hd
  have h1 := marker (rt := rt) (h := h) (j := j) (M := M) hc.mark (stop_spaces1 ch.gap (q := ch.name ++ (ch.note ++ (b!"-->" ++ (ch.saltText ++ q)))))
  have h2 := manySpace (rt := rt) (h := h ++ b!"//" ++ ch.mark) (j := j) (M := M) ch.gap
    (noSpace_words (q := ch.note ++ (b!"-->" ++ (ch.saltText ++ q))) hc.name hc.name_ne)
  have h3 := name (rt := rt) (h := h ++ b!"//" ++ ch.mark ++ spaces (ch.gap + 1)) (j := j) (M := M) hc.name hc.name_ne hstop
  obtain ⟨a, b, e, hb, hf, h4⟩ := comment (rt := rt) (q := ch.saltText ++ q) (j := j)
    (M := M ++ [tk (0, h ++ b!"//" ++ ch.mark ++ spaces (ch.gap + 1), ch.name)]) hc.first (h := h ++ b!"//" ++ ch.mark ++ spaces (ch.gap + 1) ++ ch.name) (z := ch.note) rfl rfl
  have h4' := Gives.rule (i := iComment) (nm := b!"comment") rfl h4
  have h5 := Gives.rule (i := iArrow) (nm := b!"arrow") rfl (arrow_yes (rt := rt) (h := h ++ b!"//" ++ ch.mark ++ spaces (ch.gap + 1) ++ ch.name ++ a)
    (q := ch.saltText ++ q) (j := j) (M := M ++ [tk (0, h ++ b!"//" ++ ch.mark ++ spaces (ch.gap + 1), ch.name)]) hf hb)
  have h6 := salt_greedy (rt := rt) (h := h ++ b!"//" ++ ch.mark ++ spaces (ch.gap + 1) ++ ch.name ++ a ++ b ++ b!"-->") (j := j)
    (M := M ++ [tk (0, h ++ b!"//" ++ ch.mark ++ spaces (ch.gap + 1), ch.name)]) ch hc.salt hq
  have := Gives.rule (i := iHeader) (nm := b!"header") rfl (Gives.seq (.cons h1 (.cons h2 (.cons h3 (.cons h4' (.cons h5 (.cons h6 .nil)))))))
  simpa [MxtPart.headText, MxtPart.lead, e] using this

/-! ### line breaks and the next marker -/

theorem nl_ne (l : Bool) : nl l ++ x ≠ [] := by cases l <;> simp [nl]

theorem nl_yes (l : Bool) : Gives rt mapped (.rule iNL) ⟨h, nl l ++ q, j, M⟩ true ⟨h ++ nl l, q, j, M⟩ := by
  refine .rule (nm := b!"nl") rfl (.any ?_)
  cases l with
  | false => exact .hit (Gives.lit (x := b!"\n"))
  | true => exact .next (Gives.lit_no (x := b!"\n") (by simp [nl])) (.hit (Gives.lit (x := b!"\r\n")))

theorem nl_no (hq : ∀ l u, q ≠ nl l ++ u) : Gives rt mapped (.rule iNL) ⟨h, q, j, M⟩ false ⟨h, q, j, M⟩ := by
  refine .rule (nm := b!"nl") rfl (.any_no (b := ⟨h, q, j, M⟩) ?_)
  exact .next (Gives.lit_no (x := b!"\n") fun ⟨u, hu⟩ => hq false u hu.symm) (.next (Gives.lit_no (x := b!"\r\n") fun ⟨u, hu⟩ => hq true u hu.symm) .nil)

theorem next_yes (l : Bool) (hj : j 0 = x) :
    Gives rt mapped (.rule iNextMarker) ⟨h, nl l ++ (b!"//" ++ (x ++ q)), j, M⟩ true ⟨h ++ nl l ++ b!"//" ++ x, q, upd j 0 [], M⟩ := by
  exact .rule (nm := b!"next-marker") rfl (.seq (.cons (nl_yes l) (.cons (Gives.lit (x := b!"//")) (.cons (Gives.janusEnd hj) .nil))))

theorem next_no (hj : j 0 = x) (hq : ¬ Next x q) : Gives rt mapped (.rule iNextMarker) ⟨h, q, j, M⟩ false ⟨h, q, j, M⟩ := by
  subst hj
  refine .rule (nm := b!"next-marker") (r := .seq [.rule iNL, .lit b!"//", .janusEnd 0 []]) rfl ?_
  by_cases h1 : ∃ l u, q = nl l ++ u
  · obtain ⟨l, u, rfl⟩ := h1
    by_cases h2 : b!"//" <+: u
    · obtain ⟨v, rfl⟩ := h2
      refine .seq_no (b := ⟨h ++ nl l ++ b!"//", v, j, M⟩) (.cons (nl_yes l) (.cons Gives.lit (.fail (.janusEnd_no ?_))))
      rintro ⟨w, hw⟩
      exact hq ⟨l, w, by rw [hw]⟩
    · exact .seq_no (b := ⟨h ++ nl l, u, j, M⟩) (.cons (nl_yes l) (.fail (Gives.lit_no h2)))
  · exact .seq_no (b := ⟨h, q, j, M⟩) (.fail (nl_no fun l u e => h1 ⟨l, u, e⟩))

/-! ### the content -/

/-- The memory after the content. -/
def fin (j : Nat → Bytes) (q : Bytes) : Nat → Bytes := if q = [] then j else upd j 0 []

theorem any_close (hj : j 0 = x) (he : Close x q) : ∃ b, Gives rt mapped (.any [.rule iNextMarker, .atEnd]) ⟨h, q, j, M⟩ true b ∧ b.jan = fin j q ∧ b.maps = M := by
  rcases he with rfl | ⟨l, u, rfl⟩
  · exact ⟨_, .any (.next (next_no hj fun ⟨l, u, e⟩ => nl_ne l e.symm) (.hit Gives.atEnd)), rfl, rfl⟩
  · exact ⟨_, .any (.hit (next_yes l hj)), by rw [fin, if_neg (nl_ne l)], rfl⟩

theorem any_open (hj : j 0 = x) (he : ¬ Close x q) : Gives rt mapped (.any [.rule iNextMarker, .atEnd]) ⟨h, q, j, M⟩ false ⟨h, q, j, M⟩ :=
  .any_no (b := ⟨h, q, j, M⟩) (.next (next_no hj fun h => he (.inr h)) (.next (Gives.atEnd_no fun h => he (.inl h)) .nil))

theorem content {t u : Bytes} (hj : j 0 = x) (hf : Finds (Close x) t u) : ∀ {h z : Bytes}, t = z ++ u →
    Gives rt mapped (.to (.any [.rule iNextMarker, .atEnd])) ⟨h, t, j, M⟩ true ⟨h ++ z, u, fin j u, M⟩ := by
  induction hf with
  | here hp =>
    intro h z e
    have hz : z = [] := by simpa using e
    subst hz
    obtain ⟨b, h1, h2, h3⟩ := any_close (rt := rt) (h := h) (M := M) hj hp
    have := Gives.to_hit h1
    simpa [View.back, h2, h3] using this
  | @hop t t' u hp hh hf ih =>
    intro h z e
    obtain ⟨y, rfl⟩ := Finds.split hf
    obtain ⟨w, hw, rfl⟩ := hop_split hh
    have hz : z = w ++ y := List.append_cancel_right (by rw [← e, List.append_assoc])
    subst hz
    have := Gives.to_hop hh (any_open (rt := rt) (h := h) (M := M) hj hp) (ih (h := h ++ w) rfl)
    simpa using this

theorem content_no {t e : Bytes} (hj : j 0 = x) (hm : Misses (Close x) t e) : ∀ {h : Bytes},
    Gives rt mapped (.to (.any [.rule iNextMarker, .atEnd])) ⟨h, t, j, M⟩ false ⟨h, t, j, M⟩ := by
  induction hm with
  | stop hp hh => exact Gives.to_stop hh (any_open hj hp)
  | hop hp hh hm ih =>
    intro h
    obtain ⟨w, hw, rfl⟩ := hop_split hh
    exact Gives.to_hop_no hh (any_open hj hp) (ih (h := h ++ w))

/-- What is noted for the body of a chunk. -/
def bodyPick (p : Bytes) (c : MxtPart) : Nat × Bytes × Bytes :=
  match c.body with
  | none => (1, p ++ c.headText, [])
  | some (l, cs) => (2, p ++ c.headText ++ nl l, cs)

def picks (p : Bytes) (c : MxtPart) : List (Nat × Bytes × Bytes) := [(0, p ++ c.lead, c.name), bodyPick p c]

theorem empty_no (hj : j 0 = x) (hq : ¬ Close x q) : Gives rt mapped (.rule iEmptyContent) ⟨h, q, j, M⟩ false ⟨h, q, j, M⟩ := by
  refine .rule (nm := b!"empty-content") rfl (.map_no (b := ⟨h, q, j, M⟩) (.any_no (b := ⟨h, q, j, M⟩) ?_))
  exact .next (Gives.atEnd_no fun h => hq (.inl h)) (.next (.at_ (next_no hj fun h => hq (.inr h))) .nil)

theorem not_close (l : Bool) (hn : ¬ Next x (nl l ++ q)) : ¬ Close x (nl l ++ q) := fun h => h.elim (nl_ne l) hn

theorem body (ch : MxtPart) (hj : j 0 = ch.salt) (he : Close ch.salt q)
    (hn : ∀ l cs, ch.body = some (l, cs) → ¬ Next ch.salt (nl l ++ (cs ++ q)) ∧ Finds (Close ch.salt) (cs ++ q) q) :
    Gives rt mapped (.any [.rule iEmptyContent, .seq [.rule iNL, .rule iContent]]) ⟨h ++ ch.headText, ch.bodyText ++ q, j, M⟩ true
      ⟨h ++ ch.text, q, fin j q, M ++ [tk (bodyPick h ch)]⟩ := by
  rw [MxtPart.text, ← List.append_assoc]
  unfold MxtPart.bodyText bodyPick
  generalize h ++ ch.headText = p' at *
  cases hb : ch.body with
  | none =>
    simp only
    have h1 : Gives rt mapped (.any [.atEnd, .at_ (.rule iNextMarker)]) ⟨p', q, j, M⟩ true ⟨p', q, fin j q, M⟩ := by
      rcases he with rfl | ⟨l, u, rfl⟩
      · exact .any (.hit Gives.atEnd)
      · rw [fin, if_neg (nl_ne l)]
        exact .any (.next (Gives.atEnd_no (nl_ne l)) (.hit (.at_ (next_yes l hj))))
    have := Gives.any (rs := [.rule iEmptyContent, .seq [.rule iNL, .rule iContent]]) (.hit (Gives.rule (i := iEmptyContent) (nm := b!"empty-content") rfl (Gives.map (f := 1) h1 (Nat.le_refl _))))
    simpa [tk] using this
  | some lc =>
    obtain ⟨l, cs⟩ := lc
    obtain ⟨hx, hf⟩ := hn l cs hb
    simp only
    rw [List.append_assoc]
    have h1 := empty_no (rt := rt) (h := p') (M := M) hj (not_close l hx)
    have h2 := content (rt := rt) (M := M) hj hf (h := p' ++ nl l) rfl
    have h3 := Gives.rule (i := iContent) (nm := b!"content") rfl (Gives.map (f := 2) h2 (by simp))
    have h4 := Gives.seq (.cons (nl_yes (rt := rt) (h := p') (q := cs ++ q) (j := j) (M := M) l) (.cons h3 .nil))
    have := Gives.any (.next h1 (.hit (rs := []) h4))
    simpa [tk] using this

/-- Behind the header there is a line break or the end. -/
theorem greedy_of (ch : MxtPart) (h0 : u = [] ∨ ∃ l v, u = nl l ++ v) : Greedy ch u := by
  have hs : Stop u := by
    rintro b v rfl
    rcases h0 with h | ⟨l, v, h⟩
    · cases h
    · cases l <;> simp [nl] at h <;> simp [h.1]
  refine ⟨?_, fun _ _ => hs, fun _ _ => hs⟩
  rintro v rfl
  rcases h0 with h | ⟨l, v, h⟩
  · cases h
  · cases l <;> simp [nl] at h

theorem greedy_body (ch : MxtPart) (he : Close x q) : Greedy ch (ch.bodyText ++ q) := by
  refine greedy_of ch ?_
  unfold MxtPart.bodyText
  cases ch.body with
  | none =>
    rcases he with rfl | ⟨l, v, rfl⟩
    · exact .inl rfl
    · exact .inr ⟨l, _, rfl⟩
  | some lc => exact .inr ⟨lc.1, lc.2 ++ q, by simp⟩

theorem chunk (ch : MxtPart) (hc : ch.StandsAt q) (hj : j 0 = []) :
    Gives rt mapped (.rule iChunk) ⟨h, ch.text ++ q, j, M⟩ true ⟨h ++ ch.text, q, fin (after ch j) q, M ++ (picks h ch).map tk⟩ := by
  have h1 := header (rt := rt) (h := h) (j := j) (M := M) ch hc.head (greedy_body ch hc.close)
  have h2 := body (rt := rt) (h := h) (M := M ++ [tk (0, h ++ ch.lead, ch.name)]) ch (after_zero ch hj) hc.close hc.content
  have := Gives.rule (i := iChunk) (nm := b!"chunk") rfl (Gives.seq (.cons h1 (.cons h2 .nil)))
  simpa [picks, MxtPart.text] using this

/-! ### every text -/

/-- What is noted when a chunk cannot be read: its name, if it gets that far. -/
inductive Half (p q : Bytes) : List (Nat × Bytes × Bytes) → Prop
  | none : (∀ mark gap name u, ¬ NameHere q mark gap name u) → Half p q []
  | name {mark : Bytes} {gap : Nat} {name u : Bytes} : NameHere q mark gap name u → Half p q [(0, p ++ (b!"//" ++ (mark ++ spaces (gap + 1))), name)]

theorem stuck (hq : StuckHere q) : Never rt mapped (.rule iChunk) ⟨h, q, j, M⟩ := by
  obtain ⟨mark, gap, name, u, e, hn, hm, he⟩ := hq
  rw [hn.text]
  have g1 := marker (rt := rt) (h := h) (j := j) (M := M) hn.markW (stop_spaces1 gap (q := name ++ u))
  have g2 := manySpace (rt := rt) (h := h ++ b!"//" ++ mark) (j := j) (M := M) gap (noSpace_words (q := u) hn.nameW hn.name_ne)
  have g3 := MxtB.name (rt := rt) (h := h ++ b!"//" ++ mark ++ spaces (gap + 1)) (j := j) (M := M) hn.nameW hn.name_ne hn.stop
  have g4 := Never.rule (G := mapped) (i := iComment) (nm := b!"comment") rfl (comment_stuck (rt := rt) (h := h ++ b!"//" ++ mark ++ spaces (gap + 1) ++ name) (j := j) (M := M ++ [tk (0, h ++ b!"//" ++ mark ++ spaces (gap + 1), name)]) hm he)
  exact .rule (nm := b!"chunk") rfl (.seq (.here (.rule (nm := b!"header") rfl (.seq (.cons g1 (.cons g2 (.cons g3 (.here g4))))))))

/-- A text that begins with no chunk is not read, if the search for the arrow comes to an end. -/
theorem chunk_no (hj : j 0 = []) (hq : ¬ PartHere q) (hs : ¬ StuckHere q) : ∃ ex j', Half h q ex ∧ Gives rt mapped (.rule iChunk) ⟨h, q, j, M⟩ false ⟨h, q, j', M ++ ex.map tk⟩ := by
  have early : (∀ mark gap name u, ¬ NameHere q mark gap name u) → (∃ b, b.jan = j ∧ b.maps = M ∧ GivesSeq rt mapped [.rule iMarker, .many (.rune ((' ' : Char).toNat)), .rule iName, .rule iComment, .rule iArrow, .opt (.rule iSalt)] ⟨h, q, j, M⟩ false b) →
      ∃ ex j', Half h q ex ∧ Gives rt mapped (.rule iChunk) ⟨h, q, j, M⟩ false ⟨h, q, j', M ++ ex.map tk⟩ := by
    rintro hn ⟨b, h1, h2, h3⟩
    refine ⟨[], j, .none hn, ?_⟩
    have := Gives.rule (i := iChunk) (nm := b!"chunk") rfl (Gives.seq_no (rs := [.rule iHeader, .any [.rule iEmptyContent, .seq [.rule iNL, .rule iContent]]]) (.fail (Gives.rule (i := iHeader) (nm := b!"header") rfl (Gives.seq_no h3))))
    simpa [View.back, h1, h2] using this
  by_cases h0 : b!"//" <+: q
  · obtain ⟨q1, rfl⟩ := h0
    obtain ⟨mark, q2, rfl, hm, hst1⟩ := split_words q1
    have g1 := marker (rt := rt) (h := h) (j := j) (M := M) hm hst1
    obtain ⟨gap, q3, rfl, hsp⟩ := split_spaces q2
    have uniq : ∀ mark' gap' name' u', NameHere (b!"//" ++ (mark ++ (spaces gap ++ q3))) mark' gap' name' u' → gap = gap' + 1 ∧ q3 = name' ++ u' := by
      intro mark' gap' name' u' hn
      have e := List.append_cancel_left hn.text
      obtain ⟨_, e2⟩ := words_stop e hm hn.markW hst1 (stop_spaces1 gap')
      exact spaces_noSpace e2 hsp (noSpace_words hn.nameW hn.name_ne)
    cases gap with
    | zero =>
      refine early (fun mark' gap' name' u' hn => ?_) ⟨_, rfl, rfl, .cons g1 (.fail (manySpace_no (by simpa [spaces] using hsp)))⟩
      have := (uniq _ _ _ _ hn).1
      omega
    | succ gap =>
      have g2 := manySpace (rt := rt) (h := h ++ b!"//" ++ mark) (j := j) (M := M) gap hsp
      obtain ⟨name, q4, rfl, hw, hst⟩ := split_words q3
      by_cases hne : name = []
      · subst hne
        refine early (fun mark' gap' name' u' hn => ?_) ⟨⟨h ++ b!"//" ++ mark ++ spaces (gap + 1), [] ++ q4, j, M⟩, rfl, rfl, .cons g1 (.cons g2 (.fail ?_))⟩
        · have e := (uniq _ _ _ _ hn).2
          obtain ⟨e1, _⟩ := words_stop e hw hn.nameW hst hn.stop
          exact hn.name_ne e1.symm
        · have := Gives.rule (i := iName) (nm := b!"name") rfl (Gives.map_no (f := 0) (word_no (rt := rt) (h := h ++ b!"//" ++ mark ++ spaces (gap + 1)) (q := [] ++ q4) (j := j) (M := M) hst))
          exact this
      · have g3 := MxtB.name (rt := rt) (h := h ++ b!"//" ++ mark ++ spaces (gap + 1)) (j := j) (M := M) hw hne hst
        have hN : NameHere (b!"//" ++ (mark ++ (spaces (gap + 1) ++ (name ++ q4)))) mark gap name q4 := ⟨rfl, hm, hw, hne, hst⟩
        rcases finds_or_misses Arrow _ q4 (Nat.le_refl _) with ⟨v, hf⟩ | ⟨e, hmi⟩
        · obtain ⟨q5, hv⟩ := Finds.holds hf
          subst hv
          obtain ⟨note, rfl⟩ := Finds.split hf
          obtain ⟨pre, salt, post, u, hsw, hse, hgr⟩ := split_salt q5
          obtain ⟨ch, rfl, rfl, rfl, rfl, hch, hg, hsa, hbody⟩ : ∃ ch : MxtPart, mark = ch.mark ∧ gap = ch.gap ∧ name = ch.name ∧ note = ch.note ∧ q5 = ch.saltText ++ u ∧ Greedy ch u ∧ Words ch.salt ∧ ch.body = none :=
            ⟨⟨mark, gap, name, note, pre, salt, post, none⟩, rfl, rfl, rfl, rfl, hse _ _ _ _ _, hgr _ _ _ _ _, hsw, rfl⟩
          subst hch
          have hc : ch.HeadAt u := ⟨hm, hw, hsa, hne, by
            cases hn : ch.note with
            | nil =>
              rw [hn] at hst
              exact absurd (hst 45 (45 :: 62 :: (ch.saltText ++ u)) rfl) (by decide)
            | cons d ds => exact ⟨d, ds, rfl, hst d (ds ++ (b!"-->" ++ (ch.saltText ++ u))) (by rw [hn]; rfl)⟩, hf⟩
          have e : b!"//" ++ (ch.mark ++ (spaces (ch.gap + 1) ++ (ch.name ++ (ch.note ++ (b!"-->" ++ (ch.saltText ++ u)))))) = ch.headText ++ u := by simp [MxtPart.headText, MxtPart.lead]
          have hcl : ¬ Close ch.salt u := fun hcl => hq ⟨ch, u, by rw [e]; simp [MxtPart.text, MxtPart.bodyText, hbody],
            ⟨by simpa [MxtPart.bodyText, hbody] using hc, hcl, fun l cs hb => by rw [hbody] at hb; cases hb⟩⟩
          have g4 := header (rt := rt) (h := h) (j := j) (M := M) ch hc hg
          have hj' := after_zero ch hj
          have g6 := empty_no (rt := rt) (h := h ++ ch.headText) (M := M ++ [tk (0, h ++ ch.lead, ch.name)]) hj' hcl
          have g5 : Gives rt mapped (.seq [.rule iNL, .rule iContent]) ⟨h ++ ch.headText, u, after ch j, M ++ [tk (0, h ++ ch.lead, ch.name)]⟩ false ⟨h ++ ch.headText, u, after ch j, M ++ [tk (0, h ++ ch.lead, ch.name)]⟩ := by
            by_cases hl : ∃ l v, u = nl l ++ v
            · obtain ⟨l, v, rfl⟩ := hl
              rcases finds_or_misses (Close ch.salt) _ v (Nat.le_refl _) with ⟨w, hf'⟩ | ⟨e', hm'⟩
              · exfalso
                obtain ⟨cs, rfl⟩ := Finds.split hf'
                refine hq ⟨{ ch with body := some (l, cs) }, w, ?_, ⟨?_, Finds.holds hf', ?_⟩⟩
                · simp [MxtPart.text, MxtPart.bodyText, MxtPart.headText, MxtPart.lead, MxtPart.saltText]
                · have : MxtPart.HeadAt { ch with body := some (l, cs) } (nl l ++ (cs ++ w)) := ⟨hc.mark, hc.name, hc.salt, hc.name_ne, hc.note_head, hc.first⟩
                  simpa [MxtPart.bodyText] using this
                · rintro l' cs' hb
                  cases hb
                  exact ⟨fun h => hcl (.inr h), hf'⟩
              · have := Gives.seq_no (rs := [.rule iNL, .rule iContent]) (.cons (nl_yes (rt := rt) (h := h ++ ch.headText) (q := v) (j := after ch j) (M := M ++ [tk (0, h ++ ch.lead, ch.name)]) l)
                  (.fail (Gives.rule (i := iContent) (nm := b!"content") rfl (Gives.map_no (f := 2) (content_no hj' hm')))))
                exact this
            · exact Gives.seq_no (.fail (nl_no fun l v e => hl ⟨l, v, e⟩))
          have g7 : Gives rt mapped (.any [.rule iEmptyContent, .seq [.rule iNL, .rule iContent]]) ⟨h ++ ch.headText, u, after ch j, M ++ [tk (0, h ++ ch.lead, ch.name)]⟩ false ⟨h ++ ch.headText, u, after ch j, M ++ [tk (0, h ++ ch.lead, ch.name)]⟩ :=
            .any_no (b := ⟨h ++ ch.headText, u, after ch j, M ++ [tk (0, h ++ ch.lead, ch.name)]⟩) (.next g6 (.next g5 .nil))
          refine ⟨_, after ch j, .name hN, ?_⟩
          rw [e]
          exact .rule (nm := b!"chunk") rfl (Gives.seq_no (b := ⟨h ++ ch.headText, u, after ch j, M ++ [tk (0, h ++ ch.lead, ch.name)]⟩) (.cons g4 (.fail g7)))
        · have he : e = [] := Classical.byContradiction fun he => hs ⟨_, _, _, _, e, hN, hmi, he⟩
          refine ⟨_, j, .name hN, ?_⟩
          have g4 := Gives.rule (i := iComment) (nm := b!"comment") rfl (comment_none (rt := rt) (j := j) (M := M ++ [tk (0, h ++ b!"//" ++ mark ++ spaces (gap + 1), name)]) hmi he (h := h ++ b!"//" ++ mark ++ spaces (gap + 1) ++ name))
          have := Gives.rule (i := iChunk) (nm := b!"chunk") rfl (Gives.seq_no (rs := [.rule iHeader, .any [.rule iEmptyContent, .seq [.rule iNL, .rule iContent]]]) (.fail (Gives.rule (i := iHeader) (nm := b!"header") rfl (Gives.seq_no (rs := [.rule iMarker, .many (.rune ((' ' : Char).toNat)), .rule iName, .rule iComment, .rule iArrow, .opt (.rule iSalt)])
            (.cons g1 (.cons g2 (.cons g3 (.fail g4))))))))
          simpa [View.back] using this
  · refine early (fun mark gap name u hn => h0 ⟨_, hn.text.symm⟩) ⟨_, rfl, rfl, .fail (?_ : Gives rt mapped (.rule iMarker) ⟨h, q, j, M⟩ false ⟨h, q, j, M⟩)⟩
    exact .rule (nm := b!"marker") rfl (Gives.seq_no (rs := [.lit b!"//", .zom (.rule iWordChar)]) (.fail (Gives.lit_no h0)))

/-- No chunk stands where the search for the arrow does not end. -/
theorem here_not_stuck (h1 : PartHere q) : ¬ StuckHere q := by
  rintro h2
  obtain ⟨c, u, rfl, hc⟩ := h1
  let rt : Rt := ⟨fun x => x, fun _ => true, fun n => n⟩
  exact (chunk (rt := rt) (h := []) (j := fun _ => []) (M := []) c hc rfl).seq_never_absurd (stuck h2)

/-! ### documents -/

def restPicks (p : Bytes) : List (Bool × MxtPart) → List (Nat × Bytes × Bytes)
  | [] => []
  | (l, c) :: cs => picks (p ++ nl l) c ++ restPicks (p ++ nl l ++ c.text) cs

/-- What is noted of the rest. -/
def HalfRest (p rest : Bytes) (ex : List (Nat × Bytes × Bytes)) : Prop := (rest = [] ∧ ex = []) ∨ ∃ l q, rest = nl l ++ q ∧ Half (p ++ nl l) q ex

abbrev again : Reader := .zom (.seq [.rule iNL, .rule iChunk])

theorem last_gives {rest : Bytes} (hj : rest ≠ [] → j 0 = []) (ho : PartsOver rest) (hs : ∀ l q, rest = nl l ++ q → ¬ StuckHere q) :
    ∃ ex j', HalfRest h rest ex ∧ Gives rt mapped again ⟨h, rest, j, M⟩ true ⟨h, rest, j', M ++ ex.map tk⟩ := by
  rcases ho with rfl | ⟨l, q, rfl, hq⟩
  · refine ⟨[], j, .inl ⟨rfl, rfl⟩, ?_⟩
    have h1 := nl_no (rt := rt) (h := h) (q := []) (j := j) (M := M) (fun l u e => nl_ne l e.symm)
    have := Gives.zom_stop (Gives.seq_no (rs := [.rule iNL, .rule iChunk]) (.fail h1))
    simpa [View.back] using this
  · obtain ⟨ex, j', e1, e2⟩ := chunk_no (rt := rt) (h := h ++ nl l) (M := M) (hj (nl_ne l)) hq (hs l q rfl)
    refine ⟨ex, j', .inr ⟨l, q, rfl, e1⟩, ?_⟩
    have := Gives.zom_stop (Gives.seq_no (rs := [.rule iNL, .rule iChunk]) (.cons (nl_yes (rt := rt) (h := h) (j := j) (M := M) l) (.fail e2)))
    simpa [View.back] using this

theorem last_never {l : Bool} (hs : StuckHere q) : NeverZom rt mapped (.seq [.rule iNL, .rule iChunk]) ⟨h, nl l ++ q, j, M⟩ :=
  .here (.seq (.cons (nl_yes l) (.here (stuck hs))))

theorem fin_zero (hq : q ≠ []) : fin j q 0 = [] := by rw [fin, if_neg hq]; simp [upd]

theorem parts_first {c : MxtPart} : ∀ {cs : List (Bool × MxtPart)} {rest : Bytes}, PartsAt c cs rest → c.StandsAt (partsText cs ++ rest)
  | [], _, h => h
  | (l, d) :: cs, rest, h => by simpa [partsText] using h.1

theorem rest_gives {rest : Bytes} (ho : PartsOver rest) (hs : ∀ l q, rest = nl l ++ q → ¬ StuckHere q) : ∀ (cs : List (Bool × MxtPart)) (c : MxtPart) (h : Bytes) (j : Nat → Bytes) (M : List (Nat × Token)),
    PartsAt c cs rest → (partsText cs ++ rest ≠ [] → j 0 = []) →
    ∃ ex j', HalfRest (h ++ partsText cs) rest ex ∧ Gives rt mapped again ⟨h, partsText cs ++ rest, j, M⟩ true ⟨h ++ partsText cs, rest, j', M ++ (restPicks h cs ++ ex).map tk⟩
  | [], c, h, j, M, _, hj => by simpa [partsText, restPicks] using last_gives (rt := rt) (h := h) (M := M) hj ho hs
  | (l, d) :: cs, c, h, j, M, hp, hj => by
    have hj := hj (by rw [partsText, List.append_assoc]; exact nl_ne l)
    have g1 := chunk (rt := rt) (h := h ++ nl l) (M := M) d (parts_first hp.2) hj
    obtain ⟨ex, j', e1, e2⟩ := rest_gives ho hs cs d (h ++ nl l ++ d.text) _ (M ++ (picks (h ++ nl l) d).map tk) hp.2 fin_zero
    refine ⟨ex, j', by simpa [partsText] using e1, ?_⟩
    have := Gives.zom_step (.seq (.cons (nl_yes (rt := rt) (h := h) (j := j) (M := M) l) (.cons g1 .nil))) e2
    simpa [partsText, restPicks] using this

theorem rest_never {l : Bool} (hs : StuckHere q) : ∀ (cs : List (Bool × MxtPart)) (c : MxtPart) (h : Bytes) (j : Nat → Bytes) (M : List (Nat × Token)),
    PartsAt c cs (nl l ++ q) → j 0 = [] → NeverZom rt mapped (.seq [.rule iNL, .rule iChunk]) ⟨h, partsText cs ++ (nl l ++ q), j, M⟩
  | [], c, h, j, M, _, _ => last_never hs
  | (l', d) :: cs, c, h, j, M, hp, hj => by
    have g1 := chunk (rt := rt) (h := h ++ nl l') (M := M) d (parts_first hp.2) hj
    have h2 := rest_never hs cs d (h ++ nl l' ++ d.text) (fin (after d j) (partsText cs ++ (nl l ++ q))) (M ++ (picks (h ++ nl l') d).map tk) hp.2 (fin_zero fun h => nl_ne l (List.append_eq_nil_iff.mp h).2)
    have := NeverZom.step (.seq (.cons (nl_yes (rt := rt) (h := h) (j := j) (M := M) l') (.cons g1 .nil))) h2
    simpa [partsText] using this

/-- Take chunks as long as there are any. -/
theorem parts_ex : ∀ (n : Nat) (q : Bytes), q.length ≤ n → PartHere q → ∃ c cs rest, q = c.text ++ (partsText cs ++ rest) ∧ PartsAt c cs rest ∧ PartsOver rest := by
  intro n
  induction n with
  | zero =>
    rintro q hl ⟨c, u, rfl, _⟩
    simp [MxtPart.text, MxtPart.headText, MxtPart.lead] at hl
  | succ n ih =>
    rintro q hl ⟨c, u, rfl, hc⟩
    rcases hc.close with rfl | ⟨l, v, hu⟩
    · exact ⟨c, [], [], rfl, hc, .inl rfl⟩
    by_cases hp : PartHere (b!"//" ++ (c.salt ++ v))
    · obtain ⟨d, cs, rest, e, h1, h2⟩ := ih _ (by
        rw [hu] at hl
        have : 0 < (nl l).length := by cases l <;> simp [nl]
        simp only [List.length_append] at hl ⊢
        omega) hp
      refine ⟨c, (l, d) :: cs, rest, by rw [hu, e]; simp [partsText], ⟨by rw [← e, ← hu]; exact hc, h1⟩, h2⟩
    · exact ⟨c, [], u, rfl, hc, .inr ⟨l, _, hu, hp⟩⟩

theorem doc_gives {c : MxtPart} {cs : List (Bool × MxtPart)} {rest : Bytes} (hj : j 0 = []) (hp : PartsAt c cs rest) (ho : PartsOver rest) (hs : ∀ l q, rest = nl l ++ q → ¬ StuckHere q) :
    ∃ ex j', HalfRest (h ++ c.text ++ partsText cs) rest ex ∧
      Gives rt mapped Mxt.reader ⟨h, c.text ++ (partsText cs ++ rest), j, M⟩ true ⟨h ++ c.text ++ partsText cs, rest, j', M ++ (picks h c ++ restPicks (h ++ c.text) cs ++ ex).map tk⟩ := by
  have g1 := chunk (rt := rt) (h := h) (M := M) c (parts_first hp) hj
  obtain ⟨ex, j', e1, e2⟩ := rest_gives (rt := rt) ho hs cs c (h ++ c.text) _ (M ++ (picks h c).map tk) hp fin_zero
  refine ⟨ex, j', e1, ?_⟩
  have := Gives.grammar (w := b!"mxt") (Gives.rule (i := iChunks) (nm := b!"chunks") rfl (Gives.seq (.cons g1 (.cons e2 .nil))))
  simpa [Mxt.reader] using this

theorem doc_never {c : MxtPart} {cs : List (Bool × MxtPart)} {l : Bool} (hj : j 0 = []) (hp : PartsAt c cs (nl l ++ q)) (hs : StuckHere q) :
    Never rt mapped Mxt.reader ⟨h, c.text ++ (partsText cs ++ (nl l ++ q)), j, M⟩ := by
  have g1 := chunk (rt := rt) (h := h) (M := M) c (parts_first hp) hj
  exact .grammar (.rule (nm := b!"chunks") rfl (.seq (.cons g1 (.here (.zom (rest_never hs cs c _ _ _ hp (fin_zero fun h => nl_ne l (List.append_eq_nil_iff.mp h).2)))))))

theorem doc_stuck (hs : StuckHere q) : Never rt mapped Mxt.reader ⟨h, q, j, M⟩ :=
  .grammar (.rule (nm := b!"chunks") rfl (.seq (.here (stuck hs))))

theorem doc_no (hj : j 0 = []) (hq : ¬ PartHere q) (hs : ¬ StuckHere q) : ∃ ex j', Half h q ex ∧ Gives rt mapped Mxt.reader ⟨h, q, j, M⟩ false ⟨h, q, j', M ++ ex.map tk⟩ := by
  obtain ⟨ex, j', e1, e2⟩ := chunk_no (rt := rt) (h := h) (M := M) hj hq hs
  exact ⟨ex, j', e1, Gives.grammar (w := b!"mxt") (Gives.rule (i := iChunks) (nm := b!"chunks") rfl (Gives.seq_no (.fail e2)))⟩

/-! ### what the map functions are given -/

/-- Every noted piece lies in the text. -/
def Lies (all : Bytes) (e : Nat × Bytes × Bytes) : Prop := ∃ b, all = e.2.1 ++ e.2.2 ++ b

theorem picks_in (p : Bytes) (c : MxtPart) (u : Bytes) : ∀ e ∈ picks p c, Lies (p ++ (c.text ++ u)) e := by
  intro e he
  simp only [picks, List.mem_cons, List.not_mem_nil, or_false] at he
  rcases he with rfl | rfl
  · exact ⟨c.note ++ b!"-->" ++ c.saltText ++ c.bodyText ++ u, by simp [MxtPart.text, MxtPart.headText]⟩
  · unfold bodyPick
    rw [MxtPart.text, MxtPart.bodyText]
    cases c.body with
    | none => exact ⟨u, by simp⟩
    | some lc => exact ⟨u, by simp⟩

theorem restPicks_in : ∀ (cs : List (Bool × MxtPart)) (p : Bytes), ∀ e ∈ restPicks p cs, Lies (p ++ partsText cs) e
  | [], _, _, he => by cases he
  | (l, c) :: cs, p, e, he => by
    rw [restPicks, List.mem_append] at he
    have e1 : p ++ partsText ((l, c) :: cs) = p ++ nl l ++ (c.text ++ partsText cs) := by simp [partsText]
    rw [e1]
    rcases he with he | he
    · exact picks_in _ c _ e he
    · have := restPicks_in cs _ e he
      simpa using this

theorem get_tk {s : Scanner} {e : Nat × Bytes × Bytes} (he : Lies s.full e) : s.get (tk e).2 = .ret e.2.2 := by
  obtain ⟨b, hf⟩ := he
  have e1 : (tk e).2 = makeToken (e.2.1.length : Int) ((e.2.1 ++ e.2.2).length : Int) := by
    unfold makeToken tk
    rw [if_neg (by simp; omega)]
  rw [e1]
  exact get_between (s := s) (s1 := { s with pos := e.2.1.length }) (s2 := { s with pos := (e.2.1 ++ e.2.2).length })
    (h := e.2.1) (x := e.2.2) (u := b) ⟨by simp [hf], rfl⟩ ⟨by simp [hf], by simp⟩ rfl

theorem picks_yields (p : Bytes) (c : MxtPart) : (picks p c).map (fun e => (e.1, e.2.2)) = c.yields := by
  unfold picks bodyPick MxtPart.yields
  cases c.body <;> rfl

theorem restPicks_yields : ∀ (cs : List (Bool × MxtPart)) (p : Bytes), (restPicks p cs).map (fun e => (e.1, e.2.2)) = cs.flatMap fun d => d.2.yields
  | [], _ => rfl
  | (l, c) :: cs, p => by rw [restPicks, List.map_append, picks_yields, restPicks_yields cs, List.flatMap_cons]

theorem nl_inj {l l' : Bool} {u v : Bytes} (e : nl l ++ u = nl l' ++ v) : u = v := by
  cases l <;> cases l' <;> simp_all [nl]

theorem half_names {p q : Bytes} {ex : List (Nat × Bytes × Bytes)} (hx : Half p q ex) : ∃ names : List Bytes, ex.map (fun e => (e.1, e.2.2)) = names.map (fun n => (0, n)) ∧
    ((names = [] ∧ ∀ mark gap name u, ¬ NameHere q mark gap name u) ∨ ∃ mark gap name u, NameHere q mark gap name u ∧ names = [name]) ∧ ∀ e ∈ ex, Lies (p ++ q) e := by
  cases hx with
  | none hn => exact ⟨[], rfl, .inl ⟨rfl, hn⟩, by simp⟩
  | name hn =>
    refine ⟨[_], rfl, .inr ⟨_, _, _, _, hn, rfl⟩, ?_⟩
    intro e he
    rw [List.mem_singleton.mp he]
    rename_i mark gap name u
    exact ⟨u, by rw [hn.text]; simp⟩

/-- What the map functions are given, by what is noted. -/
theorem gets_of {s : Scanner} {ps : List (Nat × Bytes × Bytes)} {want : List (Nat × Bytes)} (hi : ∀ e ∈ ps, Lies s.full e) (hw : ps.map (fun e => (e.1, e.2.2)) = want) :
    (ps.map tk).map (fun t => (t.1, s.get t.2)) = want.map fun e : Nat × Bytes => (e.1, .ret e.2) := by
  rw [← hw, List.map_map, List.map_map]
  refine List.map_congr_left fun e he => ?_
  simp only [Function.comp_apply, get_tk (hi e he)]
  rfl

/-! ### searches near the end of the text -/

theorem misses_end {P : Bytes → Prop} {t e : Bytes} (hm : Misses P t e) : (∃ z, t = z ++ e) ∧ ¬ P e ∧ ¬ ∃ u, Hop e u := by
  induction hm with
  | stop hp hh => exact ⟨⟨[], rfl⟩, hp, hh⟩
  | hop hp hh hm ih =>
    obtain ⟨⟨z, rfl⟩, h1⟩ := ih
    obtain ⟨x, _, rfl⟩ := hop_split hh
    exact ⟨⟨x ++ z, by simp⟩, h1⟩

end MxtB
end Tok
