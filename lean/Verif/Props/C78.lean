/-
C78. The number of rules read is proportional to the length of the text.
-/
import Verif.Proofs.Pays
import Verif.Props.C63
import Verif.Props.C78Lua

namespace Tok
open Spec
open Lua (bytes_all ascii_rune ascii_contains)

namespace Json
variable {rt : Rt} {l n : Nat}

/-- The JSON grammar with all rules monitored. -/
abbrev watched (l : Nat) : Env := env.monitorAll l

theorem watched_noWrap : (watched l).Every (fun r => r.noWrap = true) := by
  intro rl hrl c hc
  obtain ⟨⟨nm, _ | c'⟩, hr', rfl⟩ := List.mem_map.mp hrl
  · cases hc
  · cases hc
    exact .mk (r := .monitor _ _ _) rfl fun x hx => by
      rw [List.mem_singleton.mp hx]
      exact Env.everyB_sound (G := env) (p := Reader.noWrap) (by decide +kernel) _ hr' c' rfl

/-! ### what does not depend on the length -/

theorem Pays.fuel {G : Env} {r : Reader} {Q : Bill} (h : ∀ m, n = m + 1 → Pays l (read rt G (m + 1) r) Q) : Pays l (read rt G n r) Q := by
  cases n with
  | zero => exact .zero
  | succ n => exact h n rfl

theorem ruleUp {i K : Nat} {nm : Bytes} {r : Reader} (hi : env[i]? = some ⟨nm, some r⟩) (h : ∀ m, Pays l (read rt (watched l) m r) (upTo K)) :
    Pays l (read rt (watched l) n (.rule i)) (upTo (K + 1)) :=
  (Pays.rule hi fun m _ => h m).mono fun _ _ _ _ _ ⟨k', h1, h2⟩ => by
    have : k' ≤ K := h2
    show _ ≤ _
    omega

theorem hush {G : Env} {r : Reader} (h : r.everyB Reader.quiet = true) : Pays l (read rt G n r) (upTo 0) := .quiet (Reader.everyB_sound _ _ h)

theorem seqUp {G : Env} {rs : List Reader} {Ks : List Nat} (h : ∀ n, List.Forall₂ (fun r K => Pays l (read rt G n r) (upTo K)) rs Ks) :
    Pays l (read rt G n (.seq rs)) (upTo Ks.sum) := Pays.fuel fun m _ => (Pays.seqUp (h m)).loose

theorem anyUp {G : Env} {rs : List Reader} {Ks : List Nat} (h : ∀ n, List.Forall₂ (fun r K => Pays l (read rt G n r) (upTo K)) rs Ks) :
    Pays l (read rt G n (.any rs)) (upTo Ks.sum) := Pays.fuel fun m _ => (Pays.anyUp (h m)).loose

theorem optUp {G : Env} {r : Reader} {K : Nat} (h : ∀ n, Pays l (read rt G n r) (upTo K)) : Pays l (read rt G n (.opt r)) (upTo K) :=
  Pays.fuel fun m _ => (Pays.optUp (h m)).loose

theorem timesUp {G : Env} {r : Reader} {k : Int} {K : Nat} (h : ∀ n, Pays l (read rt G n r) (upTo K)) : Pays l (read rt G n (.times k r)) (upTo (k.toNat * K)) :=
  Pays.fuel fun m _ => Pays.timesUp (h m)

theorem bool_up : Pays l (read rt (watched l) n (.rule iBool)) (upTo 1) := ruleUp rfl fun _ => hush (by decide)
theorem null_up : Pays l (read rt (watched l) n (.rule iNull)) (upTo 1) := ruleUp rfl fun _ => hush (by decide)
theorem sign_up : Pays l (read rt (watched l) n (.rule iSign)) (upTo 1) := ruleUp rfl fun _ => hush (by decide)
theorem digits_up : Pays l (read rt (watched l) n (.rule iDigits)) (upTo 1) := ruleUp rfl fun _ => hush (by decide)
theorem oneNine_up : Pays l (read rt (watched l) n (.rule iOneNine)) (upTo 1) := ruleUp rfl fun _ => hush (by decide)
theorem hex_up : Pays l (read rt (watched l) n (.rule iHex)) (upTo 1) := ruleUp rfl fun _ => hush (by decide)
theorem exponent_up : Pays l (read rt (watched l) n (.rule iExponent)) (upTo 3) :=
  ruleUp rfl fun _ => optUp fun _ => seqUp (Ks := [0, 1, 1]) fun _ => .cons (hush (by decide)) (.cons sign_up (.cons digits_up .nil))
theorem fraction_up : Pays l (read rt (watched l) n (.rule iFraction)) (upTo 2) :=
  ruleUp rfl fun _ => optUp fun _ => seqUp (Ks := [0, 1]) fun _ => .cons (hush (by decide)) (.cons digits_up .nil)
theorem integer_up : Pays l (read rt (watched l) n (.rule iInteger)) (upTo 3) :=
  ruleUp rfl fun _ => seqUp (Ks := [0, 2]) fun _ => .cons (hush (by decide)) (.cons (anyUp (Ks := [0, 2]) fun _ => .cons (hush (by decide))
    (.cons (seqUp (Ks := [1, 1]) fun _ => .cons oneNine_up (.cons (optUp fun _ => digits_up) .nil)) .nil)) .nil)
theorem number_up : Pays l (read rt (watched l) n (.rule iNumber)) (upTo 9) :=
  ruleUp rfl fun _ => seqUp (Ks := [3, 2, 3]) fun _ => .cons integer_up (.cons fraction_up (.cons exponent_up .nil))
theorem escape_up : Pays l (read rt (watched l) n (.rule iEscape)) (upTo 5) :=
  ruleUp rfl fun _ => anyUp (Ks := [0, 4]) fun _ => .cons (hush (by decide)) (.cons (seqUp (Ks := [0, 4]) fun _ => .cons (hush (by decide)) (.cons (timesUp fun _ => hex_up) .nil)) .nil)

/-! ### what is read of the text -/

/-- One byte. -/
def chrQ (c : UInt8) : Bill := fun ok t t' k => k = 0 ∧ (ok = true → t = c :: t') ∧ (ok = false → t' = t ∧ t.head? ≠ some c)

theorem chr_pays {c : UInt8} (hc : c.toNat < 128) : Pays l (read rt (watched l) n (.rune c.toNat)) (chrQ c) :=
  (Pays.does watched_noWrap (Reader.everyB_sound _ _ rfl) (does_rune (ascii_rune c hc))).mono fun ok t t' k _ ⟨h1, h2, h3⟩ => by
    refine ⟨h1, fun h => ?_, fun h => ?_⟩
    · have := h2 h
      cases t with
      | nil => cases this
      | cons b t =>
        simp only [oneB] at this
        split at this
        · next e => cases this; rw [eq_of_beq e]
        · cases this
    · obtain ⟨h4, h5⟩ := h3 h
      refine ⟨h5, fun h6 => ?_⟩
      cases t with
      | nil => cases h6
      | cons b t =>
        cases h6
        simp [oneB] at h4

/-- White space. -/
def wsB (b : UInt8) : Bool := b == 32 || b == 13 || b == 10 || b == 9

/-- The text after white space. -/
def trim (t : Bytes) : Bytes := t.dropWhile wsB

def wsQ : Bill := fun ok t t' k => k = 1 ∧ ok = true ∧ t' = trim t

theorem ws_pays : Pays l (read rt (watched l) n (.rule iWS)) wsQ :=
  (Pays.rule (r := .zom mkWS) rfl fun m _ => Pays.does watched_noWrap (Reader.everyB_sound _ _ rfl)
    (does_zom (does_anyRune (p := wsB) (ascii_contains (by decide +kernel) (bytes_all (by decide +kernel)) (bytes_all (by decide +kernel)))))).mono
    fun ok t t' k _ ⟨k', h1, h2, h3, h4⟩ => by
    subst h2
    cases ok with
    | true => exact ⟨h1, rfl, by have := h3 rfl; injection this with this; exact this.symm⟩
    | false => have := (h4 rfl).1; cases this

theorem trim_le (t : Bytes) : (trim t).length ≤ t.length := (List.dropWhile_suffix _).length_le

/-- A rune of a string. At the end of the text the reader is successful without having read anything. -/
def holeQ : Bill := fun ok t t' k => k = 0 ∧ (ok = true → t ≠ [] → t'.length < t.length) ∧ (ok = false → t' = t ∧ t ≠ [])

theorem hole_pays : Pays l (read rt (watched l) n (.holey 32 maxRune b!"\"\\")) holeQ :=
  (Pays.lift watched_noWrap (Reader.everyB_sound _ _ rfl) (fun _ => rfl)).mono fun ok t t' k _ ⟨h1, h2⟩ => by
    refine ⟨h1, fun h ht => ?_, fun h => ?_⟩
    · subst h
      unfold eatOne at h2
      split at h2
      · cases h2
        rw [List.length_drop]
        have := decodeRune_pos ht
        have : 0 < t.length := List.length_pos_iff.mpr ht
        omega
      · cases h2
    · subst h
      unfold eatOne at h2
      split at h2
      · cases h2
      · next hn =>
        cases h2
        refine ⟨rfl, fun ht => hn ?_⟩
        subst ht
        decide

def characterQ : Bill := fun ok t t' k => k ≤ 6 ∧ (ok = true → t ≠ [] → t'.length < t.length) ∧ (ok = false → t' = t ∧ t ≠ [])

theorem character_pays : Pays l (read rt (watched l) n (.rule iCharacter)) characterQ :=
  (Pays.rule rfl fun m _ => Pays.fuel fun m _ => Pays.any (.cons hole_pays (.cons (Pays.fuel fun m _ => Pays.seq
    (.cons (chr_pays (c := 92) (by decide)) (.cons escape_up.short .nil))) .nil))).mono
    fun ok t t' k hsuf ⟨k', h1, u, h2, h3⟩ => by
    rcases h2 with ⟨hok, h4, h5, -⟩ | ⟨v, k1, k2, ⟨h4, -, h5⟩, h6, h7⟩
    · subst hok
      subst h3
      exact ⟨by omega, fun _ => h5 rfl, by simp⟩
    · obtain ⟨rfl, h8⟩ := h5 rfl
      have key : ∀ {b x y k}, seqQ [chrQ 92, fun ok t t' k => upTo 5 ok t t' k ∧ t'.length ≤ t.length] b x y k → k ≤ 5 ∧ (b = true → y.length < x.length) := by
        intro b x y k h
        rcases h with ⟨rfl, h9, -⟩ | ⟨z, k5, k6, ⟨h15, h16, -⟩, h17, h18⟩
        · exact ⟨by omega, by simp⟩
        · rw [h16 rfl]
          rcases h17 with ⟨rfl, h9, -⟩ | ⟨z', k7, k8, ⟨h19, h20⟩, ⟨-, h21, h22⟩, h23⟩
          · have : k6 ≤ 5 := h9
            exact ⟨by omega, by simp⟩
          · have : k7 ≤ 5 := h19
            subst h21
            exact ⟨by omega, fun _ => by rw [List.length_cons]; omega⟩
      rcases h6 with ⟨hok, w, h9, h10⟩ | ⟨w, k3, k4, ⟨x, h9, h10⟩, ⟨h11, h12, h13⟩, h14⟩
      · subst hok
        simp only [if_true] at h3 h10
        subst h3 h10
        obtain ⟨h11, h12⟩ := key h9
        exact ⟨by omega, fun _ _ => h12 rfl, by simp⟩
      · subst h11
        simp only [Bool.false_eq_true, if_false] at h3 h10
        obtain ⟨h11, -⟩ := key h9
        exact ⟨by omega, by simp, fun _ => ⟨h3, h8⟩⟩

/-- The characters of a string. -/
theorem often_characters {t t' : Bytes} {k : Nat} (h : Often (fun ok t t' k => characterQ ok t t' k ∧ t'.length ≤ t.length) t t' k) : t ≠ [] ∧ k + 6 * t'.length ≤ 6 * t.length + 6 ∧ t'.length ≤ t.length := by
  induction h with
  | stop h =>
    obtain ⟨⟨h1, -, h2⟩, -⟩ := h
    obtain ⟨rfl, h3⟩ := h2 rfl
    exact ⟨h3, by omega, Nat.le_refl _⟩
  | @more t u t' k1 k2 h _ ih =>
    obtain ⟨⟨h1, h2, -⟩, h4⟩ := h
    have ht : t ≠ [] := fun e => ih.1 (by subst e; simpa using h4)
    have := h2 rfl ht
    exact ⟨ht, by omega, by omega⟩

/-- A bracket, a text of any length, a bracket: a wrong first byte is noticed at once. -/
def boxQ (c : UInt8) : Bill := fun ok t t' k =>
  (ok = true → t.head? = some c ∧ k + 40 * t'.length ≤ 40 * t.length + 20) ∧
  (ok = false → t' = t ∧ k ≤ 40 * t.length + 10 ∧ (t.head? ≠ some c → k = 1))

theorem string_pays {i : Nat} {nm : Bytes} (hi : env[i]? = some ⟨nm, some stringReader⟩) : Pays l (read rt (watched l) n (.rule i)) (boxQ 34) :=
  (Pays.rule hi fun m _ => Pays.fuel fun m _ => Pays.seq (.cons (chr_pays (c := 34) (by decide)) (.cons (Pays.rule rfl fun m _ => Pays.fuel fun m _ =>
    Pays.zom character_pays.short) (.cons (chr_pays (c := 34) (by decide)) .nil)))).mono fun ok t t' k hsuf ⟨k', h1, u, h2, h3⟩ => by
    rcases h2 with ⟨rfl, h9, -, h10⟩ | ⟨z, k5, k6, ⟨h15, h16, -⟩, h17, h18⟩
    · exact ⟨by simp, fun _ => ⟨h3, by omega, fun _ => by omega⟩⟩
    · obtain rfl := h16 rfl
      rcases h17 with ⟨rfl, _, _, h9, -⟩ | ⟨z', k7, k8, ⟨k9, h19, -, h20⟩, h21, h23⟩
      · cases h9
      · obtain ⟨-, h24, h25⟩ := often_characters h20
        have hk : k8 = 0 ∧ (ok = true → z'.length = u.length + 1) := by
          rcases h21 with ⟨rfl, h9, -⟩ | ⟨z'', k10, k11, ⟨h26, h27, -⟩, ⟨h29, h30, h31⟩, h32⟩
          · exact ⟨h9, by simp⟩
          · subst h30
            rw [h27 rfl]
            exact ⟨by omega, fun _ => rfl⟩
        unfold boxQ
        rw [List.length_cons]
        cases ok with
        | true =>
          have := hk.2 rfl
          simp only [if_true] at h3
          subst h3
          exact ⟨fun _ => ⟨rfl, by omega⟩, by simp⟩
        | false =>
          exact ⟨by simp, fun _ => ⟨h3, by omega, fun h => absurd rfl h⟩⟩

/-! ### what refers to itself -/

/-- The first bytes of objects, arrays and strings. -/
def opens (t : Bytes) : Bool := t.head? == some 123 || t.head? == some 91 || t.head? == some 34

def valueQ : Bill := fun ok t t' k =>
  (ok = true → k + 40 * t'.length ≤ 40 * t.length + 35) ∧
  (ok = false → t' = t ∧ k ≤ 40 * t.length + 25 ∧ (opens t = false → k ≤ 15))

/-- An element or a member. -/
def itemQ : Bill := fun ok t t' k =>
  (ok = true → k + 40 * t'.length ≤ 40 * t.length + 38) ∧
  (ok = false → t' = t ∧ k ≤ 40 * t.length + 27 ∧ (opens (trim t) = false → k ≤ 17))

/-- Elements or members. -/
def itemsQ : Bill := fun ok t t' k =>
  (ok = true → k ≤ 40 * t.length + 39 ∧ (t'.head? ≠ some 44 → k + 40 * t'.length ≤ 40 * t.length + 39)) ∧
  (ok = false → t' = t ∧ k ≤ 40 * t.length + 28 ∧ (opens (trim t) = false → k ≤ 18))

section
variable {i j : Nat} {nm : Bytes}

theorem items_pays (hi : env[i]? = some ⟨nm, some (.seq [.rule j, .zom (.seq [.rune 44, .rule j])])⟩)
    (h : ∀ m < n, Pays l (read rt (watched l) m (.rule j)) itemQ) : Pays l (read rt (watched l) n (.rule i)) itemsQ :=
  (Pays.rule hi fun m hm => Pays.fuel fun m' hm' => Pays.seq (.cons (h _ (by omega)).short (.cons (Pays.fuel fun m2 h2 => Pays.zom
    (Pays.fuel fun m3 h3 => Pays.seq (.cons (chr_pays (c := 44) (by decide)) (.cons (h _ (by omega)) .nil)))).short .nil))).mono fun ok t t' k hsuf ⟨k', h1, u, h2, h3⟩ => by
    have key : ∀ {x y k}, Often (fun ok t t' k => ∃ u, seqQ [chrQ 44, itemQ] ok t u k ∧ t' = if ok then u else t) x y k →
        k ≤ 40 * x.length ∧ (y.head? ≠ some 44 → k + 40 * y.length ≤ 40 * x.length) := by
      intro x y k h
      induction h with
      | stop h =>
        obtain ⟨u, h1, h2⟩ := h
        simp only [Bool.false_eq_true, if_false] at h2
        subst h2
        rcases h1 with ⟨-, h9, -⟩ | ⟨z, k5, k6, ⟨h15, h16, -⟩, h17, h18⟩
        · exact ⟨by omega, by omega⟩
        · obtain rfl := h16 rfl
          rw [List.length_cons]
          rcases h17 with ⟨-, -, h9⟩ | ⟨z', k7, k8, -, ⟨hf, -⟩, -⟩
          · obtain ⟨-, h10, -⟩ := h9 rfl
            exact ⟨by omega, fun h => absurd rfl h⟩
          · cases hf
      | @more t u t' k1 k2 h _ ih =>
        obtain ⟨w, h1, h2⟩ := h
        simp only [if_true] at h2
        subst h2
        rcases h1 with ⟨hf, -⟩ | ⟨z, k5, k6, ⟨h15, h16, -⟩, h17, h18⟩
        · cases hf
        · obtain rfl := h16 rfl
          rw [List.length_cons]
          rcases h17 with ⟨hf, -⟩ | ⟨z', k7, k8, ⟨h19, -⟩, ⟨-, h20, h21⟩, h22⟩
          · cases hf
          · subst h20
            have := h19 rfl
            exact ⟨by omega, fun h => by have := ih.2 h; omega⟩
    rcases h2 with ⟨rfl, ⟨-, h9⟩, -⟩ | ⟨z, k5, k6, ⟨⟨h15, -⟩, h16⟩, h17, h18⟩
    · obtain ⟨h10, h11, h12⟩ := h9 rfl
      exact ⟨by simp, fun _ => ⟨h3, by omega, fun h => by have := h12 h; omega⟩⟩
    · have h15 := h15 rfl
      rcases h17 with ⟨-, ⟨hf, -⟩, -⟩ | ⟨z', k7, k8, ⟨⟨-, h19⟩, h20⟩, ⟨rfl, h21, h22⟩, h23⟩
      · cases hf
      · simp only [if_true] at h3
        subst h3 h21
        obtain ⟨h24, h25⟩ := key h19
        exact ⟨fun _ => ⟨by omega, fun h => by have := h25 h; omega⟩, by simp⟩

theorem box_pays {c d : UInt8} (hc : c.toNat < 128) (hd : d.toNat < 128) (hd' : opens [d] = false) (hd3 : d ≠ 44)
    (hi : env[i]? = some ⟨nm, some (.seq [.rune c.toNat, .any [.rule j, .rule iWS], .rune d.toNat])⟩)
    (h : ∀ m < n, Pays l (read rt (watched l) m (.rule j)) itemsQ) : Pays l (read rt (watched l) n (.rule i)) (boxQ c) :=
  (Pays.rule hi fun m hm => Pays.fuel fun m' hm' => Pays.seq (.cons (chr_pays hc) (.cons (Pays.fuel fun m2 h2 => Pays.any
    (.cons (h _ (by omega)) (.cons ws_pays .nil))).short (.cons (chr_pays hd) .nil)))).mono fun ok t t' k hsuf ⟨k', h1, u, h2, h3⟩ => by
    rcases h2 with ⟨rfl, h9, -, h10⟩ | ⟨z, k5, k6, ⟨h15, h16, -⟩, h17, h18⟩
    · exact ⟨by simp, fun _ => ⟨h3, by omega, fun _ => by omega⟩⟩
    · obtain rfl := h16 rfl
      have key : ∀ {b x k}, (∃ u, anyQ [itemsQ, wsQ] b z u k ∧ x = if b then u else z) → b = true ∧ k ≤ 40 * z.length + 39 ∧ (x.head? = some d → k + 40 * x.length ≤ 40 * z.length + 39) := by
        rintro b x k ⟨u, h2, h3⟩
        rcases h2 with ⟨rfl, h4, -⟩ | ⟨v, k1, k2, ⟨-, h5⟩, h6, h7⟩
        · obtain ⟨h6, h7⟩ := h4 rfl
          simp only [if_true] at h3
          subst h3
          exact ⟨rfl, h6, fun h => h7 (by rw [h]; simpa using hd3)⟩
        · obtain ⟨rfl, h8, h9⟩ := h5 rfl
          rcases h6 with ⟨rfl, h10, -, h12⟩ | ⟨w, k3, k4, ⟨-, hf, -⟩, -⟩
          · simp only [if_true] at h3
            subst h3 h12
            refine ⟨rfl, by omega, fun h => ?_⟩
            have h13 := h9 (by unfold opens at hd' ⊢; rw [h]; simpa using hd')
            have := trim_le v
            omega
          · cases hf
      unfold boxQ
      rw [List.length_cons]
      rcases h17 with ⟨-, h9, -⟩ | ⟨z', k7, k8, ⟨h19, h20⟩, h21, h23⟩
      · cases (key h9).1
      · obtain ⟨-, h24, h25⟩ := key h19
        have hk : k8 = 0 ∧ (ok = true → z' = d :: u) := by
          rcases h21 with ⟨rfl, h9, -⟩ | ⟨z'', k10, k11, ⟨h26, h27, -⟩, ⟨h29, h30, h31⟩, h32⟩
          · exact ⟨h9, by simp⟩
          · subst h30
            rw [h27 rfl]
            exact ⟨by omega, fun _ => rfl⟩
        cases ok with
        | true =>
          have := hk.2 rfl
          simp only [if_true] at h3
          subst h3 this
          have := h25 rfl
          rw [List.length_cons] at this
          exact ⟨fun _ => ⟨rfl, by omega⟩, by simp⟩
        | false =>
          exact ⟨by simp, fun _ => ⟨h3, by omega, fun h => absurd rfl h⟩⟩

theorem element_pays (h : ∀ m < n, Pays l (read rt (watched l) m (.rule iValue)) valueQ) : Pays l (read rt (watched l) n (.rule iElement)) itemQ :=
  (Pays.rule rfl fun m hm => Pays.fuel fun m' hm' => Pays.seq (.cons ws_pays (.cons (h _ (by omega)) (.cons ws_pays .nil)))).mono fun ok t t' k hsuf ⟨k', h1, u, h2, h3⟩ => by
    rcases h2 with ⟨-, -, hf, -⟩ | ⟨z, k5, k6, ⟨h15, -, rfl⟩, h17, h18⟩
    · cases hf
    · have := trim_le t
      rcases h17 with ⟨rfl, -, h9⟩ | ⟨z', k7, k8, ⟨h19, -⟩, h21, h23⟩
      · obtain ⟨-, h10, h11⟩ := h9 rfl
        exact ⟨by simp, fun _ => ⟨h3, by omega, fun h => by have := h11 h; omega⟩⟩
      · have h19 := h19 rfl
        rcases h21 with ⟨-, -, hf, -⟩ | ⟨z'', k10, k11, ⟨h26, -, rfl⟩, ⟨rfl, h30, h31⟩, h32⟩
        · cases hf
        · simp only [if_true] at h3
          subst h3 h30
          have := trim_le z'
          exact ⟨fun _ => by omega, by simp⟩

theorem member_pays (h : ∀ m < n, Pays l (read rt (watched l) m (.rule iElement)) itemQ) : Pays l (read rt (watched l) n (.rule iMember)) itemQ :=
  (Pays.rule rfl fun m hm => Pays.fuel fun m' hm' => Pays.seq (.cons ws_pays (.cons (string_pays rfl) (.cons ws_pays (.cons (chr_pays (c := 58) (by decide))
    (.cons (h _ (by omega)) .nil)))))).mono fun ok t t' k hsuf ⟨k', h1, u, h2, h3⟩ => by
    rcases h2 with ⟨-, -, hf, -⟩ | ⟨z, k5, k6, ⟨h15, -, rfl⟩, h17, h18⟩
    · cases hf
    · have := trim_le t
      rcases h17 with ⟨rfl, -, h9⟩ | ⟨z', k7, k8, ⟨h19, -⟩, h21, h23⟩
      · obtain ⟨-, h10, h11⟩ := h9 rfl
        refine ⟨by simp, fun _ => ⟨h3, by omega, fun h => ?_⟩⟩
        have := h11 (fun e => by unfold opens at h; rw [e] at h; simp at h)
        omega
      · obtain ⟨h19, h20⟩ := h19 rfl
        have ho : opens (trim t) = true := by unfold opens; rw [h19]; rfl
        rcases h21 with ⟨-, -, hf, -⟩ | ⟨z'', k10, k11, ⟨h26, -, rfl⟩, h27, h32⟩
        · cases hf
        · have := trim_le z'
          rcases h27 with ⟨rfl, h28, -⟩ | ⟨y, k12, k13, ⟨h33, h34, -⟩, h35, h36⟩
          · exact ⟨by simp, fun _ => ⟨h3, by omega, fun h => by rw [ho] at h; cases h⟩⟩
          · have h34 := h34 rfl
            have hl := congrArg List.length h34
            rw [List.length_cons] at hl
            rcases h35 with ⟨rfl, -, h37⟩ | ⟨y', k14, k15, ⟨h38, -⟩, ⟨rfl, h39, h40⟩, h41⟩
            · obtain ⟨-, h42, -⟩ := h37 rfl
              exact ⟨by simp, fun _ => ⟨h3, by omega, fun h => by rw [ho] at h; cases h⟩⟩
            · simp only [if_true] at h3
              subst h3 h39
              have := h38 rfl
              exact ⟨fun _ => by omega, by simp⟩

theorem bare : env.Every (fun r => r.bare = true) := Env.everyB_sound (by decide)

theorem unwatched_rule (i : Nat) : Unwatched env (.rule i) := ⟨bare, Reader.everyB_sound _ _ rfl⟩

/-- Numbers and names do not begin like an object, an array or a string. -/
theorem closed_gets (hi : i = iNumber ∨ i = iBool ∨ i = iNull) {t : Bytes} (h : opens t = true) : Gets rt env (.rule i) t none := by
  have go : ∀ c : UInt8, c = 123 ∨ c = 91 ∨ c = 34 → ∀ t : Bytes, Gets rt env (.rule i) (c :: t) none := fun c hc t =>
    Gets.sym_no (p0 := [c]) (fin := false) (nots := []) (n := 20) Lua.begins_nothing (by
      rcases hi with rfl | rfl | rfl <;> rcases hc with rfl | rfl | rfl <;> decide +kernel)
  cases t with
  | nil => cases h
  | cons c t =>
    refine go c ?_ t
    simpa [opens, or_assoc] using h

/-- Numbers and names. -/
def plainQ (K : Nat) : Bill := fun ok t t' k => atMost K ok t t' k ∧ (ok = true → ¬ opens t = true)

theorem ruleMost {K : Nat} {r : Reader} (hi : env[i]? = some ⟨nm, some r⟩) (h : ∀ m, Pays l (read rt (watched l) m r) (atMost K)) :
    Pays l (read rt (watched l) n (.rule i)) (atMost (K + 1)) :=
  (Pays.rule hi fun m _ => h m).mono fun _ _ _ _ _ ⟨k', h1, h2, h3⟩ => ⟨by omega, h3⟩

theorem number_plain : Pays l (read rt (watched l) n (.rule iNumber)) (plainQ 9) :=
  (ruleMost rfl fun _ => Pays.fuel fun m _ => Pays.seqUp (Ks := [3, 2, 3]) (.cons integer_up (.cons fraction_up (.cons exponent_up .nil)))).refuses
    (unwatched_rule _) fun _ => closed_gets (.inl rfl)

theorem bool_plain : Pays l (read rt (watched l) n (.rule iBool)) (plainQ 1) :=
  (ruleMost rfl fun _ => Pays.fuel fun m _ => Pays.anyUp (Ks := [0, 0]) (.cons (hush (by decide)) (.cons (hush (by decide)) .nil))).refuses
    (unwatched_rule _) fun _ => closed_gets (.inr (.inl rfl))

theorem null_plain : Pays l (read rt (watched l) n (.rule iNull)) (fun ok t t' k => upTo 1 ok t t' k ∧ (ok = true → ¬ opens t = true)) :=
  null_up.refuses (unwatched_rule _) fun _ => closed_gets (.inr (.inr rfl))

theorem value_pays (h : ∀ m < n, Pays l (read rt (watched l) m (.rule iObject)) (boxQ 123)) (h' : ∀ m < n, Pays l (read rt (watched l) m (.rule iArray)) (boxQ 91)) :
    Pays l (read rt (watched l) n (.rule iValue)) valueQ :=
  (Pays.rule rfl fun m hm => Pays.fuel fun m' hm' => Pays.any (.cons (h _ (by omega)) (.cons (h' _ (by omega)) (.cons (string_pays rfl)
    (.cons number_plain (.cons bool_plain (.cons null_plain .nil))))))).mono fun ok t t' k hsuf ⟨k', h1, u, h2, h3⟩ => by
    have hl := hsuf.length_le
    rcases h2 with ⟨rfl, h4, -⟩ | ⟨v, k1, k2, ⟨-, h5⟩, h6, h7⟩
    · obtain ⟨-, h4⟩ := h4 rfl
      simp only [if_true] at h3
      subst h3
      exact ⟨fun _ => by omega, by simp⟩
    · obtain ⟨rfl, h8, h9⟩ := h5 rfl
      rcases h6 with ⟨rfl, h10, -⟩ | ⟨v, k3, k4, ⟨-, h11⟩, h12, h13⟩
      · obtain ⟨h10, h14⟩ := h10 rfl
        have := h9 (by rw [h10]; decide)
        simp only [if_true] at h3
        subst h3
        exact ⟨fun _ => by omega, by simp⟩
      · obtain ⟨rfl, h14, h15⟩ := h11 rfl
        rcases h12 with ⟨rfl, h16, -⟩ | ⟨v, k5, k6, ⟨-, h17⟩, h18, h19⟩
        · obtain ⟨h16, h20⟩ := h16 rfl
          have := h9 (by rw [h16]; decide)
          have := h15 (by rw [h16]; decide)
          simp only [if_true] at h3
          subst h3
          exact ⟨fun _ => by omega, by simp⟩
        · obtain ⟨rfl, h20, h21⟩ := h17 rfl
          have h22 : k6 ≤ 11 ∧ (ok = true → opens v = false) := by
            rcases h18 with ⟨rfl, ⟨h24, -⟩, h25⟩ | ⟨w, k7, k8, ⟨⟨h26, h27⟩, -⟩, h28, h29⟩
            · exact ⟨by omega, fun _ => by simpa using h25 rfl⟩
            · obtain rfl := h27 rfl
              rcases h28 with ⟨rfl, ⟨h24, -⟩, h25⟩ | ⟨w, k9, k10, ⟨⟨h30, h31⟩, -⟩, h32, h33⟩
              · exact ⟨by omega, fun _ => by simpa using h25 rfl⟩
              · obtain rfl := h31 rfl
                rcases h32 with ⟨rfl, h34, h35⟩ | ⟨x, k11, k12, ⟨h36, -⟩, ⟨rfl, -, h37⟩, h38⟩
                · have : k10 ≤ 1 := h34
                  exact ⟨by omega, fun _ => by simpa using h35 rfl⟩
                · have : k11 ≤ 1 := h36
                  exact ⟨by omega, by simp⟩
          have h23 : k1 + k3 + k5 ≤ 40 * v.length + 12 ∧ (opens v = false → k1 + k3 + k5 = 3) := by
            unfold opens
            simp only [Bool.or_eq_false_iff, beq_eq_false_iff_ne]
            refine ⟨?_, fun ⟨⟨e1, e2⟩, e3⟩ => by rw [h9 e1, h15 e2, h21 e3]⟩
            by_cases e1 : v.head? = some 123
            · have := h15 (by rw [e1]; decide)
              have := h21 (by rw [e1]; decide)
              omega
            · have := h9 e1
              by_cases e2 : v.head? = some 91
              · have := h21 (by rw [e2]; decide)
                omega
              · have := h15 e2
                omega
          cases ok with
          | true =>
            simp only [if_true] at h3
            subst h3
            refine ⟨fun _ => ?_, by simp⟩
            have := h23.2 (h22.2 rfl)
            omega
          | false => exact ⟨by simp, fun _ => ⟨h3, by omega, fun h => by have := h23.2 h; omega⟩⟩
end

/-- Every rule that refers to itself, for every number of steps. -/
theorem all_pays : ∀ n, Pays l (read rt (watched l) n (.rule iValue)) valueQ ∧ Pays l (read rt (watched l) n (.rule iElement)) itemQ ∧
    Pays l (read rt (watched l) n (.rule iMember)) itemQ ∧ Pays l (read rt (watched l) n (.rule iElements)) itemsQ ∧
    Pays l (read rt (watched l) n (.rule iMembers)) itemsQ ∧ Pays l (read rt (watched l) n (.rule iArray)) (boxQ 91) ∧
    Pays l (read rt (watched l) n (.rule iObject)) (boxQ 123) := by
  intro n
  induction n using Nat.strong_induction_on with
  | _ n ih =>
    exact ⟨value_pays (fun m hm => (ih m hm).2.2.2.2.2.2) (fun m hm => (ih m hm).2.2.2.2.2.1), element_pays fun m hm => (ih m hm).1,
      member_pays fun m hm => (ih m hm).2.1, items_pays rfl fun m hm => (ih m hm).2.1, items_pays rfl fun m hm => (ih m hm).2.2.1,
      box_pays (c := 91) (d := 93) (by decide) (by decide) (by decide) (by decide) rfl fun m hm => (ih m hm).2.2.2.1,
      box_pays (c := 123) (d := 125) (by decide) (by decide) (by decide) (by decide) rfl fun m hm => (ih m hm).2.2.2.2.1⟩

end Json

/-- C78 (the JSON grammar). With all rules monitored, every read of a text that comes to an end adds no more than 40 entries for every byte of
the text that is ahead, and 38: the number of rules read is proportional to the length of the text. -/
theorem C78_json (rt : Rt) (l n : Nat) (s s' : Scanner) (h t : Bytes) (hb : Between s h t) (e : Option Err)
    (he : read rt (Json.env.monitorAll l) n Json.reader s = .ret (e, s')) :
    s.logged l ≤ s'.logged l ∧ s'.logged l ≤ s.logged l + 40 * t.length + 38 := by
  match n, he with
  | n + 1, he =>
    simp only [Json.reader, read] at he
    obtain ⟨⟨e1, s1⟩, h1, h2⟩ := Exec.bind_eq_ret.mp he
    have h3 : s' = s1 := by
      cases e1 <;> cases h2 <;> rfl
    obtain ⟨x, t', k, h4, -, h5, h6, h7⟩ := (Json.all_pays (rt := rt) (l := l) n).2.1 s h t hb e1 s1 h1
    subst h3
    cases e1 with
    | none => have := h6 rfl; omega
    | some e1 => have := (h7 rfl).2.1; omega

/-- The bound is of use: `[1]` is read to its end. -/
example : ∃ n s', read ⟨asciiLower, fun _ => true, fun n => 2 * n + 1⟩ (Json.env.monitorAll 0) n Json.reader (Scanner.new b!"[1]" .empty) = .ret (none, s') ∧
    s'.logged 0 = 20 ∧ s'.pos = 3 := by
  refine ⟨60, _, rfl, ?_, ?_⟩ <;> decide +kernel

theorem big_pow (c : Nat) : c * (3 * (c + 10) + 8 + 1) < 2 ^ (3 * (c + 10) + 1) := by
  have h5 : c + 10 < 2 ^ (c + 10) := Nat.lt_two_pow_self
  have h6 : ∀ a : Nat, 2 ^ (3 * a + 1) = 2 ^ a * (2 ^ a * (2 ^ a * 2)) := fun a => by
    rw [show 3 * a + 1 = a + (a + (a + 1)) by omega, Nat.pow_add, Nat.pow_add, Nat.pow_add]
  rw [h6]
  refine Nat.lt_of_le_of_lt (Nat.mul_le_mul (show c ≤ 2 ^ (c + 10) by omega) (show 3 * (c + 10) + 9 ≤ 4 * (c + 10) by omega)) ?_
  refine Nat.mul_lt_mul_of_pos_left ?_ (by omega)
  generalize 2 ^ (c + 10) = x at h5
  calc 4 * (c + 10) < x * (c + 10) := Nat.mul_lt_mul_of_pos_right (by omega) (by omega)
    _ ≤ x * (x * 2) := Nat.mul_le_mul_left _ (by omega)

/-- C78 is false of the code: with the Lua grammar no number of entries for every byte is enough. -/
theorem C78_violated (rt : Rt) (l c : Nat) : ∃ text : Bytes, LuaChunk text ∧
    (∃ k s', read rt (Lua.env.monitorAll l) k Lua.reader (Scanner.new text Heap.empty) = .ret (none, s')) ∧
    ∀ k e s', read rt (Lua.env.monitorAll l) k Lua.reader (Scanner.new text Heap.empty) = .ret (e, s') → c * (text.length + 1) < s'.logged l := by
  obtain ⟨h1, h2, ⟨k, s', h3, -⟩, h4⟩ := C78_lua_violated rt l (3 * (c + 10))
  refine ⟨_, h1, ⟨k, s', h3⟩, fun k e s' he => Nat.lt_of_lt_of_le ?_ (h4 k e s' he)⟩
  rw [h2]
  exact big_pow c

end Tok
