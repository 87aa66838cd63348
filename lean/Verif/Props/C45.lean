/-
C45 CheckRuleName accepts exactly rule names.
-/
import Verif.Props.C36
import Verif.Proofs.PegCalc
import Verif.Proofs.Place

namespace Tok
open Spec PExp

/-- An ASCII letter. -/
def Spec.IsLetter (b : UInt8) : Prop := (97 ≤ b.toNat ∧ b.toNat ≤ 122) ∨ (65 ≤ b.toNat ∧ b.toNat ≤ 90)
instance (b : UInt8) : Decidable (Spec.IsLetter b) := inferInstanceAs (Decidable (_ ∨ _))

/-- A letter, a digit, or one of `+ - . _`. -/
def Spec.IsNameByte (b : UInt8) : Prop := IsLetter b ∨ (48 ≤ b.toNat ∧ b.toNat ≤ 57) ∨ b = 43 ∨ b = 45 ∨ b = 46 ∨ b = 95
instance (b : UInt8) : Decidable (Spec.IsNameByte b) := inferInstanceAs (Decidable (_ ∨ _))

/-- A rule name: a letter, then letters, digits or any of `+ - . _`. -/
def Spec.IsRuleName (name : Bytes) : Prop := ∃ b t, name = b :: t ∧ IsLetter b ∧ ∀ c ∈ t, IsNameByte c

/-- A piece with an ASCII rune is one byte. -/
theorem piece_ascii {t : Bytes} {p : Bytes} {r : Int} {xs : List Piece} (hp : Pieces t ((p, r) :: xs)) (hr : 0 ≤ r ∧ r < 128) :
    ∃ b u, t = b :: u ∧ p = [b] ∧ r = (b.toNat : Int) ∧ Pieces u xs := by
  cases hp with
  | @cons _ _ u _ _ hs he ht =>
    cases t with
    | nil =>
      have := hs.ne_nil
      simp at he
      exact absurd he.1 this
    | cons b t =>
      by_cases hb : b.toNat < 128
      · obtain ⟨h1, h2⟩ := hs.unique (step_ascii t hb)
        subst h2
        simp only [List.cons_append, List.nil_append, List.cons.injEq, true_and] at he
        subst he
        exact ⟨b, t, rfl, rfl, h1, ht⟩
      · exfalso
        obtain ⟨_, h1, _⟩ := step_iff.mp hs
        rcases decodeRune_cases (b :: t) with ⟨h2, _⟩ | ⟨_, h2, _⟩ | ⟨c, t', h2, h3⟩
        · cases h2
        · rw [h2] at h1
          simp only [Prod.mk.injEq, runeError] at h1
          omega
        · rw [h3] at h1
          simp only [Prod.mk.injEq] at h1
          have hc : c.toNat < 128 := by omega
          have hc' : c.val.toNat < 128 := hc
          have : enc c = [UInt8.ofNat c.val.toNat] := by
            unfold enc String.utf8EncodeChar
            simp only
            rw [if_pos (by omega)]
          rw [this] at h2
          simp only [List.cons_append, List.nil_append, List.cons.injEq] at h2
          apply hb
          rw [h2.1, u8 (by omega)]
          exact hc'

/-- The first piece of a text that starts with an ASCII byte. -/
theorem pieces_ascii {b : UInt8} {t : Bytes} {xs : List Piece} (hp : Pieces (b :: t) xs) (hb : b.toNat < 128) :
    ∃ ys, xs = ([b], (b.toNat : Int)) :: ys ∧ Pieces t ys := by
  cases hp with
  | @cons _ p u r ps hs he ht =>
    obtain ⟨h1, h2⟩ := hs.unique (step_ascii t hb)
    subst h1; subst h2
    simp only [List.cons_append, List.nil_append, List.cons.injEq, true_and] at he
    subst he
    exact ⟨ps, rfl, ht⟩

theorem ruleName_terminates (rt : Rt) (name : Bytes) :
    ∃ n, read rt [] n mkRuleName (.new name Heap.empty) ≠ .timeout ∧
      ∀ m, n ≤ m → read rt [] m mkRuleName (.new name Heap.empty) = read rt [] n mkRuleName (.new name Heap.empty) :=
  C36_terminates_partial rt [] (nulOf []) false (rankOf []) (wfB_sound (by decide)) mkRuleName
    ((Reader.everyB_sound (Reader.progressB (nulOf []) false) mkRuleName (by decide)).imp fun _ => progress_of_B)
    ((Reader.everyB_sound (Reader.wholeB false) mkRuleName (by decide)).imp fun _ => whole_of_B) _ [] name ⟨rfl, rfl⟩ (by simp)

theorem ruleName_peg : mkRuleName.peg = .seq (.alt (one (fun r => ∃ ab ∈ [((97 : Int), (122 : Int)), (65, 90)], ab.1 ≤ r ∧ r ≤ ab.2)) (cls (RuneIn [])))
    (.seq (.star (choice [.alt (one (fun r => ∃ ab ∈ [((97 : Int), (122 : Int)), (65, 90), (48, 57)], ab.1 ≤ r ∧ r ≤ ab.2)) (cls (RuneIn [])),
      cls (RuneIn b!"+-._")])) .eps) := by
  have h1 : mkRuleName = .ruleName (.seq [.betweenAny [(97, 122), (65, 90)] [],
      .zom (.any [.betweenAny [(97, 122), (65, 90), (48, 57)] [], .anyRune b!"+-._"])]) := rfl
  rw [h1]
  simp [Reader.peg, Reader.pegs, chain]

theorem runeIn_nil {r : Int} : ¬ RuneIn [] r := by
  rw [runeIn_iff]; simp [runesOf, rangeStr, rangeGo]

/-- The first byte decides. -/
theorem ruleName_result (rt : Rt) (name : Bytes) (n : Nat) (e : Option Err) (s' : Scanner)
    (h : read rt [] n mkRuleName (.new name Heap.empty) = .ret (e, s')) : e = none ↔ ∃ b t, name = b :: t ∧ IsLetter b := by
  classical
  obtain ⟨xs, hp⟩ := Pieces.exists name
  have hG : Env.Every (Reader.pegOk false) [] := fun _ h => by cases h
  have hK : Env.keeps [] := fun _ h => by cases h
  have hr : mkRuleName.Every (Reader.pegOk false) := (Reader.everyB_sound (Reader.pegOkB false) mkRuleName (by decide)).imp fun _ => pegOk_of_B
  have hcls : cls (RuneIn []) = one (RuneIn []) := cls_one runeIn_nil
  constructor
  · rintro rfl
    obtain ⟨x, u, hx, hb⟩ : ∃ x u, name = x ++ u ∧ Between s' x u := by
      have hi := (read_safe rt [] (p := False) (fun _ h => by cases h) n mkRuleName
        ((Reader.everyB_sound (Reader.safeB []) mkRuleName (by decide)).imp fun _ => safeHere_of_safeB) (.new name Heap.empty) ⟨by simp [Scanner.new], by simp [Scanner.new]⟩).2 _ h
      obtain ⟨x, u, h1, h2⟩ := Forward.over (h := []) (t := name) hi ⟨rfl, rfl⟩
      exact ⟨x, u, h1, h2⟩
    obtain ⟨ys, hy⟩ := Pieces.exists u
    have := (C34_success_partial (srch := false) rt [] hG hK mkRuleName hr (.new name Heap.empty) [] name ⟨rfl, rfl⟩ xs hp (by simp) ys).mpr
      ⟨n, s', x, u, h, hx, hb, hy⟩
    rw [ruleName_peg, hcls] at this
    obtain ⟨zs, h1, _⟩ := Peg.seq_some this
    rcases Peg.alt_some h1 with h1 | ⟨_, h1⟩
    · obtain ⟨⟨p, r⟩, rfl, h2⟩ := Peg.chr_some h1
      simp only [decide_eq_true_eq, List.mem_cons, List.not_mem_nil, or_false, exists_eq_or_imp, exists_eq_left] at h2
      obtain ⟨b, t, h3, h4, h5, _⟩ := piece_ascii hp (by omega)
      refine ⟨b, t, h3, ?_⟩
      unfold IsLetter
      omega
    · obtain ⟨⟨p, r⟩, rfl, h2⟩ := Peg.chr_some h1
      simp only [decide_eq_true_eq] at h2
      exact absurd h2 runeIn_nil
  · rintro ⟨b, t, rfl, hb⟩
    cases e with
    | none => rfl
    | some e =>
      exfalso
      have := (C34_failure_partial (srch := false) rt [] hG hK mkRuleName hr (.new (b :: t) Heap.empty) [] (b :: t) ⟨rfl, rfl⟩ xs hp (by simp)).mpr
        ⟨n, e, s', h⟩
      rw [ruleName_peg, hcls] at this
      unfold IsLetter at hb
      obtain ⟨ys, rfl, _⟩ := pieces_ascii hp (by omega)
      rcases Peg.seq_none this with h1 | ⟨zs, _, h1⟩
      · have := Peg.chr_none (Peg.alt_none h1).1 _ _ rfl
        simp only [decide_eq_false_iff_not, List.mem_cons, List.not_mem_nil, or_false, exists_eq_or_imp, exists_eq_left] at this
        omega
      · rcases Peg.seq_none h1 with h1 | ⟨_, _, h1⟩
        · exact Peg.star_ne h1
        · cases h1

/-- `CheckRuleName` ends on every string, with the same result for every larger budget. -/
theorem C45_terminates (rt : Rt) (name : Bytes) : ∃ n e, ∀ m, n ≤ m → checkRuleName rt m name = .ret e := by
  obtain ⟨n, h1, h2⟩ := ruleName_terminates rt name
  have h3 : read rt [] n mkRuleName (.new name Heap.empty) ≠ .panic :=
    C32_no_panic_partial rt [] mkRuleName (fun _ h => by cases h)
      ((Reader.everyB_sound (Reader.safeB []) mkRuleName (by decide)).imp fun _ => safeHere_of_safeB) n _ ⟨by simp [Scanner.new], by simp [Scanner.new]⟩
  rcases h4 : read rt [] n mkRuleName (.new name Heap.empty) with ⟨e, s'⟩ | _ | _
  · refine ⟨n, e, fun m hm => ?_⟩
    have := (h2 m hm).trans h4
    unfold checkRuleName Scanner.use
    rw [this]
    cases e <;> rfl
  · exact absurd h4 h3
  · exact absurd h4 h1

/-- What `CheckRuleName` really tells: whether the first byte is a letter. -/
theorem C45_first_byte (rt : Rt) (name : Bytes) (n : Nat) (e : Option Err) (h : checkRuleName rt n name = .ret e) :
    e = none ↔ ∃ b t, name = b :: t ∧ IsLetter b := by
  unfold checkRuleName Scanner.use at h
  obtain ⟨⟨e1, s1⟩, h1, h2⟩ := Exec.bind_eq_ret.mp h
  obtain ⟨⟨e0, s0⟩, h0, h1⟩ := Exec.bind_eq_ret.mp h1
  have h3 : e0 = e := by
    cases e0 with
    | none => cases h1; cases h2; rfl
    | some e0 => cases h1; cases h2; rfl
  subst h3
  exact ruleName_result rt name n _ _ h0

/-- Rule names are accepted; what is accepted starts with a rule name.  The full claim is that
only rule names are accepted; it is false, see `C45_violated`. -/
theorem C45_rule_names_partial (rt : Rt) (name : Bytes) (n : Nat) (e : Option Err) (h : checkRuleName rt n name = .ret e) :
    (IsRuleName name → e = none) ∧ (e = none → ∃ x, x <+: name ∧ IsRuleName x) := by
  have key := C45_first_byte rt name n e h
  refine ⟨fun ⟨b, t, h1, h2, _⟩ => key.mpr ⟨b, t, h1, h2⟩, fun he => ?_⟩
  obtain ⟨b, t, rfl, h2⟩ := key.mp he
  exact ⟨[b], ⟨t, rfl⟩, b, [], rfl, h2, by simp⟩

/-- A name with a blank, a name with a line feed and a name with a malformed byte are accepted. -/
theorem C45_violated (rt : Rt) : ∀ name ∈ [b!"a b", b!"rule:\n", [97, 0xFF]], ¬ IsRuleName name ∧ ∃ n, checkRuleName rt n name = .ret none := by
  have bad : ∀ b t c, c ∈ t → ¬ IsNameByte c → ¬ IsRuleName (b :: t) := by
    rintro b t c hc hn ⟨b', t', h, _, h3⟩
    cases h
    exact hn (h3 c hc)
  intro name hname
  obtain ⟨n, e, h⟩ := C45_terminates rt name
  have h := h n (Nat.le_refl _)
  simp only [List.mem_cons, List.not_mem_nil, or_false] at hname
  have hk := C45_first_byte rt name n e h
  rcases hname with rfl | rfl | rfl
  · exact ⟨bad 97 [32, 98] 32 (by decide) (by decide), n, by rw [h, hk.mpr ⟨97, _, rfl, by decide⟩]⟩
  · exact ⟨bad 114 b!"ule:\n" 10 (by decide) (by decide), n, by rw [h, hk.mpr ⟨114, _, rfl, by decide⟩]⟩
  · exact ⟨bad 97 [0xFF] 0xFF (by decide) (by decide), n, by rw [h, hk.mpr ⟨97, _, rfl, by decide⟩]⟩

/-- Names of both kinds. -/
example : IsRuleName b!"next-marker" := ⟨110, b!"ext-marker", rfl, by decide, by decide⟩
example : checkRuleName exRt 30 b!"next-marker" = .ret none := rfl
example : ∃ e, checkRuleName exRt 30 b!"1a" = .ret (some e) := ⟨_, rfl⟩
example : ∃ e, checkRuleName exRt 30 b!"" = .ret (some e) := ⟨_, rfl⟩

end Tok
