/-
The first token of a text and the readers that fail at it.
-/
import Verif.Proofs.LuaTok

namespace Tok
open Spec

namespace Lua

variable {rt : Rt} {r : Reader} {ks more : List Bytes}

/-- What may be directly behind a token. -/
def After (k u : Bytes) : Prop := ∀ b y, u = b :: y → ¬ Joins k b

theorem white_apart {b : UInt8} (hb : b = 32 ∨ b = 9 ∨ b = 10 ∨ b = 13) (k : Bytes) : ¬ Joins k b := by
  have key : ∀ y ∈ b!"--" :: b!"[[" :: b!"[=" :: luaSymbols, ∀ c ∈ y, ¬ (c = 32 ∨ c = 9 ∨ c = 10 ∨ c = 13) := by decide +kernel
  rintro (⟨_, h⟩ | ⟨_, h⟩ | ⟨y, hy, hp⟩ | ⟨_, h⟩)
  · rcases hb with rfl | rfl | rfl | rfl <;> revert h <;> unfold NameStart DecDigit <;> decide
  · rcases hb with rfl | rfl | rfl | rfl <;> cases h
  · exact key y hy b (hp.subset (by simp)) hb
  · rcases hb with rfl | rfl | rfl | rfl <;> simp at h

theorem Laid.open {k : Bytes} {X : Bytes} (h : Laid (k :: ks) X) : ∃ u, X = k ++ u ∧ LuaToken k ∧ After k u ∧ Wide ks u := by
  cases h with
  | @cons _ w x _ h1 h2 h3 h4 =>
    refine ⟨w ++ x, rfl, h1, h3, w, x, rfl, ?_, h4⟩
    rcases h2 with h2 | h2
    · exact white_gap h2
    · exact h2.2

theorem Laid.uncons {k : Bytes} {X : Bytes} (hk : luaOpener k = false) (h : Laid (k :: ks) X) : ∃ u, X = k ++ u ∧ LuaToken k ∧ After k u ∧ Spaced ks u := by
  cases h with
  | @cons _ w x _ h1 h2 h3 h4 =>
    refine ⟨w ++ x, rfl, h1, h3, w, x, rfl, ?_, h4⟩
    rcases h2 with h2 | h2
    · exact h2
    · rw [hk] at h2; cases h2.1

theorem laid_nil {X : Bytes} (h : Laid [] X) : X = [] := by cases h; rfl

/-! ### classes of first tokens -/

/-- A set of lists of tokens, told by the first one. -/
inductive Cls where
  | eof | word (k : Bytes) | ident | name | num | str | long | sym (k : Bytes) | begun (p : Bytes)
  deriving DecidableEq

/-- The list is in the set. -/
def Cls.In : Cls → List Bytes → Prop
  | .eof, ks => ks = []
  | .word k, ks => k ∈ luaKeywords ∧ ∃ m, ks = k :: m
  | .ident, ks => ∃ b y m, ks = (b :: y) :: m ∧ NameStart b
  | .name, ks => ∃ k m, ks = k :: m ∧ PlainName k
  | .num, ks => ∃ k m, ks = k :: m ∧ FullNumeral k
  | .str, ks => ∃ k m, ks = k :: m ∧ PlainString k
  | .long, ks => ∃ k m, ks = k :: m ∧ LuaLong k
  | .sym k, ks => k ∈ luaSymbols ∧ ∃ m, ks = k :: m
  | .begun p, ks => ∃ x m, ks = (p ++ x) :: m

/-- The literals that are longer than the operator. -/
def longer (k : Bytes) : List Bytes := (b!"--" :: b!"[[" :: b!"[=" :: luaSymbols).filter fun y => k.isPrefixOf y && decide (k.length < y.length)

/-- The reserved words that are not at the beginning of the word. -/
def otherWords (k : Bytes) : List Bytes := luaKeywords.filter fun y => !y.isPrefixOf k

def fails (fin : Bool) (nots : List Bytes) (r : Reader) (p : Bytes) : Bool := sym env fin nots p.length 60 r p == some none

/-- The first token tells that the reader fails. -/
def Cls.no (r : Reader) : Cls → Bool
  | .eof => fails true [] r []
  | .word k => fails false (otherWords k) r k
  | .ident => (List.range 256).all fun n => !startB (UInt8.ofNat n) || fails false [] r [UInt8.ofNat n]
  | .name => (List.range 256).all fun n => !startB (UInt8.ofNat n) || fails false luaKeywords r [UInt8.ofNat n]
  | .num => (List.range 256).all fun n => !digitB (UInt8.ofNat n) || fails false [] r [UInt8.ofNat n]
  | .str => fails false [] r [34] && fails false [] r [39]
  | .long => fails false [] r [91, 91] && fails false [] r [91, 61]
  | .sym k => fails false (longer k) r k
  | .begun p => fails false [] r p

/-- The reader fails at white space. -/
def noWhite (r : Reader) : Bool := [32, 9, 10, 13].all fun b => fails false [] r [b]

theorem fails_gets {fin : Bool} {nots : List Bytes} {p t : Bytes} (h : fails fin nots r p = true) (hb : Begins fin nots p t) : Gets rt env r (p ++ t) none :=
  .sym_no hb (by simpa [fails] using h)

theorem begins_nothing {p t : Bytes} : Begins false [] p t := ⟨by simp, by simp⟩

theorem ident_last {x : Bytes} (h : LuaIdent x) : ∃ a ∈ x.getLast?, NameStart a ∨ DecDigit a := by
  obtain ⟨b, y, rfl, hb, hy⟩ := h
  rcases List.eq_nil_or_concat y with rfl | ⟨z, c, rfl⟩
  · exact ⟨b, by simp, .inl hb⟩
  · refine ⟨c, ?_, hy c (by simp)⟩
    rw [List.concat_eq_append, ← List.cons_append, List.getLast?_append]
    simp

theorem kw_ident {k : Bytes} (hk : k ∈ luaKeywords) : LuaIdent k := by
  have : ∀ x ∈ luaKeywords, ∃ b ∈ x.head?, startB b = true ∧ x.tail.all startB = true := by decide +kernel
  obtain ⟨b, hb, h1, h2⟩ := this k hk
  cases k with
  | nil => cases hb
  | cons c y =>
    cases hb
    exact ⟨_, _, rfl, (startB_iff _).mp h1, fun d hd => .inl ((startB_iff d).mp (List.all_eq_true.mp h2 d hd))⟩

/-- A reserved word at the beginning of the text is at the beginning of the word there. -/
theorem kw_prefix {x u k : Bytes} (hx : LuaIdent x) (hu : After x u) (hk : k ∈ luaKeywords) (h : k <+: x ++ u) : k <+: x := by
  rcases List.prefix_or_prefix_of_prefix h (List.prefix_append x u) with h' | ⟨z, hz⟩
  · exact h'
  · cases z with
    | nil => rw [List.append_nil] at hz; exact hz ▸ List.prefix_refl _
    | cons c z =>
      exfalso
      obtain ⟨v, hv⟩ := h
      rw [← hz, List.append_assoc] at hv
      have := List.append_cancel_left hv
      have hj := hu c (z ++ v) this.symm
      refine hj (.inl ⟨ident_last hx, ?_⟩)
      obtain ⟨b, y, e, hb, hy⟩ := kw_ident hk
      have hm : c ∈ k := by rw [← hz]; simp
      rw [e] at hm
      rcases List.mem_cons.mp hm with rfl | hm
      · exact .inl hb
      · exact hy c hm

theorem num_start {x : Bytes} (h : FullNumeral x) : ∃ b y, x = b :: y ∧ digitB b = true := by
  rcases h with ⟨m, e, rfl, hm, _⟩ | ⟨c, m, e, rfl, _⟩
  · rcases hm with ⟨hne, hd⟩ | ⟨a, b, rfl, ⟨hne, hd⟩, _⟩
    · cases m with
      | nil => exact absurd rfl hne
      | cons b m => exact ⟨b, m ++ e, rfl, (digitB_iff b).mpr (hd b (by simp))⟩
    · cases a with
      | nil => exact absurd rfl hne
      | cons c a => exact ⟨c, _, rfl, (digitB_iff c).mpr (hd c (by simp))⟩
  · exact ⟨48, _, rfl, by decide⟩

theorem enc_eq : enc '=' = [61] := rfl
theorem enc_open : enc '[' = [91] := rfl

theorem noHalf_first {k : Nat} {cs : List Char} (h : NoHalf k cs) : FirstClose k cs := fun pre post e => by
  have := h pre (']' :: post) (by simpa [luaClose] using e)
  subst this
  rw [List.append_assoc] at e
  simpa using List.append_cancel_left e

theorem long_lua {x : Bytes} (h : PlainLong x) : LuaLong x := by
  obtain ⟨k, cs, rfl, ⟨rfl, h⟩ | h⟩ := h
  · exact ⟨_, _, rfl, h⟩
  · exact ⟨_, _, rfl, noHalf_first h⟩

theorem long_start {x : Bytes} (h : LuaLong x) : ∃ y, x = 91 :: 91 :: y ∨ x = 91 :: 61 :: y := by
  obtain ⟨k, cs, rfl, _⟩ := h
  cases k with
  | zero => exact ⟨encText (cs ++ luaClose 0), .inl (by simp [luaOpen, encText_cons, enc_open])⟩
  | succ k => exact ⟨encText (List.replicate k '=' ++ '[' :: (cs ++ luaClose (k + 1))), .inr (by simp [luaOpen, encText_cons, enc_open, enc_eq, List.replicate_succ])⟩

theorem bytes_hold {p : UInt8 → Bool} (h : ((List.range 256).all fun n => p (UInt8.ofNat n)) = true) (b : UInt8) : p b = true := by
  have := List.all_eq_true.mp h b.toNat (List.mem_range.mpr b.toNat_lt)
  simpa using this

/-- The check is right. -/
theorem Cls.no_fail {c : Cls} (h : c.no r = true) (hk : c.In ks) : Fail rt Laid r ks := by
  intro X hX
  cases c with
  | eof =>
    subst hk
    cases hX
    exact fails_gets (p := []) (t := []) h ⟨fun _ => rfl, by simp⟩
  | word k =>
    obtain ⟨hw, m, rfl⟩ := hk
    obtain ⟨u, rfl, _, h2, _⟩ := Laid.open hX
    refine fails_gets h ⟨by simp, fun y hy hp => ?_⟩
    rw [otherWords, List.mem_filter] at hy
    have := kw_prefix (kw_ident hw) h2 hy.1 hp
    rw [List.isPrefixOf_iff_prefix.mpr this] at hy
    cases hy.2
  | ident =>
    obtain ⟨b, y, m, rfl, hb⟩ := hk
    obtain ⟨u, rfl, _, h2, _⟩ := Laid.open hX
    have := bytes_hold (p := fun b => !startB b || fails false [] r [b]) h b
    rw [(startB_iff b).mpr hb] at this
    exact fails_gets (p := [b]) (t := y ++ u) (by simpa using this) begins_nothing
  | name =>
    obtain ⟨k, m, rfl, hn⟩ := hk
    obtain ⟨u, rfl, _, h2, _⟩ := Laid.open hX
    obtain ⟨b, y, rfl, hb, hy⟩ := hn.1
    have := bytes_hold (p := fun b => !startB b || fails false luaKeywords r [b]) h b
    rw [(startB_iff b).mpr hb] at this
    exact fails_gets (p := [b]) (t := y ++ u) (by simpa using this) ⟨by simp, fun k hk hp => hn.2 k hk (kw_prefix hn.1 h2 hk hp)⟩
  | num =>
    obtain ⟨k, m, rfl, hn⟩ := hk
    obtain ⟨u, rfl, _, h2, _⟩ := Laid.open hX
    obtain ⟨b, y, rfl, hb⟩ := num_start hn
    have := bytes_hold (p := fun b => !digitB b || fails false [] r [b]) h b
    rw [hb] at this
    exact fails_gets (p := [b]) (t := y ++ u) (by simpa using this) begins_nothing
  | str =>
    obtain ⟨k, m, rfl, ⟨q, y, hq, rfl, _⟩, _⟩ := hk
    obtain ⟨u, rfl, _, h2, _⟩ := Laid.open hX
    simp only [Cls.no, Bool.and_eq_true] at h
    rcases hq with rfl | rfl
    · exact fails_gets (p := [34]) (t := (y ++ [34]) ++ u) h.1 begins_nothing
    · exact fails_gets (p := [39]) (t := (y ++ [39]) ++ u) h.2 begins_nothing
  | long =>
    obtain ⟨k, m, rfl, hl⟩ := hk
    obtain ⟨u, rfl, _, h2, _⟩ := Laid.open hX
    obtain ⟨y, hy | hy⟩ := long_start hl
    · subst hy; simp only [Cls.no, Bool.and_eq_true] at h; exact fails_gets (p := [91, 91]) (t := y ++ u) h.1 begins_nothing
    · subst hy; simp only [Cls.no, Bool.and_eq_true] at h; exact fails_gets (p := [91, 61]) (t := y ++ u) h.2 begins_nothing
  | sym k =>
    obtain ⟨hw, m, rfl⟩ := hk
    obtain ⟨u, rfl, _, h2, _⟩ := Laid.open hX
    refine fails_gets h ⟨by simp, fun y hy hp => ?_⟩
    simp only [longer, List.mem_filter, Bool.and_eq_true, decide_eq_true_eq, List.isPrefixOf_iff_prefix] at hy
    obtain ⟨hm, ⟨z, rfl⟩, hl⟩ := hy
    rw [List.prefix_append_right_inj] at hp
    cases z with
    | nil => simp at hl
    | cons b z =>
      obtain ⟨v, hv⟩ := hp
      refine h2 b (z ++ v) hv.symm (.inr (.inr (.inl ⟨_, hm, ?_⟩)))
      exact ⟨z, by simp⟩
  | begun p =>
    obtain ⟨x, m, rfl⟩ := hk
    obtain ⟨u, rfl, _, h2, _⟩ := Laid.open hX
    rw [List.append_assoc]
    exact fails_gets h begins_nothing

/-- Failure at white space and at the token gives failure in front of white space. -/
theorem Fail.spaced (hw : noWhite r = true) (h : Fail rt Laid r ks) : Fail rt Spaced r ks := by
  rintro X ⟨w, z, rfl, h1, h2⟩
  cases w with
  | nil => exact h z h2
  | cons b w =>
    simp only [noWhite, List.all_cons, List.all_nil, Bool.and_true, Bool.and_eq_true] at hw
    rcases h1 b (by simp) with rfl | rfl | rfl | rfl
    · exact fails_gets (p := [32]) (t := w ++ z) hw.1 begins_nothing
    · exact fails_gets (p := [9]) (t := w ++ z) hw.2.1 begins_nothing
    · exact fails_gets (p := [10]) (t := w ++ z) hw.2.2.1 begins_nothing
    · exact fails_gets (p := [13]) (t := w ++ z) hw.2.2.2 begins_nothing

/-- One of the sets. -/
def Heads (S : List Cls) (ks : List Bytes) : Prop := ∃ c ∈ S, c.In ks

theorem Heads.fail {S : List Cls} (h : Heads S ks) (hS : S.all (fun c => c.no r) = true) : Fail rt Laid r ks :=
  let ⟨_, hc, hk⟩ := h
  Cls.no_fail (List.all_eq_true.mp hS _ hc) hk

theorem Heads.fails {S : List Cls} (h : Heads S ks) (hS : (noWhite r && S.all (fun c => c.no r)) = true) : Fail rt Spaced r ks := by
  rw [Bool.and_eq_true] at hS
  exact .spaced hS.1 (h.fail hS.2)

theorem Heads.sub {S T : List Cls} (h : Heads S ks) (hs : S.all (fun c => T.contains c) = true) : Heads T ks :=
  let ⟨c, hc, hk⟩ := h
  ⟨c, by simpa using List.all_eq_true.mp hs c hc, hk⟩

theorem Heads.word {S : List Cls} {k : Bytes} (h : (S.contains (.word k) && luaKeywords.contains k) = true) : Heads S (k :: more) := by
  simp only [Bool.and_eq_true, List.contains_iff_mem] at h
  exact ⟨_, h.1, h.2, _, rfl⟩

theorem Heads.sym {S : List Cls} {k : Bytes} (h : (S.contains (.sym k) && luaSymbols.contains k) = true) : Heads S (k :: more) := by
  simp only [Bool.and_eq_true, List.contains_iff_mem] at h
  exact ⟨_, h.1, h.2, _, rfl⟩

end Lua
end Tok
