/-
Single tokens and white space.
-/
import Verif.Proofs.LuaCls
import Verif.Proofs.LuaGive

namespace Tok
open Spec

namespace Lua

variable {rt : Rt} {r sk : Reader} {ks more : List Bytes}

/-! ### every list of tokens is in a class -/

def anyCls : List Cls := .eof :: .ident :: .num :: .str :: .long :: .begun [46] :: .begun [58] :: .begun [60] :: luaSymbols.map .sym

theorem row_start {x : Bytes} (h : NameRow x) : ∃ b y, x = b :: y ∧ NameStart b := by
  cases h with
  | one h => obtain ⟨b, y, rfl, hb, _⟩ := h.1; exact ⟨b, y, rfl, hb⟩
  | cons h _ => obtain ⟨b, y, rfl, hb, _⟩ := h.1; exact ⟨b, _, rfl, hb⟩

theorem token_cls {k : Bytes} (h : LuaToken k) : Heads anyCls (k :: more) := by
  cases h with
  | word h => obtain ⟨b, y, rfl, hb, _⟩ := h; exact ⟨.ident, by simp [anyCls], b, y, more, rfl, hb⟩
  | row h => obtain ⟨b, y, rfl, hb⟩ := row_start h; exact ⟨.ident, by simp [anyCls], b, y, more, rfl, hb⟩
  | dot h => exact ⟨.begun [46], by simp [anyCls], _, more, rfl⟩
  | colon h => exact ⟨.begun [58], by simp [anyCls], _, more, rfl⟩
  | label h => exact ⟨.begun [58], by simp [anyCls], _, more, rfl⟩
  | attrib h => exact ⟨.begun [60], by simp [anyCls], _, more, rfl⟩
  | num h => exact ⟨.num, by simp [anyCls], _, more, rfl, h⟩
  | str h => exact ⟨.str, by simp [anyCls], _, more, rfl, h⟩
  | long h => exact ⟨.long, by simp [anyCls], _, more, rfl, h⟩
  | sym h => exact ⟨.sym k, List.mem_cons_of_mem _ (by simp [anyCls, h]), h, more, rfl⟩

theorem layout_cls {X : Bytes} (h : Laid ks X) : Heads anyCls ks := by
  cases h with
  | nil => exact ⟨.eof, by simp [anyCls], rfl⟩
  | cons h _ _ _ => exact token_cls h

theorem token_ne {k : Bytes} (h : LuaToken k) : k ≠ [] := by
  cases h with
  | word h => obtain ⟨b, y, rfl, hb, _⟩ := h; simp
  | row h => obtain ⟨b, y, rfl, hb⟩ := row_start h; simp
  | num h => obtain ⟨b, y, rfl, hb⟩ := num_start h; simp
  | str h => obtain ⟨⟨q, y, _, rfl, _⟩, _⟩ := h; simp
  | long h => obtain ⟨y, rfl | rfl⟩ := long_start h <;> simp
  | sym h => rintro rfl; revert h; decide
  | _ => simp

/-! ### white space -/

/-- A reader of white space, that fails at every token. -/
def spaces (r : Reader) : Bool := anyCls.all (fun c => c.no r) && [32, 9, 10, 13].all fun b => sym env false [] 1 60 r [b] == some (some [])

theorem Skips.zom (h : spaces r = true) : Skips rt (.zom r) := by
  simp only [spaces, Bool.and_eq_true] at h
  rintro ks X ⟨w, z, rfl, hw, hz⟩
  refine ⟨z, ?_, hz, by simp⟩
  induction w with
  | nil => exact .zom_stop ((layout_cls hz).fail h.1 z hz)
  | cons b w ih =>
    refine .zom_step (u := w ++ z) ?_ (ih fun c hc => hw c (by simp [hc]))
    have h2 := h.2
    simp only [List.all_cons, List.all_nil, Bool.and_true, Bool.and_eq_true, beq_iff_eq] at h2
    have : ∀ c, sym env false [] 1 60 r [c] = some (some []) → Gets rt env r ([c] ++ (w ++ z)) (some ([] ++ (w ++ z))) := fun c hc => .sym_yes begins_nothing hc
    rcases hw b (by simp) with rfl | rfl | rfl | rfl
    · exact this _ h2.1
    · exact this _ h2.2.1
    · exact this _ h2.2.2.1
    · exact this _ h2.2.2.2

theorem skip_ws : Skips rt (.zom mkWS) := .zom (by decide +kernel)

theorem skip_all : Skips rt skiper := .zom (by decide +kernel)

/-- White space and comments. -/
theorem gap_gets {w z : Bytes} (hw : PlainGap w) (hz : Laid ks z) : Gets rt env skiper (w ++ z) (some z) := by
  have hs : ∀ {t u : Bytes}, Gets rt env (.rule iComment) (b!"--" ++ t) (some u) → Gets rt env skiper u (some z) → Gets rt env skiper (b!"--" ++ t) (some z) := fun h1 h2 =>
    .zom_step (.any (.next (fails_gets (p := b!"--") (by decide +kernel) begins_nothing) (.hit h1))) h2
  have hb : ∀ {b : UInt8} {t : Bytes}, b = 32 ∨ b = 9 ∨ b = 10 ∨ b = 13 → Gets rt env skiper t (some z) → Gets rt env skiper (b :: t) (some z) := fun {b t} hb h => by
    refine .zom_step (u := t) ?_ h
    have : ∀ c, sym env false [] 1 60 (.any [mkWS, .rule iComment]) [c] = some (some []) → Gets rt env (.any [mkWS, .rule iComment]) ([c] ++ t) (some ([] ++ t)) := fun c hc => .sym_yes begins_nothing hc
    rcases hb with rfl | rfl | rfl | rfl <;> exact this _ (by decide +kernel)
  induction hw with
  | nil => exact .zom_stop ((layout_cls hz).fail (by decide +kernel) z hz)
  | white h _ ih => exact hb h ih
  | @line cs e g h1 h2 h3 h4 _ ih =>
    rcases h4 with rfl | rfl
    · have := comment_line (rt := rt) (t := g ++ z) cs h1 h2
      simpa using hs (by simpa using this) (hb (.inr (.inr (.inl rfl))) ih)
    · have h1' : ∀ k, ¬ luaOpen k <+: cs ++ ['\r'] := fun k hp => by
        rcases List.prefix_or_prefix_of_prefix hp (List.prefix_append cs ['\r']) with h | ⟨d, hd⟩
        · exact h1 k h
        · obtain ⟨e, he⟩ := hp
          rw [← hd, List.append_assoc, List.append_cancel_left_eq] at he
          cases d with
          | nil => exact h1 k ⟨[], by simpa using hd.symm⟩
          | cons c d =>
            injection he with he _
            subst he
            have : '\r' ∈ luaOpen k := by rw [← hd]; simp
            simp [luaOpen] at this
      have := comment_line (rt := rt) (t := g ++ z) (cs ++ ['\r']) h1' (by simpa using h2)
      have e : encText (cs ++ ['\r']) = encText cs ++ [13] := by rw [encText_append]; rfl
      rw [e] at this
      simpa using hs (by simpa using this) (hb (.inr (.inr (.inl rfl))) ih)
  | @zero cs g h1 _ ih => simpa using hs (by simpa using comment_zero (rt := rt) (t := g ++ z) cs h1) ih
  | @level k cs g h1 _ ih => simpa using hs (by simpa using comment_level (rt := rt) (t := g ++ z) k cs h1) ih

theorem wide_all {X : Bytes} (h : Wide ks X) : ∃ Y, Gets rt env skiper X (some Y) ∧ Laid ks Y ∧ Y.length ≤ X.length :=
  let ⟨w, z, e, hw, hz⟩ := h
  ⟨z, e ▸ gap_gets hw hz, hz, by simp [e]⟩

/-- Only the white space. -/
theorem wide_ws {X : Bytes} (h : Wide ks X) : ∃ Y, Gets rt env (.zom mkWS) X (some Y) ∧ Wide ks Y ∧ (Laid ks Y ∨ ∃ t, Y = b!"--" ++ t) ∧ Y.length ≤ X.length := by
  have stop : ∀ {t : Bytes}, Gets rt env (.zom mkWS) (b!"--" ++ t) (some (b!"--" ++ t)) := .zom_stop (fails_gets (p := b!"--") (by decide +kernel) begins_nothing)
  obtain ⟨w, z, rfl, hw, hz⟩ := h
  induction hw with
  | nil => exact ⟨z, .zom_stop ((layout_cls hz).fail (by decide +kernel) z hz), .of hz, .inl hz, Nat.le_refl _⟩
  | @white b g h _ ih =>
    obtain ⟨Y, h1, h2, h3, h4⟩ := ih
    refine ⟨Y, ?_, h2, h3, by simp only [List.cons_append, List.length_cons]; omega⟩
    refine .zom_step (u := g ++ z) ?_ h1
    have : ∀ c, sym env false [] 1 60 mkWS [c] = some (some []) → Gets rt env mkWS ([c] ++ (g ++ z)) (some ([] ++ (g ++ z))) := fun c hc => .sym_yes begins_nothing hc
    rcases h with rfl | rfl | rfl | rfl <;> exact this _ (by decide +kernel)
  | line h1 h2 h3 h4 h5 _ => exact ⟨_, by simpa using stop, ⟨_, z, rfl, .line h1 h2 h3 h4 h5, hz⟩, .inr ⟨_, by simp only [List.append_assoc]; rfl⟩, Nat.le_refl _⟩
  | zero h1 h2 _ => exact ⟨_, by simpa using stop, ⟨_, z, rfl, .zero h1 h2, hz⟩, .inr ⟨_, by simp only [List.append_assoc]; rfl⟩, Nat.le_refl _⟩
  | level h1 h2 _ => exact ⟨_, by simpa using stop, ⟨_, z, rfl, .level h1 h2, hz⟩, .inr ⟨_, by simp only [List.append_assoc]; rfl⟩, Nat.le_refl _⟩

/-! ### failure in front of white space -/

/-- One of the two skippers. -/
def skipper : Reader → Bool
  | .zom (.anyRune s) => s == b!" \r\n\t"
  | .zom (.any [.anyRune s, .rule i]) => s == b!" \r\n\t" && i == iComment
  | _ => false

theorem skipper_skips (h : skipper sk = true) : Skips rt sk := by
  unfold skipper at h
  split at h
  · rw [beq_iff_eq.mp h]; exact skip_ws
  · rw [Bool.and_eq_true] at h
    rw [beq_iff_eq.mp h.1, beq_iff_eq.mp h.2]; exact skip_all
  · cases h

/-- The first token tells that the reader fails in front of white space. -/
def Cls.gap : Nat → Reader → Cls → Bool
  | 0, _, _ => false
  | n + 1, r, c => noWhite r && c.no r || match r with
    | .skipSeq sk (r :: _) => skipper sk && c.no r
    | .seq (r :: _) => Cls.gap n r c
    | .any rs => rs.all fun r => Cls.gap n r c
    | .many r => Cls.gap n r c
    | .rule i => match env[i]? with
      | some ⟨_, some r⟩ => Cls.gap n r c
      | _ => false
    | _ => false

theorem Cls.gap_fail {c : Cls} (hk : c.In ks) : ∀ n r, Cls.gap n r c = true → Fail rt Spaced r ks
  | 0, _, h => by cases h
  | n + 1, r, h => by
    have ih := Cls.gap_fail hk n
    unfold Cls.gap at h
    rw [Bool.or_eq_true, Bool.and_eq_true] at h
    rcases h with h | h
    · exact .spaced h.1 (Cls.no_fail h.2 hk)
    · split at h
      · rw [Bool.and_eq_true] at h
        exact .skipSeq (skipper_skips h.1) (.stop (Cls.no_fail h.2 hk))
      · exact .seq (.stop (ih _ h))
      · refine .any ?_
        rename_i rs
        induction rs with
        | nil => exact .nil
        | cons r rs ihr =>
          rw [List.all_cons, Bool.and_eq_true] at h
          exact .next (ih _ h.1) (ihr h.2)
      · exact .many (ih _ h)
      · split at h
        · next nm r hi => exact .rule hi (ih _ h)
        · cases h
      · cases h

/-- The check for a set of classes. -/
def gaps (S : List Cls) (r : Reader) : Bool := S.all fun c => c.gap 30 r

theorem Heads.gap {S : List Cls} (h : Heads S ks) (hS : gaps S r = true) : Fail rt Spaced r ks :=
  let ⟨_, hc, hk⟩ := h
  Cls.gap_fail hk _ _ (List.all_eq_true.mp hS _ hc)

/-! ### reading a token -/

theorem Step.open {k : Bytes} (h : ∀ u, After k u → Gets rt env r (k ++ u) (some u)) : Step rt Laid Wide r [k] more := fun X hX => by
  obtain ⟨u, rfl, h1, h2, h3⟩ := Laid.open hX
  refine ⟨u, h u h2, h3, ?_⟩
  have := List.length_pos_iff.mpr (token_ne h1)
  simp only [List.length_append, List.length_cons, List.length_nil]
  omega

theorem Step.tok {k : Bytes} (hk : luaOpener k = false) (h : ∀ u, After k u → Gets rt env r (k ++ u) (some u)) : Step rt Laid Spaced r [k] more := fun X hX => by
  obtain ⟨u, rfl, h1, h2, h3⟩ := Laid.uncons hk hX
  refine ⟨u, h u h2, h3, ?_⟩
  have := List.length_pos_iff.mpr (token_ne h1)
  simp only [List.length_append, List.length_cons, List.length_nil]
  omega

theorem Step.lit (k : Bytes) (hk : luaOpener k = false := by decide) : Step rt Laid Spaced (.lit k) [k] more := .tok hk fun u _ => .lit k u

theorem Step.olit (k : Bytes) : Step rt Laid Wide (.lit k) [k] more := .open fun u _ => .lit k u

def eatsSym (r : Reader) (k : Bytes) : Bool := luaSymbols.contains k && sym env false (longer k) k.length 60 r k == some (some [])

def eatsWord (r : Reader) (k : Bytes) : Bool := luaKeywords.contains k && sym env false (otherWords k) k.length 60 r k == some (some [])

theorem after_sym {k u : Bytes} (hu : After k u) : Begins false (longer k) k u := ⟨by simp, fun y hy hp => by
  simp only [longer, List.mem_filter, Bool.and_eq_true, decide_eq_true_eq, List.isPrefixOf_iff_prefix] at hy
  obtain ⟨hm, ⟨z, rfl⟩, hl⟩ := hy
  rw [List.prefix_append_right_inj] at hp
  cases z with
  | nil => simp at hl
  | cons b z =>
    obtain ⟨v, hv⟩ := hp
    exact hu b (z ++ v) hv.symm (.inr (.inr (.inl ⟨_, hm, z, by simp⟩)))⟩

theorem after_word {k u : Bytes} (hk : k ∈ luaKeywords) (hu : After k u) : Begins false (otherWords k) k u := ⟨by simp, fun y hy hp => by
  rw [otherWords, List.mem_filter] at hy
  have := kw_prefix (kw_ident hk) hu hy.1 hp
  rw [List.isPrefixOf_iff_prefix.mpr this] at hy
  cases hy.2⟩

theorem eats_sym {k u : Bytes} (h : eatsSym r k = true) (hu : After k u) : Gets rt env r (k ++ u) (some u) := by
  rw [eatsSym, Bool.and_eq_true, beq_iff_eq] at h
  exact .sym_yes (after_sym hu) h.2

theorem Step.sym {k : Bytes} (h : (!luaOpener k && eatsSym r k) = true) : Step rt Laid Spaced r [k] more := by
  rw [Bool.and_eq_true, Bool.not_eq_true'] at h
  exact .tok h.1 fun _ hu => eats_sym h.2 hu

theorem Step.osym {k : Bytes} (h : eatsSym r k = true) : Step rt Laid Wide r [k] more := .open fun _ hu => eats_sym h hu

theorem eats_word {k u : Bytes} (h : eatsWord r k = true) (hu : After k u) : Gets rt env r (k ++ u) (some u) := by
  rw [eatsWord, Bool.and_eq_true, beq_iff_eq, List.contains_iff_mem] at h
  exact .sym_yes (after_word h.1 hu) h.2

theorem Step.word {k : Bytes} (h : (!luaOpener k && eatsWord r k) = true) : Step rt Laid Spaced r [k] more := by
  rw [Bool.and_eq_true, Bool.not_eq_true'] at h
  exact .tok h.1 fun _ hu => eats_word h.2 hu

theorem Step.oword {k : Bytes} (h : eatsWord r k = true) : Step rt Laid Wide r [k] more := .open fun _ hu => eats_word h hu

theorem ident_gets {x u : Bytes} (hx : LuaIdent x) (hu : ∀ b v, u = b :: v → ¬ NameStart b ∧ ¬ DecDigit b) : Gets rt env (.rule iName) (x ++ u) (some u) := by
  have := (name_does rt).gets (x ++ u)
  rwa [(name_greedy.iff rfl).mpr (longest_ident hx hu)] at this

theorem after_ident {x u : Bytes} (hx : ∃ a ∈ x.getLast?, NameStart a ∨ DecDigit a) (hu : After x u) : ∀ b v, u = b :: v → ¬ NameStart b ∧ ¬ DecDigit b := fun b v e =>
  ⟨fun h => hu b v e (.inl ⟨hx, .inl h⟩), fun h => hu b v e (.inl ⟨hx, .inr h⟩)⟩

theorem not_opener {x : Bytes} (h : x ∉ luaOpeners) (h' : ∀ b ∈ x.head?, b ≠ 46 ∧ b ≠ 58) : luaOpener x = false := by
  unfold luaOpener
  rw [Bool.or_eq_false_iff, ← Bool.not_eq_true, List.contains_iff_mem]
  refine ⟨h, ?_⟩
  split
  · exact absurd rfl (h' 46 rfl).1
  · exact absurd rfl (h' 58 rfl).2
  · rfl

theorem start_apart {b : UInt8} (hb : NameStart b) : b ≠ 46 ∧ b ≠ 58 := by
  constructor <;> rintro rfl <;> revert hb <;> unfold NameStart <;> decide

theorem name_open {x : Bytes} (hx : LuaName x) : luaOpener x = false := not_opener (x := x) (h' := by obtain ⟨c, y, rfl, hc, _⟩ := hx.1; rintro b ⟨⟩; exact start_apart hc) fun h => by
  have : ∀ k ∈ luaOpeners, k ∈ luaKeywords ∨ ∃ b ∈ k.head?, startB b = false := by decide
  rcases this x h with h' | ⟨b, hb, h'⟩
  · exact hx.2 h'
  · obtain ⟨c, y, rfl, hc, _⟩ := hx.1
    cases hb
    rw [(startB_iff _).mpr hc] at h'
    cases h'

theorem Step.ident {x : Bytes} (hx : LuaIdent x) : Step rt Laid Wide (.rule iName) [x] more := .open fun _ hu => ident_gets hx (after_ident (ident_last hx) hu)

theorem Step.name {x : Bytes} (hx : LuaName x) : Step rt Laid Spaced (.rule iName) [x] more := .tok (name_open hx) fun _ hu => ident_gets hx.1 (after_ident (ident_last hx.1) hu)

/-! ### numerals -/

theorem digits_last {D : UInt8 → Prop} {x : Bytes} (h : Digits D x) : ∃ a ∈ x.getLast?, D a := by
  rcases List.eq_nil_or_concat x with rfl | ⟨z, c, rfl⟩
  · exact absurd rfl h.1
  · exact ⟨c, by simp, h.2 c (by simp)⟩

theorem last_append {x y : Bytes} {P : UInt8 → Prop} (h : ∃ a ∈ y.getLast?, P a) : ∃ a ∈ (x ++ y).getLast?, P a := by
  obtain ⟨a, ha, hp⟩ := h
  exact ⟨a, by rw [List.getLast?_append, Option.mem_def.mp ha]; rfl, hp⟩

theorem mant_last {D : UInt8 → Prop} {x : Bytes} (h : FullMantissa D x) : ∃ a ∈ x.getLast?, D a := by
  rcases h with h | ⟨a, b, rfl, _, hb⟩
  · exact digits_last h
  · exact last_append (by
      have := last_append (x := [46]) (digits_last hb)
      simpa using this)

theorem exp_last {m M : UInt8} {x : Bytes} (h : Exponent m M x) : ∃ a ∈ x.getLast?, DecDigit a := by
  obtain ⟨c, s, d, rfl, _, _, hd⟩ := h
  have := last_append (x := c :: s) (digits_last hd)
  simpa using this

theorem full_last {D : UInt8 → Prop} {m M : UInt8} {a e : Bytes} (hD : ∀ b, DecDigit b → D b) (ha : FullMantissa D a) (he : e = [] ∨ Exponent m M e) :
    ∃ b ∈ (a ++ e).getLast?, D b := by
  rcases he with rfl | he
  · simpa using mant_last ha
  · obtain ⟨b, h1, h2⟩ := exp_last he
    exact last_append ⟨b, h1, hD b h2⟩

theorem dec_hex {b : UInt8} (h : DecDigit b) : HexDigit b := .inl h

theorem hex_word {b : UInt8} (h : HexDigit b) : NameStart b ∨ DecDigit b := by
  rcases h with h | h | h
  · exact .inr h
  · exact .inl (.inl ⟨h.1, UInt8.le_trans h.2 (by decide)⟩)
  · exact .inl (.inr (.inl ⟨h.1, UInt8.le_trans h.2 (by decide)⟩))

theorem num_last {x : Bytes} (h : FullNumeral x) : ∃ a ∈ x.getLast?, NameStart a ∨ DecDigit a := by
  rcases h with ⟨m, e, rfl, hm, he⟩ | ⟨c, m, e, rfl, _, hm, he⟩
  · obtain ⟨b, h1, h2⟩ := full_last (fun _ h => h) hm he
    exact ⟨b, h1, .inr h2⟩
  · obtain ⟨b, h1, h2⟩ := last_append (x := [48, c]) (full_last (fun _ => dec_hex) hm he)
    exact ⟨b, by simpa using h1, hex_word h2⟩

/-- The bytes of a numeral behind any beginning of it: a sign only behind the mark of an exponent. -/
theorem full_sign {D : UInt8 → Prop} {m M : UInt8} {a e x z : Bytes} {d : UInt8} (h : a ++ e = x ++ d :: z) (ha : FullMantissa D a) (he : e = [] ∨ Exponent m M e) :
    D d ∨ d = 46 ∨ d = m ∨ d = M ∨ DecDigit d ∨ ∃ c, x = a ++ [c] ∧ (c = m ∨ c = M) := by
  rcases he with rfl | ⟨c, s, f, rfl, hc, hs, hf⟩
  · rw [List.append_nil] at h
    rcases mant_bytes ha d (by rw [h]; simp) with h | h <;> tauto
  · rw [List.append_eq_append_iff] at h
    rcases h with ⟨w, rfl, h⟩ | ⟨w, rfl, h⟩
    · cases w with
      | nil => simp only [List.nil_append, List.cons.injEq] at h; rcases hc with rfl | rfl <;> tauto
      | cons c' w =>
        simp only [List.cons_append, List.cons.injEq] at h
        obtain ⟨rfl, h⟩ := h
        rw [List.append_eq_append_iff] at h
        rcases h with ⟨v, rfl, h⟩ | ⟨v, hv, h⟩
        · exact .inr (.inr (.inr (.inr (.inl (hf.2 d (by rw [h]; simp))))))
        · cases v with
          | nil => exact .inr (.inr (.inr (.inr (.inl (hf.2 d (by simp only [List.nil_append] at h; rw [← h]; simp))))))
          | cons d' v =>
            simp only [List.cons_append, List.cons.injEq] at h
            have : w = [] := by
              rcases hs with rfl | rfl | rfl
              · simp at hv
              · cases w <;> simp_all
              · cases w <;> simp_all
            subst this
            exact .inr (.inr (.inr (.inr (.inr ⟨c, rfl, hc⟩))))
    · cases w with
      | nil => simp only [List.nil_append, List.cons.injEq] at h; rcases hc with rfl | rfl <;> tauto
      | cons d' w =>
        simp only [List.cons_append, List.cons.injEq] at h
        rcases mant_bytes ha d (by rw [h.1]; simp) with h | h <;> tauto

theorem dec_bytes {x a e : Bytes} (h : x = a ++ e) (ha : FullMantissa DecDigit a) (he : e = [] ∨ Exponent 101 69 e) : ¬ ∃ c ∈ x, c = 120 ∨ c = 88 := by
  rintro ⟨c, hc, h2⟩
  have key : ∀ c : UInt8, c = 120 ∨ c = 88 → ¬ DecDigit c ∧ c ≠ 46 ∧ c ≠ 101 ∧ c ≠ 69 ∧ c ≠ 43 ∧ c ≠ 45 := by
    rintro c (rfl | rfl) <;> unfold DecDigit <;> decide
  obtain ⟨k1, k2, k3, k4, k5, k6⟩ := key c h2
  subst h
  rcases List.mem_append.mp hc with hc | hc
  · rcases mant_bytes ha c hc with h | h <;> tauto
  · rcases he with rfl | ⟨d, s, f, rfl, hd, hs, hf⟩
    · cases hc
    · rcases List.mem_cons.mp hc with rfl | hc
      · tauto
      · rcases List.mem_append.mp hc with hc | hc
        · rcases hs with rfl | rfl | rfl
          · cases hc
          · exact k5 (by simpa using hc)
          · exact k6 (by simpa using hc)
        · exact k1 (hf.2 c hc)

/-- A numeral with nothing behind it that could belong to it. -/
theorem longest_numeral {x u : Bytes} (hx : FullNumeral x) (hu : ∀ b v, u = b :: v → ¬ NameStart b ∧ ¬ DecDigit b ∧ b ≠ 46) : Longest FullNumeral (x ++ u) x := by
  refine ⟨List.prefix_append x u, hx, fun y hy hn => ?_⟩
  rcases Nat.lt_or_ge x.length y.length with hl | hl
  · exfalso
    obtain ⟨d, z, rfl, h2⟩ := prefix_split (b := u) hy (List.prefix_refl _) hl
    obtain ⟨v, rfl⟩ : ∃ v, u = d :: v := by
      rcases h2 with rfl | h2
      · exfalso; have := hy.length_le; simp at this; omega
      · exact h2
    obtain ⟨k1, k2, k3⟩ := hu d v rfl
    have kh : ¬ HexDigit d := fun h => by rcases hex_word h with h | h <;> tauto
    have kn : ∀ c : UInt8, c = 101 ∨ c = 69 ∨ c = 112 ∨ c = 80 → NameStart c := by
      rintro c (rfl | rfl | rfl | rfl) <;> unfold NameStart <;> decide
    have lastIs : ∀ {a : Bytes} {c : UInt8} {P : UInt8 → Prop}, (∃ b ∈ (a ++ [c]).getLast?, P b) → P c := by
      rintro a c P ⟨b, h1, h2⟩
      simp at h1
      exact h1 ▸ h2
    rcases hn with ⟨m, e, h, hm, he⟩ | ⟨c, m, e, h, hc, hm, he⟩
    · rcases full_sign h.symm hm he with h' | h' | h' | h' | h' | ⟨c, rfl, hc⟩
      · exact k2 h'
      · exact k3 h'
      · exact k1 (kn d (by tauto))
      · exact k1 (kn d (by tauto))
      · exact k2 h'
      · rcases hx with ⟨m', e', h1, hm', he'⟩ | ⟨c', m', e', h1, hc', _, _⟩
        · have := lastIs (h1 ▸ full_last (fun _ h => h) hm' he')
          rcases hc with rfl | rfl <;> revert this <;> unfold DecDigit <;> decide
        · refine dec_bytes h hm he ⟨c', ?_, hc'⟩
          rw [h1]; simp
    · rcases hx with ⟨m', e', h1, hm', he'⟩ | ⟨c', m', e', h1, hc', hm', he'⟩
      · cases x with
        | nil => 
          have := full_last (fun _ h => h) hm' he'
          rw [← h1] at this
          obtain ⟨b, hb, _⟩ := this
          cases hb
        | cons b x =>
          simp only [List.cons_append, List.cons.injEq] at h
          cases x with
          | nil =>
            simp only [List.nil_append, List.cons.injEq] at h
            have : NameStart d := by
              rw [h.2.1]
              rcases hc with rfl | rfl <;> unfold NameStart <;> decide
            exact k1 this
          | cons b2 x =>
            simp only [List.cons_append, List.cons.injEq] at h
            exact dec_bytes h1 hm' he' ⟨b2, by simp, h.2.1 ▸ hc⟩
      · subst h1
        simp only [List.cons_append, List.cons.injEq] at h
        rcases full_sign h.2.2.symm hm he with h' | h' | h' | h' | h' | ⟨c, h2, hc⟩
        · exact kh h'
        · exact k3 h'
        · exact k1 (kn d (by tauto))
        · exact k1 (kn d (by tauto))
        · exact k2 h'
        · have := lastIs (h2 ▸ full_last (fun _ => dec_hex) hm' he')
          rcases hc with rfl | rfl <;> revert this <;> unfold HexDigit <;> decide
  · exact hl

theorem num_open {x : Bytes} (hx : FullNumeral x) : luaOpener x = false := not_opener (x := x) (h' := by
    obtain ⟨b, y, rfl, hb⟩ := num_start hx; rintro c ⟨⟩; constructor <;> rintro rfl <;> revert hb <;> decide) fun h => by
  have : ∀ k ∈ luaOpeners, ∃ b ∈ k.head?, digitB b = false := by decide
  obtain ⟨b, y, rfl, hb⟩ := num_start hx
  obtain ⟨c, hc, h⟩ := this _ h
  cases hc
  rw [hb] at h
  cases h

theorem Step.num {x : Bytes} (hx : FullNumeral x) : Step rt Laid Spaced numeral [x] more := .tok (num_open hx) fun u hu => by
  have := (numeral_does rt env).gets (x ++ u)
  rwa [(num_greedy.iff rfl).mpr (longest_numeral hx fun b v e => ⟨(after_ident (num_last hx) hu b v e).1, (after_ident (num_last hx) hu b v e).2, ?_⟩)] at this
  rintro rfl
  obtain ⟨c, y, rfl, hc⟩ := num_start hx
  exact hu 46 v e (.inr (.inl ⟨⟨c, by simp, (digitB_iff c).mp hc⟩, rfl⟩))

/-! ### strings -/

theorem str_open {x : Bytes} (hx : PlainString x) : luaOpener x = false := not_opener (x := x) (h' := by
    obtain ⟨⟨q, y, hq, rfl, _⟩, _⟩ := hx; rintro c ⟨⟩; rcases hq with rfl | rfl <;> decide) fun h => by
  have : ∀ k ∈ luaOpeners, k.head? ≠ some 34 ∧ k.head? ≠ some 39 := by decide
  obtain ⟨⟨q, y, hq, rfl, _⟩, _⟩ := hx
  have := this _ h
  rcases hq with rfl | rfl <;> simp at this

theorem Step.str {x : Bytes} (hx : PlainString x) : Step rt Laid Spaced (.rule iLiteralString) [x] more := .tok (str_open hx) fun u _ j => by
  obtain ⟨⟨q, y, hq, rfl, hy⟩, hc⟩ := hx
  have hy' := chars_tok hq hy fun b hb => hc b (by simp [hb])
  rcases literal_cases rt hq (y ++ q :: u) j with ⟨y', v, h1, h2, n, hn⟩ | ⟨y', c, v, h1, h2, h3, h4, n, hn⟩ | ⟨h1, h2⟩
  · obtain ⟨_, e⟩ := chars_unique hy' h2 (noItem_quote hq u) (noItem_quote hq v) h1
    injection e with _ e
    subst e
    exact ⟨n, j, by simpa using hn⟩
  · have := (chars_unique hy' h2 (noItem_quote hq u) h3 h1).2
    injection this with this
    exact absurd this.symm h4
  · have := (chars_unique hy' h1 (noItem_quote hq u) noItem_nil (by simp)).2
    cases this

theorem long_open {x : Bytes} (hx : LuaLong x) : luaOpener x = false := not_opener (x := x) (h' := by
    obtain ⟨y, rfl | rfl⟩ := long_start hx <;> rintro c ⟨⟩ <;> decide) fun h => by
  have : ∀ k ∈ luaOpeners, k.head? = some 91 → k.length < 2 := by decide
  obtain ⟨y, rfl | rfl⟩ := long_start hx <;> exact absurd (this _ h rfl) (by simp)

theorem Step.long {x : Bytes} (hx : PlainLong x) : Step rt Laid Spaced (.rule iLiteralString) [x] more := .tok (long_open (long_lua hx)) fun u _ => by
  obtain ⟨k, cs, rfl, ⟨rfl, h⟩ | h⟩ := hx
  · exact string_zero cs h
  · exact string_level k cs h

end Lua
end Tok
