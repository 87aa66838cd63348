/-
Texts that are not Lua: tokens and words of the syntax of Lua.
-/
import Verif.Spec.LuaLoose
import Verif.Props.C73

namespace Tok
open Spec

namespace Lua

variable {N S S' : Bytes → Prop} {c : Syn} {ks : List Bytes}

theorem syn_mono (hS : ∀ k, S k → S' k) (h : LuaSyn N S c ks) : LuaSyn N S' c ks := by
  induction h with
  | block _ ih1 => exact .block ih1
  | blockRet _ _ ih1 ih2 => exact .blockRet ih1 ih2
  | noStats => exact .noStats
  | someStats _ _ ih1 ih2 => exact .someStats ih1 ih2
  | semi => exact .semi
  | assign _ _ ih1 ih2 => exact .assign ih1 ih2
  | call _ ih1 => exact .call ih1
  | label h1 => exact .label h1
  | «break» => exact LuaSyn.break
  | goto h1 => exact .goto h1
  | doS _ ih1 => exact .doS ih1
  | whileS _ _ ih1 ih2 => exact .whileS ih1 ih2
  | repeatS _ _ ih1 ih2 => exact .repeatS ih1 ih2
  | ifS _ _ _ ih1 ih2 ih3 => exact .ifS ih1 ih2 ih3
  | ifElse _ _ _ _ ih1 ih2 ih3 ih4 => exact .ifElse ih1 ih2 ih3 ih4
  | noElifs => exact .noElifs
  | someElifs _ _ _ ih1 ih2 ih3 => exact .someElifs ih1 ih2 ih3
  | forS h1 _ _ _ ih2 ih3 ih4 => exact .forS h1 ih2 ih3 ih4
  | forStep h1 _ _ _ _ ih2 ih3 ih4 ih5 => exact .forStep h1 ih2 ih3 ih4 ih5
  | forEach h1 _ _ ih2 ih3 => exact .forEach h1 ih2 ih3
  | function h1 _ ih2 => exact .function h1 ih2
  | localFunction h1 _ ih2 => exact .localFunction h1 ih2
  | localS h1 => exact .localS h1
  | localAssign h1 _ ih2 => exact .localAssign h1 ih2
  | ret => exact .ret
  | retSemi => exact .retSemi
  | retExps _ ih1 => exact .retExps ih1
  | retExpsSemi _ ih1 => exact .retExpsSemi ih1
  | oneVar _ ih1 => exact .oneVar ih1
  | moreVars _ _ ih1 ih2 => exact .moreVars ih1 ih2
  | name h1 => exact .name h1
  | index _ _ ih1 ih2 => exact .index ih1 ih2
  | member _ h2 ih1 => exact .member ih1 h2
  | oneExp _ ih1 => exact .oneExp ih1
  | moreExps _ _ ih1 ih2 => exact .moreExps ih1 ih2
  | const h1 => exact .const h1
  | num h1 => exact .num h1
  | str h1 => exact .str (hS _ h1)
  | functiondef _ ih1 => exact .functiondef ih1
  | prefixexp _ ih1 => exact .prefixexp ih1
  | tableExp _ ih1 => exact .tableExp ih1
  | bin _ h2 _ ih1 ih3 => exact .bin ih1 h2 ih3
  | un h1 _ ih2 => exact .un h1 ih2
  | varPrefix _ ih1 => exact .varPrefix ih1
  | callPrefix _ ih1 => exact .callPrefix ih1
  | paren _ ih1 => exact .paren ih1
  | callArgs _ _ ih1 ih2 => exact .callArgs ih1 ih2
  | method _ h2 _ ih1 ih3 => exact .method ih1 h2 ih3
  | noArgs => exact .noArgs
  | someArgs _ ih1 => exact .someArgs ih1
  | tableArgs _ ih1 => exact .tableArgs ih1
  | strArgs h1 => exact .strArgs (hS _ h1)
  | funcbody h1 _ ih2 => exact .funcbody h1 ih2
  | noFields => exact .noFields
  | someFields _ ih1 => exact .someFields ih1
  | someFieldsSep _ h2 ih1 => exact .someFieldsSep ih1 h2
  | oneField _ ih1 => exact .oneField ih1
  | moreFields _ h2 _ ih1 ih3 => exact .moreFields ih1 h2 ih3
  | keyField _ _ ih1 ih2 => exact .keyField ih1 ih2
  | nameField h1 _ ih2 => exact .nameField h1 ih2
  | expField _ ih1 => exact .expField ih1

/-! ### tokens -/

/-- The tokens that are not names, numerals or strings. -/
def luaFixed : List Bytes := luaKeywords ++ luaSymbols

theorem binary_fixed {k : Bytes} (h : k ∈ luaBinary) : k ∈ luaFixed := (show ∀ k ∈ luaBinary, k ∈ luaFixed by decide) k h
theorem unary_fixed {k : Bytes} (h : k ∈ luaUnary) : k ∈ luaFixed := (show ∀ k ∈ luaUnary, k ∈ luaFixed by decide) k h
theorem sep_fixed {k : Bytes} (h : k = b!"," ∨ k = b!";") : k ∈ luaFixed := by rcases h with rfl | rfl <;> decide

section
variable {T : Bytes → Prop} (hN : ∀ x, N x → T x) (hS : ∀ x, S x → T x) (hD : ∀ x, LuaNumeral x → T x) (hF : ∀ k ∈ luaFixed, T k)
include hN hF

theorem names_all (h : SynNames N ks) : ∀ k ∈ ks, T k := by
  have hF : ∀ k, k ∈ luaFixed → T k := hF
  have f1 := hF b!"," (by decide)
  induction h with
  | one hx => simp [hN _ hx]
  | cons hx _ ih => simp only [List.forall_mem_cons]; exact ⟨hN _ hx, f1, ih⟩

theorem params_all (h : SynParams N ks) : ∀ k ∈ ks, T k := by
  have f1 := hF b!"," (by decide)
  have f2 := hF b!"..." (by decide)
  cases h with
  | none => simp
  | names h => exact names_all hN hF h
  | namesDots h => simp only [List.forall_mem_append, List.forall_mem_cons]; exact ⟨names_all hN hF h, f1, f2, by simp⟩
  | dots => simp only [List.forall_mem_cons]; exact ⟨f2, by simp⟩

theorem funcname_all (h : SynFuncName N ks) : ∀ k ∈ ks, T k := by
  have f1 := hF b!":" (by decide)
  have f2 := hF b!"." (by decide)
  induction h with
  | one hx => simp [hN _ hx]
  | method hx hy => simp only [List.forall_mem_cons]; exact ⟨hN _ hx, f1, hN _ hy, by simp⟩
  | dot hx _ ih => simp only [List.forall_mem_cons]; exact ⟨hN _ hx, f2, ih⟩

theorem attrib_all (h : SynAttrib N ks) : ∀ k ∈ ks, T k := by
  have f1 := hF b!"<" (by decide)
  have f2 := hF b!">" (by decide)
  cases h with
  | none => simp
  | some hx => simp only [List.forall_mem_cons]; exact ⟨f1, hN _ hx, f2, by simp⟩

theorem attnames_all (h : SynAttNames N ks) : ∀ k ∈ ks, T k := by
  have f1 := hF b!"," (by decide)
  induction h with
  | one hx ha => simp only [List.forall_mem_cons]; exact ⟨hN _ hx, attrib_all hN hF ha⟩
  | cons hx ha _ ih => simp only [List.forall_mem_cons, List.forall_mem_append]; exact ⟨hN _ hx, attrib_all hN hF ha, f1, ih⟩

include hS hD

/-- Every token of a phrase is a name, a string, a numeral, a reserved word or a symbol. -/
theorem syn_all (h : LuaSyn N S c ks) : ∀ k ∈ ks, T k := by
  induction h with
  | const hk => simp only [List.forall_mem_cons]; exact ⟨hF _ ((show ∀ k ∈ [b!"nil", b!"false", b!"true", b!"..."], k ∈ luaFixed by decide) _ hk), by simp⟩
  | num hk => simpa using hD _ hk
  | str hk => simpa using hS _ hk
  | strArgs hk => simpa using hS _ hk
  | _ =>
    try simp only [List.forall_mem_append, List.forall_mem_cons]
    repeat' first
      | exact List.forall_mem_nil _
      | assumption
      | exact hN _ ‹_›
      | exact hF _ (by decide)
      | exact hF _ (binary_fixed ‹_›)
      | exact hF _ (unary_fixed ‹_›)
      | exact hF _ (sep_fixed ‹_›)
      | exact names_all hN hF ‹_›
      | exact params_all hN hF ‹_›
      | exact funcname_all hN hF ‹_›
      | exact attnames_all hN hF ‹_›
      | constructor
end

/-! ### words with an equal sign behind them -/

def NoEq (ks : List Bytes) : Prop := ∀ r, ks ≠ b!"=" :: r

/-- No equal sign at the beginning, and if the second token is one, then the first is no reserved word. -/
def EqName (ks : List Bytes) : Prop := NoEq ks ∧ ∀ w r, ks = w :: b!"=" :: r → w ∉ luaKeywords

theorem NoEq.nil : NoEq [] := fun _ h => by cases h
theorem NoEq.cons {k : Bytes} {b : List Bytes} (h : k ≠ b!"=") : NoEq (k :: b) := fun _ e => h (List.cons.inj e).1
theorem NoEq.app {a b : List Bytes} (ha : NoEq a) (hb : NoEq b) : NoEq (a ++ b) := by
  cases a with
  | nil => exact hb
  | cons k a => intro r e; exact ha a (by rw [(List.cons.inj e).1])

theorem EqName.cons {k : Bytes} {b : List Bytes} (h : k ≠ b!"=") (hb : NoEq b) : EqName (k :: b) := ⟨.cons h, fun _ _ e => absurd (List.cons.inj e).2 (hb _)⟩
theorem EqName.nil : EqName [] := ⟨.nil, fun _ _ e => by cases e⟩
theorem EqName.app {a b : List Bytes} (ha : EqName a) (hb : EqName b) : EqName (a ++ b) := by
  refine ⟨ha.1.app hb.1, fun w r e => ?_⟩
  match a, ha, e with
  | [], _, e => exact hb.2 w r e
  | [k], _, e => exact absurd (List.cons.inj e).2 (hb.1 r)
  | k :: l :: a, ha, e =>
    injection e with e1 e
    injection e with e2 _
    exact e1 ▸ ha.2 k a (by rw [e2])

theorem name_eq {x : Bytes} (h : LuaName x) : x ≠ b!"=" := by
  rintro rfl
  obtain ⟨⟨b, y, e, h, _⟩, _⟩ := h
  cases e
  revert h
  simp [NameStart]

theorem numeral_head {x : Bytes} (h : LuaNumeral x) : ∃ b y, x = b :: y ∧ (DecDigit b ∨ b = 46) := by
  rcases h with ⟨m, e, rfl, hm, _⟩ | ⟨c, m, e, rfl, _⟩
  · rcases hm with ⟨h0, h1⟩ | ⟨a, b, rfl, h1, _⟩
    · cases m with
      | nil => exact absurd rfl h0
      | cons b y => exact ⟨b, y ++ e, rfl, .inl (h1 b (by simp))⟩
    · cases a with
      | nil => exact ⟨46, b ++ e, rfl, .inr rfl⟩
      | cons c y => exact ⟨c, _, rfl, .inl (h1 c (by simp))⟩
  · exact ⟨48, _, rfl, .inl (by unfold DecDigit; decide)⟩

theorem numeral_eq {x : Bytes} (h : LuaNumeral x) : x ≠ b!"=" := by
  rintro rfl
  obtain ⟨b, y, e, h⟩ := numeral_head h
  cases e
  revert h
  simp [DecDigit]

theorem string_eq {x : Bytes} (h : StringLike x) : x ≠ b!"=" := by
  rintro rfl
  obtain ⟨b, y, e, h⟩ := h
  cases e
  simp at h

theorem fixed_eq {k : Bytes} (h : k ∈ b!"..." :: b!"nil" :: b!"false" :: b!"true" :: b!"," :: b!";" :: (luaBinary ++ luaUnary)) : k ≠ b!"=" :=
  (show ∀ k ∈ b!"..." :: b!"nil" :: b!"false" :: b!"true" :: b!"," :: b!";" :: (luaBinary ++ luaUnary), k ≠ b!"=" by decide) k h

theorem names_eq (h : SynNames LuaName ks) : NoEq ks := by
  cases h with
  | one h => exact .cons (name_eq h)
  | cons h => exact .cons (name_eq h)
theorem funcname_eq (h : SynFuncName LuaName ks) : NoEq ks := by
  cases h with
  | one h => exact .cons (name_eq h)
  | method h => exact .cons (name_eq h)
  | dot h => exact .cons (name_eq h)
theorem attnames_eq (h : SynAttNames LuaName ks) : NoEq ks ∧ ks ≠ [] := by
  cases h with
  | one h => exact ⟨.cons (name_eq h), by simp⟩
  | cons h => exact ⟨.cons (name_eq h), by simp⟩
theorem params_eq (h : SynParams LuaName ks) : NoEq ks := by
  cases h with
  | none => exact .nil
  | names h => exact names_eq h
  | namesDots h => exact (names_eq h).app (.cons (by decide))
  | dots => exact .cons (by decide)

theorem NoEq.app_cons {a b : List Bytes} {k : Bytes} (ha : NoEq a) (h : a ≠ []) : NoEq (a ++ k :: b) := by
  cases a with
  | nil => exact absurd rfl h
  | cons l a => intro r e; exact ha a (by rw [(List.cons.inj e).1])

/-- A list of variables is not a reserved word. -/
theorem vars_word (h : LuaSyn LuaName S c ks) (hc : c = .var ∨ c = .varlist) : ks ≠ [] ∧ ∀ w ∈ luaKeywords, ks ≠ [w] := by
  have two : ∀ {a b : List Bytes} {k l : Bytes}, a ++ k :: l :: b ≠ [] ∧ ∀ w ∈ luaKeywords, a ++ k :: l :: b ≠ [w] := fun {a b k l} =>
    ⟨by simp, fun w _ e => by have := congrArg List.length e; simp at this; omega⟩
  have hv : ∀ {ks}, LuaSyn LuaName S .var ks → ks ≠ [] ∧ ∀ w ∈ luaKeywords, ks ≠ [w] := by
    intro ks h
    cases h with
    | name h => exact ⟨by simp, fun w hw e => h.2 (by rw [(List.cons.inj e).1]; exact hw)⟩
    | @index p e => cases e <;> exact two
    | member => exact two
  rcases hc with rfl | rfl
  · exact hv h
  · cases h with
    | oneVar h => exact hv h
    | @moreVars v vs h =>
      have := (hv h).1
      refine ⟨by simp, fun w _ e => ?_⟩
      have := congrArg List.length e
      have := List.length_pos_iff.mpr ‹v ≠ []›
      simp at *
      omega

theorem syn_eq (h : LuaSyn LuaName StringLike c ks) : EqName ks := by
  induction h with
  | @assign v es h1 _ ih1 ih2 =>
    obtain ⟨h2, h3⟩ := vars_word h1 (.inr rfl)
    refine ⟨ih1.1.app_cons h2, fun w r e => ?_⟩
    match v, ih1, h3, e with
    | [], _, _, e => exact absurd rfl h2
    | [k], _, h3, e => obtain ⟨rfl, _⟩ := List.cons.inj e; exact fun hk => h3 _ hk rfl
    | k :: l :: a, ha, _, e =>
      injection e with e1 e
      injection e with e2 _
      exact e1 ▸ ha.2 k a (by rw [e2])
  | nameField h => exact ⟨.cons (name_eq h), fun w r e => by rw [← (List.cons.inj e).1]; exact h.2⟩
  | localAssign h => exact .cons (by decide) ((attnames_eq h).1.app_cons (attnames_eq h).2)
  | const h => exact .cons (fixed_eq (by simp at h ⊢; tauto)) .nil
  | num h => exact .cons (numeral_eq h) .nil
  | bin _ h _ ih1 ih2 => exact ih1.app (.cons (fixed_eq (by simp [h])) ih2.1)
  | un h _ ih2 => exact .cons (fixed_eq (by simp [h])) ih2.1
  | moreFields _ h _ ih1 ih2 => exact ih1.app (.cons (fixed_eq (by simp; tauto)) ih2.1)
  | _ =>
    repeat' first
      | assumption
      | exact EqName.nil
      | exact NoEq.nil
      | exact (‹EqName _›).1
      | exact names_eq ‹_›
      | exact funcname_eq ‹_›
      | exact params_eq ‹_›
      | exact (attnames_eq ‹_›).1
      | decide
      | exact name_eq ‹_›
      | exact string_eq ‹_›
      | exact fixed_eq (by simp; tauto)
      | apply EqName.cons
      | apply EqName.app
      | apply NoEq.cons
      | apply NoEq.app

/-! ### tokens that are no names -/

/-- Every statement has a token that is no name. -/
def Firm (ks : List Bytes) : Prop := ∃ k ∈ ks, k ∈ luaFixed ∨ StringLike k

theorem Firm.right {a b : List Bytes} (h : Firm b) : Firm (a ++ b) := by obtain ⟨k, h1, h2⟩ := h; exact ⟨k, by simp [h1], h2⟩
theorem Firm.left {a b : List Bytes} (h : Firm a) : Firm (a ++ b) := by obtain ⟨k, h1, h2⟩ := h; exact ⟨k, by simp [h1], h2⟩

theorem syn_firm (h : LuaSyn N StringLike c ks) :
    (c = .stats ∨ c = .block → ks = [] ∨ Firm ks) ∧ (c ∈ [Syn.stat, .retstat, .args, .tableconstructor, .functioncall, .funcbody] → Firm ks) := by
  induction h with
  | block _ ih => exact ⟨fun _ => ih.1 (.inl rfl), fun h => absurd h (by decide)⟩
  | blockRet _ _ _ ih => exact ⟨fun _ => .inr (ih.2 (by decide)).right, fun h => absurd h (by decide)⟩
  | noStats => exact ⟨fun _ => .inl rfl, fun h => absurd h (by decide)⟩
  | someStats _ _ ih _ => exact ⟨fun _ => .inr (ih.2 (by decide)).left, fun h => absurd h (by decide)⟩
  | call _ ih => exact ⟨fun h => absurd h (by decide), fun _ => ih.2 (by decide)⟩
  | callArgs _ _ _ ih => exact ⟨fun h => absurd h (by decide), fun _ => (ih.2 (by decide)).right⟩
  | tableArgs _ ih => exact ⟨fun h => absurd h (by decide), fun _ => ih.2 (by decide)⟩
  | strArgs h => exact ⟨fun h => absurd h (by decide), fun _ => ⟨_, by simp, .inr h⟩⟩
  | method => exact ⟨fun h => absurd h (by decide), fun _ => ⟨b!":", by simp, .inl (by decide)⟩⟩
  | _ =>
    refine ⟨fun h => absurd h (by decide), ?_⟩
    first
      | exact fun h => absurd h (by decide)
      | exact fun _ => ⟨_, List.mem_cons_self, .inl (by decide)⟩
      | exact fun _ => ⟨b!"=", by simp, .inl (by decide)⟩

/-! ### the first token of a text -/

/-- What the first byte tells of a token. -/
def Sharp (k : Bytes) : Prop := ∃ b y, k = b :: y ∧ (NameStart b → LuaIdent k) ∧ ¬ (b = 32 ∨ 9 ≤ b ∧ b ≤ 13) ∧ (b = 61 → k = b!"=" ∨ k = b!"==")

theorem ident_sharp {k : Bytes} (h : LuaIdent k) : Sharp k := by
  obtain ⟨b, y, rfl, h1, h2⟩ := h
  refine ⟨b, y, rfl, fun _ => ⟨b, y, rfl, h1, h2⟩, ?_, ?_⟩
  · rw [← startB_iff] at h1
    have := bytes_hold (p := fun b => !startB b || !(decide (b = 32 ∨ 9 ≤ b ∧ b ≤ 13))) (by decide +kernel) b
    simpa only [h1, Bool.not_true, Bool.false_or, Bool.not_eq_true', decide_eq_false_iff_not] using this
  · rintro rfl
    simp [NameStart] at h1

theorem syn_sharp (h : LuaSyn LuaName StringLike c ks) : ∀ k ∈ ks, Sharp k := by
  refine syn_all (fun x h => ident_sharp h.1) ?_ ?_ ?_ h
  · rintro x ⟨b, y, rfl, h⟩
    refine ⟨b, y, rfl, ?_⟩
    rcases h with rfl | rfl | ⟨rfl, -⟩ <;> simp [NameStart]
  · intro x hx
    obtain ⟨b, y, rfl, h⟩ := numeral_head hx
    have := bytes_hold (p := fun b => !(digitB b || b == 46) || !startB b && !(decide (b = 32 ∨ 9 ≤ b ∧ b ≤ 13)) && b != 61) (by decide +kernel) b
    rw [show (digitB b || b == 46) = true by rw [Bool.or_eq_true, digitB_iff, beq_iff_eq]; exact h] at this
    simp only [Bool.not_true, Bool.false_or, Bool.and_eq_true, Bool.not_eq_true', ← Bool.not_eq_true, startB_iff, decide_eq_true_eq, bne_iff_ne] at this
    exact ⟨b, y, rfl, fun h => absurd h this.1.1, this.1.2, fun h => absurd h this.2⟩
  · intro k hk
    rcases List.mem_append.mp hk with h | h
    · exact ident_sharp (identB_of ((show ∀ k ∈ luaKeywords, identB k = true by decide +kernel) k h))
    · have := (show ∀ k ∈ luaSymbols, (match k with
          | [] => false
          | b :: _ => !startB b && !(decide (b = 32 ∨ 9 ≤ b ∧ b ≤ 13)) && (b != 61 || k == b!"=" || k == b!"==")) = true by decide +kernel) k h
      cases k with
      | nil => cases this
      | cons b y =>
        simp only [Bool.and_eq_true, Bool.or_eq_true, Bool.not_eq_true', ← Bool.not_eq_true, startB_iff, decide_eq_true_eq, bne_iff_ne, beq_iff_eq] at this
        exact ⟨b, y, rfl, fun h => absurd h this.1.1, this.1.2, by tauto⟩

theorem kept_space {x z : Bytes} {b : UInt8} (h : Kept ks x) (hs : ∀ k ∈ ks, Sharp k) (hb : b = 32 ∨ 9 ≤ b ∧ b ≤ 13) (e : x = b :: z) : Kept ks z := by
  induction h with
  | nil => cases e
  | gap hg hx ih =>
    cases hg with
    | nil => exact ih hs e
    | white _ hg => obtain ⟨-, rfl⟩ := List.cons.inj e; exact .gap hg hx
    | note hg => injection e with e _; subst e; exact absurd hb (by decide)
  | tok hk hx ih =>
    obtain ⟨c, y, rfl, _, h, _⟩ := hs _ List.mem_cons_self
    injection e with e _
    exact absurd (e ▸ hb) h

theorem kept_tok {x z : Bytes} {b : UInt8} (h : Kept ks x) (hb : ¬ (b = 32 ∨ 9 ≤ b ∧ b ≤ 13)) (hm : b ≠ 45) (e : x = b :: z) :
    ∃ k ls y, ks = k :: ls ∧ x = k ++ y ∧ (LuaIdent k → ∀ b z, y = b :: z → ¬ (NameStart b ∨ DecDigit b)) ∧ Kept ls y := by
  induction h with
  | nil => cases e
  | gap hg hx ih =>
    cases hg with
    | nil => exact ih e
    | white h hg => injection e with e _; exact absurd (e ▸ h) hb
    | note hg => injection e with e _; exact absurd e.symm hm
  | tok hk hx ih => exact ⟨_, _, _, rfl, rfl, hk, hx⟩

theorem ident_bytes {k : Bytes} (h : LuaIdent k) : ∀ c ∈ k, NameStart c ∨ DecDigit c := by
  obtain ⟨b, y, rfl, h1, h2⟩ := h
  exact List.forall_mem_cons.mpr ⟨.inl h1, h2⟩

theorem span_inj {P : UInt8 → Prop} : ∀ {a a' b b' : Bytes}, (∀ c ∈ a, P c) → (∀ c ∈ a', P c) → (∀ c z, b = c :: z → ¬ P c) → (∀ c z, b' = c :: z → ¬ P c) → a ++ b = a' ++ b' →
    a = a' ∧ b = b'
  | [], [], _, _, _, _, _, _, e => ⟨rfl, e⟩
  | c :: a, [], b, b', h1, _, _, h4, e => absurd (h1 c (by simp)) (h4 c (a ++ b) e.symm)
  | [], c :: a', b, b', _, h2, h3, _, e => absurd (h2 c (by simp)) (h3 c (a' ++ b') e)
  | c :: a, d :: a', b, b', h1, h2, h3, h4, e => by
    injection e with e1 e
    obtain ⟨e2, e3⟩ := span_inj (fun c hc => h1 c (by simp [hc])) (fun c hc => h2 c (by simp [hc])) h3 h4 e
    exact ⟨by rw [e1, e2], e3⟩

/-- A word at the beginning of a text is the first token. -/
theorem kept_word {w z : Bytes} (h : Kept ks (w ++ z)) (hs : ∀ k ∈ ks, Sharp k) (hw : LuaIdent w) (hz : ∀ b y, z = b :: y → ¬ (NameStart b ∨ DecDigit b)) :
    ∃ ls, ks = w :: ls ∧ Kept ls z := by
  obtain ⟨b, y, rfl, h1, h2⟩ := id hw
  have hb : ¬ (b = 32 ∨ 9 ≤ b ∧ b ≤ 13) ∧ b ≠ 45 := by
    rw [← startB_iff] at h1
    have := bytes_hold (p := fun b => !startB b || !(decide (b = 32 ∨ 9 ≤ b ∧ b ≤ 13)) && b != 45) (by decide +kernel) b
    simpa only [h1, Bool.not_true, Bool.false_or, Bool.and_eq_true, Bool.not_eq_true', decide_eq_false_iff_not, bne_iff_ne] using this
  obtain ⟨k, ls, x, rfl, e, h3, h4⟩ := kept_tok h hb.1 hb.2 rfl
  obtain ⟨c, l, rfl, h5, _⟩ := hs _ List.mem_cons_self
  obtain ⟨rfl, -⟩ := List.cons.inj e
  have h6 := h5 h1
  obtain ⟨e1, rfl⟩ := span_inj (ident_bytes hw) (ident_bytes h6) hz (h3 h6) e
  exact ⟨ls, by rw [e1], h4⟩

/-! ### Lua is in this bound -/

theorem source_almost {x : Bytes} (h : LuaSource x) : AlmostLua x := by
  have hg : ∀ {g}, LuaGap g → AnyGap g := by
    intro g h
    induction h with
    | nil => exact .nil
    | white h _ ih => exact .white (by rcases h with rfl | rfl | rfl | rfl <;> decide) ih
    | @line cs b g _ _ _ _ _ ih =>
      have := AnyGap.note (y := encText cs ++ [b]) ih
      simpa using this
    | @long k cs g _ _ ih =>
      have := AnyGap.note (y := encText (luaOpen k ++ cs ++ luaClose k)) ih
      simpa using this
  obtain ⟨w, ks, y, rfl, hw, h1, h2⟩ := h
  refine ⟨ks, syn_mono ?_ h1, .gap (hg hw) ?_⟩
  · rintro k (⟨q, y, hq, rfl, _⟩ | hl)
    · exact ⟨q, _, rfl, by rcases hq with rfl | rfl <;> simp⟩
    · obtain ⟨y, rfl | rfl⟩ := long_start hl <;> exact ⟨91, _, rfl, by simp⟩
  · clear h1
    induction h2 with
    | nil => exact .nil
    | @cons k w x ks hk hw hj _ ih =>
      refine .tok (fun hi b z e hb => hj b z e (.inl ⟨?_, hb⟩)) (.gap (hg hw) ih)
      have hne : k ≠ [] := by obtain ⟨b, y, rfl, _⟩ := hi; simp
      exact ⟨_, List.getLast?_eq_some_getLast hne ▸ rfl, ident_bytes hi _ (List.getLast_mem hne)⟩

end Lua
end Tok
