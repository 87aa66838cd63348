/-
What the rules of the Lua grammar are made of.
-/
import Verif.Proofs.TellLeaf

namespace Tok
open Spec

namespace Lua

/-- The phrases of the relaxed syntax. -/
abbrev Loose := LuaSyn LuaIdent LooseString

/-- The tokens of the rules. -/
def toks (i : Nat) (ks : List Bytes) : Prop :=
  match i with
  | 1 => ∃ x, ks = [x] ∧ LuaIdent x
  | 2 => ∃ x, ks = [x] ∧ LuaNumeral x
  | 3 => ∃ x, ks = [x] ∧ LooseString x
  | 5 => ∃ x, ks = [x] ∧ x ∈ luaUnary
  | 6 => ∃ x, ks = [x] ∧ x ∈ luaBinary
  | 7 => ∃ x, ks = [x] ∧ (x = b!"," ∨ x = b!";")
  | 8 => Loose .field ks
  | 9 => Loose .fields ks ∨ ∃ f x, ks = f ++ [x] ∧ Loose .fields f ∧ (x = b!"," ∨ x = b!";")
  | 10 => Loose .tableconstructor ks
  | 11 => SynParams LuaIdent ks
  | 12 => Loose .funcbody ks
  | 13 => Loose .exp ks
  | 14 => Loose .args ks
  | 15 => Loose .functioncall ks
  | 16 => Loose .prefixexp ks
  | 17 | 18 => Loose .exp ks
  | 19 => Loose .explist ks
  | 20 => SynNames LuaIdent ks
  | 21 => ∀ p, Loose .prefixexp p → Loose .var (p ++ ks)
  | 22 => Loose .var ks
  | 23 => Loose .varlist ks
  | 24 => SynFuncName LuaIdent ks
  | 25 => Loose .stat ks
  | 26 => Loose .retstat ks
  | 27 => SynAttrib LuaIdent ks
  | 28 => SynAttNames LuaIdent ks
  | 29 | 30 | 31 | 32 | 33 | 34 | 35 | 36 | 37 | 38 | 39 | 40 => Loose .stat ks
  | _ => Loose .block ks

/-- The reader of a rule. -/
def ruleBody (i : Nat) : Reader := ((env[i]?.bind (·.reader)).getD (.invalid []))

variable {ks : List Bytes}

theorem rune_lang {L : Nat → List Bytes → Prop} (c : UInt8) (h : lang L (.rune c.toNat) ks) : ks = [[c]] := by
  obtain ⟨b, h1, rfl⟩ := h
  have : b = c := UInt8.toNat_inj.mp (by omega)
  rw [this]

theorem star_acc {C P : List Bytes → Prop} (hP : ∀ a c, P a → C c → P (a ++ c)) {b : List Bytes} (h : Star C b) : ∀ {a}, P a → P (a ++ b) := by
  induction h with
  | nil => intro a ha; simpa using ha
  | cons hc _ ih => intro a ha; rw [← List.append_assoc]; exact ih (hP _ _ ha hc)

theorem inc_unop (h : lang toks (ruleBody 5) ks) : toks 5 ks := by
  rcases h with rfl | rfl | rfl | rfl | h
  all_goals first | exact ⟨_, rfl, by decide⟩ | cases h

theorem inc_binop (h : lang toks (ruleBody 6) ks) : toks 6 ks := by
  rcases h with rfl | rfl | rfl | rfl | rfl | rfl | rfl | rfl | rfl | rfl | rfl | rfl | rfl | rfl | rfl | rfl | rfl | rfl | rfl | rfl | rfl | h
  all_goals first | exact ⟨_, rfl, by decide⟩ | cases h

theorem inc_fieldsep (h : lang toks (ruleBody 7) ks) : toks 7 ks := by
  obtain ⟨b, hb, rfl⟩ := h
  simp only [List.mem_cons, List.not_mem_nil, or_false] at hb
  rcases hb with rfl | rfl
  · exact ⟨_, rfl, .inl rfl⟩
  · exact ⟨_, rfl, .inr rfl⟩

theorem inc_field (h : lang toks (ruleBody 8) ks) : toks 8 ks := by
  rcases h with ⟨_, _, rfl, h1, a, _, rfl, ha, _, _, rfl, h2, _, _, rfl, h3, b, _, rfl, hb, rfl⟩ | ⟨_, _, rfl, ⟨x, rfl, hx⟩, _, _, rfl, h2, e, _, rfl, he, rfl⟩ | h | h
  · cases rune_lang 91 h1
    cases rune_lang 93 h2
    cases rune_lang 61 h3
    simpa [toks] using LuaSyn.keyField (N := LuaIdent) (S := LooseString) ha hb
  · cases rune_lang 61 h2
    simpa [toks] using LuaSyn.nameField (N := LuaIdent) (S := LooseString) hx he
  · exact LuaSyn.expField h
  · cases h

theorem star_fields {b : List Bytes} (h : Star (lang toks (.seq [.rule 7, .rule 8])) b) : ∀ {a}, Loose .field a → Loose .fields (a ++ b) := by
  induction h with
  | nil => intro a ha; simpa using LuaSyn.oneField ha
  | cons hc _ ih =>
    obtain ⟨_, _, rfl, ⟨s, rfl, hs⟩, f, _, rfl, hf, rfl⟩ := hc
    intro a ha
    simpa using LuaSyn.moreFields ha hs (ih hf)

theorem inc_fieldlist (h : lang toks (ruleBody 9) ks) : toks 9 ks := by
  obtain ⟨f, _, rfl, hf, b, _, rfl, hb, s, _, rfl, hs, rfl⟩ := h
  have := star_fields hb hf
  rcases hs with rfl | ⟨s, rfl, hs⟩
  · exact .inl (by simpa using this)
  · exact .inr ⟨_, s, by simp, this, hs⟩

theorem inc_table (h : lang toks (ruleBody 10) ks) : toks 10 ks := by
  obtain ⟨_, _, rfl, h1, f, _, rfl, hf, _, _, rfl, h2, rfl⟩ := h
  cases rune_lang 123 h1
  cases rune_lang 125 h2
  rcases hf with rfl | hf | ⟨f, s, rfl, hf, hs⟩
  · exact LuaSyn.noFields
  · simpa [toks] using LuaSyn.someFields hf
  · simpa [toks] using LuaSyn.someFieldsSep hf hs

theorem inc_params (h : lang toks (ruleBody 11) ks) : toks 11 ks := by
  rcases h with ⟨n, _, rfl, hn, o, _, rfl, ho, rfl⟩ | rfl | h
  · rcases ho with rfl | ⟨_, _, rfl, h1, _, _, rfl, rfl, rfl⟩
    · simpa [toks] using SynParams.names hn
    · cases rune_lang 44 h1
      simpa [toks] using SynParams.namesDots hn
  · exact SynParams.dots
  · cases h

theorem inc_funcbody (h : lang toks (ruleBody 12) ks) : toks 12 ks := by
  obtain ⟨_, _, rfl, h1, p, _, rfl, hp, _, _, rfl, h2, b, _, rfl, hb, _, _, rfl, rfl, rfl⟩ := h
  cases rune_lang 40 h1
  cases rune_lang 41 h2
  have hp' : SynParams LuaIdent p := by
    rcases hp with rfl | hp
    · exact .none
    · exact hp
  simpa [toks] using LuaSyn.funcbody (S := LooseString) hp' hb

theorem inc_funcdef (h : lang toks (ruleBody 13) ks) : toks 13 ks := by
  obtain ⟨_, _, rfl, rfl, b, _, rfl, hb, rfl⟩ := h
  simpa [toks] using LuaSyn.functiondef (N := LuaIdent) (S := LooseString) hb

theorem inc_args (h : lang toks (ruleBody 14) ks) : toks 14 ks := by
  rcases h with ⟨_, _, rfl, h1, e, _, rfl, he, _, _, rfl, h2, rfl⟩ | h | ⟨x, rfl, hx⟩ | h
  · cases rune_lang 40 h1
    cases rune_lang 41 h2
    rcases he with rfl | he
    · exact LuaSyn.noArgs
    · simpa [toks] using LuaSyn.someArgs (N := LuaIdent) (S := LooseString) he
  · exact LuaSyn.tableArgs h
  · exact LuaSyn.strArgs hx
  · cases h

theorem call_inc {p : List Bytes} (hp : Loose .prefixexp p) (h : lang toks nameAndArgs ks) : Loose .functioncall (p ++ ks) := by
  obtain ⟨o, _, rfl, ho, a, _, rfl, ha, rfl⟩ := h
  rcases ho with rfl | ⟨_, _, rfl, h1, _, _, rfl, ⟨x, rfl, hx⟩, rfl⟩
  · simpa using LuaSyn.callArgs hp ha
  · cases rune_lang 58 h1
    simpa using LuaSyn.method hp hx ha

theorem voe_inc (h : lang toks varOrExp ks) : Loose .prefixexp ks := by
  rcases h with h | ⟨_, _, rfl, h1, e, _, rfl, he, _, _, rfl, h2, rfl⟩ | h
  · exact .varPrefix h
  · cases rune_lang 40 h1
    cases rune_lang 41 h2
    simpa using LuaSyn.paren (N := LuaIdent) (S := LooseString) he
  · cases h

theorem inc_funccall (h : lang toks (ruleBody 15) ks) : toks 15 ks := by
  obtain ⟨p, _, rfl, hp, c, _, rfl, ⟨a, b, rfl, ha, hb⟩, rfl⟩ := h
  have := star_acc (P := Loose .functioncall) (fun a c h1 h2 => call_inc (.callPrefix h1) h2) hb (call_inc (voe_inc hp) ha)
  simpa [toks] using this

theorem calls_inc {p : List Bytes} (hp : Loose .prefixexp p) (h : Star (lang toks nameAndArgs) ks) : Loose .prefixexp (p ++ ks) :=
  star_acc (P := Loose .prefixexp) (fun _ _ h1 h2 => .callPrefix (call_inc h1 h2)) h hp

theorem inc_prefixexp (h : lang toks (ruleBody 16) ks) : toks 16 ks := by
  obtain ⟨p, _, rfl, hp, c, _, rfl, hc, rfl⟩ := h
  simpa [toks] using calls_inc (voe_inc hp) hc

theorem inc_exp (h : lang toks (ruleBody 18) ks) : toks 18 ks := by
  rcases h with ⟨a, _, rfl, ha, _, _, rfl, ⟨op, rfl, ho⟩, b, _, rfl, hb, rfl⟩ | h | h
  · simpa [toks] using LuaSyn.bin (N := LuaIdent) (S := LooseString) ha ho hb
  · exact h
  · cases h

theorem star_exps {b : List Bytes} (h : Star (lang toks (.skipSeq skiper [.rune 44, .rule 18])) b) : ∀ {a}, Loose .exp a → Loose .explist (a ++ b) := by
  induction h with
  | nil => intro a ha; simpa using LuaSyn.oneExp ha
  | cons hc _ ih =>
    obtain ⟨_, _, rfl, h1, f, _, rfl, hf, rfl⟩ := hc
    cases rune_lang 44 h1
    intro a ha
    simpa using LuaSyn.moreExps ha (ih hf)

theorem inc_explist (h : lang toks (ruleBody 19) ks) : toks 19 ks := by
  obtain ⟨a, _, rfl, ha, b, _, rfl, hb, rfl⟩ := h
  simpa [toks] using star_exps hb ha

theorem star_names {b : List Bytes} (h : Star (lang toks (.seq [.rune 44, .rule 1])) b) : ∀ {x}, LuaIdent x → SynNames LuaIdent (x :: b) := by
  induction h with
  | nil => intro a ha; exact .one ha
  | cons hc _ ih =>
    obtain ⟨_, _, rfl, h1, _, _, rfl, ⟨y, rfl, hy⟩, rfl⟩ := hc
    cases rune_lang 44 h1
    intro a ha
    exact .cons ha (ih hy)

theorem inc_namelist (h : lang toks (ruleBody 20) ks) : toks 20 ks := by
  obtain ⟨_, _, rfl, ⟨x, rfl, hx⟩, b, _, rfl, hb, rfl⟩ := h
  simpa [toks] using star_names hb hx

theorem inc_varsuffix (h : lang toks (ruleBody 21) ks) : toks 21 ks := by
  obtain ⟨c, _, rfl, hc, s, _, rfl, hs, rfl⟩ := h
  intro p hp
  have := calls_inc hp hc
  rcases hs with ⟨_, _, rfl, h1, e, _, rfl, he, _, _, rfl, h2, rfl⟩ | ⟨_, _, rfl, h1, _, _, rfl, ⟨x, rfl, hx⟩, rfl⟩ | h
  · cases rune_lang 91 h1
    cases rune_lang 93 h2
    simpa using LuaSyn.index this he
  · cases rune_lang 46 h1
    simpa using LuaSyn.member this hx
  · cases h

theorem inc_var (h : lang toks (ruleBody 22) ks) : toks 22 ks := by
  obtain ⟨v, _, rfl, hv, s, _, rfl, hs, rfl⟩ := h
  have hv' : Loose .var v := by
    rcases hv with ⟨x, rfl, hx⟩ | ⟨_, _, rfl, h1, e, _, rfl, he, _, _, rfl, h2, s, _, rfl, hs, rfl⟩ | h
    · exact .name hx
    · cases rune_lang 40 h1
      cases rune_lang 41 h2
      have := hs _ (LuaSyn.paren (N := LuaIdent) (S := LooseString) he)
      simpa using this
    · cases h
  have := star_acc (P := Loose .var) (C := toks 21) (fun a c h1 h2 => h2 a (.varPrefix h1)) hs hv'
  simpa [toks] using this

theorem star_vars {sk : Reader} {b : List Bytes} (h : Star (lang toks (.skipSeq sk [.rune 44, .rule 22])) b) : ∀ {a}, Loose .var a → Loose .varlist (a ++ b) := by
  induction h with
  | nil => intro a ha; simpa using LuaSyn.oneVar ha
  | cons hc _ ih =>
    obtain ⟨_, _, rfl, h1, f, _, rfl, hf, rfl⟩ := hc
    cases rune_lang 44 h1
    intro a ha
    simpa using LuaSyn.moreVars ha (ih hf)

theorem inc_varlist (h : lang toks (ruleBody 23) ks) : toks 23 ks := by
  obtain ⟨a, _, rfl, ha, b, _, rfl, hb, rfl⟩ := h
  simpa [toks] using star_vars hb ha

theorem star_dots {sk : Reader} {b c : List Bytes} (hc : c = [] ∨ ∃ y, c = [b!":", y] ∧ LuaIdent y) (h : Star (lang toks (.skipSeq sk [.rune 46, .rule 1])) b) :
    ∀ {x}, LuaIdent x → SynFuncName LuaIdent (x :: (b ++ c)) := by
  induction h with
  | nil =>
    intro a ha
    rcases hc with rfl | ⟨y, rfl, hy⟩
    · exact .one ha
    · exact .method ha hy
  | cons hd _ ih =>
    obtain ⟨_, _, rfl, h1, _, _, rfl, ⟨y, rfl, hy⟩, rfl⟩ := hd
    cases rune_lang 46 h1
    intro a ha
    exact .dot ha (ih hy)

theorem inc_funcname (h : lang toks (ruleBody 24) ks) : toks 24 ks := by
  obtain ⟨_, _, rfl, ⟨x, rfl, hx⟩, b, _, rfl, hb, c, _, rfl, hc, rfl⟩ := h
  have hc' : c = [] ∨ ∃ y, c = [b!":", y] ∧ LuaIdent y := by
    rcases hc with rfl | ⟨_, _, rfl, h1, _, _, rfl, ⟨y, rfl, hy⟩, rfl⟩
    · exact .inl rfl
    · cases rune_lang 58 h1
      exact .inr ⟨y, rfl, hy⟩
  simpa [toks] using star_dots hc' hb hx

theorem inc_label (h : lang toks (ruleBody 25) ks) : toks 25 ks := by
  obtain ⟨_, _, rfl, rfl, _, _, rfl, ⟨x, rfl, hx⟩, _, _, rfl, rfl, rfl⟩ := h
  exact LuaSyn.label hx

theorem inc_retstat (h : lang toks (ruleBody 26) ks) : toks 26 ks := by
  obtain ⟨_, _, rfl, rfl, e, _, rfl, he, s, _, rfl, hs, rfl⟩ := h
  rcases hs with rfl | hs
  · rcases he with rfl | he
    · exact LuaSyn.ret
    · simpa [toks] using LuaSyn.retExps (N := LuaIdent) (S := LooseString) he
  · cases rune_lang 59 hs
    rcases he with rfl | he
    · exact LuaSyn.retSemi
    · simpa [toks] using LuaSyn.retExpsSemi (N := LuaIdent) (S := LooseString) he

theorem inc_attrib (h : lang toks (ruleBody 27) ks) : toks 27 ks := by
  rcases h with rfl | ⟨_, _, rfl, h1, _, _, rfl, ⟨x, rfl, hx⟩, _, _, rfl, h2, rfl⟩
  · exact SynAttrib.none
  · cases rune_lang 60 h1
    cases rune_lang 62 h2
    exact SynAttrib.some hx

theorem star_atts {sk : Reader} {b : List Bytes} (h : Star (lang toks (.skipSeq sk [.rune 44, .rule 1, .rule 27])) b) :
    ∀ {x a}, LuaIdent x → SynAttrib LuaIdent a → SynAttNames LuaIdent (x :: (a ++ b)) := by
  induction h with
  | nil => intro x a hx ha; simpa using SynAttNames.one hx ha
  | cons hc _ ih =>
    obtain ⟨_, _, rfl, h1, _, _, rfl, ⟨y, rfl, hy⟩, c, _, rfl, hc, rfl⟩ := hc
    cases rune_lang 44 h1
    intro x a hx ha
    simpa using SynAttNames.cons hx ha (ih hy hc)

theorem inc_attnames (h : lang toks (ruleBody 28) ks) : toks 28 ks := by
  obtain ⟨_, _, rfl, ⟨x, rfl, hx⟩, a, _, rfl, ha, b, _, rfl, hb, rfl⟩ := h
  simpa [toks] using star_atts hb hx ha

theorem inc_break (h : lang toks (ruleBody 29) ks) : toks 29 ks := by
  cases h
  exact LuaSyn.break

theorem inc_goto (h : lang toks (ruleBody 30) ks) : toks 30 ks := by
  obtain ⟨_, _, rfl, rfl, _, _, rfl, ⟨x, rfl, hx⟩, rfl⟩ := h
  exact LuaSyn.goto hx

theorem inc_do (h : lang toks (ruleBody 31) ks) : toks 31 ks := by
  obtain ⟨_, _, rfl, rfl, b, _, rfl, hb, _, _, rfl, rfl, rfl⟩ := h
  simpa [toks] using LuaSyn.doS (N := LuaIdent) (S := LooseString) hb

theorem inc_while (h : lang toks (ruleBody 32) ks) : toks 32 ks := by
  obtain ⟨_, _, rfl, rfl, e, _, rfl, he, _, _, rfl, rfl, b, _, rfl, hb, _, _, rfl, rfl, rfl⟩ := h
  simpa [toks] using LuaSyn.whileS (N := LuaIdent) (S := LooseString) he hb

theorem inc_repeat (h : lang toks (ruleBody 33) ks) : toks 33 ks := by
  obtain ⟨_, _, rfl, rfl, b, _, rfl, hb, _, _, rfl, rfl, e, _, rfl, he, rfl⟩ := h
  simpa [toks] using LuaSyn.repeatS (N := LuaIdent) (S := LooseString) hb he

theorem star_elifs {sk : Reader} {b : List Bytes} (h : Star (lang toks (.skipSeq sk [.lit b!"elseif", .rule 18, .lit b!"then", .rule 41])) b) : Loose .elifs b := by
  induction h with
  | nil => exact .noElifs
  | cons hc _ ih =>
    obtain ⟨_, _, rfl, rfl, e, _, rfl, he, _, _, rfl, rfl, b, _, rfl, hb, rfl⟩ := hc
    simpa using LuaSyn.someElifs (N := LuaIdent) (S := LooseString) he hb ih

theorem inc_ifelse (h : lang toks (ruleBody 34) ks) : toks 34 ks := by
  obtain ⟨_, _, rfl, rfl, e, _, rfl, he, _, _, rfl, rfl, b, _, rfl, hb, l, _, rfl, hl, d, _, rfl, hd, _, _, rfl, rfl, rfl⟩ := h
  rcases hd with rfl | ⟨_, _, rfl, rfl, d, _, rfl, hd, rfl⟩
  · simpa [toks] using LuaSyn.ifS (N := LuaIdent) (S := LooseString) he hb (star_elifs hl)
  · simpa [toks] using LuaSyn.ifElse (N := LuaIdent) (S := LooseString) he hb (star_elifs hl) hd

theorem inc_for (h : lang toks (ruleBody 35) ks) : toks 35 ks := by
  obtain ⟨_, _, rfl, rfl, _, _, rfl, ⟨x, rfl, hx⟩, _, _, rfl, h1, a, _, rfl, ha, _, _, rfl, h2, e, _, rfl, he, s, _, rfl, hs, _, _, rfl, rfl, b, _, rfl, hb, _, _, rfl, rfl, rfl⟩ := h
  cases rune_lang 61 h1
  cases rune_lang 44 h2
  rcases hs with rfl | ⟨_, _, rfl, h3, s, _, rfl, hs, rfl⟩
  · simpa [toks] using LuaSyn.forS (N := LuaIdent) (S := LooseString) hx ha he hb
  · cases rune_lang 44 h3
    simpa [toks] using LuaSyn.forStep (N := LuaIdent) (S := LooseString) hx ha he hs hb

theorem inc_foreach (h : lang toks (ruleBody 36) ks) : toks 36 ks := by
  obtain ⟨_, _, rfl, rfl, n, _, rfl, hn, _, _, rfl, rfl, e, _, rfl, he, _, _, rfl, rfl, b, _, rfl, hb, _, _, rfl, rfl, rfl⟩ := h
  simpa [toks] using LuaSyn.forEach (N := LuaIdent) (S := LooseString) hn he hb

theorem inc_func (h : lang toks (ruleBody 37) ks) : toks 37 ks := by
  obtain ⟨_, _, rfl, rfl, n, _, rfl, hn, b, _, rfl, hb, rfl⟩ := h
  simpa [toks] using LuaSyn.function (N := LuaIdent) (S := LooseString) hn hb

theorem inc_localfunc (h : lang toks (ruleBody 38) ks) : toks 38 ks := by
  obtain ⟨_, _, rfl, rfl, _, _, rfl, rfl, _, _, rfl, ⟨x, rfl, hx⟩, b, _, rfl, hb, rfl⟩ := h
  simpa [toks] using LuaSyn.localFunction (N := LuaIdent) (S := LooseString) hx hb

theorem inc_localatt (h : lang toks (ruleBody 39) ks) : toks 39 ks := by
  obtain ⟨_, _, rfl, rfl, n, _, rfl, hn, e, _, rfl, he, rfl⟩ := h
  rcases he with rfl | ⟨_, _, rfl, h1, e, _, rfl, he, rfl⟩
  · simpa [toks] using LuaSyn.localS (N := LuaIdent) (S := LooseString) hn
  · cases rune_lang 61 h1
    simpa [toks] using LuaSyn.localAssign (N := LuaIdent) (S := LooseString) hn he

theorem inc_stat (h : lang toks (ruleBody 40) ks) : toks 40 ks := by
  rcases h with h | ⟨v, _, rfl, hv, _, _, rfl, h1, e, _, rfl, he, rfl⟩ | h | h | h | h | h | h | h | h | h | h | h | h | h | h
  · cases rune_lang 59 h
    exact LuaSyn.semi
  · cases rune_lang 61 h1
    simpa [toks] using LuaSyn.assign (N := LuaIdent) (S := LooseString) hv he
  · exact h
  · exact h
  · exact h
  · exact h
  · exact h
  · exact h
  · exact h
  · exact h
  · exact h
  · exact h
  · exact h
  · exact h
  · exact LuaSyn.call h
  · cases h

theorem star_stats {b : List Bytes} (h : Star (toks 40) b) : Loose .stats b := by
  induction h with
  | nil => exact .noStats
  | cons h _ ih => exact .someStats h ih

theorem inc_block (h : lang toks (ruleBody 41) ks) : toks 41 ks := by
  obtain ⟨b, _, rfl, hb, r, _, rfl, hr, rfl⟩ := h
  rcases hr with rfl | hr
  · simpa [toks] using LuaSyn.block (star_stats hb)
  · simpa [toks] using LuaSyn.blockRet (star_stats hb) hr

/-! ### all rules -/

variable {rt : Rt} {n : Nat}

theorem rule_tells {i : Nat} {nm : Bytes} {C : List Bytes → Prop} (hi : env[i]? = some ⟨nm, some (ruleBody i)⟩) (h : Tells (eat rt env n (ruleBody i)) C) : Tells (eat rt env (n + 1) (.rule i)) C :=
  fun st ok st' e => by
    obtain ⟨m, hm, e1⟩ := rule_inv hi e
    cases hm
    exact h st ok st' e1

theorem final_tells (ih : ∀ m, m ≤ n → ∀ r, told r = true → Tells (eat rt env m r) (lang toks r)) : Tells (eat rt env n (ruleBody 17)) (Loose .exp) := by
  refine (tells_any_reader (T := fun _ => Loose .exp) fun m hm r hr => ?_).mono fun ks ⟨_, _, h⟩ => h
  have ih' := ih m (by omega)
  simp only [List.mem_cons, List.not_mem_nil, or_false] at hr
  rcases hr with rfl | rfl | rfl | rfl | rfl | rfl | rfl | rfl | rfl | rfl
  · exact (ih' (.lit b!"nil") rfl).mono fun ks h => by cases h; exact .const (by decide)
  · exact (ih' (.lit b!"false") rfl).mono fun ks h => by cases h; exact .const (by decide)
  · exact (ih' (.lit b!"true") rfl).mono fun ks h => by cases h; exact .const (by decide)
  · exact (numeral_tells m).mono fun ks ⟨x, h1, h2⟩ => by subst h1; exact .num h2
  · exact (literal_tells m).mono fun ks ⟨x, h1, h2⟩ => by subst h1; exact .str h2
  · exact (ih' (.lit b!"...") rfl).mono fun ks h => by cases h; exact .const (by decide)
  · exact ih' (.rule 13) (by decide)
  · refine (ih' (.skipSeq skiper [.rule 5, .rule 18]) (by decide)).mono fun ks h => ?_
    obtain ⟨_, _, rfl, ⟨op, rfl, ho⟩, e, _, rfl, he, rfl⟩ := h
    simpa using LuaSyn.un (N := LuaIdent) (S := LooseString) ho he
  · exact (ih' (.rule 10) (by decide)).mono fun ks h => .tableExp h
  · exact (ih' (.rule 16) (by decide)).mono fun ks h => .prefixexp h

theorem rules_tell (n i : Nat) (hi : told (.rule i) = true) (ih : ∀ m, m ≤ n → ∀ r, told r = true → Tells (eat rt env m r) (lang toks r)) :
    Tells (eat rt env (n + 1) (.rule i)) (toks i) := by
  have ih' := ih n (Nat.le_refl n)
  match i with
  | 0 => cases hi
  | 1 => exact name_tells _
  | 2 => exact rule_tells rfl (numeral_tells n)
  | 3 => exact literal_tells _
  | 4 => cases hi
  | 5 => exact rule_tells rfl ((ih' _ (by decide)).mono fun _ => inc_unop)
  | 6 => exact rule_tells rfl ((ih' _ (by decide)).mono fun _ => inc_binop)
  | 7 => exact rule_tells rfl ((ih' _ (by decide)).mono fun _ => inc_fieldsep)
  | 8 => exact rule_tells rfl ((ih' _ (by decide)).mono fun _ => inc_field)
  | 9 => exact rule_tells rfl ((ih' _ (by decide)).mono fun _ => inc_fieldlist)
  | 10 => exact rule_tells rfl ((ih' _ (by decide)).mono fun _ => inc_table)
  | 11 => exact rule_tells rfl ((ih' _ (by decide)).mono fun _ => inc_params)
  | 12 => exact rule_tells rfl ((ih' _ (by decide)).mono fun _ => inc_funcbody)
  | 13 => exact rule_tells rfl ((ih' _ (by decide)).mono fun _ => inc_funcdef)
  | 14 => exact rule_tells rfl ((ih' _ (by decide)).mono fun _ => inc_args)
  | 15 => exact rule_tells rfl ((ih' _ (by decide)).mono fun _ => inc_funccall)
  | 16 => exact rule_tells rfl ((ih' _ (by decide)).mono fun _ => inc_prefixexp)
  | 17 => exact rule_tells rfl (final_tells ih)
  | 18 => exact rule_tells rfl ((ih' _ (by decide)).mono fun _ => inc_exp)
  | 19 => exact rule_tells rfl ((ih' _ (by decide)).mono fun _ => inc_explist)
  | 20 => exact rule_tells rfl ((ih' _ (by decide)).mono fun _ => inc_namelist)
  | 21 => exact rule_tells rfl ((ih' _ (by decide)).mono fun _ => inc_varsuffix)
  | 22 => exact rule_tells rfl ((ih' _ (by decide)).mono fun _ => inc_var)
  | 23 => exact rule_tells rfl ((ih' _ (by decide)).mono fun _ => inc_varlist)
  | 24 => exact rule_tells rfl ((ih' _ (by decide)).mono fun _ => inc_funcname)
  | 25 => exact rule_tells rfl ((ih' _ (by decide)).mono fun _ => inc_label)
  | 26 => exact rule_tells rfl ((ih' _ (by decide)).mono fun _ => inc_retstat)
  | 27 => exact rule_tells rfl ((ih' _ (by decide)).mono fun _ => inc_attrib)
  | 28 => exact rule_tells rfl ((ih' _ (by decide)).mono fun _ => inc_attnames)
  | 29 => exact rule_tells rfl ((ih' _ (by decide)).mono fun _ => inc_break)
  | 30 => exact rule_tells rfl ((ih' _ (by decide)).mono fun _ => inc_goto)
  | 31 => exact rule_tells rfl ((ih' _ (by decide)).mono fun _ => inc_do)
  | 32 => exact rule_tells rfl ((ih' _ (by decide)).mono fun _ => inc_while)
  | 33 => exact rule_tells rfl ((ih' _ (by decide)).mono fun _ => inc_repeat)
  | 34 => exact rule_tells rfl ((ih' _ (by decide)).mono fun _ => inc_ifelse)
  | 35 => exact rule_tells rfl ((ih' _ (by decide)).mono fun _ => inc_for)
  | 36 => exact rule_tells rfl ((ih' _ (by decide)).mono fun _ => inc_foreach)
  | 37 => exact rule_tells rfl ((ih' _ (by decide)).mono fun _ => inc_func)
  | 38 => exact rule_tells rfl ((ih' _ (by decide)).mono fun _ => inc_localfunc)
  | 39 => exact rule_tells rfl ((ih' _ (by decide)).mono fun _ => inc_localatt)
  | 40 => exact rule_tells rfl ((ih' _ (by decide)).mono fun _ => inc_stat)
  | 41 => exact rule_tells rfl ((ih' _ (by decide)).mono fun _ => inc_block)
  | 42 => exact rule_tells rfl (ih' (.rule 41) (by decide))
  | i + 43 =>
    have := of_decide_eq_true (Bool.and_eq_true_iff.mp hi).2
    simp only [iScript] at this
    omega

/-- What the readers of the grammar go over is spelt from their tokens. -/
theorem tells (n : Nat) (r : Reader) (h : told r = true) : Tells (eat rt env n r) (lang toks r) := tells_all rules_tell skips_gaps n r h

end Lua
end Tok
