/-
The phrases of Spec/LuaProg.lean are phrases of Lua 5.4.
-/
import Verif.Spec.LuaGrammar
import Verif.Proofs.LuaGood

namespace Tok
open Spec

namespace Lua

variable {G : Bytes → Prop} {k x : Bytes} {ks l l' m m' : List Bytes} {b : UInt8}

/-! ### what joins a token -/

def joinsB (k : Bytes) (b : UInt8) : Bool :=
  (k.getLast?.any (fun a => startB a || digitB a) && (startB b || digitB b)) || (k.head?.any digitB && b == 46) ||
  (b!"--" :: b!"[[" :: b!"[=" :: luaSymbols).any (fun y => (k ++ [b]).isPrefixOf y) || (k.head? == some 60 && k.getLast? == some 62 && (b == 61 || b == 62))

theorem joinsB_of (h : Joins k b) : joinsB k b = true := by
  simp only [joinsB, Bool.or_eq_true, Bool.and_eq_true, Option.any_eq_true, List.any_eq_true, startB_iff, digitB_iff, beq_iff_eq, List.isPrefixOf_iff_prefix]
  rcases h with ⟨⟨a, ha, h1⟩, h2⟩ | ⟨⟨a, ha, h1⟩, h2⟩ | ⟨y, hy, hp⟩ | ⟨⟨x, rfl⟩, h⟩
  · exact .inl (.inl (.inl ⟨⟨a, ha, h1⟩, h2⟩))
  · exact .inl (.inl (.inr ⟨⟨a, ha, h1⟩, h2⟩))
  · exact .inl (.inr ⟨y, hy, hp⟩)
  · exact .inr ⟨⟨rfl, by rw [← List.cons_append, List.getLast?_append]; rfl⟩, h⟩

theorem apart_of (h : joinsB k b = false) : ¬ Joins k b := fun h' => by rw [joinsB_of h'] at h; cases h

/-- What joins a name or names. -/
theorem start_joins {c : UInt8} {y : Bytes} (hc : NameStart c) (hb : ¬ NameStart b ∧ ¬ DecDigit b) : ¬ Joins (c :: y) b := by
  have hn : (startB b || digitB b) = false := by
    rw [Bool.or_eq_false_iff]
    exact ⟨Bool.eq_false_iff.mpr fun h => hb.1 ((startB_iff b).mp h), Bool.eq_false_iff.mpr fun h => hb.2 ((digitB_iff b).mp h)⟩
  have key := bytes_hold (p := fun c => !startB c || (!digitB c && !(b!"--" :: b!"[[" :: b!"[=" :: luaSymbols).any (fun y => [c].isPrefixOf y) && c != 60)) (by decide +kernel) c
  rw [(startB_iff c).mpr hc] at key
  simp only [Bool.not_true, Bool.false_or, Bool.and_eq_true, Bool.not_eq_true', bne_iff_ne] at key
  refine apart_of ?_
  simp only [joinsB, hn, Bool.and_false, Bool.false_or, List.head?_cons, Option.any_some, key.1.1, Bool.false_and, Bool.or_eq_false_iff]
  refine ⟨?_, ?_⟩
  · rw [List.any_eq_false]
    intro y' hy' h
    have := List.any_eq_false.mp key.1.2 y' hy'
    cases y' with
    | nil => simp at h
    | cons d y' => simp_all
  · simp [key.2]

theorem ident_joins (hx : LuaIdent x) (hb : ¬ NameStart b ∧ ¬ DecDigit b) : ¬ Joins x b := by
  obtain ⟨c, y, rfl, hc, _⟩ := hx
  exact start_joins hc hb

/-! ### tokens of more than one piece -/

/-- `l'` is `l` with the tokens of more than one piece taken apart. -/
inductive Apart : List Bytes → List Bytes → Prop
  | nil : Apart [] []
  | tok {k : Bytes} {l l' : List Bytes} : Apart l l' → Apart (k :: l) (k :: l')
  | row {x y : Bytes} {l l' : List Bytes} : LuaName x → NameRow y → Apart (y :: l) l' → Apart ((x ++ 44 :: y) :: l) (x :: b!"," :: l')
  | dot {x : Bytes} {l l' : List Bytes} : LuaName x → Apart l l' → Apart ((46 :: x) :: l) (b!"." :: x :: l')
  | colon {x : Bytes} {l l' : List Bytes} : LuaName x → Apart l l' → Apart ((58 :: x) :: l) (b!":" :: x :: l')
  | label {x : Bytes} {l l' : List Bytes} : LuaName x → Apart l l' → Apart ((58 :: 58 :: (x ++ [58, 58])) :: l) (b!"::" :: x :: b!"::" :: l')
  | attrib {x : Bytes} {l l' : List Bytes} : LuaName x → Apart l l' → Apart ((60 :: (x ++ [62])) :: l) (b!"<" :: x :: b!">" :: l')

theorem Apart.append (h : Apart l l') (h' : Apart m m') : Apart (l ++ m) (l' ++ m') := by
  induction h with
  | nil => exact h'
  | tok _ ih => exact .tok ih
  | row h1 h2 _ ih => exact .row h1 h2 ih
  | dot h1 _ ih => exact .dot h1 ih
  | colon h1 _ ih => exact .colon h1 ih
  | label h1 _ ih => exact .label h1 ih
  | attrib h1 _ ih => exact .attrib h1 ih

theorem noted_piece {X : Bytes} (h1 : LuaToken k) (h2 : ∀ b y, X = b :: y → joinsB k b = false) (hG : G []) (h3 : Noted (fun _ => G) l X) : Noted (fun _ => G) (k :: l) (k ++ X) :=
  .cons (w := []) h1 hG (fun b y e => apart_of (h2 b y e)) h3

theorem sym_name {y X : Bytes} (hk : ((List.range 256).all fun n => !startB (UInt8.ofNat n) || !joinsB k (UInt8.ofNat n)) = true) (hx : LuaIdent x) (e : x ++ X = b :: y) :
    joinsB k b = false := by
  obtain ⟨c, z, rfl, hc, _⟩ := hx
  injection e with e _
  subst e
  have := bytes_hold (p := fun b => !startB b || !joinsB k b) hk c
  rw [(startB_iff c).mpr hc] at this
  simpa using this

theorem name_rest (hk : ∃ a ∈ k.getLast?, NameStart a ∨ DecDigit a) (hx : LuaIdent x) (h : ¬ Joins k b) : ¬ Joins x b :=
  ident_joins hx ⟨fun hb => h (.inl ⟨hk, .inl hb⟩), fun hb => h (.inl ⟨hk, .inr hb⟩)⟩

theorem Apart.noted (hG : G []) (h : Apart l l') {X : Bytes} (hX : Noted (fun _ => G) l X) : Noted (fun _ => G) l' X := by
  induction h generalizing X with
  | nil => exact hX
  | tok _ ih => cases hX with
    | cons h1 h2 h3 h4 => exact .cons h1 h2 h3 (ih h4)
  | @row x y l l' h1 h2 _ ih => cases hX with
    | @cons _ w z _ h3 h4 h5 h6 =>
      have : x ++ 44 :: y ++ (w ++ z) = x ++ (b!"," ++ (y ++ (w ++ z))) := by simp
      rw [this]
      refine .cons (w := []) (.word h1.1) hG (fun b u e => ident_joins h1.1 ?_) (noted_piece (.sym (by decide)) (fun b u e => ?_) hG (ih (.cons (.row h2) h4 ?_ h6)))
      · injection e with e _
        subst e
        exact comma_apart
      · obtain ⟨c, v, rfl, hc⟩ := row_start h2
        injection e with e _
        subst e
        have := bytes_hold (p := fun b => !startB b || !joinsB b!"," b) (by decide +kernel) c
        rw [(startB_iff c).mpr hc] at this
        simpa using this
      · intro b u e
        have hr' : ∃ a ∈ (x ++ 44 :: y).getLast?, NameStart a ∨ DecDigit a := row_last (.cons h1 h2)
        have hn : ¬ NameStart b ∧ ¬ DecDigit b := ⟨fun hb => h5 b u e (.inl ⟨hr', .inl hb⟩), fun hb => h5 b u e (.inl ⟨hr', .inr hb⟩)⟩
        obtain ⟨c, v, rfl, hc⟩ := row_start h2
        exact start_joins hc hn
  | @dot x l l' h1 _ ih => cases hX with
    | cons h3 h4 h5 h6 =>
      refine noted_piece (k := [46]) (.sym (by decide)) (fun b u e => sym_name (by decide +kernel) h1.1 e) hG (.cons (.word h1.1) h4 (fun b u e => ?_) (ih h6))
      exact name_rest (by simpa using last_append (x := [46]) (ident_last h1.1)) h1.1 (h5 b u e)
  | @colon x l l' h1 _ ih => cases hX with
    | cons h3 h4 h5 h6 =>
      refine noted_piece (k := [58]) (.sym (by decide)) (fun b u e => sym_name (by decide +kernel) h1.1 e) hG (.cons (.word h1.1) h4 (fun b u e => ?_) (ih h6))
      exact name_rest (by simpa using last_append (x := [58]) (ident_last h1.1)) h1.1 (h5 b u e)
  | @label x l l' h1 _ ih => cases hX with
    | @cons _ w z _ h3 h4 h5 h6 =>
      have : 58 :: 58 :: (x ++ [58, 58]) ++ (w ++ z) = [58, 58] ++ (x ++ ([58, 58] ++ (w ++ z))) := by simp
      rw [this]
      refine noted_piece (.sym (by decide)) (fun b u e => sym_name (by decide +kernel) h1.1 e) hG (.cons (w := []) (.word h1.1) hG (fun b u e => ident_joins h1.1 ?_)
        (.cons (.sym (by decide)) h4 (fun b u e => apart_of ?_) (ih h6)))
      · injection e with e _
        subst e
        unfold NameStart DecDigit
        decide
      · simpa using bytes_hold (p := fun b => !joinsB [58, 58] b) (by decide +kernel) b
  | @attrib x l l' h1 _ ih => cases hX with
    | @cons _ w z _ h3 h4 h5 h6 =>
      have : 60 :: (x ++ [62]) ++ (w ++ z) = [60] ++ (x ++ ([62] ++ (w ++ z))) := by simp
      rw [this]
      refine noted_piece (.sym (by decide)) (fun b u e => sym_name (by decide +kernel) h1.1 e) hG (.cons (w := []) (.word h1.1) hG (fun b u e => ident_joins h1.1 ?_)
        (.cons (.sym (by decide)) h4 (fun b u e => apart_of ?_) (ih h6)))
      · injection e with e _
        subst e
        unfold NameStart DecDigit
        decide
      · have hb := h5 b u e
        have key := bytes_hold (p := fun b => !joinsB [62] b || b == 61 || b == 62) (by decide +kernel) b
        refine Bool.eq_false_iff.mpr fun hj => hb (.inr (.inr (.inr ⟨⟨x, rfl⟩, ?_⟩)))
        simpa [hj] using key

/-! ### phrases -/

theorem row_apart (h : NameRow x) (hl : Apart l l') : ∃ ns, Lua54Names ns ∧ Apart (x :: l) (ns ++ l') := by
  induction h with
  | @one x h => exact ⟨[x], .one h, .tok hl⟩
  | @cons x y h h' ih =>
    obtain ⟨ns, h1, h2⟩ := ih
    exact ⟨x :: b!"," :: ns, .cons h h1, .row h h' h2⟩

theorem Apart.refl : ∀ l, Apart l l
  | [] => .nil
  | _ :: l => .tok (.refl l)

theorem params_apart (h : Params l) : ∃ ps, Lua54Params ps ∧ Apart l ps := by
  cases h with
  | none => exact ⟨[], .none, .nil⟩
  | row h =>
    obtain ⟨ns, h1, h2⟩ := row_apart h .nil
    exact ⟨ns ++ [], by simpa using .names h1, h2⟩
  | rowDots h =>
    obtain ⟨ns, h1, h2⟩ := row_apart h (.refl _)
    exact ⟨_, .namesDots h1, h2⟩
  | dots => exact ⟨_, .dots, .refl _⟩

theorem funcname_54 (h : FuncNames l) : Lua54FuncName l := by
  induction h with
  | one h => exact .one h
  | dot h _ ih => exact .dot h ih

theorem funcname_method_54 (h : FuncNames l) (hx : LuaName x) : Lua54FuncName (l ++ [b!":", x]) := by
  induction h with
  | one h => exact .method h hx
  | dot h _ ih => exact .dot h ih

theorem local_apart (h : Local l) : ∃ x a, LuaName x ∧ Lua54Attrib a ∧ Apart l (x :: a) := by
  cases h with
  | @plain x h => exact ⟨x, [], plain_name h, .none, .refl _⟩
  | @attrib x a h h' => exact ⟨x, _, plain_name h, .some h', .tok (.attrib h' .nil)⟩

theorem locals_apart (h : Locals l) : ∃ ns, Lua54AttNames ns ∧ Apart l ns := by
  induction h with
  | one h =>
    obtain ⟨x, a, h1, h2, h3⟩ := local_apart h
    exact ⟨_, .one h1 h2, h3⟩
  | cons h _ ih =>
    obtain ⟨x, a, h1, h2, h3⟩ := local_apart h
    obtain ⟨ns, h4, h5⟩ := ih
    exact ⟨_, .cons h1 h2 h4, h3.append (.tok h5)⟩

/-- What a phrase is in Lua 5.4, once its tokens are taken apart. -/
def In54 : Cat → List Bytes → Prop
  | .simple, ks => Lua54 .exp ks
  | .exp, ks => Lua54 .exp ks
  | .exps, ks => Lua54 .explist ks
  | .index, ks => ∀ p, Lua54 .prefixexp p → Lua54 .var (p ++ ks)
  | .args, ks => Lua54 .args ks
  | .call, ks => ∀ p, Lua54 .prefixexp p → Lua54 .functioncall (p ++ ks)
  | .calls, ks => (∀ p, Lua54 .prefixexp p → Lua54 .prefixexp (p ++ ks)) ∧ ∀ p, Lua54 .functioncall p → Lua54 .functioncall (p ++ ks)
  | .groups, ks => ∀ v, Lua54 .var v → Lua54 .var (v ++ ks)
  | .table, ks => Lua54 .tableconstructor ks
  | .field, ks => Lua54 .field ks
  | .fields, ks => Lua54 .fields ks
  | .body, ks => Lua54 .funcbody ks
  | .var, ks => Lua54 .var ks
  | .vars, ks => Lua54 .varlist ks
  | .stat, ks => Lua54 .stat ks
  | .callStat, ks => Lua54 .stat ks
  | .elifs, ks => Lua54 .elifs ks
  | .stats _, ks => Lua54 .stats ks
  | .block, ks => Lua54 .block ks

theorem plain_binary : ∀ op ∈ plainBinOps, op ∈ luaBinary := by decide

theorem phrase_54 {c : Cat} (h : Phrase c ks) : ∃ ks', Apart ks ks' ∧ In54 c ks' := by
  induction h with
  | @const k hk => exact ⟨[k], .refl _, .const ((by decide : ∀ k ∈ [b!"nil", b!"true", b!"false", b!"..."], k ∈ [b!"nil", b!"false", b!"true", b!"..."]) k hk)⟩
  | @num k hk => exact ⟨[k], .refl _, .num (full_numeral hk)⟩
  | @str k hk => exact ⟨[k], .refl _, .str (.inl hk.1)⟩
  | @long k hk => exact ⟨[k], .refl _, .str (.inr (long_lua hk))⟩
  | tableExp _ ih => obtain ⟨t, a, h⟩ := ih; exact ⟨t, a, .tableExp h⟩
  | varExp _ _ ihv ihc =>
    obtain ⟨v, a1, h1⟩ := ihv
    obtain ⟨c, a2, h2⟩ := ihc
    exact ⟨_, a1.append a2, .prefixexp (h2.1 _ (.varPrefix h1))⟩
  | paren _ _ ihe ihc =>
    obtain ⟨e, a1, h1⟩ := ihe
    obtain ⟨c, a2, h2⟩ := ihc
    exact ⟨_, .tok (a1.append (.tok a2)), by simpa [In54] using LuaSyn.prefixexp (h2.1 _ (.paren h1))⟩
  | parenVar _ _ _ _ _ ihe ihc ihi ihg ihd =>
    obtain ⟨e, a1, h1⟩ := ihe
    obtain ⟨c, a2, h2⟩ := ihc
    obtain ⟨i, a3, h3⟩ := ihi
    obtain ⟨g, a4, h4⟩ := ihg
    obtain ⟨d, a5, h5⟩ := ihd
    exact ⟨_, .tok (a1.append (.tok (a2.append (a3.append (a4.append a5))))), by simpa [In54] using LuaSyn.prefixexp (h5.1 _ (.varPrefix (h4 _ (h3 _ (h2.1 _ (.paren h1))))))⟩
  | simpleExp _ ih => exact ih
  | bin _ hop _ iha ihb =>
    obtain ⟨a, a1, h1⟩ := iha
    obtain ⟨b, a2, h2⟩ := ihb
    exact ⟨_, a1.append (.tok a2), .bin h1 (plain_binary _ hop) h2⟩
  | un hop _ ih => obtain ⟨e, a1, h1⟩ := ih; exact ⟨_, .tok a1, .un hop h1⟩
  | one _ ih => obtain ⟨e, a1, h1⟩ := ih; exact ⟨_, a1, .oneExp h1⟩
  | func _ ih => obtain ⟨e, a1, h1⟩ := ih; exact ⟨_, .tok a1, .oneExp (.functiondef h1)⟩
  | more _ _ ihe ihes =>
    obtain ⟨e, a1, h1⟩ := ihe
    obtain ⟨es, a2, h2⟩ := ihes
    exact ⟨_, a1.append (.tok a2), .moreExps h1 h2⟩
  | bracket _ ih => obtain ⟨e, a1, h1⟩ := ih; exact ⟨_, .tok (a1.append (.refl _)), fun p hp => .index hp h1⟩
  | dot hx => exact ⟨_, .dot hx .nil, fun p hp => .member hp hx⟩
  | noArgs => exact ⟨_, .refl _, .noArgs⟩
  | listArgs _ ih => obtain ⟨e, a1, h1⟩ := ih; exact ⟨_, .tok (a1.append (.refl _)), .someArgs h1⟩
  | tableArgs _ ih => obtain ⟨t, a, h⟩ := ih; exact ⟨t, a, .tableArgs h⟩
  | strArgs hk => exact ⟨_, .refl _, .strArgs (.inl hk.1)⟩
  | longArgs hk => exact ⟨_, .refl _, .strArgs (.inr (long_lua hk))⟩
  | plainCall _ ih => obtain ⟨t, a, h⟩ := ih; exact ⟨t, a, fun p hp => .callArgs hp h⟩
  | method hx _ ih => obtain ⟨t, a, h⟩ := ih; exact ⟨_, .colon hx a, fun p hp => .method hp hx h⟩
  | noCalls => exact ⟨[], .nil, fun p hp => by simpa using hp, fun p hp => by simpa using hp⟩
  | someCalls _ _ ihc ihcs =>
    obtain ⟨c, a1, h1⟩ := ihc
    obtain ⟨cs, a2, h2⟩ := ihcs
    exact ⟨_, a1.append a2, fun p hp => by simpa using h2.1 _ (.callPrefix (h1 p hp)), fun p hp => by simpa using h2.2 _ (h1 p (.callPrefix hp))⟩
  | noGroups => exact ⟨[], .nil, fun p hp => by simpa using hp⟩
  | someGroups _ _ _ ihc ihi ihg =>
    obtain ⟨c, a1, h1⟩ := ihc
    obtain ⟨i, a2, h2⟩ := ihi
    obtain ⟨g, a3, h3⟩ := ihg
    exact ⟨_, a1.append (a2.append a3), fun v hv => by simpa using h3 _ (h2 _ (h1.1 _ (.varPrefix hv)))⟩
  | name hx _ ih => obtain ⟨g, a1, h1⟩ := ih; exact ⟨_, .tok a1, h1 _ (.name (plain_name hx))⟩
  | oneVar _ ih => obtain ⟨e, a1, h1⟩ := ih; exact ⟨_, a1, .oneVar h1⟩
  | moreVars _ _ ihe ihes =>
    obtain ⟨e, a1, h1⟩ := ihe
    obtain ⟨es, a2, h2⟩ := ihes
    exact ⟨_, a1.append (.tok a2), .moreVars h1 h2⟩
  | noFields => exact ⟨_, .refl _, .noFields⟩
  | someFields _ ih => obtain ⟨e, a1, h1⟩ := ih; exact ⟨_, .tok (a1.append (.refl _)), .someFields h1⟩
  | someFieldsSep _ hs ih => obtain ⟨e, a1, h1⟩ := ih; exact ⟨_, .tok (a1.append (.refl _)), .someFieldsSep h1 hs⟩
  | oneField _ ih => obtain ⟨e, a1, h1⟩ := ih; exact ⟨_, a1, .oneField h1⟩
  | moreFields _ hs _ ihe ihes =>
    obtain ⟨e, a1, h1⟩ := ihe
    obtain ⟨es, a2, h2⟩ := ihes
    exact ⟨_, a1.append (.tok a2), .moreFields h1 hs h2⟩
  | keyField _ _ iha ihb =>
    obtain ⟨a, a1, h1⟩ := iha
    obtain ⟨b, a2, h2⟩ := ihb
    exact ⟨_, .tok (a1.append (.tok (.tok a2))), .keyField h1 h2⟩
  | nameField hx _ ih => obtain ⟨e, a1, h1⟩ := ih; exact ⟨_, .tok (.tok a1), .nameField hx h1⟩
  | fbody hp _ ih =>
    obtain ⟨ps, h1, a1⟩ := params_apart hp
    obtain ⟨b, a2, h2⟩ := ih
    exact ⟨_, .tok (a1.append (.tok (a2.append (.refl _)))), .funcbody h1 h2⟩
  | assign _ _ ihv ihe =>
    obtain ⟨v, a1, h1⟩ := ihv
    obtain ⟨e, a2, h2⟩ := ihe
    exact ⟨_, a1.append (.tok a2), .assign h1 h2⟩
  | callS _ _ _ ihv ihc ihcs =>
    obtain ⟨v, a1, h1⟩ := ihv
    obtain ⟨c, a2, h2⟩ := ihc
    obtain ⟨cs, a3, h3⟩ := ihcs
    exact ⟨_, a1.append (a2.append a3), by simpa [In54] using LuaSyn.call (h3.2 _ (h2 _ (.varPrefix h1)))⟩
  | goto hx => exact ⟨_, .refl _, .goto hx⟩
  | doS _ ih => obtain ⟨b, a1, h1⟩ := ih; exact ⟨_, .tok (a1.append (.refl _)), .doS h1⟩
  | whileS _ _ _ ihe ihb =>
    obtain ⟨e, a1, h1⟩ := ihe
    obtain ⟨b, a2, h2⟩ := ihb
    exact ⟨_, .tok (a1.append (.tok (a2.append (.refl _)))), .whileS h1 h2⟩
  | repeatS _ _ _ ihb ihe =>
    obtain ⟨b, a2, h2⟩ := ihb
    obtain ⟨e, a1, h1⟩ := ihe
    exact ⟨_, .tok (a2.append (.tok a1)), .repeatS h2 h1⟩
  | ifS _ _ _ _ ihe ihb ihl =>
    obtain ⟨e, a1, h1⟩ := ihe
    obtain ⟨b, a2, h2⟩ := ihb
    obtain ⟨l, a3, h3⟩ := ihl
    exact ⟨_, .tok (a1.append (.tok (a2.append (a3.append (.refl _))))), .ifS h1 h2 h3⟩
  | ifElse _ _ _ _ _ ihe ihb ihl ihd =>
    obtain ⟨e, a1, h1⟩ := ihe
    obtain ⟨b, a2, h2⟩ := ihb
    obtain ⟨l, a3, h3⟩ := ihl
    obtain ⟨d, a4, h4⟩ := ihd
    exact ⟨_, .tok (a1.append (.tok (a2.append (a3.append (.tok (a4.append (.refl _))))))), .ifElse h1 h2 h3 h4⟩
  | noElifs => exact ⟨[], .nil, .noElifs⟩
  | someElifs _ _ _ _ ihe ihb ihl =>
    obtain ⟨e, a1, h1⟩ := ihe
    obtain ⟨b, a2, h2⟩ := ihb
    obtain ⟨l, a3, h3⟩ := ihl
    exact ⟨_, .tok (a1.append (.tok (a2.append a3))), .someElifs h1 h2 h3⟩
  | forS hx _ _ _ iha ihe ihb =>
    obtain ⟨a, a1, h1⟩ := iha
    obtain ⟨e, a2, h2⟩ := ihe
    obtain ⟨b, a3, h3⟩ := ihb
    exact ⟨_, .tok (.tok (.tok (a1.append (.tok (a2.append (.tok (a3.append (.refl _)))))))), .forS hx h1 h2 h3⟩
  | forStep hx _ _ _ _ iha ihe ihs ihb =>
    obtain ⟨a, a1, h1⟩ := iha
    obtain ⟨e, a2, h2⟩ := ihe
    obtain ⟨s, a4, h4⟩ := ihs
    obtain ⟨b, a3, h3⟩ := ihb
    exact ⟨_, .tok (.tok (.tok (a1.append (.tok (a2.append (.tok (a4.append (.tok (a3.append (.refl _)))))))))), .forStep hx h1 h2 h4 h3⟩
  | forEach hx _ _ ihe ihb =>
    obtain ⟨e, a2, h2⟩ := ihe
    obtain ⟨b, a3, h3⟩ := ihb
    obtain ⟨ns, h1, a1⟩ := row_apart hx (.tok (k := b!"in") (a2.append (.tok (k := b!"do") (a3.append (.refl [b!"end"])))))
    exact ⟨_, .tok a1, .forEach h1 h2 h3⟩
  | function hn _ ih => obtain ⟨b, a1, h1⟩ := ih; exact ⟨_, .tok ((Apart.refl _).append a1), .function (funcname_54 hn) h1⟩
  | functionMethod hn hx _ ih =>
    obtain ⟨b, a1, h1⟩ := ih
    exact ⟨_, .tok ((Apart.refl _).append (.tok (.tok a1))), by simpa [In54] using LuaSyn.function (funcname_method_54 hn hx) h1⟩
  | localFunction hx _ ih => obtain ⟨b, a1, h1⟩ := ih; exact ⟨_, .tok (.tok (.tok a1)), .localFunction hx h1⟩
  | localS hn =>
    obtain ⟨ns, h1, a1⟩ := locals_apart hn
    exact ⟨_, .tok a1, .localS h1⟩
  | localAssign hn _ ih =>
    obtain ⟨ns, h1, a1⟩ := locals_apart hn
    obtain ⟨es, a2, h2⟩ := ih
    exact ⟨_, .tok (a1.append (.tok a2)), .localAssign h1 h2⟩
  | noStats => exact ⟨[], .nil, .noStats⟩
  | someStats _ _ ihs ihss =>
    obtain ⟨s, a1, h1⟩ := ihs
    obtain ⟨ss, a2, h2⟩ := ihss
    exact ⟨_, a1.append a2, .someStats h1 h2⟩
  | callStats _ _ ihs ihss =>
    obtain ⟨s, a1, h1⟩ := ihs
    obtain ⟨ss, a2, h2⟩ := ihss
    exact ⟨_, a1.append a2, .someStats h1 h2⟩
  | shortStats hk _ ih =>
    obtain ⟨ss, a1, h1⟩ := ih
    simp only [List.mem_cons, List.not_mem_nil, or_false] at hk
    rcases hk with rfl | rfl
    · exact ⟨_, .tok a1, .someStats .semi h1⟩
    · exact ⟨_, .tok a1, .someStats .break h1⟩
  | labelStats hx _ ih => obtain ⟨ss, a1, h1⟩ := ih; exact ⟨_, .label hx a1, .someStats (.label hx) h1⟩
  | noRet _ ih => obtain ⟨ss, a1, h1⟩ := ih; exact ⟨_, a1, .block h1⟩
  | ret _ _ _ ihs ihe =>
    obtain ⟨ss, a1, h1⟩ := ihs
    obtain ⟨es, a2, h2⟩ := ihe
    exact ⟨_, a1.append (.tok a2), .blockRet h1 (.retExps h2)⟩
  | retSemi _ _ _ ihs ihe =>
    obtain ⟨ss, a1, h1⟩ := ihs
    obtain ⟨es, a2, h2⟩ := ihe
    exact ⟨_, a1.append (.tok (a2.append (.refl _))), .blockRet h1 (.retExpsSemi h2)⟩
  | retNothing _ ih => obtain ⟨ss, a1, h1⟩ := ih; exact ⟨_, a1.append (.refl _), .blockRet h1 .retSemi⟩

/-! ### white space and comments -/

theorem noted_mono {N N' : Bytes → Bytes → Prop} (h : ∀ k w, N k w → N' k w) {X : Bytes} (hX : Noted N ks X) : Noted N' ks X := by
  induction hX with
  | nil => exact .nil
  | cons h1 h2 h3 _ ih => exact .cons h1 (h _ _ h2) h3 ih

theorem layout_noted {X : Bytes} : Layout ks X ↔ Noted (fun _ => White) ks X := by
  constructor <;> intro h
  · induction h with
    | nil => exact .nil
    | @cons k w x ks h1 h2 h3 _ ih =>
      refine .cons h1 h2 (fun b y e => ?_) ih
      cases w with
      | nil => exact h3 rfl b y e
      | cons c w =>
        injection e with e _
        subst e
        exact white_apart (h2 c (by simp)) k
  · induction h with
    | nil => exact .nil
    | cons h1 h2 h3 _ ih => exact .cons h1 h2 (fun hw b y e => h3 b y (by rw [hw]; exact e)) ih

theorem layout_laid {X : Bytes} (h : Layout ks X) : Laid ks X := noted_mono (fun _ _ => .inl) (layout_noted.mp h)

theorem plain_gap {w : Bytes} (h : PlainGap w) : LuaGap w := by
  induction h with
  | nil => exact .nil
  | white h _ ih => exact .white h ih
  | line h1 h2 h3 h4 _ ih =>
    rcases h4 with rfl | rfl
    · exact .line h1 h2 h3 (.inl rfl) ih
    · exact .line h1 h2 h3 (.inr rfl) (.white (.inr (.inr (.inl rfl))) ih)
  | zero h _ ih => exact .long h ih
  | level h _ ih => exact .long (noHalf_first h) ih

/-- A text of phrases is a Lua chunk. -/
theorem chunk_54 (h : Phrase .block ks) {w y : Bytes} (hw : White w) (hy : Layout ks y) : LuaChunk (w ++ y) := by
  obtain ⟨ks', h1, h2⟩ := phrase_54 h
  exact ⟨w, ks', y, rfl, hw, h2, layout_noted.mpr (h1.noted (by simp [White]) (layout_noted.mp hy))⟩

/-- The same with comments. -/
theorem source_54 (h : Phrase .block ks) {X : Bytes} (hX : Wide ks X) : LuaSource X := by
  obtain ⟨w, y, rfl, hw, hy⟩ := hX
  obtain ⟨ks', h1, h2⟩ := phrase_54 h
  refine ⟨w, ks', y, rfl, plain_gap hw, h2, h1.noted .nil (noted_mono (fun k w hw => ?_) hy)⟩
  rcases hw with hw | hw
  · exact plain_gap (white_gap hw)
  · exact plain_gap hw.2

end Lua
end Tok
