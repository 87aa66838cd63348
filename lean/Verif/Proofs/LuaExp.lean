/-
The expressions of the Lua grammar.
-/
import Verif.Proofs.LuaPhrase

namespace Tok
open Spec

namespace Lua

variable {rt : Rt} {r sk : Reader} {rs : List Reader} {k x : Bytes} {ks l l' more a b c d e es f fs g i p t v : List Bytes}
  {I M O : List Bytes → Bytes → Prop} {S T : List Cls}

theorem gets_janus {G : Env} {id : Nat} {nm t u : Bytes} (h : Gets rt G r t (some u)) : Gets rt G (.janusBegin id nm r) t (some u) := fun j => by
  obtain ⟨n, j', e⟩ := h j
  exact ⟨n + 1, _, by simp only [eat, e]; rfl⟩

theorem rune_gets (c : UInt8) (hc : c.toNat < 128) (u : Bytes) : Gets rt env (.rune c.toNat) u (oneB (· == c) u) := (does_rune (ascii_rune c hc)).gets u

theorem str_bracket : Fail rt Laid (.rule iLiteralString) (b!"[" :: more) := fun X hX => by
  obtain ⟨u, rfl, _, h2, _⟩ := Laid.open hX
  have h0 : ∀ c : UInt8, c = 61 ∨ c = 91 → ¬ [c] <+: u := by
    rintro c hc ⟨v, rfl⟩
    refine h2 c v rfl (.inr (.inr (.inl ⟨_, ?_, List.prefix_refl _⟩)))
    rcases hc with rfl | rfl <;> decide
  refine .rule (r := .any [normalString, charString, long 0 (ru '[')]) (nm := b!"LiteralString") rfl (.any (.next ?_ (.next ?_ (.next ?_ .nil))))
  · exact fails_gets (p := [91]) (by decide +kernel) begins_nothing
  · exact fails_gets (p := [91]) (by decide +kernel) begins_nothing
  · refine .seq (.stop (.seq (.cons (u := u) (rune_gets 91 (by decide) _) (.cons (u := u) (gets_janus (.zom_stop (.lit_no (h0 61 (.inl rfl))))) (.stop ?_)))))
    have := rune_gets (rt := rt) 91 (by decide) u
    cases u with
    | nil => exact this
    | cons b u =>
      have hb : b ≠ 91 := by rintro rfl; exact h0 91 (.inr rfl) ⟨u, rfl⟩
      simpa [oneB, hb] using this

/-! ### indices and calls -/

theorem call_idx (h : Heads idxHeads more) : Fail rt Spaced nameAndArgs more := by
  obtain ⟨c, hc, hk⟩ := h
  simp only [idxHeads, List.mem_cons, List.not_mem_nil, or_false] at hc
  rcases hc with rfl | rfl
  · obtain ⟨_, m, rfl⟩ := hk
    have hh : Heads [.sym b!"["] (b!"[" :: m) := .sym (by decide +kernel)
    exact Fail.narrow <| call_fail (hh.fail (by decide +kernel)) (.rule e_args (.any (.next (hh.fail (by decide +kernel)) (.next (hh.fail (by decide +kernel)) (.next str_bracket .nil)))))
  · exact (show Heads [.begun b!"."] more from ⟨_, by simp, hk⟩).noCall (by decide +kernel) |>.narrow

theorem idx_bracket (he : ∀ more, Heads afterExp more → Step rt Laid Spaced expR e more) : Step rt Laid Wide idxR (b!"[" :: (e ++ [b!"]"])) more :=
  .any (.hit (Step.wide (.weak (.tight (.skipSeq skip_all (.otok (.osym (by decide +kernel)) (.cons skip_all (he _ (.sym (by decide +kernel)))
    (.otok (.osym (by decide +kernel)) .nil))))))))

theorem glued {c : UInt8} (hc : c.toNat < 128) (hx : LuaName x) : Step rt Laid Wide (.seq [.rune c.toNat, nameR]) [c :: x] more := .open fun w hw => by
  have h1 : Gets rt env nameR (x ++ w) (some w) := ident_gets hx.1 (after_ident (last_append (x := [c]) (ident_last hx.1)) hw)
  refine .seq (.cons (u := x ++ w) ?_ (.cons h1 .nil))
  have := rune_gets (rt := rt) c hc (c :: (x ++ w))
  simpa [oneB] using this

theorem idx_dot (hx : LuaName x) : Step rt Laid Wide idxR [46 :: x] more :=
  have hh : Heads [.begun b!"."] ([46 :: x] ++ more) := ⟨.begun b!".", by simp, x, more, rfl⟩
  .any (.next (hh.fail (by decide +kernel)) (.hit (glued (c := 46) (by decide) hx)))

theorem args_none : Step rt Laid Spaced (.rule iFuncArgs) [b!"(", b!")"] more :=
  have hh : Heads [.sym b!")"] (b!")" :: more) := .sym (by decide +kernel)
  .rule e_args (.any (.hit (Step.weak (.tight (.skipSeq skip_all (.otok (.osym (by decide +kernel)) (.pass skip_all (Step.opt_none (hh.fail (by decide +kernel))).weak
    (.otok (.osym (by decide +kernel)) .nil))))))))

/-- A list of expressions, as the first of them and the rest. -/
def ExpsStep (rt : Rt) (es more : List Bytes) : Prop :=
  ∃ e l, es = e ++ l ∧ Step rt Laid Spaced expR e (l ++ more) ∧ Step rt Laid Laid (.zom commaExp) l more

theorem ExpsStep.step (h : ExpsStep rt es more) : Step rt Spaced Laid (.rule iExpList) es more := by
  obtain ⟨e, l, rfl, h1, h2⟩ := h
  exact .rule e_explist (.skipSeq skip_all (.cons skip_all h1 (.last skip_all h2.weak)))

theorem args_list (hes : ∀ more, Heads afterExps more → ExpsStep rt es more) : Step rt Laid Spaced (.rule iFuncArgs) (b!"(" :: (es ++ [b!")"])) more :=
  .rule e_args (.any (.hit (Step.weak (.tight (.skipSeq skip_all (.otok (.osym (by decide +kernel)) (.cons skip_all (Step.opt (Step.tight (hes _ (.sym (by decide +kernel))).step)).weak
    (.otok (.osym (by decide +kernel)) .nil))))))))

theorem args_table (hh : Heads [.sym b!"{"] t) (ht : ∀ more, Step rt Spaced Laid (.rule iTableConstructor) t more) : Step rt Laid Spaced (.rule iFuncArgs) t more :=
  .rule e_args (.any (.next ((hh.append (by decide)).fail (by decide +kernel)) (.hit (ht _).tight.weak)))

theorem heads_str {x : Bytes} (hx : PlainString x) : Heads [.str] (x :: more) := ⟨.str, by simp, x, more, rfl, hx⟩

theorem args_str (hx : PlainString x) : Step rt Laid Spaced (.rule iFuncArgs) [x] more :=
  have hh : Heads [.str] ([x] ++ more) := heads_str hx
  .rule e_args (.any (.next (hh.fail (by decide +kernel)) (.next (hh.fail (by decide +kernel)) (.hit (.str hx)))))

theorem heads_long {x : Bytes} (hx : PlainLong x) : Heads [.long] (x :: more) := ⟨.long, by simp, x, more, rfl, long_lua hx⟩

theorem args_long (hx : PlainLong x) : Step rt Laid Spaced (.rule iFuncArgs) [x] more :=
  have hh : Heads [.long] ([x] ++ more) := heads_long hx
  .rule e_args (.any (.next (hh.fail (by decide +kernel)) (.next (hh.fail (by decide +kernel)) (.hit (.long hx)))))

theorem call_plain (hh : Heads argHeads a) (ha : ∀ more, Step rt Laid Spaced (.rule iFuncArgs) a more) : Step rt Spaced Laid nameAndArgs a more :=
  Step.skipSeq skip_all (.pass skip_all (Step.opt_none ((hh.append (by decide)).fail (by decide +kernel))).weak (.last skip_all (ha _)))

theorem call_method (hx : LuaName x) (ha : ∀ more, Step rt Laid Spaced (.rule iFuncArgs) a more) : Step rt Spaced Laid nameAndArgs ((58 :: x) :: a) more :=
  Step.skipSeq skip_all (.otok (Step.opt (glued (c := 58) (by decide) hx)) (.last skip_all (ha _)))

theorem calls_none (h : Fail rt Spaced nameAndArgs more) : Step rt Spaced Spaced (.zom nameAndArgs) [] more := .zom_stop h

theorem calls_some (hc : ∀ more, Step rt Spaced Laid nameAndArgs c more) (hd : Step rt Spaced Spaced (.zom nameAndArgs) d more) :
    Step rt Spaced Spaced (.zom nameAndArgs) (c ++ d) more := .zom_step (hc _).weak hd

/-- Calls and an index. -/
theorem suffix_step (hc : ∀ more, Fail rt Spaced nameAndArgs more → Step rt Spaced Spaced (.zom nameAndArgs) c more)
    (hh : Heads idxHeads i) (hi : ∀ more, Step rt Laid Wide idxR i more) : Step rt Spaced Laid (.rule iVarSuffix) (c ++ i) more :=
  .rule e_suffix (.skipSeq skip_all (.cons skip_all (hc _ (call_idx (hh.append (by decide)))).tight (.olast (hi _))))

/-- Calls and no index. -/
theorem suffix_fail (hc : ∀ more, Fail rt Spaced nameAndArgs more → Step rt Spaced Spaced (.zom nameAndArgs) c more) (h : Ends rt more) :
    Fail rt Spaced (.rule iVarSuffix) (c ++ more) :=
  .rule e_suffix (.skipSeq skip_all (.cons skip_all (hc _ h.call).tight (.stop h.idx)))

theorem Ends.suffixes (h : Ends rt more) : Fail rt Wide (.rule iVarSuffix) more :=
  .rule e_suffix (.skipAll (.cons (l := []) skip_all (calls_none h.call).tight (.stop h.idx)))

theorem Ends.suffix (h : Ends rt more) : Fail rt Spaced (.rule iVarSuffix) more := suffix_fail (c := []) (fun _ => calls_none) h

theorem groups_none (h : Fail rt Spaced (.rule iVarSuffix) more) : Step rt Spaced Spaced (.zom (.rule iVarSuffix)) [] more := .zom_stop h

theorem groups_some (hc : ∀ more, Fail rt Spaced nameAndArgs more → Step rt Spaced Spaced (.zom nameAndArgs) c more)
    (hh : Heads idxHeads i) (hi : ∀ more, Step rt Laid Wide idxR i more) (hg : Step rt Spaced Spaced (.zom (.rule iVarSuffix)) g more) :
    Step rt Spaced Spaced (.zom (.rule iVarSuffix)) (c ++ (i ++ g)) more := by
  rw [← List.append_assoc]
  exact .zom_step (suffix_step hc hh hi).weak hg

theorem var_name (hx : LuaName x) (hg : Step rt Spaced Spaced (.zom (.rule iVarSuffix)) g more) : Step rt Laid Spaced (.rule iVar) (x :: g) more :=
  .rule e_var (.seq (.tok (.any (.hit (.name hx))) (.last hg)))

/-! ### lists of variables -/

/-- A list of variables, as the first of them and the rest. -/
def VarsStep (rt : Rt) (vs more : List Bytes) : Prop :=
  ∃ v l, vs = v ++ l ∧ Step rt Laid Spaced (.rule iVar) v (l ++ more) ∧ Step rt Laid Laid (.zom commaVar) l more

theorem VarsStep.step (h : VarsStep rt v more) : Step rt Spaced Laid (.rule iVarList) v more := by
  obtain ⟨e, l, rfl, h1, h2⟩ := h
  exact .rule e_varlist (.skipSeq skip_ws (.cons skip_ws h1 (.last skip_ws h2.weak)))

theorem vars_one (hv : Step rt Laid Spaced (.rule iVar) v more) (h : Fail rt Laid commaVar more) : VarsStep rt v more :=
  ⟨v, [], by simp, hv, .zom_stop h⟩

theorem vars_more (hv : ∀ more, Fail rt Spaced (.rule iVarSuffix) more → Step rt Laid Spaced (.rule iVar) v more) (h : VarsStep rt ks more) :
    VarsStep rt (v ++ b!"," :: ks) more := by
  obtain ⟨w, l, rfl, h1, h2⟩ := h
  refine ⟨v, b!"," :: (w ++ l), rfl, hv _ (ends_var (.sym (by decide +kernel))).suffix, ?_⟩
  have : Step rt Laid Laid commaVar (b!"," :: w) (l ++ more) := Step.tight (.skipSeq skip_ws (.tok skip_ws (.sym (by decide +kernel)) (.last skip_ws h1)))
  exact .zom_step this h2

/-! ### a reserved word read as a name -/

theorem Heads.noComma (h : Heads S more) (hS : (S.all fun c => c.no (.rune 44)) = true) : Fail rt Laid commaVar more :=
  Fail.tight (.skipSeq skip_ws (.stop (h.fail hS)))

/-- A name or a reserved word, with anything behind it that does not continue the variable. -/
theorem var_word (hx : LuaIdent x) (h : Fail rt Wide (.rule iVarSuffix) more) : Step rt Laid Wide (.rule iVar) [x] more :=
  .rule e_var (.seq (.tok (l := []) (.any (.hit (.ident hx))) (.pass (Step.zom_stop h) .nil)))

/-- The tokens, or a comment. -/
def Bare (ks : List Bytes) (X : Bytes) : Prop := Laid ks X ∨ ∃ t, X = b!"--" ++ t

theorem Heads.bare (h : Heads S ks) (hS : (Lua.fails false [] r b!"--" && S.all fun c => c.no r) = true) : Fail rt Bare r ks := by
  rw [Bool.and_eq_true] at hS
  rintro X (hX | ⟨t, rfl⟩)
  · exact h.fail hS.2 X hX
  · exact fails_gets hS.1 begins_nothing

theorem bare_ws {X : Bytes} (h : Bare ks X) : ∃ Y, Gets rt env (.zom mkWS) X (some Y) ∧ Bare ks Y ∧ Y.length ≤ X.length := by
  rcases h with h | ⟨t, rfl⟩
  · obtain ⟨Y, h1, h2, h3⟩ := skip_ws (rt := rt) _ X (.of h)
    exact ⟨Y, h1, .inl h2, h3⟩
  · exact ⟨_, .zom_stop (fails_gets (p := b!"--") (by decide +kernel) begins_nothing), .inr ⟨t, rfl⟩, Nat.le_refl _⟩

theorem Heads.commas (h : Heads S more) (hS : (Lua.fails false [] (.rune 44) b!"--" && S.all fun c => c.no (.rune 44)) = true) : Fail rt Bare commaVar more := fun X hX => by
  obtain ⟨Y, h1, h2, _⟩ := bare_ws (rt := rt) hX
  exact .skipSeq h1 (.stop (h.bare hS Y h2))

theorem word_vars (hx : LuaIdent x) (h : Heads afterWord more) : Step rt Spaced Bare (.rule iVarList) [x] more := by
  refine .rule e_varlist fun X hX => ?_
  obtain ⟨Y, h1, h2, h3⟩ := skip_ws (rt := rt) _ X hX
  obtain ⟨Z, k1, k2, k3⟩ := var_word hx (ends_word h).suffixes Y h2
  obtain ⟨Z', s1, _, s2, s3⟩ := wide_ws (rt := rt) k2
  obtain ⟨W, w1, w2, w3⟩ := bare_ws (rt := rt) (ks := more) s2
  refine ⟨W, .skipSeq h1 (.cons k1 s1 (.cons (.zom_stop (h.commas (by decide +kernel) _ s2)) w1 .nil)), w2, ?_⟩
  simp only [List.length_cons, List.length_nil] at k3 ⊢
  omega

theorem word_assign (hx : LuaIdent x) (h : Heads afterWord more) : Fail rt Spaced assignR (x :: more) :=
  .seq (.tok (word_vars hx h) (.stop (h.bare (by decide +kernel))))

theorem word_call (hx : x ∈ luaKeywords) (h : Heads afterWord more) : Fail rt Spaced (.rule iFuncCall) (x :: more) := by
  have hh : Heads (luaKeywords.map .word) (x :: more) := ⟨.word x, List.mem_map_of_mem hx, hx, more, rfl⟩
  refine .split ?_ ?_
  · have h1 : Step rt Laid Wide varOrExp [x] more := .any (.hit (var_word (kw_ident hx) (ends_word h).suffixes))
    exact .rule e_call (.seq (.tok h1 (.stop (.many (ends_word h).wide))))
  · refine .rule e_call (.seq (.stop (.any (.next (.rule e_var (.seq (.stop (.any (.next (.white (by decide +kernel)) (.next ?_ .nil)))))) (.next ?_ .nil)))))
    · exact (hh.gap (by decide +kernel)).gapped
    · exact (hh.gap (by decide +kernel)).gapped

/-! ### expressions -/

theorem final_const (hk : k ∈ [b!"nil", b!"true", b!"false", b!"..."]) : Step rt Laid Spaced (.rule iFinalExp) [k] more := by
  refine .rule e_final (.any ?_)
  simp only [List.mem_cons, List.not_mem_nil, or_false] at hk
  rcases hk with rfl | rfl | rfl | rfl
  · exact .hit (.lit _)
  · exact .drop' (rs := [.lit b!"nil", .lit b!"false"]) (S := [.word b!"true"]) (.word (by decide +kernel)) (by decide +kernel) (.hit (.lit _))
  · exact .drop' (rs := [.lit b!"nil"]) (S := [.word b!"false"]) (.word (by decide +kernel)) (by decide +kernel) (.hit (.lit _))
  · exact .drop' (rs := [.lit b!"nil", .lit b!"false", .lit b!"true", numeral, .rule iLiteralString]) (S := [.sym b!"..."]) (.sym (by decide +kernel))
      (by decide +kernel) (.hit (.lit _))

theorem final_num (hk : FullNumeral k) : Step rt Laid Spaced (.rule iFinalExp) [k] more :=
  .rule e_final (.any (.drop' (rs := [.lit b!"nil", .lit b!"false", .lit b!"true"]) (S := [.num]) ⟨.num, by simp, k, more, rfl, hk⟩ (by decide +kernel) (.hit (.num hk))))

theorem final_str (hk : PlainString k) : Step rt Laid Spaced (.rule iFinalExp) [k] more :=
  .rule e_final (.any (.drop' (rs := [.lit b!"nil", .lit b!"false", .lit b!"true", numeral]) (heads_str hk) (by decide +kernel) (.hit (.str hk))))

theorem final_long (hk : PlainLong k) : Step rt Laid Spaced (.rule iFinalExp) [k] more :=
  .rule e_final (.any (.drop' (rs := [.lit b!"nil", .lit b!"false", .lit b!"true", numeral]) (heads_long hk) (by decide +kernel) (.hit (.long hk))))

theorem final_func (hb : Step rt Spaced Laid (.rule iFuncBody) b more) : Step rt Laid Spaced (.rule iFinalExp) (b!"function" :: b) more := by
  refine Step.weak (.tight ?_)
  have hh : Heads [.word b!"function"] (b!"function" :: b ++ more) := .word (by decide +kernel)
  refine .rule e_final (.any (.drop (rs := [.lit b!"nil", .lit b!"false", .lit b!"true", numeral, .rule iLiteralString, .lit b!"..."]) hh (by decide +kernel) (.hit ?_)))
  exact .rule e_funcdef (.skipSeq skip_ws (.tok skip_ws (.lit _) (.last skip_ws hb.tight.weak)))

theorem final_un (hk : k ∈ [b!"-", b!"not", b!"#", b!"~"]) (he : Step rt Laid Spaced expR e more) : Step rt Laid Spaced (.rule iFinalExp) (k :: e) more := by
  have hh : Heads [.sym b!"-", .word b!"not", .sym b!"#", .sym b!"~"] (k :: e ++ more) := by
    simp only [List.mem_cons, List.not_mem_nil, or_false] at hk
    rcases hk with rfl | rfl | rfl | rfl
    · exact .sym (by decide +kernel)
    · exact .word (by decide +kernel)
    · exact .sym (by decide +kernel)
    · exact .sym (by decide +kernel)
  refine .rule e_final (.any (.drop' (rs := [.lit b!"nil", .lit b!"false", .lit b!"true", numeral, .rule iLiteralString, .lit b!"...", .rule iFuncDef]) hh (by decide +kernel)
    (.hit (Step.weak (.tight (.skipSeq skip_all (.otok ?_ (.last skip_all he))))))))
  refine .rule e_unop ?_
  simp only [List.mem_cons, List.not_mem_nil, or_false] at hk
  rcases hk with rfl | rfl | rfl | rfl
  · exact .osym (by decide +kernel)
  · exact .oword (by decide +kernel)
  · exact .osym (by decide +kernel)
  · exact .osym (by decide +kernel)

theorem final_table (hh : Heads [.sym b!"{"] t) (ht : Step rt Spaced Laid (.rule iTableConstructor) t more) : Step rt Laid Spaced (.rule iFinalExp) t more :=
  .rule e_final (.any (.drop' (rs := [.lit b!"nil", .lit b!"false", .lit b!"true", numeral, .rule iLiteralString, .lit b!"...", .rule iFuncDef, skipR [.rule iUnOp, expR]])
    (hh.append (by decide)) (by decide +kernel) (.hit ht.tight.weak)))

theorem final_prefix (hh : Heads [.name, .sym b!"("] (e ++ more)) (he : Step rt Laid Spaced (.rule iPrefixExp) e more) : Step rt Laid Spaced (.rule iFinalExp) e more :=
  .rule e_final (.any (.drop' (rs := [.lit b!"nil", .lit b!"false", .lit b!"true", numeral, .rule iLiteralString, .lit b!"...", .rule iFuncDef, skipR [.rule iUnOp, expR],
    .rule iTableConstructor]) hh (by decide +kernel) (.hit he)))

theorem prefix_var (hv : ∀ more, Fail rt Spaced (.rule iVarSuffix) more → Step rt Laid Spaced (.rule iVar) v more)
    (hc : ∀ more, Fail rt Spaced nameAndArgs more → Step rt Spaced Spaced (.zom nameAndArgs) c more) (h : Ends rt more) :
    Step rt Laid Spaced (.rule iPrefixExp) (v ++ c) more :=
  .rule e_prefix (.seq (.cons (.any (.hit (hv _ (suffix_fail hc h)))) (.last (hc _ h.call))))

theorem prefix_paren (he : ∀ more, Heads afterExp more → Step rt Laid Spaced expR e more)
    (hc : ∀ more, Fail rt Spaced nameAndArgs more → Step rt Spaced Spaced (.zom nameAndArgs) c more) (h : Ends rt more) :
    Step rt Laid Spaced (.rule iPrefixExp) (b!"(" :: (e ++ b!")" :: c)) more := by
  have hn : Fail rt Laid (.rule iVar) (b!"(" :: (e ++ (b!")" :: (c ++ more)))) := by
    have hh : Heads [.sym b!"("] (b!"(" :: (e ++ (b!")" :: (c ++ more)))) := .sym (by decide +kernel)
    refine .rule e_var (.seq (.stop (.any (.next (hh.fail (by decide +kernel)) (.next (Fail.tight (.skipSeq skip_all ?_)) .nil)))))
    exact .otok (.osym (by decide +kernel)) (.cons skip_all (he _ (.sym (by decide +kernel))) (.otok (.osym (by decide +kernel)) (.stop (suffix_fail hc h).tight)))
  have h1 : Step rt Laid Spaced varOrExp (b!"(" :: (e ++ [b!")"])) (c ++ more) := by
    refine .any (.next (.of_eq (by simp) hn) (.hit (Step.weak (.tight (.skipSeq skip_all ?_)))))
    exact .otok (.osym (by decide +kernel)) (.cons skip_all (he _ (.sym (by decide +kernel))) (.otok (.osym (by decide +kernel)) .nil))
  refine .of_eq (l := (b!"(" :: (e ++ [b!")"])) ++ c) (by simp) (.rule e_prefix (.seq (.cons h1 (.last (hc _ h.call)))))

theorem prefix_parenVar (he : ∀ more, Heads afterExp more → Step rt Laid Spaced expR e more)
    (hc : ∀ more, Fail rt Spaced nameAndArgs more → Step rt Spaced Spaced (.zom nameAndArgs) c more)
    (hh : Heads idxHeads i) (hi : ∀ more, Step rt Laid Wide idxR i more)
    (hg : ∀ more, Fail rt Spaced (.rule iVarSuffix) more → Step rt Spaced Spaced (.zom (.rule iVarSuffix)) g more)
    (hd : ∀ more, Fail rt Spaced nameAndArgs more → Step rt Spaced Spaced (.zom nameAndArgs) d more) (h : Ends rt more) :
    Step rt Laid Spaced (.rule iPrefixExp) (b!"(" :: (e ++ b!")" :: (c ++ (i ++ (g ++ d))))) more := by
  have h1 : Step rt Laid Spaced (.rule iVar) ((b!"(" :: (e ++ (b!")" :: (c ++ i)))) ++ g) (d ++ more) := by
    refine .rule e_var (.seq (.cons (.any (.next ?_ (.hit (Step.weak (.tight (.skipSeq skip_all ?_)))))) (.last (hg _ (suffix_fail hd h)))))
    · exact (show Heads [.sym b!"("] _ from .sym (by decide +kernel)).fail (by decide +kernel)
    · exact .otok (.osym (by decide +kernel)) (.cons skip_all (he _ (.sym (by decide +kernel))) (.otok (.osym (by decide +kernel))
        (.last skip_all (suffix_step hc hh hi).tight.weak)))
  refine .of_eq (l := ((b!"(" :: (e ++ (b!")" :: (c ++ i)))) ++ g) ++ d) (by simp) (.rule e_prefix (.seq (.cons (.any (.hit h1)) (.last (hd _ h.call)))))

theorem exp_simple (he : ∀ more, Heads afterSimple more → Step rt Laid Spaced (.rule iFinalExp) e more) (h : Heads afterExp more) : Step rt Laid Spaced expR e more := by
  have h' := he more (h.sub (by decide +kernel))
  refine .rule e_exp (.any (.next (Fail.tight (.skipSeq skip_ws (.cons skip_ws h' (.stop (h.fail (by decide +kernel)))))) (.hit h')))

theorem exp_final (h : Heads afterExp more) (h' : Step rt Laid Spaced (.rule iFinalExp) e more) : Step rt Laid Spaced expR e more :=
  .rule e_exp (.any (.next (Fail.tight (.skipSeq skip_ws (.cons skip_ws h' (.stop (h.fail (by decide +kernel)))))) (.hit h')))

theorem binop_sym : ∀ k ∈ plainBinOps, (!luaOpener k && eatsSym (.rule iBinOp) k) = true ∨ (!luaOpener k && eatsWord (.rule iBinOp) k) = true := by decide +kernel

theorem binop_heads : ∀ k ∈ plainBinOps, (afterSimple.contains (.sym k) && luaSymbols.contains k) = true ∨ (afterSimple.contains (.word k) && luaKeywords.contains k) = true := by
  decide +kernel

theorem exp_bin (ha : ∀ more, Heads afterSimple more → Step rt Laid Spaced (.rule iFinalExp) a more) (hk : k ∈ plainBinOps) (hb : Step rt Laid Spaced expR b more) :
    Step rt Laid Spaced expR (a ++ k :: b) more := by
  have hh : ∀ m, Heads afterSimple (k :: m) := fun m => by
    rcases binop_heads k hk with h | h
    · exact .sym h
    · exact .word h
  have ho : ∀ m, Step rt Laid Spaced (.rule iBinOp) [k] m := fun m => by
    rcases binop_sym k hk with h | h
    · exact .sym h
    · exact .word h
  exact .rule e_exp (.any (.hit (Step.weak (.tight (.skipSeq skip_ws (.cons skip_ws (ha _ (hh _)) (.tok skip_ws (ho _) (.last skip_ws hb))))))))

theorem exps_one (he : Step rt Laid Spaced expR e more) (h : Heads afterExps more) : ExpsStep rt e more :=
  ⟨e, [], by simp, he, .zom_stop (Fail.tight (.skipSeq skip_all (.stop (h.fail (by decide +kernel)))))⟩

theorem exps_more (he : ∀ more, Heads afterExp more → Step rt Laid Spaced expR e more) (h : ExpsStep rt es more) : ExpsStep rt (e ++ b!"," :: es) more := by
  obtain ⟨w, l, rfl, h1, h2⟩ := h
  refine ⟨e, b!"," :: (w ++ l), rfl, he _ (.sym (by decide +kernel)), ?_⟩
  have : Step rt Laid Laid commaExp (b!"," :: w) (l ++ more) := Step.tight (.skipSeq skip_all (.tok skip_all (.sym (by decide +kernel)) (.last skip_all h1)))
  exact .zom_step this h2

/-! ### tables -/

theorem field_key (ha : ∀ more, Heads afterExp more → Step rt Laid Spaced expR a more) (hb : Step rt Laid Spaced expR b more) :
    Step rt Spaced Laid (.rule iField) (b!"[" :: (a ++ b!"]" :: b!"=" :: b)) more :=
  .rule e_field (.any (.hit (.skipSeq skip_all (.otok (.osym (by decide +kernel)) (.cons skip_all (ha _ (.sym (by decide +kernel)))
    (.otok (.osym (by decide +kernel)) (.tok skip_all (.sym (by decide +kernel)) (.last skip_all hb))))))))

theorem field_name (hx : LuaName x) (he : Step rt Laid Spaced expR e more) : Step rt Spaced Laid (.rule iField) (x :: b!"=" :: e) more :=
  have hh : Heads [.ident] (x :: b!"=" :: e ++ more) := .of_name hx (by decide)
  .rule e_field (.any (.next (hh.gap (by decide +kernel)) (.hit (.skipSeq skip_all (.tok skip_all (.name hx) (.tok skip_all (.sym (by decide +kernel)) (.last skip_all he)))))))

/-- Fields, as the first of them and the rest. -/
def FieldsStep (rt : Rt) (fs more : List Bytes) : Prop :=
  ∃ f l, fs = f ++ l ∧ Step rt Spaced Laid (.rule iField) f (l ++ more) ∧ Step rt Laid Laid (.zom sepField) l more

theorem fields_one (hf : Step rt Spaced Laid (.rule iField) f more) (h : Fail rt Laid sepField more) : FieldsStep rt f more := ⟨f, [], by simp, hf, .zom_stop h⟩

theorem sep_step (hs : k = b!"," ∨ k = b!";") : Step rt Laid Spaced (.rule iFieldSep) [k] more := by
  rcases hs with rfl | rfl
  · exact .sym (by decide +kernel)
  · exact .sym (by decide +kernel)

theorem sep_heads (hs : k = b!"," ∨ k = b!";") (h : (S.contains (.sym b!",") && S.contains (.sym b!";")) = true) : Heads S (k :: more) := by
  rw [Bool.and_eq_true] at h
  rcases hs with rfl | rfl
  · exact .sym (by rw [h.1]; decide +kernel)
  · exact .sym (by rw [h.2]; decide +kernel)

theorem fields_more (hf : ∀ more, Heads [.sym b!",", .sym b!";", .sym b!"}"] more → Step rt Spaced Laid (.rule iField) f more) (hs : k = b!"," ∨ k = b!";")
    (h : FieldsStep rt fs more) : FieldsStep rt (f ++ k :: fs) more := by
  obtain ⟨w, l, rfl, h1, h2⟩ := h
  refine ⟨f, k :: (w ++ l), rfl, hf _ (sep_heads hs (by decide +kernel)), ?_⟩
  have : Step rt Laid Laid sepField (k :: w) (l ++ more) := .seq (.tok (sep_step hs) (.last h1))
  exact .zom_step this h2

theorem fields_end : Fail rt Laid sepField (b!"}" :: more) := (show Heads [.sym b!"}"] _ from .sym (by decide +kernel)).fail (by decide +kernel)

theorem fields_sep (hs : k = b!"," ∨ k = b!";") : Fail rt Laid sepField (k :: b!"}" :: more) :=
  .seq (.tok (sep_step hs) (.stop ((show Heads [.sym b!"}"] _ from .sym (by decide +kernel)).gap (by decide +kernel))))

theorem table_none : Step rt Spaced Laid (.rule iTableConstructor) [b!"{", b!"}"] more :=
  have hh : Heads [.sym b!"}"] (b!"}" :: more) := .sym (by decide +kernel)
  .rule e_table (.skipSeq skip_all (.otok (.osym (by decide +kernel)) (.pass skip_all (Step.opt_none (hh.fail (by decide +kernel))).weak
    (.otok (.osym (by decide +kernel)) .nil))))

/-- Where nothing more of the list comes. -/
theorem fieldlist (h : FieldsStep rt fs (l ++ b!"}" :: more)) (hl : Step rt Laid Spaced (.opt (.rule iFieldSep)) l (b!"}" :: more)) :
    Step rt Spaced Laid (.rule iFieldList) (fs ++ l) (b!"}" :: more) := by
  obtain ⟨f, k, rfl, h1, h2⟩ := h
  refine .of_eq (l := f ++ (k ++ l)) (by simp) (.rule e_fieldlist (.skipSeq skip_all (.cons skip_all ?_ (.cons skip_all h2.weak (.last skip_all hl)))))
  rw [List.append_assoc]
  exact h1.tight.weak

theorem table_fields (h : Step rt Spaced Laid (.rule iFieldList) l (b!"}" :: more)) : Step rt Spaced Laid (.rule iTableConstructor) (b!"{" :: (l ++ [b!"}"])) more :=
  .rule e_table (.skipSeq skip_all (.otok (.osym (by decide +kernel)) (.cons skip_all (Step.opt h.tight).weak (.otok (.osym (by decide +kernel)) .nil))))

theorem table_some (hf : FieldsStep rt fs (b!"}" :: more)) : Step rt Spaced Laid (.rule iTableConstructor) (b!"{" :: (fs ++ [b!"}"])) more := by
  have hh : Heads [.sym b!"}"] (b!"}" :: more) := .sym (by decide +kernel)
  have := fieldlist (l := []) hf (Step.opt_none (hh.fail (by decide +kernel))).weak
  rw [List.append_nil] at this
  exact table_fields this

theorem table_sep (hs : k = b!"," ∨ k = b!";") (hf : FieldsStep rt fs (k :: b!"}" :: more)) :
    Step rt Spaced Laid (.rule iTableConstructor) (b!"{" :: (fs ++ [k, b!"}"])) more :=
  .of_eq (by simp) (table_fields (fieldlist (l := [k]) hf (Step.opt (sep_step hs))))

end Lua
end Tok
