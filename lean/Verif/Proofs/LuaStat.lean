/-
The statements of the Lua grammar.
-/
import Verif.Proofs.LuaExp

namespace Tok
open Spec

namespace Lua

variable {rt : Rt} {r sk : Reader} {rs rs' : List Reader} {k x : Bytes} {ks l l' more a b c d e es f fs g i n p s ss t v : List Bytes}
  {I M O : List Bytes → Bytes → Prop} {S T : List Cls}

/-! ### lists of names -/

def commaName : Reader := .seq [.rune 44, nameR]

theorem row_last {y : Bytes} (h : NameRow y) : ∃ a ∈ y.getLast?, NameStart a ∨ DecDigit a := by
  induction h with
  | one h => exact ident_last h.1
  | @cons x y _ _ ih => exact last_append (by
      have := last_append (x := [44]) ih
      simpa using this)

theorem row_open {y : Bytes} (h : NameRow y) : luaOpener y = false := by
  cases h with
  | one h => exact name_open h
  | cons hx _ =>
    have : ∀ k ∈ luaOpeners, (44 : UInt8) ∉ k := by decide
    exact not_opener (fun h => this _ h (by simp)) (by obtain ⟨c, y, rfl, hc, _⟩ := hx.1; rintro b ⟨⟩; exact start_apart hc)

theorem plain_name (h : PlainName x) : LuaName x := ⟨h.1, fun hk => h.2 x hk (List.prefix_refl _)⟩

theorem comma_apart : ¬ NameStart 44 ∧ ¬ DecDigit 44 := by unfold NameStart DecDigit; decide

theorem row_zom {y u : Bytes} (h : NameRow y) (hu : ∀ b v, u = b :: v → ¬ NameStart b ∧ ¬ DecDigit b) (hz : Gets rt env (.zom commaName) u (some u)) :
    Gets rt env (.zom commaName) (44 :: (y ++ u)) (some u) := by
  have comma : ∀ z, Gets rt env (.rune 44) (44 :: z) (some z) := fun z => by
    have := rune_gets (rt := rt) 44 (by decide) (44 :: z)
    simpa [oneB] using this
  induction h with
  | one h => exact .zom_step (u := u) (.seq (.cons (comma _) (.cons (ident_gets h.1 hu) .nil))) hz
  | @cons x y h _ ih =>
    refine .zom_step (u := 44 :: (y ++ u)) (.seq (.cons (comma _) (.cons ?_ .nil))) ih
    rw [List.append_assoc]
    exact ident_gets h.1 (by rintro b v ⟨⟩; exact comma_apart)

theorem namelist (hx : NameRow x) (h : Fail rt Spaced commaName more) : Step rt Spaced Laid (.rule iNameList) [x] more := by
  refine .rule e_namelist (.skipSeq skip_ws ?_)
  cases hx with
  | one hx => exact .tok skip_ws (.name hx) (.pass (l := []) skip_ws (Step.zom_stop h).tight .nil)
  | @cons x y hx hy =>
    intro X hX
    obtain ⟨u, rfl, _, hu, hs⟩ := Laid.uncons (row_open (.cons hx hy)) hX
    have hu' := after_ident (row_last (.cons hx hy)) hu
    obtain ⟨Z, z1, z2, z3⟩ := skip_ws (rt := rt) _ u hs
    refine ⟨Z, ?_, z2, by
      have : 0 < x.length := List.length_pos_iff.mpr (token_ne (.word hx.1))
      simp only [List.length_append, List.length_cons, List.length_nil] at z3 ⊢; omega⟩
    have e1 : Gets rt env nameR (x ++ 44 :: y ++ u) (some (44 :: (y ++ u))) := by
      rw [List.append_assoc]
      exact ident_gets hx.1 (by rintro b v ⟨⟩; exact comma_apart)
    have e2 : Gets rt env (.zom mkWS) (44 :: (y ++ u)) (some (44 :: (y ++ u))) := .zom_stop (fails_gets (p := [44]) (by decide +kernel) begins_nothing)
    exact .cons e1 e2 (.cons (row_zom hy hu' (.zom_stop (h u hs))) z1 .nil)

theorem comma_fail (h : Heads [.sym b!")", .word b!"in"] more) : Fail rt Spaced commaName more := h.gap (by decide +kernel)

theorem comma_dots : Fail rt Spaced commaName (b!"," :: b!"..." :: more) := by
  refine .split (.seq (.tok (.sym (by decide +kernel)) (.stop ?_))) (.white (by decide +kernel))
  exact (show Heads [.sym b!"..."] _ from .sym (by decide +kernel)).gap (by decide +kernel)

theorem funcname_rest (h : FuncNames n) : ∃ x l, n = x :: l ∧ LuaName x ∧ ∀ more, Fail rt Laid (wsR [.rune 46, nameR]) more →
    Step rt Laid Laid (.zom (wsR [.rune 46, nameR])) l more := by
  induction h with
  | @one x h => exact ⟨x, [], rfl, h, fun _ hf => .zom_stop hf⟩
  | @dot x ks h _ ih =>
    obtain ⟨y, l, rfl, hy, hl⟩ := ih
    refine ⟨x, _, rfl, h, fun more hf => ?_⟩
    exact .zom_step (l := [b!".", y]) (Step.tight (.skipSeq skip_ws (.tok skip_ws (.sym (by decide +kernel)) (.tok skip_ws (.name hy) .nil)))) (hl more hf)

theorem funcname_heads (h : FuncNames n) : Heads [.ident] n := by
  cases h with
  | one h => exact .of_name h (by decide)
  | dot h _ => exact .of_name h (by decide)

theorem funcname (h : FuncNames n) (hm : Heads [.sym b!"("] more) : Step rt Spaced Laid (.rule iFuncName) n more := by
  obtain ⟨x, l, rfl, hx, hl⟩ := funcname_rest (rt := rt) h
  have h1 : Fail rt Laid (wsR [.rune 46, nameR]) more := (hm.gap (by decide +kernel)).tight
  have h2 : Fail rt Laid (wsR [.rune 58, nameR]) more := (hm.gap (by decide +kernel)).tight
  refine .of_eq (l := x :: (l ++ [])) (by simp) (.rule e_funcname (.skipSeq skip_ws (.tok skip_ws (.name hx) (.cons skip_ws (hl more h1).weak (.pass (l := []) skip_ws (Step.opt_none h2).weak .nil)))))

theorem funcname_method (h : FuncNames n) (hx : LuaName x) : Step rt Spaced Laid (.rule iFuncName) (n ++ [b!":", x]) more := by
  obtain ⟨y, l, rfl, hy, hl⟩ := funcname_rest (rt := rt) h
  have h1 : Fail rt Laid (wsR [.rune 46, nameR]) ([b!":", x] ++ more) :=
    ((show Heads [.sym b!":"] ([b!":", x] ++ more) from .sym (by decide +kernel)).gap (by decide +kernel)).tight
  refine .rule e_funcname (.skipSeq skip_ws (.tok skip_ws (.name hy) (.cons skip_ws (hl _ h1).weak (.last skip_ws (Step.opt ?_)))))
  exact Step.weak (.tight (.skipSeq skip_ws (.tok skip_ws (.sym (by decide +kernel)) (.last skip_ws (.name hx)))))

theorem params (h : Params p) : Step rt Laid Spaced (.opt (.rule iFuncParams)) p (b!")" :: more) := by
  have hh : Heads [.sym b!")"] (b!")" :: more) := .sym (by decide +kernel)
  have hn : Heads [.sym b!")", .word b!"in"] (b!")" :: more) := .sym (by decide +kernel)
  cases h with
  | none => exact (Step.opt_none (hh.fail (by decide +kernel))).weak
  | @row x h => exact .opt (.rule e_params (.any (.hit (Step.weak (.tight (.skipSeq skip_all (.cons (l := [x]) (l' := []) skip_all (namelist h (comma_fail hn)).tight.weak
      (.pass (l := []) skip_all (Step.opt_none (hh.gap (by decide +kernel)).tight).weak .nil))))))))
  | @rowDots x h => exact .opt (.rule e_params (.any (.hit (Step.weak (.tight (.skipSeq skip_all (.tok skip_all (namelist h comma_dots).tight.weak
      (.last skip_all (Step.opt (Step.weak (.tight (.skipSeq skip_all (.tok skip_all (.sym (by decide +kernel)) (.last skip_all (.lit _)))))))))))))))
  | dots =>
    have hd : Heads [.sym b!"..."] ([b!"..."] ++ b!")" :: more) := .sym (by decide +kernel)
    exact .opt (.rule e_params (.any (.next (hd.fail (by decide +kernel)) (.hit (.lit _)))))

/-! ### blocks -/

theorem ends_fail (hk : k ∈ [b!"return", b!"end", b!"until", b!"elseif", b!"else"]) (h : Heads afterWord more) : Fail rt Spaced (.rule iStat) (k :: more) := by
  have hw : k ∈ luaKeywords := (by decide : ∀ k ∈ [b!"return", b!"end", b!"until", b!"elseif", b!"else"], k ∈ luaKeywords) k hk
  have hh : Heads [.word b!"return", .word b!"end", .word b!"until", .word b!"elseif", .word b!"else"] (k :: more) :=
    ⟨.word k, by simpa using hk, hw, more, rfl⟩
  refine .rule e_stat (.any (.drop (rs := [.rune 59]) hh (by decide +kernel) (.next (word_assign (kw_ident hw) h)
    (.drop (rs := [.rule iLabel, .rule iBreak, .rule iGoTo, .rule iDo, .rule iWhile, .rule iRepeat, .rule iIfElse, .rule iFor, .rule iForEach, .rule iFunc, .rule iLocalFunc,
      .rule iLocalAtt]) hh (by decide +kernel) (.next (word_call hw h) .nil)))))

theorem eof_fail : Fail rt Spaced (.rule iStat) [] := (show Heads [.eof] [] from ⟨.eof, by simp, rfl⟩).gap (by decide +kernel)

theorem block_noRet (hs : Step rt Laid Spaced (.zom (.rule iStat)) ss more) (h : Heads blockEnds more) : Step rt Wide Laid blockR ss more := by
  refine .of_eq (l := ss ++ []) (by simp) (.rule e_block (.skipAll (.cons skip_all hs (.pass (l := []) skip_all (Step.opt_none ?_).weak .nil))))
  exact (h.gap (by decide +kernel)).tight

theorem block_ret (hs : Step rt Laid Spaced (.zom (.rule iStat)) ss (l ++ more)) (h : Step rt Spaced Laid (.rule iRetStat) l more) : Step rt Wide Laid blockR (ss ++ l) more :=
  .rule e_block (.skipAll (.cons skip_all hs (.last skip_all (Step.opt h.tight).weak)))

theorem ret_exps (he : ExpsStep rt es more) (h : Heads blockEnds more) : Step rt Spaced Laid (.rule iRetStat) (b!"return" :: es) more :=
  .rule e_ret (.skipSeq skip_ws (.tok skip_ws (.lit _) (.of_eq (l := es ++ []) (by simp) (.cons skip_ws (Step.opt he.step.tight).weak
    (.pass (l := []) skip_ws (Step.opt_none (h.gap (by decide +kernel)).tight).weak .nil)))))

theorem ret_semi (he : ExpsStep rt es (b!";" :: more)) : Step rt Spaced Laid (.rule iRetStat) (b!"return" :: (es ++ [b!";"])) more :=
  .rule e_ret (.skipSeq skip_ws (.tok skip_ws (.lit _) (.cons skip_ws (Step.opt he.step.tight).weak (.last skip_ws (Step.opt (.sym (by decide +kernel)))))))

theorem ret_nothing : Step rt Spaced Laid (.rule iRetStat) [b!"return", b!";"] more :=
  have hh : Heads [.sym b!";"] (b!";" :: more) := .sym (by decide +kernel)
  .rule e_ret (.skipSeq skip_ws (.tok skip_ws (.lit _) (.pass skip_ws (Step.opt_none (hh.fail (by decide +kernel))).weak (.last skip_ws (Step.opt (.sym (by decide +kernel)))))))

theorem body (hp : Params p) (hb : Step rt Wide Laid blockR b (b!"end" :: more)) : Step rt Spaced Laid (.rule iFuncBody) (b!"(" :: (p ++ b!")" :: (b ++ [b!"end"]))) more :=
  .rule e_body (.skipSeq skip_all (.otok (.osym (by decide +kernel)) (.cons skip_all (params hp) (.otok (.osym (by decide +kernel))
    (.cons skip_all hb.narrow.tight.weak (.tok skip_all (.lit _) .nil))))))

/-! ### statements -/

/-- The alternatives behind the assignment. -/
def others : List Reader := [.rule iLabel, .rule iBreak, .rule iGoTo, .rule iDo, .rule iWhile, .rule iRepeat, .rule iIfElse, .rule iFor, .rule iForEach, .rule iFunc, .rule iLocalFunc,
  .rule iLocalAtt, .rule iFuncCall]

theorem stat_word (hk : k ∈ luaKeywords) (h : Heads afterWord (l ++ more)) (hs : gaps [.word k] (.rune 59) = true) (ho : others = rs ++ r :: rs') (hg : rs.all (gaps [.word k]) = true)
    (hr : Step rt Spaced O r (k :: l) more) : Step rt Spaced O (.rule iStat) (k :: l) more := by
  have hh : Heads [.word k] (k :: l ++ more) := ⟨.word k, by simp, hk, l ++ more, rfl⟩
  refine .rule e_stat (.any (.next (hh.gap hs) (.next (word_assign (kw_ident hk) h) ?_)))
  show StepAny rt Spaced O others _ _
  rw [ho]
  exact .drop hh hg (.hit hr)

theorem stat_assign (hv : Heads [.name] v) (hv' : VarsStep rt v (b!"=" :: (es ++ more))) (he : ExpsStep rt es more) : Step rt Spaced Laid (.rule iStat) (v ++ b!"=" :: es) more :=
  .rule e_stat (.any (.next ((hv.append (by decide)).append (by decide) |>.gap (by decide +kernel)) (.hit (.seq (.cons hv'.step (.tok (.sym (by decide +kernel)) (.last he.step)))))))

theorem assign_comma : Fail rt Laid commaVar (b!"=" :: more) := (show Heads [.sym b!"="] _ from .sym (by decide +kernel)).noComma (by decide +kernel)

/-- A call as a statement. -/
theorem stat_call (hh : Heads [.name] v) (hv : ∀ more, Fail rt Spaced (.rule iVarSuffix) more → Step rt Laid Spaced (.rule iVar) v more)
    (hc : Heads callHeads c) (hc' : ∀ more, Fail rt Spaced nameAndArgs more → Step rt Spaced Spaced (.zom nameAndArgs) c more)
    (hl : ∀ more, Fail rt Spaced nameAndArgs more → Step rt Spaced Laid (.many nameAndArgs) c more) (h : Ends rt more) :
    Step rt Laid Laid (.rule iStat) (v ++ c) more := by
  have h0 : Heads [.name] (v ++ c ++ more) := (hh.append (by decide)).append (by decide)
  have hcm : Heads callHeads (c ++ more) := hc.append (by decide)
  have h1 : Fail rt Laid assignR (v ++ c ++ more) := by
    rw [List.append_assoc]
    exact .tight (.seq (.cons (vars_one (hv _ (suffix_fail hc' h)) (hcm.noComma (by decide +kernel))).step (.stop (hcm.fail (by decide +kernel)))))
  refine .rule e_stat (.any (.next (h0.fail (by decide +kernel)) (.next h1 ?_)))
  refine .drop' (rs := [.rule iLabel, .rule iBreak, .rule iGoTo, .rule iDo, .rule iWhile, .rule iRepeat, .rule iIfElse, .rule iFor, .rule iForEach, .rule iFunc, .rule iLocalFunc,
    .rule iLocalAtt]) h0 (by decide +kernel) (.hit (.rule e_call (.seq (.cons (.any (.hit (hv _ (suffix_fail hc' h)))) (.last (hl _ h.call))))))

theorem goto_step (hx : LuaName x) : Step rt Spaced Laid (.rule iStat) [b!"goto", x] more :=
  stat_word (by decide) (.of_name hx (by decide +kernel)) (by decide +kernel) (rs := [.rule iLabel, .rule iBreak]) rfl (by decide +kernel)
    (.rule e_goto (.skipSeq skip_ws (.tok skip_ws (.lit _) (.last skip_ws (.name hx)))))

theorem break_step (h : Heads afterWord more) : Step rt Laid Spaced (.rule iStat) [b!"break"] more :=
  have hh : Heads [.word b!"break"] ([b!"break"] ++ more) := .word (by decide +kernel)
  .rule e_stat (.any (.next (hh.fail (by decide +kernel)) (.next (word_assign (kw_ident (by decide)) h).tight (.next (hh.fail (by decide +kernel)) (.hit (.rule e_break (.lit _)))))))

theorem semi_step : Step rt Laid Spaced (.rule iStat) [b!";"] more := .rule e_stat (.any (.hit (.sym (by decide +kernel))))

theorem label_step (hx : LuaName x) : Step rt Laid Spaced (.rule iStat) [58 :: 58 :: (x ++ [58, 58])] more := by
  have hh : Heads [.begun b!"::"] ([58 :: 58 :: (x ++ [58, 58])] ++ more) := ⟨.begun b!"::", by simp, x ++ [58, 58], more, rfl⟩
  refine .rule e_stat (.any (.drop' (rs := [.rune 59, assignR]) hh (by decide +kernel) (.hit (.rule e_label (.tok (by simp [luaOpener, luaOpeners]) fun u _ => ?_)))))
  have h1 : Gets rt env nameR (x ++ (b!"::" ++ u)) (some (b!"::" ++ u)) := ident_gets hx.1 (by rintro b v ⟨⟩; unfold NameStart DecDigit; decide)
  have e : 58 :: 58 :: (x ++ [58, 58]) ++ u = b!"::" ++ (x ++ (b!"::" ++ u)) := by simp
  rw [e]
  exact .seq (.cons (.lit _ _) (.cons h1 (.cons (.lit _ _) .nil)))

theorem do_step (hm : Heads afterWord (b ++ b!"end" :: more)) (hb : Step rt Wide Laid blockR b (b!"end" :: more)) : Step rt Spaced Laid (.rule iStat) (b!"do" :: (b ++ [b!"end"])) more :=
  stat_word (by decide) (by simpa using hm) (by decide +kernel) (rs := [.rule iLabel, .rule iBreak, .rule iGoTo]) rfl (by decide +kernel)
    (.rule e_do (.skipSeq skip_ws (.block (.olit _) hb (.tok skip_ws (.lit _) .nil))))

theorem while_step (hm : Heads (.word b!"function" :: someExp) e) (he : ∀ more, Heads afterExp more → Step rt Laid Spaced expR e more)
    (hb : Step rt Wide Laid blockR b (b!"end" :: more)) : Step rt Spaced Laid (.rule iStat) (b!"while" :: (e ++ b!"do" :: (b ++ [b!"end"]))) more :=
  stat_word (by decide) ((hm.append (by decide)).append (by decide) |>.sub (by decide +kernel)) (by decide +kernel) (rs := [.rule iLabel, .rule iBreak, .rule iGoTo, .rule iDo]) rfl
    (by decide +kernel) (.rule e_while (.skipSeq skip_ws (.tok skip_ws (.lit _) (.cons skip_ws (he _ (.word (by decide +kernel))) (.block (.olit _) hb
      (.tok skip_ws (.lit _) .nil))))))

theorem repeat_step (hm : Heads afterWord (b ++ b!"until" :: (e ++ more))) (hb : Step rt Wide Laid blockR b (b!"until" :: (e ++ more)))
    (he : Step rt Laid Spaced expR e more) : Step rt Spaced Laid (.rule iStat) (b!"repeat" :: (b ++ b!"until" :: e)) more :=
  stat_word (by decide) (by simpa using hm) (by decide +kernel) (rs := [.rule iLabel, .rule iBreak, .rule iGoTo, .rule iDo, .rule iWhile]) rfl (by decide +kernel)
    (.rule e_repeat (.skipSeq skip_ws (.block (.olit _) hb (.tok skip_ws (.lit _) (.last skip_ws he)))))

theorem elif_none (h : Heads [.word b!"else", .word b!"end"] more) : Step rt Laid Laid (.zom elifR) [] more := .zom_stop (h.gap (by decide +kernel)).tight

theorem elif_some (he : ∀ more, Heads afterExp more → Step rt Laid Spaced expR e more) (hb : Step rt Wide Laid blockR b (l ++ more))
    (hl : Step rt Laid Laid (.zom elifR) l more) : Step rt Laid Laid (.zom elifR) (b!"elseif" :: (e ++ b!"then" :: (b ++ l))) more := by
  have : Step rt Laid Laid elifR (b!"elseif" :: (e ++ b!"then" :: b)) (l ++ more) := Step.tight (.skipSeq skip_ws (.tok skip_ws (.lit _) (.cons skip_ws
    (he _ (.word (by decide +kernel))) (.of_eq (by simp) (.block (l := b) (l' := []) (.olit _) (by simpa using hb) .nil)))))
  exact .of_eq (by simp) (Step.zom_step this hl)

theorem if_step (hm : Heads (.word b!"function" :: someExp) e) (he : ∀ more, Heads afterExp more → Step rt Laid Spaced expR e more)
    (hb : Step rt Wide Laid blockR b (l ++ (d ++ b!"end" :: more))) (hl : Step rt Laid Laid (.zom elifR) l (d ++ b!"end" :: more))
    (hd : Step rt Laid Laid (.opt elseR) d (b!"end" :: more)) : Step rt Spaced Laid (.rule iStat) (b!"if" :: (e ++ b!"then" :: (b ++ (l ++ (d ++ [b!"end"]))))) more := by
  refine stat_word (by decide) ((hm.append (by decide)).append (by decide) |>.sub (by decide +kernel)) (by decide +kernel)
    (rs := [.rule iLabel, .rule iBreak, .rule iGoTo, .rule iDo, .rule iWhile, .rule iRepeat]) rfl (by decide +kernel)
    (.rule e_if (.skipSeq skip_ws (.tok skip_ws (.lit _) (.cons skip_ws (he _ (.word (by decide +kernel))) (.block (.olit _) ?_ (.cons skip_ws ?_
      (.cons skip_ws hd.weak (.tok skip_ws (.lit _) .nil))))))))
  · simpa using hb
  · simpa using hl.weak

theorem else_none : Step rt Laid Laid (.opt elseR) [] (b!"end" :: more) :=
  .opt_none ((show Heads [.word b!"end"] _ from .word (by decide +kernel)).gap (by decide +kernel)).tight

theorem else_some (hb : Step rt Wide Laid blockR b (b!"end" :: more)) : Step rt Laid Laid (.opt elseR) (b!"else" :: b) (b!"end" :: more) :=
  .opt (Step.tight (.skipSeq skip_ws (.of_eq (by simp) (.block (l := b) (l' := []) (.olit _) (by simpa using hb) .nil))))

theorem for_step (hx : LuaName x) (ha : ∀ more, Heads afterExp more → Step rt Laid Spaced expR a more) (he : ∀ more, Heads afterExp more → Step rt Laid Spaced expR e more)
    (hl : ∀ m, Step rt Laid Spaced (.opt (wsR [.rune 44, expR])) l (b!"do" :: m)) (hh : ∀ m, Heads afterExp (l ++ b!"do" :: m))
    (hb : Step rt Wide Laid blockR b (b!"end" :: more)) :
    Step rt Spaced Laid (.rule iStat) (b!"for" :: x :: b!"=" :: (a ++ b!"," :: (e ++ (l ++ b!"do" :: (b ++ [b!"end"]))))) more := by
  refine stat_word (by decide) (.of_name hx (by decide +kernel)) (by decide +kernel)
    (rs := [.rule iLabel, .rule iBreak, .rule iGoTo, .rule iDo, .rule iWhile, .rule iRepeat, .rule iIfElse]) rfl (by decide +kernel)
    (.rule e_for (.skipSeq skip_ws (.tok skip_ws (.lit _) (.tok skip_ws (.name hx) (.tok skip_ws (.sym (by decide +kernel)) (.cons skip_ws (ha _ (.sym (by decide +kernel)))
      (.tok skip_ws (.sym (by decide +kernel)) (.cons skip_ws (he _ ?_) (.cons skip_ws (hl _) (.block (.olit _) hb (.tok skip_ws (.lit _) .nil)))))))))))
  simpa using hh _

theorem step_none (m : List Bytes) : Step rt Laid Spaced (.opt (wsR [.rune 44, expR])) [] (b!"do" :: m) :=
  (Step.opt_none ((show Heads [.word b!"do"] _ from .word (by decide +kernel)).gap (by decide +kernel)).tight).weak

theorem step_some (he : ∀ more, Heads afterExp more → Step rt Laid Spaced expR e more) (m : List Bytes) :
    Step rt Laid Spaced (.opt (wsR [.rune 44, expR])) (b!"," :: e) (b!"do" :: m) :=
  .opt (Step.weak (.tight (.skipSeq skip_ws (.tok skip_ws (.sym (by decide +kernel)) (.last skip_ws (he _ (.word (by decide +kernel))))))))

/-- Behind `for` come names that are not followed by an equal sign. -/
theorem for_fail (hx : NameRow x) : Fail rt Spaced (.rule iFor) (b!"for" :: x :: b!"in" :: more) := by
  refine .rule e_for (.skipSeq skip_ws (.tok skip_ws (.lit _) ?_))
  cases hx with
  | one hx => exact .tok skip_ws (.name hx) (.stop ((show Heads [.word b!"in"] _ from .word (by decide +kernel)).fail (by decide +kernel)))
  | @cons x y hx hy =>
    intro X hX
    obtain ⟨u, rfl, _, hu, hs⟩ := Laid.uncons (row_open (.cons hx hy)) hX
    have e1 : Gets rt env nameR (x ++ 44 :: y ++ u) (some (44 :: (y ++ u))) := by
      rw [List.append_assoc]
      exact ident_gets hx.1 (by rintro b v ⟨⟩; exact comma_apart)
    have e2 : Gets rt env (.zom mkWS) (44 :: (y ++ u)) (some (44 :: (y ++ u))) := .zom_stop (fails_gets (p := [44]) (by decide +kernel) begins_nothing)
    exact .cons e1 e2 (.stop (fails_gets (p := [44]) (by decide +kernel) begins_nothing))

theorem forEach_step (hx : NameRow x) (he : ∀ more, Heads afterExps more → ExpsStep rt es more) (hb : Step rt Wide Laid blockR b (b!"end" :: more)) :
    Step rt Spaced Laid (.rule iStat) (b!"for" :: x :: b!"in" :: (es ++ b!"do" :: (b ++ [b!"end"]))) more := by
  have hh : Heads [.word b!"for"] (b!"for" :: x :: b!"in" :: (es ++ b!"do" :: (b ++ [b!"end"])) ++ more) := .word (by decide +kernel)
  refine .rule e_stat (.any (.next (hh.gap (by decide +kernel)) (.next (word_assign (kw_ident (by decide)) (.of_row hx (by decide +kernel))) ?_)))
  refine .drop (rs := [.rule iLabel, .rule iBreak, .rule iGoTo, .rule iDo, .rule iWhile, .rule iRepeat, .rule iIfElse]) hh (by decide +kernel) (.next (for_fail hx) (.hit ?_))
  exact .rule e_foreach (.skipSeq skip_ws (.tok skip_ws (.lit _) (.tok skip_ws (namelist hx (comma_fail (.word (by decide +kernel)))).tight.weak (.tok skip_ws (.lit _)
    (.cons skip_ws (he _ (.word (by decide +kernel))).step.tight.weak (.block (.olit _) hb (.tok skip_ws (.lit _) .nil)))))))

theorem func_step (hh : Heads [.ident] n) (hn : Step rt Spaced Laid (.rule iFuncName) n (b ++ more)) (hb : Step rt Spaced Laid (.rule iFuncBody) b more) :
    Step rt Spaced Laid (.rule iStat) (b!"function" :: (n ++ b)) more :=
  stat_word (by decide) ((hh.append (by decide)).append (by decide) |>.sub (by decide +kernel)) (by decide +kernel)
    (rs := [.rule iLabel, .rule iBreak, .rule iGoTo, .rule iDo, .rule iWhile, .rule iRepeat, .rule iIfElse, .rule iFor, .rule iForEach]) rfl (by decide +kernel)
    (.rule e_func (.skipSeq skip_ws (.tok skip_ws (.lit _) (.cons skip_ws hn.tight.weak (.last skip_ws hb.tight.weak)))))

theorem localFunc_step (hx : LuaName x) (hb : Step rt Spaced Laid (.rule iFuncBody) b more) :
    Step rt Spaced Laid (.rule iStat) (b!"local" :: b!"function" :: x :: b) more :=
  stat_word (by decide) (.word (by decide +kernel)) (by decide +kernel)
    (rs := [.rule iLabel, .rule iBreak, .rule iGoTo, .rule iDo, .rule iWhile, .rule iRepeat, .rule iIfElse, .rule iFor, .rule iForEach, .rule iFunc]) rfl (by decide +kernel)
    (.rule e_localfunc (.skipSeq skip_ws (.tok skip_ws (.lit _) (.tok skip_ws (.lit _) (.tok skip_ws (.name hx) (.last skip_ws hb.tight.weak))))))

/-! ### declarations of local variables -/

/-- What may come behind the names. -/
def afterLocal : List Cls := .sym b!"," :: .sym b!"=" :: afterStat

theorem attrib_step (hx : LuaName x) : Step rt Laid Spaced (.rule iAttrib) [60 :: (x ++ [62])] more := by
  refine .rule e_attrib (.opt (.tok (by simp [luaOpener, luaOpeners]) fun u _ => ?_))
  have e : 60 :: (x ++ [62]) ++ u = [60] ++ (x ++ (62 :: u)) := by simp
  rw [e]
  have h0 := rune_gets (rt := rt) 60 (by decide) (60 :: (x ++ 62 :: u))
  have h1 : Gets rt env nameR (x ++ 62 :: u) (some (62 :: u)) := ident_gets hx.1 (by rintro b v ⟨⟩; unfold NameStart DecDigit; decide)
  have h2 := rune_gets (rt := rt) 62 (by decide) (62 :: u)
  exact .seq (.cons (u := x ++ 62 :: u) (by simpa [oneB] using h0) (.cons h1 (.cons (u := u) (by simpa [oneB] using h2) .nil)))

theorem attrib_none (h : Heads afterLocal more) : Step rt Laid Spaced (.rule iAttrib) [] more := .rule e_attrib (Step.opt_none (h.fail (by decide +kernel))).weak

/-- A variable with its attribute. -/
theorem local_one {rs : List Reader} (h : Local v) (hm : Heads afterLocal (l ++ more)) (hr : StepSkip rt (.zom mkWS) rs l more) :
    StepSkip rt (.zom mkWS) (nameR :: .rule iAttrib :: rs) (v ++ l) more := by
  cases h with
  | plain hx => exact .tok skip_ws (.name (plain_name hx)) (.pass skip_ws (attrib_none hm) hr)
  | attrib hx ha => exact .tok skip_ws (.name (plain_name hx)) (.tok skip_ws (attrib_step ha) hr)

theorem local_heads (h : Local v) : Heads [.name] v := by
  cases h with
  | plain hx => exact .of_plain hx (by decide)
  | attrib hx _ => exact .of_plain hx (by decide)

theorem locals_heads (h : Locals v) : Heads [.name] v := by
  cases h with
  | one h => exact local_heads h
  | cons h _ => exact (local_heads h).append (by decide)

def noComma : List Cls := .sym b!"=" :: afterStat

theorem locals_rest (h : Locals v) (hm : Heads noComma more) : ∃ w l, v = w ++ l ∧ Local w ∧ Heads afterLocal (l ++ more) ∧ Step rt Laid Laid (.zom commaAtt) l more := by
  induction h with
  | @one x h => exact ⟨x, [], by simp, h, hm.sub (by decide +kernel), .zom_stop (hm.gap (by decide +kernel)).tight⟩
  | @cons x ks h _ ih =>
    obtain ⟨w, l, rfl, h1, h2, h3⟩ := ih
    refine ⟨x, b!"," :: (w ++ l), rfl, h, .sym (by decide +kernel), ?_⟩
    have : Step rt Laid Laid commaAtt (b!"," :: (w ++ [])) (l ++ more) := Step.tight (.skipSeq skip_ws (.tok skip_ws (.sym (by decide +kernel)) (local_one h1 h2 .nil)))
    rw [List.append_nil] at this
    exact .zom_step this h3

theorem attnames (h : Locals v) (hm : Heads noComma more) : Step rt Spaced Laid (.rule iAttNameList) v more := by
  obtain ⟨w, l, rfl, h1, h2, h3⟩ := locals_rest (rt := rt) h hm
  exact .rule e_attnames (.skipSeq skip_ws (local_one h1 h2 (.last skip_ws h3.weak)))

theorem local_step (h : Locals v) (hm : Heads noComma (l ++ more)) (hl : Step rt Laid Spaced (.opt (wsR [.rune 61, .rule iExpList])) l more) :
    Step rt Spaced Laid (.rule iStat) (b!"local" :: (v ++ l)) more := by
  have hh : Heads [.word b!"local"] (b!"local" :: (v ++ l) ++ more) := .word (by decide +kernel)
  have hv : Heads [.name] (v ++ l ++ more) := ((locals_heads h).append (by decide)).append (by decide)
  refine .rule e_stat (.any (.next (hh.gap (by decide +kernel)) (.next (word_assign (kw_ident (by decide)) (hv.sub (by decide +kernel))) ?_)))
  refine .drop (rs := [.rule iLabel, .rule iBreak, .rule iGoTo, .rule iDo, .rule iWhile, .rule iRepeat, .rule iIfElse, .rule iFor, .rule iForEach, .rule iFunc]) hh (by decide +kernel)
    (.next (.rule e_localfunc (.skipSeq skip_ws (.tok skip_ws (.lit _) (.stop (hv.fail (by decide +kernel)))))) (.hit ?_))
  exact .rule e_local (.skipSeq skip_ws (.tok skip_ws (.lit _) (.cons skip_ws (attnames h hm).tight.weak (.last skip_ws hl))))

theorem values_none (h : Heads afterStat more) : Step rt Laid Spaced (.opt (wsR [.rune 61, .rule iExpList])) [] more :=
  (Step.opt_none (h.gap (by decide +kernel)).tight).weak

theorem values_some (h : ExpsStep rt es more) : Step rt Laid Spaced (.opt (wsR [.rune 61, .rule iExpList])) (b!"=" :: es) more :=
  .opt (Step.weak (.tight (.skipSeq skip_ws (.tok skip_ws (.sym (by decide +kernel)) (.last skip_ws h.step.tight.weak)))))

end Lua
end Tok
