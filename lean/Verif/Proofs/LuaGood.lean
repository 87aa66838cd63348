/-
The readers of the Lua grammar read every phrase of their kind.
-/
import Verif.Proofs.LuaStat

namespace Tok
open Spec

namespace Lua

variable {rt : Rt} {r : Reader} {k x : Bytes} {ks l more a b c d e es f fs g i n p s ss t v : List Bytes} {S T : List Cls}

/-- First tokens of a phrase, and what its reader does with it and some tokens behind it. -/
def Good (rt : Rt) : Cat → List Bytes → Prop
  | .simple, ks => Heads expHeads ks ∧ ∀ more, Heads afterSimple more → Step rt Laid Spaced (.rule iFinalExp) ks more
  | .exp, ks => Heads expHeads ks ∧ ∀ more, Heads afterExp more → Step rt Laid Spaced expR ks more
  | .exps, ks => Heads expsHeads ks ∧ ∀ more, Heads afterExps more → ExpsStep rt ks more
  | .index, ks => Heads idxHeads ks ∧ ∀ more, Step rt Laid Wide idxR ks more
  | .args, ks => Heads argHeads ks ∧ ∀ more, Step rt Laid Spaced (.rule iFuncArgs) ks more
  | .call, ks => Heads callHeads ks ∧ ∀ more, Step rt Spaced Laid nameAndArgs ks more
  | .calls, ks => (∀ more, Fail rt Spaced nameAndArgs more → Step rt Spaced Spaced (.zom nameAndArgs) ks more) ∧
      ∀ more, Fail rt Spaced nameAndArgs more → Step rt Laid Laid (.zom nameAndArgs) ks more
  | .groups, ks => ∀ more, Fail rt Spaced (.rule iVarSuffix) more → Step rt Spaced Spaced (.zom (.rule iVarSuffix)) ks more
  | .table, ks => Heads [.sym b!"{"] ks ∧ ∀ more, Step rt Spaced Laid (.rule iTableConstructor) ks more
  | .field, ks => ∀ more, Heads [.sym b!",", .sym b!";", .sym b!"}"] more → Step rt Spaced Laid (.rule iField) ks more
  | .fields, ks => ∀ more, Fail rt Laid sepField more → Heads [.sym b!",", .sym b!";", .sym b!"}"] more → FieldsStep rt ks more
  | .body, ks => Heads [.sym b!"("] ks ∧ ∀ more, Heads afterWord more → Step rt Spaced Laid (.rule iFuncBody) ks more
  | .var, ks => Heads [.name] ks ∧ ∀ more, Fail rt Spaced (.rule iVarSuffix) more → Step rt Laid Spaced (.rule iVar) ks more
  | .vars, ks => Heads [.name] ks ∧ ∀ m, VarsStep rt ks (b!"=" :: m)
  | .stat, ks => Heads statHeads ks ∧ ∀ more, Heads afterStat more → Step rt Spaced Laid (.rule iStat) ks more
  | .callStat, ks => Heads statHeads ks ∧ ∀ more, Heads afterStat more → Step rt Laid Laid (.rule iStat) ks more
  | .elifs, ks => First [.word b!"elseif"] ks ∧ ∀ more, Heads [.word b!"else", .word b!"end"] more → Fail rt Spaced (.rule iStat) more →
      Step rt Laid Laid (.zom elifR) ks more ∧ Fail rt Spaced (.rule iStat) (ks ++ more)
  | .stats p, ks => First statHeads ks ∧ ∀ more, Heads afterStat more → Fail rt Spaced (.rule iStat) more →
      Step rt (bif p then Spaced else Laid) Spaced (.zom (.rule iStat)) ks more
  | .block, ks => First blockHeads ks ∧ ∀ more, Heads blockEnds more → Fail rt Spaced (.rule iStat) more → Step rt Wide Laid blockR ks more

theorem stats_tight {q : Bool} (h : Step rt (bif q then Spaced else Laid) Spaced r ks more) : Step rt Laid Spaced r ks more := by
  cases q
  · exact h
  · exact Step.tight h

theorem end_fail (h : Heads afterWord more) : Fail rt Spaced (.rule iStat) (b!"end" :: more) := ends_fail (by decide) h

/-- A block and `end`. -/
theorem block_end (hb : Good rt .block b) (h : Heads afterWord more) : Step rt Wide Laid blockR b (b!"end" :: more) :=
  hb.2 _ (.word (by decide +kernel)) (end_fail h)

/-- A block and `end`, seen from a reserved word in front. -/
theorem block_word (hb : Good rt .block b) (hk : blockEnds.contains (.word k) = true) (hk' : luaKeywords.contains k = true) : Heads afterWord (b ++ k :: more) := by
  refine First.then hb.1 (by decide) (T := afterWord) ?_ (by decide +kernel)
  exact Heads.sub (S := blockEnds) (.word (by simp only [hk, hk', Bool.and_self])) (by decide +kernel)

theorem afterWord_of (h : Heads afterStat more) : Heads afterWord more := h.sub (by decide +kernel)

theorem noArgs_heads (h : NoArgs e) (he : Good rt .exp e) : Heads (.word b!"function" :: someExp) e := NoArgs.heads h (he.1.sub (by decide +kernel))

theorem noArgs_word (h : NoArgs e) (he : Good rt .exp e) : Heads afterWord (e ++ more) := ((noArgs_heads h he).append (by decide)).sub (by decide +kernel)

/-- The conditional statement up to its `else`. -/
theorem good_if (hn : NoArgs e) (he : Good rt .exp e) (hb : Good rt .block b) (hl : Good rt .elifs l) (hm : Heads [.word b!"else", .word b!"end"] (d ++ b!"end" :: more))
    (hf : Fail rt Spaced (.rule iStat) (d ++ b!"end" :: more)) (hd : Step rt Laid Laid (.opt elseR) d (b!"end" :: more)) :
    Step rt Spaced Laid (.rule iStat) (b!"if" :: (e ++ b!"then" :: (b ++ (l ++ (d ++ [b!"end"]))))) more := by
  obtain ⟨h1, h2⟩ := hl.2 _ hm hf
  refine if_step (noArgs_heads hn he) he.2 (hb.2 _ ?_ h2) h1 hd
  exact First.then hl.1 (by decide) (hm.sub (by decide +kernel)) (by decide +kernel)

theorem heads_ne (h : Heads S ks) (hS : Cls.eof ∉ S) : ks ≠ [] := by
  rintro rfl
  obtain ⟨c, hc, hk⟩ := h
  cases c with
  | eof => exact hS hc
  | word k => obtain ⟨_, m, ⟨⟩⟩ := hk
  | ident => obtain ⟨_, _, _, ⟨⟩, _⟩ := hk
  | name => obtain ⟨_, _, ⟨⟩, _⟩ := hk
  | num => obtain ⟨_, _, ⟨⟩, _⟩ := hk
  | str => obtain ⟨_, _, ⟨⟩, _⟩ := hk
  | long => obtain ⟨_, _, ⟨⟩, _⟩ := hk
  | sym k => obtain ⟨_, m, ⟨⟩⟩ := hk
  | begun p => obtain ⟨_, _, ⟨⟩⟩ := hk

theorem good (h : Phrase c' ks) : Good rt c' ks := by
  induction h with
  | const hk =>
    refine ⟨?_, fun more _ => final_const hk⟩
    simp only [List.mem_cons, List.not_mem_nil, or_false] at hk
    rcases hk with rfl | rfl | rfl | rfl
    · exact .word (by decide +kernel)
    · exact .word (by decide +kernel)
    · exact .word (by decide +kernel)
    · exact .sym (by decide +kernel)
  | num hk => exact ⟨⟨.num, by decide, _, _, rfl, hk⟩, fun more _ => final_num hk⟩
  | str hk => exact ⟨⟨.str, by decide, _, _, rfl, hk⟩, fun more _ => final_str hk⟩
  | long hk => exact ⟨⟨.long, by decide, _, _, rfl, long_lua hk⟩, fun more _ => final_long hk⟩
  | tableExp _ h => exact ⟨h.1.sub (by decide +kernel), fun more _ => final_table h.1 (h.2 more)⟩
  | varExp _ _ hv hc => exact ⟨(hv.1.append (by decide)).sub (by decide +kernel), fun more hm =>
      final_prefix (((hv.1.append (by decide)).append (by decide)).sub (by decide +kernel)) (prefix_var hv.2 hc.1 (ends_var (hm.sub (by decide +kernel))))⟩
  | paren _ _ he hc => exact ⟨.sym (by decide +kernel), fun more hm => final_prefix (.sym (by decide +kernel)) (prefix_paren he.2 hc.1 (ends_var (hm.sub (by decide +kernel))))⟩
  | parenVar _ _ _ _ _ he hc hi hg hd => exact ⟨.sym (by decide +kernel), fun more hm =>
      final_prefix (.sym (by decide +kernel)) (prefix_parenVar he.2 hc.1 hi.1 hi.2 hg hd.1 (ends_var (hm.sub (by decide +kernel))))⟩
  | simpleExp _ h => exact ⟨h.1, fun more hm => exp_simple h.2 hm⟩
  | bin _ hop _ ha hb => exact ⟨ha.1.append (by decide), fun more hm => exp_bin ha.2 hop (hb.2 more hm)⟩
  | un hop _ he =>
    refine ⟨?_, fun more hm => exp_final hm (final_un hop (he.2 more hm))⟩
    simp only [List.mem_cons, List.not_mem_nil, or_false] at hop
    rcases hop with rfl | rfl | rfl | rfl
    · exact .sym (by decide +kernel)
    · exact .word (by decide +kernel)
    · exact .sym (by decide +kernel)
    · exact .sym (by decide +kernel)
  | one _ h => exact ⟨h.1.sub (by decide +kernel), fun more hm => exps_one (h.2 more (hm.sub (by decide +kernel))) hm⟩
  | func _ h => exact ⟨.word (by decide +kernel), fun more hm => exps_one (exp_final (hm.sub (by decide +kernel)) (final_func (h.2 more (hm.sub (by decide +kernel))))) hm⟩
  | more _ _ he hes => exact ⟨(he.1.append (by decide)).sub (by decide +kernel), fun more hm => exps_more he.2 (hes.2 more hm)⟩
  | bracket _ he => exact ⟨.sym (by decide +kernel), fun more => idx_bracket he.2⟩
  | dot hx => exact ⟨.of_begun (p := b!".") (by decide +kernel), fun more => idx_dot hx⟩
  | noArgs => exact ⟨.sym (by decide +kernel), fun more => args_none⟩
  | listArgs _ h => exact ⟨.sym (by decide +kernel), fun more => args_list h.2⟩
  | tableArgs _ h => exact ⟨h.1.sub (by decide +kernel), fun more => args_table h.1 h.2⟩
  | strArgs hk => exact ⟨(heads_str hk).sub (by decide +kernel), fun more => args_str hk⟩
  | longArgs hk => exact ⟨(heads_long hk).sub (by decide +kernel), fun more => args_long hk⟩
  | plainCall _ h => exact ⟨h.1.sub (by decide +kernel), fun more => call_plain h.1 h.2⟩
  | method hx _ h => exact ⟨.of_begun (p := b!":") (by decide +kernel), fun more => call_method hx h.2⟩
  | noCalls => exact ⟨fun more hm => calls_none hm, fun more hm => .zom_stop hm.tight⟩
  | someCalls _ _ hc hcs => exact ⟨fun more hm => calls_some hc.2 (hcs.1 more hm), fun more hm => .zom_step (hc.2 _).tight (hcs.2 more hm)⟩
  | noGroups => exact fun more hm => groups_none hm
  | someGroups _ _ _ hc hi hg => exact fun more hm => groups_some hc.1 hi.1 hi.2 (hg more hm)
  | name hx _ hg => exact ⟨.of_plain hx (by decide +kernel), fun more hm => var_name (plain_name hx) (hg more hm)⟩
  | oneVar _ hv => exact ⟨hv.1, fun m => vars_one (hv.2 _ (ends_var (.sym (by decide +kernel))).suffix) assign_comma⟩
  | moreVars _ _ hv hvs => exact ⟨hv.1.append (by decide), fun m => vars_more hv.2 (hvs.2 m)⟩
  | noFields => exact ⟨.sym (by decide +kernel), fun more => table_none⟩
  | someFields _ hf => exact ⟨.sym (by decide +kernel), fun more => table_some (hf _ fields_end (.sym (by decide +kernel)))⟩
  | someFieldsSep _ hs hf => exact ⟨.sym (by decide +kernel), fun more => table_sep hs (hf _ (fields_sep hs) (sep_heads hs (by decide +kernel)))⟩
  | oneField _ hf => exact fun more h1 h2 => fields_one (hf more h2) h1
  | moreFields _ hs _ hf hfs => exact fun more h1 h2 => fields_more hf hs (hfs more h1 h2)
  | keyField _ _ ha hb => exact fun more hm => field_key ha.2 (hb.2 more (hm.sub (by decide +kernel)))
  | nameField hx _ he => exact fun more hm => field_name hx (he.2 more (hm.sub (by decide +kernel)))
  | fbody hp _ hb => exact ⟨.sym (by decide +kernel), fun more hm => body hp (block_end hb hm)⟩
  | assign _ _ hv he => exact ⟨(hv.1.append (by decide)).sub (by decide +kernel), fun more hm => stat_assign hv.1 (hv.2 _) (he.2 more (hm.sub (by decide +kernel)))⟩
  | callS _ _ _ hv hc hcs =>
    refine ⟨(hv.1.append (by decide)).sub (by decide +kernel), fun more hm => stat_call hv.1 hv.2 (hc.1.append (by decide)) (fun m h => calls_some hc.2 (hcs.1 m h)) (fun m h => .many ?_
      (.zom_step (hc.2 _) (hcs.2 m h))) (ends_var (hm.sub (by decide +kernel)))⟩
    intro h0
    obtain ⟨rfl, rfl⟩ := List.append_eq_nil_iff.mp h0
    exact heads_ne hc.1 (by decide) rfl
  | goto hx => exact ⟨.word (by decide +kernel), fun more _ => goto_step hx⟩
  | doS _ hb => exact ⟨.word (by decide +kernel), fun more hm => do_step (block_word hb (by decide +kernel) (by decide +kernel)) (block_end hb (afterWord_of hm))⟩
  | whileS _ hn _ he hb => exact ⟨.word (by decide +kernel), fun more hm => while_step (noArgs_heads hn he) he.2 (block_end hb (afterWord_of hm))⟩
  | repeatS _ _ hn hb he => exact ⟨.word (by decide +kernel), fun more hm => repeat_step (block_word hb (by decide +kernel) (by decide +kernel))
      (hb.2 _ (.word (by decide +kernel)) (ends_fail (by decide) (noArgs_word hn he))) (he.2 more (hm.sub (by decide +kernel)))⟩
  | ifS _ hn _ _ he hb hl => exact ⟨.word (by decide +kernel), fun more hm => good_if (d := []) hn he hb hl (.word (by decide +kernel)) (end_fail (afterWord_of hm)) else_none⟩
  | ifElse _ hn _ _ _ he hb hl hd =>
    refine ⟨.word (by decide +kernel), fun more hm => .of_eq (by simp) (good_if hn he hb hl (d := b!"else" :: _) (.word (by decide +kernel)) (ends_fail (by decide) ?_)
      (else_some (block_end hd (afterWord_of hm))))⟩
    exact block_word hd (by decide +kernel) (by decide +kernel)
  | noElifs => exact ⟨.inl rfl, fun more h1 h2 => ⟨elif_none h1, h2⟩⟩
  | @someElifs e b l _ hn _ _ he hb hl =>
    refine ⟨.inr (.word (by decide +kernel)), fun more h1 h2 => ?_⟩
    obtain ⟨h3, h4⟩ := hl.2 more h1 h2
    refine ⟨elif_some he.2 (hb.2 _ (First.then hl.1 (by decide) (h1.sub (by decide +kernel)) (by decide +kernel)) h4) h3, ?_⟩
    exact .of_eq (l := b!"elseif" :: (e ++ (b!"then" :: (b ++ l) ++ more))) (by simp) (ends_fail (by decide) (noArgs_word hn he))
  | forS hx _ _ _ ha he hb => exact ⟨.word (by decide +kernel), fun more hm => for_step (l := []) hx ha.2 he.2 step_none (fun m => .word (by decide +kernel)) (block_end hb (afterWord_of hm))⟩
  | forStep hx _ _ _ _ ha he hs hb => exact ⟨.word (by decide +kernel), fun more hm => .of_eq (by simp) (for_step hx ha.2 he.2 (step_some hs.2) (fun m => .sym (by decide +kernel))
      (block_end hb (afterWord_of hm)))⟩
  | forEach hx _ _ he hb => exact ⟨.word (by decide +kernel), fun more hm => forEach_step hx he.2 (block_end hb (afterWord_of hm))⟩
  | function hn _ hb => exact ⟨.word (by decide +kernel), fun more hm => func_step (funcname_heads hn) (funcname hn (hb.1.append (by decide))) (hb.2 more (afterWord_of hm))⟩
  | functionMethod hn hx _ hb => exact ⟨.word (by decide +kernel), fun more hm => .of_eq (by simp) (func_step ((funcname_heads hn).append (by decide)) (funcname_method hn hx)
      (hb.2 more (afterWord_of hm)))⟩
  | localFunction hx _ hb => exact ⟨.word (by decide +kernel), fun more hm => localFunc_step hx (hb.2 more (afterWord_of hm))⟩
  | localS hn => exact ⟨.word (by decide +kernel), fun more hm => .of_eq (by simp) (local_step (l := []) hn (hm.sub (by decide +kernel)) (values_none hm))⟩
  | localAssign hn _ he => exact ⟨.word (by decide +kernel), fun more hm => local_step hn (.sym (by decide +kernel)) (values_some (he.2 more (hm.sub (by decide +kernel))))⟩
  | noStats => exact ⟨.inl rfl, fun more _ h => .zom_stop h⟩
  | someStats _ _ hs hss => exact ⟨.inr (hs.1.append (by decide)), fun more h1 h2 =>
      Step.zom_step (hs.2 _ (First.then hss.1 (by decide) h1 (by decide +kernel))) (stats_tight (hss.2 more h1 h2))⟩
  | callStats _ _ hs hss => exact ⟨.inr (hs.1.append (by decide)), fun more h1 h2 =>
      Step.zom_step (hs.2 _ (First.then hss.1 (by decide) h1 (by decide +kernel))) (stats_tight (hss.2 more h1 h2))⟩
  | shortStats hk _ hss =>
    simp only [List.mem_cons, List.not_mem_nil, or_false] at hk
    rcases hk with rfl | rfl
    · exact ⟨.inr (.sym (by decide +kernel)), fun more h1 h2 => Step.zom_tok semi_step (hss.2 more h1 h2)⟩
    · exact ⟨.inr (.word (by decide +kernel)), fun more h1 h2 => Step.zom_tok (break_step (afterWord_of (First.then hss.1 (by decide) h1 (by decide +kernel)))) (hss.2 more h1 h2)⟩
  | labelStats hx _ hss => exact ⟨.inr (.of_begun (p := b!"::") (by decide +kernel)), fun more h1 h2 => Step.zom_tok (label_step hx) (hss.2 more h1 h2)⟩
  | noRet _ hss => exact ⟨hss.1.imp_right fun h => h.sub (by decide +kernel), fun more h1 h2 => block_noRet (stats_tight (hss.2 more (h1.sub (by decide +kernel)) h2)) h1⟩
  | ret _ _ hn hss he => exact ⟨.inr (First.then hss.1 (by decide) (.word (by decide +kernel)) (by decide +kernel)), fun more h1 h2 =>
      block_ret (stats_tight (hss.2 _ (.word (by decide +kernel)) (ends_fail (by decide) (((NoArgs.heads hn he.1).append (by decide)).sub (by decide +kernel)))))
        (ret_exps (he.2 more (h1.sub (by decide +kernel))) h1)⟩
  | retSemi _ _ hn hss he => exact ⟨.inr (First.then hss.1 (by decide) (.word (by decide +kernel)) (by decide +kernel)), fun more h1 h2 =>
      block_ret (stats_tight (hss.2 _ (.word (by decide +kernel)) (ends_fail (by decide) ((((NoArgs.heads hn he.1).append (by decide)).append (by decide)).sub (by decide +kernel)))))
        (ret_semi (he.2 _ (.sym (by decide +kernel))))⟩
  | retNothing _ hss => exact ⟨.inr (First.then hss.1 (by decide) (.word (by decide +kernel)) (by decide +kernel)), fun more h1 h2 =>
      block_ret (stats_tight (hss.2 _ (.word (by decide +kernel)) (ends_fail (by decide) (.sym (by decide +kernel))))) ret_nothing⟩

/-- The grammar reads the whole text of a block, and the white space in front of it. -/
theorem chunk_gets (h : Phrase .block ks) {X : Bytes} (hX : Wide ks X) : Gets rt env reader X (some []) := by
  obtain ⟨Y, h1, h2, _⟩ := (good (rt := rt) h).2 [] ⟨.eof, by decide, rfl⟩ eof_fail X (by simpa using hX)
  cases h2
  exact .grammar (.rule e_chunk h1)

end Lua
end Tok
