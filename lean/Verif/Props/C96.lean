/-
C96 A Wrap reader does what its function does.
-/
import Verif.Proofs.Lim
import Verif.Spec.Wrap
import Verif.Props.C35
import Verif.Props.C85
import Verif.Props.C87
import Verif.Props.C88

namespace Tok

open Spec

section
variable {rt : Rt} {G G' : Env} {R : Reader → Reader → Prop} {a b : Reader}

/-! ### names -/

theorem rules_name (hG : RulesExchanged R G G') (i : Nat) : G[i]?.map Rule.name = G'[i]?.map Rule.name := by
  induction hG generalizing i with
  | nil => simp
  | cons h _ ih =>
    cases i with
    | zero => simp [h.1]
    | succ i => simpa using ih i

theorem what_rule {H : Env} (i : Nat) : (Reader.rule i).what rt H = (H[i]?.map Rule.name).getD [] := by
  simp only [Reader.what]
  cases H[i]? <;> rfl

mutual
/-- What a reader says of itself depends on the names of the rules only. -/
theorem what_names (hG : ∀ i : Nat, G[i]?.map Rule.name = G'[i]?.map Rule.name) : ∀ r : Reader, r.what rt G = r.what rt G'
  | .any rs => by simp only [Reader.what, whats_names hG rs]
  | .at_ r => by simp only [Reader.what, what_names hG r]
  | .body b t => by simp only [Reader.what, what_names hG b, what_names hG t]
  | .bodyTail b t => by simp only [Reader.what, what_names hG b, what_names hG t]
  | .janusBegin _ _ r => by simp only [Reader.what, what_names hG r]
  | .many r => by simp only [Reader.what, what_names hG r]
  | .map _ r => by simp only [Reader.what, what_names hG r]
  | .named _ _ => rfl
  | .not r => by simp only [Reader.what, what_names hG r]
  | .opt r => by simp only [Reader.what, what_names hG r]
  | .past r => by simp only [Reader.what, what_names hG r]
  | .seq rs => by simp only [Reader.what, whats_names hG rs]
  | .skipSeq sk rs => by simp only [Reader.what, what_names hG sk, whats_names hG rs]
  | .times _ r => by simp only [Reader.what, what_names hG r]
  | .to r => by simp only [Reader.what, what_names hG r]
  | .zom r => by simp only [Reader.what, what_names hG r]
  | .pick _ _ r => by simp only [Reader.what, what_names hG r]
  | .monitor _ _ r => by simp only [Reader.what, what_names hG r]
  | .rule i => by rw [what_rule, what_rule, hG i]
  | .ruleName _ | .grammar _ _ | .anyRune _ | .atEnd | .between _ _ | .betweenAny _ _ | .bool _ _ | .fold _ | .holey _ _ _ | .int _ _ _ | .janusEnd _ _ | .invalid _
  | .lit _ | .match_ _ _ | .rune _ | .uint _ _ _ | .wrap _ _ => rfl
theorem whats_names (hG : ∀ i : Nat, G[i]?.map Rule.name = G'[i]?.map Rule.name) : ∀ rs : List Reader, Reader.whats rt G rs = Reader.whats rt G' rs
  | [] => rfl
  | r :: rs => by simp only [Reader.whats, what_names hG r, whats_names hG rs]
end

mutual
theorem exchanged_what (hG : ∀ i : Nat, G[i]?.map Rule.name = G'[i]?.map Rule.name) (hR : ∀ a b, R a b → a.what rt G = b.what rt G') {a b : Reader} :
    Exchanged R a b → a.what rt G = b.what rt G'
  | .refl r => what_names hG r
  | .here h => hR _ _ h
  | .any h => by simp only [Reader.what, exchangedL_what hG hR h]
  | .at_ h => by simp only [Reader.what, exchanged_what hG hR h]
  | .body h h' => by simp only [Reader.what, exchanged_what hG hR h, exchanged_what hG hR h']
  | .bodyTail h h' => by simp only [Reader.what, exchanged_what hG hR h, exchanged_what hG hR h']
  | .janusBegin _ _ h => by simp only [Reader.what, exchanged_what hG hR h]
  | .many h => by simp only [Reader.what, exchanged_what hG hR h]
  | .map _ h => by simp only [Reader.what, exchanged_what hG hR h]
  | .named _ _ => rfl
  | .not h => by simp only [Reader.what, exchanged_what hG hR h]
  | .opt h => by simp only [Reader.what, exchanged_what hG hR h]
  | .past h => by simp only [Reader.what, exchanged_what hG hR h]
  | .seq h => by simp only [Reader.what, exchangedL_what hG hR h]
  | .skipSeq h h' => by simp only [Reader.what, exchanged_what hG hR h, exchangedL_what hG hR h']
  | .times _ h => by simp only [Reader.what, exchanged_what hG hR h]
  | .to h => by simp only [Reader.what, exchanged_what hG hR h]
  | .zom h => by simp only [Reader.what, exchanged_what hG hR h]
  | .pick _ _ h => by simp only [Reader.what, exchanged_what hG hR h]
  | .monitor _ _ h => by simp only [Reader.what, exchanged_what hG hR h]
  | .ruleName _ => rfl
  | .grammar _ _ => rfl
theorem exchangedL_what (hG : ∀ i : Nat, G[i]?.map Rule.name = G'[i]?.map Rule.name) (hR : ∀ a b, R a b → a.what rt G = b.what rt G') {as bs : List Reader} :
    ExchangedL R as bs → Reader.whats rt G as = Reader.whats rt G' bs
  | .nil => rfl
  | .cons h h' => by simp only [Reader.whats, exchanged_what hG hR h, exchangedL_what hG hR h']
end

/-! ### reads -/

theorem rules_at (hG : RulesExchanged R G G') (i : Nat) : (∃ nm c d, G[i]? = some ⟨nm, some c⟩ ∧ G'[i]? = some ⟨nm, some d⟩ ∧ Exchanged R c d) ∨
    (∀ nm c, G[i]? ≠ some ⟨nm, some c⟩) ∧ ∀ nm c, G'[i]? ≠ some ⟨nm, some c⟩ := by
  induction hG generalizing i with
  | nil => simp
  | @cons x y _ _ h _ ih =>
    cases i with
    | succ i => simpa using ih i
    | zero =>
      obtain ⟨nx, rx⟩ := x
      obtain ⟨ny, ry⟩ := y
      obtain ⟨h1, ⟨h2, h3⟩ | ⟨c, d, h2, h3, h4⟩⟩ := h
      · simp only at h2 h3
        subst h2 h3
        simp
      · simp only at h1 h2 h3
        subst h1 h2 h3
        exact .inl ⟨nx, c, d, rfl, rfl, h4⟩

theorem read_rule_none {H : Env} {i n : Nat} {s : Scanner} (h : ∀ nm c, H[i]? ≠ some ⟨nm, some c⟩) : read rt H (n + 1) (.rule i) s = .panic := by
  simp only [read]

theorem exchangedL_all {P : Reader → Reader → Prop} (h : ∀ a b, Exchanged R a b → P a b) : ∀ {as bs : List Reader}, ExchangedL R as bs → List.Forall₂ P as bs
  | _, _, .nil => .nil
  | _, _, .cons h1 h2 => .cons (h _ _ h1) (exchangedL_all h h2)

theorem same_all {P : Reader → Reader → Prop} (h : ∀ a, P a a) : ∀ rs : List Reader, List.Forall₂ P rs rs
  | [] => .nil
  | r :: rs => .cons (h r) (same_all h rs)

/-- What a reader does, the reader with exchanged parts does in the exchanged grammar, given enough steps. -/
theorem exchanged_lim (hG : RulesExchanged R G G') (hw : ∀ a b, R a b → a.what rt G = b.what rt G') (hR : ∀ a b, R a b → ∀ n, Lim rt G G' n a b) :
    ∀ n a b, Exchanged R a b → Lim rt G G' n a b
  | 0, _, _, _ => fun _ => .timeout _
  | n + 1, a, b, h => by
    have ih := exchanged_lim hG hw hR n
    have we {a b} (h : Exchanged R a b) : a.what rt G = b.what rt G' := exchanged_what (rules_name hG) hw h
    have hl {as bs : List Reader} (h : ExchangedL R as bs) : List.Forall₂ (Lim rt G G' n) as bs := exchangedL_all ih h
    have hs (rs : List Reader) : List.Forall₂ (Lim rt G G' n) rs rs := same_all (fun a => ih a a (.refl a)) rs
    have w := we h
    cases h with
    | here h => exact hR _ _ h _
    | any h => exact .any (hl h)
    | at_ h => exact .at_ (ih _ _ h)
    | body h h' => exact .body (ih _ _ h) (ih _ _ h') w
    | bodyTail h h' => exact .bodyTail (ih _ _ h) (ih _ _ h') w
    | janusBegin i nm h => exact .janusBegin i nm (ih _ _ h)
    | many h => exact .many (ih _ _ h) w
    | map f h => exact .map f (ih _ _ h)
    | named nm h => exact .named nm (ih _ _ h)
    | not h => exact .not (ih _ _ h) (we h)
    | opt h => exact .opt (ih _ _ h)
    | past h => exact .past (ih _ _ h) w
    | seq h => exact .seq (hl h)
    | skipSeq h h' => exact .skipSeq (ih _ _ h) (hl h')
    | times k h => exact .times k (ih _ _ h)
    | «to» h => exact .to (ih _ _ h) w
    | zom h => exact .zom (ih _ _ h)
    | pick i l h => exact .pick i l (ih _ _ h)
    | monitor i l h => exact .monitor i l (ih _ _ h)
    | ruleName h => exact .ruleName (ih _ _ h)
    | grammar g h => exact .grammar g (ih _ _ h)
    | refl =>
      have ir (r : Reader) : Lim rt G G' n r r := ih r r (.refl r)
      cases a with
      | any rs => exact .any (hs rs)
      | at_ r => exact .at_ (ir r)
      | body b t => exact .body (ir b) (ir t) w
      | bodyTail b t => exact .bodyTail (ir b) (ir t) w
      | janusBegin i nm r => exact .janusBegin i nm (ir r)
      | many r => exact .many (ir r) w
      | map f r => exact .map f (ir r)
      | named nm r => exact .named nm (ir r)
      | not r => exact .not (ir r) (we (.refl r))
      | opt r => exact .opt (ir r)
      | past r => exact .past (ir r) w
      | seq rs => exact .seq (hs rs)
      | skipSeq sk rs => exact .skipSeq (ir sk) (hs rs)
      | times k r => exact .times k (ir r)
      | «to» r => exact .to (ir r) w
      | zom r => exact .zom (ir r)
      | pick i l r => exact .pick i l (ir r)
      | monitor i l r => exact .monitor i l (ir r)
      | ruleName r => exact .ruleName (ir r)
      | grammar g r => exact .grammar g (ir r)
      | rule i =>
        refine fun s => .shift ?_
        rcases rules_at hG i with ⟨nm, c, d, h1, h2, h3⟩ | ⟨h1, h2⟩
        · simp only [read, h1, h2]
          exact ih c d h3 s
        · rw [read_rule_none (fun nm c => h1 nm c)]
          exact fun _ => ⟨0, fun k _ => read_rule_none fun nm c => h2 nm c⟩
      | _ => exact fun s => .shift (.const _)

theorem rules_symm (h : RulesExchanged R G G') : RulesExchanged (fun a b => R b a) G' G := by
  induction h with
  | nil => exact .nil
  | cons h _ ih =>
    refine .cons ⟨h.1.symm, ?_⟩ ih
    rcases h.2 with ⟨h1, h2⟩ | ⟨c, d, h1, h2, h3⟩
    · exact .inl ⟨h2, h1⟩
    · exact .inr ⟨d, c, h2, h1, exchanged_symm h3⟩

theorem lim_of_ends (h : ∀ s x, Ends rt G a s x → Ends rt G' b s x) (n : Nat) : Lim rt G G' n a b := by
  intro s hx
  obtain ⟨_, m, hm⟩ := h s _ ⟨hx, n, rfl⟩
  refine ⟨m, fun k hk => ?_⟩
  rcases read_le rt G' m k hk b s with e | e
  · rw [hm] at e; exact absurd e hx
  · exact e.symm.trans hm

theorem ends_of_lim (h : ∀ n, Lim rt G G' n a b) (s : Scanner) (x : Exec (Option Err × Scanner)) (hx : Ends rt G a s x) : Ends rt G' b s x := by
  obtain ⟨h1, n, rfl⟩ := hx
  obtain ⟨m, hm⟩ := h n s h1
  exact ⟨h1, m, hm m (Nat.le_refl _)⟩

theorem ends_det {s : Scanner} {x y : Exec (Option Err × Scanner)} (h : Ends rt G a s x) (h' : Ends rt G a s y) : x = y := by
  obtain ⟨h1, n, rfl⟩ := h
  obtain ⟨h2, m, rfl⟩ := h'
  rcases Nat.le_total n m with e | e
  · rcases read_le rt G n m e a s with e | e
    · exact absurd e h1
    · exact e
  · rcases read_le rt G m n e a s with e | e
    · exact absurd e h2
    · exact e.symm

/-! ### the property -/

/-- Readers that end in the same way and have the same name may be exchanged anywhere in a reader and in the rules of a grammar: every read ends as
before, with the same error, position and memory, or goes on for ever as before. -/
theorem C96_parts (hG : RulesExchanged R G G') (hw : ∀ a b, R a b → a.what rt G = b.what rt G') (hR : ∀ a b, R a b → ∀ s x, Ends rt G a s x ↔ Ends rt G' b s x)
    (h : Exchanged R a b) (s : Scanner) (x : Exec (Option Err × Scanner)) : Ends rt G a s x ↔ Ends rt G' b s x := by
  refine ⟨ends_of_lim (fun n => exchanged_lim hG hw (fun a b h => lim_of_ends fun s x => (hR a b h s x).mp) n a b h) s x,
    ends_of_lim (fun n => exchanged_lim (rules_symm hG) (fun a b h => (hw b a h).symm) (fun a b h => lim_of_ends fun s x => (hR b a h s x).mpr) n b a (exchanged_symm h)) s x⟩

theorem ends_wrap {w : Bytes} {f : ReadFunc} {s : Scanner} {x : Exec (Option Err × Scanner)} : Ends rt G (.wrap w f) s x ↔ x ≠ .timeout ∧ f s = x := by
  constructor
  · rintro ⟨h1, n, h2⟩
    cases n with
    | zero => exact absurd h2.symm h1
    | succ n => exact ⟨h1, h2⟩
  · rintro ⟨h1, h2⟩
    exact ⟨h1, 1, h2⟩

theorem ends_named {w : Bytes} {r : Reader} {s : Scanner} {x : Exec (Option Err × Scanner)} : Ends rt G (.named w r) s x ↔ Ends rt G r s x := by
  constructor
  · rintro ⟨h1, n, h2⟩
    cases n with
    | zero => exact absurd h2.symm h1
    | succ n => exact ⟨h1, n, h2⟩
  · rintro ⟨h1, n, h2⟩
    exact ⟨h1, n + 1, h2⟩

theorem ends_wrapFor (h : WrapFor rt G' a b) (s : Scanner) (x : Exec (Option Err × Scanner)) : Ends rt G a s x ↔ Ends rt G' b s x := by
  cases h with
  | mk hf =>
    rw [ends_wrap, ends_named]
    exact ⟨fun h => (hf s x h.1).mp h.2, fun h => ⟨h.1, (hf s x h.1).mpr h⟩⟩

/-- Wrap readers may be exchanged for the readers for which their functions stand. -/
theorem C96_wrap (hG : RulesExchanged (WrapFor rt G') G G') (h : Exchanged (WrapFor rt G') a b) (s : Scanner) (x : Exec (Option Err × Scanner)) :
    Ends rt G a s x ↔ Ends rt G' b s x :=
  C96_parts hG (fun _ _ h => by cases h; rfl) (fun _ _ h => ends_wrapFor h) h s x

/-- And only for these. -/
theorem C96_only {w : Bytes} {f : ReadFunc} {r : Reader} : (∀ s x, Ends rt G (.wrap w f) s x ↔ Ends rt G (.named w r) s x) ↔ Stands rt G f r := by
  constructor
  · intro h s x hx
    rw [← ends_named (w := w), ← h, ends_wrap]
    exact ⟨fun h => ⟨hx, h⟩, fun h => h.2⟩
  · exact fun h => ends_wrapFor (.mk h)

/-- `Wrap` with the `Read` method of a reader as its function. -/
theorem C96_method (r : Reader) : ∃ f, Stands rt G f r := by
  classical
  refine ⟨fun s => if h : ∃ x, Ends rt G r s x then h.choose else .timeout, fun s x hx => ?_⟩
  show (if h : ∃ x, Ends rt G r s x then h.choose else .timeout) = x ↔ _
  by_cases h : ∃ y, Ends rt G r s y
  · rw [dif_pos h]
    have hc := h.choose_spec
    constructor
    · rintro rfl; exact hc
    · exact fun hd => ends_det hc hd
  · rw [dif_neg h]
    exact ⟨fun e => absurd e.symm hx, fun e => absurd ⟨x, e⟩ h⟩

/-! ### what is known of readers without Wrap is true of those with functions that stand for readers -/

/-- Errors (C88): the error of a failing read is the one that the rules of blame give for the readers without functions. -/
theorem C96_error (hG : RulesExchanged (WrapFor rt G') G G') (h : Exchanged (WrapFor rt G') a b) (h1 : G'.Every (fun r => r.noWrap = true)) (h2 : b.Every (fun r => r.noWrap = true))
    (s : Scanner) (u t : Bytes) (hs : Between s u t) (e : Err) :
    (∃ n s', read rt G n a s = .ret (some e, s')) ↔ Blames rt G' (Outcome rt G') (u ++ t).length (.read b) ⟨t, s.heap.janus⟩ [e] := by
  constructor
  · rintro ⟨n, s', hr⟩
    obtain ⟨_, m, hm⟩ := (C96_wrap hG h s _).mp ⟨by simp, n, hr⟩
    exact C88_error rt G' h1 b h2 s u t hs m e s' hm
  · intro hb
    obtain ⟨n, s', hr⟩ := C88_complete rt G' h1 b h2 s u t hs e hb
    obtain ⟨_, m, hm⟩ := (C96_wrap hG h s _).mpr ⟨by simp, n, hr⟩
    exact ⟨m, s', hm⟩

/-- The text ahead (C35): success and the text read depend on nothing but the text ahead. -/
theorem C96_ahead (hG : RulesExchanged (WrapFor rt G') G G') (h : Exchanged (WrapFor rt G') a b) (h1 : G'.Every (fun r => r.noWrap = true ∧ r.janIn fun _ => False))
    (h2 : b.Every (fun r => r.noWrap = true ∧ r.janIn fun _ => False)) (n : Nat) (s1 s2 : Scanner) (u1 u2 t : Bytes) (hb1 : Between s1 u1 t) (hb2 : Between s2 u2 t)
    (e : Option Err) (s1' : Scanner) (hr : read rt G n a s1 = .ret (e, s1')) :
    ∃ m e' s2', read rt G m a s2 = .ret (e', s2') ∧ e.isNone = e'.isNone ∧ ∃ c t', t = c ++ t' ∧ Between s1' (u1 ++ c) t' ∧ Between s2' (u2 ++ c) t' := by
  obtain ⟨_, k, hk⟩ := (C96_wrap hG h s1 _).mp ⟨by simp, n, hr⟩
  obtain ⟨e', s2', h3, h4⟩ := (C35_text_ahead rt G' h1 b h2 k s1 s2 u1 u2 t hb1 hb2).2.2 e s1' hk
  obtain ⟨_, m, hm⟩ := (C96_wrap hG h s2 _).mpr ⟨by simp, k, h3⟩
  exact ⟨m, e', s2', hm, h4⟩

/-- Wrap readers themselves (C83): which parts stand behind a function makes no difference to success, position and Janus strings. -/
theorem C96_comes (hG : RulesExchanged (WrapFor rt G') G G') (h : Exchanged (WrapFor rt G') a b) (s : Scanner) (ok : Bool) (p : Int) (j : Nat → Bytes) :
    Comes rt G a s ok p j ↔ Comes rt G' b s ok p j := by
  constructor
  · rintro ⟨n, e, s', h1, h2⟩
    obtain ⟨_, m, hm⟩ := (C96_wrap hG h s _).mp ⟨by simp, n, h1⟩
    exact ⟨m, e, s', hm, h2⟩
  · rintro ⟨n, e, s', h1, h2⟩
    obtain ⟨_, m, hm⟩ := (C96_wrap hG h s _).mpr ⟨by simp, n, h1⟩
    exact ⟨m, e, s', hm, h2⟩

/-- Reads that go on for ever. -/
theorem C96_forever (hG : RulesExchanged (WrapFor rt G') G G') (h : Exchanged (WrapFor rt G') a b) (s : Scanner) :
    (∀ n, read rt G n a s = .timeout) ↔ ∀ n, read rt G' n b s = .timeout := by
  have key {H : Env} {c : Reader} : (∀ n, read rt H n c s = .timeout) ↔ ∀ x, ¬ Ends rt H c s x := by
    constructor
    · rintro h x ⟨h1, n, rfl⟩; exact h1 (h n)
    · intro h n; exact Classical.byContradiction fun hc => h _ ⟨hc, n, rfl⟩
  rw [key, key]
  exact forall_congr' fun x => not_congr (C96_wrap hG h s x)

/-- What makes a read go on for ever (C85). -/
theorem C96_spins (hG : RulesExchanged (WrapFor rt G') G G') (h : Exchanged (WrapFor rt G') a b) (h1 : G'.Every (fun r => r.noWrap = true)) (h2 : b.Every (fun r => r.noWrap = true))
    (s : Scanner) (u t : Bytes) (hs : Between s u t) :
    (∀ n, read rt G n a s = .timeout) ↔
      ∃ r' st', GetsTo G' (Outcome rt G') b ⟨t, s.heap.janus⟩ r' st' ∧ (Spins (Outcome rt G') r' st' ∨ Circles G' (Outcome rt G') r' st') :=
  (C96_forever hG h s).trans (C85_forever rt G' h1 b h2 s u t hs)

/-- What is told (C87): a read tells the outside what the rules of reading say for the readers without functions. -/
theorem C96_told (hG : RulesExchanged (WrapFor rt G') G G') (h : Exchanged (WrapFor rt G') a b) (h1 : G'.Every (fun r => r.noWrap = true)) (h2 : b.Every (fun r => r.noWrap = true))
    (s : Scanner) (u t : Bytes) (hs : Between s u t) :
    (∀ n e s', read rt G n a s = .ret (e, s') → ∃ u' t' es, Between s' u' t' ∧ u' ++ t' = u ++ t ∧
      Trace G' (Outcome rt G') (u ++ t).length (.read b) ⟨t, s.heap.janus⟩ (e.isNone, ⟨t', s'.heap.janus⟩) es ∧ ToldBy es s.tracker s.heap s'.heap) ∧
    ∀ ok st' es, Trace G' (Outcome rt G') (u ++ t).length (.read b) ⟨t, s.heap.janus⟩ (ok, st') es →
      ∃ n e s' u', read rt G n a s = .ret (e, s') ∧ e.isNone = ok ∧ Between s' u' st'.rest ∧ s'.heap.janus = st'.jan ∧ ToldBy es s.tracker s.heap s'.heap := by
  constructor
  · intro n e s' hr
    obtain ⟨_, m, hm⟩ := (C96_wrap hG h s _).mp ⟨by simp, n, hr⟩
    exact C87_trace rt G' h1 b h2 s u t hs m e s' hm
  · intro ok st' es ht
    obtain ⟨n, e, s', u', hr, h3⟩ := C87_complete rt G' h1 b h2 s u t hs ok st' es ht
    obtain ⟨_, m, hm⟩ := (C96_wrap hG h s _).mpr ⟨by simp, n, hr⟩
    exact ⟨m, e, s', u', hm, h3⟩

end

/-! ### a function of a client -/

/-- `func(s *Scanner) error { s.IfAnyRune("+-"); return nil }` -/
def signFunc : ReadFunc := fun s => do
  let (_, s) ← s.ifAnyRune b!"+-"
  pure (none, s)

theorem sign_stands (rt : Rt) (G : Env) : Stands rt G signFunc (.opt (.anyRune b!"+-")) := by
  have e (n : Nat) (s : Scanner) : read rt G (n + 2) (.opt (.anyRune b!"+-")) s = signFunc s := by
    show (ifFalse _ (s.ifAnyRune b!"+-") >>= fun x => pure (none, x.2)) = _
    unfold ifFalse signFunc
    cases s.ifAnyRune b!"+-" <;> rfl
  intro s x hx
  constructor
  · rintro rfl
    exact ⟨hx, 2, e 0 s⟩
  · rintro ⟨_, n, h⟩
    match n, h with
    | 0, h => exact absurd h.symm hx
    | 1, h => exact absurd h.symm hx
    | n + 2, h => rw [← h, e]

/-- Lists of numbers with signs in parentheses, the sign with the function of the client ... -/
def signedWrap : Env := [⟨b!"List", some (.seq [.rune 40, .zom (.rule 1), .rune 41])⟩, ⟨b!"Item", some (.any [.rule 0, .seq [.wrap b!"sign" signFunc, .many (.between 48 57), .rune 59]])⟩]
/-- ... and with readers only. -/
def signedPure : Env := [⟨b!"List", some (.seq [.rune 40, .zom (.rule 1), .rune 41])⟩, ⟨b!"Item", some (.any [.rule 0, .seq [.named b!"sign" (.opt (.anyRune b!"+-")), .many (.between 48 57), .rune 59]])⟩]

theorem signed_rules (rt : Rt) : RulesExchanged (WrapFor rt signedPure) signedWrap signedPure := by
  refine .cons ⟨rfl, .inr ⟨_, _, rfl, rfl, .refl _⟩⟩ (.cons ⟨rfl, .inr ⟨_, _, rfl, rfl, ?_⟩⟩ .nil)
  exact .any (.cons (.refl _) (.cons (.seq (.cons (.here (.mk (sign_stands rt _))) (.cons (.refl _) (.cons (.refl _) .nil)))) .nil))

/-- Every text is read in the same way with both. -/
example (rt : Rt) (s : Scanner) (x : Exec (Option Err × Scanner)) : Ends rt signedWrap (.rule 0) s x ↔ Ends rt signedPure (.rule 0) s x :=
  C96_wrap (signed_rules rt) (.refl _) s x

/-- One of these texts. -/
example (rt : Rt) : ∃ s', read rt signedWrap 20 (.rule 0) (.new b!"(1;(-23;)+4;)" Heap.empty) = .ret (none, s') ∧ s'.pos = 13 := ⟨_, rfl, rfl⟩

/-- Errors of the grammar with the function of the client. -/
example (rt : Rt) (t : Bytes) (e : Err) : (∃ n s', read rt signedWrap n (.rule 0) (.new t Heap.empty) = .ret (some e, s')) ↔
    Blames rt signedPure (Outcome rt signedPure) t.length (.read (.rule 0)) ⟨t, fun _ => []⟩ [e] :=
  C96_error (signed_rules rt) (.refl _) (Env.everyB_sound (p := Reader.noWrap) (by decide)) (Reader.everyB_sound _ _ rfl) _ [] t ⟨rfl, rfl⟩ e

end Tok
