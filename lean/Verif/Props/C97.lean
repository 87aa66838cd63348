/-
C97 Names are labels.
-/
import Verif.Proofs.Rename
import Verif.Props.C96
import Verif.Model.Reflect

namespace Tok

open Spec

section
variable {rt : Rt} {G G' : Env} {I : Bytes → Bytes → Prop} {a b : Reader}

/-- Readers and rules with other names do the same: a read returns, panics or goes on where the other one does, with an error in the same
cases, of the same kind and at the same place, and with the same position, values, kept strings, map calls and tokens in baskets and logs. -/
theorem C97_names (hG : RenamedRules I G G') (h : Renamed I a b) (n : Nat) : SameAside I (read rt G n a) (read rt G' n b) :=
  of_along (read_along rt hG n a b h)

/-- The same of whole reads. -/
theorem C97_read (hG : RenamedRules I G G') (h : Renamed I a b) {s t : Scanner} (hst : Aside I s t) {e : Option Err} {s' : Scanner} :
    Ends rt G a s (.ret (e, s')) → ∃ e' t', Ends rt G' b t (.ret (e', t')) ∧ ResAside e e' ∧ Aside I s' t' := by
  rintro ⟨_, n, hn⟩
  have := read_along rt hG n a b h s t hst
  rw [hn] at this
  generalize hy : read rt G' n b t = y at this
  cases this with
  | @ret _ y h => exact ⟨y.1, y.2, ⟨by simp, n, hy⟩, h.1, h.2⟩

/-- Panics and endless reads. -/
theorem C97_panic (hG : RenamedRules I G G') (h : Renamed I a b) {s t : Scanner} (hst : Aside I s t) (n : Nat) :
    (read rt G n a s = .panic ↔ read rt G' n b t = .panic) ∧ (read rt G n a s = .timeout ↔ read rt G' n b t = .timeout) := by
  have := read_along rt hG n a b h s t hst
  generalize read rt G n a s = x at this ⊢
  generalize read rt G' n b t = y at this ⊢
  cases this <;> simp

/-! ### the same names -/

theorem logAside_refl (hI : ∀ x, I x x) (l : Log) : LogAside I l l :=
  ⟨forall₂_self (fun _ => ⟨rfl, hI _, rfl, rfl, resAside_refl _⟩) _, rfl, rfl, rfl⟩

theorem aside_refl (hI : ∀ x, I x x) (s : Scanner) : Aside I s s :=
  ⟨rfl, rfl, rfl, rfl, rfl, rfl, rfl, fun _ => forall₂_self (fun _ => ⟨rfl, hI _⟩) _, fun _ => logAside_refl hI _⟩

/-- Nothing is written down before a read. -/
theorem aside_new (I : Bytes → Bytes → Prop) (t : Bytes) : Aside I (.new t Heap.empty) (.new t Heap.empty) :=
  ⟨rfl, rfl, rfl, rfl, rfl, rfl, rfl, fun _ => .nil, fun _ => ⟨.nil, rfl, rfl, rfl⟩⟩

/-- Functions of clients, and infos. -/
def Reader.labels (I : Bytes → Bytes → Prop) : Reader → Prop
  | .wrap _ f => SameAside I f f
  | .pick i _ _ => I i i
  | .monitor i _ _ => I i i
  | _ => True

mutual
theorem renamed_refl : ∀ r : Reader, r.Every (Reader.labels I) → Renamed I r r
  | .any rs, h => .any (renamedL_refl rs fun _ hc => h.sub hc)
  | .at_ r, h => .at_ (renamed_refl r (h.sub (by simp [Reader.subs])))
  | .body b t, h => .body (renamed_refl b (h.sub (by simp [Reader.subs]))) (renamed_refl t (h.sub (by simp [Reader.subs])))
  | .bodyTail b t, h => .bodyTail (renamed_refl b (h.sub (by simp [Reader.subs]))) (renamed_refl t (h.sub (by simp [Reader.subs])))
  | .janusBegin i w r, h => .janusBegin i w w (renamed_refl r (h.sub (by simp [Reader.subs])))
  | .many r, h => .many (renamed_refl r (h.sub (by simp [Reader.subs])))
  | .map f r, h => .map f (renamed_refl r (h.sub (by simp [Reader.subs])))
  | .named w r, h => .named w w (renamed_refl r (h.sub (by simp [Reader.subs])))
  | .not r, h => .not (renamed_refl r (h.sub (by simp [Reader.subs])))
  | .opt r, h => .opt (renamed_refl r (h.sub (by simp [Reader.subs])))
  | .past r, h => .past (renamed_refl r (h.sub (by simp [Reader.subs])))
  | .seq rs, h => .seq (renamedL_refl rs fun _ hc => h.sub hc)
  | .skipSeq sk rs, h => .skipSeq (renamed_refl sk (h.sub (by simp [Reader.subs]))) (renamedL_refl rs fun c hc => h.sub (List.mem_cons_of_mem _ hc))
  | .times k r, h => .times k (renamed_refl r (h.sub (by simp [Reader.subs])))
  | .to r, h => .to (renamed_refl r (h.sub (by simp [Reader.subs])))
  | .zom r, h => .zom (renamed_refl r (h.sub (by simp [Reader.subs])))
  | .pick _ k r, h => .pick k h.here (renamed_refl r (h.sub (by simp [Reader.subs])))
  | .monitor _ k r, h => .monitor k h.here (renamed_refl r (h.sub (by simp [Reader.subs])))
  | .rule i, _ => .rule i
  | .ruleName r, h => .ruleName (renamed_refl r (h.sub (by simp [Reader.subs])))
  | .grammar w r, h => .grammar w w (renamed_refl r (h.sub (by simp [Reader.subs])))
  | .anyRune _, _ => .anyRune _
  | .atEnd, _ => .atEnd
  | .between _ _, _ => .between _ _
  | .betweenAny _ _, _ => .betweenAny _ _
  | .bool _ _, _ => .bool _ _
  | .fold _, _ => .fold _
  | .holey _ _ _, _ => .holey _ _ _
  | .int _ _ _, _ => .int _ _ _
  | .janusEnd _ _, _ => .janusEnd _ _ _
  | .invalid _, _ => .invalid _ _
  | .lit _, _ => .lit _
  | .match_ _ _, _ => .match_ _ _ _
  | .rune _, _ => .rune _
  | .uint _ _ _, _ => .uint _ _ _
  | .wrap _ _, h => .wrap _ _ h.here
theorem renamedL_refl : ∀ rs : List Reader, (∀ c ∈ rs, c.Every (Reader.labels I)) → RenamedL I rs rs
  | [], _ => .nil
  | r :: rs, h => .cons (renamed_refl r (h r List.mem_cons_self)) (renamedL_refl rs fun c hc => h c (List.mem_cons_of_mem _ hc))
end

/-! ### names of rules -/

/-- Rules with the same readers. -/
theorem rules_of_readers (hG : G.Every (Reader.labels I)) (h : G'.map Rule.reader = G.map Rule.reader) : RenamedRules I G G' := by
  induction G generalizing G' with
  | nil =>
    cases G' with
    | nil => exact .nil
    | cons x xs => simp at h
  | cons y ys ih =>
    cases G' with
    | nil => simp at h
    | cons x xs =>
      simp only [List.map_cons, List.cons.injEq] at h
      refine .cons ?_ (ih (fun rl hrl => hG rl (List.mem_cons_of_mem _ hrl)) h.2)
      cases hr : y.reader with
      | none => exact .inl ⟨rfl, h.1.trans hr⟩
      | some r => exact .inr ⟨r, r, rfl, h.1.trans hr, renamed_refl r (hG y List.mem_cons_self r hr)⟩

theorem seg_eq {xs ys : List Segment} (h : List.Forall₂ (SegAside fun x y => y = x) xs ys) : ys = xs := by
  induction h with
  | nil => rfl
  | cons h _ ih =>
    obtain ⟨h1, h2⟩ := h
    rw [ih]
    congr 1
    exact Segment.mk.injEq _ _ _ _ ▸ ⟨h2, h1⟩

/-- Whatever the rules are called, the same texts are read, in the same way: the end of the read, the position, the place of an error, the
values, the strings kept by Janus pairs, the map calls and the baskets are the same. -/
theorem C97_rules (hG : G.Every fun r => r.noWrap = true) (ha : a.Every fun r => r.noWrap = true) (h : G'.map Rule.reader = G.map Rule.reader) (s : Scanner) (n : Nat) :
    match read rt G n a s, read rt G' n a s with
    | .ret (e, s'), .ret (e', t') => ResAside e e' ∧ t'.full = s'.full ∧ t'.pos = s'.pos ∧ t'.tracker = s'.tracker ∧ t'.heap.cells = s'.heap.cells ∧ t'.heap.janus = s'.heap.janus ∧
        t'.heap.tracks = s'.heap.tracks ∧ t'.heap.maps = s'.heap.maps ∧ t'.heap.baskets = s'.heap.baskets
    | .panic, .panic => True
    | .timeout, .timeout => True
    | _, _ => False := by
  have hl : ∀ r : Reader, r.noWrap = true → r.labels fun x y => y = x := by
    intro r hr
    cases r <;> simp [Reader.noWrap, Reader.labels] at hr ⊢
  have := read_along rt (rules_of_readers (hG.imp hl) h) n a a (renamed_refl a (ha.imp hl)) s s (aside_refl (I := fun x y => y = x) (fun _ => rfl) s)
  generalize read rt G n a s = x at this ⊢
  generalize read rt G' n a s = y at this ⊢
  cases this with
  | ret h => exact ⟨h.1, h.2.full, h.2.pos, h.2.tracker, h.2.cells, h.2.janus, h.2.tracks, h.2.maps, funext fun i => seg_eq (h.2.baskets i)⟩
  | panic => trivial
  | timeout => trivial

/-- The reader in a field of a grammar struct. -/
def Field.readerOf (f : Field) : Option (Option Reader) :=
  match f.val with
  | .rule r => some r.reader
  | .other => none

/-- `SetRuleNames` leaves the readers of the rules as they are, also when it returns an error. -/
theorem C97_set (rt : Rt) (n : Nat) : ∀ (g : Struct) {e : Option Err} {g' : Struct}, setStructNames rt n g = .ret (e, g') → g'.map Field.readerOf = g.map Field.readerOf
  | [], e, g', h => by
    simp only [setStructNames, Exec.ret.injEq, Prod.mk.injEq] at h
    rw [← h.2]
  | ⟨nm, x, tag, v⟩ :: fs, e, g', h => by
    have key : ∀ (f' : Field), f'.readerOf = (Field.mk nm x tag v).readerOf →
        (setStructNames rt n fs >>= fun y => (pure (y.1, f' :: y.2) : Exec (Option Err × Struct))) = .ret (e, g') →
        g'.map Field.readerOf = (Field.mk nm x tag v :: fs).map Field.readerOf := by
      intro f' hf h
      cases hy : setStructNames rt n fs with
      | ret y =>
        rw [hy] at h
        obtain ⟨e1, g1⟩ := y
        cases h
        rw [List.map_cons, List.map_cons, C97_set rt n fs hy, hf]
      | panic => rw [hy] at h; cases h
      | timeout => rw [hy] at h; cases h
    cases v with
    | other => exact key _ rfl h
    | rule r =>
      simp only [setStructNames] at h
      split at h
      · exact key _ rfl h
      · cases hc : checkRuleName rt n tag with
        | panic => rw [hc] at h; cases h
        | timeout => rw [hc] at h; cases h
        | ret c =>
          rw [hc] at h
          cases c with
          | some c => cases h; rfl
          | none =>
            change (if x = true then _ else _) = _ at h
            split at h
            · exact key ⟨nm, x, tag, .rule ⟨tag, r.reader⟩⟩ rfl h
            · cases h

/-! ### picked rules -/

/-- No picks, no logs and no functions of clients yet. -/
def Reader.unlabelled : Reader → Bool
  | .wrap _ _ | .pick _ _ _ | .monitor _ _ _ => false
  | _ => true

/-- Rules with other names. -/
def Env.called (φ : Bytes → Bytes) (G : Env) : Env := G.map fun rl => ⟨φ rl.name, rl.reader⟩

theorem seg_map {φ : Bytes → Bytes} {xs ys : List Segment} (h : List.Forall₂ (SegAside fun x y => y = φ x) xs ys) : ys = xs.map fun g => ⟨φ g.info, g.tok⟩ := by
  induction h with
  | nil => rfl
  | cons h _ ih =>
    obtain ⟨h1, h2⟩ := h
    rw [ih, List.map_cons]
    congr 1
    exact Segment.mk.injEq _ _ _ _ ▸ ⟨h2, h1⟩

theorem called_rules {φ : Bytes → Bytes} (hG : G.Every fun r => r.unlabelled = true) (k : Nat) : RenamedRules (fun x y => y = φ x) (G.pickAll k) ((G.called φ).pickAll k) := by
  have hl : ∀ r : Reader, r.unlabelled = true → r.labels fun x y => y = φ x := by
    intro r hr
    cases r <;> simp [Reader.unlabelled, Reader.labels] at hr ⊢
  induction G with
  | nil => exact .nil
  | cons x xs ih =>
    refine .cons ?_ (ih fun rl hrl => hG rl (List.mem_cons_of_mem _ hrl))
    obtain ⟨nm, r⟩ := x
    cases r with
    | none => exact .inl ⟨rfl, rfl⟩
    | some r => exact .inr ⟨_, _, rfl, rfl, .pick k rfl (renamed_refl r ((hG _ List.mem_cons_self r rfl).imp hl))⟩

/-- A grammar with a basket: when its rules are called otherwise before, the segments are the same ones, under the other names.  Rules may have been given the same name. -/
theorem C97_segments {φ : Bytes → Bytes} (hG : G.Every fun r => r.unlabelled = true) (ha : a.Every fun r => r.unlabelled = true) (k : Nat) (text : Bytes) (n : Nat) :
    match read rt (G.pickAll k) n a ((Scanner.new text Heap.empty).newBasket k), read rt ((G.called φ).pickAll k) n a ((Scanner.new text Heap.empty).newBasket k) with
    | .ret (e, s'), .ret (e', t') => ResAside e e' ∧ t'.pos = s'.pos ∧ t'.heap.baskets k = (s'.heap.baskets k).map fun g => ⟨φ g.info, g.tok⟩
    | .panic, .panic => True
    | .timeout, .timeout => True
    | _, _ => False := by
  have hl : ∀ r : Reader, r.unlabelled = true → r.labels fun x y => y = φ x := by
    intro r hr
    cases r <;> simp [Reader.unlabelled, Reader.labels] at hr ⊢
  have h0 : Aside (fun x y => y = φ x) ((Scanner.new text Heap.empty).newBasket k) ((Scanner.new text Heap.empty).newBasket k) :=
    ⟨rfl, rfl, rfl, rfl, rfl, rfl, rfl, fun i => by
      have : ((Scanner.new text Heap.empty).newBasket k).heap.baskets i = [] := by simp [Scanner.newBasket, Scanner.new, Heap.empty, upd]
      rw [this]; exact .nil, fun _ => ⟨.nil, rfl, rfl, rfl⟩⟩
  have := read_along rt (called_rules (φ := φ) hG k) n a a (renamed_refl a (ha.imp hl)) _ _ h0
  generalize read rt (G.pickAll k) n a _ = x at this ⊢
  generalize read rt ((G.called φ).pickAll k) n a _ = y at this ⊢
  cases this with
  | ret h => exact ⟨h.1, h.2.pos, seg_map (h.2.baskets k)⟩
  | panic => trivial
  | timeout => trivial

end

/-! ### examples -/

/-- The rules of the JSON grammar, all of them called `x`: the same segments. -/
example (rt : Rt) (text : Bytes) (n : Nat) :=
  C97_segments (rt := rt) (G := Json.env) (a := .rule Json.iValue) (φ := fun _ => b!"x") (Env.everyB_sound (by decide)) (Reader.everyB_sound _ _ rfl) 0 text n

example : ∃ s', read exRt ((Json.env.called fun _ => b!"x").pickAll 0) 40 (.rule Json.iValue) ((Scanner.new b!"[1]" Heap.empty).newBasket 0) = .ret (none, s') ∧ s'.pos = 3 ∧
    (s'.heap.baskets 0).map Segment.info = List.replicate (s'.heap.baskets 0).length b!"x" ∧ (s'.heap.baskets 0).length ≥ 3 := ⟨_, rfl, rfl, by decide, by decide⟩

/-- Names are read in messages: the same reader under two names. -/
theorem C97_wording : ∃ (a b : Reader) (s : Scanner) (e e' : Err) (s' t' : Scanner), Renamed (fun x y => y = x) a b ∧
    read exRt [] 5 a s = .ret (some e, s') ∧ read exRt [] 5 b s = .ret (some e', t') ∧ e ≠ e' :=
  ⟨.many (.named b!"digit" (.between 48 57)), .many (.named b!"number" (.between 48 57)), .new b!"x" Heap.empty, _, _, _, _,
    .many (.named _ _ (.between _ _)), rfl, rfl, by decide⟩

/-- The two readers of a Janus pair need not have the same name ... -/
example (rt : Rt) (G : Env) (hG : RenamedRules (fun x y => y = x) G G) (n : Nat) : SameAside (fun x y => y = x)
    (read rt G n (.seq [.janusBegin 0 b!"tag" (.many (.between 97 122)), .rune 61, .janusEnd 0 b!"tag"]))
    (read rt G n (.seq [.janusBegin 0 b!"begin" (.many (.between 97 122)), .rune 61, .janusEnd 0 b!"end"])) :=
  C97_names hG (.seq (.cons (.janusBegin _ _ _ (.many (.between _ _))) (.cons (.rune _) (.cons (.janusEnd _ _ _) .nil)))) n

/-- ... but they belong to the same pair. -/
theorem C97_pairs : (∃ s', read exRt [] 9 (.seq [.janusBegin 0 b!"t" (.rune 97), .rune 61, .janusEnd 0 b!"t"]) (.new b!"a=b" Heap.empty) = .ret (some (.read 2 (quoteToGraphic exRt b!"a")), s')) ∧
    ∃ s', read exRt [] 9 (.seq [.janusBegin 0 b!"t" (.rune 97), .rune 61, .janusEnd 1 b!"t"]) (.new b!"a=b" Heap.empty) = .ret (none, s') :=
  ⟨⟨_, rfl⟩, _, rfl⟩

end Tok
