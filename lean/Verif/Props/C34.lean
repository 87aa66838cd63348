/-
C34 The combinators implement parsing-expression semantics.
-/
import Verif.Proofs.PegConv
import Verif.Proofs.Safe
import Verif.Props.C32
import Verif.Proofs.Number

namespace Tok
open Spec PExp

variable {srch : Bool}

theorem Reader.pegOk.noWrap {r : Reader} (h : r.pegOk srch) : r.noWrap = true := by
  cases r <;> first | exact h.elim | rfl

theorem sees_between {s : Scanner} {h t : Bytes} (hb : Between s h t) : Sees s.full s ⟨t, s.heap.janus⟩ :=
  ⟨rfl, ⟨h, hb⟩, rfl⟩

/-- Two positions in one text. -/
theorem between_sees {s s' : Scanner} {h t : Bytes} (hb : Between s h t) {st : St} (hs : Sees s.full s' st) (hl : st.rest <:+ t) :
    ∃ x, t = x ++ st.rest ∧ Between s' (h ++ x) st.rest := by
  obtain ⟨x, hx⟩ := hl
  obtain ⟨h1, ⟨h', hb'⟩, _⟩ := hs
  refine ⟨x, hx.symm, ?_⟩
  have e : h' ++ st.rest = (h ++ x) ++ st.rest := by
    rw [← hb'.1, h1, hb.1, ← hx]; simp
  have : h' = h ++ x := List.append_cancel_right e
  rw [← this]
  exact hb'

/-- Success: for every reader expression and grammar of the expressible readers, every text
and position, the read succeeds and leaves `t'` exactly if the parsing expression matches
and leaves `t'`.  (`pegOk` names the readers, `keeps` the condition on rules; with `srch`
the readers `Not`, `To`, `Past`, `Body` and `BodyTail` are admitted and the text ahead has to
be well-formed UTF-8.)  The full claim is about the documented expression `doc` and has no
such conditions; it is false, see `C34_violated`. -/
theorem C34_success_partial (rt : Rt) (G : Env) (hG : G.Every (Reader.pegOk srch)) (hK : G.keeps) (r : Reader) (hr : r.Every (Reader.pegOk srch))
    (s : Scanner) (h t : Bytes) (hb : Between s h t) (xs : List Piece) (hp : Pieces t xs) (hc : srch = true → ∃ cs, t = encText cs)
    (ys : List Piece) :
    Peg G.peg r.peg xs (some ys) ↔
      ∃ n s' x t', read rt G n r s = .ret (none, s') ∧ t = x ++ t' ∧ Between s' (h ++ x) t' ∧ Pieces t' ys := by
  have hcl : Clean srch xs := fun hs => by
    obtain ⟨cs, rfl⟩ := hc hs
    exact ⟨cs, Pieces.unique hp (pieces_encText cs)⟩
  have sim := fun n => read_eat rt G (hG.imp fun _ h => h.noWrap) n r (hr.imp fun _ h => h.noWrap) s.full s _ (sees_between hb)
  constructor
  · intro hpeg
    obtain ⟨n, hn⟩ := hpeg.height
    obtain ⟨m, st', h1, h2⟩ := (eat_conv rt G hG hK n r hr).yes (fun k => eat_like rt G hG hK k r hr)
      (st := ⟨t, s.heap.janus⟩) hp hcl hn
    obtain ⟨⟨e, s'⟩, h3, h4, h5⟩ := (sim m).right (h1 m (Nat.le_refl _))
    simp only at h4
    cases e with
    | some e => cases h4
    | none =>
      obtain ⟨x, hx, hb'⟩ := between_sees hb h5 (eat_shrinks rt G m r _ _ (h1 m (Nat.le_refl _)))
      exact ⟨m, s', x, _, h3, hx, hb', h2⟩
  · rintro ⟨n, s', x, t', h1, h2, h3, h4⟩
    obtain ⟨⟨ok, st'⟩, h5, h6, h7⟩ := (sim n).left h1
    simp only [Option.isNone_none] at h6
    subst h6
    obtain ⟨zs, h8, h9⟩ := (eat_like rt G hG hK n r hr ⟨t, s.heap.janus⟩ xs hp hcl _ h5).yes
    obtain ⟨x', hx', hb'⟩ := between_sees hb h7 (eat_shrinks rt G n r _ _ h5)
    have hl : x.length = x'.length := by
      have a := h3.2
      have b := hb'.2
      rw [a] at b
      simp only [List.length_append] at b
      omega
    have : t' = st'.rest := by
      have := h2.symm.trans hx'
      exact (List.append_inj this hl).2
    rw [this] at h4
    rw [Pieces.unique h4 h9]
    exact h8

/-- Failure: the read reports an error exactly if the parsing expression does not match. -/
theorem C34_failure_partial (rt : Rt) (G : Env) (hG : G.Every (Reader.pegOk srch)) (hK : G.keeps) (r : Reader) (hr : r.Every (Reader.pegOk srch))
    (s : Scanner) (h t : Bytes) (hb : Between s h t) (xs : List Piece) (hp : Pieces t xs) (hc : srch = true → ∃ cs, t = encText cs) :
    Peg G.peg r.peg xs none ↔ ∃ n e s', read rt G n r s = .ret (some e, s') := by
  have hcl : Clean srch xs := fun hs => by
    obtain ⟨cs, rfl⟩ := hc hs
    exact ⟨cs, Pieces.unique hp (pieces_encText cs)⟩
  have sim := fun n => read_eat rt G (hG.imp fun _ h => h.noWrap) n r (hr.imp fun _ h => h.noWrap) s.full s _ (sees_between hb)
  constructor
  · intro hpeg
    obtain ⟨n, hn⟩ := hpeg.height
    obtain ⟨m, st', h1, h2⟩ := (eat_conv rt G hG hK n r hr).no (fun k => eat_like rt G hG hK k r hr)
      (st := ⟨t, s.heap.janus⟩) hp hcl hn
    obtain ⟨⟨e, s'⟩, h3, h4, h5⟩ := (sim m).right (h1 m (Nat.le_refl _))
    simp only at h4
    cases e with
    | some e => exact ⟨m, e, s', h3⟩
    | none => cases h4
  · rintro ⟨n, e, s', h1⟩
    obtain ⟨⟨ok, st'⟩, h5, h6, h7⟩ := (sim n).left h1
    simp only [Option.isNone_some] at h6
    subst h6
    exact (eat_like rt G hG hK n r hr ⟨t, s.heap.janus⟩ xs hp hcl _ h5).no.1

/-! ### the documented expressions -/

/-- Readers whose documented expression is the one above: no `Not`, no `Past`, no rune test
that accepts U+FFFD (other than `Between` and `Match`, which need a rune). -/
def Reader.plain : Reader → Prop
  | .not _ => False
  | .past _ => False
  | .anyRune str => ¬ RuneIn str 0xFFFD
  | .betweenAny _ str => ¬ RuneIn str 0xFFFD
  | .holey a b holes => ¬ ((a ≤ 0xFFFD ∧ 0xFFFD ≤ b) ∧ ¬ RuneIn holes 0xFFFD)
  | .rune c => c ≠ 0xFFFD
  | _ => True

theorem cls_one {p : Int → Prop} (h : ¬ p 0xFFFD) : cls p = one p := by
  unfold cls one
  rw [if_neg h]

theorem docs_pegs : ∀ {rs : List Reader}, (∀ r ∈ rs, r.doc = r.peg) → Reader.docs rs = Reader.pegs rs
  | [], _ => by simp [Reader.docs, Reader.pegs]
  | r :: rs, h => by
    simp only [Reader.docs, Reader.pegs]
    rw [h r List.mem_cons_self, docs_pegs fun c hc => h c (List.mem_cons_of_mem _ hc)]

theorem doc_peg {r : Reader} (h : r.Every Reader.plain) : r.doc = r.peg := by
  induction h with
  | @mk r h1 _ ih =>
    cases r with
    | any rs => simp only [Reader.doc, Reader.peg]; rw [docs_pegs (rs := rs) ih]
    | seq rs => simp only [Reader.doc, Reader.peg]; rw [docs_pegs (rs := rs) ih]
    | skipSeq sk rs =>
      simp only [Reader.doc, Reader.peg]
      rw [ih sk (by simp [Reader.subs]), docs_pegs fun c hc => ih c (by simp [Reader.subs, hc])]
    | anyRune str => simp only [Reader.doc, Reader.peg]; rw [cls_one h1]
    | betweenAny l str => simp only [Reader.doc, Reader.peg]; rw [cls_one h1]
    | holey a b c =>
      simp only [Reader.doc, Reader.peg]
      rw [cls_one (p := fun r => (a ≤ r ∧ r ≤ b) ∧ ¬ RuneIn c r) h1]
    | rune c => simp only [Reader.doc, Reader.peg]; rw [cls_one (p := fun r => r = c) (Ne.symm h1)]
    | not c => exact h1.elim
    | past c => exact h1.elim
    | at_ c => simp only [Reader.doc, Reader.peg]; rw [ih c (by simp [Reader.subs])]
    | body b t => simp only [Reader.doc, Reader.peg]; rw [ih b (by simp [Reader.subs]), ih t (by simp [Reader.subs])]
    | bodyTail b t => simp only [Reader.doc, Reader.peg]; rw [ih b (by simp [Reader.subs]), ih t (by simp [Reader.subs])]
    | many c => simp only [Reader.doc, Reader.peg]; rw [ih c (by simp [Reader.subs])]
    | map f c => simp only [Reader.doc, Reader.peg]; rw [ih c (by simp [Reader.subs])]
    | named f c => simp only [Reader.doc, Reader.peg]; rw [ih c (by simp [Reader.subs])]
    | opt c => simp only [Reader.doc, Reader.peg]; rw [ih c (by simp [Reader.subs])]
    | times k c => simp only [Reader.doc, Reader.peg]; rw [ih c (by simp [Reader.subs])]
    | «to» c => simp only [Reader.doc, Reader.peg]; rw [ih c (by simp [Reader.subs])]
    | zom c => simp only [Reader.doc, Reader.peg]; rw [ih c (by simp [Reader.subs])]
    | pick i b c => simp only [Reader.doc, Reader.peg]; rw [ih c (by simp [Reader.subs])]
    | monitor i b c => simp only [Reader.doc, Reader.peg]; rw [ih c (by simp [Reader.subs])]
    | ruleName c => simp only [Reader.doc, Reader.peg]; rw [ih c (by simp [Reader.subs])]
    | grammar w c => simp only [Reader.doc, Reader.peg]; rw [ih c (by simp [Reader.subs])]
    | _ => simp only [Reader.doc, Reader.peg]

theorem env_doc_peg {G : Env} (h : G.Every Reader.plain) : G.doc = G.peg := by
  funext i
  unfold Env.doc Env.peg
  rcases hi : G[i]? with _ | ⟨nm, _ | c⟩
  · rfl
  · rfl
  · simp only [Option.bind_some, Option.map_some]
    rw [doc_peg (h.get hi)]

/-- The documented expression: success and failure of the read are exactly those of the
parsing expression, for the readers without the corner cases of `plain`. -/
theorem C34_documented_partial (rt : Rt) (G : Env) (hG : G.Every (fun r => r.pegOk srch ∧ r.plain)) (hK : G.keeps) (r : Reader)
    (hr : r.Every (fun r => r.pegOk srch ∧ r.plain))
    (s : Scanner) (h t : Bytes) (hb : Between s h t) (xs : List Piece) (hp : Pieces t xs) (hc : srch = true → ∃ cs, t = encText cs) :
    (∀ ys, Peg G.doc r.doc xs (some ys) ↔
      ∃ n s' x t', read rt G n r s = .ret (none, s') ∧ t = x ++ t' ∧ Between s' (h ++ x) t' ∧ Pieces t' ys) ∧
    (Peg G.doc r.doc xs none ↔ ∃ n e s', read rt G n r s = .ret (some e, s')) := by
  rw [env_doc_peg (hG.imp fun _ h => h.2), doc_peg (hr.imp fun _ h => h.2)]
  exact ⟨C34_success_partial rt G (hG.imp fun _ h => h.1) hK r (hr.imp fun _ h => h.1) s h t hb xs hp hc,
    C34_failure_partial rt G (hG.imp fun _ h => h.1) hK r (hr.imp fun _ h => h.1) s h t hb xs hp hc⟩

/-! ### the claim in general is false -/

/-- A read that succeeds where the documented expression does not match. -/
def DocMismatch (r : Reader) (t : Bytes) : Prop :=
  ∃ xs, Pieces t xs ∧ Peg (Env.doc []) r.doc xs none ∧ ∃ s', read exRt [] 5 r (.new t Heap.empty) = .ret (none, s')

/-- `Not("a")` at the end of the text; U+FFFD at the end of the text; `Any(Times(2, 'a'), 'b')`
on `ab` (the alternative that failed has moved); `Seq(Not('a'), U+FFFD)` on a single malformed
byte, where `Not` succeeds without moving. -/
theorem C34_violated : DocMismatch (.not (.rune 97)) [] ∧ DocMismatch (.rune 0xFFFD) [] ∧
    DocMismatch (.any [.times 2 (.rune 97), .rune 98]) b!"ab" ∧
    DocMismatch (.seq [.not (.rune 97), .rune 0xFFFD]) [0xFF] := by
  classical
  have hn : Peg (Env.doc []) (one (fun r => r = 97)) ([] : List Piece) none := .chrEnd
  refine ⟨⟨[], .nil, ?_, _, rfl⟩, ⟨[], .nil, .chrEnd, _, rfl⟩, ⟨_, pieces_encText ['a', 'b'], ?_, _, rfl⟩,
    ⟨[([0xFF], 0xFFFD)], .cons (.bad _ _ ?_) rfl .nil, ?_, _, rfl⟩⟩
  · exact .seq (.neg hn) .chrEnd
  · refine .altNo (.seq (peg_one rfl) (.seqNo (peg_oneNo (by decide)))) (.altNo (peg_oneNo (by decide)) peg_fail)
  · intro c hc
    obtain ⟨x, hx⟩ := hc
    have := decodeRune_enc c x
    rw [hx] at this
    have hl : (enc c).length = 1 := (congrArg Prod.snd this).symm
    have hv : (c.toNat : Int) = 0xFFFD := (congrArg Prod.fst this).symm
    have := runeLen_char c
    rw [hv, hl] at this
    exact absurd this (by decide)
  · refine .seq (.seq (.neg (peg_oneNo (by decide))) peg_dot_cons) (.seqNo .chrEnd)

/-! ### a computable form of the conditions, and cases that meet them -/

def Reader.pegOkB (srch : Bool) : Reader → Bool
  | .fold _ => false
  | .int _ _ _ => false
  | .uint _ _ _ => false
  | .janusBegin _ _ _ => false
  | .janusEnd _ _ => false
  | .wrap _ _ => false
  | .lit s => s.all (fun b => b < 128)
  | .any rs => rs.all Reader.keepsB
  | .opt c => c.keepsB
  | .zom c => c.keepsB
  | .many c => c.keepsB
  | .past c => c.keepsB && srch
  | .to c => c.keepsB && srch
  | .body _ t => t.keepsB && srch
  | .bodyTail _ t => t.keepsB && srch
  | .not _ => srch
  | _ => true

theorem ascii_text : ∀ {s : Bytes}, (s.all fun b => b < 128) = true → ∃ cs, s = encText cs
  | [], _ => ⟨[], rfl⟩
  | b :: s, h => by
    simp only [List.all_cons, Bool.and_eq_true, decide_eq_true_eq] at h
    obtain ⟨cs, hcs⟩ := ascii_text h.2
    have hb : b.toNat < 128 := UInt8.lt_iff_toNat_lt.mp h.1
    have hst := step_ascii s hb
    generalize hr : (b.toNat : Int) = r at hst
    generalize hx : b :: s = x at hst
    generalize hy : [b] = y at hst
    cases hst with
    | char c t =>
      refine ⟨c :: cs, ?_⟩
      rw [encText_cons, ← hcs, ← hx, ← hy]; rfl
    | bad b' t hc => omega

theorem pegOk_of_B {r : Reader} (h : r.pegOkB srch = true) : r.pegOk srch := by
  cases r with
  | lit s => exact ascii_text h
  | any rs => simpa [Reader.pegOkB, Reader.pegOk, List.all_eq_true] using h
  | past c => simpa [Reader.pegOkB, Reader.pegOk] using h
  | «to» c => simpa [Reader.pegOkB, Reader.pegOk] using h
  | body b t => simpa [Reader.pegOkB, Reader.pegOk] using h
  | bodyTail b t => simpa [Reader.pegOkB, Reader.pegOk] using h
  | _ => first | exact h | (cases h; done) | trivial

theorem Env.keeps_of_B {G : Env} (h : (G.all fun rl => match rl.reader with | some r => r.keepsB | none => true) = true) : G.keeps := by
  intro rl hrl r hr
  have := List.all_eq_true.mp h rl hrl
  rw [hr] at this
  exact this

theorem Json.pegOk : Json.env.Every (Reader.pegOk srch) :=
  (Env.everyB_sound (p := Reader.pegOkB srch) (by cases srch <;> decide)).imp fun _ => pegOk_of_B
theorem Json.keeps : Json.env.keeps := Env.keeps_of_B (by decide)

theorem Json.reader_pegOk : Json.reader.Every (Reader.pegOk srch) :=
  .mk (r := .grammar _ _) trivial fun c hc => by
    simp only [Reader.subs, List.mem_singleton] at hc
    subst hc
    exact .mk (r := .rule _) trivial (by simp [Reader.subs])

/-- The JSON grammar satisfies the conditions, on arbitrary bytes. -/
example (rt : Rt) (s : Scanner) (h t : Bytes) (hb : Between s h t) (xs ys : List Piece) (hp : Pieces t xs) :
    Peg Json.env.peg Json.reader.peg xs (some ys) ↔
      ∃ n s' x t', read rt Json.env n Json.reader s = .ret (none, s') ∧ t = x ++ t' ∧ Between s' (h ++ x) t' ∧ Pieces t' ys :=
  C34_success_partial (srch := false) rt _ Json.pegOk Json.keeps _ Json.reader_pegOk s h t hb xs hp (by simp) ys

/-- A search with a documented expression: `Seq(To("b"), Many('b'))` on a text with `é`. -/
example : (Reader.seq [.to (.lit b!"b"), .many (.rune 98)]).Every (fun r => r.pegOk true ∧ r.plain) :=
  .mk ⟨trivial, trivial⟩ (by
    intro c hc
    simp only [Reader.subs, List.mem_cons, List.not_mem_nil, or_false] at hc
    rcases hc with rfl | rfl
    · exact .mk ⟨⟨rfl, rfl⟩, trivial⟩ (by
        intro c hc
        simp only [Reader.subs, List.mem_singleton] at hc
        subst hc
        exact .mk ⟨⟨['b'], by decide⟩, trivial⟩ (by simp [Reader.subs]))
    · exact .mk ⟨rfl, trivial⟩ (by
        intro c hc
        simp only [Reader.subs, List.mem_singleton] at hc
        subst hc
        exact .mk ⟨trivial, by show (98 : Int) ≠ 0xFFFD; decide⟩ (by simp [Reader.subs])))
example : ∃ s', read exRt [] 12 (.seq [.to (.lit b!"b"), .many (.rune 98)]) (.new [0xC3, 0xA9, 98, 98, 99] Heap.empty) = .ret (none, s') ∧ s'.pos = 4 :=
  ⟨_, rfl, rfl⟩

end Tok
