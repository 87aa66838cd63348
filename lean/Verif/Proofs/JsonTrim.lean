/-
What `Segmentate` leaves of a text, and what the JSON grammar picks as white space.
-/
import Verif.Proofs.JsonBare

namespace Tok
open Spec PExp

/-- `Cuts p cs l bs`: without the segments `l` the characters `cs`, which begin at the byte `p`, are `bs`. -/
inductive Cuts : Nat → List Char → List Segment → List Char → Prop
  | nil {p} : Cuts p [] [] []
  | keep {p c cs l bs} : Cuts (p + (enc c).length) cs l bs → Cuts p (c :: cs) l (c :: bs)
  | drop {p us g cs l bs} : g.tok = spanAt p us → Cuts (p + (encText us).length) cs l bs → Cuts p (us ++ cs) (g :: l) bs

theorem Cuts.append {p : Nat} {cs ds bs es : List Char} {l m : List Segment} (h : Cuts p cs l bs) (h' : Cuts (p + (encText cs).length) ds m es) :
    Cuts p (cs ++ ds) (l ++ m) (bs ++ es) := by
  induction h with
  | nil => simpa [encText_nil] using h'
  | @keep p c cs l bs _ ih => exact .keep (ih (by rw [encText_cons, List.length_append, ← Nat.add_assoc] at h'; exact h'))
  | @drop p us g cs l bs hg _ ih =>
    rw [List.append_assoc]
    exact .drop hg (ih (by rw [encText_append, List.length_append, ← Nat.add_assoc] at h'; exact h'))

theorem Cuts.all {p : Nat} : ∀ {cs : List Char}, Cuts p cs [] cs
  | [] => .nil
  | _ :: _ => .keep .all

theorem Cuts.gap {p : Nat} : ∀ {l : List Segment}, (∀ g ∈ l, g.tok = ⟨p, p⟩) → Cuts p [] l []
  | [], _ => .nil
  | g :: l, h => Cuts.drop (us := []) (by rw [h g List.mem_cons_self]; simp [spanAt, encText_nil])
      (by simpa [encText_nil] using Cuts.gap fun g hg => h g (List.mem_cons_of_mem _ hg))

theorem get_part {s : Scanner} {pre x tail : Bytes} (h : s.full = pre ++ (x ++ tail)) : s.get ⟨pre.length, (pre.length : Int) + x.length⟩ = .ret x := by
  unfold Scanner.get
  rw [if_pos ⟨by simp, by simp only; omega, by rw [h]; simp only [List.length_append]; omega⟩, h]
  congr 1
  rw [show ((pre.length : Int) + x.length - pre.length).toNat = x.length by omega]
  simp

theorem loop_cuts {s : Scanner} {p : Nat} {cs bs : List Char} {l : List Segment} (h : Cuts p cs l bs) (hi : ∀ g ∈ l, g.info ≠ []) :
    ∀ (pre pend tail : Bytes) (res : List Segment), s.full = pre ++ (pend ++ (encText cs ++ tail)) → pre.length + pend.length = p →
      ∃ out rest, Segment.segmentateLoop ⟨[], ⟨pre.length, s.full.length⟩⟩ res l = (res ++ out, .ok rest) ∧
        unknownText s (if rest.tok.len > 0 then out ++ [rest] else out) = .ret (pend ++ (encText bs ++ tail)) := by
  induction h with
  | @nil p =>
    intro pre pend tail res hf hp
    refine ⟨[], ⟨[], ⟨pre.length, s.full.length⟩⟩, by simp [Segment.segmentateLoop], ?_⟩
    rw [encText_nil, List.nil_append] at hf
    have hl : (s.full.length : Int) = pre.length + (pend ++ tail).length := by rw [hf]; simp
    have hg := get_part (s := s) (pre := pre) (x := pend ++ tail) (tail := []) (by simpa using hf)
    unfold Token.len
    rw [encText_nil, List.nil_append, hl]
    split
    · simp only [List.nil_append, unknownText, Segment.known, List.isEmpty_nil, Bool.not_true, Bool.false_eq_true, if_false]
      rw [hg]
      simp
    · have : pend ++ tail = [] := List.length_eq_zero_iff.mp (by simp only at *; omega)
      show _ = Exec.ret (pend ++ tail)
      rw [this]
      rfl
  | @keep p c cs l bs _ ih =>
    intro pre pend tail res hf hp
    obtain ⟨out, rest, h1, h2⟩ := ih hi pre (pend ++ enc c) tail res (by rw [hf, encText_cons]; simp) (by simp only [List.length_append]; omega)
    exact ⟨out, rest, h1, by rw [h2, encText_cons]; simp⟩
  | @drop p us g cs l bs hg _ ih =>
    intro pre pend tail res hf hp
    have hk : g.known = true := by
      have := hi g List.mem_cons_self
      unfold Segment.known
      cases h : g.info with
      | nil => exact absurd h this
      | cons => rfl
    have hN : s.full.length = p + (encText us).length + (encText cs ++ tail).length := by
      rw [hf, encText_append]
      simp only [List.length_append]
      omega
    have hc : Token.covers ⟨pre.length, s.full.length⟩ g.tok = true := by
      rw [hg]
      show (decide ((pre.length : Int) ≤ p) && decide ((s.full.length : Int) ≥ p + (encText us).length)) = true
      simp only [Bool.and_eq_true, decide_eq_true_eq]
      omega
    have hsp : Segment.split ⟨[], ⟨pre.length, s.full.length⟩⟩ g =
        (⟨[], ⟨pre.length, (pre.length : Int) + pend.length⟩⟩, ⟨[], ⟨(pre ++ pend ++ encText us).length, s.full.length⟩⟩) := by
      have e1 : makeToken (pre.length : Int) p = ⟨pre.length, (pre.length : Int) + pend.length⟩ := by
        unfold makeToken
        rw [if_neg (by omega), ← hp]
        rfl
      have e2 : makeToken ((p : Int) + (encText us).length) s.full.length = ⟨(pre ++ pend ++ encText us).length, s.full.length⟩ := by
        unfold makeToken
        rw [if_neg (by omega), ← hp]
        simp only [List.length_append, Int.natCast_add]
      unfold Segment.split Token.split
      rw [hg]
      simp only [spanAt, e1, e2]
    have hg2 := get_part (s := s) (pre := pre) (x := pend) (tail := encText (us ++ cs) ++ tail) hf
    obtain ⟨out, rest, h1, h2⟩ := ih (fun g hg => hi g (List.mem_cons_of_mem _ hg)) (pre ++ pend ++ encText us) [] tail
      ((if (⟨pre.length, (pre.length : Int) + pend.length⟩ : Token).len > 0 then res ++ [⟨[], ⟨pre.length, (pre.length : Int) + pend.length⟩⟩] else res) ++ [g])
      (by rw [hf, encText_append]; simp) (by simp only [List.length_append, List.length_nil]; omega)
    rw [List.nil_append] at h2
    refine ⟨(if (⟨pre.length, (pre.length : Int) + pend.length⟩ : Token).len > 0 then [⟨[], ⟨pre.length, (pre.length : Int) + pend.length⟩⟩] else []) ++ g :: out, rest, ?_, ?_⟩
    · unfold Segment.segmentateLoop
      simp only [hc, Bool.not_true, Bool.false_eq_true, if_false, hsp]
      rw [h1]
      split <;> simp
    · have h3 : unknownText s (if rest.tok.len > 0 then g :: out ++ [rest] else g :: out) = .ret (encText bs ++ tail) := by
        rw [← h2]
        split <;> simp [unknownText, hk]
      have h4 : ∀ xs ys : List Segment, (if rest.tok.len > 0 then xs ++ ys ++ [rest] else xs ++ ys) = xs ++ if rest.tok.len > 0 then ys ++ [rest] else ys := by
        intro xs ys; split <;> simp
      rw [h4]
      split
      · rw [List.singleton_append]
        rw [unknownText, if_neg (by simp [Segment.known]), hg2]
        simp only [Exec.bind_ret, List.nil_append, h3, Exec.pure_eq]
      · rename_i hn
        have : pend = [] := List.length_eq_zero_iff.mp (by unfold Token.len at hn; simp only at hn; omega)
        rw [this]
        simpa using h3

/-- `Segmentate` accepts the segments, and the parts that are not known make up what is left. -/
theorem segmentate_cuts {s : Scanner} {cs bs : List Char} {l : List Segment} (h : Cuts 0 cs l bs) (hi : ∀ g ∈ l, g.info ≠ []) (tail : Bytes)
    (hf : s.full = encText cs ++ tail) : ∃ parts, s.segmentate l = (parts, none) ∧ unknownText s parts = .ret (encText bs ++ tail) := by
  obtain ⟨out, rest, h1, h2⟩ := loop_cuts h hi [] [] tail [] (by simpa using hf) rfl
  refine ⟨_, ?_, h2⟩
  unfold Scanner.segmentate Segment.segmentate makeToken
  rw [if_neg (by omega)]
  have h1 : Segment.segmentateLoop ⟨[], ⟨0, s.full.length⟩⟩ [] l = ([] ++ out, .ok rest) := h1
  rw [h1]
  simp only [List.nil_append]

namespace Json

theorem ws_pegOk : wsEnv.Every (Reader.pegOk false) :=
  (Env.everyB_sound (p := Reader.pegOkB false) (by decide)).imp fun _ => pegOk_of_B

theorem ws_keeps : wsEnv.keeps := Env.keeps_of_B (by decide)

theorem ws_peg : wsEnv.peg = Json.env.peg := pickSome_peg _ _ _ _

theorem ws_restores : ∀ rl ∈ wsEnv, ∀ c, rl.reader = some c → c.keeps := restoresB_env rfl

theorem ws_safe {p : Prop} : wsEnv.Every (Reader.safeHere p wsEnv) :=
  (Env.everyB_sound (p := Reader.safeB wsEnv) (by decide)).imp fun _ => safeHere_of_safeB

theorem ws_tracked : wsEnv.Every (Reader.tracked wsEnv 0) :=
  (Env.everyB_sound (p := Reader.trackedB) (by decide)).imp fun _ h => tracked_of_B h

/-- The conditions of the theorems used, at every part of a reader. -/
def sureB (r : Reader) : Bool := r.everyB (fun r => r.pegOkB false && r.safeB wsEnv && r.trackedB) && r.restoresB

theorem sure_parts {r : Reader} (h : sureB r = true) :
    r.Every (Reader.pegOk false) ∧ r.Every (Reader.safeHere True wsEnv) ∧ r.Every (Reader.tracked wsEnv 0) ∧ r.keeps := by
  simp only [sureB, Bool.and_eq_true] at h
  have h1 := Reader.everyB_sound _ _ h.1
  refine ⟨h1.imp fun _ h => ?_, h1.imp fun _ h => ?_, h1.imp fun _ h => ?_, keeps_of_restoresB h.2⟩ <;>
    simp only [Bool.and_eq_true] at h
  · exact pegOk_of_B h.1.1
  · exact safeHere_of_safeB h.1.2
  · exact tracked_of_B h.2

/-- The rules that do not use `ws`. -/
def dryRules : List Nat := [4, 8, 9, 10, 11, 12, 13, 14, 15, 16, 17, 18, 19, 20, 21, 22]

/-- A reader that picks nothing, also in the rules it uses. -/
def dryB (r : Reader) : Bool :=
  r.everyB (fun r => r.trackedB && match r with
    | .pick _ _ _ => false
    | .rule i => dryRules.contains i
    | _ => true)

/-- The same as a condition on one reader. -/
def Dry (r : Reader) : Prop := (r.noPick 0 ∧ r.trackedB = true) ∧ ∀ i, r = .rule i → i ∈ dryRules

theorem dry_of_B {r : Reader} (h : dryB r = true) : r.Every Dry :=
  (Reader.everyB_sound _ _ h).imp fun r h => by
    simp only [Bool.and_eq_true] at h
    refine ⟨⟨?_, h.1⟩, ?_⟩
    · cases r <;> first | trivial | (cases h.2; done) | (cases h.1; done)
    · rintro i rfl
      simpa using h.2

theorem dry_rules (i : Nat) (nm : Bytes) (c : Reader) (h : Dry (.rule i)) (hi : wsEnv[i]? = some ⟨nm, some c⟩) : c.Every Dry := by
  have h := h.2 i rfl
  have key : dryRules.all (fun i => ((wsEnv[i]?.bind (·.reader)).map dryB).getD true) = true := by decide
  have := List.all_eq_true.mp key i h
  rw [hi] at this
  exact dry_of_B this

section
variable {rt : Rt}

/-- In front of `cs ++ rest` the reader reads `cs`, and without what it puts into the basket `cs` is `bs`. -/
def Trims (rt : Rt) (r : Reader) (cs rest bs : List Char) : Prop :=
  ∀ s h, Between s h (encText (cs ++ rest)) → Coupled 0 s → ∃ n s' l, read rt wsEnv n r s = .ret (none, s') ∧
    Between s' (h ++ encText cs) (encText rest) ∧ Coupled 0 s' ∧ s'.heap.baskets 0 = s.heap.baskets 0 ++ l ∧ Cuts h.length cs l bs

/-- In front of `cs` the reader fails and is back; what it leaves in the basket is empty. -/
def GivesUp (rt : Rt) (r : Reader) (cs : List Char) : Prop :=
  ∀ s h, Between s h (encText cs) → Coupled 0 s → ∃ n e s' l, read rt wsEnv n r s = .ret (some e, s') ∧
    Between s' h (encText cs) ∧ Coupled 0 s' ∧ s'.heap.baskets 0 = s.heap.baskets 0 ++ l ∧ Cuts h.length [] l []

theorem givesUp_of_peg {r : Reader} (hr : sureB r = true) {cs : List Char} (h : Peg Json.env.peg r.peg (img cs) none) : GivesUp rt r cs := by
  intro s hd hb hs
  obtain ⟨h1, h2, h3, h4⟩ := sure_parts hr
  rw [← ws_peg] at h
  obtain ⟨n, e, s', hr⟩ := (C34_failure_partial (srch := false) rt _ ws_pegOk ws_keeps r h1 s hd _ hb _ (pieces_encText cs) (by simp)).mp h
  have hp := C33_restores_partial rt _ r ws_safe ws_restores h2 h4 n s s' hs.1 e hr
  have hg := (grew_frame rt wsEnv 0).read (fun _ _ _ _ hi => ws_tracked.get hi) n r h3 s hs _ hr
  have hc := hg.inv hs
  obtain ⟨g1, _, new, e1, p1, _⟩ := hg
  refine ⟨n, e, s', new, hr, ⟨g1.2.1.trans hb.1, hp.trans hb.2⟩, hc, e1, .gap fun g hg => ?_⟩
  have := p1 g hg
  have e2 := hb.2
  obtain ⟨i, ⟨a, b⟩⟩ := g
  simp only at this ⊢
  rw [Token.mk.injEq]
  omega

theorem trims_dry {r : Reader} (hr : sureB r = true) (hq : dryB r = true) {cs rest : List Char}
    (h : Peg Json.env.peg r.peg (img (cs ++ rest)) (some (img rest))) : Trims rt r cs rest cs := by
  intro s hd hb hs
  obtain ⟨h1, h2, h3, h4⟩ := sure_parts hr
  rw [← ws_peg] at h
  obtain ⟨n, s', x, t', h5, h6, h7, h8⟩ := (C34_success_partial (srch := false) rt _ ws_pegOk ws_keeps r h1 s hd _ hb _
    (pieces_encText (cs ++ rest)) (by simp) (img rest)).mp h
  have h9 := pieces_chars h8
  subst h9
  have h6 : x = encText cs := by
    rw [encText, List.flatMap_append] at h6
    exact (List.append_cancel_right h6).symm
  subst h6
  have hg := (silent_frame rt wsEnv 0 Dry fun _ h => ⟨h.1.1, tracked_of_B h.1.2⟩).read dry_rules n r (dry_of_B hq) s hs _ h5
  exact ⟨n, s', [], h5, h7, hg.grew.inv hs, by rw [hg.2.2, List.append_nil], .all⟩

theorem Trims.rule {i : Nat} {nm : Bytes} {c : Reader} {cs rest bs : List Char} (hi : wsEnv[i]? = some ⟨nm, some c⟩)
    (h : Trims rt c cs rest bs) : Trims rt (.rule i) cs rest bs := by
  intro s hd hb hs
  obtain ⟨n, s', l, h1, h2⟩ := h s hd hb hs
  exact ⟨n + 1, s', l, by simp only [read, hi]; exact h1, h2⟩

/-- White space is picked. -/
theorem trims_ws {cs rest : List Char} (h : JsonText .ws cs) (hr : Avoid isWS rest) : Trims rt (.rule iWS) cs rest [] := by
  refine .rule (nm := b!"ws") (c := .pick b!"ws" 0 (.zom (.anyRune b!" \r\n\t"))) rfl ?_
  intro s hd hb hs
  have hz : Trims rt (.zom (.anyRune b!" \r\n\t")) cs rest cs := trims_dry (by decide) (by decide) ((want h).2.2 rest hr)
  obtain ⟨n, s', l, h1, h2, h3, h4, h5⟩ := hz s hd hb hs
  have hl : l = [] := by
    have hg := (silent_frame rt wsEnv 0 Dry fun _ h => ⟨h.1.1, tracked_of_B h.1.2⟩).read dry_rules n _ (dry_of_B (r := .zom (.anyRune b!" \r\n\t")) (by decide)) s hs _ h1
    have := hg.2.2
    rw [h4] at this
    exact List.append_cancel_left (this.trans (List.append_nil _).symm)
  subst hl
  have ht : makeToken s.pos s'.pos = spanAt hd.length cs := by
    rw [h2.2, hb.2]
    unfold makeToken spanAt
    rw [List.length_append, if_neg (by omega)]
    simp
  have hba : (s'.addPick b!"ws" 0 (spanAt hd.length cs)).heap.baskets 0 = s'.heap.baskets 0 ++ [⟨b!"ws", spanAt hd.length cs⟩] := by
    unfold Scanner.addPick
    exact upd_self s'.heap.baskets 0 _
  refine ⟨n + 1, s'.addPick b!"ws" 0 (spanAt hd.length cs), [⟨b!"ws", spanAt hd.length cs⟩], ?_, h2, ?_, ?_, ?_⟩
  · rw [read]
    simp only [Scanner.tokenizeUse, h1, Exec.bind_ret, Exec.pure_eq, Option.isNone_none, if_true, Option.isSome_none, Bool.false_eq_true, if_false]
    unfold Scanner.mark
    rw [ht]
    rfl
  · refine ⟨h3.1, h3.2.1, ?_⟩
    intro g hg
    rw [hba] at hg
    rcases List.mem_append.mp hg with hg | hg
    · exact h3.2.2 g hg
    · rw [List.mem_singleton.mp hg]
      show _ ≤ s'.pos
      rw [h2.2]
      simp only [spanAt, List.length_append]
      omega
  · rw [hba, h4, List.append_nil]
  · have := Cuts.drop (p := hd.length) (us := cs) (g := ⟨b!"ws", spanAt hd.length cs⟩) (cs := []) (l := []) (bs := []) rfl .nil
    simpa using this

theorem Trims.seqNil {rest : List Char} : Trims rt (.seq []) [] rest [] := by
  intro s hd hb hs
  exact ⟨1, s, [], rfl, by simpa [encText_nil] using hb, hs, by simp, .nil⟩

theorem Trims.seq {r : Reader} {rs : List Reader} {cs ds rest bs es : List Char}
    (h : Trims rt r cs (ds ++ rest) bs) (h' : Trims rt (.seq rs) ds rest es) : Trims rt (.seq (r :: rs)) (cs ++ ds) rest (bs ++ es) := by
  intro s hd hb hs
  rw [List.append_assoc] at hb
  obtain ⟨n, s1, l, h1, h2, h3, h4, hc⟩ := h s hd hb hs
  obtain ⟨m, s2, l', h5, h6, h7, h8, hc'⟩ := h' s1 _ h2 h3
  cases m with
  | zero => cases h5
  | succ m =>
    refine ⟨max n m + 1, s2, l ++ l', ?_, by simpa [encText] using h6, h7, by rw [h8, h4, List.append_assoc], hc.append (by simpa using hc')⟩
    have h1 := read_mono (m := max n m) (by omega) h1
    have h5 := read_mono (m := max n m + 1) (by omega) h5
    simp only [read] at h5 ⊢
    unfold seqLoop
    rw [h1]
    simp only [Exec.bind_ret]
    obtain ⟨⟨e, s3⟩, h9, h10⟩ := Exec.bind_eq_ret.mp h5
    rw [h9]
    cases e with
    | none => exact h10
    | some e => cases h10

theorem Trims.any {r : Reader} {rs : List Reader} {cs rest bs : List Char} (h : Trims rt r cs rest bs) :
    Trims rt (.any (r :: rs)) cs rest bs := by
  intro s hd hb hs
  obtain ⟨n, s1, l, h1, h2⟩ := h s hd hb hs
  refine ⟨n + 1, s1, l, ?_, h2⟩
  simp only [read, anyLoop]
  rw [h1]
  rfl

theorem Trims.anyNext {r : Reader} {rs : List Reader} {cs rest bs : List Char} (h : GivesUp rt r (cs ++ rest))
    (h' : Trims rt (.any rs) cs rest bs) : Trims rt (.any (r :: rs)) cs rest bs := by
  intro s hd hb hs
  obtain ⟨n, e, s1, l, h1, h2, h3, h4, hc⟩ := h s hd hb hs
  obtain ⟨m, s2, l', h5, h6, h7, h8, hc'⟩ := h' s1 _ h2 h3
  cases m with
  | zero => cases h5
  | succ m =>
    refine ⟨max n m + 1, s2, l ++ l', ?_, h6, h7, by rw [h8, h4, List.append_assoc], hc.append (by simpa [encText_nil] using hc')⟩
    have h1 := read_mono (m := max n m) (by omega) h1
    have h5 := read_mono (m := max n m + 1) (by omega) h5
    simp only [read] at h5 ⊢
    unfold anyLoop
    rw [h1]
    simp only [Exec.bind_ret]
    obtain ⟨⟨e, s3⟩, h9, h10⟩ := Exec.bind_eq_ret.mp h5
    cases e with
    | none =>
      cases h10
      rw [anyLoop_errs rs _ h9]
      rfl
    | some e => cases h10

theorem Trims.zomNil {c : Reader} {rest : List Char} (h : GivesUp rt c rest) : Trims rt (.zom c) [] rest [] := by
  intro s hd hb hs
  obtain ⟨n, e, s1, l, h1, h2, h3, h4, hc⟩ := h s hd hb hs
  refine ⟨n + 2, s1, l, ?_, by simpa [encText_nil] using h2, h3, h4, hc⟩
  have h1 := read_mono (m := n + 1) (by omega) h1
  show (zomLoop (read rt wsEnv (n + 1) c) (n + 1) s).bind _ = _
  unfold zomLoop
  rw [h1]
  rfl

theorem Trims.zom {c : Reader} {cs ds rest bs es : List Char}
    (h : Trims rt c cs (ds ++ rest) bs) (h' : Trims rt (.zom c) ds rest es) : Trims rt (.zom c) (cs ++ ds) rest (bs ++ es) := by
  intro s hd hb hs
  rw [List.append_assoc] at hb
  obtain ⟨n, s1, l, h1, h2, h3, h4, hc⟩ := h s hd hb hs
  obtain ⟨m, s2, l', h5, h6, h7, h8, hc'⟩ := h' s1 _ h2 h3
  cases m with
  | zero => cases h5
  | succ m =>
    refine ⟨max n m + 2, s2, l ++ l', ?_, by simpa [encText] using h6, h7, by rw [h8, h4, List.append_assoc], hc.append (by simpa using hc')⟩
    have h1 := read_mono (m := max n m + 1) (by omega) h1
    obtain ⟨s3, h9, h10⟩ := Exec.bind_eq_ret.mp (show (zomLoop (read rt wsEnv m c) m s1).bind (fun s => .ret (none, s)) = .ret (none, s2) from h5)
    have h9 := (zomLoop_le (read_le rt wsEnv m (max n m + 1) (by omega) c) m (max n m) s1 (by omega)).ret h9
    show (zomLoop (read rt wsEnv (max n m + 1) c) (max n m + 1) s).bind _ = _
    unfold zomLoop
    rw [h1]
    simp only [Exec.bind_ret]
    rw [h9]
    exact h10

theorem Trims.last {r : Reader} {cs rest bs : List Char} (h : Trims rt r cs rest bs) : Trims rt (.seq [r]) cs rest bs := by
  have := Trims.seq (rt := rt) (ds := []) (rest := rest) h .seqNil
  simpa using this

/-- A single rune. -/
theorem trims_rune {n : Int} (c : Char) {rest : List Char} (h : (c.toNat : Int) = n)
    (hf : sureB (.rune n) = true := by decide) (hq : dryB (.rune n) = true := by decide) : Trims rt (.rune n) [c] rest [c] :=
  trims_dry hf hq (peg_ru_yes c h)

/-- What is proved of the texts of each symbol. -/
def Bares (rt : Rt) : JsonSym → List Char → List Char → Prop
  | .value, cs, bs => ∀ rest, Avoid inNum rest → Trims rt (.rule iValue) cs rest bs
  | .object, cs, bs => ∀ rest, Trims rt (.rule iObject) cs rest bs
  | .members, cs, bs => ∀ rest, Trims rt (.rule iMembers) cs ('}' :: rest) bs ∧ Trims rt moreMembers (',' :: cs) ('}' :: rest) (',' :: bs)
  | .member, cs, bs => ∀ rest, Avoid (fun n => isWS n ∨ inNum n) rest → Trims rt (.rule iMember) cs rest bs
  | .array, cs, bs => ∀ rest, Trims rt (.rule iArray) cs rest bs
  | .elements, cs, bs => ∀ rest, Trims rt (.rule iElements) cs (']' :: rest) bs ∧ Trims rt moreElements (',' :: cs) (']' :: rest) (',' :: bs)
  | .element, cs, bs => ∀ rest, Avoid (fun n => isWS n ∨ inNum n) rest → Trims rt (.rule iElement) cs rest bs
  | _, _, _ => True

theorem bares_members {cs more rest bs es : List Char} (h1 : Trims rt (.rule iMember) cs (more ++ '}' :: rest) bs)
    (h2 : Trims rt moreMembers more ('}' :: rest) es) :
    Trims rt (.rule iMembers) (cs ++ more) ('}' :: rest) (bs ++ es) ∧ Trims rt moreMembers (',' :: (cs ++ more)) ('}' :: rest) (',' :: (bs ++ es)) :=
  ⟨.rule (nm := b!"members") rfl (h1.seq h2.last), Trims.zom (cs := ',' :: cs) (bs := ',' :: bs)
    (Trims.seq (cs := [',']) (bs := [',']) (trims_rune ',' rfl) h1.last) h2⟩

theorem trims_members_end {rest : List Char} : Trims rt moreMembers [] ('}' :: rest) [] :=
  .zomNil (givesUp_of_peg (by decide) (.seqNo (peg_ru_no (n := 44) (.cons (by decide)) (by decide))))

theorem bares_elements {cs more rest bs es : List Char} (h1 : Trims rt (.rule iElement) cs (more ++ ']' :: rest) bs)
    (h2 : Trims rt moreElements more (']' :: rest) es) :
    Trims rt (.rule iElements) (cs ++ more) (']' :: rest) (bs ++ es) ∧ Trims rt moreElements (',' :: (cs ++ more)) (']' :: rest) (',' :: (bs ++ es)) :=
  ⟨.rule (nm := b!"elements") rfl (h1.seq h2.last), Trims.zom (cs := ',' :: cs) (bs := ',' :: bs)
    (Trims.seq (cs := [',']) (bs := [',']) (trims_rune ',' rfl) h1.last) h2⟩

theorem trims_elements_end {rest : List Char} : Trims rt moreElements [] (']' :: rest) [] :=
  .zomNil (givesUp_of_peg (by decide) (.seqNo (peg_ru_no (n := 44) (.cons (by decide)) (by decide))))

theorem trims_object {cs rest bs : List Char} (h : Trims rt (.any [.rule iMembers, .rule iWS]) cs ('}' :: rest) bs) :
    Trims rt (.rule iObject) ('{' :: (cs ++ ['}'])) rest ('{' :: (bs ++ ['}'])) :=
  .rule (nm := b!"object") rfl (Trims.seq (cs := ['{']) (bs := ['{']) (trims_rune '{' rfl)
    (Trims.seq (ds := ['}']) (es := ['}']) h (Trims.last (trims_rune '}' rfl))))

theorem trims_array {cs rest bs : List Char} (h : Trims rt (.any [.rule iElements, .rule iWS]) cs (']' :: rest) bs) :
    Trims rt (.rule iArray) ('[' :: (cs ++ [']'])) rest ('[' :: (bs ++ [']'])) :=
  .rule (nm := b!"array") rfl (Trims.seq (cs := ['[']) (bs := ['[']) (trims_rune '[' rfl)
    (Trims.seq (ds := [']']) (es := [']']) h (Trims.last (trims_rune ']' rfl))))

theorem bares {A : JsonSym} {cs bs : List Char} (h : JsonBare A cs bs) : Bares rt A cs bs := by
  have no := fun (i : Nat) (hf : sureB (.rule i) = true) (cs : List Char) (h : Peg Json.env.peg (.nt i) (img cs) none) =>
    givesUp_of_peg (rt := rt) (r := .rule i) hf h
  induction h with
  | @value_object cs bs h ih =>
    exact fun rest _ => .rule (nm := b!"value") rfl (.any (ih rest))
  | @value_array cs bs h ih =>
    have hh := (want h.text).1
    exact fun rest _ => .rule (nm := b!"value") rfl (.anyNext (no 1 (by decide) _ (object_no (hh.append.avoid fun n h => by omega))) (.any (ih rest)))
  | @value_string cs h =>
    have hh := (want h).1
    refine fun rest _ => .rule (nm := b!"value") rfl (.anyNext (no 1 (by decide) _ (object_no (hh.append.avoid fun n h => by omega)))
      (.anyNext (no 5 (by decide) _ (array_no (hh.append.avoid fun n h => by omega))) (.any ?_)))
    exact trims_dry (by decide) (by decide) ((want h).2.1 rest trivial)
  | @value_number cs h =>
    have hh := (want h).1
    refine fun rest hr => .rule (nm := b!"value") rfl (.anyNext (no 1 (by decide) _ (object_no (hh.append.avoid ?_)))
      (.anyNext (no 5 (by decide) _ (array_no (hh.append.avoid ?_))) (.anyNext (no 8 (by decide) _ (string_no (hh.append.avoid ?_))) (.any ?_))))
    · intro n h; unfold isDigit at h; omega
    · intro n h; unfold isDigit at h; omega
    · intro n h; unfold isDigit at h; omega
    exact trims_dry (by decide) (by decide) ((want h).2 rest hr)
  | value_true =>
    refine fun rest hr => .rule (nm := b!"value") rfl (.anyNext (no 1 (by decide) _ (object_no (.cons (by decide))))
      (.anyNext (no 5 (by decide) _ (array_no (.cons (by decide)))) (.anyNext (no 8 (by decide) _ (string_no (.cons (by decide))))
      (.anyNext (no 13 (by decide) _ (number_no (.cons (by unfold isDigit; decide)))) (.any ?_)))))
    refine trims_dry (r := .rule 21) (by decide) (by decide) ?_
    exact .nt (e := choice [litExp (encText ['t', 'r', 'u', 'e']), litExp (encText ['f', 'a', 'l', 's', 'e'])]) rfl (.alt (peg_lit_yes _))
  | value_false =>
    refine fun rest hr => .rule (nm := b!"value") rfl (.anyNext (no 1 (by decide) _ (object_no (.cons (by decide))))
      (.anyNext (no 5 (by decide) _ (array_no (.cons (by decide)))) (.anyNext (no 8 (by decide) _ (string_no (.cons (by decide))))
      (.anyNext (no 13 (by decide) _ (number_no (.cons (by unfold isDigit; decide)))) (.any ?_)))))
    refine trims_dry (r := .rule 21) (by decide) (by decide) ?_
    exact .nt (e := choice [litExp (encText ['t', 'r', 'u', 'e']), litExp (encText ['f', 'a', 'l', 's', 'e'])]) rfl
      (.altNo (peg_lit_no 't' (.cons (by decide))) (.alt (peg_lit_yes _)))
  | value_null =>
    refine fun rest hr => .rule (nm := b!"value") rfl (.anyNext (no 1 (by decide) _ (object_no (.cons (by decide))))
      (.anyNext (no 5 (by decide) _ (array_no (.cons (by decide)))) (.anyNext (no 8 (by decide) _ (string_no (.cons (by decide))))
      (.anyNext (no 13 (by decide) _ (number_no (.cons (by unfold isDigit; decide)))) (.anyNext (no 21 (by decide) _ (bool_no (.cons (by decide)))) (.any ?_))))))
    refine trims_dry (r := .rule 22) (by decide) (by decide) ?_
    exact .nt (e := litExp (encText ['n', 'u', 'l', 'l'])) rfl (peg_lit_yes _)
  | @object_ws cs h =>
    refine fun rest => trims_object (.anyNext (no 2 (by decide) _ ?_) (.any (trims_ws h (.cons (by unfold isWS; decide)))))
    exact .nt (e := chain [.nt 3, .star (chain [cls (fun r => r = 44), .nt 3])]) rfl
      (.seqNo (member_no (want h) (.cons (by unfold isWS; decide))))
  | @object_members cs bs h ih => exact fun rest => trims_object (.any (rs := [.rule iWS]) (ih rest).1)
  | @members_one cs bs h ih =>
    intro rest
    have := bares_members (more := []) (ih ('}' :: rest) (.cons (by unfold isWS inNum isDigit; decide))) trims_members_end
    simpa using this
  | @members_more cs ds bs es h h' ih1 ih2 =>
    intro rest
    exact bares_members (ih1 (',' :: (ds ++ '}' :: rest)) (.cons (by unfold isWS inNum isDigit; decide))) (ih2 rest).2
  | @member us cs vs ds bs h1 h2 h3 h4 ih =>
    intro rest hr
    have hs := want h2
    refine .rule (nm := b!"member") rfl ?_
    refine Trims.seq (ds := cs ++ (vs ++ ':' :: ds)) (trims_ws h1 ?_) ?_
    · rw [List.append_assoc]
      refine hs.1.append.avoid ?_
      rintro n rfl
      unfold isWS; omega
    refine Trims.seq (ds := vs ++ ':' :: ds) (trims_dry (by decide) (by decide) (hs.2.2 _ trivial)) ?_
    refine Trims.seq (ds := ':' :: ds) (trims_ws h3 (.cons (by unfold isWS; decide))) ?_
    exact Trims.seq (cs := [':']) (bs := [':']) (trims_rune ':' rfl) (ih rest hr).last
  | @array_ws cs h =>
    refine fun rest => trims_array (.anyNext (no 6 (by decide) _ ?_) (.any (trims_ws h (.cons (by unfold isWS; decide)))))
    exact .nt (e := chain [.nt 7, .star (chain [cls (fun r => r = 44), .nt 7])]) rfl
      (.seqNo (element_no (want h) (.cons (by unfold isWS isHead isDigit; decide))))
  | @array_elements cs bs h ih => exact fun rest => trims_array (.any (rs := [.rule iWS]) (ih rest).1)
  | @elements_one cs bs h ih =>
    intro rest
    have := bares_elements (more := []) (ih (']' :: rest) (.cons (by unfold isWS inNum isDigit; decide))) trims_elements_end
    simpa using this
  | @elements_more cs ds bs es h h' ih1 ih2 =>
    intro rest
    exact bares_elements (ih1 (',' :: (ds ++ ']' :: rest)) (.cons (by unfold isWS inNum isDigit; decide))) (ih2 rest).2
  | @element us cs vs bs h1 h2 h3 ih =>
    intro rest hr
    refine .rule (nm := b!"element") rfl ?_
    refine Trims.seq (ds := cs ++ vs) (trims_ws h1 ?_) ?_
    · rw [List.append_assoc]
      refine (want h2.text).1.append.avoid ?_
      intro n; unfold isHead isWS isDigit; omega
    refine Trims.seq (ds := vs) (rest := rest) (ih _ (.append (want h3).1 ?_ (hr.imp fun n h => .inr h)))
      (trims_ws h3 (hr.imp fun n h => .inl h)).last
    intro n; unfold inNum isWS isDigit; omega

end
end Json

end Tok
