/-
C56 demo/json-stack prints the tree of a JSON document.
-/
import Verif.Spec.JsonTree
import Verif.Model.Demo
import Verif.Proofs.PickExact
import Verif.Props.C42
import Verif.Props.C48
import Verif.Props.C49

namespace Tok
open Spec PExp

theorem pickSome_get (l : List Nat) (b : Nat) : ∀ (G : Env) (k i : Nat),
    (Env.pickSome l b k G)[i]? = G[i]?.map (fun r => if l.contains (k + i) then r.pick b else r)
  | [], _, _ => by simp [Env.pickSome]
  | r :: G, k, 0 => by simp [Env.pickSome]
  | r :: G, k, i + 1 => by
    simp only [Env.pickSome, List.getElem?_cons_succ, pickSome_get l b G (k + 1) i]
    rw [show k + 1 + i = k + (i + 1) by omega]

theorem pickSome_peg (l : List Nat) (b k : Nat) (G : Env) : (Env.pickSome l b k G).peg = G.peg := by
  funext i
  unfold Env.peg
  rw [pickSome_get]
  rcases G[i]? with _ | ⟨nm, _ | c⟩
  · rfl
  · cases h : l.contains (k + i) <;> simp only [Option.map_some, h, if_true, Bool.false_eq_true, if_false] <;> rfl
  · cases h : l.contains (k + i) <;> simp only [Option.map_some, h, if_true, Bool.false_eq_true, if_false] <;> simp [Rule.pick, Reader.peg]

namespace Json

theorem stack_pegOk : stackEnv.Every (Reader.pegOk false) :=
  (Env.everyB_sound (p := Reader.pegOkB false) (by decide)).imp fun _ => pegOk_of_B

theorem stack_keeps : stackEnv.keeps := Env.keeps_of_B (by decide)

theorem stack_peg : stackEnv.peg = Json.env.peg := pickSome_peg _ _ _ _

theorem stack_noWrap : stackEnv.Every (fun r => r.noWrap = true) := Env.everyB_sound (by decide)

theorem stack_nulls : ∀ (i : Nat) (nm : Bytes) (c : Reader), stackEnv[i]? = some ⟨nm, some c⟩ → c.null (nulOf Json.nul) = true →
    nulOf Json.nul i = true := by
  have h : Env.soundB (nulOf Json.nul) false false (rankOf Json.rank) (fun _ => false) (fun _ => false) 0 stackEnv = true := by decide
  intro i nm c hi
  have := (soundB_sound h i nm c hi).1
  rwa [Nat.zero_add] at this

theorem stack_restores : ∀ rl ∈ stackEnv, ∀ c, rl.reader = some c → c.keeps := restoresB_env rfl

/-- What the calculus needs at every reader. -/
def solidB : Reader → Bool
  | .pick _ _ c => !c.null (nulOf Json.nul) && c.everyB Reader.noWrap
  | _ => true

theorem solid_of_B {r : Reader} (h : solidB r = true) : r.solid (nulOf Json.nul) := by
  cases r <;> first | trivial | skip
  simp only [solidB, Bool.and_eq_true, Bool.not_eq_true'] at h
  exact ⟨h.1, Reader.everyB_sound _ _ h.2⟩

theorem stack_solid : stackEnv.Every (fun r => r.trackedB = true ∧ r.solid (nulOf Json.nul)) :=
  (Env.everyB_sound (p := fun r => r.trackedB && solidB r) (by decide)).imp fun _ h => by
    simp only [Bool.and_eq_true] at h
    exact ⟨h.1, solid_of_B h.2⟩

theorem stack_safe {p : Prop} : stackEnv.Every (Reader.safeHere p stackEnv) :=
  (Env.everyB_sound (p := Reader.safeB stackEnv) (by decide)).imp fun _ => safeHere_of_safeB

/-- The conditions of the theorems used, at every part of a reader. -/
def fineB (r : Reader) : Bool :=
  r.everyB (fun r => r.pegOkB false && r.safeB stackEnv && r.trackedB && solidB r) && r.restoresB

/-- A reader that picks nothing, also in the rules it uses. -/
def quietB (r : Reader) : Bool :=
  r.everyB (fun r => r.trackedB && match r with
    | .pick _ _ _ => false
    | .rule i => [9, 10, 11, 12, 14, 15, 16, 17, 18, 19, 20, 23].contains i
    | _ => true)

/-- The same as a condition on one reader. -/
def Quiet (r : Reader) : Prop := (r.noPick 0 ∧ r.trackedB = true) ∧
  ∀ i, r = .rule i → i ∈ [9, 10, 11, 12, 14, 15, 16, 17, 18, 19, 20, 23]

theorem quiet_of_B {r : Reader} (h : quietB r = true) : r.Every Quiet :=
  (Reader.everyB_sound _ _ h).imp fun r h => by
    simp only [Bool.and_eq_true] at h
    refine ⟨⟨?_, h.1⟩, ?_⟩
    · cases r <;> first | trivial | (cases h.2; done) | (cases h.1; done)
    · rintro i rfl
      simpa using h.2

theorem quiet_rules (i : Nat) (nm : Bytes) (c : Reader) (h : Quiet (.rule i)) (hi : stackEnv[i]? = some ⟨nm, some c⟩) : c.Every Quiet := by
  have h := h.2 i rfl
  have key : [9, 10, 11, 12, 14, 15, 16, 17, 18, 19, 20, 23].all (fun i => ((stackEnv[i]?.bind (·.reader)).map quietB).getD true) = true := by
    decide
  have := List.all_eq_true.mp key i h
  rw [hi] at this
  exact quiet_of_B this

section
variable {rt : Rt}

/-- In front of `cs ++ rest` the reader reads `cs` and puts `l` into the basket. -/
def Puts (rt : Rt) (r : Reader) (p : Nat) (cs rest : List Char) (l : List Segment) : Prop :=
  ∀ s h, Between s h (encText (cs ++ rest)) → h.length = p → Solid 0 s → ∃ n s', read rt stackEnv n r s = .ret (none, s') ∧
    Between s' (h ++ encText cs) (encText rest) ∧ Solid 0 s' ∧ s'.heap.baskets 0 = s.heap.baskets 0 ++ l

/-- In front of `cs` the reader fails, and nothing is changed. -/
def Refuses (rt : Rt) (r : Reader) (cs : List Char) : Prop :=
  ∀ s h, Between s h (encText cs) → Solid 0 s → ∃ n e s', read rt stackEnv n r s = .ret (some e, s') ∧
    Between s' h (encText cs) ∧ Solid 0 s' ∧ s'.heap.baskets 0 = s.heap.baskets 0

theorem fine_parts {r : Reader} (h : fineB r = true) :
    r.Every (Reader.pegOk false) ∧ r.Every (Reader.safeHere True stackEnv) ∧ r.Every (fun r => r.trackedB = true ∧ r.solid (nulOf Json.nul)) ∧ r.keeps := by
  simp only [fineB, Bool.and_eq_true] at h
  have h1 := Reader.everyB_sound _ _ h.1
  refine ⟨h1.imp fun _ h => ?_, h1.imp fun _ h => ?_, h1.imp fun _ h => ?_, keeps_of_restoresB h.2⟩ <;>
    simp only [Bool.and_eq_true] at h
  · exact pegOk_of_B h.1.1.1
  · exact safeHere_of_safeB h.1.1.2
  · exact ⟨h.1.2, solid_of_B h.2⟩

theorem refuses_of_peg {r : Reader} (hr : fineB r = true) {cs : List Char} (h : Peg Json.env.peg r.peg (img cs) none) : Refuses rt r cs := by
  intro s hd hb hs
  obtain ⟨h1, h2, h3, h4⟩ := fine_parts hr
  rw [← stack_peg] at h
  obtain ⟨n, e, s', hr⟩ := (C34_failure_partial (srch := false) rt _ stack_pegOk stack_keeps r h1 s hd _ hb _ (pieces_encText cs) (by simp)).mp h
  have hp := C33_restores_partial rt _ r stack_safe stack_restores h2 h4 n s s' hs.1.1 e hr
  have hg := (solid_frame rt stackEnv 0 _ stack_noWrap stack_nulls).read (fun _ _ _ _ hi => stack_solid.get hi) n r h3 s hs _ hr
  refine ⟨n, e, s', hr, ?_, ⟨hg.1.inv hs.1, hg.2⟩, hg.same hp⟩
  exact ⟨hg.1.1.2.1.trans hb.1, hp.trans hb.2⟩

theorem puts_quiet {r : Reader} (hr : fineB r = true) (hq : quietB r = true) {p : Nat} {cs rest : List Char}
    (h : Peg Json.env.peg r.peg (img (cs ++ rest)) (some (img rest))) : Puts rt r p cs rest [] := by
  intro s hd hb _ hs
  obtain ⟨h1, h2, h3, h4⟩ := fine_parts hr
  rw [← stack_peg] at h
  obtain ⟨n, s', x, t', h5, h6, h7, h8⟩ := (C34_success_partial (srch := false) rt _ stack_pegOk stack_keeps r h1 s hd _ hb _
    (pieces_encText (cs ++ rest)) (by simp) (img rest)).mp h
  have h9 := pieces_chars h8
  subst h9
  have h6 : x = encText cs := by
    rw [encText, List.flatMap_append] at h6
    exact (List.append_cancel_right h6).symm
  subst h6
  have hg := (silent_frame rt stackEnv 0 Quiet fun _ h => ⟨h.1.1, tracked_of_B h.1.2⟩).read quiet_rules n r (quiet_of_B hq) s hs.1 _ h5
  exact ⟨n, s', h5, h7, ⟨hg.grew.inv hs.1, by rw [hg.2.2]; exact hs.2⟩, by rw [hg.2.2, List.append_nil]⟩

theorem Puts.rule {i p : Nat} {nm : Bytes} {c : Reader} {cs rest : List Char} {l : List Segment} (hi : stackEnv[i]? = some ⟨nm, some c⟩)
    (h : Puts rt c p cs rest l) : Puts rt (.rule i) p cs rest l := by
  intro s hd hb hp hs
  obtain ⟨n, s', h1, h2⟩ := h s hd hb hp hs
  exact ⟨n + 1, s', by simp only [read, hi]; exact h1, h2⟩

theorem Puts.pick {info : Bytes} {p : Nat} {c : Reader} {cs rest : List Char} {l : List Segment} (hcs : cs ≠ [])
    (h : Puts rt c p cs rest l) : Puts rt (.pick info 0 c) p cs rest (l ++ [⟨info, spanAt p cs⟩]) := by
  intro s hd hb hp hs
  obtain ⟨n, s', h1, h2, h3, h4⟩ := h s hd hb hp hs
  have hl : 0 < (encText cs).length := by
    cases cs with
    | nil => exact absurd rfl hcs
    | cons c cs =>
      have := enc_length_pos c
      simp only [encText, List.flatMap_cons, List.length_append]
      omega
  have ht : makeToken s.pos s'.pos = spanAt p cs := by
    rw [h2.2, hb.2]
    unfold makeToken spanAt
    rw [List.length_append, if_neg (by omega), hp]
    simp
  have hba : (s'.addPick info 0 (spanAt p cs)).heap.baskets 0 = s'.heap.baskets 0 ++ [⟨info, spanAt p cs⟩] := by
    unfold Scanner.addPick
    exact upd_self s'.heap.baskets 0 _
  refine ⟨n + 1, s'.addPick info 0 (spanAt p cs), ?_, h2, ?_, ?_⟩
  · simp only [read, Scanner.tokenizeUse, h1, Exec.bind_ret, Exec.pure_eq, Option.isNone_none, if_true, Option.isSome_none, Bool.false_eq_true, if_false]
    unfold Scanner.mark
    rw [ht]
    rfl
  · refine ⟨⟨h3.1.1, h3.1.2.1, ?_⟩, ?_⟩
    · intro g hg
      rw [hba] at hg
      rcases List.mem_append.mp hg with hg | hg
      · exact h3.1.2.2 g hg
      · rw [List.mem_singleton.mp hg]
        show _ ≤ s'.pos
        rw [h2.2]
        simp only [spanAt, List.length_append]
        omega
    · intro g hg
      rw [hba] at hg
      rcases List.mem_append.mp hg with hg | hg
      · exact h3.2 g hg
      · rw [List.mem_singleton.mp hg]
        simp only [spanAt]
        omega
  · rw [hba, h4, List.append_assoc]

theorem Puts.seqNil {p : Nat} {rest : List Char} : Puts rt (.seq []) p [] rest [] := by
  intro s hd hb hp hs
  exact ⟨1, s, rfl, by simpa [encText_nil] using hb, hs, by simp⟩

theorem Puts.seq {r : Reader} {rs : List Reader} {p : Nat} {cs ds rest : List Char} {l l' : List Segment}
    (h : Puts rt r p cs (ds ++ rest) l) (h' : Puts rt (.seq rs) (p + (encText cs).length) ds rest l') :
    Puts rt (.seq (r :: rs)) p (cs ++ ds) rest (l ++ l') := by
  intro s hd hb hp hs
  rw [List.append_assoc] at hb
  obtain ⟨n, s1, h1, h2, h3, h4⟩ := h s hd hb hp hs
  obtain ⟨m, s2, h5, h6, h7, h8⟩ := h' s1 _ h2 (by simp [hp]) h3
  cases m with
  | zero => cases h5
  | succ m =>
    refine ⟨max n m + 1, s2, ?_, by simpa [encText] using h6, h7, by rw [h8, h4, List.append_assoc]⟩
    have h1 := read_mono (m := max n m) (by omega) h1
    have h5 := read_mono (m := max n m + 1) (by omega) h5
    simp only [read] at h5 ⊢
    unfold seqLoop
    rw [h1]
    simp only [Exec.bind_ret]
    obtain ⟨⟨e, s3⟩, h9, h10⟩ := Exec.bind_eq_ret.mp h5
    rw [h9]
    cases e with
    | none => exact h10
    | some e => cases h10

theorem anyLoop_errs {f : Reader → ReadFunc} : ∀ (rs : List Reader) {errs : List Err} (errs' : List Err) {s s' : Scanner},
    anyLoop f rs errs s = .ret (none, s') → anyLoop f rs errs' s = .ret (none, s')
  | [], _, _, _, _, h => by cases h
  | r :: rs, errs, errs', s, s', h => by
    unfold anyLoop at h ⊢
    obtain ⟨⟨e, s1⟩, h1, h2⟩ := Exec.bind_eq_ret.mp h
    rw [h1]
    cases e with
    | none => exact h2
    | some e => exact anyLoop_errs rs _ h2

theorem Puts.any {r : Reader} {rs : List Reader} {p : Nat} {cs rest : List Char} {l : List Segment} (h : Puts rt r p cs rest l) :
    Puts rt (.any (r :: rs)) p cs rest l := by
  intro s hd hb hp hs
  obtain ⟨n, s1, h1, h2⟩ := h s hd hb hp hs
  refine ⟨n + 1, s1, ?_, h2⟩
  simp only [read, anyLoop]
  rw [h1]
  rfl

theorem Puts.anyNext {r : Reader} {rs : List Reader} {p : Nat} {cs rest : List Char} {l : List Segment} (h : Refuses rt r (cs ++ rest))
    (h' : Puts rt (.any rs) p cs rest l) : Puts rt (.any (r :: rs)) p cs rest l := by
  intro s hd hb hp hs
  obtain ⟨n, e, s1, h1, h2, h3, h4⟩ := h s hd hb hs
  obtain ⟨m, s2, h5, h6, h7, h8⟩ := h' s1 _ h2 hp h3
  cases m with
  | zero => cases h5
  | succ m =>
    refine ⟨max n m + 1, s2, ?_, h6, h7, by rw [h8, h4]⟩
    have h1 := read_mono (m := max n m) (by omega) h1
    have h5 := read_mono (m := max n m + 1) (by omega) h5
    simp only [read] at h5 ⊢
    unfold anyLoop
    rw [h1]
    simp only [Exec.bind_ret]
    obtain ⟨⟨e, s3⟩, h9, h10⟩ := Exec.bind_eq_ret.mp h5
    cases e with
    | none =>
      cases h10
      rw [anyLoop_errs rs _ h9]
      rfl
    | some e => cases h10

theorem Puts.zomNil {c : Reader} {p : Nat} {rest : List Char} (h : Refuses rt c rest) : Puts rt (.zom c) p [] rest [] := by
  intro s hd hb hp hs
  obtain ⟨n, e, s1, h1, h2, h3, h4⟩ := h s hd hb hs
  refine ⟨n + 2, s1, ?_, by simpa [encText_nil] using h2, h3, by rw [h4, List.append_nil]⟩
  have h1 := read_mono (m := n + 1) (by omega) h1
  show (zomLoop (read rt stackEnv (n + 1) c) (n + 1) s).bind _ = _
  unfold zomLoop
  rw [h1]
  rfl

theorem Puts.zom {c : Reader} {p : Nat} {cs ds rest : List Char} {l l' : List Segment}
    (h : Puts rt c p cs (ds ++ rest) l) (h' : Puts rt (.zom c) (p + (encText cs).length) ds rest l') :
    Puts rt (.zom c) p (cs ++ ds) rest (l ++ l') := by
  intro s hd hb hp hs
  rw [List.append_assoc] at hb
  obtain ⟨n, s1, h1, h2, h3, h4⟩ := h s hd hb hp hs
  obtain ⟨m, s2, h5, h6, h7, h8⟩ := h' s1 _ h2 (by simp [hp]) h3
  cases m with
  | zero => cases h5
  | succ m =>
    refine ⟨max n m + 2, s2, ?_, by simpa [encText] using h6, h7, by rw [h8, h4, List.append_assoc]⟩
    have h1 := read_mono (m := max n m + 1) (by omega) h1
    obtain ⟨s3, h9, h10⟩ := Exec.bind_eq_ret.mp (show (zomLoop (read rt stackEnv m c) m s1).bind (fun s => .ret (none, s)) = .ret (none, s2) from h5)
    have h9 := (zomLoop_le (read_le rt stackEnv m (max n m + 1) (by omega) c) m (max n m) s1 (by omega)).ret h9
    show (zomLoop (read rt stackEnv (max n m + 1) c) (max n m + 1) s).bind _ = _
    unfold zomLoop
    rw [h1]
    simp only [Exec.bind_ret]
    rw [h9]
    exact h10

theorem Puts.one {r : Reader} {rs : List Reader} {p : Nat} {cs ds rest : List Char} {l : List Segment}
    (h : Puts rt r p cs (ds ++ rest) []) (h' : Puts rt (.seq rs) (p + (encText cs).length) ds rest l) :
    Puts rt (.seq (r :: rs)) p (cs ++ ds) rest l := h.seq h'

theorem Puts.last {r : Reader} {p : Nat} {cs rest : List Char} {l : List Segment}
    (h : Puts rt r p cs rest l) : Puts rt (.seq [r]) p cs rest l := by
  have := Puts.seq (rt := rt) (ds := []) (rest := rest) h .seqNil
  simpa using this

/-- White space. -/
theorem puts_ws {p : Nat} {cs rest : List Char} (h : JsonText .ws cs) (hr : Avoid isWS rest) : Puts rt (.rule iWS) p cs rest [] :=
  puts_quiet (by decide) (by decide) ((want h).2.1 rest hr)

/-- A single rune. -/
theorem puts_rune {n : Int} (c : Char) {p : Nat} {rest : List Char} (h : (c.toNat : Int) = n)
    (hf : fineB (.rune n) = true := by decide) (hq : quietB (.rune n) = true := by decide) : Puts rt (.rune n) p [c] rest [] :=
  puts_quiet hf hq (peg_ru_yes c h)

/-- A picked rule without picks inside. -/
theorem puts_leaf {i : Nat} {nm : Bytes} {c : Reader} (hi : stackEnv[i]? = some ⟨nm, some (.pick nm 0 c)⟩) (hf : fineB c = true)
    (hq : quietB c = true) {p : Nat} {cs rest : List Char} (hcs : cs ≠ []) (h : Peg Json.env.peg (.nt i) (img (cs ++ rest)) (some (img rest))) :
    Puts rt (.rule i) p cs rest [⟨nm, spanAt p cs⟩] := by
  obtain ⟨e, he, h⟩ := Peg.nt_inv h
  rw [← stack_peg] at he
  unfold Env.peg at he
  rw [hi] at he
  have he : c.peg = e := Option.some.inj he
  subst he
  exact .rule hi (Puts.pick (l := []) hcs (puts_quiet hf hq h))

theorem postList_append (ns ms : List Node) : Node.postList (ns ++ ms) = Node.postList ns ++ Node.postList ms := by
  induction ns with
  | nil => rfl
  | cons n ns ih => simp [Node.postList, ih]

/-- The repeated parts of members and elements. -/
def moreMembers : Reader := .zom (.seq [.rune 44, .rule iMember])
def moreElements : Reader := .zom (.seq [.rune 44, .rule iElement])

/-- What is proved of the texts of each symbol. -/
def Fills (rt : Rt) : JsonSym → Nat → List Char → List Segment → Prop
  | .value, p, cs, l => ∀ rest, Avoid inNum rest → Puts rt (.rule iValue) p cs rest l
  | .object, p, cs, l => ∀ rest, Puts rt (.rule iObject) p cs rest l
  | .members, p, cs, l => ∀ rest, Puts rt (.rule iMembers) p cs ('}' :: rest) l ∧
      ∀ q, q + 1 = p → Puts rt moreMembers q (',' :: cs) ('}' :: rest) l
  | .member, p, cs, l => ∀ rest, Avoid (fun n => isWS n ∨ inNum n) rest → Puts rt (.rule iMember) p cs rest l
  | .array, p, cs, l => ∀ rest, Puts rt (.rule iArray) p cs rest l
  | .elements, p, cs, l => ∀ rest, Puts rt (.rule iElements) p cs (']' :: rest) l ∧
      ∀ q, q + 1 = p → Puts rt moreElements q (',' :: cs) (']' :: rest) l
  | .element, p, cs, l => ∀ rest, Avoid (fun n => isWS n ∨ inNum n) rest → Puts rt (.rule iElement) p cs rest l
  | _, _, _, _ => True

theorem fills_members {p : Nat} {cs : List Char} {l : List Segment} {more : List Char} {l' : List Segment} {rest : List Char}
    (h1 : Puts rt (.rule iMember) p cs (more ++ '}' :: rest) l) (h2 : Puts rt moreMembers (p + (encText cs).length) more ('}' :: rest) l') :
    Puts rt (.rule iMembers) p (cs ++ more) ('}' :: rest) (l ++ l') ∧
      ∀ q, q + 1 = p → Puts rt moreMembers q (',' :: (cs ++ more)) ('}' :: rest) (l ++ l') := by
  refine ⟨.rule (nm := b!"members") rfl (h1.seq h2.last), ?_⟩
  rintro q rfl
  have h3 : Puts rt (.seq [.rune 44, .rule iMember]) q (',' :: cs) (more ++ '}' :: rest) l :=
    Puts.one (cs := [',']) (puts_rune ',' rfl) h1.last
  refine Puts.zom (cs := ',' :: cs) h3 ?_
  rw [show q + (encText (',' :: cs)).length = q + 1 + (encText cs).length by
    rw [show (encText (',' :: cs)).length = (enc ',').length + (encText cs).length by simp [encText]]
    rw [show (enc ',').length = 1 from rfl]
    omega]
  exact h2

theorem members_end {p : Nat} {rest : List Char} : Puts rt moreMembers p [] ('}' :: rest) [] :=
  .zomNil (refuses_of_peg (by decide) (.seqNo (peg_ru_no (n := 44) (.cons (by decide)) (by decide))))

theorem fills_elements {p : Nat} {cs : List Char} {l : List Segment} {more : List Char} {l' : List Segment} {rest : List Char}
    (h1 : Puts rt (.rule iElement) p cs (more ++ ']' :: rest) l) (h2 : Puts rt moreElements (p + (encText cs).length) more (']' :: rest) l') :
    Puts rt (.rule iElements) p (cs ++ more) (']' :: rest) (l ++ l') ∧
      ∀ q, q + 1 = p → Puts rt moreElements q (',' :: (cs ++ more)) (']' :: rest) (l ++ l') := by
  refine ⟨.rule (nm := b!"elements") rfl (h1.seq h2.last), ?_⟩
  rintro q rfl
  have h3 : Puts rt (.seq [.rune 44, .rule iElement]) q (',' :: cs) (more ++ ']' :: rest) l :=
    Puts.one (cs := [',']) (puts_rune ',' rfl) h1.last
  refine Puts.zom (cs := ',' :: cs) h3 ?_
  rw [show q + (encText (',' :: cs)).length = q + 1 + (encText cs).length by
    rw [show (encText (',' :: cs)).length = (enc ',').length + (encText cs).length by simp [encText]]
    rw [show (enc ',').length = 1 from rfl]
    omega]
  exact h2

theorem elements_end {p : Nat} {rest : List Char} : Puts rt moreElements p [] (']' :: rest) [] :=
  .zomNil (refuses_of_peg (by decide) (.seqNo (peg_ru_no (n := 44) (.cons (by decide)) (by decide))))

theorem ne_of_head {p : Nat → Prop} {cs : List Char} (h : Head p cs) : cs ≠ [] := by
  obtain ⟨c, cs', rfl, _⟩ := h
  simp

theorem leaf_post (nm : Bytes) (p : Nat) (cs : List Char) : Node.postList [leafAt nm p cs] = [⟨nm, spanAt p cs⟩] := rfl

theorem object_of {p : Nat} {cs rest : List Char} {l : List Segment}
    (h : Puts rt (.any [.rule iMembers, .rule iWS]) (p + 1) cs ('}' :: rest) l) :
    Puts rt (.rule iObject) p ('{' :: (cs ++ ['}'])) rest (l ++ [⟨b!"object", spanAt p ('{' :: (cs ++ ['}']))⟩]) := by
  refine .rule (nm := b!"object") rfl (.pick (by simp) ?_)
  refine Puts.one (cs := ['{']) (puts_rune '{' rfl) ?_
  have := Puts.seq (rt := rt) (p := p + 1) (cs := cs) (ds := ['}']) (rest := rest) h (Puts.last (puts_rune '}' rfl))
  rw [List.append_nil] at this
  exact this

theorem array_of {p : Nat} {cs rest : List Char} {l : List Segment}
    (h : Puts rt (.any [.rule iElements, .rule iWS]) (p + 1) cs (']' :: rest) l) :
    Puts rt (.rule iArray) p ('[' :: (cs ++ [']'])) rest (l ++ [⟨b!"array", spanAt p ('[' :: (cs ++ [']']))⟩]) := by
  refine .rule (nm := b!"array") rfl (.pick (by simp) ?_)
  refine Puts.one (cs := ['[']) (puts_rune '[' rfl) ?_
  have := Puts.seq (rt := rt) (p := p + 1) (cs := cs) (ds := [']']) (rest := rest) h (Puts.last (puts_rune ']' rfl))
  rw [List.append_nil] at this
  exact this

theorem fills {A : JsonSym} {p : Nat} {cs : List Char} {ns : List Node} (h : JsonTree A p cs ns) : Fills rt A p cs (Node.postList ns) := by
  have no := fun (i : Nat) (hf : fineB (.rule i) = true) (cs : List Char) (h : Peg Json.env.peg (.nt i) (img cs) none) =>
    refuses_of_peg (rt := rt) (r := .rule i) hf h
  induction h with
  | @value_object p cs ns h ih =>
    exact fun rest _ => .rule (nm := b!"value") rfl (.any (ih rest))
  | @value_array p cs ns h ih =>
    have hh := (want h.text).1
    exact fun rest _ => .rule (nm := b!"value") rfl (.anyNext (no 1 (by decide) _ (object_no (hh.append.avoid fun n h => by omega))) (.any (ih rest)))
  | @value_string p cs h =>
    have hh := (want h).1
    refine fun rest _ => .rule (nm := b!"value") rfl (.anyNext (no 1 (by decide) _ (object_no (hh.append.avoid fun n h => by omega)))
      (.anyNext (no 5 (by decide) _ (array_no (hh.append.avoid fun n h => by omega))) (.any ?_)))
    exact puts_leaf (nm := b!"string") (c := stringReader) rfl (by decide) (by decide) (ne_of_head hh) ((want h).2.1 rest trivial)
  | @value_number p cs h =>
    have hh := (want h).1
    refine fun rest hr => .rule (nm := b!"value") rfl (.anyNext (no 1 (by decide) _ (object_no (hh.append.avoid ?_)))
      (.anyNext (no 5 (by decide) _ (array_no (hh.append.avoid ?_))) (.anyNext (no 8 (by decide) _ (string_no (hh.append.avoid ?_))) (.any ?_))))
    · intro n h; unfold isDigit at h; omega
    · intro n h; unfold isDigit at h; omega
    · intro n h; unfold isDigit at h; omega
    exact puts_leaf (nm := b!"number") (c := .seq [.rule 14, .rule 15, .rule 16]) rfl (by decide) (by decide) (ne_of_head hh) ((want h).2 rest hr)
  | @value_true p =>
    refine fun rest hr => .rule (nm := b!"value") rfl (.anyNext (no 1 (by decide) _ (object_no (.cons (by decide))))
      (.anyNext (no 5 (by decide) _ (array_no (.cons (by decide)))) (.anyNext (no 8 (by decide) _ (string_no (.cons (by decide))))
      (.anyNext (no 13 (by decide) _ (number_no (.cons (by unfold isDigit; decide)))) (.any ?_)))))
    refine puts_leaf (nm := b!"bool") (c := .any [.lit b!"true", .lit b!"false"]) rfl (by decide) (by decide) (by simp) ?_
    exact .nt (e := choice [litExp (encText ['t', 'r', 'u', 'e']), litExp (encText ['f', 'a', 'l', 's', 'e'])]) rfl (.alt (peg_lit_yes _))
  | @value_false p =>
    refine fun rest hr => .rule (nm := b!"value") rfl (.anyNext (no 1 (by decide) _ (object_no (.cons (by decide))))
      (.anyNext (no 5 (by decide) _ (array_no (.cons (by decide)))) (.anyNext (no 8 (by decide) _ (string_no (.cons (by decide))))
      (.anyNext (no 13 (by decide) _ (number_no (.cons (by unfold isDigit; decide)))) (.any ?_)))))
    refine puts_leaf (nm := b!"bool") (c := .any [.lit b!"true", .lit b!"false"]) rfl (by decide) (by decide) (by simp) ?_
    exact .nt (e := choice [litExp (encText ['t', 'r', 'u', 'e']), litExp (encText ['f', 'a', 'l', 's', 'e'])]) rfl
      (.altNo (peg_lit_no 't' (.cons (by decide))) (.alt (peg_lit_yes _)))
  | @value_null p =>
    refine fun rest hr => .rule (nm := b!"value") rfl (.anyNext (no 1 (by decide) _ (object_no (.cons (by decide))))
      (.anyNext (no 5 (by decide) _ (array_no (.cons (by decide)))) (.anyNext (no 8 (by decide) _ (string_no (.cons (by decide))))
      (.anyNext (no 13 (by decide) _ (number_no (.cons (by unfold isDigit; decide)))) (.anyNext (no 21 (by decide) _ (bool_no (.cons (by decide)))) (.any ?_))))))
    refine puts_leaf (nm := b!"null") (c := .lit b!"null") rfl (by decide) (by decide) (by simp) ?_
    exact .nt (e := litExp (encText ['n', 'u', 'l', 'l'])) rfl (peg_lit_yes _)
  | @object_ws p cs h =>
    refine fun rest => object_of (l := []) (.anyNext (no 2 (by decide) _ ?_) (.any (puts_ws h (.cons (by unfold isWS; decide)))))
    exact .nt (e := chain [.nt 3, .star (chain [cls (fun r => r = 44), .nt 3])]) rfl
      (.seqNo (member_no (want h) (.cons (by unfold isWS; decide))))
  | @object_members p cs ns h ih => 
    intro rest
    have := object_of (.any (rs := [.rule iWS]) (ih rest).1)
    simpa [Node.postList, Node.post] using this
  | @members_one p cs ns h ih =>
    intro rest
    have := fills_members (more := []) (ih ('}' :: rest) (.cons (by unfold isWS inNum isDigit; decide))) members_end
    simpa using this
  | @members_more p cs ds ns ms h h' ih1 ih2 =>
    intro rest
    rw [postList_append]
    exact fills_members (ih1 (',' :: (ds ++ '}' :: rest)) (.cons (by unfold isWS inNum isDigit; decide))) ((ih2 rest).2 _ rfl)
  | @member p us cs vs ds ns h1 h2 h3 h4 ih =>
    intro rest hr
    have hs := want h2
    refine .rule (nm := b!"member") rfl ?_
    refine Puts.one (ds := cs ++ (vs ++ ':' :: ds)) (puts_ws h1 ?_) ?_
    · rw [List.append_assoc]
      refine hs.1.append.avoid ?_
      rintro n rfl
      unfold isWS; omega
    refine Puts.seq (l := [⟨b!"key", spanAt (p + (encText us).length) cs⟩]) (ds := vs ++ ':' :: ds)
      (puts_leaf (nm := b!"key") (c := stringReader) rfl (by decide) (by decide) (ne_of_head hs.1) (hs.2.2 _ trivial)) ?_
    refine Puts.one (ds := ':' :: ds) (puts_ws h3 (.cons (by unfold isWS; decide))) ?_
    exact Puts.one (cs := [':']) (puts_rune ':' rfl) (ih rest hr).last
  | @array_ws p cs h =>
    refine fun rest => array_of (l := []) (.anyNext (no 6 (by decide) _ ?_) (.any (puts_ws h (.cons (by unfold isWS; decide)))))
    exact .nt (e := chain [.nt 7, .star (chain [cls (fun r => r = 44), .nt 7])]) rfl
      (.seqNo (element_no (want h) (.cons (by unfold isWS isHead isDigit; decide))))
  | @array_elements p cs ns h ih => 
    intro rest
    have := array_of (.any (rs := [.rule iWS]) (ih rest).1)
    simpa [Node.postList, Node.post] using this
  | @elements_one p cs ns h ih =>
    intro rest
    have := fills_elements (more := []) (ih (']' :: rest) (.cons (by unfold isWS inNum isDigit; decide))) elements_end
    simpa using this
  | @elements_more p cs ds ns ms h h' ih1 ih2 =>
    intro rest
    rw [postList_append]
    exact fills_elements (ih1 (',' :: (ds ++ ']' :: rest)) (.cons (by unfold isWS inNum isDigit; decide))) ((ih2 rest).2 _ rfl)
  | @element p us cs vs ns h1 h2 h3 ih =>
    intro rest hr
    refine .rule (nm := b!"element") rfl ?_
    refine Puts.one (ds := cs ++ vs) (puts_ws h1 ?_) ?_
    · rw [List.append_assoc]
      refine (want h2.text).1.append.avoid ?_
      intro n; unfold isHead isWS isDigit; omega
    have := Puts.seq (rt := rt) (ds := vs) (rest := rest) (ih _ (.append (want h3).1 ?_ (hr.imp fun n h => .inr h)))
      (puts_ws h3 (hr.imp fun n h => .inl h)).last
    · simpa using this
    · intro n; unfold inNum isWS isDigit; omega

end

/-! ### the nodes form a tree -/

/-- The nodes lie in the text from `p` to `q`, one behind the other, and no two have the same token. -/
structure Row (p q : Int) (ns : List Node) : Prop where
  tree : ∀ n ∈ ns, Tree n
  within : ∀ g ∈ Node.allList ns, p ≤ g.tok.frm ∧ g.tok.frm < g.tok.to ∧ g.tok.to ≤ q
  apart : ns.Pairwise (fun a b => Apart a.tok b.tok)
  distinct : Distinct (Node.allList ns)

theorem allList_append (ns ms : List Node) : Node.allList (ns ++ ms) = Node.allList ns ++ Node.allList ms := by
  induction ns with
  | nil => rfl
  | cons n ns ih => simp [Node.allList, ih]

theorem mem_allList {n : Node} {ns : List Node} (h : n ∈ ns) : n.seg ∈ Node.allList ns := by
  induction ns with
  | nil => cases h
  | cons m ns ih =>
    rcases List.mem_cons.mp h with rfl | h
    · obtain ⟨s, ms⟩ := n
      simp [Node.allList, Node.all, Node.seg]
    · simp [Node.allList, ih h]

theorem Row.nil {p q : Int} : Row p q [] := ⟨by simp, by simp [Node.allList], .nil, .nil⟩

theorem Row.wide {p q p' q' : Int} {ns : List Node} (h : Row p q ns) (hp : p' ≤ p) (hq : q ≤ q') : Row p' q' ns :=
  ⟨h.tree, fun g hg => by have := h.within g hg; omega, h.apart, h.distinct⟩

theorem Row.append {p q p' q' : Int} {ns ms : List Node} (h : Row p q ns) (h' : Row p' q' ms) (hq : q ≤ p') (h1 : p ≤ p') (h2 : q ≤ q') :
    Row p q' (ns ++ ms) := by
  refine ⟨fun n hn => (List.mem_append.mp hn).elim (h.tree n) (h'.tree n), ?_, ?_, ?_⟩
  · intro g hg
    rw [allList_append] at hg
    rcases List.mem_append.mp hg with hg | hg
    · have := h.within g hg; omega
    · have := h'.within g hg; omega
  · rw [List.pairwise_append]
    refine ⟨h.apart, h'.apart, fun a ha b hb => ?_⟩
    have h3 := h.within _ (mem_allList ha)
    have h4 := h'.within _ (mem_allList hb)
    unfold Node.seg at h3 h4
    unfold Apart Token.covers Node.tok Node.seg
    simp only [Bool.and_eq_false_iff, decide_eq_false_iff_not]
    omega
  · unfold Distinct
    rw [allList_append, List.pairwise_append]
    refine ⟨h.distinct, h'.distinct, fun a ha b hb he => ?_⟩
    have h3 := h.within a ha
    have h4 := h'.within b hb
    rw [he] at h3
    omega

theorem Row.up {p q p' q' : Int} {ns : List Node} {nm : Bytes} (h : Row p' q' ns) (hp : p < p') (hq : q' ≤ q) (hpq : p < q) :
    Row p q [.mk ⟨nm, ⟨p, q⟩⟩ ns] := by
  have hall : Node.allList [.mk ⟨nm, ⟨p, q⟩⟩ ns] = ⟨nm, ⟨p, q⟩⟩ :: Node.allList ns := by simp [Node.allList, Node.all]
  refine ⟨?_, ?_, by simp, ?_⟩
  · intro n hn
    rw [List.mem_singleton] at hn
    subst hn
    refine .mk (Int.le_of_lt hpq) h.tree (fun n hn => ?_) h.apart
    have := h.within _ (mem_allList hn)
    unfold Token.covers Node.tok
    simp only [Bool.and_eq_true, decide_eq_true_eq]
    omega
  · intro g hg
    rw [hall] at hg
    rcases List.mem_cons.mp hg with rfl | hg
    · simp only; omega
    · have := h.within g hg; omega
  · unfold Distinct
    rw [hall, List.pairwise_cons]
    refine ⟨fun g hg he => ?_, h.distinct⟩
    have := h.within g hg
    rw [← he] at this
    simp only at this
    omega

theorem enc_len_append (cs ds : List Char) : (encText (cs ++ ds)).length = (encText cs).length + (encText ds).length := by
  simp [encText]

theorem enc_len_cons (c : Char) (ds : List Char) : (encText (c :: ds)).length = (enc c).length + (encText ds).length := by
  simp [encText]

theorem enc_len_pos {cs : List Char} (h : cs ≠ []) : 0 < (encText cs).length := by
  cases cs with
  | nil => exact absurd rfl h
  | cons c cs =>
    have := enc_length_pos c
    rw [enc_len_cons]
    omega

theorem row_leaf {nm : Bytes} {p : Nat} {cs : List Char} (h : cs ≠ []) : Row p (p + (encText cs).length) [leafAt nm p cs] := by
  have := enc_len_pos h
  refine ⟨?_, ?_, by simp, by simp [Distinct, leafAt, Node.allList, Node.all]⟩
  · intro n hn
    rw [List.mem_singleton.mp hn]
    exact .mk (by simp only [Token.Ordered, spanAt]; omega) (by simp) (by simp) .nil
  · intro g hg
    simp only [leafAt, Node.allList, Node.all, List.append_nil, List.mem_singleton] at hg
    subst hg
    simp only [spanAt]
    omega

theorem row {A : JsonSym} {p : Nat} {cs : List Char} {ns : List Node} (h : JsonTree A p cs ns) : Row p (p + (encText cs).length) ns := by
  induction h with
  | value_object _ ih => exact ih
  | value_array _ ih => exact ih
  | value_string h => exact row_leaf (ne_of_head (want h).1)
  | value_number h => exact row_leaf (ne_of_head (want h).1)
  | value_true => exact row_leaf (by simp)
  | value_false => exact row_leaf (by simp)
  | value_null => exact row_leaf (by simp)
  | object_ws h => exact row_leaf (by simp)
  | @object_members p cs ns h ih =>
    have hs : spanAt p ('{' :: (cs ++ ['}'])) = ⟨(p : Int), (p : Int) + (encText ('{' :: (cs ++ ['}']))).length⟩ := rfl
    rw [hs, enc_len_cons, enc_len_append, show (enc '{').length = 1 from rfl, show (encText ['}']).length = 1 from rfl]
    exact Row.up ih (by omega) (by omega) (by omega)
  | members_one _ ih => exact ih
  | members_more h h' ih1 ih2 =>
    rw [enc_len_append, enc_len_cons, show (enc ',').length = 1 from rfl]
    exact (ih1.append ih2 (by omega) (by omega) (by omega)).wide (by omega) (by omega)
  | @member p us cs vs ds ns h1 h2 h3 h4 ih =>
    rw [enc_len_append, enc_len_append, enc_len_append, enc_len_cons, show (enc ':').length = 1 from rfl]
    exact ((row_leaf (p := p + (encText us).length) (ne_of_head (want h2).1)).append ih (by omega) (by omega) (by omega)).wide (by omega) (by omega)
  | array_ws h => exact row_leaf (by simp)
  | @array_elements p cs ns h ih =>
    have hs : spanAt p ('[' :: (cs ++ [']'])) = ⟨(p : Int), (p : Int) + (encText ('[' :: (cs ++ [']']))).length⟩ := rfl
    rw [hs, enc_len_cons, enc_len_append, show (enc '[').length = 1 from rfl, show (encText [']']).length = 1 from rfl]
    exact Row.up ih (by omega) (by omega) (by omega)
  | elements_one _ ih => exact ih
  | elements_more h h' ih1 ih2 =>
    rw [enc_len_append, enc_len_cons, show (enc ',').length = 1 from rfl]
    exact (ih1.append ih2 (by omega) (by omega) (by omega)).wide (by omega) (by omega)
  | element h1 h2 h3 ih =>
    rw [enc_len_append, enc_len_append]
    exact ih.wide (by omega) (by omega)

theorem one_node {A : JsonSym} {p : Nat} {cs : List Char} {ns : List Node} (h : JsonTree A p cs ns) :
    (A = .value ∨ A = .object ∨ A = .array ∨ A = .element) → ∃ n, ns = [n] := by
  induction h with
  | value_object _ ih => exact fun _ => ih (by simp)
  | value_array _ ih => exact fun _ => ih (by simp)
  | element _ _ _ ih => exact fun _ => ih (by simp)
  | members_one => simp
  | members_more => simp
  | member => simp
  | elements_one => simp
  | elements_more => simp
  | _ => exact fun _ => ⟨_, rfl⟩

mutual
theorem post_perm : ∀ n : Node, n.post.Perm n.all
  | .mk s ns => by
    rw [Node.post, Node.all]
    exact (List.perm_append_singleton s _).trans ((postList_perm ns).cons s)
theorem postList_perm : ∀ ns : List Node, (Node.postList ns).Perm (Node.allList ns)
  | [] => .nil
  | n :: ns => by
    rw [Node.postList, Node.allList]
    exact (post_perm n).append (postList_perm ns)
end

theorem stack_tracked : stackEnv.Every (Reader.tracked stackEnv 0) := stack_solid.imp fun _ h => tracked_of_B h.1

/-- The tree of a document is what `BuildGraph` makes of its segments. -/
theorem graph_of {p q : Int} {n : Node} (h : Row p q [n]) (name : Bytes) (segs : List Segment) (hs : segs.Perm n.all)
    (hc : segs.Pairwise (fun a c => c.tok.clashes a.tok = false)) :
    ∃ N, ∀ fuel, N ≤ fuel → Graph.build fuel name segs = .ret ⟨.mk ⟨name, n.tok⟩ [n]⟩ := by
  have hall : Node.allList [n] = n.all := by simp [Node.allList]
  have hin : ∀ x ∈ segs, x.tok.frm < x.tok.to := fun x hx => (h.within x (by rw [hall]; exact hs.mem_iff.mp hx)).2.1
  obtain ⟨g, N, h1, h2⟩ := buildLoop_all name segs [] _ .new (fun x hx => Int.le_of_lt (hin x hx)) (by simp) hc
  rw [List.append_nil] at h1
  refine ⟨N, fun fuel hf => ?_⟩
  rw [show Graph.build fuel name segs = .ret g from h2 fuel hf]
  have hT : Tree n := h.tree n List.mem_cons_self
  have hself : n.seg ∈ segs := hs.mem_iff.mpr (by rw [← hall]; exact mem_allList List.mem_cons_self)
  obtain ⟨r1, r2, r3⟩ := C29_root name _ g h1
  have hperm : g.root.under.Perm segs := (C30_segments name _ g h1).trans (List.reverse_perm _)
  have htok : g.root.tok = n.tok := by
    apply C24_covers_partialOrder.2.1
    · exact r2 n.seg (List.mem_reverse.mpr hself)
    · refine r3 (by intro e; rw [List.reverse_eq_nil_iff] at e; rw [e] at hself; cases hself) _ fun s hs' => ?_
      exact (hT.covers_all s (hs.mem_iff.mp (List.mem_reverse.mp hs'))).1
  have hE : Tree (.mk ⟨name, n.tok⟩ [n]) := .mk hT.ordered (by simpa using hT) (by simpa using C24_covers_partialOrder.1 n.tok) (by simp)
  have hu : (Node.mk ⟨name, n.tok⟩ [n]).under = n.all := hall
  have := tree_unique hE g.root (C29_tree name _ g h1) ?_ ?_ ?_ ?_
  · cases g
    simp only at this
    rw [this]
  · show (⟨name, n.tok⟩ : Segment) = g.root.seg
    have e2 : g.root.seg.tok = n.tok := htok
    cases hg : g.root.seg
    rw [hg] at e2 r1
    simp only at e2 r1
    rw [e2, r1]
  · rw [hu]
    exact hs.symm.trans hperm.symm
  · rw [hu]
    exact fun x hx => hin x (hs.mem_iff.mpr hx)
  · rw [hu, ← hall]
    exact h.distinct

end Json

/-- Reading a JSON document, also one followed by something that cannot continue it, puts the segments of its tree into the basket, every node
after those below it. -/
theorem C56_basket (rt : Rt) (cs ds : List Char) (ns : List Node) (ht : JsonTree .element 0 cs ns)
    (hf : ∀ c ds', ds = c :: ds' → c ∉ [' ', '\n', '\r', '\t', '.', 'e', 'E', '0', '1', '2', '3', '4', '5', '6', '7', '8', '9']) :
    ∃ n s', (∀ fuel, n ≤ fuel → read rt Json.stackEnv fuel Json.reader ((Scanner.new (encText (cs ++ ds)) Heap.empty).newBasket 0) = .ret (none, s')) ∧
      Between s' (encText cs) (encText ds) ∧ s'.heap.baskets 0 = Node.postList ns ∧ History rt Json.stackEnv 0 s' := by
  have hs : Solid 0 ((Scanner.new (encText (cs ++ ds)) Heap.empty).newBasket 0) :=
    ⟨(Follows.start (new_inside _ _) 0).toCoupled, by simp [Scanner.newBasket, upd]⟩
  obtain ⟨k, s', h1, h2, h3, h4⟩ := Json.fills (rt := rt) ht ds (Json.avoid_of_notin hf) _ [] ⟨rfl, rfl⟩ rfl hs
  have hr : read rt Json.stackEnv (k + 1) Json.reader ((Scanner.new (encText (cs ++ ds)) Heap.empty).newBasket 0) = .ret (none, s') := by
    show (read rt Json.stackEnv k (.rule Json.iElement) _).bind _ = _
    rw [h1]
    rfl
  exact ⟨k + 1, s', fun fuel hf => read_mono hf hr, by simpa using h2, h4, .read k (.rule Json.iElement) _ _ s' (.start _ (new_inside _ _))
    (.mk (r := .rule _) trivial (by simp [Reader.subs])) h1⟩

/-- The same for the whole program. -/
theorem C56_followed (rt : Rt) (filename : Bytes) (cs ds : List Char) (m : Node) (hm : JsonTree .element 0 cs [m])
    (hf : ∀ c ds', ds = c :: ds' → c ∉ [' ', '\n', '\r', '\t', '.', 'e', 'E', '0', '1', '2', '3', '4', '5', '6', '7', '8', '9']) :
    ∃ N, ∀ fuel, N ≤ fuel → jsonStack rt fuel filename (encText (cs ++ ds)) =
      .ret (some ((Node.paths [] 1 (.mk ⟨filename, m.tok⟩ [m])).map pathLine).flatten) := by
  obtain ⟨k, s', h1, h2, h4, h3⟩ := C56_basket rt cs ds [m] hm hf
  have hap := C42_apart_partial rt _ 0 Json.stack_tracked s' h3
  rw [h4] at hap
  obtain ⟨N, h5⟩ := Json.graph_of (Json.row hm) filename _ (by simpa [Node.postList] using Json.post_perm m) (hap.imp fun h => h.2)
  refine ⟨max N k, fun fuel hfu => ?_⟩
  unfold jsonStack printStack Scanner.use
  simp only [h1 fuel (by omega), Exec.bind_ret, Option.isSome_none, Bool.false_eq_true, if_false, Exec.pure_eq, h4]
  rw [h5 fuel (by omega)]
  show Exec.ret (some (Graph.flameStack _)) = _
  rw [C30_paths]

/-- Every JSON document, every file name: the tree of the document is a single node, and the program prints exactly the paths of the tree that has this
node below a root with the name of the file and the token of the node. -/
theorem C56_stack (rt : Rt) (filename : Bytes) (cs : List Char) (hd : JsonDoc cs) :
    ∃ n, JsonTree .element 0 cs [n] ∧ ∀ m, JsonTree .element 0 cs [m] → ∃ N, ∀ fuel, N ≤ fuel →
      jsonStack rt fuel filename (encText cs) = .ret (some ((Node.paths [] 1 (.mk ⟨filename, m.tok⟩ [m])).map pathLine).flatten) := by
  obtain ⟨ns, hns⟩ := JsonText.tree hd rfl 0
  obtain ⟨n, rfl⟩ := Json.one_node hns (by simp)
  refine ⟨n, hns, fun m hm => ?_⟩
  have := C56_followed rt filename cs [] m hm (by simp)
  rwa [List.append_nil] at this

/-- So a document has one tree. -/
theorem C56_unique (cs : List Char) (m m' : Node) (h : JsonTree .element 0 cs [m]) (h' : JsonTree .element 0 cs [m']) : m = m' := by
  obtain ⟨k, s1, h1, _, h2, h3⟩ := C56_basket exRt cs [] [m] h (by simp)
  obtain ⟨k', s2, h1', _, h2', _⟩ := C56_basket exRt cs [] [m'] h' (by simp)
  have e := (h1 (max k k') (by omega)).symm.trans (h1' (max k k') (by omega))
  simp only [Exec.ret.injEq, Prod.mk.injEq, true_and] at e
  subst e
  have hap := C42_apart_partial exRt _ 0 Json.stack_tracked s1 h3
  obtain ⟨N, h5⟩ := Json.graph_of (Json.row h) [] (s1.heap.baskets 0) (by rw [h2]; simpa [Node.postList] using Json.post_perm m) (hap.imp fun h => h.2)
  obtain ⟨N', h5'⟩ := Json.graph_of (Json.row h') [] (s1.heap.baskets 0) (by rw [h2']; simpa [Node.postList] using Json.post_perm m') (hap.imp fun h => h.2)
  have := (h5 (max N N') (by omega)).symm.trans (h5' (max N N') (by omega))
  simp only [Exec.ret.injEq, Graph.mk.injEq, Node.mk.injEq, List.cons.injEq, and_true] at this
  exact this.2

/-- The tree and the output for `{"a": [1]}`. -/
theorem Json.exTree : JsonTree .element 0 "{\"a\": [1]}".toList
    [.mk ⟨b!"object", ⟨0, 10⟩⟩ [.mk ⟨b!"key", ⟨1, 4⟩⟩ [], .mk ⟨b!"array", ⟨6, 9⟩⟩ [.mk ⟨b!"number", ⟨7, 8⟩⟩ []]]] := by
  have h1 : JsonTree .element 7 ['1'] [.mk ⟨b!"number", ⟨7, 8⟩⟩ []] :=
    .element (us := []) (vs := []) .ws_none (.value_number (cs := ['1']) (.number (is := ['1']) (fs := []) (es := [])
      (.integer_digit (.digit_onenine (.onenine (c := '1') (by decide) (by decide)))) .fraction_none .exponent_none)) .ws_none
  have h2 : JsonTree .element 5 [' ', '[', '1', ']'] [.mk ⟨b!"array", ⟨6, 9⟩⟩ [.mk ⟨b!"number", ⟨7, 8⟩⟩ []]] :=
    .element (us := [' ']) (cs := ['[', '1', ']']) (vs := []) (.ws_space .ws_none) (.value_array (.array_elements (cs := ['1']) (.elements_one h1))) .ws_none
  have h3 := JsonTree.member (p := 1) (us := []) (cs := ['"', 'a', '"']) (vs := []) .ws_none
    (.string (cs := ['a']) (.characters_more (cs := ['a']) (ds := []) (.character_plain (c := 'a') (by decide) (by decide) (by decide) (by decide)) .characters_none)) .ws_none h2
  exact .element (us := []) (vs := []) .ws_none (.value_object (.object_members (cs := ['"', 'a', '"', ':', ' ', '[', '1', ']']) (.members_one h3))) .ws_none

example (rt : Rt) : ∃ N, ∀ fuel, N ≤ fuel → jsonStack rt fuel b!"f" b!"{\"a\": [1]}" = .ret (some
    b!"1.f[0-10) 10\n1.f[0-10);1.object[0-10) 10\n1.f[0-10);1.object[0-10);1.key[1-4) 3\n1.f[0-10);1.object[0-10);2.array[6-9) 3\n1.f[0-10);1.object[0-10);2.array[6-9);1.number[7-8) 1\n") :=
  C56_followed rt b!"f" _ [] _ Json.exTree (by simp)

end Tok
