/-
Where the errors are: the text between the start of a read and the position of its error is the beginning
of a text of the reader.
-/
import Verif.Props.C47
import Verif.Props.C37
import Verif.Proofs.Place
import Verif.Proofs.Frame

namespace Tok
open Spec PExp

/-- `x` is the beginning of a string that the expression may take. -/
def Spec.PExp.front (M : Nat → List Char → Prop) (e : PExp Piece) (x : List Char) : Prop := ∃ y, e.clang M (x ++ y)

/-- What is needed at every reader: it has an expression, there is no `At`, and `RuleName` only around readers that go back. -/
def Reader.ahead : Reader → Prop
  | .at_ _ => False
  | .ruleName c => c.keepsB = true
  | .bool _ _ => False
  | _ => True

section
variable {rt : Rt} {G : Env} {M : Nat → List Char → Prop}

/-- A failing read names a position up to which the text is the beginning of a text of the reader. -/
def Fronts (M : Nat → List Char → Prop) (e : PExp Piece) (f : ReadFunc) : Prop :=
  ∀ s h cs, Between s h (encText cs) → ∀ m w s', f s = .ret (some (.read m w), s') →
    ∃ x z, cs = x ++ z ∧ m = ((h ++ encText x).length : Int) ∧ e.front M x

/-- A successful read takes a text of the reader. -/
def Backs (M : Nat → List Char → Prop) (e : PExp Piece) (f : ReadFunc) : Prop :=
  ∀ s h cs, Between s h (encText cs) → ∀ s', f s = .ret (none, s') →
    ∃ x z, cs = x ++ z ∧ Between s' (h ++ encText x) (encText z) ∧ e.clang M x

/-- For every grammar, not only the one of C47. -/
theorem read_backs (hG : G.Every (Reader.pegOk true)) (hK : G.keeps) (hM : ∀ i e, G.peg i = some e → ∀ cs, e.clang M cs → M i cs)
    (n : Nat) (r : Reader) (hr : r.Every (Reader.pegOk true)) : Backs M r.peg (read rt G n r) := by
  intro s h cs hb s' hrd
  obtain ⟨⟨ok, st'⟩, h5, h6, h7⟩ := (read_eat rt G (hG.imp fun _ h => h.noWrap) n r (hr.imp fun _ h => h.noWrap)
    s.full s _ (sees_between hb)).left hrd
  obtain ⟨x, h1, h2⟩ := between_sees hb h7 (eat_shrinks rt G n _ _ _ h5)
  obtain ⟨ys, hq⟩ := Pieces.exists st'.rest
  have hpeg := (C34_success_partial (srch := true) rt G hG hK r hr s h _ hb _ (pieces_encText cs) (fun _ => ⟨cs, rfl⟩) ys).mpr
    ⟨n, s', x, _, hrd, h1, h2, hq⟩
  obtain ⟨zs, h4, h3⟩ := Peg.clang hM hpeg
  obtain ⟨ds, es, rfl, rfl, rfl⟩ := List.map_eq_append_iff.mp h4
  have h8 := pieces_chars hq
  rw [h8] at h1 h2
  rw [encText_append] at h1
  have h6 := (List.append_cancel_right h1).symm
  subst h6
  exact ⟨ds, es, rfl, h2, h3 ds (Runs.img ds)⟩

theorem Fronts.start {e : PExp Piece} {f : ReadFunc} (hp : ∃ y, e.clang M y) (h : ∀ s, Inside s → ∀ m w s', f s = .ret (some (.read m w), s') → m = s.pos) :
    Fronts M e f := by
  intro s h' cs hb m w s' hr
  refine ⟨[], cs, rfl, ?_, hp⟩
  rw [h s hb.inside m w s' hr, hb.2]
  simp [encText]

/-- One after the other. -/
theorem chain_fronts {rd : Reader → ReadFunc} : ∀ {rs : List Reader}, (∀ r ∈ rs, Fronts M r.peg (rd r)) → (∀ r ∈ rs, Backs M r.peg (rd r)) →
    (∀ r ∈ rs, ∃ y, r.peg.clang M y) → Fronts M (chain (Reader.pegs rs)) (seqLoop rd rs)
  | [], _, _, _, _, _, _, _, _, _, _, h => by cases h
  | r :: rs, hf, hb, hp, s, h, cs, hbt, m, w, s', hr => by
    have rest : ∃ y, (chain (Reader.pegs rs)).clang M y := by
      clear hr hf hb
      have hp : ∀ c ∈ rs, ∃ y, c.peg.clang M y := fun c hc => hp c (List.mem_cons_of_mem _ hc)
      clear * - hp
      induction rs with
      | nil => exact ⟨[], rfl⟩
      | cons c rs ih =>
        obtain ⟨u, hu⟩ := hp c List.mem_cons_self
        obtain ⟨v, hv⟩ := ih fun d hd => hp d (List.mem_cons_of_mem _ hd)
        exact ⟨u ++ v, u, v, rfl, hu, hv⟩
    unfold seqLoop at hr
    obtain ⟨⟨e, s1⟩, h1, h2⟩ := Exec.bind_eq_ret.mp hr
    cases e with
    | some e =>
      cases h2
      obtain ⟨x, z, e1, e2, y, hy⟩ := hf r List.mem_cons_self s h cs hbt m w _ h1
      obtain ⟨v, hv⟩ := rest
      exact ⟨x, z, e1, e2, y ++ v, x ++ y, v, (List.append_assoc _ _ _).symm, hy, hv⟩
    | none =>
      obtain ⟨x, z, rfl, e2, e3⟩ := hb r List.mem_cons_self s h cs hbt s1 h1
      obtain ⟨x', z', rfl, e4, y, hy⟩ := chain_fronts (fun c hc => hf c (List.mem_cons_of_mem _ hc)) (fun c hc => hb c (List.mem_cons_of_mem _ hc))
        (fun c hc => hp c (List.mem_cons_of_mem _ hc)) s1 _ z e2 m w s' h2
      refine ⟨x ++ x', z', (List.append_assoc _ _ _).symm, ?_, y, x, x' ++ y, List.append_assoc _ _ _, e3, hy⟩
      rw [e4, encText_append, List.append_assoc]

theorem times_fronts {f : ReadFunc} {e : PExp Piece} (hf : Fronts M e f) (hb : Backs M e f) (hp : ∃ y, e.clang M y) :
    ∀ k, Fronts M (PExp.times e k) (timesLoop f k)
  | 0, _, _, _, _, _, _, _, h => by cases h
  | k + 1, s, h, cs, hbt, m, w, s', hr => by
    have rest : ∃ y, (PExp.times e k).clang M y := by
      clear hr
      induction k with
      | zero => exact ⟨[], rfl⟩
      | succ k ih =>
        obtain ⟨u, hu⟩ := hp
        obtain ⟨v, hv⟩ := ih
        exact ⟨u ++ v, u, v, rfl, hu, hv⟩
    unfold timesLoop at hr
    obtain ⟨⟨e', s1⟩, h1, h2⟩ := Exec.bind_eq_ret.mp hr
    cases e' with
    | some e' =>
      cases h2
      obtain ⟨x, z, e1, e2, y, hy⟩ := hf s h cs hbt m w _ h1
      obtain ⟨v, hv⟩ := rest
      exact ⟨x, z, e1, e2, y ++ v, x ++ y, v, (List.append_assoc _ _ _).symm, hy, hv⟩
    | none =>
      obtain ⟨x, z, rfl, e2, e3⟩ := hb s h cs hbt s1 h1
      obtain ⟨x', z', rfl, e4, y, hy⟩ := times_fronts hf hb hp k s1 _ z e2 m w s' h2
      refine ⟨x ++ x', z', (List.append_assoc _ _ _).symm, ?_, y, x, x' ++ y, List.append_assoc _ _ _, e3, hy⟩
      rw [e4, encText_append, List.append_assoc]

theorem chain_any {es : List (PExp Piece)} (hp : ∀ e ∈ es, ∃ y, e.clang M y) : ∃ y, (chain es).clang M y := by
  induction es with
  | nil => exact ⟨[], rfl⟩
  | cons c rs ih =>
    obtain ⟨u, hu⟩ := hp c List.mem_cons_self
    obtain ⟨v, hv⟩ := ih fun d hd => hp d (List.mem_cons_of_mem _ hd)
    exact ⟨u ++ v, u, v, rfl, hu, hv⟩

theorem pegs_mem : ∀ {rs : List Reader} {e : PExp Piece}, e ∈ Reader.pegs rs → ∃ r ∈ rs, e = r.peg
  | [], _, h => by cases h
  | r :: rs, e, h => by
    unfold Reader.pegs at h
    rcases List.mem_cons.mp h with h | h
    · exact ⟨r, List.mem_cons_self, h⟩
    · obtain ⟨c, hc, he⟩ := pegs_mem h
      exact ⟨c, List.mem_cons_of_mem _ hc, he⟩

/-- One after the other, and `sk` behind each. -/
theorem skip_fronts {rd : Reader → ReadFunc} {sk : Reader} (kf : Fronts M sk.peg (rd sk)) (kb : Backs M sk.peg (rd sk)) (kp : ∃ y, sk.peg.clang M y) :
    ∀ {rs : List Reader}, (∀ r ∈ rs, Fronts M r.peg (rd r)) → (∀ r ∈ rs, Backs M r.peg (rd r)) →
    (∀ r ∈ rs, ∃ y, r.peg.clang M y) → Fronts M (chain ((Reader.pegs rs).map fun e => .seq e sk.peg)) (skipSeqLoop rd sk rs)
  | [], _, _, _, _, _, _, _, _, _, _, h => by cases h
  | r :: rs, hf, hb, hp, s, h, cs, hbt, m, w, s', hr => by
    have rest : ∃ y, (chain ((Reader.pegs rs).map fun e => .seq e sk.peg)).clang M y := by
      refine chain_any fun e he => ?_
      obtain ⟨e', he', rfl⟩ := List.mem_map.mp he
      obtain ⟨c, hc, rfl⟩ := pegs_mem he'
      obtain ⟨u, hu⟩ := hp c (List.mem_cons_of_mem _ hc)
      obtain ⟨v, hv⟩ := kp
      exact ⟨u ++ v, u, v, rfl, hu, hv⟩
    obtain ⟨v, hv⟩ := rest
    unfold skipSeqLoop at hr
    obtain ⟨⟨e, s1⟩, h1, h2⟩ := Exec.bind_eq_ret.mp hr
    cases e with
    | some e =>
      cases h2
      obtain ⟨x, z, e1, e2, y, hy⟩ := hf r List.mem_cons_self s h cs hbt m w _ h1
      obtain ⟨k, hk⟩ := kp
      refine ⟨x, z, e1, e2, y ++ k ++ v, (x ++ y) ++ k, v, ?_, ⟨x ++ y, k, rfl, hy, hk⟩, hv⟩
      simp only [List.append_assoc]
    | none =>
      obtain ⟨x, z, rfl, e2, e3⟩ := hb r List.mem_cons_self s h cs hbt s1 h1
      obtain ⟨⟨e, s2⟩, h3, h4⟩ := Exec.bind_eq_ret.mp h2
      cases e with
      | some e =>
        cases h4
        obtain ⟨x', z', rfl, e4, y, hy⟩ := kf s1 _ z e2 m w _ h3
        refine ⟨x ++ x', z', (List.append_assoc _ _ _).symm, ?_, y ++ v, x ++ (x' ++ y), v, ?_, ⟨x, x' ++ y, rfl, e3, hy⟩, hv⟩
        · rw [e4, encText_append, List.append_assoc]
        · simp only [List.append_assoc]
      | none =>
        obtain ⟨x1, z1, rfl, e5, e6⟩ := kb s1 _ z e2 s2 h3
        obtain ⟨x', z', rfl, e4, y, hy⟩ := skip_fronts kf kb kp (fun c hc => hf c (List.mem_cons_of_mem _ hc)) (fun c hc => hb c (List.mem_cons_of_mem _ hc))
          (fun c hc => hp c (List.mem_cons_of_mem _ hc)) s2 _ z1 e5 m w s' h4
        refine ⟨x ++ (x1 ++ x'), z', ?_, ?_, y, x ++ x1, x' ++ y, ?_, ⟨x, x1, rfl, e3, e6⟩, hy⟩
        · simp only [List.append_assoc]
        · rw [e4]; simp only [encText_append, List.append_assoc]
        · simp only [List.append_assoc]

theorem keeps_of_keepsB : ∀ {r : Reader}, r.keepsB = true → r.keeps
  | .named _ r, h => keeps_of_keepsB (r := r) h
  | .monitor _ _ r, h => keeps_of_keepsB (r := r) h
  | .ruleName r, h => keeps_of_keepsB (r := r) h
  | .grammar _ r, h => keeps_of_keepsB (r := r) h
  | .times k r, h => by
    simp only [Reader.keepsB, Bool.or_eq_true, Bool.and_eq_true, decide_eq_true_eq] at h
    exact h.imp id fun h => ⟨h.1, keeps_of_keepsB h.2⟩
  | .wrap _ _, h => nomatch h
  | .any _, _ | .anyRune _, _ | .at_ _, _ | .atEnd, _ | .between _ _, _ | .betweenAny _ _, _ | .body _ _, _ | .bodyTail _ _, _ | .bool _ _, _
  | .fold _, _ | .holey _ _ _, _ | .int _ _ _, _ | .janusBegin _ _ _, _ | .janusEnd _ _, _ | .invalid _, _ | .lit _, _ | .many _, _ | .map _ _, _
  | .match_ _ _, _ | .not _, _ | .opt _, _ | .past _, _ | .rune _, _ | .seq _, _ | .skipSeq _ _, _ | .to _, _ | .uint _ _ _, _ | .zom _, _
  | .pick _ _ _, _ | .rule _, _ => trivial

theorem choice_mem {es : List (PExp Piece)} {e : PExp Piece} {x : List Char} (he : e ∈ es) (h : e.clang M x) : (choice es).clang M x := by
  induction es with
  | nil => cases he
  | cons c es ih =>
    rcases List.mem_cons.mp he with rfl | he
    · exact .inl h
    · exact .inr (ih he)

theorem mem_pegs : ∀ {rs : List Reader} {r : Reader}, r ∈ rs → r.peg ∈ Reader.pegs rs
  | c :: rs, r, h => by
    unfold Reader.pegs
    rcases List.mem_cons.mp h with rfl | h
    · exact List.mem_cons_self
    · exact List.mem_cons_of_mem _ (mem_pegs h)

/-- All that is needed of a grammar. -/
structure Fruitful (G : Env) (M : Nat → List Char → Prop) : Prop where
  peg : G.Every (Reader.pegOk true)
  keeps : G.keeps
  located : G.Every Reader.located
  ahead : G.Every Reader.ahead
  fruit : G.Every (fun r => ∃ y, r.peg.clang M y)
  closed : ∀ i e, G.peg i = some e → ∀ cs, e.clang M cs → M i cs

theorem safe_of_pegOk {r : Reader} (h : r.pegOk true) : r.safeHere True G := by
  cases r <;> first | trivial | exact .inl trivial | cases h

theorem read_fronts (F : Fruitful G M) : ∀ (n : Nat) (r : Reader), r.Every (Reader.pegOk true) → r.Every Reader.located → r.Every Reader.ahead →
    r.Every (fun r => ∃ y, r.peg.clang M y) → Fronts M r.peg (read rt G n r)
  | 0, _, _, _, _, _ => fun _ _ _ _ _ _ _ h => by cases h
  | n + 1, r, hr, hl, ha, hy => by
    have gS : G.Every (Reader.safeHere True G) := F.peg.imp fun _ => safe_of_pegOk
    have gk : ∀ rl ∈ G, ∀ c, rl.reader = some c → c.keeps := fun rl hrl c hc => keeps_of_keepsB (F.keeps rl hrl c hc)
    have rS : r.Every (Reader.safeHere True G) := hr.imp fun _ => safe_of_pegOk
    have ih : ∀ c ∈ r.subs, Fronts M c.peg (read rt G n c) := fun c hc => read_fronts F n c (hr.sub hc) (hl.sub hc) (ha.sub hc) (hy.sub hc)
    have bk : ∀ c ∈ r.subs, Backs M c.peg (read rt G n c) := fun c hc => read_backs F.peg F.keeps F.closed n c (hr.sub hc)
    have fr : ∀ c ∈ r.subs, ∃ y, c.peg.clang M y := fun c hc => (hy.sub hc).here
    have here := hy.here
    have self : r.selfish = true → Fronts M r.peg (read rt G (n + 1) r) := fun hs => .start here fun s hi m w s' h => by
      have := C37_names_itself rt G r hs gS rS (n + 1) s s' hi _ h
      cases this; rfl
    cases r with
    | anyRune _ => exact self rfl
    | atEnd => exact self rfl
    | between _ _ => exact self rfl
    | betweenAny _ _ => exact self rfl
    | holey _ _ _ => exact self rfl
    | lit _ => exact self rfl
    | match_ _ _ => exact self rfl
    | rune _ => exact self rfl
    | body _ _ => exact self rfl
    | bodyTail _ _ => exact self rfl
    | past _ => exact self rfl
    | «to» _ => exact self rfl
    | many _ => exact self rfl
    | any rs =>
      intro s h cs hb m w s' hrd
      obtain ⟨m', w', e1, ⟨c, hc, s1, s2, p1, p2, h1⟩, _⟩ := C37_any_from_start rt G rs hl.here gS F.located gk (fun c hc => rS.sub hc) (fun c hc => hl.sub hc)
        (fun c hc => keeps_of_keepsB (hr.here c hc)) n s s' hb.inside _ hrd
      obtain ⟨x, z, e2, e3, y, e4⟩ := ih c hc s1 h cs ⟨p2.trans hb.1, p1.trans hb.2⟩ m w s2 h1
      exact ⟨x, z, e2, e3, y, choice_mem (mem_pegs hc) e4⟩
    | at_ c => exact ha.here.elim
    | bool _ _ => exact ha.here.elim
    | fold _ => exact hr.here.elim
    | int _ _ _ => exact hr.here.elim
    | uint _ _ _ => exact hr.here.elim
    | janusBegin _ _ _ => exact hr.here.elim
    | janusEnd _ _ => exact hr.here.elim
    | wrap _ _ => exact hr.here.elim
    | invalid _ => exact hl.here.elim
    | grammar _ _ => exact hl.here.elim
    | map f c =>
      intro s h cs hb m w s' hrd
      simp only [read, Scanner.tokenizeUse] at hrd
      obtain ⟨⟨⟨tk, err⟩, s1⟩, a1, a2⟩ := Exec.bind_eq_ret.mp hrd
      obtain ⟨⟨err', s2⟩, a3, a4⟩ := Exec.bind_eq_ret.mp a1
      cases err' with
      | none => cases a4; cases a2
      | some e => cases a4; cases a2; exact ih c (by simp [Reader.subs]) s h cs hb m w s2 a3
    | pick i b c =>
      intro s h cs hb m w s' hrd
      simp only [read, Scanner.tokenizeUse] at hrd
      obtain ⟨⟨⟨tk, err⟩, s1⟩, a1, a2⟩ := Exec.bind_eq_ret.mp hrd
      obtain ⟨⟨err', s2⟩, a3, a4⟩ := Exec.bind_eq_ret.mp a1
      cases err' with
      | none => cases a4; cases a2
      | some e => cases a4; cases a2; exact ih c (by simp [Reader.subs]) s h cs hb m w s2 a3
    | named _ c => exact fun s h cs hb m w s' hrd => ih c (by simp [Reader.subs]) s h cs hb m w s' hrd
    | monitor i l c =>
      intro s h cs hb m w s' hrd
      simp only [read] at hrd
      obtain ⟨⟨err, s1⟩, a1, a2⟩ := Exec.bind_eq_ret.mp hrd
      cases a2
      exact ih c (by simp [Reader.subs]) (s.enterLog rt i l) h cs ⟨hb.1, hb.2⟩ m w s1 a1
    | not c =>
      refine .start here fun s hi m w s' hrd => ?_
      simp only [read] at hrd
      obtain ⟨⟨err, s1⟩, a1, a2⟩ := Exec.bind_eq_ret.mp hrd
      cases err with
      | none =>
        simp only [Option.isNone_none, if_true, toMarker_at (show 0 ≤ s.mark from hi.1)] at a2
        cases a2
        exact notify_pos _
      | some e =>
        obtain ⟨⟨_, _⟩, _, a3⟩ := Exec.bind_eq_ret.mp a2
        cases a3
    | opt c =>
      intro s h cs hb m w s' hrd
      simp only [read] at hrd
      obtain ⟨_, _, a2⟩ := Exec.bind_eq_ret.mp hrd
      cases a2
    | zom c =>
      intro s h cs hb m w s' hrd
      simp only [read] at hrd
      obtain ⟨_, _, a2⟩ := Exec.bind_eq_ret.mp hrd
      cases a2
    | seq rs =>
      intro s h cs hb m w s' hrd
      simp only [read] at hrd
      obtain ⟨⟨err, s1⟩, a1, a2⟩ := Exec.bind_eq_ret.mp hrd
      cases err with
      | none => cases a2
      | some e => cases a2; exact chain_fronts ih bk fr s h cs hb m w s1 a1
    | skipSeq sk rs =>
      intro s h cs hb m w s' hrd
      simp only [read] at hrd
      obtain ⟨⟨err, s1⟩, a1, a2⟩ := Exec.bind_eq_ret.mp hrd
      have mem : ∀ c ∈ rs, c ∈ (Reader.skipSeq sk rs).subs := fun c hc => List.mem_cons_of_mem _ hc
      have k1 : sk ∈ (Reader.skipSeq sk rs).subs := List.mem_cons_self
      cases err with
      | some e =>
        cases a2
        obtain ⟨x, z, e1, e2, y, e3⟩ := ih sk k1 s h cs hb m w s1 a1
        have rest : ∃ y, (chain ((Reader.pegs rs).map fun e => .seq e sk.peg)).clang M y := by
          refine chain_any fun e he => ?_
          obtain ⟨e', he', rfl⟩ := List.mem_map.mp he
          obtain ⟨c, hc, rfl⟩ := pegs_mem he'
          obtain ⟨u, hu⟩ := fr c (mem c hc)
          obtain ⟨v, hv⟩ := fr sk k1
          exact ⟨u ++ v, u, v, rfl, hu, hv⟩
        obtain ⟨v, hv⟩ := rest
        exact ⟨x, z, e1, e2, y ++ v, x ++ y, v, (List.append_assoc _ _ _).symm, e3, hv⟩
      | none =>
        simp only [Option.isSome_none, Bool.false_eq_true, if_false] at a2
        obtain ⟨⟨err, s2⟩, a3, a4⟩ := Exec.bind_eq_ret.mp a2
        cases err with
        | none => cases a4
        | some e =>
          cases a4
          obtain ⟨x, z, rfl, e2, e3⟩ := bk sk k1 s h cs hb s1 a1
          obtain ⟨x', z', rfl, e4, y, e5⟩ := skip_fronts (ih sk k1) (bk sk k1) (fr sk k1) (fun c hc => ih c (mem c hc)) (fun c hc => bk c (mem c hc))
            (fun c hc => fr c (mem c hc)) s1 _ z e2 m w s2 a3
          refine ⟨x ++ x', z', (List.append_assoc _ _ _).symm, ?_, y, x, x' ++ y, List.append_assoc _ _ _, e3, e5⟩
          rw [e4, encText_append, List.append_assoc]
    | times k c => exact times_fronts (ih c (by simp [Reader.subs])) (bk c (by simp [Reader.subs])) (fr c (by simp [Reader.subs])) k.toNat
    | rule i =>
      intro s h cs hb m w s' hrd
      simp only [read] at hrd
      split at hrd
      · next nm c hi =>
        obtain ⟨x, z, e1, e2, y, e3⟩ := read_fronts F n c (F.peg.get hi) (F.located.get hi) (F.ahead.get hi) (F.fruit.get hi) s h cs hb m w s' hrd
        exact ⟨x, z, e1, e2, y, F.closed i _ (by unfold Env.peg; rw [hi]; rfl) _ e3⟩
      · cases hrd
    | ruleName c =>
      refine .start here fun s hi m w s' hrd => ?_
      simp only [read] at hrd
      obtain ⟨⟨err, s1⟩, a1, a2⟩ := Exec.bind_eq_ret.mp hrd
      cases err with
      | none => cases a2
      | some e =>
        cases a2
        exact read_restores rt G gS gk n c (rS.sub (by simp [Reader.subs])) (keeps_of_keepsB ha.here) s hi e _ a1

end
end Tok
