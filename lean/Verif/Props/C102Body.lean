/-
C102 Picking some of the rules, with bodies in which nothing is picked.
-/
import Verif.Props.C102Apart
import Verif.Props.C100

namespace Tok

open Spec Less

/-- Nothing is picked, no function of the client is called, and only the given rules are. -/
def Reader.inner (U : Nat → Prop) : Reader → Prop
  | .pick _ _ _ => False
  | .wrap _ _ => False
  | .rule i => U i
  | _ => True

/-- A read that picks nothing leaves the baskets as they are when the scanner has no tracker. -/
theorem baskets_frame (rt : Rt) (G : Env) (U : Nat → Prop) :
    Frame rt G (Reader.inner U) (fun s => Inside s ∧ s.tracker = none) (fun s s' => Forward s s' ∧ s'.tracker = none ∧ Less.Still s s') where
  inside h := h.1
  fwd _ h := h.1
  inv _ h' := ⟨h'.1.1, h'.2.1⟩
  refl h := ⟨Forward.refl h.1, h.2, rfl, rfl⟩
  trans _ h h' := ⟨h.1.trans h'.1, h'.2.1, h'.2.2.1.trans h.2.2.1, h'.2.2.2.trans h.2.2.2⟩
  go {s m} h h1 h2 := ⟨forward_go h.1 h1 h2, by rw [at_none h.2]; exact h.2, by rw [at_none h.2]; exact ⟨rfl, rfl⟩⟩
  back {s s'} h h' := ⟨forward_at h.1 h'.1, by rw [at_none h'.2.1]; exact h'.2.1, by rw [at_none h'.2.1]; exact h'.2.2⟩
  cells _ _ _ _ h := h
  janus _ _ _ _ h := h
  pick hp := hp.elim
  map _ _ h := h
  enter _ h := h
  leave _ _ _ h := h
  wrap hp := hp.elim
  body {s s' c t n str e sub} _ hs h hstr _ h3 := by
    have h4 := h3 ⟨new_inside _ _, rfl⟩
    have h5 : Less.Still s { s' with heap := sub.heap } := ⟨h4.2.2.1.trans h.2.2.1, h4.2.2.2.trans h.2.2.2⟩
    refine ⟨⟨h.1, h.2.1, h5⟩, fun _ => ⟨h.1, h.2.1, ?_⟩⟩
    rw [at_none h4.2.1]
    exact h5

/-- No pick is left out: the budgets may differ. -/
theorem apart_fuel (rt : Rt) (G : Env) {q : Leave} (hG : G.Every fun r => Free.Reader.pickyApart rt G q r ∧ q.gone r = false) (lt gt : Prop) : ∀ n m r, Fuel lt gt n m →
    (r.Every fun r => Free.Reader.pickyApart rt G q r ∧ q.gone r = false) → Free.Both q lt gt (read rt G n r) (read rt (Env.fewer q G) m (Reader.fewer q r))
  | 0, m, _, h, _ => fun _ _ _ _ => h.zero fun e => by subst e; rfl
  | n + 1, 0, _, h, _ => fun _ _ _ _ => h.zero'
  | n + 1, m + 1, r, h, hr => by
    have hG' := hG.imp fun _ h => h.1
    refine Free.Both.of rt G (Free.pickyApart_safe hG' (hr.imp fun _ h => h.1) _) fun s t hs ha => ?_
    refine Free.step_both rt G h.pred hr.here.2 hr.here.1.2 (fun c hc => Free.pickyApart_safe hG' ((hr.sub hc).imp fun _ h => h.1) n)
      (fun c hc => apart_fuel rt G hG lt gt n m c h.pred (hr.sub hc)) (fun i _ nm c hi => ?_) hs ha
    exact apart_fuel rt G hG lt gt n m c h.pred (hG.get hi)

/-- The grammar with the given rules only; the others were not set. -/
def Env.only (U : Nat → Bool) (G : Env) : Env := G.mapIdx fun i rl => if U i then rl else ⟨rl.name, none⟩

theorem only_get {U : Nat → Bool} {G : Env} {i : Nat} (h : U i = true) : (Env.only U G)[i]? = G[i]? := by
  unfold Env.only
  rw [List.getElem?_mapIdx]
  cases G[i]? <;> simp [h]

/-- The given rules pick nothing and lead only to each other. -/
def Inner (G : Env) (U : Nat → Bool) : Prop := ∀ i nm c, U i = true → G[i]? = some ⟨nm, some c⟩ → c.Every (Reader.inner (U · = true))

theorem only_every {U : Nat → Bool} {G : Env} (h : Inner G U) : (Env.only U G).Every (Reader.inner (U · = true)) := by
  intro rl hrl c hc
  obtain ⟨i, hi⟩ := List.mem_iff_getElem?.mp hrl
  by_cases hu : U i = true
  · rw [only_get hu] at hi
    obtain ⟨nm, r⟩ := rl
    simp only at hc
    subst hc
    exact h i nm c hu hi
  · unfold Env.only at hi
    rw [List.getElem?_mapIdx] at hi
    cases hg : G[i]? <;> rw [hg] at hi
    · cases hi
    · simp only [Option.map_some, Option.some.injEq, hu] at hi
      subst hi
      cases hc

theorem inner_within {U : Nat → Prop} {r : Reader} (h : r.Every (Reader.inner U)) : r.Every (Reader.within U) :=
  h.imp fun r h => by cases r <;> trivial

theorem inner_pickless {U : Nat → Prop} {r : Reader} (h : r.Every (Reader.inner U)) : r.Every Reader.pickless :=
  h.imp fun r h => by cases r <;> trivial

theorem inner_picky {U : Nat → Prop} {rt : Rt} {G : Env} {q : Leave} {r : Reader} (h : r.Every (Reader.inner U)) :
    r.Every fun r => Free.Reader.pickyApart rt G q r ∧ q.gone r = false :=
  h.imp fun r h => by cases r <;> first | exact h.elim | exact ⟨⟨.inl trivial, trivial⟩, rfl⟩ | exact ⟨⟨trivial, trivial⟩, rfl⟩

/-- A body in which nothing is picked. -/
theorem inner_same (rt : Rt) (G : Env) (q : Leave) (U : Nat → Bool) (hU : Inner G U) {b : Reader} (hb : b.Every (Reader.inner (U · = true))) : SubSame rt G q b := by
  intro lt gt n m hnm s t hs htr ha
  have hin : ∀ i nm c, (U i = true) → G[i]? = some ⟨nm, some c⟩ → c.Every (Reader.within (U · = true)) := fun i nm c hi hg => inner_within (hU i nm c hi hg)
  have e1 : ∀ n s, read rt (Env.only U G) n b s = read rt G n b s := C100_reachable rt G _ (U · = true) (fun i hi => only_get hi) hin b (inner_within hb)
  have e2 : ∀ n s, read rt (Env.fewer q G) n b s = read rt G n b s := C100_reachable rt G _ (U · = true) (fun i hi => by
    rw [fewer_get]
    cases hg : G[i]? with
    | none => rfl
    | some rl =>
      obtain ⟨nm, _ | c⟩ := rl
      · rfl
      · simp [fewer_pickless (inner_pickless (hU i nm c hi hg))]) hin b (inner_within hb)
  have hE := only_every hU
  have key := apart_fuel rt (Env.only U G) (q := q) (fun rl hrl c hc => inner_picky (hE rl hrl c hc)) lt gt n m b hnm (inner_picky hb) s t hs ha
  rw [fewerEnv_ungone (fun rl hrl c hc => (inner_picky (rt := rt) (G := G) (hE rl hrl c hc)).imp fun _ h => h.2), fewer_pickless (inner_pickless hb), e1, e1] at key
  rw [fewer_pickless (inner_pickless hb), e2]
  have fr := baskets_frame rt G (U · = true)
  have rules := fun i nm c (hi : Reader.inner (U · = true) (.rule i)) hg => hU i nm c hi hg
  refine key.mono fun x y hx hy hab => ?_
  have h1 := fr.read rules n b hb s ⟨hs, htr⟩ x hx
  have h2 := fr.read rules m b hb t ⟨⟨by rw [ha.pos]; exact hs.1, by rw [ha.pos, ha.full]; exact hs.2⟩, ha.tracker.trans htr⟩ y hy
  exact ⟨hab.1, hab.2.1, h1.2.1, h1.2.2, h2.2.2⟩

/-- As `Reader.plainPick`, but `Body` may occur when nothing is picked in the text it reads with its first reader. -/
def Reader.bodyPick (U : Nat → Bool) (q : Leave) : Reader → Prop
  | .body b _ => b.Every (Reader.inner (U · = true))
  | .bodyTail b _ => b.Every (Reader.inner (U · = true))
  | r => r.plainPick q

theorem picky_of_body {rt : Rt} {G : Env} {U : Nat → Bool} (q : Leave) (hU : Inner G U) (hG : G.Every (Reader.bodyPick U q)) (hk : ∀ rl ∈ G, ∀ c, rl.reader = some c → c.keeps) {r : Reader}
    (hr : r.Every (Reader.bodyPick U q)) : r.Every (Reader.picky rt G q) := by
  have safe : ∀ r : Reader, r.bodyPick U q → r.safeHere True G := fun r h => by
    cases r <;> first | exact h.elim | exact .inl trivial | exact trivial | exact h.1
  have hS := hG.imp safe
  induction hr with
  | @mk r hp hs ih =>
    refine .mk ⟨safe r hp, ?_⟩ ih
    cases r with
    | wrap w f => exact hp.2
    | body b t => exact inner_same rt G q U hU hp
    | bodyTail b t => exact inner_same rt G q U hU hp
    | pick i b c => exact fun _ n => read_restores rt G hS hk n c ((hs c (by simp [Reader.subs])).imp safe) hp
    | _ => trivial

/-- A read with a grammar, and with the same grammar without some of the picks, where nothing is picked in a `Body`: the same error or none at the same
position, nothing else differs, and the basket has afterwards the segments of the other picks.

Missing: picks in a `Body`, for which the claim is false (`C102_violated`, `C102_mxt_violated`), and functions of the client that look at the basket
(`C102_looks_violated`). -/
theorem C102_body_partial (rt : Rt) (q : Leave) (G : Env) (U : Nat → Bool) (hU : Inner G U) (hG : G.Every (Reader.bodyPick U q))
    (hk : ∀ rl ∈ G, ∀ c, rl.reader = some c → c.keeps) (r : Reader) (hr : r.Every (Reader.bodyPick U q)) (s t : Scanner) (hs : Inside s) (h : Fewer q s t) :
    (∀ n e s', read rt G n r s = .ret (e, s') → ∃ t', read rt (Env.fewer q G) n (Reader.fewer q r) t = .ret (e, t') ∧ Fewer q s' t') ∧
    (∀ m e t', read rt (Env.fewer q G) m (Reader.fewer q r) t = .ret (e, t') → ∃ n s', read rt G n r s = .ret (e, s') ∧ Fewer q s' t') := by
  have hG' : G.Every (Reader.picky rt G q) := fun rl hrl c hc => picky_of_body q hU hG hk (hG rl hrl c hc)
  have hr' := picky_of_body (rt := rt) q hU hG hk hr
  constructor
  · intro n e s' hrd
    obtain ⟨e', t', h1, h2, h3⟩ := fewer_ret rt G hG' hr' hs h hrd
    obtain rfl := h2.eq
    exact ⟨t', h1, h3⟩
  · intro m e t' hrd
    obtain ⟨n, e', s', h1, h2, h3⟩ := fewer_ret' rt G hG' hr' hs h hrd
    obtain rfl := h2.eq
    exact ⟨n, s', h1, h3⟩

/-- The picks for the rules that are not dropped, without some of them. -/
theorem fewer_pickOnly {b : Nat} {drop₀ drop : Bytes → Bool} (hd : ∀ x, drop₀ x = true → drop x = true) {G : Env} (h : G.Every Reader.pickless) :
    Env.fewer ⟨b, drop⟩ (G.pickOnly b drop₀) = G.pickOnly b drop := by
  unfold Env.fewer Env.pickOnly
  rw [List.map_map]
  refine List.map_congr_left fun rl hrl => ?_
  obtain ⟨nm, c⟩ := rl
  cases c with
  | none => simp [Rule.pick]
  | some c =>
    have := h _ hrl c rfl
    have hd := hd nm
    by_cases h0 : drop₀ nm = true
    · simp [Function.comp, h0, hd h0, fewer_pickless this]
    · by_cases h1 : drop nm = true
      · simp [Function.comp, h0, h1, Rule.pick, Reader.fewer, Leave.out, fewer_pickless this]
      · simp [Function.comp, h0, h1, Rule.pick, Reader.fewer, Leave.out, fewer_pickless this]

/-- What stands in a body of the grammar, and the rules it leads to, without the picks. -/
def Reader.bodyPickB (U : Nat → Bool) : Reader → Bool
  | .body b _ => b.everyB (fun r => match r with | .pick _ _ _ => false | .wrap _ _ => false | .rule i => U i | _ => true)
  | .bodyTail b _ => b.everyB (fun r => match r with | .pick _ _ _ => false | .wrap _ _ => false | .rule i => U i | _ => true)
  | r => r.plainPickB

theorem bodyPick_of_B {U : Nat → Bool} {q : Leave} {r : Reader} (h : r.bodyPickB U = true) : r.bodyPick U q ∧ r.pickless := by
  have key : ∀ b : Reader, b.everyB (fun r => match r with | .pick _ _ _ => false | .wrap _ _ => false | .rule i => U i | _ => true) = true →
      b.Every (Reader.inner (U · = true)) := fun b h => (Reader.everyB_sound _ _ h).imp fun r h => by cases r <;> first | trivial | exact h | cases h
  cases r with
  | body b t => exact ⟨key b h, trivial⟩
  | bodyTail b t => exact ⟨key b h, trivial⟩
  | _ => first | exact ⟨trivial, trivial⟩ | exact ⟨keeps_of_restoresB h, trivial⟩ | cases (show false = true from h)

/-- The only rule that the bodies of the MXT grammar lead to (the arrow, grammar/mxt.go:37). -/
def mxtInner (i : Nat) : Bool := i == Mxt.iWordChar

/-- Scanning an MXT text with a new basket for rules of the grammar, not for `wordchar`, and with one for fewer of them: the same error or none and the same
position, and the segments in the second basket are those of the first that have the names of its rules, in the same order. -/
theorem C102_mxt (rt : Rt) (b c : Nat) (drop₀ drop : Bytes → Bool) (hd : ∀ x, drop₀ x = true → drop x = true) (hw : drop₀ b!"wordchar" = true)
    (text : Bytes) (e : Option Err) (pos : Int) (l : List Segment) :
    (∃ n t', read rt (Mxt.env.pickOnly b drop) n Mxt.reader ((Scanner.new text Heap.empty).newBasket c) = .ret (e, t') ∧ t'.pos = pos ∧ t'.heap.baskets b = l) ↔
      ∃ n s', read rt (Mxt.env.pickOnly b drop₀) n Mxt.reader ((Scanner.new text Heap.empty).newBasket c) = .ret (e, s') ∧ s'.pos = pos ∧
        (s'.heap.baskets b).filter (fun g => !drop g.info) = l := by
  have hB : Mxt.env.Every fun r => r.bodyPickB mxtInner = true := Env.everyB_sound (by decide +kernel)
  have hrB : Mxt.reader.Every fun r => r.bodyPickB mxtInner = true := Reader.everyB_sound _ _ (by decide)
  have hp : Mxt.env.Every Reader.pickless := hB.imp fun _ h => (bodyPick_of_B (q := ⟨b, drop⟩) h).2
  have hr : Mxt.reader.Every (Reader.bodyPick mxtInner ⟨b, drop⟩) := hrB.imp fun _ h => (bodyPick_of_B h).1
  have hpr : Mxt.reader.Every Reader.pickless := hrB.imp fun _ h => (bodyPick_of_B (q := ⟨b, drop⟩) h).2
  have hk : ∀ rl ∈ Mxt.env, ∀ c, rl.reader = some c → c.keeps := by
    intro rl hrl c hc
    have := List.all_eq_true.mp (show Mxt.env.all (fun rl => match rl.reader with | some c => c.restoresB | none => true) = true from rfl) rl hrl
    simp only [hc] at this
    exact keeps_of_restoresB this
  have hG' : (Mxt.env.pickOnly b drop₀).Every (Reader.bodyPick mxtInner ⟨b, drop⟩) := fun rl hrl c hc => by
    obtain ⟨r, hr, rfl⟩ := List.mem_map.mp hrl
    split at hc
    · exact (hB r hr c hc).imp fun _ h => (bodyPick_of_B h).1
    · obtain ⟨c', hc', rfl⟩ := Option.map_eq_some_iff.mp hc
      exact .mk (hk r hr c' hc') fun x hx => List.mem_singleton.mp hx ▸ (hB r hr c' hc').imp fun _ h => (bodyPick_of_B h).1
  have hk' : ∀ rl ∈ Mxt.env.pickOnly b drop₀, ∀ c, rl.reader = some c → c.keeps := fun rl hrl c hc => by
    obtain ⟨r, hr, rfl⟩ := List.mem_map.mp hrl
    split at hc
    · exact hk r hr c hc
    · obtain ⟨c', hc', rfl⟩ := Option.map_eq_some_iff.mp hc
      exact trivial
  have hU : Inner (Mxt.env.pickOnly b drop₀) mxtInner := by
    intro i nm c hi hg
    obtain rfl : i = Mxt.iWordChar := by simpa [mxtInner] using hi
    have : (Mxt.env.pickOnly b drop₀)[Mxt.iWordChar]? = some ⟨b!"wordchar", some (.between 0x21 maxRune)⟩ := by
      unfold Env.pickOnly
      rw [List.getElem?_map]
      show Option.map _ (some (⟨b!"wordchar", some (.between 0x21 maxRune)⟩ : Rule)) = _
      simp [hw]
    rw [this] at hg
    cases hg
    exact .mk trivial (by simp [Reader.subs])
  have hf : Fewer ⟨b, drop⟩ ((Scanner.new text Heap.empty).newBasket c) ((Scanner.new text Heap.empty).newBasket c) := by
    refine ⟨rfl, rfl, ⟨c, rfl, ?_, ?_⟩, rfl, rfl, rfl, rfl, rfl, rfl, fun _ _ => rfl, ?_⟩
    · simp [Scanner.newBasket, upd_self]
    · simp [Scanner.newBasket, upd_self]
    · have : ((Scanner.new text Heap.empty).newBasket c).heap.baskets b = [] := by simp [Scanner.newBasket, Scanner.new, upd, Heap.empty]
      simp [this, Leave.rest]
  have hs : Inside ((Scanner.new text Heap.empty).newBasket c) := ⟨Int.le_refl _, by simp [Scanner.newBasket, Scanner.new]⟩
  obtain ⟨less, more⟩ := C102_body_partial rt ⟨b, drop⟩ _ mxtInner hU hG' hk' _ hr _ _ hs hf
  rw [fewer_pickOnly hd hp, fewer_pickless (q := ⟨b, drop⟩) hpr] at less more
  constructor
  · rintro ⟨n, t', h1, h2, h3⟩
    obtain ⟨m, s', h4, h5⟩ := more n e t' h1
    exact ⟨m, s', h4, h5.pos.symm.trans h2, h5.kept.symm.trans h3⟩
  · rintro ⟨n, s', h1, h2, h3⟩
    obtain ⟨t', h4, h5⟩ := less n e s' h1
    exact ⟨n, t', h4, h5.pos.trans h2, h5.kept.trans h3⟩

/-- The names and contents of an MXT document. -/
example : basketAfter 0 (read exRt (Mxt.env.pickOnly 0 fun nm => nm != b!"name" && nm != b!"content") 80 Mxt.reader
      ((Scanner.new b!"// a -->\nc\n// n x-->" Heap.empty).newBasket 0)) =
    some (true, 20, [⟨b!"name", ⟨3, 4⟩⟩, ⟨b!"content", ⟨9, 10⟩⟩, ⟨b!"name", ⟨14, 15⟩⟩]) := by
  decide +kernel

/-- With `wordchar` picked the claim is false of the MXT grammar: the second header is not one and the scanner goes back to 10, but the name found in it stays
in the basket; with all other rules picked it does not. -/
theorem C102_mxt_violated : ∃ (text : Bytes) (drop : Bytes → Bool), drop b!"name" = false ∧
    (basketAfter 0 (read exRt (Mxt.env.pickAll 0) 80 Mxt.reader ((Scanner.new text Heap.empty).newBasket 0))).map
        (fun x => (x.1, x.2.1, x.2.2.filter fun g => g.info == b!"name")) = some (true, 10, [⟨b!"name", ⟨3, 4⟩⟩, ⟨b!"name", ⟨14, 15⟩⟩]) ∧
    (basketAfter 0 (read exRt (Mxt.env.pickOnly 0 drop) 80 Mxt.reader ((Scanner.new text Heap.empty).newBasket 0))).map
        (fun x => (x.1, x.2.1, x.2.2.filter fun g => g.info == b!"name")) = some (true, 10, [⟨b!"name", ⟨3, 4⟩⟩]) := by
  refine ⟨b!"// a -->\nc\n// n x-->)", fun nm => nm == b!"wordchar", ?_, ?_, ?_⟩ <;> decide +kernel

/-- A body in which nothing is picked, between picks, one of which is left out. -/
example : basketAfter 0 (read exRt [] 30 (.seq [.pick b!"A" 0 (.rune 122), .bodyTail (.zom (.rune 120)) (.rune 59), .pick b!"B" 0 (.rune 33)])
      ((Scanner.new b!"zxx;!" Heap.empty).newBasket 0)) = some (true, 5, [⟨b!"A", ⟨0, 1⟩⟩, ⟨b!"B", ⟨4, 5⟩⟩]) ∧
    basketAfter 0 (read exRt [] 30 (Reader.fewer exCallsLeave (.seq [.pick b!"A" 0 (.rune 122), .bodyTail (.zom (.rune 120)) (.rune 59), .pick b!"B" 0 (.rune 33)]))
      ((Scanner.new b!"zxx;!" Heap.empty).newBasket 0)) = some (true, 5, [⟨b!"B", ⟨4, 5⟩⟩]) := by
  constructor <;> decide +kernel

end Tok
