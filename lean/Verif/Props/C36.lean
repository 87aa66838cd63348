/-
C36 Reading terminates.
-/
import Verif.Proofs.Term
import Verif.Props.C34

namespace Tok
open Spec

theorem Reader.progress.noWrap {nul : Nat → Bool} {srch : Bool} {r : Reader} (h : r.progress nul srch) : r.noWrap = true := by
  cases r <;> first | exact h.elim | rfl

/-- From the text-ahead semantics back to the scanner. -/
theorem halts_read {rt : Rt} {G : Env} {r : Reader} (hG : G.Every (fun r => r.noWrap = true)) (hr : r.Every (fun r => r.noWrap = true))
    {s : Scanner} {h t : Bytes} (hb : Between s h t) (hh : Halts (fun k => eat rt G k r ⟨t, s.heap.janus⟩)) :
    ∃ n, read rt G n r s ≠ .timeout ∧ ∀ m, n ≤ m → read rt G m r s = read rt G n r s := by
  obtain ⟨n, x, hx, hn⟩ := hh
  have hne : read rt G n r s ≠ .timeout := fun he => by
    have := (read_eat rt G hG n r hr s.full s _ (sees_between hb)).timeout_iff.mp he
    exact hx ((hn n (Nat.le_refl _)).symm.trans this)
  refine ⟨n, hne, fun m hm => ?_⟩
  rcases read_le rt G n m hm r s with h | h
  · exact absurd h hne
  · exact h.symm

/-- With a well-formed grammar every read ends: some number of steps is enough, and further
steps do not change the outcome.  Readers that search (`Past`, `Body`, `BodyTail`) are admitted
on well-formed UTF-8 texts, where the other readers have to go over whole characters.  The
full claim would have no such condition; it is false, see `C36_violated`. -/
theorem C36_terminates_partial (rt : Rt) (G : Env) (nul : Nat → Bool) (srch : Bool) (rank : Nat → Nat) (hW : G.WF nul srch rank)
    (r : Reader) (hr : r.Every (Reader.progress nul srch)) (hw : r.Every (Reader.whole srch))
    (s : Scanner) (h t : Bytes) (hb : Between s h t)
    (hc : srch = true → (∃ cs, t = encText cs) ∧ ∀ i, ∃ cs, s.heap.janus i = encText cs) :
    ∃ n, read rt G n r s ≠ .timeout ∧ ∀ m, n ≤ m → read rt G m r s = read rt G n r s := by
  refine halts_read (hW.progress.imp fun _ h => h.noWrap) (hr.imp fun _ h => h.noWrap) hb ?_
  have sound : ∀ {r : Reader}, r.Every (Reader.progress nul srch) → r.Every (Reader.whole srch) →
      r.Every (Reader.sound nul srch srch (fun _ => srch = true) (fun _ => True)) := fun h1 h2 =>
    (h1.and h2).imp fun r h => ⟨h.1, h.2, by cases r <;> first | trivial | exact h.1⟩
  have : ∃ R, ∀ j ∈ r.left nul, rank j < R := by
    generalize r.left nul = l
    induction l with
    | nil => exact ⟨0, by simp⟩
    | cons x l ih =>
      obtain ⟨R, hR⟩ := ih
      refine ⟨max R (rank x + 1), fun j hj => ?_⟩
      rcases List.mem_cons.mp hj with rfl | hj
      · omega
      · have := hR j hj; omega
  obtain ⟨R, hR⟩ := this
  exact eat_halts rt (K := fun _ => True) (base := fun _ => False) (fun _ _ _ _ => trivial)
    (fun e => by subst e; exact goes_chars _) (fun _ h => .inl ⟨h, fun _ _ _ _ => trivial⟩)
    (fun i nm c hi _ _ => sound (hW.progress.get hi) (hW.whole.get hi)) hW.whole hW.nulls (fun i nm c hi _ _ => hW.ranks i nm c hi)
    (fun i h => h.elim) _ R r (sound hr hw) hR ⟨t, s.heap.janus⟩ ⟨fun e => ⟨(hc e).1, (hc e).2⟩, trivial⟩ (Nat.le_refl _)

/-! ### the claim for all texts is false -/

theorem eat_rune_bad (n : Nat) (j : Nat → Bytes) (rt : Rt) (G : Env) :
    eat rt G n (.rune 97) ⟨[0xFF], j⟩ = .timeout ∨ eat rt G n (.rune 97) ⟨[0xFF], j⟩ = .ret (false, ⟨[0xFF], j⟩) := by
  cases n with
  | zero => exact .inl rfl
  | succ n => exact .inr rfl

theorem eatPast_stuck {f : EatFunc} {st : St} (hn : st.rest ≠ []) (hs : eatStep st.rest = (false, st.rest))
    (hf : f st = .timeout ∨ f st = .ret (false, st)) : ∀ n, eatPast f n st = .timeout
  | 0 => rfl
  | n + 1 => by
    unfold eatPast
    rw [if_neg hn]
    rcases hf with h | h
    · rw [h]; rfl
    · rw [h]
      simp only [Exec.bind_ret, Bool.false_eq_true, if_false]
      rw [hs]
      exact eatPast_stuck hn hs (.inr h) n

theorem eatBody_stuck {b f : EatFunc} {t0 : Bytes} {st : St} (hn : st.rest ≠ []) (hs : eatStep st.rest = (false, st.rest))
    (hf : f st = .timeout ∨ f st = .ret (false, st)) : ∀ n, eatBody b f t0 n st = .timeout
  | 0 => rfl
  | n + 1 => by
    unfold eatBody
    rw [if_neg hn]
    rcases hf with h | h
    · rw [h]; rfl
    · rw [h]
      simp only [Exec.bind_ret, Bool.false_eq_true, if_false]
      rw [hs]
      exact eatBody_stuck hn hs (.inr h) n

/-- The read is still going after any number of steps. -/
def Diverges (rt : Rt) (G : Env) (r : Reader) (t : Bytes) : Prop := ∀ n, read rt G n r (.new t Heap.empty) = .timeout

theorem diverges_of {rt : Rt} {G : Env} {r : Reader} (hG : G.Every (fun r => r.noWrap = true)) (hr : r.Every (fun r => r.noWrap = true))
    {t : Bytes} (h : ∀ n, eat rt G n r ⟨t, Heap.empty.janus⟩ = .timeout) : Diverges rt G r t := fun n =>
  (read_eat rt G hG n r hr t (.new t Heap.empty) _ ⟨rfl, ⟨[], rfl, rfl⟩, rfl⟩).timeout_iff.mpr (h n)

/-- `Past('a')`, `Body('b', 'a')` and `BodyTail('b', 'a')` on the single byte FF, for readers
without recursion or repetition: the search steps by the length of U+FFFD and never moves. -/
theorem C36_violated (rt : Rt) : Diverges rt [] (.past (.rune 97)) [0xFF] ∧
    Diverges rt [] (.body (.rune 98) (.rune 97)) [0xFF] ∧ Diverges rt [] (.bodyTail (.rune 98) (.rune 97)) [0xFF] := by
  have nw : ∀ r : Reader, r.everyB Reader.noWrap = true → r.Every (fun r => r.noWrap = true) := fun r h =>
    Reader.everyB_sound _ r h
  have hE : Env.Every (fun r => r.noWrap = true) [] := fun _ h => by cases h
  refine ⟨diverges_of hE (nw _ rfl) fun n => ?_, diverges_of hE (nw _ rfl) fun n => ?_, diverges_of hE (nw _ rfl) fun n => ?_⟩
  all_goals
    cases n with
    | zero => rfl
    | succ n =>
      simp only [eat]
      first
        | rw [eatPast_stuck (by simp) (by decide) (eat_rune_bad n _ rt [])]; rfl
        | rw [eatBody_stuck (by simp) (by decide) (eat_rune_bad n _ rt [])]; rfl

/-! ### repetition of a reader that can succeed without consuming -/

theorem eatZom_spin {f : EatFunc} {st : St} (hf : f st = .timeout ∨ f st = .ret (true, st)) : ∀ n, eatZom f n st = .timeout
  | 0 => rfl
  | n + 1 => by
    unfold eatZom
    rcases hf with h | h
    · rw [h]; rfl
    · rw [h]
      simp only [Exec.bind_ret, if_true]
      exact eatZom_spin (.inr h) n

/-- The condition on repetitions is needed: `Zom(Opt('a'))` never ends, on any text that does
not start with `a`; neither does `Many(Not('a'))` at the end of a text. -/
theorem C36_repetition_needed (rt : Rt) : Diverges rt [] (.zom (.opt (.rune 97))) b!"b" ∧
    Diverges rt [] (.many (.not (.rune 97))) b!"" := by
  have nw : ∀ r : Reader, r.everyB Reader.noWrap = true → r.Every (fun r => r.noWrap = true) := fun r h =>
    Reader.everyB_sound _ r h
  have hE : Env.Every (fun r => r.noWrap = true) [] := fun _ h => by cases h
  refine ⟨diverges_of hE (nw _ rfl) fun n => ?_, diverges_of hE (nw _ rfl) fun n => ?_⟩
  all_goals
    cases n with
    | zero => rfl
    | succ n =>
      simp only [eat]
      rw [eatZom_spin]
      · rfl
      · cases n with
        | zero => exact .inl rfl
        | succ n => cases n with
          | zero => exact .inl rfl
          | succ n => exact .inr rfl

/-- The condition on left recursion is needed: the rule `A: A` never ends. -/
theorem C36_left_recursion_needed (rt : Rt) (t : Bytes) : Diverges rt [⟨b!"A", some (.rule 0)⟩] (.rule 0) t := by
  intro n
  induction n with
  | zero => rfl
  | succ n ih => exact ih

/-! ### a computable form of the conditions, and grammars that meet them -/

/-- The lists `nul` and `rank` as functions. -/
def nulOf (l : List Bool) (i : Nat) : Bool := l.getD i true
def rankOf (l : List Nat) (i : Nat) : Nat := l.getD i 0

def Reader.progressB (nul : Nat → Bool) (srch : Bool) : Reader → Bool
  | .zom c => !c.null nul
  | .many c => !c.null nul
  | .past _ => srch
  | .body _ _ => srch
  | .bodyTail _ _ => srch
  | .wrap _ _ => false
  | _ => true

def Reader.wholeB (srch : Bool) : Reader → Bool
  | .lit str => !srch || str.all (fun b => b < 128)
  | .fold _ => !srch
  | .int _ _ _ => !srch
  | .uint _ _ _ => !srch
  | _ => true

theorem progress_of_B {nul : Nat → Bool} {srch : Bool} {r : Reader} (h : r.progressB nul srch = true) : r.progress nul srch := by
  cases r <;> first | exact h | simpa [Reader.progressB, Reader.progress] using h | (cases h; done) | trivial

theorem whole_of_B {srch : Bool} {r : Reader} (h : r.wholeB srch = true) : r.whole srch := by
  cases r <;> first
    | trivial
    | simpa [Reader.wholeB, Reader.whole] using h
    | skip
  case lit str =>
    intro e
    subst e
    simp only [Reader.wholeB, Bool.not_true, Bool.false_or] at h
    exact ascii_text h

def Env.ruleB (nul : Nat → Bool) (rank : Nat → Nat) : Nat → List Rule → Bool
  | _, [] => true
  | i, ⟨_, none⟩ :: rs => Env.ruleB nul rank (i + 1) rs
  | i, ⟨_, some c⟩ :: rs => (!c.null nul || nul i) && (c.left nul).all (fun j => rank j < rank i) && Env.ruleB nul rank (i + 1) rs

theorem ruleB_sound {nul : Nat → Bool} {rank : Nat → Nat} : ∀ {l : List Rule} {k : Nat}, Env.ruleB nul rank k l = true →
    ∀ (i : Nat) (nm : Bytes) (c : Reader), l[i]? = some ⟨nm, some c⟩ →
      (c.null nul = true → nul (k + i) = true) ∧ ∀ j ∈ c.left nul, rank j < rank (k + i)
  | [], _, _, i, nm, c, hi => by simp at hi
  | ⟨nm', none⟩ :: l, k, h, i, nm, c, hi => by
    cases i with
    | zero => simp at hi
    | succ i =>
      simp only [List.getElem?_cons_succ] at hi
      have := ruleB_sound (k := k + 1) (l := l) h i nm c hi
      rwa [show k + 1 + i = k + (i + 1) by omega] at this
  | ⟨nm', some c'⟩ :: l, k, h, i, nm, c, hi => by
    simp only [Env.ruleB, Bool.and_eq_true] at h
    cases i with
    | zero =>
      simp only [List.getElem?_cons_zero, Option.some.injEq, Rule.mk.injEq] at hi
      obtain ⟨_, hc⟩ := hi
      subst hc
      simp only [Bool.or_eq_true, Bool.not_eq_true', List.all_eq_true, decide_eq_true_eq] at h
      refine ⟨fun hn => ?_, h.1.2⟩
      rcases h.1.1 with h | h
      · rw [hn] at h; cases h
      · exact h
    | succ i =>
      simp only [List.getElem?_cons_succ] at hi
      have := ruleB_sound (k := k + 1) (l := l) h.2 i nm c hi
      rwa [show k + 1 + i = k + (i + 1) by omega] at this

/-- A decision procedure for well-formedness. -/
def Env.wfB (G : Env) (nul : List Bool) (srch : Bool) (rank : List Nat) : Bool :=
  G.everyB (Reader.progressB (nulOf nul) srch) && G.everyB (Reader.wholeB srch) && Env.ruleB (nulOf nul) (rankOf rank) 0 G

theorem wfB_sound {G : Env} {nul : List Bool} {srch : Bool} {rank : List Nat} (h : G.wfB nul srch rank = true) :
    G.WF (nulOf nul) srch (rankOf rank) := by
  simp only [Env.wfB, Bool.and_eq_true] at h
  refine ⟨(Env.everyB_sound h.1.1).imp fun _ => progress_of_B, (Env.everyB_sound h.1.2).imp fun _ => whole_of_B,
    fun i nm c hi => ?_, fun i nm c hi => ?_⟩
  · have := (ruleB_sound h.2 i nm c hi).1
    rwa [Nat.zero_add] at this
  · have := (ruleB_sound h.2 i nm c hi).2
    rwa [Nat.zero_add] at this

def Mxt.nul : List Bool := [false, false, false, false, false, false, true, false, false, true, true, false, false, false]
def Mxt.rank : List Nat := [3, 2, 1, 0, 1, 2, 0, 0, 0, 2, 2, 1, 0, 0]

theorem Mxt.wf : Mxt.env.WF (nulOf Mxt.nul) true (rankOf Mxt.rank) := wfB_sound (by decide)

/-- Reading MXT ends on every well-formed UTF-8 text. -/
theorem C36_mxt (rt : Rt) (cs : List Char) : ∃ n, read rt Mxt.env n Mxt.reader (.new (encText cs) Heap.empty) ≠ .timeout ∧
    ∀ m, n ≤ m → read rt Mxt.env m Mxt.reader (.new (encText cs) Heap.empty) = read rt Mxt.env n Mxt.reader (.new (encText cs) Heap.empty) :=
  C36_terminates_partial rt _ _ _ _ Mxt.wf _ ((Reader.everyB_sound (Reader.progressB (nulOf Mxt.nul) true) Mxt.reader rfl).imp fun _ => progress_of_B)
    ((Reader.everyB_sound (Reader.wholeB true) Mxt.reader rfl).imp fun _ => whole_of_B) _ [] _ ⟨rfl, rfl⟩
    fun _ => ⟨⟨cs, rfl⟩, fun _ => ⟨[], rfl⟩⟩

/-- A recursive grammar on arbitrary bytes: `A: '(' A ')' | 'x'*`. -/
example (rt : Rt) (t : Bytes) : ∃ n, read rt [⟨b!"A", some (.any [.seq [.rune 40, .rule 0, .rune 41], .zom (.rune 120)])⟩] n (.rule 0)
    (.new t Heap.empty) ≠ .timeout := by
  obtain ⟨n, h, _⟩ := C36_terminates_partial rt [⟨b!"A", some (.any [.seq [.rune 40, .rule 0, .rune 41], .zom (.rune 120)])⟩]
    (nulOf [true]) false (rankOf [0]) (wfB_sound (by decide)) (.rule 0) (.mk (r := .rule 0) trivial (by simp [Reader.subs]))
    (.mk (r := .rule 0) trivial (by simp [Reader.subs])) (.new t Heap.empty) [] t ⟨rfl, rfl⟩ (by simp)
  exact ⟨n, h⟩
example : ∃ s', read exRt [⟨b!"A", some (.any [.seq [.rune 40, .rule 0, .rune 41], .zom (.rune 120)])⟩] 20 (.rule 0)
    (.new b!"((xx))" Heap.empty) = .ret (none, s') ∧ s'.pos = 6 := ⟨_, rfl, rfl⟩

/-- All kinds of parts that may be repeated. -/
def exRepeats : Reader := .zom (.any [.times 1 (.rune 97), .map 0 (.lit b!"b"), .pick b!"p" 0 (.rune 99), .monitor b!"m" 0 (.rune 100), .named b!"n" (.rune 101),
  .janusBegin 0 b!"j" (.rune 102), .seq [.opt (.rune 103), .rune 104], .skipSeq (.zom (.rune 32)) [.rune 105], .many (.between 48 57), .grammar b!"g" (.rune 106), .ruleName (.rune 107)])

example (rt : Rt) (t : Bytes) : ∃ n, read rt [] n exRepeats (.new t Heap.empty) ≠ .timeout := by
  obtain ⟨n, h, _⟩ := C36_terminates_partial rt [] (nulOf []) false (rankOf []) (wfB_sound (by decide)) exRepeats
    ((Reader.everyB_sound (Reader.progressB (nulOf []) false) _ (by decide)).imp fun _ => progress_of_B)
    ((Reader.everyB_sound (Reader.wholeB false) _ (by decide)).imp fun _ => whole_of_B) (.new t Heap.empty) [] t ⟨rfl, rfl⟩ (by simp)
  exact ⟨n, h⟩
example : ∃ s', read exRt [] 30 exRepeats (.new b!"ab77cd efgh i jk" Heap.empty) = .ret (none, s') ∧ s'.pos = 6 := ⟨_, rfl, rfl⟩

end Tok
