/-
C109 A client can change what a grammar picks and leave the rest of the text as it is.
-/
import Verif.Spec.Rewrite
import Verif.Props.C103Flat
import Verif.Props.C108

namespace Tok
open Spec

theorem get_bytes {s : Scanner} {a b : Int} (h0 : 0 ≤ a) (h1 : a ≤ b) (h2 : b ≤ (s.full.length : Int)) : s.get ⟨a, b⟩ = .ret (bytesFrom s.full a b) :=
  if_pos ⟨h0, h1, h2⟩

theorem bytesFrom_nil (t : Bytes) (a b : Int) (h : ¬ b - a > 0) : bytesFrom t a b = [] := by
  unfold bytesFrom
  rw [show (b - a).toNat = 0 by omega, List.take_zero]

theorem loop_splice {s : Scanner} (f : Bytes → Bytes → Bytes) : ∀ (l : List Segment) (a : Int) (res : List Segment), 0 ≤ a → a ≤ (s.full.length : Int) →
    (∀ g ∈ l, a ≤ g.tok.frm ∧ g.tok.frm ≤ g.tok.to ∧ g.tok.to ≤ (s.full.length : Int)) → Rowed l →
    ∃ out rest, Segment.segmentateLoop ⟨[], ⟨a, s.full.length⟩⟩ res l = (res ++ out, .ok rest) ∧
      editText s f (if rest.tok.len > 0 then out ++ [rest] else out) = .ret (splice f s.full a l)
  | [], a, res, h0, h1, _, _ => by
    refine ⟨[], ⟨[], ⟨a, s.full.length⟩⟩, by simp [Segment.segmentateLoop], ?_⟩
    have e : s.full.drop a.toNat = bytesFrom s.full a s.full.length := by
      unfold bytesFrom
      rw [List.take_of_length_le]
      rw [List.length_drop]
      omega
    rw [splice, e]
    unfold Token.len
    split
    · rw [List.nil_append, editText, get_bytes h0 h1 (Int.le_refl _)]
      simp [editText, Segment.known]
    · rw [bytesFrom_nil _ _ _ (by assumption)]
      rfl
  | g :: l, a, res, h0, h1, hl, hr => by
    obtain ⟨g1, g2, g3⟩ := hl g List.mem_cons_self
    obtain ⟨r1, r2⟩ := List.pairwise_cons.mp hr
    have hc : Token.covers ⟨a, s.full.length⟩ g.tok = true := by simp [Token.covers, g1, g3]
    have hsp : Segment.split ⟨[], ⟨a, s.full.length⟩⟩ g = (⟨[], ⟨a, g.tok.frm⟩⟩, ⟨[], ⟨g.tok.to, s.full.length⟩⟩) := by
      unfold Segment.split Token.split makeToken
      simp only
      rw [if_neg (by omega), if_neg (by omega)]
    obtain ⟨out, rest, e1, e2⟩ := loop_splice f l g.tok.to ((if (⟨a, g.tok.frm⟩ : Token).len > 0 then res ++ [⟨[], ⟨a, g.tok.frm⟩⟩] else res) ++ [g])
      (by omega) g3 (fun x hx => ⟨r1 x hx, (hl x (List.mem_cons_of_mem _ hx)).2⟩) r2
    refine ⟨(if (⟨a, g.tok.frm⟩ : Token).len > 0 then [⟨[], ⟨a, g.tok.frm⟩⟩] else []) ++ g :: out, rest, ?_, ?_⟩
    · unfold Segment.segmentateLoop
      simp only [hc, Bool.not_true, Bool.false_eq_true, if_false, hsp]
      rw [e1]
      split <;> simp
    · have e3 : editText s f (g :: if rest.tok.len > 0 then out ++ [rest] else out) =
          .ret ((if g.info = [] then bytesFrom s.full g.tok.frm g.tok.to else f g.info (bytesFrom s.full g.tok.frm g.tok.to)) ++ splice f s.full g.tok.to l) := by
        rw [editText, show s.get g.tok = .ret (bytesFrom s.full g.tok.frm g.tok.to) from get_bytes (Int.le_trans h0 g1) g2 g3]
        simp only [Exec.bind_ret, e2, Exec.pure_eq, Segment.known]
        by_cases h : g.info = [] <;> simp [h]
      have e4 : ∀ xs : List Segment, (if rest.tok.len > 0 then xs ++ g :: out ++ [rest] else xs ++ g :: out) =
          xs ++ g :: if rest.tok.len > 0 then out ++ [rest] else out := by
        intro xs; split <;> simp
      rw [e4, splice]
      split
      · rw [List.singleton_append, editText, get_bytes h0 g1 (by omega)]
        simp only [Exec.bind_ret, e3, Exec.pure_eq, Segment.known, List.isEmpty_nil, Bool.not_true, Bool.false_eq_true, if_false]
      · rename_i hn
        rw [List.nil_append, e3, bytesFrom_nil _ _ _ hn, List.nil_append]

theorem rowing_row (rt : Rt) (G : Env) (b : Nat) (D : Reader → Prop) (hD : ∀ r, D r → r.noPick b ∧ r.tracked G b)
    (hR : ∀ (i : Nat) (nm : Bytes) (c : Reader), D (.rule i) → G[i]? = some ⟨nm, some c⟩ → c.Every D)
    (hG : G.Every (fun r => r.rows G b ∧ r.picksOnly b D)) (s : Scanner) (h : Rowing rt G b D s) :
    (∀ g ∈ s.heap.baskets b, 0 ≤ g.tok.frm ∧ g.tok.frm ≤ g.tok.to ∧ g.tok.to ≤ (s.full.length : Int)) ∧ Rowed (s.heap.baskets b) := by
  obtain ⟨parts, h1, _⟩ := C103_flat rt G b D hD hR hG s h
  have hl := (C41_always_partial rt G b (hG.imp fun _ h => rows_tracked h.1) s h.history).1
  have hl : ∀ g ∈ s.heap.baskets b, 0 ≤ g.tok.frm ∧ g.tok.frm ≤ g.tok.to ∧ g.tok.to ≤ (s.full.length : Int) :=
    fun g hg => by have := hl g hg; exact ⟨this.1, this.2.1, this.2.2.2⟩
  exact ⟨hl, (segmentate_iff s _ hl).mp (by rw [h1])⟩

/-- At every moment of every history of reads and moves with a grammar in which no pick is read inside another one (see `C103_flat`), `Segmentate` takes
the picked segments, and writing the parts one after the other, the known ones changed by a function, gives the text with exactly the picked bytes changed. -/
theorem C109_splice_partial (rt : Rt) (G : Env) (b : Nat) (D : Reader → Prop) (hD : ∀ r, D r → r.noPick b ∧ r.tracked G b)
    (hR : ∀ (i : Nat) (nm : Bytes) (c : Reader), D (.rule i) → G[i]? = some ⟨nm, some c⟩ → c.Every D)
    (hG : G.Every (fun r => r.rows G b ∧ r.picksOnly b D)) (s : Scanner) (h : Rowing rt G b D s) (f : Bytes → Bytes → Bytes) :
    ∃ parts, s.segmentate (s.heap.baskets b) = (parts, none) ∧ editText s f parts = .ret (splice f s.full 0 (s.heap.baskets b)) := by
  obtain ⟨hl, hr⟩ := rowing_row rt G b D hD hR hG s h
  obtain ⟨out, rest, e1, e2⟩ := loop_splice (s := s) f (s.heap.baskets b) 0 [] (Int.le_refl _) (by omega) hl hr
  refine ⟨_, ?_, e2⟩
  unfold Scanner.segmentate Segment.segmentate makeToken
  rw [if_neg (by omega)]
  rw [e1]
  simp only [List.nil_append]

/-- What the client does with any text: if the text is read, it gives the text with exactly the picked bytes changed; if not, it gives nothing; and it
panics or does not end if the read does.

Missing: picks in the first reader of a `Body`, for which the claim is false (`C109_body_violated`). -/
theorem C109_client_partial (rt : Rt) (G : Env) (b : Nat) (D : Reader → Prop) (hD : ∀ r, D r → r.noPick b ∧ r.tracked G b)
    (hR : ∀ (i : Nat) (nm : Bytes) (c : Reader), D (.rule i) → G[i]? = some ⟨nm, some c⟩ → c.Every D)
    (hG : G.Every (fun r => r.rows G b ∧ r.picksOnly b D)) (r : Reader) (hr : r.Every (fun r => r.rows G b ∧ r.picksOnly b D))
    (f : Bytes → Bytes → Bytes) (fuel : Nat) (t : Bytes) :
    rewriteText rt fuel G r b f t = match read rt G fuel r ((Scanner.new t Heap.empty).newBasket b) with
      | .ret (none, s) => .ret (some (splice f t 0 (s.heap.baskets b)))
      | .ret (some _, _) => .ret none
      | .panic => .panic
      | .timeout => .timeout := by
  have hsafe := (grew_frame rt G b).read (fun _ _ _ _ hi => (hG.get hi).imp fun _ h => rows_tracked h.1) fuel r (hr.imp fun _ h => rows_tracked h.1)
    ((Scanner.new t Heap.empty).newBasket b) ((History.start (rt := rt) (G := G) (b := b) _ (new_inside t Heap.empty)).follows (hG.imp fun _ h => rows_tracked h.1)).toCoupled
  unfold rewriteText Scanner.use
  rcases h : read rt G fuel r ((Scanner.new t Heap.empty).newBasket b) with ⟨_ | e, s⟩ | _ | _
  · obtain ⟨parts, h1, h2⟩ := C109_splice_partial rt G b D hD hR hG s (.read fuel r _ none s (.start _ (new_inside _ _)) hr h) f
    have hf : s.full = t := (hsafe _ h).1.2.1
    rw [hf] at h2
    simp only [Exec.bind_ret, Option.isSome_none, Bool.false_eq_true, if_false, Exec.pure_eq, h1, h2]
  · simp only [Exec.bind_ret, Option.isSome_some, if_true, Exec.pure_eq]
  · rfl
  · rfl

/-- A function that changes nothing gives the text. -/
theorem splice_same (f : Bytes → Bytes → Bytes) (t : Bytes) (hf : ∀ nm x, f nm x = x) : ∀ (l : List Segment) (a : Int), 0 ≤ a →
    (∀ g ∈ l, a ≤ g.tok.frm ∧ g.tok.frm ≤ g.tok.to ∧ g.tok.to ≤ (t.length : Int)) → Rowed l → splice f t a l = t.drop a.toNat
  | [], _, _, _, _ => rfl
  | g :: l, a, h0, hl, hr => by
    obtain ⟨g1, g2, g3⟩ := hl g List.mem_cons_self
    obtain ⟨r1, r2⟩ := List.pairwise_cons.mp hr
    have g4 : 0 ≤ g.tok.to := Int.le_trans h0 (Int.le_trans g1 g2)
    rw [splice, splice_same f t hf l g.tok.to g4 (fun x hx => ⟨r1 x hx, (hl x (List.mem_cons_of_mem _ hx)).2⟩) r2, hf, ite_self]
    have step : ∀ {x y : Int}, 0 ≤ x → x ≤ y → bytesFrom t x y ++ t.drop y.toNat = t.drop x.toNat := fun {x y} hx hy => by
      unfold bytesFrom
      rw [show y.toNat = x.toNat + (y - x).toNat by omega, ← List.drop_drop]
      exact List.take_append_drop _ _
    rw [step (Int.le_trans h0 g1) g2, step h0 g1]

/-- The length of what is written: that of the text, less the picked bytes, plus those written for them. -/
theorem splice_length (f : Bytes → Bytes → Bytes) (t : Bytes) : ∀ (l : List Segment) (a : Int), 0 ≤ a → a ≤ (t.length : Int) →
    (∀ g ∈ l, a ≤ g.tok.frm ∧ g.tok.frm ≤ g.tok.to ∧ g.tok.to ≤ (t.length : Int)) → (∀ g ∈ l, g.info ≠ []) → Rowed l →
    ((splice f t a l).length : Int) + (l.map fun g => g.tok.len).sum =
      t.length - a + (l.map fun g => ((f g.info (bytesFrom t g.tok.frm g.tok.to)).length : Int)).sum
  | [], a, h0, h1, _, _, _ => by
    simp only [splice, List.length_drop, List.map_nil, List.sum_nil]
    omega
  | g :: l, a, h0, h1, hl, hi, hr => by
    obtain ⟨g1, g2, g3⟩ := hl g List.mem_cons_self
    obtain ⟨r1, r2⟩ := List.pairwise_cons.mp hr
    have g4 : 0 ≤ g.tok.to := Int.le_trans h0 (Int.le_trans g1 g2)
    have ih := splice_length f t l g.tok.to g4 g3 (fun x hx => ⟨r1 x hx, (hl x (List.mem_cons_of_mem _ hx)).2⟩)
      (fun x hx => hi x (List.mem_cons_of_mem _ hx)) r2
    have hb : (bytesFrom t a g.tok.frm).length = (g.tok.frm - a).toNat := by
      unfold bytesFrom
      rw [List.length_take, List.length_drop]
      generalize g.tok.frm = x at *
      generalize g.tok.to = y at *
      omega
    rw [splice, if_neg (hi g List.mem_cons_self), List.length_append, List.length_append, hb, List.map_cons, List.map_cons, List.sum_cons, List.sum_cons]
    simp only [Token.len] at *
    generalize g.tok.frm = x at *
    generalize g.tok.to = y at *
    omega

/-- A function that changes nothing gives the text, at every moment of every such history. -/
theorem C109_same_partial (rt : Rt) (G : Env) (b : Nat) (D : Reader → Prop) (hD : ∀ r, D r → r.noPick b ∧ r.tracked G b)
    (hR : ∀ (i : Nat) (nm : Bytes) (c : Reader), D (.rule i) → G[i]? = some ⟨nm, some c⟩ → c.Every D)
    (hG : G.Every (fun r => r.rows G b ∧ r.picksOnly b D)) (s : Scanner) (h : Rowing rt G b D s)
    (f : Bytes → Bytes → Bytes) (hf : ∀ nm x, f nm x = x) : splice f s.full 0 (s.heap.baskets b) = s.full := by
  obtain ⟨hl, hr⟩ := rowing_row rt G b D hD hR hG s h
  exact splice_same f s.full hf _ 0 (Int.le_refl _) hl hr

/-- The text grows by what is written for the picked bytes, less these. -/
theorem C109_length_partial (rt : Rt) (G : Env) (b : Nat) (D : Reader → Prop) (hD : ∀ r, D r → r.noPick b ∧ r.tracked G b)
    (hR : ∀ (i : Nat) (nm : Bytes) (c : Reader), D (.rule i) → G[i]? = some ⟨nm, some c⟩ → c.Every D)
    (hG : G.Every (fun r => r.rows G b ∧ r.picksOnly b D)) (s : Scanner) (h : Rowing rt G b D s)
    (f : Bytes → Bytes → Bytes) (hi : ∀ g ∈ s.heap.baskets b, g.info ≠ []) :
    ((splice f s.full 0 (s.heap.baskets b)).length : Int) + ((s.heap.baskets b).map fun g => g.tok.len).sum =
      s.full.length + ((s.heap.baskets b).map fun g => ((f g.info (bytesFrom s.full g.tok.frm g.tok.to)).length : Int)).sum := by
  obtain ⟨hl, hr⟩ := rowing_row rt G b D hD hR hG s h
  rw [splice_length f s.full _ 0 (Int.le_refl _) (by omega) hl hi hr, Int.sub_zero]

/-! ### Lua -/

namespace Lua

/-- The Lua grammar after `Pick(basket)` of the rules for names, numerals, strings and comments. -/
def wordEnv : Env := Env.pickSome [iName, iNumeral, iLiteralString, iComment] 0 0 env

/-- A reader that picks nothing and uses no rules. -/
def Aside (r : Reader) : Prop := (r.noPick 0 ∧ r.trackedB = true) ∧ ∀ i, r ≠ .rule i

def asideB (r : Reader) : Bool := r.trackedB && match r with | .pick _ _ _ => false | .rule _ => false | _ => true

theorem aside_of_B {r : Reader} (h : asideB r = true) : Aside r := by
  simp only [asideB, Bool.and_eq_true] at h
  refine ⟨⟨?_, h.1⟩, ?_⟩
  · cases r <;> first | trivial | (cases h.2; done) | cases h.1
  · rintro i rfl
    cases h.2

theorem word_flat : wordEnv.Every (fun r => r.trackedB = true ∧ r.picksOnly 0 Aside) :=
  (Env.everyB_sound (p := fun r => r.trackedB && match r with | .pick _ _ c => c.everyB asideB | _ => true) (by decide +kernel)).imp fun r h => by
    simp only [Bool.and_eq_true] at h
    refine ⟨h.1, ?_⟩
    cases r <;> first | trivial | skip
    exact fun _ => (Reader.everyB_sound _ _ h.2).imp fun _ => aside_of_B

end Lua

/-- A client that changes the names, strings and comments of a Lua script (the rule for numerals is picked too, but the grammar never reads it: C110_lua): whatever the text, it gives the text with exactly these bytes changed
if the grammar reads it, and nothing otherwise. -/
theorem C109_lua (rt : Rt) (f : Bytes → Bytes → Bytes) (fuel : Nat) (t : Bytes) :
    rewriteText rt fuel Lua.wordEnv Lua.reader 0 f t = match read rt Lua.wordEnv fuel Lua.reader ((Scanner.new t Heap.empty).newBasket 0) with
      | .ret (none, s) => .ret (some (splice f t 0 (s.heap.baskets 0)))
      | .ret (some _, _) => .ret none
      | .panic => .panic
      | .timeout => .timeout := by
  refine C109_client_partial rt Lua.wordEnv 0 Lua.Aside (fun _ h => ⟨h.1.1, tracked_of_B h.1.2⟩) (fun i _ _ h => absurd rfl (h.2 i)) (Lua.word_flat.imp fun _ h => ⟨rows_of_B h.1, h.2⟩) Lua.reader ?_ f fuel t
  exact (Reader.everyB_sound (fun r => r.trackedB && match r with | .pick _ _ _ => false | _ => true) Lua.reader (by decide)).imp fun r h => by
    simp only [Bool.and_eq_true] at h
    refine ⟨rows_of_B h.1, ?_⟩
    cases r <;> first | trivial | (cases h.2; done)

set_option maxRecDepth 20000 in
/-- Renaming a variable of a script; the name in the string and in the comment in front stay. -/
example : rewriteText exRt 100 Lua.wordEnv Lua.reader 0 (fun nm x => if nm = b!"Name" ∧ x = b!"a" then b!"total" else x) b!"--a\na = 1 b = a + \"a\"" =
    .ret (some b!"--a\ntotal = 1 b = total + \"a\"") := by decide +kernel

set_option maxRecDepth 20000 in
/-- Behind an expression the grammar reads a comment as two minus signs (C72_minus_violated), and such a client writes into it. -/
theorem C109_comment_violated :
    rewriteText exRt 100 Lua.wordEnv Lua.reader 0 (fun nm x => if nm = b!"Name" ∧ x = b!"a" then b!"total" else x) b!"a = 1 --a\nb = 2" =
      .ret (some b!"total = 1 --total\nb = 2") := by decide +kernel

/-- The client of C108 is this one. -/
theorem C109_json (rt : Rt) (fuel : Nat) (names : List Bytes) (f : Bytes → Bytes → Bytes) (t : Bytes) :
    jsonEdit rt fuel names f t = rewriteText rt fuel (Json.editEnv names) Json.reader 0 f t := rfl

end Tok
