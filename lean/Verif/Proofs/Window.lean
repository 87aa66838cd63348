/-
What a read does not look at does not matter.
-/
import Verif.Spec.Window
import Verif.Model.Disturb
import Verif.Proofs.Frame
import Verif.Proofs.Does

namespace Tok.Window
open Spec

variable (p x y : Bytes) (w id : Nat) (lo : Int) (jz : Prop)

/-- The same scanner with another text behind `p`. -/
def swap (s : Scanner) : Scanner := { s with full := p ++ y }

/-- The scanner is at least `w` bytes in front of the end of `p`.  If there are `JanusEnd` readers, it is not in front of `lo`,
and they keep no text that is longer than `w`. -/
structure Here (s : Scanner) : Prop where
  full : s.full = p ++ x
  tracker : s.tracker = some (.custom id)
  pos : s.pos + w ≤ p.length
  lo : jz → lo ≤ s.pos
  jan : jz → ∀ k, (s.heap.janus k).length ≤ w

/-- The tracker was told a place that is nearer to the end of `p`, or in front of `lo`. -/
def Wide (h : Heap) : Prop := ∃ m ∈ h.tracks id, (p.length : Int) < m + w ∨ jz ∧ m < lo

/-- A short text, and no longer text is kept. -/
def Short (s : Scanner) : Prop := s.full.length ≤ w ∧ ∀ k, (s.heap.janus k).length ≤ w

/-- Trackers are told more and more, and of a short text no longer text is kept. -/
structure More (s s' : Scanner) : Prop where
  told : ∀ m ∈ s.heap.tracks id, m ∈ s'.heap.tracks id
  short : Short w s → Short w s'

/-- A call with this. -/
def Grow {α : Type} (f : Scanner → Exec (α × Scanner)) : Prop := ∀ s, RetE (fun b => More w id s b.2) (f s)

/-- A call that does the same on the other text, as long as the scanner does not come too near to the end of `p`. -/
def Same {α : Type} (f : Scanner → Exec (α × Scanner)) : Prop :=
  ∀ s, Here p x w id lo jz s → ∀ a s1, f s = .ret (a, s1) → Wide p w id lo jz s1.heap ∨ Here p x w id lo jz s1 ∧ f (swap p y s) = .ret (a, swap p y s1)

/-- Both. -/
structure Win {α : Type} (f : Scanner → Exec (α × Scanner)) : Prop where
  grow : Grow w id f
  same : ∀ s, Here p x w id lo jz s → ∀ a s1, f s = .ret (a, s1) → Wide p w id lo jz s1.heap ∨ Here p x w id lo jz s1 ∧ f (swap p y s) = .ret (a, swap p y s1)

variable {p x y w id lo jz} {α β : Type}

theorem More.refl (s : Scanner) : More w id s s := ⟨fun _ h => h, fun h => h⟩
theorem More.trans {s s' s'' : Scanner} (h : More w id s s') (h' : More w id s' s'') : More w id s s'' :=
  ⟨fun m hm => h'.told m (h.told m hm), fun hs => h'.short (h.short hs)⟩

theorem Grow.bind {f : Scanner → Exec (α × Scanner)} {g : α × Scanner → Exec (β × Scanner)} (hf : Grow w id f) (hg : ∀ a, Grow w id fun s => g (a, s)) :
    Grow w id fun s => f s >>= g := fun s =>
  (hf s).bind fun b _ hb => (hg b.1 b.2).mono fun _ _ h => hb.trans h

theorem Grow.ret {f : Scanner → α × Scanner} (h : ∀ s, More w id s (f s).2) : Grow w id fun s => .ret (f s) := fun s => .ret (h s)

theorem notify_short (s : Scanner) (h : Short w s) : Short w s.notify := by
  unfold Scanner.notify
  split <;> exact h

theorem notify_grow (s : Scanner) : More w id s s.notify := by
  refine ⟨fun m hm => ?_, notify_short s⟩
  unfold Scanner.notify
  split
  · exact hm
  · exact hm
  · rename_i k _
    simp only [upd]
    split
    · rename_i h; subst h; exact List.mem_append_left _ hm
    · exact hm

theorem toMarker_all (s : Scanner) (m : Int) : s.toMarker m = (true, s.at m) := by
  unfold Scanner.toMarker
  rw [if_neg (by simp; omega)]
  rfl

theorem at_grow (s : Scanner) (k : Int) : More w id s (s.at k) :=
  ⟨(notify_grow (w := w) { s with pos := k }).told, (notify_grow (id := id) { s with pos := k }).short⟩

theorem Wide.mono {h k : Heap} (hw : Wide p w id lo jz h) (hm : ∀ m ∈ h.tracks id, m ∈ k.tracks id) : Wide p w id lo jz k :=
  let ⟨m, h1, h2⟩ := hw
  ⟨m, hm m h1, h2⟩

theorem at_here {s : Scanner} (h : Here p x w id lo jz s) (m : Int) :
    Wide p w id lo jz (s.at m).heap ∨ Here p x w id lo jz (s.at m) ∧ (swap p y s).at m = swap p y (s.at m) := by
  have hh : (s.at m) = { s with pos := m, heap := { s.heap with tracks := upd s.heap.tracks id (s.heap.tracks id ++ [m]) } } := by
    unfold Scanner.at Scanner.notify
    simp only [h.tracker]
  have hh' : ((swap p y s).at m) = { (swap p y s) with pos := m, heap := { s.heap with tracks := upd s.heap.tracks id (s.heap.tracks id ++ [m]) } } := by
    unfold Scanner.at Scanner.notify
    simp only [swap, h.tracker]
  by_cases hm : m + w ≤ p.length
  · by_cases hl : jz ∧ m < lo
    · left
      rw [hh]
      exact ⟨m, by simp [upd], .inr hl⟩
    · right
      rw [hh', hh]
      exact ⟨⟨h.full, h.tracker, hm, fun hz => Int.not_lt.mp fun h => hl ⟨hz, h⟩, h.jan⟩, rfl⟩
  · left
    rw [hh]
    exact ⟨m, by simp [upd], .inl (by omega)⟩

namespace Win

theorem congr {f g : Scanner → Exec (α × Scanner)} (hf : Win p x y w id lo jz f) (h : ∀ s, g s = f s) : Win p x y w id lo jz g := by
  have : g = f := funext h
  rw [this]; exact hf

theorem bind {f : Scanner → Exec (α × Scanner)} {g : α × Scanner → Exec (β × Scanner)} (hf : Win p x y w id lo jz f) (hg : ∀ a, Win p x y w id lo jz fun s => g (a, s)) :
    Win p x y w id lo jz fun s => f s >>= g where
  grow := hf.grow.bind fun a => (hg a).grow
  same s hs b s2 h := by
    obtain ⟨⟨a, s1⟩, h1, h2⟩ := Exec.bind_eq_ret.mp h
    rcases hf.same s hs a s1 h1 with hw | ⟨hh, he⟩
    · exact .inl (hw.mono ((hg a).grow s1 _ h2).told)
    · rcases (hg a).same s1 hh b s2 h2 with hw | ⟨hh2, he2⟩
      · exact .inl hw
      · exact .inr ⟨hh2, by simp only [he, Exec.bind_ret]; exact he2⟩

/-- A step that changes neither place nor what trackers were told. -/
theorem step {f : Scanner → α × Scanner} (h1 : ∀ s, (f s).2.full = s.full ∧ (f s).2.pos = s.pos ∧ (f s).2.tracker = s.tracker ∧ (f s).2.heap.tracks id = s.heap.tracks id ∧
      ((∀ k, (s.heap.janus k).length ≤ w) → ∀ k, ((f s).2.heap.janus k).length ≤ w))
    (h2 : ∀ s, f (swap p y s) = ((f s).1, swap p y (f s).2)) : Win p x y w id lo jz fun s => .ret (f s) where
  grow := Grow.ret fun s => ⟨fun m hm => by rw [(h1 s).2.2.2.1]; exact hm, fun h => ⟨by rw [(h1 s).1]; exact h.1, (h1 s).2.2.2.2 h.2⟩⟩
  same s hs a s1 h := by
    cases h' : f s with
    | mk b s2 =>
      simp only [h'] at h
      cases h
      obtain ⟨e1, e2, e3, _, e5⟩ := h1 s
      rw [h'] at e1 e2 e3 e5
      refine .inr ⟨⟨e1.trans hs.full, e3.trans hs.tracker, by rw [e2]; exact hs.pos, fun hz => by rw [e2]; exact hs.lo hz, fun hz => e5 (hs.jan hz)⟩, ?_⟩
      simp only [h2, h']

theorem pure (a : α) : Win p x y w id lo jz fun s => .ret (a, s) := step (fun _ => ⟨rfl, rfl, rfl, rfl, fun h => h⟩) fun _ => rfl
theorem panic : Win p x y w id lo jz fun _ => (.panic : Exec (α × Scanner)) := ⟨fun _ => .panic, fun _ _ _ _ h => by cases h⟩
theorem timeout : Win p x y w id lo jz fun _ => (.timeout : Exec (α × Scanner)) := ⟨fun _ => .timeout, fun _ _ _ _ h => by cases h⟩

theorem goto (a : α) (m : Int) : Win p x y w id lo jz fun s => .ret (a, s.at m) where
  grow s := .ret (at_grow s m)
  same s hs b s1 h := by
    cases h
    rcases at_here (y := y) hs m with hw | ⟨h1, h2⟩
    · exact .inl hw
    · exact .inr ⟨h1, by rw [h2]⟩

theorem pos' {g : Int → Scanner → Exec (α × Scanner)} (hg : ∀ m, Grow w id (g m)) (h : ∀ m, m + w ≤ (p.length : Int) → (jz → lo ≤ m) → Win p x y w id lo jz (g m)) :
    Win p x y w id lo jz fun s => g s.pos s where
  grow s := hg s.pos s
  same s hs a s1 e := (h s.pos hs.pos hs.lo).same s hs a s1 e

theorem pos {g : Int → Scanner → Exec (α × Scanner)} (h : ∀ m, Win p x y w id lo jz (g m)) : Win p x y w id lo jz fun s => g s.pos s :=
  pos' (fun m => (h m).grow) fun m _ _ => h m

theorem heap {g : Heap → Scanner → Exec (α × Scanner)} (h : ∀ m, Win p x y w id lo jz (g m)) : Win p x y w id lo jz fun s => g s.heap s where
  grow s := (h s.heap).grow s
  same s hs a s1 e := (h s.heap).same s hs a s1 e

/-- The text that is kept. -/
theorem kept (k : Nat) {g : Bytes → Scanner → Exec (α × Scanner)} (hg : ∀ v, Grow w id (g v)) (h : ∀ v : Bytes, v.length ≤ w → Win p x y w id lo jz (g v)) (hz : jz) :
    Win p x y w id lo jz fun s => g (s.heap.janus k) s where
  grow s := hg _ s
  same s hs a s1 e := (h _ (hs.jan hz k)).same s hs a s1 e

/-- The text ahead, of which only the first `w` bytes matter. -/
theorem tail {g : Bytes → Scanner → Exec (α × Scanner)} (h : ∀ t, Win p x y w id lo jz (g t)) (hq : ∀ q : Bytes, w ≤ q.length → g (q ++ x) = g (q ++ y)) :
    Win p x y w id lo jz fun s => s.tail >>= fun t => g t s where
  grow s := (RetE.trivial (x := s.tail)).bind fun t _ _ => (h t).grow s
  same s hs a s1 e := by
    obtain ⟨t, h1, h2⟩ := Exec.bind_eq_ret.mp e
    rcases (h t).same s hs a s1 h2 with hw | ⟨hh, he⟩
    · exact .inl hw
    · refine .inr ⟨hh, ?_⟩
      have hp := hs.pos
      unfold Scanner.tail at h1 ⊢
      split at h1
      · rename_i hin
        cases h1
        have hle : s.pos.toNat ≤ p.length := by omega
        have e1 : s.full.drop s.pos.toNat = p.drop s.pos.toNat ++ x := by rw [hs.full, List.drop_append_of_le_length hle]
        rw [if_pos (by simp only [swap, List.length_append]; omega)]
        simp only [Exec.bind_ret]
        have e2 : (swap p y s).full.drop (swap p y s).pos.toNat = p.drop s.pos.toNat ++ y := by
          simp only [swap]; rw [List.drop_append_of_le_length hle]
        rw [e2, ← hq _ (by rw [List.length_drop]; omega), ← e1]
        exact he
      · cases h1

theorem move {k : Int} (hk : k ≤ w) : Win p x y w id lo jz fun s => .ret (s.move k) where
  grow s := by
    unfold Scanner.move
    simp only
    split
    · exact .ret (.refl s)
    · exact .ret (at_grow s _)
  same s hs a s1 e := by
    have hp := hs.pos
    unfold Scanner.move at e ⊢
    simp only at e ⊢
    have hl : (s.full.length : Int) = p.length + x.length := by rw [hs.full]; simp
    have hl' : ((swap p y s).full.length : Int) = p.length + y.length := by simp [swap]
    split at e
    · rename_i hc
      simp only [Bool.or_eq_true, decide_eq_true_eq] at hc
      cases e
      refine .inr ⟨hs, ?_⟩
      rw [if_pos]
      simp only [Bool.or_eq_true, decide_eq_true_eq]
      left
      show 0 > s.pos + k
      omega
    · rename_i hc
      simp only [Bool.or_eq_true, decide_eq_true_eq, not_or] at hc
      cases e
      rcases at_here (y := y) hs (s.pos + k) with hw | ⟨h1, h2⟩
      · exact .inl hw
      · refine .inr ⟨h1, ?_⟩
        rw [if_neg]
        · show Exec.ret (true, (swap p y s).at (s.pos + k)) = _
          rw [h2]; rfl
        · simp only [Bool.or_eq_true, decide_eq_true_eq, not_or, hl']
          have : (swap p y s).pos = s.pos := rfl
          omega

theorem toMarker (a : α) (m : Int) : Win p x y w id lo jz fun s => .ret (a, (s.toMarker m).2) :=
  (goto a m).congr fun s => by rw [toMarker_all]

theorem atEnd {f g : Scanner → Exec (α × Scanner)} (hw : 1 ≤ w) (hf : Grow w id f) (hg : Win p x y w id lo jz g) : Win p x y w id lo jz fun s => if s.atEnd then f s else g s where
  grow s := by
    show RetE _ (if s.atEnd then f s else g s)
    split
    · exact hf s
    · exact hg.grow s
  same s hs a s1 e := by
    have hp := hs.pos
    have h1 : s.atEnd = false := by
      unfold Scanner.atEnd; rw [hs.full, decide_eq_false_iff_not, List.length_append]; omega
    have h2 : (swap p y s).atEnd = false := by
      unfold Scanner.atEnd; rw [decide_eq_false_iff_not]; simp only [swap, List.length_append]; omega
    simp only [h1, h2, if_false, Bool.false_eq_true] at e ⊢
    exact hg.same s hs a s1 e

end Win

theorem get_le {s : Scanner} {t : Token} {str : Bytes} (h : s.get t = .ret str) : str.length ≤ s.full.length ∧ (str.length : Int) ≤ t.to - t.frm := by
  unfold Scanner.get at h
  split at h
  · cases h
    simp only [List.length_take, List.length_drop]
    omega
  · cases h

theorem Same.get {g : Bytes → Scanner → Exec (α × Scanner)} {a b : Int} (hl : jz → (p.length : Int) ≤ lo + 2 * w)
    (h : ∀ str : Bytes, (jz → str.length ≤ w) → Same p x y w id lo jz (g str)) (ha : a + w ≤ p.length) (hb : b + w ≤ p.length) (ha' : jz → lo ≤ a) (hb' : jz → lo ≤ b) :
    Same p x y w id lo jz fun s => s.get (makeToken a b) >>= fun str => g str s := fun s hs c s1 e => by
    obtain ⟨str, h1, h2⟩ := Exec.bind_eq_ret.mp e
    have hlen : jz → str.length ≤ w := fun hz => by
      have h3 := (get_le h1).2
      have := hl hz
      have := ha' hz
      have := hb' hz
      have : (makeToken a b).to - (makeToken a b).frm ≤ w := by unfold makeToken; split <;> simp only <;> omega
      omega
    rcases h str hlen s hs c s1 h2 with hw | ⟨hh, he⟩
    · exact .inl hw
    · refine .inr ⟨hh, ?_⟩
      have : (swap p y s).get (makeToken a b) = .ret str := by
        rw [← h1]
        have ht : (makeToken a b).to ≤ p.length := by unfold makeToken; split <;> simp only <;> omega
        generalize makeToken a b = t at ht
        unfold Scanner.get
        simp only [hs.full, swap, List.length_append]
        by_cases hc : 0 ≤ t.frm ∧ t.frm ≤ t.to
        · rw [if_pos ⟨hc.1, hc.2, by omega⟩, if_pos ⟨hc.1, hc.2, by omega⟩]
          rw [List.drop_append_of_le_length (by omega), List.drop_append_of_le_length (by omega),
            List.take_append_of_le_length (by rw [List.length_drop]; omega), List.take_append_of_le_length (by rw [List.length_drop]; omega)]
        · rw [if_neg (fun h => hc ⟨h.1, h.2.1⟩), if_neg (fun h => hc ⟨h.1, h.2.1⟩)]
      simp only [this, Exec.bind_ret]
      exact he

/-! ### the first bytes -/

theorem prefix_same {q str : Bytes} (h : str.length ≤ q.length) : hasPrefix (q ++ x) str = hasPrefix (q ++ y) str := by
  have : ∀ t : Bytes, hasPrefix (q ++ t) str = decide (str <+: q) := fun t => by
    rw [Bool.eq_iff_iff, hasPrefix, List.isPrefixOf_iff_prefix, decide_eq_true_eq]
    exact ⟨fun hp => List.prefix_of_prefix_length_le hp (List.prefix_append q t) h, fun hp => hp.trans (List.prefix_append q t)⟩
  rw [this, this]

theorem decode_same {q : Bytes} (h : 4 ≤ q.length) : decodeRune (q ++ x) = decodeRune (q ++ y) := by
  match q, h with
  | a :: b :: c :: d :: q, _ =>
    simp only [List.cons_append]
    rcases h : seqLen a with _ | _ | _ | _ | _ | k <;> simp only [decodeRune, h]

theorem decode_le_four (t : Bytes) : (decodeRune t).2 ≤ 4 := by
  unfold decodeRune
  split
  · simp
  · split <;> (try split) <;> simp

theorem runeLen_le (r : Rune) : runeLen r ≤ 4 := by
  unfold runeLen
  repeat' split
  all_goals omega

theorem first_same {q : Bytes} (h : 4 ≤ q.length) : (rangeStr (q ++ x))[0]? = (rangeStr (q ++ y))[0]? := by
  have hd := decode_same (x := x) (y := y) h
  match q, h with
  | a :: q, _ =>
    simp only [rangeStr, List.cons_append, rangeGo, List.getElem?_cons_zero]
    rw [show decodeRune (a :: (q ++ x)) = decodeRune (a :: (q ++ y)) from hd]

namespace Win

theorem ite {f g : Scanner → Exec (α × Scanner)} (c : Prop) [Decidable c] (hf : Win p x y w id lo jz f) (hg : Win p x y w id lo jz g) : Win p x y w id lo jz fun s => if c then f s else g s := by
  by_cases h : c
  · simpa only [if_pos h] using hf
  · simpa only [if_neg h] using hg

theorem ifStr {str : Bytes} (h : str.length ≤ w) : Win p x y w id lo jz fun s => s.ifStr str :=
  tail (g := fun t s => if hasPrefix t str then .ret (s.move str.length) else .ret (false, s))
    (fun _ => ite _ (move (by omega)) (pure _)) fun q hq => by rw [prefix_same (by omega)]

theorem ifAny : ∀ (strs : List Bytes), (∀ str ∈ strs, str.length ≤ w) → Win p x y w id lo jz fun s => s.ifAny strs
  | [], _ => pure false
  | str :: strs, h => (ifStr (h str List.mem_cons_self)).bind fun a => by
    cases a
    · exact ifAny strs fun v hv => h v (List.mem_cons_of_mem _ hv)
    · exact pure true

theorem ifFold (rt : Rt) {str : Bytes} (h : str.length ≤ w) : Win p x y w id lo jz fun s => s.ifFold rt str :=
  tail (g := fun t s => if str.length > t.length then .panic else if equalFold rt (t.take str.length) str then .ret (s.move str.length) else .ret (false, s))
    (fun _ => ite _ panic (ite _ (move (by omega)) (pure _))) fun q hq => by
      rw [List.take_append_of_le_length (by omega), List.take_append_of_le_length (by omega)]
      funext s
      rw [if_neg (c := str.length > (q ++ x).length) (by rw [List.length_append]; omega), if_neg (c := str.length > (q ++ y).length) (by rw [List.length_append]; omega)]

theorem ifRune (hw : 4 ≤ w) (r : Rune) : Win p x y w id lo jz fun s => s.ifRune r :=
  tail (g := fun t s => if (decodeRune t).1 != r then .ret (false, s) else .ret (s.move (decodeRune t).2))
    (fun t => ite _ (pure _) (move (by have := decode_le_four t; omega))) fun q hq => by rw [decode_same (x := x) (y := y) (by omega)]

theorem ifAnyRuneLoop (hw : 4 ≤ w) : ∀ rs : List Rune, Win p x y w id lo jz fun s => s.ifAnyRuneLoop rs
  | [] => pure false
  | r :: rs => (ifRune hw r).bind fun a => by
    cases a
    · exact ifAnyRuneLoop hw rs
    · exact pure true

theorem ifBetween (hw : 4 ≤ w) (a b : Rune) : Win p x y w id lo jz fun s => s.ifBetween a b :=
  tail (g := fun t s => if t.length == 0 then .ret (false, s) else if !Scanner.inRange a (decodeRune t).1 b then .ret (false, s) else .ret (s.move (decodeRune t).2))
    (fun t => ite _ (pure _) (ite _ (pure _) (move (by have := decode_le_four t; omega)))) fun q hq => by
      rw [decode_same (x := x) (y := y) (by omega)]
      funext s
      rw [if_neg (c := ((q ++ x).length == 0) = true) (by rw [List.length_append, beq_iff_eq]; omega),
        if_neg (c := ((q ++ y).length == 0) = true) (by rw [List.length_append, beq_iff_eq]; omega)]

theorem betweenAnyLoop (hw : 4 ≤ w) : ∀ rs : List (Rune × Rune), Win p x y w id lo jz fun s => Tok.betweenAnyLoop rs s
  | [] => pure false
  | (a, b) :: rs => (ifBetween hw a b).bind fun c => by
    cases c
    · exact betweenAnyLoop hw rs
    · exact pure true

theorem ifMatch (hw : 4 ≤ w) (f : Rune → Bool) : Win p x y w id lo jz fun s => s.ifMatch f :=
  tail (g := fun t s => if (decodeRune t).2 != 0 && f (decodeRune t).1 then .ret (s.move (decodeRune t).2) else .ret (false, s))
    (fun t => ite _ (move (by have := decode_le_four t; omega)) (pure _)) fun q hq => by rw [decode_same (x := x) (y := y) (by omega)]

theorem moveRunes (hw : 4 ≤ w) : Win p x y w id lo jz fun s => s.moveRunes 1 :=
  tail (g := fun t s => match (rangeStr t)[0]? with
      | some ((i : Nat), r) => .ret (s.move ((i : Int) + runeLen r))
      | none => .ret (false, s))
    (fun t => by
      cases t with
      | nil => exact pure false
      | cons b t =>
        simp only [rangeStr, rangeGo, List.getElem?_cons_zero]
        exact move (by have := runeLen_le (decodeRune (b :: t)).1; simp only [Int.natCast_zero]; omega)) fun q hq => by
      rw [first_same (x := x) (y := y) (by omega)]

theorem ifFalse {f : Scanner → Exec (Bool × Scanner)} (h : Win p x y w id lo jz f) (what : Bytes) : Win p x y w id lo jz fun s => Tok.ifFalse what (f s) :=
  h.bind fun ok => pos (g := fun m s => .ret ((if !ok then some (Err.read m what) else none), s)) fun _ => pure _

/-! ### loops -/

theorem anyLoop {rd : Reader → ReadFunc} : ∀ (rs : List Reader), (∀ r ∈ rs, Win p x y w id lo jz (rd r)) → ∀ es, Win p x y w id lo jz (Tok.anyLoop rd rs es)
  | [], _, es => pure (some es)
  | r :: rs, h, es => (h r List.mem_cons_self).bind fun e => by
    cases e with
    | none => exact pure none
    | some e => exact anyLoop rs (fun r hr => h r (List.mem_cons_of_mem _ hr)) _

theorem seqLoop {rd : Reader → ReadFunc} : ∀ (rs : List Reader), (∀ r ∈ rs, Win p x y w id lo jz (rd r)) → Win p x y w id lo jz (Tok.seqLoop rd rs)
  | [], _ => pure none
  | r :: rs, h => (h r List.mem_cons_self).bind fun e => by
    cases e with
    | none => exact seqLoop rs fun r hr => h r (List.mem_cons_of_mem _ hr)
    | some e => exact pure (some e)

theorem skipSeqLoop {rd : Reader → ReadFunc} {sk : Reader} (hk : Win p x y w id lo jz (rd sk)) : ∀ (rs : List Reader), (∀ r ∈ rs, Win p x y w id lo jz (rd r)) →
    Win p x y w id lo jz (Tok.skipSeqLoop rd sk rs)
  | [], _ => pure none
  | r :: rs, h => (h r List.mem_cons_self).bind fun e => by
    cases e with
    | some e => exact pure (some e)
    | none =>
      refine hk.bind fun e => ?_
      cases e with
      | some e => exact pure (some e)
      | none => exact skipSeqLoop hk rs fun r hr => h r (List.mem_cons_of_mem _ hr)

theorem timesLoop {f : ReadFunc} (h : Win p x y w id lo jz f) : ∀ k, Win p x y w id lo jz (Tok.timesLoop f k)
  | 0 => pure none
  | k + 1 => h.bind fun e => by
    cases e with
    | some e => exact pure (some e)
    | none => exact timesLoop h k

theorem zomLoop {f : ReadFunc} (h : Win p x y w id lo jz f) (g : Scanner → Exec (α × Scanner)) (hg : Win p x y w id lo jz g) : ∀ k, Win p x y w id lo jz fun s => Tok.zomLoop f k s >>= g
  | 0 => timeout
  | k + 1 => by
    refine (h.bind (g := fun b => match b.1 with | none => Tok.zomLoop f k b.2 >>= g | some _ => g b.2) fun e => ?_).congr fun s => ?_
    · cases e with
      | none => exact zomLoop h g hg k
      | some e => exact hg
    · simp only [Tok.zomLoop]
      cases f s with
      | ret b => obtain ⟨e, s'⟩ := b; cases e <;> rfl
      | panic => rfl
      | timeout => rfl

theorem pastLoop (hw : 4 ≤ w) {f : ReadFunc} (h : Win p x y w id lo jz f) : ∀ k, Win p x y w id lo jz (Tok.pastLoop f k)
  | 0 => timeout
  | k + 1 => atEnd (f := fun s => .ret (false, s)) (by omega) (pure false (p := p) (x := x) (y := y) (w := w) (lo := lo) (jz := jz)).grow <| h.bind fun e => by
    cases e with
    | none => exact pure true
    | some e => exact (moveRunes hw).bind fun _ => pastLoop hw h k

theorem toLoop (hw : 4 ≤ w) {f : ReadFunc} (h : Win p x y w id lo jz f) : ∀ k, Win p x y w id lo jz (Tok.toLoop f k)
  | 0 => timeout
  | k + 1 => pos (g := fun m s => f s >>= fun b => match b.1 with
      | none => .ret (true, (b.2.toMarker m).2)
      | some _ => b.2.moveRunes 1 >>= fun c => if c.1 then Tok.toLoop f k c.2 else .ret (false, c.2)) fun m => h.bind fun e => by
    cases e with
    | none => exact toMarker true m
    | some e =>
      refine (moveRunes hw).bind fun ok => ?_
      cases ok
      · exact pure false
      · exact toLoop hw h k

theorem readBool (hw : 5 ≤ w) (format : Bytes) : Win p x y w id lo jz fun s => s.readBool format := by
  have fin : ∀ ok : Bool, Win p x y w id lo jz fun s => if ok then (.ret ((false, none), s) : Exec ((Bool × Option Err) × Scanner)) else .ret ((false, some (s.errorFor b!"bool")), s) := fun ok => by
    cases ok
    · exact pos (g := fun m s => .ret ((false, some (Err.read m b!"bool")), s)) fun _ => pure _
    · exact pure _
  unfold Scanner.readBool
  by_cases hf : (format == [] || format == b!"*") = true
  · simp only [if_pos hf]
    refine (ifAny _ ?_).bind fun ok => ?_
    · intro str hs
      simp only [List.mem_cons, List.not_mem_nil, or_false] at hs
      rcases hs with rfl | rfl | rfl <;> exact Nat.le_trans (by decide) hw
    · cases ok
      · refine (ifAny _ ?_).bind fun ok => ?_
        · intro str hs
          simp only [List.mem_cons, List.not_mem_nil, or_false] at hs
          rcases hs with rfl | rfl | rfl <;> exact Nat.le_trans (by decide) hw
        · exact fin ok
      · exact pure _
  · simp only [if_neg hf]
    have two : ∀ a b : Bytes, a.length ≤ 5 → b.length ≤ 5 → Win p x y w id lo jz fun s => (do
        let (ok, s) ← s.ifStr a
        if ok then Pure.pure ((true, none), s)
        else do
          let (ok, s) ← s.ifStr b
          if ok then Pure.pure ((false, none), s)
          else Pure.pure ((false, some (s.errorFor b!"bool")), s) : Exec ((Bool × Option Err) × Scanner)) := fun a b ha hb => by
      refine (ifStr (by omega)).bind fun ok => ?_
      cases ok
      · exact (ifStr (by omega)).bind fin
      · exact pure _
    repeat' split
    all_goals first | exact pure _ | skip
    all_goals
      rename_i h
      split at h
      · cases h; exact two _ _ (by decide) (by decide)
      · split at h
        · cases h; exact two _ _ (by decide) (by decide)
        · split at h
          · cases h; exact two _ _ (by decide) (by decide)
          · cases h

end Win

theorem use_grow {f : ReadFunc} (h : Grow w id f) : Grow w id fun s => s.use f := fun s =>
  (h s).bind fun b _ hb => by
    obtain ⟨e, s'⟩ := b
    simp only
    split
    · exact .ret (by rw [toMarker_all]; exact hb.trans (at_grow s' _))
    · exact .ret hb

/-- A scanner of a part of the text. -/
theorem sub_grow {f : ReadFunc} (h : Grow w id f) (t : Token) (k : Option Err → Bool → α) :
    Grow w id fun s => s.get t >>= fun str => (Scanner.new str s.heap).use f >>= fun b => .ret (k b.1 b.2.atEnd, { s with heap := b.2.heap }) := fun s =>
  (RetE.trivial (x := s.get t)).bind fun str hstr _ => (use_grow h (Scanner.new str s.heap)).bind fun b _ hb =>
    .ret ⟨hb.told, fun hs => ⟨hs.1, (hb.short ⟨Nat.le_trans (get_le hstr).1 hs.1, hs.2⟩).2⟩⟩

theorem Win.sub {f : ReadFunc} (h : Grow w id f) {str : Bytes} (hl : jz → str.length ≤ w) (k : Option Err → Bool → α) :
    Same p x y w id lo jz fun s => (Scanner.new str s.heap).use f >>= fun b => .ret (k b.1 b.2.atEnd, { s with heap := b.2.heap }) := fun s hs a s1 e => by
    obtain ⟨b, h1, h2⟩ := Exec.bind_eq_ret.mp e
    cases h2
    refine .inr ⟨⟨hs.full, hs.tracker, hs.pos, hs.lo, fun hz => ((use_grow h (Scanner.new str s.heap) _ h1).short ⟨hl hz, hs.jan hz⟩).2⟩, ?_⟩
    show (Scanner.new str s.heap).use f >>= _ = _
    rw [h1]
    rfl

theorem move_grow (s : Scanner) (k : Int) : More w id s (s.move k).2 := by
  unfold Scanner.move
  simp only
  split
  · exact .refl s
  · exact at_grow s _

theorem ifFalse_grow (str what : Bytes) : Grow w id fun s => ifFalse what (s.ifStr str) := fun s =>
  RetE.bind (P := fun b => More w id s b.2) ((RetE.trivial (x := s.tail)).bind fun t _ _ => by
    split
    · exact .ret (move_grow s _)
    · exact .ret (.refl s)) fun b _ hb => .ret hb

/-- One round of the body readers behind the tail. -/
def bodyDone (body : ReadFunc) (t : Int) (str : Bytes) (s : Scanner) : Exec (Option Int × Scanner) :=
  (Scanner.new str s.heap).use body >>= fun b => .ret (if b.1.isSome || !b.2.atEnd then none else some t, { s with heap := b.2.heap })

theorem bodyLoop_eq (body tail : ReadFunc) (m : Int) (n : Nat) (s : Scanner) : bodyLoop body tail m (n + 1) s =
    if s.atEnd then .ret (none, s) else tail s >>= fun b => match b.1 with
      | none => b.2.get (makeToken m s.pos) >>= fun str => bodyDone body s.pos str b.2
      | some _ => b.2.moveRunes 1 >>= fun c => bodyLoop body tail m n c.2 := by
  conv_lhs => unfold bodyLoop
  split
  · rfl
  · refine bind_congr fun b => ?_
    obtain ⟨e, s'⟩ := b
    cases e with
    | some e => rfl
    | none =>
      refine bind_congr fun str => ?_
      unfold bodyDone
      refine bind_congr fun c => ?_
      obtain ⟨e, sub⟩ := c
      simp only
      split <;> rfl

theorem moveRunes_grow : Grow w id fun s => s.moveRunes 1 := fun s => by
  show RetE _ (s.moveRunes 1)
  unfold Scanner.moveRunes
  rw [if_pos (by decide)]
  refine (RetE.trivial (x := s.tail)).bind fun t _ _ => ?_
  split
  · exact .ret (move_grow s _)
  · exact .ret (.refl s)

theorem bodyLoop_grow {body tail : ReadFunc} (hb : Grow w id body) (ht : Grow w id tail) (m : Int) : ∀ n, Grow w id (bodyLoop body tail m n)
  | 0 => fun _ => .timeout
  | n + 1 => fun s => by
    rw [bodyLoop_eq]
    split
    · exact .ret (.refl s)
    · exact (ht s).bind fun b _ h1 => by
        cases b.1 with
        | none => exact (sub_grow hb (makeToken m s.pos) (fun e a => if e.isSome || !a then none else some s.pos) b.2).mono fun _ _ h => h1.trans h
        | some e => exact (moveRunes_grow b.2).bind fun c _ h2 => (bodyLoop_grow hb ht m n c.2).mono fun _ _ h => (h1.trans h2).trans h

theorem Win.bodyLoop (hw : 4 ≤ w) {body tail : ReadFunc} (hb : Win p x y w id lo jz body) (ht : Win p x y w id lo jz tail) {m : Int} (hm : m + w ≤ (p.length : Int))
    (hl : jz → (p.length : Int) ≤ lo + 2 * w) (hm' : jz → lo ≤ m) : ∀ n, Win p x y w id lo jz (Tok.bodyLoop body tail m n)
  | 0 => timeout
  | n + 1 => by
    have grow : ∀ t, Grow w id fun s => tail s >>= fun b => match b.1 with
        | none => b.2.get (makeToken m t) >>= fun str => bodyDone body t str b.2
        | some _ => b.2.moveRunes 1 >>= fun c => Tok.bodyLoop body tail m n c.2 := fun t => ht.grow.bind fun e => by
      cases e with
      | none => exact sub_grow hb.grow (makeToken m t) fun e a => if e.isSome || !a then none else some t
      | some e => exact moveRunes_grow.bind fun _ => bodyLoop_grow hb.grow ht.grow m n
    refine (atEnd (f := fun s => .ret (none, s)) (by omega) (pure none (p := p) (x := x) (y := y) (w := w) (lo := lo) (jz := jz)).grow
      (pos' (g := fun t s => tail s >>= fun b => match b.1 with
        | none => b.2.get (makeToken m t) >>= fun str => bodyDone body t str b.2
        | some _ => b.2.moveRunes 1 >>= fun c => Tok.bodyLoop body tail m n c.2) grow fun t htl hlo => ht.bind fun e => ?_)).congr fun s => bodyLoop_eq ..
    cases e with
    | none => exact ⟨sub_grow hb.grow (makeToken m t) fun e a => if e.isSome || !a then none else some t,
        Same.get hl (fun str hstr => Win.sub hb.grow hstr fun e a => if e.isSome || !a then none else some t) hm htl hm' hlo⟩
    | some e => exact (moveRunes hw).bind fun _ => bodyLoop hw hb ht hm hl hm' n

/-! Numbers: the digits are read one by one, the rune behind them ends the number. -/

/-- A loop over runes with a state; the result says where the last rune was that changed it. -/
def digitLoop {σ : Type} (st : Rune → σ → Option σ) : List (Nat × Rune) → σ → Int → σ × Int
  | [], a, n => (a, n)
  | (i, r) :: l, a, n => match st r a with
    | none => (a, n)
    | some b => digitLoop st l b i

def intStep (cf : Rune → Int) (base min max : Int) (neg : Bool) (r : Rune) (i64 : Int) : Option Int :=
  if cf r = -1 then none
  else if neg then
    if i64 < wrapI64 (wrapI64 (i64 * base) - cf r) || wrapI64 (wrapI64 (i64 * base) - cf r) < min then none else some (wrapI64 (wrapI64 (i64 * base) - cf r))
  else if i64 > wrapI64 (wrapI64 (i64 * base) + cf r) || wrapI64 (wrapI64 (i64 * base) + cf r) > max then none else some (wrapI64 (wrapI64 (i64 * base) + cf r))

def uintStep (cf : Rune → Int) (base max : Nat) (r : Rune) (u64 : Nat) : Option Nat :=
  if cf r = -1 then none
  else if u64 > wrapU64 (wrapU64 (u64 * base) + (cf r).toNat) || wrapU64 (wrapU64 (u64 * base) + (cf r).toNat) > max then none
  else some (wrapU64 (wrapU64 (u64 * base) + (cf r).toNat))

theorem intLoop_digits (cf : Rune → Int) (base min max : Int) (neg : Bool) : ∀ l a n, intLoop cf base min max neg l a n = digitLoop (intStep cf base min max neg) l a n
  | [], _, _ => rfl
  | (i, r) :: l, a, n => by
    unfold intLoop digitLoop
    simp only [intStep]
    split
    · rfl
    · split <;> split <;> first | rfl | exact intLoop_digits ..

theorem uintLoop_digits (cf : Rune → Int) (base max : Nat) : ∀ l a n, uintLoop cf base max l a n = digitLoop (uintStep cf base max) l a n
  | [], _, _ => rfl
  | (i, r) :: l, a, n => by
    unfold uintLoop digitLoop
    simp only [uintStep]
    split
    · rfl
    · split <;> first | rfl | exact uintLoop_digits ..

theorem charFunc_ascii {base : Int} {cf : Rune → Int} (h : charFunc base = some cf) (r : Rune) (hr : cf r ≠ -1) : r < 128 := by
  unfold charFunc at h
  split at h
  · cases h
    unfold octValue Scanner.inRange at hr
    split at hr
    · rename_i h; simp at h; omega
    · exact absurd rfl hr
  · split at h
    · cases h
      unfold decValue Scanner.inRange at hr
      split at hr
      · rename_i h; simp at h; omega
      · exact absurd rfl hr
    · split at h
      · cases h
        unfold hexValue Scanner.inRange at hr
        split at hr
        · rename_i h; simp at h; omega
        · split at hr
          · rename_i h; simp at h; omega
          · split at hr
            · rename_i h; simp at h; omega
            · exact absurd rfl hr
      · cases h

section
variable {σ : Type} {st : Rune → σ → Option σ} (hst : ∀ r a b, st r a = some b → r < 128)
include hst

theorem digit_step (b : UInt8) (t : Bytes) (i : Nat) (a : σ) (n : Int) : digitLoop st (rangeGo 0 i (b :: t)) a n =
    match st (decodeRune (b :: t)).1 a with
    | none => (a, n)
    | some c => digitLoop st (rangeGo 0 (i + 1) t) c i := by
  rw [rangeGo, digitLoop]
  cases h : st (decodeRune (b :: t)).1 a with
  | none => rfl
  | some c =>
    have h1 := hst _ _ _ h
    have h2 : b.toNat < 0x80 := by
      by_contra hb
      have := decode_high (b := b) (by omega) t
      omega
    simp only [decodeRune_one h2]

theorem digit_bounds : ∀ (t : Bytes) (i : Nat) (a : σ), (i : Int) - 1 ≤ (digitLoop st (rangeGo 0 i t) a ((i : Int) - 1)).2 ∧
    (digitLoop st (rangeGo 0 i t) a ((i : Int) - 1)).2 + 1 ≤ i + t.length
  | [], i, a => by simp [rangeGo, digitLoop]
  | b :: t, i, a => by
    rw [digit_step hst]
    split
    · constructor
      · exact Int.le_refl _
      · simp only [List.length_cons]; omega
    · rename_i c _
      have := digit_bounds t (i + 1) c
      rw [show (((i + 1 : Nat) : Int) - 1) = i by omega] at this
      simp only [List.length_cons]
      omega

theorem digit_same : ∀ (q : Bytes) (i : Nat) (a : σ), (digitLoop st (rangeGo 0 i (q ++ x)) a ((i : Int) - 1)).2 + 1 + 4 ≤ i + q.length →
    digitLoop st (rangeGo 0 i (q ++ y)) a ((i : Int) - 1) = digitLoop st (rangeGo 0 i (q ++ x)) a ((i : Int) - 1)
  | [], i, a, h => by
    have := (digit_bounds hst ([] ++ x) i a).1
    have h' : (([] : Bytes).length : Int) = 0 := rfl
    omega
  | b :: q, i, a, h => by
    have hb := (digit_bounds hst ((b :: q) ++ x) i a).1
    have hd := decode_same (x := x) (y := y) (q := b :: q) (by omega)
    simp only [List.cons_append] at h hd ⊢
    rw [digit_step hst] at h ⊢
    rw [digit_step hst, hd]
    rw [hd] at h
    split
    · rfl
    · rename_i c hc
      simp only [hc] at h
      have := digit_same q (i + 1) c
      rw [show (((i + 1 : Nat) : Int) - 1) = i by omega] at this
      exact this (by simp only [List.length_cons] at h; omega)

omit hst in
/-- What is done behind the digits. -/
def numEnd (f : Scanner → Exec (α × Scanner)) (v : σ → α) (d : σ × Int) (s : Scanner) : Exec (α × Scanner) :=
  if d.2 = -1 then f s else .ret (v d.1, (s.move (d.2 + 1)).2)

/-- The end of a number. -/
theorem Win.digits (hw : 4 ≤ w) (a : σ) {f : Scanner → Exec (α × Scanner)} (hf : Win p x y w id lo jz f) (v : σ → α) :
    Win p x y w id lo jz fun s => s.tail >>= fun t => numEnd f v (digitLoop st (rangeStr t) a (-1)) s where
  grow s := (RetE.trivial (x := s.tail)).bind fun t _ _ => by
    unfold numEnd
    split
    · exact hf.grow s
    · exact .ret (move_grow s _)
  same s hs b s1 e := by
    obtain ⟨t, h1, h2⟩ := Exec.bind_eq_ret.mp e
    have hp := hs.pos
    unfold Scanner.tail at h1 ⊢
    split at h1
    · rename_i hin
      cases h1
      have hle : s.pos.toNat ≤ p.length := by omega
      have e1 : s.full.drop s.pos.toNat = p.drop s.pos.toNat ++ x := by rw [hs.full, List.drop_append_of_le_length hle]
      have e2 : (swap p y s).full.drop (swap p y s).pos.toNat = p.drop s.pos.toNat ++ y := by
        simp only [swap]; rw [List.drop_append_of_le_length hle]
      have hlen : (p.drop s.pos.toNat).length + s.pos.toNat = p.length := by rw [List.length_drop]; omega
      have hb := digit_bounds hst (p.drop s.pos.toNat ++ x) 0 a
      have hsame := digit_same (x := x) (y := y) hst (p.drop s.pos.toNat) 0 a
      have hl : (s.full.length : Int) = p.length + x.length := by rw [hs.full]; simp
      have hl' : ((swap p y s).full.length : Int) = p.length + y.length := by simp [swap]
      rw [e1] at h2
      rw [if_pos (by simp only [swap, List.length_append]; omega)]
      simp only [Exec.bind_ret]
      rw [e2]
      simp only [Int.ofNat_zero, Int.zero_sub, Int.zero_add, List.length_append] at hb hsame
      change -1 ≤ (digitLoop st (rangeStr (p.drop s.pos.toNat ++ x)) a (-1)).2 ∧ (digitLoop st (rangeStr (p.drop s.pos.toNat ++ x)) a (-1)).2 + 1 ≤ _ at hb
      change (digitLoop st (rangeStr (p.drop s.pos.toNat ++ x)) a (-1)).2 + 1 + 4 ≤ _ →
        digitLoop st (rangeStr (p.drop s.pos.toNat ++ y)) a (-1) = digitLoop st (rangeStr (p.drop s.pos.toNat ++ x)) a (-1) at hsame
      generalize digitLoop st (rangeStr (p.drop s.pos.toNat ++ x)) a (-1) = d at hb hsame h2
      unfold numEnd at h2
      split at h2
      · rename_i hd
        rw [hsame (by omega)]; unfold numEnd; rw [if_pos hd]
        exact hf.same s hs b s1 h2
      · rename_i hd
        have hm : ∀ t : Scanner, t.pos = s.pos → s.pos + (d.2 + 1) ≤ t.full.length → t.move (d.2 + 1) = (true, t.at (s.pos + (d.2 + 1))) := fun t h1 h2 => by
          unfold Scanner.move
          simp only [h1]
          rw [if_neg (by simp only [Bool.or_eq_true, decide_eq_true_eq, not_or]; omega)]
          rfl
        rw [hm s rfl (by omega)] at h2
        cases h2
        rcases at_here (y := y) hs (s.pos + (d.2 + 1)) with hw | ⟨h1, h2⟩
        · exact .inl hw
        · have hpos := h1.pos
          have : (s.at (s.pos + (d.2 + 1))).pos = s.pos + (d.2 + 1) := by unfold Scanner.at Scanner.notify; split <;> rfl
          rw [hsame (by omega)]; unfold numEnd; rw [if_neg hd, hm (swap p y s) rfl (by omega), h2]
          exact .inr ⟨h1, rfl⟩
    · cases h1

end

theorem Win.readInt (hw : 4 ≤ w) (base bits : Int) : Win p x y w id lo jz fun s => s.readInt base bits := by
  unfold Scanner.readInt
  split
  · exact pure _
  · rename_i cf hcf
    split
    · exact pure _
    · rename_i mn mx _
      have hst : ∀ neg r a b, intStep cf base mn mx neg r a = some b → r < 128 := fun neg r a b h => by
        refine charFunc_ascii hcf r fun hr => ?_
        unfold intStep at h
        rw [if_pos hr] at h
        cases h
      have fin : ∀ (m : Int) neg, Win p x y w id lo jz fun s => s.tail >>= fun t => if (digitLoop (intStep cf base mn mx neg) (rangeStr t) 0 (-1)).2 = -1 then
            .ret (((0 : Int), some ((s.toMarker m).2.errorFor b!"integer")), (s.toMarker m).2)
          else .ret (((digitLoop (intStep cf base mn mx neg) (rangeStr t) 0 (-1)).1, none), (s.move ((digitLoop (intStep cf base mn mx neg) (rangeStr t) 0 (-1)).2 + 1)).2) := fun m neg =>
        Win.digits (hst neg) hw 0 ((toMarker () m).bind (g := fun b => .ret (((0 : Int), some (b.2.errorFor b!"integer")), b.2)) fun _ =>
          Win.pos (g := fun m s => .ret (((0 : Int), some (Err.read m b!"integer")), s)) fun m => pure _) fun v => (v, none)
      refine (Win.pos (g := fun m s => s.ifRune 45 >>= fun b => (if b.1 then .ret (true, b.2) else b.2.ifRune 43) >>= fun c => c.2.tail >>= fun t =>
        if (intLoop cf base mn mx b.1 (rangeStr t) 0 (-1)).2 = -1 then .ret (((0 : Int), some ((c.2.toMarker m).2.errorFor b!"integer")), (c.2.toMarker m).2)
        else .ret (((intLoop cf base mn mx b.1 (rangeStr t) 0 (-1)).1, none), (c.2.move ((intLoop cf base mn mx b.1 (rangeStr t) 0 (-1)).2 + 1)).2)) fun m => ?_).congr fun s => ?_
      rotate_left
      · cases s.ifRune 45 with
        | ret b =>
          obtain ⟨b, s1⟩ := b
          cases b
          · simp only [Exec.bind_ret]
            cases s1.ifRune 43 <;> rfl
          · rfl
        | panic => rfl
        | timeout => rfl
      simp only [intLoop_digits]
      refine (ifRune hw 45).bind fun neg => ?_
      cases neg
      · exact Win.bind (f := fun s => s.ifRune 43) (g := fun c => c.2.tail >>= fun t =>
          if (digitLoop (intStep cf base mn mx false) (rangeStr t) 0 (-1)).2 = -1 then .ret (((0 : Int), some ((c.2.toMarker m).2.errorFor b!"integer")), (c.2.toMarker m).2)
          else .ret (((digitLoop (intStep cf base mn mx false) (rangeStr t) 0 (-1)).1, none), (c.2.move ((digitLoop (intStep cf base mn mx false) (rangeStr t) 0 (-1)).2 + 1)).2))
          (ifRune hw 43) fun _ => fin m false
      · exact (fin m true).congr fun _ => rfl

theorem Win.readUint (hw : 4 ≤ w) (base bits : Int) : Win p x y w id lo jz fun s => s.readUint base bits := by
  unfold Scanner.readUint
  split
  · exact pure _
  · rename_i cf hcf
    split
    · exact pure _
    · rename_i mx _
      have hst : ∀ r a b, uintStep cf base.toNat mx r a = some b → r < 128 := fun r a b h => by
        refine charFunc_ascii hcf r fun hr => ?_
        unfold uintStep at h
        rw [if_pos hr] at h
        cases h
      simp only [uintLoop_digits]
      exact Win.digits hst hw 0 (Win.pos (g := fun m s => .ret (((0 : Nat), some (Err.read m b!"unsigned integer")), s)) fun m => pure _) fun v => (v, none)

/-- `TokenizeUse` with what is done with the token. -/
theorem Win.token {f : ReadFunc} (h : Win p x y w id lo jz f) {g : Token → Scanner → Exec (Option Err × Scanner)}
    (hg : ∀ a b, Grow w id (g (makeToken a b)))
    (hs : ∀ a b : Int, a + w ≤ p.length → b + w ≤ p.length → (jz → lo ≤ a) → (jz → lo ≤ b) → Same p x y w id lo jz (g (makeToken a b))) :
    Win p x y w id lo jz fun s => s.tokenizeUse f >>= fun b => if b.1.2.isNone then g b.1.1 b.2 else .ret (b.1.2, b.2) := by
  refine (pos' (g := fun m s => f s >>= fun b => match b.1 with
      | none => (fun k s => g (makeToken m k) s) b.2.pos b.2
      | some e => .ret (some e, (b.2.toMarker m).2)) (fun m => ?_) fun m hm hlm => h.bind fun e => ?_).congr fun s => ?_
  · refine h.grow.bind fun e => ?_
    cases e with
    | none => exact fun s => hg m s.pos s
    | some e => exact (toMarker (p := p) (x := x) (y := y) (w := w) (lo := lo) (jz := jz) _ m).grow
  · cases e with
    | none => exact pos' (g := fun k s => g (makeToken m k) s) (fun k => hg m k) fun k hk hlk => ⟨hg m k, hs m k hm hk hlm hlk⟩
    | some e => exact toMarker _ m
  · unfold Scanner.tokenizeUse
    cases f s with
    | ret b => obtain ⟨e, s'⟩ := b; cases e <;> rfl
    | panic => rfl
    | timeout => rfl

/-- Something is noted that no tracker is told. -/
theorem Win.note {a : α} {k : Heap → Heap} (h : ∀ m, (k m).tracks = m.tracks) (h' : ∀ m, (k m).janus = m.janus := by intro _; rfl) :
    Win p x y w id lo jz fun s => .ret (a, { s with heap := k s.heap }) :=
  step (fun s => ⟨rfl, rfl, rfl, by simp only [h], by simp only [h']; exact fun h => h⟩) fun _ => rfl

theorem upd_short {j : Nat → Bytes} {k : Nat} {v : Bytes} (hv : v.length ≤ w) (h : ∀ k, (j k).length ≤ w) (i : Nat) : (upd j k v i).length ≤ w := by
  simp only [upd]
  split
  · exact hv
  · exact h i

/-- A text is kept. -/
theorem Same.keep {a : α} {k : Nat} {v : Bytes} (hv : jz → v.length ≤ w) :
    Same p x y w id lo jz fun s => .ret (a, { s with heap := { s.heap with janus := upd s.heap.janus k v } }) := fun s hs b s1 h => by
  cases h
  exact .inr ⟨⟨hs.full, hs.tracker, hs.pos, hs.lo, fun hz => upd_short (hv hz) (hs.jan hz)⟩, rfl⟩

theorem keep_grow {a : α} {k : Nat} {v : Bytes} {s : Scanner} (hv : v.length ≤ s.full.length) :
    RetE (fun b => More w id s b.2) (.ret (a, { s with heap := { s.heap with janus := upd s.heap.janus k v } }) : Exec (α × Scanner)) :=
  .ret ⟨fun _ h => h, fun h => ⟨h.1, upd_short (Nat.le_trans hv h.1) h.2⟩⟩

variable (rt : Rt) (G : Env)

theorem step_win (rd : Reader → ReadFunc) (n : Nat) (r : Reader) (hr : Reader.Sees w r) (hz : r.isJanusEnd = true → jz) (hl : jz → (p.length : Int) ≤ lo + 2 * w)
    (sub : ∀ c ∈ r.subs, Win p x y w id lo jz (rd c)) (rule : ∀ (i : Nat) (nm : Bytes) (c : Reader), G[i]? = some ⟨nm, some c⟩ → Win p x y w id lo jz (rd c)) : Win p x y w id lo jz (readStep rt G rd n r) := by
  have fail : ∀ (m : Int) (what : Bytes), Win p x y w id lo jz fun s => .ret (some ((s.toMarker m).2.errorFor what), (s.toMarker m).2) := fun m what =>
    (Win.toMarker () m).bind (g := fun b => .ret (some (b.2.errorFor what), b.2)) fun _ => Win.pos (g := fun m s => .ret (some (Err.read m what), s)) fun m => .pure _
  have see : ∀ k, Reader.sight r = some k → k ≤ w := fun k hk => by
    obtain hr | hr | ⟨_, _, rfl, _⟩ := hr
    · unfold Reader.seesB at hr
      rw [hk] at hr
      simpa using hr
    · cases r <;> first | cases hk; done | cases hr
    · cases hk
  cases r with
  | any rs =>
    refine Win.pos (g := fun m s => anyLoop rd rs [] s >>= fun b => match b.1 with
      | none => .ret (none, b.2)
      | some es => .ret (some (getDeepest (0, []) es), (b.2.toMarker m).2)) fun m => (Win.anyLoop rs sub []).bind fun e => ?_
    cases e with
    | none => exact .pure _
    | some es => exact .toMarker _ m
  | anyRune str => exact (Win.ifAnyRuneLoop (see 4 rfl) _).ifFalse _
  | at_ c => exact Win.pos (g := fun m s => rd c s >>= fun b => .ret (b.1, (b.2.toMarker m).2)) fun m => (sub c (by simp [Reader.subs])).bind fun e => .toMarker _ m
  | atEnd => 
    have := see 1 rfl
    refine (Win.atEnd (f := fun s => .ret (none, s)) this (Win.pure (p := p) (x := x) (y := y) (w := w) (lo := lo) (jz := jz) _).grow
      (Win.pos (g := fun m s => .ret (some (Err.read m b!"@END"), s)) fun m => .pure _)).congr fun s => ?_
    simp only [readStep, Scanner.errorIfFalse, Exec.pure_eq, Reader.what]
    cases s.atEnd <;> rfl
  | between a b => exact (Win.ifBetween (see 4 rfl) a b).ifFalse _
  | betweenAny ranges singles =>
    have h4 := see 4 rfl
    refine Win.pos (g := fun m s => betweenAnyLoop ranges s >>= fun b => if b.1 then .ret (none, b.2) else b.2.ifAnyRune singles >>= fun c =>
      if c.1 then .ret (none, c.2) else .ret (some ((c.2.toMarker m).2.errorFor (Reader.what rt G (.betweenAny ranges singles))), (c.2.toMarker m).2)) fun m =>
        (Win.betweenAnyLoop h4 ranges).bind fun ok => ?_
    cases ok
    · refine (Win.ifAnyRuneLoop h4 (runesOf singles)).bind fun ok => ?_
      cases ok
      · exact fail m _
      · exact .pure _
    · exact .pure _
  | body b t =>
    have h4 := see 4 rfl
    have hb := sub b (by simp [Reader.subs])
    have ht := sub t (by simp [Reader.subs])
    refine Win.pos' (g := fun m s => bodyLoop (rd b) (rd t) m n s >>= fun c => match c.1 with
      | some t => .ret (none, (c.2.toMarker t).2)
      | none => .ret (some ((c.2.toMarker m).2.errorFor (Reader.what rt G (.body b t))), (c.2.toMarker m).2)) (fun m => ?_) fun m hm hlm => ?_
    · refine (bodyLoop_grow hb.grow ht.grow m n).bind fun e => ?_
      cases e with
      | none => exact (fail m _).grow
      | some k => exact (Win.toMarker (p := p) (x := x) (y := y) (w := w) (lo := lo) (jz := jz) none k).grow
    · refine (Win.bodyLoop h4 hb ht hm hl hlm n).bind fun e => ?_
      cases e with
      | none => exact fail m _
      | some k => exact .toMarker _ k
  | bodyTail b t =>
    have h4 := see 4 rfl
    have hb := sub b (by simp [Reader.subs])
    have ht := sub t (by simp [Reader.subs])
    refine Win.pos' (g := fun m s => bodyLoop (rd b) (rd t) m n s >>= fun c => match c.1 with
      | some t => .ret (none, c.2)
      | none => .ret (some ((c.2.toMarker m).2.errorFor (Reader.what rt G (.bodyTail b t))), (c.2.toMarker m).2)) (fun m => ?_) fun m hm hlm => ?_
    · refine (bodyLoop_grow hb.grow ht.grow m n).bind fun e => ?_
      cases e with
      | none => exact (fail m _).grow
      | some k => exact (Win.pure (p := p) (x := x) (y := y) (w := w) (lo := lo) (jz := jz) none).grow
    · refine (Win.bodyLoop h4 hb ht hm hl hlm n).bind fun e => ?_
      cases e with
      | none => exact fail m _
      | some k => exact .pure _
  | bool c format =>
    refine (Win.readBool (see 5 rfl) format).bind fun v => ?_
    exact Win.note (k := fun h => { h with cells := upd h.cells c (.bool v.1) }) fun _ => rfl
  | fold val => exact (Win.ifFold rt (see _ rfl)).ifFalse _
  | holey a b holes =>
    have h4 := see 4 rfl
    refine Win.tail (g := fun t s => if Scanner.inRange a (decodeRune t).1 b && !containsRune holes (decodeRune t).1 then
        .ret ((s.move (decodeRune t).2).2.errorIfFalse (s.move (decodeRune t).2).1 (Reader.what rt G (.holey a b holes)), (s.move (decodeRune t).2).2)
      else .ret (some (s.errorFor (Reader.what rt G (.holey a b holes))), s)) (fun t => .ite _ ?_ ?_) fun q hq => by rw [decode_same (x := x) (y := y) (by omega)]
    · exact (Win.move (by have := decode_le_four t; omega)).ifFalse (Reader.what rt G (.holey a b holes))
    · exact Win.pos (g := fun m s => .ret (some (Err.read m (Reader.what rt G (.holey a b holes))), s)) fun m => .pure _
  | int c base bits =>
    exact (Win.readInt (see 4 rfl) base bits).bind (g := fun b => .ret (b.1.2, { b.2 with heap := { b.2.heap with cells := upd b.2.heap.cells c (.int b.1.1) } })) fun b =>
      Win.note (a := b.2) (k := fun h => { h with cells := upd h.cells c (.int b.1) }) fun _ => rfl
  | janusBegin k nm c =>
    refine (Win.token (sub c (by simp [Reader.subs])) (g := fun t s => s.get t >>= fun str => .ret (none, { s with heap := { s.heap with janus := upd s.heap.janus k str } }))
      (fun a b s => (RetE.trivial (x := s.get (makeToken a b))).bind fun str hstr _ => keep_grow (get_le hstr).1)
      fun a b ha hb ha' hb' => Same.get hl (fun str hstr => Same.keep hstr) ha hb ha' hb').congr fun s => ?_
    simp only [readStep]
    cases s.tokenizeUse (rd c) with
    | ret b => obtain ⟨⟨t, e⟩, s⟩ := b; cases e <;> rfl
    | panic => rfl
    | timeout => rfl
  | janusEnd k nm =>
    obtain hr | hr | ⟨_, _, hr, _⟩ := hr
    · cases hr
    · refine Win.kept k (g := fun str s => ifFalse (quoteToGraphic rt str) (s.ifStr str) >>= fun b => if b.1.isNone then
          .ret (b.1, { b.2 with heap := { b.2.heap with janus := upd b.2.heap.janus k [] } }) else .ret (b.1, b.2)) (fun v => ?_) (fun v hv => ?_) (hz hr)
      · exact (ifFalse_grow v _).bind fun e s => by
          show RetE _ (if e.isNone then _ else _)
          split
          · exact keep_grow (Nat.zero_le _)
          · exact .ret (.refl s)
      · refine ((Win.ifStr hv).ifFalse _).bind fun e => ?_
        cases e with
        | none => exact ⟨fun s => keep_grow (Nat.zero_le _), Same.keep fun _ => Nat.zero_le _⟩
        | some e => exact .pure _
    · cases hr
  | invalid e => exact .pure _
  | lit str => exact (Win.ifStr (see _ rfl)).ifFalse _
  | many c =>
    exact Win.pos (g := fun m s => zomLoop (rd c) n s >>= fun s => .ret (s.errorIfFalse (decide (m < s.mark)) (Reader.what rt G (.many c)), s)) fun m =>
      Win.zomLoop (sub c (by simp [Reader.subs])) _ (Win.pos (g := fun k s => .ret ((if !decide (m < k) then some (Err.read k (Reader.what rt G (.many c))) else none), s)) fun k => .pure _) n
  | map f c =>
    refine (Win.token (sub c (by simp [Reader.subs])) (g := fun t s => .ret (none, { s with heap := { s.heap with maps := s.heap.maps ++ [(f, t)] } }))
      (fun a b => (Win.note (p := p) (x := x) (y := y) (w := w) (lo := lo) (jz := jz) (k := fun h => { h with maps := h.maps ++ [(f, makeToken a b)] }) fun _ => rfl).grow)
      fun a b _ _ _ _ => (Win.note (k := fun h => { h with maps := h.maps ++ [(f, makeToken a b)] }) fun _ => rfl).same).congr fun s => ?_
    simp only [readStep]
    cases s.tokenizeUse (rd c) with
    | ret b => obtain ⟨⟨t, e⟩, s⟩ := b; cases e <;> rfl
    | panic => rfl
    | timeout => rfl
  | match_ nm f => exact (Win.ifMatch (see 4 rfl) f).ifFalse _
  | named nm c => exact sub c (by simp [Reader.subs])
  | not c =>
    have h4 := see 4 rfl
    refine Win.pos (g := fun m s => rd c s >>= fun b => if b.1.isNone then .ret (some ((b.2.toMarker m).2.errorFor (c.what rt G)), (b.2.toMarker m).2)
      else (b.2.toMarker m).2.moveRunes 1 >>= fun d => .ret (none, d.2)) fun m => (sub c (by simp [Reader.subs])).bind fun e => ?_
    cases e with
    | none => exact fail m _
    | some e => exact (Win.toMarker () m).bind (g := fun b => b.2.moveRunes 1 >>= fun d => .ret (none, d.2)) fun _ => (Win.moveRunes h4).bind fun _ => .pure _
  | opt c => exact (sub c (by simp [Reader.subs])).bind fun _ => .pure _
  | past c =>
    have h4 := see 4 rfl
    refine Win.pos (g := fun m s => pastLoop (rd c) n s >>= fun b => if b.1 then .ret (none, b.2)
      else .ret (some ((b.2.toMarker m).2.errorFor (Reader.what rt G (.past c))), (b.2.toMarker m).2)) fun m => (Win.pastLoop h4 (sub c (by simp [Reader.subs])) n).bind fun ok => ?_
    cases ok
    · exact fail m _
    · exact .pure _
  | rune c => exact (Win.ifRune (see 4 rfl) c).ifFalse _
  | seq rs =>
    refine Win.pos (g := fun m s => seqLoop rd rs s >>= fun b => if b.1.isSome then .ret (b.1, (b.2.toMarker m).2) else .ret (b.1, b.2)) fun m => (Win.seqLoop rs sub).bind fun e => ?_
    cases e with
    | none => exact .pure _
    | some e => exact .toMarker _ m
  | skipSeq sk rs =>
    refine (Win.pos (g := fun m s => rd sk s >>= fun b => (if b.1.isSome then .ret (b.1, b.2) else skipSeqLoop rd sk rs b.2) >>= fun b =>
      if b.1.isSome then .ret (b.1, (b.2.toMarker m).2) else .ret (b.1, b.2)) fun m => (sub sk (by simp [Reader.subs])).bind fun e => ?_).congr fun s => ?_
    rotate_left
    · simp only [readStep]
      cases rd sk s with
      | ret b => obtain ⟨e, s⟩ := b; cases e <;> rfl
      | panic => rfl
      | timeout => rfl
    refine Win.bind (f := fun s => if e.isSome then .ret (e, s) else skipSeqLoop rd sk rs s) (.ite _ (.pure _) (Win.skipSeqLoop (sub sk (by simp [Reader.subs])) rs fun r hr => sub r (by simp [Reader.subs, hr]))) fun e => ?_
    cases e with
    | none => exact .pure _
    | some e => exact .toMarker _ m
  | times k c => exact Win.timesLoop (sub c (by simp [Reader.subs])) _
  | «to» c =>
    have h4 := see 4 rfl
    refine Win.pos (g := fun m s => toLoop (rd c) n s >>= fun b => if b.1 then .ret (none, b.2)
      else .ret (some ((b.2.toMarker m).2.errorFor (Reader.what rt G (.to c))), (b.2.toMarker m).2)) fun m => (Win.toLoop h4 (sub c (by simp [Reader.subs])) n).bind fun ok => ?_
    cases ok
    · exact fail m _
    · exact .pure _
  | uint c base bits =>
    exact (Win.readUint (see 4 rfl) base bits).bind (g := fun b => .ret (b.1.2, { b.2 with heap := { b.2.heap with cells := upd b.2.heap.cells c (.uint b.1.1) } })) fun b =>
      Win.note (a := b.2) (k := fun h => { h with cells := upd h.cells c (.uint b.1) }) fun _ => rfl
  | wrap nm f =>
    obtain hr | hr | ⟨_, _, hr, hf⟩ := hr
    · cases hr
    · cases hr
    · cases hr
      refine ⟨fun s b h => ⟨hf.tells id s b.1 b.2 h, fun hs => ?_⟩, fun s hs e s' h => ?_⟩
      · obtain ⟨h1, _, h3⟩ := hf.keeps s b.1 b.2 h
        exact ⟨by rw [h1]; exact hs.1, by rw [h3]; exact hs.2⟩
      · obtain ⟨h1, h2, h3⟩ := hf.keeps s e s' h
        rcases hf.near id p x y s e s' hs.full hs.tracker (by have := hs.pos; omega) h with ⟨m, hm, hlt⟩ | ⟨hp, h4⟩
        · exact .inl ⟨m, hm, .inl (by omega)⟩
        · by_cases hc : (p.length : Int) < s'.pos + w ∨ jz ∧ s'.pos < lo
          · rcases hp with hp | hp
            · exfalso
              rw [hp] at hc
              have := hs.pos
              rcases hc with hc | ⟨hz, hc⟩
              · omega
              · have := hs.lo hz
                omega
            · exact .inl ⟨_, hp, hc⟩
          · refine .inr ⟨⟨by rw [h1]; exact hs.full, by rw [h2]; exact hs.tracker, ?_, fun hz => ?_, by rw [h3]; exact hs.jan⟩, h4⟩
            · exact Int.not_lt.mp fun h => hc (.inl h)
            · exact Int.not_lt.mp fun h => hc (.inr ⟨hz, h⟩)
  | zom c => exact Win.zomLoop (sub c (by simp [Reader.subs])) _ (.pure _) n
  | pick info b c =>
    refine (Win.token (sub c (by simp [Reader.subs])) (g := fun t s => .ret (none, { s with heap := { s.heap with baskets := upd s.heap.baskets b (s.heap.baskets b ++ [⟨info, t⟩]) } }))
      (fun i j => (Win.note (p := p) (x := x) (y := y) (w := w) (lo := lo) (jz := jz) (k := fun h => { h with baskets := upd h.baskets b (h.baskets b ++ [⟨info, makeToken i j⟩]) }) fun _ => rfl).grow)
      fun i j _ _ _ _ => (Win.note (k := fun h => { h with baskets := upd h.baskets b (h.baskets b ++ [⟨info, makeToken i j⟩]) }) fun _ => rfl).same).congr fun s => ?_
    simp only [readStep]
    cases s.tokenizeUse (rd c) with
    | ret b => obtain ⟨⟨t, e⟩, s⟩ := b; cases e <;> rfl
    | panic => rfl
    | timeout => rfl
  | monitor info l c =>
    have enter : ∀ k, Win p x y w id lo jz fun s => .ret (((s.heap.logs l).enter rt info k).1, { s with heap := { s.heap with logs := upd s.heap.logs l ((s.heap.logs l).enter rt info k).2 } }) := fun k =>
      Win.heap (g := fun h s => .ret (((h.logs l).enter rt info k).1, { s with heap := { s.heap with logs := upd s.heap.logs l ((s.heap.logs l).enter rt info k).2 } })) fun h =>
        Win.note (k := fun h => { h with logs := upd h.logs l ((h.logs l).enter rt info k).2 }) fun _ => rfl
    have exit : ∀ i e, Win p x y w id lo jz fun s => .ret (e, { s with heap := { s.heap with logs := upd s.heap.logs l ((s.heap.logs l).exit i s.pos e) } }) := fun i e =>
      Win.pos (g := fun q s => .ret (e, { s with heap := { s.heap with logs := upd s.heap.logs l ((s.heap.logs l).exit i q e) } })) fun q =>
        Win.note (k := fun h' => { h' with logs := upd h'.logs l ((h'.logs l).exit i q e) }) fun _ => rfl
    have step : ∀ k, Win p x y w id lo jz fun s => (.ret (((s.heap.logs l).enter rt info k).1, { s with heap := { s.heap with logs := upd s.heap.logs l ((s.heap.logs l).enter rt info k).2 } }) : Exec (_ × Scanner)) >>= fun b =>
        rd c b.2 >>= fun d => .ret (d.1, { d.2 with heap := { d.2.heap with logs := upd d.2.heap.logs l ((d.2.heap.logs l).exit b.1 d.2.pos d.1) } }) := fun k =>
      (enter k).bind fun i => (sub c (by simp [Reader.subs])).bind (g := fun d => .ret (d.1, { d.2 with heap := { d.2.heap with logs := upd d.2.heap.logs l ((d.2.heap.logs l).exit i d.2.pos d.1) } })) fun e => exit i e
    exact Win.pos (g := fun k s => (.ret (((s.heap.logs l).enter rt info k).1, { s with heap := { s.heap with logs := upd s.heap.logs l ((s.heap.logs l).enter rt info k).2 } }) : Exec (_ × Scanner)) >>= fun b =>
        rd c b.2 >>= fun d => .ret (d.1, { d.2 with heap := { d.2.heap with logs := upd d.2.heap.logs l ((d.2.heap.logs l).exit b.1 d.2.pos d.1) } })) step
  | rule i =>
    show Win p x y w id lo jz fun s => readStep rt G rd n (.rule i) s
    simp only [readStep]
    split
    · rename_i nm c h; exact rule i nm c h
    · exact .panic
  | ruleName c =>
    exact (sub c (by simp [Reader.subs])).bind fun e => Win.pos (g := fun m s => .ret ((if !e.isNone then some (Err.read m (Reader.what rt G (.ruleName c))) else none), s)) fun m => .pure _
  | grammar nm c =>
    refine (sub c (by simp [Reader.subs])).bind fun e => ?_
    cases e with
    | none => exact .pure _
    | some e => exact .pure _

/-- A read of which the scanner stays away from the end of the common beginning of two texts is the same on both. -/
theorem read_win (hl : jz → (p.length : Int) ≤ lo + 2 * w) (hG : G.Every fun r => Reader.Sees w r ∧ (r.isJanusEnd = true → jz)) :
    ∀ n r, r.Every (fun r => Reader.Sees w r ∧ (r.isJanusEnd = true → jz)) → Win p x y w id lo jz (read rt G n r)
  | 0, _, _ => .timeout
  | n + 1, r, hr => (step_win rt G (read rt G n) n r hr.here.1 hr.here.2 hl (fun c hc => read_win hl hG n c (hr.sub hc)) fun _ _ c hi => read_win hl hG n c (hG.get hi)).congr
    fun _ => read_eq_step ..

end Tok.Window
