/-
What the value readers put into their fields depends on the text ahead only.
-/
import Verif.Spec.Trace
import Verif.Proofs.Gives
import Verif.Props.C55

namespace Tok
open Spec

theorem readUint_same {F F' : Bytes} {s s' : Scanner} {st st' : St} (h : Sees F s st) (h' : Sees F' s' st') (e : st.rest = st'.rest) {base bits : Int}
    {x y : (Nat × Option Err) × Scanner} (hx : s.readUint base bits = .ret x) (hy : s'.readUint base bits = .ret y) : x.1.1 = y.1.1 := by
  unfold Scanner.readUint at hx hy
  generalize charFunc base = cf, uintMax bits = mx at hx hy
  rcases cf with _ | cf
  · cases hx; cases hy; rfl
  rcases mx with _ | mx
  · cases hx; cases hy; rfl
  simp only [h.tail, h'.tail, Exec.bind_ret, e] at hx hy
  split at hx <;> rename_i hn
  · rw [if_pos hn] at hy; cases hx; cases hy; rfl
  · rw [if_neg hn] at hy; cases hx; cases hy; rfl

theorem sign_same {F F' : Bytes} {s s' : Scanner} {st st' : St} (h : Sees F s st) (h' : Sees F' s' st') (e : st.rest = st'.rest) (c : Rune)
    {x y : Bool × Scanner} (hx : s.ifRune c = .ret x) (hy : s'.ifRune c = .ret y) :
    x.1 = y.1 ∧ ∃ t t', Sees F x.2 t ∧ Sees F' y.2 t' ∧ t.rest = t'.rest := by
  obtain ⟨x', e1, a1, b1⟩ := (ifRune_sim h c).left hx
  obtain ⟨y', e2, a2, b2⟩ := (ifRune_sim h' c).left hy
  cases e1; cases e2
  exact ⟨a1.trans (by rw [a2, e]), _, _, b1, b2, by simp [e]⟩

theorem readInt_same {F F' : Bytes} {s s' : Scanner} {st st' : St} (h : Sees F s st) (h' : Sees F' s' st') (e : st.rest = st'.rest) {base bits : Int}
    {x y : (Int × Option Err) × Scanner} (hx : s.readInt base bits = .ret x) (hy : s'.readInt base bits = .ret y) : x.1.1 = y.1.1 := by
  unfold Scanner.readInt at hx hy
  generalize charFunc base = cf, intBounds bits = mx at hx hy
  rcases cf with _ | cf
  · cases hx; cases hy; rfl
  rcases mx with _ | ⟨mn, mx⟩
  · cases hx; cases hy; rfl
  simp only at hx hy
  obtain ⟨⟨m, s1⟩, h1, hx⟩ := Exec.bind_eq_ret.mp hx
  obtain ⟨⟨m', s1'⟩, h1', hy⟩ := Exec.bind_eq_ret.mp hy
  obtain ⟨rfl, t1, t1', k1, k1', e1⟩ := sign_same h h' e _ h1 h1'
  have fin : ∀ (s2 s2' : Scanner) (t t' : St), Sees F s2 t → Sees F' s2' t' → t.rest = t'.rest →
      ∀ {x y : (Int × Option Err) × Scanner},
      (do
        let t ← s2.tail
        let (i64, n) := intLoop cf base mn mx m (rangeStr t) 0 (-1)
        if n = -1 then
          let s := (s2.toMarker s.mark).2
          pure ((0, some (s.errorFor b!"integer")), s)
        else pure ((i64, none), (s2.move (n + 1)).2) : Exec ((Int × Option Err) × Scanner)) = .ret x →
      (do
        let t ← s2'.tail
        let (i64, n) := intLoop cf base mn mx m (rangeStr t) 0 (-1)
        if n = -1 then
          let s := (s2'.toMarker s'.mark).2
          pure ((0, some (s.errorFor b!"integer")), s)
        else pure ((i64, none), (s2'.move (n + 1)).2) : Exec ((Int × Option Err) × Scanner)) = .ret y → x.1.1 = y.1.1 := by
    intro s2 s2' t t' k2 k2' e2 x y hx hy
    simp only [k2.tail, k2'.tail, Exec.bind_ret, e2] at hx hy
    split at hx <;> rename_i hn
    · rw [if_pos hn] at hy; cases hx; cases hy; rfl
    · rw [if_neg hn] at hy; cases hx; cases hy; rfl
  cases m
  · obtain ⟨⟨b, s2⟩, h2, hx⟩ := Exec.bind_eq_ret.mp hx
    obtain ⟨⟨b', s2'⟩, h2', hy⟩ := Exec.bind_eq_ret.mp hy
    obtain ⟨_, t2, t2', k2, k2', e2⟩ := sign_same k1 k1' e1 _ h2 h2'
    exact fin _ _ _ _ k2 k2' e2 hx hy
  · exact fin _ _ _ _ k1 k1' e1 hx hy

theorem bool_same {F F' : Bytes} {s s' : Scanner} {st st' : St} (h : Sees F s st) (h' : Sees F' s' st') (e : st.rest = st'.rest) (l l' : List Bytes)
    {x y : (Bool × Option Err) × Scanner}
    (hx : (do
        let (ok, s) ← s.ifAny l
        if ok then pure ((true, none), s)
        else do
          let (ok, s) ← s.ifAny l'
          if ok then pure ((false, none), s)
          else pure ((false, some (s.errorFor b!"bool")), s) : Exec ((Bool × Option Err) × Scanner)) = .ret x)
    (hy : (do
        let (ok, s) ← s'.ifAny l
        if ok then pure ((true, none), s)
        else do
          let (ok, s) ← s.ifAny l'
          if ok then pure ((false, none), s)
          else pure ((false, some (s.errorFor b!"bool")), s) : Exec ((Bool × Option Err) × Scanner)) = .ret y) : x.1.1 = y.1.1 := by
  have no : ∀ {F : Bytes} {s : Scanner} {st : St} {x : (Bool × Option Err) × Scanner}, Sees F s st → (do
        let (ok, s) ← s.ifAny l
        if ok then pure ((true, none), s)
        else do
          let (ok, s) ← s.ifAny l'
          if ok then pure ((false, none), s)
          else pure ((false, some (s.errorFor b!"bool")), s) : Exec ((Bool × Option Err) × Scanner)) = .ret x → x.1.1 = (eatLits l st.rest).1 := by
    intro F s st x h hx
    rcases ifAny_cases h l with ⟨h1, h2⟩ | ⟨s1, t, h1, h2, h3⟩
    · rw [h1] at hx
      rw [h2]
      simp only [Exec.bind_ret, Bool.false_eq_true, if_false] at hx
      obtain ⟨⟨ok, s2⟩, _, hx⟩ := Exec.bind_eq_ret.mp hx
      cases ok <;> cases hx <;> rfl
    · rw [h1] at hx
      rw [h2]
      cases hx
      rfl
  rw [no h hx, no h' hy, e]

theorem readBool_same {F F' : Bytes} {s s' : Scanner} {st st' : St} (h : Sees F s st) (h' : Sees F' s' st') (e : st.rest = st'.rest) {f : Bytes}
    {x y : (Bool × Option Err) × Scanner} (hx : s.readBool f = .ret x) (hy : s'.readBool f = .ret y) : x.1.1 = y.1.1 := by
  unfold Scanner.readBool at hx hy
  by_cases h1 : (f == [] || f == b!"*") = true
  · rw [if_pos h1] at hx hy
    exact bool_same h h' e _ _ hx hy
  · rw [if_neg h1] at hx hy
    simp only [ifStr_ifAny] at hx hy
    split at hx
    next heq => rw [heq] at hy; cases hx; cases hy; rfl
    next heq => rw [heq] at hy; exact bool_same h h' e _ _ hx hy

/-- What a reader without parts does to the fields. -/
theorem leaf_cells {rt : Rt} {G : Env} {n : Nat} {r : Reader} (hr : r.leaf = true) {s s' : Scanner} (hs : Inside s) {e : Option Err}
    (h : read rt G (n + 1) r s = .ret (e, s')) (k : Nat) : s'.heap.cells k = (stores r s.st.rest).foldl (Event.kept k) (s.heap.cells k) := by
  have hN : Sees s.st.rest (Scanner.new s.st.rest Heap.empty) ⟨s.st.rest, Heap.empty.janus⟩ := sees_st (new_inside _ _)
  have hS := sees_st hs
  have other : (∀ w f, r ≠ .wrap w f) → r.cell ≠ some k → s'.heap.cells k = s.heap.cells k := fun h1 h2 => by
    have e1 : read rt G (n + 1) r = read rt [] (n + 1) r := by
      cases r <;> first | rfl | (simp [Reader.leaf] at hr)
    rw [e1] at h
    exact C55_own rt [] k (n + 1) r (.mk ⟨h1, h2⟩ (fun c hc => by
      cases r <;> first | (simp [Reader.leaf] at hr; done) | cases hc)) (fun _ h => by cases h) s s' e hs h
  cases r with
  | bool c f =>
    obtain ⟨v, e1, s1, h1, _⟩ := readBool_sim hS f
    obtain ⟨v', e2, s2, h2, _⟩ := readBool_sim hN f
    obtain rfl : v = v' := readBool_same hS hN rfl h1 h2
    obtain ⟨s3, h3, h4⟩ := C55_bool rt G n c f s s1 hs v e1 h1
    rw [h] at h3
    cases h3
    simp only [stores, h2, List.foldl_cons, List.foldl_nil, Event.kept]
    split
    next hk => rw [← hk]; exact h4.value
    next hk => exact h4.others k (Ne.symm hk)
  | int c base bits =>
    obtain ⟨v, e1, s1, h1, _⟩ := readInt_sim hS base bits
    obtain ⟨v', e2, s2, h2, _⟩ := readInt_sim hN base bits
    obtain rfl : v = v' := readInt_same hS hN rfl h1 h2
    obtain ⟨s3, h3, h4⟩ := C55_int rt G n c base bits s s1 hs v e1 h1
    rw [h] at h3
    cases h3
    simp only [stores, h2, List.foldl_cons, List.foldl_nil, Event.kept]
    split
    next hk => rw [← hk]; exact h4.value
    next hk => exact h4.others k (Ne.symm hk)
  | uint c base bits =>
    obtain ⟨v, e1, s1, h1, _⟩ := readUint_sim hS base bits
    obtain ⟨v', e2, s2, h2, _⟩ := readUint_sim hN base bits
    obtain rfl : v = v' := readUint_same hS hN rfl h1 h2
    obtain ⟨s3, h3, h4⟩ := C55_uint rt G n c base bits s s1 hs v e1 h1
    rw [h] at h3
    cases h3
    simp only [stores, h2, List.foldl_cons, List.foldl_nil, Event.kept]
    split
    next hk => rw [← hk]; exact h4.value
    next hk => exact h4.others k (Ne.symm hk)
  | wrap w f => cases hr
  | _ => exact other (fun _ _ => by simp) (by simp [Reader.cell])

end Tok
