/-
The calculus of `Proofs/Gives.lean` on texts that need not be UTF-8, and reads that do not end.
-/
import Verif.Proofs.Gives
import Verif.Proofs.SearchAll

namespace Tok
open Spec

variable {rt : Rt} {G : Env} {r : Reader} {rs : List Reader} {a b c : View} {ok : Bool} {h x t : Bytes} {j : Nat → Bytes} {M : List (Nat × Token)}

/-! ### one step of a search -/

theorem hop_split {t u : Bytes} (h : Hop t u) : ∃ x, x ≠ [] ∧ t = x ++ u := by
  cases h with
  | char c u => exact ⟨enc c, enc_ne_nil c, rfl⟩
  | junk b b1 b2 u _ => exact ⟨[b, b1, b2], by simp, rfl⟩

theorem Views.hop (rt : Rt) {s : Scanner} (hh : Hop (x ++ t) t) (hv : Views s ⟨h, x ++ t, j, M⟩) :
    ∃ s', s.moveRunes 1 = .ret (true, s') ∧ Views s' ⟨h ++ x, t, j, M⟩ := by
  obtain ⟨hb, rfl, rfl⟩ := hv
  obtain ⟨⟨ok, s'⟩, h1, h2, h3⟩ := (moveRunes_sim (sees_between hb)).right rfl
  rw [eatStep_hop.mp hh] at h2 h3
  obtain ⟨x', hx, hb'⟩ := between_sees hb h3 (List.suffix_append _ _)
  have hx : x = x' := List.append_cancel_right hx
  subst hx
  simp only at h2
  subst h2
  exact ⟨s', h1, hb', h3.2.2, ((maps_frame rt []).moveRunes hb.inside _ h1).2⟩

theorem Views.hop_no (rt : Rt) {s : Scanner} (hh : ¬ ∃ u, Hop t u) (hv : Views s ⟨h, t, j, M⟩) :
    ∃ s', s.moveRunes 1 = .ret (false, s') ∧ Views s' ⟨h, t, j, M⟩ := by
  obtain ⟨hb, rfl, rfl⟩ := hv
  obtain ⟨⟨ok, s'⟩, h1, h2, h3⟩ := (moveRunes_sim (sees_between hb)).right rfl
  rcases eatStep_cases t with ⟨u, hu, _⟩ | ⟨_, he⟩
  · exact absurd ⟨u, hu⟩ hh
  rw [he] at h2 h3
  obtain ⟨x', hx, hb'⟩ := between_sees hb h3 (List.suffix_refl _)
  have hx : x' = [] := by simpa using hx.symm
  subst hx
  simp only at h2
  subst h2
  exact ⟨s', h1, by simpa using hb', h3.2.2, ((maps_frame rt []).moveRunes hb.inside _ h1).2⟩

theorem Gives.to_hop (hh : Hop (x ++ t) t) (h1 : Gives rt G r a false ⟨h, x ++ t, j, M⟩) (h2 : Gives rt G (.to r) ⟨h ++ x, t, j, M⟩ true c) :
    Gives rt G (.to r) a true c := by
  obtain ⟨t1, n1, h1⟩ := h1
  obtain ⟨t2, n2, h2⟩ := h2
  refine ⟨by rw [t2]; simpa using t1, n1 + n2 + 2, fun s hs => ?_⟩
  obtain ⟨e, s1, r1, e1, v1⟩ := h1 s hs
  cases e with
  | none => cases e1
  | some e =>
    obtain ⟨s2, r2, v2⟩ := Views.hop rt hh v1
    obtain ⟨e3, s3, r3, e3', v3⟩ := h2 s2 v2
    cases n2 with
    | zero => cases r3
    | succ n2 =>
      obtain ⟨s4, r4, r5⟩ := to_inv r3
      rw [e3'] at r4 r5
      have hl : toLoop (read rt G (n1 + (n2 + 1) + 1) r) (n1 + (n2 + 1) + 1) s = .ret (true, s4) := by
        rw [toLoop, read_mono (show n1 ≤ n1 + (n2 + 1) + 1 by omega) r1]
        simp only [Exec.bind_ret, r2, if_true]
        exact (toLoop_le (fun s => read_le rt G n2 (n1 + (n2 + 1) + 1) (by omega) r s) n2 (n1 + (n2 + 1)) s2 (by omega)).ret r4
      simp only [if_true] at r5
      subst r5
      exact ⟨none, s3, to_ret hl, rfl, v3⟩

theorem Gives.to_stop (hh : ¬ ∃ u, Hop t u) (h1 : Gives rt G r a false ⟨h, t, j, M⟩) : Gives rt G (.to r) a false ⟨a.head, a.rest, j, M⟩ := by
  obtain ⟨t1, n1, h1⟩ := h1
  refine ⟨rfl, n1 + 2, fun s hs => ?_⟩
  obtain ⟨e, s1, r1, e1, v1⟩ := h1 s hs
  cases e with
  | none => cases e1
  | some e =>
    obtain ⟨s2, r2, v2⟩ := Views.hop_no rt hh v1
    have hl : toLoop (read rt G (n1 + 1) r) (n1 + 1) s = .ret (false, s2) := by
      rw [toLoop, read_mono (Nat.le_succ n1) r1]
      simp only [Exec.bind_ret, r2]
      rfl
    obtain ⟨e5, r5⟩ := to_ret_no hl
    exact ⟨some e5, _, r5, rfl, hs.back v2 t1⟩

theorem Gives.to_hop_no (hh : Hop (x ++ t) t) (h1 : Gives rt G r a false ⟨h, x ++ t, j, M⟩) (h2 : Gives rt G (.to r) ⟨h ++ x, t, j, M⟩ false c) :
    Gives rt G (.to r) a false (a.back c) := by
  obtain ⟨t1, n1, h1⟩ := h1
  obtain ⟨t2, n2, h2⟩ := h2
  refine ⟨rfl, n1 + n2 + 2, fun s hs => ?_⟩
  obtain ⟨e, s1, r1, e1, v1⟩ := h1 s hs
  cases e with
  | none => cases e1
  | some e =>
    obtain ⟨s2, r2, v2⟩ := Views.hop rt hh v1
    obtain ⟨e3, s3, r3, e3', v3⟩ := h2 s2 v2
    cases n2 with
    | zero => cases r3
    | succ n2 =>
      obtain ⟨s4, r4, r5⟩ := to_inv r3
      rw [e3'] at r4 r5
      have hl : toLoop (read rt G (n1 + (n2 + 1) + 1) r) (n1 + (n2 + 1) + 1) s = .ret (false, s4) := by
        rw [toLoop, read_mono (show n1 ≤ n1 + (n2 + 1) + 1 by omega) r1]
        simp only [Exec.bind_ret, r2, if_true]
        exact (toLoop_le (fun s => read_le rt G n2 (n1 + (n2 + 1) + 1) (by omega) r s) n2 (n1 + (n2 + 1)) s2 (by omega)).ret r4
      simp only [Bool.false_eq_true, if_false] at r5
      subst r5
      obtain ⟨e5, r5⟩ := to_ret_no hl
      exact ⟨some e5, _, r5, rfl, hs.back_more v2.1.2 (by simpa using t1) t2 v3⟩

theorem GivesBody.hop {bd tl : Reader} {h0 : Bytes} {res : Option Bytes} (hh : Hop (x ++ t) t) (hne : a.rest ≠ [])
    (h1 : Gives rt G tl a false ⟨h, x ++ t, j, M⟩) (h2 : GivesBody rt G bd tl h0 ⟨h ++ x, t, j, M⟩ res c) : GivesBody rt G bd tl h0 a res c := by
  obtain ⟨t1, n1, h1⟩ := h1
  obtain ⟨t2, n2, h2⟩ := h2
  refine ⟨by rw [t2]; simpa using t1, n1 + n2 + 1, fun s hs => ?_⟩
  obtain ⟨e, s1, r1, e1, v1⟩ := h1 s hs
  cases e with
  | none => cases e1
  | some e =>
    obtain ⟨s2, r2, v2⟩ := Views.hop rt hh v1
    obtain ⟨s3, r3, v3⟩ := h2 s2 v2
    refine ⟨s3, ?_, v3⟩
    have hend : s.atEnd = false := by rw [hs.atEnd]; simpa using hne
    simp only [bodyLoop, hend, Bool.false_eq_true, if_false]
    rw [read_mono (by omega) r1]
    simp only [Exec.bind_ret, r2]
    exact (bodyLoop_le (fun s => read_le rt G n2 (n1 + n2 + 1) (by omega) bd s) (fun s => read_le rt G n2 (n1 + n2 + 1) (by omega) tl s) _ n2 (n1 + n2) s2 (by omega)).ret r3

/-! ### reads that do not end -/

/-- No budget is enough. -/
def Never (rt : Rt) (G : Env) (r : Reader) (a : View) : Prop := ∀ n s, Views s a → read rt G n r s = .timeout

def NeverSeq (rt : Rt) (G : Env) (rs : List Reader) (a : View) : Prop := ∀ n s, Views s a → seqLoop (read rt G n) rs s = .timeout

/-- With any budget a read does what it does with a large one, or does not come to an end. -/
theorem Gives.any_budget (h1 : Gives rt G r a ok b) (n : Nat) (s : Scanner) (hs : Views s a) :
    read rt G n r s = .timeout ∨ ∃ e s', read rt G n r s = .ret (e, s') ∧ e.isNone = ok ∧ Views s' b := by
  obtain ⟨m, e, s', r1, e1, v1⟩ := h1.reads hs
  have h2 := r1 (n + m) (by omega)
  have h3 := read_le rt G n (n + m) (by omega) r s
  cases h : read rt G n r s with
  | timeout => exact .inl rfl
  | ret y =>
    have := read_mono (show n ≤ n + m by omega) h
    rw [h2] at this
    cases this
    exact .inr ⟨e, s', rfl, e1, v1⟩
  | panic =>
    rw [h] at h3
    have := h3.resolve_left (by simp)
    rw [h2] at this
    cases this

theorem NeverSeq.here (h1 : Never rt G r a) : NeverSeq rt G (r :: rs) a := by
  intro n s hs
  simp only [seqLoop, h1 n s hs]
  rfl

theorem NeverSeq.cons (h1 : Gives rt G r a true b) (h2 : NeverSeq rt G rs b) : NeverSeq rt G (r :: rs) a := by
  intro n s hs
  rcases h1.any_budget n s hs with h | ⟨e, s', h, he, hv⟩
  · simp only [seqLoop, h]
    rfl
  · cases e with
    | some e => cases he
    | none =>
      simp only [seqLoop, h, Exec.bind_ret]
      exact h2 n s' hv

theorem Never.seq (h1 : NeverSeq rt G rs a) : Never rt G (.seq rs) a := by
  intro n s hs
  cases n with
  | zero => rfl
  | succ n =>
    simp only [read, h1 n s hs]
    rfl

theorem Never.rule {i : Nat} {nm : Bytes} (hi : G[i]? = some ⟨nm, some r⟩) (h1 : Never rt G r a) : Never rt G (.rule i) a := by
  intro n s hs
  cases n with
  | zero => rfl
  | succ n =>
    simp only [read, hi]
    exact h1 n s hs

theorem Never.named {nm : Bytes} (h1 : Never rt G r a) : Never rt G (.named nm r) a := by
  intro n s hs
  cases n with
  | zero => rfl
  | succ n => exact h1 n s hs

theorem Never.grammar {w : Bytes} (h1 : Never rt G r a) : Never rt G (.grammar w r) a := by
  intro n s hs
  cases n with
  | zero => rfl
  | succ n =>
    simp only [read, h1 n s hs]
    rfl

theorem Never.to_ (h1 : Never rt G r a) : Never rt G (.to r) a := by
  intro n s hs
  cases n with
  | zero => rfl
  | succ n =>
    have h0 : read rt G (n + 1) (.to r) s = (toLoop (read rt G n r) n s >>= fun x => if x.1 then pure (none, x.2) else
      pure (some ((x.2.toMarker s.mark).2.errorFor ((Reader.to r).what rt G)), (x.2.toMarker s.mark).2)) := rfl
    rw [h0]
    have : toLoop (read rt G n r) n s = .timeout := by
      cases n with
      | zero => rfl
      | succ n => simp only [toLoop, h1 _ s hs]; rfl
    rw [this]
    rfl

theorem zom_timeout {n : Nat} {s : Scanner} (h : zomLoop (read rt G n r) n s = .timeout) : read rt G (n + 1) (.zom r) s = .timeout := by
  have : read rt G (n + 1) (.zom r) s = (zomLoop (read rt G n r) n s >>= fun s => pure (none, s)) := rfl
  rw [this, h]; rfl

/-- The loop of `Zom`. -/
def NeverZom (rt : Rt) (G : Env) (r : Reader) (a : View) : Prop := ∀ n m s, Views s a → zomLoop (read rt G n r) m s = .timeout

theorem NeverZom.here (h1 : Never rt G r a) : NeverZom rt G r a := by
  intro n m s hs
  cases m with
  | zero => rfl
  | succ m => simp only [zomLoop, h1 n s hs]; rfl

theorem NeverZom.step (h1 : Gives rt G r a true b) (h2 : NeverZom rt G r b) : NeverZom rt G r a := by
  intro n m s hs
  cases m with
  | zero => rfl
  | succ m =>
    rcases h1.any_budget n s hs with h | ⟨e, s', h, he, hv⟩
    · simp only [zomLoop, h]; rfl
    · cases e with
      | some e => cases he
      | none =>
        simp only [zomLoop, h, Exec.bind_ret]
        exact h2 n m s' hv

theorem Never.zom (h1 : NeverZom rt G r a) : Never rt G (.zom r) a := by
  intro n s hs
  cases n with
  | zero => rfl
  | succ n => exact zom_timeout (h1 n n s hs)

/-- The loop of `Body` and `BodyTail`. -/
def NeverBody (rt : Rt) (G : Env) (bd tl : Reader) (a : View) : Prop :=
  ∀ n m k s, Views s a → bodyLoop (read rt G n bd) (read rt G n tl) k m s = .timeout

/-- Where the search makes no step and the tail does not match, it stays for ever. -/
theorem NeverBody.stuck {bd tl : Reader} (hne : a.rest ≠ []) (hh : ¬ ∃ u, Hop a.rest u) (h1 : Gives rt G tl a false a) : NeverBody rt G bd tl a := by
  intro n m k
  induction m with
  | zero => intro s _; rfl
  | succ m ih =>
    intro s hs
    have hend : s.atEnd = false := by rw [hs.atEnd]; simpa using hne
    simp only [bodyLoop, hend, Bool.false_eq_true, if_false]
    rcases h1.any_budget n s hs with h | ⟨e, s', h, he, hv⟩
    · rw [h]; rfl
    · cases e with
      | none => cases he
      | some e =>
        obtain ⟨s2, r2, v2⟩ := Views.hop_no rt (h := a.head) (t := a.rest) (j := a.jan) (M := a.maps) hh hv
        simp only [h, Exec.bind_ret, r2]
        exact ih s2 v2

theorem NeverBody.hop {bd tl : Reader} (hh : Hop (x ++ t) t) (hne : a.rest ≠ []) (h1 : Gives rt G tl a false ⟨h, x ++ t, j, M⟩)
    (h2 : NeverBody rt G bd tl ⟨h ++ x, t, j, M⟩) : NeverBody rt G bd tl a := by
  intro n m k s hs
  cases m with
  | zero => rfl
  | succ m =>
    have hend : s.atEnd = false := by rw [hs.atEnd]; simpa using hne
    simp only [bodyLoop, hend, Bool.false_eq_true, if_false]
    rcases h1.any_budget n s hs with h | ⟨e, s', h, he, hv⟩
    · rw [h]; rfl
    · cases e with
      | none => cases he
      | some e =>
        obtain ⟨s2, r2, v2⟩ := Views.hop rt hh hv
        simp only [h, Exec.bind_ret, r2]
        exact h2 n m k s2 v2

theorem Never.bodyTail {bd tl : Reader} (h1 : NeverBody rt G bd tl a) : Never rt G (.bodyTail bd tl) a := by
  intro n s hs
  cases n with
  | zero => rfl
  | succ n =>
    simp only [read, h1 n n _ s hs]
    rfl

theorem Gives.seq_never_absurd (h1 : Gives rt G r a ok b) (h2 : Never rt G r a) : False := by
  let s : Scanner := ⟨a.head ++ a.rest, a.head.length, none, { Heap.empty with janus := a.jan, maps := a.maps }⟩
  obtain ⟨n, e, s', r1, _, _⟩ := h1.reads (s := s) ⟨⟨rfl, rfl⟩, rfl, rfl⟩
  have := h2 n s ⟨⟨rfl, rfl⟩, rfl, rfl⟩
  rw [r1 n (Nat.le_refl n)] at this
  cases this

end Tok
