/-
C35 Reading depends only on the text ahead.
-/
import Verif.Proofs.EatMono
import Verif.Props.C34

namespace Tok
open Spec

/-- The two runs end alike: both time out, both panic, or both return, with the same
success and after the same text. -/
def SameRun (h1 h2 t : Bytes) (x y : Exec (Option Err × Scanner)) : Prop :=
  (x = .timeout ↔ y = .timeout) ∧ (x = .panic ↔ y = .panic) ∧
  ∀ e1 s1, x = .ret (e1, s1) → ∃ e2 s2, y = .ret (e2, s2) ∧ e1.isNone = e2.isNone ∧
    ∃ c t', t = c ++ t' ∧ Between s1 (h1 ++ c) t' ∧ Between s2 (h2 ++ c) t'

/-- For every grammar and reader without `Wrap`, and all scanners with the same text ahead
whose Janus strings agree where the readers name them: same success, same consumed text,
whatever was read before, whatever tracker, baskets, logs and cells there are. -/
theorem C35_janus (rt : Rt) (G : Env) (I : Nat → Prop) (hG : G.Every (fun r => r.noWrap = true ∧ r.janIn I)) (r : Reader)
    (hr : r.Every (fun r => r.noWrap = true ∧ r.janIn I)) (n : Nat) (s1 s2 : Scanner) (h1 h2 t : Bytes) (hb1 : Between s1 h1 t)
    (hb2 : Between s2 h2 t) (hj : ∀ id, I id → s1.heap.janus id = s2.heap.janus id) :
    SameRun h1 h2 t (read rt G n r s1) (read rt G n r s2) := by
  have a := read_eat rt G (hG.imp fun _ h => h.1) n r (hr.imp fun _ h => h.1) s1.full s1 _ (sees_between hb1)
  have b := read_eat rt G (hG.imp fun _ h => h.1) n r (hr.imp fun _ h => h.1) s2.full s2 _ (sees_between hb2)
  have c := eat_agrees rt G (hG.imp fun _ h => h.2) n r (hr.imp fun _ h => h.2) ⟨t, s1.heap.janus⟩ ⟨t, s2.heap.janus⟩ ⟨rfl, hj⟩
  refine ⟨a.timeout_iff.trans (c.timeout_iff.trans b.timeout_iff.symm), a.panic_iff.trans (c.panic_iff.trans b.panic_iff.symm), ?_⟩
  intro e1 s1' h
  obtain ⟨x, hx, hx1, hx2⟩ := a.left h
  obtain ⟨y, hy, hy1, hy2⟩ := c.left hx
  obtain ⟨z, hz, hz1, hz2⟩ := b.right hy
  refine ⟨z.1, z.2, hz, hx1.trans (hy1.trans hz1.symm), ?_⟩
  obtain ⟨c1, hc1, hb1'⟩ := between_sees hb1 hx2 (eat_shrinks rt G n r _ _ hx)
  obtain ⟨c2, hc2, hb2'⟩ := between_sees hb2 hz2 (eat_shrinks rt G n r _ _ hy)
  have he : x.2.rest = y.2.rest := hy2.1
  rw [← he] at hc2 hb2'
  have : c1 = c2 := List.append_cancel_right (hc1.symm.trans hc2)
  subst this
  exact ⟨c1, _, hc1, hb1', hb2'⟩

/-- Stateless readers: nothing but the text ahead matters. -/
theorem C35_text_ahead (rt : Rt) (G : Env) (hG : G.Every (fun r => r.noWrap = true ∧ r.janIn fun _ => False)) (r : Reader)
    (hr : r.Every (fun r => r.noWrap = true ∧ r.janIn fun _ => False)) (n : Nat) (s1 s2 : Scanner) (h1 h2 t : Bytes)
    (hb1 : Between s1 h1 t) (hb2 : Between s2 h2 t) : SameRun h1 h2 t (read rt G n r s1) (read rt G n r s2) :=
  C35_janus rt G _ hG r hr n s1 s2 h1 h2 t hb1 hb2 fun _ => False.elim

/-- Reading twice with the same reader at the same place is the same. -/
theorem C35_again (rt : Rt) (G : Env) (hG : G.Every (fun r => r.noWrap = true ∧ r.janIn fun _ => False)) (r : Reader)
    (hr : r.Every (fun r => r.noWrap = true ∧ r.janIn fun _ => False)) (n : Nat) (s : Scanner) (h t : Bytes) (hb : Between s h t)
    (e : Option Err) (s' : Scanner) (hret : read rt G n r s = .ret (e, s')) :
    ∃ e2 s2, read rt G n r (s'.toMarker s.mark).2 = .ret (e2, s2) ∧ e2.isNone = e.isNone ∧ s2.pos = s'.pos := by
  have hb' : Between (s'.toMarker s.mark).2 h t := by
    obtain ⟨b, hb1, h1, h2⟩ := (read_eat rt G (hG.imp fun _ h => h.1) n r (hr.imp fun _ h => h.1) s.full s _ (sees_between hb)).left hret
    have h3 : s'.full = s.full := h2.1
    obtain ⟨s'', h4, h5⟩ := toMarker_to (s := s') (h3.trans hb.1) hb.2
    unfold Scanner.mark
    rw [h4]
    exact h5.1
  obtain ⟨_, _, h3⟩ := C35_text_ahead rt G hG r hr n s (s'.toMarker s.mark).2 h h t hb hb'
  obtain ⟨e2, s2, h4, h5, c, t', h6, h7, h8⟩ := h3 e s' hret
  exact ⟨e2, s2, h4, h5.symm, by rw [h7.2, h8.2]⟩

/-- The JSON grammar is stateless; two scanners with different histories and the same `1,`
ahead. -/
theorem Json.stateless : Json.env.Every (fun r => r.noWrap = true ∧ r.janIn fun _ => False) :=
  (Json.pegOk (srch := true)).imp fun _ h => ⟨h.noWrap, h.janIn⟩
example (rt : Rt) (n : Nat) : SameRun b!"[" b!"{x:" b!"1,"
    (read rt Json.env n (.rule Json.iValue) { Scanner.new b!"[1," Heap.empty with pos := 1 })
    (read rt Json.env n (.rule Json.iValue) { Scanner.new b!"{x:1," Heap.empty with pos := 3, tracker := some (.basket 7) }) :=
  C35_text_ahead rt _ Json.stateless _ (.mk (r := .rule _) ⟨rfl, trivial⟩ (by simp [Reader.subs])) n _ _ _ _ _ ⟨rfl, rfl⟩ ⟨rfl, rfl⟩
example : ∃ s', read exRt Json.env 20 (.rule Json.iValue) { Scanner.new b!"[1," Heap.empty with pos := 1 } = .ret (none, s') ∧ s'.pos = 2 :=
  ⟨_, rfl, rfl⟩

/-- With Janus readers the condition on the kept strings is needed: the same text ahead,
different strings, different outcome. -/
theorem C35_janus_needed : ∃ (s1 s2 : Scanner) (t : Bytes), Between s1 [] t ∧ Between s2 [] t ∧
    (∃ s', read exRt [] 1 (.janusEnd 0 b!"j") s1 = .ret (none, s')) ∧
    ∃ e s', read exRt [] 1 (.janusEnd 0 b!"j") s2 = .ret (some e, s') :=
  ⟨.new b!"ab" Heap.empty, .new b!"ab" { Heap.empty with janus := upd Heap.empty.janus 0 b!"x" }, b!"ab",
    ⟨rfl, rfl⟩, ⟨rfl, rfl⟩, ⟨_, rfl⟩, _, _, rfl⟩

end Tok
