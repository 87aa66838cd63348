/-
What a read does to a log.
-/
import Verif.Spec.Log
import Verif.Proofs.Frame

namespace Tok
open Spec

theorem notify_logs (s : Scanner) : s.notify.heap.logs = s.heap.logs := by
  unfold Scanner.notify
  split <;> rfl

theorem at_logs (s : Scanner) (m : Int) : (s.at m).heap.logs = s.heap.logs := notify_logs _

theorem modify_mid {α : Type} (f : α → α) (x : α) (r : List α) : ∀ l : List α, (l ++ x :: r).modify l.length f = l ++ f x :: r
  | [] => rfl
  | y :: l => by simp [modify_mid f x r l]

/-- The exit of a call is recorded unless calls were made during it. -/
def Exits (rt : Rt) (G : Env) (K : Bytes → Reader → Prop) (F : Bytes) (en : LogEntry) (inner : List LogEntry) : Prop :=
  Told rt G K F en ∨ Lost en ∧ inner ≠ []

/-- The log `b` after something was read, compared with `a` before. -/
structure LogStep (rt : Rt) (G : Env) (K : Bytes → Reader → Prop) (F : Bytes) (a b : Log) : Prop where
  level : b.level = a.level
  gen : a.gen ≤ b.gen
  entries : ∃ new, b.entries = a.entries ++ new ∧ Forest (Exits rt G K F) (a.level + 1) new ∧ (b.gen ≠ a.gen → new ≠ []) ∧
    (b.gen = a.gen → ∀ en ∈ new, Told rt G K F en) ∧ (a.entries.length + new.length ≤ a.cap → b.gen = a.gen ∧ b.cap = a.cap)

theorem LogStep.refl {rt : Rt} {G : Env} {K : Bytes → Reader → Prop} {F : Bytes} (a : Log) : LogStep rt G K F a a :=
  ⟨rfl, Nat.le_refl _, [], by simp, .nil, by simp, by simp, by simp⟩

theorem LogStep.trans {rt : Rt} {G : Env} {K : Bytes → Reader → Prop} {F : Bytes} {a b c : Log} (h : LogStep rt G K F a b) (h' : LogStep rt G K F b c) :
    LogStep rt G K F a c := by
  obtain ⟨h1, h2, n1, e1, f1, t1, g1, c1⟩ := h
  obtain ⟨h1', h2', n2, e2, f2, t2, g2, c2⟩ := h'
  refine ⟨h1'.trans h1, by omega, n1 ++ n2, by rw [e2, e1, List.append_assoc], f1.append (h1 ▸ f2), ?_, ?_, ?_⟩
  · intro hg hn
    rw [List.append_eq_nil_iff] at hn
    by_cases hb : b.gen = a.gen
    · exact t2 (by omega) hn.2
    · exact t1 hb hn.1
  · intro hg en hen
    exact (List.mem_append.mp hen).elim (g1 (by omega) en) (g2 (by omega) en)
  · intro hc
    rw [List.length_append] at hc
    obtain ⟨k1, k2⟩ := c1 (by omega)
    obtain ⟨k3, k4⟩ := c2 (by rw [e1, List.length_append, k2]; omega)
    exact ⟨k3.trans k1, k4.trans k2⟩

theorem LogStep.leave {rt : Rt} {G : Env} {K : Bytes → Reader → Prop} {F : Bytes} {a b : Log} {info : Bytes} {pos pos' : Int} {e : Option Err}
    (h : LogStep rt G K F (a.enter rt info pos).2 b) (ht : Told rt G K F ⟨pos, info, a.level + 1, pos', e⟩) :
    LogStep rt G K F a (b.exit (a.enter rt info pos).1 pos' e) := by
  obtain ⟨h1, h2, new, e1, f1, t1, g1, c1⟩ := h
  have hidx : (a.enter rt info pos).1.idx = a.entries.length := by
    unfold Log.enter; simp only; split <;> rfl
  have hent : (a.enter rt info pos).2.entries = a.entries ++ [⟨pos, info, a.level + 1, 0, none⟩] := by
    unfold Log.enter; simp only; split <;> rfl
  have hlev : (a.enter rt info pos).2.level = a.level + 1 := by
    unfold Log.enter; simp only; split <;> rfl
  have hgen : (a.enter rt info pos).1.gen = (a.enter rt info pos).2.gen ∧ a.gen ≤ (a.enter rt info pos).2.gen := by
    unfold Log.enter; simp only; split <;> simp
  have hcap : a.entries.length ≠ a.cap → (a.enter rt info pos).2.gen = a.gen ∧ (a.enter rt info pos).2.cap = a.cap := by
    intro hne; unfold Log.enter; simp [hne]
  have hfit : ∀ en : LogEntry, a.entries.length + (en :: (new ++ [])).length ≤ a.cap → b.gen = a.gen ∧ b.cap = a.cap := by
    intro en hc
    simp only [List.append_nil, List.length_cons] at hc
    obtain ⟨k1, k2⟩ := hcap (by omega)
    obtain ⟨k3, k4⟩ := c1 (by rw [hent, k2]; simp; omega)
    exact ⟨k3.trans k1, k4.trans k2⟩
  rw [hlev] at f1 h1
  rw [hent] at e1
  refine ⟨?_, ?_, ?_⟩
  · show b.level - 1 = a.level
    omega
  · show a.gen ≤ b.gen
    omega
  by_cases hg : (a.enter rt info pos).1.gen = b.gen
  · refine ⟨⟨pos, info, a.level + 1, pos', e⟩ :: (new ++ []), ?_, .call rfl (.inl ht) f1 .nil, by simp, ?_, hfit _⟩
    · show (if _ then _ else _) = _
      rw [if_pos hg, e1, hidx, List.append_assoc, List.append_nil]
      exact modify_mid _ _ _ _
    · intro _ en hen
      rw [List.append_nil] at hen
      rcases List.mem_cons.mp hen with rfl | hen
      · exact ht
      · exact g1 (by omega) en hen
  · refine ⟨⟨pos, info, a.level + 1, 0, none⟩ :: (new ++ []), ?_, .call rfl (.inr ⟨⟨rfl, rfl⟩, t1 (by omega)⟩) f1 .nil, by simp, ?_, hfit _⟩
    · show (if _ then _ else _) = _
      rw [if_neg hg, e1, List.append_assoc, List.append_nil]
      rfl
    · intro hgg
      have : b.gen = a.gen := hgg
      omega

/-- A `Wrap` function moves forward and does to the log what a read does; what is monitored with the log is known. -/
def Reader.logging (rt : Rt) (G : Env) (l : Nat) (K : Bytes → Reader → Prop) (F : Bytes) : Reader → Prop
  | .wrap _ f => ∀ s, Inside s → RetE (fun x => Forward s x.2 ∧ LogStep rt G K F (s.heap.logs l) (x.2.heap.logs l)) (f s)
  | .monitor info k c => k = l → K info c
  | _ => True

theorem log_frame (rt : Rt) (G : Env) (l : Nat) (K : Bytes → Reader → Prop) (F : Bytes) :
    Frame rt G (Reader.logging rt G l K F) (fun s => Inside s ∧ s.full <:+: F)
    (fun s s' => Forward s s' ∧ LogStep rt G K F (s.heap.logs l) (s'.heap.logs l)) where
  inside h := h.1
  fwd _ h := h.1
  inv hs h := ⟨h.1.1, h.1.2.1 ▸ hs.2⟩
  refl h := ⟨Forward.refl h.1, .refl _⟩
  trans _ h h' := ⟨h.1.trans h'.1, h.2.trans h'.2⟩
  go {s m} h h1 h2 := by
    have := h.1.1
    refine ⟨⟨⟨?_, ?_⟩, notify_full _, ?_⟩, ?_⟩
    · show 0 ≤ (Scanner.notify _).pos
      rw [notify_pos]; simp only; omega
    · show (Scanner.notify _).pos ≤ ((Scanner.notify _).full.length : Int)
      rw [notify_pos, notify_full]; exact h2
    · show _ ≤ (Scanner.notify _).pos
      rw [notify_pos]; exact h1
    · rw [at_logs]; exact .refl _
  back {s s'} h h' := by
    refine ⟨?_, ?_⟩
    · have := Forward.back h.1 h'.1
      rwa [toMarker_at h.1.1] at this
    · rw [at_logs]; exact h'.2
  cells _ _ _ _ h := h
  janus _ _ _ _ h := h
  pick _ _ _ h := h
  map _ _ h := h
  enter _ h := h
  leave {s s' info k c n e} hp hs hrd h := by
    refine ⟨h.1, ?_⟩
    by_cases hk : l = k
    · subst hk
      have h1 : (s.enterLog rt info l).heap.logs l = ((s.heap.logs l).enter rt info s.pos).2 := if_pos rfl
      have h2 : (s'.exitLog l ((s.heap.logs l).enter rt info s.pos).1 e).heap.logs l =
        (s'.heap.logs l).exit ((s.heap.logs l).enter rt info s.pos).1 s'.pos e := if_pos rfl
      rw [h2]
      have := h.2
      rw [h1] at this
      exact this.leave ⟨c, hp rfl, n, s.enterLog rt info l, s', hrd, hs.2, rfl, rfl⟩
    · have h1 : (s.enterLog rt info k).heap.logs l = s.heap.logs l := if_neg hk
      have h2 : (s'.exitLog k ((s.heap.logs k).enter rt info s.pos).1 e).heap.logs l = s'.heap.logs l := if_neg hk
      rw [h2]
      have := h.2
      rwa [h1] at this
  wrap hp hs := hp _ hs.1
  body {s s' b t n str e sub} _ hs h hstr _ h3 := by
    have hsub := h3 ⟨⟨by simp [Scanner.new], by simp [Scanner.new]⟩, hstr.trans (h.1.2.1 ▸ hs.2)⟩
    exact ⟨⟨h.1, h.2.trans hsub.2⟩, fun _ => ⟨h.1, by
      show LogStep rt G K F _ ((sub.at 0).heap.logs l)
      rw [at_logs]
      exact h.2.trans hsub.2⟩⟩

end Tok
