/-
How deep the rules of a grammar call each other: the levels of the entries that a read adds to a log.
-/
import Verif.Proofs.Pays

namespace Tok
open Spec

/-! ### the levels of a log -/

/-- The log is left at the same level; what was added is deeper than this level, by no more than `D`. -/
def Dug (D : Nat) (a b : Log) : Prop :=
  b.level = a.level ∧ ∃ new : List Int, b.entries.map (·.level) = a.entries.map (·.level) ++ new ∧ ∀ v ∈ new, a.level < v ∧ v ≤ a.level + D

namespace Dug
variable {D E : Nat} {a b c : Log}

theorem refl : Dug D a a := ⟨rfl, [], by simp, by simp⟩

theorem trans (h : Dug D a b) (h' : Dug D b c) : Dug D a c := by
  obtain ⟨h1, x, h2, h3⟩ := h
  obtain ⟨h4, y, h5, h6⟩ := h'
  refine ⟨h4.trans h1, x ++ y, by rw [h5, h2, List.append_assoc], fun v hv => ?_⟩
  rcases List.mem_append.mp hv with hv | hv
  · exact h3 v hv
  · rw [← h1]
    exact h6 v hv

theorem mono (h : Dug D a b) (hD : D ≤ E) : Dug E a b := by
  obtain ⟨h1, x, h2, h3⟩ := h
  exact ⟨h1, x, h2, fun v hv => ⟨(h3 v hv).1, by have := (h3 v hv).2; omega⟩⟩

theorem map_modify {α β : Type} {g : α → β} {f : α → α} (h : ∀ x, g (f x) = g x) : ∀ (l : List α) (i : Nat), (l.modify i f).map g = l.map g
  | [], i => by cases i <;> rfl
  | x :: l, 0 => by simp [h]
  | x :: l, i + 1 => by simp [map_modify h l i]

theorem enter_levels (rt : Rt) (info : Bytes) (pos : Int) :
    (a.enter rt info pos).2.level = a.level + 1 ∧ (a.enter rt info pos).2.entries.map (·.level) = a.entries.map (·.level) ++ [a.level + 1] := by
  unfold Log.enter
  simp only
  split <;> simp

theorem exit_levels (p : EntryPtr) (pos : Int) (e : Option Err) :
    (a.exit p pos e).level = a.level - 1 ∧ (a.exit p pos e).entries.map (·.level) = a.entries.map (·.level) := by
  refine ⟨rfl, ?_⟩
  unfold Log.exit
  simp only
  split
  · exact map_modify (g := fun en : LogEntry => en.level) (f := fun en => { en with exitAt := pos, err := e }) (fun _ => rfl) _ _
  · rfl

/-- A monitored call. -/
theorem call {rt : Rt} {info : Bytes} {pos pos' : Int} {p : EntryPtr} {e : Option Err} (h : Dug D (a.enter rt info pos).2 b) : Dug (D + 1) a (b.exit p pos' e) := by
  obtain ⟨h1, x, h2, h3⟩ := h
  obtain ⟨h4, h5⟩ := enter_levels (a := a) rt info pos
  obtain ⟨h6, h7⟩ := exit_levels (a := b) p pos' e
  rw [h4] at h1 h3
  rw [h5] at h2
  refine ⟨by omega, [a.level + 1] ++ x, by rw [h7, h2, List.append_assoc], fun v hv => ?_⟩
  rcases List.mem_append.mp hv with hv | hv
  · rw [List.mem_singleton.mp hv]
    omega
  · have := h3 v hv
    omega

/-- What it says of the entries. -/
theorem entries (h : Dug D a b) : ∀ en ∈ b.entries.drop a.entries.length, en.level ≤ a.level + D := fun en hen => by
  obtain ⟨h1, x, h2, h3⟩ := h
  have h4 : (b.entries.drop a.entries.length).map (·.level) = x := by
    rw [List.map_drop, h2, List.drop_append_of_le_length (by simp)]
    simp
  exact (h3 en.level (by rw [← h4]; exact List.mem_map_of_mem hen)).2
end Dug

/-! ### grammars whose rules can be put in order -/

/-- No rule of rank `k` or higher is referred to. -/
def Reader.low (ρ : Nat → Nat) (k : Nat) : Reader → Bool
  | .rule i => decide (ρ i < k)
  | .monitor _ _ _ | .wrap _ _ => false
  | _ => true

theorem low_frame (rt : Rt) (G : Env) (l : Nat) (ρ : Nat → Nat) (k : Nat) :
    Frame rt G (fun r => r.low ρ k = true) Inside (fun s s' => Forward s s' ∧ Dug k (s.heap.logs l) (s'.heap.logs l)) where
  inside h := h
  fwd _ h := h.1
  inv _ h := h.1.1
  refl h := ⟨Forward.refl h, .refl⟩
  trans _ h h' := ⟨h.1.trans h'.1, h.2.trans h'.2⟩
  go {s m} h h1 h2 := ⟨((log_frame rt G 0 (fun _ _ => True) s.full).go ⟨h, List.infix_rfl⟩ h1 h2).1, by rw [at_logs]; exact .refl⟩
  back {s s'} h h' := by
    refine ⟨?_, ?_⟩
    · have := Forward.back h h'.1
      rwa [toMarker_at h.1] at this
    · rw [at_logs]; exact h'.2
  cells _ _ _ _ h := h
  janus _ _ _ _ h := h
  pick _ _ _ h := h
  map _ _ h := h
  enter h _ := by cases h
  leave h _ _ _ := by cases h
  wrap h _ := by cases h
  body {s s' b t n str e sub} _ hs h hstr _ h3 := by
    have hsub := h3 ⟨by simp [Scanner.new], by simp [Scanner.new]⟩
    exact ⟨⟨h.1, h.2.trans hsub.2⟩, fun _ => ⟨h.1, by
      show Dug k _ ((sub.at 0).heap.logs l)
      rw [at_logs]
      exact h.2.trans hsub.2⟩⟩

theorem monitorAll_get {G : Env} {l i : Nat} {nm : Bytes} {r : Reader} (hi : G[i]? = some ⟨nm, some r⟩) : (G.monitorAll l)[i]? = some ⟨nm, some (.monitor nm l r)⟩ := by
  unfold Env.monitorAll
  rw [List.getElem?_map, hi]
  rfl

/-- With all rules monitored, a reader that refers to rules of a rank below `k` only digs no deeper than `k`. -/
theorem ranked_read (rt : Rt) (G : Env) (l K : Nat) (ρ : Nat → Nat)
    (hρ : ∀ (i : Nat) (nm : Bytes) (c : Reader), ρ i < K → G[i]? = some ⟨nm, some c⟩ → c.Every (fun r => r.low ρ (ρ i) = true)) (k : Nat) (hk : k ≤ K) (n : Nat) (r : Reader)
    (hr : r.Every (fun r => r.low ρ k = true)) (s : Scanner) (hs : Inside s) (e : Option Err) (s' : Scanner) (he : read rt (G.monitorAll l) n r s = .ret (e, s')) :
    Forward s s' ∧ Dug k (s.heap.logs l) (s'.heap.logs l) := by
  induction k using Nat.strong_induction_on generalizing n r s e s' with
  | _ k ih =>
    refine (low_frame rt (G.monitorAll l) l ρ k).read_rules n (fun m _ i hi s hs => ?_) r hr s hs _ he
    rintro ⟨e, s'⟩ he
    have hi' : ρ i < k := by simpa [Reader.low] using hi
    match m, he with
    | 1, he =>
      rcases hg : G[i]? with _ | ⟨nm, _ | c⟩
      · simp [read, Env.monitorAll, hg] at he
      · have : (G.monitorAll l)[i]? = some ⟨nm, none⟩ := by
          unfold Env.monitorAll
          rw [List.getElem?_map, hg]
          rfl
        simp [read, this] at he
      · simp [read, monitorAll_get hg] at he
    | m + 2, he =>
      rcases hg : G[i]? with _ | ⟨nm, _ | c⟩
      · simp [read, Env.monitorAll, hg] at he
      · have : (G.monitorAll l)[i]? = some ⟨nm, none⟩ := by
          unfold Env.monitorAll
          rw [List.getElem?_map, hg]
          rfl
        simp [read, this] at he
      · simp only [read, monitorAll_get hg] at he
        obtain ⟨⟨e1, s1⟩, h1, h2⟩ := Exec.bind_eq_ret.mp he
        cases h2
        obtain ⟨h3, h4⟩ := ih (ρ i) hi' (by omega) m c (hρ i nm c (by omega) hg) (s.enterLog rt nm l) hs e1 s1 h1
        refine ⟨h3, ?_⟩
        rw [show (s.enterLog rt nm l).heap.logs l = ((s.heap.logs l).enter rt nm s.pos).2 from if_pos rfl] at h4
        have : (s1.exitLog l ((s.heap.logs l).enter rt nm s.pos).1 e1).heap.logs l = (s1.heap.logs l).exit ((s.heap.logs l).enter rt nm s.pos).1 s1.pos e1 := if_pos rfl
        show Dug k _ ((s1.exitLog l ((s.heap.logs l).enter rt nm s.pos).1 e1).heap.logs l)
        rw [this]
        exact h4.call.mono hi'

/-! ### a calculus for bounds that depend on the text -/

/-- Every read of the text `t` that comes to an end digs no deeper than `D`, and meets the condition on its result and on the text it leaves. -/
def Dips (l : Nat) (f : ReadFunc) (t : Bytes) (D : Nat) (Q : Bool → Bytes → Prop) : Prop :=
  ∀ s h, Between s h t → ∀ e s', f s = .ret (e, s') →
    ∃ x t', t = x ++ t' ∧ Between s' (h ++ x) t' ∧ Dug D (s.heap.logs l) (s'.heap.logs l) ∧ Q e.isNone t'

/-- A condition on the text that is left after a success; a failure leaves the text as it was. -/
def Rests (t : Bytes) (Q : Bytes → Prop) (ok : Bool) (u : Bytes) : Prop := (ok = true → Q u) ∧ (ok = false → u = t)

namespace Dips
variable {rt : Rt} {G : Env} {l n D E : Nat} {f : ReadFunc} {rd : Reader → ReadFunc} {r : Reader} {rs : List Reader} {t : Bytes}
  {Q Q' : Bool → Bytes → Prop} {P P' : Bytes → Prop}

theorem zero : Dips l (read rt G 0 r) t D Q := fun _ _ _ _ _ he => by cases he

theorem mono (h : Dips l f t D Q) (hD : D ≤ E) (hQ : ∀ ok u, u <:+ t → Q ok u → Q' ok u) : Dips l f t E Q' := fun s hd hb e s' he => by
  obtain ⟨x, u, h1, h2, h3, h4⟩ := h s hd hb e s' he
  exact ⟨x, u, h1, h2, h3.mono hD, hQ _ _ ⟨x, h1.symm⟩ h4⟩

theorem deeper (h : Dips l f t D Q) (hD : D ≤ E) : Dips l f t E Q := h.mono hD fun _ _ _ h => h

theorem imp (h : Dips l f t D (Rests t P)) (hP : ∀ u, u <:+ t → P u → P' u) : Dips l f t D (Rests t P') :=
  h.mono (Nat.le_refl _) fun _ u hu h => ⟨fun e => hP u hu (h.1 e), h.2⟩

theorem fuel (h : ∀ m, n = m + 1 → Dips l (read rt G (m + 1) r) t D Q) : Dips l (read rt G n r) t D Q := by
  cases n with
  | zero => exact .zero
  | succ n => exact h n rfl

theorem nil (h : Q true t) : Dips l (seqLoop rd []) t D Q := fun s hd hb e s' he => by
  cases he
  exact ⟨[], t, rfl, by simpa using hb, .refl, h⟩

theorem cons (h : Dips l (rd r) t D Q') (h' : ∀ u, u <:+ t → Q' true u → Dips l (seqLoop rd rs) u D (fun ok v => ok = true → P v)) :
    Dips l (seqLoop rd (r :: rs)) t D (fun ok v => ok = true → P v) := fun s hd hb e s' he => by
  rw [seqLoop] at he
  obtain ⟨⟨e1, s1⟩, h1, h2⟩ := Exec.bind_eq_ret.mp he
  obtain ⟨x, u, hx, hb1, hk1, hq1⟩ := h s hd hb e1 s1 h1
  cases e1 with
  | some e1 =>
    cases h2
    exact ⟨x, u, hx, hb1, hk1, fun h => by cases h⟩
  | none =>
    obtain ⟨y, v, hy, hb2, hk2, hq2⟩ := h' u ⟨x, hx.symm⟩ hq1 s1 _ hb1 e s' h2
    exact ⟨x ++ y, v, by rw [hx, hy, List.append_assoc], by rw [← List.append_assoc]; exact hb2, hk1.trans hk2, hq2⟩

theorem seq (h : Dips l (seqLoop (read rt G n) rs) t D (fun ok v => ok = true → P v)) : Dips l (read rt G (n + 1) (.seq rs)) t D (Rests t P) := fun s hd hb e s' he => by
  simp only [read] at he
  obtain ⟨⟨e1, s1⟩, h1, h2⟩ := Exec.bind_eq_ret.mp he
  obtain ⟨x, u, hx, hb1, hk, hq⟩ := h s hd hb e1 s1 h1
  cases e1 with
  | none =>
    cases h2
    exact ⟨x, u, hx, hb1, hk, hq, by simp⟩
  | some e1 =>
    cases h2
    refine ⟨[], t, rfl, by rw [List.append_nil]; exact back_between hb hx hb1, ?_, by simp, fun _ => rfl⟩
    show Dug D _ ((s1.toMarker s.pos).2.heap.logs l)
    rw [toMarker_at hb.inside.1, at_logs]
    exact hk

/-- The first reader that is successful. -/
def Tried (l : Nat) (rd : Reader → ReadFunc) (rs : List Reader) (t : Bytes) (D : Nat) (P : Bytes → Prop) : Prop :=
  ∀ acc s h, Between s h t → ∀ e s', anyLoop rd rs acc s = .ret (e, s') →
    ∃ x t', t = x ++ t' ∧ Between s' (h ++ x) t' ∧ Dug D (s.heap.logs l) (s'.heap.logs l) ∧ Rests t P e.isNone t'

theorem none : Tried l rd [] t D P := fun acc s hd hb e s' he => by
  cases he
  exact ⟨[], t, rfl, by simpa using hb, .refl, by simp, fun _ => rfl⟩

theorem orElse (h : Dips l (rd r) t D (Rests t P)) (h' : Tried l rd rs t D P) : Tried l rd (r :: rs) t D P := fun acc s hd hb e s' he => by
  rw [anyLoop] at he
  obtain ⟨⟨e1, s1⟩, h1, h2⟩ := Exec.bind_eq_ret.mp he
  obtain ⟨x, u, hx, hb1, hk1, hq1⟩ := h s hd hb e1 s1 h1
  cases e1 with
  | none =>
    cases h2
    exact ⟨x, u, hx, hb1, hk1, hq1⟩
  | some e1 =>
    obtain rfl := hq1.2 rfl
    obtain rfl : x = [] := by simpa using hx
    obtain ⟨y, v, hy, hb2, hk2, hq2⟩ := h' _ s1 _ hb1 e s' h2
    exact ⟨y, v, hy, by simpa using hb2, hk1.trans hk2, hq2⟩

theorem any (h : Tried l (read rt G n) rs t D P) : Dips l (read rt G (n + 1) (.any rs)) t D (Rests t P) := fun s hd hb e s' he => by
  simp only [read] at he
  obtain ⟨⟨e1, s1⟩, h1, h2⟩ := Exec.bind_eq_ret.mp he
  obtain ⟨x, u, hx, hb1, hk, hq⟩ := h [] s hd hb e1 s1 h1
  cases e1 with
  | none =>
    cases h2
    exact ⟨x, u, hx, hb1, hk, hq⟩
  | some e1 =>
    cases h2
    refine ⟨[], t, rfl, by rw [List.append_nil]; exact back_between hb hx hb1, ?_, by simp, fun _ => rfl⟩
    show Dug D _ ((s1.toMarker s.pos).2.heap.logs l)
    rw [toMarker_at hb.inside.1, at_logs]
    exact hk

theorem loop (h : ∀ u, P u → Dips l f u D (Rests u P)) : ∀ n t, P t → ∀ s hd, Between s hd t → ∀ s', zomLoop f n s = .ret s' →
    ∃ x t', t = x ++ t' ∧ Between s' (hd ++ x) t' ∧ Dug D (s.heap.logs l) (s'.heap.logs l) ∧ P t'
  | 0, _, _, _, _, _, _, he => by cases he
  | n + 1, t, hP, s, hd, hb, s', he => by
    rw [zomLoop] at he
    obtain ⟨⟨e1, s1⟩, h1, h2⟩ := Exec.bind_eq_ret.mp he
    obtain ⟨x, u, hx, hb1, hk1, hq1⟩ := h t hP s hd hb e1 s1 h1
    cases e1 with
    | some e1 =>
      cases h2
      exact ⟨x, u, hx, hb1, hk1, by rw [hq1.2 rfl]; exact hP⟩
    | none =>
      obtain ⟨y, v, hy, hb2, hk2, hq2⟩ := loop h n u (hq1.1 rfl) s1 _ hb1 s' h2
      exact ⟨x ++ y, v, by rw [hx, hy, List.append_assoc], by rw [← List.append_assoc]; exact hb2, hk1.trans hk2, hq2⟩

/-- A reader as often as it is successful, with what stays true. -/
theorem zom (h : ∀ u, P u → Dips l (read rt G n r) u D (Rests u P)) (ht : P t) : Dips l (read rt G (n + 1) (.zom r)) t D (Rests t P) := fun s hd hb e s' he => by
  simp only [read] at he
  obtain ⟨s1, h1, h2⟩ := Exec.bind_eq_ret.mp he
  cases h2
  obtain ⟨x, u, hx, hb1, hk, hq⟩ := loop h n t ht s hd hb _ h1
  exact ⟨x, u, hx, hb1, hk, fun _ => hq, by simp⟩

/-- A monitored rule is one level above what it calls. -/
theorem rule {i : Nat} {nm : Bytes} (hi : G[i]? = some ⟨nm, some r⟩) (h : ∀ m, Dips l (read rt (G.monitorAll l) m r) t D Q) :
    Dips l (read rt (G.monitorAll l) n (.rule i)) t (D + 1) Q := fun s hd hb e s' he => by
  match n, he with
  | n + 2, he =>
    simp only [read, monitorAll_get hi] at he
    obtain ⟨⟨e1, s1⟩, h1, h2⟩ := Exec.bind_eq_ret.mp he
    cases h2
    obtain ⟨x, u, hx, hb1, hk, hq⟩ := h n (s.enterLog rt nm l) hd hb e1 s1 h1
    refine ⟨x, u, hx, hb1, ?_, hq⟩
    rw [show (s.enterLog rt nm l).heap.logs l = ((s.heap.logs l).enter rt nm s.pos).2 from if_pos rfl] at hk
    have : (s1.exitLog l ((s.heap.logs l).enter rt nm s.pos).1 e1).heap.logs l = (s1.heap.logs l).exit ((s.heap.logs l).enter rt nm s.pos).1 s1.pos e1 := if_pos rfl
    show Dug (D + 1) _ ((s1.exitLog l ((s.heap.logs l).enter rt nm s.pos).1 e1).heap.logs l)
    rw [this]
    exact hk.call
  | 1, he => simp [read, monitorAll_get hi] at he

/-- A reader with a bound for its depth that does on every text what a function says. -/
theorem does {K : Nat} {ρ : Nat → Nat}
    (hρ : ∀ (i : Nat) (nm : Bytes) (c : Reader), ρ i < K → G[i]? = some ⟨nm, some c⟩ → c.Every (fun r => r.low ρ (ρ i) = true)) (hD : D ≤ K)
    (hr : r.Every (fun r => r.low ρ D = true)) (hB : Unwatched G r) {g : Bytes → Option Bytes} (hd : Does rt G r g) :
    Dips l (read rt (G.monitorAll l) n r) t D (Rests t (fun u => g t = some u)) := fun s hd' hb e s' he => by
  obtain ⟨h1, x, h2, h3⟩ := (hd.gets t).ends hB hb he
  refine ⟨x, _, h2, h3, (ranked_read rt G l K ρ hρ D hD n r hr s hb.inside e s' he).2, fun h => ?_, fun h => ?_⟩
  · rw [h] at h1
    cases hg : g t with
    | none => rw [hg] at h1; cases h1
    | some u => rfl
  · rw [h] at h1
    cases hg : g t with
    | none => rfl
    | some u => rw [hg] at h1; cases h1

end Dips

/-! ### bounds from below -/

/-- The log is left at the same level, with further entries, one of which is deeper than this level by `k` or more. -/
def Deep (k : Nat) (a b : Log) : Prop :=
  b.level = a.level ∧ ∃ new, b.entries = a.entries ++ new ∧ (0 < k → ∃ en ∈ new, a.level + k ≤ en.level)

namespace Deep
variable {k k' : Nat} {a b c : Log}

theorem refl : Deep 0 a a := ⟨rfl, [], by simp, by simp⟩

theorem trans (h : Deep k a b) (h' : Deep k' b c) : Deep (max k k') a c := by
  obtain ⟨h1, x, h2, h3⟩ := h
  obtain ⟨h4, y, h5, h6⟩ := h'
  refine ⟨h4.trans h1, x ++ y, by rw [h5, h2, List.append_assoc], fun hk => ?_⟩
  by_cases hm : k' ≤ k
  · obtain ⟨en, h7, h8⟩ := h3 (by omega)
    exact ⟨en, List.mem_append_left _ h7, by omega⟩
  · obtain ⟨en, h7, h8⟩ := h6 (by omega)
    exact ⟨en, List.mem_append_right _ h7, by omega⟩

theorem mono (h : Deep k a b) (hk : k' ≤ k) : Deep k' a b := by
  obtain ⟨h1, x, h2, h3⟩ := h
  refine ⟨h1, x, h2, fun h => ?_⟩
  obtain ⟨en, h4, h5⟩ := h3 (by omega)
  exact ⟨en, h4, by omega⟩

theorem trans0 (h : Deep (max k 0) a b) (h' : Deep k' b c) : Deep (max k k') a c := (h.trans h').mono (by omega)

theorem trans0' (h : Deep 0 a b) (h' : Deep k b c) : Deep k a c := (h.trans h').mono (by omega)

end Deep

/-- With all rules monitored, a read of the text `t` that comes to an end digs to the depth `k` at least. -/
def Digs (rt : Rt) (G : Env) (l : Nat) (r : Reader) (t : Bytes) (k : Nat) : Prop :=
  ∀ s h, Between s h t → ∀ n e s', read rt (G.monitorAll l) n r s = .ret (e, s') → Deep k (s.heap.logs l) (s'.heap.logs l)

section
variable {rt : Rt} {G : Env} {l : Nat} {r sk : Reader} {rs : List Reader} {t u v : Bytes} {o : Option Bytes} {k k' : Nat}

theorem deep_mono (h : Unwatched G r) {s s' : Scanner} (hs : Inside s) {n : Nat} {e : Option Err}
    (he : read rt (G.monitorAll l) n r s = .ret (e, s')) : Deep 0 (s.heap.logs l) (s'.heap.logs l) := by
  obtain ⟨new, h1, _⟩ := C43_order rt (G.monitorAll l) l r (monitorAll_noLog h.1) (bare_noLog h.2) n s s' hs e he
  exact ⟨C43_level rt (G.monitorAll l) l r (monitorAll_noLog h.1) (bare_noLog h.2) n s s' hs e he, new, h1, by simp⟩

theorem Digs.zero (h : Unwatched G r) : Digs rt G l r t 0 := fun _ _ hb _ _ _ he => deep_mono h hb.inside he

theorem Digs.mono (h : Digs rt G l r t k) (hk : k' ≤ k) : Digs rt G l r t k' := fun s h' hb n e s' he => (h s h' hb n e s' he).mono hk

theorem marker_logs {s : Scanner} {m : Int} : (s.toMarker m).2.heap.logs l = s.heap.logs l := by
  unfold Scanner.toMarker Scanner.notify
  split
  · rfl
  · simp only
    split <;> rfl

/-- A monitored rule is one level above what it calls. -/
theorem Digs.rule {i : Nat} {nm : Bytes} (hB : Unwatched G (.rule i)) (hi : G[i]? = some ⟨nm, some r⟩) (h : Digs rt G l r t k) :
    Digs rt G l (.rule i) t (k + 1) := fun s hd hb n e s' he => by
  have hr : r.Every (fun r => r.bare = true) := hB.1.get hi
  have hi' := monitorAll_get (l := l) hi
  match n, he with
  | n + 2, he =>
    have hl := C43_level rt (G.monitorAll l) l (.rule i) (monitorAll_noLog hB.1) (bare_noLog hB.2) _ s s' hb.inside e he
    simp only [read, hi'] at he
    obtain ⟨en, inner, s1, h1, _, _, hlev, h2, h3⟩ := C43_call rt (G.monitorAll l) l nm r (monitorAll_noLog hB.1) (bare_noLog hr) n s s' hb.inside e
      (by simp only [read]; exact he)
    obtain ⟨h4, new, h5, h6⟩ := h (s.enterLog rt nm l) hd hb n e s1 h2
    refine ⟨hl, en :: inner, h1, fun _ => ?_⟩
    obtain rfl : inner = new := List.append_cancel_left (h3.symm.trans h5)
    by_cases hk : 0 < k
    · obtain ⟨en', h7, h8⟩ := h6 hk
      refine ⟨en', List.mem_cons_of_mem _ h7, ?_⟩
      rw [show (s.enterLog rt nm l).heap.logs l = ((s.heap.logs l).enter rt nm s.pos).2 from if_pos rfl, (Dug.enter_levels rt nm s.pos).1] at h8
      push_cast
      omega
    · exact ⟨en, List.mem_cons_self, by rw [hlev]; push_cast; omega⟩
  | 1, he => simp [read, hi'] at he

def DigsSeq (rt : Rt) (G : Env) (l : Nat) (rs : List Reader) (t : Bytes) (k : Nat) : Prop :=
  ∀ s h, Between s h t → ∀ n e s', seqLoop (read rt (G.monitorAll l) n) rs s = .ret (e, s') → Deep k (s.heap.logs l) (s'.heap.logs l)

def DigsSkip (rt : Rt) (G : Env) (l : Nat) (sk : Reader) (rs : List Reader) (t : Bytes) (k : Nat) : Prop :=
  ∀ s h, Between s h t → ∀ n e s', skipSeqLoop (read rt (G.monitorAll l) n) sk rs s = .ret (e, s') → Deep k (s.heap.logs l) (s'.heap.logs l)

def DigsAny (rt : Rt) (G : Env) (l : Nat) (rs : List Reader) (t : Bytes) (k : Nat) : Prop :=
  ∀ s h, Between s h t → ∀ n acc e s', anyLoop (read rt (G.monitorAll l) n) rs acc s = .ret (e, s') → Deep k (s.heap.logs l) (s'.heap.logs l)

theorem DigsSeq.nil : DigsSeq rt G l [] t 0 := fun s hd hb n e s' he => by
  cases he
  exact .refl

theorem DigsSeq.cons (hB : Unwatched G r) (hg : Gets rt G r t (some u)) (h : Digs rt G l r t k) (h' : DigsSeq rt G l rs u k') :
    DigsSeq rt G l (r :: rs) t (max k k') := fun s hd hb n e s' he => by
  rw [seqLoop] at he
  obtain ⟨⟨e1, s1⟩, h1, h2⟩ := Exec.bind_eq_ret.mp he
  obtain ⟨rfl, x, h3, h4⟩ := hg.ends_yes hB hb h1
  have h5 := h s hd hb n _ s1 h1
  have h6 := h' s1 _ h4 n e s' (by simpa using h2)
  exact h5.trans h6

theorem DigsSeq.stop (hB : Unwatched G r) (hg : Gets rt G r t none) (h : Digs rt G l r t k) :
    DigsSeq rt G l (r :: rs) t k := fun s hd hb n e s' he => by
  rw [seqLoop] at he
  obtain ⟨⟨e1, s1⟩, h1, h2⟩ := Exec.bind_eq_ret.mp he
  obtain ⟨e', rfl, h4⟩ := hg.ends_no hB hb h1
  have h5 := h s hd hb n _ s1 h1
  cases h2
  exact h5

theorem Digs.seq (h : DigsSeq rt G l rs t k) : Digs rt G l (.seq rs) t k := fun s hd hb n e s' he => by
  match n, he with
  | n + 1, he =>
    simp only [read] at he
    obtain ⟨⟨e1, s1⟩, h1, h2⟩ := Exec.bind_eq_ret.mp he
    have h3 := h s hd hb n e1 s1 h1
    simp only at h2
    split at h2 <;> cases h2
    · rw [marker_logs]; exact h3
    · exact h3

theorem DigsSkip.nil : DigsSkip rt G l sk [] t 0 := fun s hd hb n e s' he => by
  cases he
  exact .refl

theorem DigsSkip.cons (hB : Unwatched G r) (hS : Unwatched G sk) (hg : Gets rt G r t (some u)) (hs : Gets rt G sk u (some v)) (h : Digs rt G l r t k)
    (h' : DigsSkip rt G l sk rs v k') : DigsSkip rt G l sk (r :: rs) t (max k k') := fun s hd hb n e s' he => by
  rw [skipSeqLoop] at he
  obtain ⟨⟨e1, s1⟩, h1, h2⟩ := Exec.bind_eq_ret.mp he
  obtain ⟨rfl, x, h3, h4⟩ := hg.ends_yes hB hb h1
  have h5 := h s hd hb n _ s1 h1
  simp only at h2
  obtain ⟨⟨e2, s2⟩, h6, h7⟩ := Exec.bind_eq_ret.mp h2
  obtain ⟨rfl, y, h8, h9⟩ := hs.ends_yes hS h4 h6
  have h10 := deep_mono hS h4.inside h6
  have h11 := h' s2 _ h9 n e s' (by simpa using h7)
  exact (h5.trans h10).trans0 h11

theorem DigsSkip.stop (hB : Unwatched G r) (hg : Gets rt G r t none) (h : Digs rt G l r t k) :
    DigsSkip rt G l sk (r :: rs) t k := fun s hd hb n e s' he => by
  rw [skipSeqLoop] at he
  obtain ⟨⟨e1, s1⟩, h1, h2⟩ := Exec.bind_eq_ret.mp he
  obtain ⟨e', rfl, h4⟩ := hg.ends_no hB hb h1
  have h5 := h s hd hb n _ s1 h1
  cases h2
  exact h5

theorem Digs.skipSeq (hS : Unwatched G sk) (hs : Gets rt G sk t (some u)) (h : DigsSkip rt G l sk rs u k) : Digs rt G l (.skipSeq sk rs) t k :=
    fun s hd hb n e s' he => by
  match n, he with
  | n + 1, he =>
    simp only [read] at he
    obtain ⟨⟨e1, s1⟩, h1, h2⟩ := Exec.bind_eq_ret.mp he
    obtain ⟨rfl, x, _, h4⟩ := hs.ends_yes hS hb h1
    have h5 := deep_mono hS hb.inside h1
    simp only [Option.isSome_none, Bool.false_eq_true, if_false] at h2
    obtain ⟨⟨e2, s2⟩, h6, h7⟩ := Exec.bind_eq_ret.mp h2
    have h8 := h s1 _ h4 n e2 s2 h6
    simp only at h7
    split at h7 <;> cases h7
    · rw [marker_logs]; exact h5.trans0' h8
    · exact h5.trans0' h8

theorem DigsAny.nil : DigsAny rt G l [] t 0 := fun s hd hb n acc e s' he => by
  cases he
  exact .refl

theorem DigsAny.hit (hB : Unwatched G r) (hg : Gets rt G r t (some u)) (h : Digs rt G l r t k) : DigsAny rt G l (r :: rs) t k :=
    fun s hd hb n acc e s' he => by
  rw [anyLoop] at he
  obtain ⟨⟨e1, s1⟩, h1, h2⟩ := Exec.bind_eq_ret.mp he
  obtain ⟨rfl, x, h3, h4⟩ := hg.ends_yes hB hb h1
  have h5 := h s hd hb n _ s1 h1
  cases h2
  exact h5

theorem DigsAny.next (hB : Unwatched G r) (hg : Gets rt G r t none) (h : Digs rt G l r t k) (h' : DigsAny rt G l rs t k') :
    DigsAny rt G l (r :: rs) t (max k k') := fun s hd hb n acc e s' he => by
  rw [anyLoop] at he
  obtain ⟨⟨e1, s1⟩, h1, h2⟩ := Exec.bind_eq_ret.mp he
  obtain ⟨e', rfl, h4⟩ := hg.ends_no hB hb h1
  have h5 := h s hd hb n _ s1 h1
  have h6 := h' s1 hd h4 n _ e s' (by simpa using h2)
  exact h5.trans h6

theorem Digs.any (h : DigsAny rt G l rs t k) : Digs rt G l (.any rs) t k := fun s hd hb n e s' he => by
  match n, he with
  | n + 1, he =>
    simp only [read] at he
    obtain ⟨⟨e1, s1⟩, h1, h2⟩ := Exec.bind_eq_ret.mp he
    have h3 := h s hd hb n [] e1 s1 h1
    simp only at h2
    split at h2 <;> cases h2
    · exact h3
    · rw [marker_logs]; exact h3

theorem Digs.opt (h : Digs rt G l r t k) : Digs rt G l (.opt r) t k := fun s hd hb n e s' he => by
  match n, he with
  | n + 1, he =>
    simp only [read] at he
    obtain ⟨⟨e1, s1⟩, h1, h2⟩ := Exec.bind_eq_ret.mp he
    cases h2
    exact h s hd hb n e1 _ h1

theorem Digs.grammar {nm : Bytes} (h : Digs rt G l r t k) : Digs rt G l (.grammar nm r) t k := fun s hd hb n e s' he => by
  match n, he with
  | n + 1, he =>
    simp only [read] at he
    obtain ⟨⟨e1, s1⟩, h1, h2⟩ := Exec.bind_eq_ret.mp he
    have h3 := h s hd hb n e1 s1 h1
    simp only at h2
    split at h2 <;> cases h2 <;> exact h3

/-! ### the first part of what is read, whatever follows -/

theorem deep_forward (h : Unwatched G r) {s s' : Scanner} (hs : Inside s) {n : Nat} {e : Option Err}
    (he : read rt (G.monitorAll l) n r s = .ret (e, s')) : Inside s' := by
  have h1 := monitorAll_noLog (l := l) h.1
  exact ((log_frame rt (G.monitorAll l) l (Monitored (G.monitorAll l) r l) s.full).read
    (fun i nm c hp hi => logging_every (h1.get hi) fun info x hx => .inr ⟨_, List.mem_of_getElem? hi, c, rfl, hx⟩) n r
    (logging_every (bare_noLog h.2) fun _ _ => .inl) s ⟨hs, List.infix_refl _⟩ (e, s') he).1.1

theorem seqLoop_grows {n : Nat} : ∀ (rs : List Reader), (∀ r ∈ rs, Unwatched G r) → ∀ {s s' : Scanner}, Inside s → ∀ {e : Option Err},
    seqLoop (read rt (G.monitorAll l) n) rs s = .ret (e, s') → Deep 0 (s.heap.logs l) (s'.heap.logs l)
  | [], _, _, _, _, _, he => by cases he; exact .refl
  | r :: rs, h, s, s', hs, e, he => by
    rw [seqLoop] at he
    obtain ⟨⟨e1, s1⟩, h1, h2⟩ := Exec.bind_eq_ret.mp he
    have h3 := deep_mono (h r List.mem_cons_self) hs h1
    cases e1 with
    | some e1 => cases h2; exact h3
    | none => exact h3.trans0' (seqLoop_grows rs (fun r hr => h r (List.mem_cons_of_mem _ hr)) (deep_forward (h r List.mem_cons_self) hs h1) (by simpa using h2))

theorem DigsSeq.head (hB : ∀ r' ∈ r :: rs, Unwatched G r') (h : Digs rt G l r t k) : DigsSeq rt G l (r :: rs) t k := fun s hd hb n e s' he => by
  rw [seqLoop] at he
  obtain ⟨⟨e1, s1⟩, h1, h2⟩ := Exec.bind_eq_ret.mp he
  have h3 := h s hd hb n e1 s1 h1
  cases e1 with
  | some e1 => cases h2; exact h3
  | none =>
    exact (h3.trans (seqLoop_grows rs (fun r hr => hB r (List.mem_cons_of_mem _ hr)) (deep_forward (hB r List.mem_cons_self) hb.inside h1) h2)).mono (Nat.le_max_left k 0)

theorem anyLoop_grows {n : Nat} : ∀ (rs : List Reader), (∀ r ∈ rs, Unwatched G r) → ∀ {s s' : Scanner} {acc : List Err}, Inside s → ∀ {e : Option (List Err)},
    anyLoop (read rt (G.monitorAll l) n) rs acc s = .ret (e, s') → Deep 0 (s.heap.logs l) (s'.heap.logs l)
  | [], _, _, _, _, _, _, he => by cases he; exact .refl
  | r :: rs, h, s, s', acc, hs, e, he => by
    rw [anyLoop] at he
    obtain ⟨⟨e1, s1⟩, h1, h2⟩ := Exec.bind_eq_ret.mp he
    have h3 := deep_mono (h r List.mem_cons_self) hs h1
    cases e1 with
    | none => cases h2; exact h3
    | some e1 => exact h3.trans0' (anyLoop_grows rs (fun r hr => h r (List.mem_cons_of_mem _ hr)) (deep_forward (h r List.mem_cons_self) hs h1) (by simpa using h2))

theorem DigsAny.head (hB : ∀ r' ∈ r :: rs, Unwatched G r') (h : Digs rt G l r t k) : DigsAny rt G l (r :: rs) t k := fun s hd hb n acc e s' he => by
  rw [anyLoop] at he
  obtain ⟨⟨e1, s1⟩, h1, h2⟩ := Exec.bind_eq_ret.mp he
  have h3 := h s hd hb n e1 s1 h1
  cases e1 with
  | none => cases h2; exact h3
  | some e1 =>
    exact (h3.trans (anyLoop_grows rs (fun r hr => hB r (List.mem_cons_of_mem _ hr)) (deep_forward (hB r List.mem_cons_self) hb.inside h1) h2)).mono (Nat.le_max_left k 0)

theorem zomLoop_grows {n : Nat} (hB : Unwatched G r) : ∀ (m : Nat) {s s' : Scanner}, Inside s →
    zomLoop (read rt (G.monitorAll l) n r) m s = .ret s' → Deep 0 (s.heap.logs l) (s'.heap.logs l)
  | 0, _, _, _, he => by cases he
  | m + 1, s, s', hs, he => by
    rw [zomLoop] at he
    obtain ⟨⟨e1, s1⟩, h1, h2⟩ := Exec.bind_eq_ret.mp he
    have h3 := deep_mono hB hs h1
    cases e1 with
    | some e1 => cases h2; exact h3
    | none => exact h3.trans0' (zomLoop_grows hB m (deep_forward hB hs h1) (by simpa using h2))

theorem Digs.zom (hB : Unwatched G r) (h : Digs rt G l r t k) : Digs rt G l (.zom r) t k := fun s hd hb n e s' he => by
  match n, he with
  | n + 1, he =>
    simp only [read] at he
    obtain ⟨s1, h1, h2⟩ := Exec.bind_eq_ret.mp he
    cases h2
    match n, h1 with
    | n + 1, h1 =>
      rw [zomLoop] at h1
      obtain ⟨⟨e1, s2⟩, h3, h4⟩ := Exec.bind_eq_ret.mp h1
      have h5 := h s hd hb _ e1 s2 h3
      cases e1 with
      | some e1 => cases h4; exact h5
      | none => exact (h5.trans (zomLoop_grows hB _ (deep_forward hB hb.inside h3) h4)).mono (Nat.le_max_left k 0)

theorem timesLoop_grows {n : Nat} (hB : Unwatched G r) : ∀ (m : Nat) {s s' : Scanner} {e : Option Err}, Inside s →
    timesLoop (read rt (G.monitorAll l) n r) m s = .ret (e, s') → Deep 0 (s.heap.logs l) (s'.heap.logs l)
  | 0, _, _, _, _, he => by cases he; exact .refl
  | m + 1, s, s', e, hs, he => by
    rw [timesLoop] at he
    obtain ⟨⟨e1, s1⟩, h1, h2⟩ := Exec.bind_eq_ret.mp he
    have h3 := deep_mono hB hs h1
    cases e1 with
    | some e1 => cases h2; exact h3
    | none => exact h3.trans0' (timesLoop_grows hB m (deep_forward hB hs h1) h2)

theorem Digs.times {c : Int} (hc : 0 < c) (hB : Unwatched G r) (h : Digs rt G l r t k) : Digs rt G l (.times c r) t k := fun s hd hb n e s' he => by
  match n, he with
  | n + 1, he =>
    simp only [read] at he
    obtain ⟨m, hm⟩ : ∃ m, c.toNat = m + 1 := ⟨c.toNat - 1, by omega⟩
    rw [hm, timesLoop] at he
    obtain ⟨⟨e1, s2⟩, h3, h4⟩ := Exec.bind_eq_ret.mp he
    have h5 := h s hd hb _ e1 s2 h3
    cases e1 with
    | some e1 => cases h4; exact h5
    | none => exact (h5.trans (timesLoop_grows hB _ (deep_forward hB hb.inside h3) h4)).mono (Nat.le_max_left k 0)

end
end Tok
