/-
How many entries a read adds to a log: a calculus for bounds from above.
-/
import Verif.Proofs.Counts
import Verif.Proofs.Does
import Verif.Proofs.Log

namespace Tok
open Spec

/-- What is said of a read: whether it is successful, the text ahead before and after it, and the number of new entries. -/
abbrev Bill := Bool → Bytes → Bytes → Nat → Prop

/-- Every read that comes to an end meets the relation. -/
def Pays (l : Nat) (f : ReadFunc) (Q : Bill) : Prop :=
  ∀ s h t, Between s h t → ∀ e s', f s = .ret (e, s') →
    ∃ x t' k, t = x ++ t' ∧ Between s' (h ++ x) t' ∧ s'.logged l = s.logged l + k ∧ Q e.isNone t t' k

/-- Readers one after the other. -/
def seqQ : List Bill → Bill
  | [] => fun ok t t' k => ok = true ∧ t' = t ∧ k = 0
  | Q :: Qs => fun ok t t' k => (ok = false ∧ Q false t t' k) ∨ ∃ u k1 k2, Q true t u k1 ∧ seqQ Qs ok u t' k2 ∧ k = k1 + k2

/-- The first reader that is successful. -/
def anyQ : List Bill → Bill
  | [] => fun ok t t' k => ok = false ∧ t' = t ∧ k = 0
  | Q :: Qs => fun ok t t' k => (ok = true ∧ Q true t t' k) ∨ ∃ u k1 k2, Q false t u k1 ∧ anyQ Qs ok u t' k2 ∧ k = k1 + k2

/-- A reader as often as it is successful. -/
inductive Often (Q : Bill) : Bytes → Bytes → Nat → Prop
  | stop {t t' k} : Q false t t' k → Often Q t t' k
  | more {t u t' k1 k2} : Q true t u k1 → Often Q u t' k2 → Often Q t t' (k1 + k2)

section
variable {rt : Rt} {G : Env} {l n : Nat} {f : ReadFunc} {r : Reader} {rs : List Reader} {Q Q' : Bill} {Qs : List Bill}

theorem Pays.mono (h : Pays l f Q) (hQ : ∀ ok t t' k, t' <:+ t → Q ok t t' k → Q' ok t t' k) : Pays l f Q' := fun s hd t hb e s' he => by
  obtain ⟨x, t', k, h1, h2, h3, h4⟩ := h s hd t hb e s' he
  exact ⟨x, t', k, h1, h2, h3, hQ _ _ _ _ ⟨x, h1.symm⟩ h4⟩

/-- A read does not go back. -/
theorem Pays.short (h : Pays l f Q) : Pays l f (fun ok t t' k => Q ok t t' k ∧ t'.length ≤ t.length) := h.mono fun _ _ _ _ hs hq => ⟨hq, hs.length_le⟩

theorem Pays.zero : Pays l (read rt G 0 r) Q := fun _ _ _ _ _ _ he => by cases he

theorem seqLoop_pays {rd : Reader → ReadFunc} : ∀ {rs : List Reader} {Qs : List Bill}, List.Forall₂ (fun r Q => Pays l (rd r) Q) rs Qs → Pays l (seqLoop rd rs) (seqQ Qs)
  | _, _, .nil => fun s hd t hb e s' he => by
    cases he
    exact ⟨[], t, 0, rfl, by simpa using hb, rfl, rfl, rfl, rfl⟩
  | _, _, .cons h hs => fun s hd t hb e s' he => by
    rw [seqLoop] at he
    obtain ⟨⟨e1, s1⟩, h1, h2⟩ := Exec.bind_eq_ret.mp he
    obtain ⟨x, u, k1, hx, hb1, hk1, hq1⟩ := h s hd t hb e1 s1 h1
    cases e1 with
    | some e1 =>
      cases h2
      exact ⟨x, u, k1, hx, hb1, hk1, .inl ⟨rfl, hq1⟩⟩
    | none =>
      obtain ⟨y, t', k2, hy, hb2, hk2, hq2⟩ := seqLoop_pays hs s1 _ u hb1 e s' h2
      exact ⟨x ++ y, t', k1 + k2, by rw [hx, hy, List.append_assoc], by rw [← List.append_assoc]; exact hb2, by omega, .inr ⟨u, k1, k2, hq1, hq2, rfl⟩⟩

theorem anyLoop_pays {rd : Reader → ReadFunc} : ∀ {rs : List Reader} {Qs : List Bill}, List.Forall₂ (fun r Q => Pays l (rd r) Q) rs Qs →
    ∀ s h t, Between s h t → ∀ acc e s', anyLoop rd rs acc s = .ret (e, s') →
    ∃ x t' k, t = x ++ t' ∧ Between s' (h ++ x) t' ∧ s'.logged l = s.logged l + k ∧ anyQ Qs e.isNone t t' k
  | _, _, .nil => fun s hd t hb acc e s' he => by
    cases he
    exact ⟨[], t, 0, rfl, by simpa using hb, rfl, rfl, rfl, rfl⟩
  | _, _, .cons h hs => fun s hd t hb acc e s' he => by
    rw [anyLoop] at he
    obtain ⟨⟨e1, s1⟩, h1, h2⟩ := Exec.bind_eq_ret.mp he
    obtain ⟨x, u, k1, hx, hb1, hk1, hq1⟩ := h s hd t hb e1 s1 h1
    cases e1 with
    | none =>
      cases h2
      exact ⟨x, u, k1, hx, hb1, hk1, .inl ⟨rfl, hq1⟩⟩
    | some e1 =>
      obtain ⟨y, t', k2, hy, hb2, hk2, hq2⟩ := anyLoop_pays hs s1 _ u hb1 _ e s' h2
      exact ⟨x ++ y, t', k1 + k2, by rw [hx, hy, List.append_assoc], by rw [← List.append_assoc]; exact hb2, by omega, .inr ⟨u, k1, k2, hq1, hq2, rfl⟩⟩

theorem back_between {s s' : Scanner} {h t x u : Bytes} (hb : Between s h t) (hx : t = x ++ u) (hb' : Between s' (h ++ x) u) : Between (s'.toMarker s.pos).2 h t := by
  rw [toMarker_at hb.inside.1]
  refine ⟨?_, ?_⟩
  · show (Scanner.notify _).full = _
    rw [notify_full]
    rw [show Scanner.full { s' with pos := s.pos } = s'.full from rfl, hb'.1, hx, List.append_assoc]
  · show (Scanner.notify _).pos = _
    rw [notify_pos]
    exact hb.2

theorem Pays.seq (h : List.Forall₂ (fun r Q => Pays l (read rt G n r) Q) rs Qs) :
    Pays l (read rt G (n + 1) (.seq rs)) (fun ok t t' k => ∃ u, seqQ Qs ok t u k ∧ t' = if ok then u else t) := fun s hd t hb e s' he => by
  simp only [read] at he
  obtain ⟨⟨e1, s1⟩, h1, h2⟩ := Exec.bind_eq_ret.mp he
  obtain ⟨x, u, k, hx, hb1, hk, hq⟩ := seqLoop_pays h s hd t hb e1 s1 h1
  cases e1 with
  | none =>
    cases h2
    exact ⟨x, u, k, hx, hb1, hk, u, hq, rfl⟩
  | some e1 =>
    cases h2
    exact ⟨[], t, k, rfl, by rw [List.append_nil]; exact back_between hb hx hb1, by rw [logged_toMarker]; exact hk, u, hq, rfl⟩

theorem Pays.any (h : List.Forall₂ (fun r Q => Pays l (read rt G n r) Q) rs Qs) :
    Pays l (read rt G (n + 1) (.any rs)) (fun ok t t' k => ∃ u, anyQ Qs ok t u k ∧ t' = if ok then u else t) := fun s hd t hb e s' he => by
  simp only [read] at he
  obtain ⟨⟨e1, s1⟩, h1, h2⟩ := Exec.bind_eq_ret.mp he
  obtain ⟨x, u, k, hx, hb1, hk, hq⟩ := anyLoop_pays h s hd t hb [] e1 s1 h1
  cases e1 with
  | none =>
    cases h2
    exact ⟨x, u, k, hx, hb1, hk, u, hq, rfl⟩
  | some e1 =>
    cases h2
    exact ⟨[], t, k, rfl, by rw [List.append_nil]; exact back_between hb hx hb1, by rw [logged_toMarker]; exact hk, u, hq, rfl⟩

theorem Pays.opt (h : Pays l (read rt G n r) Q) : Pays l (read rt G (n + 1) (.opt r)) (fun ok t t' k => ok = true ∧ ∃ b, Q b t t' k) := fun s hd t hb e s' he => by
  simp only [read] at he
  obtain ⟨⟨e1, s1⟩, h1, h2⟩ := Exec.bind_eq_ret.mp he
  cases h2
  obtain ⟨x, u, k, hx, hb1, hk, hq⟩ := h s hd t hb e1 _ h1
  exact ⟨x, u, k, hx, hb1, hk, rfl, _, hq⟩

theorem zomLoop_pays (h : Pays l f Q) : ∀ n s hd t, Between s hd t → ∀ s', zomLoop f n s = .ret s' →
    ∃ x t' k, t = x ++ t' ∧ Between s' (hd ++ x) t' ∧ s'.logged l = s.logged l + k ∧ Often Q t t' k
  | 0, _, _, _, _, _, he => by cases he
  | n + 1, s, hd, t, hb, s', he => by
    rw [zomLoop] at he
    obtain ⟨⟨e1, s1⟩, h1, h2⟩ := Exec.bind_eq_ret.mp he
    obtain ⟨x, u, k1, hx, hb1, hk1, hq1⟩ := h s hd t hb e1 s1 h1
    cases e1 with
    | some e1 =>
      cases h2
      exact ⟨x, u, k1, hx, hb1, hk1, .stop hq1⟩
    | none =>
      obtain ⟨y, t', k2, hy, hb2, hk2, hq2⟩ := zomLoop_pays h n s1 _ u hb1 s' h2
      exact ⟨x ++ y, t', k1 + k2, by rw [hx, hy, List.append_assoc], by rw [← List.append_assoc]; exact hb2, by omega, .more hq1 hq2⟩

theorem Pays.zom (h : Pays l (read rt G n r) Q) : Pays l (read rt G (n + 1) (.zom r)) (fun ok t t' k => ok = true ∧ Often Q t t' k) := fun s hd t hb e s' he => by
  simp only [read] at he
  obtain ⟨s1, h1, h2⟩ := Exec.bind_eq_ret.mp he
  cases h2
  obtain ⟨x, u, k, hx, hb1, hk, hq⟩ := zomLoop_pays h n s hd t hb _ h1
  exact ⟨x, u, k, hx, hb1, hk, rfl, hq⟩

theorem timesLoop_pays (h : Pays l f Q) : ∀ n, Pays l (timesLoop f n) (seqQ (List.replicate n Q))
  | 0 => fun s hd t hb e s' he => by
    cases he
    exact ⟨[], t, 0, rfl, by simpa using hb, rfl, rfl, rfl, rfl⟩
  | n + 1 => fun s hd t hb e s' he => by
    rw [timesLoop] at he
    obtain ⟨⟨e1, s1⟩, h1, h2⟩ := Exec.bind_eq_ret.mp he
    obtain ⟨x, u, k1, hx, hb1, hk1, hq1⟩ := h s hd t hb e1 s1 h1
    cases e1 with
    | some e1 =>
      cases h2
      exact ⟨x, u, k1, hx, hb1, hk1, .inl ⟨rfl, hq1⟩⟩
    | none =>
      obtain ⟨y, t', k2, hy, hb2, hk2, hq2⟩ := timesLoop_pays h n s1 _ u hb1 e s' h2
      exact ⟨x ++ y, t', k1 + k2, by rw [hx, hy, List.append_assoc], by rw [← List.append_assoc]; exact hb2, by omega, .inr ⟨u, k1, k2, hq1, hq2, rfl⟩⟩

theorem Pays.times {k : Int} (h : Pays l (read rt G n r) Q) : Pays l (read rt G (n + 1) (.times k r)) (seqQ (List.replicate k.toNat Q)) := timesLoop_pays h _

theorem logged_enter {s : Scanner} {info : Bytes} : (s.enterLog rt info l).logged l = s.logged l + 1 := by
  show (((upd s.heap.logs l _) l).entries).length = _
  rw [show (upd s.heap.logs l ((s.heap.logs l).enter rt info s.pos).2) l = ((s.heap.logs l).enter rt info s.pos).2 from if_pos rfl]
  unfold Log.enter Scanner.logged
  simp only
  split <;> simp

theorem logged_exit {s : Scanner} {p : EntryPtr} {e : Option Err} : (s.exitLog l p e).logged l = s.logged l := by
  show (((upd s.heap.logs l _) l).entries).length = _
  rw [show (upd s.heap.logs l ((s.heap.logs l).exit p s.pos e)) l = (s.heap.logs l).exit p s.pos e from if_pos rfl]
  unfold Log.exit Scanner.logged
  split <;> simp

/-- A monitored rule has one entry of its own. -/
theorem Pays.rule {i : Nat} {nm : Bytes} (hi : G[i]? = some ⟨nm, some r⟩) (h : ∀ m, m + 2 = n → Pays l (read rt (G.monitorAll l) m r) Q) :
    Pays l (read rt (G.monitorAll l) n (.rule i)) (fun ok t t' k => ∃ k', k = k' + 1 ∧ Q ok t t' k') := fun s hd t hb e s' he => by
  have hi' : (G.monitorAll l)[i]? = some ⟨nm, some (.monitor nm l r)⟩ := by
    unfold Env.monitorAll
    rw [List.getElem?_map, hi]
    rfl
  match n, he, h with
  | n + 2, he, h =>
    simp only [read, hi'] at he
    obtain ⟨⟨e1, s1⟩, h1, h2⟩ := Exec.bind_eq_ret.mp he
    cases h2
    obtain ⟨x, u, k, hx, hb1, hk, hq⟩ := h n rfl (s.enterLog rt nm l) hd t hb e1 s1 h1
    refine ⟨x, u, k + 1, hx, hb1, ?_, k, rfl, hq⟩
    rw [logged_enter] at hk
    exact (logged_exit (s := s1)).trans (by omega)
  | 1, he, _ => simp [read, hi'] at he
  | 0, he, _ => cases he

/-! ### readers that write no log -/

/-- A reader that neither monitors nor refers to a rule. -/
def Reader.quiet : Reader → Bool
  | .rule _ | .monitor _ _ _ | .wrap _ _ => false
  | _ => true

theorem unheard_frame (rt : Rt) (G : Env) :
    Frame rt G (fun r => r.quiet = true) Inside (fun s s' => Forward s s' ∧ s'.heap.logs = s.heap.logs) where
  inside h := h
  fwd _ h := h.1
  inv _ h := h.1.1
  refl h := ⟨Forward.refl h, rfl⟩
  trans _ h h' := ⟨h.1.trans h'.1, h'.2.trans h.2⟩
  go {s m} h h1 h2 := ⟨((log_frame rt G 0 (fun _ _ => True) s.full).go ⟨h, List.infix_rfl⟩ h1 h2).1, at_logs _ _⟩
  back {s s'} h h' := by
    refine ⟨?_, ?_⟩
    · have := Forward.back h h'.1
      rwa [toMarker_at h.1] at this
    · rw [at_logs]; exact h'.2
  cells _ _ _ _ h := h
  janus _ _ _ _ h := h
  pick _ _ _ h := h
  map _ _ h := h
  enter h _ := by cases h
  leave h _ _ _ := by cases h
  wrap h _ := by cases h
  body {s s' b t n str e sub} _ hs h hstr _ h3 := by
    have hsub := h3 ⟨by simp [Scanner.new], by simp [Scanner.new]⟩
    exact ⟨⟨h.1, hsub.2.trans h.2⟩, fun _ => ⟨h.1, by
      show (sub.at 0).heap.logs = _
      rw [at_logs]
      exact hsub.2.trans h.2⟩⟩

theorem quiet_logged (hr : r.Every (fun r => r.quiet = true)) {s s' : Scanner} (hs : Inside s) {e : Option Err}
    (he : read rt G n r s = .ret (e, s')) : Forward s s' ∧ s'.logged l = s.logged l := by
  have := (unheard_frame rt G).read (fun i _ _ h => by cases h) n r hr s hs _ he
  exact ⟨this.1, by unfold Scanner.logged; rw [this.2]⟩

theorem noWrap_of_quiet (hr : r.Every (fun r => r.quiet = true)) : r.Every (fun r => r.noWrap = true) :=
  hr.imp fun r h => by cases r <;> first | rfl | cases h

/-- A reader that writes no log and does on every text what the function says. -/
theorem Pays.does (hG : G.Every (fun r => r.noWrap = true)) (hr : r.Every (fun r => r.quiet = true)) {g : Bytes → Option Bytes} (hd : Does rt G r g) :
    Pays l (read rt G n r) (fun ok t t' k => k = 0 ∧ (ok = true → g t = some t') ∧ (ok = false → g t = none ∧ t' = t)) := fun s hd' t hb e s' he => by
  obtain ⟨m, hm⟩ := hd t s.heap.janus
  obtain ⟨e2, s2, x, h1, h2, h3, h4⟩ := read_by_eat hG (noWrap_of_quiet hr) hb hm
  have h8 := (read_mono (Nat.le_max_left n m) he).symm.trans (read_mono (Nat.le_max_right n m) h1)
  cases h8
  refine ⟨x, _, 0, h3, h4, (quiet_logged hr hb.inside he).2, rfl, ?_, ?_⟩
  · intro hok
    rw [hok] at h2
    cases hg : g t with
    | none => rw [hg] at h2; cases h2
    | some u => rfl
  · intro hok
    rw [hok] at h2
    cases hg : g t with
    | none => exact ⟨rfl, rfl⟩
    | some u => rw [hg] at h2; cases h2

/-- The same for a reader that is one step. -/
theorem Pays.lift (hG : G.Every (fun r => r.noWrap = true)) (hr : r.Every (fun r => r.quiet = true)) {g : Bytes → Bool × Bytes}
    (hd : ∀ st, eat rt G 1 r st = Tok.lift g st) :
    Pays l (read rt G n r) (fun ok t t' k => k = 0 ∧ g t = (ok, t')) := fun s hd' t hb e s' he => by
  obtain ⟨e2, s2, x, h1, h2, h3, h4⟩ := read_by_eat hG (noWrap_of_quiet hr) hb (hd _)
  have h8 := (read_mono (Nat.le_max_left n 1) he).symm.trans (read_mono (Nat.le_max_right n 1) h1)
  cases h8
  exact ⟨x, _, 0, h3, h4, (quiet_logged hr hb.inside he).2, rfl, by rw [h2]⟩

/-- A read that is successful does not begin with a text that the reader refuses. -/
theorem Pays.refuses {p : Bytes → Prop} (hB : Unwatched G r) (h : Pays l (read rt (G.monitorAll l) n r) Q) (hp : ∀ t, p t → Gets rt G r t none) :
    Pays l (read rt (G.monitorAll l) n r) (fun ok t t' k => Q ok t t' k ∧ (ok = true → ¬ p t)) := fun s hd t hb e s' he => by
  obtain ⟨x, t', k, h1, h2, h3, h4⟩ := h s hd t hb e s' he
  refine ⟨x, t', k, h1, h2, h3, h4, fun hok hpt => ?_⟩
  obtain ⟨e', rfl, -⟩ := (hp t hpt).ends_no hB hb he
  cases hok

/-! ### a bound that does not depend on the text -/

/-- No more than so many entries. -/
def upTo (K : Nat) : Bill := fun _ _ _ k => k ≤ K

/-- No more than so many entries, and no text gone over in vain. -/
def atMost (K : Nat) : Bill := fun ok t t' k => k ≤ K ∧ (ok = false → t' = t)

theorem Pays.loose {K : Nat} (h : Pays l f (atMost K)) : Pays l f (upTo K) := h.mono fun _ _ _ _ _ h => h.1

theorem Pays.quiet (hr : r.Every (fun r => r.quiet = true)) : Pays l (read rt G n r) (upTo 0) := fun s hd t hb e s' he => by
  obtain ⟨⟨h1, h2, h3⟩, h4⟩ := quiet_logged (l := l) hr hb.inside he
  have ht : t = t.take (s'.pos - s.pos).toNat ++ t.drop (s'.pos - s.pos).toNat := (List.take_append_drop _ _).symm
  have h5 := h1.2
  rw [h2, hb.1, List.length_append] at h5
  have h6 := hb.2
  refine ⟨t.take (s'.pos - s.pos).toNat, t.drop (s'.pos - s.pos).toNat, 0, ht, ⟨?_, ?_⟩, h4, Nat.le_refl _⟩
  · rw [h2, hb.1, List.append_assoc, ← ht]
  · rw [List.length_append, List.length_take]
    push_cast at h5
    omega

theorem seqQ_le : ∀ {Ks : List Nat} {ok : Bool} {t t' : Bytes} {k : Nat}, seqQ (Ks.map upTo) ok t t' k → k ≤ Ks.sum
  | [], _, _, _, _, h => by rw [h.2.2]; exact Nat.le_refl _
  | K :: Ks, _, _, _, _, h => by
    rw [List.sum_cons]
    rcases h with ⟨_, h⟩ | ⟨u, k1, k2, h1, h2, rfl⟩
    · exact Nat.le_trans h (Nat.le_add_right _ _)
    · exact Nat.add_le_add h1 (seqQ_le h2)

theorem anyQ_le : ∀ {Ks : List Nat} {ok : Bool} {t t' : Bytes} {k : Nat}, anyQ (Ks.map upTo) ok t t' k → k ≤ Ks.sum
  | [], _, _, _, _, h => by rw [h.2.2]; exact Nat.le_refl _
  | K :: Ks, _, _, _, _, h => by
    rw [List.sum_cons]
    rcases h with ⟨_, h⟩ | ⟨u, k1, k2, h1, h2, rfl⟩
    · exact Nat.le_trans h (Nat.le_add_right _ _)
    · exact Nat.add_le_add h1 (anyQ_le h2)

theorem forall_map {α β γ : Type} {P : α → β → Prop} {g : γ → β} : ∀ {as : List α} {cs : List γ}, List.Forall₂ (fun a c => P a (g c)) as cs → List.Forall₂ P as (cs.map g)
  | _, _, .nil => .nil
  | _, _, .cons h hs => .cons h (forall_map hs)

theorem Pays.seqUp {Ks : List Nat} (h : List.Forall₂ (fun r K => Pays l (read rt G n r) (upTo K)) rs Ks) : Pays l (read rt G (n + 1) (.seq rs)) (atMost Ks.sum) :=
  (Pays.seq (forall_map h)).mono fun ok t t' k _ ⟨u, h1, h2⟩ => ⟨seqQ_le h1, fun e => by rw [h2, e]; rfl⟩

theorem Pays.anyUp {Ks : List Nat} (h : List.Forall₂ (fun r K => Pays l (read rt G n r) (upTo K)) rs Ks) : Pays l (read rt G (n + 1) (.any rs)) (atMost Ks.sum) :=
  (Pays.any (forall_map h)).mono fun ok t t' k _ ⟨u, h1, h2⟩ => ⟨anyQ_le h1, fun e => by rw [h2, e]; rfl⟩

theorem Pays.optUp {K : Nat} (h : Pays l (read rt G n r) (upTo K)) : Pays l (read rt G (n + 1) (.opt r)) (atMost K) :=
  h.opt.mono fun _ _ _ _ _ ⟨h1, _, h2⟩ => ⟨h2, fun e => by rw [e] at h1; cases h1⟩

theorem Pays.timesUp {k : Int} {K : Nat} (h : Pays l (read rt G n r) (upTo K)) : Pays l (read rt G (n + 1) (.times k r)) (upTo (k.toNat * K)) :=
  h.times.mono fun _ _ _ j _ hj => by
    have : List.replicate k.toNat (upTo K) = (List.replicate k.toNat K).map upTo := by simp
    rw [this] at hj
    have := seqQ_le hj
    rwa [List.sum_replicate_nat] at this

end
end Tok
