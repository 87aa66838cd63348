/-
How many entries a read of a grammar without left recursion adds to a log: no more than exponentially many in the length of the text.
-/
import Verif.Proofs.PaysMore
import Verif.Proofs.DepthLin

namespace Tok
open Spec

mutual
/-- How many reads a reader does of its parts, repetitions aside. -/
def Reader.size : Reader → Nat
  | .any rs => Reader.sizes rs + 1
  | .seq rs => Reader.sizes rs + 1
  | .skipSeq sk rs => Reader.sizes rs + rs.length * sk.size + sk.size + 1
  | .times k c => k.toNat * c.size + c.size + 1
  | .at_ c | .janusBegin _ _ c | .many c | .map _ c | .named _ c | .not c | .opt c | .past c | .to c | .zom c | .pick _ _ c | .monitor _ _ c | .ruleName c | .grammar _ c => c.size + 1
  | .body b t => b.size + t.size + 1
  | .bodyTail b t => b.size + t.size + 1
  | _ => 1
def Reader.sizes : List Reader → Nat
  | [] => 0
  | r :: rs => r.size + Reader.sizes rs
end

/-- Only parts that write no log are searched for by `Past`, and only parts that consume something, or write no log, are repeated. -/
def Reader.calm (nul : Nat → Bool) : Reader → Bool
  | .zom c => !c.null nul || c.everyB Reader.quiet
  | .many c => !c.null nul || c.everyB Reader.quiet
  | .past c => c.everyB Reader.quiet
  | _ => true

theorem size_pos (r : Reader) : 1 ≤ r.size := by
  cases r <;> simp only [Reader.size] <;> omega

theorem sizes_mem {r : Reader} : ∀ {rs : List Reader}, r ∈ rs → r.size ≤ Reader.sizes rs
  | r' :: rs, h => by
    rw [Reader.sizes]
    rcases List.mem_cons.mp h with rfl | h
    · omega
    · have := sizes_mem h
      omega

theorem size_sub {r c : Reader} (hc : c ∈ r.subs) : c.size ≤ r.size := by
  cases r <;> simp only [Reader.subs, List.mem_singleton, List.mem_cons, List.not_mem_nil, or_false] at hc
  case any => have := sizes_mem hc; rw [Reader.size]; omega
  case seq => have := sizes_mem hc; rw [Reader.size]; omega
  case skipSeq sk rs =>
    rw [Reader.size]
    rcases hc with rfl | hc
    · omega
    · have := sizes_mem hc
      omega
  all_goals first
    | (subst hc; simp only [Reader.size]; omega)
    | (rcases hc with rfl | rfl <;> simp only [Reader.size] <;> omega)

section
variable {rt : Rt} {G : Env} {l n : Nat} {f : ReadFunc} {r : Reader} {Q : Bill}

/-! ### the remaining readers -/

theorem skipSeqLoop_eq {rd : Reader → ReadFunc} {sk : Reader} : ∀ (rs : List Reader) (s : Scanner), skipSeqLoop rd sk rs s = seqLoop rd (rs.flatMap fun r => [r, sk]) s
  | [], _ => rfl
  | r :: rs, s => by
    simp only [List.flatMap_cons, List.cons_append, List.nil_append, skipSeqLoop, seqLoop]
    refine bind_congr fun ⟨e, s⟩ => ?_
    cases e with
    | some e => rfl
    | none =>
      refine bind_congr fun ⟨e, s⟩ => ?_
      cases e with
      | some e => rfl
      | none => exact skipSeqLoop_eq rs s

theorem read_skipSeq {sk : Reader} {rs : List Reader} (s : Scanner) : read rt G (n + 1) (.skipSeq sk rs) s = read rt G (n + 1) (.seq (sk :: rs.flatMap fun r => [r, sk])) s := by
  simp only [read, seqLoop]
  cases h : read rt G n sk s with
  | ret a =>
    obtain ⟨e, s'⟩ := a
    cases e with
    | some e => rfl
    | none =>
      show (skipSeqLoop (read rt G n) sk rs s' >>= _) = (seqLoop (read rt G n) _ s' >>= _)
      rw [skipSeqLoop_eq]
  | panic => rfl
  | timeout => rfl

theorem Pays.map {id : Nat} (h : Pays l (read rt G n r) Q) :
    Pays l (read rt G (n + 1) (.map id r)) (fun ok t t' k => ∃ u, Q ok t u k ∧ t' = if ok then u else t) := fun s hd t hb e s' he => by
  simp only [read] at he
  obtain ⟨⟨⟨tk, e1⟩, s1⟩, h1, h2⟩ := Exec.bind_eq_ret.mp he
  unfold Scanner.tokenizeUse at h1
  obtain ⟨⟨e3, s3⟩, h3, h4⟩ := Exec.bind_eq_ret.mp h1
  obtain ⟨x, u, k, hx, hb1, hk, hq⟩ := h s hd t hb e3 s3 h3
  cases e3 with
  | none =>
    cases h4
    cases h2
    exact ⟨x, u, k, hx, hb1, hk, u, hq, rfl⟩
  | some e3 =>
    cases h4
    cases h2
    exact ⟨[], t, k, rfl, by rw [List.append_nil]; exact back_between hb hx hb1, by
      rw [show s.mark = s.pos from rfl]
      exact (logged_toMarker (s := s3)).trans hk, u, hq, rfl⟩

theorem Pays.pick {info : Bytes} {id : Nat} (h : Pays l (read rt G n r) Q) :
    Pays l (read rt G (n + 1) (.pick info id r)) (fun ok t t' k => ∃ u, Q ok t u k ∧ t' = if ok then u else t) := fun s hd t hb e s' he => by
  simp only [read] at he
  obtain ⟨⟨⟨tk, e1⟩, s1⟩, h1, h2⟩ := Exec.bind_eq_ret.mp he
  unfold Scanner.tokenizeUse at h1
  obtain ⟨⟨e3, s3⟩, h3, h4⟩ := Exec.bind_eq_ret.mp h1
  obtain ⟨x, u, k, hx, hb1, hk, hq⟩ := h s hd t hb e3 s3 h3
  cases e3 with
  | none =>
    cases h4
    cases h2
    exact ⟨x, u, k, hx, hb1, hk, u, hq, rfl⟩
  | some e3 =>
    cases h4
    cases h2
    exact ⟨[], t, k, rfl, by rw [List.append_nil]; exact back_between hb hx hb1, by
      rw [show s.mark = s.pos from rfl]
      exact (logged_toMarker (s := s3)).trans hk, u, hq, rfl⟩

theorem Pays.ruleName (h : Pays l (read rt G n r) Q) : Pays l (read rt G (n + 1) (.ruleName r)) Q := fun s hd t hb e s' he => by
  simp only [read] at he
  obtain ⟨⟨e1, s1⟩, h1, h2⟩ := Exec.bind_eq_ret.mp he
  obtain ⟨x, u, k, hx, hb1, hk, hq⟩ := h s hd t hb e1 s1 h1
  cases e1 <;> cases h2 <;> exact ⟨x, u, k, hx, hb1, hk, hq⟩

theorem Pays.not (h : Pays l (read rt G n r) Q) : Pays l (read rt G (n + 1) (.not r)) (fun _ t _ k => ∃ b u, Q b t u k) := fun s hd t hb e s' he => by
  simp only [read] at he
  obtain ⟨⟨e1, s1⟩, h1, h2⟩ := Exec.bind_eq_ret.mp he
  obtain ⟨x, u, k, hx, hb1, hk, hq⟩ := h s hd t hb e1 s1 h1
  have hb2 := back_between hb hx hb1
  have hk2 : (s1.toMarker s.pos).2.logged l = s.logged l + k := (logged_toMarker (s := s1)).trans hk
  cases e1 with
  | none =>
    cases h2
    exact ⟨[], t, k, rfl, by rw [List.append_nil]; exact hb2, hk2, _, u, hq⟩
  | some e1 =>
    obtain ⟨⟨ok, s3⟩, h3, h4⟩ := Exec.bind_eq_ret.mp h2
    cases h4
    obtain ⟨y, t', hy, hb3, hk3, -⟩ := step_pays (l := l) hb2 h3
    exact ⟨y, t', k, hy, hb3, hk3.trans hk2, _, u, hq⟩

end

/-! ### numbers -/

/-- What the ranks cost. -/
def gain (Z : Nat) : Nat → Nat
  | 0 => 1
  | R + 1 => Z * gain Z R + 1

theorem gain_pos (Z R : Nat) : 1 ≤ gain Z R := by cases R <;> simp [gain]

theorem gain_step {Z : Nat} (hZ : 1 ≤ Z) (R : Nat) : gain Z R ≤ gain Z (R + 1) := by
  rw [gain]
  have := Nat.mul_le_mul_right (gain Z R) hZ
  omega

theorem gain_mono {Z : Nat} (hZ : 1 ≤ Z) {R R' : Nat} (h : R ≤ R') : gain Z R ≤ gain Z R' := by
  induction h with
  | refl => exact Nat.le_refl _
  | step _ ih => exact ih.trans (gain_step hZ _)

theorem pow_step {C M N : Nat} (h : M < N) : C * (C + 1) ^ M + (C + 1) ^ M ≤ (C + 1) ^ N := by
  have h1 : (C + 1) ^ (M + 1) ≤ (C + 1) ^ N := Nat.pow_le_pow_right (by omega) h
  rw [Nat.pow_succ, Nat.mul_comm, Nat.add_mul, Nat.one_mul] at h1
  exact h1

/-- The reads that follow the first one, each on less text. -/
def tailQ (C N : Nat) : Bill := fun _ t _ k => t.length < N → k ≤ C * (C + 1) ^ t.length

section
variable {C N E : Nat} {Q : Bill} (hQ : ∀ ok t t' k, Q ok t t' k → (t.length < N → k ≤ C * (C + 1) ^ t.length))
include hQ

theorem often_less (hE : ∀ t t' k, Q true t t' k → t'.length < t.length) {t t' : Bytes} {k : Nat} (h : Often Q t t' k) :
    t.length < N → k + 1 ≤ (C + 1) ^ (t.length + 1) := by
  have key (M : Nat) := pow_step (C := C) (Nat.lt_succ_self M)
  induction h with
  | @stop t t' k h =>
    intro hN
    have h1 := hQ _ _ _ _ h hN
    have h2 := key t.length
    have h3 : 1 ≤ (C + 1) ^ t.length := Nat.one_le_pow _ _ (by omega)
    simp only [Nat.succ_eq_add_one] at h2
    omega
  | @more t u t' k1 k2 h _ ih =>
    intro hN
    have h1 := hQ _ _ _ _ h hN
    have h2 := key t.length
    have h3 := hE _ _ _ h
    have h4 := ih (by omega)
    have h5 : (C + 1) ^ (u.length + 1) ≤ (C + 1) ^ t.length := Nat.pow_le_pow_right (by omega) h3
    simp only [Nat.succ_eq_add_one] at h2
    omega

theorem hunt_less {ok : Bool} {t t' : Bytes} {k : Nat} (h : Hunt Q ok t t' k) : t.length < N → k + 1 ≤ (C + 1) ^ (t.length + 1) := by
  have key (M : Nat) := pow_step (C := C) (Nat.lt_succ_self M)
  have stop : ∀ {ok : Bool} {t t' : Bytes} {k : Nat}, Q ok t t' k → t.length < N → k + 1 ≤ (C + 1) ^ (t.length + 1) := by
    intro ok t t' k h hN
    have h1 := hQ _ _ _ _ h hN
    have h2 := key t.length
    have h3 : 1 ≤ (C + 1) ^ t.length := Nat.one_le_pow _ _ (by omega)
    simp only [Nat.succ_eq_add_one] at h2
    omega
  induction h with
  | found h => exact stop h
  | stuck h => exact stop h
  | @step ok t u v t' k1 k2 h h' h'' _ ih =>
    intro hN
    have h1 := hQ _ _ _ _ h hN
    have h2 := key t.length
    have h4 := ih (by omega)
    have h5 : (C + 1) ^ (v.length + 1) ≤ (C + 1) ^ t.length := Nat.pow_le_pow_right (by omega) (by omega)
    simp only [Nat.succ_eq_add_one] at h2
    omega

/-- A repetition costs one read more than its first read. -/
theorem often_first (hE : ∀ t t' k, Q true t t' k → t'.length < t.length) {t t' : Bytes} {k : Nat} (h : Often Q t t' k) (hN : t.length ≤ N)
    (h1 : ∀ ok t' k, Q ok t t' k → k ≤ E) : k ≤ E + (C + 1) ^ N := by
  cases h with
  | stop h =>
    have := h1 _ _ _ h
    omega
  | @more _ u _ k1 k2 h h' =>
    have h2 := h1 _ _ _ h
    have h3 := hE _ _ _ h
    have h4 := often_less hQ hE h' (by omega)
    have h5 : (C + 1) ^ (u.length + 1) ≤ (C + 1) ^ N := Nat.pow_le_pow_right (by omega) (by omega)
    omega

theorem hunt_first {ok : Bool} {t t' : Bytes} {k : Nat} (h : Hunt Q ok t t' k) (hN : t.length ≤ N)
    (h1 : ∀ ok t' k, Q ok t t' k → k ≤ E) : k ≤ E + (C + 1) ^ N := by
  cases h with
  | found h =>
    have := h1 _ _ _ h
    omega
  | stuck h =>
    have := h1 _ _ _ h
    omega
  | @step _ _ u v _ k1 k2 h h' h'' h3 =>
    have h2 := h1 _ _ _ h
    have h4 := hunt_less hQ h3 (by omega)
    have h5 : (C + 1) ^ (v.length + 1) ≤ (C + 1) ^ N := Nat.pow_le_pow_right (by omega) (by omega)
    omega

end

/-! ### reads -/

section
variable {nul : Nat → Bool} {ρ : Nat → Nat} {C N R D : Nat}

/-- What is known of a read on at most `N` bytes; on exactly `N` bytes only if it starts with rules of a rank below `R`. -/
def payQ (nul : Nat → Bool) (ρ : Nat → Nat) (N R D : Nat) (r : Reader) : Bill :=
  fun _ t _ k => t.length ≤ N → (t.length = N → ∀ j ∈ r.left nul, ρ j < R) → k ≤ r.size * D

/-- Together with what follows of the grammar, and of fewer bytes. -/
def fullQ (nul : Nat → Bool) (ρ : Nat → Nat) (C N R D : Nat) (r : Reader) : Bill :=
  fun ok t t' k => payQ nul ρ N R D r ok t t' k ∧ tailQ C N ok t t' k ∧ (r.null nul = false → ok = true → t'.length < t.length) ∧ t'.length ≤ t.length

theorem seqQ_pay : ∀ {rs : List Reader} {ok : Bool} {t t' : Bytes} {k : Nat}, seqQ (rs.map (fullQ nul ρ C N R D)) ok t t' k → t.length ≤ N →
    (t.length = N → ∀ j ∈ Reader.leftSeq nul rs, ρ j < R) → k ≤ Reader.sizes rs * D
  | [], _, _, _, _, h, _, _ => by
    obtain ⟨-, -, rfl⟩ := h
    exact Nat.zero_le _
  | r :: rs, ok, t, t', k, h, hN, hl => by
    rw [Reader.sizes, Nat.add_mul]
    rcases h with ⟨-, h, -⟩ | ⟨u, k1, k2, ⟨h1, -, h2, h3⟩, h4, rfl⟩
    · have := h hN fun e j hj => hl e j (List.mem_append_left _ hj)
      omega
    · have h5 := h1 hN fun e j hj => hl e j (List.mem_append_left _ hj)
      have h6 := seqQ_pay h4 (by omega) fun e j hj => by
        refine hl (by omega) j (List.mem_append_right _ ?_)
        cases hn : r.null nul with
        | true => simpa [hn] using hj
        | false =>
          have := h2 hn rfl
          omega
      omega

theorem anyQ_pay : ∀ {rs : List Reader} {ok : Bool} {t t' : Bytes} {k : Nat}, anyQ (rs.map (fullQ nul ρ C N R D)) ok t t' k → t.length ≤ N →
    (t.length = N → ∀ j ∈ Reader.leftAny nul rs, ρ j < R) → k ≤ Reader.sizes rs * D
  | [], _, _, _, _, h, _, _ => by
    obtain ⟨-, -, rfl⟩ := h
    exact Nat.zero_le _
  | r :: rs, ok, t, t', k, h, hN, hl => by
    rw [Reader.sizes, Nat.add_mul]
    rcases h with ⟨-, h, -⟩ | ⟨u, k1, k2, ⟨h1, -, h2, h3⟩, h4, rfl⟩
    · have := h hN fun e j hj => hl e j (List.mem_append_left _ hj)
      omega
    · have h5 := h1 hN fun e j hj => hl e j (List.mem_append_left _ hj)
      have h6 := anyQ_pay h4 (by omega) fun e j hj => hl (by omega) j (List.mem_append_right _ hj)
      omega

theorem sizes_replicate {r : Reader} : ∀ n, Reader.sizes (List.replicate n r) = n * r.size
  | 0 => by simp [Reader.sizes]
  | n + 1 => by rw [List.replicate_succ, Reader.sizes, sizes_replicate n, Nat.add_mul, Nat.one_mul, Nat.add_comm]

theorem left_replicate {r : Reader} {j : Nat} : ∀ n, j ∈ Reader.leftSeq nul (List.replicate n r) → j ∈ r.left nul
  | 0, h => by cases h
  | n + 1, h => by
    rw [List.replicate_succ, Reader.leftSeq, List.mem_append] at h
    rcases h with h | h
    · exact h
    · split at h
      · exact left_replicate n h
      · cases h

theorem sizes_skip {sk : Reader} : ∀ rs : List Reader, Reader.sizes (rs.flatMap fun r => [r, sk]) = Reader.sizes rs + rs.length * sk.size
  | [] => by simp [Reader.sizes]
  | r :: rs => by
    rw [List.flatMap_cons, List.cons_append, List.cons_append, List.nil_append, Reader.sizes, Reader.sizes, sizes_skip rs, Reader.sizes, List.length_cons, Nat.add_mul]
    omega

theorem left_skip {sk : Reader} {j : Nat} : ∀ rs : List Reader, j ∈ Reader.leftSeq nul (rs.flatMap fun r => [r, sk]) → j ∈ sk.left nul ∨ j ∈ Reader.leftSeq nul rs
  | [], h => by cases h
  | r :: rs, h => by
    rw [List.flatMap_cons, List.cons_append, List.cons_append, List.nil_append, Reader.leftSeq, List.mem_append] at h
    rw [Reader.leftSeq, List.mem_append]
    rcases h with h | h
    · exact .inr (.inl h)
    · split at h
      · rename_i hn
        rw [Reader.leftSeq, List.mem_append] at h
        rcases h with h | h
        · exact .inl h
        · split at h
          · rcases left_skip rs h with h | h
            · exact .inl h
            · exact .inr (.inr (by simpa [hn] using h))
          · cases h
      · cases h

theorem forall_self {α β : Type} {P : α → β → Prop} {g : α → β} : ∀ {as : List α}, (∀ a ∈ as, P a (g a)) → List.Forall₂ P as (as.map g)
  | [], _ => .nil
  | a :: as, h => .cons (h a List.mem_cons_self) (forall_self fun b hb => h b (List.mem_cons_of_mem _ hb))

variable {rt : Rt} {G : Env} {l K Z : Nat} (hG : Descends G nul ρ K) (hC : G.Every (fun r => r.calm nul = true))
  (hZ : ∀ (i : Nat) (nm : Bytes) (c : Reader), G[i]? = some ⟨nm, some c⟩ → c.size ≤ Z) (hZ1 : 1 ≤ Z)

include hG in
/-- Successful reads of readers that are not nullable get on. -/
theorem Pays.eats {n : Nat} {r : Reader} (hr : r.Every (fun r => r.spine = true)) {Q : Bill} (h : Pays l (read rt (G.monitorAll l) n r) Q) :
    Pays l (read rt (G.monitorAll l) n r) (fun ok t t' k => Q ok t t' k ∧ (r.null nul = false → ok = true → t'.length < t.length)) := fun s hd t hb e s' he => by
  obtain ⟨x, t', k, h1, h2, h3, h4⟩ := h s hd t hb e s' he
  refine ⟨x, t', k, h1, h2, h3, h4, fun hn ho => ?_⟩
  cases e with
  | some e => cases ho
  | none =>
    have h5 := consumes hG hr hn hb.inside he
    rw [hb.2, h2.2, List.length_append] at h5
    rw [h1, List.length_append]
    omega

/-- What is asked of the readers. -/
def SmallCalm (nul : Nat → Bool) (Z : Nat) (r : Reader) : Prop := r.Every (fun r => r.spine = true) ∧ r.Every (fun r => r.calm nul = true) ∧ r.size ≤ Z

theorem SmallCalm.sub {r c : Reader} (h : SmallCalm nul Z r) (hc : c ∈ r.subs) : SmallCalm nul Z c := ⟨h.1.sub hc, h.2.1.sub hc, (size_sub hc).trans h.2.2⟩

include hG hC hZ hZ1 in
/-- One more byte. -/
theorem pay_step (hN : ∀ r, SmallCalm nul Z r → ∀ n, Pays l (read rt (G.monitorAll l) n r) (tailQ C N)) :
    ∀ R n r, SmallCalm nul Z r → Pays l (read rt (G.monitorAll l) n r) (payQ nul ρ N R (gain Z R * (C + 1) ^ N) r) := by
  intro R
  induction R using Nat.strong_induction_on with
  | _ R ihR =>
  intro n
  induction n with
  | zero => exact fun _ _ => .zero
  | succ n ih =>
  intro r hr
  have hX : (C + 1) ^ N ≤ gain Z R * (C + 1) ^ N := Nat.le_mul_of_pos_left _ (gain_pos Z R)
  generalize hD : gain Z R * (C + 1) ^ N = D at *
  have full : ∀ r, SmallCalm nul Z r → Pays l (read rt (G.monitorAll l) n r) (fullQ nul ρ C N R D r) := fun r hr =>
    ((((ih r hr).and (hN r hr n)).eats hG hr.1).short).mono fun ok t t' k _ ⟨⟨⟨h1, h2⟩, h3⟩, h4⟩ => ⟨h1, h2, h3, h4⟩
  have quiet : ∀ {r : Reader} {n : Nat}, r.Every (fun r => r.quiet = true) → Pays l (read rt (G.monitorAll l) n r) (payQ nul ρ N R D r) := fun h =>
    (Pays.quiet h).mono fun ok t t' k _ h _ _ => h.trans (Nat.zero_le _)
  have leaf : r.subs = [] → r.quiet = true → Pays l (read rt (G.monitorAll l) (n + 1) r) (payQ nul ρ N R D r) := fun h h' =>
    quiet (.mk h' fun c hc => by rw [h] at hc; cases hc)
  have more : ∀ {c : Reader} {k : Nat}, k ≤ c.size * D → k ≤ (c.size + 1) * D := fun h => h.trans (Nat.mul_le_mul_right _ (by omega))
  have rep : ∀ {c : Reader}, SmallCalm nul Z c → c.null nul = false → ∀ {t t' : Bytes} {k : Nat}, Often (fullQ nul ρ C N R D c) t t' k → t.length ≤ N →
      (t.length = N → ∀ j ∈ c.left nul, ρ j < R) → k ≤ (c.size + 1) * D := by
    intro c hc hn t t' k h h1 h2
    have := often_first (N := N) (C := C) (E := c.size * D) (fun _ _ _ _ h => h.2.1) (fun _ _ _ h => h.2.2.1 hn rfl) h h1 fun ok t' k h => h.1 h1 h2
    rw [Nat.add_mul, Nat.one_mul]
    omega
  cases r with
  | any rs =>
    refine (Pays.any (forall_self (as := rs) fun r h => full r (hr.sub h))).mono fun ok t t' k _ ⟨u, h, _⟩ h1 h2 => ?_
    exact (anyQ_pay h h1 h2).trans (Nat.mul_le_mul_right _ (by rw [Reader.size]; omega))
  | seq rs =>
    refine (Pays.seq (forall_self (as := rs) fun r h => full r (hr.sub h))).mono fun ok t t' k _ ⟨u, h, _⟩ h1 h2 => ?_
    exact (seqQ_pay h h1 h2).trans (Nat.mul_le_mul_right _ (by rw [Reader.size]; omega))
  | skipSeq sk rs =>
    have hsk := hr.sub (c := sk) (by simp [Reader.subs])
    have h0 : Pays l (read rt (G.monitorAll l) (n + 1) (.seq (sk :: rs.flatMap fun r => [r, sk]))) (payQ nul ρ N R D (.skipSeq sk rs)) := by
      refine (Pays.seq (forall_self fun r h => full r ?_)).mono fun ok t t' k _ ⟨u, h, _⟩ h1 h2 => ?_
      · rcases List.mem_cons.mp h with rfl | h
        · exact hsk
        · obtain ⟨r', h3, h4⟩ := List.mem_flatMap.mp h
          rcases List.mem_cons.mp h4 with rfl | h4
          · exact hr.sub (by simp [Reader.subs, h3])
          · rw [List.mem_singleton.mp h4]
            exact hsk
      · refine (seqQ_pay h h1 fun e j hj => h2 e j ?_).trans (Nat.mul_le_mul_right _ ?_)
        · rw [Reader.leftSeq, List.mem_append] at hj
          rw [Reader.left, List.mem_append]
          rcases hj with hj | hj
          · exact .inl hj
          · split at hj
            · rename_i hn
              rcases left_skip rs hj with h | h
              · exact .inl h
              · exact .inr (by simpa [hn] using h)
            · cases hj
        · rw [Reader.size, Reader.sizes, sizes_skip]
          omega
    intro s hd t hb e s' he
    exact h0 s hd t hb e s' ((read_skipSeq s).symm.trans he)
  | times k c =>
    refine (Pays.times (full c (hr.sub (by simp [Reader.subs])))).mono fun ok t t' k' _ h h1 h2 => ?_
    rw [← List.map_replicate] at h
    refine (seqQ_pay h h1 fun e j hj => h2 e j (by simpa only [Reader.left] using left_replicate _ hj)).trans (Nat.mul_le_mul_right _ ?_)
    rw [sizes_replicate, Reader.size]
    omega
  | at_ c => exact (full c (hr.sub (by simp [Reader.subs]))).at.mono fun ok t t' k _ ⟨_, u, h⟩ h1 h2 => more (h.1 h1 h2)
  | janusBegin _ _ c => exact (full c (hr.sub (by simp [Reader.subs]))).janusBegin.mono fun ok t t' k _ ⟨u, h, _⟩ h1 h2 => more (h.1 h1 h2)
  | map _ c => exact (full c (hr.sub (by simp [Reader.subs]))).map.mono fun ok t t' k _ ⟨u, h, _⟩ h1 h2 => more (h.1 h1 h2)
  | pick _ _ c => exact (full c (hr.sub (by simp [Reader.subs]))).pick.mono fun ok t t' k _ ⟨u, h, _⟩ h1 h2 => more (h.1 h1 h2)
  | named _ c => exact (full c (hr.sub (by simp [Reader.subs]))).named.mono fun ok t t' k _ h h1 h2 => more (h.1 h1 h2)
  | ruleName c => exact (full c (hr.sub (by simp [Reader.subs]))).ruleName.mono fun ok t t' k _ h h1 h2 => more (h.1 h1 h2)
  | grammar _ c => exact (full c (hr.sub (by simp [Reader.subs]))).grammar.mono fun ok t t' k _ h h1 h2 => more (h.1 h1 h2)
  | opt c => exact (full c (hr.sub (by simp [Reader.subs]))).opt.mono fun ok t t' k _ ⟨_, b, h⟩ h1 h2 => more (h.1 h1 h2)
  | not c => exact (full c (hr.sub (by simp [Reader.subs]))).not.mono fun ok t t' k _ ⟨b, u, h⟩ h1 h2 => more (h.1 h1 h2)
  | «to» c =>
    refine (full c (hr.sub (by simp [Reader.subs]))).to.mono fun ok t t' k _ ⟨u, h, _⟩ h1 h2 => ?_
    have := hunt_first (N := N) (C := C) (E := c.size * D) (fun _ _ _ _ h => h.2.1) h h1 fun ok t' k h => h.1 h1 h2
    rw [Reader.size, Nat.add_mul, Nat.one_mul]
    omega
  | past c =>
    have := Reader.everyB_sound Reader.quiet c hr.2.1.here
    exact quiet (.mk rfl fun x hx => by rw [List.mem_singleton.mp hx]; exact this)
  | zom c =>
    have h := hr.2.1.here
    simp only [Reader.calm, Bool.or_eq_true, Bool.not_eq_true'] at h
    rcases h with h | h
    · exact (full c (hr.sub (by simp [Reader.subs]))).zom.mono fun ok t t' k _ ⟨_, h'⟩ h1 h2 => rep (hr.sub (by simp [Reader.subs])) h h' h1 h2
    · have := Reader.everyB_sound Reader.quiet c h
      exact quiet (.mk rfl fun x hx => by rw [List.mem_singleton.mp hx]; exact this)
  | many c =>
    have h := hr.2.1.here
    simp only [Reader.calm, Bool.or_eq_true, Bool.not_eq_true'] at h
    rcases h with h | h
    · exact (full c (hr.sub (by simp [Reader.subs]))).many.mono fun ok t t' k _ h' h1 h2 => rep (hr.sub (by simp [Reader.subs])) h h' h1 h2
    · have := Reader.everyB_sound Reader.quiet c h
      exact quiet (.mk rfl fun x hx => by rw [List.mem_singleton.mp hx]; exact this)
  | rule i =>
    have less := hN (.rule i) hr (n + 1)
    have small : ∀ {ok : Bool} {t t' : Bytes} {k : Nat}, tailQ C N ok t t' k → t.length < N → k ≤ (Reader.rule i).size * D := by
      intro ok t t' k h h1
      have h3 := h h1
      have h4 := pow_step (C := C) h1
      rw [show (Reader.rule i).size = 1 from rfl, Nat.one_mul]
      omega
    by_cases hi : ρ i < R
    · rcases hg : G[i]? with _ | ⟨nm, _ | c⟩
      · intro s hd t hb e s' he
        simp [read, Env.monitorAll, hg] at he
      · have : (G.monitorAll l)[i]? = some ⟨nm, none⟩ := by
          unfold Env.monitorAll
          rw [List.getElem?_map, hg]
          rfl
        intro s hd t hb e s' he
        simp [read, this] at he
      · have hc : SmallCalm nul Z c := ⟨hG.spine.get hg, hC.get hg, hZ i nm c hg⟩
        refine (less.and (Pays.rule hg fun m _ => ihR (ρ i) hi m c hc)).mono fun ok t t' k _ ⟨h0, k', hk, h⟩ h1 _ => ?_
        rcases Nat.lt_or_ge t.length N with h2 | h2
        · exact small h0 h2
        · have h3 := h h1 fun _ => hG.ranks i nm c hg
          have h4 : c.size * (gain Z (ρ i) * (C + 1) ^ N) ≤ Z * (gain Z (ρ i) * (C + 1) ^ N) := Nat.mul_le_mul_right _ hc.2.2
          have h5 : gain Z (ρ i + 1) * (C + 1) ^ N ≤ gain Z R * (C + 1) ^ N := Nat.mul_le_mul_right _ (gain_mono hZ1 hi)
          have h6 : 1 ≤ (C + 1) ^ N := Nat.one_le_pow _ _ (by omega)
          rw [gain, Nat.add_mul, Nat.one_mul, Nat.mul_assoc] at h5
          rw [show (Reader.rule i).size = 1 from rfl, Nat.one_mul, ← hD]
          omega
    · refine less.mono fun ok t t' k _ h0 h1 h2 => ?_
      rcases Nat.lt_or_ge t.length N with h3 | h3
      · exact small h0 h3
      · exact absurd (h2 (by omega) i (by simp [Reader.left])) hi
  | monitor _ _ _ | wrap _ _ | body _ _ | bodyTail _ _ =>
    have := hr.1.here
    cases this
  | _ => exact leaf rfl rfl

include hG in
theorem pay_loose (n : Nat) (r : Reader) (hr : r.Every (fun r => r.spine = true)) : Pays l (read rt (G.monitorAll l) n r) (fun _ _ _ _ => True) := fun s hd t hb e s' he => by
  have bare : ∀ r : Reader, r.spine = true → r.bare = true := fun r h => by cases r <;> first | rfl | cases h
  have hm := logged_mono (l := l) ⟨hG.spine.imp bare, hr.imp bare⟩ hb.inside he
  obtain ⟨⟨h1, h2, h3⟩, -⟩ := near_read hG rt l t.length K n r hr (fun j _ => hG.bound j) s ⟨hb.inside, by
    rw [hb.1, hb.2, List.length_append]
    push_cast
    omega⟩ _ he
  simp only at h1 h2 h3
  have ht : t = t.take (s'.pos - s.pos).toNat ++ t.drop (s'.pos - s.pos).toNat := (List.take_append_drop _ _).symm
  have h5 := h1.2
  rw [h2, hb.1, List.length_append] at h5
  have h6 := hb.2
  refine ⟨t.take (s'.pos - s.pos).toNat, t.drop (s'.pos - s.pos).toNat, s'.logged l - s.logged l, ht, ⟨?_, ?_⟩, by omega, trivial⟩
  · rw [h2, hb.1, List.append_assoc, ← ht]
  · rw [List.length_append, List.length_take]
    push_cast at h5
    omega

include hG hC hZ hZ1 in
/-- The number of new entries is at most exponential in the number of bytes ahead. -/
theorem pay_all (rt : Rt) (l : Nat) : ∀ N r, SmallCalm nul Z r → ∀ n, Pays l (read rt (G.monitorAll l) n r) (tailQ (Z * gain Z K) N) := by
  intro N
  induction N with
  | zero => exact fun r hr n => (pay_loose hG n r hr.1).mono fun _ t _ k _ _ h => absurd h (Nat.not_lt_zero _)
  | succ N ih =>
    refine fun r hr n => ((ih r hr n).and (pay_step hG hC hZ hZ1 ih K n r hr)).mono fun ok t t' k _ ⟨h1, h2⟩ h => ?_
    rcases Nat.lt_or_ge t.length N with h3 | h3
    · exact h1 h3
    · have h4 : t.length = N := by omega
      have h5 := h2 (by omega) fun _ j _ => hG.bound j
      have h6 : r.size * (gain Z K * (Z * gain Z K + 1) ^ N) ≤ Z * (gain Z K * (Z * gain Z K + 1) ^ N) := Nat.mul_le_mul_right _ hr.2.2
      rw [h4, Nat.mul_assoc]
      exact h5.trans h6

end
end Tok
