/-
The calculus of Proofs/Pays.lean for searching readers, and bounds that are proportional to the text that is read.
-/
import Verif.Proofs.Pays
import Verif.Proofs.Place
import Verif.Proofs.Term

namespace Tok
open Spec

section
variable {rt : Rt} {G : Env} {l n : Nat} {f : ReadFunc} {r b : Reader} {Q Q' : Bill}

/-- Two facts about one read. -/
theorem Pays.and (h : Pays l f Q) (h' : Pays l f Q') : Pays l f (fun ok t t' k => Q ok t t' k ∧ Q' ok t t' k) := fun s hd t hb e s' he => by
  obtain ⟨x, t', k, h1, h2, h3, h4⟩ := h s hd t hb e s' he
  obtain ⟨y, u', j, g1, g2, g3, g4⟩ := h' s hd t hb e s' he
  have hl : x.length = y.length := by
    have a := h2.2
    have b := g2.2
    rw [List.length_append] at a b
    omega
  obtain ⟨rfl, rfl⟩ := List.append_inj (h1.symm.trans g1) hl
  obtain rfl : k = j := by omega
  exact ⟨x, t', k, h1, h2, h3, h4, g4⟩

theorem Pays.named {nm : Bytes} (h : Pays l (read rt G n r) Q) : Pays l (read rt G (n + 1) (.named nm r)) Q := h

theorem Pays.at (h : Pays l (read rt G n r) Q) : Pays l (read rt G (n + 1) (.at_ r)) (fun ok t t' k => t' = t ∧ ∃ u, Q ok t u k) := fun s hd t hb e s' he => by
  simp only [read] at he
  obtain ⟨⟨e1, s1⟩, h1, h2⟩ := Exec.bind_eq_ret.mp he
  obtain ⟨x, u, k, hx, hb1, hk, hq⟩ := h s hd t hb e1 s1 h1
  cases h2
  exact ⟨[], t, k, rfl, by rw [List.append_nil]; exact back_between hb hx hb1, by rw [logged_toMarker]; exact hk, rfl, u, hq⟩

theorem Pays.janusBegin {id : Nat} {nm : Bytes} (h : Pays l (read rt G n r) Q) :
    Pays l (read rt G (n + 1) (.janusBegin id nm r)) (fun ok t t' k => ∃ u, Q ok t u k ∧ t' = if ok then u else t) := fun s hd t hb e s' he => by
  simp only [read] at he
  obtain ⟨⟨⟨tk, e1⟩, s1⟩, h1, h2⟩ := Exec.bind_eq_ret.mp he
  unfold Scanner.tokenizeUse at h1
  obtain ⟨⟨e3, s3⟩, h3, h4⟩ := Exec.bind_eq_ret.mp h1
  obtain ⟨x, u, k, hx, hb1, hk, hq⟩ := h s hd t hb e3 s3 h3
  cases e3 with
  | none =>
    cases h4
    obtain ⟨str, h5, h6⟩ := Exec.bind_eq_ret.mp h2
    cases h6
    exact ⟨x, u, k, hx, hb1, hk, u, hq, rfl⟩
  | some e3 =>
    cases h4
    cases h2
    exact ⟨[], t, k, rfl, by rw [List.append_nil]; exact back_between hb hx hb1, by
      rw [show s.mark = s.pos from rfl]
      exact (logged_toMarker (s := s3)).trans hk, u, hq, rfl⟩

theorem Pays.many (h : Pays l (read rt G n r) Q) : Pays l (read rt G (n + 1) (.many r)) (fun _ t t' k => Often Q t t' k) := fun s hd t hb e s' he => by
  simp only [read] at he
  obtain ⟨s1, h1, h2⟩ := Exec.bind_eq_ret.mp he
  cases h2
  obtain ⟨x, u, k, hx, hb1, hk, hq⟩ := zomLoop_pays h n s hd t hb _ h1
  exact ⟨x, u, k, hx, hb1, hk, hq⟩

theorem Pays.grammar {w : Bytes} (h : Pays l (read rt G n r) Q) : Pays l (read rt G (n + 1) (.grammar w r)) Q := fun s hd t hb e s' he => by
  simp only [read] at he
  obtain ⟨⟨e1, s1⟩, h1, h2⟩ := Exec.bind_eq_ret.mp he
  obtain ⟨x, u, k, hx, hb1, hk, hq⟩ := h s hd t hb e1 s1 h1
  cases e1 <;> cases h2 <;> exact ⟨x, u, k, hx, hb1, hk, hq⟩

/-- One step forward. -/
theorem step_pays {s s' : Scanner} {hd t : Bytes} (hb : Between s hd t) {ok : Bool} (he : s.moveRunes 1 = .ret (ok, s')) :
    ∃ x t', t = x ++ t' ∧ Between s' (hd ++ x) t' ∧ s'.logged l = s.logged l ∧ (ok = true → t'.length < t.length) := by
  have h1 := ((unheard_frame ⟨id, fun _ => true, id⟩ []).moveRunes hb.inside) _ he
  obtain ⟨⟨ok', st⟩, h2, h3, h4⟩ := (moveRunes_sim (sees_between hb)).left he
  have h5 : (eatStep t).2 <:+ t := by
    unfold eatStep
    split
    · exact List.drop_suffix _ _
    · exact List.suffix_rfl
  unfold lift at h2
  cases h2
  obtain ⟨x, h7, h8⟩ := between_sees hb h4 h5
  refine ⟨x, _, h7, h8, by unfold Scanner.logged; rw [h1.2], fun hok => eatStep_lt ?_⟩
  subst hok
  exact h3.symm

/-- A search. -/
inductive Hunt (Q : Bill) : Bool → Bytes → Bytes → Nat → Prop
  | found {t u k} : Q true t u k → Hunt Q true t t k
  | stuck {t u t' k} : Q false t u k → Hunt Q false t t' k
  | step {ok t u v t' k1 k2} : Q false t u k1 → v.length < u.length → u.length ≤ t.length → Hunt Q ok v t' k2 → Hunt Q ok t t' (k1 + k2)

theorem toLoop_pays (h : Pays l f Q) : ∀ n s hd t, Between s hd t → ∀ ok s', toLoop f n s = .ret (ok, s') →
    ∃ x t' k, t = x ++ t' ∧ Between s' (hd ++ x) t' ∧ s'.logged l = s.logged l + k ∧ Hunt Q ok t t' k
  | 0, _, _, _, _, _, _, he => by cases he
  | n + 1, s, hd, t, hb, ok, s', he => by
    rw [toLoop] at he
    obtain ⟨⟨e1, s1⟩, h1, h2⟩ := Exec.bind_eq_ret.mp he
    obtain ⟨x, u, k1, hx, hb1, hk1, hq1⟩ := h s hd t hb e1 s1 h1
    cases e1 with
    | none =>
      cases h2
      exact ⟨[], t, k1, rfl, by rw [List.append_nil]; exact back_between hb hx hb1, by
        rw [show s.mark = s.pos from rfl]
        exact (logged_toMarker (s := s1)).trans hk1, .found hq1⟩
    | some e1 =>
      obtain ⟨⟨ok2, s2⟩, h3, h4⟩ := Exec.bind_eq_ret.mp h2
      obtain ⟨y, v, hy, hb2, hk2, hlt⟩ := step_pays (l := l) hb1 h3
      cases ok2 with
      | false =>
        cases h4
        exact ⟨x ++ y, v, k1, by rw [hx, hy, List.append_assoc], by rw [← List.append_assoc]; exact hb2, by omega, .stuck hq1⟩
      | true =>
        obtain ⟨z, t', k2, hz, hb3, hk3, hq3⟩ := toLoop_pays h n s2 _ v hb2 ok s' h4
        exact ⟨x ++ y ++ z, t', k1 + k2, by rw [hx, hy, hz]; simp, by simpa using hb3, by omega, .step hq1 (hlt rfl) (by rw [hx]; simp) hq3⟩

theorem Pays.to (h : Pays l (read rt G n r) Q) :
    Pays l (read rt G (n + 1) (.to r)) (fun ok t t' k => ∃ u, Hunt Q ok t u k ∧ t' = if ok then u else t) := fun s hd t hb e s' he => by
  simp only [read] at he
  obtain ⟨⟨ok, s1⟩, h1, h2⟩ := Exec.bind_eq_ret.mp he
  obtain ⟨x, u, k, hx, hb1, hk, hq⟩ := toLoop_pays h n s hd t hb ok s1 h1
  cases ok with
  | true =>
    cases h2
    exact ⟨x, u, k, hx, hb1, hk, u, hq, rfl⟩
  | false =>
    cases h2
    exact ⟨[], t, k, rfl, by rw [List.append_nil]; exact back_between hb hx hb1, by
      rw [show s.mark = s.pos from rfl]
      exact (logged_toMarker (s := s1)).trans hk, u, hq, rfl⟩

/-- The search for a tail that writes no log costs no more than one read of the body. -/
theorem bodyLoop_pays {g : Reader} (hg : g.Every (fun r => r.quiet = true)) (h : Pays l f Q) {s0 : Scanner} {hd t : Bytes} (h0 : Between s0 hd t) (n0 : Nat) :
    ∀ n s x y, t = x ++ y → Between s (hd ++ x) y → ∀ res s', bodyLoop f (read rt G n0 g) s0.pos n s = .ret (res, s') →
    ∃ x' y' k, t = x' ++ y' ∧ Between s' (hd ++ x') y' ∧ s'.logged l = s.logged l + k ∧ (k = 0 ∨ ∃ z u ok, z.length ≤ t.length ∧ Q ok z u k)
  | 0, _, _, _, _, _, _, _, he => by cases he
  | n + 1, s, x, y, ht, hb, res, s', he => by
    rw [bodyLoop] at he
    split at he
    · cases he
      exact ⟨x, y, 0, ht, hb, rfl, .inl rfl⟩
    · obtain ⟨⟨e1, s1⟩, h1, h2⟩ := Exec.bind_eq_ret.mp he
      obtain ⟨x1, y1, k1, hx1, hb1, hk1, hq1⟩ := Pays.quiet (l := l) hg s _ y hb e1 s1 h1
      have hk0 : k1 = 0 := Nat.le_zero.mp hq1
      subst hk0
      have hfull : s1.full = s0.full := by rw [hb1.1, h0.1, ht, hx1]; simp
      cases e1 with
      | none =>
        obtain ⟨str, h5, h6⟩ := Exec.bind_eq_ret.mp h2
        rw [show s.mark = s.pos from rfl, get_between (s1 := s0) (s2 := s) (by rw [ht] at h0; exact h0) hb hfull] at h5
        cases h5
        obtain ⟨⟨e7, s7⟩, h7, h8⟩ := Exec.bind_eq_ret.mp h6
        unfold Scanner.use at h7
        obtain ⟨⟨e9, s9⟩, h9, h10⟩ := Exec.bind_eq_ret.mp h7
        obtain ⟨x2, y2, k2, hx2, hb2, hk2, hq2⟩ := h (Scanner.new x s1.heap) [] x ⟨rfl, rfl⟩ e9 s9 h9
        have hk7 : s7.logged l = s9.logged l := by
          cases e9 <;> cases h10
          · rfl
          · exact logged_toMarker (s := s9)
        have hs' : s'.full = s1.full ∧ s'.pos = s1.pos ∧ s'.heap = s7.heap := by
          simp only at h8
          split at h8 <;> cases h8 <;> exact ⟨rfl, rfl, rfl⟩
        refine ⟨x ++ x1, y1, k2, by rw [ht, hx1, List.append_assoc], ⟨hs'.1.trans (by simpa using hb1.1), hs'.2.1.trans (by simpa using hb1.2)⟩, ?_,
          .inr ⟨x, y2, _, by rw [ht]; simp, hq2⟩⟩
        have h11 : s'.logged l = s7.logged l := by unfold Scanner.logged; rw [hs'.2.2]
        have h12 : (Scanner.new x s1.heap).logged l = s1.logged l := rfl
        omega
      | some e1 =>
        obtain ⟨⟨ok2, s2⟩, h3, h4⟩ := Exec.bind_eq_ret.mp h2
        obtain ⟨y2, v, hy, hb2, hk2, -⟩ := step_pays (l := l) hb1 h3
        obtain ⟨x', y', k, h5, h6, h7, h8⟩ := bodyLoop_pays hg h h0 n0 n s2 (x ++ x1 ++ y2) v (by rw [ht, hx1, hy]; simp) (by simpa using hb2) res s' h4
        exact ⟨x', y', k, h5, h6, by omega, h8⟩

theorem Pays.bodyTail {g : Reader} (hg : g.Every (fun r => r.quiet = true)) (h : Pays l (read rt G n b) Q) :
    Pays l (read rt G (n + 1) (.bodyTail b g)) (fun ok t t' k => (k = 0 ∨ ∃ z u ok, z.length ≤ t.length ∧ Q ok z u k) ∧ (ok = false → t' = t)) :=
    fun s hd t hb e s' he => by
  simp only [read] at he
  obtain ⟨⟨res, s1⟩, h1, h2⟩ := Exec.bind_eq_ret.mp he
  obtain ⟨x, u, k, hx, hb1, hk, hq⟩ := bodyLoop_pays hg h hb n n s [] t rfl (by simpa using hb) res s1 h1
  cases res with
  | some t0 =>
    cases h2
    exact ⟨x, u, k, hx, hb1, hk, hq, fun h => by cases h⟩
  | none =>
    cases h2
    exact ⟨[], t, k, rfl, by rw [List.append_nil]; exact back_between hb hx hb1, by
      rw [show s.mark = s.pos from rfl]
      exact (logged_toMarker (s := s1)).trans hk, hq, fun _ => rfl⟩

end

/-! ### bounds that are proportional to the text -/

/-- In a text of at most `N` bytes every byte gone over costs `a * (N + 1)`, and the read `b * (N + 1)` more; a failed read may have looked at all that is ahead. -/
def costQ (a b : Nat) : Bill := fun ok t t' k => ∀ N, t.length ≤ N →
  k + (if ok then a * (N + 1) * t'.length else 0) ≤ a * (N + 1) * t.length + b * (N + 1)

section
variable {rt : Rt} {G : Env} {l n : Nat} {f : ReadFunc} {r : Reader} {rs : List Reader}

theorem costQ.of_le {a b : Nat} {ok : Bool} {t t' : Bytes} {k : Nat} (hk : ∀ N, t.length ≤ N → k ≤ b * (N + 1)) (h : t'.length ≤ t.length) : costQ a b ok t t' k := fun N hN => by
  have h1 := hk N hN
  have h2 := Nat.mul_le_mul_left (a * (N + 1)) h
  split <;> omega

theorem Pays.const {a K : Nat} (h : Pays l f (upTo K)) : Pays l f (costQ a K) :=
  h.mono fun _ _ _ k hs hq => costQ.of_le (fun N _ => Nat.le_trans hq (Nat.le_mul_of_pos_right K (by omega))) hs.length_le

theorem costQ.mono {a b b' : Nat} {ok : Bool} {t t' : Bytes} {k : Nat} (h : costQ a b ok t t' k) (hb : b ≤ b') : costQ a b' ok t t' k := fun N hN =>
  Nat.le_trans (h N hN) (Nat.add_le_add_left (Nat.mul_le_mul_right _ hb) _)

/-- A read may cost less. -/
theorem costQ.more {a b : Nat} {ok : Bool} {t t' : Bytes} {k : Nat} (h : costQ a b ok t t' k) : costQ a (b + 1) ok t t' (k + 1) := fun N hN => by
  have := h N hN
  rw [Nat.add_mul b 1]
  omega

theorem seqQ_cost {a : Nat} : ∀ {bs : List Nat} {ok : Bool} {t t' : Bytes} {k : Nat},
    seqQ (bs.map fun b => fun ok t t' k => costQ a b ok t t' k ∧ t'.length ≤ t.length) ok t t' k → costQ a bs.sum ok t t' k
  | [], _, _, _, _, ⟨h1, h2, h3⟩ => by subst h1 h2 h3; exact costQ.of_le (fun _ _ => Nat.zero_le _) (Nat.le_refl _)
  | b :: bs, ok, t, t', k, h => fun N hN => by
    rw [List.sum_cons, Nat.add_mul]
    rcases h with ⟨rfl, h, -⟩ | ⟨u, k1, k2, ⟨h1, hu⟩, h2, rfl⟩
    · have := h N hN
      simp only [Bool.false_eq_true, if_false] at this ⊢
      omega
    · have h3 := h1 N hN
      have h4 := seqQ_cost h2 N (Nat.le_trans hu hN)
      simp only [if_true] at h3
      omega

theorem Pays.seqCost {a : Nat} {bs : List Nat} (h : List.Forall₂ (fun r b => Pays l (read rt G n r) (costQ a b)) rs bs) :
    Pays l (read rt G (n + 1) (.seq rs)) (costQ a bs.sum) :=
  (Pays.seq (forall_map (g := fun b => fun ok t t' k => costQ a b ok t t' k ∧ t'.length ≤ t.length) (h.imp fun _ _ h => h.short))).mono fun ok t t' k _ ⟨u, h1, h2⟩ N hN => by
    have := seqQ_cost h1 N hN
    subst h2
    cases ok with
    | true => simpa using this
    | false => simpa using this

/-- A reader whose first part costs little. -/
theorem Pays.orCost {a b K : Nat} {r' : Reader} (h : Pays l (read rt G n r) (atMost K)) (h' : Pays l (read rt G n r') (costQ a b)) :
    Pays l (read rt G (n + 1) (.any [r, r'])) (costQ a (K + b)) :=
  (Pays.any (.cons h (.cons h' .nil))).mono fun ok t t' k hs ⟨u, h1, h2⟩ N hN => by
    have hK : K ≤ K * (N + 1) := Nat.le_mul_of_pos_right K (by omega)
    have hl := Nat.mul_le_mul_left (a * (N + 1)) hs.length_le
    rw [Nat.add_mul]
    rcases h1 with ⟨rfl, h3, -⟩ | ⟨v, k1, k2, ⟨h3, h4⟩, h5, rfl⟩
    · simp only [if_true] at h2 ⊢
      omega
    · have hv := h4 rfl
      subst hv
      rcases h5 with ⟨rfl, h6⟩ | ⟨w, k3, k4, h6, ⟨rfl, -, rfl⟩, rfl⟩
      · have := h6 N hN
        simp only [if_true] at this h2 ⊢
        subst h2
        omega
      · have := h6 N hN
        simp only [Bool.false_eq_true, if_false] at this ⊢
        omega

/-- A search whose steps cost `c * (N + 1)` each. -/
theorem hunt_cost {c : Nat} {Q : Bill} (hQ : ∀ ok t t' k, Q ok t t' k → ∀ N, t.length ≤ N → k ≤ c * (N + 1)) {ok : Bool} {t t' : Bytes} {k : Nat} (h : Hunt Q ok t t' k) :
    costQ c c ok t t' k := by
  induction h with
  | found h => exact costQ.of_le (hQ _ _ _ _ h) (Nat.le_refl _)
  | stuck h => exact fun N hN => by have := hQ _ _ _ _ h N hN; simp only [Bool.false_eq_true, if_false]; omega
  | @step ok t u v t' k1 k2 h1 h2 h3 _ ih =>
    intro N hN
    have h4 := hQ _ _ _ _ h1 N hN
    have h5 := ih N (by omega)
    have h6 : c * (N + 1) * (v.length + 1) ≤ c * (N + 1) * t.length := Nat.mul_le_mul_left _ (by omega)
    rw [Nat.mul_add, Nat.mul_one] at h6
    omega

theorem Pays.toCost {c : Nat} {Q : Bill} (hQ : ∀ ok t t' k, Q ok t t' k → ∀ N, t.length ≤ N → k ≤ c * (N + 1)) (h : Pays l (read rt G n r) Q) :
    Pays l (read rt G (n + 1) (.to r)) (costQ c c) :=
  h.to.mono fun ok t t' k _ ⟨u, h1, h2⟩ N hN => by
    have := hunt_cost hQ h1 N hN
    subst h2
    cases ok with
    | true => simpa using this
    | false => simpa using this

/-- A repetition of reads that get on. -/
theorem often_cost {a b : Nat} {t t' : Bytes} {k : Nat} (h : Often (fun ok t t' k => costQ a b ok t t' k ∧ (ok = true → t'.length < t.length)) t t' k) :
    ∀ N, t.length ≤ N → k ≤ (a + b) * (N + 1) * t.length + b * (N + 1) := by
  induction h with
  | @stop t t' k h =>
    intro N hN
    have := h.1 N hN
    simp only [Bool.false_eq_true, if_false] at this
    rw [Nat.add_mul, Nat.add_mul]
    omega
  | @more t u t' k1 k2 h _ ih =>
    intro N hN
    have h1 := h.1 N hN
    have h2 := h.2 rfl
    have h3 := ih N (by omega)
    simp only [if_true] at h1
    have h4 : b * (N + 1) * (u.length + 1) ≤ b * (N + 1) * t.length := Nat.mul_le_mul_left _ (by omega)
    rw [Nat.mul_add, Nat.mul_one] at h4
    rw [Nat.add_mul, Nat.add_mul] at h3 ⊢
    omega

end

end Tok
