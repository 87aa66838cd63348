/-
The depth of the calls of rules in grammars without left recursion: linear in the length of the text.
-/
import Verif.Proofs.Depth
import Verif.Proofs.Term

namespace Tok
open Spec

/-- No `Monitor`, no `Wrap`, no `Body`. -/
def Reader.spine : Reader → Bool
  | .monitor _ _ _ | .wrap _ _ | .body _ _ | .bodyTail _ _ => false
  | _ => true

/-- Less than `N` bytes are ahead. -/
def Near (N : Nat) (s : Scanner) : Prop := Inside s ∧ (s.full.length : Int) - s.pos < N

/-- What a read does to a log. -/
def Digging (l D : Nat) (s s' : Scanner) : Prop := Forward s s' ∧ Dug D (s.heap.logs l) (s'.heap.logs l)

section
variable {rt : Rt} {G : Env} {l N D E k K : Nat} {nul : Nat → Bool} {ρ : Nat → Nat}

theorem near_frame : Frame rt G (fun r => r.spine = true) (Near N) (Digging l D) where
  inside h := h.1
  fwd _ h := h.1
  inv {s s'} hs h := by
    refine ⟨h.1.1, ?_⟩
    have h1 := h.1.2.1
    have h2 := h.1.2.2
    have h3 := hs.2
    rw [h1]
    omega
  refl h := ⟨Forward.refl h.1, .refl⟩
  trans _ h h' := ⟨h.1.trans h'.1, h.2.trans h'.2⟩
  go {s m} h h1 h2 := ⟨((log_frame rt G 0 (fun _ _ => True) s.full).go ⟨h.1, List.infix_rfl⟩ h1 h2).1, by rw [at_logs]; exact .refl⟩
  back {s s'} h h' := by
    refine ⟨?_, ?_⟩
    · have := Forward.back h.1 h'.1
      rwa [toMarker_at h.1.1] at this
    · rw [at_logs]; exact h'.2
  cells _ _ _ _ h := h
  janus _ _ _ _ h := h
  pick _ _ _ h := h
  map _ _ h := h
  enter h _ := by cases h
  leave h _ _ _ := by cases h
  wrap h _ := by cases h
  body h := by rcases h with h | h <;> cases h

theorem Digging.mono {s s' : Scanner} (h : Digging l D s s') (hD : D ≤ E) : Digging l E s s' := ⟨h.1, h.2.mono hD⟩

theorem ok_mono {f : ReadFunc} {M : Nat} (h : Frame.Ok (Near N) (Digging l D) f) (hD : D ≤ E) (hN : M ≤ N) : Frame.Ok (Near M) (Digging l E) f :=
  fun s hs => (h s ⟨hs.1, by have := hs.2; omega⟩).mono fun _ _ h => h.mono hD

/-- What is read before anything was consumed. -/
theorem left_sub {r c : Reader} (hs : r.spine = true) (hq : ∀ rs, r ≠ .seq rs) (hk : ∀ sk rs, r ≠ .skipSeq sk rs) (hc : c ∈ r.subs) : ∀ j ∈ c.left nul, j ∈ r.left nul := by
  have any : ∀ rs : List Reader, c ∈ rs → ∀ j ∈ c.left nul, j ∈ Reader.leftAny nul rs := by
    intro rs
    induction rs with
    | nil => intro h; cases h
    | cons r rs ih =>
      intro h j hj
      rw [Reader.leftAny, List.mem_append]
      rcases List.mem_cons.mp h with rfl | h
      · exact .inl hj
      · exact .inr (ih h j hj)
  cases r <;> first
    | (exact any _ hc)
    | (exact absurd rfl (hq _))
    | (exact absurd rfl (hk _ _))
    | (simp only [Reader.subs, List.mem_singleton] at hc; subst hc; exact fun j hj => hj)
    | (simp only [Reader.subs, List.not_mem_nil] at hc; done)
    | (simp only [Reader.spine, Bool.false_eq_true] at hs; done)

/-- A grammar without left recursion: the ranks of the rules that are read before anything was consumed are lower, and `nul` is right about the rules. -/
structure Descends (G : Env) (nul : Nat → Bool) (ρ : Nat → Nat) (K : Nat) : Prop where
  spine : G.Every (fun r => r.spine = true)
  nulls : ∀ (i : Nat) (nm : Bytes) (c : Reader), G[i]? = some ⟨nm, some c⟩ → c.null nul = true → nul i = true
  ranks : ∀ (i : Nat) (nm : Bytes) (c : Reader), G[i]? = some ⟨nm, some c⟩ → ∀ j ∈ c.left nul, ρ j < ρ i
  bound : ∀ i, ρ i < K

variable (hG : Descends G nul ρ K)
include hG

/-- A read that is successful has consumed something, if the reader cannot be successful without. -/
theorem consumes {n : Nat} {r : Reader} (hr : r.Every (fun r => r.spine = true)) (hn : r.null nul = false) {s s' : Scanner} (hs : Inside s)
    (he : read rt (G.monitorAll l) n r s = .ret (none, s')) : s.pos < s'.pos := by
  have hE : (G.monitorAll l).Every (fun r => r.noWrap = true) := by
    intro rl hrl c hc
    obtain ⟨⟨nm, _ | c'⟩, hr', rfl⟩ := List.mem_map.mp hrl
    · cases hc
    · cases hc
      exact .mk (r := .monitor _ _ _) rfl fun x hx => by
        rw [List.mem_singleton.mp hx]
        exact (hG.spine _ hr' c' rfl).imp fun r h => by cases r <;> first | rfl | cases h
  have h1 := read_eat rt (G.monitorAll l) hE n r (hr.imp fun r h => by cases r <;> first | rfl | cases h) s.full s s.st (sees_st hs)
  rw [he] at h1
  have hN : ∀ (i : Nat) (nm : Bytes) (c : Reader), (G.monitorAll l)[i]? = some ⟨nm, some c⟩ → c.null nul = true → nul i = true := by
    intro i nm c hi hc
    unfold Env.monitorAll at hi
    rw [List.getElem?_map] at hi
    rcases hg : G[i]? with _ | ⟨nm', _ | c'⟩
    · rw [hg] at hi; cases hi
    · rw [hg] at hi; cases hi
    · rw [hg] at hi
      cases hi
      exact hG.nulls i nm' c' hg hc
  have h2 := eat_eats rt (G.monitorAll l) hN n r hn s.st
  cases he' : eat rt (G.monitorAll l) n r s.st with
  | panic => rw [he'] at h1; cases h1
  | timeout => rw [he'] at h1; cases h1
  | ret x =>
    rw [he'] at h1
    cases h1 with
    | ret h =>
      have h3 := h2 _ he' h.1.symm
      have h4 := (sees_st hs).pos.1
      have h5 := h.2.pos.1
      simp only at h5
      omega

omit hG in
theorem near_seq {f : Reader → ReadFunc} (hD : D ≤ E) : ∀ (rs : List Reader) (_ : ∀ r ∈ rs, Frame.Ok (Near N) (Digging l D) (f r))
    (_ : ∀ r ∈ rs, (∀ j ∈ r.left nul, ρ j < k) → Frame.Ok (Near (N + 1)) (Digging l E) (f r))
    (_ : ∀ r ∈ rs, r.null nul = false → ∀ s s', Inside s → f r s = .ret (none, s') → s.pos < s'.pos)
    (_ : ∀ j ∈ Reader.leftSeq nul rs, ρ j < k), Frame.Ok (Near (N + 1)) (Digging l E) (seqLoop f rs)
  | [], _, _, _, _, _, hs => .ret ((near_frame (rt := ⟨id, fun _ => true, id⟩) (G := [])).refl hs)
  | r :: rs, hA, hB, hC, hl, s, hs => by
    have fr := near_frame (rt := ⟨id, fun _ => true, id⟩) (G := []) (l := l) (N := N + 1) (D := E)
    refine (hB r List.mem_cons_self (fun j hj => hl j (List.mem_append_left _ hj)) s hs).bind fun a he ha => ?_
    obtain ⟨e, s'⟩ := a
    cases e with
    | some e => exact .ret ha
    | none =>
      have hs' := fr.inv hs ha
      refine RetE.mono (P := fun x => Digging l E s' x.2) ?_ fun _ _ h => fr.trans hs ha h
      cases hn : r.null nul with
      | true =>
        exact near_seq hD rs (fun r h => hA r (List.mem_cons_of_mem _ h)) (fun r h => hB r (List.mem_cons_of_mem _ h)) (fun r h => hC r (List.mem_cons_of_mem _ h))
          (fun j hj => hl j (List.mem_append_right _ (by rw [hn]; exact hj))) s' hs'
      | false =>
        have := hC r List.mem_cons_self hn s s' hs.1 he
        have hf : s'.full = s.full := ha.1.2.1
        have h2 := hs.2
        have hn' : Near N s' := ⟨hs'.1, by rw [hf]; omega⟩
        have fr' := near_frame (rt := ⟨id, fun _ => true, id⟩) (G := []) (l := l) (N := N) (D := D)
        exact ok_mono (fr'.seqLoop rs fun r h => hA r (List.mem_cons_of_mem _ h)) hD (Nat.le_refl _) s' hn'

omit hG in
theorem near_skipSeq {f : Reader → ReadFunc} {sk : Reader} (hD : D ≤ E) (hS : Frame.Ok (Near (N + 1)) (Digging l E) (f sk)) (hS' : Frame.Ok (Near N) (Digging l D) (f sk)) :
    ∀ (rs : List Reader) (_ : ∀ r ∈ rs, Frame.Ok (Near N) (Digging l D) (f r))
    (_ : ∀ r ∈ rs, (∀ j ∈ r.left nul, ρ j < k) → Frame.Ok (Near (N + 1)) (Digging l E) (f r))
    (_ : ∀ r ∈ rs, r.null nul = false → ∀ s s', Inside s → f r s = .ret (none, s') → s.pos < s'.pos)
    (_ : ∀ j ∈ Reader.leftSeq nul rs, ρ j < k), Frame.Ok (Near (N + 1)) (Digging l E) (skipSeqLoop f sk rs)
  | [], _, _, _, _, _, hs => .ret ((near_frame (rt := ⟨id, fun _ => true, id⟩) (G := [])).refl hs)
  | r :: rs, hA, hB, hC, hl, s, hs => by
    have fr := near_frame (rt := ⟨id, fun _ => true, id⟩) (G := []) (l := l) (N := N + 1) (D := E)
    refine (hB r List.mem_cons_self (fun j hj => hl j (List.mem_append_left _ hj)) s hs).bind fun a he ha => ?_
    obtain ⟨e, s'⟩ := a
    cases e with
    | some e => exact .ret ha
    | none =>
      have hs' := fr.inv hs ha
      refine (hS s' hs').bind fun a _ hb => ?_
      have hb' := fr.trans hs ha hb
      obtain ⟨e, s''⟩ := a
      cases e with
      | some e => exact .ret hb'
      | none =>
        have hs'' := fr.inv hs' hb
        refine RetE.mono (P := fun x => Digging l E s'' x.2) ?_ fun _ _ h => fr.trans hs hb' h
        cases hn : r.null nul with
        | true =>
          exact near_skipSeq hD hS hS' rs (fun r h => hA r (List.mem_cons_of_mem _ h)) (fun r h => hB r (List.mem_cons_of_mem _ h)) (fun r h => hC r (List.mem_cons_of_mem _ h))
            (fun j hj => hl j (List.mem_append_right _ (by rw [hn]; exact hj))) s'' hs''
        | false =>
          have := hC r List.mem_cons_self hn s s' hs.1 he
          have hf : s''.full = s.full := hb'.1.2.1
          have hp : s'.pos ≤ s''.pos := hb.1.2.2
          have h2 := hs.2
          have hn' : Near N s'' := ⟨hs''.1, by rw [hf]; omega⟩
          have fr' := near_frame (rt := ⟨id, fun _ => true, id⟩) (G := []) (l := l) (N := N) (D := D)
          exact ok_mono (fr'.skipSeqLoop hS' rs fun r h => hA r (List.mem_cons_of_mem _ h)) hD (Nat.le_refl _) s'' hn'

/-- With at most `N` bytes ahead, a read that starts with rules of a rank below `k` digs no deeper than `K * N + k`. -/
theorem near_read (rt : Rt) (l : Nat) : ∀ (N k n : Nat) (r : Reader), r.Every (fun r => r.spine = true) → (∀ j ∈ r.left nul, ρ j < k) →
    Frame.Ok (Near (N + 1)) (Digging l (K * N + k)) (read rt (G.monitorAll l) n r) := by
  intro N
  induction N using Nat.strong_induction_on with
  | _ N ihN =>
  -- with fewer bytes ahead
  have A : ∀ n r, r.Every (fun r => r.spine = true) → Frame.Ok (Near N) (Digging l (K * N)) (read rt (G.monitorAll l) n r) := by
    intro n r hr
    match N with
    | 0 => 
      intro s hs
      have := hs.2
      have := hs.1.2
      omega
    | N + 1 =>
      refine near_frame.read_rules n (fun m _ i _ => ?_) r hr
      refine ok_mono (ihN N (by omega) (ρ i + 1) m (.rule i) (.mk rfl fun c hc => by cases hc) fun j hj => ?_) ?_ (Nat.le_refl _)
      · rw [List.mem_singleton.mp hj]
        exact Nat.lt_succ_self _
      · have := hG.bound i
        rw [Nat.mul_succ]
        omega
  intro k
  induction k using Nat.strong_induction_on with
  | _ k ihk =>
  intro n
  induction n with
  | zero => exact fun _ _ _ _ _ => .timeout
  | succ n ih =>
    intro r hr hl
    have C : ∀ r, r.Every (fun r => r.spine = true) → r.null nul = false → ∀ s s', Inside s → read rt (G.monitorAll l) n r s = .ret (none, s') → s.pos < s'.pos :=
      fun r hr hn s s' hs he => consumes hG hr hn hs he
    have fr := near_frame (rt := rt) (G := G.monitorAll l) (l := l) (N := N + 1) (D := K * N + k)
    have hD : K * N ≤ K * N + k := Nat.le_add_right _ _
    by_cases hq : ∃ rs, r = .seq rs
    · obtain ⟨rs, rfl⟩ := hq
      intro s hs
      refine (near_seq (k := k) hD rs (fun r h => A n r (hr.sub h)) (fun r h hl => ih r (hr.sub h) hl) (fun r h => C r (hr.sub h)) hl s hs).bind fun a _ ha => ?_
      obtain ⟨e, s'⟩ := a
      cases e with
      | none => exact .ret ha
      | some e => exact .ret (fr.toMarker hs ha)
    by_cases hk : ∃ sk rs, r = .skipSeq sk rs
    · obtain ⟨sk, rs, rfl⟩ := hk
      intro s hs
      have esk : sk.Every (fun r => r.spine = true) := hr.sub (c := sk) (by simp [Reader.subs])
      have ers : ∀ r ∈ rs, r.Every (fun r => r.spine = true) := fun r h => hr.sub (c := r) (by simp [Reader.subs, h])
      have hS := ih sk esk (fun j hj => hl j (List.mem_append_left _ hj))
      refine (hS s hs).bind fun a he ha => ?_
      obtain ⟨e, s'⟩ := a
      cases e with
      | some e => exact .ret (fr.toMarker hs ha)
      | none =>
        have hs' := fr.inv hs ha
        refine RetE.bind (P := fun x => Digging l (K * N + k) s' x.2) ?_ fun a _ hb => ?_
        · cases hn : sk.null nul with
          | true =>
            exact near_skipSeq (k := k) hD hS (A n sk esk) rs (fun r h => A n r (ers r h)) (fun r h hl => ih r (ers r h) hl) (fun r h => C r (ers r h))
              (fun j hj => hl j (List.mem_append_right _ (by rw [hn]; exact hj))) s' hs'
          | false =>
            have := C sk esk hn s s' hs.1 he
            have hf : s'.full = s.full := ha.1.2.1
            have h2 := hs.2
            have hn' : Near N s' := ⟨hs'.1, by rw [hf]; omega⟩
            have fr' := near_frame (rt := rt) (G := G.monitorAll l) (l := l) (N := N) (D := K * N)
            exact ok_mono (fr'.skipSeqLoop (A n sk esk) rs fun r h => A n r (ers r h)) hD (Nat.le_refl _) s' hn'
        · have hb' := fr.trans hs ha hb
          obtain ⟨e, s''⟩ := a
          cases e with
          | none => exact .ret hb'
          | some e => exact .ret (fr.toMarker hs hb')
    refine fr.node hr.here (fun c hc => ih c (hr.sub hc) fun j hj => hl j (left_sub hr.here (fun rs h => hq ⟨rs, h⟩) (fun sk rs h => hk ⟨sk, rs, h⟩) hc j hj)) ?_
    rintro i rfl s hs ⟨e, s'⟩ he
    have hi : ρ i < k := hl i List.mem_cons_self
    rcases hg : G[i]? with _ | ⟨nm, _ | c⟩
    · simp [read, Env.monitorAll, hg] at he
    · have : (G.monitorAll l)[i]? = some ⟨nm, none⟩ := by
        unfold Env.monitorAll
        rw [List.getElem?_map, hg]
        rfl
      simp [read, this] at he
    · match n, he with
      | 0, he => simp [read, monitorAll_get hg] at he
      | n + 1, he =>
        simp only [read, monitorAll_get hg] at he
        obtain ⟨⟨e1, s1⟩, h1, h2⟩ := Exec.bind_eq_ret.mp he
        cases h2
        obtain ⟨h3, h4⟩ := ihk (ρ i) hi n c (hG.spine _ (List.mem_of_getElem? hg) c rfl) (hG.ranks i nm c hg) (s.enterLog rt nm l) hs _ h1
        refine ⟨h3, ?_⟩
        rw [show (s.enterLog rt nm l).heap.logs l = ((s.heap.logs l).enter rt nm s.pos).2 from if_pos rfl] at h4
        have : (s1.exitLog l ((s.heap.logs l).enter rt nm s.pos).1 e1).heap.logs l = (s1.heap.logs l).exit ((s.heap.logs l).enter rt nm s.pos).1 s1.pos e1 := if_pos rfl
        show Dug _ _ ((s1.exitLog l ((s.heap.logs l).enter rt nm s.pos).1 e1).heap.logs l)
        rw [this]
        exact h4.call.mono (by omega)

end
end Tok
