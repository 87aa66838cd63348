/-
C78, the MXT grammar: the number of rules read grows at most with the square of the length of the text.
-/
import Verif.Proofs.PaysMore
import Verif.Props.C78Mxt

namespace Tok
open Spec

namespace Mxt
variable {rt : Rt} {l n : Nat}

theorem watched_noWrap : (env.monitorAll l).Every (fun r => r.noWrap = true) := monitorAll_noWrap bare

/-- Any budget of steps. -/
theorem anyFuel {G : Env} {r : Reader} {Q : Bill} (h : ∀ m, Pays l (read rt G (m + 1) r) Q) : ∀ m, Pays l (read rt G m r) Q
  | 0 => .zero
  | m + 1 => h m

theorem ruleCost {i a b : Nat} {nm : Bytes} {r : Reader} (hi : env[i]? = some ⟨nm, some r⟩) (h : ∀ m, Pays l (read rt (env.monitorAll l) m r) (costQ a b)) (m : Nat) :
    Pays l (read rt (env.monitorAll l) m (.rule i)) (costQ a (b + 1)) :=
  (Pays.rule hi fun m _ => h m).mono fun ok t t' k _ ⟨k', h1, h2⟩ => h1 ▸ h2.more

theorem ruleUp {i K : Nat} {nm : Bytes} {r : Reader} (hi : env[i]? = some ⟨nm, some r⟩) (h : ∀ m, Pays l (read rt (env.monitorAll l) m r) (upTo K)) (m : Nat) :
    Pays l (read rt (env.monitorAll l) m (.rule i)) (upTo (K + 1)) :=
  (Pays.rule hi fun m _ => h m).mono fun ok t t' k _ ⟨k', h1, h2⟩ => by
    have : k' ≤ K := h2
    show k ≤ K + 1
    omega

theorem ruleMost {i K : Nat} {nm : Bytes} {r : Reader} (hi : env[i]? = some ⟨nm, some r⟩) (h : ∀ m, Pays l (read rt (env.monitorAll l) m r) (atMost K)) (m : Nat) :
    Pays l (read rt (env.monitorAll l) m (.rule i)) (atMost (K + 1)) :=
  (Pays.rule hi fun m _ => h m).mono fun ok t t' k _ ⟨k', h1, h2, h3⟩ => ⟨by omega, h3⟩

theorem hush {r : Reader} (h : r.everyB Reader.quiet = true) (m : Nat) : Pays l (read rt (env.monitorAll l) m r) (upTo 0) := .quiet (Reader.everyB_sound _ _ h)

/-- A character of a word. -/
def charQ : Bill := fun ok t t' k => k = 1 ∧ (ok = true → t'.length < t.length) ∧ t'.length ≤ t.length

theorem char_pays (m : Nat) : Pays l (read rt (env.monitorAll l) m (.rule iWordChar)) charQ :=
  (Pays.rule rfl fun m _ => Pays.lift watched_noWrap (Reader.everyB_sound _ _ rfl) (fun _ => rfl)).mono fun ok t t' k hs ⟨k', h1, h2, h3⟩ => by
    subst h2
    refine ⟨h1, fun h => ?_, hs.length_le⟩
    subst h
    have := eatsT_between 0x21 maxRune t (by rw [h3])
    rwa [h3] at this

theorem often_chars {t t' : Bytes} {k : Nat} (h : Often charQ t t' k) : k + t'.length ≤ t.length + 1 ∧ t'.length ≤ t.length := by
  induction h with
  | stop h => exact ⟨by have := h.1; have := h.2.2; omega, h.2.2⟩
  | more h _ ih =>
    have := h.1
    have := h.2.1 rfl
    omega

theorem chars_cost {ok : Bool} {t t' : Bytes} {k : Nat} (h : Often charQ t t' k) : costQ 1 1 ok t t' k := fun N hN => by
  obtain ⟨h1, h2⟩ := often_chars h
  rw [Nat.one_mul]
  obtain ⟨d, hd⟩ := Nat.exists_eq_add_of_le h2
  have h3 : d ≤ (N + 1) * d := Nat.le_mul_of_pos_left d (by omega)
  rw [hd, Nat.mul_add]
  split <;> omega

theorem chars_pays (m : Nat) : Pays l (read rt (env.monitorAll l) m (.zom (.rule iWordChar))) (costQ 1 1) :=
  anyFuel (fun m => (char_pays m).zom.mono fun _ _ _ _ _ h => chars_cost h.2) m

theorem word_pays (m : Nat) : Pays l (read rt (env.monitorAll l) m (.rule iWord)) (costQ 1 2) :=
  ruleCost rfl (anyFuel fun m => (char_pays m).many.mono fun _ _ _ _ _ h => chars_cost h) m

theorem name_pays (m : Nat) : Pays l (read rt (env.monitorAll l) m (.rule iName)) (costQ 1 3) := ruleCost rfl word_pays m

theorem marker_pays (m : Nat) : Pays l (read rt (env.monitorAll l) m (.rule iMarker)) (costQ 1 2) :=
  ruleCost (b := 1) rfl (anyFuel fun m => Pays.seqCost (bs := [0, 1]) (.cons (Pays.const (hush rfl m)) (.cons (chars_pays m) .nil))) m

/-- The words before an arrow. -/
theorem arrow_pays (m : Nat) : Pays l (read rt (env.monitorAll l) m arrow) (fun ok t t' k => k ≤ t.length + 1 ∧ (ok = false → t' = t)) :=
  anyFuel (fun m => (Pays.bodyTail (Reader.everyB_sound _ _ rfl) (anyFuel (fun m => (char_pays m).zom) m)).mono fun ok t t' k _ ⟨h1, h2⟩ => by
    refine ⟨?_, h2⟩
    rcases h1 with rfl | ⟨z, u, _, hz, -, h3⟩
    · omega
    · have := (often_chars h3).1
      omega) m

theorem comment_pays (m : Nat) : Pays l (read rt (env.monitorAll l) m (.rule iComment)) (costQ 1 2) :=
  ruleCost rfl (anyFuel fun m => Pays.toCost (c := 1) (fun ok t t' k (h : k ≤ t.length + 1) N hN => by omega)
    (anyFuel (fun m => ((arrow_pays m).named (nm := b!"arrow")).mono fun _ _ _ _ _ h => h.1) m)) m

theorem arrowRule_pays (m : Nat) : Pays l (read rt (env.monitorAll l) m (.rule iArrow)) (costQ 1 2) :=
  ruleCost rfl (fun m => (arrow_pays m).mono fun _ _ _ _ hs h => costQ.of_le (fun N hN => by have := h.1; omega) hs.length_le) m

/-- No more than so many entries and one for every byte ahead. -/
def lenQ (b : Nat) : Bill := fun _ t _ k => k ≤ t.length + b

theorem salt_pays (m : Nat) : Pays l (read rt (env.monitorAll l) m (.opt (.rule iSalt))) (costQ 1 3) := by
  have h0 : ∀ m, Pays l (read rt (env.monitorAll l) m (.rule iWord)) (lenQ 2) := fun m =>
    (Pays.rule rfl fun m _ => anyFuel (fun m => (char_pays m).many) m).mono fun ok t t' k _ ⟨k', h1, h2⟩ => by
      have := (often_chars h2).1
      show k ≤ t.length + 2
      omega
  have h1 : ∀ m, Pays l (read rt (env.monitorAll l) m salt.1) (lenQ 2) :=
    anyFuel fun m => (Pays.janusBegin (anyFuel (fun m => (h0 m).opt) m)).mono fun ok t t' k _ ⟨u, ⟨_, b, h3⟩, _⟩ => h3
  have h2 : ∀ m, Pays l (read rt (env.monitorAll l) m (.rule iSalt)) (lenQ 3) := fun m =>
    (Pays.rule rfl fun m _ => anyFuel (fun m => Pays.seq (.cons (hush (r := .many (.rune 32)) rfl m).short (.cons (h1 m) (.cons (hush (r := .zom (.rune 32)) rfl m) .nil)))) m).mono
      fun ok t t' k _ ⟨k', h3, u, h4, _⟩ => by
      show k ≤ t.length + 3
      rcases h4 with ⟨_, h4, _⟩ | ⟨v, k1, k2, ⟨h4, h5⟩, h6, rfl⟩
      · have : k' ≤ 0 := h4
        omega
      · have a1 : k1 ≤ 0 := h4
        rcases h6 with ⟨_, h6⟩ | ⟨w, k3, k4, h6, h7, rfl⟩
        · have a2 : k2 ≤ v.length + 2 := h6
          omega
        · have a2 : k3 ≤ v.length + 2 := h6
          rcases h7 with ⟨_, h7⟩ | ⟨z, k5, k6, h7, ⟨-, -, h8⟩, rfl⟩
          · have : k4 ≤ 0 := h7
            omega
          · have : k5 ≤ 0 := h7
            omega
  exact anyFuel (fun m => (h2 m).opt.mono fun _ t _ k hs ⟨_, _, h3⟩ => costQ.of_le (fun N hN => by
    have : k ≤ t.length + 3 := h3
    omega) hs.length_le) m

theorem nl_pays (m : Nat) : Pays l (read rt (env.monitorAll l) m (.rule iNL)) (atMost 1) :=
  ruleMost (K := 0) rfl (anyFuel fun m => Pays.anyUp (Ks := [0, 0]) (.cons (hush (r := .lit b!"\n") rfl m) (.cons (hush (r := .lit b!"\r\n") rfl m) .nil))) m

theorem nextMarker_pays (m : Nat) : Pays l (read rt (env.monitorAll l) m (.rule iNextMarker)) (atMost 2) :=
  ruleMost (K := 1) rfl (anyFuel fun m => Pays.seqUp (Ks := [1, 0, 0]) (.cons (nl_pays m).loose (.cons (hush (r := .lit b!"//") rfl m) (.cons (hush (r := salt.2) rfl m) .nil)))) m

theorem emptyContent_pays (m : Nat) : Pays l (read rt (env.monitorAll l) m (.rule iEmptyContent)) (atMost 3) :=
  ruleMost (K := 2) rfl (anyFuel fun m => Pays.anyUp (Ks := [0, 2]) (.cons (hush (r := .atEnd) rfl m)
    (.cons (anyFuel (fun m => (nextMarker_pays m).at.mono fun _ _ _ _ _ ⟨_, _, h⟩ => h.1) m) .nil))) m

theorem content_pays (m : Nat) : Pays l (read rt (env.monitorAll l) m (.rule iContent)) (costQ 2 3) :=
  ruleCost (b := 2) rfl (anyFuel fun m => Pays.toCost (c := 2) (fun ok t t' k (h : atMost 2 ok t t' k) N hN => by have := h.1; omega)
    (anyFuel (fun m => Pays.anyUp (Ks := [2, 0]) (.cons (nextMarker_pays m).loose (.cons (hush (r := .atEnd) rfl m) .nil))) m)) m

/-- A byte may cost more. -/
theorem costQ_up {a a' b : Nat} (h : a ≤ a') {ok : Bool} {t t' : Bytes} {k : Nat} (hl : t'.length ≤ t.length) (hq : costQ a b ok t t' k) : costQ a' b ok t t' k := fun N hN => by
  have h1 := hq N hN
  obtain ⟨d, rfl⟩ := Nat.exists_eq_add_of_le h
  rw [Nat.add_mul, Nat.add_mul, Nat.add_mul]
  have := Nat.mul_le_mul_left (d * (N + 1)) hl
  split at h1
  · rw [if_pos (by assumption)]; omega
  · rw [if_neg (by assumption)]; omega

theorem up {a a' b : Nat} {f : ReadFunc} (h : Pays l f (costQ a b)) (ha : a ≤ a' := by decide) : Pays l f (costQ a' b) := h.mono fun _ _ _ _ hs hq => costQ_up ha hs.length_le hq

theorem header_pays (m : Nat) : Pays l (read rt (env.monitorAll l) m (.rule iHeader)) (costQ 2 13) :=
  ruleCost (b := 12) rfl (anyFuel fun m => Pays.seqCost (bs := [2, 0, 3, 2, 2, 3]) (.cons (up (marker_pays m)) (.cons (Pays.const (hush (r := .many (.rune 32)) rfl m))
    (.cons (up (name_pays m)) (.cons (up (comment_pays m)) (.cons (up (arrowRule_pays m)) (.cons (up (salt_pays m)) .nil))))))) m

theorem chunk_pays (m : Nat) : Pays l (read rt (env.monitorAll l) m (.rule iChunk)) (costQ 2 21) :=
  ruleCost (b := 20) rfl (anyFuel fun m => Pays.seqCost (bs := [13, 7]) (.cons (header_pays m) (.cons (anyFuel (fun m => Pays.orCost (K := 3) (emptyContent_pays m)
    (anyFuel (fun m => Pays.seqCost (bs := [1, 3]) (.cons (Pays.const (nl_pays m).loose) (.cons (content_pays m) .nil))) m)) m) .nil))) m

/-- A line break is not empty. -/
theorem nl_eats (m : Nat) : Pays l (read rt (env.monitorAll l) m (.rule iNL)) (fun ok t t' _ => ok = true → t'.length < t.length) :=
  (Pays.rule (Q := fun ok t t' _ => ok = true → t'.length < t.length) rfl fun m _ => anyFuel (fun m => (Pays.any (Qs := [fun ok t t' k => k = 0 ∧ eatLit b!"\n" t = (ok, t'), fun ok t t' k => k = 0 ∧ eatLit b!"\r\n" t = (ok, t')])
    (.cons (Pays.lift watched_noWrap (Reader.everyB_sound _ _ rfl) (fun _ => rfl)) (.cons (Pays.lift watched_noWrap (Reader.everyB_sound _ _ rfl) (fun _ => rfl)) .nil))).mono
    fun ok t t' k _ ⟨u, h1, h2⟩ hok => by
    subst hok
    simp only [if_true] at h2
    subst h2
    have no : ∀ {x t u : Bytes}, eatLit x t = (false, u) → u = t := by
      intro x t u h
      unfold eatLit at h
      split at h
      · cases h
      · cases h; rfl
    rcases h1 with ⟨_, _, h3⟩ | ⟨v, k1, k2, ⟨_, h3⟩, h4, _⟩
    · have := eatsT_lit (x := b!"\n") (by simp) t (by rw [h3])
      rwa [h3] at this
    · have := no h3
      subst this
      rcases h4 with ⟨_, _, h5⟩ | ⟨w, k3, k4, _, ⟨h6, _⟩, _⟩
      · have := eatsT_lit (x := b!"\r\n") (by simp) v (by rw [h5])
        rwa [h5] at this
      · cases h6) m).mono fun _ _ _ _ _ ⟨_, _, h⟩ => h

theorem chunks_pays (m : Nat) : Pays l (read rt (env.monitorAll l) m (.rule iChunks)) (fun _ t _ k => ∀ N, t.length ≤ N → k ≤ 24 * (N + 1) * t.length + 44 * (N + 1)) := by
  have h1 : ∀ m, Pays l (read rt (env.monitorAll l) m (.seq [.rule iNL, .rule iChunk])) (fun ok t t' k => costQ 2 22 ok t t' k ∧ (ok = true → t'.length < t.length)) :=
    anyFuel fun m => (Pays.seqCost (bs := [1, 21]) (.cons (Pays.const (nl_pays m).loose) (.cons (chunk_pays m) .nil))).and
      ((Pays.seq (.cons (nl_eats m) (.cons (chunk_pays m).short .nil))).mono fun ok t t' k _ ⟨u, h2, h3⟩ hok => by
        subst hok
        simp only [if_true] at h3
        subst h3
        rcases h2 with ⟨h4, _⟩ | ⟨v, k1, k2, h4, h5, _⟩
        · cases h4
        · rcases h5 with ⟨h6, _⟩ | ⟨w, k3, k4, ⟨_, h6⟩, ⟨_, h7, _⟩, _⟩
          · cases h6
          · have := h4 rfl
            subst h7
            omega)
  refine (Pays.rule rfl fun m _ => anyFuel (fun m => Pays.seq (.cons (chunk_pays m).short (.cons (anyFuel (fun m => (h1 m).zom) m) .nil))) m).mono fun ok t t' k _ ⟨k', hk, u, h2, _⟩ N hN => ?_
  rw [show 24 = 2 + 22 from rfl, Nat.add_mul, Nat.add_mul]
  rcases h2 with ⟨_, h2, _⟩ | ⟨v, k1, k2, ⟨h2, h3⟩, h4, rfl⟩
  · have := h2 N hN
    simp only [Bool.false_eq_true, if_false] at this
    omega
  · have := h2 N hN
    simp only [if_true] at this
    have key : ∀ {k : Nat} {w : Bytes}, Often (fun ok t t' k => costQ 2 22 ok t t' k ∧ (ok = true → t'.length < t.length)) v w k → k ≤ 2 * (N + 1) * v.length + 22 * (N + 1) * v.length + 22 * (N + 1) := by
      intro k w h
      have := often_cost h N (by omega)
      rwa [Nat.add_mul, Nat.add_mul] at this
    have hl := Nat.mul_le_mul_left (22 * (N + 1)) h3
    rcases h4 with ⟨_, _, h4⟩ | ⟨w, k3, k4, ⟨_, h4⟩, ⟨_, _, h5⟩, rfl⟩
    · have := key h4
      omega
    · have := key h4
      omega

end Mxt

/-- C78, the MXT grammar, from above: with all rules monitored, every read of a text of any bytes that comes to an end adds no more than `44 * (n + 1) ^ 2` entries,
where `n` is the number of bytes ahead.  Together with `C78_mxt_violated` this says that the number grows with the square of the length of the text, and not faster. -/
theorem C78_mxt_square (rt : Rt) (l m : Nat) (s s' : Scanner) (h t : Bytes) (hb : Between s h t) (e : Option Err)
    (he : read rt (Mxt.env.monitorAll l) m Mxt.reader s = .ret (e, s')) :
    s.logged l ≤ s'.logged l ∧ s'.logged l ≤ s.logged l + 44 * (t.length + 1) ^ 2 := by
  obtain ⟨x, t', k, -, -, h1, h2⟩ := Mxt.anyFuel (fun m => Pays.grammar (w := b!"mxt") (Mxt.chunks_pays m)) m s h t hb e s' he
  have h3 := h2 t.length (Nat.le_refl _)
  have h4 : 24 * (t.length + 1) * t.length + 44 * (t.length + 1) ≤ 44 * (t.length + 1) ^ 2 := by
    rw [Nat.pow_two, ← Nat.mul_assoc, Nat.mul_add (44 * (t.length + 1)), Nat.mul_one]
    have : 24 * (t.length + 1) * t.length ≤ 44 * (t.length + 1) * t.length := Nat.mul_le_mul_right _ (by omega)
    omega
  omega

/-- Both bounds for one family of documents. -/
example (rt : Rt) (l n : Nat) : ∃ k e s', read rt (Mxt.env.monitorAll l) k Mxt.reader (Scanner.new (Mxt.wormText n) Heap.empty) = .ret (e, s') ∧
    n * (n + 1) / 2 ≤ s'.logged l ∧ s'.logged l ≤ 44 * (n + 11) ^ 2 := by
  obtain ⟨-, -, h3, ⟨k, e, s', h4⟩, h5⟩ := C78_mxt_violated rt l n
  refine ⟨k, e, s', h4, h5 k e s' h4, ?_⟩
  have := (C78_mxt_square rt l k _ s' [] (Mxt.wormText n) ⟨rfl, rfl⟩ e h4).2
  rw [h3, show n + 10 + 1 = n + 11 from rfl] at this
  have h0 : (Scanner.new (Mxt.wormText n) Heap.empty).logged l = 0 := rfl
  omega

end Tok
