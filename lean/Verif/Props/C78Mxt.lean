/-
C78, the MXT grammar: the number of rules read grows with the square of the length of the text.
-/
import Verif.Proofs.Pays
import Verif.Props.C36
import Verif.Props.C54

namespace Tok
open Spec

section
variable {rt : Rt} {G : Env} {l k k' : Nat} {r : Reader} {t u : Bytes}

/-! ### loops -/

def CountsZom (rt : Rt) (G : Env) (l : Nat) (r : Reader) (t : Bytes) (k : Nat) : Prop :=
  ∀ s h, Between s h t → ∀ n m s', zomLoop (read rt (G.monitorAll l) n r) m s = .ret s' → s.logged l + k ≤ s'.logged l

theorem CountsZom.stop (hB : Unwatched G r) (hg : Gets rt G r t none) (h : Counts rt G l r t k) : CountsZom rt G l r t k := fun s hd hb n m s' he => by
  match m, he with
  | m + 1, he =>
    rw [zomLoop] at he
    obtain ⟨⟨e1, s1⟩, h1, h2⟩ := Exec.bind_eq_ret.mp he
    obtain ⟨e', rfl, h4⟩ := hg.ends_no hB hb h1
    cases h2
    exact h s hd hb n _ _ h1

theorem CountsZom.more (hB : Unwatched G r) (hg : Gets rt G r t (some u)) (h : Counts rt G l r t k) (h' : CountsZom rt G l r u k') : CountsZom rt G l r t (k + k') :=
    fun s hd hb n m s' he => by
  match m, he with
  | m + 1, he =>
    rw [zomLoop] at he
    obtain ⟨⟨e1, s1⟩, h1, h2⟩ := Exec.bind_eq_ret.mp he
    obtain ⟨rfl, x, h3, h4⟩ := hg.ends_yes hB hb h1
    have h5 := h s hd hb n _ s1 h1
    have h6 := h' s1 _ h4 n m s' h2
    omega

theorem CountsZom.zom (h : CountsZom rt G l r t k) : Counts rt G l (.zom r) t k := fun s hd hb n e s' he => by
  match n, he with
  | n + 1, he =>
    simp only [read] at he
    obtain ⟨s1, h1, h2⟩ := Exec.bind_eq_ret.mp he
    cases h2
    exact h s hd hb n n _ h1

/-- A step over an ASCII byte. -/
theorem step_over {s s' : Scanner} {h : Bytes} {b : UInt8} (hl : b.toNat < 128) (hb : Between s h (b :: t)) {ok : Bool} (he : s.moveRunes 1 = .ret (ok, s')) :
    ok = true ∧ Between s' (h ++ [b]) t ∧ s'.logged l = s.logged l := by
  have h1 := ((unheard_frame ⟨id, fun _ => true, id⟩ []).moveRunes hb.inside) _ he
  obtain ⟨⟨ok', st⟩, h2, h3, h4⟩ := (moveRunes_sim (sees_between hb)).left he
  have h5 : decodeRune (b :: t) = ((b.toNat : Int), 1) := decodeRune_one (by omega) t
  unfold lift eatStep at h2
  rw [h5] at h2
  have h6 : runeLen (b.toNat : Int) = 1 := by
    unfold runeLen
    simp
    omega
  simp only [h6] at h2
  rw [if_pos ⟨by simp, by simp only [List.length_cons]; omega⟩] at h2
  cases h2
  refine ⟨h3, ?_, by unfold Scanner.logged; rw [h1.2]⟩
  obtain ⟨x, h7, h8⟩ := between_sees hb h4 ⟨[b], rfl⟩
  have : x = [b] := List.append_cancel_right (h7.symm.trans rfl : x ++ t = [b] ++ t)
  rwa [this] at h8

theorem between_more {s : Scanner} {h : Bytes} (hb : Between s h t) (ht : t ≠ []) : s.atEnd = false := by
  have := List.length_pos_iff.mpr ht
  unfold Scanner.atEnd
  rw [hb.1, hb.2, List.length_append]
  simp
  omega

/-- Logs only grow. -/
theorem grow_frame (rt : Rt) (G : Env) (l : Nat) :
    Frame rt G (fun r => r.noWrap = true) Inside (fun s s' => Forward s s' ∧ s.logged l ≤ s'.logged l) where
  inside h := h
  fwd _ h := h.1
  inv _ h := h.1.1
  refl h := ⟨Forward.refl h, Nat.le_refl _⟩
  trans _ h h' := ⟨h.1.trans h'.1, Nat.le_trans h.2 h'.2⟩
  go {s m} h h1 h2 := ⟨((log_frame rt G 0 (fun _ _ => True) s.full).go ⟨h, List.infix_rfl⟩ h1 h2).1, by unfold Scanner.logged; rw [at_logs]⟩
  back {s s'} h h' := by
    refine ⟨?_, ?_⟩
    · have := Forward.back h h'.1
      rwa [toMarker_at h.1] at this
    · unfold Scanner.logged; rw [at_logs]; exact h'.2
  cells _ _ _ _ h := h
  janus _ _ _ _ h := h
  pick _ _ _ h := h
  map _ _ h := h
  enter _ h := h
  leave {s s' info k c n e} _ hs _ h := by
    refine ⟨h.1, ?_⟩
    by_cases hk : l = k
    · subst hk
      rw [logged_exit]
      have := h.2
      rw [logged_enter] at this
      omega
    · have h1 : (s.enterLog rt info k).heap.logs l = s.heap.logs l := if_neg hk
      have h2 : (s'.exitLog k ((s.heap.logs k).enter rt info s.pos).1 e).heap.logs l = s'.heap.logs l := if_neg hk
      have := h.2
      unfold Scanner.logged at this ⊢
      rw [h2]
      rwa [h1] at this
  wrap h _ := by cases h
  body {s s' b t n str e sub} _ hs h hstr _ h3 := by
    have hsub := h3 ⟨by simp [Scanner.new], by simp [Scanner.new]⟩
    have h4 : s'.logged l ≤ sub.logged l := hsub.2
    exact ⟨⟨h.1, Nat.le_trans h.2 h4⟩, fun _ => ⟨h.1, by
      show _ ≤ ((sub.at 0).heap.logs l).entries.length
      rw [at_logs]
      exact Nat.le_trans h.2 h4⟩⟩

theorem grow_read (hG : G.Every (fun r => r.noWrap = true)) (hr : r.Every (fun r => r.noWrap = true)) (n : Nat) :
    Frame.Ok Inside (fun s s' => Forward s s' ∧ s.logged l ≤ s'.logged l) (read rt G n r) :=
  (grow_frame rt G l).read (fun _ _ _ _ hi => hG.get hi) n r hr

theorem monitorAll_noWrap (hG : G.Every (fun r => r.bare = true)) : (G.monitorAll l).Every (fun r => r.noWrap = true) := by
  intro rl hrl c hc
  obtain ⟨⟨nm, _ | c'⟩, hr', rfl⟩ := List.mem_map.mp hrl
  · cases hc
  · cases hc
    exact .mk (r := .monitor _ _ _) rfl fun x hx => by
      rw [List.mem_singleton.mp hx]
      exact (hG _ hr' c' rfl).imp fun _ => bare_noWrap

/-- The first of some readers. -/
theorem CountsSeq.head {rs : List Reader} (hB : Unwatched G r) (hs : ∀ c ∈ rs, Unwatched G c) (h : Counts rt G l r t k) : CountsSeq rt G l (r :: rs) t k := fun s hd hb n e s' he => by
  rw [seqLoop] at he
  obtain ⟨⟨e1, s1⟩, h1, h2⟩ := Exec.bind_eq_ret.mp he
  have h3 := h s hd hb n e1 s1 h1
  have hG := monitorAll_noWrap (l := l) hB.1
  have h4 := grow_read (l := l) hG (hB.2.imp fun _ => bare_noWrap) n s hb.inside _ h1
  cases e1 with
  | some e1 => cases h2; exact h3
  | none =>
    have := (grow_frame rt (G.monitorAll l) l).seqLoop (rs := rs) (fun c hc => grow_read hG ((hs c hc).2.imp fun _ => bare_noWrap) n) s1 h4.1.1 _ h2
    exact Nat.le_trans h3 this.2

/-- The search for a tail, if no part of the text before it can be its beginning: the body is read once, from the start. -/
theorem bodyLoop_counts {b : Reader} {c : UInt8} {cs q : Bytes} (hB : Unwatched G b) (hbody : Counts rt G l b t k) (hg : Gets rt G b t (some u)) (hu : u ≠ []) {s0 : Scanner} {h : Bytes}
    (h0 : Between s0 h (t ++ (c :: cs ++ q))) (n : Nat) : ∀ (y x : Bytes), t = x ++ y → (∀ d ∈ y, d.toNat < 128 ∧ d ≠ c) →
    ∀ m s, Between s (h ++ x) (y ++ (c :: cs ++ q)) → ∀ res s',
    bodyLoop (read rt (G.monitorAll l) n b) (read rt (G.monitorAll l) n (.lit (c :: cs))) s0.pos m s = .ret (res, s') →
    res = none ∧ s'.full = s0.full ∧ s.logged l + k ≤ s'.logged l
  | [], x, ht, hy, m, s, hb, res, s', he => by
    match m, n, he with
    | m + 1, n + 1, he =>
      rw [bodyLoop, if_neg (by simp [between_more hb (by simp)])] at he
      simp only [List.append_nil] at ht
      subst ht
      obtain ⟨⟨e1, s1⟩, h1, h2⟩ := Exec.bind_eq_ret.mp he
      have hq : (Reader.lit (c :: cs)).Every (fun r => r.quiet = true) := Reader.everyB_sound _ _ rfl
      have hk := (quiet_logged (l := l) hq hb.inside h1).2
      simp only [read, ifFalse] at h1
      obtain ⟨s2, h3, h4⟩ := ifStr_yes (sees_between hb) (x := c :: cs) (by simp [hasPrefix])
      rw [h3] at h1
      cases h1
      have hk : s2.logged l = s.logged l := hk
      simp only [Scanner.errorIfFalse, if_true] at h2
      obtain ⟨str, h5, h6⟩ := Exec.bind_eq_ret.mp h2
      rw [show s.mark = s.pos from rfl, get_between (s2 := s) h0 (by simpa using hb) (h4.1.trans (hb.1.trans (by rw [h0.1]; simp)))] at h5
      cases h5
      obtain ⟨⟨e7, s7⟩, h7, h8⟩ := Exec.bind_eq_ret.mp h6
      unfold Scanner.use at h7
      obtain ⟨⟨e9, s9⟩, h9, h10⟩ := Exec.bind_eq_ret.mp h7
      have hn : Between (Scanner.new t s2.heap) [] t := ⟨rfl, rfl⟩
      have h11 := hbody _ _ hn _ _ _ h9
      obtain ⟨rfl, z, h12, h13⟩ := hg.ends_yes hB hn h9
      cases h10
      have h14 : s7.atEnd = false := by
        exact between_more h13 hu
      simp only [h14] at h8
      cases h8
      refine ⟨rfl, h4.1.trans (hb.1.trans (by rw [h0.1]; simp)), ?_⟩
      have h15 : s7.logged l = Scanner.logged { s2 with heap := s7.heap } l := rfl
      have h16 : (Scanner.new t s2.heap).logged l = s2.logged l := rfl
      omega
    | m + 1, 0, he =>
      rw [bodyLoop, if_neg (by simp [between_more hb (by simp)])] at he
      cases he
  | d :: y, x, ht, hy, m, s, hb, res, s', he => by
    match m, he with
    | m + 1, he =>
      rw [bodyLoop, if_neg (by simp [between_more hb (by simp)])] at he
      obtain ⟨⟨e1, s1⟩, h1, h2⟩ := Exec.bind_eq_ret.mp he
      have hd := hy d (by simp)
      match n, h1 with
      | n + 1, h1 =>
        simp only [read, ifFalse] at h1
        rw [ifStr_no (sees_between hb) (x := c :: cs) (by
          show (c == d && _) = false
          simp [Ne.symm hd.2])] at h1
        cases h1
        simp only [Scanner.errorIfFalse, Bool.false_eq_true, if_false] at h2
        obtain ⟨⟨ok, s3⟩, h3, h4⟩ := Exec.bind_eq_ret.mp h2
        obtain ⟨-, h5, h6⟩ := step_over (l := l) hd.1 hb h3
        have := bodyLoop_counts hB hbody hg hu h0 (n + 1) y (x ++ [d]) (by rw [ht]; simp) (fun d' hd' => hy d' (by simp [hd'])) m s3 (by simpa using h5) res s' h4
        rw [h6] at this
        exact this

end

namespace Mxt
variable {rt : Rt} {l : Nat}

theorem bare : env.Every (fun r => r.bare = true) := Env.everyB_sound (by decide)
theorem unwatched_of {r : Reader} (h : r.everyB Reader.bare = true) : Unwatched env r := ⟨bare, Reader.everyB_sound _ _ h⟩

/-- `aaa...a b-->` -/
def worm (n : Nat) : Bytes := List.replicate n 97 ++ b!" b"

theorem word_a (t : Bytes) : Gets rt env (.rule iWordChar) (97 :: t) (some t) :=
  Gets.sym_yes (p0 := [97]) (fin := false) (nots := []) (n := 9) (q := []) ⟨by simp, by simp⟩ (by decide +kernel)

theorem word_blank (t : Bytes) : Gets rt env (.rule iWordChar) (32 :: t) none :=
  Gets.sym_no (p0 := [32]) (fin := false) (nots := []) (n := 9) ⟨by simp, by simp⟩ (by decide +kernel)

theorem char_counts (t : Bytes) : Counts rt env l (.rule iWordChar) t 1 :=
  Counts.rule (unwatched_of rfl) rfl (.zero (unwatched_of rfl))

theorem worm_counts : ∀ n, CountsZom rt env l (.rule iWordChar) (worm n) (n + 1)
  | 0 => .stop (unwatched_of rfl) (word_blank _) (char_counts _)
  | n + 1 => (CountsZom.more (unwatched_of rfl) (word_a (worm n)) (char_counts _) (worm_counts n) : CountsZom _ _ _ _ (97 :: worm n) _)
      |> fun h => by rwa [show 1 + (n + 1) = n + 1 + 1 by omega] at h

theorem worm_gets : ∀ n, Gets rt env (.zom (.rule iWordChar)) (worm n) (some b!" b")
  | 0 => .zom_stop (word_blank _)
  | n + 1 => (Gets.zom_step (word_a (worm n)) (worm_gets n) : Gets rt env (.zom (.rule iWordChar)) (97 :: worm n) _)

/-- The arrow is not read before a comment: the words up to the next blank are read in vain. -/
theorem arrow_counts {t u q : Bytes} {k : Nat} (hu : u ≠ []) (hg : Gets rt env (.zom (.rule iWordChar)) t (some u)) (hc : Counts rt env l (.zom (.rule iWordChar)) t k)
    (ht : ∀ d ∈ t, d.toNat < 128 ∧ d ≠ 45) {s s' : Scanner} {h : Bytes} (hb : Between s h (t ++ (b!"-->" ++ q))) {n : Nat} {e : Option Err}
    (he : read rt (env.monitorAll l) n (.named b!"arrow" arrow) s = .ret (e, s')) :
    e.isSome = true ∧ Between s' h (t ++ (b!"-->" ++ q)) ∧ s.logged l + k ≤ s'.logged l := by
  match n, he with
  | 1, he => cases he
  | n + 2, he =>
    simp only [read, arrow] at he
    obtain ⟨⟨res, s3⟩, h3, h4⟩ := Exec.bind_eq_ret.mp he
    obtain ⟨rfl, h5, h6⟩ := bodyLoop_counts (unwatched_of rfl) hc hg hu (c := 45) (cs := b!"->") (q := q) hb n t [] rfl ht n s (by simpa using hb) res s3 h3
    cases h4
    refine ⟨rfl, hb.back h5, ?_⟩
    rw [show (Scanner.toMarker s3 s.mark).2.logged l = s3.logged l from logged_toMarker]
    exact h6

theorem worm_ascii (n : Nat) : ∀ d ∈ worm n, d.toNat < 128 ∧ d ≠ 45 := by
  intro d hd
  rcases List.mem_append.mp hd with hd | hd
  · rw [(List.mem_replicate.mp hd).2]; decide
  · simp only [List.mem_cons, List.not_mem_nil, or_false] at hd
    rcases hd with rfl | rfl <;> decide

/-- `k + (k - 1) + ... + 1`, twice. -/
theorem to_counts (q : Bytes) : ∀ i n m (s s' : Scanner) (h : Bytes), Between s h (worm i ++ (b!"-->" ++ q)) → ∀ ok,
    toLoop (read rt (env.monitorAll l) n (.named b!"arrow" arrow)) m s = .ret (ok, s') → 2 * s.logged l + i * (i + 1) ≤ 2 * s'.logged l
  | 0, n, m, s, s', h, hb, ok, he => by
    have := (grow_frame rt (env.monitorAll l) l).toLoop (grow_read (monitorAll_noWrap bare) (Reader.everyB_sound Reader.noWrap (.named b!"arrow" arrow) rfl) n) m s hb.inside _ he
    have := this.2
    simp only at this
    omega
  | i + 1, n, m, s, s', h, hb, ok, he => by
    match m, he with
    | m + 1, he =>
      rw [toLoop] at he
      obtain ⟨⟨e1, s1⟩, h1, h2⟩ := Exec.bind_eq_ret.mp he
      obtain ⟨h3, h4, h5⟩ := arrow_counts (by simp) (worm_gets (i + 1)) (worm_counts (i + 1)).zom (worm_ascii _) hb h1
      cases e1 with
      | none => cases h3
      | some e1 =>
        simp only at h2
        obtain ⟨⟨ok2, s2⟩, h6, h7⟩ := Exec.bind_eq_ret.mp h2
        obtain ⟨rfl, h8, h9⟩ := step_over (l := l) (b := 97) (t := worm i ++ (b!"-->" ++ q)) (by decide) h4 h6
        have := to_counts q i n m s2 s' _ h8 ok h7
        have h10 : (i + 1) * (i + 1 + 1) = i * (i + 1) + 2 * (i + 1) := by rw [Nat.mul_add (i + 1), Nat.add_mul i 1 (i + 1)]; omega
        omega

/-- The chunk `// n aaa...a b-->` without content. -/
def wormChunk (n : Nat) : MxtChunk := ⟨[], 0, ['n'], ' ' :: (List.replicate n 'a' ++ [' ', 'b']), 0, [], 0, none⟩

/-- Its text. -/
def wormText (n : Nat) : Bytes := b!"// n " ++ (worm n ++ b!"-->")

theorem wormText_eq (n : Nat) : encText (wormChunk n).text = wormText n := by
  have h : encText (List.replicate n 'a') = List.replicate n 97 := by
    induction n with
    | zero => rfl
    | succ n ih =>
      rw [List.replicate_succ, List.replicate_succ, ← ih]
      rfl
  simp only [MxtChunk.text, wormChunk, Spec.Mxt.slashes, Spec.Mxt.spaces, Spec.Mxt.arrowText, MxtChunk.saltText, MxtChunk.bodyText, encText_append, wormText, worm, ← h]
  simp [encText]
  rfl

theorem worm_ok (n : Nat) : (wormChunk n).Ok where
  mark := by simp [wormChunk, Spec.Mxt.Words]
  name := by simp [wormChunk, Spec.Mxt.Words]
  salt := by simp [wormChunk, Spec.Mxt.Words]
  name_ne := by simp [wormChunk]
  note_head := ⟨' ', _, rfl, by decide⟩
  first := by
    intro pre post h
    have h1 := congrArg (List.count '>') h
    simp [wormChunk, Spec.Mxt.arrowText, List.count_append, List.count_cons, List.count_replicate] at h1
    by_contra hp
    have h2 := congrArg List.getLast? h
    rw [List.getLast?_append_of_ne_nil _ hp] at h2
    have h3 : '>' ∈ post := List.mem_of_getLast? (h2.symm.trans (by simp [Spec.Mxt.arrowText]))
    have := List.count_pos_iff.mpr h3
    omega
  clean := by simp [wormChunk, MxtChunk.Clean]

theorem comment_counts (n : Nat) : Counts rt env l (.rule iComment) (32 :: (worm n ++ b!"-->")) (n * (n + 1) / 2) := by
  refine (Counts.rule (unwatched_of rfl) rfl (k := n * (n + 1) / 2) fun s h hb m e s' he => ?_).mono (Nat.le_succ _)
  match m, he with
  | m + 1, he =>
    simp only [mkTo, asReader, read] at he
    obtain ⟨⟨ok, s1⟩, h1, h2⟩ := Exec.bind_eq_ret.mp he
    have key : s.logged l + n * (n + 1) / 2 ≤ s1.logged l := by
      match m, h1 with
      | m + 1, h1 =>
        rw [toLoop] at h1
        obtain ⟨⟨e1, s2⟩, h3, h4⟩ := Exec.bind_eq_ret.mp h1
        obtain ⟨h5, h6, h7⟩ := arrow_counts (t := 32 :: worm n) (q := []) (k := 0) (by simp) (.zom_stop (word_blank _)) (.zero (unwatched_of rfl)) (fun d hd => by
          rcases List.mem_cons.mp hd with rfl | hd
          · decide
          · exact worm_ascii n d hd) (by simpa using hb) h3
        cases e1 with
        | none => cases h5
        | some e1 =>
          simp only at h4
          obtain ⟨⟨ok2, s3⟩, h8, h9⟩ := Exec.bind_eq_ret.mp h4
          obtain ⟨rfl, h10, h11⟩ := step_over (l := l) (b := 32) (t := worm n ++ (b!"-->" ++ [])) (by decide) h6 h8
          have := to_counts [] n _ m s3 s1 _ h10 ok h9
          omega
    simp only at h2
    split at h2
    · cases h2; exact key
    · cases h2
      rw [show (Scanner.toMarker s1 s.mark).2.logged l = s1.logged l from logged_toMarker]
      exact key

theorem header_counts (n : Nat) : Counts rt env l (.rule iHeader) (wormText n) (n * (n + 1) / 2) := by
  refine (Counts.rule (unwatched_of rfl) rfl (k := n * (n + 1) / 2) (.seq ?_)).mono (Nat.le_succ _)
  have yes : ∀ {r : Reader} (p q u : Bytes), sym env false [] p.length 20 r p = some (some q) → Gets rt env r (p ++ u) (some (q ++ u)) := fun p q u h =>
    Gets.sym_yes (fin := false) (nots := []) ⟨by simp, by simp⟩ h
  have h1 := yes (r := .rule iMarker) b!"// " b!" " (b!"n " ++ (worm n ++ b!"-->")) (by decide +kernel)
  have h2 := yes (r := .many (.rune 32)) b!" n" b!"n" (b!" " ++ (worm n ++ b!"-->")) (by decide +kernel)
  have h3 := yes (r := .rule iName) b!"n " b!" " (worm n ++ b!"-->") (by decide +kernel)
  have := CountsSeq.cons (k := 0) (unwatched_of rfl) h1 (.zero (unwatched_of rfl)) (CountsSeq.cons (k := 0) (unwatched_of rfl) h2 (.zero (unwatched_of rfl))
    (CountsSeq.cons (k := 0) (unwatched_of rfl) h3 (.zero (unwatched_of rfl)) (CountsSeq.head (l := l) (rs := [.rule iArrow, .opt (.rule iSalt)]) (unwatched_of rfl) (by
      intro c hc
      simp only [List.mem_cons, List.not_mem_nil, or_false] at hc
      rcases hc with rfl | rfl <;> exact unwatched_of rfl) (comment_counts n))))
  simp only [Nat.zero_add] at this
  exact this

theorem reader_counts (n : Nat) : Counts rt env l reader (wormText n) (n * (n + 1) / 2) := by
  refine .grammar ((Counts.rule (unwatched_of rfl) rfl (.seq (.head (unwatched_of rfl) ?_ ((Counts.rule (unwatched_of rfl) rfl (.seq
    (.head (unwatched_of rfl) ?_ (header_counts n)))).mono (Nat.le_succ _))))).mono (Nat.le_succ _))
  · intro c hc
    rw [List.mem_singleton.mp hc]
    exact unwatched_of rfl
  · intro c hc
    rw [List.mem_singleton.mp hc]
    exact unwatched_of rfl

end Mxt

/-- C78, the MXT grammar, for every `n`: the document `// n aaa...a b-->` with `n` times `a` is well-formed and its read comes to an end, and the log then has at
least `n * (n + 1) / 2` entries, though the text has only `n + 10` characters: the words of a comment are read again from each of their characters. -/
theorem C78_mxt_violated (rt : Rt) (l n : Nat) :
    (Mxt.wormChunk n).Ok ∧ encText (Mxt.wormChunk n).text = Mxt.wormText n ∧ (Mxt.wormText n).length = n + 10 ∧
    (∃ k e s', read rt (Mxt.env.monitorAll l) k Mxt.reader (Scanner.new (Mxt.wormText n) Heap.empty) = .ret (e, s')) ∧
    ∀ k e s', read rt (Mxt.env.monitorAll l) k Mxt.reader (Scanner.new (Mxt.wormText n) Heap.empty) = .ret (e, s') →
      n * (n + 1) / 2 ≤ (s'.heap.logs l).entries.length := by
  have hb : Between (Scanner.new (Mxt.wormText n) Heap.empty) [] (Mxt.wormText n) := ⟨rfl, rfl⟩
  refine ⟨Mxt.worm_ok n, Mxt.wormText_eq n, by simp [Mxt.wormText, Mxt.worm], ?_, fun k e s' he => ?_⟩
  · obtain ⟨m, h1, -⟩ := C36_mxt rt (Mxt.wormChunk n).text
    rw [Mxt.wormText_eq] at h1
    match m, h1 with
    | 0, h1 => exact absurd rfl h1
    | m + 1, h1 =>
      have h2 := (C32_shipped rt Mxt.env (.inr (.inl rfl)) Mxt.iChunks (by decide) m _ hb.inside).1
      cases h3 : read rt Mxt.env m (.rule Mxt.iChunks) (Scanner.new (Mxt.wormText n) Heap.empty) with
      | timeout =>
        refine absurd ?_ h1
        show (read rt Mxt.env m (.rule Mxt.iChunks) _ >>= _) = _
        rw [h3]
        rfl
      | panic => exact absurd h3 h2
      | ret a =>
        obtain ⟨k, s', h4, -⟩ := (C43_shipped rt Mxt.env (.inr (.inl rfl)) l Mxt.iChunks _ hb.inside a.1 a.2.pos).mp ⟨m, a.2, h3, rfl⟩
        refine ⟨k + 1, ?_⟩
        show ∃ e s', (read rt (Mxt.env.monitorAll l) k (.rule Mxt.iChunks) _ >>= _) = _
        rw [h4]
        cases a.1 with
        | none => exact ⟨_, _, rfl⟩
        | some e => exact ⟨_, _, rfl⟩
  · have := Mxt.reader_counts n _ _ hb k e s' he
    unfold Scanner.logged at this
    omega

/-- C78 for the MXT grammar: no factor `c` suffices. -/
theorem C78_mxt_no_factor (rt : Rt) (l c : Nat) :
    ∃ cs : List Char, (∃ ch : MxtChunk, ch.Ok ∧ ch.text = cs) ∧
      (∃ k e s', read rt (Mxt.env.monitorAll l) k Mxt.reader (Scanner.new (encText cs) Heap.empty) = .ret (e, s')) ∧
      ∀ k e s', read rt (Mxt.env.monitorAll l) k Mxt.reader (Scanner.new (encText cs) Heap.empty) = .ret (e, s') →
        c * ((encText cs).length + 1) < (s'.heap.logs l).entries.length := by
  obtain ⟨h1, h2, h3, h4, h5⟩ := C78_mxt_violated rt l (2 * c + 24)
  refine ⟨(Mxt.wormChunk (2 * c + 24)).text, ⟨_, h1, rfl⟩, by rw [h2]; exact h4, ?_⟩
  rw [h2]
  intro k e s' he
  have h6 := h5 k e s' he
  rw [h3]
  have h7 : c * (2 * c + 24 + 10 + 1) < (2 * c + 24) * (2 * c + 24 + 1) / 2 := by
    have : (2 * c + 24) * (2 * c + 24 + 1) / 2 = (c + 12) * (2 * c + 24 + 1) := by
      rw [show 2 * c + 24 = 2 * (c + 12) by omega, Nat.mul_assoc, Nat.mul_div_cancel_left _ (by omega)]
    rw [this]
    have e1 : (c + 12) * (2 * c + 24 + 1) = c * (2 * c) + c * 25 + (24 * c + 300) := by
      rw [Nat.add_mul, Nat.mul_add, Nat.mul_add]; omega
    have e2 : c * (2 * c + 24 + 10 + 1) = c * (2 * c) + c * 35 := by
      rw [show 2 * c + 24 + 10 + 1 = 2 * c + 35 by omega, Nat.mul_add]
    omega
  omega

end Tok
