/-
Lemmas about moving a scanner, and generic lemmas for the method families.
-/
import Verif.Model.Read
import Verif.Spec.Scan
import Verif.Proofs.Back

namespace Tok
open Spec

theorem notify_full (s : Scanner) : s.notify.full = s.full := by
  unfold Scanner.notify; split <;> rfl
theorem notify_pos (s : Scanner) : s.notify.pos = s.pos := by
  unfold Scanner.notify; split <;> rfl
theorem notify_tracker (s : Scanner) : s.notify.tracker = s.tracker := by
  unfold Scanner.notify; split <;> rfl
theorem notify_none {s : Scanner} (h : s.tracker = none) : s.notify = s := by
  unfold Scanner.notify; rw [h]

theorem tail_of {s : Scanner} {h t : Bytes} (hb : Between s h t) : s.tail = .ret t := by
  obtain ⟨h1, h2⟩ := hb
  unfold Scanner.tail
  rw [h2, h1, if_pos ⟨by omega, by rw [List.length_append]; omega⟩]
  simp

theorem head_of {s : Scanner} {h t : Bytes} (hb : Between s h t) : s.head = .ret h := by
  obtain ⟨h1, h2⟩ := hb
  unfold Scanner.head
  rw [h2, h1, if_pos ⟨by omega, by rw [List.length_append]; omega⟩]
  simp

theorem between_inj {s : Scanner} {h t h' t' : Bytes} (a : Between s h t) (b : Between s h' t') :
    h = h' ∧ t = t' := by
  have h1 := head_of a; rw [head_of b] at h1
  have h2 := tail_of a; rw [tail_of b] at h2
  cases h1; cases h2; exact ⟨rfl, rfl⟩

theorem between_iff (s : Scanner) : (∃ h t, Between s h t) ↔ 0 ≤ s.pos ∧ s.pos ≤ (s.full.length : Int) := by
  constructor
  · rintro ⟨h, t, h1, h2⟩
    rw [h1, h2]; simp; omega
  · rintro ⟨h1, h2⟩
    refine ⟨s.full.take s.pos.toNat, s.full.drop s.pos.toNat, by simp, ?_⟩
    rw [List.length_take]; omega

theorem reaches_of_pos {s : Scanner} {h t : Bytes} {p : Int} (hf : s.full = h ++ t) (hp : p = h.length) :
    Reaches s (Scanner.notify { s with pos := p }) h t := by
  refine ⟨⟨?_, ?_⟩, notify_full _, notify_tracker _, ?_⟩
  · rw [notify_full]; exact hf
  · rw [notify_pos]; exact hp
  · intro hn
    rw [notify_none (by simpa using hn)]

theorem move_to {s : Scanner} {h t h' t' : Bytes} {n : Int} (hb : Between s h t) (he : h ++ t = h' ++ t')
    (hn : n = (h'.length : Int) - h.length) :
    ∃ s', s.move n = (true, s') ∧ Reaches s s' h' t' := by
  obtain ⟨h1, h2⟩ := hb
  have hl := congrArg List.length he
  simp only [List.length_append] at hl
  have hlen : s.full.length = h.length + t.length := by rw [h1, List.length_append]
  unfold Scanner.move
  simp only
  rw [if_neg (by simp; omega)]
  exact ⟨_, rfl, reaches_of_pos (by rw [h1, he]) (by omega)⟩

theorem move_fwd {s : Scanner} {h x t : Bytes} (hb : Between s h (x ++ t)) :
    ∃ s', s.move (x.length : Int) = (true, s') ∧ Reaches s s' (h ++ x) t :=
  move_to hb (by simp) (by simp; omega)

theorem move_back {s : Scanner} {h x t : Bytes} (hb : Between s (h ++ x) t) :
    ∃ s', s.move (-(x.length : Int)) = (true, s') ∧ Reaches s s' h (x ++ t) :=
  move_to hb (by simp) (by simp; omega)

theorem toMarker_to {s : Scanner} {h t : Bytes} {m : Int} (hf : s.full = h ++ t) (hm : m = h.length) :
    ∃ s', s.toMarker m = (true, s') ∧ Reaches s s' h t := by
  unfold Scanner.toMarker
  rw [if_neg (by simp; omega)]
  exact ⟨_, rfl, reaches_of_pos hf hm⟩

theorem toEnd_to {s : Scanner} {h t : Bytes} (hb : Between s h t) :
    ∃ s', s.toEnd = (true, s') ∧ Reaches s s' (h ++ t) [] :=
  toMarker_to (by simp [hb.1]) (by simp [hb.1])

/-- Case distinction on the front of a text, in terms of the specification. -/
theorem step_cases (t : Bytes) : (t = [] ∧ decodeRune t = (runeError, 0)) ∨
    ∃ r p t', Step t r p ∧ t = p ++ t' ∧ decodeRune t = (r, p.length) ∧ p ≠ [] := by
  by_cases h : t = []
  · left; subst h; exact ⟨rfl, rfl⟩
  · right
    obtain ⟨r, p, hst⟩ := Step.exists h
    obtain ⟨t', ht'⟩ := hst.prefix
    exact ⟨r, p, t', hst, ht'.symm, (step_iff.mp hst).2.1, hst.ne_nil⟩

theorem step_nil {r : Int} {p : Bytes} : ¬ Step [] r p := fun h => (step_iff.mp h).1 rfl

/-- A call that decodes the first rune and moves over it if a test on the rune
and the text succeeds. -/
theorem overOne_of {f : Call} {q : Int → Prop} {s : Scanner}
    (h1 : ∀ h r p t', Between s h (p ++ t') → decodeRune (p ++ t') = (r, p.length) → p ≠ [] → q r →
      f s = .ret (s.move (p.length : Int)))
    (h2 : ∀ h r p t', Between s h (p ++ t') → decodeRune (p ++ t') = (r, p.length) → p ≠ [] → ¬ q r →
      f s = .ret (false, s))
    (h3 : ∀ h, Between s h [] → f s = .ret (false, s)) : OverOne f q s := by
  intro h t hb
  constructor
  · rintro r p t' hst rfl hq
    obtain ⟨s', hs', hr⟩ := move_fwd hb
    refine ⟨s', ?_, hr⟩
    rw [h1 h r p t' hb (step_iff.mp hst).2.1 hst.ne_nil hq, hs']
  · intro hno
    rcases step_cases t with ⟨rfl, _⟩ | ⟨r, p, t', hst, rfl, hd, hp⟩
    · exact h3 h hb
    · exact h2 h r p t' hb hd hp (hno r p hst)

/-- Splitting a list at the first element that satisfies `q`. -/
theorem pieces_split {t : Bytes} {pre post : List (Bytes × Int)} (h : Pieces t (pre ++ post)) :
    t = bytesOf pre ++ bytesOf post := by
  rw [← h.bytes]; simp [bytesOf]

theorem toFirst_of {f : Call} {q : Int → Bool} {s : Scanner}
    (h1 : ∀ h t, Between s h t → f s = match (rangeStr t).find? (fun iv => q iv.2) with
      | some (i, _) => .ret (s.move i)
      | none => .ret (false, s)) : ToFirst f (fun r => q r = true) s := by
  intro h t ps hb hps
  rw [h1 h t hb, rangeStr_pieces hps]
  constructor
  · rintro pre ⟨p, r⟩ post rfl hpre hq
    rw [find_offsets_some (fun x hx => by simpa using hpre x hx) hq 0]
    have ht := pieces_split hps
    subst ht
    obtain ⟨s', hs', hr⟩ := move_fwd hb
    exact ⟨s', by simp [hs'], hr⟩
  · intro hno
    rw [find_offsets_none (fun x hx => by simpa using hno x hx)]

/-- First element failing `q`, for the skipping calls. -/
theorem find_run {q : Int → Bool} {t : Bytes} {pre post : List (Bytes × Int)}
    (hps : Pieces t (pre ++ post)) (hrun : Run (fun r => q r = true) pre post) :
    (rangeStr t).find? (fun iv => !q iv.2) =
      post.head?.map (fun x => ((bytesOf pre).length, x.2)) := by
  rw [rangeStr_pieces hps]
  have hpre : ∀ x ∈ pre, (!q x.2) = false := fun x hx => by simpa using hrun.1 x hx
  rcases post with _ | ⟨⟨p, r⟩, post⟩
  · rw [List.append_nil, find_offsets_none (q := fun r => !q r) hpre]
    rfl
  · have := hrun.2 (p, r) post rfl
    rw [find_offsets_some (q := fun r => !q r) hpre (by simpa using this)]
    simp

theorem pieces_nil_iff {t : Bytes} {ps : List (Bytes × Int)} (h : Pieces t ps) : t = [] ↔ ps = [] := by
  cases h with
  | nil => simp
  | cons hs he ht =>
    simp only [reduceCtorEq, iff_false]
    rw [he]; simp [hs.ne_nil]

theorem bytesOf_nil_iff {t : Bytes} {pre post : List (Bytes × Int)} (h : Pieces t (pre ++ post)) :
    bytesOf pre = [] ↔ pre = [] := by
  constructor
  · intro hb
    rcases pre with _ | ⟨x, pre⟩
    · rfl
    · have := h.ne_nil x (by simp)
      simp [bytesOf] at hb
      exact absurd hb.1 this
  · rintro rfl; rfl

/-- Every text divides uniquely into a longest accepted run and the rest. -/
theorem exists_run (q : Int → Prop) (t : Bytes) :
    ∃ pre post, Pieces t (pre ++ post) ∧ Run q pre post := by
  classical
  obtain ⟨ps, hps⟩ := Pieces.exists t
  rcases first_or_none (fun x : Bytes × Int => ¬ q x.2) ps with h | ⟨pre, x, post, rfl, h1, h2⟩
  · exact ⟨ps, [], by simpa using hps, fun x hx => by simpa using h x hx, by simp⟩
  · refine ⟨pre, x :: post, hps, fun x hx => by simpa using h1 x hx, ?_⟩
    intro y l he
    cases he
    exact h2

theorem runeIn_iff (str : Bytes) (r : Int) : RuneIn str r ↔ r ∈ runesOf str := by
  constructor
  · rintro ⟨ps, h1, h2⟩
    rwa [runesOf_pieces h1]
  · intro h
    obtain ⟨ps, hps⟩ := Pieces.exists str
    exact ⟨ps, hps, by rwa [← runesOf_pieces hps]⟩

theorem runeIn_iff_contains (str : Bytes) (r : Int) : RuneIn str r ↔ containsRune str r = true := by
  rw [runeIn_iff, containsRune_iff]

theorem Spec.OverOne.congr {f : Call} {q q' : Int → Prop} {s : Scanner} (h : OverOne f q s) (hq : ∀ r, q r ↔ q' r) :
    OverOne f q' s := by
  have : q = q' := funext fun r => propext (hq r)
  rwa [← this]

theorem Spec.ToFirst.congr {f : Call} {q q' : Int → Prop} {s : Scanner} (h : ToFirst f q s) (hq : ∀ r, q r ↔ q' r) :
    ToFirst f q' s := by
  have : q = q' := funext fun r => propext (hq r)
  rwa [← this]

theorem Spec.Run.congr {q q' : Int → Prop} {pre post : List (Bytes × Int)} (h : Run q pre post)
    (hq : ∀ r, q r ↔ q' r) : Run q' pre post := by
  have : q = q' := funext fun r => propext (hq r)
  rwa [← this]

theorem inRange_iff (min r max : Int) : Scanner.inRange min r max = true ↔ min ≤ r ∧ r ≤ max := by
  simp [Scanner.inRange]

/-- `IfRune` away from its corner case. -/
theorem ifRune_eq {s : Scanner} {h t : Bytes} (hb : Between s h t) (r : Int) :
    s.ifRune r = if (decodeRune t).1 = r then .ret (s.move ((decodeRune t).2 : Int)) else .ret (false, s) := by
  unfold Scanner.ifRune
  rw [tail_of hb]
  simp only [Exec.bind_ret, Exec.pure_eq]
  by_cases hr : (decodeRune t).1 = r
  · rw [if_neg (by simpa using hr), if_pos hr]
  · rw [if_pos (by simpa using hr), if_neg hr]

theorem reaches_self {s : Scanner} {h t : Bytes} (hb : Between s h t) : Reaches s s h t :=
  ⟨hb, rfl, rfl, fun _ => rfl⟩

end Tok
