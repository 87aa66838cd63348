/-
Backward iteration over a text in terms of `BackPieces`.
-/
import Verif.Proofs.Scan

namespace Tok
open Spec

theorem backStep_iff {s : Bytes} {r : Int} {p : Bytes} :
    BackStep s r p ↔ s ≠ [] ∧ decodeLastRune s = (r, p.length) ∧ p <:+ s := by
  constructor
  · intro h
    cases h with
    | char c t => exact ⟨by simp [enc_ne_nil], decodeLastRune_enc t c, List.suffix_append _ _⟩
    | bad b t h =>
      refine ⟨by simp, ?_, List.suffix_append _ _⟩
      rcases decodeLastRune_cases (t ++ [b]) with ⟨h1, _⟩ | ⟨_, h1, _⟩ | ⟨c, t', h1, _⟩
      · simp at h1
      · exact h1
      · exact absurd ⟨t', h1.symm⟩ (h c)
  · rintro ⟨h0, h1, h2⟩
    rcases decodeLastRune_cases s with ⟨h3, _⟩ | ⟨_, h3, h4⟩ | ⟨c, t', h3, h4⟩
    · exact absurd h3 h0
    · rw [h3] at h1
      have hr := congrArg Prod.fst h1
      have hl : 1 = p.length := congrArg Prod.snd h1
      simp only at hr
      subst hr
      obtain ⟨t, ht⟩ := h2
      obtain ⟨b, rfl⟩ := List.length_eq_one_iff.mp hl.symm
      subst ht
      exact BackStep.bad b t h4
    · rw [h4] at h1
      have hr := congrArg Prod.fst h1
      have hl : (enc c).length = p.length := congrArg Prod.snd h1
      simp only at hr
      subst hr
      have : p = enc c := by
        obtain ⟨t, ht⟩ := h2
        rw [h3] at ht
        exact (List.append_inj' ht (by omega)).2
      subst this
      rw [h3]
      exact BackStep.char c t'

theorem Spec.BackStep.ne_nil {s : Bytes} {r : Int} {p : Bytes} (h : BackStep s r p) : p ≠ [] := by
  cases h with
  | char c t => exact enc_ne_nil c
  | bad b t h => simp

theorem Spec.BackStep.suffix {s : Bytes} {r : Int} {p : Bytes} (h : BackStep s r p) : p <:+ s :=
  (backStep_iff.mp h).2.2

theorem backStep_nil {r : Int} {p : Bytes} : ¬ BackStep [] r p := fun h => (backStep_iff.mp h).1 rfl

theorem Spec.BackStep.exists {s : Bytes} (h : s ≠ []) : ∃ r p, BackStep s r p := by
  rcases decodeLastRune_cases s with ⟨h1, _⟩ | ⟨_, h1, h2⟩ | ⟨c, t', h1, h2⟩
  · exact absurd h1 h
  · obtain ⟨t, b, rfl⟩ : ∃ t b, s = t ++ [b] := ⟨s.dropLast, s.getLast h, (List.dropLast_concat_getLast h).symm⟩
    exact ⟨_, _, BackStep.bad b t h2⟩
  · exact ⟨_, _, h1 ▸ BackStep.char c t'⟩

theorem Spec.BackStep.unique {s : Bytes} {r r' : Int} {p p' : Bytes} (h : BackStep s r p) (h' : BackStep s r' p') :
    r = r' ∧ p = p' := by
  obtain ⟨_, h1, t, h2⟩ := backStep_iff.mp h
  obtain ⟨_, h1', t', h2'⟩ := backStep_iff.mp h'
  rw [h1] at h1'
  refine ⟨congrArg Prod.fst h1', ?_⟩
  have hl : p.length = p'.length := congrArg Prod.snd h1'
  rw [← h2'] at h2
  exact (List.append_inj' h2 hl).2

theorem backStep_cases (s : Bytes) : (s = [] ∧ decodeLastRune s = (runeError, 0)) ∨
    ∃ r p s', BackStep s r p ∧ s = s' ++ p ∧ decodeLastRune s = (r, p.length) ∧ p ≠ [] := by
  by_cases h : s = []
  · left; subst h; exact ⟨rfl, rfl⟩
  · right
    obtain ⟨r, p, hst⟩ := BackStep.exists h
    obtain ⟨t', ht'⟩ := hst.suffix
    exact ⟨r, p, t', hst, ht'.symm, (backStep_iff.mp hst).2.1, hst.ne_nil⟩

theorem Spec.BackPieces.exists (s : Bytes) : ∃ ps, BackPieces s ps := by
  induction hn : s.length using Nat.strongRecOn generalizing s with
  | _ n ih =>
    by_cases h : s = []
    · subst h; exact ⟨[], BackPieces.nil⟩
    · obtain ⟨r, p, hst⟩ := BackStep.exists h
      obtain ⟨t, ht⟩ := hst.suffix
      have hp : 0 < p.length := List.length_pos_iff.mpr hst.ne_nil
      have hl := congrArg List.length ht
      simp only [List.length_append] at hl
      obtain ⟨ps, hps⟩ := ih t.length (by omega) t rfl
      exact ⟨(p, r) :: ps, BackPieces.cons hst ht.symm hps⟩

theorem Spec.BackPieces.unique {s : Bytes} {ps ps' : List (Bytes × Int)} (h : BackPieces s ps)
    (h' : BackPieces s ps') : ps = ps' := by
  induction h generalizing ps' with
  | nil =>
    cases h' with
    | nil => rfl
    | cons hs he ht => exact absurd hs backStep_nil
  | cons hs he ht ih =>
    cases h' with
    | nil => exact absurd hs backStep_nil
    | cons hs' he' ht' =>
      obtain ⟨rfl, rfl⟩ := hs.unique hs'
      rw [he] at he'
      have := List.append_cancel_right he'
      subst this
      rw [ih ht']

theorem bytesOfBack_cons (x : Bytes × Int) (ps : List (Bytes × Int)) :
    bytesOfBack (x :: ps) = bytesOfBack ps ++ x.1 := by simp [bytesOfBack, bytesOf]
theorem bytesOfBack_nil : bytesOfBack [] = [] := rfl
theorem bytesOfBack_append (a b : List (Bytes × Int)) :
    bytesOfBack (a ++ b) = bytesOfBack b ++ bytesOfBack a := by simp [bytesOfBack, bytesOf]

theorem Spec.BackPieces.bytes {s : Bytes} {ps : List (Bytes × Int)} (h : BackPieces s ps) : bytesOfBack ps = s := by
  induction h with
  | nil => rfl
  | cons hs he ht ih => rw [bytesOfBack_cons, ih, he]

theorem Spec.BackPieces.ne_nil {s : Bytes} {ps : List (Bytes × Int)} (h : BackPieces s ps) : ∀ x ∈ ps, x.1 ≠ [] := by
  induction h with
  | nil => simp
  | cons hs he ht ih =>
    intro x hx
    rcases List.mem_cons.mp hx with rfl | hx
    · exact hs.ne_nil
    · exact ih x hx

theorem Spec.BackPieces.tail {s : Bytes} {pre post : List (Bytes × Int)} (h : BackPieces s (pre ++ post)) :
    BackPieces (bytesOfBack post) post := by
  induction pre generalizing s with
  | nil => rw [List.nil_append] at h; rw [h.bytes]; exact h
  | cons x pre ih =>
    cases h with
    | cons hs he ht => exact ih ht

/-- The steps of `revItr`: it stops at the first U+FFFD. -/
def backSteps : List (Bytes × Int) → List (Bytes × Int)
  | [] => []
  | x :: ps => if x.2 = runeError then [] else (bytesOfBack (x :: ps), x.2) :: backSteps ps

/-- The text before the place where `revItr` stops. -/
def backRest : List (Bytes × Int) → Bytes
  | [] => []
  | x :: ps => if x.2 = runeError then bytesOfBack (x :: ps) else backRest ps

theorem revItrGo_pieces {s : Bytes} {ps : List (Bytes × Int)} (h : BackPieces s ps) (fuel : Nat)
    (hf : ps.length < fuel) : revItrGo fuel s = (backSteps ps, backRest ps) := by
  induction h generalizing fuel with
  | nil =>
    rcases fuel with _ | fuel
    · simp at hf
    · rfl
  | @cons s p t r ps hs he ht ih =>
    rcases fuel with _ | fuel
    · simp at hf
    · simp only [List.length_cons] at hf
      have hd := (backStep_iff.mp hs).2.1
      have hby : bytesOfBack ((p, r) :: ps) = s := (BackPieces.cons hs he ht).bytes
      rw [revItrGo, hd]
      simp only [backSteps, backRest]
      by_cases hr : r = runeError
      · rw [if_pos (by simpa using hr), if_pos hr, if_pos hr, hby]
      · rw [if_neg (by simpa using hr), if_neg hr, if_neg hr]
        have : s.take (s.length - p.length) = t := by rw [he]; simp
        rw [this, ih fuel (by omega), hby]

theorem BackPieces.length_le {s : Bytes} {ps : List (Bytes × Int)} (h : BackPieces s ps) : ps.length ≤ s.length := by
  induction h with
  | nil => simp
  | @cons s p t r ps hs he ht ih =>
    have := List.length_pos_iff.mpr hs.ne_nil
    rw [he, List.length_append, List.length_cons]
    omega

theorem revItr_pieces {s : Bytes} {ps : List (Bytes × Int)} (h : BackPieces s ps) :
    revItr s = (backSteps ps, backRest ps) :=
  revItrGo_pieces h _ (Nat.lt_succ_of_le (BackPieces.length_le h))

/-- No U+FFFD (and no malformed byte) is met before, or as, the first accepted
rune. -/
def NoStop (q : Int → Prop) (ps : List (Bytes × Int)) : Prop :=
  ∀ pre x post, ps = pre ++ x :: post → (∀ y ∈ pre, ¬ q y.2) → x.2 ≠ 0xFFFD

theorem NoStop.tail {q : Int → Prop} {x : Bytes × Int} {ps : List (Bytes × Int)} (h : NoStop q (x :: ps))
    (hx : ¬ q x.2) : NoStop q ps := by
  intro pre y post he hpre
  refine h (x :: pre) y post (by rw [he]; rfl) ?_
  intro z hz
  rcases List.mem_cons.mp hz with rfl | hz
  · exact hx
  · exact hpre z hz

theorem find_backSteps_none {q : Int → Bool} {ps : List (Bytes × Int)} (h : ∀ x ∈ ps, q x.2 = false) :
    (backSteps ps).find? (fun iv => q iv.2) = none := by
  induction ps with
  | nil => rfl
  | cons x ps ih =>
    simp only [backSteps]
    split_ifs
    · rfl
    · rw [List.find?_cons, h x (by simp)]
      simpa using ih (fun y hy => h y (by simp [hy]))

theorem find_backSteps_some {q : Int → Bool} {pre post : List (Bytes × Int)} {x : Bytes × Int}
    (hn : ∀ y ∈ pre, y.2 ≠ runeError) (hx : x.2 ≠ runeError)
    (h : ∀ y ∈ pre, q y.2 = false) (hq : q x.2 = true) :
    (backSteps (pre ++ x :: post)).find? (fun iv => q iv.2) = some (bytesOfBack (x :: post), x.2) := by
  induction pre with
  | nil => simp only [List.nil_append, backSteps]; rw [if_neg hx, List.find?_cons, hq]
  | cons y pre ih =>
    simp only [List.cons_append, backSteps]
    rw [if_neg (hn y (by simp)), List.find?_cons, h y (by simp)]
    simpa using ih (fun z hz => hn z (by simp [hz])) (fun z hz => h z (by simp [hz]))

/-- A U+FFFD before the first accepted rune hides everything before it. -/
theorem find_backSteps_stop {q : Int → Bool} {pre post : List (Bytes × Int)} {x : Bytes × Int}
    (hx : x.2 = runeError) (h : ∀ y ∈ pre, q y.2 = false) :
    (backSteps (pre ++ x :: post)).find? (fun iv => q iv.2) = none := by
  induction pre with
  | nil => simp only [List.nil_append, backSteps]; rw [if_pos hx]; rfl
  | cons y pre ih =>
    simp only [List.cons_append, backSteps]
    split_ifs
    · rfl
    · rw [List.find?_cons, h y (by simp)]
      simpa using ih (fun z hz => h z (by simp [hz]))

theorem move_backTo {s : Scanner} {h t : Bytes} {pre post : List (Bytes × Int)} (hb : Between s h t)
    (hps : BackPieces h (pre ++ post)) :
    ∃ s', s.move (-((h.length : Int) - (bytesOfBack post).length)) = (true, s') ∧
      Reaches s s' (bytesOfBack post) (bytesOfBack pre ++ t) := by
  have := hps.bytes
  rw [bytesOfBack_append] at this
  refine move_to hb (by rw [← this]; simp) (by omega)

/-- What the `RevTo*` calls do. -/
theorem backToLast_of {q : Int → Bool} {s : Scanner} {h t : Bytes} {ps : List (Bytes × Int)} (hb : Between s h t)
    (hps : BackPieces h ps) (hn : NoStop (fun r => q r = true) ps) :
    (∀ pre x post, ps = pre ++ x :: post → (∀ y ∈ pre, ¬ q y.2 = true) → q x.2 = true →
      ∃ s', s.revSearch (fun iv => q iv.2) = .ret (true, s') ∧
        Reaches s s' (bytesOfBack (x :: post)) (bytesOfBack pre ++ t)) ∧
    ((∀ x ∈ ps, ¬ q x.2 = true) → s.revSearch (fun iv => q iv.2) = .ret (false, s)) := by
  unfold Scanner.revSearch
  rw [head_of hb]
  simp only [Exec.bind_ret]
  rw [revItr_pieces hps]
  constructor
  · rintro pre x post rfl hpre hq
    have hx : x.2 ≠ runeError := hn pre x post rfl hpre
    have hpn : ∀ y ∈ pre, y.2 ≠ runeError := by
      intro y hy
      obtain ⟨a, b, rfl⟩ := List.append_of_mem hy
      exact hn a y (b ++ x :: post) (by simp) (fun z hz => hpre z (by simp [hz]))
    rw [find_backSteps_some hpn hx (fun y hy => by simpa using hpre y hy) hq]
    obtain ⟨s', h1, h2⟩ := move_backTo hb hps
    exact ⟨s', by simp [h1], h2⟩
  · intro hno
    rw [find_backSteps_none (fun x hx => by simpa using hno x hx)]
    rfl

theorem backStop_of {q : Int → Bool} {s : Scanner} {h t : Bytes} {pre post : List (Bytes × Int)}
    {x : Bytes × Int} (hb : Between s h t)
    (hps : BackPieces h (pre ++ x :: post)) (hx : x.2 = 0xFFFD) (hpre : ∀ y ∈ pre, ¬ q y.2 = true) :
    s.revSearch (fun iv => q iv.2) = .ret (false, s) := by
  unfold Scanner.revSearch
  rw [head_of hb]
  simp only [Exec.bind_ret]
  rw [revItr_pieces hps, find_backSteps_stop hx (fun y hy => by simpa using hpre y hy)]
  rfl

theorem backRest_all {pre post : List (Bytes × Int)} (h : ∀ y ∈ pre, y.2 ≠ runeError)
    (hp : ∀ x l, post = x :: l → x.2 = runeError) : backRest (pre ++ post) = bytesOfBack post := by
  induction pre with
  | nil =>
    rcases post with _ | ⟨x, post⟩
    · rfl
    · simp only [List.nil_append, backRest]; rw [if_pos (hp x post rfl)]
  | cons y pre ih =>
    simp only [List.cons_append, backRest]
    rw [if_neg (h y (by simp))]
    exact ih (fun z hz => h z (by simp [hz]))

theorem backSteps_all_true {q : Int → Bool} {ps : List (Bytes × Int)} (h : ∀ x ∈ ps, q x.2 = true ∨ x.2 = runeError) :
    (backSteps ps).find? (fun iv => !q iv.2) = none := by
  induction ps with
  | nil => rfl
  | cons x ps ih =>
    simp only [backSteps]
    split_ifs with hx
    · rfl
    · rcases h x (by simp) with h1 | h1
      · rw [List.find?_cons]; simp only [h1, Bool.not_true]
        exact ih (fun y hy => h y (by simp [hy]))
      · exact absurd h1 hx

/-- What the `RevWhile*` calls do: they move over the longest run of accepted runes
that contains no U+FFFD; the boolean is false only at the start of the text. -/
theorem revWhile_of {q : Int → Bool} {s : Scanner} {h t : Bytes} {pre post : List (Bytes × Int)}
    (hb : Between s h t) (hps : BackPieces h (pre ++ post))
    (hpre : ∀ y ∈ pre, q y.2 = true ∧ y.2 ≠ 0xFFFD)
    (hpost : ∀ x l, post = x :: l → q x.2 = false ∨ x.2 = 0xFFFD) :
    ∃ s', s.revWhile q = .ret (!h.isEmpty, s') ∧ Reaches s s' (bytesOfBack post) (bytesOfBack pre ++ t) := by
  unfold Scanner.revWhile
  rw [head_of hb]
  simp only [Exec.bind_ret]
  by_cases hh : h = []
  · subst hh
    have : pre ++ post = [] := BackPieces.unique hps BackPieces.nil
    obtain ⟨rfl, rfl⟩ := List.append_eq_nil_iff.mp this
    refine ⟨s, by simp, ?_⟩
    exact reaches_self hb
  · have hl : 0 < h.length := List.length_pos_iff.mpr hh
    rw [if_neg (by simpa using hh)]
    rw [revItr_pieces hps]
    obtain ⟨s', h1, h2⟩ := move_backTo hb hps
    have hemp : (!h.isEmpty) = true := by simpa using hh
    rw [hemp]
    refine ⟨s', ?_, h2⟩
    have hpn : ∀ y ∈ pre, y.2 ≠ runeError := fun y hy => (hpre y hy).2
    rcases post with _ | ⟨x, post⟩
    · rw [List.append_nil, backSteps_all_true (fun y hy => Or.inl (hpre y hy).1)]
      have := backRest_all (post := []) hpn (by simp)
      rw [List.append_nil] at this
      simp only [this, h1, Exec.pure_eq]
    · by_cases hx : x.2 = runeError
      · have hnone : (backSteps (pre ++ x :: post)).find? (fun iv => !q iv.2) = none :=
          find_backSteps_stop (q := fun r => !q r) hx (fun y hy => by simp [(hpre y hy).1])
        rw [hnone]
        have := backRest_all (post := x :: post) hpn (by intro y l he; cases he; exact hx)
        simp only [this, h1, Exec.pure_eq]
      · have hq : q x.2 = false := by
          rcases hpost x post rfl with h3 | h3
          · exact h3
          · exact absurd h3 hx
        rw [find_backSteps_some (q := fun r => !q r) hpn hx (fun y hy => by simp [(hpre y hy).1]) (by simp [hq])]
        simp only
        have hxne := List.length_pos_iff.mpr (hps.ne_nil x (by simp))
        have hlen : 0 < (bytesOfBack (x :: post)).length := by
          rw [bytesOfBack_cons, List.length_append]; omega
        rw [if_neg (by simp; omega), h1]
        rfl

/-- A text always has a longest run of the kind `revWhile_of` needs. -/
theorem exists_backRun (q : Int → Prop) (h : Bytes) :
    ∃ pre post, BackPieces h (pre ++ post) ∧ (∀ y ∈ pre, q y.2) ∧ ∀ x l, post = x :: l → ¬ q x.2 := by
  classical
  obtain ⟨ps, hps⟩ := BackPieces.exists h
  rcases first_or_none (fun x : Bytes × Int => ¬ q x.2) ps with h | ⟨pre, x, post, rfl, h1, h2⟩
  · exact ⟨ps, [], by simpa using hps, fun x hx => by simpa using h x hx, by simp⟩
  · refine ⟨pre, x :: post, hps, fun x hx => by simpa using h1 x hx, ?_⟩
    intro y l he
    cases he
    exact h2

/-- Back-to-front division of a well-formed text. -/
theorem backPieces_encText (cs : List Char) :
    BackPieces (encText cs) (cs.reverse.map fun c => (enc c, (c.toNat : Int))) := by
  induction cs using List.reverseRecOn with
  | nil => exact BackPieces.nil
  | append_singleton cs c ih =>
    rw [encText_append, encText_singleton, List.reverse_append, List.reverse_singleton, List.singleton_append,
      List.map_cons]
    exact BackPieces.cons (BackStep.char c _) rfl ih

theorem bytesOfBack_chars (cs : List Char) :
    bytesOfBack (cs.reverse.map fun c => (enc c, (c.toNat : Int))) = encText cs :=
  (backPieces_encText cs).bytes

end Tok
