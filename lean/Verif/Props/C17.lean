/-
C17 Case-insensitive scanning: IfFold, ToFold, RevIfFold, RevToFold.
-/
import Verif.Proofs.BackScan
import Verif.Model.Disturb

namespace Tok
open Spec Scanner

/-- Two texts are equal under case folding: they have the same number of runes and
corresponding runes lie in the same orbit of `unicode.SimpleFold`. -/
def FoldEq (rt : Rt) (a b : Bytes) : Prop :=
  ∃ ps qs, Pieces a ps ∧ Pieces b qs ∧ List.Forall₂ (fun x y => rt.foldKey x.2 = rt.foldKey y.2) ps qs

private theorem map_eq_forall2 {α β : Type} (f : α → β) (l m : List α) :
    l.map f = m.map f ↔ List.Forall₂ (fun x y => f x = f y) l m := by
  constructor
  · intro h
    induction l generalizing m with
    | nil => cases m with
      | nil => exact .nil
      | cons y m => simp at h
    | cons x l ih => cases m with
      | nil => simp at h
      | cons y m =>
        simp only [List.map_cons, List.cons.injEq] at h
        exact .cons h.1 (ih m h.2)
  · intro h
    induction h with
    | nil => rfl
    | cons h1 _ ih => simp [h1, ih]

theorem equalFold_iff (rt : Rt) (a b : Bytes) : equalFold rt a b = true ↔ FoldEq rt a b := by
  obtain ⟨ps, hps⟩ := Pieces.exists a
  obtain ⟨qs, hqs⟩ := Pieces.exists b
  have : equalFold rt a b = true ↔ List.Forall₂ (fun x y => rt.foldKey x.2 = rt.foldKey y.2) ps qs := by
    unfold equalFold
    rw [runesOf_pieces hps, runesOf_pieces hqs, beq_iff_eq, List.map_map, List.map_map]
    exact map_eq_forall2 (fun x : Bytes × Int => rt.foldKey x.2) ps qs
  rw [this]
  constructor
  · intro h; exact ⟨ps, qs, hps, hqs, h⟩
  · rintro ⟨ps', qs', h1, h2, h3⟩
    rwa [h1.unique hps, h2.unique hqs] at h3

/-- On ASCII texts that is equality up to the case of letters. -/
theorem C17_foldEq_ascii (rt : Rt) (ok : rt.Ok) (a b : List Char) (ha : ∀ c ∈ a, c.toNat < 128)
    (hb : ∀ c ∈ b, c.toNat < 128) :
    FoldEq rt (encText a) (encText b) ↔ a.map Char.toLower = b.map Char.toLower := by
  have hlow : ∀ c : Char, c.toNat < 128 → (c.toLower.toNat : Int) = asciiLower (c.toNat : Int) := by
    intro c hc
    have key : ∀ n : Fin 128, ((Char.ofNat n).toLower.toNat : Int) = asciiLower ((Char.ofNat n).toNat : Int) := by
      decide +kernel
    have := key ⟨c.toNat, hc⟩
    simpa using this
  have h1 : FoldEq rt (encText a) (encText b) ↔
      a.map (fun c => rt.foldKey (c.toNat : Int)) = b.map (fun c => rt.foldKey (c.toNat : Int)) := by
    rw [← equalFold_iff]
    unfold equalFold
    rw [runesOf_pieces (pieces_encText a), runesOf_pieces (pieces_encText b), beq_iff_eq]
    simp [List.map_map, Function.comp_def]
  have hiff : ∀ c d : Char, c.toNat < 128 → d.toNat < 128 →
      (rt.foldKey (c.toNat : Int) = rt.foldKey (d.toNat : Int) ↔ c.toLower = d.toLower) := by
    intro c d hc hd
    rw [ok.fold_ascii _ _ (by omega) (by omega) (by omega) (by omega), ← hlow c hc, ← hlow d hd]
    constructor
    · intro h; exact char_ext (Int.ofNat.inj h)
    · intro h; rw [h]
  rw [h1]
  clear h1
  induction a generalizing b with
  | nil => cases b <;> simp
  | cons c a ih =>
    cases b with
    | nil => simp
    | cons d b =>
      simp only [List.map_cons, List.cons.injEq]
      exact and_congr (hiff c d (ha c List.mem_cons_self) (hb d List.mem_cons_self))
        (ih b (fun x hx => ha x (List.mem_cons_of_mem _ hx)) (fun x hx => hb x (List.mem_cons_of_mem _ hx)))

/-- `IfFold(str)`: when at least `len(str)` bytes are left it moves over them iff they
equal `str` under folding.

Missing for the full property: with fewer bytes left it panics
(`C17_ifFold_violated`), and prefixes of another byte length are not considered
(`C17_kelvin_violated`). -/
theorem C17_ifFold_partial (rt : Rt) (s : Scanner) (h x t str : Bytes) (hb : Between s h (x ++ t))
    (hl : x.length = str.length) :
    (FoldEq rt x str → ∃ s', s.ifFold rt str = .ret (true, s') ∧ Reaches s s' (h ++ x) t) ∧
    (¬ FoldEq rt x str → s.ifFold rt str = .ret (false, s)) := by
  unfold Scanner.ifFold
  rw [tail_of hb]
  simp only [Exec.bind_ret, Exec.pure_eq]
  rw [if_neg (by simp; omega), ← hl, List.take_left]
  constructor
  · intro he
    rw [if_pos ((equalFold_iff rt x str).mpr he)]
    obtain ⟨s', h1, h2⟩ := move_fwd hb
    exact ⟨s', by rw [h1], h2⟩
  · intro he
    rw [if_neg (fun hc => he ((equalFold_iff rt x str).mp hc))]

/-- `IfFold(str)` panics whenever fewer than `len(str)` bytes are left. -/
theorem C17_ifFold_violated (rt : Rt) (s : Scanner) (h t str : Bytes) (hb : Between s h t)
    (hl : t.length < str.length) : s.ifFold rt str = .panic := by
  unfold Scanner.ifFold
  rw [tail_of hb]
  simp only [Exec.bind_ret]
  rw [if_pos hl]

/-- `IfFold("k")` does not read the Kelvin sign although it folds to `k`. -/
theorem C17_kelvin_violated (rt : Rt) (hk : rt.foldKey 0x212A = rt.foldKey 107)
    (hf : rt.foldKey 0xFFFD ≠ rt.foldKey 107) :
    (Scanner.new [0xE2, 0x84, 0xAA] Heap.empty).ifFold rt b!"k" = .ret (false, Scanner.new [0xE2, 0x84, 0xAA] Heap.empty) ∧
    FoldEq rt [0xE2, 0x84, 0xAA] b!"k" := by
  constructor
  · have h1 : runesOf [0xE2] = [0xFFFD] := by decide +kernel
    have h2 : runesOf b!"k" = [107] := by decide +kernel
    have hne : equalFold rt [0xE2] b!"k" = false := by
      unfold equalFold
      rw [h1, h2]
      simpa using hf
    unfold Scanner.ifFold
    rw [tail_of (h := []) (t := [0xE2, 0x84, 0xAA]) ⟨rfl, rfl⟩]
    simp only [Exec.bind_ret]
    rw [if_neg (by decide)]
    have : List.take (List.length b!"k") ([0xE2, 0x84, 0xAA] : Bytes) = [0xE2] := rfl
    have hsimp := hne
    rw [← this] at hsimp
    rw [if_neg (by simpa using hsimp)]
    rfl
  · rw [← equalFold_iff]
    have h1 : runesOf [0xE2, 0x84, 0xAA] = [0x212A] := by decide +kernel
    have h2 : runesOf b!"k" = [107] := by decide +kernel
    unfold equalFold
    rw [h1, h2]
    simpa using hk

private theorem toFoldLoop_some (rt : Rt) (str pre x t : Bytes) (hl : x.length = str.length)
    (he : equalFold rt x str = true)
    (hfirst : ∀ a y b, pre ++ x ++ t = a ++ y ++ b → y.length = str.length → equalFold rt y str = true →
      pre.length ≤ a.length) (fuel n : Nat) (hf : pre.length < fuel) :
    toFoldLoop rt str fuel n (pre ++ x ++ t) = some (n + pre.length) := by
  induction pre generalizing fuel n with
  | nil =>
    rcases fuel with _ | fuel
    · simp at hf
    · simp only [List.nil_append, toFoldLoop]
      rw [if_pos (by simp; omega), ← hl, List.take_left, if_pos he]
      simp
  | cons b pre ih =>
    rcases fuel with _ | fuel
    · simp at hf
    · simp only [List.length_cons] at hf
      simp only [List.cons_append, toFoldLoop]
      rw [if_pos (by simp; omega), if_neg, List.drop_one, List.tail_cons, ih _ fuel (n + 1) (by omega)]
      · simp; omega
      · intro a y b' hab hy hey
        have := hfirst (b :: a) y b' (by simp at hab; simp [hab]) hy hey
        simpa using this
      · intro hcon
        have hlen : str.length ≤ (b :: (pre ++ x ++ t)).length := by simp; omega
        have := hfirst [] _ ((b :: (pre ++ x ++ t)).drop str.length) (by
          rw [List.nil_append, List.take_append_drop]; simp) (by rw [List.length_take]; omega) hcon
        simp at this

private theorem toFoldLoop_none (rt : Rt) (str t : Bytes)
    (hno : ∀ a y b, t = a ++ y ++ b → y.length = str.length → equalFold rt y str = false) (fuel n : Nat) :
    toFoldLoop rt str fuel n t = none := by
  induction fuel generalizing n t with
  | zero => rfl
  | succ fuel ih =>
    simp only [toFoldLoop]
    by_cases hl : t.length ≥ str.length
    · rw [if_pos hl, if_neg]
      · apply ih
        intro a y b hab
        rcases t with _ | ⟨c, t⟩
        · simp only [List.drop_nil, List.nil_eq, List.append_eq_nil_iff] at hab
          obtain ⟨⟨rfl, rfl⟩, rfl⟩ := hab
          exact hno [] [] [] rfl
        · simp only [List.drop_one, List.tail_cons] at hab
          exact hno (c :: a) y b (by rw [hab]; simp)
      · rw [hno [] (t.take str.length) (t.drop str.length) (by simp) (by rw [List.length_take]; omega)]
        simp
    · rw [if_neg hl]

/-- `ToFold(str)` moves to the first byte position where `len(str)` bytes equal `str`
under folding; it never panics.

Missing for the full property: occurrences of another byte length than `str`. -/
theorem C17_toFold_partial (rt : Rt) (s : Scanner) (h t str : Bytes) (hb : Between s h t) :
    (∀ pre x post, t = pre ++ x ++ post → x.length = str.length → FoldEq rt x str →
      (∀ a y b, t = a ++ y ++ b → y.length = str.length → FoldEq rt y str → pre.length ≤ a.length) →
      ∃ s', s.toFold rt str = .ret (true, s') ∧ Reaches s s' (h ++ pre) (x ++ post)) ∧
    ((∀ a y b, t = a ++ y ++ b → y.length = str.length → ¬ FoldEq rt y str) →
      s.toFold rt str = .ret (false, s)) := by
  unfold Scanner.toFold
  rw [tail_of hb]
  simp only [Exec.bind_ret, Exec.pure_eq]
  constructor
  · rintro pre x post rfl hl he hfirst
    rw [toFoldLoop_some rt str pre x post hl ((equalFold_iff rt x str).mpr he)
      (fun a y b h1 h2 h3 => hfirst a y b h1 h2 ((equalFold_iff rt y str).mp h3)) _ 0 (by simp; omega)]
    have hb' : Between s h (pre ++ (x ++ post)) := by simpa using hb
    obtain ⟨s', h1, h2⟩ := move_fwd hb'
    exact ⟨s', by simp [h1], h2⟩
  · intro hno
    rw [toFoldLoop_none rt str t (fun a y b h1 h2 => by
      have := hno a y b h1 h2
      rw [← equalFold_iff] at this
      simpa using this)]

/-- `RevIfFold(str)`: when at least `len(str)` bytes precede it moves back over them iff
they equal `str` under folding.

Missing for the full property: with fewer bytes it panics (`C17_revIfFold_violated`);
suffixes of another byte length are not considered. -/
theorem C17_revIfFold_partial (rt : Rt) (s : Scanner) (h x t str : Bytes) (hb : Between s (h ++ x) t)
    (hl : x.length = str.length) :
    (FoldEq rt x str → ∃ s', s.revIfFold rt str = .ret (true, s') ∧ Reaches s s' h (x ++ t)) ∧
    (¬ FoldEq rt x str → s.revIfFold rt str = .ret (false, s)) := by
  unfold Scanner.revIfFold
  rw [head_of hb]
  simp only [Exec.bind_ret, Exec.pure_eq]
  rw [if_neg (by simp; omega), ← hl]
  have : (h ++ x).drop ((h ++ x).length - x.length) = x := by
    rw [List.length_append, Nat.add_sub_cancel, List.drop_left]
  rw [this]
  constructor
  · intro he
    rw [if_pos ((equalFold_iff rt x str).mpr he)]
    obtain ⟨s', h1, h2⟩ := move_back hb
    exact ⟨s', by rw [h1], h2⟩
  · intro he
    rw [if_neg (fun hc => he ((equalFold_iff rt x str).mp hc))]

/-- `RevIfFold(str)` panics whenever fewer than `len(str)` bytes precede. -/
theorem C17_revIfFold_violated (rt : Rt) (s : Scanner) (h t str : Bytes) (hb : Between s h t)
    (hl : h.length < str.length) : s.revIfFold rt str = .panic := by
  unfold Scanner.revIfFold
  rw [head_of hb]
  simp only [Exec.bind_ret]
  rw [if_pos hl]

/-- `RevToFold(str)` moves back to the end of the last occurrence, when there is one that
ends at a rune boundary and no U+FFFD or malformed byte follows it in `Head()`.

Missing for the full property: otherwise it usually panics (`C17_revToFold_violated`). -/
theorem C17_revToFold_partial (rt : Rt) (s : Scanner) (h t str y : Bytes) (pre post : List (Bytes × Int))
    (x : Bytes × Int) (hb : Between s h t) (hps : BackPieces h (pre ++ x :: post))
    (hn : ∀ z ∈ pre ++ [x], z.2 ≠ 0xFFFD)
    (hl : y.length = str.length) (hend : y <:+ bytesOfBack (x :: post)) (he : FoldEq rt y str)
    (hlast : ∀ pre' x' post' y', pre ++ x :: post = pre' ++ x' :: post' → pre'.length < pre.length →
      y' <:+ bytesOfBack (x' :: post') → y'.length = str.length → ¬ FoldEq rt y' str) :
    ∃ s', s.revToFold rt str = .ret (true, s') ∧ Reaches s s' (bytesOfBack (x :: post)) (bytesOfBack pre ++ t) := by
  have hloop : ∀ pre0 pre1, pre = pre0 ++ pre1 →
      revToFoldLoop rt str (backSteps (pre1 ++ x :: post)) = .ret (some (bytesOfBack (x :: post))) := by
    intro pre0 pre1
    induction pre1 generalizing pre0 with
    | nil =>
      rintro -
      simp only [List.nil_append, backSteps]
      rw [if_neg (show ¬ x.2 = runeError from hn x (by simp))]
      have hle := hend.length_le
      obtain ⟨u, hu⟩ := hend
      have hdrop : (bytesOfBack (x :: post)).drop ((bytesOfBack (x :: post)).length - str.length) = y := by
        rw [← hl, ← hu, List.length_append, Nat.add_sub_cancel, List.drop_left]
      simp only [revToFoldLoop]
      rw [if_neg (by omega), hdrop, if_pos ((equalFold_iff rt y str).mpr he)]
    | cons z pre1 ih =>
      intro hpre
      simp only [List.cons_append, backSteps]
      rw [if_neg (show ¬ z.2 = runeError from hn z (by simp [hpre]))]
      simp only [revToFoldLoop]
      have hlen : str.length ≤ (bytesOfBack (z :: (pre1 ++ x :: post))).length := by
        have := hend.length_le
        rw [show z :: (pre1 ++ x :: post) = (z :: pre1) ++ (x :: post) from rfl, bytesOfBack_append,
          List.length_append]
        omega
      rw [if_neg (by omega), if_neg, ih (pre0 ++ [z]) (by simp [hpre])]
      intro hcon
      refine hlast pre0 z (pre1 ++ x :: post) _ (by simp [hpre]) (by simp [hpre])
        (List.drop_suffix ((bytesOfBack (z :: (pre1 ++ x :: post))).length - str.length) _) ?_ ?_
      · rw [List.length_drop]; omega
      · exact (equalFold_iff rt _ str).mp hcon
  obtain ⟨s', h1, h2⟩ := move_backTo hb hps
  refine ⟨s', ?_, h2⟩
  unfold Scanner.revToFold
  rw [head_of hb]
  simp only [Exec.bind_ret]
  rw [revItr_pieces hps, hloop [] pre rfl]
  simp [h1]

/-- `RevToFold(str)` panics on every text of one character that is shorter than `str`. -/
theorem C17_revToFold_violated (rt : Rt) (s : Scanner) (t str : Bytes) (c : Char) (hc : c.toNat ≠ 0xFFFD)
    (hb : Between s (enc c) t) (hl : (enc c).length < str.length) : s.revToFold rt str = .panic := by
  unfold Scanner.revToFold
  rw [head_of hb]
  simp only [Exec.bind_ret]
  have hbp := backPieces_encText [c]
  rw [encText_singleton] at hbp
  rw [revItr_pieces hbp]
  simp only [List.reverse_singleton, List.map_cons, List.map_nil, backSteps]
  rw [if_neg (show ¬ (c.toNat : Int) = runeError from fun h => hc (Int.ofNat.inj h))]
  simp only [revToFoldLoop, bytesOfBack_cons, bytesOfBack_nil, List.nil_append]
  rw [if_pos hl]
  rfl

-- A run time that satisfies `Rt.Ok`, and instances of the hypotheses.
def exRt : Rt := ⟨asciiLower, fun _ => true, fun n => 2 * n + 1⟩
theorem exRt_ok : exRt.Ok := ⟨fun _ _ _ _ _ _ => Iff.rfl, fun n => by show n < 2 * n + 1; omega⟩
example : FoldEq exRt b!"aBc" b!"Abc" := by rw [← equalFold_iff]; decide +kernel
example : ¬ FoldEq exRt b!"ab" b!"ac" := by rw [← equalFold_iff]; decide +kernel
example : (Scanner.new b!"xABy" Heap.empty).toFold exRt b!"ab" = .ret (true, ⟨b!"xABy", 1, none, Heap.empty⟩) := rfl
example : (Scanner.newRev b!"xABy" Heap.empty).revToFold exRt b!"ab" = .ret (true, ⟨b!"xABy", 3, none, Heap.empty⟩) := rfl

/-! ### the readers `Fold` and `AnyFold` -/

private theorem read_fold_hit (rt : Rt) (G : Env) (n : Nat) {s s' : Scanner} {str : Bytes} (h : s.ifFold rt str = .ret (true, s')) :
    read rt G (n + 1) (.fold str) s = .ret (none, s') := by
  simp [read, ifFalse, h, errorIfFalse]

private theorem read_fold_miss (rt : Rt) (G : Env) (n : Nat) {s : Scanner} {str : Bytes} (h : s.ifFold rt str = .ret (false, s)) :
    read rt G (n + 1) (.fold str) s = .ret (some (.read s.mark (b!"~" ++ quoteToGraphic rt str)), s) := by
  simp [read, ifFalse, h, errorIfFalse, Reader.what]

private theorem anyLoop_skip (rt : Rt) (G : Env) (n : Nat) (s : Scanner) (post : List Reader) : ∀ (pre : List Bytes) (es : List Err),
    (∀ w ∈ pre, s.ifFold rt w = .ret (false, s)) →
    ∃ es', anyLoop (read rt G (n + 1)) (pre.map .fold ++ post) es s = anyLoop (read rt G (n + 1)) post es' s
  | [], es, _ => ⟨es, rfl⟩
  | w :: pre, es, h => by
    obtain ⟨es', h'⟩ := anyLoop_skip rt G n s post pre (es ++ [.read s.mark (b!"~" ++ quoteToGraphic rt w)])
      (fun v hv => h v (List.mem_cons_of_mem _ hv))
    refine ⟨es', ?_⟩
    simp only [List.map_cons, List.cons_append, anyLoop, read_fold_miss rt G n (h w List.mem_cons_self), Exec.bind_ret]
    exact h'

/-- `AnyFold(list)` reads the first of its words that the text begins with up to the case, and
fails without a move when there is none, as long as no word it tries is longer than what is
left of the text.

Missing for the full property: with a longer word it panics (`C17_anyFold_violated`). -/
theorem C17_anyFold_partial (rt : Rt) (G : Env) (n : Nat) (s : Scanner) (h t : Bytes) (pre : List Bytes) (hb : Between s h t)
    (hp : ∀ w ∈ pre, ∃ x u, t = x ++ u ∧ x.length = w.length ∧ ¬ FoldEq rt x w) :
    (∀ w post x u, t = x ++ u → x.length = w.length → FoldEq rt x w →
      ∃ s', read rt G (n + 2) (mkAnyFold (pre ++ w :: post)) s = .ret (none, s') ∧ Reaches s s' (h ++ x) u) ∧
    (∃ e s', read rt G (n + 2) (mkAnyFold pre) s = .ret (some e, s') ∧ Reaches s s' h t) := by
  have hm : ∀ w ∈ pre, s.ifFold rt w = .ret (false, s) := by
    intro w hw
    obtain ⟨x, u, rfl, hl, hn⟩ := hp w hw
    exact (C17_ifFold_partial rt s h x u w hb hl).2 hn
  constructor
  · rintro w post x u rfl hl he
    obtain ⟨s', h1, h2⟩ := (C17_ifFold_partial rt s h x u w hb hl).1 he
    refine ⟨s', ?_, h2⟩
    obtain ⟨es', h'⟩ := anyLoop_skip rt G n s ((w :: post).map .fold) pre [] hm
    rw [List.map_cons] at h'
    rw [show read rt G (n + 2) (mkAnyFold (pre ++ w :: post)) s = readStep rt G (read rt G (n + 1)) (n + 1) (mkAnyFold (pre ++ w :: post)) s from read_eq_step ..]
    simp only [mkAnyFold, readStep, List.map_append, h', List.map_cons, anyLoop, read_fold_hit rt G n h1, Exec.bind_ret, Exec.pure_eq]
  · obtain ⟨es', h'⟩ := anyLoop_skip rt G n s [] pre [] hm
    rw [List.append_nil] at h'
    rw [show read rt G (n + 2) (mkAnyFold pre) s = readStep rt G (read rt G (n + 1)) (n + 1) (mkAnyFold pre) s from read_eq_step ..]
    simp only [mkAnyFold, readStep, h', anyLoop, Exec.bind_ret, Exec.pure_eq]
    obtain ⟨s', h1, h2⟩ := toMarker_to hb.1 hb.2
    exact ⟨_, s', by rw [show s.mark = s.pos from rfl, h1], h2⟩

/-- A first word that is longer than what is left makes `AnyFold` panic, whatever the others are. -/
theorem C17_anyFold_violated (rt : Rt) (G : Env) (n : Nat) (s : Scanner) (h t w : Bytes) (post : List Bytes) (hb : Between s h t)
    (hl : t.length < w.length) : read rt G (n + 2) (mkAnyFold (w :: post)) s = .panic := by
  have h1 := C17_ifFold_violated rt s h t w hb hl
  have h2 : read rt G (n + 1) (.fold w) s = .panic := by simp [read, ifFalse, h1]
  rw [show read rt G (n + 2) (mkAnyFold (w :: post)) s = readStep rt G (read rt G (n + 1)) (n + 1) (mkAnyFold (w :: post)) s from read_eq_step ..]
  simp [mkAnyFold, readStep, anyLoop, h2]

/-- `AnyFold("on", "off")` on `"OFF"`. -/
example : (read exRt [] 2 (mkAnyFold [b!"on", b!"off"]) (Scanner.new b!"OFF" Heap.empty)) =
    .ret (none, { Scanner.new b!"OFF" Heap.empty with pos := 3 }) := rfl

end Tok
