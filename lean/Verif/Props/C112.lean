/-
C112. Changing the names and contents of MXT files.
-/
import Verif.Spec.MxtEdit
import Verif.Proofs.MxtEdit
import Verif.Props.C82

namespace Tok
open Spec Spec.MxtB

/-! ### the text written anew -/

theorem splice_step (f : Bytes → Bytes → Bytes) {T : Bytes} (u x y w : Bytes) {nm : Bytes} (l : List Segment) (hT : T = u ++ x ++ y ++ w) (hn : nm ≠ []) :
    splice f T (u.length : Int) (⟨nm, ⟨(u ++ x).length, (u ++ x ++ y).length⟩⟩ :: l) = x ++ (f nm y ++ splice f T ((u ++ x ++ y).length : Int) l) := by
  have cut : ∀ a b c : Bytes, bytesFrom (a ++ b ++ c) (a.length : Int) ((a ++ b).length : Int) = b := by
    intro a b c
    unfold bytesFrom
    rw [show (((a ++ b).length : Int) - (a.length : Int)).toNat = b.length by simp only [List.length_append]; omega, Int.toNat_natCast, List.append_assoc, List.drop_left, List.take_left]
  rw [splice]
  simp only [hn, if_false]
  rw [show bytesFrom T (u.length : Int) ((u ++ x).length : Int) = x by rw [hT, List.append_assoc (u ++ x)]; exact cut u x _,
    show bytesFrom T ((u ++ x).length : Int) ((u ++ x ++ y).length : Int) = y by rw [hT]; exact cut (u ++ x) y w]

/-- One chunk; `v` is what has not been written yet. -/
theorem splice_part (f : Bytes → Bytes → Bytes) {T : Bytes} (c : MxtPart) (u v q out : Bytes) (R : List (Nat × Bytes × Bytes)) (hT : T = u ++ v ++ c.text ++ q)
    (hR : ∀ u' v', u' ++ v' = u ++ v ++ c.text → splice f T (u'.length : Int) (Mxt.segsOf (R.map MxtB.tk)) = v' ++ out) :
    splice f T (u.length : Int) (Mxt.segsOf ((MxtB.picks (u ++ v) c ++ R).map MxtB.tk)) = v ++ ((c.edit f).text ++ out) := by
  cases hb : c.body with
  | none =>
    have e : Mxt.segsOf ((MxtB.picks (u ++ v) c ++ R).map MxtB.tk) =
        ⟨b!"name", ⟨(u ++ (v ++ c.lead)).length, (u ++ (v ++ c.lead) ++ c.name).length⟩⟩ :: Mxt.segsOf (R.map MxtB.tk) := by
      simp [MxtB.picks, MxtB.bodyPick, hb, Mxt.segsOf, MxtB.tk, List.append_assoc, -List.length_append]
    rw [e, splice_step f u (v ++ c.lead) c.name (c.note ++ (b!"-->" ++ c.saltText) ++ q) _ (by simp [hT, MxtPart.text, MxtPart.headText, MxtPart.bodyText, hb]) (by decide),
      hR _ (c.note ++ (b!"-->" ++ c.saltText)) (by simp [MxtPart.text, MxtPart.headText, MxtPart.bodyText, hb])]
    simp [MxtPart.text, MxtPart.headText, MxtPart.bodyText, MxtPart.edit, MxtPart.lead, MxtPart.saltText, hb]
  | some lx =>
    obtain ⟨l, x⟩ := lx
    have e : Mxt.segsOf ((MxtB.picks (u ++ v) c ++ R).map MxtB.tk) =
        ⟨b!"name", ⟨(u ++ (v ++ c.lead)).length, (u ++ (v ++ c.lead) ++ c.name).length⟩⟩ ::
          ⟨b!"content", ⟨(u ++ (v ++ c.lead) ++ c.name ++ (c.note ++ (b!"-->" ++ c.saltText) ++ nl l)).length,
            (u ++ (v ++ c.lead) ++ c.name ++ (c.note ++ (b!"-->" ++ c.saltText) ++ nl l) ++ x).length⟩⟩ :: Mxt.segsOf (R.map MxtB.tk) := by
      simp [MxtB.picks, MxtB.bodyPick, hb, Mxt.segsOf, MxtB.tk, MxtPart.headText, List.append_assoc, -List.length_append]
    rw [e, splice_step f u (v ++ c.lead) c.name (c.note ++ (b!"-->" ++ c.saltText) ++ nl l ++ (x ++ q)) _ (by simp [hT, MxtPart.text, MxtPart.headText, MxtPart.bodyText, hb]) (by decide),
      splice_step f _ (c.note ++ (b!"-->" ++ c.saltText) ++ nl l) x q _ (by simp [hT, MxtPart.text, MxtPart.headText, MxtPart.bodyText, hb]) (by decide),
      hR _ [] (by simp [MxtPart.text, MxtPart.headText, MxtPart.bodyText, hb])]
    simp [MxtPart.text, MxtPart.headText, MxtPart.bodyText, MxtPart.edit, MxtPart.lead, MxtPart.saltText, hb]

theorem splice_parts (f : Bytes → Bytes → Bytes) {T : Bytes} (rest : Bytes) : ∀ (cs : List (Bool × MxtPart)) (u v : Bytes), T = u ++ v ++ (partsText cs ++ rest) →
    splice f T (u.length : Int) (Mxt.segsOf ((MxtB.restPicks (u ++ v) cs).map MxtB.tk)) = v ++ (partsText (editParts f cs) ++ rest)
  | [], u, v, hT => by
    show splice f T (u.length : Int) [] = _
    rw [splice, hT, Int.toNat_natCast, List.append_assoc, List.drop_left]
    rfl
  | (l, c) :: cs, u, v, hT => by
    have := splice_part f (T := T) c u (v ++ nl l) (partsText cs ++ rest) (partsText (editParts f cs) ++ rest) (MxtB.restPicks (u ++ v ++ nl l ++ c.text) cs)
      (by simp [hT, partsText]) (fun u' v' h => by
        have h1 := splice_parts f rest cs u' v' (T := T) (by simp [hT, partsText, h])
        rw [h] at h1
        simpa using h1)
    simpa [MxtB.restPicks, editParts, partsText] using this

/-! ### the basket -/

/-- What the grammar without the functions, but with the basket, gives. -/
theorem Mxt.both_mute : Env.mute (fun _ => true) Mxt.both = mxtEditEnv ∧ Reader.mute (fun _ => true) Mxt.reader = Mxt.reader := ⟨rfl, rfl⟩

theorem Mxt.both_strip : stripEnv ⟨false, true, false, false⟩ Mxt.both = Mxt.mapped ∧ strip ⟨false, true, false, false⟩ Mxt.reader = Mxt.reader := ⟨rfl, rfl⟩

theorem Mxt.both_plain (rt : Rt) :
    Mxt.both.Every (Reader.offhand rt Mxt.both ⟨false, true, false, false⟩) ∧ Mxt.reader.Every (Reader.offhand rt Mxt.both ⟨false, true, false, false⟩) := by
  have hG : Mxt.both.Every Reader.tame := (Env.everyB_sound (p := Reader.tameB) (by decide)).imp fun _ h => tame_of_B h
  have hk : ∀ rl ∈ Mxt.both, ∀ c, rl.reader = some c → c.keeps := fun rl hrl c hc => by
    have : ∀ rl ∈ Mxt.both, ∀ c ∈ rl.reader, c.restoresB = true := by decide
    exact keeps_of_restoresB (this rl hrl c hc)
  exact ⟨fun rl hrl c hc => plain_of_tame _ hG hk (hG rl hrl c hc), plain_of_tame _ hG hk ((Reader.everyB_sound Reader.tameB _ (by decide)).imp fun _ h => tame_of_B h)⟩

theorem Mxt.both_maps : Mxt.both.Every (Reader.plainMap fun _ => true) ∧ (∀ rl ∈ Mxt.both, ∀ c, rl.reader = some c → c.keeps) ∧ Mxt.reader.Every (Reader.plainMap fun _ => true) :=
  ⟨(Env.everyB_sound (p := Reader.plainMapB) (by decide)).imp fun _ h => plainMap_of_B h, fun rl hrl c hc => by
    have : ∀ rl ∈ Mxt.both, ∀ c ∈ rl.reader, c.restoresB = true := by decide
    exact keeps_of_restoresB (this rl hrl c hc), (Reader.everyB_sound Reader.plainMapB _ (by decide)).imp fun _ h => plainMap_of_B h⟩

/-- The client's grammar does what the grammar of C82 does. -/
theorem Mxt.edit_reads {rt : Rt} {t : Bytes} {m : Nat} {e : Option Err} {s1 : Scanner} (h : read rt Mxt.mapped m Mxt.reader (newWith t (some 0)) = .ret (e, s1)) :
    ∃ N s2 s3, read rt Mxt.both N Mxt.reader (newWith t (some 0)) = .ret (e, s2) ∧ read rt mxtEditEnv N Mxt.reader (newWith t (some 0)) = .ret (e, s3) ∧
      s2.pos = s1.pos ∧ s2.heap.maps = s1.heap.maps ∧ s3.full = s1.full ∧ s3.heap.baskets = s2.heap.baskets := by
  obtain ⟨pG, pr⟩ := Mxt.both_plain rt
  rw [← Mxt.both_strip.1, ← Mxt.both_strip.2] at h
  obtain ⟨N, e2, s2, h1, h2, h3⟩ := strip_ret' rt Mxt.both pG pr (newWith_inside t (some 0)) (.refl _) h
  obtain rfl := h2.eq rfl
  obtain ⟨x, hx⟩ := newWith_step (fun _ => true) t (some 0)
  obtain ⟨a, b, c⟩ := Mxt.both_maps
  obtain ⟨s3, h4, h5⟩ := C111_less_partial rt (fun _ => true) Mxt.both a b Mxt.reader c x _ _ (newWith_inside t (some 0)) hx N _ _ h1
  exact ⟨N, s2, s3, h1, h4, h3.pos.symm, (h3.maps rfl).symm, h5.full.trans h3.full.symm, h5.baskets⟩

theorem Mxt.reads_edit {rt : Rt} {t : Bytes} {n : Nat} {e : Option Err} {s : Scanner} (h : read rt mxtEditEnv n Mxt.reader (newWith t (some 0)) = .ret (e, s)) :
    ∃ m s', read rt Mxt.mapped m Mxt.reader (newWith t (some 0)) = .ret (e, s') := by
  obtain ⟨x, hx⟩ := newWith_step (fun _ => true) t (some 0)
  obtain ⟨a, b, c⟩ := Mxt.both_maps
  obtain ⟨m, s', h1, h2⟩ := C111_more_partial rt (fun _ => true) Mxt.both a b Mxt.reader c x _ _ (newWith_inside t (some 0)) hx n e s h
  obtain ⟨pG, pr⟩ := Mxt.both_plain rt
  obtain ⟨e', t', h3, h4, h5⟩ := strip_ret rt Mxt.both pG pr (newWith_inside t (some 0)) (.refl _) h1
  obtain rfl := h4.eq rfl
  exact ⟨m, t', h3⟩

/-- The basket behind a read whose calls are known; those behind the end of what was read leave no segment. -/
theorem Mxt.edit_calls {rt : Rt} {t : Bytes} {n : Nat} {s1 : Scanner} (r1 : read rt Mxt.mapped n Mxt.reader (newWith t (some 0)) = .ret (none, s1)) (hf : s1.full = t)
    {K X : List (Nat × Token)} (hm : s1.heap.maps = K ++ X) (b1 : ∀ e ∈ K, e.2.to ≤ s1.pos) (b2 : ∀ e ∈ X, s1.pos < e.2.to) :
    ∃ N s, read rt mxtEditEnv N Mxt.reader (newWith t (some 0)) = .ret (none, s) ∧ s.full = t ∧ s.heap.baskets 0 = Mxt.segsOf K ∧
      (∀ g ∈ s.heap.baskets 0, 0 ≤ g.tok.frm ∧ g.tok.frm ≤ g.tok.to ∧ g.tok.to ≤ (s.full.length : Int)) ∧ Rowed (s.heap.baskets 0) := by
  obtain ⟨N, s2, s3, h1, h2, h3, h4, h5, h6⟩ := Mxt.edit_reads r1
  have hb : Mxt.Bound (newWith t (some 0)) := ⟨⟨newWith_inside _ _, fun k hk => by
    cases hk
    exact ⟨rfl, fun g hg => by simp [newWith, Scanner.newBasket, upd_self] at hg⟩⟩, rfl⟩
  obtain ⟨s4, ts, us, k3, k4⟩ := Mxt.heard_all hb h1
  have f3 : s1.pos = s4.pos := h3.symm.trans k4.pos
  rw [f3] at b1 b2
  have e1 : ts ++ us = K ++ X := by
    have a1 : s2.heap.maps = ts ++ us := by rw [k4.maps, k3.maps]; rfl
    rw [← a1, h4, hm]
  have e2 : ts = K := by
    have := congrArg (List.filter fun e : Nat × Token => decide (e.2.to ≤ s4.pos)) e1
    have c1 : ts.filter (fun e => decide (e.2.to ≤ s4.pos)) = ts := List.filter_eq_self.mpr fun e he => by simpa using k3.tokens e he
    have c2 : us.filter (fun e => decide (e.2.to ≤ s4.pos)) = [] := List.filter_eq_nil_iff.mpr fun e he => by
      have := k4.tokens e he
      simpa using this
    have c3 : K.filter (fun e => decide (e.2.to ≤ s4.pos)) = K := List.filter_eq_self.mpr fun e he => by simpa using b1 e he
    have c4 : X.filter (fun e => decide (e.2.to ≤ s4.pos)) = [] := List.filter_eq_nil_iff.mpr fun e he => by simpa using b2 e he
    rw [List.filter_append, List.filter_append, c1, c2, c3, c4, List.append_nil, List.append_nil] at this
    exact this
  have e3 : s3.heap.baskets 0 = Mxt.segsOf ts := by
    rw [h6, k4.basket, k3.basket]
    simp [newWith, Scanner.newBasket, upd_self]
  have e4 : s4.full = t := by rw [k3.fwd.2.1]; rfl
  refine ⟨N, s3, h2, h5.trans hf, by rw [e3, e2], fun g hg => ?_, by rw [e3]; exact k3.row⟩
  rw [e3] at hg
  have w := k3.within g hg
  have w1 := k3.fwd.1.2
  rw [e4] at w1
  rw [h5, hf]
  exact ⟨w.1, w.2.1, Int.le_trans w.2.2 w1⟩

/-- The basket behind a read of chunks in front of `rest`. -/
theorem Mxt.edit_basket (rt : Rt) (c : MxtPart) (cs : List (Bool × MxtPart)) (rest : Bytes) (hp : PartsAt c cs rest) (ho : PartsOver rest)
    (hs : ∀ l q, rest = nl l ++ q → ¬ StuckHere q) :
    ∃ N s, read rt mxtEditEnv N Mxt.reader (newWith (c.text ++ (partsText cs ++ rest)) (some 0)) = .ret (none, s) ∧ s.full = c.text ++ (partsText cs ++ rest) ∧
      s.heap.baskets 0 = Mxt.segsOf ((MxtB.picks [] c ++ MxtB.restPicks c.text cs).map MxtB.tk) ∧
      (∀ g ∈ s.heap.baskets 0, 0 ≤ g.tok.frm ∧ g.tok.frm ≤ g.tok.to ∧ g.tok.to ≤ (s.full.length : Int)) ∧ Rowed (s.heap.baskets 0) := by
  obtain ⟨ex, j', k1, k2⟩ := MxtB.doc_gives (rt := rt) (h := []) (j := fun _ => []) (M := []) rfl hp ho hs
  obtain ⟨n, e, s1, r1, r2, r3⟩ := k2.reads (s := newWith (c.text ++ (partsText cs ++ rest)) (some 0)) ⟨⟨rfl, rfl⟩, rfl, rfl⟩
  cases e with
  | some e => cases r2
  | none =>
    have f2 : s1.pos = ((c.text ++ partsText cs).length : Int) := by simpa using r3.1.2
    refine Mxt.edit_calls (r1 n (Nat.le_refl n)) (by simpa using r3.1.1) (X := ex.map MxtB.tk) (by simpa using r3.2.2) (fun e he => ?_) (fun e he => ?_)
    · obtain ⟨x, hx, rfl⟩ := List.mem_map.mp he
      rw [f2]
      rcases List.mem_append.mp hx with hx | hx
      · obtain ⟨b, hb⟩ := MxtB.picks_in [] c (partsText cs) x hx
        have := congrArg List.length hb
        simp only [MxtB.tk, List.length_append, List.length_nil] at this ⊢
        omega
      · obtain ⟨b, hb⟩ := MxtB.restPicks_in cs _ x hx
        have := congrArg List.length hb
        simp only [MxtB.tk, List.length_append] at this ⊢
        omega
    · obtain ⟨x, hx, rfl⟩ := List.mem_map.mp he
      rw [f2]
      rcases k1 with ⟨_, rfl⟩ | ⟨l, q, _, hq⟩
      · cases hx
      · cases hq with
        | none => cases hx
        | name hn =>
          obtain rfl := List.mem_singleton.mp hx
          simp only [MxtB.tk]
          simp
          omega

theorem Mxt.rewrite_eq (rt : Rt) (f : Bytes → Bytes → Bytes) (n : Nat) (t : Bytes) (s : Scanner) (h : read rt mxtEditEnv n Mxt.reader (newWith t (some 0)) = .ret (none, s))
    (hl : ∀ g ∈ s.heap.baskets 0, 0 ≤ g.tok.frm ∧ g.tok.frm ≤ g.tok.to ∧ g.tok.to ≤ (s.full.length : Int)) (hr : Rowed (s.heap.baskets 0)) :
    rewriteText rt n mxtEditEnv Mxt.reader 0 f t = .ret (some (splice f s.full 0 (s.heap.baskets 0))) := by
  obtain ⟨out, rest, e1, e2⟩ := loop_splice (s := s) f (s.heap.baskets 0) 0 [] (Int.le_refl _) (by omega) hl hr
  have e3 : s.segmentate (s.heap.baskets 0) = (if rest.tok.len > 0 then out ++ [rest] else out, none) := by
    unfold Scanner.segmentate Segment.segmentate makeToken
    rw [if_neg (by omega), e1]
    simp only [List.nil_append]
  unfold rewriteText Scanner.use
  rw [show (Scanner.new t Heap.empty).newBasket 0 = newWith t (some 0) from rfl, h]
  simp only [Exec.bind_ret, Option.isSome_none, Bool.false_eq_true, if_false, Exec.pure_eq, e3, e2]

theorem splice_doc (f : Bytes → Bytes → Bytes) (c : MxtPart) (cs : List (Bool × MxtPart)) (rest : Bytes) :
    splice f (c.text ++ (partsText cs ++ rest)) 0 (Mxt.segsOf ((MxtB.picks [] c ++ MxtB.restPicks c.text cs).map MxtB.tk)) =
      (c.edit f).text ++ (partsText (editParts f cs) ++ rest) := by
  have := splice_part f (T := c.text ++ (partsText cs ++ rest)) c [] [] (partsText cs ++ rest) (partsText (editParts f cs) ++ rest) (MxtB.restPicks c.text cs) rfl (fun u' v' h => by
    have h1 := splice_parts f rest cs u' v' (T := c.text ++ (partsText cs ++ rest)) (by simp [h])
    rw [h] at h1
    simpa using h1)
  simpa using this

/-- Chunks in front of something else: the names and contents are changed, and nothing else is. -/
theorem C112_edit (rt : Rt) (f : Bytes → Bytes → Bytes) (c : MxtPart) (cs : List (Bool × MxtPart)) (rest : Bytes) (hp : PartsAt c cs rest) (ho : PartsOver rest)
    (hs : ∀ l q, rest = nl l ++ q → ¬ StuckHere q) :
    ∃ N, ∀ n, N ≤ n → rewriteText rt n mxtEditEnv Mxt.reader 0 f (c.text ++ (partsText cs ++ rest)) =
      .ret (some ((c.edit f).text ++ (partsText (editParts f cs) ++ rest))) := by
  obtain ⟨N, s, h1, h2, h3, h4, h5⟩ := Mxt.edit_basket rt c cs rest hp ho hs
  refine ⟨N, fun n hn => ?_⟩
  rw [Mxt.rewrite_eq rt f n _ s (read_mono hn h1) h4 h5, h2, h3]
  rw [splice_doc]

/-- What the client does with any text: it does not end, or gives nothing, or gives the text with the names and contents of the chunks that stand at its start changed. -/
theorem C112_client (rt : Rt) (f : Bytes → Bytes → Bytes) (t : Bytes) :
    (MxtHangs t ∧ ∀ n, rewriteText rt n mxtEditEnv Mxt.reader 0 f t = .timeout) ∨
    (¬ PartHere t ∧ ¬ StuckHere t ∧ ∃ N, ∀ n, N ≤ n → rewriteText rt n mxtEditEnv Mxt.reader 0 f t = .ret none) ∨
    ∃ c cs rest, t = c.text ++ (partsText cs ++ rest) ∧ PartsAt c cs rest ∧ PartsOver rest ∧
      ∃ N, ∀ n, N ≤ n → rewriteText rt n mxtEditEnv Mxt.reader 0 f t = .ret (some ((c.edit f).text ++ (partsText (editParts f cs) ++ rest))) := by
  rcases C82_cases rt (newWith t (some 0)) [] t rfl ⟨rfl, rfl⟩ with ⟨h1, h2⟩ | ⟨h1, h2, n, e, s', _, _, h3, _⟩ | ⟨c, cs, rest, rfl, h1, h2, h3, _⟩
  · refine .inl ⟨h1, fun n => ?_⟩
    have hS : mxtEditEnv.Every (Reader.safeHere False mxtEditEnv) := (Env.everyB_sound (p := Reader.safeB mxtEditEnv) (by decide)).imp fun _ => safeHere_of_safeB
    have hr : Mxt.reader.Every (Reader.safeHere False mxtEditEnv) := (Reader.everyB_sound (Reader.safeB mxtEditEnv) _ (by decide)).imp fun _ => safeHere_of_safeB
    have hsafe := read_safe rt mxtEditEnv hS n Mxt.reader hr (newWith t (some 0)) (newWith_inside _ _)
    unfold rewriteText Scanner.use
    rw [show (Scanner.new t Heap.empty).newBasket 0 = newWith t (some 0) from rfl]
    rcases h : read rt mxtEditEnv n Mxt.reader (newWith t (some 0)) with ⟨e, s⟩ | _ | _
    · obtain ⟨m, s', h4⟩ := Mxt.reads_edit h
      rw [h2] at h4
      cases h4
    · exact (hsafe.1 h).elim
    · rfl
  · refine .inr (.inl ⟨h1, h2, ?_⟩)
    obtain ⟨N, _, s3, _, h4, _⟩ := Mxt.edit_reads (h3 n (Nat.le_refl n))
    refine ⟨N, fun m hm => ?_⟩
    unfold rewriteText Scanner.use
    rw [show (Scanner.new t Heap.empty).newBasket 0 = newWith t (some 0) from rfl, read_mono hm h4]
    rfl
  · exact .inr (.inr ⟨c, cs, rest, rfl, h1, h2, C112_edit rt f c cs rest h1 h2 h3⟩)

/-- If the new chunks are chunks again, the functions of C54 are given the new names and contents by the next read. -/
theorem C112_again (rt : Rt) (f : Bytes → Bytes → Bytes) (c : MxtPart) (cs : List (Bool × MxtPart)) (hp : PartsAt c cs []) (hq : PartsAt (c.edit f) (editParts f cs) []) :
    ∃ N out, (∀ n, N ≤ n → rewriteText rt n mxtEditEnv Mxt.reader 0 f (c.text ++ partsText cs) = .ret (some out)) ∧
      ∃ n s' toks, (∀ m, n ≤ m → read rt Mxt.mapped m Mxt.reader (.new out Heap.empty) = .ret (none, s')) ∧ s'.heap.maps = toks ∧
        toks.map (fun t => (t.1, s'.get t.2)) = (partsYield (c.edit f) (editParts f cs)).map fun e : Nat × Bytes => (e.1, .ret e.2) := by
  obtain ⟨N, h⟩ := C112_edit rt f c cs [] hp (.inl rfl) (fun l q e => absurd e.symm (MxtB.nl_ne l))
  refine ⟨N, (c.edit f).text ++ partsText (editParts f cs), by simpa using h, ?_⟩
  obtain ⟨n, s', toks, h1, _, h2, h3⟩ := C82_yields rt (.new ((c.edit f).text ++ partsText (editParts f cs)) Heap.empty) [] _ _ hq rfl ⟨rfl, rfl⟩
  exact ⟨n, s', toks, h1, h2, h3⟩

theorem part_same (f : Bytes → Bytes → Bytes) (hf : ∀ nm x, f nm x = x) (c : MxtPart) : c.edit f = c := by
  obtain ⟨a, b, d, e, g, h, i, _ | ⟨l, x⟩⟩ := c <;> simp [MxtPart.edit, hf]

/-- A function that changes nothing gives the text, if it is given anything. -/
theorem C112_same (rt : Rt) (f : Bytes → Bytes → Bytes) (hf : ∀ nm x, f nm x = x) (t out : Bytes) (n : Nat)
    (h : rewriteText rt n mxtEditEnv Mxt.reader 0 f t = .ret (some out)) : out = t := by
  have hd : ∀ {t : Bytes} {n m : Nat} {y : Exec (Option Bytes)}, n ≤ m → rewriteText rt n mxtEditEnv Mxt.reader 0 f t = .ret (some out) →
      rewriteText rt m mxtEditEnv Mxt.reader 0 f t = y → y = .ret (some out) := by
    intro t n m y hm h1 h2
    rw [← h2]
    unfold rewriteText Scanner.use at h1 ⊢
    rcases hx : read rt mxtEditEnv n Mxt.reader ((Scanner.new t Heap.empty).newBasket 0) with x | _ | _ <;> rw [hx] at h1
    · rw [read_mono hm hx]; exact h1
    all_goals cases h1
  rcases C112_client rt f t with ⟨_, h1⟩ | ⟨_, _, N, h1⟩ | ⟨c, cs, rest, rfl, _, _, N, h1⟩
  · rw [h1] at h; cases h
  · cases hd (Nat.le_add_left n N) h (h1 _ (Nat.le_add_right N n))
  · cases hd (Nat.le_add_left n N) h (h1 _ (Nat.le_add_right N n))
    rw [part_same f hf, show editParts f cs = cs by unfold editParts; simp [part_same f hf]]

/-! ### documents of characters (C54) -/

/-- The bytes of a chunk. -/
def Spec.MxtChunk.part (c : MxtChunk) : MxtPart :=
  ⟨encText c.mark, c.gap, encText c.name, encText c.note, c.pre, encText c.salt, c.post, c.body.map fun b => (b.1, encText b.2)⟩

/-- The chunk with another name and another content. -/
def Spec.MxtChunk.edit (g : Bytes → List Char → List Char) (c : MxtChunk) : MxtChunk :=
  { c with name := g b!"name" c.name, body := c.body.map fun b => (b.1, g b!"content" b.2) }

namespace Mxt

theorem enc_spaces (n : Nat) : encText (Spec.Mxt.spaces n) = MxtB.spaces n := by
  induction n with
  | zero => rfl
  | succ n ih =>
    have e1 : Spec.Mxt.spaces (n + 1) = [' '] ++ Spec.Mxt.spaces n := List.replicate_succ
    have e2 : MxtB.spaces (n + 1) = [32] ++ MxtB.spaces n := List.replicate_succ
    rw [e1, e2, encText_append, ih]
    rfl

theorem enc_nl (l : Bool) : encText (Spec.Mxt.nl l) = MxtB.nl l := by cases l <;> rfl

theorem enc_nil {x : List Char} : encText x = [] ↔ x = [] := by
  cases x with
  | nil => simp [encText]
  | cons c x => simp [encText_ne_nil c x]

theorem part_lead (c : MxtChunk) : encText (lead c) = c.part.lead := by
  simp only [lead, MxtPart.lead, MxtChunk.part, encText_append, enc_spaces, List.append_assoc]
  rfl

theorem part_head (c : MxtChunk) : encText (headText c) = c.part.headText := by
  have e : encText c.saltText = c.part.saltText := by
    unfold MxtChunk.saltText MxtPart.saltText
    by_cases h : c.salt = []
    · simp [h, MxtChunk.part, enc_nil, enc_spaces]
    · simp [h, MxtChunk.part, enc_nil, enc_spaces, encText_append]
  simp only [headText, MxtPart.headText, encText_append, part_lead, e, List.append_assoc]
  rfl

theorem part_text (c : MxtChunk) : encText c.text = c.part.text := by
  rw [text_eq, encText_append, part_head, MxtPart.text]
  congr 1
  unfold MxtChunk.bodyText MxtPart.bodyText MxtChunk.part
  cases c.body with
  | none => rfl
  | some b => simp only [Option.map, encText_append, enc_nl]

/-- The bytes of the chunks behind it. -/
def parts (cs : List (Bool × MxtChunk)) : List (Bool × MxtPart) := cs.map fun c => (c.1, c.2.part)

theorem parts_text : ∀ cs : List (Bool × MxtChunk), encText (mxtRest cs) = partsText (parts cs)
  | [] => rfl
  | (l, c) :: cs => by
    rw [mxtRest, encText_append, encText_append, enc_nl, part_text, parts_text cs]
    rfl

theorem part_picks (p : List Char) (c : MxtChunk) : (picks p c).map (tk []) = (MxtB.picks (encText p) c.part).map MxtB.tk := by
  have e1 : tk [] (0, p ++ lead c, c.name) = MxtB.tk (0, encText p ++ c.part.lead, c.part.name) := by
    simp only [tk, MxtB.tk, encText_append, List.nil_append, part_lead]
    rfl
  have e2 : tk [] (bodyPick p c) = MxtB.tk (MxtB.bodyPick (encText p) c.part) := by
    unfold bodyPick MxtB.bodyPick
    have hb : c.part.body = c.body.map fun b => (b.1, encText b.2) := rfl
    rcases h : c.body with _ | ⟨l, x⟩ <;> rw [h] at hb <;> simp only [Option.map] at hb <;> rw [hb] <;>
      simp only [tk, MxtB.tk, encText_append, List.nil_append, part_head, enc_nl]
    rfl
  simp only [picks, MxtB.picks, List.map_cons, List.map_nil, e1, e2]

theorem part_restPicks : ∀ (cs : List (Bool × MxtChunk)) (p : List Char), (restPicks p cs).map (tk []) = (MxtB.restPicks (encText p) (parts cs)).map MxtB.tk
  | [], _ => rfl
  | (l, c) :: cs, p => by
    have e : parts ((l, c) :: cs) = (l, c.part) :: parts cs := rfl
    rw [restPicks, List.map_append, part_picks, part_restPicks cs, e, MxtB.restPicks, List.map_append]
    simp only [encText_append, enc_nl, part_text]

theorem part_edit {f : Bytes → Bytes → Bytes} {g : Bytes → List Char → List Char} (hf : ∀ nm x, f nm (encText x) = encText (g nm x)) (c : MxtChunk) : c.part.edit f = (c.edit g).part := by
  unfold MxtPart.edit MxtChunk.part MxtChunk.edit
  cases c.body <;> simp [hf]

end Mxt

/-- A document of characters, and a function that gives characters for characters. -/
theorem C112_document (rt : Rt) (f : Bytes → Bytes → Bytes) (g : Bytes → List Char → List Char) (hf : ∀ nm x, f nm (encText x) = encText (g nm x)) (c : MxtChunk)
    (cs : List (Bool × MxtChunk)) (hok : MxtOk c cs) :
    ∃ N, ∀ n, N ≤ n → rewriteText rt n mxtEditEnv Mxt.reader 0 f (encText (c.text ++ mxtRest cs)) =
      .ret (some (encText ((c.edit g).text ++ mxtRest (cs.map fun d => (d.1, d.2.edit g))))) := by
  obtain ⟨j', k2⟩ := Mxt.chunks (rt := rt) (h := []) (j := fun _ => []) (M := []) c cs hok (Mxt.after_zero c rfl)
  obtain ⟨n, e, s1, r1, r2, r3⟩ := k2.reads (s := newWith (encText (c.text ++ mxtRest cs)) (some 0)) ⟨⟨rfl, rfl⟩, rfl, rfl⟩
  cases e with
  | some e => cases r2
  | none =>
    have f1 : s1.full = encText (c.text ++ mxtRest cs) := r3.1.1.trans (by simp [CV, show encText [] = [] from rfl])
    have f2 : s1.pos = ((encText (c.text ++ mxtRest cs)).length : Int) := r3.1.2.trans (by simp [CV])
    have et : encText (c.text ++ mxtRest cs) = c.part.text ++ (partsText (Mxt.parts cs) ++ []) := by
      rw [encText_append, Mxt.part_text, Mxt.parts_text, List.append_nil]
    have em : (Mxt.picks [] c ++ Mxt.restPicks c.text cs).map (Mxt.tk []) = (MxtB.picks [] c.part ++ MxtB.restPicks c.part.text (Mxt.parts cs)).map MxtB.tk := by
      rw [List.map_append, Mxt.part_picks, Mxt.part_restPicks, Mxt.part_text, List.map_append]
      rfl
    obtain ⟨N, s, h1, h2, h3, h4, h5⟩ := Mxt.edit_calls (r1 n (Nat.le_refl n)) f1 (K := (MxtB.picks [] c.part ++ MxtB.restPicks c.part.text (Mxt.parts cs)).map MxtB.tk) (X := [])
      (by rw [← em, List.append_nil]; exact r3.2.2) (fun e he => by
        obtain ⟨x, hx, rfl⟩ := List.mem_map.mp he
        rw [f2, et]
        rcases List.mem_append.mp hx with hx | hx
        · obtain ⟨b, hb⟩ := MxtB.picks_in [] c.part (partsText (Mxt.parts cs)) x hx
          have := congrArg List.length hb
          simp only [MxtB.tk, List.length_append, List.length_nil] at this ⊢
          omega
        · obtain ⟨b, hb⟩ := MxtB.restPicks_in (Mxt.parts cs) _ x hx
          have := congrArg List.length hb
          simp only [MxtB.tk, List.length_append, List.length_nil] at this ⊢
          omega) (by simp)
    refine ⟨N, fun m hm => ?_⟩
    rw [Mxt.rewrite_eq rt f m _ s (read_mono hm h1) h4 h5, h2, h3, et, splice_doc, encText_append, Mxt.part_text, Mxt.parts_text, Mxt.part_edit hf, List.append_nil]
    rw [show editParts f (Mxt.parts cs) = Mxt.parts (cs.map fun d => (d.1, d.2.edit g)) by
      unfold editParts Mxt.parts
      rw [List.map_map, List.map_map]
      exact List.map_congr_left fun d _ => by show (d.1, d.2.part.edit f) = (d.1, (d.2.edit g).part); rw [Mxt.part_edit hf]]

/-- New names that are words, and new contents of one line that look like no marker and do not end with a carriage return: the document stays one. -/
theorem C112_lines (g : Bytes → List Char → List Char) (hn : ∀ x, Spec.Mxt.Words x → x ≠ [] → Spec.Mxt.Words (g b!"name" x) ∧ g b!"name" x ≠ [])
    (hc : ∀ x, '\n' ∉ g b!"content" x ∧ ¬ Spec.Mxt.slashes <+: g b!"content" x ∧ (g b!"content" x).getLast? ≠ some '\r') :
    ∀ (cs : List (Bool × MxtChunk)) (c : MxtChunk), MxtOk c cs → MxtOk (c.edit g) (cs.map fun d => (d.1, d.2.edit g)) := by
  have ok : ∀ c : MxtChunk, c.Ok → (c.edit g).Ok := by
    intro c h
    refine ⟨⟨h.mark, (hn _ h.name h.name_ne).1, h.salt, (hn _ h.name h.name_ne).2, h.note_head, h.first⟩, ?_⟩
    intro l x hb pre post he
    have hx : ∃ y, x = g b!"content" y := by
      obtain ⟨b, _, hb⟩ := Option.map_eq_some_iff.mp hb
      exact ⟨b.2, by cases hb; rfl⟩
    obtain ⟨y, rfl⟩ := hx
    obtain ⟨h1, h2, _⟩ := hc y
    -- the line feed is that of the line break
    have key : ∀ pre', '\n' :: g b!"content" y = pre' ++ ('\n' :: '/' :: '/' :: (c.edit g).salt) ++ post → False := by
      intro pre' he
      cases pre' with
      | nil =>
        simp only [List.nil_append, List.cons_append, List.cons.injEq, true_and] at he
        exact h2 ⟨(c.edit g).salt ++ post, by rw [he]; rfl⟩
      | cons d pre' =>
        simp only [List.cons_append, List.cons.injEq] at he
        exact h1 (by rw [he.2]; simp)
    cases l with
    | false => exact key pre he
    | true =>
      cases pre with
      | nil => simp [Spec.Mxt.nl] at he
      | cons d pre =>
        simp only [Spec.Mxt.nl, if_true, List.cons_append, List.nil_append, List.cons.injEq] at he
        exact key pre (by simpa using he.2)
  intro cs
  induction cs with
  | nil => exact fun c h => ok c h
  | cons ld cs ih =>
    obtain ⟨l, d⟩ := ld
    intro c h
    refine ⟨ok c h.1, ⟨h.2.1.salt, fun l' x hb _ => ?_⟩, ih d h.2.2⟩
    obtain ⟨b, _, hb⟩ := Option.map_eq_some_iff.mp hb
    cases hb
    exact (hc b.2).2.2

/-- Then the next read gives the new names and contents to the functions. -/
theorem C112_reread (rt : Rt) (f : Bytes → Bytes → Bytes) (g : Bytes → List Char → List Char) (hf : ∀ nm x, f nm (encText x) = encText (g nm x))
    (hn : ∀ x, Spec.Mxt.Words x → x ≠ [] → Spec.Mxt.Words (g b!"name" x) ∧ g b!"name" x ≠ [])
    (hc : ∀ x, '\n' ∉ g b!"content" x ∧ ¬ Spec.Mxt.slashes <+: g b!"content" x ∧ (g b!"content" x).getLast? ≠ some '\r') (c : MxtChunk) (cs : List (Bool × MxtChunk)) (hok : MxtOk c cs) :
    ∃ N out, (∀ n, N ≤ n → rewriteText rt n mxtEditEnv Mxt.reader 0 f (encText (c.text ++ mxtRest cs)) = .ret (some out)) ∧
      Yields rt (.new out Heap.empty) out (mxtYields (c.edit g) (cs.map fun d => (d.1, d.2.edit g))) := by
  obtain ⟨N, h⟩ := C112_document rt f g hf c cs hok
  exact ⟨N, _, h, C54_document rt (.new _ Heap.empty) [] _ _ (C112_lines g hn hc cs c hok) rfl ⟨rfl, rfl⟩⟩

/-! ### concrete cases -/

set_option maxRecDepth 20000 in
/-- Two chunks, the second with a salt and a third behind that is none. -/
example : rewriteText exRt 200 mxtEditEnv Mxt.reader 0 (fun nm x => if nm = b!"name" then x ++ b!".txt" else b!"<" ++ x ++ b!">") b!"// a -->\nu\n// b c --> X\nv\n//X \n" =
    .ret (some b!"// a.txt -->\n<u>\n// b.txt c --> X\n<v>\n//X \n") := by decide +kernel

/-- Every name gets an ending and every content is emptied but for a word: the next read of any document finds the new names. -/
example (rt : Rt) (c : MxtChunk) (cs : List (Bool × MxtChunk)) (hok : MxtOk c cs) :
    ∃ N out, (∀ n, N ≤ n → rewriteText rt n mxtEditEnv Mxt.reader 0 (fun nm x => if nm = b!"name" then x ++ b!".txt" else b!"gone") (encText (c.text ++ mxtRest cs)) = .ret (some out)) ∧
      Yields rt (.new out Heap.empty) out (mxtYields (c.edit fun nm x => if nm = b!"name" then x ++ ".txt".toList else "gone".toList)
        (cs.map fun d => (d.1, d.2.edit fun nm x => if nm = b!"name" then x ++ ".txt".toList else "gone".toList))) := by
  refine C112_reread rt _ (fun nm x => if nm = b!"name" then x ++ ".txt".toList else "gone".toList) (fun nm x => ?_) (fun x h0 h1 => ?_) (fun x => ?_) c cs hok
  · by_cases h : nm = b!"name"
    · simp only [if_pos h, encText_append]
      rfl
    · simp only [if_neg h]
      rfl
  · refine ⟨fun d hd => ?_, by simp⟩
    simp only [if_true] at hd
    rcases List.mem_append.mp hd with hd | hd
    · exact h0 d hd
    · have : ∀ d ∈ ".txt".toList, 0x21 ≤ d.toNat := by decide
      exact this d hd
  · have e : (if b!"content" = b!"name" then x ++ ".txt".toList else "gone".toList) = "gone".toList := if_neg (by decide)
    simp only [e]
    decide

set_option maxRecDepth 20000 in
/-- A new content may look like the marker of a chunk: the next read finds two chunks where one was changed. -/
theorem C112_chunk_violated : ∃ f : Bytes → Bytes → Bytes, (∀ x, f b!"name" x = x) ∧ ∃ out, rewriteText exRt 200 mxtEditEnv Mxt.reader 0 f b!"// a -->\nu" = .ret (some out) ∧
    ∃ s, read exRt Mxt.mapped 200 Mxt.reader (.new out Heap.empty) = .ret (none, s) ∧
      s.heap.maps.map (fun t => (t.1, s.get t.2)) = [(0, .ret b!"a"), (2, .ret b!"u"), (0, .ret b!"b"), (2, .ret b!"v")] := by
  refine ⟨fun nm x => if nm = b!"content" then b!"u\n// b -->\nv" else x, fun _ => rfl, b!"// a -->\nu\n// b -->\nv", by decide +kernel, ?_⟩
  rcases h : read exRt Mxt.mapped 200 Mxt.reader (.new b!"// a -->\nu\n// b -->\nv" Heap.empty) with ⟨e, s⟩ | _ | _
  · have h0 : (match read exRt Mxt.mapped 200 Mxt.reader (.new b!"// a -->\nu\n// b -->\nv" Heap.empty) with
        | .ret (none, s) => decide (s.heap.maps.map (fun t => (t.1, s.get t.2)) = [(0, .ret b!"a"), (2, .ret b!"u"), (0, .ret b!"b"), (2, .ret b!"v")])
        | _ => false) = true := by decide +kernel
    rw [h] at h0
    cases e with
    | some e => cases h0
    | none => exact ⟨s, rfl, of_decide_eq_true h0⟩
  all_goals
    have h0 : (match read exRt Mxt.mapped 200 Mxt.reader (.new b!"// a -->\nu\n// b -->\nv" Heap.empty) with | .ret _ => true | _ => false) = true := by decide +kernel
    rw [h] at h0
    cases h0

/-- Behind an unreadable last chunk nothing is changed, even its name. -/
example : rewriteText exRt 200 mxtEditEnv Mxt.reader 0 (fun _ _ => b!"z") b!"// a -->\nu\n// b" = .ret (some b!"// z -->\nz\n// b") := by decide +kernel

end Tok
