/-
C92 Every list of files can be stored in an MXT document.
-/
import Verif.Spec.MxtWrite
import Verif.Props.C81

namespace Tok
open Spec Spec.Mxt

namespace Mxt

/-- The chunk of a file. -/
def fileChunk (salt : List Char) (f : List Char × List Char) : MxtChunk := ⟨salt, 0, f.1, [' '], 0, salt, 0, some (false, f.2)⟩

theorem fileChunk_text {salt : List Char} (hs : salt ≠ []) (f : List Char × List Char) : (fileChunk salt f).text = mxtFile salt f.1 f.2 := by
  simp [fileChunk, MxtChunk.text, MxtChunk.saltText, MxtChunk.bodyText, mxtFile, hs, slashes, arrowText, spaces, nl]

theorem write_text {salt : List Char} (hs : salt ≠ []) (f : List Char × List Char) (fs : List (List Char × List Char)) :
    mxtWrite salt (f :: fs) = (fileChunk salt f).text ++ mxtRest (fs.map fun g => (true, fileChunk salt g)) := by
  induction fs generalizing f with
  | nil => simp [mxtWrite, mxtRest, fileChunk_text hs]
  | cons g gs ih =>
    rw [mxtWrite, ih g, ← fileChunk_text hs, List.map_cons, mxtRest]
    simp [nl]

theorem fileChunk_ok {salt : List Char} {f : List Char × List Char} (h1 : Words salt) (h2 : Words f.1 ∧ f.1 ≠ []) (h3 : ¬ ("\n//".toList ++ salt) <:+: '\n' :: f.2) :
    (fileChunk salt f).Ok := by
  refine ⟨⟨h1, h2.1, h1, h2.2, ⟨' ', [], rfl, by decide⟩, first_bool [' '] (by decide)⟩, ?_⟩
  intro l cs e pre post he
  cases e
  exact h3 ⟨pre, post, by simpa [nl, fileChunk] using he.symm⟩

theorem files_ok {salt : List Char} : ∀ {f : List Char × List Char} {fs : List (List Char × List Char)}, MxtFits salt (f :: fs) →
    MxtOk (fileChunk salt f) (fs.map fun g => (true, fileChunk salt g))
  | f, [], h => fileChunk_ok h.salt (h.names f (by simp)) (h.apart f (by simp))
  | f, g :: gs, h =>
    ⟨fileChunk_ok h.salt (h.names f (by simp)) (h.apart f (by simp)), ⟨List.prefix_rfl, fun _ _ _ e => by cases e⟩,
      files_ok ⟨h.salt, h.salt_ne, fun f hf => h.names f (List.mem_cons_of_mem _ hf), fun f hf => h.apart f (List.mem_cons_of_mem _ hf)⟩⟩

end Mxt

/-- What the map functions of names and contents shall be given. -/
def Spec.mxtFiles (fs : List (List Char × List Char)) : List (Nat × List Char) := fs.flatMap fun f => [(0, f.1), (2, f.2)]

/-- A document that was written with a salt that keeps its files apart is read to its end by every reader, whatever it has read before, and
yields exactly the names and contents, in their order. -/
theorem C92_reads (rt : Rt) (s : Scanner) (h : Bytes) (salt : List Char) (fs : List (List Char × List Char)) (hne : fs ≠ []) (hf : MxtFits salt fs)
    (hb : Between s h (encText (mxtWrite salt fs))) : Yields rt s (h ++ encText (mxtWrite salt fs)) (mxtFiles fs) := by
  obtain ⟨f, fs, rfl⟩ := List.exists_cons_of_ne_nil hne
  rw [Mxt.write_text hf.salt_ne] at hb ⊢
  have ha : Mxt.after (Mxt.fileChunk salt f) s.heap.janus 0 = encText (Mxt.fileChunk salt f).salt := by
    unfold Mxt.after
    rw [if_neg (fun h => hf.salt_ne h.1)]
    simp [upd]
  have := Mxt.document rt s h _ _ (Mxt.files_ok hf) ha hb
  rwa [show mxtYields (Mxt.fileChunk salt f) (fs.map fun g => (true, Mxt.fileChunk salt g)) = mxtFiles (f :: fs) by
    simp [mxtYields, mxtFiles, MxtChunk.yields, Mxt.fileChunk, List.flatMap_map]] at this

theorem Mxt.le_sum {n : Nat} : ∀ {l : List Nat}, n ∈ l → n ≤ l.sum
  | m :: l, h => by
    rw [List.sum_cons]
    rcases List.mem_cons.mp h with rfl | h
    · omega
    · have := Mxt.le_sum h
      omega

/-- There is such a salt for every list of files. -/
theorem C92_salt (fs : List (List Char × List Char)) (hn : ∀ f ∈ fs, Words f.1 ∧ f.1 ≠ []) : ∃ salt, MxtFits salt fs := by
  refine ⟨List.replicate ((fs.map fun f => f.2.length).sum + 1) '!', ?_, by simp [List.replicate_succ], hn, ?_⟩
  · intro c hc
    rw [List.eq_of_mem_replicate hc]
    decide
  · intro f hf hi
    have h1 := hi.length_le
    have h2 : f.2.length ≤ (fs.map fun f => f.2.length).sum := Mxt.le_sum (List.mem_map.mpr ⟨f, hf, rfl⟩)
    simp at h1
    omega

/-- So every list of names and contents, whatever characters the contents consist of, can be stored and read back. -/
theorem C92_any (fs : List (List Char × List Char)) (hne : fs ≠ []) (hn : ∀ f ∈ fs, Words f.1 ∧ f.1 ≠ []) :
    ∃ t : List Char, ∀ (rt : Rt) (s : Scanner) (h : Bytes), Between s h (encText t) → Yields rt s (h ++ encText t) (mxtFiles fs) := by
  obtain ⟨salt, hs⟩ := C92_salt fs hn
  exact ⟨mxtWrite salt fs, fun rt s h hb => C92_reads rt s h salt fs hne hs hb⟩

theorem Mxt.yields_det {rt : Rt} {s : Scanner} {t t' : Bytes} {x y : List (Nat × List Char)} (h : Yields rt s t x) (h' : Yields rt s t' y) : x = y := by
  obtain ⟨n, s1, toks, r1, _, r2, r3⟩ := h
  obtain ⟨m, s2, toks', q1, _, q2, q3⟩ := h'
  have := (r1 (n + m) (by omega)).symm.trans (q1 (n + m) (by omega))
  cases this
  rw [r2] at q2
  have := List.append_cancel_left q2
  subst this
  rw [r3] at q3
  refine (List.map_injective_iff.mpr ?_) q3
  rintro ⟨a, b⟩ ⟨c, d⟩ e
  simp only [Prod.mk.injEq, Exec.ret.injEq] at e
  rw [e.1, encText_inj e.2]

theorem Mxt.files_inj {fs gs : List (List Char × List Char)} (h : mxtFiles fs = mxtFiles gs) : fs = gs := by
  induction fs generalizing gs with
  | nil =>
    cases gs with
    | nil => rfl
    | cons g gs => simp [mxtFiles] at h
  | cons f fs ih =>
    cases gs with
    | nil => simp [mxtFiles] at h
    | cons g gs =>
      simp only [mxtFiles, List.flatMap_cons, List.cons_append, List.nil_append, List.cons.injEq, Prod.mk.injEq, true_and] at h
      rw [ih h.2.2, Prod.ext h.1 h.2.1]

/-- Different lists of files have different documents, whatever the salts. -/
theorem C92_differ (salt salt' : List Char) (fs gs : List (List Char × List Char)) (hf : MxtFits salt fs) (hg : MxtFits salt' gs) (h1 : fs ≠ []) (h2 : gs ≠ [])
    (he : mxtWrite salt fs = mxtWrite salt' gs) : fs = gs := by
  have hb : Between (.new (encText (mxtWrite salt fs)) Heap.empty) [] (encText (mxtWrite salt fs)) := ⟨rfl, rfl⟩
  have hb' := hb
  conv at hb' => arg 3; rw [he]
  exact Mxt.files_inj (Mxt.yields_det (C92_reads exRt _ _ salt fs h1 hf hb) (C92_reads exRt _ _ salt' gs h2 hg hb'))

namespace Mxt

/-- The header of a file is read as it was written. -/
theorem head_file {salt name z r : List Char} {c : MxtChunk} {l : Bool} {cs : List Char} (h1 : Words salt) (h2 : salt ≠ []) (h3 : Words name) (h4 : name ≠ [])
    (hc : c.Head) (hy : c.body = some (l, cs)) (he : c.text ++ r = mxtFile salt name z) : c.salt = salt ∧ name = c.name ∧ l = false ∧ cs ++ r = z := by
  obtain ⟨d, ds, hd, hl⟩ := hc.note_head
  have n1 : Named (c.text ++ r) c.mark c.gap c.name (c.note ++ (arrowText ++ (c.saltText ++ (nl l ++ cs ++ r)))) :=
    ⟨by simp [MxtChunk.text, MxtChunk.bodyText, hy], hc.mark, hc.name, hc.name_ne, by
      intro x v e
      rw [hd] at e
      simp only [List.cons_append, List.cons.injEq] at e
      rw [← e.1]
      exact hl⟩
  have n2 : Named (c.text ++ r) salt 0 name (' ' :: (arrowText ++ (' ' :: (salt ++ ('\n' :: z))))) :=
    ⟨by rw [he]; simp [mxtFile, slashes, spaces, arrowText], h1, h3, h4, by
      intro x v e
      cases e
      decide⟩
  obtain ⟨_, e2, e3⟩ := named_unique n1 n2
  -- the arrow
  rw [hd, List.cons_append, List.cons.injEq] at e3
  obtain ⟨rfl, e3⟩ := e3
  have hds : ds = [] := by
    match ds, e3, hd with
    | [], _, _ => rfl
    | [x], e3, hd => simp [arrowText] at e3
    | [x, y], e3, hd => simp [arrowText] at e3
    | x :: y :: w :: ds, e3, hd =>
      simp only [arrowText, List.cons_append, List.cons.injEq] at e3
      obtain ⟨rfl, rfl, rfl, _⟩ := e3
      have := hc.first [' '] (ds ++ arrowText) (by rw [hd]; simp [arrowText])
      simp [arrowText] at this
  subst hds
  have e4 := List.append_cancel_left (as := arrowText) (by simpa using e3)
  have hws : NoSpace (salt ++ '\n' :: z) := by
    obtain ⟨a, as, rfl⟩ := List.exists_cons_of_ne_nil h2
    intro u e
    simp only [List.cons_append, List.cons.injEq] at e
    have := h1 a (by simp)
    rw [e.1] at this
    exact absurd this (by decide)
  have hnl : ∀ w, NoSpace (nl l ++ w) := by
    intro w u e
    cases l <;> simp [nl] at e
  have hst : ∀ w, Stop (nl l ++ w) := by
    intro w x u e
    cases l <;> (simp [nl] at e; rw [← e.1]; decide)
  have e5 : ' ' :: (salt ++ '\n' :: z) = spaces 1 ++ (salt ++ '\n' :: z) := rfl
  rw [e5] at e4
  unfold MxtChunk.saltText at e4
  split at e4
  · exfalso
    obtain ⟨_, e6⟩ := spaces_noSpace (by simpa [List.append_assoc] using e4) (hnl _) hws
    have h6 := words_stop (x := []) (by simpa using e6) (by simp [Words]) h1 (by simpa using hst (cs ++ r)) (by intro x u e; cases e; decide)
    exact h2 h6.1.symm
  · rename_i hne
    have hws' : NoSpace (c.salt ++ (spaces c.post ++ (nl l ++ (cs ++ r)))) := by
      obtain ⟨a, as, ha⟩ := List.exists_cons_of_ne_nil hne
      intro u e
      rw [ha] at e
      simp only [List.cons_append, List.cons.injEq] at e
      have := hc.salt a (by rw [ha]; simp)
      rw [e.1] at this
      exact absurd this (by decide)
    obtain ⟨_, e6⟩ := spaces_noSpace (by simpa [List.append_assoc] using e4) hws' hws
    obtain ⟨e7, e8⟩ := words_stop e6 hc.salt h1 (by
      intro x u e
      cases hp : c.post with
      | zero =>
        rw [hp] at e
        exact hst _ x u e
      | succ n =>
        rw [hp] at e
        simp only [spaces, List.replicate_succ, List.cons_append, List.cons.injEq] at e
        rw [← e.1]
        decide) (by intro x u e; cases e; decide)
    obtain ⟨_, e9⟩ := spaces_noSpace (n := c.post) (m := 0) (by simpa [spaces] using e8) (hnl _) (by intro u e; cases e)
    refine ⟨e7, e2.symm, ?_⟩
    cases l with
    | false => exact ⟨rfl, by simpa [nl] using e9⟩
    | true => simp [nl] at e9

theorem file_split (salt name content r : List Char) : mxtFile salt name content ++ r = mxtFile salt name (content ++ r) := by
  simp [mxtFile]

/-- The chunks of a document are the files, if the map functions were given their names and contents. -/
theorem files_apart {salt : List Char} (h1 : Words salt) (h2 : salt ≠ []) : ∀ {fs : List (List Char × List Char)} {f : List Char × List Char} {c : MxtChunk} {cs : List (Bool × MxtChunk)},
    (∀ g ∈ f :: fs, Words g.1 ∧ g.1 ≠ []) → MxtOk c cs → mxtWrite salt (f :: fs) = c.text ++ mxtRest cs → mxtYields c cs = mxtFiles (f :: fs) →
    ∀ g ∈ f :: fs, ¬ ("\n//".toList ++ salt) <:+: '\n' :: g.2 := by
  intro fs f c cs hn hk he hy
  have hh : c.Ok := by
    cases cs with
    | nil => exact hk
    | cons d cs => exact hk.1
  have hyc : ∃ l, c.body = some (l, f.2) := by
    simp only [mxtYields, mxtFiles, MxtChunk.yields, List.flatMap_cons, List.cons_append, List.nil_append, List.cons.injEq, Prod.mk.injEq, true_and] at hy
    cases hb : c.body with
    | none => simp [hb] at hy
    | some x =>
      simp only [hb, Prod.mk.injEq, true_and] at hy
      exact ⟨x.1, by rw [← hy.2.1]⟩
  obtain ⟨l, hb⟩ := hyc
  have hw : ∃ w, mxtWrite salt (f :: fs) = mxtFile salt f.1 (f.2 ++ w) ∧ (fs = [] ∧ w = [] ∨ ∃ g gs, fs = g :: gs ∧ w = "\r\n".toList ++ mxtWrite salt (g :: gs)) := by
    cases fs with
    | nil => exact ⟨[], by simp [mxtWrite], .inl ⟨rfl, rfl⟩⟩
    | cons g gs => exact ⟨_, by rw [mxtWrite, List.append_assoc, file_split], .inr ⟨g, gs, rfl, rfl⟩⟩
  obtain ⟨w, hw1, hw2⟩ := hw
  obtain ⟨k1, k2, k3, k4⟩ := head_file h1 h2 (hn f (by simp)).1 (hn f (by simp)).2 hh.toHead hb (he.symm.trans hw1)
  have k5 := List.append_cancel_left k4
  subst k3
  have hf : ¬ ("\n//".toList ++ salt) <:+: '\n' :: f.2 := by
    rintro ⟨a, b, e⟩
    exact hh.clean false f.2 hb a b (by rw [k1]; simpa [nl] using e.symm)
  rcases hw2 with ⟨rfl, rfl⟩ | ⟨f', fs', rfl, rfl⟩
  · intro g hg
    rw [List.mem_singleton.mp hg]
    exact hf
  · cases cs with
    | nil => simp [mxtRest] at k5
    | cons d cs =>
      obtain ⟨l', d⟩ := d
      have : l' = true := by
        cases l' with
        | true => rfl
        | false => simp [mxtRest, nl] at k5
      subst this
      have ih := files_apart h1 h2 (fs := fs') (f := f') (c := d) (cs := cs) (fun g hg => hn g (List.mem_cons_of_mem _ hg)) hk.2.2
        (by simpa [mxtRest, nl] using k5.symm) (by
          simp only [mxtYields, mxtFiles, List.flatMap_cons, MxtChunk.yields, hb] at hy ⊢
          simpa using (by simpa using hy : _ ∧ _).2)
      intro g hg
      rcases List.mem_cons.mp hg with rfl | hg
      · exact hf
      · exact ih g hg

end Mxt

/-- A new reader yields the names and contents of a written document exactly if the salt keeps them apart. -/
theorem C92_exact (rt : Rt) (s : Scanner) (h : Bytes) (salt : List Char) (fs : List (List Char × List Char)) (hne : fs ≠ []) (h1 : Words salt) (h2 : salt ≠ [])
    (hn : ∀ f ∈ fs, Words f.1 ∧ f.1 ≠ []) (hj : s.heap.janus 0 = []) (hb : Between s h (encText (mxtWrite salt fs))) :
    Yields rt s (h ++ encText (mxtWrite salt fs)) (mxtFiles fs) ↔ ∀ f ∈ fs, ¬ ("\n//".toList ++ salt) <:+: '\n' :: f.2 := by
  refine ⟨?_, fun ha => C92_reads rt s h salt fs hne ⟨h1, h2, hn, ha⟩ hb⟩
  rintro ⟨n, s', toks, q1, q2, q3, q4⟩
  obtain ⟨f, fs, rfl⟩ := List.exists_cons_of_ne_nil hne
  obtain ⟨c, cs, rest, names, toks', r1, r2, r3, r4, r5, r6, r7⟩ := C81_sound_partial rt s s' h _ hj hb n (q1 n (Nat.le_refl n))
  have hr : rest = [] := by
    have e := q2.2.symm.trans r5.2
    rw [r1] at e
    have := Int.ofNat.inj e
    simp only [← List.append_assoc, encText_append, List.length_append] at this
    cases rest with
    | nil => rfl
    | cons d rest =>
      exfalso
      have h8 : encText (d :: rest) = [] := List.length_eq_zero_iff.mp (by omega)
      have := encText_inj (h8.trans encText_nil.symm)
      cases this
  subst hr
  rw [r6] at q3
  have := List.append_cancel_left q3
  subst this
  have hnm : names = [] := by
    rcases r4 with ⟨h, _⟩ | ⟨l, q, name, h, _⟩
    · exact h
    · cases l <;> simp [nl] at h
  subst hnm
  rw [r7] at q4
  have e : mxtYields c cs ++ [] = mxtFiles (f :: fs) := by
    refine (List.map_injective_iff.mpr ?_) (by simpa using q4)
    rintro ⟨a, b⟩ ⟨c, d⟩ e
    simp only [Prod.mk.injEq, Exec.ret.injEq] at e
    rw [e.1, encText_inj e.2]
  exact Mxt.files_apart h1 h2 hn r2 (by simpa using r1) (by simpa using e)

/-- So no salt is good for all contents. -/
theorem C92_fixed_violated (salt name : List Char) (h1 : Words salt) (h2 : salt ≠ []) (h3 : Words name) (h4 : name ≠ []) :
    ∃ content, ∀ (rt : Rt) (s : Scanner) (h : Bytes), s.heap.janus 0 = [] → Between s h (encText (mxtWrite salt [(name, content)])) →
      ¬ Yields rt s (h ++ encText (mxtWrite salt [(name, content)])) [(0, name), (2, content)] := by
  refine ⟨"//".toList ++ salt, fun rt s h hj hb hy => ?_⟩
  refine (C92_exact rt s h salt [(name, _)] (by simp) h1 h2 (by simpa using ⟨h3, h4⟩) hj hb).mp hy _ (List.mem_singleton.mpr rfl) ?_
  exact ⟨[], [], by simp⟩

/-- Two files, the second one itself a document. -/
example : MxtFits "!".toList [("a".toList, "one\r".toList), ("b".toList, "//# c --> #\nx\n//# d --> #".toList)] where
  salt := by simp [Words]
  salt_ne := by simp
  names := by simp [Words]
  apart f hf hi := by
    have : '!' ∈ '\n' :: f.2 := hi.subset (by simp)
    rcases List.mem_pair.mp hf with rfl | rfl <;> simp at this

example : mxtWrite "!".toList [("a".toList, "one\r".toList), ("b".toList, "//# c --> #".toList)] =
    "//! a --> !\none\r\r\n//! b --> !\n//# c --> #".toList := rfl

end Tok
