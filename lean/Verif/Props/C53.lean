/-
C53 Comments and long brackets of the Lua grammar.
-/
import Verif.Proofs.Gives
import Verif.Proofs.PegChars
import Verif.Props.C52
import Verif.Spec.Lua

namespace Tok
open Spec

/-! ### characters and bytes -/

/-- A prefix of a text that starts with the characters `ds`. -/
theorem encText_prefix : ∀ {p ds : List Char} {t : Bytes}, encText p <+: encText ds ++ t → p <+: ds ∨ ds <+: p
  | [], _, _, _ => .inl List.nil_prefix
  | _ :: _, [], _, _ => .inr List.nil_prefix
  | c :: p, d :: ds, t, ⟨u, hu⟩ => by
    rw [encText_cons, encText_cons, List.append_assoc, List.append_assoc] at hu
    obtain ⟨rfl, h2⟩ := enc_append_inj hu
    rcases encText_prefix (p := p) (ds := ds) (t := t) ⟨u, h2⟩ with h | h
    · exact .inl (by simpa using h)
    · exact .inr (by simpa using h)

namespace Lua

/-- The closing bracket of a pair. -/
def close (id : Nat) : Reader := .seq [.rune ((']' : Char).toNat), .janusEnd id [], .rune ((']' : Char).toNat)]
/-- The equal signs of the opening bracket. -/
def level (id : Nat) : Reader := .janusBegin id [] (.zom (.lit b!"="))

theorem long_eq (id : Nat) (beg : Reader) : Lua.long id (.reader beg) = .seq [.seq [beg, level id, .rune (('[' : Char).toNat)], .past (close id)] := rfl

variable {rt : Rt} {G : Env} {id : Nat} {h t : Bytes} {j : Nat → Bytes} {M : List (Nat × Token)}

theorem close_yes {e : Bytes} (hj : j id = e) : Gives rt G (close id) ⟨h, enc ']' ++ (e ++ (enc ']' ++ t)), j, M⟩ true ⟨h ++ enc ']' ++ e ++ enc ']', t, upd j id [], M⟩ :=
  .seq (.cons .rune (.cons (.janusEnd hj) (.cons .rune .nil)))

/-- No bracket here. -/
theorem close_no {c : Char} (hc : c ≠ ']') : Gives rt G (close id) ⟨h, enc c ++ t, j, M⟩ false ⟨h, enc c ++ t, j, M⟩ :=
  .seq_no (.fail (.rune_no hc))

/-- A bracket, but not with the level. -/
theorem close_other (hn : ¬ j id <+: t) : Gives rt G (close id) ⟨h, enc ']' ++ t, j, M⟩ false ⟨h, enc ']' ++ t, j, M⟩ :=
  .seq_no (.cons .rune (.fail (.janusEnd_no hn)))

/-- A bracket with the level, but not closed: the level is forgotten. -/
theorem close_half {e : Bytes} {c : Char} (hj : j id = e) (hc : c ≠ ']') :
    Gives rt G (close id) ⟨h, enc ']' ++ (e ++ (enc c ++ t)), j, M⟩ false ⟨h, enc ']' ++ (e ++ (enc c ++ t)), upd j id [], M⟩ :=
  .seq_no (.cons .rune (.cons (.janusEnd hj) (.fail (.rune_no hc))))

/-- Level 0: the search ends behind the first `]]`. -/
theorem past_zero : ∀ (cs : List Char) (h : Bytes) (j : Nat → Bytes), j id = [] → FirstClose 0 cs →
    ∃ j', Gives rt G (.past (close id)) ⟨h, encText cs ++ (encText (luaClose 0) ++ t), j, M⟩ true ⟨h ++ encText cs ++ encText (luaClose 0), t, j', M⟩
  | [], h, j, hj, _ => by
    have := close_yes (rt := rt) (G := G) (id := id) (h := h) (t := t) (j := j) (M := M) hj
    refine ⟨upd j id [], .past_hit (by simp [luaClose, encText, enc_ne_nil]) ?_⟩
    simpa [luaClose, encText] using this
  | c :: cs, h, j, hj, hf => by
    have hf' : FirstClose 0 cs := fun pre post e => hf (c :: pre) post (by simp only [List.cons_append, e])
    have key : ∃ j1, j1 id = [] ∧ Gives rt G (close id) ⟨h, enc c ++ (encText cs ++ (encText (luaClose 0) ++ t)), j, M⟩ false
        ⟨h, enc c ++ (encText cs ++ (encText (luaClose 0) ++ t)), j1, M⟩ := by
      by_cases hc : c = ']'
      · subst hc
        cases cs with
        | nil => exact absurd (hf [] [']'] rfl) (by simp)
        | cons d cs =>
          have hd : d ≠ ']' := by
            rintro rfl
            have := hf [] (cs ++ luaClose 0) rfl
            simp [luaClose] at this
          have := close_half (rt := rt) (G := G) (id := id) (h := h) (t := encText cs ++ (encText (luaClose 0) ++ t)) (j := j) (M := M) hj hd
          exact ⟨upd j id [], by simp [upd], by simpa [encText_cons] using this⟩
      · exact ⟨j, hj, close_no hc⟩
    obtain ⟨j1, hj1, hk⟩ := key
    obtain ⟨j', ih⟩ := past_zero cs (h ++ enc c) j1 hj1 hf'
    refine ⟨j', ?_⟩
    rw [encText_cons, List.append_assoc]
    have := Gives.past_step (a := ⟨h, enc c ++ (encText cs ++ (encText (luaClose 0) ++ t)), j, M⟩) (by simp [enc_ne_nil]) hk ih
    simpa using this

/-- Characters at which no bracket with the level stands are passed. -/
theorem past_skip {c : View} : ∀ (cs : List Char) (h : Bytes), (∀ pre post, cs = pre ++ ']' :: post → ¬ j id <+: encText post ++ t) →
    Gives rt G (.past (close id)) ⟨h ++ encText cs, t, j, M⟩ true c → Gives rt G (.past (close id)) ⟨h, encText cs ++ t, j, M⟩ true c
  | [], h, _, hg => by simpa [encText] using hg
  | d :: cs, h, hn, hg => by
    rw [encText_cons, List.append_assoc]
    have ih := past_skip cs (h ++ enc d) (fun pre post e => hn (d :: pre) post (by rw [e]; rfl)) (by simpa [encText_cons] using hg)
    refine Gives.past_step (by simp [enc_ne_nil]) ?_ ih
    by_cases hd : d = ']'
    · subst hd
      exact close_other (hn [] cs rfl)
    · exact close_no hd

theorem encText_eqs (k : Nat) : encText (List.replicate k '=') = List.replicate k 61 := by
  induction k with
  | zero => rfl
  | succ k ih => rw [List.replicate_succ, encText_cons, ih]; rfl

/-- The search for a closing bracket of level `k`, with no other bracket of that many equal signs before it. -/
theorem past_level {k : Nat} {cs : List Char} (hj : j id = List.replicate k 61) (hn : NoHalf k cs) :
    ∃ j', Gives rt G (.past (close id)) ⟨h, encText cs ++ (encText (luaClose k) ++ t), j, M⟩ true ⟨h ++ encText cs ++ encText (luaClose k), t, j', M⟩ := by
  refine ⟨_, past_skip cs h (fun pre post e hp => ?_) (.past_hit (by simp [luaClose, encText_cons, enc_ne_nil]) (b := ⟨_, _, upd j id [], M⟩) ?_)⟩
  · subst e
    rw [hj, ← encText_eqs, ← List.append_assoc, ← encText_append] at hp
    rcases encText_prefix hp with ⟨u, hu⟩ | hu
    · have := hn pre u (by simp only [List.append_assoc, List.cons_append, hu])
      simp at this
    · have hm : ']' ∈ List.replicate k '=' := hu.subset (by simp [luaClose])
      have := List.eq_of_mem_replicate hm
      cases this
  · have := close_yes (rt := rt) (G := G) (id := id) (h := h ++ encText cs) (t := t) (j := j) (M := M) hj
    simpa [luaClose, encText_cons, encText_append, encText_eqs, encText_nil] using this

/-! ### the opening bracket -/

/-- The equal signs of an opening bracket. -/
theorem eqs : ∀ (k : Nat) (h : Bytes), ¬ b!"=" <+: t → Gives rt G (.zom (.lit b!"=")) ⟨h, List.replicate k 61 ++ t, j, M⟩ true ⟨h ++ List.replicate k 61, t, j, M⟩
  | 0, h, hn => .zom_stop (by simpa using Gives.lit_no hn)
  | k + 1, h, hn => by
    have ih := eqs k (h ++ b!"=") hn
    have := Gives.zom_step (Gives.lit (rt := rt) (G := G) (x := b!"=") (h := h) (t := List.replicate k 61 ++ t) (j := j) (M := M)) ih
    simpa [List.replicate_succ] using this

theorem level_yes {k : Nat} (hn : ¬ b!"=" <+: t) :
    Gives rt G (level id) ⟨h, List.replicate k 61 ++ t, j, M⟩ true ⟨h ++ List.replicate k 61, t, upd j id (List.replicate k 61), M⟩ :=
  .janusBegin (eqs k h hn) rfl

theorem not_eq_enc {c : Char} (hc : c ≠ '=') : ¬ b!"=" <+: enc c ++ t := by
  rintro ⟨u, hu⟩
  exact hc (enc_append_inj (c := '=') (c' := c) (t := u) hu).1.symm

/-- The whole bracket, given what opens it. -/
theorem long_yes {beg : Reader} {x : Bytes} {k : Nat} {y t : Bytes} {j' : Nat → Bytes}
    (hb : Gives rt G beg ⟨h, x ++ (List.replicate k 61 ++ (enc '[' ++ (y ++ t))), j, M⟩ true ⟨h ++ x, List.replicate k 61 ++ (enc '[' ++ (y ++ t)), j, M⟩)
    (hp : Gives rt G (.past (close id)) ⟨h ++ x ++ List.replicate k 61 ++ enc '[', y ++ t, upd j id (List.replicate k 61), M⟩ true
      ⟨h ++ x ++ List.replicate k 61 ++ enc '[' ++ y, t, j', M⟩) :
    Gives rt G (.seq [.seq [beg, level id, .rune (('[' : Char).toNat)], .past (close id)]) ⟨h, x ++ (List.replicate k 61 ++ (enc '[' ++ (y ++ t))), j, M⟩ true
      ⟨h ++ x ++ List.replicate k 61 ++ enc '[' ++ y, t, j', M⟩ :=
  .seq (.cons (.seq (.cons hb (.cons (level_yes (not_eq_enc (by decide))) (.cons .rune .nil)))) (.cons hp .nil))

end Lua

/-! ### the rules -/

namespace Lua
variable {rt : Rt} {h t : Bytes} {j j' : Nat → Bytes} {M : List (Nat × Token)}

theorem string_rule {k : Nat} {y : Bytes} (hp : Gives rt Lua.env (.past (close 0)) ⟨h ++ encText (luaOpen k), y ++ t, upd j 0 (List.replicate k 61), M⟩ true
      ⟨h ++ encText (luaOpen k) ++ y, t, j', M⟩) :
    Gives rt Lua.env (.rule iLiteralString) ⟨h, encText (luaOpen k) ++ (y ++ t), j, M⟩ true ⟨h ++ encText (luaOpen k) ++ y, t, j', M⟩ := by
  have e : encText (luaOpen k) = enc '[' ++ List.replicate k 61 ++ enc '[' := by simp [luaOpen, encText_cons, encText_append, encText_eqs, encText_nil]
  have h1 : ∀ r1 r2 : List Reader, Gives rt Lua.env (.any [.seq (.rune (('"' : Char).toNat) :: r1), .seq (.rune (('\'' : Char).toNat) :: r2),
      .seq [.seq [.rune (('[' : Char).toNat), level 0, .rune (('[' : Char).toNat)], .past (close 0)]]) ⟨h, encText (luaOpen k) ++ (y ++ t), j, M⟩ true
      ⟨h ++ encText (luaOpen k) ++ y, t, j', M⟩ := by
    intro r1 r2
    rw [e] at hp ⊢
    have := long_yes (rt := rt) (G := Lua.env) (id := 0) (beg := .rune (('[' : Char).toNat)) (x := enc '[') (k := k) (y := y) (t := t) (j := j) (j' := j') (h := h) (M := M)
      .rune (by simpa using hp)
    simp only [List.append_assoc] at this ⊢
    exact .any (.next (.seq_no (.fail (.rune_no (by decide)))) (.next (.seq_no (.fail (.rune_no (by decide)))) (.hit this)))
  exact .rule rfl (h1 _ _)

theorem comment_rule {k : Nat} {y : Bytes} (hp : Gives rt Lua.env (.past (close 1)) ⟨h ++ b!"--" ++ encText (luaOpen k), y ++ t, upd j 1 (List.replicate k 61), M⟩ true
      ⟨h ++ b!"--" ++ encText (luaOpen k) ++ y, t, j', M⟩) :
    Gives rt Lua.env (.rule iComment) ⟨h, b!"--" ++ encText (luaOpen k) ++ (y ++ t), j, M⟩ true ⟨h ++ b!"--" ++ encText (luaOpen k) ++ y, t, j', M⟩ := by
  have e : b!"--" ++ encText (luaOpen k) = b!"--[" ++ List.replicate k 61 ++ enc '[' := by
    have : encText (luaOpen k) = enc '[' ++ List.replicate k 61 ++ enc '[' := by simp [luaOpen, encText_cons, encText_append, encText_eqs, encText_nil]
    rw [this]; rfl
  have h1 : ∀ r, Gives rt Lua.env (.any [.seq [.seq [.lit b!"--[", level 1, .rune (('[' : Char).toNat)], .past (close 1)], r])
      ⟨h, b!"--" ++ encText (luaOpen k) ++ (y ++ t), j, M⟩ true ⟨h ++ b!"--" ++ encText (luaOpen k) ++ y, t, j', M⟩ := by
    intro r
    rw [List.append_assoc h] at hp ⊢
    rw [e] at hp ⊢
    have := long_yes (rt := rt) (G := Lua.env) (id := 1) (beg := .lit b!"--[") (x := b!"--[") (k := k) (y := y) (t := t) (j := j) (j' := j') (h := h) (M := M)
      .lit (by simpa using hp)
    simp only [List.append_assoc] at this ⊢
    exact .any (.hit this)
  exact .rule rfl (h1 _)

end Lua

/-- From a derivation to the read. -/
theorem Gives.readsOver {rt : Rt} {G : Env} {r : Reader} {s : Scanner} {h x t : Bytes} {j' : Nat → Bytes} {M : List (Nat × Token)} (hb : Between s h (x ++ t))
    (hg : Gives rt G r ⟨h, x ++ t, s.heap.janus, s.heap.maps⟩ true ⟨h ++ x, t, j', M⟩) : ∃ n, ReadsOver rt G n r s h x t := by
  obtain ⟨n, e, s', h1, h2, h3⟩ := hg.reads ⟨hb, rfl, rfl⟩
  cases e with
  | some e => cases h2
  | none => exact ⟨n, s', h1, h3.1⟩

theorem Gives.readsFail {rt : Rt} {G : Env} {r : Reader} {s : Scanner} {h t : Bytes} {j' : Nat → Bytes} {M : List (Nat × Token)} (hb : Between s h t)
    (hg : Gives rt G r ⟨h, t, s.heap.janus, s.heap.maps⟩ false ⟨h, t, j', M⟩) :
    ∃ n e s', (∀ m, n ≤ m → read rt G m r s = .ret (some e, s')) ∧ Between s' h t := by
  obtain ⟨n, e, s', h1, h2, h3⟩ := hg.reads ⟨hb, rfl, rfl⟩
  cases e with
  | none => cases h2
  | some e => exact ⟨n, e, s', h1, h3.1⟩

/-- A long string of level 0 is read up to the first `]]`, whatever its content and the text behind it. -/
theorem C53_string_zero (rt : Rt) (s : Scanner) (h : Bytes) (cs : List Char) (t : Bytes) (hf : FirstClose 0 cs)
    (hb : Between s h (encText (luaOpen 0 ++ cs ++ luaClose 0) ++ t)) :
    ∃ n, ReadsOver rt Lua.env n (.rule Lua.iLiteralString) s h (encText (luaOpen 0 ++ cs ++ luaClose 0)) t := by
  obtain ⟨j', hp⟩ := Lua.past_zero (rt := rt) (G := Lua.env) (id := 0) (t := t) (M := s.heap.maps) cs (h ++ encText (luaOpen 0)) (upd s.heap.janus 0 []) (by simp [upd]) hf
  have := Lua.string_rule (k := 0) (y := encText cs ++ encText (luaClose 0)) (j := s.heap.janus) (by simpa using hp)
  exact Gives.readsOver (j' := j') (M := s.heap.maps) hb (by simpa [encText_append] using this)

/-- A long comment of level 0 likewise. -/
theorem C53_comment_zero (rt : Rt) (s : Scanner) (h : Bytes) (cs : List Char) (t : Bytes) (hf : FirstClose 0 cs)
    (hb : Between s h (b!"--" ++ encText (luaOpen 0 ++ cs ++ luaClose 0) ++ t)) :
    ∃ n, ReadsOver rt Lua.env n (.rule Lua.iComment) s h (b!"--" ++ encText (luaOpen 0 ++ cs ++ luaClose 0)) t := by
  obtain ⟨j', hp⟩ := Lua.past_zero (rt := rt) (G := Lua.env) (id := 1) (t := t) (M := s.heap.maps) cs (h ++ b!"--" ++ encText (luaOpen 0)) (upd s.heap.janus 1 []) (by simp [upd]) hf
  have := Lua.comment_rule (k := 0) (y := encText cs ++ encText (luaClose 0)) (j := s.heap.janus) (by simpa using hp)
  exact Gives.readsOver (j' := j') (M := s.heap.maps) hb (by simpa [encText_append] using this)

/-- A long string of any level is read up to the first closing bracket of its level, if no other
`]` with as many equal signs stands before it.  The full claim is without this condition; it is false, see `C53_violated`. -/
theorem C53_string_partial (rt : Rt) (s : Scanner) (h : Bytes) (k : Nat) (cs : List Char) (t : Bytes) (hn : NoHalf k cs)
    (hb : Between s h (encText (luaOpen k ++ cs ++ luaClose k) ++ t)) :
    ∃ n, ReadsOver rt Lua.env n (.rule Lua.iLiteralString) s h (encText (luaOpen k ++ cs ++ luaClose k)) t := by
  obtain ⟨j', hp⟩ := Lua.past_level (rt := rt) (G := Lua.env) (id := 0) (h := h ++ encText (luaOpen k)) (t := t) (j := upd s.heap.janus 0 (List.replicate k 61)) (M := s.heap.maps)
    (k := k) (cs := cs) (by simp [upd]) hn
  have := Lua.string_rule (k := k) (y := encText cs ++ encText (luaClose k)) (j := s.heap.janus) (by simpa using hp)
  exact Gives.readsOver (j' := j') (M := s.heap.maps) hb (by simpa [encText_append] using this)

/-- A long comment likewise. -/
theorem C53_comment_partial (rt : Rt) (s : Scanner) (h : Bytes) (k : Nat) (cs : List Char) (t : Bytes) (hn : NoHalf k cs)
    (hb : Between s h (b!"--" ++ encText (luaOpen k ++ cs ++ luaClose k) ++ t)) :
    ∃ n, ReadsOver rt Lua.env n (.rule Lua.iComment) s h (b!"--" ++ encText (luaOpen k ++ cs ++ luaClose k)) t := by
  obtain ⟨j', hp⟩ := Lua.past_level (rt := rt) (G := Lua.env) (id := 1) (h := h ++ b!"--" ++ encText (luaOpen k)) (t := t) (j := upd s.heap.janus 1 (List.replicate k 61)) (M := s.heap.maps)
    (k := k) (cs := cs) (by simp [upd]) hn
  have := Lua.comment_rule (k := k) (y := encText cs ++ encText (luaClose k)) (j := s.heap.janus) (by simpa using hp)
  exact Gives.readsOver (j' := j') (M := s.heap.maps) hb (by simpa [encText_append] using this)

/-! ### the forgotten level -/

namespace Lua
variable {rt : Rt} {G : Env} {id : Nat} {h t : Bytes} {j : Nat → Bytes} {M : List (Nat × Token)}

/-- Level 0 without `]]`: the search fails. -/
theorem past_none : ∀ (cs : List Char) (h : Bytes) (j : Nat → Bytes), j id = [] → (∀ pre post, cs ≠ pre ++ [']', ']'] ++ post) →
    ∃ j', Gives rt G (.past (close id)) ⟨h, encText cs, j, M⟩ false ⟨h, encText cs, j', M⟩
  | [], h, j, hj, _ => ⟨j, .past_end rfl⟩
  | c :: cs, h, j, hj, hf => by
    have hf' : ∀ pre post, cs ≠ pre ++ [']', ']'] ++ post := fun pre post e => hf (c :: pre) post (by rw [e]; rfl)
    have key : ∃ j1, j1 id = [] ∧ Gives rt G (close id) ⟨h, enc c ++ encText cs, j, M⟩ false ⟨h, enc c ++ encText cs, j1, M⟩ := by
      by_cases hc : c = ']'
      · subst hc
        cases cs with
        | nil =>
          refine ⟨upd j id [], by simp [upd], .seq_no (.cons .rune (.cons (b := ⟨h ++ enc ']', [], upd j id [], M⟩) ?_ (.fail (.leaf_no rfl rfl))))⟩
          have := Gives.janusEnd (rt := rt) (G := G) (nm := []) (h := h ++ enc ']') (t := []) (M := M) hj
          simpa [encText_nil] using this
        | cons d cs =>
          have hd : d ≠ ']' := by
            rintro rfl
            exact hf [] cs rfl
          have := close_half (rt := rt) (G := G) (id := id) (h := h) (t := encText cs) (j := j) (M := M) hj hd
          exact ⟨upd j id [], by simp [upd], by simpa [encText_cons] using this⟩
      · exact ⟨j, hj, close_no hc⟩
    obtain ⟨j1, hj1, hk⟩ := key
    obtain ⟨j', ih⟩ := past_none cs (h ++ enc c) j1 hj1 hf'
    refine ⟨j', ?_⟩
    rw [encText_cons]
    exact Gives.past_step_no (a := ⟨h, enc c ++ encText cs, j, M⟩) (by simp [enc_ne_nil]) hk ih

/-- `past_skip` for a search that fails. -/
theorem past_skip_no {h' t' : Bytes} {j' : Nat → Bytes} : ∀ (cs : List Char) (h : Bytes), (∀ pre post, cs = pre ++ ']' :: post → ¬ j id <+: encText post ++ t) →
    Gives rt G (.past (close id)) ⟨h ++ encText cs, t, j, M⟩ false ⟨h', t', j', M⟩ →
    Gives rt G (.past (close id)) ⟨h, encText cs ++ t, j, M⟩ false ⟨if cs = [] then h' else h, if cs = [] then t' else encText cs ++ t, j', M⟩
  | [], h, _, hg => by simpa [encText] using hg
  | d :: cs, h, hn, hg => by
    rw [encText_cons, List.append_assoc, if_neg (by simp), if_neg (by simp)]
    have ih := past_skip_no cs (h ++ enc d) (fun pre post e => hn (d :: pre) post (by rw [e]; rfl)) (by simpa [encText_cons] using hg)
    refine Gives.past_step_no (a := ⟨h, _, j, M⟩) (by simp [enc_ne_nil]) ?_ ih
    by_cases hd : d = ']'
    · subst hd
      exact close_other (hn [] cs rfl)
    · exact close_no hd

theorem string_rule_no {k : Nat} {y : Bytes} {b : View} (hp : Gives rt Lua.env (.past (close 0)) ⟨h ++ encText (luaOpen k), y, upd j 0 (List.replicate k 61), M⟩ false b) :
    Gives rt Lua.env (.rule iLiteralString) ⟨h, encText (luaOpen k) ++ y, j, M⟩ false ⟨h, encText (luaOpen k) ++ y, b.jan, b.maps⟩ := by
  have e : encText (luaOpen k) = enc '[' ++ List.replicate k 61 ++ enc '[' := by simp [luaOpen, encText_cons, encText_append, encText_eqs, encText_nil]
  have h1 : ∀ r1 r2 : List Reader, Gives rt Lua.env (.any [.seq (.rune (('"' : Char).toNat) :: r1), .seq (.rune (('\'' : Char).toNat) :: r2),
      .seq [.seq [.rune (('[' : Char).toNat), level 0, .rune (('[' : Char).toNat)], .past (close 0)]]) ⟨h, encText (luaOpen k) ++ y, j, M⟩ false
      ⟨h, encText (luaOpen k) ++ y, b.jan, b.maps⟩ := by
    intro r1 r2
    rw [e] at hp ⊢
    simp only [List.append_assoc] at hp ⊢
    have hl : Gives rt Lua.env (.seq [.seq [.rune (('[' : Char).toNat), level 0, .rune (('[' : Char).toNat)], .past (close 0)])
        ⟨h, enc '[' ++ (List.replicate k 61 ++ (enc '[' ++ y)), j, M⟩ false ⟨h, enc '[' ++ (List.replicate k 61 ++ (enc '[' ++ y)), b.jan, b.maps⟩ :=
      .seq_no (.cons (.seq (.cons .rune (.cons (level_yes (not_eq_enc (by decide))) (.cons .rune .nil)))) (.fail (by simpa using hp)))
    exact .any_no (b := ⟨h, enc '[' ++ (List.replicate k 61 ++ (enc '[' ++ y)), b.jan, b.maps⟩)
      (.next (.seq_no (.fail (.rune_no (by decide)))) (.next (.seq_no (.fail (.rune_no (by decide)))) (.next hl .nil)))
  exact .rule rfl (h1 _ _)

/-- No `]` with as many equal signs as the level before the one behind `cs`. -/
theorem skip_half {k : Nat} {cs : List Char} {t : Bytes} (hn : ∀ pre post, cs ++ ']' :: List.replicate k '=' = pre ++ (']' :: List.replicate k '=') ++ post → pre = cs) :
    ∀ pre post, cs = pre ++ ']' :: post → ¬ List.replicate k 61 <+: encText post ++ (encText (']' :: List.replicate k '=') ++ t) := by
  intro pre post e hp
  subst e
  rw [← encText_eqs, ← List.append_assoc, ← encText_append] at hp
  rcases encText_prefix hp with ⟨u, hu⟩ | hu
  · have := hn pre u (by simp only [List.append_assoc, List.cons_append, hu])
    simp at this
  · have hm : ']' ∈ List.replicate k '=' := hu.subset (by simp)
    have := List.eq_of_mem_replicate hm
    cases this

end Lua

/-- After a `]` with as many equal signs as the level that is not a closing bracket the level is forgotten:
the string is read up to the next `]]`, whatever its level. -/
theorem C53_forgotten (rt : Rt) (s : Scanner) (h : Bytes) (k : Nat) (cs : List Char) (d : Char) (ds : List Char) (t : Bytes)
    (hn : ∀ pre post, cs ++ ']' :: List.replicate k '=' = pre ++ (']' :: List.replicate k '=') ++ post → pre = cs) (hd : d ≠ ']')
    (hf : FirstClose 0 (List.replicate k '=' ++ d :: ds))
    (hb : Between s h (encText (luaOpen k ++ cs ++ (']' :: List.replicate k '=') ++ d :: ds ++ luaClose 0) ++ t)) :
    ∃ n, ReadsOver rt Lua.env n (.rule Lua.iLiteralString) s h (encText (luaOpen k ++ cs ++ (']' :: List.replicate k '=') ++ d :: ds ++ luaClose 0)) t := by
  obtain ⟨j', hp⟩ := Lua.past_zero (rt := rt) (G := Lua.env) (id := 0) (t := t) (M := s.heap.maps) (List.replicate k '=' ++ d :: ds)
    (h ++ encText (luaOpen k) ++ encText cs ++ enc ']') (upd (upd s.heap.janus 0 (List.replicate k 61)) 0 []) (by simp [upd]) hf
  have h2 := Gives.past_step (r := Lua.close 0) (a := ⟨h ++ encText (luaOpen k) ++ encText cs, _, _, s.heap.maps⟩) (by simp [enc_ne_nil])
    (Lua.close_half (rt := rt) (G := Lua.env) (id := 0) (h := h ++ encText (luaOpen k) ++ encText cs) (t := encText ds ++ (encText (luaClose 0) ++ t))
      (j := upd s.heap.janus 0 (List.replicate k 61)) (M := s.heap.maps) (e := List.replicate k 61) (by simp [upd]) hd)
    (by simpa [encText_append, encText_cons, Lua.encText_eqs] using hp)
  have h3 := Lua.past_skip (rt := rt) (G := Lua.env) (id := 0) (t := encText (']' :: List.replicate k '=') ++ (enc d ++ (encText ds ++ (encText (luaClose 0) ++ t))))
    (j := upd s.heap.janus 0 (List.replicate k 61)) (M := s.heap.maps) cs (h ++ encText (luaOpen k))
    (by simpa [upd] using Lua.skip_half hn) (by simpa [encText_append, encText_cons, Lua.encText_eqs] using h2)
  have := Lua.string_rule (k := k) (y := encText cs ++ (encText (']' :: List.replicate k '=') ++ (enc d ++ (encText ds ++ encText (luaClose 0))))) (j := s.heap.janus)
    (j' := j') (by simpa [encText_cons, Lua.encText_eqs] using h3)
  exact Gives.readsOver (j' := j') (M := s.heap.maps) hb (by simpa [encText_append, encText_cons] using this)

/-- If no `]]` follows, the string is not read at all, even if its closing bracket follows. -/
theorem C53_unread (rt : Rt) (s : Scanner) (h : Bytes) (k : Nat) (cs : List Char) (d : Char) (ds : List Char)
    (hn : ∀ pre post, cs ++ ']' :: List.replicate k '=' = pre ++ (']' :: List.replicate k '=') ++ post → pre = cs) (hd : d ≠ ']')
    (hf : ∀ pre post, List.replicate k '=' ++ d :: ds ≠ pre ++ [']', ']'] ++ post)
    (hb : Between s h (encText (luaOpen k ++ cs ++ (']' :: List.replicate k '=') ++ d :: ds))) :
    ∃ n e s', (∀ m, n ≤ m → read rt Lua.env m (.rule Lua.iLiteralString) s = .ret (some e, s')) ∧
      Between s' h (encText (luaOpen k ++ cs ++ (']' :: List.replicate k '=') ++ d :: ds)) := by
  obtain ⟨j', hp⟩ := Lua.past_none (rt := rt) (G := Lua.env) (id := 0) (M := s.heap.maps) (List.replicate k '=' ++ d :: ds)
    (h ++ encText (luaOpen k) ++ encText cs ++ enc ']') (upd (upd s.heap.janus 0 (List.replicate k 61)) 0 []) (by simp [upd]) hf
  have h2 := Gives.past_step_no (r := Lua.close 0) (a := ⟨h ++ encText (luaOpen k) ++ encText cs, _, _, s.heap.maps⟩) (by simp [enc_ne_nil])
    (Lua.close_half (rt := rt) (G := Lua.env) (id := 0) (h := h ++ encText (luaOpen k) ++ encText cs) (t := encText ds)
      (j := upd s.heap.janus 0 (List.replicate k 61)) (M := s.heap.maps) (e := List.replicate k 61) (by simp [upd]) hd)
    (by simpa [encText_append, encText_cons, Lua.encText_eqs] using hp)
  have h3 := Lua.past_skip_no (rt := rt) (G := Lua.env) (id := 0) (t := encText (']' :: List.replicate k '=') ++ (enc d ++ encText ds))
    (j := upd s.heap.janus 0 (List.replicate k 61)) (M := s.heap.maps) cs (h ++ encText (luaOpen k))
    (by simpa [upd] using Lua.skip_half hn) (by simpa [View.back, encText_append, encText_cons, Lua.encText_eqs] using h2)
  have := Lua.string_rule_no (h := h) (k := k) (j := s.heap.janus) h3
  exact Gives.readsFail (j' := j') (M := s.heap.maps) hb (by simpa [encText_append, encText_cons] using this)


/-! ### line comments -/

namespace Lua
variable {rt : Rt} {h t : Bytes} {j : Nat → Bytes} {M : List (Nat × Token)}

/-- The line break or the end of the text. -/
def Eol (t : Bytes) : Prop := t = [] ∨ ∃ u, t = enc '\n' ++ u

/-- The line does not start like a long bracket. -/
def NoLong (cs : List Char) : Prop := ∀ k, ¬ luaOpen k <+: cs

theorem prefix_eol {c : Char} (hc : c ≠ '\n') {t : Bytes} (ht : Eol t) : ¬ enc c <+: t := by
  rintro ⟨u, hu⟩
  rcases ht with rfl | ⟨v, rfl⟩
  · exact enc_ne_nil c (List.append_eq_nil_iff.mp hu).1
  · exact hc (enc_append_inj hu).1

theorem rune_end {c : Char} (hc : c.toNat ≠ 0xFFFD) {G : Env} : Gives rt G (.rune c.toNat) ⟨h, [], j, M⟩ false ⟨h, [], j, M⟩ :=
  .leaf_no rfl (by
    have : ¬ ((65533 : Int) = (c.toNat : Int)) := by omega
    simp [eat, lift, eatOne, decodeRune, runeError, this])

/-- Equal signs and what follows them. -/
theorem eqs_split : ∀ cs : List Char, ∃ k ds, cs = List.replicate k '=' ++ ds ∧ ∀ es, ds ≠ '=' :: es
  | [] => ⟨0, [], rfl, by simp⟩
  | c :: cs => by
    by_cases hc : c = '='
    · subst hc
      obtain ⟨k, ds, h1, h2⟩ := eqs_split cs
      exact ⟨k + 1, ds, by rw [h1, List.replicate_succ]; rfl, h2⟩
    · exact ⟨0, c :: cs, rfl, by intro es e; cases e; exact hc rfl⟩

theorem long_no {cs : List Char} (hl : NoLong cs) (ht : Eol t) :
    ∃ j', Gives rt Lua.env (.seq [.seq [.lit b!"--[", level 1, .rune (('[' : Char).toNat)], .past (close 1)]) ⟨h, b!"--" ++ (encText cs ++ t), j, M⟩ false
      ⟨h, b!"--" ++ (encText cs ++ t), j', M⟩ := by
  by_cases hs : enc '[' <+: encText cs ++ t
  · cases cs with
    | nil => exact absurd hs (by simpa [encText_nil] using prefix_eol (by decide) ht)
    | cons c cs =>
      obtain ⟨u, hu⟩ := hs
      rw [encText_cons, List.append_assoc] at hu
      obtain ⟨rfl, _⟩ := enc_append_inj hu
      obtain ⟨k, ds, rfl, hds⟩ := eqs_split cs
      have hne : ¬ b!"=" <+: encText ds ++ t := by
        cases ds with
        | nil => exact prefix_eol (c := '=') (by decide) ht
        | cons d ds =>
          rw [encText_cons, List.append_assoc]
          exact not_eq_enc fun e => hds ds (by rw [e])
      have hr : Gives rt Lua.env (.rune (('[' : Char).toNat)) ⟨h ++ b!"--[" ++ List.replicate k 61, encText ds ++ t, upd j 1 (List.replicate k 61), M⟩ false
          ⟨h ++ b!"--[" ++ List.replicate k 61, encText ds ++ t, upd j 1 (List.replicate k 61), M⟩ := by
        cases ds with
        | nil =>
          rcases ht with rfl | ⟨v, rfl⟩
          · exact rune_end (by decide)
          · exact .rune_no (by decide)
        | cons d ds =>
          rw [encText_cons, List.append_assoc (enc d)]
          refine .rune_no ?_
          rintro rfl
          exact hl k ⟨ds, by simp [luaOpen]⟩
      refine ⟨upd j 1 (List.replicate k 61), ?_⟩
      have e : b!"--" ++ (encText ('[' :: (List.replicate k '=' ++ ds)) ++ t) = b!"--[" ++ (List.replicate k 61 ++ (encText ds ++ t)) := by
        rw [encText_cons, encText_append, encText_eqs, List.append_assoc, List.append_assoc]; rfl
      rw [e]
      exact .seq_no (.fail (.seq_no (.cons .lit (.cons (level_yes hne) (.fail hr)))))
  · refine ⟨j, .seq_no (.fail (.seq_no (.fail (.lit_no ?_))))⟩
    rintro ⟨u, hu⟩
    exact hs ⟨u, List.append_cancel_left (as := b!"--") hu⟩

theorem line_yes : ∀ (cs : List Char) (h : Bytes), '\n' ∉ cs → Gives rt Lua.env (.to (.rune (('\n' : Char).toNat))) ⟨h, encText cs ++ (enc '\n' ++ t), j, M⟩ true
    ⟨h ++ encText cs, enc '\n' ++ t, j, M⟩
  | [], h, _ => by
    have := Gives.to_hit (Gives.rune (rt := rt) (G := Lua.env) (c := '\n') (h := h) (t := t) (j := j) (M := M))
    simpa [View.back, encText_nil] using this
  | c :: cs, h, hn => by
    have ih := line_yes cs (h ++ enc c) (fun hm => hn (List.mem_cons_of_mem _ hm))
    have hc : c ≠ '\n' := fun e => hn (by simp [e])
    rw [encText_cons, List.append_assoc]
    have := Gives.to_step (Gives.rune_no (rt := rt) (G := Lua.env) hc (h := h) (t := encText cs ++ (enc '\n' ++ t)) (j := j) (M := M)) ih
    simpa using this

theorem line_no : ∀ (cs : List Char) (h : Bytes), '\n' ∉ cs → Gives rt Lua.env (.to (.rune (('\n' : Char).toNat))) ⟨h, encText cs, j, M⟩ false ⟨h, encText cs, j, M⟩
  | [], h, _ => .to_end (rune_end (by decide))
  | c :: cs, h, hn => by
    have ih := line_no cs (h ++ enc c) (fun hm => hn (List.mem_cons_of_mem _ hm))
    have hc : c ≠ '\n' := fun e => hn (by simp [e])
    rw [encText_cons]
    exact Gives.to_step_no (Gives.rune_no hc) ih

end Lua

/-- A line comment is read up to the line break, which is not part of it, whatever stands in the line
and behind it.  (The full claim has the end of the text as well; see `C53_violated`.) -/
theorem C53_line_partial (rt : Rt) (s : Scanner) (h : Bytes) (cs : List Char) (t : Bytes) (hl : ∀ k, ¬ luaOpen k <+: cs) (hn : '\n' ∉ cs)
    (hb : Between s h (b!"--" ++ encText cs ++ (b!"\n" ++ t))) :
    ∃ n, ReadsOver rt Lua.env n (.rule Lua.iComment) s h (b!"--" ++ encText cs) (b!"\n" ++ t) := by
  obtain ⟨j', hg⟩ := Lua.long_no (rt := rt) (h := h) (j := s.heap.janus) (M := s.heap.maps) hl (t := enc '\n' ++ t) (.inr ⟨t, rfl⟩)
  have h1 : Gives rt Lua.env (.any [.seq [.seq [.lit b!"--[", Lua.level 1, .rune (('[' : Char).toNat)], .past (Lua.close 1)],
      .seq [.lit b!"--", .to (.rune (('\n' : Char).toNat))]]) ⟨h, b!"--" ++ (encText cs ++ (enc '\n' ++ t)), s.heap.janus, s.heap.maps⟩ true
      ⟨h ++ b!"--" ++ encText cs, enc '\n' ++ t, j', s.heap.maps⟩ :=
    .any (.next hg (.hit (.seq (.cons .lit (.cons (Lua.line_yes cs _ hn) .nil)))))
  have h2 := Gives.rule (i := Lua.iComment) (nm := b!"Comment") (G := Lua.env) rfl h1
  exact Gives.readsOver (j' := j') (M := s.heap.maps) hb (by simpa only [List.append_assoc, show enc '\n' = [10] from rfl] using h2)

/-- A line comment that ends with the text instead of a line break is not read. -/
theorem C53_last_line (rt : Rt) (s : Scanner) (h : Bytes) (cs : List Char) (hl : ∀ k, ¬ luaOpen k <+: cs) (hn : '\n' ∉ cs)
    (hb : Between s h (b!"--" ++ encText cs)) :
    ∃ n e s', (∀ m, n ≤ m → read rt Lua.env m (.rule Lua.iComment) s = .ret (some e, s')) ∧ Between s' h (b!"--" ++ encText cs) := by
  obtain ⟨j', hg⟩ := Lua.long_no (rt := rt) (h := h) (j := s.heap.janus) (M := s.heap.maps) hl (t := []) (.inl rfl)
  rw [List.append_nil] at hg
  have h1 : Gives rt Lua.env (.any [.seq [.seq [.lit b!"--[", Lua.level 1, .rune (('[' : Char).toNat)], .past (Lua.close 1)],
      .seq [.lit b!"--", .to (.rune (('\n' : Char).toNat))]]) ⟨h, b!"--" ++ encText cs, s.heap.janus, s.heap.maps⟩ false
      ⟨h, b!"--" ++ encText cs, j', s.heap.maps⟩ :=
    .any_no (b := ⟨h, b!"--" ++ encText cs, j', s.heap.maps⟩) (.next hg (.next (.seq_no (.cons .lit (.fail (Lua.line_no cs _ hn)))) .nil))
  exact Gives.readsFail hb (Gives.rule (i := Lua.iComment) (nm := b!"Comment") (G := Lua.env) rfl h1)

theorem Lua.firstClose_half : FirstClose 1 "]==".toList := by
  intro pre post h
  have hl := congrArg List.length h
  simp [luaClose] at hl
  match pre, h, hl with
  | [], h, _ => simp [luaClose] at h
  | [_], h, _ => simp [luaClose] at h
  | [_, _], h, _ => simp [luaClose] at h
  | [_, _, _], _, hl => exact List.length_eq_zero_iff.mp (by simp at hl; omega)
  | _ :: _ :: _ :: _ :: _, _, hl => simp at hl; omega

/-- The claim fails: for line comments at the end of the text, and for long brackets that contain a `]` with as many equal signs.
`--x` is not read; `[=[]==]=]` is not read though the bracket at its end is the first closing one of its level;
`[=[]=x]]` is read though it contains no closing bracket of level 1. -/
theorem C53_violated (rt : Rt) :
    (∃ n e s', read rt Lua.env n (.rule Lua.iComment) (.new b!"--x" Heap.empty) = .ret (some e, s')) ∧
    (FirstClose 1 "]==".toList ∧
      ∃ n e s', read rt Lua.env n (.rule Lua.iLiteralString) (.new (encText (luaOpen 1 ++ "]==".toList ++ luaClose 1)) Heap.empty) = .ret (some e, s')) ∧
    ∃ n s', read rt Lua.env n (.rule Lua.iLiteralString) (.new b!"[=[]=x]]" Heap.empty) = .ret (none, s') ∧ s'.pos = 8 := by
  refine ⟨?_, ⟨Lua.firstClose_half, ?_⟩, ?_⟩
  · obtain ⟨n, e, s', h, _⟩ := C53_last_line rt (.new b!"--x" Heap.empty) [] ['x'] (by intro k hk; simp [luaOpen] at hk) (by decide) ⟨rfl, rfl⟩
    exact ⟨n, e, s', h n (Nat.le_refl n)⟩
  · obtain ⟨n, e, s', h, _⟩ := C53_unread rt (.new (encText (luaOpen 1 ++ "]==".toList ++ luaClose 1)) Heap.empty) [] 1 [] '=' [']', '=', ']']
      (by
        intro pre post h
        match pre, h with
        | [], _ => rfl
        | [_], h => simp at h
        | _ :: _ :: _, h => have := congrArg List.length h; simp at this)
      (by decide)
      (by
        intro pre post h
        match pre, h with
        | [], h => simp at h
        | [_], h => simp at h
        | [_, _], h => simp at h
        | [_, _, _], h => simp at h
        | _ :: _ :: _ :: _ :: _, h => have := congrArg List.length h; simp at this; omega)
      ⟨rfl, rfl⟩
    exact ⟨n, e, s', h n (Nat.le_refl n)⟩
  · obtain ⟨n, s', h, hb⟩ := C53_forgotten rt (.new b!"[=[]=x]]" Heap.empty) [] 1 [] 'x' [] []
      (by
        intro pre post h
        match pre, h with
        | [], _ => rfl
        | [_], h => simp at h
        | _ :: _ :: _, h => have := congrArg List.length h; simp at this)
      (by decide)
      (by
        intro pre post h
        match pre, h with
        | [], h => simp [luaClose] at h
        | [_], h => simp [luaClose] at h
        | [_, _], h => simp [luaClose] at h; exact h.2.2
        | _ :: _ :: _ :: _, h => have := congrArg List.length h; simp [luaClose] at this; omega)
      ⟨rfl, rfl⟩
    exact ⟨n, s', h n (Nat.le_refl n), hb.2⟩

/-! ### concrete cases -/

theorem Lua.noHalf_ex : NoHalf 2 "a]=]\n".toList := by
  intro pre post h
  have hl := congrArg List.length h
  simp [luaClose] at hl
  match pre, h, hl with
  | [], h, _ => simp [luaClose] at h
  | [_], h, _ => simp [luaClose] at h
  | [_, _], h, _ => simp [luaClose] at h
  | [_, _, _], h, _ => simp [luaClose] at h
  | [_, _, _, _], h, _ => simp [luaClose] at h
  | [_, _, _, _, _], h, _ => simp [luaClose] at h; obtain ⟨rfl, rfl, rfl, rfl, rfl, _⟩ := h; rfl
  | _ :: _ :: _ :: _ :: _ :: _ :: pre, h, _ =>
    have := congrArg List.length h
    simp [luaClose] at this; simp [luaClose] at h
    match pre, h, this with
    | [], h, _ => simp at h
    | _ :: _, _, hl => simp at hl; omega

/-- A long string of level 2 with a closing bracket of level 1 and a line break inside. -/
example (rt : Rt) : ∃ n, ReadsOver rt Lua.env n (.rule Lua.iLiteralString) (.new b!"[==[a]=]\n]==]]==]" Heap.empty) [] b!"[==[a]=]\n]==]" b!"]==]" :=
  C53_string_partial rt _ [] 2 "a]=]\n".toList b!"]==]" Lua.noHalf_ex ⟨rfl, rfl⟩

example (rt : Rt) : ∃ n, ReadsOver rt Lua.env n (.rule Lua.iComment) (.new b!"--[==[a]=]\n]==]]==]" Heap.empty) [] b!"--[==[a]=]\n]==]" b!"]==]" :=
  C53_comment_partial rt _ [] 2 "a]=]\n".toList b!"]==]" Lua.noHalf_ex ⟨rfl, rfl⟩

theorem Lua.firstClose_ex : FirstClose 0 "]=".toList := by
  intro pre post h
  match pre, h with
  | [], h => simp [luaClose] at h
  | [_], h => simp [luaClose] at h
  | [_, _], h => simp [luaClose] at h; exact h.2.2
  | _ :: _ :: _ :: _, h => have := congrArg List.length h; simp [luaClose] at this; omega

example (rt : Rt) : ∃ n, ReadsOver rt Lua.env n (.rule Lua.iLiteralString) (.new b!"[[]=]]]" Heap.empty) [] b!"[[]=]]" b!"]" :=
  C53_string_zero rt _ [] "]=".toList b!"]" Lua.firstClose_ex ⟨rfl, rfl⟩

example (rt : Rt) : ∃ n, ReadsOver rt Lua.env n (.rule Lua.iComment) (.new b!"--[[]=]]]" Heap.empty) [] b!"--[[]=]]" b!"]" :=
  C53_comment_zero rt _ [] "]=".toList b!"]" Lua.firstClose_ex ⟨rfl, rfl⟩

/-- A line comment that starts like a long bracket. -/
example (rt : Rt) : ∃ n, ReadsOver rt Lua.env n (.rule Lua.iComment) ((Scanner.new b!"x--[=é\n\n" Heap.empty).at 1) b!"x" b!"--[=é" b!"\n\n" :=
  C53_line_partial rt _ b!"x" "[=é".toList b!"\n"
    (by
      intro k hk
      match k, hk with
      | 0, hk => simp [luaOpen] at hk
      | 1, hk => simp [luaOpen] at hk
      | k + 2, hk => simp [luaOpen, List.replicate_succ] at hk)
    (by decide) ⟨rfl, rfl⟩

end Tok
