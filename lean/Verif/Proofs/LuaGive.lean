/-
From `Gives` to `Gets`; comments and the first line of a script.
-/
import Verif.Props.C53
import Verif.Proofs.LuaCls

namespace Tok
open Spec

theorem Gives.gets {rt : Rt} {G : Env} {r : Reader} (hG : G.Every (fun r => r.noWrap = true)) (hr : r.Every (fun r => r.noWrap = true)) {x t : Bytes}
    (h : ∀ j, ∃ j', Gives rt G r ⟨[], x ++ t, j, []⟩ true ⟨x, t, j', []⟩) : Gets rt G r (x ++ t) (some t) := fun j => by
  obtain ⟨j', _, n, hg⟩ := h j
  obtain ⟨e, s', h1, h2, h3, h4, _⟩ := hg (.new (x ++ t) { Heap.empty with janus := j }) ⟨⟨rfl, rfl⟩, rfl, rfl⟩
  obtain ⟨⟨ok, st⟩, h5, h6, h7⟩ := (read_eat rt G hG n r hr _ _ _ (sees_between (s := .new (x ++ t) { Heap.empty with janus := j }) (h := []) (t := x ++ t) ⟨rfl, rfl⟩)).left h1
  obtain ⟨y, hy, hb⟩ := between_sees (s := .new (x ++ t) { Heap.empty with janus := j }) (h := []) (t := x ++ t) ⟨rfl, rfl⟩ h7 (eat_shrinks rt G n r _ _ h5)
  obtain ⟨_, rfl⟩ := between_inj h3 hb
  obtain rfl : ok = true := h6.symm.trans h2
  exact ⟨n, st.jan, h5⟩

theorem Gives.gets_no {rt : Rt} {G : Env} {r : Reader} (hG : G.Every (fun r => r.noWrap = true)) (hr : r.Every (fun r => r.noWrap = true)) {t : Bytes}
    (h : ∀ j, ∃ j', Gives rt G r ⟨[], t, j, []⟩ false ⟨[], t, j', []⟩) : Gets rt G r t none := fun j => by
  obtain ⟨j', _, n, hg⟩ := h j
  obtain ⟨e, s', h1, h2, h3, h4, _⟩ := hg (.new t { Heap.empty with janus := j }) ⟨⟨rfl, rfl⟩, rfl, rfl⟩
  obtain ⟨⟨ok, st⟩, h5, h6, h7⟩ := (read_eat rt G hG n r hr _ _ _ (sees_between (s := .new t { Heap.empty with janus := j }) (h := []) (t := t) ⟨rfl, rfl⟩)).left h1
  obtain ⟨y, hy, hb⟩ := between_sees (s := .new t { Heap.empty with janus := j }) (h := []) (t := t) ⟨rfl, rfl⟩ h7 (eat_shrinks rt G n r _ _ h5)
  obtain ⟨_, e⟩ := between_inj h3 hb
  obtain rfl : ok = false := h6.symm.trans h2
  refine ⟨n, st.jan, ?_⟩
  have e' : st = ⟨t, st.jan⟩ := by cases st; simpa using e.symm
  rw [e'] at h5
  exact h5

namespace Lua
variable {rt : Rt} {t : Bytes}

theorem comment_noWrap : (Reader.rule iComment).Every (fun r => r.noWrap = true) := Reader.everyB_sound Reader.noWrap _ (by decide)

theorem comment_line (cs : List Char) (hl : ∀ k, ¬ luaOpen k <+: cs) (hn : '\n' ∉ cs) : Gets rt env (.rule iComment) (b!"--" ++ encText cs ++ (b!"\n" ++ t)) (some (b!"\n" ++ t)) :=
  Gives.gets noWraps comment_noWrap fun j => by
    obtain ⟨j', hg⟩ := long_no (rt := rt) (h := []) (j := j) (M := []) hl (t := enc '\n' ++ t) (.inr ⟨t, rfl⟩)
    have h1 : Gives rt Lua.env (.any [.seq [.seq [.lit b!"--[", Lua.level 1, .rune (('[' : Char).toNat)], .past (Lua.close 1)],
        .seq [.lit b!"--", .to (.rune (('\n' : Char).toNat))]]) ⟨[], b!"--" ++ (encText cs ++ (enc '\n' ++ t)), j, []⟩ true
        ⟨[] ++ b!"--" ++ encText cs, enc '\n' ++ t, j', []⟩ :=
      .any (.next hg (.hit (.seq (.cons .lit (.cons (Lua.line_yes cs _ hn) .nil)))))
    have h2 := Gives.rule (i := Lua.iComment) (nm := b!"Comment") (G := Lua.env) rfl h1
    exact ⟨j', by simpa only [List.nil_append, List.append_assoc, show enc '\n' = [10] from rfl] using h2⟩

theorem comment_zero (cs : List Char) (hf : FirstClose 0 cs) : Gets rt env (.rule iComment) (b!"--" ++ encText (luaOpen 0 ++ cs ++ luaClose 0) ++ t) (some t) :=
  Gives.gets noWraps comment_noWrap fun j => by
    obtain ⟨j', hp⟩ := past_zero (rt := rt) (G := Lua.env) (id := 1) (t := t) (M := []) cs ([] ++ b!"--" ++ encText (luaOpen 0)) (upd j 1 []) (by simp [upd]) hf
    have := comment_rule (rt := rt) (h := []) (t := t) (j' := j') (M := []) (k := 0) (y := encText cs ++ encText (luaClose 0)) (j := j) (by simpa using hp)
    exact ⟨j', by simpa [encText_append] using this⟩

theorem comment_level (k : Nat) (cs : List Char) (hn : NoHalf k cs) : Gets rt env (.rule iComment) (b!"--" ++ encText (luaOpen k ++ cs ++ luaClose k) ++ t) (some t) :=
  Gives.gets noWraps comment_noWrap fun j => by
    obtain ⟨j', hp⟩ := past_level (rt := rt) (G := Lua.env) (id := 1) (h := [] ++ b!"--" ++ encText (luaOpen k)) (t := t) (j := upd j 1 (List.replicate k 61)) (M := [])
      (k := k) (cs := cs) (by simp [upd]) hn
    have := comment_rule (rt := rt) (h := []) (t := t) (j' := j') (M := []) (k := k) (y := encText cs ++ encText (luaClose k)) (j := j) (by simpa using hp)
    exact ⟨j', by simpa [encText_append] using this⟩

theorem string_noWrap : (Reader.rule iLiteralString).Every (fun r => r.noWrap = true) := Reader.everyB_sound _ _ (by decide)

theorem string_zero (cs : List Char) (hf : FirstClose 0 cs) : Gets rt env (.rule iLiteralString) (encText (luaOpen 0 ++ cs ++ luaClose 0) ++ t) (some t) :=
  Gives.gets noWraps string_noWrap fun j => by
    obtain ⟨j', hp⟩ := past_zero (rt := rt) (G := Lua.env) (id := 0) (t := t) (M := []) cs ([] ++ encText (luaOpen 0)) (upd j 0 []) (by simp [upd]) hf
    have := string_rule (rt := rt) (h := []) (t := t) (j' := j') (M := []) (k := 0) (y := encText cs ++ encText (luaClose 0)) (j := j) (by simpa using hp)
    exact ⟨j', by simpa [encText_append] using this⟩

theorem string_level (k : Nat) (cs : List Char) (hn : NoHalf k cs) : Gets rt env (.rule iLiteralString) (encText (luaOpen k ++ cs ++ luaClose k) ++ t) (some t) :=
  Gives.gets noWraps string_noWrap fun j => by
    obtain ⟨j', hp⟩ := past_level (rt := rt) (G := Lua.env) (id := 0) (h := [] ++ encText (luaOpen k)) (t := t) (j := upd j 0 (List.replicate k 61)) (M := [])
      (k := k) (cs := cs) (by simp [upd]) hn
    have := string_rule (rt := rt) (h := []) (t := t) (j' := j') (M := []) (k := k) (y := encText cs ++ encText (luaClose k)) (j := j) (by simpa using hp)
    exact ⟨j', by simpa [encText_append] using this⟩

end Lua
end Tok
