/-
C83 Readers can be rewritten by the laws of parsing expressions: functions of the client.
-/
import Verif.Props.C83
import Verif.Props.C96

namespace Tok

open Spec

/-- Readers with functions of the client (`Wrap`) may be exchanged just if the readers may be for which the functions stand.  So all laws of
C83 hold for functions that do what some reader does. -/
theorem C83_wrap {rt : Rt} {G G' : Env} {a b a' b' : Reader} (hG : RulesExchanged (WrapFor rt G') G G') (ha : Exchanged (WrapFor rt G') a a')
    (hb : Exchanged (WrapFor rt G') b b') : Swappable rt G a b ↔ Swappable rt G' a' b' := by
  unfold Swappable
  refine forall_congr' fun s => forall_congr' fun h => forall_congr' fun t => forall_congr' fun _ => forall_congr' fun ok => forall_congr' fun p => forall_congr' fun j => ?_
  rw [C96_comes hG ha, C96_comes hG hb]

/-- A sign read by a function of the client, in a sequence in a sequence. -/
example (rt : Rt) : Swappable rt signedWrap (.seq [.rule 0, .seq [.wrap b!"sign" signFunc, .rule 0]]) (.seq [.rule 0, .wrap b!"sign" signFunc, .rule 0]) := by
  have h : WrapFor rt signedPure (.wrap b!"sign" signFunc) (.named b!"sign" (.opt (.anyRune b!"+-"))) := .mk (sign_stands rt _)
  refine (C83_wrap (signed_rules rt) (.seq (.cons (.refl _) (.cons (.seq (.cons (.here h) (.cons (.refl _) .nil))) .nil)))
    (.seq (.cons (.refl _) (.cons (.here h) (.cons (.refl _) .nil))))).mpr ?_
  have hw (r : Reader) (h : r.everyB Reader.noWrap = true) : r.wrapless := Reader.everyB_sound _ _ h
  exact C83_seq_flat (as := [.rule 0]) (bs := [.named b!"sign" (.opt (.anyRune b!"+-")), .rule 0]) (cs := []) (Env.everyB_sound (p := Reader.noWrap) (by decide))
    (wl_cons (hw _ rfl) wl_nil) (wl_cons (hw _ rfl) (wl_cons (hw _ rfl) wl_nil)) wl_nil

/-- A function that looks at what a tracker was told. -/
def nosyFunc : ReadFunc := fun s => pure (if (s.heap.tracks 7).length = 3 then none else some (s.errorFor b!"three"), s)

/-- For functions that look at something else than the text ahead, the law is false: the parts may be exchanged, but not in front of
such a function.  A sequence in a sequence tells the tracker one place more when it fails. -/
theorem C83_wrap_violated (rt : Rt) : ∃ a b : Reader, a.wrapless ∧ b.wrapless ∧ Swappable rt [] a b ∧
    ¬ Swappable rt [] (.seq [a, .wrap b!"nosy" nosyFunc]) (.seq [b, .wrap b!"nosy" nosyFunc]) := by
  have hw (r : Reader) (h : r.everyB Reader.noWrap = true) : r.wrapless := Reader.everyB_sound _ _ h
  refine ⟨.opt (.seq [.rune 97, .seq [.rune 98, .rune 99]]), .opt (.seq [.rune 97, .rune 98, .rune 99]), hw _ rfl, hw _ rfl, ?_, fun h => ?_⟩
  · refine C83_parts (Env.everyB_sound (p := Reader.noWrap) (by decide)) (hw _ rfl) (hw _ rfl) (.opt (.here ⟨hw _ rfl, hw _ rfl, ?_⟩))
    exact C83_seq_flat (as := [.rune 97]) (bs := [.rune 98, .rune 99]) (cs := []) (Env.everyB_sound (p := Reader.noWrap) (by decide))
      (wl_cons (hw _ rfl) wl_nil) (wl_cons (hw _ rfl) (wl_cons (hw _ rfl) wl_nil)) wl_nil
  · obtain ⟨n, e, s', h1, h2, _⟩ := (h ⟨b!"abx", 0, some (.custom 7), Heap.empty⟩ [] b!"abx" ⟨rfl, rfl⟩ true 0 (fun _ => [])).mpr ⟨9, none, _, rfl, rfl, rfl, rfl⟩
    have h3 := read_det (n := n) (m := 9) h1 rfl
    cases h3
    cases h2

end Tok
