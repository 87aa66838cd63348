/-
C59 demo/full-lua-stack: exactly when it does not end.
-/
import Verif.Props.C58Exact
import Verif.Props.C59

namespace Tok
open Spec

/-- Reading the file gets to the characters of a short string of which the rest of the file is made, or to the search for the end of a long bracket
at one or two last bytes that begin no character. -/
def Lua.Hangs (rt : Rt) (t : Bytes) : Prop :=
  (∃ q es j, (q = 34 ∨ q = 39) ∧ TokChars q es ∧
      GetsTo Lua.env (Outcome rt Lua.env) Lua.reader ⟨t, Heap.empty.janus⟩ (.zom (Lua.item q)) ⟨es, j⟩) ∨
    ∃ id st' st'', (id = 0 ∨ id = 1) ∧ GetsTo Lua.env (Outcome rt Lua.env) Lua.reader ⟨t, Heap.empty.janus⟩ (.past (Lua.closer id)) st' ∧
      Searches (Outcome rt Lua.env) (Lua.closer id) st' st'' ∧ Lua.Stray st''.rest

theorem Lua.hangs_read (rt : Rt) (t : Bytes) : (∀ n, read rt Lua.env n Lua.reader (Lua.start t) = .timeout) ↔ Lua.Hangs rt t :=
  C58_exact_partial rt (Lua.start t) [] t ⟨rfl, rfl⟩

/-- For every file of any bytes on which reading does not hang, the program ends and prints the lines of a tree with the picked segments. -/
theorem C59_always_partial (rt : Rt) (filename t : Bytes) (hh : ¬ Lua.Hangs rt t) :
    ∃ N s' root, (∀ fuel, N ≤ fuel → read rt (Lua.env.pickAll 0) fuel Lua.reader (Lua.start t) = .ret (none, s')) ∧
      Tree root ∧ root.seg.info = filename ∧ root.under.Perm (s'.heap.baskets 0) ∧
      ∀ fuel, N ≤ fuel → luaStack rt fuel filename t = .ret (some ((Node.paths [] 1 root).map pathLine).flatten) := by
  rw [← Lua.hangs_read] at hh
  have ⟨n, hn⟩ := Classical.not_forall.mp hh
  refine Lua.prints rt filename t ⟨n, hn, fun m hm => ?_⟩
  rcases hr : read rt Lua.env n Lua.reader (Lua.start t) with ⟨e, s'⟩ | _ | _
  · exact read_mono hm hr
  · exact absurd hr (C32_no_panic_partial rt _ _ Lua.safe ((Reader.everyB_sound (Reader.safeB Lua.env) Lua.reader (by decide)).imp fun _ => safeHere_of_safeB) n _
      (Lua.start_inside _))
  · exact absurd hr hn

/-- The program does not end exactly on the files on which reading hangs. -/
theorem C59_exact_partial (rt : Rt) (filename t : Bytes) : (∀ fuel, luaStack rt fuel filename t = .timeout) ↔ Lua.Hangs rt t := by
  constructor
  · intro h
    by_contra hh
    obtain ⟨N, _, root, _, _, _, _, h1⟩ := C59_always_partial rt filename t hh
    have := h1 N (Nat.le_refl _)
    rw [h N] at this
    cases this
  · intro hh fuel
    have hh := (Lua.hangs_read rt t).mpr hh
    have key : ∀ n, read rt (Lua.env.pickAll 0) n Lua.reader (Lua.start t) = .timeout := fun n => by
      rcases hr : read rt (Lua.env.pickAll 0) n Lua.reader (Lua.start t) with ⟨e, s'⟩ | _ | _
      · obtain ⟨m, s'', h1, _⟩ := (Lua.all_same rt _ (Lua.start_inside _) e s'.pos).mpr ⟨n, s', hr, rfl⟩
        rw [hh m] at h1
        cases h1
      · exact absurd hr (C32_no_panic_partial rt _ _ Lua.all_safe
          ((Reader.everyB_sound (Reader.safeB (Lua.env.pickAll 0)) Lua.reader (by decide)).imp fun _ => safeHere_of_safeB) n _ (Lua.start_inside _))
      · rfl
    have := key fuel
    unfold Lua.start at this
    unfold luaStack printStack Scanner.use
    rw [this]
    rfl

/-- Reading hangs on the file `a"x`. -/
example : Lua.Hangs exRt b!"a\"x" :=
  (C59_exact_partial exRt b!"f" _).mp (C59_hangs_violated exRt b!"f" b!"x" (.plain (by decide) (by decide) (by decide) .nil))

/-- And does not on the file `;` with one byte that is no character behind it. -/
example : ¬ Lua.Hangs exRt [59, 0xFF] := fun h => by
  have := (C59_exact_partial exRt b!"f" _).mpr h 99
  revert this
  decide +kernel

end Tok
