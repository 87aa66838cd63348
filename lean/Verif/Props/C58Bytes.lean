/-
C58 The Lua reader terminates: texts of any bytes.
-/
import Verif.Props.C58Sharp
import Verif.Props.C36Bytes

namespace Tok
open Spec

namespace Lua

/-- The last two bytes are ASCII, and no quote is followed by characters of a string up to the end of the text. -/
def Ended (t : Bytes) : Prop := AsciiEnd t ∧ Quoted t

theorem ended_closed : Closed Ended := fun x y hs h => ⟨asciiEnd_closed x y hs h.1, quoted_closed x y hs h.2⟩

theorem goes_ended : Goes false Ended := fun st hs hn => goes_ascii st ⟨hs.1, hs.2.1⟩ hn

theorem ended_halts (rt : Rt) (st : St) (hs : OkSt false Ended st) : Halts (fun k => eat rt env k (.rule iLiteralString) st) := by
  refine Halts.shift (Halts.shift ?_)
  show Halts (fun k => (eatAny (eat rt env k) [normalString, charString, long 0 (ru '[')] st).bind _)
  have hB : ∀ r, True → Behaves false (fun k => eat rt env k r) := fun r _ => ⟨(fun e => by cases e), fun k => eat_shrinks rt env k r⟩
  refine (eatAny_halts (W := fun _ => True) ended_closed hB (L := st.rest.length) (fun _ _ => trivial) ?_ st hs (Nat.le_refl _)).bind fun _ _ _ => .ret
  intro r hr st' hs' _
  simp only [List.mem_cons, List.not_mem_nil, or_false] at hr
  rcases hr with rfl | rfl | rfl
  · exact short_halts rt (q := 34) (.inl rfl) st' hs'.2.2
  · exact short_halts rt (q := 39) (.inr rfl) st' hs'.2.2
  · exact halts_of_soundC rt (nul := nul) (adm := true) (srch := false) (rank := rank) (K := Ended)
      (vis := fun _ => false) (base := fun _ => false) ended_closed (fun _ => goes_ended) (by decide +kernel) (by decide +kernel)
      (fun _ h => by cases h) (by decide +kernel) st' hs'

end Lua

/-- Reading Lua ends on every text of any bytes whose last two bytes are ASCII, such as a line feed behind an ASCII character, in which no quote is followed
by nothing but characters of a string up to the end of the text.  Nothing is assumed about the memories of the Janus readers. -/
theorem C58_bytes_partial (rt : Rt) (s : Scanner) (h t : Bytes) (hb : Between s h t) (ha : AsciiEnd t)
    (hq : ∀ q es, q = 34 ∨ q = 39 → q :: es <:+ t → ¬ TokChars q es) :
    ∃ n, read rt Lua.env n Lua.reader s ≠ .timeout ∧ ∀ m, n ≤ m → read rt Lua.env m Lua.reader s = read rt Lua.env n Lua.reader s := by
  refine halts_read Lua.noWraps (Reader.everyB_sound Reader.noWrap Lua.reader (by decide)) hb ?_
  refine halts_of_soundC rt (nul := Lua.nul) (adm := true) (srch := false) (rank := Lua.rank) (K := Lua.Ended)
    (vis := fun _ => true) (base := fun i => i == 3) Lua.ended_closed (fun _ => Lua.goes_ended) (by decide +kernel) (by decide +kernel)
    (fun i hi st hs => ?_) (by decide) _ ⟨(fun e => by cases e), ha, hq⟩
  simp only [beq_iff_eq] at hi
  subst hi
  exact Lua.ended_halts rt st hs

/-- The condition on the last two bytes is needed also after a line feed: the search for the end of a long string or comment passes three bytes at a time where
no character begins, so it stops before a line feed as well. -/
theorem C58_newline_violated (rt : Rt) : Diverges rt Lua.env Lua.reader (b!"a[[" ++ [0xFF, 10]) := by
  refine diverges_of Lua.noWraps (Reader.everyB_sound Reader.noWrap Lua.reader (by decide)) ?_
  generalize Heap.empty.janus = j
  refine Lua.stuck_long rt (t := [91, 0xFF, 10]) ?_
  have hp : NoEnd rt Lua.env (mkPast (rd (mkSeq [ru ']', rd (mkJanus 0 [] (mkZom (.str b!"="))).2, ru ']']))) ⟨[0xFF, 10], upd j 0 []⟩ := by
    intro n
    cases n with
    | zero => rfl
    | succ n =>
      show (do let x ← eatPast (eat rt Lua.env n (mkSeq [ru ']', rd (mkJanus 0 [] (mkZom (.str b!"="))).2, ru ']'])) n _; Exec.ret (orBack _ x)) = _
      rw [eatPast_stuck (by simp) ?_ (eat_or (n := 9) rfl n)]
      · rfl
      · show eatStep [0xFF, 10] = (false, [0xFF, 10])
        decide
  exact .rule rfl (stuck_any (eatAny_past (st' := ⟨[91, 91, 0xFF, 10], j⟩) (m := 9) rfl
    (eatAny_past (st' := ⟨[91, 91, 0xFF, 10], j⟩) (m := 9) rfl
      (eatAny_stuck (stuck_seq (eatSeq_past (st' := ⟨[0xFF, 10], upd j 0 []⟩) (m := 9) rfl (eatSeq_stuck hp)))))))

/-- A Latin-1 text. -/
example (rt : Rt) : ∃ n, read rt Lua.env n Lua.reader (.new (b!"x = [[f" ++ [0xFC] ++ b!"r]]\r\n") Heap.empty) ≠ .timeout :=
  let ⟨n, h, _⟩ := C58_bytes_partial rt (.new (b!"x = [[f" ++ [0xFC] ++ b!"r]]\r\n") Heap.empty) [] _ ⟨rfl, rfl⟩
    (fun e he hl b hb => by
      have : e <:+ b!"\r\n" := List.suffix_of_suffix_length_le he (List.suffix_append (b!"x = [[f" ++ [0xFC] ++ b!"r]]") b!"\r\n") (by simpa using hl)
      have := this.subset hb
      simp only [List.mem_cons, List.not_mem_nil, or_false] at this
      rcases this with rfl | rfl <;> decide)
    (fun q es hq hs => by
      have : q ∈ b!"x = [[f" ++ [0xFC] ++ b!"r]]\r\n" := hs.subset List.mem_cons_self
      rcases hq with rfl | rfl <;> exact absurd this (by decide))
  ⟨n, h⟩

end Tok
