/-
C58 The Lua reader terminates: the sharper condition.
-/
import Verif.Props.C64

namespace Tok
open Spec

namespace Lua

/-- No quote is followed by characters of a string up to the end of the text. -/
def Quoted (t : Bytes) : Prop := ∀ q es, q = 34 ∨ q = 39 → q :: es <:+ t → ¬ TokChars q es

theorem quoted_closed : Closed Quoted := fun _ _ hs h q es hq he => h q es hq (he.trans hs)

theorem short_halts (rt : Rt) {q : UInt8} (hq : q = 34 ∨ q = 39) (st : St) (hs : Quoted st.rest) : Halts (fun k => eat rt env k (shortReader q) st) := by
  obtain ⟨t, j⟩ := st
  have done : ∀ {x : Bool × St} {n : Nat}, eat rt env n (shortReader q) ⟨t, j⟩ = .ret x → Halts (fun k => eat rt env k (shortReader q) ⟨t, j⟩) :=
    fun {x n} h => ⟨n, .ret x, by simp, fun m hm => eat_mono hm h⟩
  have hq' : q.toNat < 128 := by rcases hq with rfl | rfl <;> decide
  cases t with
  | nil => exact done (n := 2) (x := (false, ⟨[], j⟩)) (by rcases hq with rfl | rfl <;> rfl)
  | cons c t =>
    by_cases hc : c = q
    · subst hc
      rcases short_cases (rt := rt) (G := env) hq t j with ⟨y, v, h1, h2, n, hn⟩ | ⟨y, c, v, h1, h2, h3, h4, n, hn⟩ | ⟨h1, h2⟩
      · exact done hn
      · exact done hn
      · exact absurd h1 (hs c t hq (List.suffix_refl _))
    · refine done (n := 2) (x := (false, ⟨c :: t, j⟩)) ?_
      show (do let x ← eatSeq (eat rt env 1) [.rune q.toNat, .zom (item q), .rune q.toNat] ⟨c :: t, j⟩; Exec.ret (orBack (c :: t) x)) = _
      rw [eatSeq, rune_no hq' hc t j]
      rfl

theorem quoted_halts (rt : Rt) (st : St) (hs : OkSt true Quoted st) : Halts (fun k => eat rt env k (.rule iLiteralString) st) := by
  refine Halts.shift (Halts.shift ?_)
  show Halts (fun k => (eatAny (eat rt env k) [normalString, charString, long 0 (ru '[')] st).bind _)
  let W : Reader → Prop := fun r => r.Every (Reader.whole true)
  have hB : ∀ r, W r → Behaves true (fun k => eat rt env k r) := fun r hr =>
    ⟨fun _ k => eat_tidy rt env ((Env.everyB_sound wholes).imp fun _ => whole_of_B) k r hr, fun k => eat_shrinks rt env k r⟩
  refine (eatAny_halts (W := W) quoted_closed hB (L := st.rest.length) ?_ ?_ st hs (Nat.le_refl _)).bind fun _ _ _ => .ret
  · intro r hr
    have : ∀ r ∈ [normalString, charString, long 0 (ru '[')], r.everyB (Reader.wholeB true) = true := by decide +kernel
    exact (Reader.everyB_sound _ _ (this r hr)).imp fun _ => whole_of_B
  · intro r hr st' hs' _
    simp only [List.mem_cons, List.not_mem_nil, or_false] at hr
    rcases hr with rfl | rfl | rfl
    · exact short_halts rt (q := 34) (.inl rfl) st' hs'.2
    · exact short_halts rt (q := 39) (.inr rfl) st' hs'.2
    · exact halts_of_soundB rt (nul := nul) (srch := true) (rank := rank) (K := Quoted)
        (vis := fun _ => false) (base := fun _ => false) quoted_closed (by decide +kernel) wholes
        (fun _ h => by cases h) (by decide +kernel) st' hs'

/-- A text that ends with a control character is such a text. -/
theorem quoted_of_low {t : Bytes} (h : LowEnd? t) : Quoted t := by
  intro q es hq hs hc
  have all : ∀ b ∈ q :: es, 32 ≤ b := by
    simp only [List.mem_cons, forall_eq_or_imp]
    exact ⟨by rcases hq with rfl | rfl <;> decide, tok_high hc⟩
  rcases h with rfl | ⟨x, b, rfl, hb⟩
  · simp at hs
  · obtain ⟨y, hy⟩ := hs
    have hl : b ∈ q :: es := by
      have h1 : (y ++ q :: es).getLast (by simp) = b := by simp [hy]
      rw [List.getLast_append_of_ne_nil (by simp) (List.cons_ne_nil q es)] at h1
      exact h1 ▸ List.getLast_mem _
    have := UInt8.le_iff_toNat_le.mp (all b hl)
    simp at this
    omega

end Lua

/-- Reading Lua ends on every UTF-8 text in which no quote is followed by nothing but characters of a string up to the end of the text.
The full claim is without this condition; it is false, see `C58_unfinished_violated`. -/
theorem C58_quoted_partial (rt : Rt) (s : Scanner) (h : Bytes) (cs : List Char) (hb : Between s h (encText cs))
    (hj : ∀ i, ∃ cs, s.heap.janus i = encText cs) (hq : ∀ q es, q = 34 ∨ q = 39 → q :: es <:+ encText cs → ¬ TokChars q es) :
    ∃ n, read rt Lua.env n Lua.reader s ≠ .timeout ∧ ∀ m, n ≤ m → read rt Lua.env m Lua.reader s = read rt Lua.env n Lua.reader s := by
  refine halts_read Lua.noWraps (Reader.everyB_sound Reader.noWrap Lua.reader (by decide)) hb ?_
  refine halts_of_soundB rt (nul := Lua.nul) (srch := true) (rank := Lua.rank) (K := Lua.Quoted)
    (vis := fun _ => true) (base := fun i => i == 3) Lua.quoted_closed (by decide +kernel) Lua.wholes
    (fun i hi st hs => ?_) (by decide) _ ⟨fun _ => ⟨⟨cs, rfl⟩, hj⟩, hq⟩
  simp only [beq_iff_eq] at hi
  subst hi
  exact Lua.quoted_halts rt st hs

/-- A text without quotes. -/
example (rt : Rt) : ∃ n, read rt Lua.env n Lua.reader (.new b!"return x" Heap.empty) ≠ .timeout :=
  let ⟨n, h, _⟩ := C58_quoted_partial rt (.new b!"return x" Heap.empty) [] "return x".toList ⟨rfl, rfl⟩ (fun _ => ⟨[], rfl⟩)
    (fun q es hq hs => by
      have : q ∈ encText "return x".toList := hs.subset List.mem_cons_self
      rcases hq with rfl | rfl <;> exact absurd this (by decide))
  ⟨n, h⟩

/-- A call with a string that does not end is read for ever. -/
theorem C58_unfinished_violated (rt : Rt) (es : Bytes) (h : TokChars 34 es) : Diverges rt Lua.env Lua.reader (97 :: 34 :: es) := by
  refine diverges_of Lua.noWraps (Reader.everyB_sound Reader.noWrap Lua.reader (by decide)) (Lua.stuck_quote rt (t := es) ?_)
  rcases Lua.literal_cases rt (.inl rfl) es Heap.empty.janus with ⟨y, v, rfl, h2, _⟩ | ⟨y, c, v, rfl, h2, h3, _⟩ | ⟨_, h1⟩
  · have := (Lua.chars_unique h2 h (Lua.noItem_quote (.inl rfl) v) Lua.noItem_nil (by simp)).2
    cases this
  · have := (Lua.chars_unique h2 h h3 Lua.noItem_nil (by simp)).2
    cases this
  · exact h1

/-- A string that ends with an escaped quote. -/
example (rt : Rt) : Diverges rt Lua.env Lua.reader b!"a\"x\\\"" :=
  C58_unfinished_violated rt b!"x\\\"" (.plain (by decide) (by decide) (by decide) (.esc (e := [92, 34]) (.simple (by decide)) .nil))

end Tok
