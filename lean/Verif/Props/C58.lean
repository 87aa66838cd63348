/-
C58 The Lua reader terminates.
-/
import Verif.Props.C49

namespace Tok
open Spec

namespace Lua

def nul : List Bool := (List.range 44).map fun i => [27, 41, 42, 43].contains i
def rank : List Nat := [0,0,0,0,0,0,0,0,5,6,1,2,1,0,2,2,2,3,4,5,1,3,1,2,1,0,0,0,1,0,0,0,0,0,0,0,0,0,0,0,3,4,5,5]

theorem nulls : ∀ (i : Nat) (nm : Bytes) (c : Reader), env[i]? = some ⟨nm, some c⟩ → c.null (nulOf nul) = true →
    nulOf nul i = true := by
  have h : Env.soundB (nulOf nul) true true (rankOf rank) (fun _ => false) (fun _ => false) 0 env = true := by decide +kernel
  intro i nm c hi
  have := (soundB_sound h i nm c hi).1
  rwa [Nat.zero_add] at this

theorem wholes : env.everyB (Reader.wholeB true) = true := by decide +kernel

/-- The characters between the quotes of a string. -/
theorem chars_halts (rt : Rt) (holes : Bytes) (st : St) (hs : LowEnd st.rest) :
    Halts (fun k => eat rt env k (.zom (.any [.holey 32 maxRune holes, escapeSequence])) st) := by
  refine Halts.shift ?_
  refine Halts.bind (Halts2.diag (eatZom_halts_low (F := fun k => eat rt env k (.any [.holey 32 maxRune holes, escapeSequence])) (fun k => ?_) ?_
    (fun st _ => ?_) _ st hs (Nat.le_refl _))) fun _ _ _ => .ret
  · refine eat_keeps rt env (vis := fun _ => False) (fun i nm c hi hv => hv.elim) k _ ?_
    refine (Reader.everyB_sound (fun r => r.high && (match r with | .rule _ => false | _ => true)) _ (by rfl)).imp fun r h => ?_
    simp only [Bool.and_eq_true] at h
    refine ⟨h.1, fun i e => ?_⟩
    subst e
    cases h.2
  · intro k st hs x hx h1
    exact eatAny_holey nulls (by decide) hs.ne_nil hx h1
  · exact halts_of_soundB rt (nul := nul) (srch := false) (rank := rank) (K := fun _ => True)
      (vis := fun _ => false) (base := fun _ => false) (fun _ _ _ _ => trivial) (by decide +kernel) (by decide +kernel)
      (fun _ h => by cases h) (by rfl) st ⟨by simp, trivial⟩

theorem string_halts (rt : Rt) (st : St) (hs : OkSt true LowEnd? st) : Halts (fun k => eat rt env k (.rule iLiteralString) st) := by
  refine Halts.shift (Halts.shift ?_)
  show Halts (fun k => (eatAny (eat rt env k) [normalString, charString, long 0 (ru '[')] st).bind _)
  let W : Reader → Prop := fun r => r.Every (Reader.whole true)
  have hB : ∀ r, W r → Behaves true (fun k => eat rt env k r) := fun r hr =>
    ⟨fun _ k => eat_tidy rt env ((Env.everyB_sound wholes).imp fun _ => whole_of_B) k r hr, fun k => eat_shrinks rt env k r⟩
  refine (eatAny_halts (W := W) lowEnd?_closed hB (L := st.rest.length) ?_ ?_ st hs (Nat.le_refl _)).bind fun _ _ _ => .ret
  · intro r hr
    have : ∀ r ∈ [normalString, charString, long 0 (ru '[')], r.everyB (Reader.wholeB true) = true := by decide +kernel
    exact (Reader.everyB_sound _ _ (this r hr)).imp fun _ => whole_of_B
  · intro r hr st' hs' _
    simp only [List.mem_cons, List.not_mem_nil, or_false] at hr
    rcases hr with rfl | rfl | rfl
    · exact eatString_halts rt env (q := 34) (by decide) (by decide) (chars_halts rt _) st' hs'.2
    · exact eatString_halts rt env (q := 39) (by decide) (by decide) (chars_halts rt _) st' hs'.2
    · exact halts_of_soundB rt (nul := nul) (srch := true) (rank := rank) (K := LowEnd?)
        (vis := fun _ => false) (base := fun _ => false) lowEnd?_closed (by decide +kernel) wholes
        (fun _ h => by cases h) (by decide +kernel) st' hs'

end Lua

/-- Reading Lua ends on every UTF-8 text that is empty or ends with a control character, such as a line feed. -/
theorem C58_terminates_partial (rt : Rt) (s : Scanner) (h : Bytes) (cs : List Char) (hb : Between s h (encText cs))
    (hj : ∀ i, ∃ cs, s.heap.janus i = encText cs) (ht : ∀ ds c, cs = ds ++ [c] → c.toNat < 32) :
    ∃ n, read rt Lua.env n Lua.reader s ≠ .timeout ∧ ∀ m, n ≤ m → read rt Lua.env m Lua.reader s = read rt Lua.env n Lua.reader s := by
  have hnw : Lua.env.Every (fun r => r.noWrap = true) := Env.everyB_sound (by decide +kernel)
  refine halts_read hnw (Reader.everyB_sound Reader.noWrap Lua.reader (by decide)) hb ?_
  refine halts_of_soundB rt (nul := Lua.nul) (srch := true) (rank := Lua.rank) (K := LowEnd?)
    (vis := fun _ => true) (base := fun i => i == 3) lowEnd?_closed (by decide +kernel) Lua.wholes
    (fun i hi st hs => ?_) (by decide) _ ⟨fun _ => ⟨⟨cs, rfl⟩, hj⟩, ?_⟩
  · simp only [beq_iff_eq] at hi
    subst hi
    exact Lua.string_halts rt st hs
  · rcases List.eq_nil_or_concat cs with rfl | ⟨ds, c, rfl⟩
    · exact .inl rfl
    · have hc : c.val.toNat < 32 := ht ds c (by simp)
      refine .inr ⟨encText ds, UInt8.ofNat c.val.toNat, ?_, ?_⟩
      · rw [List.concat_eq_append, encText, encText, List.flatMap_append]
        simp only [List.flatMap_cons, List.flatMap_nil, List.append_nil, List.append_cancel_left_eq]
        unfold enc String.utf8EncodeChar
        simp only
        rw [if_pos (by omega)]
      · rw [UInt8.toNat_ofNat']
        omega

example (rt : Rt) : ∃ n, read rt Lua.env n Lua.reader (.new b!"a=\"x\n" Heap.empty) ≠ .timeout :=
  let ⟨n, h, _⟩ := C58_terminates_partial rt (.new b!"a=\"x\n" Heap.empty) [] ['a', '=', '"', 'x', '\n'] ⟨rfl, rfl⟩ (fun _ => ⟨[], rfl⟩)
    (fun ds c h => by
      have := (List.append_inj' (s₁ := ['a', '=', '"', 'x']) (t₁ := ['\n']) h rfl).2
      cases this
      decide)
  ⟨n, h⟩

/-! ### the claim for all texts is false -/

theorem stuck_skipSeq {rt : Rt} {G : Env} {st st' : St} {sk : Reader} {rs : List Reader} {m : Nat} (h : eat rt G m sk st = .ret (true, st'))
    (h' : ∀ n, eatSkip (eat rt G n) sk rs st' = .timeout) : NoEnd rt G (.skipSeq sk rs) st
  | 0 => rfl
  | n + 1 => by
    simp only [eat]
    rcases eat_or h n with h | h
    · rw [h]; rfl
    · rw [h]
      simp only [Exec.bind_ret, if_true]
      rw [h' n]; rfl

theorem eatSkip_stuck {rt : Rt} {G : Env} {st : St} {sk r : Reader} {rs : List Reader} (h : NoEnd rt G r st) (n : Nat) :
    eatSkip (eat rt G n) sk (r :: rs) st = .timeout := by
  unfold eatSkip; rw [h n]; rfl

theorem eatSkip_past {rt : Rt} {G : Env} {st st' st'' : St} {sk r : Reader} {rs : List Reader} {m m' : Nat}
    (h : eat rt G m r st = .ret (true, st')) (hs : eat rt G m' sk st' = .ret (true, st''))
    (h' : ∀ n, eatSkip (eat rt G n) sk rs st'' = .timeout) (n : Nat) : eatSkip (eat rt G n) sk (r :: rs) st = .timeout := by
  unfold eatSkip
  rcases eat_or h n with h | h
  · rw [h]; rfl
  · rw [h]
    simp only [Exec.bind_ret, if_true]
    rcases eat_or hs n with h | h
    · rw [h]; rfl
    · rw [h]; exact h' n

theorem stuck_zom {rt : Rt} {G : Env} {st : St} {r : Reader} (h : NoEnd rt G r st) : NoEnd rt G (.zom r) st
  | 0 => rfl
  | 1 => rfl
  | n + 2 => by
    show (do let x ← eatZom (eat rt G (n + 1) r) (n + 1) st; Exec.ret (true, x)) = _
    unfold eatZom
    rw [h (n + 1)]; rfl

/-- A literal string that never ends makes the reader of a function call with it loop. -/
theorem Lua.stuck_quote (rt : Rt) {t : Bytes} {j : Nat → Bytes} (h : NoEnd rt Lua.env (.rule Lua.iLiteralString) ⟨34 :: t, j⟩) :
    NoEnd rt Lua.env Lua.reader ⟨97 :: 34 :: t, j⟩ := by
  have h1 : NoEnd rt Lua.env (.rule Lua.iFuncArgs) ⟨34 :: t, j⟩ :=
    .rule rfl (stuck_any (eatAny_past (st' := ⟨34 :: t, j⟩) (m := 9) rfl (eatAny_past (st' := ⟨34 :: t, j⟩) (m := 9) rfl (eatAny_stuck h))))
  have h2 : NoEnd rt Lua.env Lua.nameAndArgs ⟨34 :: t, j⟩ :=
    stuck_skipSeq (st' := ⟨34 :: t, j⟩) (m := 9) rfl (eatSkip_past (st' := ⟨34 :: t, j⟩) (st'' := ⟨34 :: t, j⟩) (m := 9) (m' := 9) rfl rfl (eatSkip_stuck h1))
  have h3 : NoEnd rt Lua.env (.rule Lua.iVarSuffix) ⟨34 :: t, j⟩ :=
    .rule rfl (stuck_skipSeq (st' := ⟨34 :: t, j⟩) (m := 9) rfl (eatSkip_stuck (stuck_zom h2)))
  have h4 : NoEnd rt Lua.env (.rule Lua.iVar) ⟨97 :: 34 :: t, j⟩ :=
    .rule rfl (stuck_seq (eatSeq_past (st' := ⟨34 :: t, j⟩) (m := 9) rfl (eatSeq_stuck (stuck_zom h3))))
  have h5 : NoEnd rt Lua.env (.rule Lua.iVarList) ⟨97 :: 34 :: t, j⟩ :=
    .rule rfl (stuck_skipSeq (st' := ⟨97 :: 34 :: t, j⟩) (m := 9) rfl (eatSkip_stuck h4))
  have h6 : NoEnd rt Lua.env (.rule Lua.iStat) ⟨97 :: 34 :: t, j⟩ :=
    .rule rfl (stuck_any (eatAny_past (st' := ⟨97 :: 34 :: t, j⟩) (m := 9) rfl (eatAny_stuck (stuck_seq (eatSeq_stuck h5)))))
  have h7 : NoEnd rt Lua.env (.rule Lua.iBlock) ⟨97 :: 34 :: t, j⟩ :=
    .rule rfl (stuck_skipSeq (st' := ⟨97 :: 34 :: t, j⟩) (m := 9) rfl (eatSkip_stuck (stuck_zom h6)))
  have h8 : NoEnd rt Lua.env (.rule Lua.iChunk) ⟨97 :: 34 :: t, j⟩ := .rule rfl h7
  intro n
  cases n with
  | zero => rfl
  | succ n => exact h8 n

/-- The same for a long string. -/
theorem Lua.stuck_long (rt : Rt) {t : Bytes} {j : Nat → Bytes} (h : NoEnd rt Lua.env (.rule Lua.iLiteralString) ⟨91 :: t, j⟩) :
    NoEnd rt Lua.env Lua.reader ⟨97 :: 91 :: t, j⟩ := by
  have h1 : NoEnd rt Lua.env (.rule Lua.iFuncArgs) ⟨91 :: t, j⟩ :=
    .rule rfl (stuck_any (eatAny_past (st' := ⟨91 :: t, j⟩) (m := 9) rfl (eatAny_past (st' := ⟨91 :: t, j⟩) (m := 9) rfl (eatAny_stuck h))))
  have h2 : NoEnd rt Lua.env Lua.nameAndArgs ⟨91 :: t, j⟩ :=
    stuck_skipSeq (st' := ⟨91 :: t, j⟩) (m := 9) rfl (eatSkip_past (st' := ⟨91 :: t, j⟩) (st'' := ⟨91 :: t, j⟩) (m := 9) (m' := 9) rfl rfl (eatSkip_stuck h1))
  have h3 : NoEnd rt Lua.env (.rule Lua.iVarSuffix) ⟨91 :: t, j⟩ :=
    .rule rfl (stuck_skipSeq (st' := ⟨91 :: t, j⟩) (m := 9) rfl (eatSkip_stuck (stuck_zom h2)))
  have h4 : NoEnd rt Lua.env (.rule Lua.iVar) ⟨97 :: 91 :: t, j⟩ :=
    .rule rfl (stuck_seq (eatSeq_past (st' := ⟨91 :: t, j⟩) (m := 9) rfl (eatSeq_stuck (stuck_zom h3))))
  have h5 : NoEnd rt Lua.env (.rule Lua.iVarList) ⟨97 :: 91 :: t, j⟩ :=
    .rule rfl (stuck_skipSeq (st' := ⟨97 :: 91 :: t, j⟩) (m := 9) rfl (eatSkip_stuck h4))
  have h6 : NoEnd rt Lua.env (.rule Lua.iStat) ⟨97 :: 91 :: t, j⟩ :=
    .rule rfl (stuck_any (eatAny_past (st' := ⟨97 :: 91 :: t, j⟩) (m := 9) rfl (eatAny_stuck (stuck_seq (eatSeq_stuck h5)))))
  have h7 : NoEnd rt Lua.env (.rule Lua.iBlock) ⟨97 :: 91 :: t, j⟩ :=
    .rule rfl (stuck_skipSeq (st' := ⟨97 :: 91 :: t, j⟩) (m := 9) rfl (eatSkip_stuck (stuck_zom h6)))
  have h8 : NoEnd rt Lua.env (.rule Lua.iChunk) ⟨97 :: 91 :: t, j⟩ := .rule rfl h7
  intro n
  cases n with
  | zero => rfl
  | succ n => exact h8 n

/-- A call with a string that does not end is read for ever: a name, a quote and any number of plain characters. -/
theorem C58_string_violated (rt : Rt) (cs : List Char) (h : ∀ c ∈ cs, 32 ≤ c.toNat ∧ c ≠ '"' ∧ c ≠ '\\') :
    Diverges rt Lua.env Lua.reader (b!"a\"" ++ encText cs) := by
  refine diverges_of (Env.everyB_sound (by decide +kernel)) (Reader.everyB_sound Reader.noWrap Lua.reader (by decide)) ?_
  generalize Heap.empty.janus = j
  refine Lua.stuck_quote rt (t := encText cs) ?_
  have hc : ∀ c : Char, (32 ≤ c.toNat ∧ c ≠ '"' ∧ c ≠ '\\') → ∀ t n,
      eat rt Lua.env n (.any [.holey 32 maxRune b!"\"\\", Lua.escapeSequence]) ⟨enc c ++ t, j⟩ = .timeout ∨
      eat rt Lua.env n (.any [.holey 32 maxRune b!"\"\\", Lua.escapeSequence]) ⟨enc c ++ t, j⟩ = .ret (true, ⟨t, j⟩) := fun c hc t => by
    refine eat_or (n := 2) ?_
    have h' : 32 ≤ c.toNat ∧ c.toNat ≠ 34 ∧ c.toNat ≠ 92 :=
      ⟨hc.1, fun e => hc.2.1 (Char.ext (UInt32.toNat_inj.mp e)), fun e => hc.2.2 (Char.ext (UInt32.toNat_inj.mp e))⟩
    have := eat_holey_char rt Lua.env (holes := b!"\"\\") (by decide) h' 0 t j
    show (do let x ← eatAny (eat rt Lua.env 1) _ _; Exec.ret (orBack _ x)) = _
    rw [eatAny, this]
    rfl
  have hz : NoEnd rt Lua.env (.zom (.any [.holey 32 maxRune b!"\"\\", Lua.escapeSequence])) ⟨encText cs, j⟩ := fun n => by
    cases n with
    | zero => rfl
    | succ n =>
      show (do let x ← eatZom (eat rt Lua.env n (.any [.holey 32 maxRune b!"\"\\", Lua.escapeSequence])) n _; Exec.ret (true, x)) = _
      rw [eatZom_through (fun c t hp => hc c hp t n) (eat_or (n := 3) rfl n) n cs h]
      rfl
  exact .rule rfl (stuck_any (eatAny_stuck (stuck_seq (eatSeq_past (m := 1) rfl (eatSeq_stuck hz)))))

/-- So is a call with a long string that ends with a byte that belongs to no character. -/
theorem C58_long_violated (rt : Rt) : Diverges rt Lua.env Lua.reader (b!"a[[" ++ [0xFF]) := by
  refine diverges_of (Env.everyB_sound (by decide +kernel)) (Reader.everyB_sound Reader.noWrap Lua.reader (by decide)) ?_
  generalize Heap.empty.janus = j
  refine Lua.stuck_long rt (t := [91, 0xFF]) ?_
  have hp : NoEnd rt Lua.env (mkPast (rd (mkSeq [ru ']', rd (mkJanus 0 [] (mkZom (.str b!"="))).2, ru ']']))) ⟨[0xFF], upd j 0 []⟩ := by
    intro n
    cases n with
    | zero => rfl
    | succ n =>
      show (do let x ← eatPast (eat rt Lua.env n (mkSeq [ru ']', rd (mkJanus 0 [] (mkZom (.str b!"="))).2, ru ']'])) n _; Exec.ret (orBack _ x)) = _
      rw [eatPast_stuck (by simp) ?_ (eat_or (n := 9) rfl n)]
      · rfl
      · show eatStep [0xFF] = (false, [0xFF])
        decide
  exact .rule rfl (stuck_any (eatAny_past (st' := ⟨[91, 91, 0xFF], j⟩) (m := 9) rfl
    (eatAny_past (st' := ⟨[91, 91, 0xFF], j⟩) (m := 9) rfl
      (eatAny_stuck (stuck_seq (eatSeq_past (st' := ⟨[0xFF], upd j 0 []⟩) (m := 9) rfl (eatSeq_stuck hp)))))))

end Tok
