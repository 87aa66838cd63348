/-
C59 demo/full-lua-stack.
-/
import Verif.Props.C42
import Verif.Props.C44
import Verif.Props.C58Bytes
import Verif.Model.Demo

namespace Tok
open Spec

/-- Readers that cannot fail: repetitions and options, and sequences, rules and observers made of readers that cannot fail. -/
inductive Sure (G : Env) : Reader → Prop
  | zom {r : Reader} : Sure G (.zom r)
  | opt {r : Reader} : Sure G (.opt r)
  | seq {rs : List Reader} : (∀ r ∈ rs, Sure G r) → Sure G (.seq rs)
  | skipSeq {sk : Reader} {rs : List Reader} : Sure G sk → (∀ r ∈ rs, Sure G r) → Sure G (.skipSeq sk rs)
  | rule {i : Nat} {nm : Bytes} {c : Reader} : G[i]? = some ⟨nm, some c⟩ → Sure G c → Sure G (.rule i)
  | pick {nm : Bytes} {b : Nat} {c : Reader} : Sure G c → Sure G (.pick nm b c)
  | grammar {w : Bytes} {c : Reader} : Sure G c → Sure G (.grammar w c)

theorem seqLoop_sure {rd : Reader → ReadFunc} : ∀ (rs : List Reader), (∀ r ∈ rs, ∀ s e s', rd r s = .ret (e, s') → e = none) →
    ∀ s e s', seqLoop rd rs s = .ret (e, s') → e = none
  | [], _, s, e, s', h => by simp only [seqLoop, Exec.pure_eq, Exec.ret.injEq, Prod.mk.injEq] at h; exact h.1.symm
  | r :: rs, hr, s, e, s', h => by
    unfold seqLoop at h
    rw [Exec.bind_eq_ret] at h
    obtain ⟨⟨e1, s1⟩, h1, h2⟩ := h
    have := hr r List.mem_cons_self s e1 s1 h1
    subst this
    exact seqLoop_sure rs (fun r h => hr r (List.mem_cons_of_mem _ h)) s1 e s' h2

theorem skipSeqLoop_sure {rd : Reader → ReadFunc} {sk : Reader} (hk : ∀ s e s', rd sk s = .ret (e, s') → e = none) :
    ∀ (rs : List Reader), (∀ r ∈ rs, ∀ s e s', rd r s = .ret (e, s') → e = none) →
    ∀ s e s', skipSeqLoop rd sk rs s = .ret (e, s') → e = none
  | [], _, s, e, s', h => by simp only [skipSeqLoop, Exec.pure_eq, Exec.ret.injEq, Prod.mk.injEq] at h; exact h.1.symm
  | r :: rs, hr, s, e, s', h => by
    unfold skipSeqLoop at h
    rw [Exec.bind_eq_ret] at h
    obtain ⟨⟨e1, s1⟩, h1, h2⟩ := h
    have := hr r List.mem_cons_self s e1 s1 h1
    subst this
    simp only [] at h2
    rw [Exec.bind_eq_ret] at h2
    obtain ⟨⟨e2, s2⟩, h3, h4⟩ := h2
    have := hk s1 e2 s2 h3
    subst this
    exact skipSeqLoop_sure hk rs (fun r h => hr r (List.mem_cons_of_mem _ h)) s2 e s' h4

/-- Such readers return no error, whatever the text. -/
theorem Sure.ok {rt : Rt} {G : Env} {r : Reader} (h : Sure G r) : ∀ n s e s', read rt G n r s = .ret (e, s') → e = none := by
  induction h with
  | zom =>
    intro n s e s' h
    cases n with
    | zero => cases h
    | succ n =>
      simp only [read] at h
      rw [Exec.bind_eq_ret] at h
      obtain ⟨_, _, h⟩ := h
      cases h
      rfl
  | opt =>
    intro n s e s' h
    cases n with
    | zero => cases h
    | succ n =>
      simp only [read] at h
      rw [Exec.bind_eq_ret] at h
      obtain ⟨_, _, h⟩ := h
      cases h
      rfl
  | seq _ ih =>
    intro n s e s' h
    cases n with
    | zero => cases h
    | succ n =>
      simp only [read] at h
      rw [Exec.bind_eq_ret] at h
      obtain ⟨⟨e1, s1⟩, h1, h2⟩ := h
      have := seqLoop_sure _ (fun r hr => ih r hr n) _ _ _ h1
      subst this
      cases h2
      rfl
  | skipSeq _ _ ih1 ih2 =>
    intro n s e s' h
    cases n with
    | zero => cases h
    | succ n =>
      simp only [read] at h
      rw [Exec.bind_eq_ret] at h
      obtain ⟨⟨e1, s1⟩, h1, h2⟩ := h
      have := ih1 n _ _ _ h1
      subst this
      simp only [Option.isSome_none, Bool.false_eq_true, if_false] at h2
      rw [Exec.bind_eq_ret] at h2
      obtain ⟨⟨e2, s2⟩, h3, h4⟩ := h2
      have := skipSeqLoop_sure (ih1 n) _ (fun r hr => ih2 r hr n) _ _ _ h3
      subst this
      cases h4
      rfl
  | rule hi _ ih =>
    intro n s e s' h
    cases n with
    | zero => cases h
    | succ n =>
      simp only [read, hi] at h
      exact ih n _ _ _ h
  | pick _ ih =>
    intro n s e s' h
    cases n with
    | zero => cases h
    | succ n =>
      simp only [read, Scanner.tokenizeUse] at h
      rw [Exec.bind_eq_ret] at h
      obtain ⟨⟨⟨t1, e1⟩, s1⟩, h1, h2⟩ := h
      rw [Exec.bind_eq_ret] at h1
      obtain ⟨⟨e2, s2⟩, h3, h4⟩ := h1
      have := ih n _ _ _ h3
      subst this
      cases h4
      cases h2
      rfl
  | grammar _ ih =>
    intro n s e s' h
    cases n with
    | zero => cases h
    | succ n =>
      simp only [read] at h
      rw [Exec.bind_eq_ret] at h
      obtain ⟨⟨e1, s1⟩, h1, h2⟩ := h
      have := ih n _ _ _ h1
      subst this
      cases h2
      rfl

namespace Lua

theorem sure : Sure Lua.env Lua.reader := by
  refine .grammar (.rule (i := iChunk) rfl (.rule (i := iBlock) rfl (.skipSeq .zom ?_)))
  intro r hr
  have hr : r ∈ [Reader.zom (.rule iStat), .opt (.rule iRetStat)] := hr
  simp only [List.mem_cons, List.not_mem_nil, or_false] at hr
  rcases hr with rfl | rfl
  · exact .zom
  · exact .opt

theorem sure_pick (b : Nat) : Sure (Lua.env.pickAll b) Lua.reader := by
  refine .grammar (.rule (i := iChunk) rfl (.pick (.rule (i := iBlock) rfl (.pick (.skipSeq .zom ?_)))))
  intro r hr
  have hr : r ∈ [Reader.zom (.rule iStat), .opt (.rule iRetStat)] := hr
  simp only [List.mem_cons, List.not_mem_nil, or_false] at hr
  rcases hr with rfl | rfl
  · exact .zom
  · exact .opt

/-- `Pick` for all rules. -/
theorem pickAll_dress : Lua.env.pickAll 0 = dress (fun _ => [.pick 0]) Lua.env := rfl

theorem all_same (rt : Rt) (s : Scanner) (hs : Inside s) (e : Option Err) (pos : Int) :
    (∃ n s', read rt env n reader s = .ret (e, s') ∧ s'.pos = pos) ↔ ∃ n s', read rt (env.pickAll 0) n reader s = .ret (e, s') ∧ s'.pos = pos := by
  rw [pickAll_dress]
  refine C44_rules_partial rt env ((Env.everyB_sound (p := Reader.tameB) (by decide)).imp fun _ => tame_of_B) (restoresB_env (by decide))
    _ reader (.mk trivial ?_) s hs e pos
  intro r hr
  simp [reader, Reader.subs] at hr
  subst hr
  exact .mk trivial (by simp [Reader.subs])

/-- The scanner of the program. -/
def start (t : Bytes) : Scanner := (Scanner.new t Heap.empty).newBasket 0

theorem start_inside (t : Bytes) : Inside (start t) := new_inside t Heap.empty

theorem all_safe {p : Prop} : (env.pickAll 0).Every (Reader.safeHere p (env.pickAll 0)) :=
  (Env.everyB_sound (p := Reader.safeB (env.pickAll 0)) (by decide +kernel)).imp fun _ => safeHere_of_safeB

end Lua

/-- Using the Lua grammar never gives an error, whatever the text. -/
theorem C59_reader (rt : Rt) (n : Nat) (s : Scanner) (e : Option Err) (s' : Scanner) (h : read rt Lua.env n Lua.reader s = .ret (e, s')) : e = none :=
  Lua.sure.ok n s e s' h

/-- The claim that the program ends with an error message for what is not Lua is false: it never does, for no file. -/
theorem C59_rejects_violated (rt : Rt) (fuel : Nat) (filename t : Bytes) : luaStack rt fuel filename t ≠ .ret none := by
  intro h
  unfold luaStack printStack Scanner.use at h
  rw [Exec.bind_eq_ret] at h
  obtain ⟨⟨e, s'⟩, h1, h2⟩ := h
  rw [Exec.bind_eq_ret] at h1
  obtain ⟨⟨e1, s1⟩, h3, h4⟩ := h1
  have := (Lua.sure_pick 0).ok _ _ _ _ h3
  subst this
  cases h4
  simp only [] at h2
  rw [Exec.bind_eq_ret] at h2
  obtain ⟨g, _, h2⟩ := h2
  cases h2

/-- What the program prints where reading ends. -/
theorem Lua.prints (rt : Rt) (filename t : Bytes)
    (hend : ∃ n, read rt Lua.env n Lua.reader (Lua.start t) ≠ .timeout ∧ ∀ m, n ≤ m → read rt Lua.env m Lua.reader (Lua.start t) = read rt Lua.env n Lua.reader (Lua.start t)) :
    ∃ N s' root, (∀ fuel, N ≤ fuel → read rt (Lua.env.pickAll 0) fuel Lua.reader (Lua.start t) = .ret (none, s')) ∧
      Tree root ∧ root.seg.info = filename ∧ root.under.Perm (s'.heap.baskets 0) ∧
      ∀ fuel, N ≤ fuel → luaStack rt fuel filename t = .ret (some ((Node.paths [] 1 root).map pathLine).flatten) := by
  obtain ⟨n, h1, h2⟩ := hend
  rcases hr : read rt Lua.env n Lua.reader (Lua.start t) with ⟨e, s'⟩ | _ | _
  · have := Lua.sure.ok _ _ _ _ hr
    subst this
    obtain ⟨m, u, h3, _⟩ := (Lua.all_same rt (Lua.start _) (Lua.start_inside _) none s'.pos).mp ⟨n, s', hr, rfl⟩
    have h3 := fun fuel (hf : m ≤ fuel) => read_mono hf h3
    have hh : History rt (Lua.env.pickAll 0) 0 u := .read m Lua.reader _ _ u (.start _ (new_inside _ _))
        (.mk (r := .grammar _ _) trivial (by simpa [Reader.subs] using .mk (r := .rule _) trivial (by simp [Reader.subs]))) (h3 m (Nat.le_refl _))
    have hf := hh.follows (C41_shipped 0).2
    obtain ⟨g, N, h4, h5⟩ := buildLoop_all filename (u.heap.baskets 0) [] _ .new (fun x hx => (hf.within x hx).2.1) (by simp)
      ((C42_apart_partial rt _ 0 (C41_shipped 0).2 u hh).imp fun h => h.2)
    obtain ⟨⟨h6, _⟩, h7, h8⟩ := h4.ok
    refine ⟨max m N, u, g.root, fun fuel hf => h3 fuel (by omega), h6, h7, ?_, fun fuel hf => ?_⟩
    · rw [List.append_nil] at h8
      exact h8.trans (List.reverse_perm _)
    · unfold luaStack printStack Scanner.use
      have h3 : read rt (Lua.env.pickAll 0) fuel Lua.reader ((Scanner.new t Heap.empty).newBasket 0) = _ := h3 fuel (by omega)
      simp only [h3, Exec.bind_ret, Option.isSome_none, Bool.false_eq_true, if_false, Exec.pure_eq]
      have h5 : Graph.build fuel filename (u.heap.baskets 0) = _ := h5 fuel (by omega)
      rw [h5]
      simp only [Exec.bind_ret]
      rw [C30_paths]
  · exact absurd hr (C32_no_panic_partial rt _ _ Lua.safe ((Reader.everyB_sound (Reader.safeB Lua.env) Lua.reader (by decide)).imp fun _ => safeHere_of_safeB) n _
      (Lua.start_inside _))
  · exact absurd hr h1

/-- For every file of characters in which no quote is followed by nothing but characters of a string up to the end, the program comes to an end and prints
the lines of a tree: its root has the name of the file, every node covers those below it, the children of a node are apart and in
text order, and its other nodes are what was picked, each as often as it was picked. -/
theorem C59_prints_partial (rt : Rt) (filename : Bytes) (cs : List Char)
    (hq : ∀ q es, q = 34 ∨ q = 39 → q :: es <:+ encText cs → ¬ TokChars q es) :
    ∃ N s' root, (∀ fuel, N ≤ fuel → read rt (Lua.env.pickAll 0) fuel Lua.reader (Lua.start (encText cs)) = .ret (none, s')) ∧
      Tree root ∧ root.seg.info = filename ∧ root.under.Perm (s'.heap.baskets 0) ∧
      ∀ fuel, N ≤ fuel → luaStack rt fuel filename (encText cs) = .ret (some ((Node.paths [] 1 root).map pathLine).flatten) :=
  Lua.prints rt filename _ (C58_quoted_partial rt (Lua.start (encText cs)) [] cs ⟨rfl, rfl⟩ (fun _ => ⟨[], rfl⟩) hq)

/-- The same for every file of any bytes whose last two bytes are ASCII and in which no quote is followed by nothing but characters of a string up to the end. -/
theorem C59_bytes_partial (rt : Rt) (filename t : Bytes) (ha : AsciiEnd t)
    (hq : ∀ q es, q = 34 ∨ q = 39 → q :: es <:+ t → ¬ TokChars q es) :
    ∃ N s' root, (∀ fuel, N ≤ fuel → read rt (Lua.env.pickAll 0) fuel Lua.reader (Lua.start t) = .ret (none, s')) ∧
      Tree root ∧ root.seg.info = filename ∧ root.under.Perm (s'.heap.baskets 0) ∧
      ∀ fuel, N ≤ fuel → luaStack rt fuel filename t = .ret (some ((Node.paths [] 1 root).map pathLine).flatten) :=
  Lua.prints rt filename t (C58_bytes_partial rt (Lua.start t) [] t ⟨rfl, rfl⟩ ha hq)

/-- A file with bytes outside UTF-8. -/
example : luaStack exRt 99 b!"f" (b!"--" ++ [0xFC] ++ b!" u\n") = .ret (some b!"1.f[0-6) 6\n1.f[0-6);1.chunk[0-6) 6\n1.f[0-6);1.chunk[0-6);1.block[0-6) 6\n1.f[0-6);1.chunk[0-6);1.block[0-6);1.Comment[0-5) 5\n") := by
  decide +kernel

/-- Among them all that end with a line break. -/
example (rt : Rt) : ∃ N root, ∀ fuel, N ≤ fuel → luaStack rt fuel b!"f" (encText "x = 'a'\n".toList) = .ret (some ((Node.paths [] 1 root).map pathLine).flatten) :=
  let ⟨N, _, root, _, _, _, _, h⟩ := C59_prints_partial rt b!"f" "x = 'a'\n".toList (Lua.quoted_of_low (.inr ⟨b!"x = 'a'", 10, by decide, by decide⟩))
  ⟨N, root, h⟩

/-- One statement and a line break. -/
example : luaStack exRt 99 b!"f" b!";\n" = .ret (some b!"1.f[0-2) 2\n1.f[0-2);1.chunk[0-2) 2\n1.f[0-2);1.chunk[0-2);1.block[0-2) 2\n1.f[0-2);1.chunk[0-2);1.block[0-2);1.stat[0-1) 1\n") := by
  decide +kernel

/-- For example a closing parenthesis is taken for a program. -/
example : luaStack exRt 99 b!"f" b!")" = .ret (some b!"1.f[0-0) 0\n1.f[0-0);1.chunk[0-0) 0\n1.f[0-0);1.chunk[0-0);1.block[0-0) 0\n") := by
  decide +kernel

/-- And for a call with an unterminated string the program does not come to an end. -/
theorem C59_hangs_violated (rt : Rt) (filename : Bytes) (es : Bytes) (h : TokChars 34 es) (fuel : Nat) :
    luaStack rt fuel filename (97 :: 34 :: es) = .timeout := by
  have key : ∀ n, read rt (Lua.env.pickAll 0) n Lua.reader (Lua.start (97 :: 34 :: es)) = .timeout := fun n => by
    rcases hr : read rt (Lua.env.pickAll 0) n Lua.reader (Lua.start (97 :: 34 :: es)) with ⟨e, s'⟩ | _ | _
    · obtain ⟨m, s'', h1, _⟩ := (Lua.all_same rt _ (Lua.start_inside _) e s'.pos).mpr ⟨n, s', hr, rfl⟩
      have sim := fun s hs => read_eat rt Lua.env (Env.everyB_sound (by decide +kernel)) m Lua.reader (Reader.everyB_sound Reader.noWrap Lua.reader (by decide))
        (97 :: 34 :: es) s ⟨97 :: 34 :: es, Heap.empty.janus⟩ hs
      have h2 := (sim (.new _ Heap.empty) ⟨rfl, ⟨[], rfl, rfl⟩, rfl⟩).timeout_iff.mp (C58_unfinished_violated rt es h m)
      have h3 := (sim (Lua.start _) ⟨rfl, ⟨[], rfl, rfl⟩, rfl⟩).timeout_iff.mpr h2
      rw [h3] at h1
      cases h1
    · exact absurd hr (C32_no_panic_partial rt _ _ Lua.all_safe
        ((Reader.everyB_sound (Reader.safeB (Lua.env.pickAll 0)) Lua.reader (by decide)).imp fun _ => safeHere_of_safeB) n _ (Lua.start_inside _))
    · rfl
  have := key fuel
  unfold Lua.start at this
  unfold luaStack printStack Scanner.use
  rw [this]
  rfl

end Tok
