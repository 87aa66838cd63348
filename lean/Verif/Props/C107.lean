/-
C107 The printed stack tells the graph.
-/
import Verif.Props.C57
import Verif.Props.C59Exact
import Verif.Props.C61
import Verif.Props.C67
import Verif.Props.C103

namespace Tok
open Spec

/-! ### a number and a dot -/

theorem digits_dot {i j : Nat} {u v : Bytes} (h : natDigits i ++ 46 :: u = natDigits j ++ 46 :: v) : i = j ∧ u = v := by
  have no : ∀ n, (46 : UInt8) ∉ natDigits n := fun n h => absurd (natDigits_mem h) (by decide)
  obtain ⟨h1, h2⟩ := split_first (no i) (no j) h
  exact ⟨natDigits_inj h1, h2⟩

/-- The beginning of the lines of the node number `i` and of the nodes below it. -/
def stackMark (pre : Bytes) (i : Nat) : Bytes := pre ++ (natDigits i ++ [46])

theorem stackMark_eq {pre : Bytes} {i j : Nat} {u : Bytes} (h : stackMark pre i <+: stackMark pre j ++ u) : i = j := by
  obtain ⟨w, h⟩ := h
  unfold stackMark at h
  simp only [List.append_assoc, List.append_cancel_left_eq, List.singleton_append] at h
  exact (digits_dot h).1

theorem stackLines_mark (n : Node) (pre : Bytes) (i : Nat) : ∃ u, stackLines pre i n = stackMark pre i ++ u := by
  obtain ⟨s, ns⟩ := n
  rw [stackLines]
  exact ⟨s.string ++ (b!" " ++ (itoa s.tok.len ++ (b!"\n" ++ stackLinesList (pre ++ natDigits i ++ b!"." ++ s.string ++ b!";") 1 ns))),
    by simp [stackMark]⟩

theorem stackLinesList_mark (ns : List Node) (pre : Bytes) (j : Nat) : ns = [] ∨ ∃ u, stackLinesList pre j ns = stackMark pre j ++ u := by
  cases ns with
  | nil => exact .inl rfl
  | cons n ns =>
    obtain ⟨u, h⟩ := stackLines_mark n pre j
    exact .inr ⟨u ++ stackLinesList pre (j + 1) ns, by rw [stackLinesList, h, List.append_assoc]⟩

mutual
theorem stackLines_inj : ∀ (n m : Node) (pre : Bytes) (i : Nat) (u v : Bytes), (10 : UInt8) ∉ pre →
    (∀ s ∈ n.all, (10 : UInt8) ∉ s.info) → (∀ s ∈ m.all, (10 : UInt8) ∉ s.info) →
    ¬ stackMark pre i <+: u → ¬ stackMark pre i <+: v → stackLines pre i n ++ u = stackLines pre i m ++ v → n = m ∧ u = v
  | .mk s ns, .mk s' ms, pre, i, u, v, hp, hn, hm, hu, hv, h => by
    rw [stackLines, stackLines] at h
    rw [Node.all] at hn hm
    have line : ∀ s : Segment, (10 : UInt8) ∉ s.info → (10 : UInt8) ∉ pre ++ natDigits i ++ b!"." ++ s.string ++ b!" " ++ itoa s.tok.len := fun s hs => by
      simp only [List.mem_append, not_or]
      exact ⟨⟨⟨⟨⟨hp, natDigits_line i⟩, by decide⟩, seg_string_line s hs⟩, by decide⟩, itoa_line _⟩
    have l1 := hn s (by simp)
    have l2 := hm s' (by simp)
    have h : (pre ++ natDigits i ++ b!"." ++ s.string ++ b!" " ++ itoa s.tok.len) ++ 10 ::
          (stackLinesList (pre ++ natDigits i ++ b!"." ++ s.string ++ b!";") 1 ns ++ u) =
        (pre ++ natDigits i ++ b!"." ++ s'.string ++ b!" " ++ itoa s'.tok.len) ++ 10 ::
          (stackLinesList (pre ++ natDigits i ++ b!"." ++ s'.string ++ b!";") 1 ms ++ v) := by
      simpa using h
    obtain ⟨h1, h2⟩ := split_first (line s l1) (line s' l2) h
    have h1 : (pre ++ natDigits i ++ b!"." ++ s.string) ++ 32 :: itoa s.tok.len = (pre ++ natDigits i ++ b!"." ++ s'.string) ++ 32 :: itoa s'.tok.len := by
      simpa using h1
    have h1 := (split_last (itoa_lacks _ _ (by decide) (by decide)) (itoa_lacks _ _ (by decide) (by decide)) h1).1
    have e := C67_segment_inj s s' (List.append_cancel_left h1)
    subst e
    have no : ∀ w : Bytes, ¬ stackMark pre i <+: w → ∀ k, 1 ≤ k → ¬ stackMark (pre ++ natDigits i ++ b!"." ++ s.string ++ b!";") k <+: w :=
      fun w hw k _ hk => hw (.trans ⟨s.string ++ (b!";" ++ (natDigits k ++ [46])), by simp [stackMark]⟩ hk)
    obtain ⟨h3, h4⟩ := stackLinesList_inj ns ms _ 1 u v (by
      simp only [List.mem_append, not_or]
      exact ⟨⟨⟨⟨hp, natDigits_line i⟩, by decide⟩, seg_string_line s l1⟩, by decide⟩)
      (fun x hx => hn x (by simp [hx])) (fun x hx => hm x (by simp [hx])) (no u hu) (no v hv) h2
    exact ⟨by rw [h3], h4⟩
theorem stackLinesList_inj : ∀ (ns ms : List Node) (pre : Bytes) (j : Nat) (u v : Bytes), (10 : UInt8) ∉ pre →
    (∀ s ∈ Node.allList ns, (10 : UInt8) ∉ s.info) → (∀ s ∈ Node.allList ms, (10 : UInt8) ∉ s.info) →
    (∀ k, j ≤ k → ¬ stackMark pre k <+: u) → (∀ k, j ≤ k → ¬ stackMark pre k <+: v) →
    stackLinesList pre j ns ++ u = stackLinesList pre j ms ++ v → ns = ms ∧ u = v
  | [], [], _, _, _, _, _, _, _, _, _, h => ⟨rfl, h⟩
  | [], m :: ms, pre, j, u, v, _, _, _, hu, _, h => by
    obtain ⟨w, hw⟩ := stackLines_mark m pre j
    rw [stackLinesList, stackLinesList, hw] at h
    exact absurd ⟨w ++ stackLinesList pre (j + 1) ms ++ v, by simpa using h.symm⟩ (hu j (Nat.le_refl _))
  | n :: ns, [], pre, j, u, v, _, _, _, _, hv, h => by
    obtain ⟨w, hw⟩ := stackLines_mark n pre j
    rw [stackLinesList, stackLinesList, hw] at h
    exact absurd ⟨w ++ stackLinesList pre (j + 1) ns ++ u, by simpa using h⟩ (hv j (Nat.le_refl _))
  | n :: ns, m :: ms, pre, j, u, v, hp, hn, hm, hu, hv, h => by
    rw [stackLinesList, stackLinesList, List.append_assoc, List.append_assoc] at h
    rw [Node.allList] at hn hm
    have next : ∀ (ls : List Node) (w : Bytes), (∀ k, j ≤ k → ¬ stackMark pre k <+: w) → ¬ stackMark pre j <+: stackLinesList pre (j + 1) ls ++ w := by
      intro ls w hw hk
      rcases stackLinesList_mark ls pre (j + 1) with rfl | ⟨x, hx⟩
      · exact hw j (Nat.le_refl _) hk
      · rw [hx, List.append_assoc] at hk
        have := stackMark_eq hk
        omega
    obtain ⟨h1, h2⟩ := stackLines_inj n m pre j _ _ hp (fun x hx => hn x (by simp [hx])) (fun x hx => hm x (by simp [hx])) (next ns u hu) (next ms v hv) h
    obtain ⟨h3, h4⟩ := stackLinesList_inj ns ms pre (j + 1) u v hp (fun x hx => hn x (by simp [hx])) (fun x hx => hm x (by simp [hx]))
      (fun k hk => hu k (by omega)) (fun k hk => hv k (by omega)) h2
    exact ⟨by rw [h1, h3], h4⟩
end

/-- Graphs whose infos have no line breaks are the same if `FlameStack` prints the same for them. The infos may contain semicolons, dots, brackets, spaces and numbers. -/
theorem C107_stack_partial (g h : Graph) (hg : ∀ s ∈ g.root.all, (10 : UInt8) ∉ s.info) (hh : ∀ s ∈ h.root.all, (10 : UInt8) ∉ s.info)
    (e : g.flameStack = h.flameStack) : g = h := by
  have no : ¬ stackMark [] 1 <+: [] := by decide
  have := (stackLines_inj g.root h.root [] 1 [] [] (by simp) hg hh no no (by simpa [Graph.flameStack] using e)).1
  cases g; cases h
  exact congrArg _ this

/-- Infos that look like parts of the lines. -/
example : ∀ g : Graph, (∀ s ∈ g.root.all, (10 : UInt8) ∉ s.info) →
    g.flameStack = Graph.flameStack ⟨.mk ⟨b!"a[0-1);1.b", ⟨0, 9⟩⟩ [.mk ⟨b!"b[0-2) 2", ⟨-1, -2⟩⟩ []]⟩ →
    g = ⟨.mk ⟨b!"a[0-1);1.b", ⟨0, 9⟩⟩ [.mk ⟨b!"b[0-2) 2", ⟨-1, -2⟩⟩ []]⟩ :=
  fun g hg e => C107_stack_partial g _ hg (by decide) e

/-- With line breaks the claim is false: a root with a node and a root alone, whose name is made of the lines of the other. -/
theorem C107_violated : ∃ g h : Graph, g.flameStack = h.flameStack ∧ g.root.all.length ≠ h.root.all.length :=
  ⟨⟨.mk ⟨b!"r", ⟨0, 2⟩⟩ [.mk ⟨b!"c", ⟨0, 2⟩⟩ []]⟩, ⟨.mk ⟨b!"r[0-2) 2\n1.r[0-2);1.c", ⟨0, 2⟩⟩ []⟩, by decide +kernel, by decide⟩

/-- They are the same, too, as `Equal` sees them. -/
theorem C107_equal_partial (g h : Graph) (hg : ∀ s ∈ g.root.all, (10 : UInt8) ∉ s.info) (hh : ∀ s ∈ h.root.all, (10 : UInt8) ∉ s.info) :
    g.flameStack = h.flameStack ↔ g.equal h = true := by
  refine ⟨fun e => (node_equal_iff _ _).mpr (congrArg Graph.root (C107_stack_partial g h hg hh e)), fun e => ?_⟩
  have := (node_equal_iff _ _).mp e
  unfold Graph.flameStack
  rw [this]

/-! ### the programs -/

theorem Json.tree_infos {A : JsonSym} {p : Nat} {cs : List Char} {ns : List Node} (h : JsonTree A p cs ns) :
    ∀ s ∈ Node.allList ns, (10 : UInt8) ∉ s.info := by
  have leaf : ∀ (w : Bytes) (p : Nat) (cs : List Char), (10 : UInt8) ∉ w → ∀ s ∈ Node.allList [leafAt w p cs], (10 : UInt8) ∉ s.info := by
    intro w p cs hw s hs
    simp [leafAt, Node.allList, Node.all] at hs
    rw [hs]; exact hw
  have app : ∀ xs ys : List Node, Node.allList (xs ++ ys) = Node.allList xs ++ Node.allList ys := by
    intro xs ys
    induction xs with
    | nil => rfl
    | cons x xs ih => rw [List.cons_append, Node.allList, ih, Node.allList, List.append_assoc]
  induction h with
  | value_string | value_number | value_true | value_false | value_null | object_ws | array_ws => exact leaf _ _ _ (by decide)
  | value_object _ ih | value_array _ ih | members_one _ ih | elements_one _ ih | element _ _ _ ih => exact ih
  | object_members _ ih | array_elements _ ih =>
    intro s hs
    simp only [Node.allList, Node.all, List.append_nil, List.mem_cons] at hs
    rcases hs with rfl | hs
    · dsimp only
      decide
    · exact ih s hs
  | members_more _ _ ih1 ih2 | elements_more _ _ ih1 ih2 =>
    intro s hs
    rw [app, List.mem_append] at hs
    exact hs.elim (ih1 s) (ih2 s)
  | member _ _ _ _ ih =>
    intro s hs
    rw [← List.singleton_append, app, List.mem_append] at hs
    exact hs.elim (leaf _ _ _ (by decide) s) (ih s)

/-- The program json-stack prints the same for two documents exactly if the files have the same name and the documents the same tree. -/
theorem C107_json (rt : Rt) (f f' : Bytes) (hf : (10 : UInt8) ∉ f) (hf' : (10 : UInt8) ∉ f') (cs cs' : List Char) (m m' : Node)
    (hm : JsonTree .element 0 cs [m]) (hm' : JsonTree .element 0 cs' [m']) :
    ∃ N, ∀ fuel, N ≤ fuel → (jsonStack rt fuel f (encText cs) = jsonStack rt fuel f' (encText cs') ↔ f = f' ∧ m = m') := by
  obtain ⟨N, h⟩ := C56_followed rt f cs [] m hm (by simp)
  obtain ⟨N', h'⟩ := C56_followed rt f' cs' [] m' hm' (by simp)
  rw [List.append_nil] at h h'
  refine ⟨max N N', fun fuel hfu => ?_⟩
  rw [h fuel (by omega), h' fuel (by omega)]
  constructor
  · intro e
    simp only [Exec.ret.injEq, Option.some.injEq] at e
    have infos : ∀ {f : Bytes} {cs : List Char} {m : Node}, (10 : UInt8) ∉ f → JsonTree .element 0 cs [m] →
        ∀ s ∈ (Node.mk ⟨f, m.tok⟩ [m]).all, (10 : UInt8) ∉ s.info := by
      intro f cs m hf hm s hs
      rw [Node.all, List.mem_cons] at hs
      rcases hs with rfl | hs
      · exact hf
      · exact Json.tree_infos hm s hs
    have := C107_stack_partial ⟨.mk ⟨f, m.tok⟩ [m]⟩ ⟨.mk ⟨f', m'.tok⟩ [m']⟩ (infos hf hm) (infos hf' hm') (by rw [C30_paths, C30_paths]; exact e)
    simp only [Graph.mk.injEq, Node.mk.injEq, Segment.mk.injEq, List.cons.injEq, and_true] at this
    exact ⟨this.1.1, this.2⟩
  · rintro ⟨rfl, rfl⟩
    rfl

/-- What a number is does not show, how long it is does. -/
example : jsonStack exRt 100 b!"f" b!"[1]" = jsonStack exRt 100 b!"f" b!"[2]" ∧ jsonStack exRt 100 b!"f" b!"[1]" ≠ jsonStack exRt 100 b!"f" b!"[12]" := by
  decide +kernel

theorem Lua.picked_line (rt : Rt) (t : Bytes) (n : Nat) (e : Option Err) (s : Scanner)
    (h : read rt (Lua.env.pickAll 0) n Lua.reader (Lua.start t) = .ret (e, s)) : ∀ g ∈ s.heap.baskets 0, (10 : UInt8) ∉ g.info := by
  have hE : (Lua.env.pickAll 0).Every (Reader.picksIn 0 ((10 : UInt8) ∉ ·)) :=
    (Env.everyB_sound (p := fun r => match r with | .wrap _ _ => false | .pick info _ _ => !info.contains 10 | _ => true) (by decide +kernel)).imp
      fun r h => by
        cases r with
        | wrap w f => cases h
        | pick info k c => exact fun _ => by simpa using h
        | _ => trivial
  exact (Picking.lies hE (.read n Lua.reader _ e s (.start _ (new_inside _ _))
    (.mk (r := .grammar _ _) trivial (by simpa [Reader.subs] using .mk (r := .rule _) trivial (by simp [Reader.subs]))) h)).2.2

/-- If full-lua-stack prints the same for two files, then they have the same name and the same segments were picked from them. -/
theorem C107_lua (rt : Rt) (f f' : Bytes) (hf : (10 : UInt8) ∉ f) (hf' : (10 : UInt8) ∉ f') (t t' : Bytes)
    (ht : ¬ Lua.Hangs rt t) (ht' : ¬ Lua.Hangs rt t') :
    ∃ N s s', ∀ fuel, N ≤ fuel → read rt (Lua.env.pickAll 0) fuel Lua.reader (Lua.start t) = .ret (none, s) ∧
      read rt (Lua.env.pickAll 0) fuel Lua.reader (Lua.start t') = .ret (none, s') ∧
      (luaStack rt fuel f t = luaStack rt fuel f' t' → f = f' ∧ (s.heap.baskets 0).Perm (s'.heap.baskets 0)) := by
  obtain ⟨N, s, n, h1, _, h2, h3, h4⟩ := C59_always_partial rt f t ht
  obtain ⟨N', s', n', h1', _, h2', h3', h4'⟩ := C59_always_partial rt f' t' ht'
  refine ⟨max N N', s, s', fun fuel hfu => ⟨h1 fuel (by omega), h1' fuel (by omega), fun e => ?_⟩⟩
  rw [h4 fuel (by omega), h4' fuel (by omega)] at e
  simp only [Exec.ret.injEq, Option.some.injEq] at e
  have infos : ∀ {n : Node} {f : Bytes} {l : List Segment}, (10 : UInt8) ∉ f → n.seg.info = f → n.under.Perm l → (∀ g ∈ l, (10 : UInt8) ∉ g.info) →
      ∀ g ∈ n.all, (10 : UInt8) ∉ g.info := by
    intro n f l hf hn hp hl g hg
    obtain ⟨r, ns⟩ := n
    rw [Node.all, List.mem_cons] at hg
    rcases hg with rfl | hg
    · exact hn ▸ hf
    · exact hl g (hp.mem_iff.mp hg)
  have := C107_stack_partial ⟨n⟩ ⟨n'⟩ (infos hf h2 h3 (Lua.picked_line rt t N none s (h1 N (Nat.le_refl _))))
    (infos hf' h2' h3' (Lua.picked_line rt t' N' none s' (h1' N' (Nat.le_refl _)))) (by rw [C30_paths, C30_paths]; exact e)
  simp only [Graph.mk.injEq] at this
  subst this
  exact ⟨h2.symm.trans h2', h3.symm.trans h3'⟩

end Tok
