/-
C110 Which rules of the shipped grammars are ever called.
-/
import Verif.Spec.Reach
import Verif.Props.C100
import Verif.Props.C103
import Verif.Props.C108

namespace Tok
open Spec

/-- The given rules lead only to each other. -/
def LeadsIn (G : Env) (U : List Nat) : Prop := ∀ i nm c, i ∈ U → G[i]? = some ⟨nm, some c⟩ → c.Every (Reader.within (· ∈ U))

/-! ### deciding -/

def Reader.amongB (U : List Nat) : Reader → Bool
  | .rule i => U.contains i
  | _ => true

theorem among_of_B {U : List Nat} {r : Reader} (h : r.amongB U = true) : Reader.within (· ∈ U) r := by
  cases r <;> first | trivial | exact List.contains_iff_mem.mp h

def leadsInB (G : Env) (U : List Nat) : Bool := U.all fun i => match G[i]? with
  | some rl => (match rl.reader with
    | some c => c.everyB (Reader.amongB U)
    | none => true)
  | none => true

theorem leadsIn_of_B {G : Env} {U : List Nat} (h : leadsInB G U = true) : LeadsIn G U := by
  intro i nm c hi hg
  have := List.all_eq_true.mp h i hi
  rw [hg] at this
  exact (Reader.everyB_sound _ _ this).imp fun _ => among_of_B

theorem among_reader {U : List Nat} {r : Reader} (h : r.everyB (Reader.amongB U) = true) : r.Every (Reader.within (· ∈ U)) :=
  (Reader.everyB_sound _ _ h).imp fun _ => among_of_B

theorem without_agree (G : Env) (U : List Nat) (i : Nat) (h : i ∉ U) (j : Nat) (hj : j ∈ U) : (G.without i)[j]? = G[j]? := by
  unfold Env.without
  have hij : i ≠ j := fun e => h (e ▸ hj)
  rw [List.getElem?_modify]
  cases G[j]? <;> simp [hij]

/-- A rule outside is not called. -/
theorem not_called (rt : Rt) (G : Env) (U : List Nat) (hc : LeadsIn G U) (r : Reader) (hr : r.Every (Reader.within (· ∈ U)))
    (hp : ∀ n t, read rt G n r (Scanner.new t Heap.empty) ≠ .panic) (i : Nat) (hi : i ∉ U) (n : Nat) (t : Bytes) : ¬ Called rt n G r i t := by
  intro h
  unfold Called at h
  rw [C100_reachable rt G (G.without i) (· ∈ U) (without_agree G U i hi) hc r hr] at h
  exact hp n t h

def panics {α : Type} : Exec α → Bool
  | .panic => true
  | _ => false

theorem panic_of_B {α : Type} {x : Exec α} (h : panics x = true) : x = .panic := by
  cases x <;> first | rfl | cases h

/-! ### the grammars -/

/-- The rules of the JSON grammar but `Digit`. -/
def Json.live : List Nat := (List.range 24).filter (· != Json.iDigit)

/-- The rules of the Lua grammar but `SheBang`, `Numeral` and `Script`. -/
def Lua.live : List Nat := (List.range 44).filter fun i => !([Lua.iSheBang, Lua.iNumeral, Lua.iScript].contains i)

theorem Json.closed : LeadsIn Json.env Json.live := leadsIn_of_B (by decide +kernel)
theorem Lua.closed : LeadsIn Lua.env Lua.live := leadsIn_of_B (by decide +kernel)

/-- Nothing that is done to the rule `Digit` changes how JSON is read. -/
theorem C110_json (rt : Rt) (G : Env) (h : ∀ i, i < 24 → i ≠ Json.iDigit → Json.env[i]? = G[i]?) (n : Nat) (s : Scanner) :
    read rt Json.env n Json.reader s = read rt G n Json.reader s := by
  refine (C100_reachable rt _ G (· ∈ Json.live) (fun i hi => ?_) Json.closed _ (among_reader (by decide)) n s).symm
  obtain ⟨h1, h2⟩ := List.mem_filter.mp hi
  exact (h i (List.mem_range.mp h1) (by simpa using h2)).symm

/-- Nothing that is done to the rules `SheBang`, `Numeral` and `Script` changes how Lua is read. -/
theorem C110_lua (rt : Rt) (G : Env) (h : ∀ i, i < 44 → i ∉ [Lua.iSheBang, Lua.iNumeral, Lua.iScript] → Lua.env[i]? = G[i]?) (n : Nat) (s : Scanner) :
    read rt Lua.env n Lua.reader s = read rt G n Lua.reader s := by
  refine (C100_reachable rt _ G (· ∈ Lua.live) (fun i hi => ?_) Lua.closed _ (among_reader (by decide)) n s).symm
  obtain ⟨h1, h2⟩ := List.mem_filter.mp hi
  exact (h i (List.mem_range.mp h1) (by simpa using h2)).symm

/-- With any runtime: no text makes the grammars call one of these rules. -/
theorem C110_never (rt : Rt) (n : Nat) (t : Bytes) : ¬ Called rt n Json.env Json.reader Json.iDigit t ∧
    ∀ i ∈ [Lua.iSheBang, Lua.iNumeral, Lua.iScript], ¬ Called rt n Lua.env Lua.reader i t := by
  refine ⟨not_called rt Json.env Json.live Json.closed Json.reader (among_reader (by decide)) (fun n t => ?_) _ (by decide) n t, fun i hi =>
    not_called rt Lua.env Lua.live Lua.closed Lua.reader (among_reader (by decide)) (fun n t => ?_) i (fun hm => ?_) n t⟩
  · exact C32_no_panic_partial rt _ _ Json.safe ((Reader.everyB_sound (Reader.safeB Json.env) Json.reader (by decide)).imp fun _ => safeHere_of_safeB) n _
      (new_inside t Heap.empty)
  · exact C32_no_panic_partial rt _ _ Lua.safe ((Reader.everyB_sound (Reader.safeB Lua.env) Lua.reader (by decide)).imp fun _ => safeHere_of_safeB) n _
      (new_inside t Heap.empty)
  · have := (List.mem_filter.mp hm).2
    rw [List.contains_iff_mem.mpr hi] at this
    cases this

/-- Exactly the rules but `Digit` are called for some text. -/
theorem C110_json_called (i : Nat) : (∃ n t, Called exRt n Json.env Json.reader i t) ↔ i < 24 ∧ i ≠ Json.iDigit := by
  constructor
  · rintro ⟨n, t, h⟩
    by_contra hi
    refine not_called exRt Json.env Json.live Json.closed Json.reader (among_reader (by decide)) (fun n t => ?_) i (fun hm => hi ?_) n t h
    · exact C32_no_panic_partial exRt _ _ Json.safe ((Reader.everyB_sound (Reader.safeB Json.env) Json.reader (by decide)).imp fun _ => safeHere_of_safeB) n _
        (new_inside t Heap.empty)
    · obtain ⟨h1, h2⟩ := List.mem_filter.mp hm
      exact ⟨List.mem_range.mp h1, by simpa using h2⟩
  · rintro ⟨h1, h2⟩
    have : ∀ i ∈ Json.live, ∃ t ∈ [b!"{\"\\u", b!"[1", b!"[1e"], panics (read exRt (Json.env.without i) 60 Json.reader (Scanner.new t Heap.empty)) = true := by
      decide +kernel
    obtain ⟨t, _, ht⟩ := this i (List.mem_filter.mpr ⟨List.mem_range.mpr h1, by simpa using h2⟩)
    exact ⟨60, t, panic_of_B ht⟩

/-- Exactly the rules but `SheBang`, `Numeral` and `Script` are called for some text. -/
theorem C110_lua_called (i : Nat) : (∃ n t, Called exRt n Lua.env Lua.reader i t) ↔ i < 44 ∧ i ∉ [Lua.iSheBang, Lua.iNumeral, Lua.iScript] := by
  constructor
  · rintro ⟨n, t, h⟩
    by_contra hi
    refine not_called exRt Lua.env Lua.live Lua.closed Lua.reader (among_reader (by decide)) (fun n t => ?_) i (fun hm => hi ?_) n t h
    · exact C32_no_panic_partial exRt _ _ Lua.safe ((Reader.everyB_sound (Reader.safeB Lua.env) Lua.reader (by decide)).imp fun _ => safeHere_of_safeB) n _
        (new_inside t Heap.empty)
    · obtain ⟨h1, h2⟩ := List.mem_filter.mp hm
      exact ⟨List.mem_range.mp h1, by simpa using h2⟩
  · rintro ⟨h1, h2⟩
    have : ∀ i ∈ Lua.live, ∃ t ∈ [b!"a=a", b!"a={a", b!"function a()", b!"local a"],
        panics (read exRt (Lua.env.without i) 60 Lua.reader (Scanner.new t Heap.empty)) = true := by
      decide +kernel
    obtain ⟨t, _, ht⟩ := this i (List.mem_filter.mpr ⟨List.mem_range.mpr h1, by simpa using h2⟩)
    exact ⟨60, t, panic_of_B ht⟩

/-- All rules of the MXT grammar are called, for one and the same text. -/
theorem C110_mxt_called (i : Nat) : (∃ n t, Called exRt n Mxt.env Mxt.reader i t) ↔ i < 14 := by
  constructor
  · rintro ⟨n, t, h⟩
    by_contra hi
    refine not_called exRt Mxt.env (List.range 14) (leadsIn_of_B (by decide +kernel)) Mxt.reader (among_reader (by decide)) (fun n t => ?_) i
      (fun hm => hi (List.mem_range.mp hm)) n t h
    exact C32_no_panic_partial exRt _ _ Mxt.safe ((Reader.everyB_sound (Reader.safeB Mxt.env) Mxt.reader (by decide)).imp fun _ => safeHere_of_safeB) n _
      (new_inside t Heap.empty)
  · intro h1
    have : ∀ i ∈ List.range 14, panics (read exRt (Mxt.env.without i) 60 Mxt.reader (Scanner.new b!"// b --> d\nx" Heap.empty)) = true := by
      decide +kernel
    exact ⟨60, _, panic_of_B (this i (List.mem_range.mpr h1))⟩

/-! ### a basket for the whole grammar -/

/-- The names of the rules of a grammar at the given places. -/
def Env.namesAt (G : Env) (U : List Nat) : List Bytes := U.filterMap fun i => G[i]?.map (·.name)

/-- A basket for all rules (`NewBasketFor`): whatever the text, it never holds a segment of a rule that is not reached. -/
theorem C110_basket (rt : Rt) (G : Env) (U : List Nat) (b : Nat) (hc : LeadsIn G U) (hG : G.Every (Reader.picksIn b (· ∈ G.namesAt U)))
    (r : Reader) (hr : r.Every (Reader.within (· ∈ U))) (hp : r.Every (Reader.picksIn b (· ∈ G.namesAt U))) (n : Nat) (t : Bytes)
    (e : Option Err) (s : Scanner) (h : read rt (G.pickAll b) n r ((Scanner.new t Heap.empty).newBasket b) = .ret (e, s)) :
    ∀ g ∈ s.heap.baskets b, g.info ∈ G.namesAt U := by
  have hget : ∀ i : Nat, (G.pickAll b)[i]? = G[i]?.map (Rule.pick b) := fun i => by rw [Env.pickAll, List.getElem?_map]
  have hc' : LeadsIn (G.pickAll b) U := by
    intro i nm c hi hg
    rw [hget] at hg
    obtain ⟨⟨nm', c'⟩, h1, h2⟩ := Option.map_eq_some_iff.mp hg
    cases c' with
    | none => cases h2
    | some c' =>
      cases h2
      exact .mk trivial fun d hd => by
        cases List.mem_singleton.mp hd
        exact hc i _ _ hi h1
  have ha : ∀ i, i ∈ U → (Env.pickSome U b 0 G)[i]? = (G.pickAll b)[i]? := by
    intro i hi
    rw [hget, pickSome_get]
    simp [hi]
  rw [← C100_reachable rt _ _ (· ∈ U) ha hc' r hr] at h
  have hE : (Env.pickSome U b 0 G).Every (Reader.picksIn b (· ∈ G.namesAt U)) := by
    intro rl hrl c hcr
    obtain ⟨i, hi⟩ := List.mem_iff_getElem?.mp hrl
    rw [pickSome_get] at hi
    obtain ⟨⟨nm, c'⟩, h1, h2⟩ := Option.map_eq_some_iff.mp hi
    split at h2
    · rename_i hU
      subst h2
      cases c' with
      | none => cases hcr
      | some c' =>
        cases hcr
        refine .mk (fun _ => ?_) fun d hd => ?_
        · refine List.mem_filterMap.mpr ⟨i, ?_, by rw [h1]; rfl⟩
          rw [Nat.zero_add] at hU
          exact List.contains_iff_mem.mp hU
        · cases List.mem_singleton.mp hd
          exact hG.get h1
    · subst h2
      cases hcr
      exact hG.get h1
  exact (Picking.lies hE (.read n r _ e s (.start _ (new_inside _ _)) hp h)).2.2

/-- What demo/full-lua-stack picks: no numeral, no first line and no script, whatever the text. -/
theorem C110_demo (rt : Rt) (n : Nat) (t : Bytes) (e : Option Err) (s : Scanner)
    (h : read rt (Lua.env.pickAll 0) n Lua.reader ((Scanner.new t Heap.empty).newBasket 0) = .ret (e, s)) :
    ∀ g ∈ s.heap.baskets 0, g.info ≠ b!"Numeral" ∧ g.info ≠ b!"SheBang" ∧ g.info ≠ b!"script" := by
  intro g hg
  have plain : ∀ r : Reader, (match r with | .pick _ _ _ => false | .wrap _ _ => false | _ => true) = true → Reader.picksIn 0 (· ∈ Lua.env.namesAt Lua.live) r :=
    fun r h => by cases r <;> trivial
  have := C110_basket rt Lua.env Lua.live 0 Lua.closed ((Env.everyB_sound (by decide +kernel)).imp plain) Lua.reader (among_reader (by decide))
    ((Reader.everyB_sound _ _ (by decide)).imp plain) n t e s h g hg
  have hn : b!"Numeral" ∉ Lua.env.namesAt Lua.live ∧ b!"SheBang" ∉ Lua.env.namesAt Lua.live ∧ b!"script" ∉ Lua.env.namesAt Lua.live := by decide +kernel
  exact ⟨fun e => hn.1 (e ▸ this), fun e => hn.2.1 (e ▸ this), fun e => hn.2.2 (e ▸ this)⟩

/-- So the reader of the Lua grammar reads nothing of a script with a first line `#!`, and says it succeeded. -/
example : ∃ s, read exRt Lua.env 60 Lua.reader (Scanner.new b!"#!lua\na=1" Heap.empty) = .ret (none, s) ∧ s.pos = 0 := by
  refine ⟨_, rfl, ?_⟩
  decide +kernel

end Tok
