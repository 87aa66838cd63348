/-
C113 for the printed log: what `Print` and `PrintWithPreview` write, and that the calls can be read back from it.
-/
import Verif.Props.C113
import Verif.Props.C60
import Verif.Props.C61Words
import Verif.Props.C67

namespace Tok
open Spec

/-- A line of the printed log. -/
def shownLine (x : Int × Bytes × Int) : Bytes := itoa x.1 ++ List.replicate x.1.toNat 46 ++ b!"@ " ++ itoa x.2.2 ++ b!" " ++ x.2.1

/-- The lines of a log. -/
def shownLines (xs : List (Int × Bytes × Int)) : Bytes := xs.flatMap fun x => shownLine x ++ b!"\n"

/-- The lines of a log, each with the beginning of the text at its position. -/
def shownWith (quote : Bytes → Bytes) (str : Bytes) (n : Int) (xs : List (Int × Bytes × Int)) : Bytes :=
  xs.flatMap fun x => shownLine x ++ b!" > " ++ quote (Scanner.subStringFrom str x.2.2 n) ++ b!"\n"

theorem shows_print {l : Nat} {s s' : Scanner} {F : Visits} (h0 : s.heap.logs l = Log.empty) (h : Shows l s s' F) (quote : Bytes → Bytes) (str : Bytes) (n : Int) :
    (s'.heap.logs l).print = .ret (shownLines (F.lines 0)) ∧ (s'.heap.logs l).printWithPreview quote str n = .ret (shownWith quote str n (F.lines 0)) := by
  have h1 : (s'.heap.logs l).entries.map (fun en => (en.level, en.info, en.enterAt)) = F.lines 0 := by
    have := congrArg Prod.snd h
    rw [h0] at this
    simpa [lines, Log.empty] using this
  have hl : ∀ e ∈ (s'.heap.logs l).entries, 0 ≤ e.level := fun e he => by
    have := Visits.lines_level F 0 (e.level, e.info, e.enterAt) (h1 ▸ List.mem_map.mpr ⟨e, he, rfl⟩)
    simp only at this
    omega
  refine ⟨(printEntries_eq hl).trans ?_, (previewEntries_eq quote str n hl).trans ?_⟩
  · rw [← h1, shownLines, List.flatMap_map]
    rfl
  · rw [← h1, shownWith, List.flatMap_map]
    rfl

/-- What is printed after a read with a new log, and what is printed if some of the `Monitor`s are left out. -/
theorem C113_print (rt : Rt) (l : Nat) (k : Bytes → Bool) (G : Env) (hG : G.Every (fun r => r.noWrap = true)) (r : Reader) (hr : r.Every (fun r => r.noWrap = true))
    (s : Scanner) (hs : Inside s) (h0 : s.heap.logs l = Log.empty) (n : Nat) (e : Option Err) (s' : Scanner) (h : read rt G n r s = .ret (e, s')) :
    ∃ (m : Nat) (t' : Scanner) (F : Visits), read rt (Env.unwatch l k G) m (Reader.unwatch l k r) s = .ret (e, t') ∧
      (s'.heap.logs l).print = .ret (shownLines (F.lines 0)) ∧ (t'.heap.logs l).print = .ret (shownLines ((F.keep k).lines 0)) ∧
      ∀ quote str p, (s'.heap.logs l).printWithPreview quote str p = .ret (shownWith quote str p (F.lines 0)) ∧
        (t'.heap.logs l).printWithPreview quote str p = .ret (shownWith quote str p ((F.keep k).lines 0)) := by
  obtain ⟨m, t', F, h1, _, h3, h4, _⟩ := C113_fewer rt l k G hG r hr s hs n e s' h
  exact ⟨m, t', F, h1, (shows_print h0 h3 id [] 0).1, (shows_print h0 h4 id [] 0).1, fun q str p => ⟨(shows_print h0 h3 q str p).2, (shows_print h0 h4 q str p).2⟩⟩

theorem shownLines_inj : ∀ {xs ys : List (Int × Bytes × Int)}, (∀ x ∈ xs, 1 ≤ x.1 ∧ (10 : UInt8) ∉ x.2.1) → (∀ y ∈ ys, 1 ≤ y.1 ∧ (10 : UInt8) ∉ y.2.1) →
    shownLines xs = shownLines ys → xs = ys := by
  have lead : ∀ (x : Int × Bytes × Int) (rest : Bytes), 1 ≤ x.1 →
      shownLine x ++ b!"\n" ++ rest = itoa x.1 ++ 46 :: (List.replicate (x.1.toNat - 1) 46 ++ (b!"@ " ++ (itoa x.2.2 ++ 32 :: (x.2.1 ++ 10 :: rest)))) := by
    intro x rest hx
    have : List.replicate x.1.toNat (46 : UInt8) = 46 :: List.replicate (x.1.toNat - 1) 46 := by
      rw [← List.replicate_succ]
      congr 1
      omega
    unfold shownLine
    rw [this]
    simp [List.append_assoc]
  have ne : ∀ (x : Int × Bytes × Int) (rest : Bytes), shownLine x ++ b!"\n" ++ rest ≠ [] := by
    intro x rest h
    simp at h
  intro xs
  induction xs with
  | nil =>
    intro ys _ _ h
    cases ys with
    | nil => rfl
    | cons y ys => exact absurd (by simpa [shownLines] using h.symm) (ne y (shownLines ys))
  | cons x xs ih =>
    intro ys hx hy h
    cases ys with
    | nil => simp [shownLines] at h
    | cons y ys =>
      have h : shownLine x ++ b!"\n" ++ shownLines xs = shownLine y ++ b!"\n" ++ shownLines ys := by simpa [shownLines] using h
      obtain ⟨hx1, hx2⟩ := hx x List.mem_cons_self
      obtain ⟨hy1, hy2⟩ := hy y List.mem_cons_self
      rw [lead x _ hx1, lead y _ hy1] at h
      obtain ⟨e1, h⟩ := itoa_to 46 (by decide) h
      rw [e1] at h
      obtain ⟨e2, h⟩ := itoa_to 32 (by decide) (List.append_cancel_left (List.append_cancel_left h))
      obtain ⟨e3, h⟩ := split_first hx2 hy2 h
      rw [ih (fun z hz => hx z (List.mem_cons_of_mem _ hz)) (fun z hz => hy z (List.mem_cons_of_mem _ hz)) h, show x = y from Prod.ext e1 (Prod.ext e3 e2)]

/-- The calls can be read back from the printed log, if no `Monitor` for it has a name with a line break. -/
theorem C113_readback (rt : Rt) (l : Nat) (G G' : Env) (hG : G.Every (fun r => r.noWrap = true)) (hG' : G'.Every (fun r => r.noWrap = true)) (r r' : Reader)
    (hr : r.Every (fun r => r.noWrap = true)) (hr' : r'.Every (fun r => r.noWrap = true))
    (kG : G.Every (Reader.kept l fun i => !i.contains 10)) (kr : r.Every (Reader.kept l fun i => !i.contains 10))
    (kG' : G'.Every (Reader.kept l fun i => !i.contains 10)) (kr' : r'.Every (Reader.kept l fun i => !i.contains 10))
    (s t : Scanner) (hs : Inside s) (ht : Inside t) (h0 : s.heap.logs l = Log.empty) (h0' : t.heap.logs l = Log.empty) (n m : Nat) (e e' : Option Err) (s' t' : Scanner)
    (h : read rt G n r s = .ret (e, s')) (h' : read rt G' m r' t = .ret (e', t')) (F F' : Visits) (hF : Shows l s s' F) (hF' : Shows l t t' F')
    (hp : (s'.heap.logs l).print = (t'.heap.logs l).print) : F = F' := by
  rw [(shows_print h0 hF id [] 0).1, (shows_print h0' hF' id [] 0).1] at hp
  refine Visits.lines_inj (shownLines_inj (fun x hx => ⟨by have := Visits.lines_level F 0 x hx; omega, ?_⟩) (fun x hx => ⟨by have := Visits.lines_level F' 0 x hx; omega, ?_⟩) (Exec.ret.inj hp))
  · simpa using C113_names rt l _ G hG r hr kG kr s hs n e s' h F hF 0 x hx
  · simpa using C113_names rt l _ G' hG' r' hr' kG' kr' t ht m e' t' h' F' hF' 0 x hx

/-- With a line break in a name they cannot: one call looks like two. -/
theorem C113_readback_violated :
    shownLines (Visits.lines 0 (.call b!"a\n1.@ 0 b" 0 .none .none)) = shownLines (Visits.lines 0 (.call b!"a" 0 .none (.call b!"b" 0 .none .none))) := by
  decide +kernel

/-- The text printed for `[[x]]`, with and without the rule "item". -/
example : shownLines (exVisits.lines 0) = b!"1.@ 0 list\n2..@ 1 item\n3...@ 1 word\n3...@ 1 list\n4....@ 2 item\n5.....@ 2 word\n" ∧
    shownLines ((exVisits.keep (· ≠ b!"item")).lines 0) = b!"1.@ 0 list\n2..@ 1 word\n2..@ 1 list\n3...@ 2 word\n" := by
  constructor <;> decide +kernel

/-- The names of the rules of the shipped grammars have no line breaks. -/
theorem C113_shipped_names (l : Nat) (G : Env) (hG : G = Json.env ∨ G = Mxt.env ∨ G = Lua.env) : (G.monitorAll l).Every (Reader.kept l fun i => !i.contains 10) := by
  have hb : G.Every (fun r => r.bare = true) := by rcases hG with rfl | rfl | rfl <;> exact Env.everyB_sound (by decide)
  have hn : ∀ rl ∈ G, (!rl.name.contains 10) = true := by rcases hG with rfl | rfl | rfl <;> decide +kernel
  intro rl hrl c hc
  obtain ⟨⟨nm, _ | c'⟩, hr', rfl⟩ := List.mem_map.mp hrl
  · cases hc
  · cases hc
    exact .mk (r := .monitor _ _ _) (fun _ => hn _ hr') fun x hx => by
      rw [List.mem_singleton.mp hx]
      exact (hb _ hr' c' rfl).imp fun r h => by cases r <;> trivial

end Tok
