/-
C42 Picked segments never clash, so BuildGraph loses nothing.
-/
import Verif.Props.C41

namespace Tok
open Spec

theorem clashes_of_nest {a c : Segment} (ha : a.tok.Ordered) (hc : c.tok.Ordered) (h : Nest a c) :
    c.tok.clashes a.tok = false ∧ a.tok.clashes c.tok = false := by
  unfold Nest at h
  unfold Token.Ordered at ha hc
  unfold Token.clashes Token.before Token.after Token.covers
  simp only [Bool.and_eq_false_iff, Bool.not_eq_false', decide_eq_true_eq, Bool.and_eq_true]
  omega

/-- The segments picked during a history are pairwise non-clashing.  (Partial as C41: no picks inside the first part of a `Body`
or `BodyTail`.) -/
theorem C42_apart_partial (rt : Rt) (G : Env) (b : Nat) (hG : G.Every (Reader.tracked G b)) (s : Scanner)
    (h : History rt G b s) : (s.heap.baskets b).Pairwise (fun a c => a.tok.clashes c.tok = false ∧ c.tok.clashes a.tok = false) := by
  have hf := h.follows hG
  refine hf.nested.imp_of_mem fun {a c} ha hc hn => ?_
  exact (clashes_of_nest (hf.within a ha).2.1 (hf.within c hc).2.1 hn).symm

theorem buildLoop_all (name : Bytes) : ∀ (segs acc : List Segment) (g : Graph), Graph.Built name acc g → (∀ x ∈ segs, x.tok.Ordered) →
    (∀ x ∈ segs, ∀ y ∈ acc, x.tok.clashes y.tok = false) → segs.Pairwise (fun a c => c.tok.clashes a.tok = false) →
    ∃ g' N, Graph.Built name (segs.reverse ++ acc) g' ∧ ∀ fuel, N ≤ fuel → Graph.buildLoop fuel g segs = .ret g'
  | [], acc, g, hg, _, _, _ => ⟨g, 0, hg, fun _ _ => rfl⟩
  | x :: xs, acc, g, hg, ho, ha, hp => by
    rw [List.pairwise_cons] at hp
    obtain ⟨ok, g1, h1, h2, _, _⟩ := C28_append name acc g hg x (ho x List.mem_cons_self)
    have hok := h2.mpr (ha x List.mem_cons_self)
    subst hok
    obtain ⟨g', N, h3, h4⟩ := buildLoop_all name xs (x :: acc) g1 (.accept hg (ho x List.mem_cons_self) h1)
      (fun y hy => ho y (List.mem_cons_of_mem _ hy)) (fun y hy z hz => by
        rcases List.mem_cons.mp hz with rfl | hz
        · exact hp.1 y hy
        · exact ha y (List.mem_cons_of_mem _ hy) z hz) hp.2
    obtain ⟨M, h1⟩ := h1
    refine ⟨g', max M N, by simpa using h3, fun fuel hf => ?_⟩
    unfold Graph.buildLoop
    rw [append_mono g x M fuel _ (by omega) h1]
    exact h4 fuel (by omega)

/-- `BuildGraph` on the picked segments returns a graph that contains every one of them. -/
theorem C42_graph_partial (rt : Rt) (G : Env) (b : Nat) (hG : G.Every (Reader.tracked G b)) (s : Scanner)
    (h : History rt G b s) (name : Bytes) : ∃ g N, (∀ fuel, N ≤ fuel → Graph.build fuel name (s.heap.baskets b) = .ret g) ∧
      g.root.under.Perm (s.heap.baskets b) := by
  have hf := h.follows hG
  obtain ⟨g, N, h1, h2⟩ := buildLoop_all name (s.heap.baskets b) [] _ .new (fun x hx => (hf.within x hx).2.1) (by simp)
    ((C42_apart_partial rt G b hG s h).imp fun h => h.2)
  refine ⟨g, N, h2, ?_⟩
  have := C30_segments name _ g h1
  rw [List.append_nil] at this
  exact this.trans (List.reverse_perm _)

/-- The JSON and the Lua grammar with all rules picked: whatever was read from a text, the graph of the picked segments is
complete. -/
theorem C42_shipped (rt : Rt) (G : Env) (hG : G = Json.env ∨ G = Lua.env) (i n : Nat) (text : Bytes) (e : Option Err) (s : Scanner)
    (h : read rt (G.pickAll 0) n (.rule i) ((Scanner.new text Heap.empty).newBasket 0) = .ret (e, s)) (name : Bytes) :
    ∃ g N, (∀ fuel, N ≤ fuel → Graph.build fuel name (s.heap.baskets 0) = .ret g) ∧ g.root.under.Perm (s.heap.baskets 0) := by
  refine C42_graph_partial rt (G.pickAll 0) 0 ?_ s (.read n (.rule i) _ e s (.start _ (new_inside _ _)) (.mk (r := .rule i) trivial (by simp [Reader.subs])) h) name
  rcases hG with rfl | rfl
  · exact (C41_shipped 0).1
  · exact (C41_shipped 0).2

/-- Four rules of JSON picked from `7`. -/
example : ∃ g, Graph.build 20 b!"g" [⟨b!"onenine", ⟨0, 1⟩⟩, ⟨b!"ws", ⟨1, 2⟩⟩, ⟨b!"element", ⟨0, 2⟩⟩] = .ret g ∧
    g.root = .mk ⟨b!"g", ⟨0, 2⟩⟩ [.mk ⟨b!"element", ⟨0, 2⟩⟩ [.mk ⟨b!"onenine", ⟨0, 1⟩⟩ [], .mk ⟨b!"ws", ⟨1, 2⟩⟩ []]] := ⟨_, rfl, rfl⟩

/-- The claim fails for the MXT grammar with all rules picked: in the header `//x a --é-->` the word character `é`, picked with positions
of the text before the arrow head, clashes with the marker. -/
theorem C42_violated : ∃ l, basketAfter 0 (read exRt (Mxt.env.pickAll 0) 40 Mxt.reader
      ((Scanner.new b!"//x a --é-->" Heap.empty).newBasket 0)) = some (true, 13, l) ∧
    (⟨b!"marker", ⟨0, 3⟩⟩ : Segment) ∈ l ∧ (⟨b!"wordchar", ⟨2, 4⟩⟩ : Segment) ∈ l ∧ (⟨2, 4⟩ : Token).clashes ⟨0, 3⟩ = true := by
  refine ⟨[⟨b!"wordchar", ⟨2, 3⟩⟩, ⟨b!"marker", ⟨0, 3⟩⟩, ⟨b!"wordchar", ⟨4, 5⟩⟩, ⟨b!"word", ⟨4, 5⟩⟩, ⟨b!"name", ⟨4, 5⟩⟩, ⟨b!"wordchar", ⟨0, 1⟩⟩,
    ⟨b!"wordchar", ⟨1, 2⟩⟩, ⟨b!"wordchar", ⟨2, 4⟩⟩, ⟨b!"comment", ⟨5, 6⟩⟩, ⟨b!"wordchar", ⟨0, 1⟩⟩, ⟨b!"wordchar", ⟨1, 2⟩⟩,
    ⟨b!"wordchar", ⟨2, 4⟩⟩, ⟨b!"arrow", ⟨6, 13⟩⟩, ⟨b!"header", ⟨0, 13⟩⟩, ⟨b!"empty-content", ⟨13, 13⟩⟩, ⟨b!"chunk", ⟨0, 13⟩⟩,
    ⟨b!"chunks", ⟨0, 13⟩⟩], ?_, ?_, ?_, ?_⟩ <;> decide +kernel

end Tok
