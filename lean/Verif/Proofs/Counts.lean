/-
How many entries a read adds to the log of a grammar with all rules monitored: bounds from below.
-/
import Verif.Proofs.Gets
import Verif.Proofs.Place
import Verif.Props.C43

namespace Tok
open Spec

/-- The number of entries of a log. -/
def Scanner.logged (s : Scanner) (l : Nat) : Nat := (s.heap.logs l).entries.length

/-- With all rules monitored, a read of the text `t` adds at least `k` entries to the log, if it comes to an end. -/
def Counts (rt : Rt) (G : Env) (l : Nat) (r : Reader) (t : Bytes) (k : Nat) : Prop :=
  ∀ s h, Between s h t → ∀ n e s', read rt (G.monitorAll l) n r s = .ret (e, s') → s.logged l + k ≤ s'.logged l

section
variable {rt : Rt} {G : Env} {l : Nat} {r sk : Reader} {rs : List Reader} {t u v : Bytes} {o : Option Bytes} {k k' : Nat}

/-- No part is a `Monitor` or a `Wrap`, in the grammar and in the reader. -/
def Unwatched (G : Env) (r : Reader) : Prop := G.Every (fun r => r.bare = true) ∧ r.Every (fun r => r.bare = true)

theorem Unwatched.sub (h : Unwatched G r) {c : Reader} (hc : c ∈ r.subs) : Unwatched G c := ⟨h.1, h.2.sub hc⟩

theorem bare_noWrap {r : Reader} (h : r.bare = true) : r.noWrap = true := by cases r <;> first | rfl | cases h

theorem monitorAll_noLog (hG : G.Every (fun r => r.bare = true)) : (G.monitorAll l).Every (Reader.noLog l) := by
  intro rl hrl c hc
  obtain ⟨⟨nm, _ | c'⟩, hr', rfl⟩ := List.mem_map.mp hrl
  · cases hc
  · cases hc
    exact .mk (r := .monitor _ _ _) trivial fun x hx => by
      rw [List.mem_singleton.mp hx]
      exact (hG _ hr' c' rfl).imp fun r h => by cases r <;> first | trivial | cases h

theorem bare_noLog {r : Reader} (h : r.Every (fun r => r.bare = true)) : r.Every (Reader.noLog l) :=
  h.imp fun r h => by cases r <;> first | trivial | cases h

/-- Entries are never removed. -/
theorem logged_mono (h : Unwatched G r) {s s' : Scanner} (hs : Inside s) {n : Nat} {e : Option Err}
    (he : read rt (G.monitorAll l) n r s = .ret (e, s')) : s.logged l ≤ s'.logged l := by
  obtain ⟨new, h1, _⟩ := C43_order rt (G.monitorAll l) l r (monitorAll_noLog h.1) (bare_noLog h.2) n s s' hs e he
  unfold Scanner.logged
  rw [h1, List.length_append]
  omega

theorem Counts.zero (h : Unwatched G r) : Counts rt G l r t 0 := fun _ _ hb _ _ _ he => by
  have := logged_mono h hb.inside he
  omega

theorem Counts.mono (h : Counts rt G l r t k) (hk : k' ≤ k) : Counts rt G l r t k' := fun s h' hb n e s' he => by
  have := h s h' hb n e s' he
  omega

theorem monitored_ret (hB : Unwatched G r) {s s' : Scanner} (hs : Inside s) {n : Nat} {e : Option Err}
    (he : read rt (G.monitorAll l) n r s = .ret (e, s')) : ∃ m t', read rt G m r s = .ret (e, t') ∧ ButLogs s' t' := by
  have ig : ∀ r : Reader, r.bare = true → r.ignoresLogs := fun r h => by cases r <;> trivial
  have hM : (G.monitorAll l).Every Reader.ignoresLogs := by
    intro rl hrl c hc
    obtain ⟨⟨nm, _ | c'⟩, hr', rfl⟩ := List.mem_map.mp hrl
    · cases hc
    · cases hc
      exact .mk (r := .monitor _ _ _) trivial fun x hx => by
        rw [List.mem_singleton.mp hx]
        exact (hB.1 _ hr' c' rfl).imp ig
  have key := (C43_transparent rt (G.monitorAll l) r hM (hB.2.imp ig) s s hs rfl).1 n e s' he
  rw [monitor_strip G l hB.1, strip_id .onlyMonitor r (hB.2.imp fun r h => by cases r <;> first | rfl | simp [Reader.bare] at h)] at key
  exact key

/-- With all rules monitored a read ends like without. -/
theorem Gets.ends (h : Gets rt G r t o) (hB : Unwatched G r) {s : Scanner} {hd : Bytes} (hb : Between s hd t) {n : Nat} {e : Option Err} {s' : Scanner}
    (he : read rt (G.monitorAll l) n r s = .ret (e, s')) : e.isNone = o.isSome ∧ ∃ x, t = x ++ o.getD t ∧ Between s' (hd ++ x) (o.getD t) := by
  obtain ⟨m, t', h1, h2⟩ := monitored_ret hB hb.inside he
  obtain ⟨n', j', h3⟩ := h s.heap.janus
  obtain ⟨e2, s2, x, h4, h5, h6, h7⟩ := read_by_eat (hB.1.imp fun _ => bare_noWrap) (hB.2.imp fun _ => bare_noWrap) hb h3
  have h8 := (read_mono (Nat.le_max_left m n') h1).symm.trans (read_mono (Nat.le_max_right m n') h4)
  cases h8
  refine ⟨h5, x, h6, ?_⟩
  rw [h2] at h7
  exact h7

theorem Gets.ends_yes (h : Gets rt G r t (some u)) (hB : Unwatched G r) {s : Scanner} {hd : Bytes} (hb : Between s hd t) {n : Nat} {e : Option Err} {s' : Scanner}
    (he : read rt (G.monitorAll l) n r s = .ret (e, s')) : e = none ∧ ∃ x, t = x ++ u ∧ Between s' (hd ++ x) u := by
  obtain ⟨h1, h2⟩ := h.ends hB hb he
  exact ⟨by simpa using h1, h2⟩

theorem Gets.ends_no (h : Gets rt G r t none) (hB : Unwatched G r) {s : Scanner} {hd : Bytes} (hb : Between s hd t) {n : Nat} {e : Option Err} {s' : Scanner}
    (he : read rt (G.monitorAll l) n r s = .ret (e, s')) : ∃ e', e = some e' ∧ Between s' hd t := by
  obtain ⟨h1, x, h2, h3⟩ := h.ends hB hb he
  have hx : x = [] := by simpa using h2
  subst hx
  cases e with
  | none => cases h1
  | some e => exact ⟨e, rfl, by simpa using h3⟩

/-! ### combinations -/

/-- A monitored rule adds one entry of its own. -/
theorem Counts.rule {i : Nat} {nm : Bytes} (hB : Unwatched G (.rule i)) (hi : G[i]? = some ⟨nm, some r⟩) (h : Counts rt G l r t k) :
    Counts rt G l (.rule i) t (k + 1) := fun s hd hb n e s' he => by
  have hr : r.Every (fun r => r.bare = true) := hB.1.get hi
  have hi' : (G.monitorAll l)[i]? = some ⟨nm, some (.monitor nm l r)⟩ := by
    unfold Env.monitorAll
    rw [List.getElem?_map, hi]
    rfl
  match n, he with
  | n + 2, he =>
    simp only [read, hi'] at he
    obtain ⟨en, inner, s1, h1, _, _, _, h2, h3⟩ := C43_call rt (G.monitorAll l) l nm r (monitorAll_noLog hB.1) (bare_noLog hr) n s s' hb.inside e
      (by simp only [read]; exact he)
    have h4 := h (s.enterLog rt nm l) hd hb n e s1 h2
    unfold Scanner.logged at h4 ⊢
    rw [h3, List.length_append] at h4
    rw [h1, List.length_append, List.length_cons]
    omega
  | 1, he => simp [read, hi'] at he

def CountsSeq (rt : Rt) (G : Env) (l : Nat) (rs : List Reader) (t : Bytes) (k : Nat) : Prop :=
  ∀ s h, Between s h t → ∀ n e s', seqLoop (read rt (G.monitorAll l) n) rs s = .ret (e, s') → s.logged l + k ≤ s'.logged l

def CountsSkip (rt : Rt) (G : Env) (l : Nat) (sk : Reader) (rs : List Reader) (t : Bytes) (k : Nat) : Prop :=
  ∀ s h, Between s h t → ∀ n e s', skipSeqLoop (read rt (G.monitorAll l) n) sk rs s = .ret (e, s') → s.logged l + k ≤ s'.logged l

def CountsAny (rt : Rt) (G : Env) (l : Nat) (rs : List Reader) (t : Bytes) (k : Nat) : Prop :=
  ∀ s h, Between s h t → ∀ n acc e s', anyLoop (read rt (G.monitorAll l) n) rs acc s = .ret (e, s') → s.logged l + k ≤ s'.logged l

theorem CountsSeq.nil : CountsSeq rt G l [] t 0 := fun s hd hb n e s' he => by
  cases he
  omega

theorem CountsSeq.cons (hB : Unwatched G r) (hg : Gets rt G r t (some u)) (h : Counts rt G l r t k) (h' : CountsSeq rt G l rs u k') :
    CountsSeq rt G l (r :: rs) t (k + k') := fun s hd hb n e s' he => by
  rw [seqLoop] at he
  obtain ⟨⟨e1, s1⟩, h1, h2⟩ := Exec.bind_eq_ret.mp he
  obtain ⟨rfl, x, h3, h4⟩ := hg.ends_yes hB hb h1
  have h5 := h s hd hb n _ s1 h1
  have h6 := h' s1 _ h4 n e s' (by simpa using h2)
  omega

theorem CountsSeq.stop (hB : Unwatched G r) (hg : Gets rt G r t none) (h : Counts rt G l r t k) :
    CountsSeq rt G l (r :: rs) t k := fun s hd hb n e s' he => by
  rw [seqLoop] at he
  obtain ⟨⟨e1, s1⟩, h1, h2⟩ := Exec.bind_eq_ret.mp he
  obtain ⟨e', rfl, h4⟩ := hg.ends_no hB hb h1
  have h5 := h s hd hb n _ s1 h1
  cases h2
  exact h5

theorem logged_toMarker {s : Scanner} {m : Int} : (s.toMarker m).2.logged l = s.logged l := by
  unfold Scanner.toMarker Scanner.logged Scanner.notify
  split
  · rfl
  · simp only
    split <;> rfl

theorem Counts.seq (h : CountsSeq rt G l rs t k) : Counts rt G l (.seq rs) t k := fun s hd hb n e s' he => by
  match n, he with
  | n + 1, he =>
    simp only [read] at he
    obtain ⟨⟨e1, s1⟩, h1, h2⟩ := Exec.bind_eq_ret.mp he
    have h3 := h s hd hb n e1 s1 h1
    simp only at h2
    split at h2 <;> cases h2
    · rw [logged_toMarker]; exact h3
    · exact h3

theorem CountsSkip.nil : CountsSkip rt G l sk [] t 0 := fun s hd hb n e s' he => by
  cases he
  omega

theorem CountsSkip.cons (hB : Unwatched G r) (hS : Unwatched G sk) (hg : Gets rt G r t (some u)) (hs : Gets rt G sk u (some v)) (h : Counts rt G l r t k)
    (h' : CountsSkip rt G l sk rs v k') : CountsSkip rt G l sk (r :: rs) t (k + k') := fun s hd hb n e s' he => by
  rw [skipSeqLoop] at he
  obtain ⟨⟨e1, s1⟩, h1, h2⟩ := Exec.bind_eq_ret.mp he
  obtain ⟨rfl, x, h3, h4⟩ := hg.ends_yes hB hb h1
  have h5 := h s hd hb n _ s1 h1
  simp only at h2
  obtain ⟨⟨e2, s2⟩, h6, h7⟩ := Exec.bind_eq_ret.mp h2
  obtain ⟨rfl, y, h8, h9⟩ := hs.ends_yes hS h4 h6
  have h10 := logged_mono hS h4.inside h6
  have h11 := h' s2 _ h9 n e s' (by simpa using h7)
  omega

theorem CountsSkip.stop (hB : Unwatched G r) (hg : Gets rt G r t none) (h : Counts rt G l r t k) :
    CountsSkip rt G l sk (r :: rs) t k := fun s hd hb n e s' he => by
  rw [skipSeqLoop] at he
  obtain ⟨⟨e1, s1⟩, h1, h2⟩ := Exec.bind_eq_ret.mp he
  obtain ⟨e', rfl, h4⟩ := hg.ends_no hB hb h1
  have h5 := h s hd hb n _ s1 h1
  cases h2
  exact h5

theorem Counts.skipSeq (hS : Unwatched G sk) (hs : Gets rt G sk t (some u)) (h : CountsSkip rt G l sk rs u k) : Counts rt G l (.skipSeq sk rs) t k :=
    fun s hd hb n e s' he => by
  match n, he with
  | n + 1, he =>
    simp only [read] at he
    obtain ⟨⟨e1, s1⟩, h1, h2⟩ := Exec.bind_eq_ret.mp he
    obtain ⟨rfl, x, _, h4⟩ := hs.ends_yes hS hb h1
    have h5 := logged_mono hS hb.inside h1
    simp only [Option.isSome_none, Bool.false_eq_true, if_false] at h2
    obtain ⟨⟨e2, s2⟩, h6, h7⟩ := Exec.bind_eq_ret.mp h2
    have h8 := h s1 _ h4 n e2 s2 h6
    simp only at h7
    split at h7 <;> cases h7
    · rw [logged_toMarker]; omega
    · omega

theorem CountsAny.nil : CountsAny rt G l [] t 0 := fun s hd hb n acc e s' he => by
  cases he
  omega

theorem CountsAny.hit (hB : Unwatched G r) (hg : Gets rt G r t (some u)) (h : Counts rt G l r t k) : CountsAny rt G l (r :: rs) t k :=
    fun s hd hb n acc e s' he => by
  rw [anyLoop] at he
  obtain ⟨⟨e1, s1⟩, h1, h2⟩ := Exec.bind_eq_ret.mp he
  obtain ⟨rfl, x, h3, h4⟩ := hg.ends_yes hB hb h1
  have h5 := h s hd hb n _ s1 h1
  cases h2
  exact h5

theorem CountsAny.next (hB : Unwatched G r) (hg : Gets rt G r t none) (h : Counts rt G l r t k) (h' : CountsAny rt G l rs t k') :
    CountsAny rt G l (r :: rs) t (k + k') := fun s hd hb n acc e s' he => by
  rw [anyLoop] at he
  obtain ⟨⟨e1, s1⟩, h1, h2⟩ := Exec.bind_eq_ret.mp he
  obtain ⟨e', rfl, h4⟩ := hg.ends_no hB hb h1
  have h5 := h s hd hb n _ s1 h1
  have h6 := h' s1 hd h4 n _ e s' (by simpa using h2)
  omega

theorem Counts.any (h : CountsAny rt G l rs t k) : Counts rt G l (.any rs) t k := fun s hd hb n e s' he => by
  match n, he with
  | n + 1, he =>
    simp only [read] at he
    obtain ⟨⟨e1, s1⟩, h1, h2⟩ := Exec.bind_eq_ret.mp he
    have h3 := h s hd hb n [] e1 s1 h1
    simp only at h2
    split at h2 <;> cases h2
    · exact h3
    · rw [logged_toMarker]; exact h3

theorem Counts.opt (h : Counts rt G l r t k) : Counts rt G l (.opt r) t k := fun s hd hb n e s' he => by
  match n, he with
  | n + 1, he =>
    simp only [read] at he
    obtain ⟨⟨e1, s1⟩, h1, h2⟩ := Exec.bind_eq_ret.mp he
    cases h2
    exact h s hd hb n e1 _ h1

theorem Counts.grammar {nm : Bytes} (h : Counts rt G l r t k) : Counts rt G l (.grammar nm r) t k := fun s hd hb n e s' he => by
  match n, he with
  | n + 1, he =>
    simp only [read] at he
    obtain ⟨⟨e1, s1⟩, h1, h2⟩ := Exec.bind_eq_ret.mp he
    have h3 := h s hd hb n e1 s1 h1
    simp only at h2
    split at h2 <;> cases h2 <;> exact h3

end
end Tok
