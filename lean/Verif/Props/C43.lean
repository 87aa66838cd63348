/-
C43 Log records are balanced and complete.
-/
import Verif.Proofs.Log
import Verif.Proofs.Strip
import Verif.Props.C41

namespace Tok
open Spec

/-! ### monitoring does not change what is read -/

mutual
theorem strip_id (d : Del) : ∀ r : Reader, r.Every (fun r => d.gone r = false) → strip d r = r
  | .any rs, h => by rw [strip, strips_id d rs fun c hc => h.sub hc]
  | .at_ r, h => by rw [strip, strip_id d r (h.sub (by simp [Reader.subs]))]
  | .body b t, h => by rw [strip, strip_id d b (h.sub (by simp [Reader.subs])), strip_id d t (h.sub (by simp [Reader.subs]))]
  | .bodyTail b t, h => by rw [strip, strip_id d b (h.sub (by simp [Reader.subs])), strip_id d t (h.sub (by simp [Reader.subs]))]
  | .janusBegin _ _ r, h => by rw [strip, strip_id d r (h.sub (by simp [Reader.subs]))]
  | .many r, h => by rw [strip, strip_id d r (h.sub (by simp [Reader.subs]))]
  | .map f r, h => by
    have := h.here
    simp only [Del.gone] at this
    rw [strip, strip_id d r (h.sub (by simp [Reader.subs])), this, if_neg (by simp)]
  | .named w r, h => by
    have := h.here
    simp only [Del.gone] at this
    rw [strip, strip_id d r (h.sub (by simp [Reader.subs])), this, if_neg (by simp)]
  | .not r, h => by rw [strip, strip_id d r (h.sub (by simp [Reader.subs]))]
  | .opt r, h => by rw [strip, strip_id d r (h.sub (by simp [Reader.subs]))]
  | .past r, h => by rw [strip, strip_id d r (h.sub (by simp [Reader.subs]))]
  | .seq rs, h => by rw [strip, strips_id d rs fun c hc => h.sub hc]
  | .skipSeq sk rs, h => by
    rw [strip, strip_id d sk (h.sub (by simp [Reader.subs])), strips_id d rs fun c hc => h.sub (List.mem_cons_of_mem _ hc)]
  | .times _ r, h => by rw [strip, strip_id d r (h.sub (by simp [Reader.subs]))]
  | .to r, h => by rw [strip, strip_id d r (h.sub (by simp [Reader.subs]))]
  | .zom r, h => by rw [strip, strip_id d r (h.sub (by simp [Reader.subs]))]
  | .pick i b r, h => by
    have := h.here
    simp only [Del.gone] at this
    rw [strip, strip_id d r (h.sub (by simp [Reader.subs])), this, if_neg (by simp)]
  | .monitor i l r, h => by
    have := h.here
    simp only [Del.gone] at this
    rw [strip, strip_id d r (h.sub (by simp [Reader.subs])), this, if_neg (by simp)]
  | .ruleName r, h => by rw [strip, strip_id d r (h.sub (by simp [Reader.subs]))]
  | .grammar _ r, h => by rw [strip, strip_id d r (h.sub (by simp [Reader.subs]))]
  | .anyRune _, _ => rfl
  | .atEnd, _ => rfl
  | .between _ _, _ => rfl
  | .betweenAny _ _, _ => rfl
  | .bool _ _, _ => rfl
  | .fold _, _ => rfl
  | .holey _ _ _, _ => rfl
  | .int _ _ _, _ => rfl
  | .janusEnd _ _, _ => rfl
  | .invalid _, _ => rfl
  | .lit _, _ => rfl
  | .match_ _ _, _ => rfl
  | .rune _, _ => rfl
  | .uint _ _ _, _ => rfl
  | .wrap _ _, _ => rfl
  | .rule _, _ => rfl

theorem strips_id (d : Del) : ∀ rs : List Reader, (∀ c ∈ rs, c.Every (fun r => d.gone r = false)) → strips d rs = rs
  | [], _ => rfl
  | r :: rs, h => by rw [strips, strip_id d r (h r (by simp)), strips_id d rs fun c hc => h c (List.mem_cons_of_mem _ hc)]
end


/-- The same scanner but for the logs. -/
def ButLogs (s t : Scanner) : Prop := t = { s with heap := { s.heap with logs := t.heap.logs } }

theorem butLogs_iff {s t : Scanner} : ButLogs s t ↔ Alike .onlyMonitor s t := by
  obtain ⟨f, p, tr, ⟨b, k, j, l, m, c⟩⟩ := s
  obtain ⟨f', p', tr', ⟨b', k', j', l', m', c'⟩⟩ := t
  constructor
  · intro h
    simp only [ButLogs, Scanner.mk.injEq, Heap.mk.injEq, and_true, true_and] at h
    obtain ⟨rfl, rfl, rfl, rfl, rfl, rfl, rfl, rfl⟩ := h
    exact ⟨rfl, rfl, rfl, rfl, rfl, fun _ _ => rfl, fun _ _ => rfl, fun _ => rfl, fun h => by simp [Del.onlyMonitor] at h⟩
  · rintro ⟨h1, h2, h3, h4, h5, h6, h7, h8, _⟩
    have h6 := h6 rfl rfl
    have h7 := h7 rfl rfl
    have h8 := h8 rfl
    simp only at h1 h2 h3 h4 h5 h6 h7 h8
    simp only [ButLogs, h1, h2, h3, h4, h5, h6, h7, h8]

/-- The function of a `Wrap` moves forward in the text and takes no notice of logs. -/
def Reader.ignoresLogs : Reader → Prop
  | .wrap _ f => Safe True f ∧ ∀ s t, Inside s → ButLogs s t → RelE (fun a b => b.1 = a.1 ∧ ButLogs a.2 b.2) (f s) (f t)
  | _ => True

theorem plain_of_ignores {rt : Rt} {G : Env} {r : Reader} (h : r.ignoresLogs) : r.offhand rt G .onlyMonitor := by
  refine ⟨?_, ?_⟩
  · cases r <;> first | exact h.1 | exact .inl trivial | exact trivial
  · cases r with
    | wrap w f =>
      intro s t hs ha
      exact (h.2 s t hs (butLogs_iff.mpr ha)).mono fun a b _ _ hab => ⟨.of _ _ hab.1, butLogs_iff.mp hab.2⟩
    | map f c => intro h; simp [Del.onlyMonitor] at h
    | pick i b c => intro h; simp [Del.onlyMonitor] at h
    | _ => exact trivial

/-- A grammar with monitored readers anywhere and the same grammar without `Monitor`: whatever one of them returns on a text, the other
returns as well, with the same error (or none), and the scanner, the baskets, the map calls and the stored values are the same. -/
theorem C43_transparent (rt : Rt) (G : Env) (r : Reader) (hG : G.Every Reader.ignoresLogs) (hr : r.Every Reader.ignoresLogs)
    (s t : Scanner) (hs : Inside s) (hst : ButLogs s t) :
    (∀ n e s', read rt G n r s = .ret (e, s') →
      ∃ m t', read rt (stripEnv .onlyMonitor G) m (strip .onlyMonitor r) t = .ret (e, t') ∧ ButLogs s' t') ∧
    (∀ m e t', read rt (stripEnv .onlyMonitor G) m (strip .onlyMonitor r) t = .ret (e, t') →
      ∃ n s', read rt G n r s = .ret (e, s') ∧ ButLogs s' t') := by
  have hG' := hG.imp fun r h => plain_of_ignores (rt := rt) (G := G) h
  have hr' := hr.imp fun r h => plain_of_ignores (rt := rt) (G := G) h
  constructor
  · intro n e s' h
    obtain ⟨e', t', h1, h2, h3⟩ := strip_ret rt G hG' hr' hs (butLogs_iff.mp hst) h
    rw [h2.eq rfl] at h1
    exact ⟨n, t', h1, butLogs_iff.mpr h3⟩
  · intro m e t' h
    obtain ⟨n, e', s', h1, h2, h3⟩ := strip_ret' rt G hG' hr' hs (butLogs_iff.mp hst) h
    rw [← h2.eq rfl] at h1
    exact ⟨n, s', h1, butLogs_iff.mpr h3⟩

/-- No part is a `Monitor` or a `Wrap`. -/
def Reader.bare : Reader → Bool
  | .monitor _ _ _ => false
  | .wrap _ _ => false
  | _ => true

theorem monitor_strip (G : Env) (l : Nat) (hG : G.Every (fun r => r.bare = true)) : stripEnv .onlyMonitor (G.monitorAll l) = G := by
  unfold stripEnv Env.monitorAll
  rw [List.map_map, List.map_congr_left (g := id), List.map_id]
  intro rl hrl
  obtain ⟨nm, _ | c⟩ := rl
  · rfl
  · have := strip_id .onlyMonitor c ((hG _ hrl c rfl).imp fun r h => by cases r <;> first | rfl | simp [Reader.bare] at h)
    show (⟨nm, some (strip .onlyMonitor (.monitor nm l c))⟩ : Rule) = _
    rw [strip, if_pos (by rfl), this]
    rfl

/-- `Log.Monitor` on all rules of a grammar (without `Wrap`) changes nothing about what is read by a rule. -/
theorem C43_monitor_all (rt : Rt) (G : Env) (hG : G.Every (fun r => r.bare = true)) (l i : Nat) (s : Scanner) (hs : Inside s) (e : Option Err)
    (pos : Int) : (∃ n s', read rt G n (.rule i) s = .ret (e, s') ∧ s'.pos = pos) ↔
      ∃ n s', read rt (G.monitorAll l) n (.rule i) s = .ret (e, s') ∧ s'.pos = pos := by
  have ig : ∀ r : Reader, r.bare = true → r.ignoresLogs := fun r h => by cases r <;> trivial
  have hM : (G.monitorAll l).Every Reader.ignoresLogs := by
    intro rl hrl c hc
    obtain ⟨⟨nm, _ | c'⟩, hr', rfl⟩ := List.mem_map.mp hrl
    · cases hc
    · cases hc
      exact .mk (r := .monitor _ _ _) trivial fun x hx => by
        rw [List.mem_singleton.mp hx]
        exact (hG _ hr' c' rfl).imp ig
  have key := C43_transparent rt (G.monitorAll l) (.rule i) hM (.mk trivial (by simp [Reader.subs])) s s hs rfl
  rw [monitor_strip G l hG] at key
  constructor
  · rintro ⟨n, t', h, rfl⟩
    obtain ⟨m, s', h1, h2⟩ := key.2 n e t' h
    exact ⟨m, s', h1, (butLogs_iff.mp h2).pos.symm⟩
  · rintro ⟨n, s', h, rfl⟩
    obtain ⟨m, t', h1, h2⟩ := key.1 n e s' h
    exact ⟨m, t', h1, (butLogs_iff.mp h2).pos⟩

/-- The shipped grammars, all rules monitored. -/
theorem C43_shipped (rt : Rt) (G : Env) (hG : G = Json.env ∨ G = Mxt.env ∨ G = Lua.env) (l i : Nat) (s : Scanner) (hs : Inside s)
    (e : Option Err) (pos : Int) : (∃ n s', read rt G n (.rule i) s = .ret (e, s') ∧ s'.pos = pos) ↔
      ∃ n s', read rt (G.monitorAll l) n (.rule i) s = .ret (e, s') ∧ s'.pos = pos := by
  refine C43_monitor_all rt G ?_ l i s hs e pos
  rcases hG with rfl | rfl | rfl <;> exact Env.everyB_sound (by decide)

/-! ### what is in the log -/

/-- The reader `x` is a part of `r`. -/
inductive Part (x : Reader) : Reader → Prop
  | here : Part x x
  | sub {r c} : c ∈ r.subs → Part x c → Part x r

/-- The reader `Monitor(c, l, info)` occurs in the grammar or in the reader. -/
def Monitored (G : Env) (r : Reader) (l : Nat) (info : Bytes) (c : Reader) : Prop :=
  Part (.monitor info l c) r ∨ ∃ rl ∈ G, ∃ x, rl.reader = some x ∧ Part (.monitor info l c) x

/-- The function of a `Wrap` moves forward in the text and does not write to the log. -/
def Reader.noLog (l : Nat) : Reader → Prop
  | .wrap _ f => ∀ s, Inside s → RetE (fun x => Forward s x.2 ∧ x.2.heap.logs l = s.heap.logs l) (f s)
  | _ => True

theorem Part.trans {x y z : Reader} (h : Part x y) (h' : Part y z) : Part x z := by
  induction h' with
  | here => exact h
  | sub hc _ ih => exact .sub hc ih

theorem logging_every {rt : Rt} {G : Env} {l : Nat} {K : Bytes → Reader → Prop} {F : Bytes} {r : Reader} (h : r.Every (Reader.noLog l))
    (hK : ∀ info c, Part (.monitor info l c) r → K info c) : r.Every (Reader.logging rt G l K F) := by
  induction h with
  | @mk r hp hs ih =>
    refine .mk ?_ fun c hc => ih c hc fun info x hx => hK info x (.sub hc hx)
    cases r with
    | wrap w f => exact fun s hs => (hp s hs).mono fun x _ hx => ⟨hx.1, hx.2 ▸ .refl _⟩
    | monitor info k c => exact fun hk => hK info c (hk ▸ .here)
    | _ => trivial

/-- What a read does to a log. -/
theorem log_step (rt : Rt) (G : Env) (l : Nat) (r : Reader) (hG : G.Every (Reader.noLog l)) (hr : r.Every (Reader.noLog l)) (n : Nat) (s s' : Scanner)
    (hs : Inside s) (e : Option Err) (h : read rt G n r s = .ret (e, s')) :
    LogStep rt G (Monitored G r l) s.full (s.heap.logs l) (s'.heap.logs l) :=
  ((log_frame rt G l (Monitored G r l) s.full).read
    (fun i nm c hp hi => logging_every (hG.get hi) fun info x hx => .inr ⟨_, List.mem_of_getElem? hi, c, rfl, hx⟩) n r
    (logging_every hr fun _ _ => .inl) s ⟨hs, List.infix_refl _⟩ (e, s') h).2

/-- After a read the nesting level is what it was before. -/
theorem C43_level (rt : Rt) (G : Env) (l : Nat) (r : Reader) (hG : G.Every (Reader.noLog l)) (hr : r.Every (Reader.noLog l)) (n : Nat) (s s' : Scanner)
    (hs : Inside s) (e : Option Err) (h : read rt G n r s = .ret (e, s')) : (s'.heap.logs l).level = (s.heap.logs l).level :=
  (log_step rt G l r hG hr n s s' hs e h).level

/-- A read adds entries behind those that are there: in call order, each followed by those of the calls made during it, one level deeper. -/
theorem C43_order (rt : Rt) (G : Env) (l : Nat) (r : Reader) (hG : G.Every (Reader.noLog l)) (hr : r.Every (Reader.noLog l)) (n : Nat) (s s' : Scanner)
    (hs : Inside s) (e : Option Err) (h : read rt G n r s = .ret (e, s')) :
    ∃ new, (s'.heap.logs l).entries = (s.heap.logs l).entries ++ new ∧
      Forest (fun _ _ => True) ((s.heap.logs l).level + 1) new := by
  obtain ⟨new, h1, h2, _⟩ := (log_step rt G l r hG hr n s s' hs e h).entries
  exact ⟨new, h1, h2.imp fun _ _ _ => trivial⟩

/-- Every call of a monitored reader adds one entry, with its info, its start and its level, followed by the entries of what is read inside. -/
theorem C43_call (rt : Rt) (G : Env) (l : Nat) (info : Bytes) (c : Reader) (hG : G.Every (Reader.noLog l)) (hc : c.Every (Reader.noLog l)) (n : Nat) (s s' : Scanner)
    (hs : Inside s) (e : Option Err) (h : read rt G (n + 1) (.monitor info l c) s = .ret (e, s')) :
    ∃ en inner s1, (s'.heap.logs l).entries = (s.heap.logs l).entries ++ en :: inner ∧
      en.info = info ∧ en.enterAt = s.pos ∧ en.level = (s.heap.logs l).level + 1 ∧
      read rt G n c (s.enterLog rt info l) = .ret (e, s1) ∧ (s1.heap.logs l).entries = ((s.enterLog rt info l).heap.logs l).entries ++ inner := by
  simp only [read] at h
  obtain ⟨⟨e1, s1⟩, h1, h2⟩ := Exec.bind_eq_ret.mp h
  simp only [Exec.pure_eq, Exec.ret.injEq, Prod.mk.injEq] at h2
  obtain ⟨rfl, rfl⟩ := h2
  have hs' : Inside (s.enterLog rt info l) := hs
  obtain ⟨inner, h3, _⟩ := (log_step rt G l c hG hc n (s.enterLog rt info l) s1 hs' e1 h1).entries
  have hidx : ((s.heap.logs l).enter rt info s.pos).1.idx = (s.heap.logs l).entries.length := by
    unfold Log.enter; simp only; split <;> rfl
  have hent : ((s.enterLog rt info l).heap.logs l).entries = (s.heap.logs l).entries ++ [⟨s.pos, info, (s.heap.logs l).level + 1, 0, none⟩] := by
    show Log.entries (upd _ _ _ l) = _
    rw [upd_self]
    unfold Log.enter; simp only; split <;> rfl
  have h4 := h3
  rw [hent, List.append_assoc, List.singleton_append] at h4
  by_cases hg : ((s.heap.logs l).enter rt info s.pos).1.gen = (s1.heap.logs l).gen
  · refine ⟨⟨s.pos, info, (s.heap.logs l).level + 1, s1.pos, e1⟩, inner, s1, ?_, rfl, rfl, rfl, h1, h3⟩
    · show Log.entries (upd _ _ _ l) = _
      rw [upd_self]
      show (if _ then _ else _) = _
      rw [if_pos hg, h4, hidx]
      exact modify_mid _ _ _ _
  · refine ⟨⟨s.pos, info, (s.heap.logs l).level + 1, 0, none⟩, inner, s1, ?_, rfl, rfl, rfl, h1, h3⟩
    show Log.entries (upd _ _ _ l) = _
    rw [upd_self]
    show (if _ then _ else _) = _
    rw [if_neg hg, h4]

/-- The exit position and the error of every entry are those of its call, unless other calls were made during it: then the exit can be missing (position 0
and no error), but is not wrong.  The full claim has no exception; `C43_violated` shows that it is needed. -/
theorem C43_exit_partial (rt : Rt) (G : Env) (l : Nat) (r : Reader) (hG : G.Every (Reader.noLog l)) (hr : r.Every (Reader.noLog l)) (n : Nat) (s s' : Scanner)
    (hs : Inside s) (e : Option Err) (h : read rt G n r s = .ret (e, s')) :
    ∃ new, (s'.heap.logs l).entries = (s.heap.logs l).entries ++ new ∧
      Forest (fun en inner => Told rt G (Monitored G r l) s.full en ∨ Lost en ∧ inner ≠ []) ((s.heap.logs l).level + 1) new := by
  obtain ⟨new, h1, h2, _⟩ := (log_step rt G l r hG hr n s s' hs e h).entries
  exact ⟨new, h1, h2⟩

/-- When the capacity of `Entries` is large enough from the start, the exit position and the error of every entry are those of its call. -/
theorem C43_capacity (rt : Rt) (G : Env) (l : Nat) (r : Reader) (hG : G.Every (Reader.noLog l)) (hr : r.Every (Reader.noLog l)) (n : Nat) (s s' : Scanner)
    (hs : Inside s) (e : Option Err) (h : read rt G n r s = .ret (e, s')) (hcap : (s'.heap.logs l).entries.length ≤ (s.heap.logs l).cap) :
    ∃ new, (s'.heap.logs l).entries = (s.heap.logs l).entries ++ new ∧
      Forest (fun en _ => Told rt G (Monitored G r l) s.full en) ((s.heap.logs l).level + 1) new := by
  obtain ⟨new, h1, h2, _, h4, h5⟩ := (log_step rt G l r hG hr n s s' hs e h).entries
  rw [h1, List.length_append] at hcap
  have := h4 (h5 hcap).1
  refine ⟨new, h1, ?_⟩
  exact (h2.with this).imp fun _ _ h => h.2

/-- The log after a read: whether it succeeded, the position, the level and the entries. -/
def logAfter (l : Nat) : Exec (Option Err × Scanner) → Option (Bool × Int × Int × List LogEntry)
  | .ret (e, s) => some (e.isNone, s.pos, (s.heap.logs l).level, (s.heap.logs l).entries)
  | _ => none

/-- `ab` read by a monitored rule that is read by another one, in a log with room for two entries. -/
example : logAfter 0 (read exRt [] 9 (.monitor b!"o" 0 (.seq [.monitor b!"i" 0 (.rune 97), .rune 99]))
      (.new b!"ab" { Heap.empty with logs := fun _ => ⟨[], 2, 0, 0⟩ })) =
    some (false, 0, 0, [⟨0, b!"o", 1, 0, some (.read 1 b!"'c'")⟩, ⟨0, b!"i", 2, 1, none⟩]) := by decide +kernel

/-- The claim fails: with a new `Log` the read of the inner rule moves the entries to another place, and the exit of the outer call, at position 2 or with an
error, gets lost. -/
theorem C43_violated :
    logAfter 0 (read exRt [] 9 (.monitor b!"o" 0 (.seq [.monitor b!"i" 0 (.rune 97), .rune 98])) (.new b!"ab" Heap.empty)) =
      some (true, 2, 0, [⟨0, b!"o", 1, 0, none⟩, ⟨0, b!"i", 2, 1, none⟩]) ∧
    logAfter 0 (read exRt [] 9 (.monitor b!"o" 0 (.seq [.monitor b!"i" 0 (.rune 97), .rune 99])) (.new b!"ab" Heap.empty)) =
      some (false, 0, 0, [⟨0, b!"o", 1, 0, none⟩, ⟨0, b!"i", 2, 1, none⟩]) := by
  constructor <;> decide +kernel

/-- JSON with all rules monitored on `1`: the entry of the first call, of the rule `number`, has lost its exit at 1. -/
example : (logAfter 0 (read exRt (Json.env.monitorAll 0) 40 (.rule Json.iNumber) (.new b!"1" Heap.empty))).map (fun x => x.2.2.2.head?) =
    some (some ⟨0, b!"number", 1, 0, none⟩) := by decide +kernel

/-! ### `Reset` -/

/-- A use of a log: `Enter`, or `Exit` with the entry that the `k`-th `Enter` gave. -/
inductive LogUse where
  | enter (info : Bytes) (pos : Int)
  | exit (k : Nat) (pos : Int) (err : Option Err)

/-- Uses of a log one after the other, with the entries that `Enter` gave so far. -/
def Log.use (rt : Rt) : List LogUse → List EntryPtr → Log → Log
  | [], _, l => l
  | .enter info pos :: us, ps, l => Log.use rt us (ps ++ [(l.enter rt info pos).1]) (l.enter rt info pos).2
  | .exit k pos err :: us, ps, l =>
    match ps[k]? with
    | some p => Log.use rt us ps (l.exit p pos err)
    | none => Log.use rt us ps l

theorem use_shift (rt : Rt) (g : Nat) : ∀ (us : List LogUse) (ps : List EntryPtr) (l : Log),
    Log.use rt us (ps.map fun p => ⟨p.gen + g, p.idx⟩) { l with gen := l.gen + g } = { Log.use rt us ps l with gen := (Log.use rt us ps l).gen + g }
  | [], _, _ => rfl
  | .enter info pos :: us, ps, l => by
    unfold Log.use
    rw [← use_shift rt g us]
    unfold Log.enter
    by_cases h : l.entries.length = l.cap
    · simp only [h, if_true, List.map_append, List.map_cons, List.map_nil]
      rw [show l.gen + g + 1 = l.gen + 1 + g by omega]
    · simp only [h, if_false, List.map_append, List.map_cons, List.map_nil]
  | .exit k pos err :: us, ps, l => by
    unfold Log.use
    rw [List.getElem?_map]
    cases ps[k]? with
    | none => exact use_shift rt g us ps l
    | some p =>
      show Log.use rt us _ (Log.exit _ _ _ _) = { Log.use rt us ps (l.exit p pos err) with gen := (Log.use rt us ps (l.exit p pos err)).gen + g }
      rw [← use_shift rt g us]
      unfold Log.exit
      congr 1
      simp only [Nat.add_right_cancel_iff]

/-- After `Reset` a log is as good as new: whatever is done with it, its entries and its level are those of a new log. -/
theorem C43_reset (rt : Rt) (l : Log) (us : List LogUse) :
    (Log.use rt us [] l.reset).entries = (Log.use rt us [] Log.empty).entries ∧ (Log.use rt us [] l.reset).level = (Log.use rt us [] Log.empty).level := by
  have h := use_shift rt (l.gen + 1) us [] Log.empty
  have e : ({ Log.empty with gen := Log.empty.gen + (l.gen + 1) } : Log) = l.reset := by simp [Log.empty, Log.reset]
  rw [List.map_nil, e] at h
  rw [h]
  exact ⟨rfl, rfl⟩

/-- Two nested calls after two others that are forgotten. -/
example : (Log.use exRt [.enter b!"o" 0, .enter b!"i" 1, .exit 1 3 none, .exit 0 4 none] []
    (Log.use exRt [.enter b!"x" 7, .enter b!"y" 8] [] Log.empty).reset).entries = [⟨0, b!"o", 1, 0, none⟩, ⟨1, b!"i", 2, 3, none⟩] := by decide

end Tok
