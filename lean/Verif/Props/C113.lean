/-
C113 Monitoring some of the readers shows of them what monitoring all of them does.
-/
import Verif.Proofs.Watch

namespace Tok
open Spec

/-- A `Monitor` for the log `l` has a name in `k`. -/
def Reader.kept (l : Nat) (k : Bytes → Bool) : Reader → Prop
  | .monitor i j _ => j = l → k i = true
  | _ => True

section
variable {rt : Rt} {l : Nat} {k : Bytes → Bool}

mutual
theorem unwatch_strip : ∀ r : Reader, strip .onlyMonitor (Reader.unwatch l k r) = strip .onlyMonitor r
  | .any rs => by rw [Reader.unwatch, strip, strip, unwatches_strip rs]
  | .at_ r => by rw [Reader.unwatch, strip, strip, unwatch_strip r]
  | .body b t => by rw [Reader.unwatch, strip, strip, unwatch_strip b, unwatch_strip t]
  | .bodyTail b t => by rw [Reader.unwatch, strip, strip, unwatch_strip b, unwatch_strip t]
  | .janusBegin _ _ r => by rw [Reader.unwatch, strip, strip, unwatch_strip r]
  | .many r => by rw [Reader.unwatch, strip, strip, unwatch_strip r]
  | .map f r => by rw [Reader.unwatch, strip, strip, unwatch_strip r]
  | .named n r => by rw [Reader.unwatch, strip, strip, unwatch_strip r]
  | .not r => by rw [Reader.unwatch, strip, strip, unwatch_strip r]
  | .opt r => by rw [Reader.unwatch, strip, strip, unwatch_strip r]
  | .past r => by rw [Reader.unwatch, strip, strip, unwatch_strip r]
  | .seq rs => by rw [Reader.unwatch, strip, strip, unwatches_strip rs]
  | .skipSeq sk rs => by rw [Reader.unwatch, strip, strip, unwatch_strip sk, unwatches_strip rs]
  | .times n r => by rw [Reader.unwatch, strip, strip, unwatch_strip r]
  | .to r => by rw [Reader.unwatch, strip, strip, unwatch_strip r]
  | .zom r => by rw [Reader.unwatch, strip, strip, unwatch_strip r]
  | .pick i b r => by rw [Reader.unwatch, strip, strip, unwatch_strip r]
  | .monitor i j r => by
    rw [Reader.unwatch]
    split
    · rw [unwatch_strip r, strip, if_pos (by rfl)]
    · rw [strip, strip, unwatch_strip r]
  | .ruleName r => by rw [Reader.unwatch, strip, strip, unwatch_strip r]
  | .grammar w r => by rw [Reader.unwatch, strip, strip, unwatch_strip r]
  | .anyRune _ | .atEnd | .between _ _ | .betweenAny _ _ | .bool _ _ | .fold _ | .holey _ _ _ | .int _ _ _
  | .janusEnd _ _ | .invalid _ | .lit _ | .match_ _ _ | .rune _ | .uint _ _ _ | .wrap _ _ | .rule _ => by simp only [Reader.unwatch]
theorem unwatches_strip : ∀ rs : List Reader, strips .onlyMonitor (Reader.unwatches l k rs) = strips .onlyMonitor rs
  | [] => rfl
  | r :: rs => by rw [Reader.unwatches, strips, strips, unwatch_strip r, unwatches_strip rs]
end

theorem unwatch_stripEnv (G : Env) : stripEnv .onlyMonitor (Env.unwatch l k G) = stripEnv .onlyMonitor G := by
  unfold stripEnv Env.unwatch
  rw [List.map_map]
  refine List.map_congr_left fun rl _ => ?_
  obtain ⟨nm, _ | c⟩ := rl
  · rfl
  · show (⟨nm, some _⟩ : Rule) = ⟨nm, some _⟩
    rw [unwatch_strip]

mutual
theorem unwatch_noWrap : ∀ r : Reader, r.Every (fun r => r.noWrap = true) → (Reader.unwatch l k r).Every (fun r => r.noWrap = true)
  | .at_ r, h => by rw [Reader.unwatch]; exact .mk rfl (by simpa [Reader.subs] using unwatch_noWrap r (h.sub (by simp [Reader.subs])))
  | .janusBegin _ _ r, h => by rw [Reader.unwatch]; exact .mk rfl (by simpa [Reader.subs] using unwatch_noWrap r (h.sub (by simp [Reader.subs])))
  | .many r, h => by rw [Reader.unwatch]; exact .mk rfl (by simpa [Reader.subs] using unwatch_noWrap r (h.sub (by simp [Reader.subs])))
  | .map _ r, h => by rw [Reader.unwatch]; exact .mk rfl (by simpa [Reader.subs] using unwatch_noWrap r (h.sub (by simp [Reader.subs])))
  | .named _ r, h => by rw [Reader.unwatch]; exact .mk rfl (by simpa [Reader.subs] using unwatch_noWrap r (h.sub (by simp [Reader.subs])))
  | .not r, h => by rw [Reader.unwatch]; exact .mk rfl (by simpa [Reader.subs] using unwatch_noWrap r (h.sub (by simp [Reader.subs])))
  | .opt r, h => by rw [Reader.unwatch]; exact .mk rfl (by simpa [Reader.subs] using unwatch_noWrap r (h.sub (by simp [Reader.subs])))
  | .past r, h => by rw [Reader.unwatch]; exact .mk rfl (by simpa [Reader.subs] using unwatch_noWrap r (h.sub (by simp [Reader.subs])))
  | .times _ r, h => by rw [Reader.unwatch]; exact .mk rfl (by simpa [Reader.subs] using unwatch_noWrap r (h.sub (by simp [Reader.subs])))
  | .to r, h => by rw [Reader.unwatch]; exact .mk rfl (by simpa [Reader.subs] using unwatch_noWrap r (h.sub (by simp [Reader.subs])))
  | .zom r, h => by rw [Reader.unwatch]; exact .mk rfl (by simpa [Reader.subs] using unwatch_noWrap r (h.sub (by simp [Reader.subs])))
  | .pick _ _ r, h => by rw [Reader.unwatch]; exact .mk rfl (by simpa [Reader.subs] using unwatch_noWrap r (h.sub (by simp [Reader.subs])))
  | .ruleName r, h => by rw [Reader.unwatch]; exact .mk rfl (by simpa [Reader.subs] using unwatch_noWrap r (h.sub (by simp [Reader.subs])))
  | .grammar _ r, h => by rw [Reader.unwatch]; exact .mk rfl (by simpa [Reader.subs] using unwatch_noWrap r (h.sub (by simp [Reader.subs])))
  | .body a t, h => by
    rw [Reader.unwatch]
    exact .mk rfl (by simpa [Reader.subs] using ⟨unwatch_noWrap a (h.sub (by simp [Reader.subs])), unwatch_noWrap t (h.sub (by simp [Reader.subs]))⟩)
  | .bodyTail a t, h => by
    rw [Reader.unwatch]
    exact .mk rfl (by simpa [Reader.subs] using ⟨unwatch_noWrap a (h.sub (by simp [Reader.subs])), unwatch_noWrap t (h.sub (by simp [Reader.subs]))⟩)
  | .any rs, h => by rw [Reader.unwatch]; exact .mk rfl (unwatches_noWrap rs fun c hc => h.sub hc)
  | .seq rs, h => by rw [Reader.unwatch]; exact .mk rfl (unwatches_noWrap rs fun c hc => h.sub hc)
  | .skipSeq sk rs, h => by
    rw [Reader.unwatch]
    refine .mk rfl fun c hc => ?_
    rcases List.mem_cons.mp hc with rfl | hc
    · exact unwatch_noWrap sk (h.sub List.mem_cons_self)
    · exact unwatches_noWrap rs (fun c hc => h.sub (List.mem_cons_of_mem _ hc)) c hc
  | .monitor i j r, h => by
    have ih := unwatch_noWrap r (h.sub (by simp [Reader.subs]))
    rw [Reader.unwatch]
    split
    · exact ih
    · exact .mk rfl (by simpa [Reader.subs] using ih)
  | .anyRune _, h | .atEnd, h | .between _ _, h | .betweenAny _ _, h | .bool _ _, h | .fold _, h | .holey _ _ _, h | .int _ _ _, h
  | .janusEnd _ _, h | .invalid _, h | .lit _, h | .match_ _ _, h | .rune _, h | .uint _ _ _, h | .wrap _ _, h | .rule _, h => by simpa only [Reader.unwatch] using h
theorem unwatches_noWrap : ∀ rs : List Reader, (∀ c ∈ rs, c.Every (fun r => r.noWrap = true)) → ∀ c ∈ Reader.unwatches l k rs, c.Every (fun r => r.noWrap = true)
  | [], _, c, hc => by rw [Reader.unwatches] at hc; cases hc
  | r :: rs, h, c, hc => by
    rw [Reader.unwatches] at hc
    rcases List.mem_cons.mp hc with rfl | hc
    · exact unwatch_noWrap r (h r List.mem_cons_self)
    · exact unwatches_noWrap rs (fun c hc => h c (List.mem_cons_of_mem _ hc)) c hc
end

mutual
theorem unwatch_id : ∀ r : Reader, r.Every (Reader.kept l k) → Reader.unwatch l k r = r
  | .at_ r, h => by rw [Reader.unwatch, unwatch_id r (h.sub (by simp [Reader.subs]))]
  | .janusBegin _ _ r, h => by rw [Reader.unwatch, unwatch_id r (h.sub (by simp [Reader.subs]))]
  | .many r, h => by rw [Reader.unwatch, unwatch_id r (h.sub (by simp [Reader.subs]))]
  | .map _ r, h => by rw [Reader.unwatch, unwatch_id r (h.sub (by simp [Reader.subs]))]
  | .named _ r, h => by rw [Reader.unwatch, unwatch_id r (h.sub (by simp [Reader.subs]))]
  | .not r, h => by rw [Reader.unwatch, unwatch_id r (h.sub (by simp [Reader.subs]))]
  | .opt r, h => by rw [Reader.unwatch, unwatch_id r (h.sub (by simp [Reader.subs]))]
  | .past r, h => by rw [Reader.unwatch, unwatch_id r (h.sub (by simp [Reader.subs]))]
  | .times _ r, h => by rw [Reader.unwatch, unwatch_id r (h.sub (by simp [Reader.subs]))]
  | .to r, h => by rw [Reader.unwatch, unwatch_id r (h.sub (by simp [Reader.subs]))]
  | .zom r, h => by rw [Reader.unwatch, unwatch_id r (h.sub (by simp [Reader.subs]))]
  | .pick _ _ r, h => by rw [Reader.unwatch, unwatch_id r (h.sub (by simp [Reader.subs]))]
  | .ruleName r, h => by rw [Reader.unwatch, unwatch_id r (h.sub (by simp [Reader.subs]))]
  | .grammar _ r, h => by rw [Reader.unwatch, unwatch_id r (h.sub (by simp [Reader.subs]))]
  | .body a t, h => by rw [Reader.unwatch, unwatch_id a (h.sub (by simp [Reader.subs])), unwatch_id t (h.sub (by simp [Reader.subs]))]
  | .bodyTail a t, h => by rw [Reader.unwatch, unwatch_id a (h.sub (by simp [Reader.subs])), unwatch_id t (h.sub (by simp [Reader.subs]))]
  | .any rs, h => by rw [Reader.unwatch, unwatches_id rs fun c hc => h.sub hc]
  | .seq rs, h => by rw [Reader.unwatch, unwatches_id rs fun c hc => h.sub hc]
  | .skipSeq sk rs, h => by rw [Reader.unwatch, unwatch_id sk (h.sub List.mem_cons_self), unwatches_id rs fun c hc => h.sub (List.mem_cons_of_mem _ hc)]
  | .monitor i j r, h => by
    have hk : j = l → k i = true := h.here
    rw [Reader.unwatch, unwatch_id r (h.sub (by simp [Reader.subs])), if_neg]
    rintro ⟨h1, h2⟩
    rw [hk h1] at h2
    cases h2
  | .anyRune _, _ | .atEnd, _ | .between _ _, _ | .betweenAny _ _, _ | .bool _ _, _ | .fold _, _ | .holey _ _ _, _ | .int _ _ _, _
  | .janusEnd _ _, _ | .invalid _, _ | .lit _, _ | .match_ _ _, _ | .rune _, _ | .uint _ _ _, _ | .wrap _ _, _ | .rule _, _ => by rw [Reader.unwatch] <;> simp
theorem unwatches_id : ∀ rs : List Reader, (∀ c ∈ rs, c.Every (Reader.kept l k)) → Reader.unwatches l k rs = rs
  | [], _ => rfl
  | r :: rs, h => by rw [Reader.unwatches, unwatch_id r (h r List.mem_cons_self), unwatches_id rs fun c hc => h c (List.mem_cons_of_mem _ hc)]
end

theorem unwatch_noWrapEnv {G : Env} (h : G.Every (fun r => r.noWrap = true)) : (Env.unwatch l k G).Every (fun r => r.noWrap = true) := by
  intro rl hrl c hc
  obtain ⟨⟨nm, _ | c'⟩, hr', rfl⟩ := List.mem_map.mp hrl
  · cases hc
  · cases hc
    exact unwatch_noWrap c' (h _ hr' c' rfl)

theorem outcome_leaf {G G' : Env} (hG : G.Every (fun r => r.noWrap = true)) (hG' : G'.Every (fun r => r.noWrap = true)) (r : Reader) (st : St) (x : Bool × St)
    (hr : r.leaf = true) (h : Outcome rt G r st x) : Outcome rt G' r st x := by
  refine (outcome_iff hG' (leaf_every hr)).mpr ?_
  obtain ⟨n, hn⟩ := (outcome_iff hG (leaf_every hr)).mp h
  refine ⟨n, ?_⟩
  cases n with
  | zero => cases hn
  | succ n => rw [← hn]; cases r <;> first | rfl | (simp [Reader.leaf] at hr)

end

/-- The level of a log and its lines, after calls. -/
def Shows (l : Nat) (s s' : Scanner) (F : Visits) : Prop :=
  lines (s'.heap.logs l) = ((lines (s.heap.logs l)).1, (lines (s.heap.logs l)).2 ++ F.lines (lines (s.heap.logs l)).1)

/-- A read, and the same read with fewer monitored readers: the same error or none and the same scanner, logs aside.  The log shows calls, and without the
`Monitor`s it shows those of them that are left, each inside the next one around it that is left; the other logs are the same. -/
theorem C113_fewer (rt : Rt) (l : Nat) (k : Bytes → Bool) (G : Env) (hG : G.Every (fun r => r.noWrap = true)) (r : Reader) (hr : r.Every (fun r => r.noWrap = true))
    (s : Scanner) (hs : Inside s) (n : Nat) (e : Option Err) (s' : Scanner) (h : read rt G n r s = .ret (e, s')) :
    ∃ m t' F, read rt (Env.unwatch l k G) m (Reader.unwatch l k r) s = .ret (e, t') ∧ ButLogs s' t' ∧ Shows l s s' F ∧ Shows l s t' (F.keep k) ∧
      ∀ j, j ≠ l → lines (t'.heap.logs j) = lines (s'.heap.logs j) := by
  have ig : ∀ r : Reader, r.noWrap = true → r.ignoresLogs := fun r h => by cases r <;> first | trivial | cases h
  have hG' := unwatch_noWrapEnv (l := l) (k := k) hG
  have hr' := unwatch_noWrap (l := l) (k := k) r hr
  obtain ⟨m0, u, h1, h2⟩ := (C43_transparent rt G r (hG.imp ig) (hr.imp ig) s s hs rfl).1 n e s' h
  rw [← unwatch_stripEnv (l := l) (k := k), ← unwatch_strip (l := l) (k := k)] at h1
  obtain ⟨m, t', h3, h4⟩ := (C43_transparent rt _ _ (hG'.imp ig) (hr'.imp ig) s s hs rfl).2 m0 e u h1
  obtain ⟨_, _, hb⟩ := (between_iff s).mpr hs
  obtain ⟨a1, b1, es, k1, k2, k3, k4⟩ := C87_trace rt G hG r hr s _ _ hb n e s' h
  obtain ⟨a2, b2, es2, q1, q2, q3, q4⟩ := C87_trace rt _ hG' _ hr' s _ _ hb m e t' h3
  obtain ⟨es', p1, F, p2, p3, p4⟩ := trace_unwatch (l := l) (k := k) k3
  obtain ⟨_, rfl⟩ := C87_unique rt _ hG' _ _ _ _ _ _ _ (trace_mono (outcome_leaf hG hG') p1) q3
  refine ⟨m, t', F, h3, ?_, (k4.logs l).trans (p2 _), (q4.logs l).trans (p3 _), fun j hj => ?_⟩
  · unfold ButLogs at h2 h4 ⊢
    rw [h2] at h4
    have hf := congrArg Scanner.full h4
    have hp := congrArg Scanner.pos h4
    have ht := congrArg Scanner.tracker h4
    have hh := congrArg (fun s => { s.heap with logs := t'.heap.logs }) h4
    obtain ⟨f, p, tr, hp'⟩ := t'
    simp only [Scanner.mk.injEq] at hf hp ht hh ⊢
    exact ⟨hf.symm, hp.symm, ht.symm, hh.symm⟩
  · rw [q4.logs j, k4.logs j, p4 j hj]

/-- The other way around: a read with fewer monitored readers, and with all of them. -/
theorem C113_more (rt : Rt) (l : Nat) (k : Bytes → Bool) (G : Env) (hG : G.Every (fun r => r.noWrap = true)) (r : Reader) (hr : r.Every (fun r => r.noWrap = true))
    (s : Scanner) (hs : Inside s) (m : Nat) (e : Option Err) (t' : Scanner) (h : read rt (Env.unwatch l k G) m (Reader.unwatch l k r) s = .ret (e, t')) :
    ∃ n s' F, read rt G n r s = .ret (e, s') ∧ ButLogs s' t' ∧ Shows l s s' F ∧ Shows l s t' (F.keep k) ∧
      ∀ j, j ≠ l → lines (t'.heap.logs j) = lines (s'.heap.logs j) := by
  have ig : ∀ r : Reader, r.noWrap = true → r.ignoresLogs := fun r h => by cases r <;> first | trivial | cases h
  have hG' := unwatch_noWrapEnv (l := l) (k := k) hG
  have hr' := unwatch_noWrap (l := l) (k := k) r hr
  obtain ⟨m0, u, h1, _⟩ := (C43_transparent rt _ _ (hG'.imp ig) (hr'.imp ig) s s hs rfl).1 m e t' h
  rw [unwatch_stripEnv, unwatch_strip] at h1
  obtain ⟨n, s', h3, _⟩ := (C43_transparent rt G r (hG.imp ig) (hr.imp ig) s s hs rfl).2 m0 e u h1
  obtain ⟨m', t'', F, h4, h5⟩ := C113_fewer rt l k G hG r hr s hs n e s' h3
  cases read_det h4 h
  exact ⟨n, s', F, h3, h5⟩

/-- The lines tell the calls: which were inside of which is known from the log. -/
theorem C113_tells {l : Nat} {s s' : Scanner} {F F' : Visits} (h : Shows l s s' F) (h' : Shows l s s' F') : F = F' :=
  Visits.lines_inj (List.append_cancel_left (Prod.mk.inj (h.symm.trans h')).2)

theorem butLogs_both {s t u : Scanner} (h : ButLogs s u) (h' : ButLogs t u) : ButLogs s t := by
  unfold ButLogs at h h' ⊢
  rw [h] at h'
  have hf := congrArg Scanner.full h'
  have hp := congrArg Scanner.pos h'
  have ht := congrArg Scanner.tracker h'
  have hh := congrArg (fun s => { s.heap with logs := t.heap.logs }) h'
  obtain ⟨f, p, tr, hp'⟩ := t
  simp only [Scanner.mk.injEq] at hf hp ht hh ⊢
  exact ⟨hf.symm, hp.symm, ht.symm, hh.symm⟩

/-- What was in the logs before does not matter: the same read with other logs adds the same calls. -/
theorem C113_anew (rt : Rt) (l : Nat) (G : Env) (hG : G.Every (fun r => r.noWrap = true)) (r : Reader) (hr : r.Every (fun r => r.noWrap = true))
    (s t : Scanner) (hs : Inside s) (hst : ButLogs s t) (n : Nat) (e : Option Err) (s' : Scanner) (h : read rt G n r s = .ret (e, s')) :
    ∃ m t' F, read rt G m r t = .ret (e, t') ∧ ButLogs s' t' ∧ Shows l s s' F ∧ Shows l t t' F := by
  have ig : ∀ r : Reader, r.noWrap = true → r.ignoresLogs := fun r h => by cases r <;> first | trivial | cases h
  have hbt : ∀ {u v : Bytes}, Between s u v → Between t u v := fun h => by rw [hst]; exact h
  have hj : t.heap.janus = s.heap.janus := by rw [hst]
  obtain ⟨u, v, hb⟩ := (between_iff s).mpr hs
  obtain ⟨m1, w', h3, h4⟩ := (C43_transparent rt G r (hG.imp ig) (hr.imp ig) s t hs hst).1 n e s' h
  obtain ⟨m, t', h5, h6⟩ := (C43_transparent rt G r (hG.imp ig) (hr.imp ig) t t (hbt hb).inside rfl).2 m1 e w' h3
  obtain ⟨a1, b1, es, k1, k2, k3, k4⟩ := C87_trace rt G hG r hr s _ _ hb n e s' h
  obtain ⟨a2, b2, es2, q1, q2, q3, q4⟩ := C87_trace rt G hG r hr t _ _ (hbt hb) m e t' h5
  rw [hj] at q3
  obtain ⟨_, rfl⟩ := C87_unique rt G hG _ _ _ _ _ _ _ k3 q3
  obtain ⟨_, _, F, p2, _, _⟩ := trace_unwatch (l := l) (k := fun _ => true) k3
  exact ⟨m, t', F, h5, butLogs_both h4 h6, (k4.logs l).trans (p2 _), (q4.logs l).trans (p2 _)⟩

theorem keep_names (k : Bytes → Bool) (F : Visits) : ∀ n : Int, ∀ x ∈ (F.keep k).lines n, k x.2.1 = true := by
  induction F with
  | none => intro n x hx; cases hx
  | call i p inner rest ih1 ih2 =>
    intro n x hx
    rw [Visits.keep] at hx
    split at hx
    · rename_i hk
      rcases List.mem_cons.mp hx with rfl | hx
      · exact hk
      · exact (List.mem_append.mp hx).elim (ih1 _ x) (ih2 _ x)
    · rw [Visits.lines_append] at hx
      exact (List.mem_append.mp hx).elim (ih1 _ x) (ih2 _ x)

/-- The names in the log are those of the `Monitor`s for it: what is true of these is true of those. -/
theorem C113_names (rt : Rt) (l : Nat) (k : Bytes → Bool) (G : Env) (hG : G.Every (fun r => r.noWrap = true)) (r : Reader) (hr : r.Every (fun r => r.noWrap = true))
    (hGk : G.Every (Reader.kept l k)) (hrk : r.Every (Reader.kept l k))
    (s : Scanner) (hs : Inside s) (n : Nat) (e : Option Err) (s' : Scanner) (h : read rt G n r s = .ret (e, s')) (F : Visits) (hF : Shows l s s' F) :
    ∀ lv, ∀ x ∈ F.lines lv, k x.2.1 = true := by
  obtain ⟨m, t', F', h1, _, h3, h4, _⟩ := C113_fewer rt l k G hG r hr s hs n e s' h
  have hE : Env.unwatch l k G = G := by
    unfold Env.unwatch
    rw [List.map_congr_left (g := id), List.map_id]
    intro rl hrl
    obtain ⟨nm, _ | c⟩ := rl
    · rfl
    · show (⟨nm, some (Reader.unwatch l k c)⟩ : Rule) = _
      rw [unwatch_id c (hGk _ hrl c rfl)]
      rfl
  rw [hE, unwatch_id r hrk] at h1
  cases read_det h1 h
  rw [C113_tells hF h4]
  exact keep_names k F'

/-- `Monitor` on the rules of a grammar whose names are in `k`. -/
def monitorSome (l : Nat) (k : Bytes → Bool) (G : Env) : Env := G.map fun rl => if k rl.name then rl.monitor l else rl

theorem unwatch_monitorAll (l : Nat) (k : Bytes → Bool) (G : Env) (hG : G.Every (fun r => r.bare = true)) :
    Env.unwatch l k (G.monitorAll l) = monitorSome l k G := by
  unfold Env.unwatch Env.monitorAll monitorSome
  rw [List.map_map]
  refine List.map_congr_left fun rl hrl => ?_
  obtain ⟨nm, _ | c⟩ := rl
  · show (⟨nm, none⟩ : Rule) = if k nm then ⟨nm, none⟩ else ⟨nm, none⟩
    split <;> rfl
  · show (⟨nm, some (Reader.unwatch l k (.monitor nm l c))⟩ : Rule) = if k nm then ⟨nm, some (.monitor nm l c)⟩ else ⟨nm, some c⟩
    rw [Reader.unwatch, unwatch_id c ((hG _ hrl c rfl).imp fun r h => by cases r <;> first | trivial | cases h)]
    cases k nm <;> simp

/-- All rules of a grammar monitored, or some of them: a read by a rule ends the same way, and the log shows of the calls of these rules the same. -/
theorem C113_rules (rt : Rt) (l : Nat) (k : Bytes → Bool) (G : Env) (hG : G.Every (fun r => r.bare = true)) (i : Nat)
    (s : Scanner) (hs : Inside s) (n : Nat) (e : Option Err) (s' : Scanner) (h : read rt (G.monitorAll l) n (.rule i) s = .ret (e, s')) :
    ∃ m t' F, read rt (monitorSome l k G) m (.rule i) s = .ret (e, t') ∧ ButLogs s' t' ∧ Shows l s s' F ∧ Shows l s t' (F.keep k) := by
  have hM : (G.monitorAll l).Every (fun r => r.noWrap = true) := by
    intro rl hrl c hc
    obtain ⟨⟨nm, _ | c'⟩, hr', rfl⟩ := List.mem_map.mp hrl
    · cases hc
    · cases hc
      exact .mk (r := .monitor _ _ _) rfl fun x hx => by
        rw [List.mem_singleton.mp hx]
        exact (hG _ hr' c' rfl).imp fun r h => by cases r <;> first | rfl | cases h
  obtain ⟨m, t', F, h1, h2, h3, h4, _⟩ := C113_fewer rt l k _ hM (.rule i) (.mk rfl (by simp [Reader.subs])) s hs n e s' h
  rw [unwatch_monitorAll l k G hG] at h1
  exact ⟨m, t', F, by simpa only [Reader.unwatch] using h1, h2, h3, h4⟩

/-- The shipped grammars. -/
theorem C113_shipped (rt : Rt) (G : Env) (hG : G = Json.env ∨ G = Mxt.env ∨ G = Lua.env) (l : Nat) (k : Bytes → Bool) (i : Nat)
    (s : Scanner) (hs : Inside s) (n : Nat) (e : Option Err) (s' : Scanner) (h : read rt (G.monitorAll l) n (.rule i) s = .ret (e, s')) :
    ∃ m t' F, read rt (monitorSome l k G) m (.rule i) s = .ret (e, t') ∧ ButLogs s' t' ∧ Shows l s s' F ∧ Shows l s t' (F.keep k) := by
  refine C113_rules rt l k G ?_ i s hs n e s' h
  rcases hG with rfl | rfl | rfl <;> exact Env.everyB_sound (by decide)

/-! ### a case -/

/-- `list = "[" item "]"`, `item = word / list`, `word = "x"`. -/
def exNest : Env := [⟨b!"list", some (.seq [.rune 91, .rule 1, .rune 93])⟩, ⟨b!"item", some (.any [.rule 2, .rule 0])⟩, ⟨b!"word", some (.lit b!"x")⟩]

/-- The calls of a read of `[[x]]`, also those that failed. -/
def exVisits : Visits :=
  .call b!"list" 0 (.call b!"item" 1 (.call b!"word" 1 .none (.call b!"list" 1 (.call b!"item" 2 (.call b!"word" 2 .none .none) .none) .none)) .none) .none

/-- What a log shows after a read. -/
def shownAfter (x : Exec (Option Err × Scanner)) : Option (Bool × Int × List (Int × Bytes × Int)) :=
  match x with
  | .ret (e, s) => some (e.isNone, lines (s.heap.logs 0))
  | _ => none

example : shownAfter (read exRt (exNest.monitorAll 0) 40 (.rule 0) (Scanner.new b!"[[x]]" Heap.empty)) = some (true, 0, exVisits.lines 0) := by rfl

/-- Without the rule "item" the words are one level below the list around them. -/
example : shownAfter (read exRt (monitorSome 0 (· ≠ b!"item") exNest) 40 (.rule 0) (Scanner.new b!"[[x]]" Heap.empty)) =
      some (true, 0, [(1, b!"list", 0), (2, b!"word", 1), (2, b!"list", 1), (3, b!"word", 2)]) ∧
    (exVisits.keep (· ≠ b!"item")).lines 0 = [(1, b!"list", 0), (2, b!"word", 1), (2, b!"list", 1), (3, b!"word", 2)] := ⟨by rfl, by rfl⟩

/-- A second read with the same log, without `Reset`. -/
example : shownAfter (do
      let (_, s) ← read exRt (exNest.monitorAll 0) 40 (.rule 0) (Scanner.new b!"[[x]]" Heap.empty)
      read exRt (exNest.monitorAll 0) 40 (.rule 0) { s with pos := 0 }) = some (true, 0, exVisits.lines 0 ++ exVisits.lines 0) := by rfl

example : exNest.Every (fun r => r.bare = true) := Env.everyB_sound (by decide)

end Tok
