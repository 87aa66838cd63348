/-
C83 Readers can be rewritten by the laws of parsing expressions.
-/
import Verif.Proofs.LawEqs
import Verif.Proofs.LawMore
import Verif.Proofs.Search
import Verif.Proofs.Term

namespace Tok
open Spec

/-- No part is a `Wrap`. -/
def Reader.wrapless (r : Reader) : Prop := r.Every (fun r => r.noWrap = true)
def Env.wrapless (G : Env) : Prop := G.Every (fun r => r.noWrap = true)

section
variable {rt : Rt} {G G' : Env} {a b c r t : Reader} {as bs cs rs : List Reader}

theorem wrapless_seq (h : ∀ r ∈ rs, r.wrapless) : (Reader.seq rs).wrapless := .mk rfl h
theorem wrapless_any (h : ∀ r ∈ rs, r.wrapless) : (Reader.any rs).wrapless := .mk rfl h
theorem wrapless_one {f : Reader → Reader} (hf : (f r).noWrap = true) (hs : (f r).subs = [r]) (h : r.wrapless) : (f r).wrapless :=
  .mk hf fun c hc => by rw [hs, List.mem_singleton] at hc; exact hc ▸ h
theorem wrapless_two {f : Reader → Reader → Reader} (hf : (f a b).noWrap = true) (hs : (f a b).subs = [a, b]) (ha : a.wrapless) (hb : b.wrapless) :
    (f a b).wrapless :=
  .mk hf fun c hc => by
    rw [hs] at hc
    rcases List.mem_cons.mp hc with rfl | hc
    · exact ha
    · rw [List.mem_singleton] at hc; exact hc ▸ hb

theorem wl_append (h1 : ∀ r ∈ as, r.wrapless) (h2 : ∀ r ∈ bs, r.wrapless) : ∀ r ∈ as ++ bs, r.wrapless := fun r hr =>
  (List.mem_append.mp hr).elim (h1 r) (h2 r)
theorem wl_cons (h1 : r.wrapless) (h2 : ∀ r ∈ bs, r.wrapless) : ∀ c ∈ r :: bs, c.wrapless := fun c hc =>
  (List.mem_cons.mp hc).elim (fun e => e ▸ h1) (h2 c)
theorem wl_nil : ∀ r ∈ ([] : List Reader), r.wrapless := fun _ h => by cases h

/-! ### parts and rules may be exchanged -/

/-- Parts of which the same comes may be exchanged anywhere inside a reader. -/
theorem C83_parts (hG : G.wrapless) (ha : a.wrapless) (hb : b.wrapless)
    (h : Exchanged (fun x y => x.wrapless ∧ y.wrapless ∧ Swappable rt G x y) a b) : Swappable rt G a b :=
  (swappable_iff hG ha hb).mpr (exchanged_eq (fun x y ⟨h1, h2, h3⟩ => (swappable_iff hG h1 h2).mp h3) h)

/-- The readers of the rules may be exchanged, if the same comes of the old and the new one in the old and in the new grammar: then the
same comes of every reader. -/
theorem C83_rules (hG : G.wrapless) (hG' : G'.wrapless)
    (hr : ∀ i : Nat, (∃ (nm nm' : Bytes) (c c' : Reader), G[i]? = some ⟨nm, some c⟩ ∧ G'[i]? = some ⟨nm', some c'⟩ ∧
        Swappable rt G c c' ∧ Swappable rt G' c c') ∨
      ∀ (nm : Bytes) (c : Reader), G[i]? ≠ some ⟨nm, some c⟩ ∧ G'[i]? ≠ some ⟨nm, some c⟩)
    (r : Reader) (hw : r.wrapless) (s : Scanner) (h t : Bytes) (hb : Between s h t) (ok : Bool) (p : Int) (j : Nat → Bytes) :
    Comes rt G r s ok p j ↔ Comes rt G' r s ok p j := by
  have h1 : ∀ n r, Sub rt G G' n r r := rules_sub fun i nm c hc => by
    rcases hr i with ⟨_, nm', c1, c', h1, h2, _, h4⟩ | h
    · rw [hc] at h1
      cases h1
      exact ⟨nm', c', h2, fun st x hx => ((swappable_iff hG' (hG.get hc) (hG'.get h2)).mp h4 st x).mp hx⟩
    · exact absurd hc (h nm c).1
  have h2 : ∀ n r, Sub rt G' G n r r := rules_sub fun i nm c hc => by
    rcases hr i with ⟨nm', _, c', c1, h1, h2, h3, _⟩ | h
    · rw [hc] at h2
      cases h2
      exact ⟨nm', c', h1, fun st x hx => ((swappable_iff hG (hG.get h1) (hG'.get hc)).mp h3 st x).mpr hx⟩
    · exact absurd hc (h nm c).2
  rw [comes_iff hG hw hb, comes_iff hG' hw hb]
  constructor
  · rintro ⟨u, e1, e2, n, e3⟩
    exact ⟨u, e1, e2, h1 n r _ _ e3⟩
  · rintro ⟨u, e1, e2, n, e3⟩
    exact ⟨u, e1, e2, h2 n r _ _ e3⟩

/-! ### the laws -/

/-- A sequence inside a sequence. -/
theorem C83_seq_flat (hG : G.wrapless) (h1 : ∀ r ∈ as, r.wrapless) (h2 : ∀ r ∈ bs, r.wrapless) (h3 : ∀ r ∈ cs, r.wrapless) :
    Swappable rt G (.seq (as ++ .seq bs :: cs)) (.seq (as ++ bs ++ cs)) :=
  (swappable_iff hG (wrapless_seq (wl_append h1 (wl_cons (wrapless_seq h2) h3))) (wrapless_seq (wl_append (wl_append h1 h2) h3))).mpr law_seq_flat

/-- A choice inside a choice, if the inner ones go back. -/
theorem C83_any_flat_partial (hG : G.wrapless) (h1 : ∀ r ∈ as, r.wrapless) (h2 : ∀ r ∈ bs, r.wrapless) (h3 : ∀ r ∈ cs, r.wrapless)
    (hb : ∀ r ∈ bs, GoesBack rt G r) : Swappable rt G (.any (as ++ .any bs :: cs)) (.any (as ++ bs ++ cs)) :=
  (swappable_iff hG (wrapless_any (wl_append h1 (wl_cons (wrapless_any h2) h3))) (wrapless_any (wl_append (wl_append h1 h2) h3))).mpr
    (law_any_flat fun r hr => goesBack_iff hG (h2 r hr) (hb r hr))

/-- A sequence and a choice of one. -/
theorem C83_one_partial (hG : G.wrapless) (h1 : r.wrapless) (hb : GoesBack rt G r) : Swappable rt G (.seq [r]) r ∧ Swappable rt G (.any [r]) r :=
  ⟨(swappable_iff hG (wrapless_seq (wl_cons h1 wl_nil)) h1).mpr (law_seq_one (goesBack_iff hG h1 hb)),
    (swappable_iff hG (wrapless_any (wl_cons h1 wl_nil)) h1).mpr (law_any_one (goesBack_iff hG h1 hb))⟩

/-- `Times` in a sequence is the reader so many times. -/
theorem C83_times (hG : G.wrapless) (k : Int) (h1 : ∀ r ∈ as, r.wrapless) (h2 : r.wrapless) (h3 : ∀ r ∈ cs, r.wrapless) :
    Swappable rt G (.seq (as ++ .times k r :: cs)) (.seq (as ++ List.replicate k.toNat r ++ cs)) :=
  (swappable_iff hG (wrapless_seq (wl_append h1 (wl_cons (wrapless_one (f := Reader.times k) rfl rfl h2) h3)))
    (wrapless_seq (wl_append (wl_append h1 fun c hc => by rw [List.eq_of_mem_replicate hc]; exact h2) h3))).mpr (law_times k)

/-- `SkipSeq` is a sequence with the skipped in front of, between and behind the others. -/
theorem C83_skip (hG : G.wrapless) {sk : Reader} (h1 : sk.wrapless) (h2 : ∀ r ∈ rs, r.wrapless) :
    Swappable rt G (.skipSeq sk rs) (.seq (sk :: rs.flatMap fun r => [r, sk])) :=
  (swappable_iff hG (.mk (r := .skipSeq sk rs) rfl (wl_cons h1 h2)) (wrapless_seq (wl_cons h1 fun c hc => by
    obtain ⟨x, h3, h4⟩ := List.mem_flatMap.mp hc
    rcases List.mem_cons.mp h4 with rfl | h4
    · exact h2 _ h3
    · rw [List.mem_singleton] at h4; exact h4 ▸ h1))).mpr law_skip

/-- Looking ahead for what is read next does nothing. -/
theorem C83_at_seq_partial (hG : G.wrapless) (h1 : ∀ r ∈ as, r.wrapless) (h2 : r.wrapless) (h3 : ∀ r ∈ cs, r.wrapless) (hk : KeepsJanus rt G r) :
    Swappable rt G (.seq (as ++ .at_ r :: r :: cs)) (.seq (as ++ r :: cs)) :=
  (swappable_iff hG (wrapless_seq (wl_append h1 (wl_cons (wrapless_one (f := Reader.at_) rfl rfl h2) (wl_cons h2 h3))))
    (wrapless_seq (wl_append h1 (wl_cons h2 h3)))).mpr (law_at_seq (keepsJanus_iff hG h2 hk))

/-- `Opt` is a choice with nothing as the last. -/
theorem C83_opt (hG : G.wrapless) (h1 : r.wrapless) : Swappable rt G (.opt r) (.any [r, .seq []]) ∧ Swappable rt G (.opt (.opt r)) (.opt r) :=
  have ho : (Reader.opt r).wrapless := wrapless_one (f := Reader.opt) rfl rfl h1
  ⟨(swappable_iff hG ho (wrapless_any (wl_cons h1 (wl_cons (wrapless_seq wl_nil) wl_nil)))).mpr law_opt_any,
    (swappable_iff hG (wrapless_one (f := Reader.opt) rfl rfl ho) ho).mpr law_opt_opt⟩

/-- The second of two equal members of a choice does nothing. -/
theorem C83_any_again_partial (hG : G.wrapless) (h1 : ∀ r ∈ as, r.wrapless) (h2 : r.wrapless) (h3 : ∀ r ∈ bs, r.wrapless) (h4 : ∀ r ∈ cs, r.wrapless)
    (hr : GoesBack rt G r) (hk : KeepsJanus rt G r) (hb : ∀ b ∈ bs, GoesBack rt G b ∧ KeepsJanus rt G b) :
    Swappable rt G (.any (as ++ r :: bs ++ r :: cs)) (.any (as ++ r :: bs ++ cs)) :=
  (swappable_iff hG (wrapless_any (wl_append (wl_append h1 (wl_cons h2 h3)) (wl_cons h2 h4)))
    (wrapless_any (wl_append (wl_append h1 (wl_cons h2 h3)) h4))).mpr
    (law_any_again (goesBack_iff hG h2 hr) (keepsJanus_iff hG h2 hk)
      fun b hb' => ⟨goesBack_iff hG (h3 b hb') (hb b hb').1, keepsJanus_iff hG (h3 b hb') (hb b hb').2⟩)

/-- A common beginning of the members of a choice can be drawn out. -/
theorem C83_factor_partial (hG : G.wrapless) (h1 : a.wrapless) (h2 : ∀ r ∈ bs, r.wrapless) (hne : bs ≠ []) (ha : KeepsJanus rt G a)
    (hb : ∀ b ∈ bs, GoesBack rt G b ∧ KeepsJanus rt G b) :
    Swappable rt G (.any (bs.map fun b => .seq [a, b])) (.seq [a, .any bs]) :=
  (swappable_iff hG (wrapless_any fun c hc => by
      obtain ⟨x, h3, rfl⟩ := List.mem_map.mp hc
      exact wrapless_seq (wl_cons h1 (wl_cons (h2 x h3) wl_nil)))
    (wrapless_seq (wl_cons h1 (wl_cons (wrapless_any h2) wl_nil)))).mpr
    (law_factor (keepsJanus_iff hG h1 ha) (fun b hb' => ⟨goesBack_iff hG (h2 b hb') (hb b hb').1, keepsJanus_iff hG (h2 b hb') (hb b hb').2⟩) hne)

/-- `Zom` is `Opt` of `Many`; `Many` is one and then `Zom`, if the reader goes back and gets on. -/
theorem C83_many_partial (hG : G.wrapless) (h1 : r.wrapless) : Swappable rt G (.zom r) (.opt (.many r)) ∧
    (GoesBack rt G r → GetsOn rt G r → Swappable rt G (.many r) (.seq [r, .zom r])) :=
  have hm : (Reader.many r).wrapless := wrapless_one (f := Reader.many) rfl rfl h1
  have hz : (Reader.zom r).wrapless := wrapless_one (f := Reader.zom) rfl rfl h1
  ⟨(swappable_iff hG hz (wrapless_one (f := Reader.opt) rfl rfl hm)).mpr law_zom_many,
    fun h2 h3 => (swappable_iff hG hm (wrapless_seq (wl_cons h1 (wl_cons hz wl_nil)))).mpr (law_many (goesBack_iff hG h1 h2) (getsOn_iff hG h1 h3))⟩

/-- Looking ahead twice is looking ahead once. -/
theorem C83_at (hG : G.wrapless) (h1 : r.wrapless) : Swappable rt G (.at_ (.at_ r)) (.at_ r) ∧ Swappable rt G (.not (.at_ r)) (.not r) :=
  have ha : (Reader.at_ r).wrapless := wrapless_one (f := Reader.at_) rfl rfl h1
  ⟨(swappable_iff hG (wrapless_one (f := Reader.at_) rfl rfl ha) ha).mpr law_at_at,
    (swappable_iff hG (wrapless_one (f := Reader.not) rfl rfl ha) (wrapless_one (f := Reader.not) rfl rfl h1)).mpr law_not_at⟩

/-- `BodyTail` is `Body` and then the tail. -/
theorem C83_body_partial (hG : G.wrapless) (h1 : b.wrapless) (h2 : t.wrapless) (hb : KeepsJanus rt G b) (ht : KeepsJanus rt G t) :
    Swappable rt G (.bodyTail b t) (.seq [.body b t, t]) :=
  (swappable_iff hG (wrapless_two (f := Reader.bodyTail) rfl rfl h1 h2)
    (wrapless_seq (wl_cons (wrapless_two (f := Reader.body) rfl rfl h1 h2) (wl_cons h2 wl_nil)))).mpr
    (law_body (keepsJanus_iff hG h1 hb) (keepsJanus_iff hG h2 ht))

/-- `Past` succeeds exactly if `To` and then the reader do, and at the same place. -/
theorem C83_past_partial (hG : G.wrapless) (h1 : r.wrapless) (hb : GoesBack rt G r) (hk : KeepsJanus rt G r) (ho : GetsOn rt G r)
    (s : Scanner) (h u : Bytes) (hbt : Between s h u) (p : Int) (j : Nat → Bytes) :
    Comes rt G (.past r) s true p j ↔ Comes rt G (.seq [.to r, r]) s true p j := by
  rw [comes_iff hG (wrapless_one (f := Reader.past) rfl rfl h1) hbt,
    comes_iff hG (wrapless_seq (wl_cons (wrapless_one (f := Reader.to) rfl rfl h1) (wl_cons h1 wl_nil))) hbt]
  simp only [law_past (goesBack_iff hG h1 hb) (keepsJanus_iff hG h1 hk) (getsOn_iff hG h1 ho)]

theorem bars_iff (hG : G.wrapless) (ha : a.wrapless) (hb : b.wrapless) (h : Excludes rt G a b) : Bars rt G a b := by
  intro st st' hx
  obtain ⟨s, hs, hj, hf⟩ := some_scanner st
  obtain ⟨p, j, hc⟩ := h s _ _ hs (s.full.length - st'.rest.length) st'.jan ((comes_iff hG ha hs).mpr ⟨st'.rest, hx.suffix, rfl, by rw [hj]; exact hx⟩)
  obtain ⟨u, _, _, hy⟩ := (comes_iff hG hb hs).mp hc
  exact ⟨_, by rw [hj] at hy; exact hy⟩

/-- The order of the members of a choice does not matter if they exclude each other. -/
theorem C83_any_order_partial (hG : G.wrapless) (hp : as.Perm bs) (h1 : ∀ r ∈ as, r.wrapless) (h2 : ∀ r ∈ as, GoesBack rt G r ∧ KeepsJanus rt G r)
    (h3 : ∀ a ∈ as, ∀ b ∈ as, a = b ∨ Excludes rt G a b) : Swappable rt G (.any as) (.any bs) :=
  (swappable_iff hG (wrapless_any h1) (wrapless_any fun r hr => h1 r (hp.mem_iff.mpr hr))).mpr
    (law_any_perm hp (fun r hr => ⟨goesBack_iff hG (h1 r hr) (h2 r hr).1, keepsJanus_iff hG (h1 r hr) (h2 r hr).2⟩)
      fun a ha b hb => (h3 a ha b hb).imp id (bars_iff hG (h1 a ha) (h1 b hb)))

/-- Reading on as long as something is not there: where the something comes, that is `To`, and where it does not come, the read goes on for ever. -/
theorem C83_zom_not_partial (hG : G.wrapless) (h1 : r.wrapless) (hb : GoesBack rt G r) (hk : KeepsJanus rt G r)
    (s : Scanner) (h u : Bytes) (hbt : Between s h u) (ok : Bool) (p : Int) (j : Nat → Bytes) :
    Comes rt G (.zom (.not r)) s ok p j ↔ ok = true ∧ Comes rt G (.to r) s true p j := by
  have hn : (Reader.not r).wrapless := wrapless_one (f := Reader.not) rfl rfl h1
  rw [comes_iff hG (wrapless_one (f := Reader.zom) rfl rfl hn) hbt, comes_iff hG (wrapless_one (f := Reader.to) rfl rfl h1) hbt]
  constructor
  · rintro ⟨v, e1, e2, hx⟩
    obtain ⟨st', h3, h4⟩ := e_zom.mp hx
    cases h4
    exact ⟨rfl, v, e1, e2, e_to.mpr ⟨_, (law_zom_not (goesBack_iff hG h1 hb) (keepsJanus_iff hG h1 hk)).mp h3, rfl⟩⟩
  · rintro ⟨rfl, v, e1, e2, hx⟩
    obtain ⟨⟨ok, st'⟩, h3, h4⟩ := e_to.mp hx
    cases ok
    · cases h4
    · cases h4
      exact ⟨v, e1, e2, e_zom.mpr ⟨_, (law_zom_not (goesBack_iff hG h1 hb) (keepsJanus_iff hG h1 hk)).mpr h3, rfl⟩⟩

/-- Nothing ever comes of repeating a reader that never fails, such as `Opt` and `Zom`. -/
theorem C83_never (hG : G.wrapless) (h1 : r.wrapless) (s : Scanner) (h u : Bytes) (hbt : Between s h u) (ok : Bool) (p : Int) (j : Nat → Bytes) :
    ¬ Comes rt G (.zom (.opt r)) s ok p j ∧ ¬ Comes rt G (.many (.opt r)) s ok p j ∧
    ¬ Comes rt G (.zom (.zom r)) s ok p j ∧ ¬ Comes rt G (.many (.zom r)) s ok p j := by
  have ho : (Reader.opt r).wrapless := wrapless_one (f := Reader.opt) rfl rfl h1
  have hz : (Reader.zom r).wrapless := wrapless_one (f := Reader.zom) rfl rfl h1
  have no1 : ∀ st st', ¬ E rt G (.opt r) st (false, st') := fun st st' hx => by
    obtain ⟨_, _, _, e⟩ := e_opt.mp hx
    cases e
  have no2 : ∀ st st', ¬ E rt G (.zom r) st (false, st') := fun st st' hx => by
    obtain ⟨_, _, e⟩ := e_zom.mp hx
    cases e
  rw [comes_iff hG (wrapless_one (f := Reader.zom) rfl rfl ho) hbt, comes_iff hG (wrapless_one (f := Reader.many) rfl rfl ho) hbt,
    comes_iff hG (wrapless_one (f := Reader.zom) rfl rfl hz) hbt, comes_iff hG (wrapless_one (f := Reader.many) rfl rfl hz) hbt]
  exact ⟨fun ⟨_, _, _, hx⟩ => (never_zom no1 _ _).1 hx, fun ⟨_, _, _, hx⟩ => (never_zom no1 _ _).2 hx,
    fun ⟨_, _, _, hx⟩ => (never_zom no2 _ _).1 hx, fun ⟨_, _, _, hx⟩ => (never_zom no2 _ _).2 hx⟩

/-! ### when the conditions hold -/

/-- Without `Times` and `Wrap` a reader goes back. -/
theorem C83_goesBack (hG : G.wrapless) (hk : ∀ rl ∈ G, ∀ c, rl.reader = some c → c.keeps) (h1 : r.wrapless) (hr : r.keeps) : GoesBack rt G r := by
  rintro s h t hb p j ⟨n, e, s', h2, h3, h4, _⟩
  cases e with
  | none => cases h3
  | some e =>
    rw [← h4]
    exact read_restores rt G (hG.imp fun _ h => safe_of_noWrap h) hk n r (h1.imp fun _ h => safe_of_noWrap h) hr s hb.inside e s' h2

/-- Without Janus readers the strings stay. -/
theorem C83_keepsJanus (hG : G.Every Reader.stateless) (h1 : r.Every Reader.stateless) : KeepsJanus rt G r := by
  rintro s h t hb ok p j hc
  obtain ⟨u, _, _, n, hx⟩ := (comes_iff (hG.imp fun _ h => h.1) (h1.imp fun _ h => h.1) hb).mp hc
  exact eat_jan hG h1 hx

/-- What cannot match the empty text gets on. -/
theorem C83_getsOn (hG : G.wrapless) {nul : Nat → Bool}
    (hn : ∀ (i : Nat) (nm : Bytes) (c : Reader), G[i]? = some ⟨nm, some c⟩ → c.null nul = true → nul i = true)
    (h1 : r.wrapless) (hr : r.null nul = false) : GetsOn rt G r := by
  rintro s h t hb p j hc
  obtain ⟨u, h2, h3, n, hx⟩ := (comes_iff hG h1 hb).mp hc
  have := eat_eats rt G hn n r hr _ _ hx rfl
  have e1 := hb.2
  have e2 := congrArg List.length hb.1
  rw [List.length_append] at e2
  simp only at this
  omega

end

/-! ### without the conditions -/

/-- Nothing comes of a read but what comes of it. -/
theorem comes_only {rt : Rt} {G : Env} {r : Reader} {s s' : Scanner} {n : Nat} {e : Option Err} (h : read rt G n r s = .ret (e, s'))
    {ok : Bool} {p : Int} {j : Nat → Bytes} (hc : Comes rt G r s ok p j) : ok = e.isNone ∧ p = s'.pos := by
  obtain ⟨m, e', s'', h1, h2, h3, _⟩ := hc
  cases read_det h h1
  exact ⟨h2.symm, h3.symm⟩

/-- Two readers that end differently somewhere are not to be exchanged. -/
theorem not_swappable {rt : Rt} {G : Env} {a b : Reader} {text : Bytes} {H : Heap} {n m : Nat} {e e' : Option Err} {s s' : Scanner}
    (h1 : read rt G n a (.new text H) = .ret (e, s)) (h2 : read rt G m b (.new text H) = .ret (e', s'))
    (hne : e.isNone ≠ e'.isNone ∨ s.pos ≠ s'.pos) : ¬ Swappable rt G a b := fun h => by
  have h3 := (h (.new text H) [] text ⟨rfl, rfl⟩ e.isNone s.pos s.heap.janus).mp ⟨n, e, s, h1, rfl, rfl, rfl⟩
  have h4 := comes_only h2 h3
  rcases hne with h5 | h5
  · exact h5 h4.1
  · exact h5 h4.2

/-- The laws are not true of all readers.  `Times` does not go back: a choice inside a choice, a sequence of one, and `Many` as one and then `Zom`
are something else.  Looking ahead for a Janus string forgets it. -/
theorem C83_violated :
    ¬ Swappable exRt [] (.any [.any [.times 2 (.rune 97)], .rune 98]) (.any [.times 2 (.rune 97), .rune 98]) ∧
    ¬ Swappable exRt [] (.seq [.times 2 (.rune 97)]) (.times 2 (.rune 97)) ∧
    ¬ Swappable exRt [] (.many (.times 2 (.rune 97))) (.seq [.times 2 (.rune 97), .zom (.times 2 (.rune 97))]) ∧
    ¬ Swappable exRt [] (.seq [.at_ (.janusEnd 0 b!"j"), .janusEnd 0 b!"j"]) (.seq [.janusEnd 0 b!"j"]) :=
  ⟨not_swappable (text := b!"ab") (H := Heap.empty) (n := 5) (m := 5) rfl rfl (.inl (by decide)),
    not_swappable (text := b!"ab") (H := Heap.empty) (n := 5) (m := 5) rfl rfl (.inr (by decide)),
    not_swappable (text := b!"ab") (H := Heap.empty) (n := 5) (m := 5) rfl rfl (.inl (by decide)),
    not_swappable (text := b!"xy") (H := { Heap.empty with janus := upd Heap.empty.janus 0 b!"x" }) (n := 5) (m := 5) rfl rfl (.inr (by decide))⟩

/-- `Zom` of `Zom` is not `Zom`: nothing comes of it. -/
theorem C83_zom_violated : ¬ Swappable exRt [] (.zom (.zom (.rune 97))) (.zom (.rune 97)) := fun h =>
  (C83_never (G := []) (r := .rune 97) (fun _ h => by cases h) (.mk rfl fun _ h => by cases h) (.new b!"a" Heap.empty) [] b!"a" ⟨rfl, rfl⟩ _ _ _).2.2.1
    ((h _ [] b!"a" ⟨rfl, rfl⟩ true 1 _).mpr ⟨5, _, _, rfl, rfl, rfl, rfl⟩)

/-- The order of the members of a choice matters if both read something: the first one is taken. -/
theorem C83_order_violated : ¬ Swappable exRt [] (.any [.lit b!"a", .lit b!"ab"]) (.any [.lit b!"ab", .lit b!"a"]) :=
  not_swappable (text := b!"ab") (H := Heap.empty) (n := 5) (m := 5) rfl rfl (.inr (by decide))

/-- Readers of one rune exclude each other. -/
theorem rune_excludes {rt : Rt} {G : Env} (hG : G.wrapless) {a b : Rune} (h : a ≠ b) : Excludes rt G (.rune a) (.rune b) := by
  rintro s h' t hbt p j ⟨n, e, s', h1, h2, _⟩
  cases n with
  | zero => cases h1
  | succ n =>
    have hw : ∀ c : Rune, (Reader.rune c).wrapless := fun c => .mk rfl fun c hc => by simp [Reader.subs] at hc
    refine ⟨s.full.length - t.length, s.heap.janus, (comes_iff hG (hw b) hbt).mpr ⟨t, List.suffix_refl _, rfl, 1, ?_⟩⟩
    obtain ⟨u, _, _, m, hx⟩ := (comes_iff hG (hw a) hbt).mp ⟨n + 1, e, s', h1, h2, rfl, rfl⟩
    cases m with
    | zero => cases hx
    | succ m =>
      simp only [eat, lift, eatOne] at hx ⊢
      split at hx
      · rename_i h3
        have e1 : (decodeRune t).1 = a := by simpa using h3
        simp only [e1]
        rw [if_neg (by simpa using h)]
      · rename_i h3
        cases hx

/-! ### an example -/

namespace Law

/-- A list of `x`, ended by `y`; each `x` is read twice by the first reader, and the whole list exponentially often. -/
def slow : Reader := .any [.seq [.rune 120, .rule 0], .seq [.rune 120, .rune 121]]
/-- The same with the common beginning drawn out. -/
def fast : Reader := .seq [.rune 120, .any [.rule 0, .rune 121]]

def env (r : Reader) : Env := [⟨b!"list", some r⟩]

theorem env_every {P : Reader → Prop} {r : Reader} (h : r.Every P) : (env r).Every P := fun rl hrl c hc => by
  rw [env, List.mem_singleton] at hrl
  subst hrl
  cases hc
  exact h

theorem slow_ok : slow.Every Reader.stateless := by
  refine .mk ⟨rfl, trivial⟩ fun c hc => ?_
  simp only [slow, Reader.subs, List.mem_cons, List.not_mem_nil, or_false] at hc
  rcases hc with rfl | rfl <;> refine .mk ⟨rfl, trivial⟩ fun c hc => ?_ <;>
    (simp only [Reader.subs, List.mem_cons, List.not_mem_nil, or_false] at hc
     rcases hc with rfl | rfl <;> exact .mk ⟨rfl, trivial⟩ fun c hc => by simp [Reader.subs] at hc)

theorem fast_ok : fast.Every Reader.stateless := by
  have leaf : ∀ c, c = Reader.rune 120 ∨ c = .rule 0 ∨ c = .rune 121 → c.Every Reader.stateless := by
    rintro c (rfl | rfl | rfl) <;> exact .mk ⟨rfl, trivial⟩ fun c hc => by simp [Reader.subs] at hc
  refine .mk ⟨rfl, trivial⟩ fun c hc => ?_
  simp only [fast, Reader.subs, List.mem_cons, List.not_mem_nil, or_false] at hc
  rcases hc with rfl | rfl
  · exact leaf _ (.inl rfl)
  · refine .mk ⟨rfl, trivial⟩ fun c hc => ?_
    simp only [Reader.subs, List.mem_cons, List.not_mem_nil, or_false] at hc
    exact leaf _ (.inr hc)

theorem same (rt : Rt) {r : Reader} (hr : r.Every Reader.stateless) (hk : r.keeps) : Swappable rt (env r) slow fast := by
  have hG := env_every hr
  have hw : (env r).wrapless := hG.imp fun _ h => h.1
  have hkG : ∀ rl ∈ env r, ∀ c, rl.reader = some c → c.keeps := fun rl hrl c hc => by
    rw [env, List.mem_singleton] at hrl
    subst hrl
    cases hc
    exact hk
  have leaf : ∀ c, c = Reader.rune 120 ∨ c = .rule 0 ∨ c = .rune 121 → c.Every Reader.stateless := by
    rintro c (rfl | rfl | rfl) <;> exact .mk ⟨rfl, trivial⟩ fun c hc => by simp [Reader.subs] at hc
  have bs : ∀ b ∈ [Reader.rule 0, .rune 121], b.Every Reader.stateless ∧ b.keeps := by
    intro b hb
    simp only [List.mem_cons, List.not_mem_nil, or_false] at hb
    exact ⟨leaf b (.inr hb), by rcases hb with rfl | rfl <;> trivial⟩
  exact C83_factor_partial (bs := [.rule 0, .rune 121]) hw ((leaf _ (.inl rfl)).imp fun _ h => h.1) (fun b hb => (bs b hb).1.imp fun _ h => h.1) (by simp)
    (C83_keepsJanus hG (leaf _ (.inl rfl)))
    fun b hb => ⟨C83_goesBack hw hkG ((bs b hb).1.imp fun _ h => h.1) (bs b hb).2, C83_keepsJanus hG (bs b hb).1⟩

/-- The slow rule may be exchanged for the fast one: the same comes of every reader. -/
theorem exchange (rt : Rt) (r : Reader) (hw : r.wrapless) (s : Scanner) (h t : Bytes) (hb : Between s h t) (ok : Bool) (p : Int) (j : Nat → Bytes) :
    Comes rt (env slow) r s ok p j ↔ Comes rt (env fast) r s ok p j := by
  refine C83_rules (env_every (slow_ok.imp fun _ h => h.1)) (env_every (fast_ok.imp fun _ h => h.1)) (fun i => ?_) r hw s h t hb ok p j
  cases i with
  | zero => exact .inl ⟨_, _, _, _, rfl, rfl, same rt slow_ok trivial, same rt fast_ok trivial⟩
  | succ i => exact .inr fun nm c => ⟨by simp [env], by simp [env]⟩

example : Comes exRt (env slow) (.rule 0) (.new b!"xxxy" Heap.empty) true 4 (fun _ => []) ∧ Comes exRt (env fast) (.rule 0) (.new b!"xxxy" Heap.empty) true 4 (fun _ => []) :=
  have h : Comes exRt (env fast) (.rule 0) (.new b!"xxxy" Heap.empty) true 4 (fun _ => []) := ⟨20, _, _, rfl, rfl, rfl, rfl⟩
  ⟨(exchange exRt (.rule 0) (.mk (r := .rule 0) rfl fun _ h => by simp [Reader.subs] at h) _ [] _ ⟨rfl, rfl⟩ _ _ _).mpr h, h⟩

/-- Deep inside another reader: parts may be exchanged there. -/
example : Swappable exRt (env slow) (.zom (.seq [.rune 40, slow, .rune 41])) (.zom (.seq [.rune 40, fast, .rune 41])) :=
  have leaf : ∀ k, (Reader.rune k).wrapless := fun k => .mk rfl fun c hc => by simp [Reader.subs] at hc
  have hs : slow.wrapless := slow_ok.imp fun _ h => h.1
  have hf : fast.wrapless := fast_ok.imp fun _ h => h.1
  C83_parts (env_every hs)
    (wrapless_one (f := Reader.zom) rfl rfl (wrapless_seq (wl_cons (leaf _) (wl_cons hs (wl_cons (leaf _) wl_nil)))))
    (wrapless_one (f := Reader.zom) rfl rfl (wrapless_seq (wl_cons (leaf _) (wl_cons hf (wl_cons (leaf _) wl_nil)))))
    (.zom (.seq (.cons (.refl _) (.cons (.here ⟨hs, hf, same exRt slow_ok trivial⟩) (.cons (.refl _) .nil)))))

end Law

/-- `a` or `b` or `c`, in any order. -/
example (rt : Rt) : Swappable rt [] (.any [.rune 97, .rune 98, .rune 99]) (.any [.rune 99, .rune 97, .rune 98]) := by
  have hG : Env.wrapless [] := fun _ h => by cases h
  have hr : ∀ r ∈ [Reader.rune 97, .rune 98, .rune 99], ∃ c, r = .rune c := by simp
  refine C83_any_order_partial hG (.trans (.cons _ (.swap _ _ _)) (.swap _ _ _)) (fun r hr' => ?_) (fun r hr' => ?_) fun a ha b hb => ?_
  · obtain ⟨c, rfl⟩ := hr r hr'
    exact .mk rfl fun c hc => by simp [Reader.subs] at hc
  · obtain ⟨c, rfl⟩ := hr r hr'
    exact ⟨C83_goesBack hG (fun _ h => by cases h) (.mk rfl fun c hc => by simp [Reader.subs] at hc) trivial,
      C83_keepsJanus (fun _ h => by cases h) (.mk ⟨rfl, trivial⟩ fun c hc => by simp [Reader.subs] at hc)⟩
  · obtain ⟨c, rfl⟩ := hr a ha
    obtain ⟨d, rfl⟩ := hr b hb
    by_cases h : c = d
    · exact .inl (by rw [h])
    · exact .inr (rune_excludes hG h)
/-- A comment up to its end, and one without an end. -/
example : Comes exRt [] (.zom (.not (.lit b!"*/"))) (.new b!"ab*/c" Heap.empty) true 2 (fun _ => []) ∧
    ∀ ok p j, ¬ Comes exRt [] (.zom (.not (.lit b!"*/"))) (.new b!"ab" Heap.empty) ok p j := by
  have hw : (Reader.lit b!"*/").wrapless := .mk rfl fun c hc => by simp [Reader.subs] at hc
  have hG : Env.wrapless [] := fun _ h => by cases h
  have hb : GoesBack exRt [] (.lit b!"*/") := C83_goesBack hG (fun _ h => by cases h) hw trivial
  have hk : KeepsJanus exRt [] (.lit b!"*/") := C83_keepsJanus (fun _ h => by cases h) (.mk ⟨rfl, trivial⟩ fun c hc => by simp [Reader.subs] at hc)
  refine ⟨⟨9, _, _, rfl, rfl, rfl, rfl⟩, fun ok p j h => ?_⟩
  obtain ⟨_, h⟩ := (C83_zom_not_partial hG hw hb hk (.new b!"ab" Heap.empty) [] b!"ab" ⟨rfl, rfl⟩ ok p j).mp h
  have := (comes_only (n := 9) (r := .to (.lit b!"*/")) (s := .new b!"ab" Heap.empty) rfl h).1
  cases this
/-- `Many` of a letter as one and then `Zom`, on a text of three. -/
example (rt : Rt) : Swappable rt [] (.many (.rune 97)) (.seq [.rune 97, .zom (.rune 97)]) :=
  have hw : (Reader.rune 97).wrapless := .mk rfl fun c hc => by simp [Reader.subs] at hc
  have hG : Env.wrapless [] := fun _ h => by cases h
  (C83_many_partial hG hw).2 (C83_goesBack hG (fun _ h => by cases h) hw trivial)
    (C83_getsOn (nul := fun _ => false) hG (fun i nm c h => by simp at h) hw (by decide))
example : Comes exRt [] (.many (.rune 97)) (.new b!"aaab" Heap.empty) true 3 (fun _ => []) := ⟨9, _, _, rfl, rfl, rfl, rfl⟩

end Tok
