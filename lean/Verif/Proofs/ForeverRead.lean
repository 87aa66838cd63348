/-
From the text ahead back to `Read`, for reads that go on for ever.
-/
import Verif.Proofs.Forever
import Verif.Proofs.LawEqs

namespace Tok
open Spec

section
variable {rt : Rt} {G : Env}

theorem outcome_iff (hG : G.Every (fun r => r.noWrap = true)) {r : Reader} (hr : r.Every (fun r => r.noWrap = true)) {st : St} {x : Bool × St} :
    Outcome rt G r st x ↔ E rt G r st x := by
  obtain ⟨ok, u, j⟩ := x
  have hb : Between (Scanner.new st.rest { Heap.empty with janus := st.jan }) [] st.rest := ⟨rfl, rfl⟩
  unfold Outcome
  rw [comes_iff hG hr hb]
  constructor
  · rintro ⟨h1, v, h2, h3, h4⟩
    have h1 : u <:+ st.rest := h1
    have h3 : (st.rest.length : Int) - u.length = st.rest.length - v.length := h3
    have : v = u := (List.suffix_of_suffix_length_le h2 h1 (by omega)).eq_of_length (by omega)
    exact this ▸ h4
  · intro h
    exact ⟨h.suffix', u, h.suffix', rfl, h⟩

/-! ### changing the outcome relation -/

variable {O O' : Reader → St → Bool × St → Prop}

theorem falls_mono {rs : List Reader} (h : ∀ c ∈ rs, ∀ st x, O c st x → O' c st x) {st st' : St} (hf : Falls O rs st st') : Falls O' rs st st' := by
  induction hf with
  | nil => exact .nil _
  | cons h1 _ ih => exact .cons (h _ List.mem_cons_self _ _ h1) (ih fun c hc => h c (List.mem_cons_of_mem _ hc))

theorem passes_mono {rs : List Reader} (h : ∀ c ∈ rs, ∀ st x, O c st x → O' c st x) {st st' : St} (hf : Passes O rs st st') : Passes O' rs st st' := by
  induction hf with
  | nil => exact .nil _
  | cons h1 _ ih => exact .cons (h _ List.mem_cons_self _ _ h1) (ih fun c hc => h c (List.mem_cons_of_mem _ hc))

theorem searches_mono {c : Reader} (h : ∀ st x, O c st x → O' c st x) {st st' : St} (hf : Searches O c st st') : Searches O' c st st' := by
  induction hf with
  | refl => exact .refl _
  | step hn h1 _ ih => exact .step hn (h _ _ h1) ih

theorem seeks_mono {c : Reader} (h : ∀ st x, O c st x → O' c st x) {st st' : St} (hf : Seeks O c st st') : Seeks O' c st st' := by
  induction hf with
  | refl => exact .refl _
  | step h1 hn _ ih => exact .step (h _ _ h1) hn ih

theorem mem_weave {sk c : Reader} {rs : List Reader} (h : c ∈ weave sk rs) : c ∈ (Reader.skipSeq sk rs).subs := by
  unfold weave at h
  simp only [List.mem_cons, List.mem_flatMap, List.not_mem_nil, or_false] at h
  simp only [Reader.subs, List.mem_cons]
  rcases h with h | ⟨a, h1, h2 | h2⟩
  · exact .inl h
  · exact .inr (h2 ▸ h1)
  · exact .inl h2

theorem calls_mono {r c : Reader} (h : ∀ c ∈ r.subs, ∀ st x, O c st x → O' c st x) {st st' : St} (hc : Calls G O r st c st') : Calls G O' r st c st' := by
  have rep : ∀ {i : Nat} {d : Reader}, d ∈ r.subs → ∀ c ∈ List.replicate i d, ∀ st x, O c st x → O' c st x := fun hd c hc => by
    rw [List.eq_of_mem_replicate hc]; exact h _ hd
  cases hc with
  | any hf => exact .any (falls_mono (fun c hc => h c (by simp [Reader.subs, hc])) hf)
  | bodySearch h1 h2 => exact .bodySearch (searches_mono (h _ (by simp [Reader.subs])) h1) h2
  | bodyFirst h1 h2 h3 => exact .bodyFirst (searches_mono (h _ (by simp [Reader.subs])) h1) h2 (h _ (by simp [Reader.subs]) _ _ h3)
  | bodyTailSearch h1 h2 => exact .bodyTailSearch (searches_mono (h _ (by simp [Reader.subs])) h1) h2
  | bodyTailFirst h1 h2 h3 => exact .bodyTailFirst (searches_mono (h _ (by simp [Reader.subs])) h1) h2 (h _ (by simp [Reader.subs]) _ _ h3)
  | many h1 => exact .many (passes_mono (rep (by simp [Reader.subs])) h1)
  | past h1 h2 => exact .past (searches_mono (h _ (by simp [Reader.subs])) h1) h2
  | seq hf => exact .seq (passes_mono (fun c hc => h c (by simp [Reader.subs, hc])) hf)
  | skipSeq hw hf => exact .skipSeq hw (passes_mono (fun c hc => h c (mem_weave (hw ▸ by simp [hc]))) hf)
  | times hi h1 => exact .times hi (passes_mono (rep (by simp [Reader.subs])) h1)
  | «to» h1 => exact .to (seeks_mono (h _ (by simp [Reader.subs])) h1)
  | zom h1 => exact .zom (passes_mono (rep (by simp [Reader.subs])) h1)
  | rule hi => exact .rule hi
  | at_ => exact .at_
  | janusBegin => exact .janusBegin
  | map => exact .map
  | named => exact .named
  | not => exact .not
  | opt => exact .opt
  | pick => exact .pick
  | monitor => exact .monitor
  | ruleName => exact .ruleName
  | grammar => exact .grammar

theorem repeats_mono {c : Reader} (h : ∀ st x, O c st x → O' c st x) {st : St} (hc : Repeats O c st) : Repeats O' c st := by
  obtain ⟨f, h0, h1⟩ := hc
  exact ⟨f, h0, fun i => ⟨h _ _ (h1 i).1, (h1 i).2⟩⟩

theorem stalls_mono {c : Reader} (h : ∀ st x, O c st x → O' c st x) {st : St} (hc : Stalls O c st) : Stalls O' c st := by
  obtain ⟨hn, f, g, h0, h1⟩ := hc
  exact ⟨hn, f, g, h0, fun i => ⟨h _ _ (h1 i).1, (h1 i).2⟩⟩

theorem spins_mono {r : Reader} (h : ∀ c ∈ r.subs, ∀ st x, O c st x → O' c st x) {st : St} (hc : Spins O r st) : Spins O' r st := by
  have rep : ∀ {i : Nat} {d : Reader}, d ∈ r.subs → ∀ c ∈ List.replicate i d, ∀ st x, O c st x → O' c st x := fun hd c hc => by
    rw [List.eq_of_mem_replicate hc]; exact h _ hd
  cases hc with
  | zom h1 h2 => exact .zom (passes_mono (rep (by simp [Reader.subs])) h1) (repeats_mono (h _ (by simp [Reader.subs])) h2)
  | many h1 h2 => exact .many (passes_mono (rep (by simp [Reader.subs])) h1) (repeats_mono (h _ (by simp [Reader.subs])) h2)
  | past h1 h2 => exact .past (searches_mono (h _ (by simp [Reader.subs])) h1) (stalls_mono (h _ (by simp [Reader.subs])) h2)
  | body h1 h2 => exact .body (searches_mono (h _ (by simp [Reader.subs])) h1) (stalls_mono (h _ (by simp [Reader.subs])) h2)
  | bodyTail h1 h2 => exact .bodyTail (searches_mono (h _ (by simp [Reader.subs])) h1) (stalls_mono (h _ (by simp [Reader.subs])) h2)

/-- What is called is a part or a rule. -/
theorem calls_sub {r c : Reader} {st st' : St} (h : Calls G O r st c st') : c ∈ r.subs ∨ ∃ i nm, r = .rule i ∧ G[i]? = some ⟨nm, some c⟩ := by
  cases h with
  | rule hi => exact .inr ⟨_, _, rfl, hi⟩
  | skipSeq hw _ => exact .inl (mem_weave (hw ▸ by simp))
  | _ => exact .inl (by simp [Reader.subs])

theorem calls_every {P : Reader → Prop} (hG : G.Every P) {r c : Reader} {st st' : St} (h : Calls G O r st c st') (hr : r.Every P) : c.Every P := by
  rcases calls_sub h with h | ⟨i, nm, rfl, hi⟩
  · exact hr.sub h
  · exact hG.get hi

theorem getsTo_every {P : Reader → Prop} (hG : G.Every P) {r c : Reader} {st st' : St} (h : GetsTo G O r st c st') (hr : r.Every P) : c.Every P := by
  induction h with
  | refl => exact hr
  | call h _ ih => exact ih (calls_every hG h hr)

theorem getsTo_mono {P : Reader → Prop} (hG : G.Every P) (hO : ∀ c : Reader, c.Every P → ∀ st x, O c st x → O' c st x) {r c : Reader} {st st' : St}
    (h : GetsTo G O r st c st') (hr : r.Every P) : GetsTo G O' r st c st' := by
  induction h with
  | refl => exact .refl _ _
  | call h _ ih => exact .call (calls_mono (fun c hc => hO c (hr.sub hc)) h) (ih (calls_every hG h hr))

theorem circles_mono {P : Reader → Prop} (hG : G.Every P) (hO : ∀ c : Reader, c.Every P → ∀ st x, O c st x → O' c st x) {r : Reader} {st : St}
    (h : Circles G O r st) (hr : r.Every P) : Circles G O' r st := by
  obtain ⟨f, g, rfl, rfl, h⟩ := h
  have all : ∀ i, (f i).Every P := by
    intro i
    induction i with
    | zero => exact hr
    | succ i ih => exact calls_every hG (h i).1 ih
  exact ⟨f, g, rfl, rfl, fun i => ⟨calls_mono (fun c hc => hO c ((all i).sub hc)) (h i).1, (h i).2⟩⟩

/-- The read does not end. -/
theorem noEnd_read (hG : G.Every (fun r => r.noWrap = true)) {r : Reader} (hr : r.Every (fun r => r.noWrap = true)) {s : Scanner} {h t : Bytes}
    (hb : Between s h t) : (∀ n, read rt G n r s = .timeout) ↔ NoEnd rt G r ⟨t, s.heap.janus⟩ :=
  forall_congr' fun n => (read_eat rt G hG n r hr s.full s _ (sees_between hb)).timeout_iff

theorem getsTo_outcome (hG : G.Every (fun r => r.noWrap = true)) {r : Reader} (hr : r.Every (fun r => r.noWrap = true)) {st st' : St} {c : Reader} :
    GetsTo G (Outcome rt G) r st c st' ↔ GetsTo G (E rt G) r st c st' :=
  ⟨fun h => getsTo_mono hG (fun _ hc _ _ h => (outcome_iff hG hc).mp h) h hr, fun h => getsTo_mono hG (fun _ hc _ _ h => (outcome_iff hG hc).mpr h) h hr⟩

theorem spins_outcome (hG : G.Every (fun r => r.noWrap = true)) {r : Reader} (hr : r.Every (fun r => r.noWrap = true)) {st : St} :
    Spins (Outcome rt G) r st ↔ Spins (E rt G) r st :=
  ⟨spins_mono fun _ hc _ _ h => (outcome_iff hG (hr.sub hc)).mp h, spins_mono fun _ hc _ _ h => (outcome_iff hG (hr.sub hc)).mpr h⟩

theorem circles_outcome (hG : G.Every (fun r => r.noWrap = true)) {r : Reader} (hr : r.Every (fun r => r.noWrap = true)) {st : St} :
    Circles G (Outcome rt G) r st ↔ Circles G (E rt G) r st :=
  ⟨fun h => circles_mono hG (fun _ hc _ _ h => (outcome_iff hG hc).mp h) h hr, fun h => circles_mono hG (fun _ hc _ _ h => (outcome_iff hG hc).mpr h) h hr⟩

/-! ### no circles without left recursion -/

theorem falls_left {nul : Nat → Bool} {pre post : List Reader} {c : Reader} {j : Nat} (h : j ∈ c.left nul) : j ∈ Reader.leftAny nul (pre ++ c :: post) := by
  induction pre with
  | nil => exact List.mem_append_left _ h
  | cons x pre ih => exact List.mem_append_right _ ih

theorem passes_left {nul : Nat → Bool} (hnul : ∀ (i : Nat) (nm : Bytes) (c : Reader), G[i]? = some ⟨nm, some c⟩ → c.null nul = true → nul i = true)
    {pre post : List Reader} {c : Reader} {st st' : St} (hp : Passes (E rt G) pre st st') (he : st'.rest.length = st.rest.length) {j : Nat}
    (h : j ∈ c.left nul) : j ∈ Reader.leftSeq nul (pre ++ c :: post) := by
  induction hp with
  | nil => exact List.mem_append_left _ h
  | @cons r rs st st1 st2 h1 h2 ih =>
    have l1 := h1.suffix'.length_le
    have l2 := h2.suffix.length_le
    simp only at l1
    refine List.mem_append_right _ ?_
    rcases hn : r.null nul with _ | _
    · obtain ⟨n, hx⟩ := h1
      have := eat_eats rt G hnul n r hn _ _ hx rfl
      simp only at this
      omega
    · rw [if_pos rfl]
      exact ih (by omega)

theorem leftSeq_weave {nul : Nat → Bool} {sk : Reader} {rs : List Reader} {j : Nat} (h : j ∈ Reader.leftSeq nul (weave sk rs)) : j ∈ (Reader.skipSeq sk rs).left nul := by
  have aux : ∀ rs : List Reader, sk.null nul = true → j ∈ Reader.leftSeq nul (rs.flatMap fun r => [r, sk]) → j ∈ Reader.leftSeq nul rs ∨ j ∈ sk.left nul := by
    intro rs hn
    induction rs with
    | nil => exact .inl
    | cons r rs ih =>
      intro h
      simp only [List.flatMap_cons, List.cons_append, List.nil_append, Reader.leftSeq, List.mem_append] at h ⊢
      rcases h with h | h
      · exact .inl (.inl h)
      · split at h
        · simp only [List.mem_append] at h
          rename_i hr
          rcases h with h | h
          · exact .inr h
          · rcases ih h with h | h
            · exact .inl (.inr (by rw [if_pos hr]; exact h))
            · exact .inr h
        · cases h
  simp only [weave, Reader.leftSeq, Reader.left, List.mem_append] at h ⊢
  rcases h with h | h
  · exact .inl h
  · split at h
    · rename_i hn
      rcases aux rs hn h with h | h
      · exact .inr (by rw [if_pos hn]; exact h)
      · exact .inl h
    · cases h

/-- A call at the same place of a part begins with no other rules. -/
theorem calls_left {nul : Nat → Bool} (hnul : ∀ (i : Nat) (nm : Bytes) (c : Reader), G[i]? = some ⟨nm, some c⟩ → c.null nul = true → nul i = true)
    {r c : Reader} {st st' : St} (h : Calls G (E rt G) r st c st') (he : st'.rest.length = st.rest.length) (hr : ∀ i, r ≠ .rule i) :
    ∀ j ∈ c.left nul, j ∈ r.left nul := by
  have take : ∀ {t s : St}, s.rest <:+ t.rest → s.rest ≠ [] → (t.rest.take (t.rest.length - s.rest.length)).length < t.rest.length := fun h hn => by
    have := h.length_le
    have := List.length_pos_iff.mpr hn
    rw [List.length_take]; omega
  intro j hj
  cases h with
  | any h => exact falls_left hj
  | bodyFirst h hs => exact absurd he (Nat.ne_of_lt (take h.suffix hs))
  | bodyTailFirst h hs => exact absurd he (Nat.ne_of_lt (take h.suffix hs))
  | seq h => exact passes_left hnul h he hj
  | skipSeq hw h => exact leftSeq_weave (hw ▸ passes_left hnul h he hj)
  | rule hi => exact absurd rfl (hr _)
  | _ => simpa only [Reader.left] using hj

theorem Reader.sizeOf_sub {r c : Reader} (h : c ∈ r.subs) : sizeOf c < sizeOf r := by
  cases r with
  | any rs =>
    have := List.sizeOf_lt_of_mem (show c ∈ rs from h)
    simp only [Reader.any.sizeOf_spec]; omega
  | seq rs =>
    have := List.sizeOf_lt_of_mem (show c ∈ rs from h)
    simp only [Reader.seq.sizeOf_spec]; omega
  | skipSeq sk rs =>
    rcases List.mem_cons.mp (show c ∈ sk :: rs from h) with rfl | h
    · simp only [Reader.skipSeq.sizeOf_spec]; omega
    · have := List.sizeOf_lt_of_mem h
      simp only [Reader.skipSeq.sizeOf_spec]; omega
  | _ =>
    simp only [Reader.subs, List.mem_cons, List.not_mem_nil, or_false] at h
    try rcases h with rfl | rfl
    all_goals first | subst h | skip
    all_goals simp <;> omega

theorem no_circles {nul : Nat → Bool} {rank : Nat → Nat}
    (hnul : ∀ (i : Nat) (nm : Bytes) (c : Reader), G[i]? = some ⟨nm, some c⟩ → c.null nul = true → nul i = true)
    (hrank : ∀ (i : Nat) (nm : Bytes) (c : Reader), G[i]? = some ⟨nm, some c⟩ → ∀ j ∈ c.left nul, rank j < rank i)
    {r : Reader} {st : St} : ¬ Circles G (E rt G) r st := by
  rintro ⟨f, g, rfl, rfl, h⟩
  obtain ⟨R, hR⟩ : ∃ R, ∀ j ∈ (f 0).left nul, rank j < R := by
    generalize (f 0).left nul = l
    induction l with
    | nil => exact ⟨0, by simp⟩
    | cons x l ih =>
      obtain ⟨R, hR⟩ := ih
      refine ⟨max R (rank x + 1), fun j hj => ?_⟩
      rcases List.mem_cons.mp hj with rfl | hj
      · omega
      · have := hR j hj; omega
  suffices ∀ (R N k : Nat), sizeOf (f k) ≤ N → (∀ j ∈ (f k).left nul, rank j < R) → False from this R _ 0 (Nat.le_refl _) hR
  intro R
  induction R using Nat.strongRecOn with
  | _ R ihR =>
  intro N
  induction N using Nat.strongRecOn with
  | _ N ihN =>
  intro k hN hk
  obtain ⟨h1, h2⟩ := h k
  have he : (g (k + 1)).rest.length = (g k).rest.length := by rw [h2, (h (k + 1)).2]
  rcases calls_sub h1 with hs | ⟨i, nm, hi, hc⟩
  · have hr : ∀ i, f k ≠ .rule i := fun i e => by rw [e] at hs; cases hs
    exact ihN (sizeOf (f (k + 1))) (Nat.lt_of_lt_of_le (Reader.sizeOf_sub hs) hN) (k + 1) (Nat.le_refl _) fun j hj => hk j (calls_left hnul h1 he hr j hj)
  · exact ihR (rank i) (hk i (by rw [hi]; simp [Reader.left])) _ (k + 1) (Nat.le_refl _) (hrank i nm _ hc)

/-! ### texts of characters -/

section
variable (hG : G.Every (Reader.whole true))
include hG

theorem E.moves {r : Reader} (hr : r.Every (Reader.whole true)) {st : St} (hg : Good st) {x : Bool × St} (h : E rt G r st x) : Moves st x.2 := by
  obtain ⟨n, h⟩ := h
  exact eat_tidy rt G hG n r hr st hg x h

theorem falls_moves {rs : List Reader} (hr : ∀ r ∈ rs, r.Every (Reader.whole true)) {st st' : St} (h : Falls (E rt G) rs st st') (hg : Good st) : Moves st st' := by
  induction h with
  | nil => exact .refl hg
  | cons h _ ih =>
    have h1 := h.moves hG (hr _ List.mem_cons_self) hg
    exact h1.trans (ih (fun r hr' => hr r (List.mem_cons_of_mem _ hr')) h1.1)

theorem passes_moves {rs : List Reader} (hr : ∀ r ∈ rs, r.Every (Reader.whole true)) {st st' : St} (h : Passes (E rt G) rs st st') (hg : Good st) : Moves st st' := by
  induction h with
  | nil => exact .refl hg
  | cons h _ ih =>
    have h1 := h.moves hG (hr _ List.mem_cons_self) hg
    exact h1.trans (ih (fun r hr' => hr r (List.mem_cons_of_mem _ hr')) h1.1)

theorem searches_moves {c : Reader} (hr : c.Every (Reader.whole true)) {st st' : St} (h : Searches (E rt G) c st st') (hg : Good st) : Moves st st' := by
  induction h with
  | refl => exact .refl hg
  | step _ h _ ih =>
    have h1 := (h.moves hG hr hg).step
    rw [onward_eq] at ih
    exact h1.trans (ih h1.1)

theorem seeks_moves {c : Reader} (hr : c.Every (Reader.whole true)) {st st' : St} (h : Seeks (E rt G) c st st') (hg : Good st) : Moves st st' := by
  induction h with
  | refl => exact .refl hg
  | step h _ _ ih =>
    have h1 := (h.moves hG hr hg).step
    rw [onward_eq] at ih
    exact h1.trans (ih h1.1)

theorem calls_good {r c : Reader} (hr : r.Every (Reader.whole true)) {st st' : St} (h : Calls G (E rt G) r st c st') (hg : Good st) : Good st' := by
  have rep : ∀ {i : Nat} {d : Reader}, d ∈ r.subs → ∀ c ∈ List.replicate i d, c.Every (Reader.whole true) := fun hd c hc => by
    rw [List.eq_of_mem_replicate hc]; exact hr.sub hd
  cases h with
  | any h => exact (falls_moves hG (fun c hc => hr.sub (by simp [Reader.subs, hc])) h hg).1
  | bodySearch h => exact (searches_moves hG (hr.sub (by simp [Reader.subs])) h hg).1
  | bodyFirst h _ h' =>
    have h1 := searches_moves hG (hr.sub (by simp [Reader.subs])) h hg
    exact ⟨h1.front, (h'.moves hG (hr.sub (by simp [Reader.subs])) h1.1).1.2⟩
  | bodyTailSearch h => exact (searches_moves hG (hr.sub (by simp [Reader.subs])) h hg).1
  | bodyTailFirst h _ h' =>
    have h1 := searches_moves hG (hr.sub (by simp [Reader.subs])) h hg
    exact ⟨h1.front, (h'.moves hG (hr.sub (by simp [Reader.subs])) h1.1).1.2⟩
  | many h => exact (passes_moves hG (rep (by simp [Reader.subs])) h hg).1
  | past h => exact (searches_moves hG (hr.sub (by simp [Reader.subs])) h hg).1
  | seq h => exact (passes_moves hG (fun c hc => hr.sub (by simp [Reader.subs, hc])) h hg).1
  | skipSeq hw h => exact (passes_moves hG (fun c hc => hr.sub (mem_weave (hw ▸ by simp [hc]))) h hg).1
  | times _ h => exact (passes_moves hG (rep (by simp [Reader.subs])) h hg).1
  | «to» h => exact (seeks_moves hG (hr.sub (by simp [Reader.subs])) h hg).1
  | zom h => exact (passes_moves hG (rep (by simp [Reader.subs])) h hg).1
  | _ => exact hg

theorem getsTo_good {r c : Reader} (hr : r.Every (Reader.whole true)) {st st' : St} (h : GetsTo G (E rt G) r st c st') (hg : Good st) : Good st' := by
  induction h with
  | refl => exact hg
  | call h _ ih => exact ih (calls_every hG h hr) (calls_good hG hr h hg)

theorem no_stalls {c : Reader} (hc : c.Every (Reader.whole true)) {st st' : St} (hs : Searches (E rt G) c st st') (hg : Good st) :
    ¬ Stalls (E rt G) c st' := by
  rintro ⟨hn, f, g, rfl, h⟩
  have h0 := (searches_moves hG hc hs hg).1
  obtain ⟨h1, h2, _⟩ := h 0
  have h3 := (h1.moves hG hc h0).1
  have h4 : (onward (g 0).rest).2 = (f 0).rest := by rw [← (h 1).2.2, h2]
  have h5 : (g 0).rest ≠ [] := fun e => by
    rw [e, onward_eq, eatStep_nil] at h4
    exact hn h4.symm
  have h6 : (eatStep (g 0).rest).2.length < (g 0).rest.length := h3.step_lt h5
  have h7 := h1.suffix'.length_le
  rw [← onward_eq, h4] at h6
  simp only at h7
  omega

end

end
end Tok
