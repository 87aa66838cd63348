/-
The trace of a read with fewer monitored readers.
-/
import Verif.Spec.Watch
import Verif.Props.C43
import Verif.Props.C87

namespace Tok
open Spec

theorem Visits.lines_append (v w : Visits) (n : Int) : (v.append w).lines n = v.lines n ++ w.lines n := by
  induction v with
  | none => rfl
  | call i p inner rest _ ih => simp [Visits.append, Visits.lines, ih]

theorem Visits.append_none (v : Visits) : v.append .none = v := by
  induction v with
  | none => rfl
  | call i p inner rest _ ih => simp [Visits.append, ih]

theorem Visits.append_assoc (u v w : Visits) : (u.append v).append w = u.append (v.append w) := by
  induction u with
  | none => rfl
  | call i p inner rest _ ih => simp [Visits.append, ih]

theorem Visits.keep_append (k : Bytes → Bool) (v w : Visits) : (v.append w).keep k = (v.keep k).append (w.keep k) := by
  induction v with
  | none => rfl
  | call i p inner rest _ ih =>
    simp only [Visits.append, Visits.keep, ih]
    split
    · rfl
    · rw [Visits.append_assoc]

/-- The lines are at the level or deeper. -/
theorem Visits.lines_level (v : Visits) : ∀ (n : Int), ∀ x ∈ v.lines n, n + 1 ≤ x.1 := by
  induction v with
  | none => simp [Visits.lines]
  | call i p inner rest ih1 ih2 =>
    intro n x hx
    simp only [Visits.lines, List.mem_cons, List.mem_append] at hx
    rcases hx with rfl | hx | hx
    · exact Int.le_refl _
    · have := ih1 _ x hx; omega
    · exact ih2 _ x hx

/-- A row ends where a line of its level, or nothing, follows. -/
theorem split_lines {n : Int} : ∀ {a a' b b' : List (Int × Bytes × Int)}, (∀ x ∈ a, n < x.1) → (∀ x ∈ a', n < x.1) →
    (∀ x ∈ b.head?, x.1 ≤ n) → (∀ x ∈ b'.head?, x.1 ≤ n) → a ++ b = a' ++ b' → a = a' ∧ b = b'
  | [], [], _, _, _, _, _, _, h => ⟨rfl, h⟩
  | [], x :: a', b, b', _, h1, h2, _, h => by
    have : b = x :: (a' ++ b') := h
    subst this
    have := h2 x (by simp)
    have := h1 x (by simp)
    omega
  | x :: a, [], b, b', h1, _, _, h2, h => by
    have : x :: (a ++ b) = b' := h
    subst this
    have := h2 x (by simp)
    have := h1 x (by simp)
    omega
  | x :: a, y :: a', b, b', h1, h2, h3, h4, h => by
    simp only [List.cons_append, List.cons.injEq] at h
    obtain ⟨rfl, h⟩ := h
    obtain ⟨rfl, rfl⟩ := split_lines (fun x hx => h1 x (List.mem_cons_of_mem _ hx)) (fun x hx => h2 x (List.mem_cons_of_mem _ hx)) h3 h4 h
    exact ⟨rfl, rfl⟩

theorem Visits.lines_head (v : Visits) (n : Int) : ∀ x ∈ (v.lines n).head?, x.1 ≤ n + 1 := by
  cases v with
  | none => simp [Visits.lines]
  | call i p inner rest => simp [Visits.lines]

/-- The lines tell the calls. -/
theorem Visits.lines_inj {n : Int} : ∀ {v w : Visits}, v.lines n = w.lines n → v = w := by
  intro v
  induction v generalizing n with
  | none =>
    intro w h
    cases w with
    | none => rfl
    | call => simp [Visits.lines] at h
  | call i p inner rest ih1 ih2 =>
    intro w h
    cases w with
    | none => simp [Visits.lines] at h
    | call j q inner' rest' =>
      simp only [Visits.lines, List.cons.injEq, Prod.mk.injEq] at h
      obtain ⟨⟨_, rfl, rfl⟩, h⟩ := h
      obtain ⟨h1, h2⟩ := split_lines (n := n + 1) (fun x hx => by have := Visits.lines_level inner _ x hx; omega)
        (fun x hx => by have := Visits.lines_level inner' _ x hx; omega) (Visits.lines_head _ _) (Visits.lines_head _ _) h
      rw [ih1 h1, ih2 h2]

/-- The events show calls, and the second events those of them whose names are in `k`; the other logs hear the same. -/
def Thin (l : Nat) (k : Bytes → Bool) (es es' : List Event) : Prop :=
  ∃ F : Visits, (∀ v, es.foldl (Event.note l) v = (v.1, v.2 ++ F.lines v.1)) ∧ (∀ v, es'.foldl (Event.note l) v = (v.1, v.2 ++ (F.keep k).lines v.1)) ∧
    ∀ j, j ≠ l → ∀ v, es.foldl (Event.note j) v = es'.foldl (Event.note j) v

section
variable {l : Nat} {k : Bytes → Bool}

theorem Thin.nil : Thin l k [] [] := ⟨.none, by simp [Visits.lines], by simp [Visits.lines, Visits.keep], fun _ _ _ => rfl⟩

theorem Thin.append {es es' fs fs' : List Event} (h : Thin l k es es') (h' : Thin l k fs fs') : Thin l k (es ++ fs) (es' ++ fs') := by
  obtain ⟨F, h1, h2, h3⟩ := h
  obtain ⟨F', h4, h5, h6⟩ := h'
  refine ⟨F.append F', fun v => ?_, fun v => ?_, fun j hj v => ?_⟩
  · rw [List.foldl_append, h1, h4, Visits.lines_append, List.append_assoc]
  · rw [List.foldl_append, h2, h5, Visits.keep_append, Visits.lines_append, List.append_assoc]
  · rw [List.foldl_append, List.foldl_append, h3 j hj, h6 j hj]

theorem Thin.deaf {e : Event} (h : ∀ j v, Event.note j v e = v) : Thin l k [e] [e] :=
  ⟨.none, fun v => by simp [h, Visits.lines], fun v => by simp [h, Visits.lines, Visits.keep], fun _ _ _ => rfl⟩

theorem Thin.stores (r : Reader) (t : Bytes) : Thin l k (stores r t) (stores r t) := by
  rcases stores_shape r t with h | ⟨i, v, h⟩
  · rw [h]; exact .nil
  · rw [h]; exact .deaf fun _ _ => rfl

theorem note_around (j i : Nat) (info : Bytes) (p q : Int) (ok : Bool) (es : List Event) (v : Int × List (Int × Bytes × Int)) :
    (Event.enter i info p :: (es ++ [Event.leave i ok q])).foldl (Event.note j) v =
      if i = j then (fun w : Int × List (Int × Bytes × Int) => (w.1 - 1, w.2)) (es.foldl (Event.note j) (v.1 + 1, v.2 ++ [(v.1 + 1, info, p)])) else es.foldl (Event.note j) v := by
  rw [List.foldl_cons, List.foldl_append]
  simp only [List.foldl_cons, List.foldl_nil, Event.note]
  split <;> rfl

theorem Thin.same {es es' : List Event} (i : Nat) (info : Bytes) (p q : Int) (ok : Bool) (hk : i ≠ l ∨ k info = true) (h : Thin l k es es') :
    Thin l k (.enter i info p :: (es ++ [.leave i ok q])) (.enter i info p :: (es' ++ [.leave i ok q])) := by
  obtain ⟨F, h1, h2, h3⟩ := h
  have others : ∀ j, j ≠ l → ∀ v, (Event.enter i info p :: (es ++ [Event.leave i ok q])).foldl (Event.note j) v =
      (Event.enter i info p :: (es' ++ [Event.leave i ok q])).foldl (Event.note j) v := fun j hj v => by
    rw [note_around, note_around, h3 j hj, h3 j hj]
  by_cases hi : i = l
  · subst hi
    have hk : k info = true := hk.resolve_left (fun h => h rfl)
    refine ⟨.call info p F .none, fun v => ?_, fun v => ?_, others⟩
    · rw [note_around, if_pos rfl, h1]
      simp [Visits.lines]
    · rw [note_around, if_pos rfl, h2]
      simp [Visits.lines, Visits.keep, hk]
  · refine ⟨F, fun v => ?_, fun v => ?_, others⟩
    · rw [note_around, if_neg hi, h1]
    · rw [note_around, if_neg hi, h2]

theorem Thin.gone {es es' : List Event} (info : Bytes) (p q : Int) (ok : Bool) (hk : k info = false) (h : Thin l k es es') :
    Thin l k (.enter l info p :: (es ++ [.leave l ok q])) es' := by
  obtain ⟨F, h1, h2, h3⟩ := h
  refine ⟨.call info p F .none, fun v => ?_, fun v => ?_, fun j hj v => ?_⟩
  · rw [note_around, if_pos rfl, h1]
    simp [Visits.lines]
  · rw [h2]
    simp [Visits.keep, hk, Visits.append_none]
  · rw [note_around, if_neg (Ne.symm hj), h3 j hj]

/-- The same for a task. -/
def _root_.Tok.Spec.Task.unwatch (l : Nat) (k : Bytes → Bool) : Task → Task
  | .read r => .read (Reader.unwatch l k r)
  | .hunt t => .hunt (Reader.unwatch l k t)

theorem unwatch_leaf {r : Reader} (h : r.leaf = true) : Reader.unwatch l k r = r := by
  cases r <;> first | (simp [Reader.leaf] at h; done) | simp [Reader.unwatch]

set_option linter.unusedSimpArgs false in
/-- The rules lead to the same place without some `Monitor`s, and the events differ by these only. -/
theorem trace_unwatch {G : Env} {O : Reader → St → Bool × St → Prop} {L : Nat} {task : Task} {st : St} {x : Bool × St} {es : List Event}
    (h : Trace G O L task st x es) : ∃ es', Trace (Env.unwatch l k G) O L (task.unwatch l k) st x es' ∧ Thin l k es es' := by
  induction h with
  | leaf h1 h2 => exact ⟨_, by simp only [Task.unwatch, unwatch_leaf h1]; exact .leaf h1 h2, .stores _ _⟩
  | anyNil => exact ⟨_, by simp only [Task.unwatch, Reader.unwatch, Reader.unwatches]; exact .anyNil, .nil⟩
  | monitor _ ih =>
    obtain ⟨a, h1, t1⟩ := ih
    simp only [Task.unwatch, Reader.unwatch] at h1 ⊢
    split
    next hc => obtain ⟨rfl, hk⟩ := hc; exact ⟨_, h1, t1.gone _ _ _ _ hk⟩
    next hc =>
      refine ⟨_, .monitor h1, t1.same _ _ _ _ _ ?_⟩
      rcases Decidable.not_and_iff_or_not.mp hc with hj | hk
      · exact .inl hj
      · exact .inr (by simpa using hk)
  | anyHere _ ih =>
    obtain ⟨a, h1, t1⟩ := ih
    simp only [Task.unwatch, Reader.unwatch, Reader.unwatches] at h1 ⊢
    exact ⟨_, .anyHere h1, t1⟩
  | at_ _ ih =>
    obtain ⟨a, h1, t1⟩ := ih
    simp only [Task.unwatch, Reader.unwatch, Reader.unwatches] at h1 ⊢
    exact ⟨_, .at_ h1, t1⟩
  | notHere _ ih =>
    obtain ⟨a, h1, t1⟩ := ih
    simp only [Task.unwatch, Reader.unwatch, Reader.unwatches] at h1 ⊢
    exact ⟨_, .notHere h1, t1⟩
  | notFail _ ih =>
    obtain ⟨a, h1, t1⟩ := ih
    simp only [Task.unwatch, Reader.unwatch, Reader.unwatches] at h1 ⊢
    exact ⟨_, .notFail h1, t1⟩
  | opt _ ih =>
    obtain ⟨a, h1, t1⟩ := ih
    simp only [Task.unwatch, Reader.unwatch, Reader.unwatches] at h1 ⊢
    exact ⟨_, .opt h1, t1⟩
  | zomNil _ ih =>
    obtain ⟨a, h1, t1⟩ := ih
    simp only [Task.unwatch, Reader.unwatch, Reader.unwatches] at h1 ⊢
    exact ⟨_, .zomNil h1, t1⟩
  | many _ ih =>
    obtain ⟨a, h1, t1⟩ := ih
    simp only [Task.unwatch, Reader.unwatch, Reader.unwatches] at h1 ⊢
    exact ⟨_, .many h1, t1⟩
  | seqFail _ ih =>
    obtain ⟨a, h1, t1⟩ := ih
    simp only [Task.unwatch, Reader.unwatch, Reader.unwatches] at h1 ⊢
    exact ⟨_, .seqFail h1, t1⟩
  | skipFail _ ih =>
    obtain ⟨a, h1, t1⟩ := ih
    simp only [Task.unwatch, Reader.unwatch, Reader.unwatches] at h1 ⊢
    exact ⟨_, .skipFail h1, t1⟩
  | skipNil _ ih =>
    obtain ⟨a, h1, t1⟩ := ih
    simp only [Task.unwatch, Reader.unwatch, Reader.unwatches] at h1 ⊢
    exact ⟨_, .skipNil h1, t1⟩
  | toHere _ ih =>
    obtain ⟨a, h1, t1⟩ := ih
    simp only [Task.unwatch, Reader.unwatch, Reader.unwatches] at h1 ⊢
    exact ⟨_, .toHere h1, t1⟩
  | janusBegin _ ih =>
    obtain ⟨a, h1, t1⟩ := ih
    simp only [Task.unwatch, Reader.unwatch, Reader.unwatches] at h1 ⊢
    exact ⟨_, .janusBegin h1, t1⟩
  | janusFail _ ih =>
    obtain ⟨a, h1, t1⟩ := ih
    simp only [Task.unwatch, Reader.unwatch, Reader.unwatches] at h1 ⊢
    exact ⟨_, .janusFail h1, t1⟩
  | mapFail _ ih =>
    obtain ⟨a, h1, t1⟩ := ih
    simp only [Task.unwatch, Reader.unwatch, Reader.unwatches] at h1 ⊢
    exact ⟨_, .mapFail h1, t1⟩
  | pickFail _ ih =>
    obtain ⟨a, h1, t1⟩ := ih
    simp only [Task.unwatch, Reader.unwatch, Reader.unwatches] at h1 ⊢
    exact ⟨_, .pickFail h1, t1⟩
  | named _ ih =>
    obtain ⟨a, h1, t1⟩ := ih
    simp only [Task.unwatch, Reader.unwatch, Reader.unwatches] at h1 ⊢
    exact ⟨_, .named h1, t1⟩
  | ruleName _ ih =>
    obtain ⟨a, h1, t1⟩ := ih
    simp only [Task.unwatch, Reader.unwatch, Reader.unwatches] at h1 ⊢
    exact ⟨_, .ruleName h1, t1⟩
  | grammar _ ih =>
    obtain ⟨a, h1, t1⟩ := ih
    simp only [Task.unwatch, Reader.unwatch, Reader.unwatches] at h1 ⊢
    exact ⟨_, .grammar h1, t1⟩
  | anyNext _ _ ih ih' =>
    obtain ⟨a, h1, t1⟩ := ih
    obtain ⟨b, h2, t2⟩ := ih'
    simp only [Task.unwatch, Reader.unwatch, Reader.unwatches] at h1 h2 ⊢
    exact ⟨_, .anyNext h1 h2, t1.append t2⟩
  | zomCons _ _ ih ih' =>
    obtain ⟨a, h1, t1⟩ := ih
    obtain ⟨b, h2, t2⟩ := ih'
    simp only [Task.unwatch, Reader.unwatch, Reader.unwatches] at h1 h2 ⊢
    exact ⟨_, .zomCons h1 h2, t1.append t2⟩
  | seqCons _ _ ih ih' =>
    obtain ⟨a, h1, t1⟩ := ih
    obtain ⟨b, h2, t2⟩ := ih'
    simp only [Task.unwatch, Reader.unwatch, Reader.unwatches] at h1 h2 ⊢
    exact ⟨_, .seqCons h1 h2, t1.append t2⟩
  | skipStop _ _ ih ih' =>
    obtain ⟨a, h1, t1⟩ := ih
    obtain ⟨b, h2, t2⟩ := ih'
    simp only [Task.unwatch, Reader.unwatch, Reader.unwatches] at h1 h2 ⊢
    exact ⟨_, .skipStop h1 h2, t1.append t2⟩
  | skipCons _ _ _ ih ih' ih'' =>
    obtain ⟨a, h1, t1⟩ := ih
    obtain ⟨b, h2, t2⟩ := ih'
    obtain ⟨c, h3, t3⟩ := ih''
    simp only [Task.unwatch, Reader.unwatch, Reader.unwatches] at h1 h2 h3 ⊢
    exact ⟨_, .skipCons h1 h2 h3, t1.append (t2.append t3)⟩
  | timesFail h _ ih =>
    obtain ⟨a, h1, t1⟩ := ih
    simp only [Task.unwatch, Reader.unwatch, Reader.unwatches] at h1 ⊢
    exact ⟨_, .timesFail h h1, t1⟩
  | timesCons h _ _ ih ih' =>
    obtain ⟨a, h1, t1⟩ := ih
    obtain ⟨b, h2, t2⟩ := ih'
    simp only [Task.unwatch, Reader.unwatch, Reader.unwatches] at h1 h2 ⊢
    exact ⟨_, .timesCons h h1 h2, t1.append t2⟩
  | pastHere h _ ih =>
    obtain ⟨a, h1, t1⟩ := ih
    simp only [Task.unwatch, Reader.unwatch, Reader.unwatches] at h1 ⊢
    exact ⟨_, .pastHere h h1, t1⟩
  | pastNext h _ _ ih ih' =>
    obtain ⟨a, h1, t1⟩ := ih
    obtain ⟨b, h2, t2⟩ := ih'
    simp only [Task.unwatch, Reader.unwatch, Reader.unwatches] at h1 h2 ⊢
    exact ⟨_, .pastNext h h1 h2, t1.append t2⟩
  | toEnd _ h ih =>
    obtain ⟨a, h1, t1⟩ := ih
    simp only [Task.unwatch, Reader.unwatch, Reader.unwatches] at h1 ⊢
    exact ⟨_, .toEnd h1 h, t1⟩
  | toNext _ h _ ih ih' =>
    obtain ⟨a, h1, t1⟩ := ih
    obtain ⟨b, h2, t2⟩ := ih'
    simp only [Task.unwatch, Reader.unwatch, Reader.unwatches] at h1 h2 ⊢
    exact ⟨_, .toNext h1 h h2, t1.append t2⟩
  | huntCons h _ _ ih ih' =>
    obtain ⟨a, h1, t1⟩ := ih
    obtain ⟨b, h2, t2⟩ := ih'
    simp only [Task.unwatch, Reader.unwatch, Reader.unwatches] at h1 h2 ⊢
    exact ⟨_, .huntCons h h1 h2, t1.append t2⟩
  | bodyEnd _ h ih =>
    obtain ⟨a, h1, t1⟩ := ih
    simp only [Task.unwatch, Reader.unwatch, Reader.unwatches] at h1 ⊢
    exact ⟨_, .bodyEnd h1 h, t1⟩
  | tailEnd _ h ih =>
    obtain ⟨a, h1, t1⟩ := ih
    simp only [Task.unwatch, Reader.unwatch, Reader.unwatches] at h1 ⊢
    exact ⟨_, .tailEnd h1 h, t1⟩
  | body _ h _ _ ih ih' ih'' =>
    obtain ⟨a, h1, t1⟩ := ih
    obtain ⟨b, h2, t2⟩ := ih'
    obtain ⟨c, h3, t3⟩ := ih''
    simp only [Task.unwatch, Reader.unwatch, Reader.unwatches] at h1 h2 h3 ⊢
    exact ⟨_, .body h1 h h2 h3, t1.append (t2.append t3)⟩
  | bodyTail _ h _ _ ih ih' ih'' =>
    obtain ⟨a, h1, t1⟩ := ih
    obtain ⟨b, h2, t2⟩ := ih'
    obtain ⟨c, h3, t3⟩ := ih''
    simp only [Task.unwatch, Reader.unwatch, Reader.unwatches] at h1 h2 h3 ⊢
    exact ⟨_, .bodyTail h1 h h2 h3, t1.append (t2.append t3)⟩
  | map _ ih =>
    obtain ⟨a, h1, t1⟩ := ih
    simp only [Task.unwatch, Reader.unwatch, Reader.unwatches] at h1 ⊢
    exact ⟨_, .map h1, t1.append (.deaf fun _ _ => rfl)⟩
  | pick _ ih =>
    obtain ⟨a, h1, t1⟩ := ih
    simp only [Task.unwatch, Reader.unwatch, Reader.unwatches] at h1 ⊢
    exact ⟨_, .pick h1, t1.append (.deaf fun _ _ => rfl)⟩
  | timesNil h => exact ⟨_, by simp only [Task.unwatch, Reader.unwatch, Reader.unwatches]; exact .timesNil h, .nil⟩
  | seqNil  => exact ⟨_, by simp only [Task.unwatch, Reader.unwatch, Reader.unwatches]; exact .seqNil , .nil⟩
  | pastEnd h => exact ⟨_, by simp only [Task.unwatch, Reader.unwatch, Reader.unwatches]; exact .pastEnd h, .nil⟩
  | huntNil  => exact ⟨_, by simp only [Task.unwatch, Reader.unwatch, Reader.unwatches]; exact .huntNil , .nil⟩
  | @rule _ _ nm _ _ _ _ hi _ ih =>
    obtain ⟨a, h1, t1⟩ := ih
    simp only [Task.unwatch, Reader.unwatch] at h1 ⊢
    exact ⟨_, .rule (nm := nm) (by simp [Env.unwatch, hi]) h1, t1⟩

end

end Tok
