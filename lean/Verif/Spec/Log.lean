/-
What a log should tell about a read.
-/
import Verif.Model.Reader

namespace Tok.Spec

/-- Log entries in call order: an entry of level `lv` is followed by those of the calls made during it, one level deeper,
and then by the next one.  `Q` holds of every entry and the entries of the calls made during it. -/
inductive Forest (Q : LogEntry → List LogEntry → Prop) : Int → List LogEntry → Prop
  | nil {lv} : Forest Q lv []
  | call {lv en inner rest} : en.level = lv → Q en inner → Forest Q (lv + 1) inner → Forest Q lv rest →
      Forest Q lv (en :: (inner ++ rest))

/-- The entry tells the truth: among the monitored readers `K` there is one with this info which, read at `enterAt` in the text `F` (or in a
part of it, for the first reader of `Body`), returns `err` and leaves the scanner at `exitAt`. -/
def Told (rt : Rt) (G : Env) (K : Bytes → Reader → Prop) (F : Bytes) (en : LogEntry) : Prop :=
  ∃ c, K en.info c ∧ ∃ n s s', read rt G n c s = .ret (en.err, s') ∧ s.full <:+: F ∧ s.pos = en.enterAt ∧ s'.pos = en.exitAt

/-- The exit was not recorded. -/
def Lost (en : LogEntry) : Prop := en.exitAt = 0 ∧ en.err = none

theorem Forest.append {Q : LogEntry → List LogEntry → Prop} {lv : Int} {a b : List LogEntry} (ha : Forest Q lv a) (hb : Forest Q lv b) : Forest Q lv (a ++ b) := by
  induction ha with
  | nil => exact hb
  | call h1 hq h2 _ _ ih =>
    rw [List.cons_append, List.append_assoc]
    exact .call h1 hq h2 (ih hb)

theorem Forest.all {Q : LogEntry → List LogEntry → Prop} {P : LogEntry → Prop} (h : ∀ en inner, Q en inner → P en) {lv : Int}
    {a : List LogEntry} (ha : Forest Q lv a) : ∀ en ∈ a, P en := by
  induction ha with
  | nil => simp
  | call _ hq _ _ ih1 ih2 =>
    intro en hen
    rcases List.mem_cons.mp hen with rfl | hen
    · exact h _ _ hq
    · exact (List.mem_append.mp hen).elim (ih1 en) (ih2 en)

theorem Forest.imp {Q Q' : LogEntry → List LogEntry → Prop} (h : ∀ en inner, Q en inner → Q' en inner) {lv : Int}
    {a : List LogEntry} (ha : Forest Q lv a) : Forest Q' lv a := by
  induction ha with
  | nil => exact .nil
  | call h1 hq _ _ ih1 ih2 => exact .call h1 (h _ _ hq) ih1 ih2

theorem Forest.with {Q : LogEntry → List LogEntry → Prop} {P : LogEntry → Prop} {lv : Int}
    {a : List LogEntry} (ha : Forest Q lv a) : (∀ en ∈ a, P en) → Forest (fun en inner => Q en inner ∧ P en) lv a := by
  induction ha with
  | nil => exact fun _ => .nil
  | call h1 hq _ _ ih1 ih2 =>
    exact fun h => .call h1 ⟨hq, h _ List.mem_cons_self⟩ (ih1 fun en hen => h en (by simp [hen])) (ih2 fun en hen => h en (by simp [hen]))

end Tok.Spec
