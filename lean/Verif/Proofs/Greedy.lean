/-
Functions that take the longest beginning of a text that is in a language.
-/
import Verif.Proofs.Does
import Verif.Spec.LuaLex
import Mathlib.Data.List.TakeWhile

namespace Tok
open Spec

/-- The function goes over the longest beginning that is in the language, and fails if there is none. -/
structure Greedy (f : Bytes → Option Bytes) (L : Bytes → Prop) : Prop where
  some : ∀ {t u}, f t = some u → ∃ x, t = x ++ u ∧ Longest L t x
  none : ∀ {t}, f t = none → ∀ x, x <+: t → ¬ L x

theorem longest_unique {L : Bytes → Prop} {t x y : Bytes} (hx : Longest L t x) (hy : Longest L t y) : x = y := by
  have h1 := hx.2.2 y hy.1 hy.2.1
  have h2 := hy.2.2 x hx.1 hx.2.1
  exact (List.prefix_of_prefix_length_le hx.1 hy.1 h2).eq_of_length_le h1

theorem Greedy.iff {f : Bytes → Option Bytes} {L : Bytes → Prop} (h : Greedy f L) {t x u : Bytes} (ht : t = x ++ u) : f t = Option.some u ↔ Longest L t x := by
  constructor
  · intro hf
    obtain ⟨y, h1, h2⟩ := h.some hf
    have : x = y := List.append_cancel_right (ht.symm.trans h1)
    rw [this]; exact h2
  · intro hl
    cases hf : f t with
    | none => exact absurd hl.2.1 (h.none hf x hl.1)
    | some v =>
      obtain ⟨y, h1, h2⟩ := h.some hf
      have : x = y := longest_unique hl h2
      subst this
      rw [List.append_cancel_left (h1.symm.trans ht)]

theorem Greedy.none_iff {f : Bytes → Option Bytes} {L : Bytes → Prop} (h : Greedy f L) {t : Bytes} : f t = Option.none ↔ ∀ x, x <+: t → ¬ L x := by
  constructor
  · exact h.none
  · intro hn
    cases hf : f t with
    | none => rfl
    | some v =>
      obtain ⟨y, h1, h2⟩ := h.some hf
      exact absurd h2.2.1 (hn y h2.1)

theorem Greedy.congr {f : Bytes → Option Bytes} {L M : Bytes → Prop} (h : Greedy f L) (e : ∀ x, L x ↔ M x) : Greedy f M := by
  have : L = M := funext fun x => propext (e x)
  rw [← this]; exact h

/-- One byte. -/
theorem greedy_one {p : UInt8 → Bool} {D : UInt8 → Prop} (h : ∀ b, p b = true ↔ D b) : Greedy (oneB p) (fun x => ∃ b, x = [b] ∧ D b) where
  some {t u} hf := by
    cases t with
    | nil => cases hf
    | cons b t =>
      simp only [oneB] at hf
      split at hf
      · next hp =>
        cases hf
        exact ⟨[b], rfl, ⟨u, rfl⟩, ⟨b, rfl, (h b).mp hp⟩, fun y _ ⟨c, hc, _⟩ => by rw [hc]; exact Nat.le_refl _⟩
      · cases hf
  none {t} hf x hx := by
    rintro ⟨b, rfl, hb⟩
    obtain ⟨z, rfl⟩ := hx
    simp [oneB, (h b).mpr hb] at hf

/-- A run of bytes. -/
theorem greedy_many {p : UInt8 → Bool} {D : UInt8 → Prop} (h : ∀ b, p b = true ↔ D b) : Greedy (manyB p) (Digits D) where
  some {t u} hf := by
    cases t with
    | nil => cases hf
    | cons b t =>
      simp only [manyB, oneB] at hf
      split at hf
      · next hp =>
        simp only [Option.map_some, Option.some.injEq] at hf
        subst hf
        refine ⟨b :: t.takeWhile p, by simp [List.takeWhile_append_dropWhile], ?_, ⟨by simp, ?_⟩, ?_⟩
        · exact ⟨t.dropWhile p, by simp [List.takeWhile_append_dropWhile]⟩
        · intro c hc
          rcases List.mem_cons.mp hc with rfl | hc
          · exact (h _).mp hp
          · exact (h _).mp (List.mem_takeWhile_imp hc)
        · rintro y ⟨z, hz⟩ ⟨_, hy⟩
          have hb : (b :: t).takeWhile p = b :: t.takeWhile p := by simp [hp]
          rw [← hb, ← hz, List.takeWhile_append_of_pos fun c hc => (h c).mpr (hy c hc)]
          simp
      · cases hf
  none {t} hf x hx := by
    rintro ⟨h1, h2⟩
    obtain ⟨z, rfl⟩ := hx
    cases x with
    | nil => exact h1 rfl
    | cons b x => simp [manyB, oneB, (h b).mpr (h2 b List.mem_cons_self)] at hf

/-- Nothing that is in `M` can begin inside of the longest beginning. -/
def NoCut (L M : Bytes → Prop) : Prop := (∀ a d z, L a → L (a ++ d :: z) → ∀ w, ¬ M (d :: w)) ∧ ¬ M []

theorem prefix_split {a a' b t : Bytes} (h1 : a <+: t) (h2 : a' ++ b <+: t) (hl : a'.length < a.length) :
    ∃ d z, a = a' ++ d :: z ∧ (b = [] ∨ ∃ w, b = d :: w) := by
  have h3 : a' <+: t := (List.prefix_append a' b).trans h2
  obtain ⟨z, hz⟩ := List.prefix_of_prefix_length_le h3 h1 (by omega)
  cases z with
  | nil => simp only [List.append_nil] at hz; rw [hz] at hl; omega
  | cons d z =>
    refine ⟨d, z, hz.symm, ?_⟩
    cases b with
    | nil => exact .inl rfl
    | cons e w =>
      obtain ⟨u, hu⟩ := h1
      obtain ⟨v, hv⟩ := h2
      rw [← hz] at hu
      have := hu.trans hv.symm
      simp only [List.append_assoc, List.cons_append, List.append_cancel_left_eq, List.cons.injEq] at this
      exact .inr ⟨w, by rw [this.1]⟩

theorem prefix_append_left {a b u : Bytes} : a ++ b <+: a ++ u ↔ b <+: u := List.prefix_append_right_inj a

/-- One after the other. -/
theorem greedy_seq {f g : Bytes → Option Bytes} {L M : Bytes → Prop} (hf : Greedy f L) (hg : Greedy g M) (hc : NoCut L M) :
    Greedy (fun t => (f t).bind g) (fun x => ∃ a b, x = a ++ b ∧ L a ∧ M b) where
  some {t u} h := by
    cases h1 : f t with
    | none => rw [h1] at h; cases h
    | some v =>
      rw [h1] at h
      obtain ⟨a, ha, ha'⟩ := hf.some h1
      obtain ⟨b, hb, hb'⟩ := hg.some h
      subst hb
      refine ⟨a ++ b, by rw [ha, List.append_assoc], ⟨u, by rw [ha, List.append_assoc]⟩, ⟨a, b, rfl, ha'.2.1, hb'.2.1⟩, ?_⟩
      rintro y hy ⟨a', b', rfl, hL, hM⟩
      have hl := ha'.2.2 a' ((List.prefix_append a' b').trans hy) hL
      rcases Nat.lt_or_ge a'.length a.length with hlt | hge
      · obtain ⟨d, z, h2, h3⟩ := prefix_split ha'.1 hy hlt
        rcases h3 with rfl | ⟨w, rfl⟩
        · exact absurd hM hc.2
        · exact absurd hM (hc.1 a' d z hL (h2 ▸ ha'.2.1) w)
      · have : a' = a := (List.prefix_of_prefix_length_le ((List.prefix_append a' b').trans hy) ha'.1 hl).eq_of_length_le hge
        subst this
        rw [ha, prefix_append_left] at hy
        have := hb'.2.2 b' hy hM
        simp only [List.length_append]
        omega
  none {t} h y hy := by
    rintro ⟨a', b', rfl, hL, hM⟩
    cases h1 : f t with
    | none => exact hf.none h1 a' ((List.prefix_append a' b').trans hy) hL
    | some v =>
      rw [h1] at h
      obtain ⟨a, ha, ha'⟩ := hf.some h1
      have hl := ha'.2.2 a' ((List.prefix_append a' b').trans hy) hL
      rcases Nat.lt_or_ge a'.length a.length with hlt | hge
      · obtain ⟨d, z, h2, h3⟩ := prefix_split ha'.1 hy hlt
        rcases h3 with rfl | ⟨w, rfl⟩
        · exact absurd hM hc.2
        · exact absurd hM (hc.1 a' d z hL (h2 ▸ ha'.2.1) w)
      · have : a' = a := (List.prefix_of_prefix_length_le ((List.prefix_append a' b').trans hy) ha'.1 hl).eq_of_length_le hge
        subst this
        rw [ha, prefix_append_left] at hy
        exact hg.none h b' hy hM

/-- Something and possibly more. -/
theorem greedy_opt {f g : Bytes → Option Bytes} {L M : Bytes → Prop} (hf : Greedy f L) (hg : Greedy g M) (hc : NoCut L M) :
    Greedy (fun t => (f t).bind (optB g)) (fun x => ∃ a b, x = a ++ b ∧ L a ∧ (b = [] ∨ M b)) where
  some {t u} h := by
    cases h1 : f t with
    | none => rw [h1] at h; cases h
    | some v =>
      rw [h1] at h
      obtain ⟨a, ha, ha'⟩ := hf.some h1
      have key : ∀ (b : Bytes), v = b ++ u → (b = [] ∨ M b) → (∀ b', b' <+: v → (b' = [] ∨ M b') → b'.length ≤ b.length) →
          ∃ x, t = x ++ u ∧ Longest (fun x => ∃ a b, x = a ++ b ∧ L a ∧ (b = [] ∨ M b)) t x := by
        intro b hb hb1 hb2
        subst hb
        refine ⟨a ++ b, by rw [ha, List.append_assoc], ⟨u, by rw [ha, List.append_assoc]⟩, ⟨a, b, rfl, ha'.2.1, hb1⟩, ?_⟩
        rintro y hy ⟨a', b', rfl, hL, hM⟩
        have hl := ha'.2.2 a' ((List.prefix_append a' b').trans hy) hL
        rcases Nat.lt_or_ge a'.length a.length with hlt | hge
        · obtain ⟨d, z, h2, h3⟩ := prefix_split ha'.1 hy hlt
          rcases h3 with rfl | ⟨w, rfl⟩
          · simp only [List.length_append, List.length_nil]; omega
          · rcases hM with hM | hM
            · cases hM
            · exact absurd hM (hc.1 a' d z hL (h2 ▸ ha'.2.1) w)
        · have : a' = a := (List.prefix_of_prefix_length_le ((List.prefix_append a' b').trans hy) ha'.1 hl).eq_of_length_le hge
          subst this
          rw [ha, prefix_append_left] at hy
          have := hb2 b' hy hM
          simp only [List.length_append]
          omega
      cases h2 : g v with
      | none =>
        simp only [Option.bind_some, optB, h2, Option.getD_none, Option.some.injEq] at h
        subst h
        refine key [] rfl (.inl rfl) ?_
        rintro b' hb (rfl | hM)
        · exact Nat.le_refl _
        · exact absurd hM (hg.none h2 b' hb)
      | some w =>
        simp only [Option.bind_some, optB, h2, Option.getD_some, Option.some.injEq] at h
        subst h
        obtain ⟨b, hb, hb'⟩ := hg.some h2
        refine key b hb (.inr hb'.2.1) ?_
        rintro b'' hb2 (rfl | hM)
        · exact Nat.zero_le _
        · exact hb'.2.2 _ hb2 hM
  none {t} h y hy := by
    rintro ⟨a', b', rfl, hL, hM⟩
    cases h1 : f t with
    | none => exact hf.none h1 a' ((List.prefix_append a' b').trans hy) hL
    | some v => rw [h1] at h; cases h

/-- Possibly nothing. -/
theorem greedy_maybe {f : Bytes → Option Bytes} {L : Bytes → Prop} (hf : Greedy f L) : Greedy (optB f) (fun x => x = [] ∨ L x) where
  some {t u} h := by
    cases h1 : f t with
    | none =>
      simp only [optB, h1, Option.getD_none, Option.some.injEq] at h
      subst h
      refine ⟨[], rfl, List.nil_prefix, .inl rfl, ?_⟩
      rintro y hy (rfl | hL)
      · exact Nat.le_refl _
      · exact absurd hL (hf.none h1 y hy)
    | some v =>
      simp only [optB, h1, Option.getD_some, Option.some.injEq] at h
      subst h
      obtain ⟨x, hx, hx'⟩ := hf.some h1
      refine ⟨x, hx, hx'.1, .inr hx'.2.1, ?_⟩
      rintro y hy (rfl | hL)
      · exact Nat.zero_le _
      · exact hx'.2.2 y hy hL
  none {t} h := by cases h

end Tok
