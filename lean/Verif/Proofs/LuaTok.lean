/-
Readers of the Lua grammar on texts given as lists of tokens.
-/
import Verif.Proofs.Gets
import Verif.Spec.LuaNote

namespace Tok
open Spec

namespace Lua

/-- The tokens, with white space between them, and comments behind some of them. -/
abbrev Laid : List Bytes → Bytes → Prop := Noted OpenGap

/-- White space and comments, and then the tokens. -/
def Wide (ks : List Bytes) (X : Bytes) : Prop := ∃ w z, X = w ++ z ∧ PlainGap w ∧ Laid ks z

/-- White space and then the tokens. -/
def Spaced (ks : List Bytes) (X : Bytes) : Prop := ∃ w z, X = w ++ z ∧ White w ∧ Laid ks z

theorem Spaced.of {ks : List Bytes} {X : Bytes} (h : Laid ks X) : Spaced ks X := ⟨[], X, rfl, by simp [White], h⟩

theorem white_gap : ∀ {w : Bytes}, White w → PlainGap w
  | [], _ => .nil
  | b :: w, h => .white (h b (by simp)) (white_gap fun c hc => h c (by simp [hc]))

theorem Spaced.wide {ks : List Bytes} {X : Bytes} (h : Spaced ks X) : Wide ks X :=
  let ⟨w, z, e, hw, hz⟩ := h
  ⟨w, z, e, white_gap hw, hz⟩

theorem Wide.of {ks : List Bytes} {X : Bytes} (h : Laid ks X) : Wide ks X := (Spaced.of h).wide

variable {rt : Rt} {r sk : Reader} {rs : List Reader} {ks l l' more : List Bytes} {I M O : List Bytes → Bytes → Prop}

/-- Where the tokens `ks` and then `more` come, the reader reads `ks`.  `I` and `O` are `Laid` or `Spaced`. -/
def Step (rt : Rt) (I O : List Bytes → Bytes → Prop) (r : Reader) (ks more : List Bytes) : Prop :=
  ∀ X, I (ks ++ more) X → ∃ Y, Gets rt env r X (some Y) ∧ O more Y ∧ Y.length + ks.length ≤ X.length

/-- Where the tokens `ks` come, the reader fails. -/
def Fail (rt : Rt) (I : List Bytes → Bytes → Prop) (r : Reader) (ks : List Bytes) : Prop := ∀ X, I ks X → Gets rt env r X none

theorem Step.weak (h : Step rt I Laid r ks more) : Step rt I Spaced r ks more := fun X hX =>
  let ⟨Y, h1, h2, h3⟩ := h X hX
  ⟨Y, h1, .of h2, h3⟩

theorem Step.tight (h : Step rt Spaced O r ks more) : Step rt Laid O r ks more := fun X hX => h X (.of hX)

theorem Step.wide (h : Step rt I Spaced r ks more) : Step rt I Wide r ks more := fun X hX =>
  let ⟨Y, h1, h2, h3⟩ := h X hX
  ⟨Y, h1, h2.wide, h3⟩

theorem Step.narrow (h : Step rt Wide O r ks more) : Step rt Spaced O r ks more := fun X hX => h X hX.wide

theorem Fail.narrow (h : Fail rt Wide r ks) : Fail rt Spaced r ks := fun X hX => h X hX.wide

theorem Fail.tight (h : Fail rt Spaced r ks) : Fail rt Laid r ks := fun X hX => h X (.of hX)

theorem Step.rule {i : Nat} {nm : Bytes} (hi : env[i]? = some ⟨nm, some r⟩) (h : Step rt I O r ks more) : Step rt I O (.rule i) ks more := fun X hX =>
  let ⟨Y, h1, h2⟩ := h X hX
  ⟨Y, .rule hi h1, h2⟩

theorem Fail.rule {i : Nat} {nm : Bytes} (hi : env[i]? = some ⟨nm, some r⟩) (h : Fail rt I r ks) : Fail rt I (.rule i) ks := fun X hX => .rule hi (h X hX)

/-! ### sequences -/

def StepSeq (rt : Rt) (I O : List Bytes → Bytes → Prop) (rs : List Reader) (ks more : List Bytes) : Prop :=
  ∀ X, I (ks ++ more) X → ∃ Y, GetsSeq rt env rs X (some Y) ∧ O more Y ∧ Y.length + ks.length ≤ X.length

def FailSeq (rt : Rt) (I : List Bytes → Bytes → Prop) (rs : List Reader) (ks : List Bytes) : Prop := ∀ X, I ks X → GetsSeq rt env rs X none

theorem StepSeq.nil : StepSeq rt I I [] [] more := fun X hX => ⟨X, .nil, hX, Nat.le_refl _⟩

theorem StepSeq.cons (h : Step rt I M r l (l' ++ more)) (h' : StepSeq rt M O rs l' more) : StepSeq rt I O (r :: rs) (l ++ l') more := fun X hX => by
  rw [List.append_assoc] at hX
  obtain ⟨Y, h1, h2, h3⟩ := h X hX
  obtain ⟨Z, k1, k2, k3⟩ := h' Y h2
  exact ⟨Z, .cons h1 k1, k2, by simp only [List.length_append]; omega⟩

theorem FailSeq.cons (h : Step rt I M r l l') (h' : FailSeq rt M rs l') : FailSeq rt I (r :: rs) (l ++ l') := fun X hX => by
  obtain ⟨Y, h1, h2, _⟩ := h X hX
  exact .cons h1 (h' Y h2)

theorem FailSeq.stop (h : Fail rt I r ks) : FailSeq rt I (r :: rs) ks := fun X hX => .stop (h X hX)

theorem Step.seq (h : StepSeq rt I O rs ks more) : Step rt I O (.seq rs) ks more := fun X hX =>
  let ⟨Y, h1, h2⟩ := h X hX
  ⟨Y, .seq h1, h2⟩

theorem Fail.seq (h : FailSeq rt I rs ks) : Fail rt I (.seq rs) ks := fun X hX => .seq (h X hX)

/-- The skipper goes over white space. -/
def Skips (rt : Rt) (sk : Reader) : Prop := ∀ ks X, Spaced ks X → ∃ Y, Gets rt env sk X (some Y) ∧ Laid ks Y ∧ Y.length ≤ X.length

def StepSkip (rt : Rt) (sk : Reader) (rs : List Reader) (ks more : List Bytes) : Prop :=
  ∀ X, Laid (ks ++ more) X → ∃ Y, GetsSkip rt env sk rs X (some Y) ∧ Laid more Y ∧ Y.length + ks.length ≤ X.length

def FailSkip (rt : Rt) (sk : Reader) (rs : List Reader) (ks : List Bytes) : Prop := ∀ X, Laid ks X → GetsSkip rt env sk rs X none

theorem StepSkip.nil : StepSkip rt sk [] [] more := fun X hX => ⟨X, .nil, hX, Nat.le_refl _⟩

theorem StepSkip.cons (hk : Skips rt sk) (h : Step rt Laid Spaced r l (l' ++ more)) (h' : StepSkip rt sk rs l' more) :
    StepSkip rt sk (r :: rs) (l ++ l') more := fun X hX => by
  rw [List.append_assoc] at hX
  obtain ⟨Y, h1, h2, h3⟩ := h X hX
  obtain ⟨Y', s1, s2, s3⟩ := hk _ Y h2
  obtain ⟨Z, k1, k2, k3⟩ := h' Y' s2
  exact ⟨Z, .cons h1 s1 k1, k2, by simp only [List.length_append]; omega⟩

theorem FailSkip.cons (hk : Skips rt sk) (h : Step rt Laid Spaced r l l') (h' : FailSkip rt sk rs l') : FailSkip rt sk (r :: rs) (l ++ l') := fun X hX => by
  obtain ⟨Y, h1, h2, _⟩ := h X hX
  obtain ⟨Y', s1, s2, _⟩ := hk _ Y h2
  exact .cons h1 s1 (h' Y' s2)

theorem FailSkip.stop (h : Fail rt Laid r ks) : FailSkip rt sk (r :: rs) ks := fun X hX => .stop (h X hX)

theorem Step.skipSeq (hk : Skips rt sk) (h : StepSkip rt sk rs ks more) : Step rt Spaced Laid (.skipSeq sk rs) ks more := fun X hX => by
  obtain ⟨Y, s1, s2, s3⟩ := hk _ X hX
  obtain ⟨Z, k1, k2, k3⟩ := h Y s2
  exact ⟨Z, .skipSeq s1 k1, k2, by omega⟩

theorem Fail.skipSeq (hk : Skips rt sk) (h : FailSkip rt sk rs ks) : Fail rt Spaced (.skipSeq sk rs) ks := fun X hX => by
  obtain ⟨Y, s1, s2, s3⟩ := hk _ X hX
  exact .skipSeq s1 (h Y s2)

/-! ### alternatives -/

def StepAny (rt : Rt) (I O : List Bytes → Bytes → Prop) (rs : List Reader) (ks more : List Bytes) : Prop :=
  ∀ X, I (ks ++ more) X → ∃ Y, GetsAny rt env rs X (some Y) ∧ O more Y ∧ Y.length + ks.length ≤ X.length

def FailAny (rt : Rt) (I : List Bytes → Bytes → Prop) (rs : List Reader) (ks : List Bytes) : Prop := ∀ X, I ks X → GetsAny rt env rs X none

theorem StepAny.hit (h : Step rt I O r ks more) : StepAny rt I O (r :: rs) ks more := fun X hX =>
  let ⟨Y, h1, h2⟩ := h X hX
  ⟨Y, .hit h1, h2⟩

theorem StepAny.next (h : Fail rt I r (ks ++ more)) (h' : StepAny rt I O rs ks more) : StepAny rt I O (r :: rs) ks more := fun X hX =>
  let ⟨Y, h1, h2⟩ := h' X hX
  ⟨Y, .next (h X hX) h1, h2⟩

theorem FailAny.nil : FailAny rt I [] ks := fun _ _ => .nil

theorem FailAny.next (h : Fail rt I r ks) (h' : FailAny rt I rs ks) : FailAny rt I (r :: rs) ks := fun X hX => .next (h X hX) (h' X hX)

theorem Step.any (h : StepAny rt I O rs ks more) : Step rt I O (.any rs) ks more := fun X hX =>
  let ⟨Y, h1, h2⟩ := h X hX
  ⟨Y, .any h1, h2⟩

theorem Fail.any (h : FailAny rt I rs ks) : Fail rt I (.any rs) ks := fun X hX => .any (h X hX)

/-! ### repetitions -/

theorem Step.opt (h : Step rt I O r ks more) : Step rt I O (.opt r) ks more := fun X hX =>
  let ⟨Y, h1, h2⟩ := h X hX
  ⟨Y, .opt h1, h2⟩

theorem Step.opt_none (h : Fail rt I r more) : Step rt I I (.opt r) [] more := fun X hX => ⟨X, .opt (h X hX), hX, Nat.le_refl _⟩

theorem Step.zom_stop (h : Fail rt I r more) : Step rt I I (.zom r) [] more := fun X hX => ⟨X, .zom_stop (h X hX), hX, Nat.le_refl _⟩

theorem Step.zom_step (h : Step rt I M r l (l' ++ more)) (h' : Step rt M O (.zom r) l' more) : Step rt I O (.zom r) (l ++ l') more := fun X hX => by
  rw [List.append_assoc] at hX
  obtain ⟨Y, h1, h2, h3⟩ := h X hX
  obtain ⟨Z, k1, k2, k3⟩ := h' Y h2
  exact ⟨Z, .zom_step h1 k1, k2, by simp only [List.length_append]; omega⟩

theorem Step.many (hne : ks ≠ []) (h : Step rt I O (.zom r) ks more) : Step rt I O (.many r) ks more := fun X hX => by
  obtain ⟨Y, h1, h2, h3⟩ := h X hX
  have := List.length_pos_iff.mpr hne
  exact ⟨Y, .many_yes h1 (by omega), h2, h3⟩

theorem Fail.many (h : Fail rt I r ks) : Fail rt I (.many r) ks := fun X hX => .many_no (h X hX)

theorem Step.of_eq {l : List Bytes} (e : l = ks) (h : Step rt I O r l more) : Step rt I O r ks more := e ▸ h

theorem Fail.of_eq {l : List Bytes} (e : l = ks) (h : Fail rt I r l) : Fail rt I r ks := e ▸ h

end Lua
end Tok
