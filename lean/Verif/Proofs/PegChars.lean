/-
The language of a parsing expression as a set of character strings.
-/
import Verif.Proofs.PegCalc
import Verif.Proofs.PegLeaf
import Verif.Props.C34

namespace Tok
open Spec PExp

/-- A rune read as a character: an encoded character, or something malformed read as U+FFFD. -/
def Reads (x : Piece) (c : Char) : Prop :=
  x.2 = (c.toNat : Int) ∧ ∀ d, x.1 = enc d → c = d

/-- The runes of a text as characters. -/
inductive Runs : List Piece → List Char → Prop
  | nil : Runs [] []
  | cons {x c zs cs} (h : Reads x c) (ht : Runs zs cs) : Runs (x :: zs) (c :: cs)

theorem Runs.append_inv {u v : List Piece} : ∀ {cs : List Char}, Runs (u ++ v) cs → ∃ a b, cs = a ++ b ∧ Runs u a ∧ Runs v b := by
  induction u with
  | nil => intro cs h; exact ⟨[], cs, rfl, .nil, h⟩
  | cons x u ih =>
    intro cs h
    cases h with
    | cons h ht =>
      obtain ⟨a, b, e, h1, h2⟩ := ih ht
      exact ⟨_ :: a, b, by rw [e]; rfl, .cons h h1, h2⟩

theorem Runs.runes {zs : List Piece} {cs : List Char} (h : Runs zs cs) : zs.map (·.2) = cs.map (fun c => (c.toNat : Int)) := by
  induction h with
  | nil => rfl
  | cons h ht ih => simp only [List.map_cons, ih, h.1]

theorem enc_inj {c d : Char} (h : enc c = enc d) : c = d := by
  have := encText_inj (cs := [c]) (ds := [d]) (by simpa [encText] using h)
  simpa using this

theorem Runs.of_pieces {t : Bytes} {zs : List Piece} (h : Pieces t zs) : ∃ cs, Runs zs cs := by
  induction h with
  | nil => exact ⟨[], .nil⟩
  | @cons s p t r ps hs he ht ih =>
    obtain ⟨cs, h⟩ := ih
    cases hs with
    | char c t => exact ⟨c :: cs, .cons ⟨rfl, fun d h => enc_inj h⟩ h⟩
    | bad b t' hb =>
      refine ⟨'�' :: cs, .cons ⟨rfl, fun d h => ?_⟩ h⟩
      exact absurd ⟨t', by rw [← h]; rfl⟩ (hb d)

/-- The characters of a text as runes. -/
def img (cs : List Char) : List Piece := cs.map fun c => (enc c, (c.toNat : Int))

theorem Runs.img (cs : List Char) : Runs (img cs) cs := by
  induction cs with
  | nil => exact .nil
  | cons c cs ih => exact .cons ⟨rfl, fun d h => enc_inj h⟩ ih

/-- The character strings that an expression may take, when nonterminal `i` may take the
strings of `M i`. -/
def Spec.PExp.clang (M : Nat → List Char → Prop) : PExp Piece → List Char → Prop
  | .eps, cs => cs = []
  | .chr p, cs => ∃ c x, cs = [c] ∧ Reads x c ∧ p x = true
  | .nt i, cs => M i cs
  | .seq a b, cs => ∃ u v, cs = u ++ v ∧ a.clang M u ∧ b.clang M v
  | .alt a b, cs => a.clang M cs ∨ b.clang M cs
  | .star a, cs => ∃ l : List (List Char), cs = l.flatten ∧ ∀ u ∈ l, a.clang M u
  | .neg a, cs => cs = [] ∧ a ≠ .eps
  | .find _ _ _ _, _ => True

theorem lang_clang {M : Nat → List Char → Prop} : ∀ {e : PExp Piece} {zs : List Piece} {cs : List Char},
    e.lang (fun i zs => ∀ cs, Runs zs cs → M i cs) zs → Runs zs cs → e.clang M cs := by
  intro e
  induction e with
  | eps => intro zs cs h hr; cases h; cases hr; rfl
  | chr p =>
    rintro zs cs ⟨x, rfl, h⟩ hr
    cases hr with
    | cons h1 h2 => cases h2; exact ⟨_, x, rfl, h1, h⟩
  | nt i => intro zs cs h hr; exact h _ hr
  | seq a b iha ihb =>
    rintro zs cs ⟨u, v, rfl, h1, h2⟩ hr
    obtain ⟨c, d, rfl, h3, h4⟩ := hr.append_inv
    exact ⟨c, d, rfl, iha h1 h3, ihb h2 h4⟩
  | alt a b iha ihb =>
    intro zs cs h hr
    exact h.imp (iha · hr) (ihb · hr)
  | star a ih =>
    rintro zs cs ⟨l, rfl, h⟩ hr
    induction l generalizing cs with
    | nil => cases hr; exact ⟨[], rfl, by simp⟩
    | cons u l ihl =>
      obtain ⟨c, d, rfl, h3, h4⟩ := hr.append_inv
      obtain ⟨l', rfl, h5⟩ := ihl (fun v hv => h v (List.mem_cons_of_mem _ hv)) h4
      exact ⟨c :: l', rfl, List.forall_mem_cons.mpr ⟨ih (h u List.mem_cons_self) h3, h5⟩⟩
  | neg a => rintro zs cs ⟨rfl, h⟩ hr; cases hr; exact ⟨rfl, h⟩
  | find => intros; trivial

/-- Whatever is taken is in the language. -/
theorem Peg.clang {P : Nat → Option (PExp Piece)} {M : Nat → List Char → Prop} (hM : ∀ i e, P i = some e → ∀ cs, e.clang M cs → M i cs)
    {e : PExp Piece} {xs ys : List Piece} (h : Peg P e xs (some ys)) :
    ∃ zs, xs = zs ++ ys ∧ ∀ cs, Runs zs cs → e.clang M cs := by
  obtain ⟨zs, h1, h2⟩ := Peg.lang (L := fun i zs => ∀ cs, Runs zs cs → M i cs)
    (fun i e hi zs hz cs hr => hM i e hi cs (lang_clang hz hr)) h rfl
  exact ⟨zs, h1, fun cs hr => lang_clang h2 hr⟩

theorem clang_one {M : Nat → List Char → Prop} {p : Int → Prop} {cs : List Char} (h : (one p).clang M cs) : ∃ c : Char, cs = [c] ∧ p c.toNat := by
  obtain ⟨c, x, rfl, h1, h2⟩ := h
  refine ⟨c, rfl, ?_⟩
  rw [← h1.1]
  simpa using h2

theorem clang_cls {M : Nat → List Char → Prop} {p : Int → Prop} {cs : List Char} (h : (cls p).clang M cs) :
    (∃ c : Char, cs = [c] ∧ p c.toNat) ∨ cs = [] ∧ p 0xFFFD := by
  unfold cls at h
  split at h
  · rename_i hp
    rcases h with h | h
    · exact .inl (clang_one h)
    · exact .inr ⟨h.1, hp⟩
  · exact .inl (clang_one h)

theorem clang_chars {M : Nat → List Char → Prop} {ds : List Char} : ∀ {cs}, (charsExp ds).clang M cs → cs = ds := by
  induction ds with
  | nil => intro cs h; exact h
  | cons d ds ih =>
    rintro cs ⟨u, v, rfl, ⟨c, x, rfl, h1, h2⟩, h3⟩
    have := ih h3
    subst this
    have := h1.2 d (by simpa using h2)
    rw [this]
    rfl

theorem clang_lit {M : Nat → List Char → Prop} {ds cs : List Char} (h : (litExp (encText ds)).clang M cs) : cs = ds := by
  rw [litExp_enc] at h
  exact clang_chars h

end Tok
