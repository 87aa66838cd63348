/-
What is missing where an MXT file does not begin with a chunk.
-/
import Verif.Spec.MxtBytes

namespace Tok.Spec
open MxtB

/-- What can be missing. -/
inductive MxtMissing
  | marker
  | space
  | name
  | arrow
  | line
  | salt (x : Bytes)
  | content

/-- A text that begins neither with a word nor with a space. -/
def MxtB.Bare (u : Bytes) : Prop := ∀ b v, u = b :: v → b.toNat < 0x20

/-- The salt of the chunk, or the spaces in front of it, do not go on in `u`. -/
structure MxtPart.SaltOver (c : MxtPart) (u : Bytes) : Prop where
  noSpace : ∀ v, u ≠ 32 :: v
  none : c.salt = [] → c.pre ≠ 0 → Bare u
  some : c.salt ≠ [] → c.post = 0 → Bare u

/-- `MxtFault t k m`: the text `t` does not begin with a chunk, what is missing is `m`, and it is missing behind the first `k` bytes. -/
inductive MxtFault (t : Bytes) : Nat → MxtMissing → Prop
  | marker : ¬ b!"//" <+: t → MxtFault t 0 .marker
  | space {mark u} : t = b!"//" ++ (mark ++ u) → Words mark → Bare u → MxtFault t (2 + mark.length) .space
  | name {mark gap u} : t = b!"//" ++ (mark ++ (spaces (gap + 1) ++ u)) → Words mark → Bare u → MxtFault t (2 + mark.length + (gap + 1)) .name
  /-- The place is the one behind the name. -/
  | arrow {mark gap name u} : NameHere t mark gap name u → Misses Arrow u [] → MxtFault t (2 + mark.length + (gap + 1) + name.length) .arrow
  | line {c : MxtPart} {u} : t = c.headText ++ u → c.HeadAt u → c.SaltOver u → u ≠ [] → (∀ l v, u ≠ nl l ++ v) → MxtFault t c.headText.length .line
  /-- The search for the end of the content gets stuck at bytes that are no characters. -/
  | content {c : MxtPart} {l v e} : t = c.headText ++ (nl l ++ v) → c.HeadAt (nl l ++ v) → ¬ b!"//" <+: v → Misses (Close c.salt) v e →
      MxtFault t (c.headText.length + (nl l).length) .content
  /-- The same; the line below the header begins like a marker. -/
  | salt {c : MxtPart} {l v e} : t = c.headText ++ (nl l ++ (b!"//" ++ v)) → c.HeadAt (nl l ++ (b!"//" ++ v)) → ¬ c.salt <+: v →
      Misses (Close c.salt) (b!"//" ++ v) e → MxtFault t (c.headText.length + (nl l).length + 2) (.salt c.salt)

/-- How a message names it. -/
def MxtMissing.words (rt : Rt) : MxtMissing → Bytes
  | .marker => b!"\"//\""
  | .space => b!"+' '"
  | .name => b!"+wordchar"
  | .arrow => b!"->arrow"
  | .line => b!"\"\\r\\n\""
  | .salt x => quoteToGraphic rt x
  | .content => b!"->[ next-marker @END ]"

end Tok.Spec
