/-
C77: where a text stops being JSON.
-/
import Verif.Proofs.Front
import Verif.Props.C56

namespace Tok
open Spec PExp

/-- There is an ASCII character that passes the test. -/
def someAscii (p : Nat → Bool) : Bool := (List.range 128).any p

/-- A test that a reader takes some text if its parts do. -/
def Reader.fruitB : Reader → Bool
  | .any rs => !rs.isEmpty
  | .anyRune str => someAscii fun k => (runesOf str).contains (k : Int)
  | .between a b => someAscii fun k => decide (a ≤ k ∧ (k : Int) ≤ b)
  | .betweenAny ranges singles => someAscii fun k => ranges.any (fun ab => decide (ab.1 ≤ k ∧ (k : Int) ≤ ab.2)) || (runesOf singles).contains (k : Int)
  | .holey a b holes => someAscii fun k => decide (a ≤ k ∧ (k : Int) ≤ b) && !(runesOf holes).contains (k : Int)
  | .rune c => someAscii fun k => decide ((k : Int) = c)
  | .match_ _ f => someAscii fun k => f k
  | .lit _ | .atEnd | .body _ _ | .bodyTail _ _ | .many _ | .map _ _ | .named _ _ | .opt _ | .past _ | .seq _ | .skipSeq _ _ | .times _ _ | .to _ | .zom _
  | .pick _ _ _ | .monitor _ _ _ | .rule _ | .ruleName _ | .grammar _ _ => true
  | _ => false

section
variable {M : Nat → List Char → Prop}

theorem someAscii_char {p : Nat → Bool} (h : someAscii p = true) : ∃ c : Char, p c.toNat = true := by
  obtain ⟨k, hk, hp⟩ := List.any_eq_true.mp h
  have hk : k < 128 := List.mem_range.mp hk
  refine ⟨Char.ofNat k, ?_⟩
  have hv : k.isValidChar := by
    unfold Nat.isValidChar
    omega
  rw [Char.ofNat, dif_pos hv]
  exact hp

theorem one_fruit {p : Int → Prop} {q : Nat → Bool} (h : someAscii q = true) (hpq : ∀ k, q k = true → p k) : ∃ y, (one p).clang M y := by
  obtain ⟨c, hc⟩ := someAscii_char h
  exact ⟨[c], c, (enc c, (c.toNat : Int)), rfl, ⟨rfl, fun d h => enc_inj h⟩, by simpa using hpq _ hc⟩

theorem cls_fruit {p : Int → Prop} {q : Nat → Bool} (h : someAscii q = true) (hpq : ∀ k, q k = true → p k) : ∃ y, (cls p).clang M y := by
  obtain ⟨y, hy⟩ := one_fruit (M := M) h hpq
  unfold cls
  split
  · exact ⟨y, .inl hy⟩
  · exact ⟨y, hy⟩

theorem chars_fruit (cs : List Char) : (charsExp cs).clang M cs := by
  induction cs with
  | nil => rfl
  | cons c cs ih => exact ⟨[c], cs, rfl, ⟨c, (enc c, (c.toNat : Int)), rfl, ⟨rfl, fun d h => enc_inj h⟩, by simp⟩, ih⟩

/-- If all parts of a reader pass the test and every rule has a text, the reader has one. -/
theorem fruit_of_B (hM : ∀ i, ∃ y, M i y) {r : Reader} (h : r.Every (fun r => r.fruitB = true)) (hp : r.Every (Reader.pegOk true)) :
    r.Every (fun r => ∃ y, r.peg.clang M y) := by
  induction h with
  | @mk r h hs ih =>
    have sub : ∀ c ∈ r.subs, c.Every (fun r => ∃ y, r.peg.clang M y) := fun c hc => ih c hc (hp.sub hc)
    refine .mk ?_ sub
    have fr : ∀ c ∈ r.subs, ∃ y, c.peg.clang M y := fun c hc => (sub c hc).here
    have same : ∀ c ∈ r.subs, r.peg = c.peg → ∃ y, r.peg.clang M y := fun c hc he => he ▸ fr c hc
    have until' : ∀ a : PExp Piece, (until_ a).clang M [] := fun a => ⟨[], rfl, by simp⟩
    cases r with
    | any rs =>
      cases rs with
      | nil => cases h
      | cons c rs =>
        obtain ⟨y, hy⟩ := fr c List.mem_cons_self
        exact ⟨y, .inl hy⟩
    | anyRune str => exact cls_fruit h fun k hk => (runeIn_iff _ _).mpr (by simpa using hk)
    | between a b => exact one_fruit h fun k hk => by simpa using hk
    | betweenAny ranges singles =>
      obtain ⟨c, hc⟩ := someAscii_char h
      rw [Bool.or_eq_true] at hc
      rcases hc with hc | hc
      · obtain ⟨ab, h1, h2⟩ := List.any_eq_true.mp hc
        exact ⟨[c], .inl ⟨c, (enc c, (c.toNat : Int)), rfl, ⟨rfl, fun d h => enc_inj h⟩, by simpa using ⟨ab.1, ab.2, h1, by simpa using h2⟩⟩⟩
      · obtain ⟨y, hy⟩ : ∃ y, (cls (RuneIn singles)).clang M y := by
          have h1 : (one (RuneIn singles)).clang M [c] :=
            ⟨c, (enc c, (c.toNat : Int)), rfl, ⟨rfl, fun d h => enc_inj h⟩, by simpa using (runeIn_iff _ _).mpr (by simpa using hc)⟩
          unfold cls
          split
          · exact ⟨_, .inl h1⟩
          · exact ⟨_, h1⟩
        exact ⟨y, .inr hy⟩
    | holey a b holes =>
      refine cls_fruit h fun k hk => ?_
      rw [runeIn_iff]
      simpa using hk
    | rune c => exact cls_fruit h fun k hk => by simpa using hk
    | match_ w f => exact one_fruit h fun k hk => by simpa using hk
    | lit str =>
      obtain ⟨cs, rfl⟩ := hp.here
      refine ⟨cs, ?_⟩
      show (litExp (encText cs)).clang M cs
      rw [litExp_enc]
      exact chars_fruit cs
    | atEnd => exact ⟨[], rfl, by simp [dot]⟩
    | body b t => exact ⟨[], trivial⟩
    | bodyTail b t => exact ⟨[], trivial⟩
    | many c =>
      obtain ⟨y, hy⟩ := fr c (by simp [Reader.subs])
      exact ⟨y ++ [], y, [], rfl, hy, [], rfl, by simp⟩
    | map f c => exact same c (by simp [Reader.subs]) rfl
    | named f c => exact same c (by simp [Reader.subs]) rfl
    | pick i b c => exact same c (by simp [Reader.subs]) rfl
    | monitor i l c => exact same c (by simp [Reader.subs]) rfl
    | ruleName c => exact same c (by simp [Reader.subs]) rfl
    | grammar w c => exact same c (by simp [Reader.subs]) rfl
    | opt c => exact ⟨[], .inr rfl⟩
    | past c =>
      obtain ⟨y, hy⟩ := fr c (by simp [Reader.subs])
      exact ⟨[] ++ ([] ++ y), [], [] ++ y, rfl, until' _, [], y, rfl, ⟨rfl, by simp [dot]⟩, hy⟩
    | «to» c => exact ⟨[] ++ [], [], [], rfl, until' _, rfl, by simp⟩
    | zom c => exact ⟨[], [], rfl, by simp⟩
    | seq rs =>
      refine chain_any fun e he => ?_
      obtain ⟨c, hc, rfl⟩ := pegs_mem he
      exact fr c hc
    | skipSeq sk rs =>
      obtain ⟨u, hu⟩ := fr sk List.mem_cons_self
      obtain ⟨v, hv⟩ : ∃ y, (chain ((Reader.pegs rs).map fun e => .seq e sk.peg)).clang M y := by
        refine chain_any fun e he => ?_
        obtain ⟨e', he', rfl⟩ := List.mem_map.mp he
        obtain ⟨c, hc, rfl⟩ := pegs_mem he'
        obtain ⟨w, hw⟩ := fr c (List.mem_cons_of_mem _ hc)
        exact ⟨w ++ u, w, u, rfl, hw, hu⟩
      exact ⟨u ++ v, u, v, rfl, hu, hv⟩
    | times k c =>
      obtain ⟨u, hu⟩ := fr c (by simp [Reader.subs])
      show ∃ y, (PExp.times c.peg k.toNat).clang M y
      induction k.toNat with
      | zero => exact ⟨[], rfl⟩
      | succ k ih =>
        obtain ⟨v, hv⟩ := ih
        exact ⟨u ++ v, u, v, rfl, hu, hv⟩
    | rule i => exact hM i
    | _ => cases h
end

/-- For every grammar (without `At`, `Not`, value readers, `Fold`, `Janus`, `Wrap` and grammars inside, with rules that go back on failure) and every
family of sets of texts that the rules, read as a context-free grammar, do not lead out of: the text between the start of a failing
read and the position in its error is the beginning of a text of the reader. -/
theorem C77_front (rt : Rt) (G : Env) (M : Nat → List Char → Prop) (F : Fruitful G M) (r : Reader) (hr : r.Every (Reader.pegOk true))
    (hl : r.Every Reader.located) (ha : r.Every Reader.ahead) (hf : r.Every (fun r => r.fruitB = true)) (hM : ∀ i, ∃ y, M i y)
    (n : Nat) (s : Scanner) (h : Bytes) (cs : List Char) (hb : Between s h (encText cs)) (m : Int) (w : Bytes) (s' : Scanner)
    (hrd : read rt G n r s = .ret (some (.read m w), s')) :
    ∃ x z y, cs = x ++ z ∧ m = ((h ++ encText x).length : Int) ∧ r.peg.clang M (x ++ y) := by
  obtain ⟨x, z, h1, h2, y, h3⟩ := read_fronts F n r hr hl ha (fruit_of_B hM hf hr) s h cs hb m w s' hrd
  exact ⟨x, z, y, h1, h2, h3⟩

def Reader.aheadB : Reader → Bool
  | .at_ _ => false
  | .ruleName c => c.keepsB
  | .bool _ _ => false
  | _ => true

theorem ahead_of_B {r : Reader} (h : r.aheadB = true) : r.ahead := by
  cases r <;> first | trivial | exact h | cases h

theorem Json.some_text : ∀ i, ∃ y, Json.means i y := by
  have hws : JsonText .ws [] := .ws_none
  have hd : JsonText .digit ['0'] := .digit_zero
  have hnum : JsonText .number ['0'] := .number (is := ['0']) (.integer_digit hd) .fraction_none .exponent_none
  have hel : JsonText .element ['0'] := .element (us := []) (cs := ['0']) hws (.value_number hnum) hws
  have hstr : JsonText .string ['"', '"'] := .string .characters_none
  have hmem : JsonText .member ['"', '"', ':', '0'] := .member (us := []) (vs := []) hws hstr hws hel
  intro i
  match i with
  | 0 => exact ⟨_, .value_null⟩
  | 1 => exact ⟨_, .object_ws hws⟩
  | 2 => exact ⟨_, .members_one hmem⟩
  | 3 => exact ⟨_, hmem⟩
  | 4 => exact ⟨_, hstr⟩
  | 5 => exact ⟨_, .array_ws hws⟩
  | 6 => exact ⟨_, .elements_one hel⟩
  | 7 => exact ⟨_, hel⟩
  | 8 => exact ⟨_, hstr⟩
  | 9 => exact ⟨_, .characters_none⟩
  | 10 => exact ⟨[], .inl rfl⟩
  | 11 => exact ⟨['n'], .escape_one (by simp)⟩
  | 12 => exact ⟨_, .hex_digit hd⟩
  | 13 => exact ⟨_, hnum⟩
  | 14 => exact ⟨_, .integer_digit hd⟩
  | 15 => exact ⟨_, .fraction_none⟩
  | 16 => exact ⟨_, .exponent_none⟩
  | 17 => exact ⟨['1'], .onenine (by decide) (by decide)⟩
  | 18 => exact ⟨_, hd⟩
  | 19 => exact ⟨_, .digits_one hd⟩
  | 20 => exact ⟨_, .sign_none⟩
  | 21 => exact ⟨_, .inl rfl⟩
  | 22 => exact ⟨_, rfl⟩
  | 23 => exact ⟨_, hws⟩
  | n + 24 => exact ⟨[], trivial⟩

theorem Json.fruitful : Fruitful Json.env Json.means where
  peg := Json.pegOk
  keeps := Json.keeps
  located := (Env.everyB_sound (p := Reader.locatedB) (by decide)).imp fun _ => located_of_B
  ahead := (Env.everyB_sound (p := Reader.aheadB) (by decide)).imp fun _ => ahead_of_B
  fruit := fun rl hrl c hc => fruit_of_B Json.some_text ((Env.everyB_sound (p := Reader.fruitB) (by decide +kernel)) rl hrl c hc) (Json.pegOk rl hrl c hc)
  closed := Json.means_closed

section
variable (rt : Rt)

/-- Every text of characters and every position: if the JSON grammar fails, its error is
`json parse error: not able to read <something> at <m>`, and the text from the start of the read up to the position `m` is the
beginning of a JSON document.  The full claim asks in addition that `m` is the last such position; that is false, see
`C77_violated`. -/
theorem C77_json_partial (n : Nat) (s : Scanner) (h : Bytes) (cs : List Char) (hb : Between s h (encText cs)) (hi : Inside s) (e : Err)
    (s' : Scanner) (hrd : read rt Json.env n Json.reader s = .ret (some e, s')) :
    ∃ x z y w, cs = x ++ z ∧ JsonDoc (x ++ y) ∧
      e = .other (b!"json parse error: not able to read " ++ w ++ b!" at " ++ itoa ((h ++ encText x).length : Int)) := by
  obtain _ | n := n
  · cases hrd
  obtain ⟨⟨e1, s1⟩, h1, h2⟩ := Exec.bind_eq_ret.mp hrd
  cases e1 with
  | none => simp at h2
  | some e1 =>
    have hE : Env.Every (Reader.safeHere True Json.env) Json.env := Json.safe
    have hr : ∀ p : Reader → Prop, p (.rule Json.iElement) → (Reader.rule Json.iElement).Every p := fun p hp =>
      .mk hp (by simp [Reader.subs])
    obtain ⟨m, w, rfl, _, _⟩ := read_located rt Json.env hE Json.fruitful.located n (.rule Json.iElement)
      (hr _ (safeHere_of_safeB (by decide))) (hr _ trivial) s hi e1 s1 h1
    obtain ⟨x, z, y, h3, h4, h5⟩ := C77_front rt Json.env Json.means Json.fruitful (.rule Json.iElement) (hr _ trivial) (hr _ trivial) (hr _ trivial)
      (hr _ rfl) Json.some_text n s h cs hb m w s1 h1
    refine ⟨x, z, y, w, h3, h5, ?_⟩
    cases h2
    simp [Err.text, h4]

/-- A read that fails: the error of `[1 2]` is at the `2`, up to which the text is the beginning of `[1 ]`. -/
example : ∃ n s', read rt Json.env n Json.reader (Scanner.new b!"[1 2]" Heap.empty) =
    .ret (some (.other (b!"json" ++ b!" parse error: " ++ (Err.read 3 (Reader.what rt Json.env (.rune 93))).text)), s') := ⟨60, _, rfl⟩

/-- The position is not always the last one possible: the error of `[1,x]` is at the comma, although `[1,` is still the beginning of a JSON
document, for instance of `[1,1]`. -/
theorem C77_violated : (∃ n s', read rt Json.env n Json.reader (Scanner.new b!"[1,x]" Heap.empty) =
      .ret (some (.other (b!"json" ++ b!" parse error: " ++ (Err.read 2 (Reader.what rt Json.env (.rune 93))).text)), s')) ∧
    JsonDoc "[1,1]".toList := by
  refine ⟨⟨60, _, rfl⟩, ?_⟩
  have h1 : JsonText .element ['1'] := .element (us := []) (cs := ['1']) .ws_none
    (.value_number (.number (is := ['1']) (.integer_digit (.digit_onenine (.onenine (by decide) (by decide)))) .fraction_none .exponent_none)) .ws_none
  exact .element (us := []) (cs := "[1,1]".toList) .ws_none (.value_array (.array_elements (cs := ['1', ',', '1']) (.elements_more (cs := ['1']) h1 (.elements_one h1)))) .ws_none

end

end Tok
