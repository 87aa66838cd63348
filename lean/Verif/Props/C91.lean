/-
C91: the errors of the JSON grammar.
-/
import Verif.Proofs.JsonLists
import Verif.Proofs.Search
import Verif.Props.C35
import Verif.Props.C88

namespace Tok
open Spec PExp
namespace Json
variable {rt : Rt} {L : Nat} {j : Nat → Bytes} {zs : List Piece}

theorem noWraps : Json.env.Every (fun r => r.noWrap = true) := Env.everyB_sound (by decide)

/-- `cs` are the characters of a rest of the text with the pieces `zs`. -/
def Seen (zs : List Piece) (cs : List Char) : Prop := ∃ xs ys t, zs = xs ++ ys ∧ Pieces t ys ∧ List.Forall₂ Shown ys (img cs)

/-- The bytes of this rest. -/
def textAt (zs : List Piece) (cs : List Char) : Bytes := bytesOf (zs.drop (zs.length - cs.length))

theorem textAt_eq {xs ys : List Piece} {cs : List Char} (h : ys.length = cs.length) : textAt (xs ++ ys) cs = bytesOf ys := by
  unfold textAt
  rw [show (xs ++ ys).length - cs.length = xs.length by rw [List.length_append]; omega, List.drop_left]

theorem shown_length {ys : List Piece} {cs : List Char} (h : List.Forall₂ Shown ys (img cs)) : ys.length = cs.length := by
  simpa [img] using h.length_eq

theorem Seen.back {zs : List Piece} {u v : List Char} (h : Seen zs (u ++ v)) : Seen zs v := by
  obtain ⟨xs, ys, t, rfl, hp, hf⟩ := h
  have h1 : List.Forall₂ Shown (ys.drop u.length) (img v) := by
    have := List.forall₂_drop u.length hf
    simpa [img] using this
  have hd := List.take_append_drop u.length ys
  rw [← hd] at hp
  exact ⟨xs ++ ys.take u.length, ys.drop u.length, _, by rw [List.append_assoc, hd], hp.drop, h1⟩

theorem Seen.of_suffix {zs : List Piece} {u v : List Char} (h : Seen zs u) (hs : v <:+ u) : Seen zs v := by
  obtain ⟨x, rfl⟩ := hs
  exact h.back

theorem Seen.tail {zs : List Piece} {c : Char} {v : List Char} (h : Seen zs (c :: v)) : Seen zs v := Seen.back (u := [c]) h

/-- What the expression of a reader does, the reader does. -/
theorem toE {r : Reader} (hr : r.everyB (Reader.pegOkB false) = true) (hk : r.keepsB = true) (hb : r.peg.Blind Shown) {cs : List Char} {res : Option (List Char)}
    (hs : Seen zs cs) (h : Peg Json.env.peg r.peg (img cs) (res.map img)) : E rt Json.env r ⟨textAt zs cs, j⟩ (res.isSome, ⟨textAt zs (res.getD cs), j⟩) := by
  have hp : r.Every (Reader.pegOk false) := (Reader.everyB_sound _ _ hr).imp fun _ => pegOk_of_B
  obtain ⟨xs, ys, t, rfl, hps, hf⟩ := hs
  have hlen := shown_length hf
  obtain ⟨res', h', hrel⟩ := Peg.rel (fun i e hi => (Json.blind i e hi).flip) h hb.flip (forall₂_flip hf)
  obtain ⟨n, hn⟩ := h'.height
  have ht := hps.bytes
  rw [textAt_eq hlen, ht]
  obtain ⟨m, ⟨ok, st⟩, hm⟩ := eat_conv rt Json.env Json.pegOk Json.keeps n r hp ⟨t, j⟩ ys _ hps (fun h => by cases h) hn
  have hm : eat rt Json.env m r ⟨t, j⟩ = .ret (ok, st) := hm m (Nat.le_refl _)
  have hl := eat_like rt Json.env Json.pegOk Json.keeps m r hp ⟨t, j⟩ ys hps (fun h => by cases h)
  rw [hm] at hl
  have hj := eat_jan (Json.stateless.imp fun _ h => h) (hp.imp fun _ h => ⟨h.noWrap, h.janIn⟩) hm
  obtain ⟨rest, jn⟩ := st
  have hj : jn = j := hj
  subst hj
  refine ⟨m, ?_⟩
  have hl := hl _ rfl
  cases ok with
  | true =>
    obtain ⟨vs, h1, h2⟩ := Fits.yes hl
    cases h'.det h1
    cases res with
    | none => exact hrel.elim
    | some w =>
      have hlw : vs.length = w.length := shown_length (forall₂_flip hrel)
      obtain ⟨us, rfl⟩ := h'.suffix rfl
      have h3 : textAt (xs ++ (us ++ vs)) w = rest := by
        rw [← List.append_assoc, textAt_eq hlw]
        exact h2.bytes
      show eat _ _ _ _ _ = .ret (true, ⟨textAt (xs ++ (us ++ vs)) w, jn⟩)
      rw [h3]
      exact hm
  | false =>
    obtain ⟨h1, h2⟩ := Fits.no hl
    cases h'.det h1
    cases res with
    | some w => exact hrel.elim
    | none =>
      have h2 : rest = t := h2 hk
      subst h2
      show eat _ _ _ _ _ = .ret (false, ⟨textAt (xs ++ ys) cs, jn⟩)
      rw [textAt_eq hlen, ht]
      exact hm

/-- The expression does not tell a malformed byte from U+FFFD. -/
macro "blind" : tactic => `(tactic| repeat' first | exact blind_cls | exact blind_one | exact blind_lit (by decide) | trivial | refine ⟨?_, ?_⟩)

theorem reads_yes {r : Reader} (hr : r.everyB (Reader.pegOkB false) = true) (hk : r.keepsB = true) (hb : r.peg.Blind Shown) {cs w : List Char}
    (hs : Seen zs cs) (h : Peg Json.env.peg r.peg (img cs) (some (img w))) : E rt Json.env r ⟨textAt zs cs, j⟩ (true, ⟨textAt zs w, j⟩) :=
  toE hr hk hb hs (res := some w) h

theorem reads_no {r : Reader} (hr : r.everyB (Reader.pegOkB false) = true) (hk : r.keepsB = true) (hb : r.peg.Blind Shown) {cs : List Char}
    (hs : Seen zs cs) (h : Peg Json.env.peg r.peg (img cs) none) : E rt Json.env r ⟨textAt zs cs, j⟩ (false, ⟨textAt zs cs, j⟩) :=
  toE hr hk hb hs (res := none) h

/-- The error of reading `r` at `cs`. -/
abbrev Blame (rt : Rt) (L : Nat) (j : Nat → Bytes) (zs : List Piece) (r : Reader) (cs : List Char) (e : Err) : Prop :=
  Seen zs cs → Blames rt Json.env (E rt Json.env) L (.read r) ⟨textAt zs cs, j⟩ [e]

/-- The place of `cs`. -/
abbrev place (L : Nat) (zs : List Piece) (cs : List Char) : Int := (L : Int) - (textAt zs cs).length

theorem own {r : Reader} {w : Bytes} {cs : List Char} (hr : r.everyB (Reader.pegOkB false) = true) (hk : r.keepsB = true) (hb : r.peg.Blind Shown)
    (h : Peg Json.env.peg r.peg (img cs) none) (h' : r.owns = true) (he : complaint rt Json.env j (place L zs cs) r = .read (place L zs cs) w) :
    Blame rt L j zs r cs (.read (place L zs cs) w) :=
  fun hs => he ▸ Blames.self (m := ⟨textAt zs cs, j⟩) h' (reads_no hr hk hb hs h)

/-! ### single characters -/

theorem rune_blame (n : Nat) (hn : n ≠ 0xFFFD) {cs : List Char} (h : Avoid (· = n) cs) :
    Blame rt L j zs (.rune n) cs (.read (place L zs cs) (quoteRuneToGraphic rt n)) :=
  own rfl rfl (by blind) (peg_ru_no (n := n) h hn) rfl rfl

theorem quote_at (n : Nat) (h : n ≠ 39 ∧ n ≠ 92 ∧ 32 ≤ n ∧ n < 127) : quoteRuneToGraphic rt n = [39, UInt8.ofNat n, 39] := by
  have h1 : validRune (n : Int) = true := by simp [validRune]; omega
  have h2 : encodeRune (n : Int) = [UInt8.ofNat n] := by
    unfold encodeRune
    rw [if_pos h1]
    dsimp only
    rw [if_pos (by omega)]
    simp
  unfold quoteRuneToGraphic escapeRune
  rw [if_pos h1, if_neg (by simp; omega), if_pos (by simp; omega), h2]
  rfl

theorem what_onenine : (Reader.between 49 57).what rt Json.env = b!"<19>" := by
  have h1 := quote_at (rt := rt) 49 (by decide)
  have h2 := quote_at (rt := rt) 57 (by decide)
  show (if (49 : Int) = 57 then quoteRuneToGraphic rt 49 else b!"<" ++ trimQuote (quoteRuneToGraphic rt ((49 : Nat) : Int)) ++ trimQuote (quoteRuneToGraphic rt ((57 : Nat) : Int)) ++ b!">") = _
  rw [h1, h2]
  rfl

theorem what_null : (Reader.lit b!"null").what rt Json.env = b!"\"null\"" := by
  have e : ∀ n : Nat, n = 110 ∨ n = 117 ∨ n = 108 → encodeRune (n : Int) = [UInt8.ofNat n] := by
    rintro n (rfl | rfl | rfl) <;> decide
  have h1 : ∀ u, decodeRune (110 :: u) = (110, 1) := fun u => rfl
  have h2 : ∀ u, decodeRune (117 :: u) = (117, 1) := fun u => rfl
  have h3 : ∀ u, decodeRune (108 :: u) = (108, 1) := fun u => rfl
  show quoteToGraphic rt b!"null" = _
  have e1 : encodeRune 110 = [110] := by decide
  have e2 : encodeRune 117 = [117] := by decide
  have e3 : encodeRune 108 = [108] := by decide
  simp [quoteToGraphic, quoteGo, h1, h2, h3, escapeRune, e1, e2, e3, runeError]

/-! ### the alternatives of a value -/

theorem object_blame {cs : List Char} (h : Avoid (· = 123) cs) : ∃ w, Blame rt L j zs (.rule iObject) cs (.read (place L zs cs) w) :=
  ⟨_, fun hs => .rule (nm := b!"object") (c := .seq [.rune 123, .any [.rule iMembers, .rule iWS], .rune 125]) rfl (.seqFail (rune_blame 123 (by decide) h hs))⟩

theorem array_blame {cs : List Char} (h : Avoid (· = 91) cs) : ∃ w, Blame rt L j zs (.rule iArray) cs (.read (place L zs cs) w) :=
  ⟨_, fun hs => .rule (nm := b!"array") (c := .seq [.rune 91, .any [.rule iElements, .rule iWS], .rune 93]) rfl (.seqFail (rune_blame 91 (by decide) h hs))⟩

theorem string_blame {cs : List Char} (h : Avoid (· = 34) cs) : ∃ w, Blame rt L j zs (.rule iString) cs (.read (place L zs cs) w) :=
  ⟨_, fun hs => .rule (nm := b!"string") (c := .seq [.rune 34, .rule iCharacters, .rune 34]) rfl (.seqFail (rune_blame 34 (by decide) h hs))⟩

theorem lit_no {ds cs : List Char} (h : ¬ ds <+: cs) : Peg Json.env.peg (litExp (encText ds)) (img cs) none := by
  rw [litExp_enc]
  rcases peg_chars (P := Json.env.peg) ds (pieces_encText cs) with ⟨t', ys, h1, h2, h3⟩ | ⟨_, h1⟩
  · obtain ⟨u, v, h4, h5, h6⟩ := sound h3
    exact absurd ⟨v, by rw [h4, clang_chars h6]⟩ h
  · exact h1

theorem lit_blame {ds : List Char} {cs : List Char} (ha : (Reader.lit (encText ds)).everyB (Reader.pegOkB false) = true)
    (hd : ∀ d ∈ ds, d.toNat ≠ 0xFFFD) (h : ¬ ds <+: cs) :
    Blame rt L j zs (.lit (encText ds)) cs (.read (place L zs cs) ((Reader.lit (encText ds)).what rt Json.env)) :=
  own ha rfl (blind_lit hd) (lit_no h) rfl rfl

/-- The sign is read or not, and then there is no digit. -/
theorem number_blame {cs r : List Char} (h : Peg Json.env.peg (.alt (cls (fun r => r = 45)) .eps) (img cs) (some (img r))) (hd : Avoid isDigit r) :
    Blame rt L j zs (.rule iNumber) cs (.read (place L zs r) b!"<19>") := by
  intro hs
  have hsr : Seen zs r := hs.of_suffix (shrinks h)
  refine .rule (nm := b!"number") (c := .seq [.rule iInteger, .rule iFraction, .rule iExponent]) rfl (.seqFail
    (.rule (nm := b!"integer") (c := .seq [.opt (.rune 45), .any [.rune 48, .seq [.rule iOneNine, .opt (.rule iDigits)]]]) rfl
      (.seqCons (m := ⟨textAt zs r, j⟩) (reads_yes rfl rfl (by blind) hs h) (.seqFail (.any (es := [.read (place L zs r) (quoteRuneToGraphic rt (48 : Nat)), .read (place L zs r) b!"<19>"])
        (.altsCons (m := ⟨textAt zs r, j⟩) ?_ ?_ (.altsCons (m := ⟨textAt zs r, j⟩) ?_ ?_ .altsNil)) ?_)))))
  · exact rune_blame 48 (by decide) (hd.imp fun n hn => by unfold isDigit; omega) hsr
  · exact reads_no rfl rfl (by blind) hsr (peg_ru_no (n := 48) (hd.imp fun n hn => by unfold isDigit; omega) (by decide))
  · exact .seqFail (.rule (nm := b!"onenine") (c := .between 49 57) rfl (own rfl rfl (by blind) (peg_one_no (hd.imp fun n hn => by unfold isDigit; omega)) rfl (congrArg _ what_onenine) hsr))
  · exact reads_no rfl rfl (by blind) hsr (.seqNo (onenine_no hd))
  · exact .inl ⟨[.read (place L zs r) (quoteRuneToGraphic rt (48 : Nat))], _, _, [], rfl, rfl, (fun m w hm => by
      cases List.mem_singleton.mp hm
      exact Int.le_refl _), fun m w hm => by cases hm⟩

theorem number_blame_no {cs : List Char} (h : Avoid (fun n => n = 45 ∨ isDigit n) cs) : ∃ w, Blame rt L j zs (.rule iNumber) cs (.read (place L zs cs) w) :=
  ⟨_, number_blame (.altNo (peg_ru_no (n := 45) (h.imp fun n hn => .inl hn) (by decide)) .eps) (h.imp fun n hn => .inr hn)⟩

theorem bool_blame {cs : List Char} (h1 : ¬ ['t', 'r', 'u', 'e'] <+: cs) (h2 : ¬ ['f', 'a', 'l', 's', 'e'] <+: cs) :
    ∃ w, Blame rt L j zs (.rule iBool) cs (.read (place L zs cs) w) := by
  have b1 := lit_blame (rt := rt) (L := L) (j := j) (zs := zs) (ds := ['t', 'r', 'u', 'e']) (by decide) (by decide) h1
  have b2 := lit_blame (rt := rt) (L := L) (j := j) (zs := zs) (ds := ['f', 'a', 'l', 's', 'e']) (by decide) (by decide) h2
  refine ⟨_, fun hs => .rule (nm := b!"bool") (c := .any [.lit (encText ['t', 'r', 'u', 'e']), .lit (encText ['f', 'a', 'l', 's', 'e'])]) rfl (.any
    (.altsCons (m := ⟨textAt zs cs, j⟩) (b1 hs) (reads_no (by decide) rfl (by blind) hs (lit_no h1)) (.altsCons (m := ⟨textAt zs cs, j⟩) (b2 hs) (reads_no (by decide) rfl (by blind) hs (lit_no h2)) .altsNil))
    (.inl ⟨[_], _, _, [], rfl, rfl, (fun m w hm => ?_), fun m w hm => by cases hm⟩))⟩
  cases List.mem_singleton.mp hm
  exact Int.le_refl _

theorem bool_fails {cs : List Char} (h1 : ¬ ['t', 'r', 'u', 'e'] <+: cs) (h2 : ¬ ['f', 'a', 'l', 's', 'e'] <+: cs) : Peg Json.env.peg (.nt 21) (img cs) none :=
  .nt (e := choice [litExp (encText ['t', 'r', 'u', 'e']), litExp (encText ['f', 'a', 'l', 's', 'e'])]) rfl (.altNo (lit_no h1) (.altNo (lit_no h2) (.negNo .eps)))

theorem null_blame {cs : List Char} (h : ¬ ['n', 'u', 'l', 'l'] <+: cs) : Blame rt L j zs (.rule iNull) cs (.read (place L zs cs) b!"\"null\"") := by
  have := lit_blame (rt := rt) (L := L) (j := j) (zs := zs) (ds := ['n', 'u', 'l', 'l']) (by decide) (by decide) h
  rw [show encText ['n', 'u', 'l', 'l'] = b!"null" from rfl, what_null] at this
  exact fun hs => .rule (nm := b!"null") rfl (this hs)

theorem null_fails {cs : List Char} (h : ¬ ['n', 'u', 'l', 'l'] <+: cs) : Peg Json.env.peg (.nt 22) (img cs) none :=
  .nt (e := litExp (encText ['n', 'u', 'l', 'l'])) rfl (lit_no h)

/-- The error of a value from those of the alternatives. -/
theorem value_blame {cs : List Char} {e1 e2 e3 e4 e5 e6 e : Err} (h1 : Blame rt L j zs (.rule iObject) cs e1) (p1 : Peg Json.env.peg (.nt 1) (img cs) none)
    (h2 : Blame rt L j zs (.rule iArray) cs e2) (p2 : Peg Json.env.peg (.nt 5) (img cs) none) (h3 : Blame rt L j zs (.rule iString) cs e3)
    (p3 : Peg Json.env.peg (.nt 8) (img cs) none) (h4 : Blame rt L j zs (.rule iNumber) cs e4) (p4 : Peg Json.env.peg (.nt 13) (img cs) none)
    (h5 : Blame rt L j zs (.rule iBool) cs e5) (p5 : Peg Json.env.peg (.nt 21) (img cs) none) (h6 : Blame rt L j zs (.rule iNull) cs e6)
    (p6 : Peg Json.env.peg (.nt 22) (img cs) none) (hd : Deepest [e1, e2, e3, e4, e5, e6] e) : Blame rt L j zs (.rule iValue) cs e :=
  fun hs => .rule (nm := b!"value") (c := .any [.rule iObject, .rule iArray, .rule iString, .rule iNumber, .rule iBool, .rule iNull]) rfl
    (.any (.altsCons (h1 hs) (reads_no rfl rfl (by blind) hs p1) (.altsCons (h2 hs) (reads_no rfl rfl (by blind) hs p2) (.altsCons (h3 hs) (reads_no rfl rfl (by blind) hs p3) (.altsCons (h4 hs) (reads_no rfl rfl (by blind) hs p4)
      (.altsCons (h5 hs) (reads_no rfl rfl (by blind) hs p5) (.altsCons (h6 hs) (reads_no rfl rfl (by blind) hs p6) .altsNil)))))) hd)

theorem deepest_at {pre post : List Err} {p q : Int} {w : Bytes} (hpre : ∀ e ∈ pre, ∃ w', e = .read p w') (hpost : ∀ e ∈ post, ∃ w', e = .read p w') (h : p < q) :
    Deepest (pre ++ .read q w :: post) (.read q w) := by
  refine .inl ⟨pre, q, w, post, rfl, rfl, fun m w' hm => ?_, fun m w' hm => ?_⟩
  · obtain ⟨_, h1⟩ := hpre _ hm
    cases h1
    omega
  · obtain ⟨_, h1⟩ := hpost _ hm
    cases h1
    exact h

theorem nil_lit {c d : Char} {ds cs : List Char} (h : d ≠ c) : ¬ (d :: ds) <+: (c :: cs) := by
  rintro ⟨x, hx⟩
  cases hx
  exact h rfl

theorem textAt_append {u v : List Char} (hs : Seen zs (u ++ v)) : ∃ x, textAt zs (u ++ v) = x ++ textAt zs v ∧ (u ≠ [] → x ≠ []) := by
  obtain ⟨xs, ys, t, rfl, hp, hf⟩ := hs
  have hl := shown_length hf
  rw [textAt_eq hl]
  rw [List.length_append] at hl
  have hd := List.take_append_drop u.length ys
  have h1 : (ys.drop u.length).length = v.length := by rw [List.length_drop]; omega
  have h2 : textAt (xs ++ ys) v = bytesOf (ys.drop u.length) := by
    rw [← textAt_eq (xs := xs ++ ys.take u.length) h1, List.append_assoc, hd]
  refine ⟨bytesOf (ys.take u.length), ?_, fun hu he => ?_⟩
  · rw [h2]
    conv => lhs; rw [← hd]
    unfold bytesOf
    exact List.flatMap_append ..
  · cases u with
    | nil => exact hu rfl
    | cons c u =>
      cases ys with
      | nil => simp only [List.length_nil, List.length_cons] at hl; omega
      | cons z ys =>
        simp only [bytesOf, List.length_cons, List.take_succ_cons, List.flatMap_cons, List.append_eq_nil_iff] at he
        exact hp.ne_nil z List.mem_cons_self he.1

theorem place_lt {u v : List Char} (hs : Seen zs (u ++ v)) (h : u ≠ []) : place L zs (u ++ v) < place L zs v := by
  obtain ⟨x, hx, h1⟩ := textAt_append hs
  have := List.length_pos_of_ne_nil (h1 h)
  unfold place
  rw [hx, List.length_append]
  omega

/-! ### what is missing -/

theorem notIn {l : List Char} {cs : List Char} {p : Nat → Prop} (h : NotIn l cs) (hp : ∀ c : Char, p c.toNat → c ∈ l) : Avoid p cs :=
  fun c r e hc => h c r e (hp c hc)

theorem char_of {c : Char} {d : Char} (h : c.toNat = d.toNat) : c = d := Char.toNat_inj.mp h

theorem digit_mem {c : Char} (h : isDigit c.toNat) : c ∈ ['0', '1', '2', '3', '4', '5', '6', '7', '8', '9'] := by
  have : c.toNat = '0'.toNat ∨ c.toNat = '1'.toNat ∨ c.toNat = '2'.toNat ∨ c.toNat = '3'.toNat ∨ c.toNat = '4'.toNat ∨ c.toNat = '5'.toNat ∨
      c.toNat = '6'.toNat ∨ c.toNat = '7'.toNat ∨ c.toNat = '8'.toNat ∨ c.toNat = '9'.toNat := by
    unfold isDigit at h
    show c.toNat = 48 ∨ c.toNat = 49 ∨ c.toNat = 50 ∨ c.toNat = 51 ∨ c.toNat = 52 ∨ c.toNat = 53 ∨ c.toNat = 54 ∨ c.toNat = 55 ∨ c.toNat = 56 ∨ c.toNat = 57
    omega
  simpa only [Char.toNat_inj, List.mem_cons, List.not_mem_nil, or_false] using this

theorem ws_mem {c : Char} (h : isWS c.toNat) : c ∈ [' ', '\n', '\r', '\t'] := by
  have : c.toNat = ' '.toNat ∨ c.toNat = '\n'.toNat ∨ c.toNat = '\r'.toNat ∨ c.toNat = '\t'.toNat := by
    unfold isWS at h
    show c.toNat = 32 ∨ c.toNat = 10 ∨ c.toNat = 13 ∨ c.toNat = 9
    omega
  simpa only [Char.toNat_inj, List.mem_cons, List.not_mem_nil, or_false] using this

theorem value_missing {r : List Char} (h : NotIn [' ', '\n', '\r', '\t', '{', '[', '"', '-', '0', '1', '2', '3', '4', '5', '6', '7', '8', '9'] r)
    (h1 : ¬ ['t', 'r', 'u', 'e'] <+: r) (h2 : ¬ ['f', 'a', 'l', 's', 'e'] <+: r) (h3 : ¬ ['n', 'u', 'l', 'l'] <+: r) :
    Blame rt L j zs (.rule iValue) r (.read (place L zs r) b!"\"null\"") := by
  have a1 : Avoid (· = 123) r := notIn h fun c hc => by rw [char_of (d := '{') hc]; decide
  have a2 : Avoid (· = 91) r := notIn h fun c hc => by rw [char_of (d := '[') hc]; decide
  have a3 : Avoid (· = 34) r := notIn h fun c hc => by rw [char_of (d := '"') hc]; decide
  have a4 : Avoid (fun n => n = 45 ∨ isDigit n) r := notIn h fun c hc => by
    rcases hc with hc | hc
    · rw [char_of (d := '-') hc]; decide
    · have := digit_mem hc
      simp only [List.mem_cons, List.not_mem_nil, or_false] at this ⊢
      tauto
  obtain ⟨w1, b1⟩ := object_blame (rt := rt) (L := L) (j := j) (zs := zs) a1
  obtain ⟨w2, b2⟩ := array_blame (rt := rt) (L := L) (j := j) (zs := zs) a2
  obtain ⟨w3, b3⟩ := string_blame (rt := rt) (L := L) (j := j) (zs := zs) a3
  obtain ⟨w4, b4⟩ := number_blame_no (rt := rt) (L := L) (j := j) (zs := zs) a4
  obtain ⟨w5, b5⟩ := bool_blame (rt := rt) (L := L) (j := j) (zs := zs) h1 h2
  refine value_blame b1 (object_no a1) b2 (array_no a2) b3 (string_no a3) b4 (number_no a4) b5 (bool_fails h1 h2) (null_blame h3) (null_fails h3)
    (.inl ⟨[_, _, _, _, _], _, _, [], rfl, rfl, fun m w hm => ?_, fun m w hm => by cases hm⟩)
  simp only [List.mem_cons, List.not_mem_nil, or_false, Err.read.injEq] at hm
  omega

/-- The alternatives that fail at once. -/
structure Others (rt : Rt) (L : Nat) (j : Nat → Bytes) (zs : List Piece) (cs : List Char) (k : Nat) : Prop where
  object : k ≠ 1 → (∃ w, Blame rt L j zs (.rule iObject) cs (.read (place L zs cs) w)) ∧ Peg Json.env.peg (.nt 1) (img cs) none
  array : k ≠ 5 → (∃ w, Blame rt L j zs (.rule iArray) cs (.read (place L zs cs) w)) ∧ Peg Json.env.peg (.nt 5) (img cs) none
  string : k ≠ 8 → (∃ w, Blame rt L j zs (.rule iString) cs (.read (place L zs cs) w)) ∧ Peg Json.env.peg (.nt 8) (img cs) none
  number : k ≠ 13 → (∃ w, Blame rt L j zs (.rule iNumber) cs (.read (place L zs cs) w)) ∧ Peg Json.env.peg (.nt 13) (img cs) none
  bool : (∃ w, Blame rt L j zs (.rule iBool) cs (.read (place L zs cs) w)) ∧ Peg Json.env.peg (.nt 21) (img cs) none
  null : (∃ w, Blame rt L j zs (.rule iNull) cs (.read (place L zs cs) w)) ∧ Peg Json.env.peg (.nt 22) (img cs) none

theorem others {c : Char} {cs : List Char} {k : Nat} (h : (c, k) ∈ [('{', 1), ('[', 5), ('"', 8), ('-', 13)]) : Others rt L j zs (c :: cs) k := by
  simp only [List.mem_cons, List.not_mem_nil, or_false, Prod.mk.injEq] at h
  have av : ∀ {p : Nat → Prop}, ¬ p c.toNat → Avoid p (c :: cs) := fun h => .cons h
  have t : c ≠ 't' ∧ c ≠ 'f' ∧ c ≠ 'n' := by rcases h with ⟨rfl, _⟩ | ⟨rfl, _⟩ | ⟨rfl, _⟩ | ⟨rfl, _⟩ <;> decide
  have l1 : ¬ ['t', 'r', 'u', 'e'] <+: c :: cs := nil_lit t.1.symm
  have l2 : ¬ ['f', 'a', 'l', 's', 'e'] <+: c :: cs := nil_lit t.2.1.symm
  have l3 : ¬ ['n', 'u', 'l', 'l'] <+: c :: cs := nil_lit t.2.2.symm
  refine ⟨fun hk => ?_, fun hk => ?_, fun hk => ?_, fun hk => ?_, ⟨bool_blame l1 l2, bool_fails l1 l2⟩, ⟨_, null_blame l3⟩, null_fails l3⟩
  · have : ¬ c.toNat = 123 := by rcases h with ⟨rfl, rfl⟩ | ⟨rfl, rfl⟩ | ⟨rfl, rfl⟩ | ⟨rfl, rfl⟩ <;> first | exact absurd rfl hk | decide
    exact ⟨object_blame (av this), object_no (av this)⟩
  · have : ¬ c.toNat = 91 := by rcases h with ⟨rfl, rfl⟩ | ⟨rfl, rfl⟩ | ⟨rfl, rfl⟩ | ⟨rfl, rfl⟩ <;> first | exact absurd rfl hk | decide
    exact ⟨array_blame (av this), array_no (av this)⟩
  · have : ¬ c.toNat = 34 := by rcases h with ⟨rfl, rfl⟩ | ⟨rfl, rfl⟩ | ⟨rfl, rfl⟩ | ⟨rfl, rfl⟩ <;> first | exact absurd rfl hk | decide
    exact ⟨string_blame (av this), string_no (av this)⟩
  · have : ¬ (c.toNat = 45 ∨ isDigit c.toNat) := by
      unfold isDigit
      rcases h with ⟨rfl, rfl⟩ | ⟨rfl, rfl⟩ | ⟨rfl, rfl⟩ | ⟨rfl, rfl⟩ <;> first | exact absurd rfl hk | decide
    exact ⟨number_blame_no (av this), number_no (av this)⟩

theorem digit_missing {r : List Char} (h : NotIn ['0', '1', '2', '3', '4', '5', '6', '7', '8', '9'] r) :
    Blame rt L j zs (.rule iValue) ('-' :: r) (.read (place L zs r) b!"<19>") := by
  have a : Avoid isDigit r := notIn h fun c hc => digit_mem hc
  have p : Peg Json.env.peg (.alt (cls (fun r => r = 45)) .eps) (img ('-' :: r)) (some (img r)) := .alt (peg_ru_yes '-' rfl)
  have o := others (rt := rt) (L := L) (j := j) (zs := zs) (c := '-') (cs := r) (k := 13) (by simp)
  obtain ⟨⟨w1, b1⟩, p1⟩ := o.object (by decide)
  obtain ⟨⟨w2, b2⟩, p2⟩ := o.array (by decide)
  obtain ⟨⟨w3, b3⟩, p3⟩ := o.string (by decide)
  obtain ⟨⟨w5, b5⟩, p5⟩ := o.bool
  obtain ⟨⟨w6, b6⟩, p6⟩ := o.null
  intro hs
  refine value_blame b1 p1 b2 p2 b3 p3 (number_blame p a) ?_ b5 p5 b6 p6 (deepest_at (pre := [_, _, _]) (post := [_, _]) (p := place L zs ('-' :: r)) ?_ ?_ (place_lt (u := ['-']) hs (by simp))) hs
  · refine .nt (e := chain [.nt 14, .nt 15, .nt 16]) rfl (.seqNo ?_)
    refine .nt (e := chain [.alt (cls (fun r => r = 45)) .eps, choice [cls (fun r => r = 48), chain [.nt 17, .alt (.nt 19) .eps]]]) rfl (.seq p (.seqNo ?_))
    exact .altNo (peg_ru_no (n := 48) (a.imp fun n hn => by unfold isDigit; omega) (by decide)) (.altNo (.seqNo (onenine_no a)) (.negNo .eps))
  · simp
  · simp

/-- Characters of a string are read as far as they go. -/
theorem characters_read {A : JsonSym} {x : List Char} (h : JsonText A x) : A = .characters → ∀ {r : List Char}, r ≠ [] → NoJson .character r →
    Peg Json.env.peg (.star (.nt 10)) (img (x ++ r)) (some (img r)) := by
  induction h with
  | characters_none =>
    intro _ r hr hn
    refine .starEnd ?_
    obtain ⟨res, h⟩ := character_ends r
    cases res with
    | none => exact h
    | some ys =>
      cases r with
      | nil => exact absurd rfl hr
      | cons c r =>
        obtain ⟨u, v, h1, _, h2, _⟩ := character_cons h
        exact absurd ⟨v, h1.symm⟩ (hn u h2)
  | @characters_more cs ds h1 _ _ ih =>
    intro _ r hr hn
    rw [List.append_assoc]
    exact .star (want h1 (ds ++ r) trivial) (ih rfl hr hn)
  | _ => intro e; cases e

theorem quote_missing {x r : List Char} (hx : JsonText .characters x) (hr : r ≠ []) (hn : NoJson .character r) (hq : NotIn ['"'] r) :
    Blame rt L j zs (.rule iValue) ('"' :: (x ++ r)) (.read (place L zs r) b!"'\"'") := by
  have a : Avoid (· = 34) r := notIn hq fun c hc => by rw [char_of (d := '"') hc]; decide
  have p : Peg Json.env.peg (.nt 9) (img (x ++ r)) (some (img r)) := .nt (e := .star (.nt 10)) rfl (characters_read hx rfl hr hn)
  have q : Peg Json.env.peg (cls (fun r => r = 34)) (img ('"' :: (x ++ r))) (some (img (x ++ r))) := peg_ru_yes '"' rfl
  have b := rune_blame (rt := rt) (L := L) (j := j) (zs := zs) 34 (by decide) a
  rw [quote_at 34 (by decide)] at b
  have o := others (rt := rt) (L := L) (j := j) (zs := zs) (c := '"') (cs := x ++ r) (k := 8) (by simp)
  obtain ⟨⟨w1, b1⟩, p1⟩ := o.object (by decide)
  obtain ⟨⟨w2, b2⟩, p2⟩ := o.array (by decide)
  obtain ⟨⟨w4, b4⟩, p4⟩ := o.number (by decide)
  obtain ⟨⟨w5, b5⟩, p5⟩ := o.bool
  obtain ⟨⟨w6, b6⟩, p6⟩ := o.null
  intro hs
  refine value_blame b1 p1 b2 p2 (fun hs => .rule (nm := b!"string") (c := .seq [.rune 34, .rule iCharacters, .rune 34]) rfl
    (.seqCons (reads_yes rfl rfl (by blind) hs q) (.seqCons (reads_yes rfl rfl (by blind) hs.tail p) (.seqFail (b hs.tail.back))))) ?_ b4 p4 b5 p5 b6 p6
    (deepest_at (pre := [_, _]) (post := [_, _, _]) (p := place L zs ('"' :: (x ++ r))) ?_ ?_ (place_lt (u := '"' :: x) hs (by simp))) hs
  · exact .nt (e := chain [cls (fun r => r = 34), .nt 9, cls (fun r => r = 34)]) rfl (.seq q (.seq p (.seqNo (peg_ru_no (n := 34) a (by decide)))))
  · simp
  · simp

theorem bracket_missing {x r : List Char} (p : Peg Json.env.peg (choice [.nt 6, .nt 23]) (img (x ++ r)) (some (img r))) (hq : NotIn [']'] r) :
    Blame rt L j zs (.rule iValue) ('[' :: (x ++ r)) (.read (place L zs r) b!"']'") := by
  have a : Avoid (· = 93) r := notIn hq fun c hc => by rw [char_of (d := ']') hc]; decide
  have q : Peg Json.env.peg (cls (fun r => r = 91)) (img ('[' :: (x ++ r))) (some (img (x ++ r))) := peg_ru_yes '[' rfl
  have b := rune_blame (rt := rt) (L := L) (j := j) (zs := zs) 93 (by decide) a
  rw [quote_at 93 (by decide)] at b
  have o := others (rt := rt) (L := L) (j := j) (zs := zs) (c := '[') (cs := x ++ r) (k := 5) (by simp)
  obtain ⟨⟨w1, b1⟩, p1⟩ := o.object (by decide)
  obtain ⟨⟨w3, b3⟩, p3⟩ := o.string (by decide)
  obtain ⟨⟨w4, b4⟩, p4⟩ := o.number (by decide)
  obtain ⟨⟨w5, b5⟩, p5⟩ := o.bool
  obtain ⟨⟨w6, b6⟩, p6⟩ := o.null
  intro hs
  refine value_blame b1 p1 (fun hs => .rule (nm := b!"array") (c := .seq [.rune 91, .any [.rule iElements, .rule iWS], .rune 93]) rfl
    (.seqCons (reads_yes rfl rfl (by blind) hs q) (.seqCons (reads_yes rfl rfl (by blind) hs.tail p) (.seqFail (b hs.tail.back))))) ?_ b3 p3 b4 p4 b5 p5 b6 p6
    (deepest_at (pre := [_]) (post := [_, _, _, _]) (p := place L zs ('[' :: (x ++ r))) ?_ ?_ (place_lt (u := '[' :: x) hs (by simp))) hs
  · exact .nt (e := chain [cls (fun r => r = 91), choice [.nt 6, .nt 23], cls (fun r => r = 93)]) rfl (.seq q (.seq p (.seqNo (peg_ru_no (n := 93) a (by decide)))))
  · simp
  · simp

theorem brace_missing {x r : List Char} (p : Peg Json.env.peg (choice [.nt 2, .nt 23]) (img (x ++ r)) (some (img r))) (hq : NotIn ['}'] r) :
    Blame rt L j zs (.rule iValue) ('{' :: (x ++ r)) (.read (place L zs r) b!"'}'") := by
  have a : Avoid (· = 125) r := notIn hq fun c hc => by rw [char_of (d := '}') hc]; decide
  have q : Peg Json.env.peg (cls (fun r => r = 123)) (img ('{' :: (x ++ r))) (some (img (x ++ r))) := peg_ru_yes '{' rfl
  have b := rune_blame (rt := rt) (L := L) (j := j) (zs := zs) 125 (by decide) a
  rw [quote_at 125 (by decide)] at b
  have o := others (rt := rt) (L := L) (j := j) (zs := zs) (c := '{') (cs := x ++ r) (k := 1) (by simp)
  obtain ⟨⟨w2, b2⟩, p2⟩ := o.array (by decide)
  obtain ⟨⟨w3, b3⟩, p3⟩ := o.string (by decide)
  obtain ⟨⟨w4, b4⟩, p4⟩ := o.number (by decide)
  obtain ⟨⟨w5, b5⟩, p5⟩ := o.bool
  obtain ⟨⟨w6, b6⟩, p6⟩ := o.null
  intro hs
  refine value_blame (fun hs => .rule (nm := b!"object") (c := .seq [.rune 123, .any [.rule iMembers, .rule iWS], .rune 125]) rfl
    (.seqCons (reads_yes rfl rfl (by blind) hs q) (.seqCons (reads_yes rfl rfl (by blind) hs.tail p) (.seqFail (b hs.tail.back))))) ?_ b2 p2 b3 p3 b4 p4 b5 p5 b6 p6
    (deepest_at (pre := []) (post := [_, _, _, _, _]) (p := place L zs ('{' :: (x ++ r))) ?_ ?_ (place_lt (u := '{' :: x) hs (by simp))) hs
  · exact .nt (e := chain [cls (fun r => r = 123), choice [.nt 2, .nt 23], cls (fun r => r = 125)]) rfl (.seq q (.seq p (.seqNo (peg_ru_no (n := 125) a (by decide)))))
  · simp
  · simp

theorem in_element {us r : List Char} {e : Err} (hu : JsonText .ws us) (hr : Avoid isWS r) (h : Blame rt L j zs (.rule iValue) r e) :
    Blame rt L j zs (.rule iElement) (us ++ r) e :=
  fun hs => .rule (nm := b!"element") (c := .seq [.rule iWS, .rule iValue, .rule iWS]) rfl (.seqCons (reads_yes rfl rfl (by blind) hs ((want hu).2.1 r hr)) (.seqFail (h hs.back)))

theorem fault_blames {cs f : List Char} {m : JsonMissing} (h : JsonFault cs f m) :
    ∃ r, cs = f ++ r ∧ Blame rt L j zs (.rule iElement) cs (.read (place L zs r) m.words) := by
  have ws : ∀ {c : Char} {r : List Char}, ¬ isWS c.toNat → Avoid isWS (c :: r) := fun h => .cons h
  cases h with
  | @value _ r h hu h0 h1 h2 h3 =>
    subst h
    refine ⟨r, rfl, in_element hu (notIn h0 fun c hc => ?_) (value_missing h0 h1 h2 h3)⟩
    have := ws_mem hc
    simp only [List.mem_cons, List.not_mem_nil, or_false] at this ⊢
    tauto
  | @digit us r h hu h0 =>
    subst h
    exact ⟨r, by simp, in_element hu (ws (by unfold isWS; decide)) (digit_missing h0)⟩
  | @quote us x r h hu hx hr hn hq =>
    subst h
    exact ⟨r, by simp, in_element hu (ws (by unfold isWS; decide)) (quote_missing hx hr hn hq)⟩
  | @elements us x r h hu hc hx hq =>
    subst h
    exact ⟨r, by simp, in_element hu (ws (by unfold isWS; decide)) (bracket_missing (.alt (elements_read hc hx)) hq)⟩
  | @element us x r h hu hc hn hx hq =>
    subst h
    exact ⟨r, by simp, in_element hu (ws (by unfold isWS; decide)) (bracket_missing (.altNo (elements_fail hc hn) (.alt (ws_most hx))) hq)⟩
  | @members us x r h hu hc hx hq =>
    subst h
    exact ⟨r, by simp, in_element hu (ws (by unfold isWS; decide)) (brace_missing (.alt (members_read hc hx)) hq)⟩
  | @member us x r h hu hc hn hx hq =>
    subst h
    exact ⟨r, by simp, in_element hu (ws (by unfold isWS; decide)) (brace_missing (.altNo (members_fail hc hn) (.alt (ws_most hx))) hq)⟩

/-! ### something is missing -/

theorem notIn_or (l r : List Char) : NotIn l r ∨ ∃ c ∈ l, ∃ r', r = c :: r' := by
  by_cases h : NotIn l r
  · exact .inl h
  · right
    unfold NotIn at h
    push Not at h
    obtain ⟨c, r', rfl, hc⟩ := h
    exact ⟨c, hc, r', rfl⟩

theorem digit_text {c : Char} (h : c ∈ ['0', '1', '2', '3', '4', '5', '6', '7', '8', '9']) : JsonText .digit [c] := by
  by_cases h0 : c = '0'
  · subst h0; exact .digit_zero
  · refine .digit_onenine (.onenine ?_ ?_) <;>
    · simp only [List.mem_cons, List.not_mem_nil, or_false] at h
      rcases h with rfl | rfl | rfl | rfl | rfl | rfl | rfl | rfl | rfl | rfl <;> first | exact absurd rfl h0 | decide

theorem doc_of {us v r : List Char} (hu : JsonText .ws us) (hv : JsonText .value v) : ∃ ds es, us ++ (v ++ r) = ds ++ es ∧ JsonDoc ds :=
  ⟨us ++ (v ++ []), r, by simp, .element hu hv .ws_none⟩

theorem fault_ex {cs : List Char} (hd : ∀ ds es, cs = ds ++ es → ¬ JsonDoc ds) (hc : ¬ JsonCut .element cs) : ∃ f m, JsonFault cs f m := by
  obtain ⟨us, r, rfl, _, hm⟩ := ws_split cs
  have hu := hm.1
  have hs := most_ws_stop hm
  have hv : ∀ {v r'}, r = v ++ r' → ¬ JsonText .value v := by
    rintro v r' rfl hv
    obtain ⟨ds, es, h1, h2⟩ := doc_of (r := r') hu hv
    exact hd ds es h1 h2
  have hcv : ¬ JsonCut .value r := fun h => hc (.element hu h)
  by_cases t1 : ['t', 'r', 'u', 'e'] <+: r
  · obtain ⟨r', rfl⟩ := t1; exact absurd .value_true (hv rfl)
  by_cases t2 : ['f', 'a', 'l', 's', 'e'] <+: r
  · obtain ⟨r', rfl⟩ := t2; exact absurd .value_false (hv rfl)
  by_cases t3 : ['n', 'u', 'l', 'l'] <+: r
  · obtain ⟨r', rfl⟩ := t3; exact absurd .value_null (hv rfl)
  rcases notIn_or [' ', '\n', '\r', '\t', '{', '[', '"', '-', '0', '1', '2', '3', '4', '5', '6', '7', '8', '9'] r with h0 | ⟨c, hc0, r', rfl⟩
  · exact ⟨_, _, .value rfl hu h0 t1 t2 t3⟩
  by_cases hw : c ∈ [' ', '\n', '\r', '\t']
  · refine absurd ?_ (hs c r' rfl)
    simp only [List.mem_cons, List.not_mem_nil, or_false] at hw
    unfold isWS
    rcases hw with rfl | rfl | rfl | rfl <;> decide
  by_cases hdg : c ∈ ['0', '1', '2', '3', '4', '5', '6', '7', '8', '9']
  · exact absurd (.value_number (.number (fs := []) (es := []) (.integer_digit (digit_text hdg)) .fraction_none .exponent_none)) (hv (v := [c]) rfl)
  have h4 : c = '{' ∨ c = '[' ∨ c = '"' ∨ c = '-' := by
    simp only [List.mem_cons, List.not_mem_nil, or_false] at hc0 hw hdg
    tauto
  rcases h4 with rfl | rfl | rfl | rfl
  · have hcm : ¬ JsonCut .members r' := fun h => hcv (.value_object (.object h))
    rcases members_split hcm with ⟨x, r, rfl, hx⟩ | hn
    · refine ⟨_, _, .members rfl hu hcm hx fun c r' e hcc => ?_⟩
      cases List.mem_singleton.mp hcc
      subst e
      exact hv (v := '{' :: (x ++ ['}'])) (r' := r') (by simp) (.value_object (.object_members hx.1))
    · obtain ⟨x, r, rfl, _, hx⟩ := ws_split r'
      refine ⟨_, _, .member rfl hu hcm hn hx fun c r' e hcc => ?_⟩
      cases List.mem_singleton.mp hcc
      subst e
      exact hv (v := '{' :: (x ++ ['}'])) (r' := r') (by simp) (.value_object (.object_ws hx.1))
  · have hcm : ¬ JsonCut .elements r' := fun h => hcv (.value_array (.array h))
    rcases elements_split hcm with ⟨x, r, rfl, hx⟩ | hn
    · refine ⟨_, _, .elements rfl hu hcm hx fun c r' e hcc => ?_⟩
      cases List.mem_singleton.mp hcc
      subst e
      exact hv (v := '[' :: (x ++ [']'])) (r' := r') (by simp) (.value_array (.array_elements hx.1))
    · obtain ⟨x, r, rfl, _, hx⟩ := ws_split r'
      refine ⟨_, _, .element rfl hu hcm hn hx fun c r' e hcc => ?_⟩
      cases List.mem_singleton.mp hcc
      subst e
      exact hv (v := '[' :: (x ++ [']'])) (r' := r') (by simp) (.value_array (.array_ws hx.1))
  · have hch : ¬ JsonText .characters r' := fun h => hcv (.value_string (.string h))
    obtain ⟨res, h⟩ := (characters_ends _ r' (Nat.le_refl _)).resolve_right hch
    have key : ∀ {e : PExp Piece} {xs : List Piece} {res : Option (List Piece)}, Peg Json.env.peg e xs res → e = .star (.nt 10) → ∀ cs, xs = img cs → ∃ x r, cs = x ++ r ∧
        JsonText .characters x ∧ Peg Json.env.peg (.nt 10) (img r) none := by
      intro e xs res h
      induction h with
      | @star a xs ys res h1 h2 ih1 ih2 =>
        rintro he cs rfl
        cases he
        obtain ⟨w, rfl⟩ := img_of h1
        obtain ⟨x, r, rfl, hx, hr⟩ := ih2 rfl w rfl
        cases cs with
        | nil =>
          obtain ⟨d, hdd⟩ := shrinks h1
          have : d = [] ∧ x ++ r = [] := List.append_eq_nil_iff.mp hdd
          exact ⟨[], [], rfl, .characters_none, by rw [show r = [] from (List.append_eq_nil_iff.mp this.2).2] at hr; exact hr⟩
        | cons c cs =>
          obtain ⟨u, v, h3, h4, h5, _⟩ := character_cons h1
          have := img_inj h4
          subst this
          exact ⟨u ++ x, r, by rw [h3, List.append_assoc], .characters_more h5 hx, hr⟩
      | starEnd h1 =>
        rintro he cs rfl
        cases he
        exact ⟨[], cs, rfl, .characters_none, h1⟩
      | _ => intro he; cases he
    obtain ⟨x, r, rfl, hx, hn⟩ := key h rfl r' rfl
    have hr : r ≠ [] := by
      rintro rfl
      rw [List.append_nil] at hch
      exact hch hx
    refine ⟨_, _, .quote rfl hu hx hr ?_ fun c r' e hcc => ?_⟩
    · rintro y hy ⟨z, rfl⟩
      cases hn.det (want hy z trivial)
    · cases List.mem_singleton.mp hcc
      subst e
      exact hv (v := '"' :: (x ++ ['"'])) (r' := r') (by simp) (.value_string (.string hx))
  · rcases notIn_or ['0', '1', '2', '3', '4', '5', '6', '7', '8', '9'] r' with h0 | ⟨c, hcc, r, rfl⟩
    · exact ⟨_, _, .digit rfl hu h0⟩
    · exact absurd (.value_number (.number (fs := []) (es := []) (.integer_minus_digit (digit_text hcc)) .fraction_none .exponent_none)) (hv (v := ['-', c]) rfl)

theorem doc_blames {cs f : List Char} {m : JsonMissing} (h : JsonFault cs f m) (hf : List.Forall₂ Shown zs (img cs)) {t : Bytes} (hp : Pieces t zs) :
    Blames rt Json.env (E rt Json.env) L (.read Json.reader) ⟨t, j⟩
      [.other (b!"json parse error: not able to read " ++ m.words ++ b!" at " ++ itoa ((L : Int) - t.length + (bytesOf (zs.take f.length)).length))] := by
  obtain ⟨r, rfl, hb⟩ := fault_blames (rt := rt) (L := L) (j := j) (zs := zs) h
  have hl := shown_length hf
  have ht : textAt zs (f ++ r) = t := (textAt_eq (xs := []) hl).trans hp.bytes
  have hr : textAt zs r = bytesOf (zs.drop f.length) := by
    have h1 : (zs.drop f.length).length = r.length := by
      rw [List.length_append] at hl
      rw [List.length_drop]
      omega
    have := textAt_eq (xs := zs.take f.length) h1
    rwa [List.take_append_drop] at this
  have hsum : t.length = (bytesOf (zs.take f.length)).length + (bytesOf (zs.drop f.length)).length := by
    rw [← List.length_append, ← hp.bytes]
    conv => lhs; rw [← List.take_append_drop f.length zs]
    unfold bytesOf
    rw [List.flatMap_append]
  have hb := hb ⟨[], zs, t, rfl, hp, hf⟩
  rw [ht] at hb
  have := Blames.grammar (w := b!"json") hb
  rw [show b!"json" ++ b!" parse error: " ++ (Err.read (place L zs r) m.words).text =
    b!"json parse error: not able to read " ++ m.words ++ b!" at " ++ itoa ((L : Int) - t.length + (bytesOf (zs.take f.length)).length) by
    have : place L zs r = (L : Int) - t.length + (bytesOf (zs.take f.length)).length := by
      unfold place
      rw [hr]
      omega
    rw [this]
    simp [Err.text]] at this
  exact this

end Json

/-- A text of any bytes, any position: the error of reading JSON is exactly the message about what is missing; a malformed byte counts as
one character U+FFFD. -/
theorem C91_bytes (rt : Rt) (s : Scanner) (h t : Bytes) (hb : Between s h t) (zs : List Piece) (hp : Pieces t zs)
    (cs : List Char) (hc : zs.map (·.2) = cs.map (fun c => (c.toNat : Int))) (e : Err) :
    (∃ n s', read rt Json.env n Json.reader s = .ret (some e, s')) ↔
    ∃ f m, JsonFault cs f m ∧
      e = .other (b!"json parse error: not able to read " ++ m.words ++ b!" at " ++ itoa (h.length + (bytesOf (zs.take f.length)).length)) := by
  have hr : Json.reader.Every (fun r => r.noWrap = true) := Reader.everyB_sound Reader.noWrap _ rfl
  have conv : ∀ {f m}, JsonFault cs f m → Blames rt Json.env (Outcome rt Json.env) (h ++ t).length (.read Json.reader) ⟨t, s.heap.janus⟩
      [.other (b!"json parse error: not able to read " ++ m.words ++ b!" at " ++ itoa (h.length + (bytesOf (zs.take f.length)).length))] := by
    intro f m hf
    have := Json.doc_blames (rt := rt) (L := (h ++ t).length) (j := s.heap.janus) hf (shown_of hp hc) hp
    rw [show ((h ++ t).length : Int) - t.length + (bytesOf (zs.take f.length)).length = h.length + (bytesOf (zs.take f.length)).length by
      rw [List.length_append]; omega] at this
    exact blames_noWrap Json.noWraps (fun r hr _ _ h => (outcome_iff Json.noWraps hr).mpr h) hr this
  constructor
  · rintro ⟨n, s', h1⟩
    obtain ⟨h2, h3⟩ := (C49_error_partial rt s h _ hb hb.inside _ hp cs hc).mp ⟨n, e, s', h1⟩
    obtain ⟨f, m, hf⟩ := Json.fault_ex h2 h3
    refine ⟨f, m, hf, ?_⟩
    exact List.singleton_inj.mp (C88_unique rt Json.env Json.noWraps Json.reader hr _ _ _ _ (C88_error rt Json.env Json.noWraps Json.reader hr s h _ hb n e s' h1) (conv hf))
  · rintro ⟨f, m, hf, rfl⟩
    exact C88_complete rt Json.env Json.noWraps Json.reader hr s h _ hb _ (conv hf)

/-- What is missing is missing inside the text. -/
theorem Json.fault_front {cs f : List Char} {m : JsonMissing} (h : JsonFault cs f m) : f <+: cs := by
  obtain ⟨r, hr, _⟩ := Json.fault_blames (rt := exRt) (L := 0) (j := fun _ => []) (zs := []) h
  exact ⟨r, hr.symm⟩

/-- The same for UTF-8 texts. -/
theorem C91_fault (rt : Rt) (s : Scanner) (h : Bytes) (cs : List Char) (hb : Between s h (encText cs)) (e : Err) :
    (∃ n s', read rt Json.env n Json.reader s = .ret (some e, s')) ↔
    ∃ f m, JsonFault cs f m ∧ e = .other (b!"json parse error: not able to read " ++ m.words ++ b!" at " ++ itoa (h.length + (encText f).length)) := by
  rw [C91_bytes rt s h _ hb _ (pieces_encText cs) cs (by simp [Function.comp_def]) e]
  have key : ∀ {f m}, JsonFault cs f m → bytesOf ((cs.map fun c => (enc c, (c.toNat : Int))).take f.length) = encText f := by
    intro f m hf
    obtain ⟨r, rfl⟩ := Json.fault_front hf
    simp [bytesOf, encText, List.flatMap_map]
  constructor
  · rintro ⟨f, m, hf, rfl⟩
    exact ⟨f, m, hf, by rw [key hf]⟩
  · rintro ⟨f, m, hf, rfl⟩
    exact ⟨f, m, hf, by rw [key hf]⟩

/-- Only one thing is missing, and in one place. -/
theorem C91_unique {cs f g : List Char} {m m' : JsonMissing} (h : JsonFault cs f m) (h' : JsonFault cs g m') : f = g ∧ m = m' := by
  have hs : Json.Seen (img cs) cs := ⟨[], _, _, rfl, pieces_encText cs, shown_of (pieces_encText cs) (by simp [Function.comp_def])⟩
  obtain ⟨r, hr, hb⟩ := Json.fault_blames (rt := exRt) (L := 0) (j := fun _ => []) (zs := img cs) h
  obtain ⟨r', hr', hb'⟩ := Json.fault_blames (rt := exRt) (L := 0) (j := fun _ => []) (zs := img cs) h'
  have h1 := List.singleton_inj.mp (blames_unique (hb hs) (hb' hs))
  injection h1 with h2 h3
  have key : ∀ {x v : List Char}, Json.Seen (img cs) (x ++ v) → Json.place 0 (img cs) (x ++ v) = Json.place 0 (img cs) v → x = [] := by
    intro x v h4 h5
    by_contra hx
    have := Json.place_lt (L := 0) h4 hx
    omega
  constructor
  · rcases List.prefix_or_prefix_of_prefix ⟨r, hr.symm⟩ ⟨r', hr'.symm⟩ with ⟨x, rfl⟩ | ⟨x, rfl⟩
    · have h4 : r = x ++ r' := List.append_cancel_left ((hr.symm.trans hr').trans (List.append_assoc ..))
      have hsr := Json.Seen.of_suffix hs ⟨f, hr.symm⟩
      subst h4
      rw [key hsr h2.symm, List.append_nil]
    · have h4 : r' = x ++ r := List.append_cancel_left ((hr'.symm.trans hr).trans (List.append_assoc ..))
      have hsr := Json.Seen.of_suffix hs ⟨g, hr'.symm⟩
      subst h4
      rw [key hsr h2, List.append_nil]
  · cases m <;> cases m' <;> first | rfl | (exact absurd h3 (by decide))

/-- Nothing is missing where a document can be read. -/
theorem C91_none {cs f : List Char} {m : JsonMissing} (h : JsonFault cs f m) : (∀ ds es, cs = ds ++ es → ¬ JsonDoc ds) ∧ ¬ JsonCut .element cs := by
  have hb : Between (.new (encText cs) Heap.empty) [] (encText cs) := ⟨rfl, rfl⟩
  obtain ⟨n, s', h1⟩ := (C91_fault exRt _ [] cs hb _).mpr ⟨f, m, h, rfl⟩
  exact (C49_error_partial exRt _ [] _ hb hb.inside _ (pieces_encText cs) cs (by simp [Function.comp_def])).mp ⟨n, _, s', h1⟩

/-- In the first place of an array an error is forgotten: whatever is missing, the message is about the bracket, at the beginning of the element. -/
theorem C91_nested {us r f : List Char} {m : JsonMissing} (h : JsonFault (us ++ r) f m) (hu : JsonMost .ws (us ++ r) us) (hq : NotIn [']'] r) :
    JsonFault ('[' :: (us ++ r)) ('[' :: us) .bracket := by
  obtain ⟨h1, h2⟩ := C91_none h
  refine .element (us := []) rfl .ws_none (fun hc => ?_) (fun y hy => ?_) hu hq
  · generalize us ++ r = cs at *
    cases hc with
    | elements_first hc => exact h2 hc
    | elements_next hd _ => exact h1 _ _ rfl hd
  · rintro ⟨z, hz⟩
    exact h1 y z hz.symm hy

/-- No value; a minus sign alone; a line break in a string. -/
example (rt : Rt) : ∃ n s', read rt Json.env n Json.reader (.new b!" tru" Heap.empty) = .ret (some (.other b!"json parse error: not able to read \"null\" at 1"), s') :=
  (C91_fault rt _ [] [' ', 't', 'r', 'u'] ⟨rfl, rfl⟩ _).mpr ⟨[' '], .value, .value (us := [' ']) rfl (.ws_space .ws_none) (by rintro c r e; cases e; decide) (by decide) (by decide) (by decide), rfl⟩

example (rt : Rt) : ∃ n s', read rt Json.env n Json.reader (.new b!"-a" Heap.empty) = .ret (some (.other b!"json parse error: not able to read <19> at 1"), s') :=
  (C91_fault rt _ [] ['-', 'a'] ⟨rfl, rfl⟩ _).mpr ⟨['-'], .digit, .digit (us := []) rfl .ws_none (by rintro c r e; cases e; decide), rfl⟩

example (rt : Rt) : ∃ n s', read rt Json.env n Json.reader (.new b!"\"a\n\"" Heap.empty) = .ret (some (.other b!"json parse error: not able to read '\"' at 2"), s') :=
  (C91_fault rt _ [] ['"', 'a', '\n', '"'] ⟨rfl, rfl⟩ _).mpr ⟨['"', 'a'], .quote, .quote (us := []) (x := ['a']) rfl .ws_none
    (.characters_more (cs := ['a']) (.character_plain (by decide) (by decide) (by decide) (by decide)) .characters_none) (by simp)
    (by
      rintro y hy ⟨z, hz⟩
      cases hy with
      | character_plain h _ _ _ => cases hz; revert h; decide
      | character_escape _ => cases hz) (by rintro c r e; cases e; decide), rfl⟩

/-- A stray byte counts as one character of the string, and as one byte in the message. -/
example (rt : Rt) : ∃ n s', read rt Json.env n Json.reader (.new [34, 255, 10] Heap.empty) = .ret (some (.other b!"json parse error: not able to read '\"' at 2"), s') :=
  (C91_bytes rt _ [] [34, 255, 10] ⟨rfl, rfl⟩ [([34], 34), ([255], 0xFFFD), ([10], 10)]
    (.cons (.char '"' [255, 10]) rfl (.cons (.bad 255 [10] (by
      rintro c ⟨u, hu⟩
      have := congrArg decodeRune hu
      rw [decodeRune_enc, show decodeRune [255, 10] = (((0xFFFD : Nat) : Int), 1) from rfl] at this
      obtain ⟨h1, h2⟩ := Prod.mk.inj this
      have : c = '\uFFFD' := Char.toNat_inj.mp (Int.ofNat_inj.mp h1)
      subst this
      exact absurd h2 (by decide))) rfl (.cons (.char '\n' []) rfl .nil)))
    ['"', '\uFFFD', '\n'] rfl _).mpr ⟨['"', '\uFFFD'], .quote, .quote (us := []) (x := ['\uFFFD']) rfl .ws_none
    (.characters_more (cs := ['\uFFFD']) (.character_plain (by decide) (by decide) (by decide) (by decide)) .characters_none) (by simp)
    (by
      rintro y hy ⟨z, hz⟩
      cases hy with
      | character_plain h _ _ _ => cases hz; revert h; decide
      | character_escape _ => cases hz) (by rintro c r e; cases e; decide), rfl⟩

/-- In `[1,x]` the bracket is missing behind the first element … -/
theorem Json.ex_second : JsonFault ['[', '1', ',', 'x', ']'] ['[', '1'] .bracket := by
  have d : JsonText .element ['1'] := .element (us := []) (cs := ['1']) (vs := []) .ws_none (.value_number (.number (is := ['1']) (fs := []) (es := [])
    (.integer_digit (.digit_onenine (.onenine (by decide) (by decide)))) .fraction_none .exponent_none)) .ws_none
  have p7 : Peg Json.env.peg (.nt 7) (img ['1', ',', 'x', ']']) (some (img [',', 'x', ']'])) :=
    Json.want d [',', 'x', ']'] (.cons (by unfold Json.isWS Json.inNum Json.isDigit; decide))
  have no : Peg Json.env.peg (.nt 7) (img ['x', ']']) none :=
    Json.element_no (ws := []) (Json.want .ws_none) (.cons (by unfold Json.isWS Json.isHead Json.isDigit; decide))
  have p6 : Peg Json.env.peg (.nt 6) (img (['1'] ++ [',', 'x', ']'])) (some (img [',', 'x', ']'])) :=
    .nt (e := chain [.nt 7, .star (chain [cls (fun r => r = 44), .nt 7])]) rfl (.seq p7 (.seq (.starEnd (.seq (peg_ru_yes ',' rfl) (.seqNo no))) .eps))
  exact .elements (us := []) (x := ['1']) (r := [',', 'x', ']']) rfl .ws_none (fun h => (Json.cut_hangs h).1 _ p6)
    (Json.most_of (i := 6) (A := .elements) (fun _ h => h) Json.upto_elements p6) (by rintro c r e; cases e; decide)

/-- … and in `[[1,x]]` behind the first bracket. -/
example (rt : Rt) : ∃ n s', read rt Json.env n Json.reader (.new b!"[[1,x]" Heap.empty) = .ret (some (.other b!"json parse error: not able to read ']' at 1"), s') :=
  (C91_fault rt _ [] ['[', '[', '1', ',', 'x', ']'] ⟨rfl, rfl⟩ _).mpr ⟨['['], .bracket, C91_nested (us := []) (r := ['[', '1', ',', 'x', ']']) Json.ex_second
    ⟨.ws_none, List.nil_prefix, fun y hy hp => by
      have h1 := Json.ws_run hy rfl
      obtain ⟨z, hz⟩ := hp
      match y, hz with
      | [], _ => simp
      | d :: _, hz =>
        have := h1 d (by simp)
        injection hz with hz _
        subst hz
        exact absurd this (by unfold Json.isWS; decide)⟩ (by rintro c r e; cases e; decide), rfl⟩

example (rt : Rt) : ∃ n s', read rt Json.env n Json.reader (.new b!"[ -a" Heap.empty) = .ret (some (.other b!"json parse error: not able to read ']' at 2"), s') :=
  (C91_fault rt _ [] ['[', ' ', '-', 'a'] ⟨rfl, rfl⟩ _).mpr ⟨['[', ' '], .bracket, C91_nested (us := [' ']) (r := ['-', 'a'])
    (.digit (us := [' ']) rfl (.ws_space .ws_none) (by rintro c r e; cases e; decide))
    ⟨.ws_space .ws_none, ⟨_, rfl⟩, fun y hy hp => by
      have h1 := Json.ws_run hy rfl
      obtain ⟨z, hz⟩ := hp
      match y, hz with
      | [], _ => simp
      | [_], _ => simp
      | _ :: d :: _, hz =>
        have := h1 d (by simp)
        injection hz with _ hz
        injection hz with hz _
        subst hz
        exact absurd this (by unfold Json.isWS; decide)⟩ (by rintro c r e; cases e; decide), rfl⟩

end Tok
