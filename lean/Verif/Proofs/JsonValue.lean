/-
The graph of a JSON document and its value.
-/
import Verif.Spec.JsonValue
import Verif.Props.C56
import Verif.Proofs.Quote

namespace Tok
open Spec

/-! ### strings -/

theorem runesOf_encText (cs : List Char) : runesOf (encText cs) = cs.map fun c => (c.toNat : Int) := by
  rw [runesOf_pieces (pieces_encText cs), List.map_map]; rfl

theorem hexUnit_of {c : Char} {x : Nat} (h : HexIs c x) : hexUnit (c.toNat : Int) = some x := by
  unfold hexUnit
  rcases h with ⟨h1, h2, rfl⟩ | ⟨h1, h2, rfl⟩ | ⟨h1, h2, rfl⟩
  · rw [if_pos (by omega)]; congr 1; omega
  · rw [if_neg (by omega), if_pos (by omega)]; congr 1; omega
  · rw [if_neg (by omega), if_neg (by omega), if_pos (by omega)]; congr 1; omega

theorem jsonUnescape_of {us : List Nat} {cs : List Char} (h : JsonUnits us cs) : jsonUnescape (cs.map fun c => (c.toNat : Int)) = some us := by
  induction h with
  | nil => rfl
  | @plain c us cs h1 h2 h3 _ ih =>
    have hc : (c.toNat : Int) ≠ 92 := fun e => h3 (char_ext (by exact Int.ofNat.inj e))
    rw [List.map_cons, jsonUnescape.eq_4 _ _ (fun _ _ _ _ _ e => absurd e hc) (fun _ _ e => absurd e hc), ih]
    rfl
  | @short c u us cs h _ ih =>
    have hc : c ≠ 'u' ∧ shortUnit (c.toNat : Int) = u := by
      simp only [List.mem_cons, Prod.mk.injEq, List.not_mem_nil, or_false] at h
      rcases h with ⟨rfl, rfl⟩ | ⟨rfl, rfl⟩ | ⟨rfl, rfl⟩ | ⟨rfl, rfl⟩ | ⟨rfl, rfl⟩ | ⟨rfl, rfl⟩ | ⟨rfl, rfl⟩ | ⟨rfl, rfl⟩ <;> exact ⟨by decide, rfl⟩
    have hu : (c.toNat : Int) ≠ 117 := fun e => hc.1 (char_ext (by exact Int.ofNat.inj e))
    rw [List.map_cons, List.map_cons]
    show jsonUnescape (92 :: (c.toNat : Int) :: _) = _
    rw [jsonUnescape.eq_3 _ _ (fun _ _ _ _ _ e => absurd e hu), ih, hc.2]
    rfl
  | hex ha hb hc hd _ ih =>
    simp only [List.map_cons]
    show jsonUnescape (92 :: 117 :: _ :: _ :: _ :: _ :: _) = _
    rw [jsonUnescape.eq_2, hexUnit_of ha, hexUnit_of hb, hexUnit_of hc, hexUnit_of hd, ih]
    rfl

theorem hex_text {c : Char} {x : Nat} (h : HexIs c x) : JsonText .hex [c] := by
  rcases h with ⟨h1, h2, rfl⟩ | ⟨h1, h2, rfl⟩ | ⟨h1, h2, rfl⟩
  · by_cases h : c = '0'
    · subst h; exact .hex_digit .digit_zero
    · have : c.toNat ≠ 48 := fun e => h (char_ext e)
      exact .hex_digit (.digit_onenine (.onenine (by show 49 ≤ c.toNat; omega) h2))
  · exact .hex_upper h1 h2
  · exact .hex_lower h1 h2

theorem units_text {us : List Nat} {cs : List Char} (h : JsonUnits us cs) : JsonText .characters cs := by
  induction h with
  | nil => exact .characters_none
  | @plain c us cs h1 h2 h3 _ ih =>
    have : c.toNat ≤ 0x10FFFF := by
      rcases c.valid with h | h <;> (show c.val.toNat ≤ _; omega)
    exact .characters_more (cs := [c]) (.character_plain h1 this h2 h3) ih
  | @short c u us cs h _ ih =>
    refine .characters_more (cs := ['\\', c]) (.character_escape (.escape_one ?_)) ih
    simp only [List.mem_cons, Prod.mk.injEq, List.not_mem_nil, or_false] at h ⊢
    rcases h with h | h | h | h | h | h | h | h <;> simp [h.1]
  | @hex a b c d x y z w us cs ha hb hc hd _ ih =>
    exact .characters_more (cs := ['\\', 'u', a, b, c, d])
      (.character_escape (.escape_u (as := [a]) (bs := [b]) (cs := [c]) (ds := [d]) (hex_text ha) (hex_text hb) (hex_text hc) (hex_text hd))) ih

theorem string_text {us : List Nat} {cs : List Char} (h : JsonUnits us cs) : JsonText .string ('"' :: (cs ++ ['"'])) := .string (units_text h)

/-! ### places -/

/-- The characters `cs` stand at the byte `p` of the text of the scanner. -/
def Placed (s : Scanner) (p : Nat) (cs : List Char) : Prop := ∃ pre post, s.full = pre ++ (encText cs ++ post) ∧ pre.length = p

theorem Placed.left {s : Scanner} {p : Nat} {cs ds : List Char} (h : Placed s p (cs ++ ds)) : Placed s p cs := by
  obtain ⟨pre, post, h1, h2⟩ := h
  exact ⟨pre, encText ds ++ post, by rw [h1, encText_append, List.append_assoc], h2⟩

theorem Placed.right {s : Scanner} {p : Nat} {cs ds : List Char} (h : Placed s p (cs ++ ds)) : Placed s (p + (encText cs).length) ds := by
  obtain ⟨pre, post, h1, h2⟩ := h
  exact ⟨pre ++ encText cs, post, by rw [h1, encText_append]; simp, by simp [h2]⟩

theorem Placed.tail {s : Scanner} {p : Nat} {c : Char} {ds : List Char} (h : Placed s p (c :: ds)) (hc : (enc c).length = 1) : Placed s (p + 1) ds := by
  have := Placed.right (cs := [c]) h
  rwa [encText_singleton, hc] at this

theorem placed_text {s : Scanner} {p : Nat} {cs : List Char} (h : Placed s p cs) (nm : Bytes) (ns : List Node) :
    nodeText s (.mk ⟨nm, spanAt p cs⟩ ns) = some (encText cs) := by
  obtain ⟨pre, post, h1, h2⟩ := h
  have e : (p + (encText cs).length : Int) - p = ((encText cs).length : Int) := by omega
  have : s.get (spanAt p cs) = .ret (encText cs) := by
    unfold Scanner.get spanAt
    simp only
    rw [if_pos ⟨by omega, by omega, by rw [h1]; simp only [List.length_append]; omega⟩, h1, e, Int.toNat_natCast, Int.toNat_natCast, ← h2]
    simp
  unfold nodeText
  simp only [Node.seg, this]

theorem placed_string {s : Scanner} {p : Nat} {us : List Nat} {cs : List Char} (h : Placed s p ('"' :: (cs ++ ['"']))) (hu : JsonUnits us cs) (nm : Bytes) (ns : List Node) :
    stringOf s (.mk ⟨nm, spanAt p ('"' :: (cs ++ ['"']))⟩ ns) = some us := by
  have e : ((encText ('"' :: (cs ++ ['"']))).drop 1).dropLast = encText cs := by
    rw [encText_cons, encText_append, encText_singleton]
    show ((34 :: (encText cs ++ [34])).drop 1).dropLast = _
    simp
  unfold stringOf
  rw [placed_text h, Option.bind_some, e, runesOf_encText]
  exact jsonUnescape_of hu

/-! ### numerals -/

/-- Every character of a numeral is ASCII, and none is white space or a quote. -/
theorem numeral_ascii {A : JsonSym} {cs : List Char} (h : JsonText A cs) :
    (A = .number ∨ A = .integer ∨ A = .fraction ∨ A = .exponent ∨ A = .digits ∨ A = .digit ∨ A = .onenine ∨ A = .sign) → ∀ c ∈ cs, 42 < c.toNat ∧ c.toNat < 128 := by
  induction h with
  | number _ _ _ ih1 ih2 ih3 =>
    intro _ c hc
    simp only [List.mem_append] at hc
    rcases hc with hc | hc | hc
    exacts [ih1 (by simp) c hc, ih2 (by simp) c hc, ih3 (by simp) c hc]
  | integer_digit _ ih => exact fun _ => ih (by simp)
  | integer_digits _ _ ih1 ih2 =>
    intro _ c hc
    simp only [List.mem_append] at hc
    rcases hc with hc | hc
    exacts [ih1 (by simp) c hc, ih2 (by simp) c hc]
  | integer_minus_digit _ ih =>
    intro _ c hc
    simp only [List.mem_cons] at hc
    rcases hc with rfl | hc
    exacts [by decide, ih (by simp) c hc]
  | integer_minus_digits _ _ ih1 ih2 =>
    intro _ c hc
    simp only [List.mem_cons, List.mem_append] at hc
    rcases hc with rfl | hc | hc
    exacts [by decide, ih1 (by simp) c hc, ih2 (by simp) c hc]
  | digits_one _ ih => exact fun _ => ih (by simp)
  | digits_more _ _ ih1 ih2 =>
    intro _ c hc
    simp only [List.mem_append] at hc
    rcases hc with hc | hc
    exacts [ih1 (by simp) c hc, ih2 (by simp) c hc]
  | digit_zero => intro _ c hc; simp only [List.mem_singleton] at hc; subst hc; decide
  | digit_onenine _ ih => exact fun _ => ih (by simp)
  | onenine h1 h2 => intro _ c hc; simp only [List.mem_singleton] at hc; subst hc; have : ('1' : Char).toNat = 49 ∧ ('9' : Char).toNat = 57 := ⟨rfl, rfl⟩; omega
  | fraction_none => intro _ c hc; simp at hc
  | fraction _ ih =>
    intro _ c hc
    simp only [List.mem_cons] at hc
    rcases hc with rfl | hc
    exacts [by decide, ih (by simp) c hc]
  | exponent_none => intro _ c hc; simp at hc
  | exponent_upper _ _ ih1 ih2 =>
    intro _ c hc
    simp only [List.mem_cons, List.mem_append] at hc
    rcases hc with rfl | hc | hc
    exacts [by decide, ih1 (by simp) c hc, ih2 (by simp) c hc]
  | exponent_lower _ _ ih1 ih2 =>
    intro _ c hc
    simp only [List.mem_cons, List.mem_append] at hc
    rcases hc with rfl | hc | hc
    exacts [by decide, ih1 (by simp) c hc, ih2 (by simp) c hc]
  | sign_none => intro _ c hc; simp at hc
  | sign_plus => intro _ c hc; simp only [List.mem_singleton] at hc; subst hc; decide
  | sign_minus => intro _ c hc; simp only [List.mem_singleton] at hc; subst hc; decide
  | _ => intro h; simp at h

theorem placed_numeral {s : Scanner} {p : Nat} {cs : List Char} (h : Placed s p cs) (hn : JsonText .number cs) (nm : Bytes) (ns : List Node) :
    numeralOf s (.mk ⟨nm, spanAt p cs⟩ ns) = some cs := by
  have ha := fun c hc => (numeral_ascii hn (by simp) c hc).2
  unfold numeralOf
  rw [placed_text h, Option.map_some]
  congr 1
  clear h hn
  induction cs with
  | nil => rfl
  | cons c cs ih =>
    have hc := ha c List.mem_cons_self
    rw [encText_cons, enc_low rfl hc, List.map_append, ih fun d hd => ha d (List.mem_cons_of_mem _ hd)]
    have e : (UInt8.ofNat c.toNat).toNat = c.toNat := by simp; omega
    simp only [List.map_cons, List.map_nil, e, Char.ofNat_toNat, List.singleton_append]

/-! ### values -/

mutual
theorem value_tree {s : Scanner} : ∀ {v : JVal} {cs : List Char} {p : Nat}, JsonValue v cs → Placed s p cs → ∃ n, JsonTree .value p cs [n] ∧ valueOf s n = some v
  | _, _, p, .null, h => ⟨_, .value_null, rfl⟩
  | _, _, p, .yes, h => ⟨_, .value_true, by
      have := placed_text h b!"bool" []
      simp only [leafAt, valueOf, this]; rfl⟩
  | _, _, p, .no, h => ⟨_, .value_false, by
      have := placed_text h b!"bool" []
      simp only [leafAt, valueOf, this]; rfl⟩
  | _, _, p, .num hn, h => ⟨_, .value_number hn, by
      have := placed_numeral h hn b!"number" []
      simp only [leafAt, valueOf, this]; rfl⟩
  | _, _, p, .str hu, h => ⟨_, .value_string (string_text hu), by
      have := placed_string h hu b!"string" []
      simp only [leafAt, valueOf, this]; rfl⟩
  | _, _, p, .arrNone hw, h => ⟨_, .value_array (.array_ws hw), rfl⟩
  | _, _, p, .arr hs, h => by
    obtain ⟨ns, h1, h2⟩ := elements_tree hs (h.tail rfl).left
    exact ⟨_, .value_array (.array_elements h1), by simp only [valueOf, h2]; rfl⟩
  | _, _, p, .objNone hw, h => ⟨_, .value_object (.object_ws hw), rfl⟩
  | _, _, p, .obj hs, h => by
    obtain ⟨ns, h1, h2⟩ := members_tree hs (h.tail rfl).left
    exact ⟨_, .value_object (.object_members h1), by simp only [valueOf, h2]; rfl⟩
theorem element_tree {s : Scanner} : ∀ {v : JVal} {cs : List Char} {p : Nat}, JsonElement v cs → Placed s p cs → ∃ n, JsonTree .element p cs [n] ∧ valueOf s n = some v
  | _, _, p, .mk hu hv hw, h => by
    obtain ⟨n, h1, h2⟩ := value_tree hv h.right.left
    exact ⟨n, .element hu h1 hw, h2⟩
theorem elements_tree {s : Scanner} : ∀ {vs : List JVal} {cs : List Char} {p : Nat}, JsonElements vs cs → Placed s p cs →
    ∃ ns, JsonTree .elements p cs ns ∧ valuesOf s ns = some vs
  | _, _, p, .one hv, h => by
    obtain ⟨n, h1, h2⟩ := element_tree hv h
    exact ⟨_, .elements_one h1, by simp [valuesOf, h2]⟩
  | _, _, p, .more hv hs, h => by
    obtain ⟨n, h1, h2⟩ := element_tree hv h.left
    obtain ⟨ns, h3, h4⟩ := elements_tree hs (h.right.tail rfl)
    exact ⟨_, .elements_more h1 h3, by simp [valuesOf, h2, h4]⟩
theorem member_tree {s : Scanner} : ∀ {m : List Nat × JVal} {cs : List Char} {p : Nat}, JsonMember m cs → Placed s p cs →
    ∃ k n, JsonTree .member p cs [k, n] ∧ stringOf s k = some m.1 ∧ valueOf s n = some m.2
  | _, _, p, .mk hu hk hw hv, h => by
    have hp := h.right
    obtain ⟨n, h1, h2⟩ := element_tree hv (hp.right.right.tail rfl)
    exact ⟨_, n, .member hu (string_text hk) hw h1, placed_string hp.left hk _ _, h2⟩
theorem members_tree {s : Scanner} : ∀ {ms : List (List Nat × JVal)} {cs : List Char} {p : Nat}, JsonMembers ms cs → Placed s p cs →
    ∃ ns, JsonTree .members p cs ns ∧ membersOf s ns = some ms
  | _, _, p, .one hm, h => by
    obtain ⟨k, n, h1, h2, h3⟩ := member_tree hm h
    exact ⟨_, .members_one h1, by simp [membersOf, h2, h3]⟩
  | _, _, p, .more hm hs, h => by
    obtain ⟨k, n, h1, h2, h3⟩ := member_tree hm h.left
    obtain ⟨ns, h4, h5⟩ := members_tree hs (h.right.tail rfl)
    exact ⟨_, .members_more h1 h4, by simp [membersOf, h2, h3, h5]⟩
end

/-! ### every document has a value -/

theorem hex_is {cs : List Char} (h : JsonText .hex cs) : ∃ c x, cs = [c] ∧ HexIs c x := by
  cases h with
  | hex_digit h =>
    cases h with
    | digit_zero => exact ⟨'0', 0, rfl, .inl ⟨by decide, by decide, rfl⟩⟩
    | digit_onenine h =>
      cases h with
      | @onenine c h1 h2 =>
        have e1 : ('1' : Char).toNat = 49 := rfl
        have e2 : ('9' : Char).toNat = 57 := rfl
        exact ⟨c, _, rfl, .inl ⟨by omega, by omega, rfl⟩⟩
  | @hex_upper c h1 h2 => exact ⟨c, _, rfl, .inr (.inl ⟨h1, h2, rfl⟩)⟩
  | @hex_lower c h1 h2 => exact ⟨c, _, rfl, .inr (.inr ⟨h1, h2, rfl⟩)⟩

theorem units_more {cs ds : List Char} {us : List Nat} (h : JsonText .character cs) (hs : JsonUnits us ds) : ∃ us', JsonUnits us' (cs ++ ds) := by
  cases h with
  | character_plain h1 h2 h3 h4 => exact ⟨_, .plain h1 h3 h4 hs⟩
  | character_escape h =>
    cases h with
    | @escape_one c h =>
      simp only [List.mem_cons, List.not_mem_nil, or_false] at h
      rcases h with rfl | rfl | rfl | rfl | rfl | rfl | rfl | rfl
      · exact ⟨34 :: us, .short (by simp) hs⟩
      · exact ⟨92 :: us, .short (by simp) hs⟩
      · exact ⟨47 :: us, .short (by simp) hs⟩
      · exact ⟨8 :: us, .short (by simp) hs⟩
      · exact ⟨12 :: us, .short (by simp) hs⟩
      · exact ⟨10 :: us, .short (by simp) hs⟩
      · exact ⟨13 :: us, .short (by simp) hs⟩
      · exact ⟨9 :: us, .short (by simp) hs⟩
    | escape_u ha hb hc hd =>
      obtain ⟨a, x, rfl, ha'⟩ := hex_is ha
      obtain ⟨b, y, rfl, hb'⟩ := hex_is hb
      obtain ⟨c, z, rfl, hc'⟩ := hex_is hc
      obtain ⟨d, w, rfl, hd'⟩ := hex_is hd
      exact ⟨_, .hex ha' hb' hc' hd' hs⟩

/-- What is meant by the texts of each symbol. -/
def Meant : JsonSym → List Char → Prop
  | .value, cs | .object, cs | .array, cs => ∃ v, JsonValue v cs
  | .element, cs => ∃ v, JsonElement v cs
  | .elements, cs => ∃ vs, JsonElements vs cs
  | .member, cs => ∃ m, JsonMember m cs
  | .members, cs => ∃ ms, JsonMembers ms cs
  | .characters, cs => ∃ us, JsonUnits us cs
  | .string, cs => ∃ us ds, cs = '"' :: (ds ++ ['"']) ∧ JsonUnits us ds
  | _, _ => True

theorem meant {A : JsonSym} {cs : List Char} (h : JsonText A cs) : Meant A cs := by
  induction h with
  | value_object _ ih => exact ih
  | value_array _ ih => exact ih
  | value_string _ ih => obtain ⟨us, ds, rfl, h⟩ := ih; exact ⟨_, .str h⟩
  | value_number h _ => exact ⟨_, .num h⟩
  | value_true => exact ⟨_, .yes⟩
  | value_false => exact ⟨_, .no⟩
  | value_null => exact ⟨_, .null⟩
  | object_ws h _ => exact ⟨_, .objNone h⟩
  | object_members _ ih => obtain ⟨_, h⟩ := ih; exact ⟨_, .obj h⟩
  | members_one _ ih => obtain ⟨_, h⟩ := ih; exact ⟨_, .one h⟩
  | members_more _ _ ih1 ih2 => obtain ⟨_, h1⟩ := ih1; obtain ⟨_, h2⟩ := ih2; exact ⟨_, .more h1 h2⟩
  | member h1 _ h3 _ _ ih2 _ ih4 => obtain ⟨us, ds, rfl, h⟩ := ih2; obtain ⟨_, h4⟩ := ih4; exact ⟨_, .mk h1 h h3 h4⟩
  | array_ws h _ => exact ⟨_, .arrNone h⟩
  | array_elements _ ih => obtain ⟨_, h⟩ := ih; exact ⟨_, .arr h⟩
  | elements_one _ ih => obtain ⟨_, h⟩ := ih; exact ⟨_, .one h⟩
  | elements_more _ _ ih1 ih2 => obtain ⟨_, h1⟩ := ih1; obtain ⟨_, h2⟩ := ih2; exact ⟨_, .more h1 h2⟩
  | element h1 _ h3 _ ih _ => obtain ⟨_, h⟩ := ih; exact ⟨_, .mk h1 h h3⟩
  | string _ ih => obtain ⟨us, h⟩ := ih; exact ⟨us, _, rfl, h⟩
  | characters_none => exact ⟨_, .nil⟩
  | characters_more h _ _ ih => obtain ⟨us, hs⟩ := ih; exact units_more h hs
  | _ => trivial

/-! ### the writer -/

theorem toNat_ofNat {n : Nat} (h : n < 0xD800) : (Char.ofNat n).toNat = n := by
  have : n.isValidChar := .inl h
  rw [Char.ofNat, dif_pos this]; rfl

theorem hexChar_is {n : Nat} (h : n < 16) : HexIs (hexChar n) n := by
  unfold HexIs hexChar
  split
  · rw [toNat_ofNat (by omega)]; omega
  · rw [toNat_ofNat (by omega)]; omega

theorem units_flat : ∀ us : List Nat, (∀ u ∈ us, u < 0x10000) → JsonUnits us (us.flatMap writeUnit)
  | [], _ => .nil
  | u :: us, h => by
    have ih := units_flat us fun x hx => h x (List.mem_cons_of_mem _ hx)
    have hu := h u List.mem_cons_self
    rw [List.flatMap_cons]
    unfold writeUnit
    split
    · rename_i hc
      have e : (Char.ofNat u).toNat = u := toNat_ofNat (by omega)
      have := JsonUnits.plain (c := Char.ofNat u) (by omega) (fun hq => by rw [hq] at e; exact hc.2.2.1 e.symm) (fun hq => by rw [hq] at e; exact hc.2.2.2 e.symm) ih
      rw [e, unitsOf, if_pos hu] at this
      exact this
    · have := JsonUnits.hex (hexChar_is (n := u / 4096) (by omega)) (hexChar_is (n := u / 256 % 16) (by omega)) (hexChar_is (n := u / 16 % 16) (by omega))
        (hexChar_is (n := u % 16) (by omega)) ih
      rwa [show 4096 * (u / 4096) + 256 * (u / 256 % 16) + 16 * (u / 16 % 16) + u % 16 = u by omega] at this

theorem element_of {v : JVal} {cs : List Char} (h : JsonValue v cs) : JsonElement v cs := by
  have := JsonElement.mk .ws_none h .ws_none
  simpa using this

theorem member_of {k : List Nat} {v : JVal} (hk : ∀ u ∈ k, u < 0x10000) (h : JsonValue v (writeValue v)) : JsonMember (k, v) (writeMember (k, v)) := by
  have := JsonMember.mk .ws_none (units_flat _ hk) .ws_none (element_of h)
  simpa [writeMember, writeString] using this

mutual
theorem write_value : ∀ {v : JVal}, v.Fits → JsonValue v (writeValue v)
  | _, .null => .null
  | _, .bool true => .yes
  | _, .bool false => .no
  | _, .num h => .num h
  | _, .str h => .str (units_flat _ h)
  | _, .arr .nil => .arrNone (cs := []) .ws_none
  | _, .arr (.cons h hs) => .arr (write_more hs (element_of (write_value h)))
  | _, .obj .nil => .objNone (cs := []) .ws_none
  | _, .obj (.cons hk hv hs) => .obj (write_members hs (member_of hk (write_value hv)))
theorem write_more : ∀ {vs : List JVal}, JVal.AllFit vs → ∀ {v : JVal} {cs : List Char}, JsonElement v cs → JsonElements (v :: vs) (cs ++ writeMore vs)
  | _, .nil, _, _, h => by rw [writeMore, List.append_nil]; exact .one h
  | _, .cons h' hs, _, _, h => by rw [writeMore]; exact .more h (write_more hs (element_of (write_value h')))
theorem write_members : ∀ {ms : List (List Nat × JVal)}, JVal.MembersFit ms → ∀ {m : List Nat × JVal} {cs : List Char}, JsonMember m cs →
    JsonMembers (m :: ms) (cs ++ writeMembers ms)
  | _, .nil, _, _, h => by rw [writeMembers, List.append_nil]; exact .one h
  | _, .cons hk h' hs, _, _, h => by rw [writeMembers]; exact .more h (write_members hs (member_of hk (write_value h')))
end

/-! ### nothing else is meant -/

theorem units_fit {us : List Nat} {cs : List Char} (h : JsonUnits us cs) : ∀ u ∈ us, u < 0x10000 := by
  induction h with
  | nil => simp
  | @plain c us cs _ _ _ _ ih =>
    have hc : c.toNat < 0x110000 := by
      rcases c.valid with h | h <;> (show c.val.toNat < _; omega)
    intro u hu
    rw [List.mem_append] at hu
    rcases hu with hu | hu
    · unfold unitsOf at hu
      split at hu
      · simp only [List.mem_singleton] at hu; omega
      · simp only [List.mem_cons, List.not_mem_nil, or_false] at hu; omega
    · exact ih u hu
  | short h _ ih =>
    intro u hu
    rw [List.mem_cons] at hu
    rcases hu with rfl | hu
    · simp only [List.mem_cons, Prod.mk.injEq, List.not_mem_nil, or_false] at h; omega
    · exact ih u hu
  | hex ha hb hc hd _ ih =>
    intro u hu
    rw [List.mem_cons] at hu
    rcases hu with rfl | hu
    · unfold HexIs at ha hb hc hd; omega
    · exact ih u hu

mutual
theorem value_fits : ∀ {v : JVal} {cs : List Char}, JsonValue v cs → v.Fits
  | _, _, .null => .null
  | _, _, .yes => .bool _
  | _, _, .no => .bool _
  | _, _, .num h => .num h
  | _, _, .str h => .str (units_fit h)
  | _, _, .arrNone _ => .arr .nil
  | _, _, .arr h => .arr (elements_fit h)
  | _, _, .objNone _ => .obj .nil
  | _, _, .obj h => .obj (members_fit h)
theorem element_fits : ∀ {v : JVal} {cs : List Char}, JsonElement v cs → v.Fits
  | _, _, .mk _ h _ => value_fits h
theorem elements_fit : ∀ {vs : List JVal} {cs : List Char}, JsonElements vs cs → JVal.AllFit vs
  | _, _, .one h => .cons (element_fits h) .nil
  | _, _, .more h hs => .cons (element_fits h) (elements_fit hs)
theorem member_fits : ∀ {m : List Nat × JVal} {cs : List Char}, JsonMember m cs → (∀ u ∈ m.1, u < 0x10000) ∧ m.2.Fits
  | _, _, .mk _ hk _ h => ⟨units_fit hk, element_fits h⟩
theorem members_fit : ∀ {ms : List (List Nat × JVal)} {cs : List Char}, JsonMembers ms cs → JVal.MembersFit ms
  | _, _, .one h => .cons (member_fits h).1 (member_fits h).2 .nil
  | _, _, .more h hs => .cons (member_fits h).1 (member_fits h).2 (members_fit hs)
end

end Tok
