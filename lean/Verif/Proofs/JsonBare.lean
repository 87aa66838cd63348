/-
JSON texts without white space.
-/
import Verif.Spec.JsonBare
import Verif.Proofs.JsonValue
import Verif.Props.C56
import Verif.Props.C103

namespace Tok
open Spec PExp

/-- `JsonBare A cs bs`: `cs` is derived from `A`, and `bs` is what remains of it without the parts derived from `ws`. -/
inductive JsonBare : JsonSym → List Char → List Char → Prop
  | value_object {cs bs} : JsonBare .object cs bs → JsonBare .value cs bs
  | value_array {cs bs} : JsonBare .array cs bs → JsonBare .value cs bs
  | value_string {cs} : JsonText .string cs → JsonBare .value cs cs
  | value_number {cs} : JsonText .number cs → JsonBare .value cs cs
  | value_true : JsonBare .value ['t', 'r', 'u', 'e'] ['t', 'r', 'u', 'e']
  | value_false : JsonBare .value ['f', 'a', 'l', 's', 'e'] ['f', 'a', 'l', 's', 'e']
  | value_null : JsonBare .value ['n', 'u', 'l', 'l'] ['n', 'u', 'l', 'l']
  | object_ws {cs} : JsonText .ws cs → JsonBare .object ('{' :: (cs ++ ['}'])) ('{' :: ([] ++ ['}']))
  | object_members {cs bs} : JsonBare .members cs bs → JsonBare .object ('{' :: (cs ++ ['}'])) ('{' :: (bs ++ ['}']))
  | members_one {cs bs} : JsonBare .member cs bs → JsonBare .members cs bs
  | members_more {cs ds bs es} : JsonBare .member cs bs → JsonBare .members ds es → JsonBare .members (cs ++ ',' :: ds) (bs ++ ',' :: es)
  | member {us cs vs ds bs} : JsonText .ws us → JsonText .string cs → JsonText .ws vs → JsonBare .element ds bs →
      JsonBare .member (us ++ (cs ++ (vs ++ ':' :: ds))) ([] ++ (cs ++ ([] ++ ':' :: bs)))
  | array_ws {cs} : JsonText .ws cs → JsonBare .array ('[' :: (cs ++ [']'])) ('[' :: ([] ++ [']']))
  | array_elements {cs bs} : JsonBare .elements cs bs → JsonBare .array ('[' :: (cs ++ [']'])) ('[' :: (bs ++ [']']))
  | elements_one {cs bs} : JsonBare .element cs bs → JsonBare .elements cs bs
  | elements_more {cs ds bs es} : JsonBare .element cs bs → JsonBare .elements ds es → JsonBare .elements (cs ++ ',' :: ds) (bs ++ ',' :: es)
  | element {us cs vs bs} : JsonText .ws us → JsonBare .value cs bs → JsonText .ws vs → JsonBare .element (us ++ (cs ++ vs)) ([] ++ (bs ++ []))

theorem JsonBare.text {A : JsonSym} {cs bs : List Char} (h : JsonBare A cs bs) : JsonText A cs := by
  induction h with
  | value_object _ ih => exact .value_object ih
  | value_array _ ih => exact .value_array ih
  | value_string h => exact .value_string h
  | value_number h => exact .value_number h
  | value_true => exact .value_true
  | value_false => exact .value_false
  | value_null => exact .value_null
  | object_ws h => exact .object_ws h
  | object_members _ ih => exact .object_members ih
  | members_one _ ih => exact .members_one ih
  | members_more _ _ ih1 ih2 => exact .members_more ih1 ih2
  | member h1 h2 h3 _ ih => exact .member h1 h2 h3 ih
  | array_ws h => exact .array_ws h
  | array_elements _ ih => exact .array_elements ih
  | elements_one _ ih => exact .elements_one ih
  | elements_more _ _ ih1 ih2 => exact .elements_more ih1 ih2
  | element h1 _ h3 ih => exact .element h1 ih h3

/-- Taking out again changes nothing. -/
theorem JsonBare.again {A : JsonSym} {cs bs : List Char} (h : JsonBare A cs bs) : JsonBare A bs bs := by
  induction h with
  | value_object _ ih => exact .value_object ih
  | value_array _ ih => exact .value_array ih
  | value_string h => exact .value_string h
  | value_number h => exact .value_number h
  | value_true => exact .value_true
  | value_false => exact .value_false
  | value_null => exact .value_null
  | object_ws h => exact .object_ws .ws_none
  | object_members _ ih => exact .object_members ih
  | members_one _ ih => exact .members_one ih
  | members_more _ _ ih1 ih2 => exact .members_more ih1 ih2
  | member h1 h2 h3 _ ih => exact .member .ws_none h2 .ws_none ih
  | array_ws h => exact .array_ws .ws_none
  | array_elements _ ih => exact .array_elements ih
  | elements_one _ ih => exact .elements_one ih
  | elements_more _ _ ih1 ih2 => exact .elements_more ih1 ih2
  | element h1 _ h3 ih => exact .element .ws_none ih .ws_none

/-- Every derivation has one. -/
theorem JsonText.bare {A : JsonSym} {cs : List Char} (h : JsonText A cs) : A.inner = true → ∃ bs, JsonBare A cs bs := by
  induction h with
  | value_object _ ih => exact fun _ => (ih rfl).imp fun _ h => .value_object h
  | value_array _ ih => exact fun _ => (ih rfl).imp fun _ h => .value_array h
  | value_string h _ => exact fun _ => ⟨_, .value_string h⟩
  | value_number h _ => exact fun _ => ⟨_, .value_number h⟩
  | value_true => exact fun _ => ⟨_, .value_true⟩
  | value_false => exact fun _ => ⟨_, .value_false⟩
  | value_null => exact fun _ => ⟨_, .value_null⟩
  | object_ws h _ => exact fun _ => ⟨_, .object_ws h⟩
  | object_members _ ih => exact fun _ => let ⟨_, h⟩ := ih rfl; ⟨_, .object_members h⟩
  | members_one _ ih => exact fun _ => (ih rfl).imp fun _ h => .members_one h
  | members_more _ _ ih1 ih2 => exact fun _ => let ⟨_, h1⟩ := ih1 rfl; let ⟨_, h2⟩ := ih2 rfl; ⟨_, .members_more h1 h2⟩
  | member h1 h2 h3 _ _ _ _ ih => exact fun _ => let ⟨_, h⟩ := ih rfl; ⟨_, .member h1 h2 h3 h⟩
  | array_ws h _ => exact fun _ => ⟨_, .array_ws h⟩
  | array_elements _ ih => exact fun _ => let ⟨_, h⟩ := ih rfl; ⟨_, .array_elements h⟩
  | elements_one _ ih => exact fun _ => (ih rfl).imp fun _ h => .elements_one h
  | elements_more _ _ ih1 ih2 => exact fun _ => let ⟨_, h1⟩ := ih1 rfl; let ⟨_, h2⟩ := ih2 rfl; ⟨_, .elements_more h1 h2⟩
  | element h1 _ h3 _ ih _ => exact fun _ => let ⟨_, h⟩ := ih rfl; ⟨_, .element h1 h h3⟩
  | _ => exact fun h => by cases h

/-! ### the value -/

mutual
theorem value_bare : ∀ {v : JVal} {cs : List Char}, JsonValue v cs → ∃ bs, JsonBare .value cs bs ∧ JsonValue v bs
  | _, _, .null => ⟨_, .value_null, .null⟩
  | _, _, .yes => ⟨_, .value_true, .yes⟩
  | _, _, .no => ⟨_, .value_false, .no⟩
  | _, _, .num h => ⟨_, .value_number h, .num h⟩
  | _, _, .str h => ⟨_, .value_string (string_text h), .str h⟩
  | _, _, .arrNone h => ⟨_, .value_array (.array_ws h), .arrNone .ws_none⟩
  | _, _, .arr h => let ⟨_, h1, h2⟩ := elements_bare h; ⟨_, .value_array (.array_elements h1), .arr h2⟩
  | _, _, .objNone h => ⟨_, .value_object (.object_ws h), .objNone .ws_none⟩
  | _, _, .obj h => let ⟨_, h1, h2⟩ := members_bare h; ⟨_, .value_object (.object_members h1), .obj h2⟩
theorem element_bare : ∀ {v : JVal} {cs : List Char}, JsonElement v cs → ∃ bs, JsonBare .element cs bs ∧ JsonElement v bs
  | _, _, .mk h1 h2 h3 => let ⟨_, h4, h5⟩ := value_bare h2; ⟨_, .element h1 h4 h3, .mk .ws_none h5 .ws_none⟩
theorem elements_bare : ∀ {vs : List JVal} {cs : List Char}, JsonElements vs cs → ∃ bs, JsonBare .elements cs bs ∧ JsonElements vs bs
  | _, _, .one h => let ⟨_, h1, h2⟩ := element_bare h; ⟨_, .elements_one h1, .one h2⟩
  | _, _, .more h h' => let ⟨_, h1, h2⟩ := element_bare h; let ⟨_, h3, h4⟩ := elements_bare h'; ⟨_, .elements_more h1 h3, .more h2 h4⟩
theorem member_bare : ∀ {m : List Nat × JVal} {cs : List Char}, JsonMember m cs → ∃ bs, JsonBare .member cs bs ∧ JsonMember m bs
  | _, _, .mk h1 h2 h3 h4 => let ⟨_, h5, h6⟩ := element_bare h4; ⟨_, .member h1 (string_text h2) h3 h5, .mk .ws_none h2 .ws_none h6⟩
theorem members_bare : ∀ {ms : List (List Nat × JVal)} {cs : List Char}, JsonMembers ms cs → ∃ bs, JsonBare .members cs bs ∧ JsonMembers ms bs
  | _, _, .one h => let ⟨_, h1, h2⟩ := member_bare h; ⟨_, .members_one h1, .one h2⟩
  | _, _, .more h h' => let ⟨_, h1, h2⟩ := member_bare h; let ⟨_, h3, h4⟩ := members_bare h'; ⟨_, .members_more h1 h3, .more h2 h4⟩
end

/-! ### what remains is the squeezed text -/

theorem squeeze_ws {cs : List Char} (h : JsonText .ws cs) (rest : List Char) : squeeze .outside (cs ++ rest) = squeeze .outside rest := by
  generalize hA : JsonSym.ws = A at h
  induction h with
  | ws_none => rfl
  | ws_space _ ih => simpa [squeeze] using ih hA
  | ws_lf _ ih => simpa [squeeze] using ih hA
  | ws_cr _ ih => simpa [squeeze] using ih hA
  | ws_tab _ ih => simpa [squeeze] using ih hA
  | _ => cases hA

theorem squeeze_plain {c : Char} (h : c ∉ [' ', '\n', '\r', '\t', '"']) (rest : List Char) :
    squeeze .outside (c :: rest) = c :: squeeze .outside rest := by
  simp only [List.mem_cons, List.not_mem_nil, or_false, not_or] at h
  rw [squeeze, if_neg (by simp [h]), if_neg h.2.2.2.2]

theorem squeeze_plains : ∀ {cs : List Char}, (∀ c ∈ cs, c ∉ [' ', '\n', '\r', '\t', '"']) → ∀ rest, squeeze .outside (cs ++ rest) = cs ++ squeeze .outside rest
  | [], _, _ => rfl
  | c :: cs, h, rest => by
    rw [List.cons_append, squeeze_plain (h c List.mem_cons_self), squeeze_plains fun c hc => h c (List.mem_cons_of_mem _ hc)]
    rfl

/-- A text in a string. -/
theorem squeeze_units {us : List Nat} {cs : List Char} (h : JsonUnits us cs) (rest : List Char) :
    squeeze .inside (cs ++ rest) = cs ++ squeeze .inside rest := by
  induction h with
  | nil => rfl
  | plain _ h1 h2 _ ih => simp [squeeze, h1, h2, ih]
  | @short c u us cs h1 _ ih => simp [squeeze, ih]
  | @hex a b c d x y z w us cs h1 h2 h3 h4 _ ih =>
    have : ∀ {c : Char} {x : Nat}, HexIs c x → c ≠ '"' ∧ c ≠ '\\' := fun h => by
      unfold HexIs at h
      constructor <;> rintro rfl <;> simp at h
    have h1 := this h1; have h2 := this h2; have h3 := this h3; have h4 := this h4
    simp [squeeze, ih, h1, h2, h3, h4]

theorem squeeze_string {cs : List Char} (h : JsonText .string cs) (rest : List Char) : squeeze .outside (cs ++ rest) = cs ++ squeeze .outside rest := by
  cases h with
  | @string cs h =>
    obtain ⟨us, hu⟩ : ∃ us, JsonUnits us cs := meant h
    simp only [List.cons_append, List.append_assoc, squeeze, List.nil_append]
    simp [squeeze_units hu, squeeze]

theorem squeeze_number {cs : List Char} (h : JsonText .number cs) (rest : List Char) : squeeze .outside (cs ++ rest) = cs ++ squeeze .outside rest := by
  refine squeeze_plains (fun c hc => ?_) rest
  have := (numeral_ascii h (by simp) c hc).1
  intro hm
  simp only [List.mem_cons, List.not_mem_nil, or_false] at hm
  rcases hm with rfl | rfl | rfl | rfl | rfl <;> simp at this

theorem JsonBare.squeeze {A : JsonSym} {cs bs : List Char} (h : JsonBare A cs bs) : ∀ rest, squeeze .outside (cs ++ rest) = bs ++ squeeze .outside rest := by
  have one : ∀ (c : Char) (rest : List Char), c ∈ ['{', '}', '[', ']', ':', ','] → Spec.squeeze .outside (c :: rest) = c :: Spec.squeeze .outside rest := fun c rest h =>
    squeeze_plain (by simp only [List.mem_cons, List.not_mem_nil, or_false] at h; rcases h with rfl | rfl | rfl | rfl | rfl | rfl <;> decide) rest
  induction h with
  | value_object _ ih => exact ih
  | value_array _ ih => exact ih
  | value_string h => exact squeeze_string h
  | value_number h => exact squeeze_number h
  | value_true => exact squeeze_plains (by decide)
  | value_false => exact squeeze_plains (by decide)
  | value_null => exact squeeze_plains (by decide)
  | object_ws h => intro rest; simp [one, squeeze_ws h]
  | object_members _ ih => intro rest; simp [one, ih]
  | members_one _ ih => exact ih
  | members_more _ _ ih1 ih2 => intro rest; simp [one, ih1, ih2]
  | member h1 h2 h3 _ ih => intro rest; simp [one, squeeze_ws h1, squeeze_string h2, squeeze_ws h3, ih]
  | array_ws h => intro rest; simp [one, squeeze_ws h]
  | array_elements _ ih => intro rest; simp [one, ih]
  | elements_one _ ih => exact ih
  | elements_more _ _ ih1 ih2 => intro rest; simp [one, ih1, ih2]
  | element h1 _ h3 ih => intro rest; simp [squeeze_ws h1, squeeze_ws h3, ih]

/-! ### what is written has no white space -/

theorem bare_element_of {cs : List Char} (h : JsonBare .value cs cs) : JsonBare .element cs cs := by
  have := JsonBare.element .ws_none h .ws_none
  simpa using this

theorem bare_member_of {k : List Nat} {v : JVal} (hk : ∀ u ∈ k, u < 0x10000) (h : JsonBare .value (writeValue v) (writeValue v)) :
    JsonBare .member (writeMember (k, v)) (writeMember (k, v)) := by
  have := JsonBare.member .ws_none (string_text (units_flat _ hk)) .ws_none (bare_element_of h)
  simpa [writeMember, writeString] using this

mutual
theorem bare_value : ∀ {v : JVal}, v.Fits → JsonBare .value (writeValue v) (writeValue v)
  | _, .null => .value_null
  | _, .bool true => .value_true
  | _, .bool false => .value_false
  | _, .num h => .value_number h
  | _, .str h => .value_string (string_text (units_flat _ h))
  | _, .arr .nil => .value_array (.array_ws (cs := []) .ws_none)
  | _, .arr (.cons h hs) => .value_array (.array_elements (bare_more hs (bare_element_of (bare_value h))))
  | _, .obj .nil => .value_object (.object_ws (cs := []) .ws_none)
  | _, .obj (.cons hk hv hs) => .value_object (.object_members (bare_members hs (bare_member_of hk (bare_value hv))))
theorem bare_more : ∀ {vs : List JVal}, JVal.AllFit vs → ∀ {cs : List Char}, JsonBare .element cs cs → JsonBare .elements (cs ++ writeMore vs) (cs ++ writeMore vs)
  | _, .nil, _, h => by rw [writeMore, List.append_nil]; exact .elements_one h
  | _, .cons h' hs, _, h => by rw [writeMore]; exact .elements_more h (bare_more hs (bare_element_of (bare_value h')))
theorem bare_members : ∀ {ms : List (List Nat × JVal)}, JVal.MembersFit ms → ∀ {cs : List Char}, JsonBare .member cs cs →
    JsonBare .members (cs ++ writeMembers ms) (cs ++ writeMembers ms)
  | _, .nil, _, h => by rw [writeMembers, List.append_nil]; exact .members_one h
  | _, .cons hk h' hs, _, h => by rw [writeMembers]; exact .members_more h (bare_members hs (bare_member_of hk (bare_value h')))
end

end Tok
