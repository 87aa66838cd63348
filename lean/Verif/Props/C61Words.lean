/-
C61 for the readers whose `What` is a word: rules, Janus and value readers, and for sequences of readers.
-/
import Verif.Props.C61
import Verif.Props.C45

namespace Tok
open Spec

/-- The bytes that end a word. -/
def stop (b : UInt8) : Prop := b = 32 ∨ b = 41 ∨ b = 62 ∨ b = 93

instance (b : UInt8) : Decidable (stop b) := inferInstanceAs (Decidable (_ ∨ _))

/-- A text that begins with such a byte, or none. -/
def EndsWord (x : Bytes) : Prop := ∀ b u, x = b :: u → stop b

theorem endsWord_nil : EndsWord [] := fun _ _ h => by cases h
theorem endsWord_cons {b : UInt8} (h : stop b) (u : Bytes) : EndsWord (b :: u) := fun _ _ e => by cases e; exact h

/-- A text that ends where the text behind it begins with a byte of a kind that it has none of. -/
theorem split_at_byte (P : UInt8 → Prop) {a b : Bytes} (ha : ∀ c ∈ a, ¬ P c) (hb : ∀ c ∈ b, ¬ P c) {x y : Bytes} (hx : ∀ c u, x = c :: u → P c)
    (hy : ∀ c u, y = c :: u → P c) (h : a ++ x = b ++ y) : a = b ∧ x = y := by
  induction a generalizing b with
  | nil =>
    cases b with
    | nil => exact ⟨rfl, h⟩
    | cons c b => exact absurd (hx c (b ++ y) h) (hb c (by simp))
  | cons c a ih =>
    cases b with
    | nil => exact absurd (hy c (a ++ x) h.symm) (ha c (by simp))
    | cons d b =>
      simp only [List.cons_append, List.cons.injEq] at h
      obtain ⟨h1, h2⟩ := ih (fun c hc => ha c (by simp [hc])) (fun c hc => hb c (by simp [hc])) h.2
      exact ⟨by rw [h.1, h1], h2⟩

/-- Such a text begins with every text of other bytes that stands there. -/
theorem prefix_of_word (P : UInt8 → Prop) {a p : Bytes} (hp : ∀ c ∈ p, ¬ P c) {x y : Bytes} (hx : ∀ c u, x = c :: u → P c)
    (h : a ++ x = p ++ y) : p <+: a := by
  induction p generalizing a with
  | nil => exact List.nil_prefix
  | cons c p ih =>
    cases a with
    | nil => exact absurd (hx c (p ++ y) h) (hp c (by simp))
    | cons d a =>
      simp only [List.cons_append, List.cons.injEq] at h
      obtain ⟨rfl, h⟩ := h
      exact List.cons_prefix_cons.mpr ⟨rfl, ih (fun c hc => hp c (by simp [hc])) h⟩

/-- Which object a text belongs to: the rule of a name, the pair of a Janus name, the field of a value reader. -/
structure Register where
  rule : Bytes → Nat
  pair : Bytes → Nat
  cell : Bytes → Nat

/-- The readers of `legible` and those with words: rules with the names that rules may have, other than `END`, Janus readers with names without blanks,
`<`, `>`, `)` and `]`, and value readers; readers with the same word belong to the same object.  In a `Body` there are no words. -/
def Reader.clear (rt : Rt) (G : Env) (K : Register) : Reader → Prop
  | .rule i => ∃ rl, G[i]? = some rl ∧ IsRuleName rl.name ∧ rl.name ≠ b!"END" ∧ i = K.rule rl.name
  | .int c base bits => c = K.cell (Reader.what rt G (.int 0 base bits))
  | .uint c base bits => c = K.cell (Reader.what rt G (.uint 0 base bits))
  | .bool c format => c = K.cell (Reader.what rt G (.bool 0 format))
  | .janusBegin k name _ | .janusEnd k name => k = K.pair name ∧ ∀ b ∈ name, ¬ stop b ∧ b ≠ 60
  | .body b t => (Reader.body b t).Every Reader.legible
  | .bodyTail b t => (Reader.bodyTail b t).Every Reader.legible
  | r => r.legible

/-- Rules, and the value readers of numbers. -/
def Reader.worded : Reader → Prop
  | .rule _ | .int _ _ _ | .uint _ _ _ => True
  | _ => False

theorem itoa_mem {n : Int} {b : UInt8} (h : b ∈ itoa n) : b = 45 ∨ (48 ≤ b.toNat ∧ b.toNat ≤ 57) := by
  cases n with
  | ofNat n => exact .inr (natDigits_mem h)
  | negSucc n =>
    have h : b ∈ ([45] ++ natDigits (n + 1) : Bytes) := h
    rcases List.mem_append.mp h with h | h
    · exact .inl (List.mem_singleton.mp h)
    · exact .inr (natDigits_mem h)

theorem itoa_no {n : Int} {b : UInt8} (h : b ∈ itoa n) (k : UInt8) (hk : k ≠ 45 ∧ (k.toNat < 48 ∨ 57 < k.toNat) := by decide) : b ≠ k := by
  rintro rfl
  rcases itoa_mem h with h | h
  · exact hk.1 h
  · omega

theorem itoa_to {n m : Int} (k : UInt8) (hk : k ≠ 45 ∧ (k.toNat < 48 ∨ 57 < k.toNat) := by decide) {u v : Bytes} (h : itoa n ++ k :: u = itoa m ++ k :: v) :
    n = m ∧ u = v := by
  obtain ⟨h1, h2⟩ := split_at_byte (· = k) (fun c hc => itoa_no hc k hk) (fun c hc => itoa_no hc k hk) (fun c u e => by cases e; rfl) (fun c u e => by cases e; rfl) h
  exact ⟨itoa_inj h1, by simpa using h2⟩

theorem numbers_inj {n m n' m' : Int} (h : itoa n ++ b!"," ++ itoa m ++ b!"}" = itoa n' ++ b!"," ++ itoa m' ++ b!"}") : n = n' ∧ m = m' := by
  simp only [List.append_assoc, List.cons_append, List.nil_append] at h
  obtain ⟨h1, h2⟩ := itoa_to 44 (by decide) h
  exact ⟨h1, (itoa_to 125 (by decide) h2).1⟩

theorem numbers_mem {n m : Int} {b : UInt8} (h : b ∈ itoa n ++ b!"," ++ itoa m ++ b!"}") : ¬ stop b := by
  rintro hs
  simp only [List.mem_append, List.mem_cons, List.not_mem_nil, or_false] at h
  rcases h with ((h | h) | h) | h
  · rcases hs with hs | hs | hs | hs <;> exact itoa_no h _ (by decide) hs
  · subst h; revert hs; decide
  · rcases hs with hs | hs | hs | hs <;> exact itoa_no h _ (by decide) hs
  · subst h; revert hs; decide

/-- Letters and the bytes of names. -/
theorem letter_no {b : UInt8} (h : IsLetter b) (k : UInt8) (hk : ¬ IsLetter k := by decide) : b ≠ k := by
  rintro rfl
  exact hk h

theorem name_no {b : UInt8} (h : IsNameByte b) (k : UInt8) (hk : ¬ IsNameByte k := by decide) : b ≠ k := by
  rintro rfl
  exact hk h

theorem ruleName_no {name : Bytes} (h : IsRuleName name) {b : UInt8} (hb : b ∈ name) (k : UInt8) (hk : ¬ IsLetter k ∧ ¬ IsNameByte k := by decide) : b ≠ k := by
  obtain ⟨a, t, rfl, h1, h2⟩ := h
  rcases List.mem_cons.mp hb with rfl | hb
  · exact letter_no h1 k hk.1
  · exact name_no (h2 b hb) k hk.2

/-- The words have no byte that ends a word, and begin with a letter. -/
theorem word_mem {rt : Rt} {G : Env} {K : Register} {r : Reader} (hw : r.worded) (h : r.clear rt G K) :
    (∀ b ∈ r.what rt G, ¬ stop b) ∧ ∃ b u, r.what rt G = b :: u ∧ IsLetter b := by
  cases r with
  | rule i =>
    obtain ⟨rl, h1, h2, -, -⟩ := h
    have e : Reader.what rt G (.rule i) = rl.name := by simp [Reader.what, h1]
    rw [e]
    refine ⟨fun b hb hs => ?_, ?_⟩
    · rcases hs with hs | hs | hs | hs <;> exact ruleName_no h2 hb _ (by decide) hs
    · obtain ⟨b, t, h3, h4, _⟩ := h2
      exact ⟨b, t, h3, h4⟩
  | int c n m =>
    refine ⟨fun b hb => ?_, 105, _, rfl, by decide⟩
    have hb : b ∈ b!"int{" ++ (itoa n ++ b!"," ++ itoa m ++ b!"}") := by simpa [Reader.what] using hb
    rcases List.mem_append.mp hb with hb | hb
    · exact (by decide : ∀ b ∈ b!"int{", ¬ stop b) b hb
    · exact numbers_mem hb
  | uint c n m =>
    refine ⟨fun b hb => ?_, 117, _, rfl, by decide⟩
    have hb : b ∈ b!"uint{" ++ (itoa n ++ b!"," ++ itoa m ++ b!"}") := by simpa [Reader.what] using hb
    rcases List.mem_append.mp hb with hb | hb
    · exact (by decide : ∀ b ∈ b!"uint{", ¬ stop b) b hb
    · exact numbers_mem hb
  | _ => exact absurd hw id

/-- A word tells the reader. -/
theorem word_inj {rt : Rt} {G : Env} {K : Register} {r r' : Reader} (hw : r.worded) (hw' : r'.worded) (h : r.clear rt G K) (h' : r'.clear rt G K)
    (he : r.what rt G = r'.what rt G) : r = r' := by
  have brace : ∀ (i : Nat) (u : Bytes), (Reader.rule i).clear rt G K → (Reader.rule i).what rt G = u → (123 : UInt8) ∉ u := by
    rintro i u ⟨rl, h1, h2, -, -⟩ rfl hb
    have e : Reader.what rt G (.rule i) = rl.name := by simp [Reader.what, h1]
    rw [e] at hb
    exact ruleName_no h2 hb 123 (by decide) rfl
  have hi : ∀ c n m, (123 : UInt8) ∈ Reader.what rt G (.int c n m) := fun c n m => by simp [Reader.what]
  have hu : ∀ c n m, (123 : UInt8) ∈ Reader.what rt G (.uint c n m) := fun c n m => by simp [Reader.what]
  cases r with
  | rule i =>
    cases r' with
    | rule j =>
      obtain ⟨rl, h1, -, -, h2⟩ := h
      obtain ⟨rl', h1', -, -, h2'⟩ := h'
      simp only [Reader.what, h1, h1'] at he
      rw [h2, h2', he]
    | int c n m => exact absurd (hi c n m) (brace i _ h he)
    | uint c n m => exact absurd (hu c n m) (brace i _ h he)
    | _ => exact absurd hw' id
  | int c n m =>
    cases r' with
    | rule j => exact absurd (hi c n m) (brace j _ h' he.symm)
    | int c' n' m' =>
      have he' : b!"int{" ++ (itoa n ++ b!"," ++ itoa m ++ b!"}") = b!"int{" ++ (itoa n' ++ b!"," ++ itoa m' ++ b!"}") := by simpa [Reader.what] using he
      obtain ⟨rfl, rfl⟩ := numbers_inj (List.append_cancel_left he')
      have h : c = _ := h
      have h' : c' = _ := h'
      rw [h, h']
    | uint c' n' m' => exact absurd (congrArg List.head? he) (by simp [Reader.what])
    | _ => exact absurd hw' id
  | uint c n m =>
    cases r' with
    | rule j => exact absurd (hu c n m) (brace j _ h' he.symm)
    | int c' n' m' => exact absurd (congrArg List.head? he) (by simp [Reader.what])
    | uint c' n' m' =>
      have he' : b!"uint{" ++ (itoa n ++ b!"," ++ itoa m ++ b!"}") = b!"uint{" ++ (itoa n' ++ b!"," ++ itoa m' ++ b!"}") := by simpa [Reader.what] using he
      obtain ⟨rfl, rfl⟩ := numbers_inj (List.append_cancel_left he')
      have h : c = _ := h
      have h' : c' = _ := h'
      rw [h, h']
    | _ => exact absurd hw' id
  | _ => exact absurd hw id

/-- A word is not the text of a `Bool` reader. -/
theorem word_bool {rt : Rt} {G : Env} {K : Register} {r : Reader} (hw : r.worded) (h : r.clear rt G K) {x y : Bytes} (hx : EndsWord x)
    (he : r.what rt G ++ x = b!"bool{" ++ y) : False := by
  obtain ⟨u, hu⟩ := prefix_of_word stop (by decide) hx he
  cases r with
  | rule i =>
    obtain ⟨rl, h1, h2, -, -⟩ := h
    have e : Reader.what rt G (.rule i) = rl.name := by simp [Reader.what, h1]
    rw [e] at hu
    exact ruleName_no h2 (b := 123) (by rw [← hu]; simp) 123 (by decide) rfl
  | int c n m => exact absurd (congrArg List.head? hu) (by simp [Reader.what])
  | uint c n m => exact absurd (congrArg List.head? hu) (by simp [Reader.what])
  | _ => exact absurd hw id

/-- The kind of a reader, words included. -/
def Reader.kind2 : Reader → Nat
  | .rule _ | .int _ _ _ | .uint _ _ _ | .bool _ _ => 20
  | .janusBegin _ _ _ | .janusEnd _ _ => 21
  | .at_ _ => 8
  | r => r.kind

/-- The kind of the reader that a `What` begins with, words included. -/
def kindOf2 (t : Bytes) : Nat :=
  match t with
  | [] => 17
  | b :: _ => if IsLetter b then 20 else if b = 36 then 21 else if kindOf t = 9 then 8 else kindOf t

theorem kindOf2_letter {b : UInt8} (h : IsLetter b) (u : Bytes) : kindOf2 (b :: u) = 20 := if_pos h

theorem kindOf2_digit {b : UInt8} {u : Bytes} (h : 48 ≤ b.toNat ∧ b.toNat ≤ 57) : kindOf2 (b :: u) = 17 := by
  unfold kindOf2
  simp only
  rw [if_neg (by unfold IsLetter; omega), if_neg (digit_ne h 36), kindOf_other h, if_neg (by decide)]

theorem kindOf2_neg {b : UInt8} {u : Bytes} (h : 48 ≤ b.toNat ∧ b.toNat ≤ 57) : kindOf2 (45 :: b :: u) = 17 := by
  unfold kindOf2
  simp only
  rw [if_neg (by decide), if_neg (by decide), kindOf_neg h, if_neg (by decide)]

theorem kindOf2_at (u : Bytes) : kindOf2 (64 :: u) = 8 := by
  show (if (if u.head? = some 69 then 8 else 9) = 9 then 8 else (if u.head? = some 69 then 8 else 9)) = 8
  split_ifs <;> simp_all

theorem kindOf2_what {rt : Rt} {G : Env} {K : Register} {r : Reader} (h : r.clear rt G K) (x : Bytes) : kindOf2 (r.what rt G ++ x) = r.kind2 := by
  cases r with
  | lit s => rfl
  | fold s => rfl
  | anyRune s => rfl
  | atEnd => rfl
  | any s => rfl
  | betweenAny l s => rfl
  | not s => rfl
  | opt s => rfl
  | many s => rfl
  | zom s => rfl
  | past s => rfl
  | «to» s => rfl
  | body a b => rfl
  | bodyTail a b => rfl
  | bool c f => rfl
  | janusBegin k n c => rfl
  | janusEnd k n => rfl
  | skipSeq sk rs => rw [what_skipSeq]; rfl
  | at_ s => exact kindOf2_at _
  | rule i =>
    obtain ⟨-, b, u, h1, h2⟩ := word_mem (r := .rule i) trivial h
    rw [h1]
    exact kindOf2_letter h2 _
  | int c n m => rfl
  | uint c n m => rfl
  | holey a b c =>
    have : Reader.what rt G (.holey a b c) ++ x = 40 :: 60 :: (quoteRune rt a ++ quoteRune rt b ++ b!">" ++ b!" - " ++ quoteToGraphic rt c ++ b!")" ++ x) := by
      rw [Reader.what, quoteBetween, if_neg h.1]
      simp
    rw [this]
    rfl
  | rune r =>
    obtain ⟨c, rfl⟩ := h
    rw [Reader.what, quoteRuneToGraphic_char, List.cons_append]
    rfl
  | between a b =>
    rw [Reader.what, quoteBetween, if_neg h.1]
    rfl
  | times n s =>
    rw [Reader.what]
    rcases itoa_head n with ⟨d, u, h1, h2⟩ | ⟨d, u, h1, h2⟩
    · rw [h1]
      exact kindOf2_digit h2
    · rw [h1]
      exact kindOf2_neg h2
  | _ => exact absurd h id

/-- No `What` begins like the text behind one. -/
theorem clear_begins {rt : Rt} {G : Env} {K : Register} {r : Reader} (h : r.clear rt G K) (x : Bytes) : ∃ b u, r.what rt G ++ x = b :: u ∧ ¬ stop b := by
  have leg : r.legible → ∃ b u, r.what rt G ++ x = b :: u ∧ ¬ stop b := fun h => by
    obtain ⟨b, u, h1, h2, -⟩ := what_begins rt G h x
    exact ⟨b, u, h1, fun hs => by rcases hs with rfl | rfl | rfl | rfl <;> revert h2 <;> decide⟩
  have word : r.worded → ∃ b u, r.what rt G ++ x = b :: u ∧ ¬ stop b := fun hw => by
    obtain ⟨h1, b, u, h2, -⟩ := word_mem hw h
    exact ⟨b, u ++ x, by rw [h2]; rfl, h1 b (by rw [h2]; simp)⟩
  cases r with
  | rule i => exact word trivial
  | int c n m => exact word trivial
  | uint c n m => exact word trivial
  | bool c f => exact ⟨98, _, rfl, by decide⟩
  | janusBegin k n c => exact ⟨36, _, rfl, by decide⟩
  | janusEnd k n => exact ⟨36, _, rfl, by decide⟩
  | body b t => exact leg h.here
  | bodyTail b t => exact leg h.here
  | _ => first | exact leg h | exact absurd h id

/-- The elements of a list can be read back, whatever ends it. -/
theorem clear_list {rt : Rt} {G : Env} {K : Register} {P : Bytes → Prop} {rs : List Reader}
    (ih : ∀ c ∈ rs, ∀ r' x y, r'.Every (Reader.clear rt G K) → EndsWord x → EndsWord y → c.what rt G ++ x = r'.what rt G ++ y → c = r' ∧ x = y)
    (hrs : ∀ c ∈ rs, c.clear rt G K) {rs' : List Reader} (hrs' : ∀ c ∈ rs', c.Every (Reader.clear rt G K)) {x y : Bytes}
    (hP : ∀ b u, P (32 :: b :: u) → stop b) (hx : P x) (hy : P y) (hs : EndsWord x) (hs' : EndsWord y)
    (h : rs.flatMap (fun r => 32 :: r.what rt G) ++ x = rs'.flatMap (fun r => 32 :: r.what rt G) ++ y) : rs = rs' ∧ x = y := by
  have tail : ∀ (l : List Reader) {z : Bytes}, EndsWord z → EndsWord (l.flatMap (fun r => 32 :: r.what rt G) ++ z) := fun l z hz => by
    cases l with
    | nil => exact hz
    | cons a l => exact endsWord_cons (.inl rfl) _
  induction rs generalizing rs' with
  | nil =>
    cases rs' with
    | nil => exact ⟨rfl, h⟩
    | cons c rs' =>
      exfalso
      obtain ⟨b, u, h1, h2⟩ := clear_begins (hrs' c (by simp)).here (rs'.flatMap (fun r => 32 :: r.what rt G) ++ y)
      simp only [List.flatMap_nil, List.nil_append, List.flatMap_cons, List.cons_append, List.append_assoc] at h
      rw [h1] at h
      subst h
      exact h2 (hP b u hx)
  | cons c rs ihl =>
    cases rs' with
    | nil =>
      exfalso
      obtain ⟨b, u, h1, h2⟩ := clear_begins (hrs c (by simp)) (rs.flatMap (fun r => 32 :: r.what rt G) ++ x)
      simp only [List.flatMap_nil, List.nil_append, List.flatMap_cons, List.cons_append, List.append_assoc] at h
      rw [h1] at h
      subst h
      exact h2 (hP b u hy)
    | cons c' rs' =>
      simp only [List.flatMap_cons, List.cons_append, List.append_assoc, List.cons.injEq, true_and] at h
      obtain ⟨h1, h2⟩ := ih c (by simp) c' _ _ (hrs' c' (by simp)) (tail rs hs) (tail rs' hs') h
      obtain ⟨h3, h4⟩ := ihl (fun d hd => ih d (List.mem_cons_of_mem _ hd)) (fun d hd => hrs d (List.mem_cons_of_mem _ hd))
        (fun d hd => hrs' d (List.mem_cons_of_mem _ hd)) h2
      exact ⟨by rw [h1, h3], h4⟩

/-- Lists with an end in brackets. -/
theorem clear_closed {rt : Rt} {G : Env} {K : Register} (e : UInt8) (he : stop e) {rs : List Reader}
    (ih : ∀ c ∈ rs, ∀ r' x y, r'.Every (Reader.clear rt G K) → EndsWord x → EndsWord y → c.what rt G ++ x = r'.what rt G ++ y → c = r' ∧ x = y)
    (hrs : ∀ c ∈ rs, c.clear rt G K) {rs' : List Reader} (hrs' : ∀ c ∈ rs', c.Every (Reader.clear rt G K)) {x y : Bytes}
    (h : rs.flatMap (fun r => 32 :: r.what rt G) ++ 32 :: e :: x = rs'.flatMap (fun r => 32 :: r.what rt G) ++ 32 :: e :: y) : rs = rs' ∧ x = y := by
  obtain ⟨h1, h2⟩ := clear_list (P := fun z => ∃ u, z = 32 :: e :: u) ih hrs hrs' (by rintro b u ⟨v, hv⟩; cases hv; exact he) ⟨x, rfl⟩ ⟨y, rfl⟩
    (endsWord_cons (.inl rfl) _) (endsWord_cons (.inl rfl) _) h
  exact ⟨h1, by simpa using h2⟩

/-- The end of the text is not the end of another reader. -/
theorem at_end {rt : Rt} {G : Env} {K : Register} {c : Reader} (hc : c.clear rt G K) {x y : Bytes} (hx : EndsWord x) (hy : EndsWord y)
    (he : Reader.what rt G (.at_ c) ++ x = Reader.what rt G .atEnd ++ y) : False := by
  replace he : c.what rt G ++ x = b!"END" ++ y := by simpa [Reader.what] using he
  have hk : c.kind2 = 20 := by
    rw [← kindOf2_what hc x, he]
    rfl
  cases c <;> first | (simp [Reader.kind2, Reader.kind] at hk; done) | exact absurd hc id | skip
  case bool => exact absurd (congrArg List.head? he) (by simp [Reader.what])
  case int => exact absurd (congrArg List.head? he) (by simp [Reader.what])
  case uint => exact absurd (congrArg List.head? he) (by simp [Reader.what])
  case rule i =>
    obtain ⟨h1, -⟩ := split_at_byte stop (word_mem (r := .rule i) trivial hc).1 (by decide) hx hy he
    obtain ⟨rl, h2, -, h3, -⟩ := hc
    simp only [Reader.what, h2] at h1
    exact h3 h1

/-- Readers with the same `What` are the same, even when something is written behind it that is no part of a word. -/
theorem clear_inj (rt : Rt) (G : Env) (K : Register) {r : Reader} (h : r.Every (Reader.clear rt G K)) :
    ∀ r' x y, r'.Every (Reader.clear rt G K) → EndsWord x → EndsWord y → r.what rt G ++ x = r'.what rt G ++ y → r = r' ∧ x = y := by
  induction h with
  | @mk r hl hs ih =>
    intro r' x y h' hx hy he
    have hl' := h'.here
    have hk : r.kind2 = r'.kind2 := by
      rw [← kindOf2_what hl x, he, kindOf2_what hl']
    have leaf : ∀ a b : Reader, a.Every Reader.legible → b.Every Reader.legible → a.what rt G ++ x = b.what rt G ++ y → a = b ∧ x = y :=
      fun a b ha hb h => what_inj rt G ha b x y hb h
    have single : ∀ a : Reader, a.subs = [] → a.legible → a.Every Reader.legible := fun a h0 ha => .mk ha (by rw [h0]; simp)
    have word : ∀ a b : Reader, a.worded → b.worded → a.clear rt G K → b.clear rt G K → a.what rt G ++ x = b.what rt G ++ y → a = b ∧ x = y :=
      fun a b ha hb hca hcb h => by
        obtain ⟨h1, h2⟩ := split_at_byte stop (word_mem ha hca).1 (word_mem hb hcb).1 hx hy h
        exact ⟨word_inj ha hb hca hcb h1, h2⟩
    cases r with
    | not c =>
      cases r' <;> first | (simp [Reader.kind2, Reader.kind] at hk; done) | exact absurd hl' id | skip
      rename_i c'
      obtain ⟨rfl, rfl⟩ := ih c (by simp [Reader.subs]) c' x y (h'.sub (by simp [Reader.subs])) hx hy (by simpa [Reader.what] using he)
      exact ⟨rfl, rfl⟩
    | opt c =>
      cases r' <;> first | (simp [Reader.kind2, Reader.kind] at hk; done) | exact absurd hl' id | skip
      rename_i c'
      obtain ⟨rfl, rfl⟩ := ih c (by simp [Reader.subs]) c' x y (h'.sub (by simp [Reader.subs])) hx hy (by simpa [Reader.what] using he)
      exact ⟨rfl, rfl⟩
    | many c =>
      cases r' <;> first | (simp [Reader.kind2, Reader.kind] at hk; done) | exact absurd hl' id | skip
      rename_i c'
      obtain ⟨rfl, rfl⟩ := ih c (by simp [Reader.subs]) c' x y (h'.sub (by simp [Reader.subs])) hx hy (by simpa [Reader.what] using he)
      exact ⟨rfl, rfl⟩
    | zom c =>
      cases r' <;> first | (simp [Reader.kind2, Reader.kind] at hk; done) | exact absurd hl' id | skip
      rename_i c'
      obtain ⟨rfl, rfl⟩ := ih c (by simp [Reader.subs]) c' x y (h'.sub (by simp [Reader.subs])) hx hy (by simpa [Reader.what] using he)
      exact ⟨rfl, rfl⟩
    | past c =>
      cases r' <;> first | (simp [Reader.kind2, Reader.kind] at hk; done) | exact absurd hl' id | skip
      rename_i c'
      obtain ⟨rfl, rfl⟩ := ih c (by simp [Reader.subs]) c' x y (h'.sub (by simp [Reader.subs])) hx hy (by simpa [Reader.what] using he)
      exact ⟨rfl, rfl⟩
    | «to» c =>
      cases r' <;> first | (simp [Reader.kind2, Reader.kind] at hk; done) | exact absurd hl' id | skip
      rename_i c'
      obtain ⟨rfl, rfl⟩ := ih c (by simp [Reader.subs]) c' x y (h'.sub (by simp [Reader.subs])) hx hy (by simpa [Reader.what] using he)
      exact ⟨rfl, rfl⟩
    | rule i =>
      cases r' <;> first | (simp [Reader.kind2, Reader.kind] at hk; done) | exact absurd hl' id | skip
      all_goals first
        | exact word _ _ trivial trivial hl hl' he
        | exact (word_bool (r := .rule i) trivial hl hx (he.trans (by simp only [Reader.what, List.append_assoc]; rfl))).elim
    | int c n m =>
      cases r' <;> first | (simp [Reader.kind2, Reader.kind] at hk; done) | exact absurd hl' id | skip
      all_goals first
        | exact word _ _ trivial trivial hl hl' he
        | exact (word_bool (r := .int c n m) trivial hl hx (he.trans (by simp only [Reader.what, List.append_assoc]; rfl))).elim
    | uint c n m =>
      cases r' <;> first | (simp [Reader.kind2, Reader.kind] at hk; done) | exact absurd hl' id | skip
      all_goals first
        | exact word _ _ trivial trivial hl hl' he
        | exact (word_bool (r := .uint c n m) trivial hl hx (he.trans (by simp only [Reader.what, List.append_assoc]; rfl))).elim
    | bool c f =>
      cases r' <;> first | (simp [Reader.kind2, Reader.kind] at hk; done) | exact absurd hl' id | skip
      case rule i => exact (word_bool (r := .rule i) trivial hl' hy (he.symm.trans (by simp only [Reader.what, List.append_assoc]; rfl))).elim
      case int c' n m => exact (word_bool (r := .int c' n m) trivial hl' hy (he.symm.trans (by simp only [Reader.what, List.append_assoc]; rfl))).elim
      case uint c' n m => exact (word_bool (r := .uint c' n m) trivial hl' hy (he.symm.trans (by simp only [Reader.what, List.append_assoc]; rfl))).elim
      case bool c' f' =>
        simp only [Reader.what, List.append_assoc, List.append_cancel_left_eq] at he
        obtain ⟨rfl, he1⟩ := quote_inj rt he
        have hl : c = _ := hl
        have hl' : c' = _ := hl'
        exact ⟨by rw [hl, hl'], by simpa using he1⟩
    | janusBegin k n c =>
      cases r' <;> first | (simp [Reader.kind2, Reader.kind] at hk; done) | exact absurd hl' id | skip
      case janusBegin k' n' c' =>
        simp only [Reader.what, List.append_assoc, List.append_cancel_left_eq] at he
        obtain ⟨rfl, he1⟩ := split_at_byte (· = 60) (fun b hb => (hl.2 b hb).2) (fun b hb => (hl'.2 b hb).2) (fun _ _ e => by cases e; rfl)
          (fun _ _ e => by cases e; rfl) he
        obtain ⟨rfl, rfl⟩ := ih c (by simp [Reader.subs]) c' x y (h'.sub (by simp [Reader.subs])) hx hy (by simpa using he1)
        exact ⟨by rw [hl.1, hl'.1], rfl⟩
      case janusEnd k' n' =>
        exfalso
        simp only [Reader.what, List.append_assoc, List.append_cancel_left_eq] at he
        obtain ⟨-, he1⟩ := split_at_byte (fun b => stop b ∨ b = 60) (fun b hb => by have := hl.2 b hb; tauto) (fun b hb => by have := hl'.2 b hb; tauto)
          (fun _ _ e => by cases e; exact .inr rfl) (fun b u e => .inl (hy b u e)) he
        exact absurd (hy 60 _ he1.symm) (by decide)
    | janusEnd k n =>
      cases r' <;> first | (simp [Reader.kind2, Reader.kind] at hk; done) | exact absurd hl' id | skip
      case janusBegin k' n' c' =>
        exfalso
        simp only [Reader.what, List.append_assoc, List.append_cancel_left_eq] at he
        obtain ⟨-, he1⟩ := split_at_byte (fun b => stop b ∨ b = 60) (fun b hb => by have := hl.2 b hb; tauto) (fun b hb => by have := hl'.2 b hb; tauto)
          (fun b u e => .inl (hx b u e)) (fun _ _ e => by cases e; exact .inr rfl) he
        exact absurd (hx 60 _ he1) (by decide)
      case janusEnd k' n' =>
        simp only [Reader.what, List.append_assoc, List.append_cancel_left_eq] at he
        obtain ⟨rfl, he1⟩ := split_at_byte stop (fun b hb => (hl.2 b hb).1) (fun b hb => (hl'.2 b hb).1) hx hy he
        exact ⟨by rw [hl.1, hl'.1], he1⟩
    | at_ c =>
      cases r' <;> first | (simp [Reader.kind2, Reader.kind] at hk; done) | exact absurd hl' id | skip
      case at_ c' =>
        obtain ⟨rfl, rfl⟩ := ih c (by simp [Reader.subs]) c' x y (h'.sub (by simp [Reader.subs])) hx hy (by simpa [Reader.what] using he)
        exact ⟨rfl, rfl⟩
      case atEnd => exact (at_end (hs c (by simp [Reader.subs])).here hx hy he).elim
    | atEnd =>
      cases r' <;> first | (simp [Reader.kind2, Reader.kind] at hk; done) | exact absurd hl' id | skip
      case at_ c' => exact (at_end (h'.sub (c := c') (by simp [Reader.subs])).here hy hx he.symm).elim
      case atEnd => exact ⟨rfl, List.append_cancel_left he⟩
    | times n c =>
      cases r' <;> first | (simp [Reader.kind2, Reader.kind] at hk; done) | exact absurd hl' id | skip
      rename_i n' c'
      simp only [Reader.what, List.append_assoc, List.cons_append, List.nil_append] at he
      obtain ⟨rfl, he1⟩ := itoa_star_inj he
      obtain ⟨rfl, rfl⟩ := ih c (by simp [Reader.subs]) c' x y (h'.sub (by simp [Reader.subs])) hx hy he1
      exact ⟨rfl, rfl⟩
    | skipSeq sk rs =>
      cases r' <;> first | (simp [Reader.kind2, Reader.kind] at hk; done) | exact absurd hl' id | skip
      rename_i sk' rs'
      rw [what_skipSeq, what_skipSeq] at he
      simp only [List.cons.injEq, true_and] at he
      obtain ⟨rfl, he1⟩ := ih sk (by simp [Reader.subs]) sk' _ _ (h'.sub (by simp [Reader.subs])) (endsWord_cons (by decide) _) (endsWord_cons (by decide) _) he
      simp only [List.cons.injEq, true_and] at he1
      obtain ⟨rfl, rfl⟩ := clear_closed 41 (by decide) (fun c hc => ih c (List.mem_cons_of_mem _ hc)) (fun c hc => (hs c (List.mem_cons_of_mem _ hc)).here)
        (fun c hc => h'.sub (List.mem_cons_of_mem _ hc)) he1
      exact ⟨rfl, rfl⟩
    | any rs =>
      cases r' <;> first | (simp [Reader.kind2, Reader.kind] at hk; done) | exact absurd hl' id | skip
      rename_i rs'
      rw [what_any, what_any] at he
      simp only [List.cons.injEq, true_and] at he
      have first : ∀ (c : Reader) (rs : List Reader) (u v : Bytes), c.clear rt G K → (32 : UInt8) :: 32 :: u ≠ (c :: rs).flatMap (fun r => 32 :: r.what rt G) ++ v := by
        intro c rs u v hc h
        obtain ⟨b, w, h1, h2⟩ := clear_begins hc (rs.flatMap (fun r => 32 :: r.what rt G) ++ v)
        simp only [List.flatMap_cons, List.cons_append, List.append_assoc, List.cons.injEq, true_and] at h
        rw [h1] at h
        simp only [List.cons.injEq] at h
        exact h2 (.inl h.1.symm)
      have h2 : rs.flatMap (fun r => 32 :: r.what rt G) ++ 32 :: 93 :: x = rs'.flatMap (fun r => 32 :: r.what rt G) ++ 32 :: 93 :: y := by
        split_ifs at he with h1 h2 h2
        · subst h1 h2; simpa using he
        · obtain ⟨c, l, rfl⟩ := List.exists_cons_of_ne_nil h2
          exact absurd he (first c l _ _ (h'.sub (by simp [Reader.subs])).here)
        · obtain ⟨c, l, rfl⟩ := List.exists_cons_of_ne_nil h1
          exact absurd he.symm (first c l _ _ (hs c (by simp [Reader.subs])).here)
        · exact he
      obtain ⟨rfl, rfl⟩ := clear_closed 93 (by decide) ih (fun c hc => (hs c hc).here) (fun c hc => h'.sub hc) h2
      exact ⟨rfl, rfl⟩
    | body b t =>
      cases r' <;> first | (simp [Reader.kind2, Reader.kind] at hk; done) | exact absurd hl' id | exact leaf _ _ hl hl' he
    | bodyTail b t =>
      cases r' <;> first | (simp [Reader.kind2, Reader.kind] at hk; done) | exact absurd hl' id | exact leaf _ _ hl hl' he
    | _ =>
      first
      | exact absurd hl id
      | (cases r' <;> first | (simp [Reader.kind2, Reader.kind] at hk; done) | exact absurd hl' id | exact leaf _ _ (single _ rfl hl) (single _ rfl hl') he)

/-- **C61, readers with words**: readers of any depth, with rules, Janus and value readers, that have the same `What` are the same reader.

Missing for the full claim: a rule of the name `END` and rules in a `Body`, where it is false (`C61_rule_violated`), Janus names with blanks or
brackets, and what is missing in `C61_what_partial`. -/
theorem C61_words_partial (rt : Rt) (G : Env) (K : Register) (r r' : Reader) (h : r.Every (Reader.clear rt G K)) (h' : r'.Every (Reader.clear rt G K))
    (he : r.what rt G = r'.what rt G) : r = r' :=
  (clear_inj rt G K h r' [] [] h' endsWord_nil endsWord_nil (by rw [he])).1

/-- The readers of a sequence; another reader is a sequence of one. -/
def Reader.line : Reader → List Reader
  | .seq rs => rs
  | r => [r]

theorem what_line (rt : Rt) (G : Env) (r : Reader) (h : r.line ≠ []) : 32 :: r.what rt G = r.line.flatMap (fun c => 32 :: c.what rt G) := by
  have single : ∀ c : Reader, 32 :: c.what rt G = [c].flatMap (fun c => 32 :: c.what rt G) := fun c => by simp
  cases r with
  | seq rs =>
    cases rs with
    | nil => exact absurd rfl h
    | cons c rs =>
      rw [Reader.what, whats_eq, List.map_cons, join_cons, List.flatMap_map]
      simp [Reader.line]
  | _ => exact single _

/-- **C61, sequences**: the rule bodies that are sequences of such readers are the same, reader by reader, if they have the same `What`.

Missing: sequences below other readers, where it is false (`C61_violated`). -/
theorem C61_seq_partial (rt : Rt) (G : Env) (K : Register) (r r' : Reader) (hn : r.line ≠ []) (hn' : r'.line ≠ [])
    (h : ∀ c ∈ r.line, c.Every (Reader.clear rt G K)) (h' : ∀ c ∈ r'.line, c.Every (Reader.clear rt G K)) (he : r.what rt G = r'.what rt G) :
    r.line = r'.line := by
  refine (clear_list (P := (· = [])) (x := []) (y := []) (fun c hc r' x y => clear_inj rt G K (h c hc) r' x y) (fun c hc => (h c hc).here) h'
    (fun _ _ e => by cases e) rfl rfl endsWord_nil endsWord_nil ?_).1
  rw [List.append_nil, List.append_nil, ← what_line rt G r hn, ← what_line rt G r' hn', he]

/-- The body `name ?$q<value "b" $q int{10,8}` of rules `name` and `value`, a sequence with words. -/
example (rt : Rt) (G : Env) (h : G = [⟨b!"name", some (.lit b!"n")⟩, ⟨b!"value", some (.lit b!"v")⟩]) (r : Reader) (hn : r.line ≠ []) :
    let K : Register := ⟨fun n => if n = b!"name" then 0 else 1, fun _ => 4, fun _ => 7⟩
    (∀ c ∈ r.line, c.Every (Reader.clear rt G K)) → r.what rt G = b!"name ?$q<value @END $q int{10,8}" →
      r = .seq [.rule 0, .opt (.janusBegin 4 b!"q" (.rule 1)), .atEnd, .janusEnd 4 b!"q", .int 7 10 8] := by
  intro K hr he
  subst h
  have e := C61_seq_partial rt _ K r (.seq [.rule 0, .opt (.janusBegin 4 b!"q" (.rule 1)), .atEnd, .janusEnd 4 b!"q", .int 7 10 8]) hn (by decide) hr ?_ ?_
  · cases r <;> simp [Reader.line] at e
    simp [e]
  · have k : ∀ {G} (c : Reader), c.clear rt G K → c.subs = [] → c.Every (Reader.clear rt G K) := fun c h h0 => .mk h (by rw [h0]; simp)
    have r0 : Reader.clear rt [⟨b!"name", some (.lit b!"n")⟩, ⟨b!"value", some (.lit b!"v")⟩] K (.rule 0) :=
      ⟨_, rfl, ⟨_, _, rfl, by decide, by decide⟩, by decide, by decide⟩
    have r1 : Reader.clear rt [⟨b!"name", some (.lit b!"n")⟩, ⟨b!"value", some (.lit b!"v")⟩] K (.rule 1) :=
      ⟨_, rfl, ⟨_, _, rfl, by decide, by decide⟩, by decide, by decide⟩
    have j : Reader.Every (Reader.clear rt [⟨b!"name", some (.lit b!"n")⟩, ⟨b!"value", some (.lit b!"v")⟩] K) (.janusBegin 4 b!"q" (.rule 1)) :=
      .mk ⟨rfl, by decide⟩ fun c hc => by
        simp only [Reader.subs, List.mem_singleton] at hc
        subst hc
        exact k _ r1 rfl
    intro c hc
    simp only [Reader.line, List.mem_cons, List.not_mem_nil, or_false] at hc
    rcases hc with rfl | rfl | rfl | rfl | rfl
    · exact k _ r0 rfl
    · exact .mk trivial fun c hc => by
        simp only [Reader.subs, List.mem_singleton] at hc
        subst hc
        exact j
    · exact k _ trivial rfl
    · exact k _ ⟨rfl, by decide⟩ rfl
    · exact k _ rfl rfl
  · rw [he]
    simp [Reader.what, Reader.whats, join]
    decide

/-- `At` of a rule with the name `END`
and `At` of the end, and two bodies of rules with `-` in their names, have one `What` and read differently. -/
theorem C61_rule_violated (rt : Rt) :
    (let G : Env := [⟨b!"END", some (.lit b!"x")⟩];
      IsRuleName b!"END" ∧ Reader.what rt G (.at_ (.rule 0)) = Reader.what rt G .atEnd ∧
      (∃ s, read rt G 8 (.at_ (.rule 0)) (.new b!"x" Heap.empty) = .ret (none, s)) ∧
      ∃ e s, read rt G 8 .atEnd (.new b!"x" Heap.empty) = .ret (some e, s)) ∧
    (let G : Env := [⟨b!"a-b", some (.lit b!"x")⟩, ⟨b!"c", some (.lit b!"y")⟩, ⟨b!"a", some (.lit b!"p")⟩, ⟨b!"b-c", some (.lit b!"q")⟩];
      Reader.what rt G (.body (.rule 0) (.rule 1)) = Reader.what rt G (.body (.rule 2) (.rule 3)) ∧
      (∃ s, read rt G 8 (.body (.rule 0) (.rule 1)) (.new b!"xy" Heap.empty) = .ret (none, s)) ∧
      ∃ e s, read rt G 8 (.body (.rule 2) (.rule 3)) (.new b!"xy" Heap.empty) = .ret (some e, s)) := by
  refine ⟨⟨⟨_, _, rfl, by decide, by decide⟩, rfl, ⟨_, rfl⟩, _, _, rfl⟩, rfl, ⟨_, rfl⟩, _, _, rfl⟩

end Tok
