/-
C60 The printed log shows the text at every entry.
-/
import Verif.Model.Monitor
import Verif.Props.C18
import Verif.Props.C43

namespace Tok
open Spec

/-- The line of an entry: the level, a dot for every level, the position and the name. -/
def entryLine (e : LogEntry) : Bytes :=
  itoa e.level ++ List.replicate e.level.toNat 46 ++ b!"@ " ++ itoa e.enterAt ++ b!" " ++ e.info

theorem printEntries_eq : ∀ {es : List LogEntry}, (∀ e ∈ es, 0 ≤ e.level) →
    printEntries es = .ret (es.flatMap fun e => entryLine e ++ b!"\n")
  | [], _ => rfl
  | e :: es, h => by
    have he := h e (by simp)
    rw [printEntries, printEntries_eq fun x hx => h x (List.mem_cons_of_mem _ hx), LogEntry.string, if_neg (by omega)]
    simp [entryLine]

theorem previewEntries_eq (quote : Bytes → Bytes) (str : Bytes) (n : Int) : ∀ {es : List LogEntry}, (∀ e ∈ es, 0 ≤ e.level) →
    previewEntries quote str n es =
      .ret (es.flatMap fun e => entryLine e ++ b!" > " ++ quote (Scanner.subStringFrom str e.enterAt n) ++ b!"\n")
  | [], _ => rfl
  | e :: es, h => by
    have he := h e (by simp)
    rw [previewEntries, previewEntries_eq quote str n fun x hx => h x (List.mem_cons_of_mem _ hx), LogEntry.string, if_neg (by omega)]
    simp [entryLine]

theorem forest_level {Q : LogEntry → List LogEntry → Prop} {lv : Int} {es : List LogEntry} (h : Forest Q lv es) :
    ∀ e ∈ es, lv ≤ e.level := by
  induction h with
  | nil => simp
  | call h1 _ _ _ ih1 ih2 =>
    intro e he
    rcases List.mem_cons.mp he with rfl | he
    · omega
    · rcases List.mem_append.mp he with he | he
      · have := ih1 e he; omega
      · exact ih2 e he

/-- After any read with a new log both print functions print one line for every entry, in the order of the calls, whose
levels tell the nesting; the line starts with the level, as many dots, the position and the name (and, with a preview, ends with the quoted text
that `C60_shown` describes).  In particular they do not panic. -/
theorem C60_lines (rt : Rt) (G : Env) (l : Nat) (r : Reader) (hG : G.Every (Reader.noLog l)) (hr : r.Every (Reader.noLog l)) (n : Nat)
    (s s' : Scanner) (hs : Inside s) (e : Option Err) (h : read rt G n r s = .ret (e, s')) (h0 : s.heap.logs l = Log.empty)
    (quote : Bytes → Bytes) (str : Bytes) (k : Int) :
    Forest (fun _ _ => True) 1 (s'.heap.logs l).entries ∧
    (s'.heap.logs l).print = .ret ((s'.heap.logs l).entries.flatMap fun e => entryLine e ++ b!"\n") ∧
    (s'.heap.logs l).printWithPreview quote str k =
      .ret ((s'.heap.logs l).entries.flatMap fun e =>
        entryLine e ++ b!" > " ++ quote (Scanner.subStringFrom str e.enterAt k) ++ b!"\n") := by
  obtain ⟨new, h1, h2⟩ := C43_order rt G l r hG hr n s s' hs e h
  rw [h0] at h1 h2
  have h1 : (s'.heap.logs l).entries = new := by rw [h1]; rfl
  have hl : ∀ e ∈ (s'.heap.logs l).entries, 0 ≤ e.level := fun e he => by
    have := forest_level h2 e (h1 ▸ he)
    simp only [Log.empty] at this
    omega
  refine ⟨h1 ▸ h2, printEntries_eq hl, previewEntries_eq quote str k hl⟩

theorem midSubString_of {t : Bytes} {ps : List (Bytes × Int)} (hps : Pieces t ps) (k : Nat) :
    Scanner.midSubString t (k : Int) = bytesOf (ps.drop k) := by
  unfold Scanner.midSubString
  rw [if_neg (by omega), rangeStr_pieces hps, offsets_getElem?, Int.toNat_natCast]
  by_cases h1 : k < ps.length
  · rw [List.getElem?_eq_getElem h1]
    simp only [Option.map_some, Nat.zero_add]
    have hps' := hps
    rw [← List.take_append_drop k ps] at hps'
    have ht := pieces_split hps'
    conv_lhs => rw [ht]
    rw [List.drop_left]
  · rw [List.getElem?_eq_none (by omega), List.drop_eq_nil_of_le (by omega)]
    rfl

private theorem bytesOf_map (cs : List Char) : bytesOf (cs.map fun c => (enc c, (c.toNat : Int))) = encText cs := by
  simp [bytesOf, encText, List.flatMap_map]

/-- What the preview of an entry shows: characters are counted, not bytes. -/
theorem C60_shown (cs : List Char) (k n : Nat) :
    Scanner.subStringFrom (encText cs) (k : Int) (n : Int) = encText ((cs.drop k).take n) := by
  unfold Scanner.subStringFrom
  rw [midSubString_of (pieces_encText cs), ← List.map_drop, bytesOf_map, getPrefix_of (pieces_encText _)]
  split_ifs with h
  · rw [Int.toNat_natCast, ← List.map_take, bytesOf_map]
  · rw [List.take_of_length_le]
    rw [List.length_map] at h
    omega

/-- The preview of an entry shows the next `n` characters (or all, if there are fewer) of the text at the position of the entry, if only ASCII characters
stand before it.  The full claim has no such condition; `C60_violated` shows that it is needed. -/
theorem C60_preview_partial (as cs : List Char) (ha : ∀ c ∈ as, c.toNat < 128) (n : Nat) (pos : Nat) (hp : pos = (encText as).length) :
    Scanner.subStringFrom (encText as ++ encText cs) (pos : Int) (n : Int) = encText (cs.take n) := by
  have hl : (encText as).length = as.length := by
    clear hp
    induction as with
    | nil => rfl
    | cons a as ih =>
      have h1 : (enc a).length = 1 := by
        have := ha a (by simp)
        have h2 : a.toNat = a.val.toNat := rfl
        unfold enc String.utf8EncodeChar
        simp only
        rw [if_pos (by omega)]
        rfl
      rw [encText_cons, List.length_append, h1, ih fun c hc => ha c (List.mem_cons_of_mem _ hc), List.length_cons]
      omega
  rw [← encText_append, hp, hl, C60_shown, List.drop_left]

/-- Behind `a"` the second entry of the log is at position 2. -/
example : Scanner.subStringFrom (encText ['a', '"'] ++ encText ['x', 'y', 'é', 'z']) 2 3 = encText ['x', 'y', 'é'] :=
  C60_preview_partial ['a', '"'] ['x', 'y', 'é', 'z'] (by decide) 3 2 rfl

/-- The entries of the log after a read. -/
def entriesAfter (l : Nat) : Exec (Option Err × Scanner) → Option (List LogEntry)
  | .ret (_, s) => some (s.heap.logs l).entries
  | _ => none

/-- What a log prints, with previews that are not quoted. -/
def printed (str : Bytes) (n : Int) (es : List LogEntry) : Option Bytes :=
  match previewEntries id str n es with
  | .ret x => some x
  | _ => none

/-- The claim fails for `éab`: the entry of the rule that starts at `a` is shown with `b`.  And it fails for a rule used in the first part of a `Body`,
whose position is counted from the start of the body. -/
theorem C60_violated :
    (entriesAfter 0 (read exRt [] 9 (.seq [.rune 233, .monitor b!"x" 0 (.lit b!"ab")]) (.new b!"éab" Heap.empty))).bind
      (printed b!"éab" 2) = some b!"1.@ 2 x > b\n" ∧
    (entriesAfter 0 (read exRt [] 9 (.seq [.lit b!"--", .body (.monitor b!"x" 0 (.lit b!"ab")) (.lit b!";")]) (.new b!"--ab;" Heap.empty))).bind
      (printed b!"--ab;" 2) = some b!"1.@ 0 x > --\n" := by
  constructor <;> decide +kernel

/-- JSON with all rules monitored by `MonitorGrammar`, on `1`. -/
example : (entriesAfter 0 (read exRt (monitorGrammar Json.env Heap.empty 0).1 40 (.rule Json.iDigits)
    (.new b!"1" (monitorGrammar Json.env Heap.empty 0).2))).bind (printed b!"1" 5) = some b!"1.@ 0 digits > 1\n" := by decide +kernel

/-- After `MonitorGrammar` (of a grammar without `Monitor` and `Wrap`), reading a rule gives a log that begins with this call, at level 1, and holds
nothing but the calls made during it. -/
theorem C43_grammar (rt : Rt) (G : Env) (hG : G.Every (fun r => r.bare = true)) (h : Heap) (l i n : Nat) (s s' : Scanner) (hs : Inside s)
    (hh : s.heap = (monitorGrammar G h l).2) (e : Option Err) (hr : read rt (monitorGrammar G h l).1 n (.rule i) s = .ret (e, s')) :
    ∃ rl en inner, G[i]? = some rl ∧ (s'.heap.logs l).entries = en :: inner ∧ en.info = rl.name ∧ en.enterAt = s.pos ∧ en.level = 1 ∧
      Forest (fun _ _ => True) 2 inner := by
  have nl : ∀ r : Reader, r.bare = true → r.noLog l := fun r h => by cases r <;> first | trivial | simp [Reader.bare] at h
  have hM : (G.monitorAll l).Every (Reader.noLog l) := by
    intro rl hrl c hc
    obtain ⟨⟨nm, _ | c'⟩, hr', rfl⟩ := List.mem_map.mp hrl
    · cases hc
    · cases hc
      exact .mk (r := .monitor _ _ _) trivial fun x hx => by
        rw [List.mem_singleton.mp hx]
        exact (hG _ hr' c' rfl).imp nl
  have hlog : s.heap.logs l = Log.empty := by rw [hh]; exact upd_self _ _ _
  change read rt (G.monitorAll l) n (.rule i) s = .ret (e, s') at hr
  cases n with
  | zero => cases hr
  | succ n =>
    have hget : (G.monitorAll l)[i]? = G[i]?.map (Rule.monitor l) := by simp [Env.monitorAll]
    cases hi : G[i]? with
    | none => simp [read, hget, hi] at hr
    | some rl =>
      obtain ⟨nm, _ | c⟩ := rl
      · simp [read, hget, hi, Rule.monitor] at hr
      · simp only [read, hget, hi, Option.map_some, Rule.monitor] at hr
        cases n with
        | zero => cases hr
        | succ n =>
          have hc := hG _ (List.mem_of_getElem? hi) c rfl
          obtain ⟨en, inner, s1, h1, h2, h3, h4, h5, h6⟩ := C43_call rt _ l nm c hM (hc.imp nl) n s s' hs e hr
          rw [hlog] at h1 h4
          have hlv : ((s.enterLog rt nm l).heap.logs l).level = 1 := by
            show Log.level (upd _ _ _ l) = _
            rw [upd_self, hlog]
            unfold Log.enter
            simp only
            split <;> rfl
          obtain ⟨inner', h7, h8⟩ := C43_order rt _ l c hM (hc.imp nl) n _ s1 (show Inside (s.enterLog rt nm l) from hs) e h5
          rw [h6] at h7
          rw [hlv, ← List.append_cancel_left h7] at h8
          exact ⟨_, en, inner, rfl, h1, h2, h3, h4, h8⟩

example (s' : Scanner) (h : read exRt (monitorGrammar Json.env Heap.empty 0).1 40 (.rule Json.iNumber) (.new b!"1" (monitorGrammar Json.env Heap.empty 0).2) = .ret (none, s')) :=
  C43_grammar exRt Json.env (Env.everyB_sound (by decide)) Heap.empty 0 Json.iNumber 40 _ s' ⟨by decide, by decide⟩ rfl none h

end Tok
