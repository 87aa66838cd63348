/-
The numbers of rules do not matter.
-/
import Verif.Spec.Renumber
import Verif.Model.Disturb
import Verif.Proofs.Exec

namespace Tok.Renumber
open Spec

theorem renums_map (f : Nat → Nat) : ∀ rs, Reader.renums f rs = rs.map (Reader.renum f)
  | [] => rfl
  | _ :: rs => by rw [Reader.renums, renums_map f rs]; rfl

mutual

theorem renum_id : ∀ r : Reader, Reader.renum (fun i => i) r = r
  | .any rs => by rw [Reader.renum, renums_id rs]
  | .at_ a => by rw [Reader.renum, renum_id a]
  | .body a b => by rw [Reader.renum, renum_id a, renum_id b]
  | .bodyTail a b => by rw [Reader.renum, renum_id a, renum_id b]
  | .janusBegin _ _ a => by rw [Reader.renum, renum_id a]
  | .many a => by rw [Reader.renum, renum_id a]
  | .map _ a => by rw [Reader.renum, renum_id a]
  | .named _ a => by rw [Reader.renum, renum_id a]
  | .not a => by rw [Reader.renum, renum_id a]
  | .opt a => by rw [Reader.renum, renum_id a]
  | .past a => by rw [Reader.renum, renum_id a]
  | .seq rs => by rw [Reader.renum, renums_id rs]
  | .skipSeq a rs => by rw [Reader.renum, renum_id a, renums_id rs]
  | .times _ a => by rw [Reader.renum, renum_id a]
  | .to a => by rw [Reader.renum, renum_id a]
  | .zom a => by rw [Reader.renum, renum_id a]
  | .pick _ _ a => by rw [Reader.renum, renum_id a]
  | .monitor _ _ a => by rw [Reader.renum, renum_id a]
  | .rule _ => rfl
  | .ruleName a => by rw [Reader.renum, renum_id a]
  | .grammar _ a => by rw [Reader.renum, renum_id a]
  | .anyRune _ | .atEnd | .between _ _ | .betweenAny _ _ | .bool _ _ | .fold _ | .holey _ _ _ | .int _ _ _ | .janusEnd _ _ | .invalid _ | .lit _
  | .match_ _ _ | .rune _ | .uint _ _ _ | .wrap _ _ => rfl

theorem renums_id : ∀ rs : List Reader, Reader.renums (fun i => i) rs = rs
  | [] => rfl
  | r :: rs => by rw [Reader.renums, renum_id r, renums_id rs]

end

variable {rt : Rt} {G G' : Env} {f : Nat → Nat} {K : Nat → Prop}

section
variable (hG : ∀ i, K i → G'[f i]? = G[i]?.map (Rule.renum f))
include hG

mutual

theorem what_renum : ∀ r : Reader, r.Every (Reader.within K) → (Reader.renum f r).what rt G' = r.what rt G
  | .any rs, h => by simp only [Reader.renum, Reader.what, whats_renum rs fun c hc => h.sub hc]
  | .at_ a, h => by simp only [Reader.renum, Reader.what, what_renum a (h.sub (by simp [Reader.subs]))]
  | .body a b, h => by simp only [Reader.renum, Reader.what, what_renum a (h.sub (by simp [Reader.subs])), what_renum b (h.sub (by simp [Reader.subs]))]
  | .bodyTail a b, h => by simp only [Reader.renum, Reader.what, what_renum a (h.sub (by simp [Reader.subs])), what_renum b (h.sub (by simp [Reader.subs]))]
  | .janusBegin i w a, h => by simp only [Reader.renum, Reader.what, what_renum a (h.sub (by simp [Reader.subs]))]
  | .many a, h => by simp only [Reader.renum, Reader.what, what_renum a (h.sub (by simp [Reader.subs]))]
  | .map k a, h => by simp only [Reader.renum, Reader.what, what_renum a (h.sub (by simp [Reader.subs]))]
  | .named w a, h => by simp only [Reader.renum, Reader.what]
  | .not a, h => by simp only [Reader.renum, Reader.what, what_renum a (h.sub (by simp [Reader.subs]))]
  | .opt a, h => by simp only [Reader.renum, Reader.what, what_renum a (h.sub (by simp [Reader.subs]))]
  | .past a, h => by simp only [Reader.renum, Reader.what, what_renum a (h.sub (by simp [Reader.subs]))]
  | .seq rs, h => by simp only [Reader.renum, Reader.what, whats_renum rs fun c hc => h.sub hc]
  | .skipSeq a rs, h => by
    simp only [Reader.renum, Reader.what, what_renum a (h.sub (by simp [Reader.subs])), whats_renum rs fun c hc => h.sub (by simp [Reader.subs, hc])]
  | .times k a, h => by simp only [Reader.renum, Reader.what, what_renum a (h.sub (by simp [Reader.subs]))]
  | .to a, h => by simp only [Reader.renum, Reader.what, what_renum a (h.sub (by simp [Reader.subs]))]
  | .zom a, h => by simp only [Reader.renum, Reader.what, what_renum a (h.sub (by simp [Reader.subs]))]
  | .pick w b a, h => by simp only [Reader.renum, Reader.what, what_renum a (h.sub (by simp [Reader.subs]))]
  | .monitor w l a, h => by simp only [Reader.renum, Reader.what, what_renum a (h.sub (by simp [Reader.subs]))]
  | .rule i, h => by
    simp only [Reader.renum, Reader.what, hG i h.here]
    cases G[i]? <;> rfl
  | .ruleName a, h => rfl
  | .grammar w a, h => rfl
  | .anyRune str, _ => rfl
  | .atEnd, _ => rfl
  | .between a b, _ => rfl
  | .betweenAny a b, _ => rfl
  | .bool c w, _ => rfl
  | .fold w, _ => rfl
  | .holey a b h, _ => rfl
  | .int c b k, _ => rfl
  | .janusEnd i w, _ => rfl
  | .invalid w, _ => rfl
  | .lit w, _ => rfl
  | .match_ w p, _ => rfl
  | .rune c, _ => rfl
  | .uint c b k, _ => rfl
  | .wrap w g, _ => rfl

theorem whats_renum : ∀ rs : List Reader, (∀ c ∈ rs, c.Every (Reader.within K)) → Reader.whats rt G' (Reader.renums f rs) = Reader.whats rt G rs
  | [], _ => rfl
  | r :: rs, h => by simp only [Reader.renums, Reader.whats, what_renum r (h r (by simp)), whats_renum rs fun c hc => h c (by simp [hc])]

end

end

variable {rd rd' : Reader → ReadFunc}

theorem anyLoop_renum : ∀ (rs : List Reader), (∀ c ∈ rs, rd' (Reader.renum f c) = rd c) → anyLoop rd' (Reader.renums f rs) = anyLoop rd rs
  | [], _ => by funext es s; rfl
  | r :: rs, h => by
    funext es s
    simp only [Reader.renums, anyLoop, h r (by simp), anyLoop_renum rs fun c hc => h c (by simp [hc])]

theorem seqLoop_renum : ∀ (rs : List Reader), (∀ c ∈ rs, rd' (Reader.renum f c) = rd c) → seqLoop rd' (Reader.renums f rs) = seqLoop rd rs
  | [], _ => by funext s; rfl
  | r :: rs, h => by
    funext s
    simp only [Reader.renums, seqLoop, h r (by simp), seqLoop_renum rs fun c hc => h c (by simp [hc])]

theorem skipSeqLoop_renum (sk : Reader) (hs : rd' (Reader.renum f sk) = rd sk) : ∀ (rs : List Reader), (∀ c ∈ rs, rd' (Reader.renum f c) = rd c) →
    skipSeqLoop rd' (Reader.renum f sk) (Reader.renums f rs) = skipSeqLoop rd sk rs
  | [], _ => by funext s; rfl
  | r :: rs, h => by
    funext s
    simp only [Reader.renums, skipSeqLoop, hs, h r (by simp), skipSeqLoop_renum sk hs rs fun c hc => h c (by simp [hc])]

theorem step_renum (hG : ∀ i, K i → G'[f i]? = G[i]?.map (Rule.renum f)) (n : Nat) (r : Reader) (hr : r.Every (Reader.within K))
    (sub : ∀ c ∈ r.subs, rd' (Reader.renum f c) = rd c) (rule : ∀ (i : Nat) (nm : Bytes) (c : Reader), r = .rule i → G[i]? = some ⟨nm, some c⟩ → rd' (Reader.renum f c) = rd c) :
    readStep rt G' rd' n (Reader.renum f r) = readStep rt G rd n r := by
  funext s
  have hw := what_renum (rt := rt) hG r hr
  cases r with
  | any rs => simp only [Reader.renum, readStep, anyLoop_renum rs sub]
  | seq rs => simp only [Reader.renum, readStep, seqLoop_renum rs sub]
  | skipSeq a rs =>
    have ha := sub a (by simp [Reader.subs])
    simp only [Reader.renum, readStep, ha, skipSeqLoop_renum a ha rs fun c hc => sub c (by simp [Reader.subs, hc])]
  | rule i =>
    simp only [Reader.renum, readStep, hG i hr.here]
    rcases h : G[i]? with _ | ⟨nm, _ | c⟩
    · rfl
    · rfl
    · simp only [Option.map, Rule.renum, rule i nm c rfl h]
  | not a =>
    have ha := sub a (by simp [Reader.subs])
    have hwa := what_renum (rt := rt) hG a (hr.sub (by simp [Reader.subs]))
    simp only [Reader.renum, readStep, ha, hwa]
  | body a b =>
    have ha := sub a (by simp [Reader.subs])
    have hb := sub b (by simp [Reader.subs])
    simp only [Reader.renum] at hw
    simp only [Reader.renum, readStep, ha, hb, hw]
  | bodyTail a b =>
    have ha := sub a (by simp [Reader.subs])
    have hb := sub b (by simp [Reader.subs])
    simp only [Reader.renum] at hw
    simp only [Reader.renum, readStep, ha, hb, hw]
  | at_ a | janusBegin i w a | many a | map k a | named w a | opt a | past a | times k a | «to» a | zom a | pick w b a | monitor w l a | ruleName a | grammar w a =>
    have ha := sub a (by simp [Reader.subs])
    simp only [Reader.renum] at hw
    simp only [Reader.renum, readStep, ha, hw]
  | _ => rfl

/-- Rules of `K` refer to rules of `K` only. -/
def Closed (K : Nat → Prop) (G : Env) : Prop := ∀ i nm c, K i → G[i]? = some ⟨nm, some c⟩ → c.Every (Reader.within K)

theorem read_renum (hG : ∀ i, K i → G'[f i]? = G[i]?.map (Rule.renum f)) (hK : Closed K G) :
    ∀ n r, r.Every (Reader.within K) → read rt G' n (Reader.renum f r) = read rt G n r
  | 0, _, _ => rfl
  | n + 1, r, hr => by
    funext s
    rw [read_eq_step, read_eq_step, step_renum hG n r hr (fun c hc => read_renum hG hK n c (hr.sub hc)) fun i nm c e hi => ?_]
    subst e
    exact read_renum hG hK n c (hK i nm c hr.here hi)

end Tok.Renumber
