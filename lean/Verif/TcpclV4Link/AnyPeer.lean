import Verif.TcpclV4Link.Progress

/-! One entity with any peer. -/

namespace Hdtn.TcpclV4Link

open TcpclV4 (Event Ext)
open TcpclV4.Spec (generate)
open Spec

variable {cfg : Cfg}

/-- A contact header has been received among these. -/
def isContact : Event → Bool
  | .contact _ => true
  | _ => false

theorem deliveries_append (a b : List Eff) : deliveries (a ++ b) = deliveries a ++ deliveries b := by
  simp [deliveries]

theorem posts_append (a b : List Eff) : posts (a ++ b) = posts a ++ posts b := by simp [posts]

theorem successes_append (a b : List Eff) : successes (a ++ b) = successes a ++ successes b := by simp [successes]

/-- What one message does to the data. -/
theorem handle_asm (l : Link) (e : Event) {l' : Link} {effs : List Eff} (h : handle cfg l e = .ok (l', effs)) :
    l'.concat = (asm cfg.leaves l.concat [e]).1 ∧ deliveries effs = (asm cfg.leaves l.concat [e]).2.1 ∧
      (isContact e = false → posts effs = (asm cfg.leaves l.concat [e]).2.2.map generate) := by
  cases e with
  | contact tls =>
    simp only [handle, onContact, Except.ok.injEq] at h
    split_ifs at h <;> · cases h; simp [asm, deliveries, isContact]
  | init keep segMru xferMru node exts =>
    simp only [handle, onInit] at h
    repeat' split at h
    all_goals first | · cases h; simp [asm, deliveries, posts] | skip
    all_goals first | simp at h; done | skip
    all_goals
      cases h
      refine ⟨rfl, ?_, fun _ => ?_⟩ <;> split <;> simp [asm, deliveries, posts]
  | data cont s e id xs =>
    simp only [handle, onData, Except.ok.injEq] at h
    cases s <;> cases e <;> simp only [Bool.and_true, Bool.and_false, if_true, if_false, Bool.false_eq_true] at h <;> cases h <;>
      simp [asm, deliveries, posts, generate]
  | ack s e id n =>
    simp only [handle, onAck] at h
    repeat' split at h
    all_goals first | · cases h; simp [asm, deliveries, posts] | simp at h
  | reject _ _ => cases h; simp [asm, deliveries, posts]
  | refusal _ _ => cases h; simp [asm, deliveries, posts]
  | keepAlive => cases h; simp [asm, deliveries, posts]
  | term r a => cases h; cases a <;> simp [asm, deliveries, posts]

theorem handleAll_asm (es : List Event) : ∀ (l : Link) {l' : Link} {effs : List Eff}, handleAll cfg l es = .ok (l', effs) →
    deliveries effs = (asm cfg.leaves l.concat es).2.1 ∧
      ((∀ e ∈ es, isContact e = false) → posts effs = (asm cfg.leaves l.concat es).2.2.map generate) := by
  induction es with
  | nil => intro l l' effs h; cases h; exact ⟨rfl, fun _ => rfl⟩
  | cons e es ih =>
    intro l l' effs h
    simp only [handleAll] at h
    split at h
    · simp at h
    · rename_i l1 effs1 h1
      split at h
      · simp at h
      · rename_i l2 effs2 h2
        cases h
        obtain ⟨a1, a2, a3⟩ := handle_asm l e h1
        obtain ⟨b1, b2⟩ := ih l1 h2
        have happ := asm_append cfg.leaves [e] es l.concat
        rw [List.singleton_append] at happ
        rw [deliveries_append, posts_append, happ]
        refine ⟨by simp only [a2, b1, a1], fun hc => ?_⟩
        rw [a3 (hc e (by simp)), b2 fun x hx => hc x (by simp [hx]), a1]
        simp

/-- Extensions and other messages do not matter. -/
theorem asm_segmentsOf (leaves : Bytes → Bytes) (es : List Event) : ∀ concat,
    asm leaves concat (segmentsOf es) = asm leaves concat es := by
  induction es with
  | nil => intro concat; rfl
  | cons e es ih =>
    intro concat
    cases e with
    | data cont s e id xs =>
      have hs : segmentsOf (.data cont s e id xs :: es) = .data cont s e id [] :: segmentsOf es := rfl
      rw [hs]
      simp only [asm, ih]
    | _ => exact ih concat

theorem asm_later (leaves : Bytes → Bytes) (id : Nat) : ∀ (cs : List Bytes) (concat : Bytes), cs ≠ [] →
    ∃ concat', asm leaves concat (later id cs) = (concat', [concat ++ cs.flatten], laterAcks id concat.length cs) := by
  intro cs
  induction cs with
  | nil => intro concat h; exact absurd rfl h
  | cons c cs ih =>
    intro concat _
    rcases cs with _ | ⟨c', cs⟩
    · exact ⟨leaves (concat ++ c), by simp [later, asm, laterAcks]⟩
    · obtain ⟨k, hk⟩ := ih (concat ++ c) (by simp)
      refine ⟨k, ?_⟩
      have hl : later id (c :: c' :: cs) = .data c false false id [] :: later id (c' :: cs) := rfl
      have ha : laterAcks id concat.length (c :: c' :: cs) = .ack false false id (concat.length + c.length) ::
          laterAcks id (concat.length + c.length) (c' :: cs) := rfl
      rw [hl, ha]
      simp only [asm, Bool.and_false, Bool.false_eq_true, if_false, hk]
      simp

theorem asm_transfer (leaves : Bytes → Bytes) (t : Transfer) (concat : Bytes) :
    ∃ concat', asm leaves concat t.segments = (concat', [t.bundle], t.acks) := by
  obtain ⟨id, first, more⟩ := t
  unfold Transfer.segments Transfer.bundle Transfer.acks
  rcases more with _ | ⟨c, cs⟩
  · exact ⟨concat, by simp [later, laterAcks, asm]⟩
  · obtain ⟨k, hk⟩ := asm_later leaves id (c :: cs) first (by simp)
    refine ⟨k, ?_⟩
    simp only [List.isEmpty_cons, asm, Bool.and_false, Bool.false_eq_true, if_false, if_true, List.nil_append, hk]

theorem asm_transfers (leaves : Bytes → Bytes) (ts : List Transfer) : ∀ concat,
    ∃ concat', asm leaves concat (ts.flatMap Transfer.segments) = (concat', ts.map Transfer.bundle, ts.flatMap Transfer.acks) := by
  induction ts with
  | nil => intro concat; exact ⟨concat, rfl⟩
  | cons t ts ih =>
    intro concat
    obtain ⟨k, hk⟩ := asm_transfer leaves t concat
    obtain ⟨k', hk'⟩ := ih k
    refine ⟨k', ?_⟩
    rw [List.flatMap_cons, asm_append, hk]
    simp [hk']

/-! ### Acknowledgements -/

/-- What is outstanding. -/
def outstanding (l : Link) : List (Ack × Bytes) :=
  match l.ring with
  | none => []
  | some r => r.items

/-- One message: either nothing is reported and what is outstanding has been dropped or is as before, or the message is the
acknowledgement that is due. -/
theorem handle_ring (l : Link) (e : Event) {l' : Link} {effs : List Eff} (h : handle cfg l e = .ok (l', effs)) :
    (successes effs = [] ∧ (outstanding l' = [] ∨ outstanding l' = outstanding l)) ∨
      ∃ q, outstanding l = q :: outstanding l' ∧ e = q.1.event ∧ successes effs = if q.1.isEnd then [q.2] else [] := by
  cases e with
  | contact tls =>
    left
    simp only [handle, onContact, Except.ok.injEq] at h
    split_ifs at h <;> · cases h; exact ⟨rfl, .inr rfl⟩
  | init keep segMru xferMru node exts =>
    left
    simp only [handle, onInit] at h
    repeat' split at h
    all_goals first | · cases h; exact ⟨rfl, .inr rfl⟩ | skip
    all_goals first | simp at h; done | skip
    all_goals
      cases h
      exact ⟨rfl, .inl rfl⟩
  | data cont s e id xs =>
    left
    simp only [handle, onData, Except.ok.injEq] at h
    split_ifs at h <;> · cases h; exact ⟨rfl, .inr rfl⟩
  | ack s e id n =>
    simp only [handle, onAck] at h
    split at h
    · simp at h
    · rename_i ring hring
      split at h
      · cases h
        exact .inl ⟨rfl, .inr rfl⟩
      · rename_i head user items hitems
        split at h
        · rename_i hh
          right
          refine ⟨(head, user), ?_, by rw [hh]; rfl, ?_⟩
          · split at h <;> cases h <;> simp [outstanding, hring, hitems]
          · rw [hh]
            split at h <;> cases h <;> simp [*, successes]
        · cases h
          exact .inl ⟨rfl, .inr rfl⟩
  | reject _ _ => cases h; exact .inl ⟨rfl, .inr rfl⟩
  | refusal _ _ => cases h; exact .inl ⟨rfl, .inr rfl⟩
  | keepAlive => cases h; exact .inl ⟨rfl, .inr rfl⟩
  | term r a =>
    cases h
    left
    exact ⟨by cases a <;> rfl, .inr rfl⟩

theorem handleAll_ring (es : List Event) : ∀ (l : Link) {l' : Link} {effs : List Eff}, handleAll cfg l es = .ok (l', effs) →
    ∃ k, successes effs = (((outstanding l).take k).filter fun q => q.1.isEnd).map Prod.snd ∧
      List.Sublist (((outstanding l).take k).map fun q => q.1.event) es := by
  induction es with
  | nil => intro l l' effs h; cases h; exact ⟨0, rfl, by simp⟩
  | cons e es ih =>
    intro l l' effs h
    simp only [handleAll] at h
    split at h
    · simp at h
    · rename_i l1 effs1 h1
      split at h
      · simp at h
      · rename_i l2 effs2 h2
        cases h
        obtain ⟨k, hk1, hk2⟩ := ih l1 h2
        rw [successes_append]
        rcases handle_ring l e h1 with ⟨a1, a2 | a2⟩ | ⟨q, a1, a2, a3⟩
        · refine ⟨0, ?_, by simp⟩
          rw [a1, hk1, a2]
          simp
        · refine ⟨k, by rw [a1, hk1, a2]; rfl, ?_⟩
          rw [← a2]
          exact hk2.trans (List.sublist_cons_self _ _)
        · refine ⟨k + 1, ?_, ?_⟩
          · rw [a1, List.take_succ_cons, List.filter_cons, a3, hk1]
            cases q.1.isEnd <;> simp
          · rw [a1, List.take_succ_cons, List.map_cons, ← a2]
            exact hk2.cons_cons e

end Hdtn.TcpclV4Link
