import Verif.TcpclV4Link.Steps

/-! From every state everything can be sent and read. -/

namespace Hdtn.TcpclV4Link

open TcpclV4 (Event Ext slow start slow_append feed_slow)
open TcpclV4.Spec (generate Sendable Fits opens)
open Spec (Suits segment perBundle Possible)

variable {careful : Bool} {c d : Cfg} {x y : Side} {v w : View}

/-- How much an entity has yet to do. -/
def debt (x y : Side) (v : View) (peer : List Event) : Nat :=
  7 * v.outbox.length + (v.posted.map fun e => weight e + 2).sum + ((peer.drop v.got.length).map weight).sum +
    10 * (2 - v.got.length) + (if x.read = y.out.length then 0 else 1)

theorem weight_pos (e : Event) : 1 ≤ weight e := by cases e <;> simp [weight]

/-- What the peer has yet to do when messages are written. -/
theorem debt_written (cy : Core careful d c y w v.sent) (x' : Side) (s : List Event) :
    debt y x' w (v.sent ++ s) + (if y.read = x.out.length then 0 else 1) ≤
      debt y x w v.sent + (s.map weight).sum + (if y.read = x'.out.length then 0 else 1) := by
  unfold debt
  rw [List.drop_append_of_le_length cy.got.length_le, List.map_append, List.sum_append]
  omega

/-- An entity that has something to do can do it. -/
theorem side_progress (hr : c.active = !d.active) (ht : (c.tryTls && d.tryTls) = false) (hcd : Suits c d) (hdc : Suits d c)
    (cx : Core careful c d x v w.sent) (cy : Core careful d c y w v.sent) (hx : Rd c y x v) (hy : Rd d x y w)
    (h : x.outbox ≠ [] ∨ x.posted ≠ [] ∨ x.read ≠ y.out.length) :
    ∃ a x' v', Possible careful c d x a ∧ act c y.out x a = .ok x' ∧ Core careful c d x' v' w.sent ∧
      Core careful d c y w v'.sent ∧ Rd c y x' v' ∧ Rd d x' y w ∧ x'.forwarded = x.forwarded ∧
      debt x' y v' w.sent + debt y x' w v'.sent < debt x y v w.sent + debt y x w v.sent := by
  by_cases h1 : x.outbox ≠ []
  · have : v.outbox ≠ [] := by
      intro h0
      exact h1 (by rw [cx.outbox, h0]; rfl)
    obtain ⟨e, es, he⟩ := List.exists_cons_of_ne_nil this
    obtain ⟨k1, k2, k3⟩ := hand_core cx he y.out
    refine ⟨.hand, _, _, trivial, k1, k2, cy, hx, hy, rfl, ?_⟩
    have hw : weight e = 4 := by cases e <;> first | rfl | simp [isData] at k3
    simp only [debt, he, List.length_cons, List.map_append, List.map_cons, List.map_nil, List.sum_append, List.sum_cons,
      List.sum_nil, hw]
    omega
  · by_cases h2 : x.posted ≠ []
    · have : v.posted ≠ [] := by
        intro h0
        exact h2 (by rw [cx.posted, h0]; rfl)
      obtain ⟨e, es, he⟩ := List.exists_cons_of_ne_nil this
      obtain ⟨k1, k2⟩ := write_core cx he y.out
      refine ⟨.write, _, _, trivial, k1, k2, cy.mono (List.prefix_append _ _), hx, hy.mono (List.prefix_append _ _), rfl, ?_⟩
      have hd := debt_written (x := x) cy { x with posted := es.map generate, out := x.out ++ generate e } [e]
      simp only [List.map_cons, List.map_nil, List.sum_cons, List.sum_nil] at hd
      have hbit : ∀ p : Prop, [Decidable p] → (if p then 0 else 1) ≤ 1 := by
        intro p _
        split <;> omega
      have hb := hbit (y.read = (x.out ++ generate e).length)
      simp only [debt, he, List.map_cons, List.sum_cons] at hd ⊢
      omega
    · have h3 : x.read ≠ y.out.length := by
        rcases h with h | h | h
        · exact absurd h h1
        · exact absurd h h2
        · exact h
      obtain ⟨x', v', es, k1, k2, k3, k4, k5, k6⟩ := recv_core hr ht hcd hdc cx cy hx y.out.length
      have hmono := out_mono cx k2 k4.sent
      refine ⟨.recv y.out.length, x', v', trivial, k1, k2, cy.mono k4.sent, k3, hy.mono hmono, k6, ?_⟩
      have hle := hx.2
      have hread : x'.read = y.out.length := by omega
      have hall := got_all (cy.mono k4.sent) k3 hread
      obtain ⟨g1, g2, s, p, g3, g4, g5⟩ := k4
      have hd := debt_written (x := x) cy x' s
      rw [← g3] at hd
      have hsum : ((w.sent.drop v.got.length).map weight).sum = (es.map weight).sum := by
        rw [← hall, g1, List.drop_left]
      have hbit : (if y.read = x'.out.length then 0 else 1) ≤ (if y.read = x.out.length then 0 else 1) + es.length := by
        by_cases hs : s = []
        · have : x'.out = x.out := by rw [k2.out, cx.out, g3, hs, List.append_nil]
          rw [this]
          omega
        · by_cases hes : es = []
          · exfalso
            obtain ⟨e, s', rfl⟩ := List.exists_cons_of_ne_nil hs
            have := weight_pos e
            rw [g1, hes] at g5
            simp [cost] at g5
            omega
          · have : 1 ≤ es.length := List.length_pos_iff.2 hes
            split <;> omega
      unfold debt
      unfold debt at hd
      rw [if_pos hread, if_neg h3, hsum, g2, g4, hall, List.drop_length]
      rw [hall] at g5
      simp only [cost, List.map_append, List.sum_append, List.map_nil, List.sum_nil] at *
      omega

variable {ca cb : Cfg} {s : Sys} {va vb : View}

theorem drain (hag : Spec.Agree ca cb) : ∀ (n : Nat) (s : Sys) (va vb : View), Inv careful ca cb s va vb →
    debt s.a s.b va vb.sent + debt s.b s.a vb va.sent ≤ n →
    ∃ t, Spec.Leads careful ca cb s t ∧ Spec.Drained t ∧ t.a.forwarded = s.a.forwarded ∧ t.b.forwarded = s.b.forwarded := by
  intro n
  induction n with
  | zero =>
    intro s va vb hi hn
    by_cases hd : Spec.Drained s
    · exact ⟨s, .refl s, hd, rfl, rfl⟩
    · exfalso
      by_cases ha : s.a.outbox ≠ [] ∨ s.a.posted ≠ [] ∨ s.a.read ≠ s.b.out.length
      · obtain ⟨_, _, _, _, _, _, _, _, _, _, h⟩ := side_progress (by rw [hag.active, hag.passive]; rfl) hag.plain hag.ab
          hag.ba hi.a hi.b hi.ra hi.rb ha
        omega
      · by_cases hb : s.b.outbox ≠ [] ∨ s.b.posted ≠ [] ∨ s.b.read ≠ s.a.out.length
        · obtain ⟨_, _, _, _, _, _, _, _, _, _, h⟩ := side_progress (by rw [hag.active, hag.passive]; rfl)
            (by rw [Bool.and_comm]; exact hag.plain) hag.ba hag.ab hi.b hi.a hi.rb hi.ra hb
          omega
        · push Not at ha hb
          exact hd ⟨ha.1, hb.1, ha.2.1, hb.2.1, ha.2.2, hb.2.2⟩
  | succ n ih =>
    intro s va vb hi hn
    have hgo : ∀ (who : Bool) (a : Act) (t : Sys), Possible careful (if who then ca else cb) (if who then cb else ca)
        (Spec.side s who) a → step ca cb s who a = .ok t → t.a.forwarded = s.a.forwarded → t.b.forwarded = s.b.forwarded →
        (∃ u, Spec.Leads careful ca cb t u ∧ Spec.Drained u ∧ u.a.forwarded = t.a.forwarded ∧ u.b.forwarded = t.b.forwarded) →
        ∃ u, Spec.Leads careful ca cb s u ∧ Spec.Drained u ∧ u.a.forwarded = s.a.forwarded ∧ u.b.forwarded = s.b.forwarded := by
      intro who a t hp hst hfa hfb ⟨u, h1, h2, h3, h4⟩
      refine ⟨u, ?_, h2, h3.trans hfa, h4.trans hfb⟩
      clear h2 h3 h4
      induction h1 with
      | refl => exact .step s s t who a (.refl s) hp hst
      | step t' u' who' x' _ hp' hs' ih' => exact .step s t' u' who' x' ih' hp' hs'
    by_cases ha : s.a.outbox ≠ [] ∨ s.a.posted ≠ [] ∨ s.a.read ≠ s.b.out.length
    · obtain ⟨a, x', v', h1, h2, h3, h4, h5, h6, h7, h8⟩ := side_progress (by rw [hag.active, hag.passive]; rfl) hag.plain hag.ab
        hag.ba hi.a hi.b hi.ra hi.rb ha
      exact hgo true a { s with a := x' } h1 (by simp only [step, h2]) h7 rfl
        (ih _ v' vb ⟨h3, h4, h5, h6⟩ (by simp only; omega))
    · by_cases hb : s.b.outbox ≠ [] ∨ s.b.posted ≠ [] ∨ s.b.read ≠ s.a.out.length
      · obtain ⟨a, x', v', h1, h2, h3, h4, h5, h6, h7, h8⟩ := side_progress (by rw [hag.active, hag.passive]; rfl)
          (by rw [Bool.and_comm]; exact hag.plain) hag.ba hag.ab hi.b hi.a hi.rb hi.ra hb
        exact hgo false a { s with b := x' } h1 (by simp only [step, h2]) rfl h7
          (ih _ va v' ⟨h4, h3, h6, h5⟩ (by simp only; omega))
      · push Not at ha hb
        exact ⟨s, .refl s, ⟨ha.1, hb.1, ha.2.1, hb.2.1, ha.2.2, hb.2.2⟩, rfl, rfl⟩

end Hdtn.TcpclV4Link
