import Verif.LtpCancel.Lemmas
import Verif.LtpRng.Props

/-!
# C20 (cancel segments), C63 (pings)

C20 in full, for cancel segments: a cancel segment is sent at most once more than the retry limit, and
it is sent again and again until acknowledged or until that limit. It does not hold for every setting:
the retry count has 8 bits and the limit 32, so with a limit of 255 or more an unanswered cancel
segment is sent for ever (`C20_cancel_endless_violated`). For smaller limits it is proved below.
C63 in full: each ping ends with exactly one report, that the link is up if it is acknowledged and
that it is down after the last retransmission. With a limit of 255 or more the link is never
reported down (`C63_never_down_violated`); and the end of an ordinary session is taken for that of a
ping if its number looks like one (`C63_lookalike_violated`, see `C15_ping_confusion_violated`).
-/

namespace Hdtn.LtpCancel
open Hdtn.LtpRng

/-! ### C20 -/

/-- What a session's waiting segments may still add to the number sent. -/
def owed (cfg : Cfg) (l : List Info) : Nat := (l.map fun i => cfg.maxRetries + 2 - i.retry).sum

/-- What the session's timed segments may still add. -/
def owedT (cfg : Cfg) (l : List Info) : Nat := (l.map fun i => cfg.maxRetries + 1 - i.retry).sum

theorem bounded (cfg : Cfg) (hc : cfg.maxRetries ≤ 254) (sid : Sid) (evs : List Event) :
    ∀ st effs, run cfg .init evs = some (st, effs) →
      sends sid effs + owed cfg (q st sid) + owedT cfg (t st sid) ≤
        begun sid effs * (cfg.maxRetries + 1) ∧
      ∀ i, i ∈ q st sid ∨ i ∈ t st sid → 1 ≤ i.retry ∧ i.retry ≤ cfg.maxRetries + 1 := by
  induction evs using List.reverseRecOn with
  | nil =>
    intro st effs h
    simp only [run, Option.some.injEq, Prod.mk.injEq] at h
    obtain ⟨rfl, rfl⟩ := h
    simp [sends, owed, owedT, q, t, State.init]
  | append_singleton es e ih =>
    intro st effs h
    obtain ⟨mid, out, outs, h1, h2, rfl⟩ := run_snoc_inv h
    obtain ⟨hsum, hr⟩ := ih mid out h1
    rw [sends_append, begun_append]
    cases (step_inv (run_inv h1) h2 sid).2 with
    | other hq ht hf hp =>
      obtain ⟨hb, hs, -⟩ := foreign_counts hf
      rw [hq, ht, hb, hs]
      exact ⟨by simpa using hsum, hr⟩
    | start i hi h1' hq ht ho hp =>
      subst ho
      rw [hq, ht]
      refine ⟨?_, fun j hj => ?_⟩
      · simp only [owed, List.map_append, List.sum_append, List.map_cons, List.map_nil, h1'] at hsum ⊢
        simp only [sends, begun, List.countP_cons, List.countP_nil] at hsum ⊢
        simp only [List.sum_cons, List.sum_nil, decide_true, if_true, if_false, Bool.false_eq_true]
        rw [Nat.add_mul]
        omega
      · rw [List.mem_append, List.mem_singleton] at hj
        rcases hj with (hj | rfl) | hj
        · exact hr j (.inl hj)
        · omega
        · exact hr j (.inr hj)
    | ping i hi h1' hq ht ho hs hp hp' =>
      subst ho
      rw [hq, ht]
      refine ⟨?_, fun j hj => ?_⟩
      · simp only [owed, List.map_append, List.sum_append, List.map_cons, List.map_nil, h1'] at hsum ⊢
        simp only [sends, begun, List.countP_cons, List.countP_nil] at hsum ⊢
        simp only [List.sum_cons, List.sum_nil, decide_true, if_true, if_false, Bool.false_eq_true]
        rw [Nat.add_mul]
        omega
      · rw [List.mem_append, List.mem_singleton] at hj
        rcases hj with (hj | rfl) | hj
        · exact hr j (.inl hj)
        · omega
        · exact hr j (.inr hj)
    | send i hq ht ho hp =>
      subst ho
      rw [hq] at hsum hr
      have hi := hr i (.inl List.mem_cons_self)
      have hb : begun sid [Eff.sent sid i.reason i.fromSender] = 0 := by simp [begun]
      have hs : sends sid [Eff.sent sid i.reason i.fromSender] = 1 := by simp [sends]
      have ho : owed cfg (i :: q st sid) = cfg.maxRetries + 2 - i.retry + owed cfg (q st sid) := by
        simp [owed]
      rw [ho] at hsum
      rw [hb, hs, ht]
      simp only [Nat.add_zero]
      split
      · rename_i hn
        rw [hn] at hsum
        refine ⟨?_, fun j hj => ?_⟩
        · simp only [owedT, List.map_cons, List.map_nil, List.sum_cons, List.sum_nil] at hsum ⊢
          omega
        · rw [List.mem_singleton] at hj
          rcases hj with hj | rfl
          · exact hr j (.inl (List.mem_cons_of_mem _ hj))
          · exact hi
      · refine ⟨by omega, fun j hj => ?_⟩
        rcases hj with hj | hj
        · exact hr j (.inl (List.mem_cons_of_mem _ hj))
        · exact hr j (.inr hj)
    | again i ht ht' hm hq ho hp =>
      subst ho
      rw [ht] at hsum hr
      have hi := hr i (.inr List.mem_cons_self)
      have hmod : (i.retry + 1) % 256 = i.retry + 1 := Nat.mod_eq_of_lt (by omega)
      rw [hq, ht', hmod]
      have hb : begun sid ([] : List Eff) = 0 := rfl
      have hs : sends sid ([] : List Eff) = 0 := rfl
      rw [hb, hs]
      simp only [Nat.add_zero]
      refine ⟨?_, fun j hj => ?_⟩
      · simp only [owedT, owed, List.map_append, List.sum_append, List.map_cons, List.map_nil,
          List.sum_cons, List.sum_nil] at hsum ⊢
        omega
      · rw [List.mem_append, List.mem_singleton] at hj
        rcases hj with (hj | rfl) | hj
        · exact hr j (.inl hj)
        · simp only; omega
        · simp at hj
    | gaveUp i ht ht' hm hq ho =>
      have hz : begun sid outs = 0 ∧ sends sid outs = 0 := by
        rcases ho with ⟨-, rfl, -⟩ | ⟨-, rfl, -⟩ <;> simp [begun, sends]
      rw [hz.1, hz.2, hq, ht']
      simp only [Nat.add_zero]
      rw [ht] at hsum hr
      refine ⟨?_, fun j hj => ?_⟩
      · simp only [owedT, List.map_cons, List.map_nil, List.sum_cons, List.sum_nil] at hsum ⊢
        omega
      · rcases hj with hj | hj
        · exact hr j (.inl hj)
        · simp at hj
    | acked i ht ht' hq ho =>
      have hz : begun sid outs = 0 ∧ sends sid outs = 0 := by
        rcases ho with ⟨-, rfl, -⟩ | ⟨-, rfl, -⟩ <;> simp [begun, sends]
      rw [hz.1, hz.2, hq, ht']
      simp only [Nat.add_zero]
      rw [ht] at hsum hr
      refine ⟨?_, fun j hj => ?_⟩
      · simp only [owedT, List.map_cons, List.map_nil, List.sum_cons, List.sum_nil] at hsum ⊢
        omega
      · rcases hj with hj | hj
        · exact hr j (.inl hj)
        · simp at hj

/-- C20: with a retry limit of at most 254, in every history no cancel segment is sent more often than
the retry limit plus one for each time its session's cancellation was started. Missing: larger
limits, for which this is false. -/
theorem C20_cancel_transmissions_partial (cfg : Cfg) (hc : cfg.maxRetries ≤ 254) (sid : Sid)
    (evs : List Event) (st : State) (effs : List Eff) (h : run cfg .init evs = some (st, effs)) :
    sends sid effs ≤ begun sid effs * (cfg.maxRetries + 1) := by
  have := (bounded cfg hc sid evs st effs h).1
  omega

/-- The course of a cancellation that was started once. -/
theorem course (cfg : Cfg) (hc : cfg.maxRetries ≤ 254) (sid : Sid) (ho : Ordinary cfg sid)
    (evs : List Event) :
    ∀ st effs, run cfg .init evs = some (st, effs) →
      (begun sid effs = 0 ∧ sends sid effs = 0 ∧ ended sid effs = 0 ∧ q st sid = [] ∧ t st sid = []) ∨
      (begun sid effs = 1 ∧ Eff.failed sid ∉ effs ∧ ended sid effs = 0 ∧
        (∃ i, q st sid = [i] ∧ i.retry = sends sid effs + 1) ∧ t st sid = [] ∧
        sends sid effs ≤ cfg.maxRetries) ∨
      (begun sid effs = 1 ∧ Eff.failed sid ∉ effs ∧ ended sid effs = 0 ∧ q st sid = [] ∧
        (∃ i, t st sid = [i] ∧ i.retry = sends sid effs) ∧ 1 ≤ sends sid effs ∧
        sends sid effs ≤ cfg.maxRetries + 1) ∨
      (begun sid effs = 1 ∧ ended sid effs = 1 ∧ q st sid = [] ∧ t st sid = [] ∧
        1 ≤ sends sid effs ∧ sends sid effs ≤ cfg.maxRetries + 1 ∧
        (Eff.failed sid ∈ effs → sends sid effs = cfg.maxRetries + 1)) ∨
      2 ≤ begun sid effs := by
  induction evs using List.reverseRecOn with
  | nil =>
    intro st effs h
    simp only [run, Option.some.injEq, Prod.mk.injEq] at h
    obtain ⟨rfl, rfl⟩ := h
    exact .inl ⟨rfl, rfl, rfl, rfl, rfl⟩
  | append_singleton es e ih =>
    intro st effs h
    obtain ⟨mid, out, outs, h1, h2, rfl⟩ := run_snoc_inv h
    have IH := ih mid out h1
    rw [sends_append, begun_append, ended_append]
    have hmem : Eff.failed sid ∈ out ++ outs ↔ Eff.failed sid ∈ out ∨ Eff.failed sid ∈ outs :=
      List.mem_append
    rw [hmem]
    by_cases h2b : 2 ≤ begun sid out
    · exact .inr (.inr (.inr (.inr (by omega))))
    cases (step_inv (run_inv h1) h2 sid).2 with
    | other hq ht hf hp =>
      obtain ⟨hb, hs, he⟩ := foreign_counts hf
      have hnf : Eff.failed sid ∉ outs := fun hc => (hf _ hc) rfl
      rw [hq, ht, hb, hs, he]
      simp only [Nat.add_zero, hnf, or_false]
      exact IH
    | start i hi hr hq ht hoo hp =>
      subst hoo
      have hb : begun sid [Eff.started sid] = 1 := by simp [begun]
      have hs : sends sid [Eff.started sid] = 0 := by simp [sends]
      have he : ended sid [Eff.started sid] = 0 := by simp [ended]
      rw [hb, hs, he]
      rcases IH with ⟨b0, s0, e0, q0, t0⟩ | IH
      · refine .inr (.inl ⟨by omega, ?_, by omega, ⟨i, by rw [hq, q0]; rfl, by omega⟩, by rw [ht, t0],
          by omega⟩)
        rintro (hc' | hc')
        · have : 1 ≤ ended sid out := List.countP_pos_iff.2 ⟨_, hc', by simp⟩
          omega
        · simp at hc'
      · exact .inr (.inr (.inr (.inr (by rcases IH with h | h | h | h <;> omega))))
    | ping i hi hr hq ht hoo hsid hp hp' =>
      exfalso
      subst hsid
      have : isPing cfg (decide (cfg.pingSid.engine = cfg.me)) cfg.pingSid = true := by
        simp only [isPing, Cfg.pingSid, Cfg.pingNumber, decide_true, Bool.true_and]
        have := C15_ping_number_reserved cfg.index 0 [] 0
        cases cfg.force32
        · exact this.1
        · exact this.2.1
      rw [Ordinary, this] at ho
      simp at ho
    | send i hq ht hoo hp =>
      subst hoo
      have hb : begun sid [Eff.sent sid i.reason i.fromSender] = 0 := by simp [begun]
      have hs : sends sid [Eff.sent sid i.reason i.fromSender] = 1 := by simp [sends]
      have he : ended sid [Eff.sent sid i.reason i.fromSender] = 0 := by simp [ended]
      rw [hb, hs, he]
      rcases IH with ⟨-, -, -, q0, -⟩ | ⟨b1, f1, e1, ⟨j, qj, rj⟩, t0, sm⟩ | ⟨-, -, -, q0, -⟩ |
        ⟨-, -, q0, -⟩ | h
      · rw [hq] at q0; simp at q0
      · rw [hq, List.cons.injEq] at qj
        obtain ⟨rfl, qn⟩ := qj
        refine .inr (.inr (.inl ⟨by omega, by simpa using f1, by omega, qn, ⟨i, ?_, by omega⟩, by omega,
          by omega⟩))
        rw [ht, if_pos t0]
      · rw [hq] at q0; simp at q0
      · rw [hq] at q0; simp at q0
      · omega
    | again i ht ht' hm hq hoo hp =>
      subst hoo
      have hb : begun sid ([] : List Eff) = 0 := rfl
      have hs : sends sid ([] : List Eff) = 0 := rfl
      have he : ended sid ([] : List Eff) = 0 := rfl
      rw [hb, hs, he]
      rcases IH with ⟨-, -, -, -, t0⟩ | ⟨-, -, -, -, t0, -⟩ | ⟨b1, f1, e1, q0, ⟨j, tj, rj⟩, s1, sm⟩ |
        ⟨-, -, -, t0, -⟩ | h
      · rw [ht] at t0; simp at t0
      · rw [ht] at t0; simp at t0
      · rw [ht, List.cons.injEq] at tj
        obtain ⟨rfl, -⟩ := tj
        have hmod : (i.retry + 1) % 256 = i.retry + 1 := Nat.mod_eq_of_lt (by omega)
        rw [hmod] at hq
        refine .inr (.inl ⟨by omega, by simpa using f1, by omega,
          ⟨{ i with retry := i.retry + 1 }, by rw [hq, q0]; rfl, ?_⟩, ht', by omega⟩)
        simp only
        omega
      · rw [ht] at t0; simp at t0
      · omega
    | gaveUp i ht ht' hm hq hoo =>
      rcases hoo with ⟨hp, -⟩ | ⟨-, rfl, -⟩
      · rw [Ordinary, hp] at ho; simp at ho
      have hb : begun sid [Eff.failed sid] = 0 := by simp [begun]
      have hs : sends sid [Eff.failed sid] = 0 := by simp [sends]
      have he : ended sid [Eff.failed sid] = 1 := by simp [ended]
      rw [hb, hs, he]
      rcases IH with ⟨-, -, -, -, t0⟩ | ⟨-, -, -, -, t0, -⟩ | ⟨b1, f1, e1, q0, ⟨j, tj, rj⟩, s1, sm⟩ |
        ⟨-, -, -, t0, -⟩ | h
      · rw [ht] at t0; simp at t0
      · rw [ht] at t0; simp at t0
      · rw [ht, List.cons.injEq] at tj
        obtain ⟨rfl, -⟩ := tj
        exact .inr (.inr (.inr (.inl ⟨by omega, by omega, by rw [hq, q0], ht', by omega, by omega,
          fun _ => by omega⟩)))
      · rw [ht] at t0; simp at t0
      · omega
    | acked i ht ht' hq hoo =>
      rcases hoo with ⟨hp, -⟩ | ⟨-, rfl, -⟩
      · rw [Ordinary, hp] at ho; simp at ho
      have hb : begun sid [Eff.acked sid] = 0 := by simp [begun]
      have hs : sends sid [Eff.acked sid] = 0 := by simp [sends]
      have he : ended sid [Eff.acked sid] = 1 := by simp [ended]
      rw [hb, hs, he]
      rcases IH with ⟨-, -, -, -, t0⟩ | ⟨-, -, -, -, t0, -⟩ | ⟨b1, f1, e1, q0, ⟨j, tj, rj⟩, s1, sm⟩ |
        ⟨-, -, -, t0, -⟩ | h
      · rw [ht] at t0; simp at t0
      · rw [ht] at t0; simp at t0
      · refine .inr (.inr (.inr (.inl ⟨by omega, by omega, by rw [hq, q0], ht', by omega, by omega, ?_⟩)))
        rintro (hc' | hc')
        · exact absurd hc' f1
        · simp at hc'
      · rw [ht] at t0; simp at t0
      · omega

theorem queued_iff (st : State) (sid : Sid) : Queued st sid ↔ q st sid ≠ [] := by
  rw [q, ne_eq, List.filter_eq_nil_iff]
  push Not
  simp [Queued]

theorem timed_iff (st : State) (sid : Sid) : Timed st sid ↔ t st sid ≠ [] := by
  rw [t, ne_eq, List.filter_eq_nil_iff]
  push Not
  simp [Timed]

/-- C20: with a retry limit of at most 254, a cancellation that was started once ends at most once; while
it has not ended, either its segment waits to be sent or its timer runs; once it has ended, neither;
and it ends as failed only after the segment was sent as often as allowed. Missing: larger limits. -/
theorem C20_cancel_course_partial (cfg : Cfg) (hc : cfg.maxRetries ≤ 254) (sid : Sid)
    (ho : Ordinary cfg sid) (evs : List Event) (st : State) (effs : List Eff)
    (h : run cfg .init evs = some (st, effs)) (hb : begun sid effs = 1) :
    ended sid effs ≤ 1 ∧
    (ended sid effs = 0 → (Queued st sid ∧ ¬ Timed st sid) ∨ (Timed st sid ∧ ¬ Queued st sid)) ∧
    (ended sid effs = 1 → ¬ Queued st sid ∧ ¬ Timed st sid) ∧
    (Eff.failed sid ∈ effs → sends sid effs = cfg.maxRetries + 1) := by
  rw [queued_iff, timed_iff]
  rcases course cfg hc sid ho evs st effs h with c | c | c | c | c
  · omega
  · obtain ⟨-, f, e, ⟨i, qi, -⟩, t0, -⟩ := c
    exact ⟨by omega, fun _ => .inl ⟨by simp [qi], by simp [t0]⟩, fun _ => by omega, fun hf => absurd hf f⟩
  · obtain ⟨-, f, e, q0, ⟨i, ti, -⟩, -⟩ := c
    exact ⟨by omega, fun _ => .inr ⟨by simp [ti], by simp [q0]⟩, fun _ => by omega, fun hf => absurd hf f⟩
  · obtain ⟨-, e, q0, t0, -, -, hf⟩ := c
    exact ⟨by omega, fun _ => by omega, fun _ => ⟨by simp [q0], by simp [t0]⟩, hf⟩
  · omega

/-! A cancellation that is never answered, with two retries allowed. -/

def exCfg : Cfg := ⟨1, 2, false, true, 1⟩
def exEvs : List Event :=
  [.cancelTx 7 2, .send, .expired ⟨1, 7⟩, .send, .expired ⟨1, 7⟩, .send, .expired ⟨1, 7⟩]

example : (run exCfg .init exEvs).map (·.2) =
    some [.started ⟨1, 7⟩, .sent ⟨1, 7⟩ 2 true, .sent ⟨1, 7⟩ 2 true, .sent ⟨1, 7⟩ 2 true,
      .failed ⟨1, 7⟩] := by decide +kernel

example : exCfg.maxRetries ≤ 254 ∧ Ordinary exCfg ⟨1, 7⟩ ∧
    (run exCfg .init exEvs).map (fun p => decide (begun ⟨1, 7⟩ p.2 = 1 ∧ sends ⟨1, 7⟩ p.2 = 3)) =
      some true := by
  refine ⟨by decide, ?_, by decide +kernel⟩
  unfold Ordinary
  decide +kernel

/-- Rounds of sending and timing out. -/
def rounds (sid : Sid) : Nat → List Event
  | 0 => []
  | n + 1 => .send :: .expired sid :: rounds sid n

theorem rounds_run (cfg : Cfg) (hc : 255 ≤ cfg.maxRetries) (sid : Sid) (reason : Reason) (b : Bool)
    (refused : List Sid) (p s : Bool) (n : Nat) : ∀ r, r < 256 →
    ∃ st effs, run cfg ⟨[⟨sid, reason, b, r⟩], [], refused, p, s⟩ (rounds sid n) = some (st, effs) ∧
      sends sid effs = n ∧ begun sid effs = 0 := by
  induction n with
  | zero => intro r _; exact ⟨_, _, rfl, rfl, rfl⟩
  | succ n ih =>
    intro r hr
    obtain ⟨st, effs, h1, h2, h3⟩ := ih ((r + 1) % 256) (Nat.mod_lt _ (by norm_num))
    refine ⟨st, .sent sid reason b :: effs, ?_, ?_, ?_⟩
    · have hle : r ≤ cfg.maxRetries := by omega
      simp [rounds, run, step, send, expired, hle, h1]
    · rw [show Eff.sent sid reason b :: effs = [Eff.sent sid reason b] ++ effs from rfl, sends_append, h2]
      simp [sends]; omega
    · rw [show Eff.sent sid reason b :: effs = [Eff.sent sid reason b] ++ effs from rfl, begun_append, h3]
      simp [begun]

/-- C20 fails for cancel segments: with a retry limit of 255 or more, a session cancelled once has
histories in which its cancel segment is sent as often as one likes. -/
theorem C20_cancel_endless_violated (cfg : Cfg) (hc : 255 ≤ cfg.maxRetries) (number : Nat)
    (reason : Reason) (n : Nat) :
    ∃ evs st effs, run cfg .init evs = some (st, effs) ∧ begun ⟨cfg.me, number⟩ effs = 1 ∧
      sends ⟨cfg.me, number⟩ effs = n := by
  obtain ⟨st, effs, h1, h2, h3⟩ :=
    rounds_run cfg hc ⟨cfg.me, number⟩ reason true [] false false n 1 (by norm_num)
  refine ⟨.cancelTx number reason :: rounds ⟨cfg.me, number⟩ n, st, .started ⟨cfg.me, number⟩ :: effs,
    ?_, ?_, ?_⟩
  · simp only [run, step, enqueue, State.init, List.nil_append]
    rw [Option.bind_eq_bind, Option.bind_some]
    simp [h1]
  · rw [show Eff.started ⟨cfg.me, number⟩ :: effs = [Eff.started ⟨cfg.me, number⟩] ++ effs from rfl,
      begun_append, h3]
    simp [begun]
  · rw [show Eff.started ⟨cfg.me, number⟩ :: effs = [Eff.started ⟨cfg.me, number⟩] ++ effs from rfl,
      sends_append, h2]
    simp [sends]

/-! ### C63 -/

theorem isPing_pingSid (cfg : Cfg) :
    isPing cfg (decide (cfg.pingSid.engine = cfg.me)) cfg.pingSid = true := by
  simp only [isPing, Cfg.pingSid, Cfg.pingNumber, decide_true, Bool.true_and]
  have := C15_ping_number_reserved cfg.index 0 [] 0
  cases cfg.force32
  · exact this.1
  · exact this.2.1

/-- Every segment that looks like a ping is one. -/
def Genuine (cfg : Cfg) (st : State) : Prop :=
  ∀ i, i ∈ st.queue ∨ i ∈ st.timers → isPing cfg i.fromSender i.sid = true → i.sid = cfg.pingSid

theorem step_genuine {cfg : Cfg} {st st' : State} {e : Event} {out : List Eff}
    (hg : Genuine cfg st)
    (hn : ∀ number reason, e = .cancelTx number reason → isPingSession number cfg.force32 = false)
    (h : step cfg st e = some (st', out)) : Genuine cfg st' := by
  have hen : ∀ (st1 : State) s f r, st1.queue = st.queue → st1.timers = st.timers →
      (isPing cfg f s = true → s = cfg.pingSid) → Genuine cfg (enqueue st1 s f r) := by
    intro st1 s f r h1 h2 h3 i hi hp
    simp only [enqueue, h1, h2, List.mem_append, List.mem_singleton] at hi
    rcases hi with (hi | rfl) | hi
    · exact hg i (.inl hi) hp
    · exact h3 hp
    · exact hg i (.inr hi) hp
  have hdel : ∀ (st1 : State) s, st1.queue = st.queue →
      st1.timers = st.timers.filter (fun j => j.sid ≠ s) → Genuine cfg st1 := by
    intro st1 s h1 h2 i hi hp
    rw [h1, h2] at hi
    rcases hi with hi | hi
    · exact hg i (.inl hi) hp
    · exact hg i (.inr (List.mem_filter.1 hi).1) hp
  cases e with
  | cancelTx number reason =>
    simp only [step, Option.some.injEq, Prod.mk.injEq] at h
    obtain ⟨rfl, rfl⟩ := h
    refine hen st _ _ _ rfl rfl fun hp => ?_
    rw [isPing, hn number reason rfl] at hp
    simp at hp
  | cancelRx s reason =>
    simp only [step] at h
    split at h
    · simp at h
    · simp only [Option.some.injEq, Prod.mk.injEq] at h
      obtain ⟨rfl, rfl⟩ := h
      exact hen st _ _ _ rfl rfl (by simp [isPing])
  | wrongService s =>
    simp only [step, wrongService, Option.some.injEq] at h
    split at h
    · simp only [Prod.mk.injEq] at h; obtain ⟨rfl, rfl⟩ := h; exact hg
    · split at h
      · simp only [Prod.mk.injEq] at h; obtain ⟨rfl, rfl⟩ := h; exact hg
      · simp only [Prod.mk.injEq] at h
        obtain ⟨rfl, rfl⟩ := h
        exact hen _ _ _ _ rfl rfl (by simp [isPing])
  | send =>
    simp only [step, Option.some.injEq] at h
    unfold send at h
    match hq : st.queue with
    | [] => rw [hq] at h; simp only [Prod.mk.injEq] at h; obtain ⟨rfl, rfl⟩ := h; exact hg
    | i :: rest =>
      rw [hq] at h
      simp only [Prod.mk.injEq] at h
      obtain ⟨rfl, rfl⟩ := h
      intro j hj hp
      refine hg j ?_ hp
      rw [hq]
      simp only at hj
      rcases hj with hj | hj
      · exact .inl (List.mem_cons_of_mem _ hj)
      · split at hj
        · exact .inr hj
        · rw [List.mem_append, List.mem_singleton] at hj
          rcases hj with hj | rfl
          · exact .inr hj
          · exact .inl List.mem_cons_self
  | expired s =>
    simp only [step, expired] at h
    match hf : st.timers.find? (fun j => j.sid = s) with
    | none => rw [hf] at h; simp at h
    | some i =>
      rw [hf] at h
      simp only at h
      have hm := List.mem_of_find?_eq_some hf
      split at h
      · simp only [Option.some.injEq, Prod.mk.injEq] at h
        obtain ⟨rfl, rfl⟩ := h
        intro j hj hp
        simp only [List.mem_append, List.mem_singleton] at hj
        rcases hj with (hj | rfl) | hj
        · exact hg j (.inl hj) hp
        · exact hg i (.inr hm) hp
        · exact hg j (.inr (List.mem_filter.1 hj).1) hp
      · split at h
        · simp only [Option.some.injEq, Prod.mk.injEq] at h
          obtain ⟨rfl, rfl⟩ := h
          exact hdel _ s rfl rfl
        · simp only [Option.some.injEq, Prod.mk.injEq] at h
          obtain ⟨rfl, rfl⟩ := h
          exact hdel _ s rfl rfl
  | ack s b =>
    simp only [step, ack, Option.some.injEq] at h
    split at h
    · simp only [Prod.mk.injEq] at h; obtain ⟨rfl, rfl⟩ := h; exact hg
    · match hf : st.timers.find? (fun j => j.sid = s) with
      | none => rw [hf] at h; simp only [Prod.mk.injEq] at h; obtain ⟨rfl, rfl⟩ := h; exact hg
      | some i =>
        rw [hf] at h
        simp only at h
        split at h
        · simp only [Prod.mk.injEq] at h; obtain ⟨rfl, rfl⟩ := h; exact hdel _ s rfl rfl
        · split at h
          · simp only [Prod.mk.injEq] at h; obtain ⟨rfl, rfl⟩ := h; exact hdel _ s rfl rfl
          · simp only [Prod.mk.injEq] at h; obtain ⟨rfl, rfl⟩ := h; exact hdel _ s rfl rfl
  | housekeeping due =>
    simp only [step, housekeeping, Option.some.injEq] at h
    split at h
    · split at h
      · simp only [Prod.mk.injEq] at h; obtain ⟨rfl, rfl⟩ := h; exact hg
      · simp only [Prod.mk.injEq] at h
        obtain ⟨rfl, rfl⟩ := h
        exact hen _ _ _ _ rfl rfl (fun _ => rfl)
    · simp only [Prod.mk.injEq] at h; obtain ⟨rfl, rfl⟩ := h; exact hg
  | transmission =>
    simp only [step, Option.some.injEq, Prod.mk.injEq] at h
    obtain ⟨rfl, rfl⟩ := h
    exact hg

/-- The signals after a history: those of the finished pings, then those of the ping going on. -/
def Pinged (cfg : Cfg) (st : State) (effs : List Eff) : Prop :=
  ∃ done : List Round, (∀ r ∈ done, r.Ok cfg) ∧
    ((signals cfg effs = done.flatMap Round.signals ∧ st.pinging = false ∧
        q st cfg.pingSid = [] ∧ t st cfg.pingSid = []) ∨
     ∃ k, signals cfg effs = done.flatMap Round.signals ++ .start :: List.replicate k .probe ∧
        st.pinging = true ∧
        ((k ≤ cfg.maxRetries ∧ (∃ i, q st cfg.pingSid = [i] ∧ i.retry = k + 1) ∧
            t st cfg.pingSid = []) ∨
         (1 ≤ k ∧ k ≤ cfg.maxRetries + 1 ∧ q st cfg.pingSid = [] ∧
            ∃ i, t st cfg.pingSid = [i] ∧ i.retry = k)))

theorem signals_append (cfg : Cfg) (a b : List Eff) :
    signals cfg (a ++ b) = signals cfg a ++ signals cfg b := List.filterMap_append

/-- A history without lookalikes does not cancel a session with the ping's number. -/
theorem no_start {cfg : Cfg} {es : List Event} {e : Event} {mid st : State} {outs : List Eff}
    (hn : NoLookalike cfg (es ++ [e])) (h : step cfg mid e = some (st, outs))
    (ho : outs = [.started cfg.pingSid]) : False := by
  subst ho
  have hp := isPing_pingSid cfg
  simp only [isPing, Cfg.pingSid, decide_true, Bool.true_and] at hp
  cases e with
  | cancelTx number reason =>
    simp [step, Cfg.pingSid] at h
    have := hn number reason (by simp)
    rw [h.2, hp] at this
    simp at this
  | cancelRx s reason =>
    simp only [step] at h
    split at h
    · simp at h
    · rename_i hs
      simp [Cfg.pingSid] at h
      rw [h.2] at hs
      simp at hs
  | wrongService s =>
    simp only [step, wrongService, Option.some.injEq] at h
    split at h
    · simp at h
    · rename_i hs
      split at h
      · simp at h
      · simp [Cfg.pingSid] at h
        rw [h.2] at hs
        simp at hs
  | send =>
    simp only [step, Option.some.injEq] at h
    unfold send at h
    split at h <;> simp at h
  | expired s =>
    simp only [step, expired] at h
    split at h
    · simp at h
    · split at h
      · simp at h
      · split at h <;> simp at h
  | ack s b =>
    simp only [step, ack, Option.some.injEq] at h
    split at h
    · simp at h
    · split at h
      · simp at h
      · split at h
        · simp at h
        · split at h <;> simp at h
  | housekeeping due =>
    simp only [step, housekeeping, Option.some.injEq] at h
    split at h
    · split at h <;> simp at h
    · simp at h
  | transmission => simp [step] at h

theorem pinged (cfg : Cfg) (hc : cfg.maxRetries ≤ 254) (evs : List Event) (hn : NoLookalike cfg evs) :
    ∀ st effs, run cfg .init evs = some (st, effs) → Genuine cfg st ∧ Pinged cfg st effs := by
  induction evs using List.reverseRecOn with
  | nil =>
    intro st effs h
    simp only [run, Option.some.injEq, Prod.mk.injEq] at h
    obtain ⟨rfl, rfl⟩ := h
    exact ⟨by intro i hi; simp [State.init] at hi, [], by simp, .inl ⟨rfl, rfl, rfl, rfl⟩⟩
  | append_singleton es e ih =>
    intro st effs h
    obtain ⟨mid, out, outs, h1, h2, rfl⟩ := run_snoc_inv h
    obtain ⟨hg, done, hok, hst⟩ := ih (fun n r hm => hn n r (List.mem_append_left _ hm)) mid out h1
    have hg' : Genuine cfg st := step_genuine hg
      (fun n r he => hn n r (by rw [he]; simp)) h2
    refine ⟨hg', ?_⟩
    cases (step_inv (run_inv h1) h2 cfg.pingSid).2 with
    | other hq ht hf hp =>
      rcases hp with ⟨hp, hu, hd⟩ | ⟨i, hi, hne, hp⟩ | hne
      · have hs : signals cfg outs = [] := by
          refine List.filterMap_eq_nil_iff.2 fun e he => ?_
          have := hf e he
          cases e with
          | started s => rfl
          | pingStarted s => simp only [Foreign] at this; simp [this]
          | sent s a b => simp only [Foreign] at this; simp [this]
          | acked s => rfl
          | failed s => rfl
          | linkUp => exact absurd he hu
          | linkDown => exact absurd he hd
        refine ⟨done, hok, ?_⟩
        rw [signals_append, hs, List.append_nil, hq, ht, hp]
        exact hst
      · exact absurd (hg i (.inr hi) hp) hne
      · exact absurd rfl hne
    | start i hi hr hq ht ho hp =>
      exfalso
      -- a session with the ping's number is not cancelled
      exact no_start hn h2 ho
    | ping i hi hr hq ht ho hs hp hp' =>
      subst ho
      rcases hst with ⟨hsig, -, q0, t0⟩ | ⟨k, -, hpt, -⟩
      · refine ⟨done, hok, .inr ⟨0, ?_, hp', .inl ⟨by omega, ⟨i, by rw [hq, q0]; rfl, by omega⟩,
          by rw [ht, t0]⟩⟩⟩
        rw [signals_append, hsig]
        simp [signals]
      · rw [hp] at hpt; simp at hpt
    | send i hq ht ho hp =>
      subst ho
      rcases hst with ⟨-, -, q0, -⟩ | ⟨k, hsig, hpt, ⟨hk, ⟨j, qj, rj⟩, t0⟩ | ⟨-, -, q0, -⟩⟩
      · rw [hq] at q0; simp at q0
      · rw [hq, List.cons.injEq] at qj
        obtain ⟨rfl, qn⟩ := qj
        refine ⟨done, hok, .inr ⟨k + 1, ?_, by rw [hp, hpt], .inr ⟨by omega, by omega, qn, i, ?_, rj⟩⟩⟩
        · rw [signals_append, hsig, List.replicate_succ']
          simp [signals]
        · rw [ht, if_pos t0]
      · rw [hq] at q0; simp at q0
    | again i ht ht' hm hq ho hp =>
      subst ho
      rcases hst with ⟨-, -, -, t0⟩ | ⟨k, hsig, hpt, ⟨-, -, t0⟩ | ⟨h1k, hk, q0, j, tj, rj⟩⟩
      · rw [ht] at t0; simp at t0
      · rw [ht] at t0; simp at t0
      · rw [ht, List.cons.injEq] at tj
        obtain ⟨rfl, -⟩ := tj
        have hmod : (i.retry + 1) % 256 = i.retry + 1 := Nat.mod_eq_of_lt (by omega)
        rw [hmod] at hq
        refine ⟨done, hok, .inr ⟨k, by rw [List.append_nil, hsig], by rw [hp, hpt], .inl ⟨by omega,
          ⟨{ i with retry := i.retry + 1 }, by rw [hq, q0]; rfl, ?_⟩, ht'⟩⟩⟩
        simp only
        omega
    | gaveUp i ht ht' hm hq ho =>
      rcases ho with ⟨-, rfl, hp⟩ | ⟨hp, -⟩
      · rcases hst with ⟨-, -, -, t0⟩ | ⟨k, hsig, hpt, ⟨-, -, t0⟩ | ⟨h1k, hk, q0, j, tj, rj⟩⟩
        · rw [ht] at t0; simp at t0
        · rw [ht] at t0; simp at t0
        · rw [ht, List.cons.injEq] at tj
          obtain ⟨rfl, -⟩ := tj
          refine ⟨done ++ [⟨k, false⟩], ?_, .inl ⟨?_, hp, by rw [hq, q0], ht'⟩⟩
          · intro r hr
            rw [List.mem_append, List.mem_singleton] at hr
            rcases hr with hr | rfl
            · exact hok r hr
            · exact ⟨h1k, hk, fun _ => by simp only; omega⟩
          · rw [signals_append, hsig]
            simp [signals, Round.signals]
      · rw [isPing_pingSid] at hp; simp at hp
    | acked i ht ht' hq ho =>
      rcases ho with ⟨-, rfl, hp⟩ | ⟨hp, -⟩
      · rcases hst with ⟨-, -, -, t0⟩ | ⟨k, hsig, hpt, ⟨-, -, t0⟩ | ⟨h1k, hk, q0, j, tj, rj⟩⟩
        · rw [ht] at t0; simp at t0
        · rw [ht] at t0; simp at t0
        · refine ⟨done ++ [⟨k, true⟩], ?_, .inl ⟨?_, hp, by rw [hq, q0], ht'⟩⟩
          · intro r hr
            rw [List.mem_append, List.mem_singleton] at hr
            rcases hr with hr | rfl
            · exact hok r hr
            · exact ⟨h1k, hk, fun h => by simp at h⟩
          · rw [signals_append, hsig]
            simp [signals, Round.signals]
      · rw [isPing_pingSid] at hp; simp at hp

/-- C63: with a retry limit of at most 254, and if no session is cancelled that looks like a ping, what
the user sees of pings in any history is a sequence of finished pings, each of which was sent at
least once and at most once more than the limit, ended with exactly one report, and reported the
link down only after the last allowed retransmission; followed by at most one ping that goes on, of
which a segment waits to be sent or a timer runs. Missing: larger limits, and sessions that look like
pings; in both cases it is false. -/
theorem C63_pings_partial (cfg : Cfg) (hc : cfg.maxRetries ≤ 254) (evs : List Event)
    (hn : NoLookalike cfg evs) (st : State) (effs : List Eff)
    (h : run cfg .init evs = some (st, effs)) :
    ∃ done : List Round, (∀ r ∈ done, r.Ok cfg) ∧
      (signals cfg effs = done.flatMap Round.signals ∨
       ∃ k, k ≤ cfg.maxRetries + 1 ∧
        signals cfg effs = done.flatMap Round.signals ++ .start :: List.replicate k .probe ∧
        (Queued st cfg.pingSid ∨ Timed st cfg.pingSid)) := by
  obtain ⟨-, done, hok, hst⟩ := pinged cfg hc evs hn st effs h
  refine ⟨done, hok, ?_⟩
  rw [queued_iff, timed_iff]
  rcases hst with ⟨h, -⟩ | ⟨k, hs, -, ⟨hk, ⟨i, qi, -⟩, -⟩ | ⟨-, hk, -, i, ti, -⟩⟩
  · exact .inl h
  · exact .inr ⟨k, by omega, hs, .inl (by simp [qi])⟩
  · exact .inr ⟨k, by omega, hs, .inr (by simp [ti])⟩

/-- C63: a ping that is going on is reported as soon as it is acknowledged while its timer runs. -/
theorem C63_ack_reports_up (cfg : Cfg) (evs : List Event) (st : State) (effs : List Eff)
    (h : run cfg .init evs = some (st, effs)) (ht : Timed st cfg.pingSid) :
    ∃ st', run cfg .init (evs ++ [.ack cfg.pingSid true]) = some (st', effs ++ [.linkUp]) := by
  obtain ⟨i, hi, hs⟩ := ht
  have hp : isPing cfg true cfg.pingSid = true := by simpa [Cfg.pingSid] using isPing_pingSid cfg
  have hfind : ∃ j, st.timers.find? (fun j => j.sid = cfg.pingSid) = some j := by
    rw [← Option.isSome_iff_exists, List.find?_isSome]
    exact ⟨i, hi, by simpa using hs⟩
  obtain ⟨j, hj⟩ := hfind
  refine ⟨_, run_snoc h (by
    simp only [step, ack, hj, hp, if_true]
    rw [if_neg (by simp [Cfg.pingSid])])⟩

/-! A ping that is answered at the second attempt, then one that is not answered. -/

def exPing : List Event :=
  [.housekeeping true, .send, .expired exCfg.pingSid, .send, .ack exCfg.pingSid true,
   .housekeeping true, .send, .expired exCfg.pingSid, .send, .expired exCfg.pingSid, .send,
   .expired exCfg.pingSid]

example : NoLookalike exCfg exPing := by
  intro number reason h
  simp [exPing] at h

example : (run exCfg .init exPing).map (fun p => signals exCfg p.2) =
    some [.start, .probe, .probe, .up, .start, .probe, .probe, .probe, .down] := by decide +kernel

example : (run exCfg .init (exPing.take 2)).map (fun p => p.1.timers.map (·.sid)) =
    some [exCfg.pingSid] := by decide +kernel

theorem retry_small (cfg : Cfg) (evs : List Event) : ∀ st effs, run cfg .init evs = some (st, effs) →
    ∀ sid i, i ∈ q st sid ∨ i ∈ t st sid → i.retry < 256 := by
  induction evs using List.reverseRecOn with
  | nil =>
    intro st effs h
    simp only [run, Option.some.injEq, Prod.mk.injEq] at h
    obtain ⟨rfl, rfl⟩ := h
    simp [q, t, State.init]
  | append_singleton es e ih =>
    intro st effs h sid
    obtain ⟨mid, out, outs, h1, h2, rfl⟩ := run_snoc_inv h
    have hr := ih mid out h1 sid
    cases (step_inv (run_inv h1) h2 sid).2 with
    | other hq ht hf hp => rw [hq, ht]; exact hr
    | start i hi h1' hq ht ho hp =>
      rw [hq, ht]
      intro j hj
      rw [List.mem_append, List.mem_singleton] at hj
      rcases hj with (hj | rfl) | hj
      · exact hr j (.inl hj)
      · omega
      · exact hr j (.inr hj)
    | ping i hi h1' hq ht ho hs hp hp' =>
      rw [hq, ht]
      intro j hj
      rw [List.mem_append, List.mem_singleton] at hj
      rcases hj with (hj | rfl) | hj
      · exact hr j (.inl hj)
      · omega
      · exact hr j (.inr hj)
    | send i hq ht ho hp =>
      intro j hj
      rw [hq] at hr
      rcases hj with hj | hj
      · exact hr j (.inl (List.mem_cons_of_mem _ hj))
      · rw [ht] at hj
        split at hj
        · rw [List.mem_singleton] at hj
          rw [hj]
          exact hr i (.inl List.mem_cons_self)
        · exact hr j (.inr hj)
    | again i ht ht' hm hq ho hp =>
      rw [hq, ht']
      intro j hj
      rw [List.mem_append, List.mem_singleton] at hj
      rcases hj with (hj | rfl) | hj
      · exact hr j (.inl hj)
      · exact Nat.mod_lt _ (by norm_num)
      · simp at hj
    | gaveUp i ht ht' hm hq ho =>
      rw [hq, ht']
      intro j hj
      rcases hj with hj | hj
      · exact hr j (.inl hj)
      · simp at hj
    | acked i ht ht' hq ho =>
      rw [hq, ht']
      intro j hj
      rcases hj with hj | hj
      · exact hr j (.inl hj)
      · simp at hj

/-- C63 fails for large retry limits: with a limit of 255 or more the link is never reported down, and no
cancellation is ever counted as failed, whatever happens. -/
theorem C63_never_down_violated (cfg : Cfg) (hc : 255 ≤ cfg.maxRetries) (evs : List Event) (st : State)
    (effs : List Eff) (h : run cfg .init evs = some (st, effs)) :
    Eff.linkDown ∉ effs ∧ ∀ sid, Eff.failed sid ∉ effs := by
  suffices hs : ∀ st effs, run cfg .init evs = some (st, effs) →
      ∀ e ∈ effs, e ≠ .linkDown ∧ ∀ sid, e ≠ .failed sid by
    exact ⟨fun hm => (hs st effs h _ hm).1 rfl, fun sid hm => (hs st effs h _ hm).2 sid rfl⟩
  clear h st effs
  induction evs using List.reverseRecOn with
  | nil =>
    intro st effs h
    simp only [run, Option.some.injEq, Prod.mk.injEq] at h
    obtain ⟨rfl, rfl⟩ := h
    simp
  | append_singleton es e ih =>
    intro st effs h
    obtain ⟨mid, out, outs, h1, h2, rfl⟩ := run_snoc_inv h
    intro x hx
    rw [List.mem_append] at hx
    rcases hx with hx | hx
    · exact ih mid out h1 x hx
    have hr := retry_small cfg es mid out h1
    cases e with
    | cancelTx number reason =>
      simp only [step, Option.some.injEq, Prod.mk.injEq] at h2
      rw [← h2.2] at hx
      simp at hx; simp [hx]
    | cancelRx s reason =>
      simp only [step] at h2
      split at h2
      · simp at h2
      · simp only [Option.some.injEq, Prod.mk.injEq] at h2
        rw [← h2.2] at hx
        simp at hx; simp [hx]
    | wrongService s =>
      simp only [step, wrongService, Option.some.injEq] at h2
      split at h2
      · simp only [Prod.mk.injEq] at h2; rw [← h2.2] at hx; simp at hx
      · split at h2
        · simp only [Prod.mk.injEq] at h2; rw [← h2.2] at hx; simp at hx
        · simp only [Prod.mk.injEq] at h2; rw [← h2.2] at hx; simp at hx; simp [hx]
    | send =>
      simp only [step, Option.some.injEq] at h2
      unfold send at h2
      split at h2
      · simp only [Prod.mk.injEq] at h2; rw [← h2.2] at hx; simp at hx
      · simp only [Prod.mk.injEq] at h2; rw [← h2.2] at hx; simp at hx; simp [hx]
    | expired s =>
      simp only [step, expired] at h2
      match hf : mid.timers.find? (fun j => j.sid = s) with
      | none => rw [hf] at h2; simp at h2
      | some i =>
        rw [hf] at h2
        have hm := found (run_inv h1) hf
        have hlt := hr s i (.inr (by rw [hm.2.2]; simp))
        simp only [show i.retry ≤ cfg.maxRetries by omega, if_true, Option.some.injEq,
          Prod.mk.injEq] at h2
        rw [← h2.2] at hx
        simp at hx
    | ack s b =>
      simp only [step, ack, Option.some.injEq] at h2
      split at h2
      · simp only [Prod.mk.injEq] at h2; rw [← h2.2] at hx; simp at hx
      · match hf : mid.timers.find? (fun j => j.sid = s) with
        | none => rw [hf] at h2; simp only [Prod.mk.injEq] at h2; rw [← h2.2] at hx; simp at hx
        | some i =>
          rw [hf] at h2
          simp only at h2
          split at h2
          · simp only [Prod.mk.injEq] at h2; rw [← h2.2] at hx; simp at hx; simp [hx]
          · split at h2
            · simp only [Prod.mk.injEq] at h2; rw [← h2.2] at hx; simp at hx; simp [hx]
            · simp only [Prod.mk.injEq] at h2; rw [← h2.2] at hx; simp at hx; simp [hx]
    | housekeeping due =>
      simp only [step, housekeeping, Option.some.injEq] at h2
      split at h2
      · split at h2
        · simp only [Prod.mk.injEq] at h2; rw [← h2.2] at hx; simp at hx
        · simp only [Prod.mk.injEq] at h2; rw [← h2.2] at hx; simp at hx; simp [hx]
      · simp only [Prod.mk.injEq] at h2; rw [← h2.2] at hx; simp at hx
    | transmission =>
      simp only [step, Option.some.injEq, Prod.mk.injEq] at h2
      rw [← h2.2] at hx
      simp at hx

/-- C63 fails for lookalikes: an ordinary session is cancelled, its cancel segment is not answered, and
the link is reported down although no ping was ever started and pings are switched off. -/
theorem C63_lookalike_violated :
    ∃ cfg evs st effs, cfg.maxRetries ≤ 254 ∧ cfg.pings = false ∧ run cfg .init evs = some (st, effs) ∧
      (∀ sid, Eff.pingStarted sid ∉ effs) ∧ Eff.linkDown ∈ effs := by
  let cfg : Cfg := ⟨1, 0, true, false, 1⟩
  let evs : List Event := [.cancelTx 0x20ffffff 2, .send, .expired ⟨1, 0x20ffffff⟩]
  have h : run cfg .init evs = some (⟨[], [], [], false, false⟩,
      [.started ⟨1, 0x20ffffff⟩, .sent ⟨1, 0x20ffffff⟩ 2 true, .linkDown]) := by decide +kernel
  exact ⟨cfg, evs, _, _, by decide, rfl, h, by simp, by simp⟩

end Hdtn.LtpCancel
