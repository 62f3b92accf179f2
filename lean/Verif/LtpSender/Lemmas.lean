import Verif.LtpSender.Spec
import Verif.LtpReport.Props
import Mathlib.Data.List.Induction

namespace Hdtn.LtpSender
open Hdtn.FragmentSet Hdtn.LtpReport
open Hdtn.LtpReceiver (Seg Reason)

theorem run_append (cfg : Cfg) (st : State) (a b : List Event) (st1 : State) (effs : List Eff)
    (h : run cfg st a = some (st1, effs)) :
    run cfg st (a ++ b) = (run cfg st1 b).map fun p => (p.1, effs ++ p.2) := by
  induction a generalizing st effs with
  | nil =>
    simp only [run, Option.some.injEq, Prod.mk.injEq] at h
    obtain ⟨rfl, rfl⟩ := h
    rw [List.nil_append]
    cases run cfg st b <;> simp
  | cons e es ih =>
    simp only [run] at h
    split at h
    · cases h
    · rename_i st2 e1 h1
      split at h
      · cases h
      · rename_i st3 e2 h2
        simp only [Option.some.injEq, Prod.mk.injEq] at h
        obtain ⟨rfl, rfl⟩ := h
        simp only [List.cons_append, run, h1, ih _ _ h2]
        cases run cfg st3 b <;> simp

theorem run_snoc (cfg : Cfg) (st : State) (a : List Event) (e : Event) (st1 : State)
    (effs : List Eff) (h : run cfg st a = some (st1, effs)) :
    run cfg st (a ++ [e]) = (step cfg st1 e).map fun p => (p.1, effs ++ p.2) := by
  rw [run_append cfg st a [e] st1 effs h]
  simp only [run]
  cases step cfg st1 e with
  | none => rfl
  | some p => simp

/-- A run over a longer history contains one over the shorter. -/
theorem run_snoc_inv (cfg : Cfg) (st : State) (a : List Event) (e : Event) (st2 : State)
    (effs : List Eff) (h : run cfg st (a ++ [e]) = some (st2, effs)) :
    ∃ st1 x y, run cfg st a = some (st1, x) ∧ step cfg st1 e = some (st2, y) ∧ effs = x ++ y := by
  induction a generalizing st effs with
  | nil =>
    simp only [List.nil_append, run] at h
    cases h1 : step cfg st e with
    | none => rw [h1] at h; cases h
    | some p =>
      rw [h1] at h
      simp only [Option.some.injEq, Prod.mk.injEq] at h
      obtain ⟨rfl, rfl⟩ := h
      exact ⟨st, [], _, rfl, by rw [h1], by simp⟩
  | cons a as ih =>
    simp only [List.cons_append, run] at h
    cases h1 : step cfg st a with
    | none => rw [h1] at h; cases h
    | some p =>
      rw [h1] at h
      simp only at h
      cases h2 : run cfg p.1 (as ++ [e]) with
      | none => rw [h2] at h; cases h
      | some q =>
        rw [h2] at h
        simp only [Option.some.injEq, Prod.mk.injEq] at h
        obtain ⟨rfl, rfl⟩ := h
        obtain ⟨st1, x, y, g1, g2, g3⟩ := ih p.1 q.2 h2
        exact ⟨st1, p.2 ++ x, y, by simp [run, h1, g1], g2, by simp [g3]⟩

theorem slice_some (block : Bytes) (o n : Nat) (h : o + n ≤ block.length) :
    slice block o n = some ((block.drop o).take n) := by rw [slice, if_pos h]

/-! ### Pieces of a gap -/

theorem pieces_nil (mtu b e : Nat) (h : e < b) : pieces mtu b e = some [] := by
  unfold pieces; rw [if_pos h]

/-- The pieces of a range: in order, not empty, not too long, and together the range. -/
structure Cut (mtu b e : Nat) (ps : List (Nat × Nat)) : Prop where
  size : ∀ p ∈ ps, 1 ≤ p.2 ∧ p.2 ≤ mtu ∧ b ≤ p.1 ∧ p.1 + p.2 ≤ e + 1
  ordered : ps.Pairwise fun p q => p.1 + p.2 ≤ q.1
  cover : ∀ x, (∃ p ∈ ps, p.1 ≤ x ∧ x < p.1 + p.2) ↔ b ≤ x ∧ x ≤ e
  last : b ≤ e → ∃ ini p, ps = ini ++ [p] ∧ p.1 + p.2 = e + 1 ∧ ∀ q ∈ ini, q.1 + q.2 < e + 1

theorem pieces_spec (mtu b e : Nat) (hm : 1 ≤ mtu) (he : e < 2 ^ 64 - 1) :
    ∃ ps, pieces mtu b e = some ps ∧ Cut mtu b e ps := by
  generalize hk : e + 1 - b = k
  induction k using Nat.strongRecOn generalizing b with
  | ind k ih =>
    by_cases hb : e < b
    · refine ⟨[], pieces_nil mtu b e hb, by simp, by simp, ?_, by omega⟩
      intro x
      simp only [List.not_mem_nil, false_and, exists_false, false_iff]
      omega
    · obtain ⟨ps, h1, h2⟩ := ih (e + 1 - (b + min (e - b + 1) mtu)) (by omega)
        (b + min (e - b + 1) mtu) rfl
      refine ⟨(b, min (e - b + 1) mtu) :: ps, ?_, ?_, ?_, ?_, ?_⟩
      · unfold pieces
        rw [if_neg hb, dif_neg (by simp only [U64]; omega)]
        simp only [h1]
      · intro p hp
        rcases List.mem_cons.1 hp with rfl | hp
        · simp only; omega
        · have := h2.size p hp; omega
      · refine List.pairwise_cons.2 ⟨fun q hq => ?_, h2.ordered⟩
        have := h2.size q hq
        simp only; omega
      · intro x
        simp only [List.mem_cons, exists_eq_or_imp, h2.cover]
        omega
      · intro _
        by_cases hend : e < b + min (e - b + 1) mtu
        · have hps : ps = [] := by
            rw [pieces_nil _ _ _ hend] at h1
            simpa using h1.symm
          subst hps
          exact ⟨[], _, rfl, by simp only; omega, by simp⟩
        · obtain ⟨ini, p, g1, g2, g3⟩ := h2.last (by omega)
          refine ⟨(b, min (e - b + 1) mtu) :: ini, p, by rw [g1]; rfl, g2, fun q hq => ?_⟩
          rcases List.mem_cons.1 hq with rfl | hq
          · simp only; omega
          · exact g3 q hq

/-! ### Retransmission -/

/-- The type of a checkpoint that ends at `e`. -/
def cpFlags (cfg : Cfg) (e : Nat) : Nat :=
  if e = cfg.red then (if cfg.red = cfg.block.length then 3 else 2) else 1

theorem cpFlags_pos (cfg : Cfg) (e : Nat) : cpFlags cfg e ≠ 0 := by
  unfold cpFlags; split <;> (try split) <;> decide

/-- What is queued is a piece of the red part, and properly marked. -/
structure Resend.Ok (cfg : Cfg) (f : Resend) : Prop where
  size : 1 ≤ f.length ∧ f.length ≤ cfg.mtu
  inside : f.offset + f.length ≤ cfg.red
  marked : f.flags ≠ 0 → f.flags = cpFlags cfg (f.offset + f.length)
  plain : f.flags = 0 → f.offset + f.length < cfg.red

/-- A batch of retransmissions for the report `serial`: ordered pieces of the red part, of which the last and
only the last is a checkpoint. -/
structure Batch (cfg : Cfg) (serial csn : Nat) (q : List Resend) : Prop where
  ok : ∀ f ∈ q, f.Ok cfg
  ordered : q.Pairwise fun f g => f.offset + f.length ≤ g.offset
  shape : ∀ f ∈ q, f.report = serial ∧ f.retry = 1
  last : ∃ ini f, q = ini ++ [f] ∧ f.flags ≠ 0 ∧ f.checkpoint = csn ∧ ∀ g ∈ ini, g.flags = 0

def plain (serial : Nat) (p : Nat × Nat) : Resend := ⟨p.1, p.2, 0, serial, 0, 1⟩

theorem queue_plain (cfg : Cfg) (serial : Nat) (lastF : Bool) (e : Nat) (st : State)
    (ps : List (Nat × Nat)) (h : ∀ p ∈ ps, ¬ (lastF ∧ p.1 + p.2 = e + 1)) :
    ps.foldl (queuePiece cfg serial lastF e) st =
      { st with resend := st.resend ++ ps.map (plain serial) } := by
  induction ps generalizing st with
  | nil => simp
  | cons p ps ih =>
    rw [List.foldl_cons, ih _ (fun q hq => h q (by simp [hq])), queuePiece,
      if_neg (h p (by simp))]
    simp [plain]

/-- The queue after retransmission of the gaps. -/
theorem resendData_spec (cfg : Cfg) (hc : cfg.Sane) (serial : Nat) (st : State) (gaps : List Frag)
    (hg : Canonical gaps) (hr : ∀ x, Covers gaps x → x < cfg.red) :
    (gaps = [] ∧ resendData cfg serial st gaps = some st) ∨
    ∃ q, resendData cfg serial st gaps =
        some { st with nextCsn := (st.nextCsn + 1) % U64, resend := st.resend ++ q } ∧
      Batch cfg serial st.nextCsn q ∧
      ∀ x, (∃ f ∈ q, f.offset ≤ x ∧ x < f.offset + f.length) ↔ Covers gaps x := by
  have hlen := hc.block
  have hred := hc.red
  induction gaps generalizing st with
  | nil => exact .inl ⟨rfl, rfl⟩
  | cons f fs ih =>
    right
    have hf := hg.valid (f := f) (by simp)
    obtain ⟨hf1, hf2⟩ := hf
    have hfe : f.e < cfg.red := hr f.e ⟨f, by simp, by simp only [Frag.Has]; omega⟩
    obtain ⟨ps, h1, h2⟩ := pieces_spec cfg.mtu f.b f.e hc.mtu (by omega)
    rw [resendData, h1]
    simp only
    cases fs with
    | nil =>
      obtain ⟨ini, p, g1, g2, g3⟩ := h2.last hf1
      have hp := h2.size p (by rw [g1]; simp)
      rw [g1, List.foldl_append, queue_plain _ _ _ _ _ ini (fun q hq => by
        have := g3 q hq; omega)]
      simp only [List.foldl_cons, List.foldl_nil, List.isEmpty_nil, resendData]
      rw [queuePiece, if_pos ⟨rfl, g2⟩]
      refine ⟨ini.map (plain serial) ++ [⟨p.1, p.2, st.nextCsn, serial, cpFlags cfg (p.1 + p.2), 1⟩],
        ?_, ⟨?_, ?_, ?_, ?_⟩, ?_⟩
      · simp only [Option.some.injEq, State.mk.injEq, List.append_assoc, true_and, and_true]
        rw [cpFlags, Nat.add_comm p.2 p.1]
      · intro r hr'
        rcases List.mem_append.1 hr' with hr' | hr'
        · obtain ⟨q, hq, rfl⟩ := List.mem_map.1 hr'
          have hs := h2.size q (by rw [g1]; simp [hq])
          have := g3 q hq
          refine ⟨⟨hs.1, hs.2.1⟩, ?_, ?_, ?_⟩ <;> simp only [plain]
          · omega
          · intro h; exact absurd rfl h
          · intro _; omega
        · simp only [List.mem_singleton] at hr'
          subst hr'
          refine ⟨⟨hp.1, hp.2.1⟩, by simp only; omega, fun _ => rfl, fun h => ?_⟩
          exact absurd h (cpFlags_pos _ _)
      · have ho := h2.ordered
        rw [g1, List.pairwise_append] at ho
        rw [List.pairwise_append]
        refine ⟨List.pairwise_map.2 ho.1, by simp, ?_⟩
        intro a ha b hb
        obtain ⟨q, hq, rfl⟩ := List.mem_map.1 ha
        simp only [List.mem_singleton] at hb
        subst hb
        exact ho.2.2 q hq p (by simp)
      · intro r hr'
        rcases List.mem_append.1 hr' with hr' | hr'
        · obtain ⟨q, hq, rfl⟩ := List.mem_map.1 hr'; exact ⟨rfl, rfl⟩
        · simp only [List.mem_singleton] at hr'
          subst hr'; exact ⟨rfl, rfl⟩
      · refine ⟨_, _, rfl, cpFlags_pos _ _, rfl, fun g hg' => ?_⟩
        obtain ⟨q, hq, rfl⟩ := List.mem_map.1 hg'; rfl
      · intro x
        rw [covers_cons]
        have hcv := h2.cover x
        rw [g1] at hcv
        simp only [Frag.Has, covers_nil, or_false, ← hcv, List.mem_append, List.mem_map,
          List.mem_singleton]
        constructor
        · rintro ⟨r, (⟨q, hq, rfl⟩ | rfl), hx⟩
          · exact ⟨q, .inl hq, hx⟩
          · exact ⟨p, .inr rfl, hx⟩
        · rintro ⟨q, (hq | rfl), hx⟩
          · exact ⟨_, .inl ⟨q, hq, rfl⟩, hx⟩
          · exact ⟨_, .inr rfl, hx⟩
    | cons f2 fs2 =>
      rw [queue_plain _ _ _ _ _ ps (fun q hq => by simp)]
      have hcan := (canonical_cons f (f2 :: fs2)).1 hg
      have hbeyond : ∀ x, Covers (f2 :: fs2) x → f.e + 1 < x := by
        rintro x ⟨g, hgm, hgx⟩
        have := hcan.2.1 g hgm
        simp only [Frag.Has] at hgx
        omega
      rcases ih { st with resend := st.resend ++ ps.map (plain serial) } hcan.2.2
          (fun x hx => hr x ((covers_cons f _ x).2 (.inr hx))) with ⟨h, -⟩ | ⟨q, k1, k2, k3⟩
      · cases h
      · refine ⟨ps.map (plain serial) ++ q, ?_, ⟨?_, ?_, ?_, ?_⟩, ?_⟩
        · rw [k1]; simp only [List.append_assoc]
        · intro r hr'
          rcases List.mem_append.1 hr' with hr' | hr'
          · obtain ⟨p, hp, rfl⟩ := List.mem_map.1 hr'
            have hs := h2.size p hp
            have hb2 : f2.e < cfg.red := hr f2.e ⟨f2, by simp, by
              have := hg.valid (f := f2) (by simp)
              simp only [Frag.Valid] at this
              simp only [Frag.Has]; omega⟩
            have hb3 := hbeyond f2.b ⟨f2, by simp, by
              have := hg.valid (f := f2) (by simp)
              simp only [Frag.Valid] at this
              simp only [Frag.Has]; omega⟩
            have hb4 := hg.valid (f := f2) (by simp)
            simp only [Frag.Valid] at hb4
            refine ⟨⟨hs.1, hs.2.1⟩, ?_, ?_, ?_⟩ <;> simp only [plain]
            · omega
            · intro h; exact absurd rfl h
            · intro _; omega
          · exact k2.ok r hr'
        · rw [List.pairwise_append]
          refine ⟨List.pairwise_map.2 h2.ordered, k2.ordered, ?_⟩
          intro a ha b hb
          obtain ⟨p, hp, rfl⟩ := List.mem_map.1 ha
          have hs := h2.size p hp
          have h5 := (k2.ok b hb).size
          have := hbeyond b.offset ((k3 _).1 ⟨b, hb, by omega, by omega⟩)
          simp only [plain]; omega
        · intro r hr'
          rcases List.mem_append.1 hr' with hr' | hr'
          · obtain ⟨p, hp, rfl⟩ := List.mem_map.1 hr'; exact ⟨rfl, rfl⟩
          · exact k2.shape r hr'
        · obtain ⟨ini, l, m1, m2, m3, m4⟩ := k2.last
          refine ⟨ps.map (plain serial) ++ ini, l, by rw [m1, List.append_assoc], m2, m3, ?_⟩
          intro g hg'
          rcases List.mem_append.1 hg' with hg' | hg'
          · obtain ⟨p, hp, rfl⟩ := List.mem_map.1 hg'; rfl
          · exact m4 g hg'
        · intro x
          rw [covers_cons, ← k3 x]
          have hcv := h2.cover x
          simp only [Frag.Has, ← hcv, List.mem_append, List.mem_map]
          constructor
          · rintro ⟨r, (⟨p, hp, rfl⟩ | hr'), hx⟩
            · exact .inl ⟨p, hp, hx⟩
            · exact .inr ⟨r, hr', hx⟩
          · rintro (⟨p, hp, hx⟩ | ⟨r, hr', hx⟩)
            · exact ⟨_, .inl ⟨p, hp, rfl⟩, hx⟩
            · exact ⟨r, .inr hr', hx⟩

end Hdtn.LtpSender
