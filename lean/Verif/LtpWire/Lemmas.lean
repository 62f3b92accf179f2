import Verif.LtpWire.Spec
import Verif.Sdnv.Read

/-! The parser without shortcuts, and the shortcuts as sequences of its steps. -/

namespace Hdtn.LtpWire

open Spec Hdtn.Sdnv Hdtn.Sdnv.Spec Hdtn.LtpReport

/-! ### The parser byte by byte -/

/-- One byte that is the last one of a call. -/
def slowStep (p : Phase) (b : UInt8) : Res :=
  match step p b with
  | .content h => (startContent h []).1
  | r => r

/-- The parser when it is given single bytes, except that data is always copied. -/
def slow : Phase → Bytes → List Event × Option Phase
  | p, [] => ([], some p)
  | p, b :: rest =>
    match slowStep p b with
    | .fail => ([], none)
    | .next q => slow q rest
    | .emit e => (e :: (slow .control rest).1, (slow .control rest).2)
    | .content _ => ([], none)

/-- What follows a result. -/
def after (r : Res) (rest : Bytes) : List Event × Option Phase :=
  match r with
  | .fail => ([], none)
  | .next q => slow q rest
  | .emit e => (e :: (slow .control rest).1, (slow .control rest).2)
  | .content _ => ([], none)

theorem slow_cons (p : Phase) (b : UInt8) (rest : Bytes) :
    slow p (b :: rest) = after (slowStep p b) rest := by
  rw [slow]; rfl

/-- Steps without callbacks. -/
inductive Silent : Phase → Bytes → Phase → Bytes → Prop
  | refl (p : Phase) (buf : Bytes) : Silent p buf p buf
  | next {p q q' : Phase} {b : UInt8} {rest rest' : Bytes} :
    slowStep p b = .next q → Silent q rest q' rest' → Silent p (b :: rest) q' rest'

theorem Silent.trans {p q r : Phase} {a b c : Bytes} (h : Silent p a q b) (h' : Silent q b r c) :
    Silent p a r c := by
  induction h with
  | refl => exact h'
  | next hs _ ih => exact .next hs (ih h')

theorem Silent.one {p q : Phase} {b : UInt8} {rest : Bytes} (h : slowStep p b = .next q) :
    Silent p (b :: rest) q rest := .next h (.refl _ _)

theorem Silent.slow {p q : Phase} {a b : Bytes} (h : Silent p a q b) : slow p a = slow q b := by
  induction h with
  | refl => rfl
  | next hs _ ih => rw [slow_cons, hs]; exact ih

theorem Silent.suffix {p q : Phase} {a b : Bytes} (h : Silent p a q b) : ∃ w, a = w ++ b := by
  induction h with
  | refl => exact ⟨[], rfl⟩
  | @next _ _ _ c _ _ _ _ ih =>
    obtain ⟨w, hw⟩ := ih
    exact ⟨c :: w, by rw [hw]; rfl⟩

/-- Steps without callbacks and one more with result `r`. -/
def Reach (p : Phase) (buf : Bytes) (r : Res) (rest : Bytes) : Prop :=
  ∃ q c, Silent p buf q (c :: rest) ∧ slowStep q c = r

theorem Reach.before {p q : Phase} {a b rest : Bytes} {r : Res} (h : Silent p a q b)
    (h' : Reach q b r rest) : Reach p a r rest := by
  obtain ⟨s, c, h1, h2⟩ := h'
  exact ⟨s, c, h.trans h1, h2⟩

theorem Reach.slow {p : Phase} {buf rest : Bytes} {r : Res} (h : Reach p buf r rest) :
    slow p buf = after r rest := by
  obtain ⟨q, c, h1, h2⟩ := h
  rw [h1.slow, slow_cons, h2]

theorem Reach.next {p q : Phase} {buf rest : Bytes} (h : Reach p buf (.next q) rest) :
    Silent p buf q rest := by
  obtain ⟨s, c, h1, h2⟩ := h
  exact h1.trans (.one h2)

theorem Reach.suffix {p : Phase} {buf rest : Bytes} {r : Res} (h : Reach p buf r rest) :
    ∃ w, w ≠ [] ∧ buf = w ++ rest := by
  obtain ⟨s, c, h1, h2⟩ := h
  obtain ⟨w, hw⟩ := h1.suffix
  exact ⟨w ++ [c], by simp, by simp [hw]⟩

theorem reach_one {p : Phase} {b : UInt8} {rest : Bytes} : Reach p (b :: rest) (slowStep p b) rest :=
  ⟨p, b, .refl _ _, rfl⟩

/-- The parser fails on this buffer, or waits in the middle of a number for which any further byte is
an error. -/
def Dead (p : Phase) (buf : Bytes) : Prop :=
  (∃ rest, Reach p buf .fail rest) ∨
    (CutAtTen buf ∧ ∃ q, Silent p buf q [] ∧ ∀ b, slowStep q b = .fail)

theorem Dead.before {p q : Phase} {a b : Bytes} (h : Silent p a q b) (h' : Dead q b) : Dead p a := by
  rcases h' with ⟨rest, h1⟩ | ⟨⟨t, bs, h1, h2⟩, s, h3, h4⟩
  · exact .inl ⟨rest, .before h h1⟩
  · obtain ⟨w, hw⟩ := h.suffix
    exact .inr ⟨⟨w ++ t, bs, by rw [hw, h1, List.append_assoc], h2⟩, s, h.trans h3, h4⟩

/-! ### Numbers -/

/-- The states `ph tmp` read a number that is handed to `done`. -/
def Reads (ph : Bytes → Phase) (done : Nat → Res) : Prop :=
  ∀ tmp b, step (ph tmp) b = sdnvStep tmp b ph done

/-- A result as it is when no byte is left. -/
def Res.resolve : Res → Res
  | .content h => (startContent h []).1
  | r => r

theorem wellFormed_split {p : Bytes} (h : WellFormed p) :
    ∃ init last, p = init ++ [last] ∧ (∀ b ∈ init, 128 ≤ b.toNat) ∧ last.toNat < 128 := by
  induction p with
  | nil => exact h.elim
  | cons b bs ih =>
    cases bs with
    | nil => exact ⟨[], b, rfl, by simp, h⟩
    | cons c cs =>
      obtain ⟨init, last, h1, h2, h3⟩ := ih h.2
      refine ⟨b :: init, last, by rw [h1]; rfl, ?_, h3⟩
      intro x hx
      rcases List.mem_cons.1 hx with rfl | hx
      · exact h.1
      · exact h2 x hx

theorem wellFormed_join {init : Bytes} {last : UInt8} (h : ∀ b ∈ init, 128 ≤ b.toNat)
    (hl : last.toNat < 128) : WellFormed (init ++ [last]) := by
  induction init with
  | nil => exact hl
  | cons b bs ih =>
    have h1 := ih fun x hx => h x (List.mem_cons_of_mem _ hx)
    cases bs with
    | nil => exact ⟨h b (by simp), h1⟩
    | cons c cs => exact ⟨h b (by simp), h1⟩

theorem slowStep_reads {ph : Bytes → Phase} {done : Nat → Res} (hr : Reads ph done) (tmp : Bytes)
    (b : UInt8) : slowStep (ph tmp) b = (sdnvStep tmp b ph done).resolve := by
  unfold slowStep
  rw [hr]
  rfl

theorem sdnvStep_more {ph : Bytes → Phase} {done : Nat → Res} {tmp : Bytes} {b : UInt8}
    (hl : tmp.length < 10) (hb : 128 ≤ b.toNat) : sdnvStep tmp b ph done = .next (ph (tmp ++ [b])) := by
  unfold sdnvStep
  simp only [List.length_append, List.length_cons, List.length_nil]
  rw [if_neg (by omega), if_neg (by omega)]

theorem decode_whole (p : Bytes) (v : Nat) : decodeU64Classic p = (v, p.length) ∧ p.length ≠ 0 ↔ IsSdnv64 p v := by
  rw [C02_decode64_success_iff]
  simp

theorem sdnvStep_done {ph : Bytes → Phase} {done : Nat → Res} {tmp : Bytes} {b : UInt8} {v : Nat}
    (h : IsSdnv64 (tmp ++ [b]) v) (hb : b.toNat < 128) : sdnvStep tmp b ph done = done v := by
  obtain ⟨h1, -⟩ := (decode_whole _ _).2 h
  have := h.1
  unfold sdnvStep
  simp only [h1]
  rw [if_neg (by omega), if_pos hb, if_neg (by simp)]

theorem sdnvStep_bad {ph : Bytes → Phase} {done : Nat → Res} {tmp : Bytes} {b : UInt8}
    (h : ∀ v, ¬ IsSdnv64 (tmp ++ [b]) v) (hb : b.toNat < 128) : sdnvStep tmp b ph done = .fail := by
  unfold sdnvStep
  simp only [hb, if_true]
  split
  · rfl
  · rw [if_pos]
    intro h2
    apply h (decodeU64Classic (tmp ++ [b])).1
    rw [← decode_whole]
    exact ⟨Prod.ext rfl h2, by simp⟩

theorem sdnvStep_full {ph : Bytes → Phase} {done : Nat → Res} {tmp : Bytes} {b : UInt8}
    (h : tmp.length = 10) : sdnvStep tmp b ph done = .fail := by
  unfold sdnvStep
  simp only [List.length_append, List.length_cons, List.length_nil]
  rw [if_pos (by omega)]

theorem silent_more {ph : Bytes → Phase} {done : Nat → Res} (hr : Reads ph done) (init : Bytes) :
    ∀ (tmp rest : Bytes), (∀ b ∈ init, 128 ≤ b.toNat) → (tmp ++ init).length ≤ 10 →
      Silent (ph tmp) (init ++ rest) (ph (tmp ++ init)) rest := by
  induction init with
  | nil => intro tmp rest _ _; simpa using Silent.refl (ph tmp) rest
  | cons b bs ih =>
    intro tmp rest hb hl
    simp only [List.length_append, List.length_cons] at hl
    refine .next (q := ph (tmp ++ [b])) ?_ ?_
    · rw [slowStep_reads hr, sdnvStep_more (by omega) (hb b (by simp))]
      rfl
    · have := ih (tmp ++ [b]) rest (fun x hx => hb x (List.mem_cons_of_mem _ hx))
        (by simp only [List.length_append, List.length_cons, List.length_nil]; omega)
      simpa using this

/-- A number is read. -/
theorem reach_number {ph : Bytes → Phase} {done : Nat → Res} (hr : Reads ph done) {p : Bytes} {v : Nat}
    (h : IsSdnv64 p v) (rest : Bytes) : Reach (ph []) (p ++ rest) (done v).resolve rest := by
  obtain ⟨init, last, rfl, h2, h3⟩ := wellFormed_split h.2.1
  have hl : init.length + 1 ≤ 10 := by simpa using h.1
  refine ⟨ph init, last, ?_, ?_⟩
  · have := silent_more hr init [] (last :: rest) h2 (by simp; omega)
    simpa using this
  · rw [slowStep_reads hr, sdnvStep_done h h3]

theorem first_low (bs : Bytes) : (∀ b ∈ bs, 128 ≤ b.toNat) ∨
    ∃ init last rest, bs = init ++ last :: rest ∧ (∀ b ∈ init, 128 ≤ b.toNat) ∧ last.toNat < 128 := by
  induction bs with
  | nil => left; simp
  | cons b bs ih =>
    by_cases hb : b.toNat < 128
    · exact .inr ⟨[], b, bs, rfl, by simp, hb⟩
    · rcases ih with h | ⟨init, last, rest, rfl, h2, h3⟩
      · left
        intro x hx
        rcases List.mem_cons.1 hx with rfl | hx
        · omega
        · exact h x hx
      · refine .inr ⟨b :: init, last, rest, rfl, ?_, h3⟩
        intro x hx
        rcases List.mem_cons.1 hx with rfl | hx
        · omega
        · exact h2 x hx

/-- Bytes that no number begins with. -/
theorem dead_malformed {ph : Bytes → Phase} {done : Nat → Res} (hr : Reads ph done) {bs : Bytes}
    (hc : ¬ CutOff bs) (hm : Malformed bs) : Dead (ph []) bs := by
  have full : ∀ init : Bytes, init.length = 10 → (∀ b ∈ init, 128 ≤ b.toNat) → ∀ rest,
      Silent (ph []) (init ++ rest) (ph init) rest := by
    intro init h1 h2 rest
    simpa using silent_more hr init [] rest h2 (by simp; omega)
  have long : ∀ init : Bytes, (∀ b ∈ init, 128 ≤ b.toNat) → 10 ≤ init.length → ∀ rest,
      Dead (ph []) (init ++ rest) := by
    intro init h1 h2 rest
    have h3 : (init.take 10).length = 10 := by rw [List.length_take]; omega
    have h4 : ∀ b ∈ init.take 10, 128 ≤ b.toNat := fun b hb => h1 b (List.mem_of_mem_take hb)
    have e : init ++ rest = init.take 10 ++ (init.drop 10 ++ rest) := by
      rw [← List.append_assoc, List.take_append_drop]
    rw [e]
    cases hd : init.drop 10 ++ rest with
    | nil =>
      refine .inr ⟨⟨[], init.take 10, by simp, h3, h4⟩, ph (init.take 10), ?_, ?_⟩
      · simpa using full _ h3 h4 []
      · intro b
        rw [slowStep_reads hr, sdnvStep_full h3]; rfl
    | cons c cs =>
      refine .inl ⟨cs, ph (init.take 10), c, full _ h3 h4 _, ?_⟩
      rw [slowStep_reads hr, sdnvStep_full h3]; rfl
  rcases first_low bs with h | ⟨init, last, rest, rfl, h2, h3⟩
  · have : 10 ≤ bs.length := by
      by_contra hlt
      exact hc ⟨by omega, h⟩
    simpa using long bs h this []
  · by_cases hl : 10 ≤ init.length
    · exact long init h2 hl _
    · refine .inl ⟨rest, ph init, last, ?_, ?_⟩
      · simpa using silent_more hr init [] (last :: rest) h2 (by simp; omega)
      · rw [slowStep_reads hr, sdnvStep_bad _ h3]
        · rfl
        · intro v hv
          exact hm [] _ v rest hv (by simp)

/-! ### Batches -/

theorem batch_spec (n : Nat) (buf : Bytes) :
    (∃ vs rest, batch n buf = some (vs, rest) ∧ vs.length ≤ n ∧ Split buf vs rest ∧
      (vs.length = n ∨ CutOff rest)) ∨
    (∃ vs rest, batch n buf = none ∧ vs.length < n ∧ Split buf vs rest ∧ ¬ CutOff rest ∧
      Malformed rest) := by
  rcases C04_array_decode_spec n buf with ⟨vs, used, rest, h1, h2, h3, h4, h5⟩ | ⟨vs, rest, h1, h2⟩
  · left
    refine ⟨vs, rest, ?_, h3, h4, h5⟩
    obtain ⟨p, rfl⟩ := split_length h4
    simp only [List.length_append] at h2
    have : used = p.length := by omega
    simp [batch, h1, this]
  · right
    exact ⟨vs, rest, by simp [batch, h1], h2⟩

theorem batch_nil (n : Nat) : batch n [] = some ([], []) := by
  have nil_of : ∀ vs rest, Split [] vs rest → vs = [] ∧ rest = [] := by
    intro vs rest h
    obtain ⟨p, hp⟩ := split_length h
    have hr : rest = [] := by
      cases rest with
      | nil => rfl
      | cons a b => simp at hp
    refine ⟨?_, hr⟩
    cases vs with
    | nil => rfl
    | cons v vs =>
      exfalso
      generalize hb : ([] : Bytes) = bb at h
      cases h with
      | cons hq _ =>
        have h1 := isSdnv64_ne_nil hq
        have h2 := congrArg List.length hb
        simp only [List.length_append, List.length_nil] at h2
        omega
  rcases batch_spec n [] with ⟨vs, rest, h1, _, h3, _⟩ | ⟨vs, rest, h1, _, h3, h4, _⟩
  · obtain ⟨rfl, rfl⟩ := nil_of _ _ h3
    exact h1
  · obtain ⟨rfl, rfl⟩ := nil_of _ _ h3
    exact absurd ⟨by simp, by simp⟩ h4

theorem split_cons_iff (buf : Bytes) (v : Nat) (vs : List Nat) (rest : Bytes) :
    Split buf (v :: vs) rest ↔ ∃ p buf', buf = p ++ buf' ∧ IsSdnv64 p v ∧ Split buf' vs rest := by
  constructor
  · rintro (_ | ⟨h1, h2⟩)
    exact ⟨_, _, rfl, h1, h2⟩
  · rintro ⟨p, buf', rfl, h1, h2⟩
    exact .cons h1 h2

theorem split_nil_iff (buf rest : Bytes) : Split buf [] rest ↔ buf = rest := by
  constructor
  · rintro (_ | _); rfl
  · rintro rfl; exact .nil _

/-! ### Shortcuts as steps -/

/-- The steps over `buf` lead to `r` with `rest` left. -/
def Goes (p : Phase) (buf : Bytes) (r : Res) (rest : Bytes) : Prop :=
  match r with
  | .fail => Dead p buf
  | .next q => Silent p buf q rest
  | .emit e => Reach p buf (.emit e) rest
  | .content _ => False

theorem Goes.before {p q : Phase} {a b rest : Bytes} {r : Res} (h : Silent p a q b)
    (h' : Goes q b r rest) : Goes p a r rest := by
  cases r with
  | fail => exact Dead.before h h'
  | next s => exact h.trans h'
  | emit e => exact Reach.before h h'
  | content h => exact h'

theorem Reach.goes {p : Phase} {buf rest : Bytes} {r : Res} (h : Reach p buf r rest)
    (hr : ∀ h, r ≠ .content h) : Goes p buf r rest := by
  cases r with
  | fail => exact .inl ⟨rest, h⟩
  | next q => exact h.next
  | emit e => exact h
  | content h' => exact absurd rfl (hr h')

theorem goes_number {ph : Bytes → Phase} {done : Nat → Res} (hr : Reads ph done) {p : Bytes} {v : Nat}
    (h : IsSdnv64 p v) {q : Phase} (hd : done v = .next q) {buf rest : Bytes} {r : Res}
    (hg : Goes q buf r rest) : Goes (ph []) (p ++ buf) r rest := by
  have := reach_number hr h buf
  rw [hd] at this
  exact hg.before (Reach.next this)

theorem dead_number {ph : Bytes → Phase} {done : Nat → Res} (hr : Reads ph done) {p : Bytes} {v : Nat}
    (h : IsSdnv64 p v) (hd : done v = .fail) (buf : Bytes) : Dead (ph []) (p ++ buf) := by
  have := reach_number hr h buf
  rw [hd] at this
  exact .inl ⟨_, this⟩

theorem finish_ne (h : Head) (lent : Bool) (c : Content) (h' : Head) : finish h lent c ≠ .content h' := by
  unfold finish
  split <;> simp

theorem resolve_finish (h : Head) (lent : Bool) (c : Content) : (finish h lent c).resolve = finish h lent c := by
  unfold finish
  split <;> rfl

theorem reads_session (flags : Nat) (vals : List Nat) : Reads (.session flags vals) fun v =>
    match vals with
    | [] => .next (.session flags [v] [])
    | e :: _ => .next (.counts flags ⟨e, v⟩) := fun _ _ => rfl

theorem reads_data (h : Head) (vals : List Nat) : Reads (.dataNums h vals) (dataNext h vals) :=
  fun _ _ => rfl

theorem reads_report (h : Head) (vals : List Nat) : Reads (.reportNums h vals) (reportNext h vals) :=
  fun _ _ => rfl

theorem reads_offset (h : Head) (r : ReportNums) (count : Nat) (claims : List Claim) :
    Reads (.claimOffset h r count claims) fun v => .next (.claimLength h r count claims v []) :=
  fun _ _ => rfl

theorem reads_length (h : Head) (r : ReportNums) (count : Nat) (claims : List Claim) (o : Nat) :
    Reads (.claimLength h r count claims o) (claimNext h r count claims o) := fun _ _ => rfl

/-- Engine id and session number. -/
theorem goes_control (b : UInt8) (rest : Bytes) :
    Goes .control (b :: rest) (controlByte b rest).1 (controlByte b rest).2 := by
  unfold controlByte
  by_cases hb : b.toNat / 16 ≠ 0
  · rw [if_pos hb]
    refine .inl ⟨rest, .control, b, .refl _ _, ?_⟩
    simp [slowStep, step, hb]
  rw [if_neg hb]
  have h0 : Silent .control (b :: rest) (.session (b.toNat % 16) [] []) rest := by
    apply Silent.one
    simp [slowStep, step, hb]
  refine Goes.before h0 ?_
  rcases batch_spec 2 rest with ⟨vs, rest', h1, h2, h3, h4⟩ | ⟨vs, rest', h1, h2, h3, h4, h5⟩
  · rw [h1]
    rcases vs with _ | ⟨a, _ | ⟨c, _ | ⟨d, vs⟩⟩⟩
    · rw [split_nil_iff] at h3
      subst h3
      exact Silent.refl _ _
    · simp only [split_cons_iff, split_nil_iff] at h3
      obtain ⟨p, _, rfl, hp, rfl⟩ := h3
      exact goes_number (reads_session _ []) hp rfl (r := .next _) (Silent.refl _ _)
    · simp only [split_cons_iff, split_nil_iff] at h3
      obtain ⟨p, _, rfl, hp, q, _, rfl, hq, rfl⟩ := h3
      exact goes_number (reads_session _ []) hp rfl
        (goes_number (reads_session _ [a]) hq rfl (r := .next _) (Silent.refl _ _))
    · simp at h2
  · rw [h1]
    rcases vs with _ | ⟨a, _ | ⟨c, vs⟩⟩
    · rw [split_nil_iff] at h3
      subst h3
      exact dead_malformed (reads_session _ []) h4 h5
    · simp only [split_cons_iff, split_nil_iff] at h3
      obtain ⟨p, _, rfl, hp, rfl⟩ := h3
      exact goes_number (reads_session _ []) hp rfl (r := .fail)
        (dead_malformed (reads_session _ [a]) h4 h5)
    · simp only [List.length_cons] at h2; omega

/-- The numbers of a data segment. -/
theorem goes_data (h : Head) (rest : Bytes) :
    Goes (.dataNums h [] []) rest (dataShortcut h rest).1 (dataShortcut h rest).2 := by
  unfold dataShortcut
  have two : ∀ {a c : Nat} {buf buf' : Bytes} {r : Res} {vs : List Nat} {rest : Bytes},
      Split buf (a :: c :: vs) rest →
      (∀ buf1, Split buf1 vs rest → Goes (.dataNums h [a, c] []) buf1 r buf') →
      Goes (.dataNums h [] []) buf r buf' := by
    intro a c buf buf' r vs rest hs hg
    simp only [split_cons_iff] at hs
    obtain ⟨p, _, rfl, hp, q, _, rfl, hq, hs⟩ := hs
    exact goes_number (reads_data h []) hp rfl (goes_number (reads_data h [a]) hq rfl (hg _ hs))
  cases hc : isCheckpoint h.flags with
  | false =>
    simp only [Bool.false_eq_true, if_false]
    rcases batch_spec 3 rest with ⟨vs, rest', h1, h2, h3, h4⟩ | ⟨vs, rest', h1, h2, h3, h4, h5⟩
    · rw [h1]
      rcases vs with _ | ⟨a, _ | ⟨c, _ | ⟨d, _ | ⟨e, vs⟩⟩⟩⟩
      · rw [split_nil_iff] at h3
        subst h3
        exact Silent.refl _ _
      · simp only [split_cons_iff, split_nil_iff] at h3
        obtain ⟨p, _, rfl, hp, rfl⟩ := h3
        exact goes_number (reads_data h []) hp rfl (r := .next _) (Silent.refl _ _)
      · refine two h3 fun buf1 hs => ?_
        rw [split_nil_iff] at hs
        subst hs
        exact Silent.refl _ _
      · refine two h3 fun buf1 hs => ?_
        simp only [split_cons_iff, split_nil_iff] at hs
        obtain ⟨p, _, rfl, hp, rfl⟩ := hs
        by_cases hd : d = 0
        · simp only [dataAfter, hd, if_true]
          exact dead_number (reads_data h _) hp (by simp [dataNext, hd]) _
        · simp only [dataAfter, hd, if_false, hc, Bool.false_eq_true]
          exact goes_number (reads_data h _) hp (by simp [dataNext, hd, hc]) (r := .next _)
            (Silent.refl _ _)
      · simp only [List.length_cons] at h2; omega
    · rw [h1]
      rcases vs with _ | ⟨a, _ | ⟨c, _ | ⟨d, vs⟩⟩⟩
      · rw [split_nil_iff] at h3
        subst h3
        exact dead_malformed (reads_data h []) h4 h5
      · simp only [split_cons_iff, split_nil_iff] at h3
        obtain ⟨p, _, rfl, hp, rfl⟩ := h3
        exact goes_number (reads_data h []) hp rfl (r := .fail)
          (dead_malformed (reads_data h _) h4 h5)
      · refine two h3 fun buf1 hs => ?_
        rw [split_nil_iff] at hs
        subst hs
        exact dead_malformed (reads_data h _) h4 h5
      · simp only [List.length_cons] at h2; omega
  | true =>
    simp only [if_true]
    have three : ∀ {p : Bytes} {a c d : Nat} {buf buf' : Bytes} {r : Res} , IsSdnv64 p d → d ≠ 0 →
        Goes (.dataNums h [a, c, d] []) buf r buf' → Goes (.dataNums h [a, c] []) (p ++ buf) r buf' :=
      fun hp hd hg => goes_number (reads_data h _) hp (by simp [dataNext, hd, hc]) hg
    rcases batch_spec 5 rest with ⟨vs, rest', h1, h2, h3, h4⟩ | ⟨vs, rest', h1, h2, h3, h4, h5⟩
    · rw [h1]
      rcases vs with _ | ⟨a, _ | ⟨c, _ | ⟨d, vs⟩⟩⟩
      · rw [split_nil_iff] at h3
        subst h3
        exact Silent.refl _ _
      · simp only [split_cons_iff, split_nil_iff] at h3
        obtain ⟨p, _, rfl, hp, rfl⟩ := h3
        exact goes_number (reads_data h []) hp rfl (r := .next _) (Silent.refl _ _)
      · refine two h3 fun buf1 hs => ?_
        rw [split_nil_iff] at hs
        subst hs
        exact Silent.refl _ _
      · refine two h3 fun buf1 hs => ?_
        rw [split_cons_iff] at hs
        obtain ⟨p, buf2, rfl, hp, hs⟩ := hs
        by_cases hd : d = 0
        · have : (dataAfter h (a :: c :: d :: vs)) = .fail := by
            rcases vs with _ | ⟨e, _ | ⟨f, _ | ⟨g, vs⟩⟩⟩
            · simp [dataAfter, hd]
            · simp [dataAfter, hd]
            · simp [dataAfter, hd]
            · simp only [List.length_cons] at h2; omega
          simp only [this]
          exact dead_number (reads_data h _) hp (by simp [dataNext, hd]) _
        · rcases vs with _ | ⟨e, _ | ⟨f, _ | ⟨g, vs⟩⟩⟩
          · rw [split_nil_iff] at hs
            subst hs
            simp only [dataAfter, hd, if_false, hc, if_true]
            exact three hp hd (r := .next _) (Silent.refl _ _)
          · simp only [split_cons_iff, split_nil_iff] at hs
            obtain ⟨q, _, rfl, hq, rfl⟩ := hs
            simp only [dataAfter, hd, if_false]
            exact three hp hd (goes_number (reads_data h _) hq rfl (r := .next _) (Silent.refl _ _))
          · simp only [split_cons_iff, split_nil_iff] at hs
            obtain ⟨q, _, rfl, hq, q', _, rfl, hq', rfl⟩ := hs
            simp only [dataAfter, hd, if_false]
            exact three hp hd (goes_number (reads_data h _) hq rfl
              (goes_number (reads_data h _) hq' rfl (r := .next _) (Silent.refl _ _)))
          · simp only [List.length_cons] at h2; omega
    · rw [h1]
      rcases vs with _ | ⟨a, _ | ⟨c, _ | ⟨d, vs⟩⟩⟩
      · rw [split_nil_iff] at h3
        subst h3
        exact dead_malformed (reads_data h []) h4 h5
      · simp only [split_cons_iff, split_nil_iff] at h3
        obtain ⟨p, _, rfl, hp, rfl⟩ := h3
        exact goes_number (reads_data h []) hp rfl (r := .fail)
          (dead_malformed (reads_data h _) h4 h5)
      · refine two h3 fun buf1 hs => ?_
        rw [split_nil_iff] at hs
        subst hs
        exact dead_malformed (reads_data h _) h4 h5
      · refine two h3 fun buf1 hs => ?_
        rw [split_cons_iff] at hs
        obtain ⟨p, buf2, rfl, hp, hs⟩ := hs
        by_cases hd : d = 0
        · exact dead_number (reads_data h _) hp (by simp [dataNext, hd]) _
        · rcases vs with _ | ⟨e, _ | ⟨f, vs⟩⟩
          · rw [split_nil_iff] at hs
            subst hs
            exact three hp hd (r := .fail) (dead_malformed (reads_data h _) h4 h5)
          · simp only [split_cons_iff, split_nil_iff] at hs
            obtain ⟨q, _, rfl, hq, rfl⟩ := hs
            exact three hp hd (goes_number (reads_data h _) hq rfl (r := .fail)
              (dead_malformed (reads_data h _) h4 h5))
          · simp only [List.length_cons] at h2; omega

/-- What the numbers `vs` of claims lead to. -/
def claimRes (h : Head) (r : ReportNums) (count : Nat) (claims : List Claim) (vs : List Nat) : Res :=
  if (pairUp vs).1.any (fun c => c.length = 0) then .fail
  else if 2 * count = 2 * claims.length + vs.length then finish h false (.report r (claims ++ (pairUp vs).1))
  else
    match (pairUp vs).2 with
    | none => .next (.claimOffset h r count (claims ++ (pairUp vs).1) [])
    | some o => .next (.claimLength h r count (claims ++ (pairUp vs).1) o [])

theorem goes_claims (h : Head) (r : ReportNums) (count : Nat) (vs : List Nat) : ∀ (claims : List Claim)
    (buf rest : Bytes), claims.length < count → 2 * claims.length + vs.length ≤ 2 * count → Split buf vs rest →
    Goes (.claimOffset h r count claims []) buf (claimRes h r count claims vs) rest := by
  induction vs using pairUp.induct with
  | case1 =>
    intro claims buf rest hl h2 hs
    rw [split_nil_iff] at hs
    subst hs
    simp only [claimRes, pairUp, List.any_nil, Bool.false_eq_true, if_false, List.length_nil, List.append_nil]
    rw [if_neg (by omega)]
    exact Silent.refl _ _
  | case2 o =>
    intro claims buf rest hl h2 hs
    simp only [split_cons_iff, split_nil_iff] at hs
    obtain ⟨p, _, rfl, hp, rfl⟩ := hs
    simp only [claimRes, pairUp, List.any_nil, Bool.false_eq_true, if_false, List.length_cons, List.length_nil,
      List.append_nil]
    rw [if_neg (by omega)]
    exact goes_number (reads_offset h r count claims) hp rfl (r := .next _) (Silent.refl _ _)
  | case3 o l vs ih =>
    intro claims buf rest hl h2 hs
    simp only [List.length_cons] at h2
    rw [split_cons_iff] at hs
    obtain ⟨p, _, rfl, hp, hs⟩ := hs
    rw [split_cons_iff] at hs
    obtain ⟨q, buf2, rfl, hq, hs⟩ := hs
    refine goes_number (reads_offset h r count claims) hp rfl ?_
    by_cases h0 : l = 0
    · have : claimRes h r count claims (o :: l :: vs) = .fail := by
        simp [claimRes, pairUp, h0]
      rw [this]
      exact dead_number (reads_length h r count claims o) hq (by simp [claimNext, h0]) _
    · by_cases hlt : claims.length + 1 < count
      · have e : claimRes h r count claims (o :: l :: vs) = claimRes h r count (claims ++ [⟨o, l⟩]) vs := by
          simp only [claimRes, pairUp, List.any_cons, h0, decide_false, Bool.false_or, List.length_cons,
            List.length_append, List.length_nil, List.append_assoc, List.cons_append, List.nil_append]
          have : 2 * claims.length + (vs.length + 1 + 1) = 2 * (claims.length + (0 + 1)) + vs.length := by omega
          simp only [this]
        rw [e]
        refine goes_number (reads_length h r count claims o) hq ?_ (ih (claims ++ [⟨o, l⟩]) buf2 rest ?_ ?_ hs)
        · simp [claimNext, h0, hlt]
        · simpa using hlt
        · simp only [List.length_append, List.length_cons, List.length_nil]; omega
      · have hv : vs = [] := List.eq_nil_of_length_eq_zero (by omega)
        subst hv
        rw [split_nil_iff] at hs
        subst hs
        have e : claimRes h r count claims [o, l] = finish h false (.report r (claims ++ [⟨o, l⟩])) := by
          simp only [claimRes, pairUp, List.any_cons, h0, decide_false, Bool.false_or, List.any_nil,
            Bool.false_eq_true, if_false, List.length_cons, List.length_nil]
          rw [if_pos (by omega)]
        rw [e]
        have := reach_number (reads_length h r count claims o) hq buf2
        have e2 : claimNext h r count claims o l = finish h false (.report r (claims ++ [⟨o, l⟩])) := by
          simp [claimNext, h0, hlt]
        rw [e2, resolve_finish] at this
        exact this.goes fun h' => finish_ne _ _ _ _

theorem goes_claimsShortcut (h : Head) (r : ReportNums) (count : Nat) (rest : Bytes) (h0 : count ≠ 0)
    (hc : count < 2 ^ 31) :
    Goes (.claimOffset h r count [] []) rest (claimsShortcut h r count rest).1
      (claimsShortcut h r count rest).2 := by
  unfold claimsShortcut
  have hn : 2 * count % 2 ^ 32 = 2 * count := Nat.mod_eq_of_lt (by omega)
  simp only [hn]
  rcases batch_spec (2 * count) rest with ⟨vs, rest', h1, h2, h3, h4⟩ | ⟨vs, rest', h1, h2, h3, h4, h5⟩
  · rw [h1]
    have := goes_claims h r count vs [] rest rest' (by simp; omega) (by simpa using h2) h3
    unfold claimRes at this
    simp only [List.length_nil, Nat.mul_zero, Nat.zero_add, List.nil_append] at this
    simp only
    split
    · rename_i hz; rw [if_pos hz] at this; exact this
    · rename_i hz
      rw [if_neg hz] at this
      split
      · rename_i he; rw [if_pos he] at this; exact this
      · rename_i he
        rw [if_neg he] at this
        cases ho : (pairUp vs).2 with
        | none => rw [ho] at this; exact this
        | some o => rw [ho] at this; exact this
  · rw [h1]
    have := goes_claims h r count vs [] rest rest' (by simp; omega) (by simp; omega) h3
    unfold claimRes at this
    simp only [List.length_nil, Nat.mul_zero, Nat.zero_add, List.nil_append] at this
    simp only
    split at this
    · exact this
    · rw [if_neg (by omega)] at this
      cases ho : (pairUp vs).2 with
      | none => rw [ho] at this; exact Dead.before this (dead_malformed (reads_offset _ _ _ _) h4 h5)
      | some o => rw [ho] at this; exact Dead.before this (dead_malformed (reads_length _ _ _ _ _) h4 h5)

/-- The numbers of a report, when fewer than 2^31 claims are announced. -/
theorem goes_report (h : Head) (rest : Bytes)
    (hc : ∀ a b c d n rest', Split rest [a, b, c, d, n] rest' → n < 2 ^ 31) :
    Goes (.reportNums h [] []) rest (reportShortcut h rest).1 (reportShortcut h rest).2 := by
  unfold reportShortcut
  have nums : ∀ (vs vals : List Nat) (buf rest : Bytes), vals.length + vs.length ≤ 4 → Split buf vs rest →
      Silent (.reportNums h vals []) buf (.reportNums h (vals ++ vs) []) rest := by
    intro vs
    induction vs with
    | nil =>
      intro vals buf rest _ hs
      rw [split_nil_iff] at hs
      subst hs
      simpa using Silent.refl _ _
    | cons v vs ih =>
      intro vals buf rest hl hs
      rw [split_cons_iff] at hs
      obtain ⟨p, buf2, rfl, hp, hs⟩ := hs
      simp only [List.length_cons] at hl
      have h1 := reach_number (reads_report h vals) hp buf2
      have e : reportNext h vals v = .next (.reportNums h (vals ++ [v]) []) := by
        rcases vals with _ | ⟨_, _ | ⟨_, _ | ⟨_, _ | ⟨_, _⟩⟩⟩⟩
        · rfl
        · rfl
        · rfl
        · rfl
        · simp only [List.length_cons] at hl; omega
      rw [e] at h1
      have h2 := ih (vals ++ [v]) buf2 rest (by simp only [List.length_append, List.length_cons, List.length_nil]; omega) hs
      have := (Reach.next h1).trans h2
      simpa using this
  rcases batch_spec 5 rest with ⟨vs, rest', h1, h2, h3, h4⟩ | ⟨vs, rest', h1, h2, h3, h4, h5⟩
  · rw [h1]
    by_cases hv : vs.length ≤ 4
    · have hg := nums vs [] rest rest' (by simpa using hv) h3
      rcases vs with _ | ⟨_, _ | ⟨_, _ | ⟨_, _ | ⟨_, _ | ⟨_, _⟩⟩⟩⟩⟩
      · exact hg
      · exact hg
      · exact hg
      · exact hg
      · exact hg
      · simp only [List.length_cons] at hv; omega
    · have hv : vs.length = 5 := by omega
      match vs, hv with
      | [a, b, c, d, n], _ =>
        have hlt := hc a b c d n rest' h3
        obtain ⟨a1, buf1, rfl, e1, hs1⟩ := split_unappend (vs := [a, b, c, d]) (ws := [n]) h3
        have g1 := nums [a, b, c, d] [] (a1 ++ buf1) buf1 (by simp) (split_rest e1 buf1)
        simp only [split_cons_iff, split_nil_iff] at hs1
        obtain ⟨p, _, rfl, hp, rfl⟩ := hs1
        refine Goes.before g1 ?_
        simp only [List.nil_append]
        by_cases hn : n = 0
        · simp only [hn, if_true]
          exact dead_number (reads_report h _) hp (by simp [reportNext, hn]) _
        · simp only [hn, if_false]
          exact goes_number (reads_report h _) hp (by simp [reportNext, hn])
            (goes_claimsShortcut h _ n _ hn hlt)
  · rw [h1]
    have := nums vs [] rest rest' (by simp; omega) h3
    exact Dead.before this (dead_malformed (reads_report h _) h4 h5)

end Hdtn.LtpWire
