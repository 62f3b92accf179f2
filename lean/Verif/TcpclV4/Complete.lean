import Verif.TcpclV4.Lemmas

/-! Conforming streams are read. -/

namespace Hdtn.TcpclV4

open Spec

variable {lim : Nat}

theorem flags_eq (b : UInt8) : startFlag b = b.toNat.testBit 1 ∧ endFlag b = b.toNat.testBit 0 := by
  have h : ∀ k < 256, startFlag (UInt8.ofNat k) = (UInt8.ofNat k).toNat.testBit 1 ∧
      endFlag (UInt8.ofNat k) = (UInt8.ofNat k).toNat.testBit 0 := by decide +kernel
  simpa using h b.toNat b.toNat_lt

theorem flag_eq (b : UInt8) : (b &&& 1 != 0) = b.toNat.testBit 0 := (flags_eq b).2

/-! ### Items -/

theorem Spec.IsItem.length {p : Bytes} {x : Ext} (h : IsItem p x) : p.length = 5 + x.value.length := by
  obtain ⟨fl, t, l, value, type, h1, h2⟩ := h
  simp only [List.length_cons, List.length_append, h1.1, h2.1]
  omega

theorem Spec.IsItems.length {p : Bytes} {xs : List Ext} (h : IsItems p xs) :
    p.length = (xs.map fun x => 5 + x.value.length).sum := by
  induction h with
  | nil => rfl
  | cons h1 _ ih => simp [List.length_append, h1.length, ih]

theorem Spec.IsItems.append {p q : Bytes} {xs ys : List Ext} (h : IsItems p xs) (h' : IsItems q ys) :
    IsItems (p ++ q) (xs ++ ys) := by
  induction h with
  | nil => simpa using h'
  | cons h1 _ ih => rw [List.append_assoc]; exact .cons h1 ih

theorem Spec.IsItems.snoc {p q : Bytes} {xs : List Ext} {x : Ext} (h : IsItems p xs) (h' : IsItem q x) :
    IsItems (p ++ q) (xs ++ [x]) := by
  have := h.append (IsItems.cons h' .nil)
  simpa using this

theorem goes_item {p : Bytes} {x : Ext} (h : IsItem p x) (o : Owner) (total count : Nat) (items left : List Ext)
    (hc : count + p.length ≤ total) (ht : total < 2 ^ 32) :
    Goes lim ⟨.itemFlags o total count items, left⟩ p (afterItem o total (count + p.length) (items ++ [x]) left).2
      (afterItem o total (count + p.length) (items ++ [x]) left).1 := by
  have hlen := IsItem.length h
  obtain ⟨fl, t, l, value, type, h1, h2⟩ := h
  generalize hp : (fl :: (t ++ (l ++ value))).length = n at *
  have g1 : Goes lim ⟨.itemFlags o total count items, left⟩ [fl] [] ⟨.itemType o total count items fl [], left⟩ :=
    Goes.one rfl
  have g2 := goes_num (lim := lim) (ph := fun t => ⟨.itemType o total count items fl t, left⟩)
    (done := fun t => (⟨.itemLen o total count items fl t [], left⟩, [])) (fun _ _ => rfl) (by decide) h1
  have g3 := goes_num (lim := lim) (ph := fun tmp => ⟨.itemLen o total count items fl type tmp, left⟩)
    (done := fun n => startItem o total count items fl type n left) (fun _ _ => rfl) (by decide) h2
  have e1 : (count + (5 + value.length)) % 2 ^ 32 = count + n := by
    simp only at hlen
    rw [← hlen]
    exact Nat.mod_eq_of_lt (by omega)
  simp only [startItem, e1] at g3
  rw [if_neg (by omega)] at g3
  by_cases hv : value = []
  · subst hv
    rw [if_neg (by simp)] at g3
    have := g1.append (g2.append g3)
    simpa using this
  · rw [if_pos (by simpa using hv)] at g3
    have g4 := goes_bytes (lim := lim) (p := fun got => ⟨.item o total (count + n) items fl type value.length got, left⟩)
      (f := fun got => afterItem o total (count + n) (items ++ [⟨fl, type, got⟩]) left)
      (step_item o total (count + n) items fl type value.length left) value [] hv (by simp)
    have := g1.append (g2.append (g3.append g4))
    simpa using this

theorem goes_items {p : Bytes} {xs : List Ext} (h : IsItems p xs) (o : Owner) (total : Nat) (left : List Ext)
    (ht : total < 2 ^ 32) : ∀ (count : Nat) (items : List Ext), xs ≠ [] → count + p.length = total →
    Goes lim ⟨.itemFlags o total count items, left⟩ p (afterItem o total total (items ++ xs) left).2
      (afterItem o total total (items ++ xs) left).1 := by
  induction h with
  | nil => intro _ _ h; exact absurd rfl h
  | @cons q qs x xs h1 h2 ih =>
    intro count items _ hc
    simp only [List.length_append] at hc
    have g1 := goes_item (lim := lim) h1 o total count items left (by omega) ht
    by_cases hx : xs = []
    · subst hx
      cases h2
      simp only [List.length_nil, Nat.add_zero] at hc
      rw [hc] at g1
      simpa using g1
    · have hne : count + q.length ≠ total := by
        have h3 := IsItems.length h2
        cases xs with
        | nil => exact absurd rfl hx
        | cons y ys => simp only [List.map_cons, List.sum_cons] at h3; omega
      have e : afterItem o total (count + q.length) (items ++ [x]) left =
          (⟨.itemFlags o total (count + q.length) (items ++ [x]), left⟩, []) := by
        unfold afterItem; rw [if_neg hne]
      rw [e] at g1
      have g2 := ih (count + q.length) (items ++ [x]) hx (by omega)
      have := g1.append g2
      simpa using this

theorem beValue_lt32 {p : Bytes} {n : Nat} (h : IsNum 4 p n) : n < 2 ^ 32 := by
  have := beValue_lt p
  rw [h.1, h.2] at this
  exact this

/-! ### Messages -/

theorem goes_contact {w : Bytes} {e : Event} (h : IsContact w e) (left : List Ext) :
    Goes lim ⟨.sync1, left⟩ w [e] ⟨.msg, left⟩ := by
  obtain ⟨f⟩ := h
  have h1 : Goes lim ⟨.sync1, left⟩ [0x64, 0x74, 0x6e, 0x21, 4] [] ⟨.flags, left⟩ := by
    simp [Goes, slow, step]
  have h2 : Goes lim ⟨.flags, left⟩ [f] [.contact (f.toNat.testBit 0)] ⟨.msg, left⟩ := by
    rw [← flag_eq]; exact Goes.one rfl
  exact h1.append h2

theorem goes_type (t : UInt8) (p : Phase) (es : List Event) (left : List Ext) (h : typeByte t = (p, es)) :
    Goes lim ⟨.msg, left⟩ [t] es ⟨p, left⟩ := by
  apply Goes.one
  simp only [step, h]

/-- A segment up to its length. -/
theorem goes_segHead {h : Bytes} {s e : Bool} {id : Nat} {xs : List Ext} (hh : IsSegHead Exact h s e id xs) :
    Goes lim ⟨.msg, []⟩ h [] ⟨.segLen s e id [], xs⟩ := by
  have h0 : Goes lim ⟨.msg, []⟩ [1] [] ⟨.segFlags, []⟩ := goes_type 1 _ _ _ rfl
  cases hh with
  | first fl p q _ _ hf h1 h2 =>
    obtain ⟨n, p4, items, xs, h3, h4, h5⟩ := h2
    have g1 : Goes lim ⟨.segFlags, []⟩ [fl] [] ⟨.segId true (fl.toNat.testBit 0) [], []⟩ := by
      apply Goes.one
      simp only [step, (flags_eq fl).1, (flags_eq fl).2, hf]
    have g2 := goes_num (lim := lim) (reads_segId true (fl.toNat.testBit 0) []) (by decide) h1
    have g3 := goes_num (lim := lim) (reads_segExtLen true (fl.toNat.testBit 0) id []) (by decide) h3
    simp only [startItems] at g3
    have hl : n = items.length := h5
    by_cases hx : xs = []
    · subst hx
      cases h4
      rw [if_neg (by simp [hl])] at g3
      have := h0.append (g1.append (g2.append g3))
      simpa using this
    · have hn : n ≠ 0 := by
        have h6 := IsItems.length h4
        cases xs with
        | nil => exact absurd rfl hx
        | cons y ys => simp only [List.map_cons, List.sum_cons] at h6; omega
      rw [if_pos hn] at g3
      have g4 := goes_items (lim := lim) h4 (.xfer true (fl.toNat.testBit 0) id) n [] (beValue_lt32 h3) 0 [] hx (by omega)
      simp only [afterItem, if_true, List.nil_append] at g4
      have := h0.append (g1.append (g2.append (g3.append g4)))
      simpa using this
  | later fl p _ hf h1 =>
    have g1 : Goes lim ⟨.segFlags, []⟩ [fl] [] ⟨.segId false (fl.toNat.testBit 0) [], []⟩ := by
      apply Goes.one
      simp only [step, (flags_eq fl).1, (flags_eq fl).2, hf]
    have g2 := goes_num (lim := lim) (reads_segId false (fl.toNat.testBit 0) []) (by decide) h1
    exact h0.append (g1.append g2)

theorem goes_message {w : Bytes} {e : Event} (h : IsMessage Exact w e) (hf : Fits lim e) :
    Goes lim ⟨.msg, []⟩ w [e] ⟨.msg, []⟩ := by
  cases h with
  | data h p c s e id xs h1 h2 =>
    have g1 := goes_segHead (lim := lim) h1
    have g2 := goes_num (lim := lim) (reads_segLen s e id xs) (by decide) h2
    have hc : ¬ (lim < c.length ∨ c.length = 0) := by
      have h3 := hf.1
      have h4 := hf.2
      have : c.length ≠ 0 := by simpa using h3
      omega
    simp only [startContents, if_neg hc] at g2
    have g3 := goes_bytes (lim := lim) (p := fun got => ⟨.seg s e id c.length got, xs⟩)
      (f := fun got => (⟨.msg, []⟩, [.data got s e id xs])) (step_seg s e id c.length xs) c [] hf.1 (by simp)
    exact g1.append (g2.append g3)
  | ack fl p q id n h1 h2 =>
    have g0 : Goes lim ⟨.msg, []⟩ [2] [] ⟨.ackFlags, []⟩ := goes_type 2 _ _ _ rfl
    have g1 : Goes lim ⟨.ackFlags, []⟩ [fl] [] ⟨.ackId (fl.toNat.testBit 1) (fl.toNat.testBit 0) [], []⟩ := by
      apply Goes.one
      simp only [step, (flags_eq fl).1, (flags_eq fl).2]
    have g2 := goes_num (lim := lim) (reads_ackId (fl.toNat.testBit 1) (fl.toNat.testBit 0) []) (by decide) h1
    have g3 := goes_num (lim := lim) (reads_ackLen (fl.toNat.testBit 1) (fl.toNat.testBit 0) id []) (by decide) h2
    exact g0.append (g1.append (g2.append g3))
  | refusal reason p id h1 =>
    have g0 : Goes lim ⟨.msg, []⟩ [3] [] ⟨.refuseReason, []⟩ := goes_type 3 _ _ _ rfl
    have g1 : Goes lim ⟨.refuseReason, []⟩ [reason] [] ⟨.refuseId reason [], []⟩ := Goes.one rfl
    have g2 := goes_num (lim := lim) (ph := fun t => ⟨.refuseId reason t, []⟩)
      (done := fun id => (⟨.msg, []⟩, [.refusal reason id])) (fun _ _ => rfl) (by decide) h1
    exact g0.append (g1.append g2)
  | keepAlive => exact goes_type 4 _ _ _ rfl
  | term fl reason =>
    have g0 : Goes lim ⟨.msg, []⟩ [5] [] ⟨.termFlags, []⟩ := goes_type 5 _ _ _ rfl
    have g1 : Goes lim ⟨.termFlags, []⟩ [fl] [] ⟨.termReason (fl.toNat.testBit 0), []⟩ := by
      apply Goes.one
      simp only [step, flag_eq]
    have g2 : Goes lim ⟨.termReason (fl.toNat.testBit 0), []⟩ [reason] [.term reason (fl.toNat.testBit 0)] ⟨.msg, []⟩ :=
      Goes.one rfl
    exact g0.append (g1.append g2)
  | reject reason header =>
    have g0 : Goes lim ⟨.msg, []⟩ [6] [] ⟨.rejectReason, []⟩ := goes_type 6 _ _ _ rfl
    have g1 : Goes lim ⟨.rejectReason, []⟩ [reason] [] ⟨.rejectHeader reason, []⟩ := Goes.one rfl
    have g2 : Goes lim ⟨.rejectHeader reason, []⟩ [header] [.reject reason header] ⟨.msg, []⟩ := Goes.one rfl
    exact g0.append (g1.append g2)
  | init h q node k m x xs h1 h2 =>
    obtain ⟨a, b, c, l, node, k, m, x, ha, hb, hc, hl⟩ := h1
    obtain ⟨n, p4, items, xs, h3, h4, h5⟩ := h2
    have g0 : Goes lim ⟨.msg, []⟩ [7] [] ⟨.initKeep [], []⟩ := goes_type 7 _ _ _ rfl
    have g1 := goes_num (lim := lim) (ph := fun t => ⟨.initKeep t, []⟩)
      (done := fun k => (⟨.initSeg k [], []⟩, [])) (fun _ _ => rfl) (by decide) ha
    have g2 := goes_num (lim := lim) (ph := fun t => ⟨.initSeg k t, []⟩)
      (done := fun m => (⟨.initXfer k m [], []⟩, [])) (fun _ _ => rfl) (by decide) hb
    have g3 := goes_num (lim := lim) (ph := fun t => ⟨.initXfer k m t, []⟩)
      (done := fun x => (⟨.initNodeLen k m x [], []⟩, [])) (fun _ _ => rfl) (by decide) hc
    have g4 := goes_num (lim := lim) (ph := fun t => ⟨.initNodeLen k m x t, []⟩)
      (done := fun n => (⟨.initNode k m x n [], []⟩, [])) (fun _ _ => rfl) (by decide) hl
    have g5 := goes_bytes (lim := lim) (p := fun got => ⟨.initNode k m x node.length got, []⟩)
      (f := fun got => (⟨.initExtLen k m x got [], []⟩, [])) (len := node.length) (fun _ _ => rfl) node [] hf (by simp)
    have g6 := goes_num (lim := lim) (ph := fun t => ⟨.initExtLen k m x node t, []⟩)
      (done := fun n => if n ≠ 0 then (⟨.itemFlags (.init k m x node) n 0 [], []⟩, [])
        else (⟨.msg, []⟩, [.init k m x node []])) (fun _ _ => rfl) (by decide) h3
    have gs := g0.append (g1.append (g2.append (g3.append (g4.append g5))))
    have hl' : n = items.length := h5
    by_cases hx : xs = []
    · subst hx
      cases h4
      rw [if_neg (by simp [hl'])] at g6
      have := gs.append g6
      simpa using this
    · have hn : n ≠ 0 := by
        have h6 := IsItems.length h4
        cases xs with
        | nil => exact absurd rfl hx
        | cons y ys => simp only [List.map_cons, List.sum_cons] at h6; omega
      rw [if_pos hn] at g6
      have g7 := goes_items (lim := lim) h4 (.init k m x node) n [] (beValue_lt32 h3) 0 [] hx (by omega)
      simp only [afterItem, if_true, List.nil_append] at g7
      have := gs.append (g6.append g7)
      simpa using this

theorem goes_messages {w : Bytes} {es : List Event} (h : IsMessages w es) (hf : ∀ e ∈ es, Fits lim e) :
    Goes lim ⟨.msg, []⟩ w es ⟨.msg, []⟩ := by
  induction h with
  | nil => exact .nil _
  | @cons w ws e es h1 _ ih =>
    exact (goes_message h1 (hf e (by simp))).append (ih fun x hx => hf x (by simp [hx]))

theorem goes_conforms {w : Bytes} {es : List Event} (h : Conforms w es) (hf : ∀ e ∈ es, Fits lim e) :
    Goes lim start w es ⟨.msg, []⟩ := by
  obtain ⟨h1, h2⟩ := h
  exact (goes_contact (lim := lim) h1 []).append (goes_messages h2 fun x hx => hf x (by simp [hx]))

/-- The length of a segment is refused. -/
theorem goes_refused {h p : Bytes} {s e : Bool} {id n : Nat} {xs : List Ext} (hh : IsSegHead Exact h s e id xs)
    (hp : IsNum 8 p n) (hn : n = 0 ∨ lim < n) : Goes lim ⟨.msg, []⟩ (h ++ p) [] ⟨.sync1, xs⟩ := by
  have g1 := goes_segHead (lim := lim) hh
  have g2 := goes_num (lim := lim) (reads_segLen s e id xs) (by decide) hp
  simp only [startContents] at g2
  rw [if_pos (by omega)] at g2
  exact g1.append g2

/-! ### The generators -/

theorem isNum_toBe (n v : Nat) (h : v < 256 ^ n) : IsNum n (toBe n v) v :=
  ⟨toBe_length n v, by rw [beValue_toBe, Nat.mod_eq_of_lt h]⟩

theorem isItem_ser (x : Ext) (h : x.type < 2 ^ 16 ∧ x.value.length < 2 ^ 16) : IsItem (serializeExt x) x :=
  .mk x.flags _ _ x.value x.type (isNum_toBe 2 _ h.1) (isNum_toBe 2 _ h.2)

theorem isItems_ser (xs : List Ext) (h : ∀ x ∈ xs, x.type < 2 ^ 16 ∧ x.value.length < 2 ^ 16) :
    IsItems (serializeExts xs) xs := by
  induction xs with
  | nil => exact .nil
  | cons x xs ih => exact .cons (isItem_ser x (h x (by simp))) (ih fun y hy => h y (by simp [hy]))

theorem extsSize_eq (xs : List Ext) : extsSize xs = (xs.map fun x => 5 + x.value.length).sum := by
  unfold extsSize
  induction xs with
  | nil => rfl
  | cons x xs ih => simp only [List.length_cons, List.map_cons, List.sum_cons, ← ih]; omega

theorem isExts_ser (xs : List Ext) (h : ExtsFit xs) : IsExts Exact (toBe 4 (extsSize xs) ++ serializeExts xs) xs := by
  have h1 := isItems_ser xs h.1
  refine .mk (extsSize xs) _ _ xs (isNum_toBe 4 _ ?_) h1 ?_
  · rw [extsSize_eq]; exact h.2
  · show extsSize xs = _
    rw [IsItems.length h1, extsSize_eq]

theorem flagByte (s e : Bool) : (((if s then 2 else 0) ||| if e then 1 else 0 : UInt8)).toNat.testBit 1 = s ∧
    (((if s then 2 else 0) ||| if e then 1 else 0 : UInt8)).toNat.testBit 0 = e := by
  cases s <;> cases e <;> decide

theorem oneFlag (e : Bool) : ((if e then 1 else 0 : UInt8)).toNat.testBit 1 = false ∧
    ((if e then 1 else 0 : UInt8)).toNat.testBit 0 = e := by
  cases e <;> decide

theorem isContact_gen (tls : Bool) : IsContact (genContact tls) (.contact tls) := by
  have h := IsContact.mk (if tls then 1 else 0)
  rw [(oneFlag tls).2] at h
  exact h

theorem isMessage_start (e : Bool) (id : Nat) (c : Bytes) (xs : List Ext) (hl : c.length < 2 ^ 64) (hi : id < 2 ^ 64)
    (hx : ExtsFit xs) : IsMessage Exact (genStart e id c xs) (.data c true e id xs) := by
  have hf := flagByte true e
  simp only [if_true] at hf
  have h1 := IsSegHead.first (ann := Exact) (2 ||| if e then 1 else 0) _ _ id xs hf.1 (isNum_toBe 8 _ hi) (isExts_ser xs hx)
  rw [hf.2] at h1
  have h2 := IsMessage.data _ _ c true e id xs h1 (isNum_toBe 8 _ hl)
  unfold genStart
  simpa using h2

theorem isMessage_next (e : Bool) (id : Nat) (c : Bytes) (hl : c.length < 2 ^ 64) (hi : id < 2 ^ 64) :
    IsMessage Exact (genNext e id c) (.data c false e id []) := by
  have hf := oneFlag e
  have h1 := IsSegHead.later (ann := Exact) (if e then 1 else 0) _ id hf.1 (isNum_toBe 8 _ hi)
  rw [hf.2] at h1
  have h2 := IsMessage.data _ _ c false e id [] h1 (isNum_toBe 8 _ hl)
  unfold genNext
  simpa using h2

theorem isMessage_init (k m x : Nat) (node : Bytes) (xs : List Ext) (hk : k < 2 ^ 16) (hm : m < 2 ^ 64) (hx : x < 2 ^ 64)
    (hn : node.length < 2 ^ 16) (he : ExtsFit xs) : IsMessage Exact (genInit k m x node xs) (.init k m x node xs) := by
  have h1 := IsInitHead.mk _ _ _ _ node k m x (isNum_toBe 2 _ hk) (isNum_toBe 8 _ hm) (isNum_toBe 8 _ hx)
    (isNum_toBe 2 _ hn)
  have h2 := IsMessage.init _ _ node k m x xs h1 (isExts_ser xs he)
  unfold genInit
  rw [Nat.mod_eq_of_lt hn, List.take_length]
  simpa using h2

/-- The messages that the generators write have the format of the protocol. -/
theorem isMessage_generate (e : Event) (h : Sendable e) (ho : opens e = false) : IsMessage Exact (generate e) e := by
  cases e with
  | contact t => simp [opens] at ho
  | init k m x node xs => exact isMessage_init k m x node xs h.1 h.2.1 h.2.2.1 h.2.2.2.1 h.2.2.2.2
  | data c s e id xs =>
    cases s with
    | true => exact isMessage_start e id c xs h.1 h.2.1 h.2.2.1
    | false =>
      rw [h.2.2.2 rfl]
      exact isMessage_next e id c h.1 h.2.1
  | ack s e id n =>
    have hf := flagByte s e
    have h1 := IsMessage.ack (ann := Exact) ((if s then 2 else 0) ||| if e then 1 else 0) _ _ id n (isNum_toBe 8 _ h.1)
      (isNum_toBe 8 _ h.2)
    rw [hf.1, hf.2] at h1
    exact h1
  | refusal r id => exact .refusal r _ id (isNum_toBe 8 _ h)
  | reject r hd => exact .reject r hd
  | keepAlive => exact .keepAlive
  | term r a =>
    have h1 := IsMessage.term (ann := Exact) (if a then 1 else 0) r
    rw [(oneFlag a).2] at h1
    exact h1

theorem isMessages_generate (es : List Event) (h : ∀ e ∈ es, Sendable e ∧ opens e = false) :
    IsMessages (es.flatMap generate) es := by
  induction es with
  | nil => exact .nil
  | cons e es ih =>
    rw [List.flatMap_cons]
    exact .cons (isMessage_generate e (h e (by simp)).1 (h e (by simp)).2) (ih fun x hx => h x (by simp [hx]))

theorem conforms_generate (tls : Bool) (es : List Event) (h : ∀ e ∈ es, Sendable e ∧ opens e = false) :
    Conforms (genContact tls ++ es.flatMap generate) (.contact tls :: es) :=
  .mk (isContact_gen tls) (isMessages_generate es h)

end Hdtn.TcpclV4
