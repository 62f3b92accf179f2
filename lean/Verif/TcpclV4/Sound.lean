import Verif.TcpclV4.Complete

/-! Whatever is reported was sent: an invariant of the parser for all streams. -/

namespace Hdtn.TcpclV4

open Spec

variable {lim : Nat}

/-- The states after a contact header. -/
def isUp : Phase → Bool
  | .sync1 | .sync2 | .sync3 | .sync4 | .version | .flags => false
  | _ => true

/-- The bytes of a message before its extension items. -/
def OwnerHead (x : Bytes) : Owner → Prop
  | .xfer s e id => ∃ (fl : UInt8) (p : Bytes), s = true ∧ fl.toNat.testBit 1 = true ∧ e = fl.toNat.testBit 0 ∧
    IsNum 8 p id ∧ x = 1 :: fl :: p
  | .init k m xm node => IsInitHead x k m xm node

/-- The bytes of a message and of some of its items. -/
def ItemsSoFar (x : Bytes) (o : Owner) (total count : Nat) (items : List Ext) : Prop :=
  ∃ h p its : Bytes, OwnerHead h o ∧ IsNum 4 p total ∧ IsItems its items ∧ count = its.length % 2 ^ 32 ∧
    x = h ++ (p ++ its)

/-- The bytes `x` since the last message are what the state says. -/
def Holds (x : Bytes) (r : Rx) : Prop :=
  match r.phase with
  | .sync1 => x = []
  | .sync2 => x = [0x64]
  | .sync3 => x = [0x64, 0x74]
  | .sync4 => x = [0x64, 0x74, 0x6e]
  | .version => x = [0x64, 0x74, 0x6e, 0x21]
  | .flags => x = [0x64, 0x74, 0x6e, 0x21, 4]
  | .msg => x = []
  | .segFlags => x = [1]
  | .segId s e tmp => ∃ fl : UInt8, s = fl.toNat.testBit 1 ∧ e = fl.toNat.testBit 0 ∧ x = 1 :: fl :: tmp
  | .segExtLen s e id tmp => ∃ h, OwnerHead h (.xfer s e id) ∧ x = h ++ tmp
  | .segLen s e id tmp => ∃ h xs, IsSegHead Modulo h s e id xs ∧ (s = true → r.left = xs) ∧ x = h ++ tmp
  | .seg s e id len got => ∃ h xs p, IsSegHead Modulo h s e id xs ∧ (s = true → r.left = xs) ∧ IsNum 8 p len ∧
    x = h ++ (p ++ got)
  | .itemFlags o total count items => ItemsSoFar x o total count items
  | .itemType o total count items fl tmp => ∃ y, ItemsSoFar y o total count items ∧ x = y ++ fl :: tmp
  | .itemLen o total count items fl t tmp => ∃ y p, ItemsSoFar y o total count items ∧ IsNum 2 p t ∧
    x = y ++ fl :: (p ++ tmp)
  | .item o total count items fl t len got => ∃ y p q count', ItemsSoFar y o total count' items ∧ IsNum 2 p t ∧
    IsNum 2 q len ∧ count = (count' + (5 + len)) % 2 ^ 32 ∧ x = y ++ fl :: (p ++ (q ++ got))
  | .ackFlags => x = [2]
  | .ackId s e tmp => ∃ fl : UInt8, s = fl.toNat.testBit 1 ∧ e = fl.toNat.testBit 0 ∧ x = 2 :: fl :: tmp
  | .ackLen s e id tmp => ∃ (fl : UInt8) (p : Bytes), s = fl.toNat.testBit 1 ∧ e = fl.toNat.testBit 0 ∧ IsNum 8 p id ∧
    x = 2 :: fl :: (p ++ tmp)
  | .rejectReason => x = [6]
  | .rejectHeader reason => x = [6, reason]
  | .refuseReason => x = [3]
  | .refuseId reason tmp => x = 3 :: reason :: tmp
  | .termFlags => x = [5]
  | .termReason isAck => ∃ fl : UInt8, isAck = fl.toNat.testBit 0 ∧ x = [5, fl]
  | .initKeep tmp => x = 7 :: tmp
  | .initSeg k tmp => ∃ a, IsNum 2 a k ∧ x = 7 :: (a ++ tmp)
  | .initXfer k m tmp => ∃ a b, IsNum 2 a k ∧ IsNum 8 b m ∧ x = 7 :: (a ++ (b ++ tmp))
  | .initNodeLen k m xm tmp => ∃ a b c, IsNum 2 a k ∧ IsNum 8 b m ∧ IsNum 8 c xm ∧ x = 7 :: (a ++ (b ++ (c ++ tmp)))
  | .initNode k m xm len got => ∃ a b c l, IsNum 2 a k ∧ IsNum 8 b m ∧ IsNum 8 c xm ∧ IsNum 2 l len ∧
    x = 7 :: (a ++ (b ++ (c ++ (l ++ got))))
  | .initExtLen k m xm node tmp => ∃ h, IsInitHead h k m xm node ∧ x = h ++ tmp

/-- All bytes so far explain the events so far and the state. -/
def Inv (c : Bytes) (es : List Event) (r : Rx) : Prop :=
  ∃ w x, c = w ++ x ∧ Explains w es (isUp r.phase) ∧ Holds x r

theorem Inv.drop {c : Bytes} {es : List Event} {r q : Rx} (h : Inv c es r) (y x : Bytes) (hq : isUp q.phase = false)
    (hx : Holds x q) : Inv (c ++ y ++ x) es q := by
  obtain ⟨w, z, rfl, h1, h2⟩ := h
  refine ⟨w ++ z ++ y, x, rfl, ?_, hx⟩
  rw [hq, List.append_assoc]
  exact h1.drop

theorem Inv.lost {c : Bytes} {es : List Event} {r : Rx} (h : Inv c es r) (b : UInt8) (left : List Ext) :
    Inv (c ++ [b]) (es ++ []) ⟨.sync1, left⟩ := by
  simpa using h.drop [b] [] (q := ⟨.sync1, left⟩) rfl rfl

theorem Inv.resync {c : Bytes} {es : List Event} {r : Rx} (h : Inv c es r) (b : UInt8) (left : List Ext) :
    Inv (c ++ [b]) (es ++ []) ⟨resync b, left⟩ := by
  unfold TcpclV4.resync
  split
  · rename_i hb
    subst hb
    simpa using h.drop [] [0x64] (q := ⟨.sync2, left⟩) rfl rfl
  · exact h.lost b _

theorem inv_field {c : Bytes} {es : List Event} {n : Nat} {tmp : Bytes} {b : UInt8} {more : Bytes → Rx}
    {done : Nat → Rx × List Event} (hm : Inv (c ++ [b]) (es ++ []) (more (tmp ++ [b])))
    (hd : ∀ v, IsNum n (tmp ++ [b]) v → Inv (c ++ [b]) (es ++ (done v).2) (done v).1) :
    Inv (c ++ [b]) (es ++ (field n tmp b more done).2) (field n tmp b more done).1 := by
  unfold field
  simp only
  split
  · rename_i hl
    exact hd _ ⟨hl, rfl⟩
  · exact hm

theorem inv_next {c w x : Bytes} {es : List Event} {q : Rx} {b : UInt8} (hc : c = w ++ x)
    (h1 : Explains w es (isUp q.phase)) (h2 : Holds (x ++ [b]) q) : Inv (c ++ [b]) (es ++ []) q :=
  ⟨w, x ++ [b], by rw [hc, List.append_assoc], by simpa using h1, h2⟩

theorem inv_message {c w x : Bytes} {es : List Event} {left : List Ext} {b : UInt8} {e e' : Event} (hc : c = w ++ x)
    (h1 : Explains w es true) (h2 : IsMessage Modulo (x ++ [b]) e') (hr : Reported e e') :
    Inv (c ++ [b]) (es ++ [e]) ⟨.msg, left⟩ :=
  ⟨w ++ (x ++ [b]), [], by rw [hc]; simp, h1.message h2 hr, rfl⟩

theorem inv_typeByte {c : Bytes} {es : List Event} {b : UInt8} {left : List Ext} (h : Explains c es true) :
    Inv (c ++ [b]) (es ++ (typeByte b).2) ⟨(typeByte b).1, left⟩ := by
  have hc : c = c ++ [] := by simp
  have hb : ∀ k : Nat, b.toNat = k → b = UInt8.ofNat k := by
    intro k hk; rw [← hk, UInt8.ofNat_toNat]
  unfold typeByte
  split
  · rename_i ht; exact inv_next hc h (by rw [hb _ ht]; rfl)
  · rename_i ht; exact inv_next hc h (by rw [hb _ ht]; rfl)
  · rename_i ht; exact inv_next hc h (by rw [hb _ ht]; rfl)
  · rename_i ht; exact inv_message hc h (by rw [hb _ ht]; exact .keepAlive) (.same _)
  · rename_i ht; exact inv_next hc h (by rw [hb _ ht]; rfl)
  · rename_i ht; exact inv_next hc h (by rw [hb _ ht]; rfl)
  · rename_i ht; exact inv_next hc h (by rw [hb _ ht]; rfl)
  · rename_i h1 h2 h3 h4 h5 h6 h7
    refine ⟨c ++ [b], [], by simp, ?_, rfl⟩
    simp only [List.append_nil]
    refine h.unknown ?_
    have g1 : b.toNat ≠ 1 := h1
    have g2 : b.toNat ≠ 2 := h2
    have g3 : b.toNat ≠ 3 := h3
    have g4 : b.toNat ≠ 4 := h4
    have g5 : b.toNat ≠ 5 := h5
    have g6 : b.toNat ≠ 6 := h6
    have g7 : b.toNat ≠ 7 := h7
    omega

/-- The head of a segment with its items. -/
theorem segHead_items {h q : Bytes} {s e : Bool} {id : Nat} {xs : List Ext} (h1 : OwnerHead h (.xfer s e id))
    (h2 : IsExts Modulo q xs) : IsSegHead Modulo (h ++ q) s e id xs := by
  obtain ⟨fl, p, rfl, hf, rfl, hp, rfl⟩ := h1
  exact .first fl p q id xs hf hp h2

theorem inv_afterItem {c w x : Bytes} {es : List Event} {o : Owner} {total count : Nat} {items left : List Ext}
    {b : UInt8} (hc : c = w ++ x) (h1 : Explains w es true) (h2 : ItemsSoFar (x ++ [b]) o total count items) :
    Inv (c ++ [b]) (es ++ (afterItem o total count items left).2) (afterItem o total count items left).1 := by
  unfold afterItem
  split
  · rename_i ht
    obtain ⟨h, p, its, g1, g2, g3, g4, g5⟩ := h2
    have g6 : IsExts Modulo (p ++ its) items := .mk total p its items g2 g3 (by rw [← ht]; exact g4)
    cases o with
    | xfer s e id =>
      refine inv_next hc h1 ?_
      exact ⟨x ++ [b], items, by rw [g5]; exact segHead_items g1 g6, fun _ => rfl, by simp⟩
    | init k m xm node =>
      refine inv_message hc h1 ?_ (.same _)
      rw [g5]
      exact .init h _ node k m xm items g1 g6
  · exact inv_next hc h1 h2

theorem itemsSoFar_snoc {y : Bytes} {o : Owner} {total count : Nat} {items : List Ext} (h : ItemsSoFar y o total count items)
    {fl : UInt8} {p q v : Bytes} {t : Nat} (hp : IsNum 2 p t) (hq : IsNum 2 q v.length) :
    ItemsSoFar (y ++ fl :: (p ++ (q ++ v))) o total ((count + (5 + v.length)) % 2 ^ 32) (items ++ [⟨fl, t, v⟩]) := by
  obtain ⟨hd, n, its, g1, g2, g3, g4, g5⟩ := h
  have hi : IsItem (fl :: (p ++ (q ++ v))) ⟨fl, t, v⟩ := .mk fl p q v t hp hq
  refine ⟨hd, n, its ++ (fl :: (p ++ (q ++ v))), g1, g2, g3.snoc hi, ?_, by rw [g5]; simp⟩
  rw [List.length_append, hi.length, g4]
  simp only
  omega

theorem inv_step {c : Bytes} {es : List Event} {r : Rx} (h : Inv c es r) (b : UInt8) :
    Inv (c ++ [b]) (es ++ (step lim r b).2) (step lim r b).1 := by
  have h0 := h
  obtain ⟨w, x, hc, h1, h2⟩ := h
  obtain ⟨p, left⟩ := r
  cases p
  case sync1 =>
    simp only [step]
    split
    · rename_i hb
      exact inv_next hc h1 (by rw [show x = [] from h2, hb]; rfl)
    · exact h0.lost b _
  case sync2 =>
    simp only [step]
    split
    · rename_i hb
      exact inv_next hc h1 (by rw [show x = _ from h2, hb]; rfl)
    · exact h0.resync b _
  case sync3 =>
    simp only [step]
    split
    · rename_i hb
      exact inv_next hc h1 (by rw [show x = _ from h2, hb]; rfl)
    · exact h0.resync b _
  case sync4 =>
    simp only [step]
    split
    · rename_i hb
      exact inv_next hc h1 (by rw [show x = _ from h2, hb]; rfl)
    · exact h0.resync b _
  case version =>
    simp only [step]
    split
    · rename_i hb
      exact inv_next hc h1 (by rw [show x = _ from h2, hb]; rfl)
    · exact h0.resync b _
  case flags =>
    refine ⟨w ++ (x ++ [b]), [], by rw [hc]; simp, h1.contact ?_, rfl⟩
    rw [show x = _ from h2, flag_eq]
    exact .mk b
  case msg =>
    rw [show x = [] from h2, List.append_nil] at hc
    subst hc
    exact inv_typeByte h1
  case segFlags =>
    refine inv_next hc h1 ?_
    exact ⟨b, (flags_eq b).1, (flags_eq b).2, by rw [show x = _ from h2]; rfl⟩
  case segId s e tmp =>
    obtain ⟨fl, hs, he, hx⟩ := h2
    refine inv_field (inv_next hc h1 ⟨fl, hs, he, by rw [hx]; simp⟩) ?_
    intro v hv
    simp only
    cases s with
    | true => exact inv_next hc h1 ⟨x ++ [b], ⟨fl, _, rfl, hs.symm, he, hv, by rw [hx]; simp⟩, by simp⟩
    | false =>
      refine inv_next hc h1 ⟨x ++ [b], [], ?_, by simp, by simp⟩
      rw [hx, he]
      exact .later fl _ v hs.symm hv
  case segExtLen s e id tmp =>
    obtain ⟨hd, g1, hx⟩ := h2
    refine inv_field (inv_next hc h1 ⟨hd, g1, by rw [hx]; simp⟩) ?_
    intro v hv
    simp only [startItems]
    split
    · exact inv_next hc h1 ⟨hd, _, [], g1, hv, .nil, by simp, by rw [hx]; simp⟩
    · rename_i h0'
      have hz : v = 0 := by omega
      refine inv_next hc h1 ⟨x ++ [b], [], ?_, fun _ => rfl, by simp⟩
      have g2 : IsExts Modulo (tmp ++ [b] ++ []) [] := .mk v _ [] [] hv .nil (by rw [hz]; rfl)
      have g3 := segHead_items g1 g2
      rw [hx]
      simpa using g3
  case segLen s e id tmp =>
    obtain ⟨hd, xs, g1, g2, hx⟩ := h2
    refine inv_field (inv_next hc h1 ⟨hd, xs, g1, g2, by rw [hx]; simp⟩) ?_
    intro v hv
    simp only [startContents]
    split
    · exact h0.lost b _
    · exact inv_next hc h1 ⟨hd, xs, _, g1, g2, hv, by rw [hx]; simp⟩
  case seg s e id len got =>
    obtain ⟨hd, xs, q, g1, g2, g3, hx⟩ := h2
    simp only [step]
    split
    · rename_i hl
      have hm := IsMessage.data hd q (got ++ [b]) s e id xs g1 (by rw [hl]; exact g3)
      refine inv_message (e' := .data (got ++ [b]) s e id xs) hc h1 (by rw [hx]; simpa using hm) ?_
      cases s with
      | true => rw [show left = xs from g2 rfl]; exact .same _
      | false =>
        cases g1
        exact .stale _ _ _ _
    · exact inv_next hc h1 ⟨hd, xs, q, g1, g2, g3, by rw [hx]; simp⟩
  case itemFlags o total count items => exact inv_next hc h1 ⟨x, h2, rfl⟩
  case itemType o total count items fl tmp =>
    obtain ⟨y, g1, hx⟩ := h2
    refine inv_field (inv_next hc h1 ⟨y, g1, by rw [hx]; simp⟩) ?_
    intro v hv
    exact inv_next hc h1 ⟨y, _, g1, hv, by rw [hx]; simp⟩
  case itemLen o total count items fl t tmp =>
    obtain ⟨y, q, g1, g2, hx⟩ := h2
    refine inv_field (inv_next hc h1 ⟨y, q, g1, g2, by rw [hx]; simp⟩) ?_
    intro v hv
    simp only [startItem]
    split
    · cases o with
      | xfer => exact h0.lost b _
      | init => exact h0.lost b _
    · split
      · exact inv_next hc h1 ⟨y, q, _, count, g1, g2, hv, rfl, by rw [hx]; simp⟩
      · rename_i hz
        have hz' : v = 0 := by omega
        subst hz'
        refine inv_afterItem hc h1 ?_
        have := itemsSoFar_snoc (fl := fl) (v := []) g1 g2 hv
        rw [hx]
        simpa using this
  case item o total count items fl t len got =>
    obtain ⟨y, q, l, count', g1, g2, g3, g4, hx⟩ := h2
    simp only [step]
    split
    · rename_i hl
      refine inv_afterItem hc h1 ?_
      have := itemsSoFar_snoc (fl := fl) (v := got ++ [b]) g1 g2 (by rw [hl]; exact g3)
      rw [hx, g4, ← hl]
      simpa using this
    · exact inv_next hc h1 ⟨y, q, l, count', g1, g2, g3, g4, by rw [hx]; simp⟩
  case ackFlags =>
    refine inv_next hc h1 ?_
    exact ⟨b, (flags_eq b).1, (flags_eq b).2, by rw [show x = _ from h2]; rfl⟩
  case ackId s e tmp =>
    obtain ⟨fl, hs, he, hx⟩ := h2
    refine inv_field (inv_next hc h1 ⟨fl, hs, he, by rw [hx]; simp⟩) ?_
    intro v hv
    exact inv_next hc h1 ⟨fl, _, hs, he, hv, by rw [hx]; simp⟩
  case ackLen s e id tmp =>
    obtain ⟨fl, q, hs, he, hq, hx⟩ := h2
    refine inv_field (inv_next hc h1 ⟨fl, q, hs, he, hq, by rw [hx]; simp⟩) ?_
    intro v hv
    have hm := IsMessage.ack (ann := Modulo) fl q _ id v hq hv
    rw [← hs, ← he] at hm
    exact inv_message hc h1 (by rw [hx]; simpa using hm) (.same _)
  case rejectReason => exact inv_next hc h1 (by rw [show x = _ from h2]; rfl)
  case rejectHeader reason =>
    exact inv_message hc h1 (by rw [show x = _ from h2]; exact .reject reason b) (.same _)
  case refuseReason => exact inv_next hc h1 (by rw [show x = _ from h2]; rfl)
  case refuseId reason tmp =>
    have hx : x = _ := h2
    refine inv_field (inv_next hc h1 (by rw [hx]; rfl)) ?_
    intro v hv
    exact inv_message hc h1 (by rw [hx]; exact .refusal reason _ v hv) (.same _)
  case termFlags => exact inv_next hc h1 ⟨b, flag_eq b, by rw [show x = _ from h2]; rfl⟩
  case termReason isAck =>
    obtain ⟨fl, hf, hx⟩ := h2
    exact inv_message hc h1 (by rw [hx, hf]; exact .term fl b) (.same _)
  case initKeep tmp =>
    have hx : x = _ := h2
    refine inv_field (inv_next hc h1 (by rw [hx]; rfl)) ?_
    intro v hv
    exact inv_next hc h1 ⟨_, hv, by rw [hx]; simp⟩
  case initSeg k tmp =>
    obtain ⟨a, ha, hx⟩ := h2
    refine inv_field (inv_next hc h1 ⟨a, ha, by rw [hx]; simp⟩) ?_
    intro v hv
    exact inv_next hc h1 ⟨a, _, ha, hv, by rw [hx]; simp⟩
  case initXfer k m tmp =>
    obtain ⟨a, a', ha, hb, hx⟩ := h2
    refine inv_field (inv_next hc h1 ⟨a, a', ha, hb, by rw [hx]; simp⟩) ?_
    intro v hv
    exact inv_next hc h1 ⟨a, a', _, ha, hb, hv, by rw [hx]; simp⟩
  case initNodeLen k m xm tmp =>
    obtain ⟨a, a', a'', ha, hb, hc', hx⟩ := h2
    refine inv_field (inv_next hc h1 ⟨a, a', a'', ha, hb, hc', by rw [hx]; simp⟩) ?_
    intro v hv
    exact inv_next hc h1 ⟨a, a', a'', _, ha, hb, hc', hv, by rw [hx]; simp⟩
  case initNode k m xm len got =>
    obtain ⟨a, a', a'', l, ha, hb, hc', hl, hx⟩ := h2
    simp only [step]
    split
    · rename_i hlen
      refine inv_next hc h1 ⟨x ++ [b], ?_, by simp⟩
      have := IsInitHead.mk a a' a'' l (got ++ [b]) k m xm ha hb hc' (by rw [hlen]; exact hl)
      rw [hx]
      simpa using this
    · exact inv_next hc h1 ⟨a, a', a'', l, ha, hb, hc', hl, by rw [hx]; simp⟩
  case initExtLen k m xm node tmp =>
    obtain ⟨hd, g1, hx⟩ := h2
    refine inv_field (inv_next hc h1 ⟨hd, g1, by rw [hx]; simp⟩) ?_
    intro v hv
    simp only
    split
    · exact inv_next hc h1 ⟨hd, _, [], g1, hv, .nil, by simp, by rw [hx]; simp⟩
    · rename_i h0'
      have hz : v = 0 := by omega
      have g2 : IsExts Modulo (tmp ++ [b] ++ []) [] := .mk v _ [] [] hv .nil (by rw [hz]; rfl)
      have g3 := IsMessage.init hd _ node k m xm [] g1 g2
      exact inv_message hc h1 (by rw [hx]; simpa using g3) (.same _)

theorem inv_slow {c : Bytes} {es : List Event} {r : Rx} (h : Inv c es r) (w : Bytes) :
    Inv (c ++ w) (es ++ (slow lim r w).1) (slow lim r w).2 := by
  induction w generalizing c es r with
  | nil => simpa [slow] using h
  | cons b bs ih =>
    have := ih (inv_step (lim := lim) h b)
    simpa [slow] using this

theorem inv_start : Inv [] [] start := ⟨[], [], rfl, .nil, rfl⟩

/-! ### The limit -/

/-- Contents that are being read keep to the limit. -/
def Limited (lim : Nat) (r : Rx) : Prop := ∀ s e id len got, r.phase = .seg s e id len got → 0 < len ∧ len ≤ lim

/-- A reported data segment is not empty and keeps to the limit. -/
def WithinLimit (lim : Nat) (ev : Event) : Prop :=
  ∀ c s e id xs, ev = .data c s e id xs → c ≠ [] ∧ c.length ≤ lim

theorem limited_afterItem (o : Owner) (total count : Nat) (items left : List Ext) :
    Limited lim (afterItem o total count items left).1 ∧
      ∀ ev ∈ (afterItem o total count items left).2, WithinLimit lim ev := by
  unfold afterItem
  split
  · cases o <;> simp [Limited, WithinLimit]
  · simp [Limited]

theorem limited_field {n : Nat} {tmp : Bytes} {b : UInt8} {more : Bytes → Rx} {done : Nat → Rx × List Event}
    (hm : ∀ t, Limited lim (more t)) (hd : ∀ v, Limited lim (done v).1 ∧ ∀ e ∈ (done v).2, WithinLimit lim e) :
    Limited lim (field n tmp b more done).1 ∧ ∀ e ∈ (field n tmp b more done).2, WithinLimit lim e := by
  unfold field
  simp only
  split
  · exact hd _
  · exact ⟨hm _, by simp⟩

theorem limited_typeByte (b : UInt8) (left : List Ext) : Limited lim ⟨(typeByte b).1, left⟩ ∧
    ∀ e ∈ (typeByte b).2, WithinLimit lim e := by
  unfold typeByte
  split <;> simp [Limited, WithinLimit]

theorem limited_resync (b : UInt8) (left : List Ext) : Limited lim ⟨resync b, left⟩ := by
  unfold resync
  split <;> simp [Limited]

theorem limited_step {r : Rx} (h : Limited lim r) (b : UInt8) :
    Limited lim (step lim r b).1 ∧ ∀ e ∈ (step lim r b).2, WithinLimit lim e := by
  obtain ⟨p, left⟩ := r
  cases p
  case sync1 => simp only [step]; split <;> simp [Limited]
  case sync2 => simp only [step]; split <;> [simp [Limited]; exact ⟨limited_resync b _, by simp⟩]
  case sync3 => simp only [step]; split <;> [simp [Limited]; exact ⟨limited_resync b _, by simp⟩]
  case sync4 => simp only [step]; split <;> [simp [Limited]; exact ⟨limited_resync b _, by simp⟩]
  case version => simp only [step]; split <;> [simp [Limited]; exact ⟨limited_resync b _, by simp⟩]
  case msg => exact limited_typeByte b left
  case segId s e tmp =>
    refine limited_field (by simp [Limited]) fun v => ?_
    cases s <;> simp [Limited]
  case segExtLen s e id tmp =>
    refine limited_field (by simp [Limited]) fun v => ?_
    simp only [startItems]
    split <;> simp [Limited]
  case segLen s e id tmp =>
    refine limited_field (by simp [Limited]) fun v => ?_
    simp only [startContents]
    split
    · simp [Limited]
    · refine ⟨?_, by simp⟩
      intro s' e' id' len got hp
      simp only [Phase.seg.injEq] at hp
      omega
  case seg s e id len got =>
    simp only [step]
    split
    · rename_i hl
      refine ⟨by simp [Limited], ?_⟩
      intro ev hev c s' e' id' xs hc
      simp only [List.mem_singleton] at hev
      rw [hev] at hc
      simp only [Event.data.injEq] at hc
      have := h s e id len got rfl
      rw [← hc.1]
      exact ⟨by simp, by omega⟩
    · refine ⟨?_, by simp⟩
      intro s' e' id' len' got' hp
      simp only [Phase.seg.injEq] at hp
      have := h s e id len got rfl
      omega
  case itemLen o total count items fl t tmp =>
    refine limited_field (by simp [Limited]) fun v => ?_
    simp only [startItem]
    split
    · cases o <;> simp [Limited, overrun]
    · split
      · simp [Limited]
      · exact limited_afterItem _ _ _ _ _
  case item o total count items fl t len got =>
    simp only [step]
    split
    · exact limited_afterItem _ _ _ _ _
    · simp [Limited]
  case initNode k m xm len got =>
    simp only [step]
    split <;> simp [Limited]
  case initExtLen k m xm node tmp =>
    refine limited_field (by simp [Limited]) fun v => ?_
    simp only
    split <;> simp [Limited, WithinLimit]
  all_goals first
    | (refine limited_field (by simp [Limited]) fun v => ?_; simp [Limited, WithinLimit]; done)
    | (simp [step, Limited, WithinLimit]; done)

theorem limited_slow (w : Bytes) : ∀ {r : Rx}, Limited lim r →
    Limited lim (slow lim r w).2 ∧ ∀ e ∈ (slow lim r w).1, WithinLimit lim e := by
  induction w with
  | nil => intro r h; exact ⟨h, by simp [slow]⟩
  | cons b bs ih =>
    intro r h
    obtain ⟨h1, h2⟩ := limited_step h b
    obtain ⟨h3, h4⟩ := ih h1
    refine ⟨h3, ?_⟩
    intro e he
    simp only [slow, List.mem_append] at he
    rcases he with he | he
    · exact h2 e he
    · exact h4 e he

end Hdtn.TcpclV4
