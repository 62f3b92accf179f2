import Verif.BundleView7.Spec
import Verif.BpSec7.Props
import Verif.AdminRecord7.Props
import Verif.Bpv7Primary.Props

/-! Loading: what the two passes over the blocks find. -/

namespace Hdtn.BundleView7

open Hdtn.HashMap16 Hdtn.Bpv7Canonical Hdtn.Bpv7Canonical.Spec Hdtn.Bpv7Crc Hdtn.Bpv7Primary Hdtn.Bpv7Primary.Spec Hdtn.BpSec7
open Hdtn.BpSec7.Spec Spec

theorem obind_ok {α β : Type} {x : Out α} {f : α → Out β} {b : β} :
    x.bind f = .ok b ↔ ∃ a, x = .ok a ∧ f a = .ok b := by
  cases x <;> simp [Out.bind]

theorem obind_fault {α β : Type} {x : Out α} {f : α → Out β} :
    x.bind f = .fault ↔ x = .fault ∨ ∃ a, x = .ok a ∧ f a = .fault := by
  cases x <;> simp [Out.bind]

theorem ofOption_ok {α : Type} {x : Option α} {a : α} : ofOption x = .ok a ↔ x = some a := by
  cases x <;> simp [ofOption]

theorem ofOption_fault {α : Type} {x : Option α} : ofOption x ≠ .fault := by
  cases x <;> simp [ofOption]

theorem read_block_iff (skip : Bool) (buf rest : Bytes) (c : Canonical) :
    Bpv7Canonical.read skip buf = some (c, rest) ↔ ∃ raw, buf = raw ++ rest ∧ IsBlock skip raw c := by
  cases skip
  · rw [C37_decode_iff]
    constructor
    · rintro ⟨tag, raw, h, ht, hc⟩; exact ⟨raw, h, tag, ht, hc⟩
    · rintro ⟨raw, h, tag, ht, hc⟩; exact ⟨tag, raw, h, ht, hc⟩
  · rw [C37_decode_unchecked_iff]
    constructor
    · rintro ⟨tag, raw, h, ht, hc⟩; exact ⟨raw, h, tag, ht, hc⟩
    · rintro ⟨raw, h, tag, ht, hc⟩; exact ⟨tag, raw, h, ht, hc⟩

theorem isBody_parts {tag body : Bytes} {c : Canonical} (h : Bpv7Canonical.Spec.IsBody tag body c) :
    ∃ front, body = front ++ c.data := by
  obtain ⟨head, a, b, d, e, rfl, _⟩ := h
  exact ⟨_, rfl⟩

theorem isBlock_parts {skip : Bool} {raw : Bytes} {c : Canonical} (h : IsBlock skip raw c) :
    ∃ front crc, raw = front ++ (c.data ++ crc) ∧ crcSize c.crcType = some crc.length := by
  obtain ⟨tag, _, h⟩ := h
  cases skip
  · obtain ⟨body, crc, rfl, hb, hc⟩ := h
    obtain ⟨front, rfl⟩ := isBody_parts hb
    refine ⟨front, crc, by simp, ?_⟩
    rcases hc with ⟨h, rfl, _⟩ | ⟨h, rfl, _⟩ | ⟨h, rfl, _⟩ <;> rw [h] <;> simp [crcSize]
  · obtain ⟨body, crc, rfl, hb, hc⟩ := h
    obtain ⟨front, rfl⟩ := isBody_parts hb
    refine ⟨front, crc, by simp, ?_⟩
    rcases hc with ⟨h, rfl, _⟩ | ⟨h, rfl, _⟩ | ⟨h, rfl, _⟩ <;> rw [h] <;> simp [crcSize]

theorem isBlock_pos {skip : Bool} {raw : Bytes} {c : Canonical} (h : IsBlock skip raw c) : 0 < raw.length := by
  obtain ⟨tag, _, h⟩ := h
  cases skip
  · obtain ⟨body, crc, rfl, ⟨head, a, b, d, e, rfl, _⟩, hc⟩ := h
    simp only [List.length_append, List.length_cons]; omega
  · obtain ⟨body, crc, rfl, ⟨head, a, b, d, e, rfl, _⟩, hc⟩ := h
    simp only [List.length_append, List.length_cons]; omega

/-- What an item is, given the bytes from its block on. -/
def ItemAt (skip : Bool) (bin : Bin) (pad rest : Bytes) (i : Item) : Prop :=
  IsBlock skip i.raw i.block ∧ i.old = bin.old i.block.typeCode ∧
    ∃ front crc, i.raw = front ++ (i.block.data ++ crc) ∧ crcSize i.block.crcType = some crc.length ∧
      i.after = crc ++ (rest ++ pad)

theorem readItem_iff (skip : Bool) (bin : Bin) (pad buf rest : Bytes) (i : Item) :
    readItem skip bin pad buf = some (i, rest) ↔ buf = i.raw ++ rest ∧ ItemAt skip bin pad rest i := by
  unfold readItem
  simp only [Option.bind_eq_bind, Option.bind_eq_some_iff, Option.pure_def, Option.some.injEq, Prod.mk.injEq, Prod.exists,
    read_block_iff]
  constructor
  · rintro ⟨c, r, ⟨raw, rfl, hb⟩, k, hk, rfl, rfl⟩
    have e : (raw ++ r).take ((raw ++ r).length - r.length) = raw := by simp
    rw [e]
    obtain ⟨front, crc, hraw, hcrc⟩ := isBlock_parts hb
    refine ⟨rfl, hb, rfl, front, crc, hraw, hcrc, ?_⟩
    rw [hk] at hcrc
    simp only [Option.some.injEq] at hcrc
    subst hcrc
    simp only [hraw]
    congr 1
    rw [show front ++ (c.data ++ crc) = (front ++ c.data) ++ crc by simp]
    rw [show ((front ++ c.data) ++ crc).length - crc.length = (front ++ c.data).length by
      rw [List.length_append]; omega, List.drop_left]
  · rintro ⟨rfl, hb, ho, front, crc, hraw, hcrc, ha⟩
    have e : (i.raw ++ rest).take ((i.raw ++ rest).length - rest.length) = i.raw := by simp
    refine ⟨i.block, rest, ⟨_, rfl, hb⟩, crc.length, hcrc, ?_, rfl⟩
    obtain ⟨blk, raw, after, old⟩ := i
    simp only at *
    subst ho ha
    rw [e, hraw]
    congr 1
    rw [show front ++ (blk.data ++ crc) = (front ++ blk.data) ++ crc by simp]
    rw [show ((front ++ blk.data) ++ crc).length - crc.length = (front ++ blk.data).length by
      rw [List.length_append]; omega, List.drop_left]

/-- The memory behind the data of an item is part of the memory behind the start of its block. -/
theorem ItemAt.length {skip : Bool} {bin : Bin} {pad rest : Bytes} {i : Item} (h : ItemAt skip bin pad rest i) :
    (i.block.data ++ i.after).length ≤ (i.raw ++ rest ++ pad).length := by
  obtain ⟨_, _, front, crc, hr, _, ha⟩ := h
  rw [ha, hr]
  simp only [List.length_append]
  omega

/-- Existence of an item. -/
theorem exists_item {skip : Bool} (bin : Bin) (pad rest : Bytes) {raw : Bytes} {c : Canonical} (h : IsBlock skip raw c) :
    ∃ after, ItemAt skip bin pad rest ⟨c, raw, after, bin.old c.typeCode⟩ := by
  obtain ⟨front, crc, hr, hc⟩ := isBlock_parts h
  exact ⟨_, h, rfl, front, crc, hr, hc, rfl⟩

theorem readSec_ok (i : Item) (a : Asb) (hl : (i.block.data ++ i.after).length < 2 ^ 64) :
    readSec i = .ok a ↔
      ∃ w, TakenForAsb i.block.data w ∧ a = { w with params := if w.flags % 2 = 1 then w.params else i.old } :=
  C75_read_iff _ _ _ hl _

theorem addTargets_iff (enc ts e : List Nat) (hn : enc.Nodup) :
    addTargets enc ts = some e ↔ e = enc ++ ts ∧ (enc ++ ts).Nodup := by
  induction ts generalizing enc with
  | nil => simp [addTargets, hn, eq_comm]
  | cons t ts ih =>
    rw [addTargets]
    split
    · rename_i h
      simp only [reduceCtorEq, false_iff, not_and]
      intro _ hd
      rw [List.nodup_append] at hd
      exact hd.2.2 t h t (by simp) rfl
    · rename_i h
      rw [ih (enc ++ [t]) (by rw [List.nodup_append]; simp [hn]; intro a ha he; subst he; exact h ha)]
      simp

/-- The blocks that items say are encrypted. -/
def Targets : List Item → List Nat → Prop
  | [], ts => ts = []
  | i :: is, ts => ∃ t r, ts = t ++ r ∧ Targets is r ∧
      (i.block.typeCode = 12 → ∃ a, readSec i = .ok a ∧ t = a.targets) ∧ (i.block.typeCode ≠ 12 → t = [])

theorem readTargets_iff (i : Item) (enc e : List Nat) (hn : enc.Nodup) :
    readTargets i enc = .ok e ↔ ∃ t, e = enc ++ t ∧ e.Nodup ∧
      (i.block.typeCode = 12 → ∃ a, readSec i = .ok a ∧ t = a.targets) ∧ (i.block.typeCode ≠ 12 → t = []) := by
  unfold readTargets
  by_cases h : i.block.typeCode = 12
  · rw [if_pos h]
    simp only [obind_ok, ofOption_ok, addTargets_iff _ _ _ hn, h, not_true, false_implies, true_implies, and_true, ne_eq]
    constructor
    · rintro ⟨a, ha, rfl, hd⟩; exact ⟨_, rfl, hd, a, ha, rfl⟩
    · rintro ⟨t, rfl, hd, a, ha, rfl⟩; exact ⟨a, ha, rfl, hd⟩
  · rw [if_neg h]
    simp only [Out.ok.injEq, h, false_implies, ne_eq, not_false_eq_true, true_implies, true_and]
    constructor
    · rintro rfl; exact ⟨[], by simp, hn, rfl⟩
    · rintro ⟨t, rfl, _, rfl⟩; simp

/-- The blocks that a list of items is read from, in order. -/
def Items (skip : Bool) (pad : Bytes) : Bin → Bytes → List Item → Prop
  | _, buf, [] => buf = [0xff]
  | bin, buf, i :: is => ∃ rest, buf = i.raw ++ rest ∧ ItemAt skip bin pad rest i ∧
      Items skip pad (bin.use i.block.typeCode) rest is

theorem Items.buf {skip : Bool} {pad : Bytes} {is : List Item} : ∀ {bin : Bin} {buf : Bytes}, Items skip pad bin buf is →
    buf = (is.map (·.raw)).flatten ++ [0xff] := by
  induction is with
  | nil => intro _ _ h; exact h
  | cons i is ih =>
    rintro bin buf ⟨rest, rfl, _, h⟩
    rw [ih h]
    simp

theorem Items.isBlock {skip : Bool} {pad : Bytes} {is : List Item} : ∀ {bin : Bin} {buf : Bytes},
    Items skip pad bin buf is → ∀ i ∈ is, IsBlock skip i.raw i.block ∧
      (i.block.data ++ i.after).length ≤ (buf ++ pad).length := by
  induction is with
  | nil => intro _ _ _ i hi; simp at hi
  | cons j is ih =>
    rintro bin buf ⟨rest, rfl, hj, h⟩ i hi
    rcases List.mem_cons.1 hi with rfl | hi
    · exact ⟨hj.1, hj.length⟩
    · have := ih h i hi
      refine ⟨this.1, this.2.trans ?_⟩
      simp only [List.length_append]; omega

theorem bin_use_fresh (t : UInt8) : Bin.use ⟨[], []⟩ t = ⟨[], []⟩ := by
  unfold Bin.use; split_ifs <;> rfl

theorem bin_old_fresh (t : UInt8) : Bin.old ⟨[], []⟩ t = [] := by
  unfold Bin.old; split_ifs <;> rfl

theorem Items.fresh {skip : Bool} {pad : Bytes} {is : List Item} : ∀ {buf : Bytes},
    Items skip pad ⟨[], []⟩ buf is → ∀ i ∈ is, i.old = [] := by
  induction is with
  | nil => intro _ _ i hi; simp at hi
  | cons j is ih =>
    rintro buf ⟨rest, rfl, hj, h⟩ i hi
    rw [bin_use_fresh] at h
    rcases List.mem_cons.1 hi with rfl | hi
    · rw [hj.2.1, bin_old_fresh]
    · exact ih h i hi

theorem payloadLast_single (c : Canonical) : PayloadLast [c] ↔ c.typeCode = 1 ∧ c.number = 1 := by
  constructor
  · rintro ⟨init, last, h, h1, h2, _⟩
    cases init with
    | nil => simp only [List.nil_append, List.cons.injEq, and_true] at h; subst h; exact ⟨h1, h2⟩
    | cons x xs => simp at h
  · rintro ⟨h1, h2⟩; exact ⟨[], c, rfl, h1, h2, by simp⟩

theorem payloadLast_cons (c d : Canonical) (cs : List Canonical) :
    PayloadLast (c :: d :: cs) ↔ c.typeCode ≠ 1 ∧ PayloadLast (d :: cs) := by
  constructor
  · rintro ⟨init, last, h, h1, h2, h3⟩
    cases init with
    | nil => simp at h
    | cons x xs =>
      simp only [List.cons_append, List.cons.injEq] at h
      obtain ⟨rfl, h⟩ := h
      exact ⟨h3 c (by simp), xs, last, h, h1, h2, fun e he => h3 e (by simp [he])⟩
  · rintro ⟨h0, init, last, h, h1, h2, h3⟩
    refine ⟨c :: init, last, by rw [h]; rfl, h1, h2, ?_⟩
    intro e he
    rcases List.mem_cons.1 he with rfl | he
    · exact h0
    · exact h3 e he

theorem payloadLast_nil : ¬ PayloadLast [] := by
  rintro ⟨init, last, h, _⟩
  simp at h

theorem readItems_iff (skip : Bool) (pad : Bytes) (fuel : Nat) : ∀ (bin : Bin) (enc : List Nat) (buf : Bytes) (is : List Item)
    (e : List Nat), enc.Nodup → buf.length < fuel →
    (readItems skip pad fuel bin enc buf = .ok (is, e) ↔
      Items skip pad bin buf is ∧ PayloadLast (is.map (·.block)) ∧ ∃ ts, Targets is ts ∧ e = enc ++ ts ∧ e.Nodup) := by
  induction fuel with
  | zero => intro _ _ _ _ _ _ h; omega
  | succ fuel ih =>
    intro bin enc buf is e hn hf
    constructor
    · intro h
      rw [readItems] at h
      split at h
      · simp at h
      rename_i i rest hi
      obtain ⟨e1, he1, h⟩ := obind_ok.1 h
      rw [readItem_iff] at hi
      obtain ⟨rfl, hat⟩ := hi
      obtain ⟨t, rfl, hd, ht1, ht2⟩ := (readTargets_iff i enc e1 hn).1 he1
      by_cases h1 : i.block.typeCode = 1
      · rw [if_pos h1] at h
        by_cases h2 : i.block.number = 1
        · rw [if_neg (by simpa using h2)] at h
          split at h
          · rename_i h3
            simp only [Out.ok.injEq, Prod.mk.injEq] at h
            obtain ⟨rfl, rfl⟩ := h
            subst h3
            refine ⟨⟨_, rfl, hat, rfl⟩, ?_, t, ⟨t, [], by simp, rfl, ht1, ht2⟩, rfl, hd⟩
            simp only [List.map_cons, List.map_nil]
            rw [payloadLast_single]
            exact ⟨h1, h2⟩
          · simp at h
        · rw [if_pos h2] at h; simp at h
      · rw [if_neg h1] at h
        split at h
        · simp at h
        obtain ⟨⟨js, e2⟩, hj, h⟩ := obind_ok.1 h
        simp only [Out.ok.injEq, Prod.mk.injEq] at h
        obtain ⟨rfl, rfl⟩ := h
        have hpos := isBlock_pos hat.1
        rw [List.length_append] at hf
        obtain ⟨hI, hP, ts, hT, rfl, hd2⟩ := (ih _ _ _ _ _ hd (by omega)).1 hj
        refine ⟨⟨rest, rfl, hat, hI⟩, ?_, t ++ ts, ⟨t, ts, rfl, hT, ht1, ht2⟩, by simp, hd2⟩
        cases js with
        | nil => exact absurd hP payloadLast_nil
        | cons j js =>
          simp only [List.map_cons] at hP ⊢
          rw [payloadLast_cons]
          exact ⟨h1, hP⟩
    · rintro ⟨hI, hP, ts, hT, rfl, hd⟩
      cases is with
      | nil => exact absurd hP payloadLast_nil
      | cons i is =>
        obtain ⟨rest, rfl, hat, hI⟩ := hI
        obtain ⟨t, r, rfl, hT, ht1, ht2⟩ := hT
        rw [readItems, (readItem_iff _ _ _ _ _ _).2 ⟨rfl, hat⟩]
        have hd1 : (enc ++ t).Nodup := by
          rw [← List.append_assoc] at hd
          exact (List.nodup_append.1 hd).1
        simp only
        rw [(readTargets_iff i enc (enc ++ t) hn).2 ⟨t, rfl, hd1, ht1, ht2⟩]
        simp only [Out.bind]
        cases is with
        | nil =>
          simp only [List.map_cons, List.map_nil] at hP
          rw [payloadLast_single] at hP
          rw [if_pos hP.1, if_neg (by simpa using hP.2), if_pos (show rest = [0xff] from hI)]
          simp only [Targets] at hT
          subst hT
          simp
        | cons j js =>
          simp only [List.map_cons] at hP
          rw [payloadLast_cons] at hP
          have hpos := isBlock_pos hat.1
          rw [List.length_append] at hf
          have hne : rest.length ≠ 0 := by
            rw [hI.buf]; simp
          rw [if_neg hP.1, if_neg hne]
          rw [(ih (bin.use i.block.typeCode) (enc ++ t) rest (j :: js) (enc ++ t ++ r) hd1 (by omega)).2
            ⟨hI, hP.2, r, hT, rfl, by rwa [List.append_assoc]⟩]
          simp

/-! ### The second pass -/

theorem readContents_iff (admin : Bool) (enc : List Nat) (is : List Item) : ∀ vs,
    readContents admin enc is = .ok vs ↔ List.Forall₂ (fun i v => readContent admin enc i = .ok v) is vs := by
  induction is with
  | nil =>
    intro vs
    simp only [readContents, Out.ok.injEq]
    constructor
    · rintro rfl; exact List.Forall₂.nil
    · intro h; cases h; rfl
  | cons i is ih =>
    intro vs
    rw [readContents]
    simp only [obind_ok, Out.ok.injEq]
    constructor
    · rintro ⟨v, hv, ws, hw, rfl⟩
      exact List.Forall₂.cons hv ((ih _).1 hw)
    · intro h
      cases h with
      | cons hv hw => exact ⟨_, hv, _, (ih _).2 hw, rfl⟩

theorem ext_type (x : Ext) : IsExtType x.typeCode := by
  cases x <;> simp [Ext.typeCode, IsExtType]

theorem readBody_iff (admin : Bool) (i : Item) (ho : i.old = []) (hl : (i.block.data ++ i.after).length < 2 ^ 64) (b : Body) :
    readBody admin i = .ok b ↔ IsBody admin i.block b := by
  have hsec : ∀ a, readSec i = .ok a ↔ TakenForAsb i.block.data a := fun a => by
    unfold readSec
    rw [C75_read_fresh_iff _ ho _ _ hl]
  simp only [readBody]
  by_cases h1 : admin = true ∧ i.block.typeCode = 1
  · rw [if_pos h1]
    simp only [obind_ok, ofOption_ok, AdminRecord7.C74_record_iff, Out.ok.injEq]
    constructor
    · rintro ⟨r, hr, rfl⟩; exact ⟨h1.1, h1.2, hr⟩
    · intro h
      cases b with
      | plain => exact absurd h1 h.1
      | ext x => have := ext_type x; rw [← h.1, h1.2] at this; simp [IsExtType] at this
      | sec a => have := h.1; rw [h1.2] at this; simp [IsSecType] at this
      | admin r => exact ⟨r, h.2.2, rfl⟩
      | hidden => exact h.elim
  rw [if_neg h1]
  by_cases h2 : i.block.typeCode = 11 ∨ i.block.typeCode = 12
  · rw [if_pos h2]
    simp only [obind_ok, hsec, Out.ok.injEq]
    constructor
    · rintro ⟨a, ha, rfl⟩; exact ⟨h2, ha⟩
    · intro h
      cases b with
      | plain => exact absurd h2 h.2.2
      | ext x => have := ext_type x; rw [← h.1] at this; rcases h2 with h2 | h2 <;> rw [h2] at this <;> simp [IsExtType] at this
      | sec a => exact ⟨a, h.2, rfl⟩
      | admin r => exact absurd ⟨h.1, h.2.1⟩ h1
      | hidden => exact h.elim
  rw [if_neg h2]
  by_cases h3 : i.block.typeCode = 6 ∨ i.block.typeCode = 7 ∨ i.block.typeCode = 10 ∨ i.block.typeCode = 13
  · rw [if_pos h3]
    simp only [obind_ok, ofOption_ok, C52_read_iff, Out.ok.injEq]
    constructor
    · rintro ⟨x, ⟨ht, hx⟩, rfl⟩; exact ⟨ht, hx⟩
    · intro h
      cases b with
      | plain => exact absurd h3 h.2.1
      | ext x => exact ⟨x, ⟨h.1, h.2⟩, rfl⟩
      | sec a => exact absurd h.1 h2
      | admin r => exact absurd ⟨h.1, h.2.1⟩ h1
      | hidden => exact h.elim
  rw [if_neg h3]
  simp only [Out.ok.injEq]
  constructor
  · rintro rfl; exact ⟨h1, h3, h2⟩
  · intro h
    cases b with
    | plain => rfl
    | ext x => have := ext_type x; rw [← h.1] at this; exact absurd this h3
    | sec a => exact absurd h.1 h2
    | admin r => exact absurd ⟨h.1, h.2.1⟩ h1
    | hidden => exact h.elim

theorem readContent_iff (admin : Bool) (enc : List Nat) (i : Item) (ho : i.old = [])
    (hl : (i.block.data ++ i.after).length < 2 ^ 64) (v : BlockView) :
    readContent admin enc i = .ok v ↔ v.block = i.block ∧ v.raw = i.raw ∧ v.dirty = false ∧ v.deleted = false ∧
      (IsEncrypted enc v.block → v.body = .hidden) ∧ (¬ IsEncrypted enc v.block → IsBody admin v.block v.body) := by
  unfold readContent
  by_cases h : i.block.typeCode ≠ 12 ∧ i.block.number ∈ enc
  · rw [if_pos h]
    simp only [Out.ok.injEq]
    constructor
    · rintro rfl; exact ⟨rfl, rfl, rfl, rfl, fun _ => rfl, fun hn => absurd h hn⟩
    · rintro ⟨h1, h2, h3, h4, h5, _⟩
      obtain ⟨b, c, r, d, e⟩ := v
      simp only at *
      subst h1 h2 h3 h4
      rw [h5 h]
  · rw [if_neg h]
    simp only [obind_ok, readBody_iff admin i ho hl, Out.ok.injEq]
    constructor
    · rintro ⟨b, hb, rfl⟩; exact ⟨rfl, rfl, rfl, rfl, fun hn => absurd hn h, fun _ => hb⟩
    · rintro ⟨h1, h2, h3, h4, _, h5⟩
      obtain ⟨b, c, r, d, e⟩ := v
      simp only at *
      subst h1 h2 h3 h4
      exact ⟨c, h5 h, rfl⟩

theorem isAdmin_eq (p : Primary) : isAdmin p = p.flags.testBit 1 := rfl

theorem isFragment_iff (n : Nat) : isFragment n = true ↔ n % 2 = 1 := by
  simp only [isFragment, bne_iff_ne, ne_eq, Nat.and_one_is_mod]
  omega

theorem readPrimary_iff (buf : Bytes) (p : Primary) (raw rest : Bytes) :
    readPrimary buf = some (p, raw, rest) ↔ buf = 0x9f :: (raw ++ rest) ∧ IsPrimary raw p ∧ p.flags % 2 ≠ 1 ∧
      p.fragOffset = 0 ∧ p.totalAdu = 0 := by
  cases buf with
  | nil => simp [readPrimary]
  | cons h buf =>
    simp only [readPrimary]
    by_cases hh : h = 0x9f
    · subst hh
      rw [if_neg (by simp)]
      constructor
      · intro h
        split at h
        · simp at h
        rename_i p' rest' hr
        obtain ⟨bs, rfl, hp, hz⟩ := (C35_decode_iff _ _ _ _).1 hr
        by_cases hf : isFragment p'.flags = true
        · rw [if_pos hf] at h; simp at h
        rw [if_neg hf] at h
        simp only [Option.some.injEq, Prod.mk.injEq] at h
        obtain ⟨rfl, rfl, rfl⟩ := h
        rw [isFragment_iff] at hf
        refine ⟨by simp, by simpa using hp, hf, (hz hf).1, (hz hf).2⟩
      · rintro ⟨hb, hp, hf, h1, h2⟩
        simp only [List.cons.injEq, true_and] at hb
        subst hb
        rw [(C35_decode_iff zeroPrimary p _ rest).2 ⟨raw, rfl, hp, fun _ => ⟨h1, h2⟩⟩]
        have : ¬ isFragment p.flags = true := by rwa [isFragment_iff]
        simp [this]
    · rw [if_pos hh]
      simp [hh]

/-! ### The free numbers -/

theorem reserve_testBit (free number n : Nat) (hf : free < 2 ^ 64) :
    (reserve free number).testBit n = true ↔ free.testBit n = true ∧ n ≠ number := by
  unfold reserve
  by_cases h : number ≤ 63
  · rw [if_pos h, Nat.testBit_and, show 2 ^ 64 - 1 - 2 ^ number = 2 ^ 64 - (2 ^ number + 1) by omega,
      Nat.testBit_two_pow_sub_succ (Nat.pow_lt_pow_right (by omega) (by omega)), Nat.testBit_two_pow]
    by_cases hb : free.testBit n = true
    · have : n < 64 := by
        by_contra hn
        rw [Nat.testBit_lt_two_pow (lt_of_lt_of_le hf (Nat.pow_le_pow_right (by omega) (by omega)))] at hb
        simp at hb
      rw [hb, decide_eq_true this]
      by_cases he : number = n
      · simp [he]
      · simp [he, Ne.symm he]
    · simp only [hb, Bool.false_and, Bool.false_eq_true, false_and]
  · rw [if_neg h]
    constructor
    · intro hb
      refine ⟨hb, ?_⟩
      rintro rfl
      rw [Nat.testBit_lt_two_pow (lt_of_lt_of_le hf (Nat.pow_le_pow_right (by omega) (by omega)))] at hb
      simp at hb
    · exact fun h => h.1

theorem reserve_lt (free number : Nat) (hf : free < 2 ^ 64) : reserve free number < 2 ^ 64 := by
  unfold reserve
  split_ifs
  · exact lt_of_le_of_lt Nat.and_le_left hf
  · exact hf

theorem reserveAll_testBit (ns : List Nat) : ∀ (free n : Nat), free < 2 ^ 64 →
    ns.foldl reserve free < 2 ^ 64 ∧
    ((ns.foldl reserve free).testBit n = true ↔ free.testBit n = true ∧ n ∉ ns) := by
  induction ns with
  | nil =>
    intro free n hf
    rw [List.foldl_nil]
    exact ⟨hf, by simp⟩
  | cons m ns ih =>
    intro free n hf
    rw [List.foldl_cons]
    have := ih (reserve free m) n (reserve_lt _ _ hf)
    refine ⟨this.1, ?_⟩
    rw [this.2, reserve_testBit _ _ _ hf]
    simp [and_assoc]

theorem freeInit_testBit (n : Nat) : freeInit.testBit n = true ↔ 2 ≤ n ∧ n ≤ 63 := by
  rw [show freeInit = 2 ^ 64 - (3 + 1) by rfl, Nat.testBit_two_pow_sub_succ (by decide)]
  have h3 : (3 : Nat).testBit n = true ↔ n < 2 := by
    rw [show (3 : Nat) = 2 ^ 2 - 1 by rfl, Nat.testBit_two_pow_sub_one]
    simp
  rcases Bool.eq_false_or_eq_true ((3 : Nat).testBit n) with h | h
  · have := h3.1 h
    simp [h]; omega
  · have : ¬ n < 2 := by rw [← h3, h]; simp
    simp [h]; omega

theorem freeInit_lt : freeInit < 2 ^ 64 := by decide

end Hdtn.BundleView7
