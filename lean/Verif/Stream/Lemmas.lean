import Verif.Stream.Spec
import Mathlib.Tactic.Ring
import Mathlib.Data.List.Basic

/-!
Lemmas about the streaming of RTP packets.
-/

namespace Hdtn.Stream

open Spec

theorem le8_length (n : Nat) : (le8 n).length = 8 := by simp [le8]

theorem le8_get (n i : Nat) (b : UInt8) (h : (le8 n)[i]? = some b) : b.toNat = n / 256 ^ i % 256 := by
  unfold le8 at h
  rw [List.getElem?_map, Option.map_eq_some_iff] at h
  obtain ⟨a, h1, h2⟩ := h
  rw [List.getElem?_eq_some_iff] at h1
  obtain ⟨h3, h4⟩ := h1
  rw [List.getElem_range] at h4
  subst h4
  rw [← h2]
  simp

theorem fromLe_le8 (n : Nat) (h : n < U64) : fromLe (le8 n) = n := by
  have e : le8 n = [UInt8.ofNat (n / 256 ^ 0), UInt8.ofNat (n / 256 ^ 1), UInt8.ofNat (n / 256 ^ 2), UInt8.ofNat (n / 256 ^ 3), UInt8.ofNat (n / 256 ^ 4),
    UInt8.ofNat (n / 256 ^ 5), UInt8.ofNat (n / 256 ^ 6), UInt8.ofNat (n / 256 ^ 7)] := rfl
  rw [e]
  simp only [fromLe, UInt8.toNat_ofNat']
  unfold U64 at h
  omega

/-- A packet with its length. -/
def frame (p : Bytes) : Bytes := le8 p.length ++ p

/-- The payload for packets. -/
def bundle (ps : List Bytes) : Bytes := (ps.map frame).flatten

theorem bundle_payload (ps : List Bytes) : Payload ps (bundle ps) := by
  induction ps with
  | nil => exact .nil
  | cons p ps ih =>
    show Payload (p :: ps) (frame p ++ bundle ps)
    exact .cons p ps (le8 p.length) (bundle ps) (le8_length _) (fun i b h => le8_get _ i b h) ih

theorem payload_bundle (ps : List Bytes) (b : Bytes) (h : Payload ps b) : b = bundle ps := by
  induction h with
  | nil => rfl
  | cons p ps len rest h8 hlen _ ih =>
    subst ih
    have : len = le8 p.length := by
      apply List.ext_getElem?
      intro i
      by_cases hi : i < 8
      · have h1 : i < len.length := by omega
        have h2 : i < (le8 p.length).length := by rw [le8_length]; exact hi
        rw [List.getElem?_eq_getElem h1, List.getElem?_eq_getElem h2, Option.some.injEq]
        apply UInt8.toNat_inj.mp
        rw [hlen i _ (List.getElem?_eq_getElem h1), le8_get _ i _ (List.getElem?_eq_getElem h2)]
      · rw [List.getElem?_eq_none (by omega), List.getElem?_eq_none (by rw [le8_length]; omega)]
    subst this
    rfl

theorem unpack_bundle (ps : List Bytes) (hne : ps ≠ []) (hs : ∀ p ∈ ps, p.length < U64) :
    ∀ fuel, (bundle ps).length < fuel → unpack fuel (bundle ps) = (ps, false) := by
  induction ps with
  | nil => exact absurd rfl hne
  | cons p ps ih =>
    intro fuel hf
    have e : bundle (p :: ps) = le8 p.length ++ (p ++ bundle ps) := by simp [bundle, frame]
    have hl : (bundle (p :: ps)).length = 8 + (p.length + (bundle ps).length) := by
      rw [e, List.length_append, List.length_append, le8_length]
    cases fuel with
    | zero => omega
    | succ fuel =>
      have h8 := le8_length p.length
      have t8 : (bundle (p :: ps)).take 8 = le8 p.length := by rw [e, ← h8, List.take_left]
      have d8 : (bundle (p :: ps)).drop 8 = p ++ bundle ps := by rw [e, ← h8, List.drop_left]
      unfold unpack
      rw [if_neg (by omega)]
      simp only [t8, d8, fromLe_le8 p.length (hs p (List.mem_cons_self ..)), List.length_append, List.drop_left, List.take_left]
      rw [if_neg (by omega)]
      cases ps with
      | nil => rw [if_pos (by rfl)]
      | cons q qs =>
        have hb : bundle (q :: qs) ≠ [] := by
          intro hb
          have := congrArg List.length hb
          simp [bundle, frame, le8_length] at this
        rw [if_neg hb, ih (by simp) (fun p hp => hs p (List.mem_cons_of_mem _ hp)) fuel (by omega)]

theorem passes_iff (session : Bool) (p : Bytes) :
    packetHandler session p = if Passes p then (if session then Status.pushPrevious else Status.firstFrame)
      else if p.length < 12 then Status.invalidHeader else Status.invalidVersion := by
  unfold packetHandler Passes version
  by_cases hl : p.length < 12
  · simp [hl]
  · rw [if_neg hl]
    match p with
    | [] => simp at hl
    | [_] => simp at hl
    | a :: b :: rest =>
      have ha := a.toNat_lt
      have hb := b.toNat_lt
      have key : ((3 * 2 ^ 15) &&& (a.toNat * 256 + b.toNat) = 0) ↔ a.toNat < 128 := by
        have e : (3 * 2 ^ 15 : Nat) = 2 ^ 15 ||| 2 ^ 16 := by decide
        rw [e, Nat.and_comm, Nat.and_or_distrib_left, Nat.and_two_pow, Nat.and_two_pow]
        have h16 : (a.toNat * 256 + b.toNat).testBit 16 = false := Nat.testBit_lt_two_pow (by omega)
        rw [h16, Nat.testBit_eq_decide_div_mod_eq]
        by_cases h : a.toNat < 128
        · have : ¬ (a.toNat * 256 + b.toNat) / 2 ^ 15 % 2 = 1 := by omega
          simp [h, this]; omega
        · have : (a.toNat * 256 + b.toNat) / 2 ^ 15 % 2 = 1 := by omega
          simp [h, this]; omega
      have hv : ((some (a.toNat / 64) = some 2) ∨ (some (a.toNat / 64) = some 3)) ↔ ¬ a.toNat < 128 := by
        simp only [Option.some.injEq]; omega
      simp only [if_neg hl, List.head?_cons, Option.map_some]
      by_cases h : a.toNat < 128
      · rw [if_pos (key.mpr h), if_neg (fun hh => hv.mp hh h)]
      · rw [if_neg (fun hh => h (key.mp hh)), if_pos (hv.mpr h)]

theorem ring_sub {α : Type} (cap : Nat) (q : List α) (x : α) : (ring cap q x).Sublist (q ++ [x]) := by
  unfold ring
  split
  · cases q with
    | nil => exact List.nil_sublist _
    | cons a q => exact List.sublist_cons_self a (q ++ [x])
  · exact List.Sublist.refl _

theorem ring_room {α : Type} (cap : Nat) (q : List α) (x : α) (h : ¬ cap ≤ q.length) : ring cap q x = q ++ [x] := by
  unfold ring; rw [if_neg h]

theorem ring_map {α β : Type} (f : α → β) (cap : Nat) (q : List α) (x : α) : ring cap (q.map f) (f x) = (ring cap q x).map f := by
  unfold ring
  cases q with
  | nil => simp; split <;> rfl
  | cons a q =>
    simp only [List.map_cons, List.length_cons, List.length_map]
    split <;> simp

theorem sublist_flatten {α : Type} {l₁ l₂ : List (List α)} (h : l₁.Sublist l₂) : l₁.flatten.Sublist l₂.flatten := by
  induction h with
  | slnil => exact List.Sublist.refl _
  | cons a _ ih => exact ih.trans (List.sublist_append_right a _)
  | cons_cons a _ ih => exact (List.Sublist.refl a).append ih

/-- The packets that are on their way in the sender. -/
def Send.way (s : Send) (sg og : List (List Bytes)) (grp : List Bytes) : List Bytes :=
  sg.flatten ++ (og.flatten ++ (grp ++ ((if s.session then [s.current] else []) ++ (s.taken.toList ++ s.incoming).filter (fun p => decide (Passes p)))))

theorem bundle_len (ps : List Bytes) (h : ∀ p ∈ ps, p.length < 2 ^ 32) : (bundle ps).length ≤ ps.length * (2 ^ 32 + 8) := by
  induction ps with
  | nil => simp [bundle]
  | cons p ps ih =>
    have h1 := h p (List.mem_cons_self ..)
    have h2 := ih (fun q hq => h q (List.mem_cons_of_mem _ hq))
    have e : (bundle (p :: ps)).length = 8 + p.length + (bundle ps).length := by simp [bundle, frame, le8_length]; omega
    rw [e, List.length_cons]
    omega

theorem bundle_snoc (ps : List Bytes) (p : Bytes) : bundle (ps ++ [p]) = bundle ps ++ frame p := by simp [bundle]

theorem copyAll_ok (ps : List Bytes) : copyAll (bundle ps).length (ps.map frame) = some (bundle ps) := by
  unfold copyAll
  show (if (bundle ps).length ≤ (bundle ps).length then some (bundle ps ++ List.replicate ((bundle ps).length - (bundle ps).length) 0) else none) = _
  rw [if_pos (Nat.le_refl _)]
  simp

/-- What holds of the sender: `g` are the packets that were given and pass. -/
structure Inv (c : Cfg) (s : Send) (g : List Bytes) (sg og : List (List Bytes)) (grp : List Bytes) : Prop where
  group : s.group = grp.map frame
  bytes : c.perBundle ≠ 0 → s.groupBytes = (bundle grp).length
  few : grp.length < c.perBundle ∨ c.perBundle = 0
  outgoing : s.outgoing = og.map bundle
  sent : s.sent = sg.map bundle
  full : ∀ x ∈ sg ++ og, x.length = c.perBundle ∧ x ≠ []
  reserved : ∀ n, s.reserved = some n → ∃ x q, og = x :: q ∧ n = (bundle x).length
  sub : (s.way sg og grp).Sublist g
  all : s.inOverruns = 0 → s.outOverruns = 0 → s.way sg og grp = g
  fault : s.fault = false

theorem inv_packet {c : Cfg} {s : Send} {g : List Bytes} {sg og : List (List Bytes)} {grp : List Bytes} (h : Inv c s g sg og grp) (p : Bytes) :
    Inv c (s.packet c p) (g ++ [p].filter (fun p => decide (Passes p))) sg og grp := by
  refine ⟨h.group, h.bytes, h.few, h.outgoing, h.sent, h.full, h.reserved, ?_, ?_, h.fault⟩
  · have h1 : ((s.packet c p).way sg og grp).Sublist (s.way sg og grp ++ [p].filter (fun p => decide (Passes p))) := by
      unfold Send.way Send.packet
      simp only [List.append_assoc]
      refine (List.Sublist.refl _).append ((List.Sublist.refl _).append ((List.Sublist.refl _).append ((List.Sublist.refl _).append ?_)))
      rw [← List.filter_append, List.append_assoc]
      exact ((List.Sublist.refl _).append (ring_sub _ _ _)).filter _
    exact h1.trans (h.sub.append (List.Sublist.refl _))
  · intro h1 h2
    unfold Send.packet at h1
    simp only at h1
    split at h1
    · omega
    · rename_i hc
      rw [← h.all h1 h2]
      unfold Send.way Send.packet
      simp only [List.append_assoc, ring_room _ _ _ hc]
      simp only [List.filter_append, List.append_assoc]

theorem inv_take {c : Cfg} {s : Send} {g : List Bytes} {sg og : List (List Bytes)} {grp : List Bytes} (h : Inv c s g sg og grp) :
    Inv c s.take g sg og grp := by
  unfold Send.take
  split
  · rename_i p q ht hq
    have e : Send.way { s with taken := some p, incoming := q } sg og grp = s.way sg og grp := by
      unfold Send.way; simp [ht, hq]
    exact ⟨h.group, h.bytes, h.few, h.outgoing, h.sent, h.full, h.reserved, by rw [e]; exact h.sub, fun h1 h2 => by rw [e]; exact h.all h1 h2, h.fault⟩
  · exact h

theorem inv_step1 {c : Cfg} {s : Send} {g : List Bytes} {sg og : List (List Bytes)} {grp : List Bytes} (h : Inv c s g sg og grp) :
    Inv c s.step1 g sg og grp := by
  unfold Send.step1
  split
  · rename_i b q hr hq
    refine ⟨h.group, h.bytes, h.few, h.outgoing, h.sent, h.full, ?_, h.sub, h.all, h.fault⟩
    intro n hn
    have ho := h.outgoing
    rw [hq] at ho
    cases og with
    | nil => simp at ho
    | cons x og =>
      rw [List.map_cons, List.cons.injEq] at ho
      refine ⟨x, og, rfl, ?_⟩
      have := Option.some.inj hn
      rw [← this]
      unfold Send.length
      rw [hq, ho.1]
  · exact h

theorem inv_step2 {c : Cfg} {s : Send} {g : List Bytes} {sg og : List (List Bytes)} {grp : List Bytes} (h : Inv c s g sg og grp) (junk : Nat → UInt8) :
    ∃ sg' og', Inv c (s.step2 junk) g sg' og' grp := by
  unfold Send.step2
  split
  · exact ⟨sg, og, h⟩
  · rename_i n hr
    obtain ⟨x, q, ho, hn⟩ := h.reserved n hr
    subst ho
    have ho := h.outgoing
    rw [List.map_cons] at ho
    rw [ho]
    simp only
    rw [if_pos (by omega), hn]
    have e : ((List.range (bundle x).length).drop (bundle x).length).map junk = [] := by
      rw [List.drop_eq_nil_of_le (by simp)]; rfl
    rw [e, List.append_nil]
    have ew : Send.way { s with outgoing := q.map bundle, reserved := none, sent := s.sent ++ [bundle x] } (sg ++ [x]) q grp = s.way sg (x :: q) grp := by
      unfold Send.way; simp
    refine ⟨sg ++ [x], q, h.group, h.bytes, h.few, rfl, ?_, ?_, ?_, by rw [ew]; exact h.sub, fun h1 h2 => by rw [ew]; exact h.all h1 h2, h.fault⟩
    · show s.sent ++ [bundle x] = _
      rw [h.sent]; simp
    · intro y hy
      apply h.full y
      simpa using hy
    · intro m hm; exact nomatch hm

theorem inv_handle {c : Cfg} {s : Send} {g : List Bytes} {sg og : List (List Bytes)} {grp : List Bytes} (hp : c.perBundle < 2 ^ 16)
    (hg : ∀ p ∈ g, p.length < 2 ^ 32) (h : Inv c s g sg og grp) (hc : s.reserved = none ∨ (s.handle c).outOverruns = s.outOverruns) :
    ∃ og' grp', Inv c (s.handle c) g sg og' grp' := by
  revert hc
  unfold Send.handle
  cases ht : s.taken with
  | none => intro _; exact ⟨og, grp, h⟩
  | some p =>
    simp only [passes_iff]
    by_cases hv : Passes p
    · simp only [if_pos hv]
      cases hs : s.session with
      | false =>
        intro _
        simp only [Bool.false_eq_true, if_false]
        have e : Send.way { s with taken := none, session := true, current := p } sg og grp = s.way sg og grp := by
          unfold Send.way; simp [ht, hs, hv]
        exact ⟨og, grp, h.group, h.bytes, h.few, h.outgoing, h.sent, h.full, h.reserved, by rw [e]; exact h.sub,
          fun h1 h2 => by rw [e]; exact h.all h1 h2, h.fault⟩
      | true =>
        simp only [if_true]
        have hmem : ∀ q ∈ grp ++ [s.current], q.length < 2 ^ 32 := by
          intro q hq
          apply hg q
          apply h.sub.subset
          unfold Send.way
          rw [hs]
          rw [List.mem_append] at hq
          simp only [List.mem_append, if_true]
          rcases hq with hq | hq
          · exact .inr (.inr (.inl hq))
          · exact .inr (.inr (.inr (.inl hq)))
        have hlen : c.perBundle ≠ 0 → (s.groupBytes + s.current.length + 8) % U64 = (bundle (grp ++ [s.current])).length := by
          intro h0
          have h1 := bundle_len _ hmem
          have e : (bundle (grp ++ [s.current])).length = (bundle grp).length + (8 + s.current.length) := by
            rw [bundle_snoc, List.length_append]; simp [frame, le8_length]
          rcases h.few with h2 | h2
          · rw [List.length_append, List.length_singleton] at h1
            rw [h.bytes h0, Nat.mod_eq_of_lt]
            · omega
            · unfold U64
              have : (grp.length + 1) * (2 ^ 32 + 8) ≤ 2 ^ 16 * (2 ^ 32 + 8) := Nat.mul_le_mul_right _ (by omega)
              omega
          · exact absurd h2 h0
        unfold Send.pushFrame
        have egrp : s.group ++ [le8 s.current.length ++ s.current] = (grp ++ [s.current]).map frame := by
          rw [h.group, List.map_append]; rfl
        simp only [egrp, List.length_map]
        by_cases hn : (grp ++ [s.current]).length = c.perBundle
        · rw [if_pos hn]
          unfold Send.pushBundle
          have h0 : c.perBundle ≠ 0 := by rw [← hn]; simp
          simp only [hlen h0, copyAll_ok]
          intro hc
          have esub : (Send.way { s with
              session := true, taken := none, group := [], groupBytes := 0, current := p,
              outOverruns := (if c.cap ≤ s.outgoing.length then s.outOverruns + 1 else s.outOverruns),
              outgoing := ring c.cap s.outgoing (bundle (grp ++ [s.current])) } sg (ring c.cap og (grp ++ [s.current])) []).Sublist (s.way sg og grp) := by
            unfold Send.way
            simp only [hs, ht, if_true]
            refine (List.Sublist.refl _).append ?_
            have h1 := sublist_flatten (ring_sub c.cap og (grp ++ [s.current]))
            have h2 := h1.append (List.Sublist.refl (p :: s.incoming.filter (fun p => decide (Passes p))))
            refine List.Sublist.trans ?_ (h2.trans ?_)
            · simp
            · simp [hv]
          refine ⟨ring c.cap og (grp ++ [s.current]), [], rfl, fun _ => rfl, ?_, ?_, h.sent, ?_, ?_, esub.trans h.sub, ?_, h.fault⟩
          · show 0 < _ ∨ _
            rw [← hn]
            simp
          · show ring c.cap s.outgoing _ = _
            rw [h.outgoing, ring_map]
          · intro y hy
            rw [List.mem_append] at hy
            rcases hy with hy | hy
            · exact h.full y (List.mem_append_left _ hy)
            · have := (ring_sub _ _ _).subset hy
              rw [List.mem_append] at this
              rcases this with hy | hy
              · exact h.full y (List.mem_append_right _ hy)
              · rw [List.mem_singleton] at hy
                subst hy
                exact ⟨hn, by simp⟩
          · intro n hr
            have hr : s.reserved = some n := hr
            rcases hc with hc | hc
            · rw [show s.reserved = none from hc] at hr; cases hr
            · obtain ⟨x, q, h1, h2⟩ := h.reserved n hr
              have hroom : ¬ c.cap ≤ s.outgoing.length := by
                intro hx
                simp only [if_pos hx] at hc
                omega
              rw [h.outgoing, List.length_map] at hroom
              rw [ring_room _ _ _ hroom, h1]
              exact ⟨x, q ++ [grp ++ [s.current]], rfl, h2⟩
          · intro h1 h2
            simp only at h2
            split at h2
            · omega
            · rename_i hroom
              rw [← h.all h1 h2]
              rw [h.outgoing, List.length_map] at hroom
              unfold Send.way
              simp [hs, ht, hv, ring_room _ _ _ hroom]
        · rw [if_neg hn]
          intro _
          have e : Send.way { s with session := true, taken := none, group := (grp ++ [s.current]).map frame, groupBytes := (s.groupBytes + s.current.length + 8) % U64, current := p } sg og
              (grp ++ [s.current]) = s.way sg og grp := by
            unfold Send.way; simp [hs, ht, hv]
          refine ⟨og, grp ++ [s.current], rfl, hlen, ?_, h.outgoing, h.sent, h.full, h.reserved, ?_, ?_, h.fault⟩
          · rcases h.few with h1 | h1
            · left
              rw [List.length_append, List.length_singleton] at hn ⊢
              omega
            · exact .inr h1
          · have h1 := h.sub
            rw [← e] at h1
            exact h1
          · intro h1 h2
            exact e.trans (h.all h1 h2)
    · simp only [if_neg hv]
      have e : Send.way { s with taken := none } sg og grp = s.way sg og grp := by
        unfold Send.way; simp [ht, hv]
      have hi : Inv c { s with taken := none } g sg og grp :=
        ⟨h.group, h.bytes, h.few, h.outgoing, h.sent, h.full, h.reserved, by rw [e]; exact h.sub, fun h1 h2 => by rw [e]; exact h.all h1 h2, h.fault⟩
      intro _
      by_cases hl : p.length < 12
      · simp only [if_pos hl]; exact ⟨og, grp, hi⟩
      · simp only [if_neg hl]; exact ⟨og, grp, hi⟩

end Hdtn.Stream
