import Verif.Encap.Spec

namespace Hdtn.Encap

open Spec

/-! ### Headers -/

theorem encode_some {kind : Kind} {n : Nat} {h : Bytes} (he : encode kind n = some h) (hk : kind ≠ .idle) :
    0 < n ∧ n ≤ 4294967287 ∧
      ((n ≤ 253 ∧ h = [kind.byte ||| 1, UInt8.ofNat (n + 2)]) ∨
       (253 < n ∧ n ≤ 65531 ∧ h = [kind.byte ||| 2, 0, UInt8.ofNat ((n + 4) / 256), UInt8.ofNat (n + 4)]) ∨
       (65531 < n ∧ h = [kind.byte ||| 3, 0, 0, 0, UInt8.ofNat ((n + 8) / 16777216), UInt8.ofNat ((n + 8) / 65536), UInt8.ofNat ((n + 8) / 256),
          UInt8.ofNat (n + 8)])) := by
  unfold encode at he
  by_cases h1 : n > 0xffffffff - 8
  · rw [if_pos h1] at he; cases he
  rw [if_neg h1] at he
  by_cases h2 : n = 0
  · rw [if_pos h2, if_neg hk] at he; cases he
  rw [if_neg h2, if_neg hk] at he
  refine ⟨by omega, by omega, ?_⟩
  by_cases h3 : n ≤ 0xff - 2
  · rw [if_pos h3] at he; cases he
    exact Or.inl ⟨by omega, rfl⟩
  rw [if_neg h3] at he
  by_cases h4 : n ≤ 0xffff - 4
  · rw [if_pos h4] at he; cases he
    exact Or.inr (Or.inl ⟨by omega, by omega, rfl⟩)
  rw [if_neg h4] at he; cases he
  exact Or.inr (Or.inr ⟨by omega, rfl⟩)

theorem decodeFirst_made (kind : Kind) (hk : kind ≠ .idle) :
    decodeFirst kind (kind.byte ||| 1) = 2 ∧ decodeFirst kind (kind.byte ||| 2) = 4 ∧ decodeFirst kind (kind.byte ||| 3) = 8 := by
  cases kind
  · exact absurd rfl hk
  · decide
  · decide

theorem sub32_add (n k : Nat) (h : n < U32) : sub32 (n + k) k = n := by
  unfold sub32
  rw [show n + k + U32 - k = n + U32 by omega, Nat.add_mod_right, Nat.mod_eq_of_lt h]

theorem header_decode {kind : Kind} {n : Nat} {h : Bytes} (he : encode kind n = some h) (hk : kind ≠ .idle) :
    ∃ f rest, h = f :: rest ∧ decodeFirst kind f = h.length ∧ 2 ≤ h.length ∧ decodeRest h.length rest = some (0, n) ∧ 0 < n := by
  obtain ⟨h0, hn, h1⟩ := encode_some he hk
  obtain ⟨d1, d2, d3⟩ := decodeFirst_made kind hk
  have hs : ∀ k, sub32 (n + k) k = n := fun k => sub32_add n k (by simp only [U32]; omega)
  rcases h1 with ⟨hl, rfl⟩ | ⟨_, hl, rfl⟩ | ⟨hl, rfl⟩
  · refine ⟨_, _, rfl, d1, by simp, ?_, h0⟩
    have : (UInt8.ofNat (n + 2)).toNat = n + 2 := by rw [UInt8.toNat_ofNat']; omega
    simp only [decodeRest, List.length_cons, List.length_nil]
    rw [this, hs]
    rfl
  · refine ⟨_, _, rfl, d2, by simp, ?_, h0⟩
    have : (UInt8.ofNat ((n + 4) / 256)).toNat * 256 + (UInt8.ofNat (n + 4)).toNat = n + 4 := by
      rw [UInt8.toNat_ofNat', UInt8.toNat_ofNat']; omega
    simp only [decodeRest, List.length_cons, List.length_nil]
    rw [this, hs]
    rfl
  · refine ⟨_, _, rfl, d3, by simp, ?_, h0⟩
    have : (((UInt8.ofNat ((n + 8) / 16777216)).toNat * 256 + (UInt8.ofNat ((n + 8) / 65536)).toNat) * 256 +
        (UInt8.ofNat ((n + 8) / 256)).toNat) * 256 + (UInt8.ofNat (n + 8)).toNat = n + 8 := by
      rw [UInt8.toNat_ofNat', UInt8.toNat_ofNat', UInt8.toNat_ofNat', UInt8.toNat_ofNat']; omega
    simp only [decodeRest, List.length_cons, List.length_nil]
    rw [this, hs]
    rfl

/-! ### Reading -/

theorem bytes_append (s : Rx) (a b : Bytes) : s.bytes (a ++ b) = (s.bytes a).bytes b := by
  simp [Rx.bytes, List.foldl_append]

theorem bytes_cons (s : Rx) (b : UInt8) (l : Bytes) : s.bytes (b :: l) = (s.byte b).bytes l := rfl

theorem bytes_none (s : Rx) (h : s.pending = none) (l : Bytes) : s.bytes l = { s with unread := s.unread ++ l } := by
  induction l generalizing s with
  | nil => simp [Rx.bytes]
  | cons b l ih =>
    rw [bytes_cons]
    have : s.byte b = { s with unread := s.unread ++ [b] } := by unfold Rx.byte; rw [h]
    rw [this, ih { s with unread := s.unread ++ [b] } h]
    simp

theorem bytes_header (s : Rx) (f : UInt8) (size : Nat) (l : Bytes) : ∀ got, s.pending = some (.header f size got) → got.length + l.length < size - 1 →
    s.bytes l = { s with pending := some (.header f size (got ++ l)) } := by
  induction l generalizing s with
  | nil => intro got h _; rw [List.append_nil, ← h]; rfl
  | cons b l ih =>
    intro got h hl
    simp only [List.length_cons] at hl
    rw [bytes_cons]
    have : s.byte b = { s with pending := some (.header f size (got ++ [b])) } := by
      unfold Rx.byte; rw [h]; simp only; rw [if_pos (by omega)]
    rw [this, ih _ (got ++ [b]) rfl (by simp; omega)]
    simp

theorem bytes_payload (s : Rx) (h : Bytes) (size : Nat) (l : Bytes) : ∀ got, s.pending = some (.payload h size got) → got.length + l.length < size →
    s.bytes l = { s with pending := some (.payload h size (got ++ l)) } := by
  induction l generalizing s with
  | nil => intro got h _; rw [List.append_nil, ← h]; rfl
  | cons b l ih =>
    intro got h hl
    simp only [List.length_cons] at hl
    rw [bytes_cons]
    rw [show s.byte b = { s with pending := some (.payload _ size (got ++ [b])) } by
      unfold Rx.byte; rw [h]; simp only; rw [if_pos (by omega)]]
    rw [ih _ (got ++ [b]) rfl (by simp; omega)]
    simp

/-- The header is read. -/
theorem read_header (s : Rx) (hs : s.pending = some .first) {h : Bytes} {n : Nat} (he : encode s.kind n = some h) (hk : s.kind ≠ .idle) :
    s.bytes h = { s with pending := some (.payload h n []) } := by
  obtain ⟨f, rest, rfl, h1, h2, h3, h4⟩ := header_decode he hk
  simp only [List.length_cons] at h1 h2 h3
  rw [bytes_cons]
  have e1 : s.byte f = { s with pending := some (.header f (rest.length + 1) []) } := by
    unfold Rx.byte; rw [hs]; simp only [h1]; rw [if_neg (by omega), if_neg (by omega)]
  rw [e1]
  obtain ⟨l, b, rfl⟩ : ∃ l b, rest = l ++ [b] := by
    rcases List.eq_nil_or_concat rest with h | ⟨l, b, h⟩
    · rw [h] at h2; simp at h2
    · exact ⟨l, b, by simpa using h⟩
  simp only [List.length_append, List.length_cons, List.length_nil] at h3 ⊢
  rw [bytes_append, bytes_header _ f _ l [] rfl (by simp), bytes_cons]
  unfold Rx.byte
  simp only [List.nil_append]
  rw [if_neg (by omega), h3]
  simp only
  rw [if_neg (by omega)]
  rfl

/-- A packet is read. -/
theorem read_frame (s : Rx) (hs : s.pending = some .first) {h p : Bytes} (he : encode s.kind p.length = some h) (hk : s.kind ≠ .idle) :
    s.bytes (h ++ p) = s.complete h p := by
  have h0 := (encode_some he hk).1
  obtain ⟨l, b, rfl⟩ : ∃ l b, p = l ++ [b] := by
    rcases List.eq_nil_or_concat p with h | ⟨l, b, h⟩
    · rw [h] at h0; simp at h0
    · exact ⟨l, b, by simpa using h⟩
  rw [bytes_append, read_header s hs he hk, bytes_append, bytes_payload _ h _ l [] rfl (by simp), bytes_cons]
  unfold Rx.byte
  simp only [List.nil_append, List.length_append, List.length_cons, List.length_nil]
  rw [if_neg (by omega)]
  rfl

/-- A part of a packet is read. -/
theorem read_part (s : Rx) (hs : s.pending = some .first) {h p : Bytes} (he : encode s.kind p.length = some h) (hk : s.kind ≠ .idle) (v w : Bytes)
    (hv : h ++ p = v ++ w) (hw : w ≠ []) : ∃ rd, s.bytes v = { s with pending := some rd } := by
  have hwl : 0 < w.length := List.length_pos_iff.mpr hw
  by_cases hvl : v.length < h.length
  · obtain ⟨f, rest, rfl, h1, h2, h3, h4⟩ := header_decode he hk
    cases v with
    | nil => exact ⟨.first, by rw [← hs]; rfl⟩
    | cons x v =>
      simp only [List.cons_append, List.cons.injEq] at hv
      obtain ⟨rfl, hv⟩ := hv
      simp only [List.length_cons] at h1 h2 hvl
      rw [bytes_cons]
      have e1 : s.byte f = { s with pending := some (.header f (rest.length + 1) []) } := by
        unfold Rx.byte; rw [hs]; simp only [h1]; rw [if_neg (by omega), if_neg (by omega)]
      rw [e1]
      rw [bytes_header _ f _ v [] rfl (by simp; omega)]
      exact ⟨_, rfl⟩
  · obtain ⟨v', hv'⟩ : h <+: v := List.prefix_of_prefix_length_le (List.prefix_append h p) (by rw [hv]; exact List.prefix_append v w) (by omega)
    rw [← hv'] at hv ⊢
    rw [List.append_assoc] at hv
    have hp := List.append_cancel_left hv
    have hl := congrArg List.length hp
    simp only [List.length_append] at hl
    rw [bytes_append, read_header s hs he hk, bytes_payload _ h _ v' [] rfl (by simp; omega)]
    exact ⟨_, rfl⟩

/-! ### Packets one after the other -/

/-- The state between two packets. -/
def ready (c : Rx) (out : List Packet) : Rx := { c with started := true, pending := some .first, unread := [], out := out }

/-- The state after a packet, when nobody started a read yet. -/
def resting (c : Rx) (out : List Packet) (u : Bytes) : Rx := { c with started := false, pending := none, unread := u, out := out }

def handedAll (keep : Bool) (fs : List (Bytes × Bytes)) : List Packet := fs.map fun x => handed keep x.1 x.2

theorem complete_auto (c : Rx) (out : List Packet) (h p : Bytes) (ha : c.auto = true) :
    (ready c out).complete h p = ready c (out ++ [handed c.keepHeader h p]) := by
  unfold Rx.complete ready
  simp only [ha, if_true, Rx.startRead]
  unfold handed
  cases hk : c.keepHeader <;> simp

theorem complete_manual (c : Rx) (out : List Packet) (h p : Bytes) (ha : c.auto = false) :
    (ready c out).complete h p = resting c (out ++ [handed c.keepHeader h p]) [] := by
  unfold Rx.complete ready resting
  simp only [ha, Bool.false_eq_true, if_false]
  unfold handed
  cases hk : c.keepHeader <;> simp

theorem stream_cons (x : Bytes × Bytes) (l : List (Bytes × Bytes)) : stream (x :: l) = (x.1 ++ x.2) ++ stream l := by simp [stream]

theorem stream_append (a b : List (Bytes × Bytes)) : stream (a ++ b) = stream a ++ stream b := by simp [stream]

/-- How far reading is: after `k` packets, with the bytes `u` behind them. -/
structure At (c : Rx) (out : List Packet) (fs : List (Bytes × Bytes)) (k : Nat) (u : Bytes) (s : Rx) : Prop where
  le : k ≤ fs.length
  state : (c.auto = false ∧ s = resting c (out ++ handedAll c.keepHeader (fs.take k)) u) ∨
    (s = (ready c (out ++ handedAll c.keepHeader (fs.take k))).bytes u ∧
      (∃ rd, s = { ready c (out ++ handedAll c.keepHeader (fs.take k)) with pending := some rd }) ∧
      ((k = fs.length ∧ u = []) ∨ ∃ x, fs[k]? = some x ∧ u.length < (x.1 ++ x.2).length))

theorem read_stream (c : Rx) (hk : c.kind ≠ .idle) (fs : List (Bytes × Bytes)) (hfs : ∀ x ∈ fs, Framed c.kind x) :
    ∀ (out : List Packet) (v : Bytes), v <+: stream fs → ∃ k u, v = stream (fs.take k) ++ u ∧ At c out fs k u ((ready c out).bytes v) ∧
      (0 < k ∨ (k = 0 ∧ ∃ rd, (ready c out).bytes v = { ready c out with pending := some rd })) := by
  induction fs with
  | nil =>
    intro out v hv
    simp only [stream, List.map_nil, List.flatten_nil, List.prefix_nil] at hv
    subst hv
    refine ⟨0, [], by simp [stream], ⟨by simp, Or.inr ⟨?_, ?_, Or.inl ⟨rfl, rfl⟩⟩⟩, Or.inr ⟨rfl, .first, rfl⟩⟩
    · simp [handedAll]
    · exact ⟨.first, by simp [handedAll, ready, Rx.bytes]⟩
  | cons x fs ih =>
    intro out v hv
    have hx := hfs x List.mem_cons_self
    rw [stream_cons] at hv
    by_cases hvl : v.length < (x.1 ++ x.2).length
    · obtain ⟨w, hw⟩ : v <+: x.1 ++ x.2 := List.prefix_of_prefix_length_le hv (List.prefix_append _ _) (by omega)
      have hwn : w ≠ [] := by
        rintro rfl
        rw [List.append_nil] at hw
        rw [hw] at hvl
        exact absurd hvl (by omega)
      obtain ⟨rd, hrd⟩ := read_part (ready c out) rfl (h := x.1) (p := x.2) hx.header hk v w hw.symm hwn
      refine ⟨0, v, by simp [stream], ⟨by simp, Or.inr ⟨by simp [handedAll], ⟨rd, by simpa [handedAll] using hrd⟩, Or.inr ⟨x, by simp, hvl⟩⟩⟩, Or.inr ⟨rfl, rd, hrd⟩⟩
    · obtain ⟨w, hw⟩ : x.1 ++ x.2 <+: v := List.prefix_of_prefix_length_le (List.prefix_append _ _) hv (by omega)
      subst hw
      have hw := (List.prefix_append_right_inj _).mp hv
      rw [bytes_append, read_frame (ready c out) rfl (h := x.1) (p := x.2) hx.header hk]
      by_cases ha : c.auto = true
      · rw [complete_auto c out _ _ ha]
        obtain ⟨k, u, e1, e2, _⟩ := ih (fun y hy => hfs y (List.mem_cons_of_mem _ hy)) (out ++ [handed c.keepHeader x.1 x.2]) w hw
        refine ⟨k + 1, u, ?_, ⟨by have := e2.le; simp; omega, ?_⟩, Or.inl (by omega)⟩
        · rw [List.take_succ_cons, stream_cons, e1]; simp
        · have hout : out ++ handedAll c.keepHeader (List.take (k + 1) (x :: fs)) =
              out ++ [handed c.keepHeader x.1 x.2] ++ handedAll c.keepHeader (List.take k fs) := by simp [handedAll]
          rw [hout]
          rcases e2.state with h | ⟨h1, h2, h3⟩
          · exact Or.inl h
          · refine Or.inr ⟨h1, h2, ?_⟩
            rcases h3 with ⟨h3, h4⟩ | h3
            · exact Or.inl ⟨by simp [h3], h4⟩
            · exact Or.inr (by simpa using h3)
      · have ha : c.auto = false := by simpa using ha
        rw [complete_manual c out _ _ ha, bytes_none _ rfl]
        refine ⟨1, w, by simp [stream], ⟨by simp, Or.inl ⟨ha, ?_⟩⟩, Or.inl (by omega)⟩
        simp [resting, handedAll]

theorem stream_take_drop (fs : List (Bytes × Bytes)) (k : Nat) : stream (fs.take k) ++ stream (fs.drop k) = stream fs := by
  rw [← stream_append, List.take_append_drop]

/-- After more bytes came. -/
theorem at_bytes {c : Rx} (hk : c.kind ≠ .idle) {fs : List (Bytes × Bytes)} (hfs : ∀ x ∈ fs, Framed c.kind x) {out : List Packet} {k : Nat} {u : Bytes}
    {s : Rx} (h : At c out fs k u s) (l : Bytes) (hp : stream (fs.take k) ++ u ++ l <+: stream fs) :
    ∃ k' u', stream (fs.take k) ++ u ++ l = stream (fs.take k') ++ u' ∧ k ≤ k' ∧ At c out fs k' u' (s.bytes l) := by
  rcases h.state with ⟨ha, rfl⟩ | ⟨hs, _, _⟩
  · refine ⟨k, u ++ l, by simp, le_refl _, h.le, Or.inl ⟨ha, ?_⟩⟩
    rw [bytes_none _ rfl]
    simp [resting]
  · rw [hs, ← bytes_append]
    rw [List.append_assoc, ← stream_take_drop fs k] at hp
    have hp := (List.prefix_append_right_inj _).mp hp
    obtain ⟨k', u', e1, e2, _⟩ := read_stream c hk (fs.drop k) (fun x hx => hfs x (List.mem_of_mem_drop hx))
      (out ++ handedAll c.keepHeader (fs.take k)) (u ++ l) hp
    refine ⟨k + k', u', ?_, by omega, ?_⟩
    · rw [List.append_assoc, e1, ← List.append_assoc, ← stream_append, List.take_add]
    · have hout : out ++ handedAll c.keepHeader (fs.take k) ++ handedAll c.keepHeader ((fs.drop k).take k') =
          out ++ handedAll c.keepHeader (fs.take (k + k')) := by simp [handedAll, List.take_add]
      have hle := e2.le
      simp only [List.length_drop] at hle
      have := h.le
      refine ⟨by omega, ?_⟩
      rw [← hout]
      rcases e2.state with h | ⟨h1, h2, h3⟩
      · exact Or.inl h
      · refine Or.inr ⟨h1, h2, ?_⟩
        rcases h3 with ⟨h3, h4⟩ | h3
        · exact Or.inl ⟨by simp at h3; omega, h4⟩
        · exact Or.inr (by simpa using h3)

/-- After a read was started. -/
theorem at_restart {c : Rx} (hk : c.kind ≠ .idle) {fs : List (Bytes × Bytes)} (hfs : ∀ x ∈ fs, Framed c.kind x) {out : List Packet} {k : Nat} {u : Bytes}
    {s : Rx} (h : At c out fs k u s) (hp : stream (fs.take k) ++ u <+: stream fs) :
    ∃ k' u', stream (fs.take k) ++ u = stream (fs.take k') ++ u' ∧ At c out fs k' u' (s.step .restart) ∧
      (k < k' ∨ (k = k' ∧ ∃ rd, s.step .restart = { ready c (out ++ handedAll c.keepHeader (fs.take k)) with pending := some rd })) := by
  rcases h.state with ⟨ha, rfl⟩ | ⟨hs, ⟨rd, hrd⟩, h3⟩
  · have hst : (resting c (out ++ handedAll c.keepHeader (fs.take k)) u).step .restart =
        (ready c (out ++ handedAll c.keepHeader (fs.take k))).bytes u := by
      simp [Rx.step, resting, ready, Rx.startRead]
    rw [hst]
    rw [← stream_take_drop fs k] at hp
    have hp := (List.prefix_append_right_inj _).mp hp
    obtain ⟨k', u', e1, e2, e3⟩ := read_stream c hk (fs.drop k) (fun x hx => hfs x (List.mem_of_mem_drop hx))
      (out ++ handedAll c.keepHeader (fs.take k)) u hp
    refine ⟨k + k', u', ?_, ?_, ?_⟩
    · conv_lhs => rw [e1]
      rw [← List.append_assoc, ← stream_append, List.take_add]
    · have hout : out ++ handedAll c.keepHeader (fs.take k) ++ handedAll c.keepHeader ((fs.drop k).take k') =
          out ++ handedAll c.keepHeader (fs.take (k + k')) := by simp [handedAll, List.take_add]
      have hle := e2.le
      simp only [List.length_drop] at hle
      have := h.le
      refine ⟨by omega, ?_⟩
      rw [← hout]
      rcases e2.state with h | ⟨h1, h2, h3⟩
      · exact Or.inl h
      · refine Or.inr ⟨h1, h2, ?_⟩
        rcases h3 with ⟨h3, h4⟩ | h3
        · exact Or.inl ⟨by simp at h3; omega, h4⟩
        · exact Or.inr (by simpa using h3)
    · rcases e3 with h | ⟨h, hr⟩
      · exact Or.inl (by omega)
      · exact Or.inr ⟨by omega, hr⟩
  · have hst : s.step .restart = s := by
      rw [hrd]
      simp [Rx.step, ready, Rx.startRead, Rx.bytes]
    rw [hst]
    exact ⟨k, u, rfl, h, Or.inr ⟨rfl, rd, hrd⟩⟩

theorem received_append (a b : List Op) : received (a ++ b) = received a ++ received b := by
  induction a with
  | nil => rfl
  | cons op a ih => cases op <;> simp [received, ih]

theorem at_run {c : Rx} (hk : c.kind ≠ .idle) {fs : List (Bytes × Bytes)} (hfs : ∀ x ∈ fs, Framed c.kind x) {out : List Packet} (ops : List Op)
    (hc : connected ops) : ∀ {k : Nat} {u : Bytes} {s : Rx}, At c out fs k u s → stream (fs.take k) ++ u ++ received ops <+: stream fs →
    ∃ k' u', stream (fs.take k) ++ u ++ received ops = stream (fs.take k') ++ u' ∧ At c out fs k' u' (s.run ops) := by
  induction ops with
  | nil => intro k u s h _; exact ⟨k, u, by simp [received], h⟩
  | cons op ops ih =>
    intro k u s h hp
    have ih' := @ih fun o ho => hc o (List.mem_cons_of_mem _ ho)
    cases op with
    | bytes l =>
      simp only [received] at hp ⊢
      rw [← List.append_assoc] at hp ⊢
      obtain ⟨k', u', e1, _, e2⟩ := at_bytes hk hfs h l ((List.prefix_append _ _).trans hp)
      rw [e1] at hp ⊢
      exact ih' e2 hp
    | restart =>
      simp only [received] at hp ⊢
      obtain ⟨k', u', e1, e2, _⟩ := at_restart hk hfs h ((List.prefix_append _ _).trans hp)
      rw [e1] at hp ⊢
      exact ih' e2 hp
    | reconnect => exact absurd rfl (hc _ List.mem_cons_self)

theorem stream_pos {kind : Kind} {fs : List (Bytes × Bytes)} (hfs : ∀ x ∈ fs, Framed kind x) {k : Nat} {x : Bytes × Bytes} (hx : fs[k]? = some x) :
    (x.1 ++ x.2).length ≤ (stream (fs.drop k)).length := by
  obtain ⟨hk, rfl⟩ := List.getElem?_eq_some_iff.mp hx
  rw [List.drop_eq_getElem_cons hk, stream_cons]
  simp

end Hdtn.Encap
