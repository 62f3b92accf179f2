import Verif.FileTransfer.Spec
import Verif.FragmentSet.Props
import Mathlib.Data.List.Nodup

namespace Hdtn.FileTransfer

open FragmentSet Spec

/-! ### Headers -/

theorem le_length (k n : Nat) : (le k n).length = k := by
  induction k generalizing n with
  | zero => rfl
  | succ k ih => simp [le, ih]

theorem unle_le (k n : Nat) (h : n < 256 ^ k) : unle (le k n) = n := by
  induction k generalizing n with
  | zero => simp only [Nat.pow_zero] at h; simp only [le, unle]; omega
  | succ k ih =>
    have h1 : n / 256 < 256 ^ k := by
      rw [Nat.div_lt_iff_lt_mul (by omega)]
      rw [Nat.pow_succ] at h; omega
    simp only [le, unle, ih _ h1]
    have : (UInt8.ofNat (n % 256)).toNat = n % 256 := by
      rw [UInt8.toNat_ofNat']
      omega
    omega

theorem encode_length (h : Header) (u : Bytes) (hu : u.length = 3) : (h.encode u).length = 24 := by
  simp [Header.encode, le_length, hu]

theorem decode_encode (h : Header) (u rest : Bytes) (h1 : h.total < U64) (h2 : h.offset < U64) (h3 : h.length < U32) (h4 : h.pathLen < 256) :
    Header.decode (h.encode u ++ rest) = h := by
  have e1 : (h.encode u ++ rest).take 8 = le 8 h.total := by
    rw [Header.encode]
    simp only [List.append_assoc]
    rw [List.take_append_of_le_length (by rw [le_length]), List.take_of_length_le (by rw [le_length])]
  have d1 : (h.encode u ++ rest).drop 8 = le 8 h.offset ++ (le 4 h.length ++ (le 1 h.pathLen ++ (u ++ rest))) := by
    rw [Header.encode]
    simp only [List.append_assoc]
    rw [List.drop_append_of_le_length (by rw [le_length]), List.drop_of_length_le (by rw [le_length]), List.nil_append]
  have d2 : (h.encode u ++ rest).drop 16 = le 4 h.length ++ (le 1 h.pathLen ++ (u ++ rest)) := by
    have : (16 : Nat) = 8 + 8 := rfl
    rw [this, ← List.drop_drop, d1, List.drop_append_of_le_length (by rw [le_length]), List.drop_of_length_le (by rw [le_length]), List.nil_append]
  have d3 : (h.encode u ++ rest).drop 20 = le 1 h.pathLen ++ (u ++ rest) := by
    have : (20 : Nat) = 16 + 4 := rfl
    rw [this, ← List.drop_drop, d2, List.drop_append_of_le_length (by rw [le_length]), List.drop_of_length_le (by rw [le_length]), List.nil_append]
  unfold Header.decode
  rw [e1, d1, d2, d3]
  have t : ∀ (k n : Nat) (l : Bytes), (le k n ++ l).take k = le k n := by
    intro k n l
    rw [List.take_append_of_le_length (by rw [le_length]), List.take_of_length_le (by rw [le_length])]
  rw [t, t, t, unle_le 8 _ (by simpa [U64] using h1), unle_le 8 _ (by simpa [U64] using h2), unle_le 4 _ (by simpa [U32] using h3),
    unle_le 1 _ (by simpa using h4)]

/-! ### Writing -/

theorem writeAt_get (c : Bytes) (off : Nat) (d : Bytes) (k : Nat) :
    (writeAt c off d)[k]? =
      if off ≤ k ∧ k < off + d.length then d[k - off]?
      else if k < c.length then c[k]?
      else if k < off then some 0
      else none := by
  have hl : ((c ++ List.replicate (off - c.length) 0).take off).length = off := by
    simp; omega
  unfold writeAt
  by_cases h1 : k < off
  · rw [if_neg (by omega), List.append_assoc, List.getElem?_append_left (by omega), List.getElem?_take_of_lt h1]
    by_cases h2 : k < c.length
    · rw [if_pos h2, List.getElem?_append_left h2]
    · rw [if_neg h2, if_pos h1, List.getElem?_append_right (by omega), List.getElem?_replicate, if_pos (by omega)]
  · by_cases h2 : k < off + d.length
    · rw [if_pos ⟨by omega, h2⟩, List.append_assoc, List.getElem?_append_right (by omega), hl, List.getElem?_append_left (by omega)]
    · rw [if_neg (by omega), List.getElem?_append_right (by simp only [List.length_append, hl]; omega)]
      simp only [List.length_append, hl, List.getElem?_drop]
      have : off + d.length + (k - (off + d.length)) = k := by omega
      rw [this]
      by_cases h3 : k < c.length
      · rw [if_pos h3]
      · rw [if_neg h3, if_neg h1, List.getElem?_eq_none (by omega)]

theorem writeAt_length (c : Bytes) (off : Nat) (d : Bytes) : (writeAt c off d).length = Nat.max c.length (off + d.length) := by
  unfold writeAt
  show _ = max c.length (off + d.length)
  simp
  omega

/-! ### What was received of a file -/

theorem received_iff {set : List Frag} {total : Nat} (hc : Canonical set) (ht : 0 < total) (hU : total < U64) (hb : ∀ x, Covers set x → x < total) :
    received set total = true ↔ ∀ x, x < total → Covers set x := by
  constructor
  · intro h x hx
    unfold received at h
    split at h
    · rename_i f
      simp only [Bool.and_eq_true, beq_iff_eq] at h
      exact ⟨f, by simp, by unfold Frag.Has; omega⟩
    · simp at h
  · intro h
    have h1 : set = [⟨0, total - 1⟩] := by
      refine canonical_unique _ _ hc ?_ ?_
      · rw [canonical_cons]
        refine ⟨⟨by simp, ?_⟩, by simp, canonical_nil⟩
        show total - 1 + 1 < U64
        omega
      · intro x
        rw [covers_cons]
        constructor
        · intro hx
          have := hb x hx
          left; unfold Frag.Has; simp; omega
        · rintro (hx | hx)
          · simp only [Frag.Has] at hx
            exact h x (by omega)
          · exact absurd hx (covers_nil x)
    rw [h1]
    simp [received]

theorem covers_ne_nil {set : List Frag} {x : Nat} (h : Covers set x) : set ≠ [] := by
  rintro rfl
  exact covers_nil x h

theorem nil_of_not_covers {set : List Frag} (hc : Canonical set) (h : ∀ x, ¬ Covers set x) : set = [] := by
  cases set with
  | nil => rfl
  | cons f l =>
    have := (canonical_cons f l).mp hc
    exact absurd ⟨f, by simp, by unfold Frag.Has; exact ⟨le_refl _, this.1.1⟩⟩ (h f.b)

/-! ### The sender -/

/-- The payload for a piece of a file. -/
def piece (u : Bytes) (f : File) (off len : Nat) : Bytes :=
  Header.encode ⟨f.2.length, off, len, f.1.length⟩ u ++ f.1 ++ (f.2.drop off).take len

/-- The ways the rest of a file is sent. -/
theorem emit_rest (max : Nat) (u : Bytes) (hm : 0 < max) (hM : max < U32) (rest : List (Bytes × Option Bytes)) (p c : Bytes) :
    ∀ off, off < c.length → ∃ ps : List Bytes, ps ≠ [] ∧ ps.flatten = c.drop off ∧ (∀ x ∈ ps, x.length ≤ max ∧ x ≠ []) ∧
      ∀ n, payloads max u (ps.length + n) ⟨rest, some (p, c, off)⟩ = packed u p c.length off ps ++ payloads max u n ⟨rest, none⟩ := by
  intro off
  induction h : c.length - off using Nat.strongRecOn generalizing off with
  | ind d ih =>
    intro ho
    have hlen : min (c.length - off) max % U32 = min (c.length - off) max := Nat.mod_eq_of_lt (by omega)
    by_cases hend : c.length - off ≤ max
    · refine ⟨[c.drop off], by simp, by simp, ?_, ?_⟩
      · intro x hx
        simp only [List.mem_singleton] at hx
        subst hx
        refine ⟨by simp; omega, ?_⟩
        intro hx
        have := congrArg List.length hx
        simp at this
        omega
      · intro n
        have hmin : min (c.length - off) max = c.length - off := by omega
        rw [show [c.drop off].length + n = n + 1 by simp; omega]
        rw [hmin] at hlen
        simp only [payloads, Sender.next, Sender.emit, hmin, hlen]
        rw [if_pos (by omega)]
        simp only [packed, List.length_drop, List.cons_append, List.nil_append]
        rw [List.take_of_length_le (by simp)]
    · have hmin : min (c.length - off) max = max := by omega
      obtain ⟨ps, h1, h2, h3, h4⟩ := ih (c.length - (off + max)) (by omega) (off + max) rfl (by omega)
      have hl : ((c.drop off).take max).length = max := by simp; omega
      refine ⟨(c.drop off).take max :: ps, by simp, ?_, ?_, ?_⟩
      · rw [List.flatten_cons, h2, ← List.drop_drop, List.take_append_drop]
      · intro x hx
        rcases List.mem_cons.mp hx with rfl | hx
        · refine ⟨by omega, ?_⟩
          intro hx
          rw [hx] at hl
          simp at hl
          omega
        · exact h3 x hx
      · intro n
        rw [show ((c.drop off).take max :: ps).length + n = (ps.length + n) + 1 by simp; omega]
        rw [hmin] at hlen
        simp only [payloads, Sender.next, Sender.emit, hmin, hlen]
        rw [if_neg (by omega)]
        simp only [packed, hl, List.cons_append]
        rw [show max + off = off + max by omega, h4 n]

theorem emit_file (max : Nat) (u : Bytes) (hm : 0 < max) (hM : max < U32) (rest : List (Bytes × Option Bytes)) (p c : Bytes) (hp : p.length ≤ 255) :
    ∃ ps : List Bytes, Cut max c ps ∧
      ∀ n, payloads max u (ps.length + n) ⟨(p, some c) :: rest, none⟩ = packed u p c.length 0 ps ++ payloads max u n ⟨rest, none⟩ := by
  by_cases hc : c = []
  · subst hc
    refine ⟨[[]], ⟨by simp, by simp, by simp, by simp⟩, ?_⟩
    intro n
    rw [show [([] : Bytes)].length + n = n + 1 by simp; omega]
    have hp' : ¬ p.length > 255 := by omega
    simp only [payloads, Sender.next, if_neg hp', Sender.emit]
    simp [packed]
  · have hl : 0 < c.length := List.length_pos_iff.mpr hc
    obtain ⟨ps, h1, h2, h3, h4⟩ := emit_rest max u hm hM rest p c 0 hl
    refine ⟨ps, ⟨by simpa using h2, h1, fun x hx => (h3 x hx).1, fun _ x hx => (h3 x hx).2⟩, ?_⟩
    intro n
    rw [← h4 n]
    have : 0 < ps.length := List.length_pos_iff.mpr h1
    obtain ⟨k, hk⟩ : ∃ k, ps.length + n = k + 1 := ⟨ps.length + n - 1, by omega⟩
    rw [hk]
    have hp' : ¬ p.length > 255 := by omega
    simp only [payloads, Sender.next, if_neg hp']

/-- All files are sent. -/
theorem sends (max : Nat) (u : Bytes) (hm : 0 < max) (hM : max < U32) (files : List File) (hp : ∀ f ∈ files, f.1.length ≤ 255) :
    ∃ cuts : List (List Bytes), List.Forall₂ (fun (f : File) ps => Cut max f.2 ps) files cuts ∧
      ∃ n0, ∀ n, payloads max u (n0 + n) (sending files) = ((files.zip cuts).map fun x => packed u x.1.1 x.1.2.length 0 x.2).flatten := by
  induction files with
  | nil =>
    refine ⟨[], .nil, 0, ?_⟩
    intro n
    cases n <;> simp [payloads, sending, Sender.next]
  | cons f files ih =>
    obtain ⟨cuts, h1, n0, h2⟩ := ih fun f hf => hp f (List.mem_cons_of_mem _ hf)
    obtain ⟨ps, h3, h4⟩ := emit_file max u hm hM (files.map fun f => (f.1, some f.2)) f.1 f.2 (hp f List.mem_cons_self)
    refine ⟨ps :: cuts, .cons h3 h1, ps.length + n0, ?_⟩
    intro n
    have := h4 (n0 + n)
    rw [Nat.add_assoc]
    simp only [sending, List.map_cons]
    rw [this]
    simp only [List.zip_cons_cons, List.map_cons, List.flatten_cons]
    rw [← h2 n]
    rfl

/-! ### The receiver -/

/-- The payload is one for a piece of one of the files. -/
def IsPiece (u : Bytes) (f : File) (b : Bytes) : Prop :=
  ∃ off len, off + len ≤ f.2.length ∧ len ≤ 2000000000 ∧ b = piece u f off len

/-- Something of this path came. -/
def Touched (past : List Bytes) (p : Bytes) : Prop := ∃ b ∈ past, pathOf b = p

/-- A position of this path came. -/
def Got (past : List Bytes) (p : Bytes) (x : Nat) : Prop :=
  ∃ b ∈ past, pathOf b = p ∧ (Header.decode b).offset ≤ x ∧ x < (Header.decode b).offset + (Header.decode b).length

theorem piece_decode {u : Bytes} {f : File} {off len : Nat} (hp : f.1.length ≤ 255) (hs : f.2.length ≤ 8000000000)
    (hl : off + len ≤ f.2.length) (hL : len ≤ 2000000000) : Header.decode (piece u f off len) = ⟨f.2.length, off, len, f.1.length⟩ := by
  unfold piece
  rw [List.append_assoc]
  refine decode_encode _ _ _ ?_ ?_ ?_ ?_ <;> simp only [U64, U32] <;> omega

theorem piece_pathOf {u : Bytes} {f : File} {off len : Nat} (hu : u.length = 3) (hp : f.1.length ≤ 255) (hs : f.2.length ≤ 8000000000)
    (hl : off + len ≤ f.2.length) (hL : len ≤ 2000000000) : pathOf (piece u f off len) = f.1 := by
  unfold pathOf
  rw [piece_decode hp hs hl hL]
  show List.take f.1.length (List.drop 24 (piece u f off len)) = f.1
  unfold piece
  rw [List.append_assoc, List.drop_append_of_le_length (by rw [encode_length _ _ hu]), List.drop_of_length_le (by rw [encode_length _ _ hu]),
    List.nil_append, List.take_append_of_le_length (Nat.le_refl _), List.take_of_length_le (Nat.le_refl _)]

theorem piece_rest {u : Bytes} {f : File} {off len : Nat} (hu : u.length = 3) :
    (piece u f off len).drop (24 + f.1.length) = (f.2.drop off).take len := by
  unfold piece
  have : (Header.encode ⟨f.2.length, off, len, f.1.length⟩ u ++ f.1).length = 24 + f.1.length := by
    rw [List.length_append, encode_length _ _ hu]
  rw [← this, List.drop_left]

theorem piece_length {u : Bytes} {f : File} {off len : Nat} (hu : u.length = 3) (hl : off + len ≤ f.2.length) :
    (piece u f off len).length = 24 + f.1.length + len := by
  unfold piece
  rw [List.length_append, List.length_append, encode_length _ _ hu]
  simp; omega

/-- What the receiver does with a piece of a file. -/
theorem process_piece (env : Env) (r : Receiver) {u : Bytes} {f : File} {off len : Nat} (hu : u.length = 3) (hp : f.1.length ≤ 255)
    (hs : f.2.length ≤ 8000000000) (hl : off + len ≤ f.2.length) (hL : len ≤ 2000000000) (hsv : r.saving = true)
    (hm : env.mkdir f.1 = true) (ho : env.canOpen f.1 = true) :
    r.process env (piece u f off len) =
      if f.2.length = 0 then
        if (r.info f.1).1.isEmpty then (if (r.files f.1).isSome then .done r true else .done (r.setFile f.1 []) true) else .done r true
      else if len = 0 then .done r true
      else if (r.info f.1).1.isEmpty then
        if (r.files f.1).isSome then .done r true
        else (r.setFile f.1 []).write f.1 ⟨f.2.length, off, len, f.1.length⟩ ((f.2.drop off).take len) true
      else if received (r.info f.1).1 f.2.length then .done r true
      else r.write f.1 ⟨f.2.length, off, len, f.1.length⟩ ((f.2.drop off).take len) (r.info f.1).2 := by
  have hd := piece_decode (u := u) hp hs hl hL
  have hpath := piece_pathOf hu hp hs hl hL
  unfold pathOf at hpath
  rw [hd] at hpath
  have hpath' : List.take f.1.length (List.drop 24 (piece u f off len)) = f.1 := hpath
  have hlen := piece_length (u := u) (f := f) (off := off) (len := len) hu hl
  unfold Receiver.process
  rw [if_neg (by omega), hd]
  simp only [hpath', piece_rest hu, hsv, hm, ho]
  rw [if_neg (by omega), if_neg (by omega), if_neg (by omega), if_neg (by omega)]
  simp

/-- What is true of a file of which these payloads came. -/
structure FileInv (past : List Bytes) (r : Receiver) (f : File) : Prop where
  canon : Canonical (r.info f.1).1
  cov : ∀ x, Covers (r.info f.1).1 x ↔ Got past f.1 x
  bound : ∀ x, Got past f.1 x → x < f.2.length
  none : (r.info f.1).1 = [] → r.files f.1 = none ∨ (f.2 = [] ∧ r.files f.1 = some [])
  empty : f.2 = [] → Touched past f.1 → r.files f.1 = some []
  some : (r.info f.1).1 ≠ [] → ∃ c, r.files f.1 = some c ∧ c.length ≤ f.2.length ∧ (∀ x, Got past f.1 x → c[x]? = f.2[x]?) ∧
    (∀ x, x < c.length → ¬ Got past f.1 x → c[x]? = some 0) ∧ ((r.info f.1).2 = true ∨ received (r.info f.1).1 f.2.length = true)

theorem got_cons (b : Bytes) (past : List Bytes) (p : Bytes) (x : Nat) :
    Got (b :: past) p x ↔ (pathOf b = p ∧ (Header.decode b).offset ≤ x ∧ x < (Header.decode b).offset + (Header.decode b).length) ∨ Got past p x := by
  simp [Got]

theorem touched_cons (b : Bytes) (past : List Bytes) (p : Bytes) : Touched (b :: past) p ↔ pathOf b = p ∨ Touched past p := by
  simp [Touched]

/-- Other files do not matter. -/
theorem fileInv_frame {past : List Bytes} {r r' : Receiver} {f : File} {b : Bytes} (h : FileInv past r f) (hne : pathOf b ≠ f.1)
    (hf : r'.files f.1 = r.files f.1) (hi : r'.info f.1 = r.info f.1) : FileInv (b :: past) r' f := by
  have hg : ∀ x, Got (b :: past) f.1 x ↔ Got past f.1 x := by
    intro x; rw [got_cons]; constructor
    · rintro (⟨h, _⟩ | h)
      · exact absurd h hne
      · exact h
    · exact Or.inr
  have ht : Touched (b :: past) f.1 ↔ Touched past f.1 := by
    rw [touched_cons]; simp [hne]
  obtain ⟨h1, h2, h3, h4, h5, h6⟩ := h
  constructor <;> simp only [hg, ht, hf, hi] <;> assumption

/-- A piece of the file is written. -/
theorem write_inv {past : List Bytes} {r : Receiver} {f : File} {off len : Nat} {u : Bytes} (hu : u.length = 3) (hp : f.1.length ≤ 255)
    (hs : f.2.length ≤ 8000000000) (hl : off + len ≤ f.2.length) (hL : len ≤ 2000000000) (h0 : len ≠ 0) (hsv : r.saving = true)
    (c : Bytes) (hc : r.files f.1 = some c) (hcl : c.length ≤ f.2.length) (canon : Canonical (r.info f.1).1)
    (cov : ∀ x, Covers (r.info f.1).1 x ↔ Got past f.1 x) (bound : ∀ x, Got past f.1 x → x < f.2.length)
    (hg : ∀ x, Got past f.1 x → c[x]? = f.2[x]?) (hn : ∀ x, x < c.length → ¬ Got past f.1 x → c[x]? = some 0) :
    ∃ r', r.write f.1 ⟨f.2.length, off, len, f.1.length⟩ ((f.2.drop off).take len) true = .done r' true ∧ r'.saving = true ∧
      (∀ q, q ≠ f.1 → r'.files q = r.files q ∧ r'.info q = r.info q) ∧ FileInv (piece u f off len :: past) r' f := by
  have hdl : ((f.2.drop off).take len).length = len := by simp; omega
  unfold Receiver.write
  simp only [hsv, if_true]
  rw [hdl, if_neg (by simp), if_neg (by omega), hc]
  refine ⟨_, rfl, hsv, ?_, ?_⟩
  · intro q hq
    simp [Receiver.setFile, Receiver.setInfo, hq]
  · have hv : Frag.Valid ⟨off, off + len - 1⟩ := by
      constructor
      · show off ≤ off + len - 1; omega
      · show off + len - 1 + 1 < U64; simp only [U64]; omega
    obtain ⟨hi1, hi2, _⟩ := insertLoop_spec (r.info f.1).1 ⟨off, off + len - 1⟩ false canon hv
    change Canonical (insertFragment (r.info f.1).1 ⟨off, off + len - 1⟩).1 at hi1
    change ∀ x, Covers (insertFragment (r.info f.1).1 ⟨off, off + len - 1⟩).1 x ↔ _ at hi2
    generalize (insertFragment (r.info f.1).1 ⟨off, off + len - 1⟩).1 = set at hi1 hi2
    have hgot : ∀ x, Got (piece u f off len :: past) f.1 x ↔ (off ≤ x ∧ x < off + len) ∨ Got past f.1 x := by
      intro x
      rw [got_cons, piece_decode hp hs hl hL, piece_pathOf hu hp hs hl hL]
      simp
    have hb : ∀ x, Got (piece u f off len :: past) f.1 x → x < f.2.length := by
      intro x hx
      rcases (hgot x).mp hx with hx | hx
      · omega
      · exact bound x hx
    have hcov : ∀ x, Covers set x ↔ Got (piece u f off len :: past) f.1 x := by
      intro x
      rw [hi2, hgot, cov]
      unfold Frag.Has
      show _ ∨ (off ≤ x ∧ x ≤ off + len - 1) ↔ _
      constructor
      · rintro (h | h)
        · exact Or.inr h
        · exact Or.inl (by omega)
      · rintro (h | h)
        · exact Or.inr (by omega)
        · exact Or.inl h
    have hne : set ≠ [] := covers_ne_nil ((hcov off).mpr ((hgot off).mpr (Or.inl (by omega))))
    have hfi : ∀ (rr : Receiver) (x : List Frag × Bool) (d : Bytes), ((rr.setInfo f.1 x).setFile f.1 d).info f.1 = x := by
      intro rr x d; simp [Receiver.setFile, Receiver.setInfo]
    have hff : ∀ (rr : Receiver) (x : List Frag × Bool) (d : Bytes), ((rr.setInfo f.1 x).setFile f.1 d).files f.1 = some d := by
      intro rr x d; simp [Receiver.setFile]
    refine ⟨?_, ?_, hb, ?_, ?_, ?_⟩
    · rw [hfi]; exact hi1
    · rw [hfi]; exact hcov
    · rw [hfi]; intro h; exact absurd h hne
    · intro h
      rw [h] at hl
      simp at hl
      omega
    · intro _
      rw [hfi, hff]
      refine ⟨_, rfl, ?_, ?_, ?_, ?_⟩
      · rw [writeAt_length]
        show max _ _ ≤ _
        simp only [List.length_take, List.length_drop]
        omega
      · intro x hx
        rw [writeAt_get]
        have hxl := hb x hx
        have htt : (List.take len (List.take len (List.drop off f.2))) = List.take len (List.drop off f.2) := by
          rw [List.take_take, Nat.min_self]
        simp only [htt, hdl]
        by_cases hin : off ≤ x ∧ x < off + len
        · rw [if_pos hin, List.getElem?_take_of_lt (by omega), List.getElem?_drop]
          congr 1; omega
        · rw [if_neg hin]
          have hx' : Got past f.1 x := by
            rcases (hgot x).mp hx with h | h
            · exact absurd h hin
            · exact h
          have hgx := hg x hx'
          have hxc : x < c.length := by
            by_contra hcon
            rw [List.getElem?_eq_none (by omega)] at hgx
            rw [List.getElem?_eq_getElem hxl] at hgx
            cases hgx
          rw [if_pos hxc, hgx]
      · intro x hx hnx
        rw [writeAt_length] at hx
        rw [writeAt_get]
        have htt : (List.take len (List.take len (List.drop off f.2))) = List.take len (List.drop off f.2) := by
          rw [List.take_take, Nat.min_self]
        simp only [htt, hdl] at hx ⊢
        have hx : x < max c.length (off + len) := hx
        have hin : ¬ (off ≤ x ∧ x < off + len) := fun h => hnx ((hgot x).mpr (Or.inl h))
        have hpast : ¬ Got past f.1 x := fun h => hnx ((hgot x).mpr (Or.inr h))
        rw [if_neg hin]
        by_cases hxc : x < c.length
        · rw [if_pos hxc]; exact hn x hxc hpast
        · rw [if_neg hxc, if_pos (by omega)]
      · cases received set f.2.length <;> simp

/-- A payload of one of the files is processed. -/
theorem process_inv (env : Env) {past : List Bytes} {r : Receiver} {f : File} {b : Bytes} {u : Bytes} (hu : u.length = 3) (hp : f.1.length ≤ 255)
    (hs : f.2.length ≤ 8000000000) (hb : IsPiece u f b) (hsv : r.saving = true) (hm : env.mkdir f.1 = true) (ho : env.canOpen f.1 = true)
    (h : FileInv past r f) :
    ∃ r', r.process env b = .done r' true ∧ r'.saving = true ∧ (∀ q, q ≠ f.1 → r'.files q = r.files q ∧ r'.info q = r.info q) ∧
      FileInv (b :: past) r' f := by
  obtain ⟨off, len, hl, hL, rfl⟩ := hb
  rw [process_piece env r hu hp hs hl hL hsv hm ho]
  have hgot : ∀ x, Got (piece u f off len :: past) f.1 x ↔ (off ≤ x ∧ x < off + len) ∨ Got past f.1 x := by
    intro x
    rw [got_cons, piece_decode hp hs hl hL, piece_pathOf hu hp hs hl hL]
    simp
  obtain ⟨h1, h2, h3, h4, h5, h6⟩ := h
  by_cases ht : f.2.length = 0
  · rw [if_pos ht]
    have hnil : f.2 = [] := List.length_eq_zero_iff.mp ht
    have hset : (r.info f.1).1 = [] := nil_of_not_covers h1 fun x hx => by
      have := h3 x ((h2 x).mp hx); omega
    have hng : ∀ x, ¬ Got past f.1 x := fun x hx => by have := h3 x hx; omega
    have hng' : ∀ x, ¬ Got (piece u f off len :: past) f.1 x := fun x hx => by
      rcases (hgot x).mp hx with hx | hx
      · omega
      · exact hng x hx
    rw [hset]
    simp only [List.isEmpty_nil, if_true]
    have key : ∀ r' : Receiver, r'.info f.1 = r.info f.1 → r'.files f.1 = some [] → FileInv (piece u f off len :: past) r' f := by
      intro r' hi hf
      refine ⟨by rw [hi]; exact h1, ?_, fun x hx => absurd hx (hng' x), ?_, fun _ _ => hf, ?_⟩
      · intro x; rw [hi, hset]
        exact ⟨fun hx => absurd hx (covers_nil x), fun hx => absurd hx (hng' x)⟩
      · intro _; exact Or.inr ⟨hnil, hf⟩
      · intro hne; rw [hi] at hne; exact absurd hset hne
    rcases h4 hset with hno | ⟨_, hso⟩
    · rw [hno]
      refine ⟨r.setFile f.1 [], by simp, hsv, ?_, key _ rfl (by simp [Receiver.setFile])⟩
      intro q hq; simp [Receiver.setFile, hq]
    · rw [hso]
      exact ⟨r, by simp, hsv, fun q _ => ⟨rfl, rfl⟩, key _ rfl hso⟩
  · rw [if_neg ht]
    have hnn : f.2 ≠ [] := fun hh => ht (by rw [hh]; rfl)
    -- nothing changes when nothing new comes
    have keep : (∀ x, Got (piece u f off len :: past) f.1 x ↔ Got past f.1 x) → FileInv (piece u f off len :: past) r f := by
      intro hg
      refine ⟨h1, ?_, ?_, h4, fun hh => absurd hh hnn, ?_⟩
      · intro x; rw [hg]; exact h2 x
      · intro x; rw [hg]; exact h3 x
      · intro hne
        obtain ⟨c, c1, c2, c3, c4, c5⟩ := h6 hne
        exact ⟨c, c1, c2, fun x hx => c3 x ((hg x).mp hx), fun x hx hn => c4 x hx fun hh => hn ((hg x).mpr hh), c5⟩
    by_cases hl0 : len = 0
    · rw [if_pos hl0]
      refine ⟨r, rfl, hsv, fun q _ => ⟨rfl, rfl⟩, keep ?_⟩
      intro x; rw [hgot]
      constructor
      · rintro (hx | hx)
        · omega
        · exact hx
      · exact Or.inr
    · rw [if_neg hl0]
      by_cases hset : (r.info f.1).1 = []
      · have hno : r.files f.1 = none := by
          rcases h4 hset with hh | ⟨hh, _⟩
          · exact hh
          · exact absurd hh hnn
        rw [hset, hno]
        simp only [List.isEmpty_nil, if_true, Option.isSome_none, if_false, Bool.false_eq_true]
        have hi : (r.setFile f.1 []).info f.1 = r.info f.1 := rfl
        have hng : ∀ x, ¬ Got past f.1 x := by
          intro x hx
          have := (h2 x).mpr hx
          rw [hset] at this
          exact covers_nil x this
        obtain ⟨r', w1, w2, w3, w4⟩ := write_inv (past := past) (r := r.setFile f.1 []) (u := u) hu hp hs hl hL hl0 hsv [] (by simp [Receiver.setFile]) (by simp)
          h1 h2 h3 (fun x hx => absurd hx (hng x)) (by simp)
        refine ⟨r', w1, w2, ?_, w4⟩
        intro q hq
        obtain ⟨e1, e2⟩ := w3 q hq
        exact ⟨by rw [e1]; simp [Receiver.setFile, hq], e2⟩
      · have he : (r.info f.1).1.isEmpty = false := by
          cases hh : (r.info f.1).1 with
          | nil => exact absurd hh hset
          | cons _ _ => rfl
        simp only [he, Bool.false_eq_true, if_false]
        obtain ⟨c, c1, c2, c3, c4, c5⟩ := h6 hset
        by_cases hr : received (r.info f.1).1 f.2.length = true
        · rw [if_pos hr]
          refine ⟨r, rfl, hsv, fun q _ => ⟨rfl, rfl⟩, keep ?_⟩
          have hall := (received_iff h1 (by omega) (by simp only [U64]; omega) (fun x hx => h3 x ((h2 x).mp hx))).mp hr
          intro x; rw [hgot]
          constructor
          · rintro (hx | hx)
            · exact (h2 x).mp (hall x (by omega))
            · exact hx
          · exact Or.inr
        · rw [if_neg hr]
          have hop : (r.info f.1).2 = true := by
            rcases c5 with hh | hh
            · exact hh
            · exact absurd hh hr
          rw [hop]
          exact write_inv hu hp hs hl hL hl0 hsv c c1 c2 h1 h2 h3 c3 c4

/-- What is true while payloads of the files come. -/
structure AllInv (fs : List File) (r0 : Receiver) (past : List Bytes) (r : Receiver) : Prop where
  saving : r.saving = true
  files : ∀ f ∈ fs, FileInv past r f
  others : ∀ p, (∀ f ∈ fs, f.1 ≠ p) → r.files p = r0.files p

theorem process_all (env : Env) {files : List File} {u : Bytes} (hu : u.length = 3) (hsend : Sendable files)
    (hok : ∀ f ∈ files, env.mkdir f.1 = true ∧ env.canOpen f.1 = true) (r0 : Receiver) (rx : List Bytes) :
    ∀ (past : List Bytes) (r : Receiver), AllInv files r0 past r → (∀ b ∈ rx, ∃ f ∈ files, IsPiece u f b) →
      ∃ r' oks, r.processAll env rx = some (r', oks) ∧ (∀ x ∈ oks, x = true) ∧ AllInv files r0 (rx.reverse ++ past) r' := by
  induction rx with
  | nil => intro past r h _; exact ⟨r, [], rfl, by simp, by simpa using h⟩
  | cons b rx ih =>
    intro past r h hrx
    obtain ⟨f, hf, hb⟩ := hrx b List.mem_cons_self
    have hp := hsend.paths f hf
    have hs := hsend.sizes f hf
    obtain ⟨r1, e1, e2, e3, e4⟩ := process_inv env hu hp hs hb h.saving (hok f hf).1 (hok f hf).2 (h.files f hf)
    have hpath : pathOf b = f.1 := by
      obtain ⟨off, len, hl, hL, rfl⟩ := hb
      exact piece_pathOf hu hp hs hl hL
    have hinv : AllInv files r0 (b :: past) r1 := by
      refine ⟨e2, ?_, ?_⟩
      · intro g hg
        by_cases hgf : g.1 = f.1
        · have : g = f := List.inj_on_of_nodup_map hsend.distinct hg hf hgf
          rw [this]; exact e4
        · exact fileInv_frame (h.files g hg) (by rw [hpath]; exact fun hh => hgf hh.symm) (e3 _ hgf).1 (e3 _ hgf).2
      · intro p hpn
        rw [(e3 p (fun hh => hpn f hf hh.symm)).1]
        exact h.others p hpn
    obtain ⟨r', oks, f1, f2, f3⟩ := ih (b :: past) r1 hinv fun b hb => hrx b (List.mem_cons_of_mem _ hb)
    refine ⟨r', true :: oks, ?_, ?_, ?_⟩
    · simp only [Receiver.processAll, e1, f1]
    · intro x hx
      rcases List.mem_cons.mp hx with rfl | hx
      · rfl
      · exact f2 x hx
    · simpa using f3

/-! ### From the sender to the receiver -/

theorem packed_pieces (u : Bytes) (f : File) (max : Nat) (hmax : max ≤ 2000000000) (ps : List Bytes) :
    ∀ off, ps.flatten = f.2.drop off → off ≤ f.2.length → (∀ p ∈ ps, p.length ≤ max) → ∀ b ∈ packed u f.1 f.2.length off ps, IsPiece u f b := by
  induction ps with
  | nil => intro off _ _ _ b hb; simp [packed] at hb
  | cons p ps ih =>
    intro off h ho hm b hb
    rw [List.flatten_cons] at h
    have hlen := congrArg List.length h
    simp only [List.length_append, List.length_drop] at hlen
    have hp : (f.2.drop off).take p.length = p := by rw [← h]; simp
    have hd : ps.flatten = f.2.drop (off + p.length) := by rw [← List.drop_drop, ← h]; simp
    simp only [packed, List.mem_cons] at hb
    rcases hb with rfl | hb
    · refine ⟨off, p.length, by omega, le_trans (hm p List.mem_cons_self) hmax, ?_⟩
      unfold piece
      rw [hp]
    · exact ih (off + p.length) hd (by omega) (fun q hq => hm q (List.mem_cons_of_mem _ hq)) b hb

theorem packed_covers (u : Bytes) (hu : u.length = 3) (f : File) (hp : f.1.length ≤ 255) (hs : f.2.length ≤ 8000000000) (max : Nat)
    (hmax : max ≤ 2000000000) (ps : List Bytes) :
    ∀ off, ps.flatten = f.2.drop off → off ≤ f.2.length → (∀ p ∈ ps, p.length ≤ max) → ∀ x, off ≤ x → x < f.2.length →
      Got (packed u f.1 f.2.length off ps) f.1 x := by
  induction ps with
  | nil =>
    intro off h ho _ x hx hxl
    have := congrArg List.length h
    simp at this
    omega
  | cons p ps ih =>
    intro off h ho hm x hx hxl
    rw [List.flatten_cons] at h
    have hlen := congrArg List.length h
    simp only [List.length_append, List.length_drop] at hlen
    have hpp : (f.2.drop off).take p.length = p := by rw [← h]; simp
    have hd : ps.flatten = f.2.drop (off + p.length) := by rw [← List.drop_drop, ← h]; simp
    have hM : p.length ≤ 2000000000 := le_trans (hm p List.mem_cons_self) hmax
    have hpc : Header.encode ⟨f.2.length, off, p.length, f.1.length⟩ u ++ f.1 ++ p = piece u f off p.length := by
      unfold piece; rw [hpp]
    simp only [packed]
    rw [got_cons, hpc, piece_decode hp hs (by omega) hM, piece_pathOf hu hp hs (by omega) hM]
    by_cases hin : x < off + p.length
    · left; exact ⟨rfl, hx, hin⟩
    · right
      exact ih (off + p.length) hd (by omega) (fun q hq => hm q (List.mem_cons_of_mem _ hq)) x (by omega) hxl

theorem packed_touched (u : Bytes) (hu : u.length = 3) (f : File) (hp : f.1.length ≤ 255) (hs : f.2.length ≤ 8000000000) (max : Nat)
    (hmax : max ≤ 2000000000) (ps : List Bytes) (h : Cut max f.2 ps) : Touched (packed u f.1 f.2.length 0 ps) f.1 := by
  cases ps with
  | nil => exact absurd rfl h.some
  | cons p ps =>
    have hall := packed_pieces u f max hmax (p :: ps) 0 (by simpa using h.whole) (by omega) h.short
    simp only [packed] at hall ⊢
    obtain ⟨off, len, hl, hL, he⟩ := hall _ List.mem_cons_self
    refine ⟨_, List.mem_cons_self, ?_⟩
    rw [he]
    exact piece_pathOf hu hp hs hl hL

end Hdtn.FileTransfer
