import Verif.FileTransfer.Lemmas

/-!
What users of bpsendfile and bpreceivefile rely on.
-/

namespace Hdtn.FileTransfer

open FragmentSet Spec

/-! ### C115: the sender -/

/-- C115, for sizes between one byte and four gigabytes: every file is sent, one after the other, in pieces that together are the file; no piece is
longer than the limit; and then it ends. -/
theorem C115_sends_all_partial (max : Nat) (unused : Bytes) (hm : 0 < max) (hM : max < 4294967296) (files : List File)
    (hp : ∀ f ∈ files, f.1.length ≤ 255) :
    ∃ cuts : List (List Bytes), List.Forall₂ (fun (f : File) pieces => Cut max f.2 pieces) files cuts ∧
      ∃ n0, ∀ n, payloads max unused (n0 + n) (sending files) = ((files.zip cuts).map fun x => packed unused x.1.1 x.1.2.length 0 x.2).flatten :=
  sends max unused hm (by simpa [U32] using hM) files hp

/-- Payloads sent later do not change those that were sent. -/
theorem payloads_mono {max : Nat} {u : Bytes} {n m : Nat} (h : n ≤ m) : ∀ {s : Sender} {b : Bytes}, b ∈ payloads max u n s → b ∈ payloads max u m s := by
  induction n generalizing m with
  | zero => intro s b hb; simp [payloads] at hb
  | succ n ih =>
    intro s b hb
    obtain ⟨k, rfl⟩ : ∃ k, m = k + 1 := ⟨m - 1, by omega⟩
    simp only [payloads] at hb ⊢
    split at hb
    · simp at hb
    · rename_i x s' hx
      rcases List.mem_cons.mp hb with rfl | hb
      · exact List.mem_cons_self
      · exact List.mem_cons_of_mem _ (ih (by omega) hb)

/-- The payloads of the sender carry pieces of the files. -/
theorem sent_pieces {max : Nat} {u : Bytes} (hm : 0 < max) (hM : max ≤ 2000000000) {files : List File} (hp : ∀ f ∈ files, f.1.length ≤ 255) :
    ∃ all : List Bytes, (∃ n0, ∀ n, payloads max u (n0 + n) (sending files) = all) ∧
      (∀ b ∈ all, ∃ f ∈ files, IsPiece u f b) ∧
      ∀ f ∈ files, ∃ ps, Cut max f.2 ps ∧ ∀ b ∈ packed u f.1 f.2.length 0 ps, b ∈ all := by
  obtain ⟨cuts, h1, n0, h2⟩ := sends max u hm (by simp only [U32]; omega) files hp
  refine ⟨_, ⟨n0, h2⟩, ?_, ?_⟩
  · intro b hb
    simp only [List.mem_flatten, List.mem_map] at hb
    obtain ⟨l, ⟨⟨f, ps⟩, hx, rfl⟩, hb⟩ := hb
    have hc : Cut max f.2 ps := (List.forall₂_iff_zip.mp h1).2 hx
    exact ⟨f, (List.of_mem_zip hx).1, packed_pieces u f max hM ps 0 (by simpa using hc.whole) (by omega) hc.short b hb⟩
  · intro f hf
    obtain ⟨i, hi, rfl⟩ := List.mem_iff_getElem.mp hf
    have hlen := h1.length_eq
    have hz : (files[i], cuts[i]'(by omega)) ∈ files.zip cuts := by
      rw [List.mem_iff_getElem]
      exact ⟨i, by simp; omega, by simp⟩
    refine ⟨_, (List.forall₂_iff_zip.mp h1).2 hz, ?_⟩
    intro b hb
    simp only [List.mem_flatten, List.mem_map]
    exact ⟨_, ⟨_, hz, rfl⟩, hb⟩

/-- C115 is violated: with the limit 0, the sender sends empty pieces of a file that is not empty for ever. -/
theorem C115_zero_limit_violated (unused : Bytes) (path content : Bytes) (hp : path.length ≤ 255) (hc : content ≠ []) (n : Nat) :
    (payloads 0 unused n (sending [(path, content)])).length = n := by
  have hl : content.length ≠ 0 := fun h => hc (List.length_eq_zero_iff.mp h)
  have hstep : ∀ n, (payloads 0 unused n ⟨[], some (path, content, 0)⟩).length = n := by
    intro n
    induction n with
    | zero => rfl
    | succ n ih =>
      simp only [payloads, Sender.next, Sender.emit]
      simp only [Nat.min_zero, Nat.zero_mod, Nat.add_zero]
      rw [if_neg (fun h => hl h.symm)]
      simp [ih]
  cases n with
  | zero => rfl
  | succ n =>
    have hp' : ¬ path.length > 255 := by omega
    simp only [payloads, sending, List.map_cons, List.map_nil, Sender.next, if_neg hp', Sender.emit]
    simp only [Nat.min_zero, Nat.zero_mod, Nat.add_zero]
    rw [if_neg (fun h => hl h.symm)]
    simp [hstep n]

/-- C115 is violated: the length of a piece has 32 bits; of a file of four gigabytes, with a limit that is not smaller, empty pieces are sent for ever. -/
theorem C115_large_limit_violated (unused : Bytes) (path content : Bytes) (hp : path.length ≤ 255) (hc : content.length = 4294967296)
    (max : Nat) (hmax : 4294967296 ≤ max) (n : Nat) :
    (payloads max unused n (sending [(path, content)])).length = n := by
  have hz : min (content.length - 0) max % U32 = 0 := by
    rw [hc, show min (4294967296 - 0) max = 4294967296 by omega]; simp [U32]
  have hstep : ∀ n, (payloads max unused n ⟨[], some (path, content, 0)⟩).length = n := by
    intro n
    induction n with
    | zero => rfl
    | succ n ih =>
      simp only [payloads, Sender.next, Sender.emit]
      rw [hz, if_neg (by omega)]
      simp [ih]
  cases n with
  | zero => rfl
  | succ n =>
    have hp' : ¬ path.length > 255 := by omega
    simp only [payloads, sending, List.map_cons, List.map_nil, Sender.next, if_neg hp', Sender.emit]
    rw [hz, if_neg (by omega)]
    simp [hstep n]

/-- C115 is violated: nothing is sent of the files that come after one that cannot be read. -/
theorem C115_unreadable_violated (max : Nat) (unused : Bytes) (path : Bytes) (rest : List (Bytes × Option Bytes)) (n : Nat) :
    payloads max unused n ⟨(path, none) :: rest, none⟩ = [] := by
  cases n <;> simp [payloads, Sender.next]

/-- C115 is violated: nothing is sent of the files that come after one whose path has more than 255 bytes. -/
theorem C115_long_path_violated (max : Nat) (unused : Bytes) (path : Bytes) (content : Option Bytes) (hp : 255 < path.length)
    (rest : List (Bytes × Option Bytes)) (n : Nat) : payloads max unused n ⟨(path, content) :: rest, none⟩ = [] := by
  cases n with
  | zero => rfl
  | succ n =>
    cases content with
    | none => simp [payloads, Sender.next]
    | some c => simp [payloads, Sender.next, hp]

/-- C115, the size of payloads: a payload is at most the limit, the header and the path long. -/
theorem C115_payload_size_partial {max : Nat} {unused : Bytes} (hu : unused.length = 3) (s : Sender) (b : Bytes) (s' : Sender)
    (h : s.next max unused = some (b, s')) (hs : ∀ x, s.current = some x → x.1.length ≤ 255) : b.length ≤ max + 24 + 255 := by
  have he : ∀ rest p c off, p.length ≤ 255 → (Sender.emit max unused rest p c off).1.length ≤ max + 24 + 255 := by
    intro rest p c off hp
    simp only [Sender.emit, List.length_append, encode_length _ _ hu]
    have : min (c.length - off) max % U32 ≤ max := le_trans (Nat.mod_le _ _) (Nat.min_le_right _ _)
    simp only [List.length_take]
    omega
  unfold Sender.next at h
  split at h
  · rename_i p c off hc
    simp only [Option.some.injEq] at h
    have := he s.files p c off (hs _ hc)
    rw [h] at this; exact this
  · split at h
    · cases h
    · cases h
    · rename_i p c rest _
      split at h
      · cases h
      · rename_i hp
        simp only [Option.some.injEq] at h
        have := he rest p c 0 (by omega)
        rw [h] at this; exact this

/-- C115 is violated: the option that sets the limit calls it the maximal size of bundles; the first payload of every file that has at least that many
bytes is longer. -/
theorem C115_payload_limit_violated {max : Nat} {unused : Bytes} (hu : unused.length = 3) (hm : max < 4294967296) (path content : Bytes)
    (hp : path.length ≤ 255) (hc : max ≤ content.length) :
    ∃ b s, (sending [(path, content)]).next max unused = some (b, s) ∧ b.length = max + 24 + path.length := by
  have hp' : ¬ path.length > 255 := by omega
  have hlen : min (content.length - 0) max % U32 = max := by
    rw [show min (content.length - 0) max = max by omega]; exact Nat.mod_eq_of_lt (by simpa [U32] using hm)
  refine ⟨(Sender.emit max unused [] path content 0).1, (Sender.emit max unused [] path content 0).2, ?_, ?_⟩
  · simp only [sending, List.map_cons, List.map_nil, Sender.next, if_neg hp']
  simp only [Sender.emit, hlen, List.length_append, encode_length _ _ hu, List.length_take, List.drop_zero]
  omega

/-! ### C114: files arrive -/

/-- C114: while payloads of the sender come, in any order, some of them lost and others twice, the receiver accepts each; what there is of a file
is not longer than the file, and every byte of it is that of the file, or zero; bytes that came are those of the file; nothing else is changed; and
when all payloads came every file is there, with the content it was sent with. -/
theorem C114_files_arrive_partial (env : Env) (r : Receiver) {max : Nat} {unused : Bytes} (hm : 0 < max) (hM : max ≤ 2000000000)
    (hu : unused.length = 3) (files : List File) (hsend : Sendable files) (hr : Ready env r files) (rx : List Bytes)
    (hrx : ∀ b ∈ rx, ∃ n, b ∈ payloads max unused n (sending files)) :
    ∃ r' oks, r.processAll env rx = some (r', oks) ∧ (∀ ok ∈ oks, ok = true) ∧
      (∀ f ∈ files, ∀ c, r'.files f.1 = some c → c.length ≤ f.2.length ∧ ∀ x, x < c.length → c[x]? = f.2[x]? ∨ c[x]? = some 0) ∧
      (∀ f ∈ files, ∀ b ∈ rx, pathOf b = f.1 → ∀ x, (Header.decode b).offset ≤ x → x < (Header.decode b).offset + (Header.decode b).length →
        x < f.2.length ∧ ∃ c, r'.files f.1 = some c ∧ c[x]? = f.2[x]?) ∧
      (∀ p, (∀ f ∈ files, f.1 ≠ p) → r'.files p = r.files p) ∧
      ((∀ n, ∀ b ∈ payloads max unused n (sending files), b ∈ rx) → ∀ f ∈ files, r'.files f.1 = some f.2) := by
  obtain ⟨all, ⟨n0, hall⟩, hpieces, hcuts⟩ := sent_pieces (u := unused) hm hM hsend.paths
  have h0 : AllInv files r [] r := by
    refine ⟨hr.saving, ?_, fun _ _ => rfl⟩
    intro f hf
    have hg : ∀ x, ¬ Got [] f.1 x := fun x hx => by simp [Got] at hx
    have hset := hr.fresh f hf
    refine ⟨by rw [hset]; exact canonical_nil, ?_, fun x hx => absurd hx (hg x), fun _ => Or.inl (hr.absent f hf), ?_, fun h => absurd hset h⟩
    · intro x; rw [hset]; exact ⟨fun h => absurd h (covers_nil x), fun h => absurd h (hg x)⟩
    · intro _ ht; simp [Touched] at ht
  obtain ⟨r', oks, e1, e2, e3⟩ := process_all env hu hsend hr.allowed r rx [] r h0 (by
    intro b hb
    obtain ⟨n, hn⟩ := hrx b hb
    refine hpieces b ?_
    rw [← hall n]
    exact payloads_mono (by omega) hn)
  refine ⟨r', oks, e1, e2, ?_, ?_, e3.others, ?_⟩
  · intro f hf c hc
    have hi := e3.files f hf
    by_cases hset : (r'.info f.1).1 = []
    · rcases hi.none hset with hh | ⟨_, hh⟩
      · rw [hh] at hc; cases hc
      · rw [hh] at hc; cases hc; simp
    · obtain ⟨c', c1, c2, c3, c4, _⟩ := hi.some hset
      rw [c1] at hc; cases hc
      refine ⟨c2, ?_⟩
      intro x hx
      by_cases hgx : Got (rx.reverse ++ []) f.1 x
      · exact Or.inl (c3 x hgx)
      · exact Or.inr (c4 x hx hgx)
  · intro f hf b hb hpb x hx1 hx2
    have hi := e3.files f hf
    have hg : Got (rx.reverse ++ []) f.1 x := ⟨b, by simpa using hb, hpb, hx1, hx2⟩
    obtain ⟨c, c1, _, c3, _, _⟩ := hi.some (covers_ne_nil ((hi.cov x).mpr hg))
    exact ⟨hi.bound x hg, c, c1, c3 x hg⟩
  · intro hcomplete f hf
    have hi := e3.files f hf
    obtain ⟨ps, hc, hps⟩ := hcuts f hf
    have hin : ∀ b ∈ packed unused f.1 f.2.length 0 ps, b ∈ rx.reverse ++ [] := by
      intro b hb
      have := hps b hb
      rw [← hall 0] at this
      simpa using hcomplete _ b this
    have hp := hsend.paths f hf
    have hs := hsend.sizes f hf
    by_cases hnil : f.2 = []
    · rw [hnil]
      refine hi.empty hnil ?_
      obtain ⟨b, hb, hb2⟩ := packed_touched unused hu f hp hs max hM ps hc
      exact ⟨b, hin b hb, hb2⟩
    · have hgot : ∀ x, x < f.2.length → Got (rx.reverse ++ []) f.1 x := by
        intro x hx
        obtain ⟨b, hb, hb2⟩ := packed_covers unused hu f hp hs max hM ps 0 (by simpa using hc.whole) (by omega) hc.short x (by omega) hx
        exact ⟨b, hin b hb, hb2⟩
      have hl : 0 < f.2.length := List.length_pos_iff.mpr hnil
      have hset : (r'.info f.1).1 ≠ [] := covers_ne_nil ((hi.cov 0).mpr (hgot 0 hl))
      obtain ⟨c, c1, c2, c3, _, _⟩ := hi.some hset
      rw [c1]
      congr 1
      refine List.ext_getElem? fun x => ?_
      by_cases hx : x < f.2.length
      · exact c3 x (hgot x hx)
      · rw [List.getElem?_eq_none (by omega), List.getElem?_eq_none (by omega)]

/-- C114 is violated for a file of more than eight gigabytes: the receiver rejects the pieces behind that, and the file stays incomplete. -/
theorem C114_large_file_violated (env : Env) (r : Receiver) {unused : Bytes} (f : File) (off len : Nat) (hu : unused.length = 3)
    (hs : f.2.length < 2 ^ 64) (ho : 8000000000 < off) (hl : off + len ≤ f.2.length) (hL : len < 2 ^ 32) (hp : f.1.length ≤ 255) :
    r.process env (Header.encode ⟨f.2.length, off, len, f.1.length⟩ unused ++ f.1 ++ (f.2.drop off).take len) = .done r false := by
  have hd : Header.decode (Header.encode ⟨f.2.length, off, len, f.1.length⟩ unused ++ f.1 ++ (f.2.drop off).take len) =
      ⟨f.2.length, off, len, f.1.length⟩ := by
    rw [List.append_assoc]
    refine decode_encode _ _ _ ?_ ?_ ?_ ?_ <;> simp only [U64, U32] <;> omega
  unfold Receiver.process
  rw [if_neg (by simp only [List.length_append, encode_length _ _ hu]; omega), hd]
  simp only
  rw [if_pos (by omega)]

/-! ### C117: files that are there are not changed -/

theorem write_others {r : Receiver} {path : Bytes} {h : Header} {rest : Bytes} {o : Bool} {r' : Receiver} {ok : Bool}
    (hw : r.write path h rest o = .done r' ok) :
    (∀ q, q ≠ path → r'.files q = r.files q ∧ r'.info q = r.info q) := by
  intro q hq
  unfold Receiver.write at hw
  simp only at hw
  split at hw
  · split at hw
    · cases hw
    · split at hw
      · cases hw
      · split at hw
        · cases hw
        · cases hw; simp [Receiver.setFile, Receiver.setInfo, hq]
  · cases hw; simp [Receiver.setInfo, hq]

theorem process_keeps {env : Env} {r : Receiver} {b : Bytes} {r' : Receiver} {ok : Bool} (hp : r.process env b = .done r' ok)
    {p c : Bytes} (hsv : r.saving = true) (hf : r.files p = some c) (hi : (r.info p).1 = []) :
    r'.saving = true ∧ r'.files p = some c ∧ (r'.info p).1 = [] := by
  have hkeep : ∀ {path : Bytes} {h : Header} {rest : Bytes} {o : Bool} (rr : Receiver), rr.saving = true → rr.files p = some c → (rr.info p).1 = [] →
      p ≠ path → rr.write path h rest o = .done r' ok → r'.saving = true ∧ r'.files p = some c ∧ (r'.info p).1 = [] := by
    intro path h rest o rr h1 h2 h3 hne hw
    obtain ⟨w1, w2⟩ := write_others hw p hne
    refine ⟨?_, by rw [w1]; exact h2, by rw [w2]; exact h3⟩
    unfold Receiver.write at hw
    simp only [h1, if_true] at hw
    split at hw
    · cases hw
    · split at hw
      · cases hw
      · split at hw
        · cases hw
        · cases hw; exact h1
  unfold Receiver.process at hp
  dsimp only at hp
  by_cases q0 : b.length < 24
  · rw [if_pos q0] at hp; cases hp; exact ⟨hsv, hf, hi⟩
  rw [if_neg q0] at hp
  by_cases q1 : (Header.decode b).offset > 8000000000
  · rw [if_pos q1] at hp; cases hp; exact ⟨hsv, hf, hi⟩
  rw [if_neg q1] at hp
  by_cases q2 : (Header.decode b).length > 2000000000
  · rw [if_pos q2] at hp; cases hp; exact ⟨hsv, hf, hi⟩
  rw [if_neg q2] at hp
  by_cases q3 : (Header.decode b).offset + (Header.decode b).length > (Header.decode b).total
  · rw [if_pos q3] at hp; cases hp; exact ⟨hsv, hf, hi⟩
  rw [if_neg q3] at hp
  by_cases q4 : b.length < 24 + (Header.decode b).pathLen
  · rw [if_pos q4] at hp; cases hp
  rw [if_neg q4] at hp
  generalize hpath : List.take (Header.decode b).pathLen (List.drop 24 b) = path at hp
  split at hp
  · split at hp
    · split at hp
      · cases hp; exact ⟨hsv, hf, hi⟩
      split at hp
      · cases hp; exact ⟨hsv, hf, hi⟩
      rename_i hns
      split at hp
      · cases hp; exact ⟨hsv, hf, hi⟩
      cases hp
      refine ⟨hsv, ?_, hi⟩
      have : p ≠ path := by rintro rfl; rw [hf] at hns; simp at hns
      simp [Receiver.setFile, this, hf]
    · cases hp; exact ⟨hsv, hf, hi⟩
  split at hp
  · cases hp; exact ⟨hsv, hf, hi⟩
  split at hp
  · rename_i hemp
    split at hp
    · cases hp; exact ⟨hsv, hf, hi⟩
    split at hp
    · cases hp; exact ⟨hsv, hf, hi⟩
    rename_i hns
    split at hp
    · cases hp; exact ⟨hsv, hf, hi⟩
    have hne : p ≠ path := by rintro rfl; rw [hf] at hns; simp at hns
    exact hkeep (r.setFile path []) hsv (by simp [Receiver.setFile, hne, hf]) hi hne hp
  · rename_i hemp
    have hne : p ≠ path := by rintro rfl; rw [hi] at hemp; simp at hemp
    split at hp
    · cases hp; exact ⟨hsv, hf, hi⟩
    · exact hkeep r hsv hf hi hne hp

/-- C117: a file that is in the directory before anything of it was received is never changed, whatever payloads come. -/
theorem C117_existing_files_kept (env : Env) (rx : List Bytes) : ∀ (r r' : Receiver) (oks : List Bool), r.processAll env rx = some (r', oks) →
    ∀ (p c : Bytes), r.saving = true → r.files p = some c → (r.info p).1 = [] → r'.files p = some c := by
  induction rx with
  | nil =>
    intro r r' oks h p c _ hf _
    simp only [Receiver.processAll, Option.some.injEq, Prod.mk.injEq] at h
    rw [← h.1]; exact hf
  | cons b rx ih =>
    intro r r' oks h p c hsv hf hi
    simp only [Receiver.processAll] at h
    split at h
    · rename_i r1 ok e
      split at h
      · rename_i r2 oks2 e2
        cases h
        obtain ⟨k1, k2, k3⟩ := process_keeps e hsv hf hi
        exact ih r1 r' oks2 e2 p c k1 k2 k3
      · cases h
    · cases h

/-- C117: and a receiver that does not save files changes none. -/
theorem C117_not_saving (env : Env) (rx : List Bytes) : ∀ (r r' : Receiver) (oks : List Bool), r.processAll env rx = some (r', oks) →
    r.saving = false → r'.files = r.files := by
  induction rx with
  | nil =>
    intro r r' oks h _
    simp only [Receiver.processAll, Option.some.injEq, Prod.mk.injEq] at h
    rw [← h.1]
  | cons b rx ih =>
    intro r r' oks h hsv
    simp only [Receiver.processAll] at h
    split at h
    · rename_i r1 ok e
      split at h
      · rename_i r2 oks2 e2
        cases h
        have hstep : r1.saving = false ∧ r1.files = r.files := by
          have hw : ∀ {path : Bytes} {h : Header} {rest : Bytes} {o : Bool}, r.write path h rest o = .done r1 ok → r1.saving = false ∧ r1.files = r.files := by
            intro path h rest o hw
            unfold Receiver.write at hw
            simp only [hsv, Bool.false_eq_true, if_false] at hw
            cases hw
            exact ⟨hsv, rfl⟩
          unfold Receiver.process at e
          simp only [hsv, Bool.and_false, Bool.false_eq_true, if_false] at e
          split at e
          · cases e; exact ⟨hsv, rfl⟩
          split at e
          · cases e; exact ⟨hsv, rfl⟩
          split at e
          · cases e; exact ⟨hsv, rfl⟩
          split at e
          · cases e; exact ⟨hsv, rfl⟩
          split at e
          · cases e
          split at e
          · cases e; exact ⟨hsv, rfl⟩
          split at e
          · cases e; exact ⟨hsv, rfl⟩
          split at e
          · exact hw e
          split at e
          · cases e; exact ⟨hsv, rfl⟩
          · exact hw e
        rw [ih r1 r' oks2 e2 hstep.1, hstep.2]
      · cases h
    · cases h

/-! ### C116: whatever payloads come -/

/-- A receiver that got nothing. -/
def Spec.nothingReceived (r : Receiver) : Prop := ∀ p, r.info p = ([], false)

/-- What is received of a path is there, and open unless it is all. -/
def OpenInv (size : Bytes → Nat) (r : Receiver) : Prop :=
  ∀ p, (r.info p).1 ≠ [] → r.saving = true → r.files p ≠ none ∧ ((r.info p).2 = true ∨ received (r.info p).1 (size p) = true)

theorem write_open {size : Bytes → Nat} {r : Receiver} {path : Bytes} {h : Header} {rest : Bytes} {o : Bool} (hinv : OpenInv size r)
    (ho : r.saving = true → o = true) (hf : r.saving = true → r.files path ≠ none) (hr : h.length ≤ rest.length) (ht : h.total = size path) :
    ∃ r', r.write path h rest o = .done r' true ∧ OpenInv size r' := by
  unfold Receiver.write
  dsimp only
  by_cases hs : r.saving = true
  · rw [if_pos hs, ho hs]
    rw [if_neg (by simp), if_neg (by omega)]
    obtain ⟨c, hc⟩ := Option.ne_none_iff_exists'.mp (hf hs)
    rw [hc]
    refine ⟨_, rfl, ?_⟩
    intro p hp hsv
    by_cases hpp : p = path
    · subst hpp
      refine ⟨by simp [Receiver.setFile], ?_⟩
      simp only [Receiver.setFile, Receiver.setInfo, if_true, ht]
      cases received (insertFragment (r.info p).1 ⟨h.offset, h.offset + h.length - 1⟩).1 (size p) <;> simp
    · have hi : ((r.setInfo path ((insertFragment (r.info path).1 ⟨h.offset, h.offset + h.length - 1⟩).1,
          !received (insertFragment (r.info path).1 ⟨h.offset, h.offset + h.length - 1⟩).1 h.total)).setFile path
          (writeAt c h.offset (rest.take h.length))).info p = r.info p := by simp [Receiver.setFile, Receiver.setInfo, hpp]
      rw [hi] at hp ⊢
      obtain ⟨h1, h2⟩ := hinv p hp hs
      refine ⟨?_, h2⟩
      simpa [Receiver.setFile, Receiver.setInfo, hpp] using h1
  · rw [if_neg hs]
    refine ⟨_, rfl, ?_⟩
    intro p _ hsv
    exact absurd hsv hs

theorem process_open {env : Env} {size : Bytes → Nat} {r : Receiver} {b : Bytes} (hinv : OpenInv size r) (hfit : Fits b)
    (ht : 24 ≤ b.length → (Header.decode b).total = size (pathOf b)) : ∃ r' ok, r.process env b = .done r' ok ∧ OpenInv size r' := by
  unfold Receiver.process
  dsimp only
  by_cases q0 : b.length < 24
  · rw [if_pos q0]; exact ⟨r, _, rfl, hinv⟩
  rw [if_neg q0]
  have hfit : 24 + (Header.decode b).pathLen + (Header.decode b).length ≤ b.length := by
    rcases hfit with h | h
    · exact absurd h q0
    · exact h
  have ht := ht (by omega)
  unfold pathOf at ht
  by_cases q1 : (Header.decode b).offset > 8000000000
  · rw [if_pos q1]; exact ⟨r, _, rfl, hinv⟩
  rw [if_neg q1]
  by_cases q2 : (Header.decode b).length > 2000000000
  · rw [if_pos q2]; exact ⟨r, _, rfl, hinv⟩
  rw [if_neg q2]
  by_cases q3 : (Header.decode b).offset + (Header.decode b).length > (Header.decode b).total
  · rw [if_pos q3]; exact ⟨r, _, rfl, hinv⟩
  rw [if_neg q3, if_neg (by omega)]
  generalize List.take (Header.decode b).pathLen (List.drop 24 b) = path at ht ⊢
  have hrest : (Header.decode b).length ≤ (List.drop (24 + (Header.decode b).pathLen) b).length := by simp; omega
  have hset : ∀ d, r.files path = none → OpenInv size (r.setFile path d) := by
    intro d _ p hp hs
    obtain ⟨h1, h2⟩ := hinv p hp hs
    refine ⟨?_, h2⟩
    by_cases hpp : p = path
    · simp [Receiver.setFile, hpp]
    · simpa [Receiver.setFile, hpp] using h1
  split
  · split
    · split
      · exact ⟨r, _, rfl, hinv⟩
      split
      · exact ⟨r, _, rfl, hinv⟩
      rename_i hns
      split
      · exact ⟨r, _, rfl, hinv⟩
      exact ⟨_, _, rfl, hset [] (by simpa using hns)⟩
    · exact ⟨r, _, rfl, hinv⟩
  split
  · exact ⟨r, _, rfl, hinv⟩
  split
  · split
    · split
      · exact ⟨r, _, rfl, hinv⟩
      split
      · exact ⟨r, _, rfl, hinv⟩
      rename_i hns
      split
      · exact ⟨r, _, rfl, hinv⟩
      obtain ⟨r', h1, h2⟩ := write_open (o := true) (hset [] (by simpa using hns)) (fun _ => rfl) (by intro _; simp [Receiver.setFile]) hrest ht
      exact ⟨r', true, h1, h2⟩
    · rename_i hns
      obtain ⟨r', h1, h2⟩ := write_open (o := false) hinv (fun h => absurd h hns) (fun h => absurd h hns) hrest ht
      exact ⟨r', true, h1, h2⟩
  · rename_i hemp
    have hne : (r.info path).1 ≠ [] := by intro h; rw [h] at hemp; simp at hemp
    split
    · exact ⟨r, _, rfl, hinv⟩
    · rename_i hrec
      rw [ht] at hrec
      obtain ⟨r', h1, h2⟩ := write_open (o := (r.info path).2) hinv (fun hs => by
          rcases (hinv path hne hs).2 with h | h
          · exact h
          · exact absurd h hrec) (fun hs => (hinv path hne hs).1) hrest ht
      exact ⟨r', true, h1, h2⟩

/-- C116, for payloads that are as long as their header says and that give each path one size: nothing goes wrong, whatever they contain. -/
theorem C116_no_crash_partial (env : Env) (r : Receiver) (h0 : nothingReceived r) (rx : List Bytes) (hfit : ∀ b ∈ rx, Fits b)
    (size : Bytes → Nat) (hsize : ∀ b ∈ rx, 24 ≤ b.length → (Header.decode b).total = size (pathOf b)) :
    r.processAll env rx ≠ none := by
  have key : ∀ (rx : List Bytes) (r : Receiver), OpenInv size r → (∀ b ∈ rx, Fits b) →
      (∀ b ∈ rx, 24 ≤ b.length → (Header.decode b).total = size (pathOf b)) → ∃ x, r.processAll env rx = some x := by
    intro rx
    induction rx with
    | nil => intro r _ _ _; exact ⟨_, rfl⟩
    | cons b rx ih =>
      intro r hr hf hs
      obtain ⟨r1, ok, e1, e2⟩ := process_open (env := env) hr (hf b List.mem_cons_self) (hs b List.mem_cons_self)
      obtain ⟨x, hx⟩ := ih r1 e2 (fun b hb => hf b (List.mem_cons_of_mem _ hb)) (fun b hb => hs b (List.mem_cons_of_mem _ hb))
      refine ⟨(x.1, ok :: x.2), ?_⟩
      simp only [Receiver.processAll, e1, hx]
  obtain ⟨x, hx⟩ := key rx r (by intro p hp; rw [h0 p] at hp; exact absurd rfl hp) hfit hsize
  rw [hx]; simp

/-- C116 is violated: a payload that is only a header, with a path length, makes the receiver read behind it. -/
theorem C116_path_overread_violated (env : Env) (r : Receiver) {unused : Bytes} (hu : unused.length = 3) (n : Nat) (h0 : 0 < n) (hn : n < 256) :
    r.process env (Header.encode ⟨0, 0, 0, n⟩ unused) = .overread := by
  have hd : Header.decode (Header.encode ⟨0, 0, 0, n⟩ unused) = ⟨0, 0, 0, n⟩ := by
    have := decode_encode ⟨0, 0, 0, n⟩ unused [] (by simp [U64]) (by simp [U64]) (by simp [U32]) hn
    simpa using this
  unfold Receiver.process
  rw [hd]
  dsimp only
  rw [if_neg (by rw [encode_length _ _ hu]; omega), if_neg (by omega), if_neg (by omega), if_neg (by omega),
    if_pos (by rw [encode_length _ _ hu]; omega)]

/-- C116 is violated: a payload that is shorter than its header says makes the receiver write what is behind it to a new file. -/
theorem C116_data_overread_violated (env : Env) (r : Receiver) {unused : Bytes} (hu : unused.length = 3) (path data : Bytes) (n : Nat)
    (hp : path.length ≤ 255) (hd : data.length < n) (hn : n ≤ 2000000000) (hs : r.saving = true) (hf : r.files path = none)
    (hi : (r.info path).1 = []) (hm : env.mkdir path = true) (ho : env.canOpen path = true) :
    r.process env (Header.encode ⟨n, 0, n, path.length⟩ unused ++ path ++ data) = .overread := by
  have hdec : Header.decode (Header.encode ⟨n, 0, n, path.length⟩ unused ++ path ++ data) = ⟨n, 0, n, path.length⟩ := by
    rw [List.append_assoc]
    refine decode_encode _ _ _ ?_ ?_ ?_ ?_ <;> simp only [U64, U32] <;> omega
  have hl : (Header.encode ⟨n, 0, n, path.length⟩ unused ++ path).length = 24 + path.length := by
    rw [List.length_append, encode_length _ _ hu]
  have hpath : List.take path.length (List.drop 24 (Header.encode ⟨n, 0, n, path.length⟩ unused ++ path ++ data)) = path := by
    rw [List.append_assoc, List.drop_append_of_le_length (by rw [encode_length _ _ hu]), List.drop_of_length_le (by rw [encode_length _ _ hu]),
      List.nil_append, List.take_append_of_le_length (Nat.le_refl _), List.take_of_length_le (Nat.le_refl _)]
  have hrest : List.drop (24 + path.length) (Header.encode ⟨n, 0, n, path.length⟩ unused ++ path ++ data) = data := by
    rw [← hl, List.drop_left]
  unfold Receiver.process
  rw [hdec]
  dsimp only
  rw [hpath, hrest, if_neg (by rw [List.length_append, hl]; omega), if_neg (by omega), if_neg (by omega), if_neg (by omega),
    if_neg (by rw [List.length_append, hl]; omega), if_neg (by omega), if_neg (by omega), hi, hf, hs, hm, ho]
  simp only [List.isEmpty_nil, if_true, Option.isSome_none, Bool.false_eq_true, if_false, Bool.not_true]
  unfold Receiver.write
  dsimp only
  have : (r.setFile path []).saving = true := hs
  rw [if_pos this, if_neg (by simp), if_pos hd]

/-- A file that is completely received. -/
def Spec.complete (r : Receiver) (path : Bytes) (total : Nat) : Prop := r.info path = ([⟨0, total - 1⟩], false)

/-- C116 is violated: when a file was completely received and then a payload comes that gives the same path another size, a null pointer is used. -/
theorem C116_resized_file_violated (env : Env) (r : Receiver) {unused : Bytes} (hu : unused.length = 3) (path data : Bytes) (total : Nat)
    (hp : path.length ≤ 255) (h0 : 0 < data.length) (hn : data.length ≤ 2000000000) (hne : data.length ≠ total) (ht : 0 < total)
    (hs : r.saving = true) (hc : complete r path total) :
    r.process env (Header.encode ⟨data.length, 0, data.length, path.length⟩ unused ++ path ++ data) = .crash := by
  have hdec : Header.decode (Header.encode ⟨data.length, 0, data.length, path.length⟩ unused ++ path ++ data) = ⟨data.length, 0, data.length, path.length⟩ := by
    rw [List.append_assoc]
    refine decode_encode _ _ _ ?_ ?_ ?_ ?_ <;> simp only [U64, U32] <;> omega
  have hl : (Header.encode ⟨data.length, 0, data.length, path.length⟩ unused ++ path).length = 24 + path.length := by
    rw [List.length_append, encode_length _ _ hu]
  have hpath : List.take path.length (List.drop 24 (Header.encode ⟨data.length, 0, data.length, path.length⟩ unused ++ path ++ data)) = path := by
    rw [List.append_assoc, List.drop_append_of_le_length (by rw [encode_length _ _ hu]), List.drop_of_length_le (by rw [encode_length _ _ hu]),
      List.nil_append, List.take_append_of_le_length (Nat.le_refl _), List.take_of_length_le (Nat.le_refl _)]
  have hrec : received [⟨0, total - 1⟩] data.length = false := by
    simp only [received, beq_self_eq_true, Bool.true_and, beq_eq_false_iff_ne, ne_eq]
    omega
  unfold Receiver.process
  rw [hdec]
  dsimp only
  rw [hpath, if_neg (by rw [List.length_append, hl]; omega), if_neg (by omega), if_neg (by omega), if_neg (by omega),
    if_neg (by rw [List.length_append, hl]; omega), if_neg (by omega), if_neg (by omega), hc, hrec]
  simp only [List.isEmpty_cons, Bool.false_eq_true, if_false]
  unfold Receiver.write
  dsimp only
  rw [if_pos hs, if_pos (by simp)]

/-! ### C118: where files are created -/

/-- C118: only files that a payload names are created or changed. -/
theorem C118_only_named_partial (env : Env) (rx : List Bytes) : ∀ (r r' : Receiver) (oks : List Bool), r.processAll env rx = some (r', oks) →
    ∀ p, (∀ b ∈ rx, pathOf b ≠ p) → r'.files p = r.files p := by
  induction rx with
  | nil =>
    intro r r' oks h p _
    simp only [Receiver.processAll, Option.some.injEq, Prod.mk.injEq] at h
    rw [← h.1]
  | cons b rx ih =>
    intro r r' oks h p hp
    simp only [Receiver.processAll] at h
    split at h
    · rename_i r1 ok e
      split at h
      · rename_i r2 oks2 e2
        cases h
        rw [ih r1 r' oks2 e2 p fun b hb => hp b (List.mem_cons_of_mem _ hb)]
        have hne := hp b List.mem_cons_self
        unfold pathOf at hne
        unfold Receiver.process at e
        dsimp only at e
        by_cases q0 : b.length < 24
        · rw [if_pos q0] at e; cases e; rfl
        rw [if_neg q0] at e
        by_cases q1 : (Header.decode b).offset > 8000000000
        · rw [if_pos q1] at e; cases e; rfl
        rw [if_neg q1] at e
        by_cases q2 : (Header.decode b).length > 2000000000
        · rw [if_pos q2] at e; cases e; rfl
        rw [if_neg q2] at e
        by_cases q3 : (Header.decode b).offset + (Header.decode b).length > (Header.decode b).total
        · rw [if_pos q3] at e; cases e; rfl
        rw [if_neg q3] at e
        by_cases q4 : b.length < 24 + (Header.decode b).pathLen
        · rw [if_pos q4] at e; cases e
        rw [if_neg q4] at e
        generalize List.take (Header.decode b).pathLen (List.drop 24 b) = path at e hne
        have hfile : ∀ d, (r.setFile path d).files p = r.files p := by intro d; simp [Receiver.setFile, Ne.symm hne]
        split at e
        · split at e
          · split at e
            · cases e; rfl
            split at e
            · cases e; rfl
            split at e
            · cases e; rfl
            cases e; exact hfile _
          · cases e; rfl
        split at e
        · cases e; rfl
        split at e
        · split at e
          · split at e
            · cases e; rfl
            split at e
            · cases e; rfl
            split at e
            · cases e; rfl
            rw [(write_others e p (Ne.symm hne)).1]; exact hfile _
          · rw [(write_others e p (Ne.symm hne)).1]
        · split at e
          · cases e; rfl
          · rw [(write_others e p (Ne.symm hne)).1]
      · cases h
    · cases h

/-- C118 is violated: the receiver does not look at what the path is; a payload for any path, also one that leads out of the directory with "../",
creates that file if the system lets it. -/
theorem C118_any_path_violated (env : Env) (r : Receiver) {unused : Bytes} (hu : unused.length = 3) (path : Bytes) (hp : path.length ≤ 255)
    (hs : r.saving = true) (hf : r.files path = none) (hi : (r.info path).1 = []) (hm : env.mkdir path = true) (ho : env.canOpen path = true) :
    ∃ r', r.process env (Header.encode ⟨0, 0, 0, path.length⟩ unused ++ path) = .done r' true ∧ r'.files path = some [] := by
  have h := process_piece env r (u := unused) (f := (path, [])) (off := 0) (len := 0) hu hp (by simp) (by simp) (by omega) hs hm ho
  have hpc : piece unused (path, []) 0 0 = Header.encode ⟨0, 0, 0, path.length⟩ unused ++ path := by simp [piece]
  rw [hpc] at h
  refine ⟨r.setFile path [], ?_, by simp [Receiver.setFile]⟩
  rw [h]
  simp [hf, hi]

/-! ### Examples -/

/-- A receiver without files, in a system that lets it create files. -/
def exReceiver : Receiver := ⟨true, fun _ => none, fun _ => ([], false)⟩
def exEnv : Env := ⟨fun _ => true, fun _ => true⟩

/-- Two files, one of seven bytes and an empty one. -/
def exFiles : List File := [([97], [1, 2, 3, 4, 5, 6, 7]), ([98, 99], [])]

/-- The hypotheses of C114 and C115 are met. -/
example : Sendable exFiles ∧ Ready exEnv exReceiver exFiles ∧ (payloads 3 [0, 0, 0] 9 (sending exFiles)).length = 4 := by
  refine ⟨⟨by decide, by decide, by decide⟩, ⟨rfl, ?_, ?_, ?_⟩, by decide +kernel⟩
  · intro _ _; rfl
  · intro _ _; rfl
  · intro _ _; exact ⟨rfl, rfl⟩

/-- The payloads arrive in the opposite order, and the first of them twice. -/
example : (match exReceiver.processAll exEnv ((payloads 3 [0, 0, 0] 9 (sending exFiles)).reverse ++ (payloads 3 [0, 0, 0] 1 (sending exFiles))) with
    | some (r, oks) => decide (r.files [97] = some [1, 2, 3, 4, 5, 6, 7] ∧ r.files [98, 99] = some [] ∧ r.files [98] = none ∧ oks = [true, true, true, true, true])
    | none => false) = true := by decide +kernel

/-- A piece is missing: there are zeros. -/
example : (match exReceiver.processAll exEnv ((payloads 3 [0, 0, 0] 9 (sending exFiles)).drop 1) with
    | some (r, _) => decide (r.files [97] = some [0, 0, 0, 4, 5, 6, 7])
    | none => false) = true := by decide +kernel

/-- C116: the file is sent again with another size; and the hypotheses of C116_resized_file_violated are met after the first time. -/
example : (match exReceiver.processAll exEnv (payloads 9 [0, 0, 0] 9 (sending [([97], [1, 2])])) with
    | some (r, _) => decide (r.info [97] = ([⟨0, 1⟩], false)) && (match r.process exEnv (piece [0, 0, 0] ([97], [5]) 0 1) with | .crash => true | _ => false)
    | none => false) = true := by decide +kernel

/-- C117: a file that is there stays as it is. -/
example : (match (exReceiver.setFile [97] [9]).processAll exEnv (payloads 3 [0, 0, 0] 9 (sending exFiles)) with
    | some (r, oks) => decide (r.files [97] = some [9] ∧ r.files [98, 99] = some [] ∧ oks = [true, true, true, true])
    | none => false) = true := by decide +kernel

/-- C116, C117 and C118: payloads that fit, with one size for each path. -/
example : nothingReceived exReceiver ∧ (∀ b ∈ payloads 3 [0, 0, 0] 9 (sending exFiles), Fits b ∧ (Header.decode b).total = if pathOf b = [97] then 7 else 0) := by
  refine ⟨fun _ => rfl, ?_⟩
  unfold Fits
  decide +kernel

end Hdtn.FileTransfer
