import Verif.Storage.Spec
import Mathlib.Data.List.Nodup
import Mathlib.Data.List.Range

/-!
Lemmas on bytes, headers, chunks and files.
-/

namespace Hdtn.Storage

open Hdtn.Catalog Hdtn.HashMap16

@[simp] theorem le_length (n v : Nat) : (le n v).length = n := by
  induction n generalizing v with
  | zero => rfl
  | succ n ih => simp [le, ih]

theorem fromLe_le (n v : Nat) (h : v < 256 ^ n) : fromLe (le n v) = v := by
  induction n generalizing v with
  | zero => simp at h; simp [le, fromLe, h]
  | succ n ih =>
    simp only [le, fromLe]
    rw [ih (v / 256) (by rw [Nat.pow_succ] at h; omega), UInt8.toNat_ofNat']
    have : (2 : Nat) ^ 8 = 256 := rfl
    rw [this]; omega

theorem Cfg.Valid.perSeg_pos {cfg : Cfg} (hv : cfg.Valid) : 0 < cfg.perSeg := by
  have := hv.mult
  unfold Cfg.perSeg Cfg.segSize Cfg.reserved
  rcases hv.idBytes with h | h <;> omega

theorem Cfg.Valid.reserved_perSeg {cfg : Cfg} (hv : cfg.Valid) :
    cfg.reserved + cfg.perSeg = cfg.segSize := by
  have := hv.mult
  unfold Cfg.perSeg Cfg.segSize Cfg.reserved
  rcases hv.idBytes with h | h <;> omega

theorem Cfg.Valid.max_lt_last {cfg : Cfg} (hv : cfg.Valid) : cfg.maxSegments < cfg.last := by
  have := hv.max
  unfold Cfg.last
  rcases hv.idBytes with h | h <;> rw [h] <;> omega

theorem Cfg.Valid.last_lt {cfg : Cfg} (hv : cfg.Valid) : cfg.last < 256 ^ cfg.idBytes := by
  unfold Cfg.last
  rcases hv.idBytes with h | h <;> rw [h] <;> omega

theorem Cfg.Valid.max64 {cfg : Cfg} (hv : cfg.Valid) : cfg.maxSegments < 64 ^ 6 := by
  have := hv.max; omega

@[simp] theorem bytes_length (cfg : Cfg) (h : Header) : (h.bytes cfg).length = cfg.reserved := by
  simp [Header.bytes, Cfg.reserved]; omega

/-- The numbers of a header fit. -/
structure Header.Fits (cfg : Cfg) (h : Header) : Prop where
  size : h.size < 2 ^ 64
  custody : h.custody < 2 ^ 64
  payload : h.payload < 2 ^ 64
  next : h.next < 256 ^ cfg.idBytes

theorem read_bytes (cfg : Cfg) (h : Header) (hf : h.Fits cfg) (rest : Bytes) :
    Header.read cfg (h.bytes cfg ++ rest) = h := by
  obtain ⟨h1, h2, h3, h4⟩ := hf
  have e8 : (256 : Nat) ^ 8 = 2 ^ 64 := by norm_num
  have a1 : (h.bytes cfg ++ rest).take 8 = le 8 h.size := by
    unfold Header.bytes
    simp only [List.append_assoc]
    rw [List.take_left' (by simp)]
  have a2 : ((h.bytes cfg ++ rest).drop 8).take 8 = le 8 h.custody := by
    unfold Header.bytes
    simp only [List.append_assoc]
    rw [List.drop_left' (by simp), List.take_left' (by simp)]
  have a3 : ((h.bytes cfg ++ rest).drop 16).take 8 = le 8 h.payload := by
    unfold Header.bytes
    have : le 8 h.size ++ le 8 h.custody ++ le 8 h.payload ++ le cfg.idBytes h.next ++ rest =
      (le 8 h.size ++ le 8 h.custody) ++ (le 8 h.payload ++ (le cfg.idBytes h.next ++ rest)) := by simp
    rw [this, List.drop_left' (by simp), List.take_left' (by simp)]
  have a4 : ((h.bytes cfg ++ rest).drop 24).take cfg.idBytes = le cfg.idBytes h.next := by
    unfold Header.bytes
    have : le 8 h.size ++ le 8 h.custody ++ le 8 h.payload ++ le cfg.idBytes h.next ++ rest =
      (le 8 h.size ++ le 8 h.custody ++ le 8 h.payload) ++ (le cfg.idBytes h.next ++ rest) := by simp
    rw [this, List.drop_left' (by simp), List.take_left' (by simp)]
  unfold Header.read
  rw [a1, a2, a3, a4, fromLe_le _ _ (by rw [e8]; exact h1), fromLe_le _ _ (by rw [e8]; exact h2),
    fromLe_le _ _ (by rw [e8]; exact h3), fromLe_le _ _ h4]

/-! Chunks. -/

theorem segsFor_spec {cfg : Cfg} (hv : cfg.Valid) (n : Nat) :
    n ≤ cfg.segsFor n * cfg.perSeg ∧ (0 < n → 0 < cfg.segsFor n) ∧ (n = 0 → cfg.segsFor n = 0) ∧
      (0 < n → (cfg.segsFor n - 1) * cfg.perSeg < n) := by
  have hp := hv.perSeg_pos
  have hdm := Nat.div_add_mod n cfg.perSeg
  have hml := Nat.mod_lt n hp
  unfold Cfg.segsFor
  by_cases hm : n % cfg.perSeg = 0
  · rw [if_pos hm]
    rw [hm] at hdm
    simp only [Nat.add_zero] at hdm ⊢
    rw [Nat.mul_comm] at hdm
    generalize n / cfg.perSeg = q at hdm ⊢
    refine ⟨by omega, fun h => ?_, fun h => ?_, fun h => ?_⟩
    · by_contra hh
      have : q = 0 := by omega
      rw [this] at hdm; omega
    · rcases Nat.eq_zero_or_pos q with hq | hq
      · exact hq
      · have := Nat.mul_pos hq hp; omega
    · have : q ≠ 0 := fun h0 => by rw [h0] at hdm; omega
      rw [Nat.sub_mul]; omega
  · rw [if_neg hm]
    rw [Nat.mul_comm] at hdm
    have hn0 : n ≠ 0 := fun h => by rw [h] at hm; simp at hm
    generalize n % cfg.perSeg = m at hdm hml hm
    generalize n / cfg.perSeg = q at hdm ⊢
    refine ⟨?_, fun _ => by omega, fun h => absurd h hn0, fun h => ?_⟩
    · rw [Nat.add_mul]; omega
    · simp only [Nat.add_sub_cancel]; omega

theorem chunkSize_mid {cfg : Cfg} (total n i : Nat) (h : i + 1 ≠ n) :
    chunkSize cfg total n i = cfg.perSeg := by
  unfold chunkSize; rw [if_neg (fun hh => h hh.1)]

theorem chunkSize_last {cfg : Cfg} (hv : cfg.Valid) (total i : Nat) (h0 : 0 < total)
    (h : i + 1 = cfg.segsFor total) :
    i * cfg.perSeg + chunkSize cfg total (cfg.segsFor total) i = total := by
  have hp := hv.perSeg_pos
  have hdm := Nat.div_add_mod total cfg.perSeg
  unfold chunkSize
  by_cases hm : total % cfg.perSeg = 0
  · rw [if_neg (fun hh => hh.2 hm)]
    unfold Cfg.segsFor at h
    rw [if_pos hm] at h
    have h' : i + 1 = total / cfg.perSeg := h
    rw [← h'] at hdm
    rw [Nat.mul_comm, Nat.add_mul] at hdm; omega
  · rw [if_pos ⟨h, hm⟩]
    unfold Cfg.segsFor at h
    rw [if_neg hm] at h
    have h' : i = total / cfg.perSeg := by omega
    rw [h', Nat.mul_comm]; exact hdm

theorem chunk_fits {cfg : Cfg} (hv : cfg.Valid) (total i : Nat) (h : i < cfg.segsFor total) :
    i * cfg.perSeg + chunkSize cfg total (cfg.segsFor total) i ≤ total ∧
      chunkSize cfg total (cfg.segsFor total) i ≤ cfg.perSeg := by
  have hp := hv.perSeg_pos
  have h0 : 0 < total := by
    by_contra hh
    have : total = 0 := by omega
    have := (segsFor_spec hv total).2.2.1 this
    omega
  constructor
  · by_cases hl : i + 1 = cfg.segsFor total
    · rw [chunkSize_last hv total i h0 hl]
    · rw [chunkSize_mid _ _ _ hl]
      have h1 := (segsFor_spec hv total).2.2.2 h0
      have h2 : (i + 1) * cfg.perSeg ≤ (cfg.segsFor total - 1) * cfg.perSeg :=
        Nat.mul_le_mul_right _ (by omega)
      rw [Nat.add_mul] at h2; omega
  · unfold chunkSize
    split
    · exact Nat.le_of_lt (Nat.mod_lt _ hp)
    · exact Nat.le_refl _

/-! Files. -/

theorem writeAt_get (cfg : Cfg) (file : List Bytes) (i : Nat) (b : Bytes) (h : i ≤ file.length) (k : Nat) :
    (writeAt cfg file i b)[k]? = if k = i then some b else file[k]? := by
  unfold writeAt
  by_cases hi : i < file.length
  · rw [if_pos hi, List.getElem?_set]
    by_cases hk : k = i
    · subst hk; simp [hi]
    · have : ¬ i = k := fun hh => hk hh.symm
      simp [hk, this]
  · rw [if_neg hi]
    have : i = file.length := by omega
    subst this
    simp only [Nat.sub_self, List.replicate_zero, List.append_nil]
    by_cases hk : k = file.length
    · subst hk; simp
    · rw [if_neg hk]
      by_cases hl : k < file.length
      · rw [List.getElem?_append_left hl]
      · rw [List.getElem?_eq_none (by simp; omega), List.getElem?_eq_none (by omega)]

/-- What the file of a disk will be when its queue is worked off. -/
def flush (cfg : Cfg) (file : List Bytes) : List Job → List Bytes
  | [] => file
  | .write seg b :: q => flush cfg (writeAt cfg file (seg / cfg.disks) b) q
  | .read _ _ :: q => flush cfg file q

theorem flush_append (cfg : Cfg) (file : List Bytes) (q r : List Job) :
    flush cfg file (q ++ r) = flush cfg (flush cfg file q) r := by
  induction q generalizing file with
  | nil => rfl
  | cons j q ih => cases j <;> simp [flush, ih]

/-- A job that reads. -/
def Job.isRead : Job → Bool
  | .read _ _ => true
  | .write _ _ => false

def Job.seg : Job → Nat
  | .read seg _ => seg
  | .write seg _ => seg

theorem flush_reads (cfg : Cfg) (file : List Bytes) (q : List Job) (h : ∀ j ∈ q, j.isRead = true) :
    flush cfg file q = file := by
  induction q with
  | nil => rfl
  | cons j q ih =>
    cases j with
    | read => exact ih fun j hj => h j (by simp [hj])
    | write seg b => simpa [Job.isRead] using h (.write seg b) (by simp)

/-- The files as they will be. -/
def State.later (cfg : Cfg) (s : State) (d : Nat) : List Bytes := flush cfg (s.files d) (s.queues d)

/-- The block of a segment as it will be. -/
def State.image (cfg : Cfg) (s : State) (seg : Nat) : Option Bytes := readBlock cfg (s.later cfg) seg

/-- Order in the queues and the files: the segments below `H` are those that have been written. -/
structure DiskInv (cfg : Cfg) (s : State) (H : Nat) : Prop where
  len : ∀ seg, (s.image cfg seg).isSome = true ↔ seg < H
  jobs : ∀ d, ∀ j ∈ s.queues d, j.seg < cfg.maxSegments ∧ j.seg % cfg.disks = d
  shape : ∀ d, ∃ ws rs, s.queues d = ws ++ rs ∧ (∀ j ∈ ws, j.isRead = false) ∧ ∀ j ∈ rs, j.isRead = true
  bound : H ≤ cfg.maxSegments

theorem div_mod_inj {D a b : Nat} (h1 : a % D = b % D) (h2 : a / D = b / D) : a = b := by
  rw [← Nat.div_add_mod a D, ← Nat.div_add_mod b D, h1, h2]

/-- A segment that is written, or the next after those, is in its file or at the end of it. -/
theorem DiskInv.place {cfg : Cfg} (hv : cfg.Valid) {s : State} {H : Nat} (hd : DiskInv cfg s H) (seg : Nat)
    (h : seg ≤ H) : seg / cfg.disks ≤ (s.later cfg (seg % cfg.disks)).length := by
  have hD := hv.disks
  by_cases hq : seg / cfg.disks = 0
  · omega
  · have hge : cfg.disks ≤ seg := by
      by_contra hh
      exact hq (Nat.div_eq_of_lt (by omega))
    have h1 : (s.image cfg (seg - cfg.disks)).isSome = true := (hd.len _).2 (by omega)
    have e1 : (seg - cfg.disks) % cfg.disks = seg % cfg.disks := (Nat.mod_eq_sub_mod hge).symm
    have e2 : (seg - cfg.disks) / cfg.disks = seg / cfg.disks - 1 := by
      rw [Nat.div_eq_sub_div (by omega : 0 < cfg.disks) hge, Nat.add_sub_cancel]
    unfold State.image readBlock at h1
    rw [e1, e2] at h1
    generalize seg / cfg.disks = q at h1 hq ⊢
    by_contra hh
    rw [List.getElem?_eq_none (by omega)] at h1
    simp at h1

theorem enqueue_queues {cfg : Cfg} {s s' : State} {seg : Nat} {j : Job} (hs : s.enqueue cfg seg j = some s') :
    s'.queues = fun d => if d = seg % cfg.disks then s.queues d ++ [j] else s.queues d := by
  unfold State.enqueue at hs
  split at hs
  · simp only [Option.some.injEq] at hs
    subst hs; rfl
  · simp at hs

/-- Writing a block. -/
theorem enqueue_write {cfg : Cfg} (hv : cfg.Valid) {s s' : State} {H : Nat} (hd : DiskInv cfg s H)
    (seg : Nat) (b : Bytes) (h : seg ≤ H) (hm : seg < cfg.maxSegments)
    (hnr : ∀ d, ∀ j ∈ s.queues d, j.isRead = false)
    (hs : s.enqueue cfg seg (.write seg b) = some s') :
    s' = { s with queues := s'.queues } ∧
    (∀ x, s'.image cfg x = if x = seg then some b else s.image cfg x) ∧
    DiskInv cfg s' (if seg = H then H + 1 else H) ∧
    (∀ d, ∀ j ∈ s'.queues d, j.isRead = false) := by
  unfold State.enqueue at hs
  split at hs
  · simp only [Option.some.injEq] at hs
    subst hs
    have himg : ∀ x, State.image cfg { s with queues := (fun d => if d = seg % cfg.disks then
        s.queues d ++ [Job.write seg b] else s.queues d) } x =
        if x = seg then some b else s.image cfg x := by
      intro x
      unfold State.image readBlock State.later
      by_cases hx : x % cfg.disks = seg % cfg.disks
      · simp only [hx, if_true, flush_append, flush]
        have hp := hd.place hv seg h
        unfold State.later at hp
        rw [writeAt_get _ _ _ _ hp]
        by_cases hxs : x = seg
        · subst hxs; simp
        · have : ¬ x / cfg.disks = seg / cfg.disks := fun hh => hxs (div_mod_inj hx hh)
          rw [if_neg this, if_neg hxs]
      · simp only [if_neg hx]
        rw [if_neg (fun hh => hx (by rw [hh]))]
    have hnr' : ∀ d, ∀ j ∈ (if d = seg % cfg.disks then s.queues d ++ [Job.write seg b] else s.queues d),
        j.isRead = false := by
      intro d j hj
      split at hj
      · rcases List.mem_append.1 hj with hj | hj
        · exact hnr d j hj
        · simp only [List.mem_singleton] at hj; subst hj; rfl
      · exact hnr d j hj
    refine ⟨rfl, himg, ⟨fun x => ?_, fun d j hj => ?_, fun d => ?_, ?_⟩, hnr'⟩
    · rw [himg]
      by_cases hx : x = seg
      · rw [if_pos hx]; subst hx; simp only [Option.isSome_some, true_iff]; split <;> omega
      · rw [if_neg hx, hd.len]; split <;> omega
    · simp only at hj
      split at hj
      · rename_i hdd
        rcases List.mem_append.1 hj with hj | hj
        · exact hd.jobs d j hj
        · simp only [List.mem_singleton] at hj; subst hj; exact ⟨hm, hdd.symm⟩
      · exact hd.jobs d j hj
    · exact ⟨_, [], (List.append_nil _).symm, hnr' d, by simp⟩
    · have := hd.bound
      split <;> omega
  · simp at hs

/-- Asking for a block. -/
theorem enqueue_read {cfg : Cfg} {s s' : State} {H : Nat} (hd : DiskInv cfg s H)
    (seg slot : Nat) (hm : seg < cfg.maxSegments) (hs : s.enqueue cfg seg (.read seg slot) = some s') :
    s' = { s with queues := fun d => if d = seg % cfg.disks then s.queues d ++ [Job.read seg slot]
      else s.queues d } ∧
    (∀ x, s'.image cfg x = s.image cfg x) ∧ DiskInv cfg s' H := by
  unfold State.enqueue at hs
  split at hs
  · simp only [Option.some.injEq] at hs
    subst hs
    have himg : ∀ x, State.image cfg { s with queues := (fun d => if d = seg % cfg.disks then
        s.queues d ++ [Job.read seg slot] else s.queues d) } x = s.image cfg x := by
      intro x
      unfold State.image readBlock State.later
      by_cases hx : x % cfg.disks = seg % cfg.disks
      · simp only [hx, if_true, flush_append, flush]
      · simp only [if_neg hx]
    refine ⟨rfl, himg, ⟨fun x => by rw [himg]; exact hd.len x, fun d j hj => ?_, fun d => ?_, hd.bound⟩⟩
    · simp only at hj
      split at hj
      · rename_i hdd
        rcases List.mem_append.1 hj with hj | hj
        · exact hd.jobs d j hj
        · simp only [List.mem_singleton] at hj; subst hj; exact ⟨hm, hdd.symm⟩
      · exact hd.jobs d j hj
    · obtain ⟨ws, rs, h1, h2, h3⟩ := hd.shape d
      by_cases hdd : d = seg % cfg.disks
      · refine ⟨ws, rs ++ [.read seg slot], ?_, h2, fun j hj => ?_⟩
        · simp [hdd] at h1 ⊢; rw [h1]; simp
        · rcases List.mem_append.1 hj with hj | hj
          · exact h3 j hj
          · simp only [List.mem_singleton] at hj; subst hj; rfl
      · exact ⟨ws, rs, by simp [hdd, h1], h2, h3⟩
  · simp at hs

/-- A turn of a disk thread changes nothing of what the files will be. -/
theorem tick_disk {cfg : Cfg} {s s' : State} {H d : Nat} (hd : DiskInv cfg s H)
    (hs : tick cfg s d = some s') :
    (∀ x, s'.image cfg x = s.image cfg x) ∧ DiskInv cfg s' H ∧ s'.tree = s.tree ∧ s'.cat = s.cat ∧
      s'.sess = s.sess ∧ s'.main = s.main ∧ s'.taken = s.taken ∧
    ((∃ seg b, s.queues d = .write seg b :: s'.queues d ∧ s'.cache = s.cache ∧ s'.ready = s.ready) ∨
     (∃ seg slot, s.queues d = .read seg slot :: s'.queues d ∧
        s'.ready = (fun k => if k = slot then true else s.ready k) ∧
        ∀ k, k ≠ slot → s'.cache k = s.cache k) ∧
        (∀ seg slot, s.queues d = .read seg slot :: s'.queues d → ∀ b, s.image cfg seg = some b →
          s'.cache slot = b)) ∧
    (∀ d', d' ≠ d → s'.queues d' = s.queues d') := by
  unfold tick at hs
  split at hs
  · simp at hs
  · rename_i seg b rest hq
    split at hs
    · simp at hs
    · simp only [Option.some.injEq] at hs
      subst hs
      have himg : ∀ x, State.image cfg { s with
          queues := fun d' => if d' = d then rest else s.queues d'
          files := fun d' => if d' = d then writeAt cfg (s.files d) (seg / cfg.disks) b else s.files d' } x =
          s.image cfg x := by
        intro x
        unfold State.image readBlock State.later
        by_cases hx : x % cfg.disks = d
        · simp only [hx, if_true, hq, flush]
        · simp only [if_neg hx]
      refine ⟨himg, ⟨fun x => by rw [himg]; exact hd.len x, fun d' j hj => ?_, fun d' => ?_, hd.bound⟩,
        rfl, rfl, rfl, rfl, rfl, Or.inl ⟨seg, b, by simp [hq], rfl, rfl⟩, fun d' hd' => by simp [hd']⟩
      · simp only at hj
        split at hj
        · rename_i he; subst he; exact hd.jobs d' j (by rw [hq]; simp [hj])
        · exact hd.jobs d' j hj
      · obtain ⟨ws, rs, h1, h2, h3⟩ := hd.shape d'
        by_cases he : d' = d
        · subst he
          simp only [if_true]
          rw [hq] at h1
          cases ws with
          | nil =>
            simp only [List.nil_append] at h1
            have := h3 (.write seg b) (by rw [← h1]; simp)
            simp [Job.isRead] at this
          | cons w ws =>
            simp only [List.cons_append, List.cons.injEq] at h1
            exact ⟨ws, rs, h1.2, fun j hj => h2 j (by simp [hj]), h3⟩
        · exact ⟨ws, rs, by simp [he, h1], h2, h3⟩
  · rename_i seg slot rest hq
    split at hs
    · simp at hs
    · simp only [Option.some.injEq] at hs
      subst hs
      have himg : ∀ x cache ready, State.image cfg { s with
          queues := fun d' => if d' = d then rest else s.queues d'
          cache := cache
          ready := ready } x = s.image cfg x := by
        intro x cache ready
        unfold State.image readBlock State.later
        by_cases hx : x % cfg.disks = d
        · simp only [hx, if_true, hq, flush]
        · simp only [if_neg hx]
      have hall : ∀ j ∈ rest, j.isRead = true := by
        obtain ⟨ws, rs, h1, h2, h3⟩ := hd.shape d
        rw [hq] at h1
        cases ws with
        | nil =>
          simp only [List.nil_append] at h1
          intro j hj; exact h3 j (by rw [← h1]; simp [hj])
        | cons w ws =>
          simp only [List.cons_append, List.cons.injEq] at h1
          have := h2 w (by simp)
          rw [← h1.1] at this
          simp [Job.isRead] at this
      refine ⟨fun x => himg x _ _, ⟨fun x => by rw [himg x _ _]; exact hd.len x, fun d' j hj => ?_,
        fun d' => ?_, hd.bound⟩, rfl, rfl, rfl, rfl, rfl, Or.inr ⟨⟨seg, slot, by simp [hq], rfl, fun k hk => by simp [hk]⟩,
        fun seg' slot' hq' b hb => ?_⟩, fun d' hd' => by simp [hd']⟩
      · simp only at hj
        split at hj
        · rename_i he; subst he; exact hd.jobs d' j (by rw [hq]; simp [hj])
        · exact hd.jobs d' j hj
      · by_cases he : d' = d
        · subst he
          exact ⟨[], rest, by simp, by simp, hall⟩
        · obtain ⟨ws, rs, h1, h2, h3⟩ := hd.shape d'
          exact ⟨ws, rs, by simp [he, h1], h2, h3⟩
      · rw [hq] at hq'
        simp only [if_true, List.cons.injEq, Job.read.injEq] at hq'
        obtain ⟨⟨rfl, rfl⟩, _⟩ := hq'
        have hsd := (hd.jobs d (.read seg slot) (by rw [hq]; simp)).2
        unfold State.image readBlock State.later at hb
        simp only [Job.seg] at hsd
        rw [hsd, hq] at hb
        simp only [flush] at hb
        rw [flush_reads _ _ _ hall] at hb
        simp [hb]

end Hdtn.Storage
