import Verif.BpSecBundle.Blocks

/-! Blocks are overwritten where they are in the bundle. -/

namespace Hdtn.BpSecBundle

open Hdtn.HashMap16 Hdtn.Cbor Hdtn.Cbor.Spec Hdtn.Bpv7Crc Hdtn.Bpv7Canonical Hdtn.Bpv7Canonical.Spec Hdtn.BpSec7
open Hdtn.BundleView7 Hdtn.BundleView7.Spec

/-- The bytes of a bundle with these blocks. -/
def layout (primary : Bytes) (bs : List BlockView) : Bytes := 0x9f :: primary ++ raws bs ++ [0xff]

/-- The view with other blocks. -/
def putBlocks (v : View) (bs : List BlockView) : View := { v with blocks := bs, rendered := layout v.primaryRaw bs }

theorem putBlocks_put (v : View) (bs cs : List BlockView) : putBlocks (putBlocks v bs) cs = putBlocks v cs := rfl

theorem putBlocks_self (v : View) (h : v.rendered = layout v.primaryRaw v.blocks) : putBlocks v v.blocks = v := by
  unfold putBlocks
  rw [← h]

theorem raws_append (xs ys : List BlockView) : raws (xs ++ ys) = raws xs ++ raws ys := by simp [raws]

theorem offset_split (v : View) (pre : List BlockView) (b : BlockView) (post : List BlockView) :
    View.offset (putBlocks v (pre ++ b :: post)) pre.length = (0x9f :: v.primaryRaw ++ raws pre).length := by
  simp only [View.offset, putBlocks, List.take_left, List.length_append, List.length_cons, raws, List.length_flatten, List.map_map]
  have : (pre.map ((fun l : Bytes => l.length) ∘ fun b : BlockView => b.raw)) = pre.map fun b => b.raw.length := rfl
  rw [this]
  omega

theorem store_split (v : View) (pre : List BlockView) (b : BlockView) (post : List BlockView) (b' : BlockView)
    (h : b'.raw.length = b.raw.length) :
    View.store (putBlocks v (pre ++ b :: post)) pre.length b' = putBlocks v (pre ++ b' :: post) := by
  unfold View.store
  rw [offset_split]
  have h1 : (putBlocks v (pre ++ b :: post)).blocks.set pre.length b' = pre ++ b' :: post := by
    simp only [putBlocks]
    rw [List.set_append_right _ _ (Nat.le_refl _), Nat.sub_self, List.set_cons_zero]
  have h2 : (putBlocks v (pre ++ b :: post)).rendered = (0x9f :: v.primaryRaw ++ raws pre) ++ b.raw ++ (raws post ++ [0xff]) := by
    simp [putBlocks, layout, raws_append, raws_cons]
  rw [h1, h2, writeAt_parts _ _ _ _ h]
  simp [putBlocks, layout, raws_append, raws_cons]

theorem indexOf_split (v : View) (pre : List BlockView) (b : BlockView) (post : List BlockView) (n : Nat)
    (hb : b.block.number = n) (hp : ∀ x ∈ pre, x.block.number ≠ n) :
    View.indexOf (putBlocks v (pre ++ b :: post)) n = some pre.length := by
  simp only [View.indexOf, putBlocks]
  induction pre with
  | nil => simp [List.findIdx?_cons, hb]
  | cons x pre ih =>
    rw [List.cons_append, List.findIdx?_cons]
    rw [if_neg (by simpa using hp x List.mem_cons_self), ih (fun y hy => hp y (List.mem_cons_of_mem _ hy))]
    simp

theorem get_split (v : View) (pre : List BlockView) (b : BlockView) (post : List BlockView) :
    (putBlocks v (pre ++ b :: post)).blocks[pre.length]? = some b := by
  simp [putBlocks]

/-- The blocks with chosen numbers are replaced. -/
def mix (p : Nat → Bool) (f : BlockView → BlockView) (bs : List BlockView) : List BlockView :=
  bs.map fun b => if p b.block.number then f b else b

theorem mix_congr {p q : Nat → Bool} {f : BlockView → BlockView} {bs : List BlockView}
    (h : ∀ b ∈ bs, p b.block.number = q b.block.number) : mix p f bs = mix q f bs := by
  unfold mix
  exact List.map_congr_left fun b hb => by rw [h b hb]

theorem mix_none {p : Nat → Bool} {f : BlockView → BlockView} {bs : List BlockView}
    (h : ∀ b ∈ bs, p b.block.number = false) : mix p f bs = bs := by
  unfold mix
  conv => rhs; rw [← List.map_id bs]
  exact List.map_congr_left fun b hb => by simp [h b hb]

theorem mix_append (p : Nat → Bool) (f : BlockView → BlockView) (xs ys : List BlockView) :
    mix p f (xs ++ ys) = mix p f xs ++ mix p f ys := by simp [mix]

theorem mix_cons (p : Nat → Bool) (f : BlockView → BlockView) (b : BlockView) (ys : List BlockView) :
    mix p f (b :: ys) = (if p b.block.number then f b else b) :: mix p f ys := rfl

theorem mix_number {p : Nat → Bool} {f : BlockView → BlockView} {bs : List BlockView} {n : Nat}
    (hf : ∀ b ∈ bs, (f b).block.number = b.block.number) (h : ∀ b ∈ bs, b.block.number ≠ n) :
    ∀ x ∈ mix p f bs, x.block.number ≠ n := by
  intro x hx
  obtain ⟨b, hb, rfl⟩ := List.mem_map.1 hx
  split_ifs
  · rw [hf b hb]; exact h b hb
  · exact h b hb

/-- Where the block with a number is. -/
theorem split_number {bs : List BlockView} {n : Nat} (hn : (bs.map (·.block.number)).Nodup) {b : BlockView} (hb : b ∈ bs)
    (he : b.block.number = n) :
    ∃ pre post, bs = pre ++ b :: post ∧ (∀ x ∈ pre, x.block.number ≠ n) ∧ ∀ x ∈ post, x.block.number ≠ n := by
  obtain ⟨pre, post, rfl⟩ := List.append_of_mem hb
  refine ⟨pre, post, rfl, ?_, ?_⟩
  · intro x hx h
    rw [List.map_append, List.nodup_append] at hn
    exact hn.2.2 _ (List.mem_map_of_mem hx) _ (List.mem_map_of_mem List.mem_cons_self) (by rw [h, he])
  · intro x hx h
    rw [List.map_append, List.nodup_append, List.map_cons, List.nodup_cons] at hn
    exact hn.2.1.1 (by rw [he, ← h]; exact List.mem_map_of_mem hx)

end Hdtn.BpSecBundle
