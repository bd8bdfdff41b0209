import Verif.Proofs.Blocks
import Verif.Proofs.Failed
/-
  C21: code blocks tile the page.

  Histories: any calls; panics are caught, but in `C21_tiles` and `C21_all` no `finalize` panics.
-/

namespace Monoasm
open Spec

variable {base : Nat} {mem : Nat → Byte} {h : List Op} {p : Page}

/-- The blocks of each page, one per `finalize`, follow one another without gaps from 0 to the
    recorded top, each with `start ≤ code_end ≤ end ≤ PAGE_SIZE`; and the top is not beyond the
    position of the next emission. -/
theorem C21_tiles (hf : NoFinalizePanic (JitMemory.new base mem) h) (hp : p < 3) :
    let s := reach base mem h
    Tiles 0 (s.pages p).code_block (s.pages p).code_block_top
    ∧ (s.pages p).code_block.length = countFinalize h
    ∧ (s.pages p).code_block_top ≤ cursor s p :=
  have h := blocked_reach (base := base) (mem := mem) hf hp
  ⟨h.1.1, h.2, h.1.2⟩

/-- Each `finalize` appends one block: from the end of the previous one, with the end of code at the
    cursor before, up to the cursor after, which is where the next emission goes. -/
theorem C21_append {s' : JitMemory} (hfin : JitMemory.finalize (reach base mem h) = .ok () s') (hp : p < 3) :
    (s'.pages p).code_block = ((reach base mem h).pages p).code_block
      ++ [(((reach base mem h).pages p).code_block_top, cursor (reach base mem h) p, cursor s' p)]
    ∧ (s'.pages p).code_block_top = cursor s' p := by
  rw [(finalize_run (inv_reach base mem h) hfin).pages p hp]
  exact ⟨rfl, rfl⟩

/-- Just after a `finalize` the blocks cover the page exactly up to the position of the next
    emission. -/
theorem C21_all {s' : JitMemory} (hf : NoFinalizePanic (JitMemory.new base mem) h)
    (hfin : JitMemory.finalize (reach base mem h) = .ok () s') (hp : p < 3) :
    Tiles 0 (s'.pages p).code_block (cursor s' p) := by
  have e : reach base mem (h ++ [.finalize]) = s' := by
    rw [reach, runCaught_append]
    show (JitMemory.finalize (reach base mem h)).state = s'
    rw [hfin]; rfl
  have := C21_tiles (h := h ++ [.finalize]) (mem := mem) (base := base)
    (noFinalizePanic_append.2 ⟨hf, fun _ => ⟨s', hfin⟩, trivial⟩) hp
  simp only [e] at this
  rw [← (C21_append hfin hp).2]
  exact this.1

/-- A `finalize` that panics also appends a block, from the recorded top to the cursor, but does not move
    the top. The end of the block is 0 if the objects could not be placed (for lack of room, or because of
    an unknown label), and the new cursor if a field could not be filled. -/
theorem C21_panicked {s' : JitMemory} {e : Panic} (hfin : JitMemory.finalize (reach base mem h) = .panic e s') (hp : p < 3) :
    let s := reach base mem h
    ∃ stop, (s'.pages p).code_block = (s.pages p).code_block ++ [((s.pages p).code_block_top, cursor s p, stop)]
    ∧ (s'.pages p).code_block_top = (s.pages p).code_block_top
    ∧ (¬ (HasRoom s ∧ NamesKnown s) ∧ stop = 0 ∨ (HasRoom s ∧ NamesKnown s) ∧ stop = cursor s' p) := by
  intro s
  rcases finalize_failed (inv_reach base mem h) hfin with ⟨h1, h2⟩ | ⟨h1, h2, -, h3⟩
  · exact ⟨_, (h2.pages p hp).1, (h2.pages p hp).2.1, .inl ⟨h1, rfl⟩⟩
  · exact ⟨_, (h3.pages p hp).1, (h3.pages p hp).2.1, .inr ⟨⟨h1, h2⟩, rfl⟩⟩

/-- So blocks do not tile the page after a `finalize` that panicked, not even after another `finalize`. -/
theorem C21_panicked_wrong :
    let h : List Op := [.new (.abs_address 9), .inst .Ret, .finalize, .finalize]
    let s := reach 0x10000000 (fun _ => 0xcc) h
    (s.pages 0).code_block = [(0, 1, 0), (0, 8, 8)] ∧ ¬ Tiles 0 (s.pages 0).code_block (s.pages 0).code_block_top := by
  have e : ((reach 0x10000000 (fun _ => 0xcc) [.new (.abs_address 9), .inst .Ret, .finalize, .finalize]).pages 0).code_block
      = [(0, 1, 0), (0, 8, 8)] := by decide +kernel
  refine ⟨e, ?_⟩
  rw [e]
  rintro ⟨-, -, h, -⟩
  exact absurd h (by decide)

/-- Other calls do not touch the blocks. -/
theorem C21_others {op : Op} (hop : op ≠ .finalize) :
    ((op.run (reach base mem h)).state.pages p).code_block = ((reach base mem h).pages p).code_block
    ∧ ((op.run (reach base mem h)).state.pages p).code_block_top = ((reach base mem h).pages p).code_block_top :=
  have k := blocks_op (inv_reach base mem h) hop p
  ⟨k.2.2.1, k.2.1⟩

example :
    let h : List Op := [.inst .Ret, .new (.const_i64 1), .finalize, .inst .Leave, .inst .Ret, .select_page 1, .inst .Ret,
      .new (.data 3), .finalize, .finalize]
    let s := reach 0x10000000 (fun _ => 0xcc) h
    NoFinalizePanic (JitMemory.new 0x10000000 (fun _ => 0xcc)) h
    ∧ (s.pages 0).code_block = [(0, 1, 24), (24, 26, 26), (26, 26, 26)]
    ∧ (s.pages 1).code_block = [(0, 0, 0), (0, 1, 1), (1, 1, 1)]
    ∧ (s.pages 2).code_block = [(0, 0, 0), (0, 0, 3), (3, 3, 3)] := by
  exact ⟨by decide +kernel, by decide +kernel, by decide +kernel, by decide +kernel⟩

end Monoasm
