import Verif.Proofs.Edits
/-
  C78: the public field `code_block` can be written at any time without consequences for the code.

  `code_block` is for `dump_code` only. Programs may write anything into it between the calls. Histories: any
  calls, panics caught.
-/

namespace Monoasm
open Spec

variable {base : Nat} {mem : Nat → Byte}

/-- Whatever is written to the code blocks: selected page, labels, cursors, pending objects, all of memory
    are those of the calls alone. -/
theorem C78 (es : List Edit) : SameApartBlocks (runEdits es (JitMemory.new base mem)) (reach base mem (editCalls es)) :=
  edits_same ⟨rfl, rfl, rfl, fun _ => rfl⟩

/-- The next call returns or panics, and with which message, as it does after the calls alone. -/
theorem C78_outcome (es : List Edit) (op : Op) :
    (∃ s t, op.run (runEdits es (JitMemory.new base mem)) = .ok () s ∧ op.run (reach base mem (editCalls es)) = .ok () t)
    ∨ ∃ e s t, op.run (runEdits es (JitMemory.new base mem)) = .panic e s ∧
      op.run (reach base mem (editCalls es)) = .panic e t := by
  have h := call_same (C78 (base := base) (mem := mem) es) op
  cases e1 : op.run (runEdits es (JitMemory.new base mem)) <;> cases e2 : op.run (reach base mem (editCalls es)) <;> rw [e1, e2] at h
  · exact .inl ⟨_, _, rfl, rfl⟩
  · exact h.elim
  · exact h.elim
  · obtain ⟨rfl, -⟩ := h
    exact .inr ⟨_, _, _, rfl, rfl⟩

/-- `as_slice` does not depend on the code blocks. -/
theorem C78_slice (es : List Edit) :
    (runEdits es (JitMemory.new base mem)).as_slice = (reach base mem (editCalls es)).as_slice :=
  as_slice_same (C78 es)

/-- No call removes or changes what a program has written to `code_block`: each `finalize` appends one block to
    each page, also if it panics, the same block as without the writes; other calls append nothing. -/
theorem C78_appends (es : List Edit) (ops : List Op) (p : Page) :
    ∃ new, ((runCaught ops (runEdits es (JitMemory.new base mem))).pages p).code_block
        = ((runEdits es (JitMemory.new base mem)).pages p).code_block ++ new
      ∧ ((reach base mem (editCalls es ++ ops)).pages p).code_block = ((reach base mem (editCalls es)).pages p).code_block ++ new
      ∧ (p < 3 → new.length = finals ops) := by
  have h := (twins_calls (twins_of_same (C78 (base := base) (mem := mem) es)) ops).blocks p
  rw [Nat.zero_add] at h
  rw [reach_more]
  exact h

/-- After the next `finalize`, also if it panics, `dump_code` shows what it shows without the writes. -/
theorem C78_dump (es : List Edit) (ops : List Op) (hf : .finalize ∈ ops) :
    (runCaught ops (runEdits es (JitMemory.new base mem))).dump_slice = (reach base mem (editCalls es ++ ops)).dump_slice := by
  have h := twins_calls (twins_of_same (C78 (base := base) (mem := mem) es)) ops
  have hk : ∃ k, 0 + finals ops = k + 1 := by
    clear h
    induction ops with
    | nil => cases hf
    | cons op ops ih =>
      rcases List.mem_cons.1 hf with rfl | h
      · exact ⟨finals ops, by simp [finals]⟩
      · obtain ⟨k, hk⟩ := ih h
        rw [finals_cons]
        exact ⟨finals [op] + k, by omega⟩
  obtain ⟨k, hk⟩ := hk
  rw [hk] at h
  rw [← reach_more] at h
  exact dump_twins h (Nat.lt_trans (inv_reach base mem _).page (by decide))

/-- Until then `dump_code` shows the part of the code that the last block names, whatever was written there,
    and panics if it is not part of the code or there is no block. -/
theorem C78_written (s : JitMemory) (bs : Blocks) (b : Nat × Nat × Nat) :
    ((Edit.blocks s.page fun _ => bs ++ [b]).run s).dump_slice
        = (if b.1 ≤ b.2.1 ∧ b.2.1 ≤ s.as_slice.length then some ((s.as_slice.take b.2.1).drop b.1) else none)
    ∧ ((Edit.blocks s.page fun _ => []).run s).dump_slice = none := by
  have e : ∀ f, ((Edit.blocks s.page f).run s).as_slice = s.as_slice := fun f => as_slice_same (.edited ⟨rfl, rfl, rfl, fun _ => rfl⟩ _ _)
  have e1 : ∀ f, (((Edit.blocks s.page f).run s).pages s.page).code_block = f (s.pages s.page).code_block := fun f => by
    simp [Edit.run, JitMemory.updPage]
  have e2 : ∀ f, ((Edit.blocks s.page f).run s).page = s.page := fun _ => rfl
  constructor
  · simp only [JitMemory.dump_slice, e, e1, e2, List.getLast?_append, List.getLast?_singleton, Option.some_or]
  · simp only [JitMemory.dump_slice, e1, e2, List.getLast?_nil]

/-- A program clears the code blocks after each compilation (otherwise they are kept for ever), and writes
    nonsense into those of the other page: memory is the same, and the second dump shows the second function. -/
example (m : Nat → Byte) :
    let es := [.call (.new .label), .call (.inst (.Label 0)), .call (.inst .Ret), .call .finalize,
      .blocks 0 fun _ => [], .blocks 1 fun b => b ++ [(7, 3, 9)]]
    let ops := [.new .label, .inst (.Label 1), .inst .Leave, .inst .Ret, .finalize]
    let s := runCaught ops (runEdits es (JitMemory.new 0x100000000 m))
    s.mem = (reach 0x100000000 m (editCalls es ++ ops)).mem
    ∧ s.dump_slice = (reach 0x100000000 m (editCalls es ++ ops)).dump_slice := by
  intro es ops s
  refine ⟨?_, C78_dump es ops (by simp [ops])⟩
  have h := (C78 (base := 0x100000000) (mem := m) (es ++ ops.map .call)).mem
  rw [edits_calls, editCalls_calls] at h
  exact h

end Monoasm
