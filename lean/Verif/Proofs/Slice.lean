import Verif.Proofs.Failed
import Verif.Proofs.Blocks
/-
  The block records after a `finalize`, whether it panics or not.
-/

namespace Monoasm
open JitMemory Spec

variable {base : Nat} {mem : Nat → Byte}

theorem finalize_records {s : JitMemory} (hi : Inv base s) {p : Page} (hp : p < 3) :
    (((finalize s).state.pages p).code_len = cursor s p ∧ cursor s p ≤ cursor (finalize s).state p)
    ∧ (∃ stop, ((finalize s).state.pages p).code_block = (s.pages p).code_block ++ [((s.pages p).code_block_top, cursor s p, stop)])
    ∧ (((finalize s).state.pages p).code_block_top = (s.pages p).code_block_top
      ∨ ((finalize s).state.pages p).code_block_top = cursor (finalize s).state p) := by
  cases e : finalize s with
  | ok u s' =>
    have f := finalize_run hi e
    show ((s'.pages p).code_len = _ ∧ _ ≤ cursor s' p) ∧ (∃ stop, (s'.pages p).code_block = _) ∧ ((s'.pages p).code_block_top = _ ∨ (s'.pages p).code_block_top = _)
    rw [f.pages p hp]
    exact ⟨⟨rfl, f.cursor p⟩, ⟨_, rfl⟩, .inr rfl⟩
  | panic er s' =>
    rcases finalize_failed hi e with ⟨-, h⟩ | ⟨-, -, -, h⟩
    · obtain ⟨h1, h2, h3⟩ := h.pages p hp
      exact ⟨⟨h3, h.cursor p⟩, ⟨_, h1⟩, .inl h2⟩
    · obtain ⟨h1, h2, h3, -⟩ := h.pages p hp
      exact ⟨⟨h3, h.cursor p⟩, ⟨_, h1⟩, .inl h2⟩

/-- The start of the current block is never beyond the cursor. -/
theorem top_caught {p : Page} (hp : p < 3) (h : List Op) (s : JitMemory) (hi : Inv base s) (ht : (s.pages p).code_block_top ≤ cursor s p) :
    ((runCaught h s).pages p).code_block_top ≤ cursor (runCaught h s) p := by
  induction h generalizing s with
  | nil => exact ht
  | cons op h ih =>
    rw [runCaught_cons]
    refine ih _ (inv_op hi op) ?_
    by_cases hf : op = .finalize
    · subst hf
      obtain ⟨⟨-, h1⟩, -, h2 | h2⟩ := finalize_records hi hp
      · exact Nat.le_trans (Nat.le_of_eq h2) (Nat.le_trans ht h1)
      · exact Nat.le_of_eq h2
    · obtain ⟨-, h1, -, h2⟩ := blocks_op hi hf p
      rw [h1]
      exact Nat.le_trans ht h2

theorem top_reach {p : Page} (hp : p < 3) (h : List Op) :
    ((reach base mem h).pages p).code_block_top ≤ cursor (reach base mem h) p :=
  top_caught hp h _ (inv_new base mem) (Nat.zero_le _)

theorem reach_finalize (base mem) (h1 h2 : List Op) :
    reach base mem (h1 ++ .finalize :: h2) = runCaught h2 (finalize (reach base mem h1)).state := by
  rw [reach, runCaught_append, runCaught_cons]
  rfl

end Monoasm
