import Verif.Proofs.Idle
/-
  C13: `finalize` is idempotent on code.

  `h` is any history, with panics caught (also panics inside `finalize`).
-/

namespace Monoasm
open Spec

variable {base : Nat} {mem : Nat → Byte} {h : List Op} {s' : JitMemory}

/-- A second `finalize` with no calls in between returns normally, changes no memory byte, no label
    entry (positions and pending fields), no cursor, not the selected page and no list of waiting
    objects; on each of the three pages it appends one empty block at the cursor and sets the end of
    code (`code_len`) to the cursor. -/
theorem C13_again (hfin : JitMemory.finalize (reach base mem h) = .ok () s') :
    ∃ s'', JitMemory.finalize s' = .ok () s'' ∧ s''.mem = s'.mem ∧ s''.labels = s'.labels ∧ s''.page = s'.page
    ∧ ∀ p, p < 3 → s''.pages p =
        { s'.pages p with
          code_len := cursor s' p
          code_block := (s'.pages p).code_block ++ [(cursor s' p, cursor s' p, cursor s' p)] } := by
  have f := finalize_run (inv_reach base mem h) hfin
  refine ⟨_, f.idle, rfl, rfl, rfl, fun p hp => ?_⟩
  have ht : (s'.pages p).code_block_top = cursor s' p := by rw [f.pages p hp]
  simp only [idled, if_pos hp, ht]
  rw [show (s'.pages p).counter = cursor s' p from rfl]


/-- Hence any number of further `finalize`s leaves memory, labels and cursors alone. -/
theorem C13_many (hfin : JitMemory.finalize (reach base mem h) = .ok () s') (n : Nat) :
    ∃ s'', runOps (List.replicate n .finalize) s' = .ok () s'' ∧ s''.mem = s'.mem ∧ s''.labels = s'.labels
      ∧ ∀ p, cursor s'' p = cursor s' p := by
  induction n generalizing h s' with
  | zero => exact ⟨s', rfl, rfl, rfl, fun _ => rfl⟩
  | succ n ih =>
    have f := finalize_run (inv_reach base mem h) hfin
    have e1 : reach base mem (h ++ [.finalize]) = s' := by
      rw [reach, runCaught_append]
      show (JitMemory.finalize (reach base mem h)).state = s'
      rw [hfin]; rfl
    obtain ⟨s'', h1, h2, h3, h4⟩ := ih (h := h ++ [.finalize]) (s' := idled s')
      (by rw [e1]; exact f.idle)
    refine ⟨s'', ?_, h2, h3, fun p => ?_⟩
    · rw [List.replicate_succ, runOps]
      exact (ok_bind f.idle).trans h1
    · rw [h4 p]
      simp only [cursor, idled]
      split <;> rfl

/-- A history with constants, data, an absolute address and a label bound only after the first
    `finalize`. -/
def C13_history : List Op :=
  [.new .label, .new (.const_i64 5), .new (.data 100), .new (.abs_address 2), .inst (.Jmp (.rel 0)), .finalize,
    .inst (.Call (.rel 1)), .select_page 1, .bind_label 0]

example :
    let s := reach 0x10000000 (fun _ => 0xcc) C13_history
    let s' := (JitMemory.finalize s).state
    (JitMemory.finalize s).isOk = true
    ∧ cursor s' 0 = 37 ∧ (s'.pages 0).code_block = [(0, 5, 32), (32, 37, 37)]
    ∧ ((JitMemory.finalize s').state.pages 0).code_block = [(0, 5, 32), (32, 37, 37), (37, 37, 37)] := by
  refine ⟨by decide +kernel, by decide +kernel, by decide +kernel, by decide +kernel⟩

end Monoasm
