import Verif.Proofs.History
/-
  C02: no call other than a patch writes outside the three pages.
-/

namespace Monoasm
open Spec

/-- Whatever the history so far (panics caught, patches included), no call other than a patch
    changes a byte outside the three pages, also when it panics part-way. -/
theorem C02_call (base : Nat) (mem : Nat → Byte) (h : List Op) (op : Op) (hp : ¬ op.isPatch)
    (a : Nat) (ha : ∀ p, p < 3 → ¬ inPage base p a) :
    (op.run (reach base mem h)).state.mem a = (reach base mem h).mem a :=
  mem_op (inv_reach base mem h) hp ha

/-- A history without patches never changes a byte outside the three pages. -/
theorem C02_history (base : Nat) (mem : Nat → Byte) (h : List Op) (hp : ∀ op ∈ h, ¬ op.isPatch)
    (a : Nat) (ha : ∀ p, p < 3 → ¬ inPage base p a) : (reach base mem h).mem a = mem a :=
  mem_caught (inv_new base mem) hp ha

/-- The addresses just below and just above the allocation are outside the three pages; the history
    here contains an instruction, a finalize and a call that panics. -/
example (mem : Nat → Byte) :
    let h := [.new .label, .inst (.Jmp (.rel 0)), .new (.data 100), .bind_label 7, .bind_label 0, .finalize]
    (reach 0x10000000 mem h).mem 0xfffffff = mem 0xfffffff
      ∧ (reach 0x10000000 mem h).mem 0x40000000 = mem 0x40000000 := by
  intro h
  constructor <;>
  · refine C02_history _ _ _ (by simp [h, Op.isPatch]) _ fun p hp => ?_
    rcases page_cases hp with rfl | rfl | rfl <;> simp [inPage, PAGE_SIZE]

end Monoasm
