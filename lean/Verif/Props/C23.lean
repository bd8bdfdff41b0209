import Verif.Proofs.History
/-
  C23: `include(ptr)`.

  The function compares with the start of the *selected* page. It is right while page 0 is selected
  and wrong while page 1 is.
-/

namespace Monoasm
open Spec

/-- While page 0 is selected, after any history, `include` is true exactly for the addresses of the
    two executable pages. -/
theorem C23_partial (base : Nat) (mem : Nat → Byte) (h : List Op) (hp : (reach base mem h).page = 0) (a : Nat) :
    (reach base mem h).includes a = true ↔ inPage base 0 a ∨ inPage base 1 a := by
  have hc := (inv_reach base mem h).contents 0
  simp only [JitMemory.includes, hp, hc, inPage, Bool.and_eq_true, decide_eq_true_eq]
  omega

/-- While page 1 is selected, `include` is true exactly for the addresses of page 1 and of the (not
    executable) data page. -/
theorem C23_page1 (base : Nat) (mem : Nat → Byte) (h : List Op) (hp : (reach base mem h).page = 1) (a : Nat) :
    (reach base mem h).includes a = true ↔ inPage base 1 a ∨ inPage base 2 a := by
  have hc := (inv_reach base mem h).contents 1
  simp only [JitMemory.includes, hp, hc, inPage, Bool.and_eq_true, decide_eq_true_eq]
  omega

/-- **The property is false while page 1 is selected**, whatever was generated before: the start of
    page 0 is not recognised, and the start of the data page is. -/
theorem C23_wrong (base : Nat) (mem : Nat → Byte) (h : List Op) (hp : (reach base mem h).page = 1) :
    (inPage base 0 base ∧ (reach base mem h).includes base = false)
    ∧ (¬ inPage base 0 (base + 2 * PAGE_SIZE) ∧ ¬ inPage base 1 (base + 2 * PAGE_SIZE)
      ∧ (reach base mem h).includes (base + 2 * PAGE_SIZE) = true) := by
  have hpos : 0 < PAGE_SIZE := by decide
  refine ⟨⟨by simp only [inPage]; omega, ?_⟩, by simp only [inPage]; omega, by simp only [inPage]; omega, ?_⟩
  · rw [Bool.eq_false_iff, Ne, C23_page1 base mem h hp]
    simp only [inPage]; omega
  · rw [C23_page1 base mem h hp]
    simp only [inPage]; omega

/-- Such a history: some code on page 0, then page 1 is selected. -/
example (mem : Nat → Byte) : (reach 0x10000000 mem [.emit [0xc3], .select_page 1]).page = 1
    ∧ (reach 0x10000000 mem [.emit [0xc3]]).page = 0 := ⟨rfl, rfl⟩

end Monoasm
