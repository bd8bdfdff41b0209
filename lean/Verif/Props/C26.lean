import Verif.Proofs.Correct
/-
  C26: the displacement is stored in the shortest form, and its value is kept.
-/

namespace Monoasm
open Spec

/-- Number of bytes of a stored displacement. -/
def dispSize : Disp → Nat
  | .none => 0
  | .d8 _ => 1
  | .d32 _ => 4
  | .label _ => 4

/-- The displacement the processor uses. -/
def stored : Disp → BitVec 64
  | .none => 0
  | .d8 d => d.signExtend 64
  | .d32 d => d.signExtend 64
  | .label _ => 0

/-- The value never changes. -/
theorem C26_value (d : BitVec 32) : stored (Disp.from_disp d) = d.signExtend 64
    ∧ ∀ l, Disp.from_disp d ≠ .label l := by
  refine ⟨?_, from_disp_noLabel d⟩
  have := from_disp_val (fun _ => 0) d
  cases h : Disp.from_disp d with
  | label l => exact absurd h (from_disp_noLabel d l)
  | _ => rw [h] at this; exact this

/-- No other form of the same value is shorter. -/
theorem C26_shortest (d : BitVec 32) (f : Disp) (hf : ∀ l, f ≠ .label l) (h : stored f = d.signExtend 64) :
    dispSize (Disp.from_disp d) ≤ dispSize f := by
  have hi : d.toInt = (stored f).toInt := by rw [h, BitVec.toInt_signExtend_of_le (by omega)]
  simp only [Disp.from_disp, i8TryFrom32]
  cases f with
  | none =>
    have : d = 0 := BitVec.eq_of_toInt_eq (by rw [hi]; rfl)
    simp [this, dispSize]
  | d8 x =>
    simp only [stored] at hi
    rw [BitVec.toInt_signExtend_of_le (by omega)] at hi
    have h1 : -128 ≤ d.toInt ∧ d.toInt ≤ 127 := by
      have := x.toInt_lt; have := x.le_toInt; omega
    by_cases h0 : d = 0
    · simp [h0, dispSize]
    · rw [if_neg h0, if_pos h1]; exact Nat.le_refl 1
  | d32 x =>
    simp only [dispSize]
    (repeat' split) <;> simp
  | label l => exact absurd rfl (hf l)

/-- Boundary cases. -/
example : [-129, -128, -1, 0, 127, 128].map (fun d : Int => dispSize (Disp.from_disp (BitVec.ofInt 32 d)))
    = [4, 1, 1, 0, 1, 4] := by decide

/-- The hypotheses of `C26_shortest` hold of 5 stored in four bytes; the form chosen is shorter. -/
example : dispSize (Disp.from_disp 5) ≤ 4 := C26_shortest 5 (.d32 5) (by simp) rfl

end Monoasm
