import Verif.Proofs.Run
import Verif.Spec.Runtime
/-
  The alignment functions round up to the next multiple.
-/

namespace Monoasm

theorem and_mask (x k : Nat) (hk : k ≤ 64) (hx : x < 2 ^ 64) :
    x &&& (2 ^ 64 - 2 ^ k) = x / 2 ^ k * 2 ^ k := by
  have e : 2 ^ 64 - 2 ^ k = (2 ^ (64 - k) - 1) <<< k := by
    rw [Nat.shiftLeft_eq, Nat.sub_mul, ← Nat.pow_add, Nat.sub_add_cancel hk, Nat.one_mul]
  rw [e, ← Nat.shiftRight_eq_div_pow, ← Nat.shiftLeft_eq]
  apply Nat.eq_of_testBit_eq
  intro i
  simp only [Nat.testBit_and, Nat.testBit_shiftLeft, Nat.testBit_shiftRight, Nat.testBit_two_pow_sub_one]
  by_cases h : i ≥ k
  · have : k + (i - k) = i := by omega
    simp only [h, decide_true, Bool.true_and, this]
    by_cases h2 : i < 64
    · have : i - k < 64 - k := by omega
      simp [this]
    · have : x.testBit i = false := Nat.testBit_lt_two_pow (Nat.lt_of_lt_of_le hx (Nat.pow_le_pow_right (by omega) (by omega)))
      simp [this]
  · simp [h]

theorem alignUp_eq (c k : Nat) (hk : k ≤ 63) (hc : c ≤ 2 ^ 63) :
    MemPage.alignUp c (2 ^ k - 1) = (c + (2 ^ k - 1)) / 2 ^ k * 2 ^ k := by
  have h1 : 2 ^ k ≤ 2 ^ 63 := Nat.pow_le_pow_right (by omega) hk
  have h0 : 0 < 2 ^ k := Nat.two_pow_pos k
  have : (2 ^ 64 - 1 - (2 ^ k - 1)) = 2 ^ 64 - 2 ^ k := by omega
  rw [MemPage.alignUp, this, and_mask _ _ (by omega)]
  have : (2 : Nat) ^ 64 = 2 ^ 63 + 2 ^ 63 := by decide
  omega

/-- The alignment result is the least multiple of `2^k` not below `c`. -/
theorem alignUp_spec (c k : Nat) (hk : k ≤ 63) (hc : c ≤ 2 ^ 63) :
    c ≤ MemPage.alignUp c (2 ^ k - 1) ∧ 2 ^ k ∣ MemPage.alignUp c (2 ^ k - 1)
      ∧ ∀ m, c ≤ m → 2 ^ k ∣ m → MemPage.alignUp c (2 ^ k - 1) ≤ m := by
  rw [alignUp_eq c k hk hc]
  have h0 : 0 < 2 ^ k := Nat.two_pow_pos k
  refine ⟨?_, Nat.dvd_mul_left _ _, ?_⟩
  · have := Nat.div_add_mod (c + (2 ^ k - 1)) (2 ^ k)
    have h3 := Nat.mod_lt (c + (2 ^ k - 1)) h0
    rw [Nat.mul_comm]
    omega
  · rintro m hm ⟨q, rfl⟩
    rw [Nat.mul_comm (2 ^ k) q]
    apply Nat.mul_le_mul_right
    apply Nat.le_of_lt_succ
    rw [Nat.div_lt_iff_lt_mul h0, Nat.succ_mul, Nat.mul_comm q]
    omega

theorem alignUp_le_page (c k : Nat) (hk : k ≤ 28) (hc : c ≤ PAGE_SIZE) :
    MemPage.alignUp c (2 ^ k - 1) ≤ PAGE_SIZE := by
  refine (alignUp_spec c k (by omega) ?_).2.2 _ hc ?_
  · rw [PAGE_SIZE_eq] at hc; omega
  · rw [show PAGE_SIZE = 2 ^ 28 from rfl]; exact Nat.pow_dvd_pow 2 hk

/-- The four alignment functions of `MemPage`, with their exponents. -/
def alignOp (k : Nat) (p : Page) : M Unit := do
  let c ← MemPage.counterOf p
  MemPage.setCounter p (MemPage.alignUp c (2 ^ k - 1))

theorem align4_eq : MemPage.align4 = alignOp 2 := rfl
theorem align8_eq : MemPage.align8 = alignOp 3 := rfl
theorem align16_eq : MemPage.align16 = alignOp 4 := rfl
theorem align_page_eq : MemPage.align_page = alignOp 12 := rfl

/-- State with the cursor of page `p` set to `c`. -/
def skipped (s : JitMemory) (p : Page) (c : Nat) : JitMemory :=
  { s with pages := fun q => if q = p then { s.pages q with counter := c } else s.pages q }

theorem alignOp_run (k p s) :
    alignOp k p s = .ok () (skipped s p (MemPage.alignUp (s.pages p).counter (2 ^ k - 1))) := rfl

end Monoasm

namespace Monoasm
open Spec

theorem alignedTo_skipped {base : Nat} {s : JitMemory} {p : Page} {k : Nat} (hk : k ≤ 28)
    (ha : PAGE_SIZE ∣ base) (hc : (s.pages p).counter ≤ PAGE_SIZE) :
    AlignedTo base (2 ^ k) s p (skipped s p (MemPage.alignUp (s.pages p).counter (2 ^ k - 1))) := by
  have h63 : (s.pages p).counter ≤ 2 ^ 63 := by rw [PAGE_SIZE_eq] at hc; omega
  obtain ⟨h1, h2, h3⟩ := alignUp_spec (s.pages p).counter k (by omega) h63
  have hd : 2 ^ k ∣ PAGE_SIZE := by
    rw [show PAGE_SIZE = 2 ^ 28 from rfl]; exact Nat.pow_dvd_pow 2 hk
  have e : cursor (skipped s p (MemPage.alignUp (s.pages p).counter (2 ^ k - 1))) p
      = MemPage.alignUp (s.pages p).counter (2 ^ k - 1) := by simp [cursor, skipped]
  constructor
  · rw [e]; exact h1
  · rw [e]; exact h2
  · rw [e]; exact h3
  · rw [e]; exact alignUp_le_page _ _ hk hc
  · rw [e, addrOf]
    exact Nat.dvd_add (Nat.dvd_add (Nat.dvd_trans hd ha) (Nat.dvd_mul_right_of_dvd hd p)) h2
  · rfl
  · rw [e]; simp [skipped]
  · intro q hq; simp [skipped, hq]
  · rfl
  · rfl

end Monoasm
