import Verif.Proofs.History
import Verif.Spec.Runtime
import Verif.Spec.Link
/-
  C50: code pointers.
-/

namespace Monoasm
open Spec

/-- Subtraction gives the signed distance (the addresses are below `2^63`, so that the debug-mode
    overflow check of the subtraction cannot fire). -/
theorem C50_sub (a b : BitVec 64) (ha : a.toNat < 2 ^ 63) (hb : b.toNat < 2 ^ 63) :
    (CodePtr.sub a b).toInt = (a.toNat : Int) - (b.toNat : Int) := by
  simp only [CodePtr.sub, BitVec.toInt_sub, BitVec.toInt_eq_toNat_of_lt (show 2 * a.toNat < 2 ^ 64 by omega),
    BitVec.toInt_eq_toNat_of_lt (show 2 * b.toNat < 2 ^ 64 by omega)]
  rw [Int.bmod_eq_of_le] <;> omega

/-- Adding the distance returns the original pointer. -/
theorem C50_add_sub (a b : BitVec 64) (h : a ≠ 0) : CodePtr.add b (CodePtr.sub a b) = .ok a := by
  have : b + (a - b) = a := by rw [BitVec.add_comm, BitVec.sub_add_cancel]
  simp [CodePtr.add, CodePtr.sub, this]
  simpa using h

/-- Ordering agrees with addresses, and with the sign of the distance. -/
theorem C50_order (a b : BitVec 64) (ha : a.toNat < 2 ^ 63) (hb : b.toNat < 2 ^ 63) :
    (CodePtr.lt a b = true ↔ a.toNat < b.toNat) ∧ (CodePtr.lt a b = true ↔ (CodePtr.sub a b).toInt < 0) := by
  rw [C50_sub a b ha hb]
  simp only [CodePtr.lt, decide_eq_true_eq, true_and]
  omega

/-- The null pointer, and only the null pointer, is rejected; other pointers are kept as they are. -/
theorem C50_null (p q : BitVec 64) :
    (CodePtr.from' p = .ok q ↔ p = q ∧ q ≠ 0) ∧ (CodePtr.from' p = .error .nullPointer ↔ p = 0) := by
  unfold CodePtr.from'
  split
  · simp_all
  · simp only [Except.ok.injEq, reduceCtorEq, false_iff]
    exact ⟨⟨fun h => ⟨h, h ▸ by assumption⟩, fun h => h.1⟩, by assumption⟩

/-- No sum is null. -/
theorem C50_add (p n q : BitVec 64) : CodePtr.add p n = .ok q ↔ p + n = q ∧ q ≠ 0 := by
  unfold CodePtr.add
  split
  · simp_all
  · simp only [Except.ok.injEq]
    exact ⟨fun h => ⟨h, h ▸ by assumption⟩, fun h => h.1⟩

/-- The functions that return code pointers: the current address is the one at which the next byte
    of the selected page is written, unless it is null, when there is a panic. -/
theorem C50_current (s : JitMemory) :
    JitMemory.get_current_address s = if here s = 0 then .panic .nullPointer s else .ok (here s) s := by
  by_cases h : here s = 0
  · rw [if_pos h]; exact (show JitMemory.codePtrFrom (here s) s = _ by rw [h]; rfl)
  · rw [if_neg h]; exact (show JitMemory.codePtrFrom (here s) s = _ by rw [JitMemory.codePtrFrom, if_neg h]; rfl)

/-- No label has the address null. -/
theorem C50_label (s s' : JitMemory) (l a : Nat) (h : JitMemory.get_label_address l s = .ok a s') : a ≠ 0 := by
  simp only [JitMemory.get_label_address, M.bind_def] at h
  cases e : JitMemory.get_label_pos l s with
  | panic er s1 => rw [e] at h; cases h
  | ok pc s1 =>
    rw [e] at h
    simp only [M.get, JitMemory.codePtrFrom] at h
    split at h
    · cases h
    · cases h; assumption

/-- A label bound at the start of a page at address 0 is rejected (by this function). -/
theorem C50_label_null (s : JitMemory) (l p c : Nat) (h : s.locOf l = some (p, c)) (hz : (s.pages p).contents + c = 0) :
    JitMemory.get_label_address l s = .panic .nullPointer s := by
  have hl : l < s.labels.length := by
    apply Classical.byContradiction
    intro hn
    rw [JitMemory.locOf, List.getElem?_eq_none (by omega)] at h
    simp at h
  simp only [JitMemory.get_label_address, M.bind_def, get_label_pos_eq s l hl, h, M.get, JitMemory.codePtrFrom]
  rw [if_pos hz]; rfl

example : (CodePtr.sub 0x10000000 0x10000100).toInt = -0x100 ∧ CodePtr.lt 0x10000000 0x10000100 = true
    ∧ CodePtr.add 0x10000100 (CodePtr.sub 0x10000000 0x10000100) = .ok 0x10000000 :=
  ⟨C50_sub _ _ (by decide) (by decide), rfl, C50_add_sub _ _ (by decide)⟩

/-- A label is bound at the start of a page at address 0; elsewhere, it has that address. -/
example : JitMemory.get_label_address 0 (reach 0 (fun _ => 0) [.new .label, .inst (.Label 0)])
      = .panic .nullPointer (reach 0 (fun _ => 0) [.new .label, .inst (.Label 0)])
    ∧ JitMemory.get_current_address (reach 0x10000000 (fun _ => 0) [.inst .Ret])
      = .ok 0x10000001 (reach 0x10000000 (fun _ => 0) [.inst .Ret]) :=
  ⟨C50_label_null _ 0 0 0 (by decide +kernel) (by decide +kernel), (C50_current _).trans (by
    rw [show here (reach 0x10000000 (fun _ => 0) [.inst .Ret]) = 0x10000001 by decide +kernel]; rfl)⟩

end Monoasm
