import Verif.Spec.Runtime
import Verif.Proofs.Run
/-
  The vocabulary of `Spec/Runtime.lean` and the functions used in proofs.
-/

namespace Monoasm
open Spec

theorem littleEndian_16 (v : BitVec 16) : littleEndian 2 v.toNat = le16 v := by
  simp only [littleEndian, le16, List.range, List.range.loop, List.map, List.cons.injEq, and_true]
  refine ⟨?_, ?_⟩ <;> apply BitVec.eq_of_toNat_eq <;> simp [Nat.shiftRight_eq_div_pow]

theorem littleEndian_32 (v : BitVec 32) : littleEndian 4 v.toNat = le32 v := by
  simp only [littleEndian, le32, List.range, List.range.loop, List.map, List.cons.injEq, and_true]
  refine ⟨?_, ?_, ?_, ?_⟩ <;> apply BitVec.eq_of_toNat_eq <;> simp [Nat.shiftRight_eq_div_pow]

theorem littleEndian_64 (v : BitVec 64) : littleEndian 8 v.toNat = le64 v := by
  simp only [littleEndian, le64, List.range, List.range.loop, List.map, List.cons.injEq, and_true]
  refine ⟨?_, ?_, ?_, ?_, ?_, ?_, ?_, ?_⟩ <;> apply BitVec.eq_of_toNat_eq <;>
    simp [Nat.shiftRight_eq_div_pow]

theorem appended_emitted (s p bs) : Appended s p bs (emitted s p bs) where
  stored := bytesAt_put _ _ _
  frame a h := putBytes_out _ h
  page := by simp [emitted]
  others q h := by simp [emitted, h]
  labels := rfl
  selected := rfl

end Monoasm
