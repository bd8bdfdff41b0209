import Verif.Proofs.Refer
import Verif.Proofs.Link
import Verif.Proofs.Listing
/-
  Jump patching.
-/

namespace Monoasm
open JitMemory Spec

theorem bytes_one (m : Nat → Byte) (a n : Nat) : bytes m a (n + 1) = m a :: bytes m (a + 1) n := by
  simp only [bytes, List.range_succ_eq_map, List.map_cons, List.map_map, Nat.add_zero, List.cons.injEq, true_and]
  exact List.map_congr_left fun i _ => by simp only [Function.comp]; congr 1; omega

theorem offset_ofInt {x y : Nat} :
    (BitVec.ofNat 64 x - BitVec.ofNat 64 y - 5).setWidth 32 = BitVec.ofInt 32 ((x : Int) - (y : Int) - 5) := by
  apply BitVec.eq_of_toNat_eq
  simp only [BitVec.toNat_setWidth, BitVec.toNat_sub, BitVec.toNat_ofNat, BitVec.toNat_ofInt]
  have h5 : BitVec.toNat (5 : BitVec 64) = 5 := rfl
  rw [h5]
  omega

theorem offset_toInt {x y : Nat} (h1 : x < y + 2147483648) (h2 : y < x + 2147483643) :
    ((BitVec.ofNat 64 x - BitVec.ofNat 64 y - 5).setWidth 32).toInt + (y + 5 : Nat) = x := by
  rw [offset_ofInt, ofInt_toInt (by omega) (by omega)]
  omega

/-- Bound labels are inside the pages (or just after the last one). -/
theorem addr_range {base s} (hi : Inv base s) (hb : 0 < base) {l a} (h : HasAddress s l a) :
    base ≤ a ∧ a ≤ base + 3 * PAGE_SIZE := by
  obtain ⟨p, c, h0, rfl⟩ := (hasAddress_iff hi hb).1 h
  rw [JitMemory.locOf, Option.bind_eq_some_iff] at h0
  obtain ⟨i, h1, h2⟩ := h0
  have := hi.loc l i h1 p c h2
  have key : ∀ p : Nat, p < 3 → c ≤ PAGE_SIZE → base ≤ base + PAGE_SIZE * p + c ∧ base + PAGE_SIZE * p + c ≤ base + 3 * PAGE_SIZE := by
    intro p hp hc
    rw [PAGE_SIZE_eq] at *
    omega
  exact key p this.1 this.2

theorem hasAddress_at {base s} (hi : Inv base s) (hb : 0 < base) {l p c a} (h : s.locOf l = some (p, c))
    (e : addrOf base p c = a) : HasAddress s l a := e ▸ hasAddress_of_loc hi hb h

theorem rawWrite4_mem (a : Nat) (v : BitVec 32) (s : JitMemory) : ∃ m, rawWrite4 a v s = .ok () { s with mem := m }
    ∧ (∀ x, ¬ (a ≤ x ∧ x < a + 4) → m x = s.mem x) ∧ bytes m a 4 = le32 v := by
  refine ⟨_, rfl, fun x hx => ?_, ?_⟩
  · simp only [upd]
    rw [if_neg (by omega), if_neg (by omega), if_neg (by omega), if_neg (by omega)]
  · simp [bytes, List.range_succ, List.range_zero, upd, le32]

/-- The effect of a patch. -/
theorem patch_run {s : JitMemory} {d x y : Nat} (hd : HasAddress s d x) :
    ∃ m, apply_jmp_patch_address y d s = .ok () { s with mem := m }
    ∧ (∀ a, ¬ (y + 1 ≤ a ∧ a < y + 5) → m a = s.mem a)
    ∧ bytes m (y + 1) 4 = le32 ((BitVec.ofNat 64 x - BitVec.ofNat 64 y - 5).setWidth 32) := by
  obtain ⟨m, h1, h2, h3⟩ := rawWrite4_mem (y + 1) ((BitVec.ofNat 64 x - BitVec.ofNat 64 y - 5).setWidth 32) s
  exact ⟨m, (ok_bind hd.1).trans h1, fun a ha => h2 a (by omega), h3⟩

theorem patch_label_run {s : JitMemory} {l d y : Nat} (hp : HasAddress s l y) :
    apply_jmp_patch l d s = apply_jmp_patch_address y d s := ok_bind hp.1

theorem toInt_signExtend32 (v : BitVec 32) : (v.signExtend 64).toInt = v.toInt :=
  BitVec.toInt_signExtend_of_le (by decide)

theorem decode_jmp {m : Nat → Byte} {a n : Nat} {v : BitVec 32} (h0 : m a = 0xe9) (h1 : bytes m (a + 1) 4 = le32 v) :
    X86.decode (bytes m a (5 + n)) = some (.jmpRel (v.signExtend 64), bytes m (a + 5) n) := by
  rw [bytes_split, bytes_one, h1, h0]
  simp [X86.decode, X86.prefixes, X86.isRex, X86.dispatch, X86.map1, imm32_le32]

theorem decode_call {m : Nat → Byte} {a n : Nat} {v : BitVec 32} (h0 : m a = 0xe8) (h1 : bytes m (a + 1) 4 = le32 v) :
    X86.decode (bytes m a (5 + n)) = some (.callRel (v.signExtend 64), bytes m (a + 5) n) := by
  rw [bytes_split, bytes_one, h1, h0]
  simp [X86.decode, X86.prefixes, X86.isRex, X86.dispatch, X86.map1, imm32_le32]

end Monoasm
