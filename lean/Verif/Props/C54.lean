import Verif.Proofs.Tests
import Verif.Proofs.Double
/-
  C54: the functions of the integration tests (monoasm/tests/*.rs), from their text to the result of a
  call, for all arguments.

  The tests call each function with one or a few arguments. For `cvttsd2si.rs` see C56.
-/

namespace Monoasm
open Spec X86 tests

/-- tests/div.rs, `udiv`: 128-bit dividend in rsi:rdi, divisor in rdx -/
theorem C54_udiv : Computes [.label] noVars oneLabel udiv 0 Nothing
    (fun d => d.gpr rdx ≠ 0 ∧ (d.gpr rsi ++ d.gpr rdi).toNat / (d.gpr rdx).toNat < 2 ^ 64)
    (fun d d' => (d'.gpr rax).toNat = (d.gpr rsi ++ d.gpr rdi).toNat / (d.gpr rdx).toNat
      ∧ (d'.gpr rdx).toNat = (d.gpr rsi ++ d.gpr rdi).toNat % (d.gpr rdx).toNat) := by
  refine computes_of (is := [.Label 0, .Movq (.reg (.reg 1)) (.reg (.reg 2)), .Movq (.reg (.reg 0)) (.reg (.reg 7)), .Movq (.reg (.reg 2))
      (.reg (.reg 6)), .Div (.reg (.reg 1)), .Ret]) (by decide +kernel) (C52_check (by decide +kernel)) 0 rfl ?_
  rintro base mem hR d hL hS ⟨h0, hq⟩
  refine labelled (j := 0) (l := 0) hR rfl ?_
  refine lead_det (j := 1) (I := .mov .q (.gpr 1) (.gpr 2)) hR hL rfl rfl rfl (eff_mov_rr _ _ _ _) ?_
  refine lead_det (j := 2) (I := .mov .q (.gpr 0) (.gpr 7)) hR hL rfl rfl rfl (eff_mov_rr _ _ _ _) ?_
  refine lead_det (j := 3) (I := .mov .q (.gpr 2) (.gpr 6)) hR hL rfl rfl rfl (eff_mov_rr _ _ _ _) ?_
  refine lead_seq (j := 4) (I := .un .div .q (.gpr 1)) hR hL rfl rfl rfl (eff_div_q _ _ _ h0 hq) fun f4 _ => ?_
  refine leaf_ret (j := 5) (d0 := d) hR hL rfl ⟨rfl, rfl, rfl, rfl, rfl, rfl, rfl⟩ hS (fun _ _ => rfl) fun s hr hs => ⟨hr, ?_⟩
  rw [hs]
  refine ⟨?_, ?_⟩
  · show (BitVec.ofNat 64 _).toNat = _
    rw [BitVec.toNat_ofNat]
    exact Nat.mod_eq_of_lt hq
  · show (BitVec.ofNat 64 _).toNat = _
    rw [BitVec.toNat_ofNat]
    refine Nat.mod_eq_of_lt (Nat.lt_trans (Nat.mod_lt _ ?_) (d.gpr rdx).isLt)
    exact Nat.pos_of_ne_zero fun e => h0 (BitVec.eq_of_toNat_eq e)

/-- tests/div.rs, `idiv`: the same with signed numbers; the quotient must fit into 64 bits -/
theorem C54_idiv : Computes [.label] noVars oneLabel idiv 0 Nothing
    (fun d => d.gpr rdx ≠ 0 ∧ -2 ^ 63 ≤ (d.gpr rsi ++ d.gpr rdi).toInt.tdiv (d.gpr rdx).toInt
      ∧ (d.gpr rsi ++ d.gpr rdi).toInt.tdiv (d.gpr rdx).toInt < 2 ^ 63)
    (fun d d' => (d'.gpr rax).toInt = (d.gpr rsi ++ d.gpr rdi).toInt.tdiv (d.gpr rdx).toInt
      ∧ (d'.gpr rdx).toInt = (d.gpr rsi ++ d.gpr rdi).toInt.tmod (d.gpr rdx).toInt) := by
  refine computes_of (is := [.Label 0, .Movq (.reg (.reg 1)) (.reg (.reg 2)), .Movq (.reg (.reg 0)) (.reg (.reg 7)), .Movq (.reg (.reg 2))
      (.reg (.reg 6)), .Idiv (.reg (.reg 1)), .Ret]) (by decide +kernel) (C52_check (by decide +kernel)) 0 rfl ?_
  rintro base mem hR d hL hS ⟨h0, h1, h2⟩
  refine labelled (j := 0) (l := 0) hR rfl ?_
  refine lead_det (j := 1) (I := .mov .q (.gpr 1) (.gpr 2)) hR hL rfl rfl rfl (eff_mov_rr _ _ _ _) ?_
  refine lead_det (j := 2) (I := .mov .q (.gpr 0) (.gpr 7)) hR hL rfl rfl rfl (eff_mov_rr _ _ _ _) ?_
  refine lead_det (j := 3) (I := .mov .q (.gpr 2) (.gpr 6)) hR hL rfl rfl rfl (eff_mov_rr _ _ _ _) ?_
  refine lead_seq (j := 4) (I := .un .idiv .q (.gpr 1)) hR hL rfl rfl rfl (eff_idiv_q _ _ _ h0 (ofInt_fits h1 h2)) fun f4 _ => ?_
  refine leaf_ret (j := 5) (d0 := d) hR hL rfl ⟨rfl, rfl, rfl, rfl, rfl, rfl, rfl⟩ hS (fun _ _ => rfl) fun s hr hs => ⟨hr, ?_⟩
  rw [hs]
  exact ⟨ofInt_fits h1 h2, tmod_fits h0⟩

/-- tests/idivl.rs, `idivl`: quotient of two `i32`, except for those that the processor cannot represent -/
theorem C54_idivl : Computes [.label] noVars oneLabel idivl 0 Nothing
    (fun d => ((d.gpr rsi).setWidth 32) ≠ 0#32 ∧ ¬ (((d.gpr rdi).setWidth 32) = BitVec.intMin 32 ∧ ((d.gpr rsi).setWidth 32) = -1#32))
    (fun d d' => ((d'.gpr rax).setWidth 32).toInt = ((d.gpr rdi).setWidth 32).toInt.tdiv ((d.gpr rsi).setWidth 32).toInt) := by
  refine computes_of (is := [.Label 0, .Xor .DWORD (.reg (.reg 2)) (.reg (.reg 2)), .Xor .DWORD (.reg (.reg 0)) (.reg (.reg 0)), .Movq (.reg
      (.reg 0)) (.reg (.reg 7)), .Cdq, .Idivl (.reg (.reg 6)), .Ret]) (by decide +kernel) (C52_check (by decide +kernel)) 0 rfl ?_
  rintro base mem hR d hL hS ⟨h0, h1⟩
  refine labelled (j := 0) (l := 0) hR rfl ?_
  refine lead_det (j := 1) (I := .alu .xor .d (.gpr 2) (.gpr 2)) hR hL rfl rfl rfl (eff_xor_dd _ _ _ _) ?_
  refine lead_det (j := 2) (I := .alu .xor .d (.gpr 0) (.gpr 0)) hR hL rfl rfl rfl (eff_xor_dd _ _ _ _) ?_
  refine lead_det (j := 3) (I := .mov .q (.gpr 0) (.gpr 7)) hR hL rfl rfl rfl (eff_mov_rr _ _ _ _) ?_
  refine lead_det (j := 4) (I := .signExtDx .d) hR hL rfl rfl rfl (eff_cdq _ _) ?_
  refine lead_seq (j := 5) (I := .un .idiv .d (.gpr 6)) hR hL rfl rfl rfl (eff_idiv_d' _ _ _ h0 h1 (wide_cdq rfl rfl)) fun f5 _ => ?_
  refine leaf_ret (j := 6) (d0 := d) hR hL rfl ⟨rfl, rfl, rfl, rfl, rfl, rfl, rfl⟩ hS (fun _ _ => rfl) fun s hr hs => ⟨hr, ?_⟩
  rw [hs]
  show ((((BitVec.ofInt 32 _).setWidth 64)).setWidth 32).toInt = _
  rw [setWidth_32_64]
  exact tdiv_fits h1

/-- tests/idivl.rs, `idivl_rem`: the remainder -/
theorem C54_idivl_rem : Computes [.label] noVars oneLabel idivl_rem 0 Nothing
    (fun d => ((d.gpr rsi).setWidth 32) ≠ 0#32 ∧ ¬ (((d.gpr rdi).setWidth 32) = BitVec.intMin 32 ∧ ((d.gpr rsi).setWidth 32) = -1#32))
    (fun d d' => ((d'.gpr rax).setWidth 32).toInt = ((d.gpr rdi).setWidth 32).toInt.tmod ((d.gpr rsi).setWidth 32).toInt) := by
  refine computes_of (is := [.Label 0, .Xor .DWORD (.reg (.reg 2)) (.reg (.reg 2)), .Xor .DWORD (.reg (.reg 0)) (.reg (.reg 0)), .Movq (.reg
      (.reg 0)) (.reg (.reg 7)), .Cdq, .Idivl (.reg (.reg 6)), .Movl (.reg (.reg 0)) (.reg (.reg 2)), .Ret]) (by decide +kernel) (C52_check
      (by decide +kernel)) 0 rfl ?_
  rintro base mem hR d hL hS ⟨h0, h1⟩
  refine labelled (j := 0) (l := 0) hR rfl ?_
  refine lead_det (j := 1) (I := .alu .xor .d (.gpr 2) (.gpr 2)) hR hL rfl rfl rfl (eff_xor_dd _ _ _ _) ?_
  refine lead_det (j := 2) (I := .alu .xor .d (.gpr 0) (.gpr 0)) hR hL rfl rfl rfl (eff_xor_dd _ _ _ _) ?_
  refine lead_det (j := 3) (I := .mov .q (.gpr 0) (.gpr 7)) hR hL rfl rfl rfl (eff_mov_rr _ _ _ _) ?_
  refine lead_det (j := 4) (I := .signExtDx .d) hR hL rfl rfl rfl (eff_cdq _ _) ?_
  refine lead_seq (j := 5) (I := .un .idiv .d (.gpr 6)) hR hL rfl rfl rfl (eff_idiv_d' _ _ _ h0 h1 (wide_cdq rfl rfl)) fun f5 _ => ?_
  refine lead_det (j := 6) (I := .mov .d (.gpr 0) (.gpr 2)) hR hL rfl rfl rfl (eff_mov_dd _ _ _ _) ?_
  refine leaf_ret (j := 7) (d0 := d) hR hL rfl ⟨rfl, rfl, rfl, rfl, rfl, rfl, rfl⟩ hS (fun _ _ => rfl) fun s hr hs => ⟨hr, ?_⟩
  rw [hs]
  show (((((BitVec.ofInt 32 _).setWidth 64).setWidth 32).setWidth 64).setWidth 32).toInt = _
  rw [setWidth_32_64, setWidth_32_64]
  exact tmod_fits h0

/-- tests/cdq.rs: the sign of the lower half, in all bits of the lower half -/
theorem C54_cdq : Computes [.label] noVars oneLabel tests.cdq 0 Nothing
    (fun _ => True)
    (fun d d' => d'.gpr rax = if (d.gpr rdi).getLsbD 31 then 0xffffffff#64 else 0#64) := by
  refine computes_of (is := [.Label 0, .Movq (.reg (.reg 0)) (.reg (.reg 7)), .Cdq, .Movl (.reg (.reg 0)) (.reg (.reg 2)), .Ret]) (by decide +kernel)
      (C52_check (by decide +kernel)) 0 rfl ?_
  rintro base mem hR d hL hS -
  refine labelled (j := 0) (l := 0) hR rfl ?_
  refine lead_det (j := 1) (I := .mov .q (.gpr 0) (.gpr 7)) hR hL rfl rfl rfl (eff_mov_rr _ _ _ _) ?_
  refine lead_det (j := 2) (I := .signExtDx .d) hR hL rfl rfl rfl (eff_cdq _ _) ?_
  refine lead_det (j := 3) (I := .mov .d (.gpr 0) (.gpr 2)) hR hL rfl rfl rfl (eff_mov_dd _ _ _ _) ?_
  refine leaf_ret (j := 4) (d0 := d) hR hL rfl ⟨rfl, rfl, rfl, rfl, rfl, rfl, rfl⟩ hS (fun _ _ => rfl) fun s hr hs => ⟨hr, ?_⟩
  rw [hs]
  show ((((if ((d.gpr rdi).setWidth 32).msb then BitVec.allOnes 32 else 0)).setWidth 64).setWidth 32).setWidth 64 = _
  rw [BitVec.msb_eq_getLsbD_last, BitVec.getLsbD_setWidth]
  cases (d.gpr rdi).getLsbD 31 <;> rfl

/-- tests/shift_dword.rs, `shll`: shift by 31 to the left; the upper half of the result is zero -/
theorem C54_shll : Computes [.label] noVars oneLabel shll 0 Nothing
    (fun _ => True)
    (fun d d' => d'.gpr rax = (((d.gpr rdi).setWidth 32) <<< 31).setWidth 64) := by
  refine computes_of (is := [.Label 0, .Movq (.reg (.reg 0)) (.reg (.reg 7)), .Movb (.reg (.reg 1)) (.imm 31), .Sal .DWORD (.reg (.reg 0))
      (.reg (.reg 1)), .Ret]) (by decide +kernel) (C52_check (by decide +kernel)) 0 rfl ?_
  rintro base mem hR d hL hS -
  refine labelled (j := 0) (l := 0) hR rfl ?_
  refine lead_det (j := 1) (I := .mov .q (.gpr 0) (.gpr 7)) hR hL rfl rfl rfl (eff_mov_rr _ _ _ _) ?_
  refine lead_det (j := 2) (I := .mov .b (.gpr 1) (.imm 31)) hR hL rfl rfl rfl (eff_mov_b _ _ _ _) ?_
  refine lead_seq (j := 3) (I := .shift .shl .d (.gpr 0) (.gpr 1)) hR hL rfl rfl rfl (eff_shift _ _ _ _ _ 31 _ _ _ (low_byte _ _ rfl) (by
      decide) rfl) fun f3 _ => ?_
  refine leaf_ret (j := 4) (d0 := d) hR hL rfl ⟨rfl, rfl, rfl, rfl, rfl, rfl, rfl⟩ hS (fun _ _ => rfl) fun s hr hs => ⟨hr, ?_⟩
  rw [hs]
  rfl

/-- tests/shift_dword.rs, `shrl`: by 1 to the right; the upper half of the result is zero -/
theorem C54_shrl : Computes [.label] noVars oneLabel shrl 0 Nothing
    (fun _ => True)
    (fun d d' => d'.gpr rax = (((d.gpr rdi).setWidth 32) >>> 1).setWidth 64) := by
  refine computes_of (is := [.Label 0, .Movq (.reg (.reg 0)) (.reg (.reg 7)), .Movb (.reg (.reg 1)) (.imm 1), .Shr .DWORD (.reg (.reg 0))
      (.reg (.reg 1)), .Ret]) (by decide +kernel) (C52_check (by decide +kernel)) 0 rfl ?_
  rintro base mem hR d hL hS -
  refine labelled (j := 0) (l := 0) hR rfl ?_
  refine lead_det (j := 1) (I := .mov .q (.gpr 0) (.gpr 7)) hR hL rfl rfl rfl (eff_mov_rr _ _ _ _) ?_
  refine lead_det (j := 2) (I := .mov .b (.gpr 1) (.imm 1)) hR hL rfl rfl rfl (eff_mov_b _ _ _ _) ?_
  refine lead_seq (j := 3) (I := .shift .shr .d (.gpr 0) (.gpr 1)) hR hL rfl rfl rfl (eff_shift _ _ _ _ _ 1 _ _ _ (low_byte _ _ rfl) (by
      decide) rfl) fun f3 _ => ?_
  refine leaf_ret (j := 4) (d0 := d) hR hL rfl ⟨rfl, rfl, rfl, rfl, rfl, rfl, rfl⟩ hS (fun _ _ => rfl) fun s hr hs => ⟨hr, ?_⟩
  rw [hs]
  rfl

/-- tests/shift_dword.rs, `sall`: the same as `shll`; the upper half of the result is zero -/
theorem C54_sall : Computes [.label] noVars oneLabel sall 0 Nothing
    (fun _ => True)
    (fun d d' => d'.gpr rax = (((d.gpr rdi).setWidth 32) <<< 31).setWidth 64) := by
  refine computes_of (is := [.Label 0, .Movq (.reg (.reg 0)) (.reg (.reg 7)), .Movb (.reg (.reg 1)) (.imm 31), .Sal .DWORD (.reg (.reg 0))
      (.reg (.reg 1)), .Ret]) (by decide +kernel) (C52_check (by decide +kernel)) 0 rfl ?_
  rintro base mem hR d hL hS -
  refine labelled (j := 0) (l := 0) hR rfl ?_
  refine lead_det (j := 1) (I := .mov .q (.gpr 0) (.gpr 7)) hR hL rfl rfl rfl (eff_mov_rr _ _ _ _) ?_
  refine lead_det (j := 2) (I := .mov .b (.gpr 1) (.imm 31)) hR hL rfl rfl rfl (eff_mov_b _ _ _ _) ?_
  refine lead_seq (j := 3) (I := .shift .shl .d (.gpr 0) (.gpr 1)) hR hL rfl rfl rfl (eff_shift _ _ _ _ _ 31 _ _ _ (low_byte _ _ rfl) (by
      decide) rfl) fun f3 _ => ?_
  refine leaf_ret (j := 4) (d0 := d) hR hL rfl ⟨rfl, rfl, rfl, rfl, rfl, rfl, rfl⟩ hS (fun _ _ => rfl) fun s hr hs => ⟨hr, ?_⟩
  rw [hs]
  rfl

/-- tests/shift_dword.rs, `sarl`: by 31 to the right, with sign; the upper half of the result is zero -/
theorem C54_sarl : Computes [.label] noVars oneLabel sarl 0 Nothing
    (fun _ => True)
    (fun d d' => d'.gpr rax = (((d.gpr rdi).setWidth 32).sshiftRight 31).setWidth 64) := by
  refine computes_of (is := [.Label 0, .Movq (.reg (.reg 0)) (.reg (.reg 7)), .Movb (.reg (.reg 1)) (.imm 31), .Sar .DWORD (.reg (.reg 0))
      (.reg (.reg 1)), .Ret]) (by decide +kernel) (C52_check (by decide +kernel)) 0 rfl ?_
  rintro base mem hR d hL hS -
  refine labelled (j := 0) (l := 0) hR rfl ?_
  refine lead_det (j := 1) (I := .mov .q (.gpr 0) (.gpr 7)) hR hL rfl rfl rfl (eff_mov_rr _ _ _ _) ?_
  refine lead_det (j := 2) (I := .mov .b (.gpr 1) (.imm 31)) hR hL rfl rfl rfl (eff_mov_b _ _ _ _) ?_
  refine lead_seq (j := 3) (I := .shift .sar .d (.gpr 0) (.gpr 1)) hR hL rfl rfl rfl (eff_shift _ _ _ _ _ 31 _ _ _ (low_byte _ _ rfl) (by
      decide) rfl) fun f3 _ => ?_
  refine leaf_ret (j := 4) (d0 := d) hR hL rfl ⟨rfl, rfl, rfl, rfl, rfl, rfl, rfl⟩ hS (fun _ _ => rfl) fun s hr hs => ⟨hr, ?_⟩
  rw [hs]
  rfl

/-- tests/shift_dword.rs, `roll`: rotation by 4 to the left; the upper half of the result is zero -/
theorem C54_roll : Computes [.label] noVars oneLabel roll 0 Nothing
    (fun _ => True)
    (fun d d' => d'.gpr rax = (((d.gpr rdi).setWidth 32).rotateLeft 4).setWidth 64) := by
  refine computes_of (is := [.Label 0, .Movq (.reg (.reg 0)) (.reg (.reg 7)), .Movb (.reg (.reg 1)) (.imm 4), .Rol .DWORD (.reg (.reg 0))
      (.reg (.reg 1)), .Ret]) (by decide +kernel) (C52_check (by decide +kernel)) 0 rfl ?_
  rintro base mem hR d hL hS -
  refine labelled (j := 0) (l := 0) hR rfl ?_
  refine lead_det (j := 1) (I := .mov .q (.gpr 0) (.gpr 7)) hR hL rfl rfl rfl (eff_mov_rr _ _ _ _) ?_
  refine lead_det (j := 2) (I := .mov .b (.gpr 1) (.imm 4)) hR hL rfl rfl rfl (eff_mov_b _ _ _ _) ?_
  refine lead_seq (j := 3) (I := .shift .rol .d (.gpr 0) (.gpr 1)) hR hL rfl rfl rfl (eff_shift _ _ _ _ _ 4 _ _ _ (low_byte _ _ rfl) (by
      decide) rfl) fun f3 _ => ?_
  refine leaf_ret (j := 4) (d0 := d) hR hL rfl ⟨rfl, rfl, rfl, rfl, rfl, rfl, rfl⟩ hS (fun _ _ => rfl) fun s hr hs => ⟨hr, ?_⟩
  rw [hs]
  rfl

/-- tests/shift_dword.rs, `rorl`: by 4 to the right; the upper half of the result is zero -/
theorem C54_rorl : Computes [.label] noVars oneLabel rorl 0 Nothing
    (fun _ => True)
    (fun d d' => d'.gpr rax = (((d.gpr rdi).setWidth 32).rotateRight 4).setWidth 64) := by
  refine computes_of (is := [.Label 0, .Movq (.reg (.reg 0)) (.reg (.reg 7)), .Movb (.reg (.reg 1)) (.imm 4), .Ror .DWORD (.reg (.reg 0))
      (.reg (.reg 1)), .Ret]) (by decide +kernel) (C52_check (by decide +kernel)) 0 rfl ?_
  rintro base mem hR d hL hS -
  refine labelled (j := 0) (l := 0) hR rfl ?_
  refine lead_det (j := 1) (I := .mov .q (.gpr 0) (.gpr 7)) hR hL rfl rfl rfl (eff_mov_rr _ _ _ _) ?_
  refine lead_det (j := 2) (I := .mov .b (.gpr 1) (.imm 4)) hR hL rfl rfl rfl (eff_mov_b _ _ _ _) ?_
  refine lead_seq (j := 3) (I := .shift .ror .d (.gpr 0) (.gpr 1)) hR hL rfl rfl rfl (eff_shift _ _ _ _ _ 4 _ _ _ (low_byte _ _ rfl) (by
      decide) rfl) fun f3 _ => ?_
  refine leaf_ret (j := 4) (d0 := d) hR hL rfl ⟨rfl, rfl, rfl, rfl, rfl, rfl, rfl⟩ hS (fun _ _ => rfl) fun s hr hs => ⟨hr, ?_⟩
  rw [hs]
  rfl

/-- tests/counts.rs, `lzcntl`: leading zeros of the lower half -/
theorem C54_lzcntl : Computes [.label] noVars oneLabel lzcntl 0 Nothing
    (fun _ => True)
    (fun d d' => (d'.gpr rax).toNat = leading ((d.gpr rdi).setWidth 32)) := by
  refine computes_of (is := [.Label 0, .Movq (.reg (.reg 0)) (.reg (.reg 7)), .Lzcnt .DWORD (.reg 0) (.reg (.reg 0)), .Ret]) (by decide +kernel)
      (C52_check (by decide +kernel)) 0 rfl ?_
  rintro base mem hR d hL hS -
  refine labelled (j := 0) (l := 0) hR rfl ?_
  refine lead_det (j := 1) (I := .mov .q (.gpr 0) (.gpr 7)) hR hL rfl rfl rfl (eff_mov_rr _ _ _ _) ?_
  refine lead_seq (j := 2) (I := .cnt .lzcnt .d (.gpr 0) (.gpr 0)) hR hL rfl rfl rfl (eff_cnt_d _ _ _ _ _ _ _ _ rfl) fun f2 _ => ?_
  refine leaf_ret (j := 3) (d0 := d) hR hL rfl ⟨rfl, rfl, rfl, rfl, rfl, rfl, rfl⟩ hS (fun _ _ => rfl) fun s hr hs => ⟨hr, ?_⟩
  rw [hs]
  exact count_32 (leading_le _)

/-- tests/counts.rs, `tzcntl`: trailing zeros of the lower half -/
theorem C54_tzcntl : Computes [.label] noVars oneLabel tzcntl 0 Nothing
    (fun _ => True)
    (fun d d' => (d'.gpr rax).toNat = trailing ((d.gpr rdi).setWidth 32)) := by
  refine computes_of (is := [.Label 0, .Movq (.reg (.reg 0)) (.reg (.reg 7)), .Tzcnt .DWORD (.reg 0) (.reg (.reg 0)), .Ret]) (by decide +kernel)
      (C52_check (by decide +kernel)) 0 rfl ?_
  rintro base mem hR d hL hS -
  refine labelled (j := 0) (l := 0) hR rfl ?_
  refine lead_det (j := 1) (I := .mov .q (.gpr 0) (.gpr 7)) hR hL rfl rfl rfl (eff_mov_rr _ _ _ _) ?_
  refine lead_seq (j := 2) (I := .cnt .tzcnt .d (.gpr 0) (.gpr 0)) hR hL rfl rfl rfl (eff_cnt_d _ _ _ _ _ _ _ _ rfl) fun f2 _ => ?_
  refine leaf_ret (j := 3) (d0 := d) hR hL rfl ⟨rfl, rfl, rfl, rfl, rfl, rfl, rfl⟩ hS (fun _ _ => rfl) fun s hr hs => ⟨hr, ?_⟩
  rw [hs]
  exact count_32 (trailing_le _)

/-- tests/counts.rs, `popcntl`: ones of the lower half -/
theorem C54_popcntl : Computes [.label] noVars oneLabel popcntl 0 Nothing
    (fun _ => True)
    (fun d d' => (d'.gpr rax).toNat = popCount ((d.gpr rdi).setWidth 32)) := by
  refine computes_of (is := [.Label 0, .Movq (.reg (.reg 0)) (.reg (.reg 7)), .Popcnt .DWORD (.reg 0) (.reg (.reg 0)), .Ret]) (by decide +kernel)
      (C52_check (by decide +kernel)) 0 rfl ?_
  rintro base mem hR d hL hS -
  refine labelled (j := 0) (l := 0) hR rfl ?_
  refine lead_det (j := 1) (I := .mov .q (.gpr 0) (.gpr 7)) hR hL rfl rfl rfl (eff_mov_rr _ _ _ _) ?_
  refine lead_seq (j := 2) (I := .cnt .popcnt .d (.gpr 0) (.gpr 0)) hR hL rfl rfl rfl (eff_cnt_d _ _ _ _ _ _ _ _ rfl) fun f2 _ => ?_
  refine leaf_ret (j := 3) (d0 := d) hR hL rfl ⟨rfl, rfl, rfl, rfl, rfl, rfl, rfl⟩ hS (fun _ _ => rfl) fun s hr hs => ⟨hr, ?_⟩
  rw [hs]
  exact count_32 (popCount_le _)

/-- tests/andpd.rs: the sign bit is cleared (absolute value) -/
theorem C54_andpd : Computes [.label] andpdVars oneLabel andpd 0 Nothing
    (fun _ => True)
    (fun d d' => (d'.xmm 0).setWidth 64 = (d.xmm 0).setWidth 64 &&& 0x7fffffffffffffff#64) := by
  refine computes_of (is := [.Label 0, .Movq (.reg (.reg 0)) (.imm 0x7fffffffffffffff none), .Movq (.xmm (.no 1)) (.reg (.reg 0)), .Andpd
      (.no 0) (.xmm (.no 1)), .Ret]) (by decide +kernel) (C52_check (by decide +kernel)) 0 rfl ?_
  rintro base mem hR d hL hS -
  refine labelled (j := 0) (l := 0) hR rfl ?_
  refine lead_det (j := 1) (I := .mov .q (.gpr 0) (.imm 0x7fffffffffffffff)) hR hL rfl rfl rfl (eff_mov_ri _ _ _ _) ?_
  refine lead_det (j := 2) (I := .movgx .q (.xmm 1) (.gpr 0)) hR hL rfl rfl rfl (eff_movgx _ _ _ _) ?_
  refine lead_det (j := 3) (I := .flogic .and .pd (.xmm 0) (.xmm 1)) hR hL rfl rfl rfl (eff_flogic _ _ _ _ _ _) ?_
  refine leaf_ret (j := 4) (d0 := d) hR hL rfl ⟨rfl, rfl, rfl, rfl, rfl, rfl, rfl⟩ hS (fun _ _ => rfl) fun s hr hs => ⟨hr, ?_⟩
  rw [hs]
  show ((d.xmm 0 &&& BitVec.setWidth 128 0x7fffffffffffffff#64)).setWidth 64 = _
  rw [BitVec.setWidth_and]; rfl

/-- tests/divl.rs: quotient and remainder of two `u32`, for dividends below 2^31 -/
theorem C54_divl : Computes [.label] noVars oneLabel divl 0 Nothing
    (fun d => ((d.gpr rsi).setWidth 32) ≠ 0#32 ∧ ((d.gpr rdi).setWidth 32).toNat < 2 ^ 31)
    (fun d d' => (d'.gpr rax).toNat = ((d.gpr rdi).setWidth 32).toNat / ((d.gpr rsi).setWidth 32).toNat
      ∧ (d'.gpr rdx).toNat = ((d.gpr rdi).setWidth 32).toNat % ((d.gpr rsi).setWidth 32).toNat) := by
  refine computes_of (is := [.Label 0, .Movq (.reg (.reg 0)) (.imm 0xffffffffffffffff none), .Movq (.reg (.reg 2)) (.reg (.reg 0)), .Movl
      (.reg (.reg 0)) (.reg (.reg 7)), .Cdq, .Divl (.reg (.reg 6)), .Ret]) (by decide +kernel) (C52_check (by decide +kernel)) 0 rfl ?_
  rintro base mem hR d hL hS ⟨h0, h1⟩
  refine labelled (j := 0) (l := 0) hR rfl ?_
  refine lead_det (j := 1) (I := .mov .q (.gpr 0) (.imm 0xffffffffffffffff)) hR hL rfl rfl rfl (eff_mov_ri _ _ _ _) ?_
  refine lead_det (j := 2) (I := .mov .q (.gpr 2) (.gpr 0)) hR hL rfl rfl rfl (eff_mov_rr _ _ _ _) ?_
  refine lead_det (j := 3) (I := .mov .d (.gpr 0) (.gpr 7)) hR hL rfl rfl rfl (eff_mov_dd _ _ _ _) ?_
  refine lead_det (j := 4) (I := .signExtDx .d) hR hL rfl rfl rfl (eff_cdq _ _) ?_
  refine lead_seq (j := 5) (I := .un .div .d (.gpr 6)) hR hL rfl rfl rfl (eff_div_d' _ _ _ h0 (wide_cdq_nat (setWidth_32_64 _) (cdq_32 _)
      h1)) fun f5 _ => ?_
  refine leaf_ret (j := 6) (d0 := d) hR hL rfl ⟨rfl, rfl, rfl, rfl, rfl, rfl, rfl⟩ hS (fun _ _ => rfl) fun s hr hs => ⟨hr, ?_⟩
  rw [hs]
  exact ⟨quot_32 _ _, rem_32 _ _⟩

/-- For a dividend of 2^31 or more the same function always fails, whatever the divisor: `cdq` is the
    wrong way to prepare an unsigned division. -/
theorem C54_divl_error : DivideError [.label] noVars oneLabel divl 0
    (fun d => 2 ^ 31 ≤ ((d.gpr rdi).setWidth 32).toNat) := by
  refine divideError_of (is := [.Label 0, .Movq (.reg (.reg 0)) (.imm 0xffffffffffffffff none), .Movq (.reg (.reg 2)) (.reg (.reg 0)), .Movl
      (.reg (.reg 0)) (.reg (.reg 7)), .Cdq, .Divl (.reg (.reg 6)), .Ret]) (by decide +kernel) (C52_check (by decide +kernel)) 0 rfl ?_
  intro base mem hR d hL h1
  refine labelled (j := 0) (l := 0) hR rfl ?_
  refine lead_det (j := 1) (I := .mov .q (.gpr 0) (.imm 0xffffffffffffffff)) hR hL rfl rfl rfl (eff_mov_ri _ _ _ _) ?_
  refine lead_det (j := 2) (I := .mov .q (.gpr 2) (.gpr 0)) hR hL rfl rfl rfl (eff_mov_rr _ _ _ _) ?_
  refine lead_det (j := 3) (I := .mov .d (.gpr 0) (.gpr 7)) hR hL rfl rfl rfl (eff_mov_dd _ _ _ _) ?_
  refine lead_det (j := 4) (I := .signExtDx .d) hR hL rfl rfl rfl (eff_cdq _ _) ?_
  obtain ⟨rest, h2⟩ := decode_code (j := 5) (I := .un .div .d (.gpr 6)) hR hL rfl rfl
  refine .done ⟨.d, 6, rest, h2, wide_cdq_big (x := ((d.gpr rdi).setWidth 32)) (setWidth_32_64 _) (cdq_32 _) h1 _⟩

/-- tests/counts.rs, `popcntq`: ones, by way of a data object -/
theorem C54_popcntq : Computes counts noVars countsNames popcntq 0 DataPage
    (fun _ => True)
    (fun d d' => (d'.gpr rax).toNat = popCount (d.gpr rdi)) := by
  refine computes_of (is := [.Label 0, .Lea (.reg (.reg 6)) (.ind ⟨.reg 16, .none, .label 1⟩), .Movq (.reg (.reg 1)) (.imm 8 none), .Movq
      (.ind ⟨.reg 6, .s1 1 (.reg 1), .imm 4⟩) (.reg (.reg 7)), .Popcnt .QWORD (.reg 0) (.ind ⟨.reg 6, .s1 1 (.reg 1), .imm 4⟩), .Ret]) (by
      decide +kernel) (C52_check (by decide +kernel)) 0 rfl ?_
  rintro base mem hR d hL hS -
  exact count_q popCount hR hL rfl rfl rfl rfl rfl rfl rfl (fun _ => ⟨_, _, rfl⟩) (fun _ => popCount_le _) hS

/-- tests/counts.rs, `lzcntq`: leading zeros, by way of a data object -/
theorem C54_lzcntq : Computes counts noVars countsNames lzcntq 0 DataPage
    (fun _ => True)
    (fun d d' => (d'.gpr rax).toNat = leading (d.gpr rdi)) := by
  refine computes_of (is := [.Label 0, .Lea (.reg (.reg 6)) (.ind ⟨.reg 16, .none, .label 1⟩), .Movq (.reg (.reg 1)) (.imm 8 none), .Movq
      (.ind ⟨.reg 6, .s1 1 (.reg 1), .imm 4⟩) (.reg (.reg 7)), .Lzcnt .QWORD (.reg 0) (.ind ⟨.reg 6, .s1 1 (.reg 1), .imm 4⟩), .Ret]) (by
      decide +kernel) (C52_check (by decide +kernel)) 0 rfl ?_
  rintro base mem hR d hL hS -
  exact count_q leading hR hL rfl rfl rfl rfl rfl rfl rfl (fun _ => ⟨_, _, rfl⟩) (fun _ => leading_le _) hS

/-- tests/counts.rs, `tzcntq`: trailing zeros, by way of a data object -/
theorem C54_tzcntq : Computes counts noVars countsNames tzcntq 0 DataPage
    (fun _ => True)
    (fun d d' => (d'.gpr rax).toNat = trailing (d.gpr rdi)) := by
  refine computes_of (is := [.Label 0, .Lea (.reg (.reg 6)) (.ind ⟨.reg 16, .none, .label 1⟩), .Movq (.reg (.reg 1)) (.imm 8 none), .Movq
      (.ind ⟨.reg 6, .s1 1 (.reg 1), .imm 4⟩) (.reg (.reg 7)), .Tzcnt .QWORD (.reg 0) (.ind ⟨.reg 6, .s1 1 (.reg 1), .imm 4⟩), .Ret]) (by
      decide +kernel) (C52_check (by decide +kernel)) 0 rfl ?_
  rintro base mem hR d hL hS -
  exact count_q trailing hR hL rfl rfl rfl rfl rfl rfl rfl (fun _ => ⟨_, _, rfl⟩) (fun _ => trailing_le _) hS

/-- tests/xorpd.rs: the sign bit is inverted, whatever the address of `foo` is -/
theorem C54_xorpd (foo : Val) : Computes [.label] (xorpdVars foo) oneLabel xorpd 0 Nothing
    (fun _ => True)
    (fun d d' => (d'.xmm 0).setWidth 64 = (d.xmm 0).setWidth 64 ^^^ 0x8000000000000000#64) := by
  refine computes_of (xorpd_assembled foo) (xorpd_wf foo) 0 rfl ?_
  rintro base mem hR d hL hS -
  refine labelled (j := 0) (l := 0) hR rfl ?_
  refine lead_det (j := 1) (I := .mov .q (.gpr 0) (.imm 0x8000000000000000)) hR hL rfl rfl rfl (eff_mov_ri _ _ _ _) ?_
  refine lead_det (j := 2) (I := .movgx .q (.xmm 1) (.gpr 0)) hR hL rfl rfl rfl (eff_movgx _ _ _ _) ?_
  refine lead_det (j := 3) (I := .flogic .xor .pd (.xmm 0) (.xmm 1)) hR hL rfl rfl rfl (eff_flogic _ _ _ _ _ _) ?_
  refine leaf_ret (j := 4) (d0 := d) hR hL rfl ⟨rfl, rfl, rfl, rfl, rfl, rfl, rfl⟩ hS (fun _ _ => rfl) fun s hr hs => ⟨hr, ?_⟩
  rw [hs]
  show ((d.xmm 0 ^^^ BitVec.setWidth 128 0x8000000000000000#64)).setWidth 64 = _
  rw [BitVec.setWidth_xor]; rfl

/-- tests/minmaxsd.rs, `minsd`: the smaller one of two numbers, by way of a data object -/
theorem C54_minsd : Computes minmaxCounts noVars minmaxNames minmaxsd 0 DataPage
    (fun _ => True)
    (fun d d' => double d' 0 = Double.min (double d 0) (double d 1)) := by
  refine computes_of (is := minmaxCode) (by decide +kernel) (C52_check (by decide +kernel)) 0 rfl ?_
  rintro base mem hR d hL hS -
  exact minmax (op := .min) 0 0 hR hL rfl rfl rfl rfl rfl rfl rfl hS

/-- tests/minmaxsd.rs, `maxsd`: the larger one -/
theorem C54_maxsd : Computes minmaxCounts noVars minmaxNames minmaxsd 1 DataPage
    (fun _ => True)
    (fun d d' => double d' 0 = Double.max (double d 0) (double d 1)) := by
  refine computes_of (is := minmaxCode) (by decide +kernel) (C52_check (by decide +kernel)) 6 rfl ?_
  rintro base mem hR d hL hS -
  exact minmax (op := .max) 6 1 hR hL rfl rfl rfl rfl rfl rfl rfl hS

/-- What the test checks: of 0.02 and -0.1. -/
example : Double.min 0x3f947ae147ae147b 0xbfb999999999999a = 0xbfb999999999999a
    ∧ Double.max 0x3f947ae147ae147b 0xbfb999999999999a = 0x3f947ae147ae147b := by decide +kernel

/-- tests/roundpd.rs: rounded up to an integer -/
theorem C54_roundpd : Computes [.label] noVars oneLabel roundpd 0 Nothing
    (fun _ => True)
    (fun d d' => double d' 0 = Double.toIntegral .up (double d 0)) := by
  refine computes_of (is := [.Label 0, .Roundpd (.no 0) (.xmm (.no 0)) 2, .Ret]) (by decide +kernel) (C52_check (by decide +kernel)) 0 rfl ?_
  rintro base mem hR d hL hS -
  refine labelled (j := 0) (l := 0) hR rfl ?_
  refine lead_det (j := 1) (I := .round .pd (.xmm 0) (.xmm 0) 2) hR hL rfl rfl rfl (eff_round _ _ _ _ _) ?_
  refine leaf_ret (j := 2) (d0 := d) hR hL rfl ⟨rfl, rfl, rfl, rfl, rfl, rfl, rfl⟩ hS (fun _ _ => rfl) fun s hr hs => ⟨hr, ?_⟩
  have e : ∀ v, double (d.setXmm 0 v).drop 0 = v.setWidth 64 := fun _ => rfl
  rw [hs, e, lanes_low, show Double.Mode.of 2 = .up by decide, double]

/-- This is the least integer that is not less than the argument (numbers are in units of `2^-1074`);
    infinities are not changed. -/
theorem C54_ceil (x : BitVec 64) :
    (∀ s m e, Double.value x = .fin s m e → ∃ m' e', ∃ c : Int, Double.value (Double.toIntegral .up x) = .fin s m' e'
      ∧ Double.units s m' e' = c * (2 ^ 1074 : Nat) ∧ (c - 1) * (2 ^ 1074 : Nat) < Double.units s m e
      ∧ Double.units s m e ≤ c * (2 ^ 1074 : Nat))
    ∧ (∀ s, Double.value x = .inf s → Double.toIntegral .up x = x) :=
  ⟨fun _ _ _ h => Double.value_ceiling h, fun s h => by rw [Double.toIntegral, h]⟩

/-- What the test checks: π becomes 4. -/
example : Double.toIntegral .up 0x400921fb54442d18 = 0x4010000000000000 := by decide +kernel

/-- The conditions can be met: dividend 17, divisor 5, for any program and any place in memory. -/
example {base mem} (hA : Alloc base) (H : List Op) : ∃ d, Loaded base mem H d ∧ (∀ x, Within (d.gpr rsp) 8 x → ¬ Nothing base x)
    ∧ (d.gpr rdx ≠ 0 ∧ (d.gpr rsi ++ d.gpr rdi).toNat / (d.gpr rdx).toNat < 2 ^ 64) :=
  ⟨⟨fun r => if r = 7 then 17 else if r = 2 then 5 else 0, fun _ => 0, ⟨false, false, false, false, false⟩, _⟩, loaded_example hA H _ _ _, fun _ _ => id,
    show (5 : BitVec 64) ≠ 0 by decide, show ((0 : BitVec 64) ++ (17 : BitVec 64)).toNat / (5 : BitVec 64).toNat < 2 ^ 64 by decide⟩

/-- The stack is outside of the data page. -/
example {base mem} (hA : Alloc base) (hb : 0x2000 ≤ base) (H : List Op) : ∃ d, Loaded base mem H d
    ∧ (∀ x, Within (d.gpr rsp) 8 x → ¬ DataPage base x) := by
  refine ⟨⟨fun r => if r = 4 then 0x1000 else 0, fun _ => 0, ⟨false, false, false, false, false⟩, _⟩, loaded_example hA H _ _ _, ?_⟩
  rintro x hx ⟨a, h1, h2, rfl⟩
  have := hA.user
  have hx : (BitVec.ofNat 64 a - BitVec.ofNat 64 0x1000).toNat < 8 := hx
  rw [BitVec.toNat_sub, BitVec.toNat_ofNat, BitVec.toNat_ofNat] at hx
  omega

end Monoasm
