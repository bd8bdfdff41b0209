import Verif.Proofs.Tests
import Verif.Proofs.Double
/-
  C56: the function of tests/cvttsd2si.rs is meant to convert a double to a 64-bit integer.
-/

namespace Monoasm
open Spec X86 tests

/-- What the function of tests/cvttsd2si.rs computes: the conversion to 32 bits, and zeros above. -/
theorem C56_actual : Computes [.label] noVars oneLabel cvttsd2si 0 Nothing
    (fun _ => True)
    (fun d d' => d'.gpr rax = (Double.truncate 32 (double d 0)).setWidth 64) := by
  refine computes_of (is := cvttCode) (by decide +kernel) (C52_check (by decide +kernel)) 0 rfl ?_
  rintro base mem hR d hL hS -
  refine labelled (j := 0) (l := 0) hR rfl ?_
  refine lead_det (j := 1) (I := .cvttf2si .sd .d (.gpr 0) (.xmm 0)) hR hL rfl rfl rfl (eff_cvtt_d _ _ _ _) ?_
  refine leaf_ret (j := 2) (d0 := d) hR hL rfl ⟨rfl, rfl, rfl, rfl, rfl, rfl, rfl⟩ hS (fun _ _ => rfl) fun s hr hs => ⟨hr, ?_⟩
  rw [hs]
  rfl

/-- If the integer part of the argument is not negative and less than `2^31`, the result is right. -/
theorem C56_partial : Computes [.label] noVars oneLabel cvttsd2si 0 Nothing
    (fun d => (Double.truncate 64 (double d 0)).toNat < 2 ^ 31)
    (fun d d' => d'.gpr rax = Double.truncate 64 (double d 0)) := by
  obtain ⟨is, h1, h2⟩ := C56_actual
  refine ⟨is, h1, fun base mem hA => ?_⟩
  obtain ⟨h3, a, h4, h5⟩ := h2 base mem hA
  refine ⟨h3, a, h4, fun d hL hW hb => (h5 d hL hW trivial).mono fun s hs => ⟨hs.1, ?_⟩⟩
  show s.data.gpr rax = _
  rw [hs.2]
  exact Double.truncate_small hb

/-- **The function does not convert to 64 bits**: for the argument -1 the result is not -1 (it is
    4294967295). -/
theorem C56_violated : ¬ Computes [.label] noVars oneLabel cvttsd2si 0 Nothing
    (fun _ => True)
    (fun d d' => d'.gpr rax = Double.truncate 64 (double d 0)) := by
  intro h
  have hA : Alloc 0x10000000 := ⟨by rw [PAGE_SIZE_eq]; decide, by decide, by rw [PAGE_SIZE_eq]; decide⟩
  let M := (reach 0x10000000 (fun _ => 0xcc) (simple [.label] cvttCode)).mem
  let d : Data := ⟨fun _ => 0, fun _ => 0xbff0000000000000, ⟨false, false, false, false, false⟩, fun a => M a.toNat⟩
  obtain ⟨d', h1, h2⟩ := computes_meet (d := d) (is := cvttCode) C56_actual h (by decide +kernel) hA (loaded_example hA _ _ _ _)
    trivial trivial (by decide +kernel)
  rw [h1] at h2
  exact absurd h2 (by decide +kernel)

/-- The condition of `C56_partial` is met in the test: the integer part of π is 3. -/
example : (Double.truncate 64 0x400921fb54442d18).toNat < 2 ^ 31 ∧ Double.truncate 64 0x400921fb54442d18 = 3 := by decide +kernel

/-- Another wrong result: `2^32` is converted to `2^31`. -/
example : Double.truncate 64 0x41f0000000000000 = 4294967296 ∧ (Double.truncate 32 0x41f0000000000000).setWidth 64 = 2147483648#64 := by decide +kernel

end Monoasm
