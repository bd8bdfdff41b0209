import Verif.Proofs.Failed
/-
  C20: zero-filled reservations and alignment markers.

  As C16. The content `mem` of the memory before is arbitrary.
-/

namespace Monoasm
open Spec

variable {base : Nat} {mem : Nat → Byte} {h1 h2 : List Op} {l : DestLabel} {s1 s' : JitMemory}

/-- `constant(n)` -/
theorem C20_constant {n : Nat} (ha : Alloc base) (hr : NoRaw (h1 ++ .new (.constant n) :: h2))
    (hn : NoFinalize h2)
    (hl : JitMemory.constant n (reach base mem h1) = .ok l s1)
    (hfin : JitMemory.finalize (reach base mem (h1 ++ .new (.constant n) :: h2)) = .ok () s') :
    Holds base s' l (reach base mem h1).page 16 (List.replicate n 0) :=
  holds_of_waits (d := .bytes n) ha (hinv_reach (base := base) (mem := mem) hr) hfin (waits_reach_const (c := .constant n) hl rfl hn) (by simp)

/-- `data(n)` -/
theorem C20_data {n : Nat} (ha : Alloc base) (hr : NoRaw (h1 ++ .new (.data n) :: h2))
    (hn : NoFinalize h2)
    (hl : JitMemory.data n (reach base mem h1) = .ok l s1)
    (hfin : JitMemory.finalize (reach base mem (h1 ++ .new (.data n) :: h2)) = .ok () s') :
    Holds base s' l 2 16 (List.replicate n 0) :=
  holds_of_waits (d := .bytes n) ha (hinv_reach (base := base) (mem := mem) hr) hfin (waits_reach_datum (c := .data n) hl rfl hn) (by simp)

/-- `const_align8`: an aligned position (of an empty block of bytes) -/
theorem C20_align8 (ha : Alloc base) (hr : NoRaw (h1 ++ .new .const_align8 :: h2))
    (hn : NoFinalize h2)
    (hl : JitMemory.const_align8 (reach base mem h1) = .ok l s1)
    (hfin : JitMemory.finalize (reach base mem (h1 ++ .new .const_align8 :: h2)) = .ok () s') :
    Holds base s' l (reach base mem h1).page 8 [] :=
  holds_of_waits (d := .align8) ha (hinv_reach (base := base) (mem := mem) hr) hfin (waits_reach_const (c := .const_align8) hl rfl hn) (by simp)

/-- The zero bytes are the object's own: in every later history that does not itself overwrite them,
    they stay zero, so no other object or code is put there. -/
theorem C20_stays {n : Nat} {h3 : List Op} {a : Nat} (ha : Alloc base) (hr : NoRaw (h1 ++ .new (.constant n) :: h2))
    (hn : NoFinalize h2)
    (hl : JitMemory.constant n (reach base mem h1) = .ok l s1)
    (hfin : JitMemory.finalize (reach base mem (h1 ++ .new (.constant n) :: h2)) = .ok () s')
    (hadr : HasAddress s' l a) (hk : SparesRange a n s' h3) :
    bytes (runCaught h3 s').mem a n = List.replicate n 0 :=
  object_stays (d := .bytes n) ha (hinv_reach (base := base) (mem := mem) hr) hfin (waits_reach_const (c := .constant n) hl rfl hn) (by simp)
    hadr hk

/-- Memory full of 0xCC before; nothing beyond the block is cleared. -/
example :
    let h1 : List Op := [.inst .Ret, .new (.data 5)]
    let h2 : List Op := [.inst .Ret, .new .const_align8]
    let h : List Op := h1 ++ .new (.constant 3) :: h2
    let s' := (JitMemory.finalize (reach 0x10000000 (fun _ => 0xcc) h)).state
    NoRaw h ∧ KeepsLabels (JitMemory.new 0x10000000 (fun _ => 0xcc)) h
    ∧ (JitMemory.finalize (reach 0x10000000 (fun _ => 0xcc) h)).isOk = true
    ∧ s'.locOf 0 = some (2, 0) ∧ s'.locOf 1 = some (0, 16) ∧ s'.locOf 2 = some (0, 24)
    ∧ bytes s'.mem 0x10000010 4 = [0, 0, 0, 0xcc] ∧ bytes s'.mem 0x30000000 6 = [0, 0, 0, 0, 0, 0xcc] := by
  exact ⟨by decide +kernel, by decide +kernel, by decide +kernel, by decide +kernel, by decide +kernel,
    by decide +kernel, by decide +kernel, by decide +kernel⟩

end Monoasm
