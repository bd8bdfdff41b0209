import Verif.Proofs.Failed
/-
  C16: constant pool.

  The constant is created by a call after history `h1`; `h2` are the calls between that and the next
  `finalize` (any calls, on any page, panics caught). Histories as in C09.
-/

namespace Monoasm
open Spec

variable {base : Nat} {mem : Nat → Byte} {h1 h2 : List Op} {l : DestLabel} {s1 s' : JitMemory}

/-- `const_i64` -/
theorem C16_i64 {v : BitVec 64} (ha : Alloc base) (hr : NoRaw (h1 ++ .new (.const_i64 v) :: h2))
    (hn : NoFinalize h2)
    (hl : JitMemory.const_i64 v (reach base mem h1) = .ok l s1)
    (hfin : JitMemory.finalize (reach base mem (h1 ++ .new (.const_i64 v) :: h2)) = .ok () s') :
    Holds base s' l (reach base mem h1).page 16 (littleEndian 8 v.toNat) :=
  holds_of_waits (d := .u64 v) ha (hinv_reach (base := base) (mem := mem) hr) hfin (waits_reach_const (c := .const_i64 v) hl rfl hn) (by simp)

/-- `const_f64` (given by the bit pattern of the number) -/
theorem C16_f64 {v : BitVec 64} (ha : Alloc base) (hr : NoRaw (h1 ++ .new (.const_f64 v) :: h2))
    (hn : NoFinalize h2)
    (hl : JitMemory.const_f64 v (reach base mem h1) = .ok l s1)
    (hfin : JitMemory.finalize (reach base mem (h1 ++ .new (.const_f64 v) :: h2)) = .ok () s') :
    Holds base s' l (reach base mem h1).page 16 (littleEndian 8 v.toNat) :=
  holds_of_waits (d := .u64 v) ha (hinv_reach (base := base) (mem := mem) hr) hfin (waits_reach_const (c := .const_f64 v) hl rfl hn) (by simp)

/-- `const_i32` -/
theorem C16_i32 {v : BitVec 32} (ha : Alloc base) (hr : NoRaw (h1 ++ .new (.const_i32 v) :: h2))
    (hn : NoFinalize h2)
    (hl : JitMemory.const_i32 v (reach base mem h1) = .ok l s1)
    (hfin : JitMemory.finalize (reach base mem (h1 ++ .new (.const_i32 v) :: h2)) = .ok () s') :
    Holds base s' l (reach base mem h1).page 4 (littleEndian 4 v.toNat) :=
  holds_of_waits (d := .u32 v) ha (hinv_reach (base := base) (mem := mem) hr) hfin (waits_reach_const (c := .const_i32 v) hl rfl hn) (by simp)

/-- The page is one of the two code pages. -/
theorem C16_code_page : (reach base mem h1).page < 2 := (inv_reach base mem h1).page

/-- The bytes of a constant stay in all later histories that do not themselves overwrite them. -/
theorem C16_stays {v : BitVec 64} {h3 : List Op} {a : Nat} (ha : Alloc base) (hr : NoRaw (h1 ++ .new (.const_i64 v) :: h2))
    (hn : NoFinalize h2)
    (hl : JitMemory.const_i64 v (reach base mem h1) = .ok l s1)
    (hfin : JitMemory.finalize (reach base mem (h1 ++ .new (.const_i64 v) :: h2)) = .ok () s')
    (hadr : HasAddress s' l a) (hk : SparesRange a 8 s' h3) :
    bytes (runCaught h3 s').mem a 8 = littleEndian 8 v.toNat :=
  object_stays (d := .u64 v) ha (hinv_reach (base := base) (mem := mem) hr) hfin (waits_reach_const (c := .const_i64 v) hl rfl hn) (by simp)
    hadr hk

/-- Constants requested on both pages, with code in between. -/
example :
    let h1 : List Op := [.inst .Ret, .new (.const_i32 7), .select_page 1, .inst .Leave, .new .label]
    let h2 : List Op := [.inst .Ret, .select_page 0, .new (.const_f64 0x3ff0000000000000), .inst .Ret]
    let h : List Op := h1 ++ .new (.const_i64 0x1122334455667788) :: h2
    let s' := (JitMemory.finalize (reach 0x10000000 (fun _ => 0xcc) h)).state
    NoRaw h ∧ KeepsLabels (JitMemory.new 0x10000000 (fun _ => 0xcc)) h
    ∧ (JitMemory.finalize (reach 0x10000000 (fun _ => 0xcc) h)).isOk = true
    ∧ (reach 0x10000000 (fun _ => 0xcc) h1).page = 1 ∧ (reach 0x10000000 (fun _ => 0xcc) h1).labels.length = 2
    ∧ s'.locOf 2 = some (1, 16) ∧ bytes s'.mem 0x20000010 8 = [0x88, 0x77, 0x66, 0x55, 0x44, 0x33, 0x22, 0x11]
    ∧ s'.locOf 0 = some (0, 4) ∧ s'.locOf 3 = some (0, 16) := by
  exact ⟨by decide +kernel, by decide +kernel, by decide +kernel, by decide +kernel, by decide +kernel,
    by decide +kernel, by decide +kernel, by decide +kernel, by decide +kernel⟩

end Monoasm
