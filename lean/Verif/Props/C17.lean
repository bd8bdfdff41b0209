import Verif.Proofs.Objects
/-
  C17: data section.

  As C16, but the objects go to the data page (page 2, never selected for code and not made
  executable), whichever code page was selected when they were created.
-/

namespace Monoasm
open Spec

variable {base : Nat} {mem : Nat → Byte} {h1 h2 : List Op} {l : DestLabel} {s1 s' : JitMemory}

/-- `data_i64` -/
theorem C17_i64 {v : BitVec 64} (ha : Alloc base) (hr : NoRaw (h1 ++ .new (.data_i64 v) :: h2))
    (hn : NoFinalize h2)
    (hl : JitMemory.data_i64 v (reach base mem h1) = .ok l s1)
    (hfin : JitMemory.finalize (reach base mem (h1 ++ .new (.data_i64 v) :: h2)) = .ok () s') :
    Holds base s' l 2 16 (littleEndian 8 v.toNat) :=
  holds_of_waits (d := .u64 v) ha (hinv_reach (base := base) (mem := mem) hr) hfin (waits_reach_datum (c := .data_i64 v) hl rfl hn) (by simp)

/-- `data_i32` -/
theorem C17_i32 {v : BitVec 32} (ha : Alloc base) (hr : NoRaw (h1 ++ .new (.data_i32 v) :: h2))
    (hn : NoFinalize h2)
    (hl : JitMemory.data_i32 v (reach base mem h1) = .ok l s1)
    (hfin : JitMemory.finalize (reach base mem (h1 ++ .new (.data_i32 v) :: h2)) = .ok () s') :
    Holds base s' l 2 4 (littleEndian 4 v.toNat) :=
  holds_of_waits (d := .u32 v) ha (hinv_reach (base := base) (mem := mem) hr) hfin (waits_reach_datum (c := .data_i32 v) hl rfl hn) (by simp)

/-- `data(n)`: `n` zero bytes -/
theorem C17_zeros {n : Nat} (ha : Alloc base) (hr : NoRaw (h1 ++ .new (.data n) :: h2))
    (hn : NoFinalize h2)
    (hl : JitMemory.data n (reach base mem h1) = .ok l s1)
    (hfin : JitMemory.finalize (reach base mem (h1 ++ .new (.data n) :: h2)) = .ok () s') :
    Holds base s' l 2 16 (List.replicate n 0) :=
  holds_of_waits (d := .bytes n) ha (hinv_reach (base := base) (mem := mem) hr) hfin (waits_reach_datum (c := .data n) hl rfl hn) (by simp)

/-- No code is ever emitted there: calls on the selected page never have page 2 as their page. -/
theorem C17_never_selected : (reach base mem h1).page ≠ 2 :=
  Nat.ne_of_lt (inv_reach base mem h1).page

/-- Data requested while page 1 and page 0 are selected. -/
example :
    let h1 : List Op := [.inst .Ret, .new (.data_i32 7), .select_page 1, .inst .Leave]
    let h2 : List Op := [.inst .Ret, .select_page 0, .new (.data 3), .inst .Ret]
    let h : List Op := h1 ++ .new (.data_i64 0x1122334455667788) :: h2
    let s' := (JitMemory.finalize (reach 0x10000000 (fun _ => 0xcc) h)).state
    NoRaw h ∧ KeepsLabels (JitMemory.new 0x10000000 (fun _ => 0xcc)) h
    ∧ (JitMemory.finalize (reach 0x10000000 (fun _ => 0xcc) h)).isOk = true
    ∧ (reach 0x10000000 (fun _ => 0xcc) h1).page = 1 ∧ (reach 0x10000000 (fun _ => 0xcc) h1).labels.length = 1
    ∧ s'.locOf 1 = some (2, 32) ∧ bytes s'.mem 0x30000020 8 = [0x88, 0x77, 0x66, 0x55, 0x44, 0x33, 0x22, 0x11]
    ∧ s'.locOf 0 = some (2, 0) ∧ s'.locOf 2 = some (2, 16) := by
  exact ⟨by decide +kernel, by decide +kernel, by decide +kernel, by decide +kernel, by decide +kernel,
    by decide +kernel, by decide +kernel, by decide +kernel, by decide +kernel⟩

end Monoasm
