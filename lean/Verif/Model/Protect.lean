import Verif.Model.Memory
/-
  Memory protection, as set up by `JitMemory::new` (jit_memory.rs:242-263).

  `region::protect(address, size, protection)` changes the protection of all system pages that contain
  an address of the range. The ranges here begin and end at multiples of the system's page size
  (`Alloc`: `PAGE_SIZE` is a multiple of it), so exactly the addresses of the range are changed. No
  other function changes the protection.
-/

namespace Monoasm

/-- `region::Protection` -/
structure Protection where
  read : Bool
  write : Bool
  execute : Bool
deriving DecidableEq

def Protection.READ_WRITE_EXECUTE : Protection := ⟨true, true, true⟩
def Protection.READ_WRITE : Protection := ⟨true, true, false⟩

/-- `region::protect` -/
def protect (address size : Nat) (protection : Protection) (m : Nat → Protection) : Nat → Protection :=
  fun a => if address ≤ a ∧ a < address + size then protection else m a

/-- `Layout::from_size_align`: `Err` if the alignment is not a power of two, or if the size rounded up to
    it is more than `isize::MAX`. -/
def layoutOk (size align : Nat) : Bool :=
  align != 0 && align &&& (align - 1) == 0 && (size + (align - 1)) / align * align ≤ 2 ^ 63 - 1

/-- Protection after `JitMemory::new`, jit_memory.rs:245-254; `m` is the protection before. -/
def JitMemory.newProtection (contents : Nat) (m : Nat → Protection) : Nat → Protection :=
  protect (contents + PAGE_SIZE * 2) PAGE_SIZE .READ_WRITE
    (protect contents (PAGE_SIZE * 2) .READ_WRITE_EXECUTE m)

end Monoasm
