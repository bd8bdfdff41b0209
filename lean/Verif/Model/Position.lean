import Verif.Model.Machine
/-
  Operations on positions that the library offers to its users and does not need itself, with machine
  arithmetic (`Model/Machine.lean`).
-/

namespace Monoasm.Machine

/-- `Sub<Pos> for Pos`, lib.rs:272-278: `self.0 - other.0` on `usize` -/
def posSub (p q : Word) : M Word := fun chk t =>
  if chk ∧ p.toNat < q.toNat then .fault .overflow t else .ok (p - q) t

/-- Reading `self[pos]`, jit_memory.rs:52-61 (for `JitMemory`, of the selected page: jit_memory.rs:209-218) -/
def MemPage.read (p : Page) (pos : Word) : M Byte :=
  if pos.toNat ≥ PAGE_SIZE then M.panic .pageSizeOverflow
  else do
    let a ← MemPage.address p pos
    fun _ t => .ok (t.mem a) t

/-- `JitMemory::get_current`, jit_memory.rs:301-303 -/
def JitMemory.get_current : M Word := do MemPage.counterOf (← JitMemory.cur)

end Monoasm.Machine
