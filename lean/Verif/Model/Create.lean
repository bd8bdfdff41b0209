import Verif.Model.Protect
/-
  `JitMemory::new` as a computation that asks the allocator and the operating system for what it needs
  (`Model/Protect.lean` and `JitMemory.new` say what it builds when it gets it).

  A computation relates the system before, the result (`none`: it panics) and the system after; allocator
  and operating system may answer in more than one way.
-/

namespace Monoasm

/-- The allocator, the memory map and the memory of the process. -/
structure System where
  /-- address and size of the blocks that were handed out and not returned -/
  blocks : List (Nat × Nat)
  /-- protection of the mapped addresses -/
  map : Nat → Option Protection
  mem : Nat → Byte

abbrev Os (α : Type) := System → Option α → System → Prop

namespace Os
variable {α β : Type}

def pure (a : α) : Os α := fun w r w' => r = some a ∧ w' = w

def bind (c : Os α) (f : α → Os β) : Os β := fun w r w' =>
  (c w none w' ∧ r = none) ∨ ∃ a w1, c w (some a) w1 ∧ f a w1 r w'

instance : Monad Os where
  pure := Os.pure
  bind := Os.bind

/-- `Result::expect` -/
def expect (ok : Bool) : Os Unit := fun w r w' => r = (if ok then some () else none) ∧ w' = w

/-- Addresses of a block. -/
def inBlock (b : Nat × Nat) (a : Nat) : Prop := b.1 ≤ a ∧ a < b.1 + b.2

/-- `std::alloc::alloc`: it returns null; or a new block, which is aligned, in the user half of the address
    space, apart from all others and mapped for reading and writing. The other blocks stay as they are, and
    nothing is mapped at address 0. -/
def alloc (size align : Nat) : Os Nat := fun w r w' =>
  (r = some 0 ∧ w' = w) ∨
  ∃ x, r = some x ∧ 0 < x ∧ align ∣ x ∧ x + size ≤ 2 ^ 63 ∧ w'.blocks = (x, size) :: w.blocks
    ∧ (∀ b ∈ w.blocks, x + size ≤ b.1 ∨ b.1 + b.2 ≤ x)
    ∧ (∀ a, inBlock (x, size) a → w'.map a = some .READ_WRITE)
    ∧ (∀ b ∈ w.blocks, ∀ a, inBlock b a → w'.map a = w.map a ∧ w'.mem a = w.mem a)
    ∧ w'.map 0 = none

/-- `region::protect`: it succeeds only if all addresses are mapped, and sets their protection. If it fails
    (an address is not mapped, or the system forbids it), the first part may have been set. -/
def protect (address size : Nat) (p : Protection) : Os Bool := fun w r w' =>
  ∃ k ok, r = some ok ∧ k ≤ size ∧ (ok = true → k = size)
    ∧ (∀ a, inBlock (address, k) a → w.map a ≠ none ∧ w'.map a = some p)
    ∧ (∀ a, ¬ inBlock (address, k) a → w'.map a = w.map a)
    ∧ w'.blocks = w.blocks ∧ w'.mem = w.mem

/-- The memory of the process. -/
def memory : Os (Nat → Byte) := fun w r w' => r = some w.mem ∧ w' = w

end Os

/-- `JitMemory::new`, jit_memory.rs:242-263 -/
def JitMemory.create : Os JitMemory := do
  Os.expect (layoutOk (PAGE_SIZE * 3) PAGE_SIZE)
  let contents ← Os.alloc (PAGE_SIZE * 3) PAGE_SIZE
  Os.expect (← Os.protect contents (PAGE_SIZE * 2) .READ_WRITE_EXECUTE)
  Os.expect (← Os.protect (contents + PAGE_SIZE * 2) PAGE_SIZE .READ_WRITE)
  return JitMemory.new contents (← Os.memory)

end Monoasm
