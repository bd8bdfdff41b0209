import Verif.Model.Create
import Verif.Spec.Outside
/-
  Specification: a process that creates, uses and drops `JitMemory`s, while other parts of it use the
  allocator and memory as well.
-/

namespace Spec
open Monoasm

/-- Blocks are apart, and nothing is mapped at address 0. -/
structure HeapSound (w : System) : Prop where
  null : w.map 0 = none
  apart : w.blocks.Pairwise fun b c => b.1 + b.2 ≤ c.1 ∨ c.1 + c.2 ≤ b.1

/-- A `JitMemory` that was created: the records (its field `mem` has no meaning), memory when it was
    created, the calls made on it, and whether it has been dropped. -/
structure Slot where
  jit : JitMemory
  start : Nat → Byte
  calls : List Op
  dropped : Bool

/-- Address of its block. -/
def Slot.base (s : Slot) : Nat := (s.jit.pages 0).contents

structure World where
  sys : System
  slots : List Slot

/-- What happens next. -/
inductive World.Step : World → World → Prop where
  | create {w j sys} : JitMemory.create w.sys (some j) sys → World.Step w ⟨sys, w.slots ++ [⟨j, j.mem, [], false⟩]⟩
  /-- `JitMemory::new` panics. -/
  | panic {w sys} : JitMemory.create w.sys none sys → World.Step w ⟨sys, w.slots⟩
  /-- a call on one that has not been dropped; patches stay in its pages -/
  | call {w k s} (op : Op) : w.slots[k]? = some s → s.dropped = false →
      (op.isPatch → ∀ a, Overwrites { s.jit with mem := w.sys.mem } op a → Owns s.base a) →
      World.Step w ⟨{ w.sys with mem := (op.run { s.jit with mem := w.sys.mem }).state.mem },
        w.slots.set k { s with jit := (op.run { s.jit with mem := w.sys.mem }).state, calls := s.calls ++ [op] }⟩
  /-- `JitMemory` does not implement `Drop`: the vectors in it are freed, the block is not. -/
  | drop {w k s} : w.slots[k]? = some s → World.Step w ⟨w.sys, w.slots.set k { s with dropped := true }⟩
  /-- Anything else: other parts of the process return only blocks that they got themselves, and change
      neither the protection of the blocks of `JitMemory`s nor the contents of the code pages. -/
  | other {w sys} : HeapSound sys → (∀ s ∈ w.slots, (s.base, PAGE_SIZE * 3) ∈ sys.blocks ∧
        ∀ a, Owns s.base a → sys.map a = w.sys.map a ∧ (a < s.base + 2 * PAGE_SIZE → sys.mem a = w.sys.mem a)) →
      World.Step w ⟨sys, w.slots⟩

inductive World.Run : World → World → Prop where
  | done {w} : World.Run w w
  | step {w w' w''} : World.Run w w' → World.Step w' w'' → World.Run w w''

/-- The block of a `JitMemory` is its own, with the protection it needs; records and code are those of the
    calls made on it alone. -/
structure Slot.Good (w : System) (s : Slot) : Prop where
  alloc : Alloc s.base
  block : (s.base, PAGE_SIZE * 3) ∈ w.blocks
  code : ∀ a, s.base ≤ a → a < s.base + 2 * PAGE_SIZE → w.map a = some .READ_WRITE_EXECUTE
  data : ∀ a, s.base + 2 * PAGE_SIZE ≤ a → a < s.base + 3 * PAGE_SIZE → w.map a = some .READ_WRITE
  records : SameRecords s.jit (reach s.base s.start s.calls)
  bytes : ∀ a, s.base ≤ a → a < s.base + 2 * PAGE_SIZE → w.mem a = (reach s.base s.start s.calls).mem a

/-- The blocks of two `JitMemory`s do not overlap. -/
def Slot.Apart (s t : Slot) : Prop := s.base + 3 * PAGE_SIZE ≤ t.base ∨ t.base + 3 * PAGE_SIZE ≤ s.base

structure World.Good (w : World) : Prop where
  sound : HeapSound w.sys
  slots : ∀ s ∈ w.slots, s.Good w.sys
  apart : w.slots.Pairwise Slot.Apart

end Spec
