import Verif.Spec.Outside
/-
  Vocabulary for programs that exchange pages between `JitMemory`s: `&mut *a` and `&mut a[Page(p)]` are
  `&mut MemPage` (jit_memory.rs:189-193, 203-207), so that `std::mem::swap(&mut *a, &mut *b)` is possible.

  Any number of `JitMemory`s, in one memory.
-/

namespace Spec
open Monoasm

structure Fleet where
  jit : Nat → JitMemory
  mem : Nat → Byte

/-- What a program does next: a call on the `JitMemory` `i`, or the exchange of page `p` of `i` with page `q` of `j`.
    (Two pages of one `JitMemory` are exchanged with the help of another one.) -/
inductive Move
  | call (i : Nat) (op : Op)
  | swap (i : Nat) (p : Page) (j : Nat) (q : Page)

/-- The `JitMemory` `i`, with the memory of the process. -/
def Fleet.at (F : Fleet) (i : Nat) : JitMemory := { F.jit i with mem := F.mem }

/-- A call that panics leaves the state where it stopped; the panic is caught. -/
def Fleet.call (F : Fleet) (i : Nat) (op : Op) : Fleet where
  jit k := if k = i then (op.run (F.at i)).state else F.jit k
  mem := (op.run (F.at i)).state.mem

/-- `std::mem::swap` of two pages. -/
def Fleet.swap (F : Fleet) (i : Nat) (p : Page) (j : Nat) (q : Page) : Fleet where
  jit k :=
    { F.jit k with pages := fun r =>
        if k = i ∧ r = p then (F.jit j).pages q else if k = j ∧ r = q then (F.jit i).pages p else (F.jit k).pages r }
  mem := F.mem

def Move.run : Move → Fleet → Fleet
  | .call i op, F => F.call i op
  | .swap i p j q, F => F.swap i p j q

def runMoves : List Move → Fleet → Fleet
  | [], F => F
  | m :: ms, F => runMoves ms (m.run F)

/-- A `JitMemory` has three pages. -/
def Move.Valid : Move → Prop
  | .call _ _ => True
  | .swap _ p _ q => p < 3 ∧ q < 3

/-- The move is not a jump patch. -/
def Move.Tame : Move → Prop
  | .call _ op => ¬ op.isPatch
  | .swap _ _ _ _ => True

/-- The calls on the `JitMemory` `k`. -/
def movesOf (k : Nat) : List Move → List Op
  | [] => []
  | .call i op :: ms => if i = k then op :: movesOf k ms else movesOf k ms
  | .swap _ _ _ _ :: ms => movesOf k ms

/-- Pages of `k` are not exchanged, and jump patches are not made on others. -/
def Move.Spares (k : Nat) : Move → Prop
  | .call i op => i ≠ k → ¬ op.isPatch
  | .swap i p j q => i ≠ k ∧ j ≠ k ∧ p < 3 ∧ q < 3

/-- New `JitMemory`s, the allocation of `i` at `b i`. -/
def Fleet.new (b : Nat → Nat) (m : Nat → Byte) : Fleet where
  jit i := JitMemory.new (b i) m
  mem := m

/-- The allocations do not overlap. -/
def Scattered (b : Nat → Nat) : Prop := ∀ i j, i ≠ j → b i + 3 * PAGE_SIZE ≤ b j ∨ b j + 3 * PAGE_SIZE ≤ b i

end Spec
