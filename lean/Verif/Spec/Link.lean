import Verif.Spec.Slots
import Verif.Spec.Meaning
/-
  Vocabulary for stating what a macro statement assembles to.

  A statement is run in state `s` and leaves state `s'`. The bytes it emitted are those between the
  two cursors of the selected page. References to labels are four zero bytes plus an entry in the
  label table; `Linked` says what memory looks like once these slots have been filled with the
  addresses `la`.
-/

namespace Spec
open Monoasm

/-- Relocation entries recorded for label `l` on the way from `s` to `s'` (new entries go to the
    end of the list). -/
def added (s s' : JitMemory) (l : DestLabel) : List TargetType :=
  (targets s' l).drop (targets s l).length

/-- Address of the next byte to be emitted. -/
def here (s : JitMemory) : Nat := (s.pages s.page).contents + (s.pages s.page).counter

/-- `mem` holds what was emitted between `s` and `s'`, with every label reference filled in: a slot
    with recorded offset `off` holds the 32-bit distance from the slot plus `off` to the label. -/
structure Linked (s s' : JitMemory) (la : DestLabel → Nat) (mem : Nat → Byte) : Prop where
  slot : ∀ l p off pos, TargetType.rel p off pos ∈ added s s' l →
    bytes mem ((s.pages p).contents + pos) 4 = littleEndian 4
      (BitVec.ofInt 32 ((la l : Int) - ((s.pages p).contents + pos + off.toNat : Nat))).toNat
  code : ∀ a, here s ≤ a → a < here s' →
    (∀ l p off pos, TargetType.rel p off pos ∈ added s s' l →
      a < (s.pages p).contents + pos ∨ (s.pages p).contents + pos + 4 ≤ a) →
    mem a = s'.mem a

/-- Distance from `a` to the address of a label, as a 64-bit number. -/
def dist (la : DestLabel → Nat) (a : Nat) (l : DestLabel) : BitVec 64 :=
  BitVec.ofInt 64 ((la l : Int) - a)

/-- All labels are within reach of a 32-bit displacement from `a`. -/
def Near (la : DestLabel → Nat) (a : Nat) : Prop :=
  ∀ l, -2147483648 ≤ (la l : Int) - a ∧ (la l : Int) - a ≤ 2147483647

/-- `i`, run in state `s`, returns normally in state `s'`. -/
def Runs (i : Inst V DestLabel) (s s' : JitMemory) : Prop :=
  ∃ m, compile i = .ok m ∧ m s = .ok () s'

/-- Whenever the statement `i` runs to completion, the bytes emitted, once linked, decode to the
    instruction `i` denotes and to nothing more (whatever bytes follow). -/
def Faithful (i : Inst V DestLabel) : Prop :=
  ∀ s s' la mem I, Runs i s s' → Linked s s' la mem → Near la (here s') →
    meaning (dist la (here s')) i = some I →
    ∀ rest, X86.decode (bytes mem (here s) (here s' - here s) ++ rest) = some (I, rest)

end Spec
