import Verif.Spec.Runtime
/-
  Vocabulary for relocation slots: the fields of already emitted code and data that a later
  `finalize` has to fill in.
-/

namespace Monoasm

/-- Page of a relocation target. -/
def TargetType.page : TargetType → Page
  | .rel p _ _ => p
  | .abs p _ => p
/-- Position of a relocation target. -/
def TargetType.pos : TargetType → Nat
  | .rel _ _ c => c
  | .abs _ c => c
/-- Number of bytes of the field. -/
def TargetType.size : TargetType → Nat
  | .rel _ _ _ => 4
  | .abs _ _ => 8

/-- Number of bytes a constant or data object occupies. -/
def DataType.size : DataType → Nat
  | .u64 _ => 8
  | .u32 _ => 4
  | .bytes n => n
  | .absAddress _ => 8
  | .align8 => 0

/-- Its alignment. -/
def DataType.align : DataType → Nat
  | .u64 _ => 16
  | .u32 _ => 4
  | .bytes _ => 16
  | .absAddress _ => 8
  | .align8 => 8

/-- Its contents (an address is filled in later). -/
def DataType.value : DataType → List Byte
  | .u64 v => Spec.littleEndian 8 v.toNat
  | .u32 v => Spec.littleEndian 4 v.toNat
  | .bytes n => List.replicate n 0
  | .absAddress _ => List.replicate 8 0
  | .align8 => []

end Monoasm

namespace Spec
open Monoasm

/-- Relocation entries recorded for label `l`. -/
def targets (s : JitMemory) (l : DestLabel) : List TargetType :=
  match s.labels[l]? with
  | some i => i.target
  | none => []

/-- The field fits the page. (A field that does not belongs to an instruction whose emission
    panicked with "Page size overflow".) -/
def Live (t : TargetType) : Prop := t.pos + t.size ≤ PAGE_SIZE

/-- Position `pos` of page `p` belongs to the field `t`. -/
def Covers (t : TargetType) (p : Page) (pos : Nat) : Prop :=
  t.page = p ∧ t.pos ≤ pos ∧ pos < t.pos + t.size

/-- Position `pos` of page `p` has been emitted and is not part of a field still to be filled. -/
def Settled (s : JitMemory) (p : Page) (pos : Nat) : Prop :=
  pos < cursor s p ∧ ∀ l t, t ∈ targets s l → Live t → ¬ Covers t p pos

/-- Byte at position `pos` of page `p`. -/
def byteAt (s : JitMemory) (p : Page) (pos : Nat) : Byte := s.mem ((s.pages p).contents + pos)

end Spec
