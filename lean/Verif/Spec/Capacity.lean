import Verif.Spec.Slots
/-
  Vocabulary for stating when `finalize` succeeds: room for the constants and data objects.
-/

namespace Spec
open Monoasm

/-- The least multiple of `a` that is not below `c`. -/
def roundUp (c a : Nat) : Nat := (c + (a - 1)) / a * a

/-- Where the cursor is after the objects have been placed from `c` on, one after the other, each at
    a multiple of its alignment. -/
def endOf (c : Nat) : List (DataType × DestLabel) → Nat
  | [] => c
  | (d, _) :: rest => endOf (roundUp c d.align + d.size) rest

/-- There is room for the pending constants of page 0 and 1 after the code of the page, and for the
    pending data objects of both on the data page. -/
structure HasRoom (s : JitMemory) : Prop where
  page0 : endOf (cursor s 0) (s.pages 0).constants ≤ PAGE_SIZE
  page1 : endOf (cursor s 1) (s.pages 1).constants ≤ PAGE_SIZE
  data : endOf (cursor s 2) ((s.pages 0).data ++ (s.pages 1).data) ≤ PAGE_SIZE

/-- Object `d` with label `l` waits for `finalize`. -/
def Queued (s : JitMemory) (d : DataType) (l : DestLabel) : Prop :=
  ∃ p, p < 2 ∧ ((d, l) ∈ (s.pages p).constants ∨ (d, l) ∈ (s.pages p).data)

/-- The labels of the pending objects exist, and so do those whose address is to be stored. -/
def NamesKnown (s : JitMemory) : Prop :=
  ∀ d l, Queued s d l → l < s.labels.length ∧ ∀ x, d = .absAddress x → x < s.labels.length

/-- The fields that refer to labels which have (or will get) an address are inside their page. -/
def FieldsFit (s : JitMemory) : Prop :=
  ∀ l t, t ∈ targets s l → ((∃ pos, JitMemory.get_label_pos l s = .ok pos s) ∨ ∃ d, Queued s d l) → Live t

end Spec
