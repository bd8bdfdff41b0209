import Verif.Spec.Slots
/-
  Vocabulary for constants and data objects.
-/

namespace Spec
open Monoasm

/-- Label `l` is at an address of page `p` that is a multiple of `n`; the bytes from there on are
    `bs`, all of them inside the page. -/
def Holds (base : Nat) (s : JitMemory) (l : DestLabel) (p : Page) (n : Nat) (bs : List Byte) : Prop :=
  ∃ pos, HasAddress s l (addrOf base p pos) ∧ n ∣ addrOf base p pos ∧ pos + bs.length ≤ PAGE_SIZE
    ∧ bytes s.mem (addrOf base p pos) bs.length = bs

/-- Object `d` with label `l` waits to be put on page `p` by the next `finalize`. -/
def Waits (s : JitMemory) (p : Page) (d : DataType) (l : DestLabel) : Prop :=
  (d, l) ∈ (s.pages p).constants ∨ (p = DATA_PAGE ∧ ∃ q, (d, l) ∈ (s.pages q).data)

end Spec
