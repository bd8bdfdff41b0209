import Verif.Spec.Past
import Verif.Spec.Listing
import Verif.Spec.Mentions
/-
  Vocabulary for whole programs.
-/

namespace Spec
open Monoasm

/-- No call binds `l` when it already has an address, or when it is the label of a constant or data
    object (which `finalize` binds). -/
def BindsOnce (l : DestLabel) (s : JitMemory) (h : List Op) : Prop :=
  Along (fun s op => op.binds l → (∀ a, ¬ HasAddress s l a) ∧ ¬ Pending s l) s h

/-- Address of a label; for labels without an address, the start of page 0. -/
def labelAddr (s : JitMemory) (l : DestLabel) : Nat :=
  match JitMemory.get_label_address l s with
  | .ok a _ => a
  | .panic _ _ => (s.pages 0).contents

/-- All labels of the statements have an address. -/
def AllBound (s : JitMemory) (is : List (Inst Val Nat)) : Prop :=
  ∀ i ∈ is, ∀ l, i.mentions l → ∃ a, HasAddress s l a

end Spec
