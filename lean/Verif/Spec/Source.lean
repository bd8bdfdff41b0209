import Verif.Spec.Cpu
import Verif.Spec.Program
/-
  Specification: execution of the source program.

  The source program is the history of calls itself. A position in it is the number of a call; the
  program executes the statements one after the other, and a jump to a label goes to the position at
  which the label is bound. Nothing here refers to the bytes of the code.
-/

namespace Spec
open Monoasm

section
variable (base : Nat) (mem : Nat → Byte) (H : List Op)

/-- Address of the code generated next at position `n` of the history (`get_current_address`). -/
def place (n : Nat) : Nat := here (reach base mem (H.take n))

/-- The same, as a machine word. -/
def placeW (n : Nat) : BitVec 64 := BitVec.ofNat 64 (place base mem H n)

/-- Call `m` binds the label `l`. -/
def Binds (m : Nat) (l : DestLabel) : Prop :=
  (H[m]? = some (.inst (.Label l)) ∨ H[m]? = some (.bind_label l))
  ∧ l < (reach base mem (H.take m)).labels.length

/-- The statement is a jump or call to a label. -/
def isDirect : Inst Val Nat → Bool
  | .Jmp (.rel _) => true
  | .Jcc _ _ => true
  | .Call (.rel _) => true
  | _ => false

/-- Machine instruction that the statement at position `n` stands for, with labels at their final
    addresses. -/
def instrAt (M : Reading) (n : Nat) (i : Inst Val Nat) : Option X86.Instr :=
  M (dist (labelAddr (reach base mem H)) (place base mem H (n + 1))) i

/-- One step of the source program: position and state before and after, and the number of
    instructions executed; the statements are read as `M` says. -/
inductive SourceStep (M : Reading) (E : X86.Effect) : Nat → Nat → X86.Data → Nat → X86.Data → Prop where
  /-- calls that generate no code: labels, registration of constants, ... -/
  | skip {n d} : n < H.length → place base mem H (n + 1) = place base mem H n → SourceStep M E 0 n d (n + 1) d
  | jmp {n m l d} : H[n]? = some (.inst (.Jmp (.rel l))) → Binds base mem H m l → SourceStep M E 1 n d m d
  | taken {n m c l d} : H[n]? = some (.inst (.Jcc c l)) → Binds base mem H m l → (cc c).holds d.flags = true →
      SourceStep M E 1 n d m d
  | notTaken {n c l d} : H[n]? = some (.inst (.Jcc c l)) → (cc c).holds d.flags = false → SourceStep M E 1 n d (n + 1) d
  /-- the return address is that of the next statement -/
  | call {n m l d} : H[n]? = some (.inst (.Call (.rel l))) → Binds base mem H m l →
      SourceStep M E 1 n d m (d.push (placeW base mem H (n + 1)))
  /-- the other statements that are not control transfers -/
  | seq {n i I d d'} : H[n]? = some (.inst i) → instrAt base mem H M n i = some I → I.isControl = false →
      E (I.absolute (placeW base mem H (n + 1))) (placeW base mem H (n + 1)) d d' → SourceStep M E 1 n d (n + 1) d'
  /-- returns, and jumps and calls to computed addresses: to the position with that address -/
  | indirect {n m i I d d'} : H[n]? = some (.inst i) → isDirect i = false → instrAt base mem H M n i = some I →
      I.isControl = true →
      X86.Exec E (placeW base mem H (n + 1)) I d (placeW base mem H m) d' → SourceStep M E 1 n d m d'

/-- Call `k` is a `finalize` that returns. -/
def Finishes (k : Nat) : Prop :=
  H[k]? = some .finalize ∧ ∃ s', JitMemory.finalize (reach base mem (H.take k)) = .ok () s'

/-- The code of the statement `i` at position `n` is in its final form at the end of the history: it
    was assembled without a panic, later calls do not overwrite it, its labels are bound once, and
    were bound when some later `finalize` returned; and it is encoded as it is read. -/
structure Ready (M : Reading) (n : Nat) (i : Inst Val Nat) : Prop where
  runs : ∃ s1, Runs i (reach base mem (H.take n)) s1
  read : ∀ rel, M rel i = encoded rel i
  spared : SparesRange (place base mem H n) (place base mem H (n + 1) - place base mem H n)
    (reach base mem (H.take (n + 1))) (H.drop (n + 1))
  once : ∀ l, i.mentions l → BindsOnce l (JitMemory.new base mem) H
  final : ∃ k, n < k ∧ Finishes base mem H k ∧
    ∀ l, i.mentions l → ∃ a, HasAddress (reach base mem (H.take (k + 1))) l a

/-- The program has not overwritten the code of position `n`. -/
def Intact (n : Nat) (d : X86.Data) : Prop :=
  ∀ a, place base mem H n ≤ a → a < place base mem H (n + 1) → d.mem (BitVec.ofNat 64 a) = (reach base mem H).mem a

/-- Execution of the source program, `k` instructions. Each instruction executed is in its final
    form and has not been overwritten by the program. -/
inductive SourceRun (M : Reading) (E : X86.Effect) : Nat → Nat → X86.Data → Nat → X86.Data → Prop where
  | done {n d} : SourceRun M E 0 n d n d
  | step {n d n' d' n'' d'' j k} : SourceStep base mem H M E j n d n' d' →
      (∀ i, H[n]? = some (.inst i) → j = 1 → Ready base mem H M n i) → (j = 1 → Intact base mem H n d) →
      SourceRun M E k n' d' n'' d'' → SourceRun M E (j + k) n d n'' d''

end
end Spec
