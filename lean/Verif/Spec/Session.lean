import Verif.Spec.Evolve
import Verif.Spec.Host
import Verif.Spec.Outside
/-
  Specification: a compiler that works while its code runs. The generated code calls functions of the
  process, these call the API (they generate code, finalize, redirect jumps of the code that is waiting
  for them) and return to the code. Processor and `JitMemory` have the same memory.
-/

namespace Spec
open Monoasm

/-- Memory of the process by address. -/
def view (d : X86.Data) : Nat → Byte := fun a => d.mem (BitVec.ofNat 64 a)

/-- The same registers, with other memory. -/
def remember (d : X86.Data) (m : Nat → Byte) : X86.Data := { d with mem := fun x => m x.toNat }

/-- The processor, and the records of a `JitMemory` (the field `mem` of it has no meaning). -/
structure Process where
  cpu : X86.State
  jit : JitMemory

/-- The `JitMemory` with the memory of the process. -/
def joined (s : JitMemory) (d : X86.Data) : JitMemory := { s with mem := view d }

/-- A call of the API by a function of the process. (If it panics, the function catches the panic.) -/
def Process.call (op : Op) (p : Process) : Process :=
  let t := (op.run (joined p.jit p.cpu.data)).state
  ⟨⟨p.cpu.rip, remember p.cpu.data t.mem⟩, t⟩

/-- What the functions of the process do besides calling the API: any change of registers and memory,
    which may depend on what can be read of the `JitMemory` (addresses of labels, for instance). -/
abbrev Functions := JitMemory → X86.State → X86.State → Prop

/-- One step of the process, with the calls of the API made in it: an instruction of the generated code;
    or, outside of it, something that a function does, or a call that it makes. -/
inductive Process.Step (base : Nat) (E : X86.Effect) (F : Functions) : Process → List Op → Process → Prop where
  | code {s s' j} : ¬ Foreign base s.rip → X86.Step E s s' → Process.Step base E F ⟨s, j⟩ [] ⟨s', j⟩
  | host {s s' j} : Foreign base s.rip → F (joined j s.data) s s' → Process.Step base E F ⟨s, j⟩ [] ⟨s', j⟩
  | call {p} (op : Op) : Foreign base p.cpu.rip → Process.Step base E F p [op] (p.call op)

/-- Execution of the process; `K` are the calls made before, and `Q` holds after each step. -/
inductive Process.Run (base : Nat) (E : X86.Effect) (F : Functions) (Q : List Op → X86.State → Prop) :
    List Op → Process → List Op → Process → Prop where
  | done {K p} : Q K p.cpu → Process.Run base E F Q K p K p
  | step {K p ops p' K'' p''} : Q K p.cpu → Process.Step base E F p ops p' → Process.Run base E F Q (K ++ ops) p' K'' p'' →
      Process.Run base E F Q K p K'' p''

section
variable (base : Nat) (mem : Nat → Byte)

/-- The processor is outside, or at a statement of the program generated so far, whose code has not been
    overwritten. -/
def Guarded (K : List Op) (s : X86.State) : Prop :=
  Foreign base s.rip ∨ ∃ S n, Complete base mem K S ∧ LiveAt base mem K S n s

/-- The processor is outside, or at a statement of the program generated so far. -/
def Anywhere (K : List Op) (s : X86.State) : Prop :=
  Foreign base s.rip ∨ ∃ S n i, Complete base mem K S ∧ S[n]? = some (.inst i) ∧ placedLabel i = none ∧ isData i = false
    ∧ s.rip = placeW base mem K n

/-- Where the program is: at a position of the history, or in a function of the process. -/
inductive Control where
  | at (n : Nat)
  | out (r : BitVec 64)

/-- The processor is there. -/
def Control.Is (K : List Op) : Control → X86.State → Prop
  | .at n, s => s.rip = placeW base mem K n
  | .out r, s => s.rip = r ∧ Foreign base r

/-- The program that the history stands for leaves at statement `n`: a return, or a jump or call to a
    computed address. -/
def LiveLeaves (K S : List Op) (E : X86.Effect) (n : Nat) (d : X86.Data) (s : X86.State) : Prop :=
  ∃ i I, S[n]? = some (.inst i) ∧ isDirect i = false ∧ instrAt base mem K encoded n i = some I ∧ I.isControl = true
    ∧ X86.Exec E (placeW base mem K (n + 1)) I d s.rip s.data ∧ Foreign base s.rip

/-- One step of the source: the program changes while it runs. Nothing here refers to the code, except
    that it must not be overwritten. -/
inductive SessionStep (E : X86.Effect) (F : Functions) :
    List Op → Control → X86.Data → List Op → Control → X86.Data → Prop where
  | code {K S n m n' d d'} : Complete base mem K S → place base mem K n = place base mem K m → Intact base mem K m d →
      LiveStep base mem K S encoded E m d n' d' → SessionStep E F K (.at n) d K (.at n') d'
  | leave {K S n m d s} : Complete base mem K S → place base mem K n = place base mem K m → Intact base mem K m d →
      LiveLeaves base mem K S E m d s → SessionStep E F K (.at n) d K (.out s.rip) s.data
  | host {K r d s} : F (joined (reach base mem K) d) ⟨r, d⟩ s → Foreign base s.rip → SessionStep E F K (.out r) d K (.out s.rip) s.data
  /-- back to a position, possibly one that did not exist when the program left -/
  | back {K r d n d'} : F (joined (reach base mem K) d) ⟨r, d⟩ ⟨placeW base mem K n, d'⟩ → SessionStep E F K (.out r) d K (.at n) d'
  /-- the history grows -/
  | call {K r d} (op : Op) :
      SessionStep E F K (.out r) d (K ++ [op]) (.out r) (remember d (op.run (joined (reach base mem K) d)).state.mem)

inductive Session (E : X86.Effect) (F : Functions) : List Op → Control → X86.Data → List Op → Control → X86.Data → Prop where
  | done {K c d} : Session E F K c d K c d
  | step {K c d K' c' d' K'' c'' d''} : SessionStep base mem E F K c d K' c' d' → Session E F K' c' d' K'' c'' d'' →
      Session E F K c d K'' c'' d''

/-- Whatever is executed next, generated code or a function, leaves the two code pages alone. (Calls of the
    API do not.) -/
def LeavesCode (E : X86.Effect) (F : Functions) (s : X86.State) : Prop :=
  ∀ s', X86.Step E s s' ∨ (∃ j, F j s s') → ∀ a, base ≤ a → a < base + 2 * PAGE_SIZE → view s'.data a = view s.data a

end
end Spec
