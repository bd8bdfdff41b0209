import Verif.Spec.Progress
/-
  Specification: a program that calls functions of its process. The functions are outside of the
  memory of the `JitMemory`; of a visit to them only the state in which they are entered and the state
  in which they come back is known.
-/

namespace Spec
open Monoasm

/-- The address is not in the three pages (nor the address directly behind them, which an empty object
    at the end may have). -/
def Foreign (base : Nat) (r : BitVec 64) : Prop := r.toNat < base ∨ base + 3 * PAGE_SIZE < r.toNat

/-- What the functions outside do: the state in which they are entered, and a state in which they come
    back. -/
abbrev Host := X86.State → X86.State → Prop

/-- One visit. -/
abbrev Visit := X86.State × X86.State

/-- The processor in a process: stretches in states for which `P` holds, and visits to the functions
    outside. -/
inductive Mixed (base : Nat) (P : X86.State → Prop) (E : X86.Effect) (F : Host) : List Visit → X86.State → X86.State → Prop where
  | stay {k s s'} : X86.Through P E k s s' → Mixed base P E F [] s s'
  | visit {k s s1 s2 s3 s' vs} : X86.Through P E k s s1 → X86.Step E s1 s2 → Foreign base s2.rip → F s2 s3 →
      Mixed base P E F vs s3 s' → Mixed base P E F ((s2, s3) :: vs) s s'

section
variable (base : Nat) (mem : Nat → Byte) (H : List Op)

/-- The source program leaves: at position `n` there is a return, or a jump or call to a computed
    address, which is outside. -/
def Leaves (E : X86.Effect) (n : Nat) (d : X86.Data) (s : X86.State) : Prop :=
  ∃ i I, H[n]? = some (.inst i) ∧ isDirect i = false ∧ instrAt base mem H encoded n i = some I ∧ I.isControl = true
    ∧ X86.Exec E (placeW base mem H (n + 1)) I d s.rip s.data ∧ Foreign base s.rip ∧ Intact base mem H n d

/-- The source program with visits. It comes back to a position. -/
inductive MixedSource (E : X86.Effect) (F : Host) : List Visit → Nat → X86.Data → Nat → X86.Data → Prop where
  | stay {k n d n' d'} : SourceRun base mem H encoded E k n d n' d' → MixedSource E F [] n d n' d'
  | visit {k n d n1 d1 s m d3 n' d' vs} : SourceRun base mem H encoded E k n d n1 d1 → Leaves base mem H E n1 d1 s →
      F s ⟨placeW base mem H m, d3⟩ → MixedSource E F vs m d3 n' d' →
      MixedSource E F ((s, ⟨placeW base mem H m, d3⟩) :: vs) n d n' d'

end

/-- The function at address `r` obeys the calling convention when it is entered with the state `d`, and
    writes only to addresses in `W`. (The processor executes the function, whatever its code is.) -/
def Obeys (E : X86.Effect) (W : BitVec 64 → Prop) (r : BitVec 64) (d : X86.Data) : Prop :=
  X86.Leads E (X86.Returned W d) ⟨r, d⟩

/-- State after a call, compared with the state before. -/
structure CameBack (base : Nat) (mem : Nat → Byte) (pre : List NewCall) (is : List (Inst Val Nat)) (W : BitVec 64 → Prop)
    (j : Nat) (d : X86.Data) (s : X86.State) : Prop where
  rip : s.rip = codeAt base mem pre is j
  rsp : s.data.gpr X86.rsp = d.gpr X86.rsp
  saved : ∀ r ∈ X86.calleeSaved, s.data.gpr r = d.gpr r
  others : ∀ x, ¬ W x → ¬ X86.Below (d.gpr X86.rsp) 8 x → s.data.mem x = d.mem x
  loaded : Loaded base mem (simple pre is) s.data

/-- `VM::puts`, README.md:361-367 -/
def putsText := "
            movq rdi, R(reg + 12);
            movq rax, (monoasm::test::PUTINT as u64);
            call rax;
"

/-- The function `f: pushq rbp; movq rbp, rsp;` followed by `puts(0)`, `PUTINT` being at address `p`,
    and `movq rsp, rbp; popq rbp; ret;` (`VM::epilogue`). -/
def callsPutint (p : Val) : List (Inst Val Nat) :=
  [.Label 0, .Pushq (.reg (.reg 5)), .Movq (.reg (.reg 5)) (.reg (.reg 4)), .Movq (.reg (.reg 7)) (.reg (.expr (0 + 12))),
    .Movq (.reg (.reg 0)) (.imm p none), .Call (.reg 0), .Movq (.reg (.reg 4)) (.reg (.reg 5)), .Popq (.reg (.reg 5)), .Ret]

end Spec
