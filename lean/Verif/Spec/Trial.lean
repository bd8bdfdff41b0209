import Verif.Spec.Simple
import Verif.Spec.Progress
/-
  Specification: trial runs. A history of calls is run once, with the memory at some address, and it is
  checked on the way that no call panics, that labels are bound once, and that in the end the labels of
  all statements are bound. `trial` is a program; it can be run on any given history.
-/

namespace Spec
open Monoasm

/-- The call does not write to code that was generated before, and does not announce fields by hand. -/
def tame : Op → Bool
  | .cur (.poke _ _) => false
  | .page _ (.poke _ _) => false
  | .save_reloc _ _ => false
  | .apply_jmp_patch _ _ => false
  | .apply_jmp_patch_address _ _ => false
  | _ => true

/-- The label has an address. -/
def boundB (s : JitMemory) (l : DestLabel) : Bool :=
  match JitMemory.get_label_pos l s with
  | .ok _ _ => true
  | .panic _ _ => false

/-- The label is that of an object that waits for `finalize`. -/
def waitsB (s : JitMemory) (l : DestLabel) : Bool :=
  ((s.pages 0).constants ++ (s.pages 0).data ++ ((s.pages 1).constants ++ (s.pages 1).data)).any fun x => x.2 == l

/-- The label that a call binds. -/
def bindOf : Op → Option DestLabel
  | .bind_label l => some l
  | .bind_label_with_page _ l => some l
  | .inst (.Label l) => some l
  | _ => none

/-- Statements are accepted by the macro and denote an instruction. -/
def sensibleB : Op → Bool
  | .inst i => acceptedB i && meaningfulB i
  | _ => true

/-- A call binds a label that has no address and will get none otherwise. -/
def freshB (s : JitMemory) (op : Op) : Bool :=
  match bindOf op with
  | some l => !boundB s l && !waitsB s l
  | none => true

/-- The calls one after the other, as long as nothing is wrong. -/
def trialFrom (s : JitMemory) : List Op → Option JitMemory
  | [] => some s
  | op :: ops =>
    if tame op && sensibleB op && freshB s op then
      match op.run s with
      | .ok _ s' => trialFrom s' ops
      | .panic _ _ => none
    else none

/-- Labels that are bound to the current position by one of the calls. -/
def placedHere : Op → Option DestLabel
  | .bind_label l => some l
  | .inst (.Label l) => some l
  | _ => none

/-- In the end all labels of statements are bound, and those of jumps and calls are bound by calls of
    the history (they are not labels of constants and data). -/
def settledB (s : JitMemory) (placed : List DestLabel) : Op → Bool
  | .inst i => i.labels.all (fun l => boundB s l) && (!isDirect i || i.labels.all (fun l => placed.contains l))
  | _ => true

/-- The last call is `finalize`. -/
def endsWithFinalize (H : List Op) : Bool :=
  match H.getLast? with
  | some .finalize => true
  | _ => false

/-- The whole check, in a run with the memory at address `base`. -/
def trial (base : Nat) (mem : Nat → Byte) (H : List Op) : Bool :=
  match trialFrom (JitMemory.new base mem) H with
  | some s => endsWithFinalize H && H.all (settledB s (H.filterMap placedHere))
  | none => false

/-- What the trial is meant to check: no call panics; statements are accepted and denote instructions;
    labels are bound once; the last call is `finalize`; in the end the labels of all statements have an
    address, and those of jumps and calls were bound by a call. -/
structure Passes (base : Nat) (mem : Nat → Byte) (H : List Op) : Prop where
  run : ∃ s, runOps H (JitMemory.new base mem) = .ok () s
  tame : ∀ op ∈ H, tame op = true
  accepted : ∀ i, .inst i ∈ H → Accepted i
  meaningful : ∀ i, .inst i ∈ H → Meaningful i
  once : ∀ l, BindsOnce l (JitMemory.new base mem) H
  last : H.getLast? = some .finalize
  bound : ∀ i, .inst i ∈ H → ∀ l, i.mentions l → ∃ a, HasAddress (reach base mem H) l a
  placed : ∀ i, .inst i ∈ H → isDirect i = true → ∀ l, i.mentions l → .bind_label l ∈ H ∨ .inst (.Label l) ∈ H

section
variable (base : Nat) (mem : Nat → Byte) (H : List Op)

/-- The processor is at the code of statement `n` of the history, which is not a label or data, and the
    code has not been overwritten. -/
def AtCode (n : Nat) (s : X86.State) : Prop :=
  (∃ i, H[n]? = some (.inst i) ∧ placedLabel i = none ∧ isData i = false) ∧ s.rip = placeW base mem H n ∧ Intact base mem H n s.data

/-- Execution of the source program, `k` instructions, through statements that have not been overwritten.
    From a position, execution goes on with the statement that is at the same place of the same page:
    between them may be labels, and code for other pages. -/
inductive Flow (M : Reading) (E : X86.Effect) : Nat → Nat → X86.Data → Nat → X86.Data → Prop where
  | done {n d} : Flow M E 0 n d n d
  | step {n m n' n'' d d' d'' k} : place base mem H n = place base mem H m → Intact base mem H m d →
      SourceStep base mem H M E 1 m d n' d' → Flow M E k n' d' n'' d'' → Flow M E (k + 1) n d n'' d''

end
end Spec
