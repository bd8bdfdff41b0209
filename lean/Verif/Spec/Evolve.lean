import Verif.Spec.Retarget
import Verif.Spec.Trial
/-
  Specification: programs that are patched while they grow. A JIT compiler generates code, runs it,
  generates more code, and redirects jumps and calls of the old code to the new one. The history of its
  calls is the program, but a jump that was patched stands for a jump to another label, possibly one that
  did not exist when the jump was assembled.
-/

namespace Spec
open Monoasm

/-- The call is a patch of a jump. -/
def isPatch : Op → Bool
  | .apply_jmp_patch _ _ => true
  | .apply_jmp_patch_address _ _ => true
  | _ => false

/-- The call patches the jump at address `a` to go to `d`. -/
def PatchesAt (s : JitMemory) (a : Nat) (d : DestLabel) : Op → Prop
  | .apply_jmp_patch p e => e = d ∧ HasAddress s p a
  | .apply_jmp_patch_address x e => e = d ∧ x = a
  | _ => False

section
variable (base : Nat) (mem : Nat → Byte)

/-- Call `n` of the history assembles a jump or call to a label, and the label was bound when a later
    `finalize` ended. -/
def JumpResolved (K : List Op) (n : Nat) : Prop :=
  ∃ i l, K[n]? = some (.inst i) ∧ Patchable i l
    ∧ ∃ k, n < k ∧ K[k]? = some .finalize ∧ ∃ a, HasAddress (reach base mem (K.take (k + 1))) l a

/-- What the calls of the history `K` stand for in the end: `S` is `K` with the jumps and calls that were
    patched having the labels of their last patches. -/
inductive Becomes : List Op → List Op → Prop where
  | start : Becomes [] []
  | call {K S op} : Becomes K S → tame op = true → Becomes (K ++ [op]) (S ++ [op])
  | patch {K S op n i d} : Becomes K S → S[n]? = some (.inst i) → JumpResolved base mem K n →
      PatchesAt (reach base mem K) (place base mem K n) d op → (∃ a, HasAddress (reach base mem K) d a) →
      Becomes (K ++ [op]) (S.set n (.inst (retarget d i)) ++ [op])

/-- A history that leaves complete code: no call panics; statements are accepted and denote
    instructions; labels are bound once; after the last `finalize` there are only patches; in the end the
    labels of all statements have an address, and those of jumps and calls were bound by a call. -/
structure Complete (K S : List Op) : Prop where
  becomes : Becomes base mem K S
  run : ∃ s, runOps K (JitMemory.new base mem) = .ok () s
  accepted : ∀ i, .inst i ∈ K → Accepted i
  meaningful : ∀ i, .inst i ∈ K → Meaningful i
  once : ∀ l, BindsOnce l (JitMemory.new base mem) K
  last : ∃ k : Nat, K[k]? = some .finalize ∧ ∀ op ∈ K.drop (k + 1), isPatch op = true
  bound : ∀ i, .inst i ∈ K → ∀ l, i.mentions l → ∃ a, HasAddress (reach base mem K) l a
  placed : ∀ i, .inst i ∈ S → isDirect i = true → ∀ l, i.mentions l → .bind_label l ∈ K ∨ .inst (.Label l) ∈ K

variable (K S : List Op)

/-- One instruction of the program: the places and labels are those of the history `K`, the statements
    those of `S`. -/
inductive LiveStep (M : Reading) (E : X86.Effect) : Nat → X86.Data → Nat → X86.Data → Prop where
  | jmp {n m l d} : S[n]? = some (.inst (.Jmp (.rel l))) → Binds base mem K m l → LiveStep M E n d m d
  | taken {n m c l d} : S[n]? = some (.inst (.Jcc c l)) → Binds base mem K m l → (cc c).holds d.flags = true →
      LiveStep M E n d m d
  | notTaken {n c l d} : S[n]? = some (.inst (.Jcc c l)) → (cc c).holds d.flags = false → LiveStep M E n d (n + 1) d
  | call {n m l d} : S[n]? = some (.inst (.Call (.rel l))) → Binds base mem K m l →
      LiveStep M E n d m (d.push (placeW base mem K (n + 1)))
  | seq {n i I d d'} : S[n]? = some (.inst i) → instrAt base mem K M n i = some I → I.isControl = false →
      E (I.absolute (placeW base mem K (n + 1))) (placeW base mem K (n + 1)) d d' → LiveStep M E n d (n + 1) d'
  | indirect {n m i I d d'} : S[n]? = some (.inst i) → isDirect i = false → instrAt base mem K M n i = some I →
      I.isControl = true →
      X86.Exec E (placeW base mem K (n + 1)) I d (placeW base mem K m) d' → LiveStep M E n d m d'

/-- The processor is at the code of statement `n`, which is not a label or data, and the code has not been
    overwritten by the program. -/
def LiveAt (n : Nat) (s : X86.State) : Prop :=
  (∃ i, S[n]? = some (.inst i) ∧ placedLabel i = none ∧ isData i = false) ∧ s.rip = placeW base mem K n ∧ Intact base mem K n s.data

/-- Execution, `k` instructions, through statements that have not been overwritten. -/
inductive LiveFlow (M : Reading) (E : X86.Effect) : Nat → Nat → X86.Data → Nat → X86.Data → Prop where
  | done {n d} : LiveFlow M E 0 n d n d
  | step {n m n' n'' d d' d'' k} : place base mem K n = place base mem K m → Intact base mem K m d →
      LiveStep base mem K S M E m d n' d' → LiveFlow M E k n' d' n'' d'' → LiveFlow M E (k + 1) n d n'' d''

end

/-! ### A check -/

/-- A call of the history: the address of the code generated next, the statement that it stands for now,
    and whether that is a jump to a label that was bound when a later `finalize` ended. -/
structure Entry where
  addr : Nat
  op : Op
  resolved : Bool

/-- Label of a jump or call. -/
def jumpLabel : Op → Option DestLabel
  | .inst (.Jmp (.rel l)) => some l
  | .inst (.Call (.rel l)) => some l
  | _ => none

/-- Address of the jump and new label of a patch. -/
def patchOf (s : JitMemory) : Op → Option (Nat × DestLabel)
  | .apply_jmp_patch p d =>
    match JitMemory.get_label_address p s with
    | .ok a _ => some (a, d)
    | .panic _ _ => none
  | .apply_jmp_patch_address a d => some (a, d)
  | _ => none

def Entry.finalized (s : JitMemory) (e : Entry) : Entry :=
  { e with resolved := e.resolved || (jumpLabel e.op).any fun l => boundB s l }

def Entry.patched (d : DestLabel) (e : Entry) : Entry :=
  match e.op with
  | .inst i => { e with op := .inst (retarget d i) }
  | _ => e

def isFinalize : Op → Bool
  | .finalize => true
  | _ => false

/-- The calls one after the other, as long as nothing is wrong, with the table of the calls made. -/
def liveFrom (s : JitMemory) (T : List Entry) : List Op → Option (JitMemory × List Entry)
  | [] => some (s, T)
  | op :: ops =>
    match op.run s with
    | .panic _ _ => none
    | .ok _ s' =>
      if isPatch op then
        match patchOf s op with
        | none => none
        | some (a, d) =>
          match T.findIdx? fun e => e.addr == a && e.resolved with
          | none => none
          | some n => if boundB s d then liveFrom s' (T.modify n (Entry.patched d) ++ [⟨here s, op, false⟩]) ops else none
      else if tame op && sensibleB op && freshB s op then
        liveFrom s' ((if isFinalize op then T.map (Entry.finalized s') else T) ++ [⟨here s, op, false⟩]) ops
      else none

/-- After the last `finalize` (of the reversed history) there are only patches. -/
def patchesOnly : List Op → Bool
  | [] => false
  | op :: ops => isFinalize op || isPatch op && patchesOnly ops

def labelsBoundB (s : JitMemory) : Op → Bool
  | .inst i => i.labels.all fun l => boundB s l
  | _ => true

def placedB (placed : List DestLabel) : Op → Bool
  | .inst i => !isDirect i || i.labels.all fun l => placed.contains l
  | _ => true

/-- The whole check, with the memory at address `base`: the statements that the history stands for. -/
def liveTrial (base : Nat) (mem : Nat → Byte) (K : List Op) : Option (List Op) :=
  match liveFrom (JitMemory.new base mem) [] K with
  | none => none
  | some (s, T) =>
    if patchesOnly K.reverse && K.all (labelsBoundB s) && (T.map Entry.op).all (placedB (K.filterMap placedHere)) then some (T.map Entry.op) else none

end Spec
