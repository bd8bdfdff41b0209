import Verif.Spec.Capacity
import Verif.Spec.Accept
import Verif.Spec.Source
/-
  Specification: simple programs. Labels, constants and data objects are created first, then the
  statements are assembled on page 0, then `finalize` is called.
-/

namespace Spec
open Monoasm

/-- The calls made for a simple program. The `k`-th call of `pre` creates label `k`. -/
def simple (pre : List NewCall) (is : List (Inst Val Nat)) : List Op :=
  pre.map .new ++ (is.map .inst ++ [.finalize])

/-- Constants created by the calls, the first of which creates label `k`. -/
def constsFrom (k : Nat) : List NewCall → List (DataType × DestLabel)
  | [] => []
  | c :: cs => (c.const.map fun d => (d, k)).toList ++ constsFrom (k + 1) cs

/-- Data objects created by the calls, the first of which creates label `k`. -/
def dataFrom (k : Nat) : List NewCall → List (DataType × DestLabel)
  | [] => []
  | c :: cs => (c.datum.map fun d => (d, k)).toList ++ dataFrom (k + 1) cs

/-- What can be checked by looking at the text of a simple program: statements are accepted, the
    labels they use are those created by `pre`, and each of these is either the label of an object or
    is placed by one label statement; and the program is not too long. -/
structure WellFormed (pre : List NewCall) (is : List (Inst Val Nat)) : Prop where
  accepted : ∀ i ∈ is, Accepted i
  imm : ∀ i ∈ is, ImmOk i
  meaningful : ∀ i ∈ is, Meaningful i
  created : ∀ i ∈ is, ∀ l, i.mentions l → l < pre.length
  defined : ∀ i ∈ is, ∀ l, i.mentions l → (∃ c, pre[l]? = some c ∧ c ≠ .label) ∨ .Label l ∈ is
  fresh : ∀ l, .Label l ∈ is → pre[l]? = some .label
  once : ∀ (l n m : Nat), is[n]? = some (.Label l) → is[m]? = some (.Label l) → n = m
  pointers : ∀ x, .abs_address x ∈ pre → x < pre.length
  room : endOf (12 * is.length) (constsFrom 0 pre) ≤ PAGE_SIZE
  roomData : endOf 0 (dataFrom 0 pre) ≤ PAGE_SIZE

/-- The macro accepts the statement. -/
def acceptedB (i : Inst Val Nat) : Bool :=
  match compile i with
  | .ok _ => true
  | .error _ => false

def immOkB (i : Inst Val Nat) : Bool :=
  match imm i with
  | some (n, v) => decide (fits n v)
  | none => true

/-- The label placed by a label statement. -/
def placedLabel : Inst Val Nat → Option Nat
  | .Label l => some l
  | _ => none

/-- A data statement. -/
def isData : Inst Val Nat → Bool
  | .I64 _ => true
  | .F64 _ => true
  | _ => false

def meaningfulB (i : Inst Val Nat) : Bool :=
  (meaning (fun _ => 0) i).isSome || (placedLabel i).isSome || isData i

/-- Encoded as written. -/
def asWrittenB : Inst Val Nat → Bool
  | .Cvttsd2siq _ _ => false
  | .Roundpd _ b _ => b.labels.isEmpty
  | _ => true

/-- The labels placed by the label statements. -/
def placedLabels (is : List (Inst Val Nat)) : List Nat := is.filterMap placedLabel

def definedB (pre : List NewCall) (placed : List Nat) (l : Nat) : Bool :=
  match pre[l]? with
  | none => false
  | some .label => placed.contains l
  | some _ => true

def pointerB (n : Nat) : NewCall → Bool
  | .abs_address x => decide (x < n)
  | _ => true

/-- A program that does the checks of `WellFormed`. -/
def wellFormedB (pre : List NewCall) (is : List (Inst Val Nat)) : Bool :=
  let placed := placedLabels is
  is.all (fun i => acceptedB i && immOkB i && meaningfulB i && i.labels.all (definedB pre placed))
  && placed.all (fun l => pre[l]? == some .label)
  && decide placed.Nodup
  && pre.all (pointerB pre.length)
  && decide (endOf (12 * is.length) (constsFrom 0 pre) ≤ PAGE_SIZE)
  && decide (endOf 0 (dataFrom 0 pre) ≤ PAGE_SIZE)

end Spec
