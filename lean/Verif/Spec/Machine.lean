import Verif.Model.Machine
import Verif.Proofs.Safe
/-
  Histories with machine arithmetic, and what it means that they agree with the histories of the model.
-/

namespace Monoasm

/-- The elementary actions of statements and encoders (`Proofs/Trace.lean`) with machine arithmetic. -/
def Item.onMachine : Item → Machine.M Unit
  | .i8 v => do Machine.MemPage.emitb (← Machine.JitMemory.cur) v
  | .i16 v => do Machine.MemPage.emitw (← Machine.JitMemory.cur) v
  | .i32 v => do Machine.MemPage.emitl (← Machine.JitMemory.cur) v
  | .i64 v => do Machine.MemPage.emitq (← Machine.JitMemory.cur) v
  | .rel l off => do
    Machine.JitMemory.save_reloc l off
    Machine.MemPage.emitl (← Machine.JitMemory.cur) 0
  | .bind l => Machine.JitMemory.bind_label l
  | .fail e => Machine.M.panic e

def itemsOnMachine : List Item → Machine.M Unit
  | [] => pure ()
  | i :: is => do i.onMachine; itemsOnMachine is

def PageCall.onMachine (p : Page) : PageCall → Machine.M Unit
  | .align_page => Machine.MemPage.align p 4095
  | .align16 => Machine.MemPage.align p 15
  | .align8 => Machine.MemPage.align p 7
  | .align4 => Machine.MemPage.align p 3
  | .emitb v => Machine.MemPage.emitb p v
  | .emitw v => Machine.MemPage.emitw p v
  | .emitl v => Machine.MemPage.emitl p v
  | .emitq v => Machine.MemPage.emitq p v
  | .poke pos v => Machine.MemPage.write p (BitVec.ofNat 64 pos) v

/-- A call with machine arithmetic. Calls that only emit (statements, encoders, `emit`) perform their
    elementary actions (`Op.run_items`: so they do in the model). -/
def Op.onMachine (op : Op) : Machine.M Unit :=
  match op with
  | .select_page p => Machine.JitMemory.select_page p
  | .cur c => do c.onMachine (← Machine.JitMemory.cur)
  | .page p c => do Machine.checkPage p; c.onMachine p
  | .new c => do
    let l ← Machine.JitMemory.label
    match c.const, c.datum with
    | some d, _ => Machine.JitMemory.pushConstant d l
    | none, some d => Machine.JitMemory.pushData d l
    | none, none => pure ()
  | .bind_label_with_page p l => Machine.JitMemory.bind_label_with_page p l
  | .save_reloc l off => Machine.JitMemory.save_reloc l off
  | .finalize => Machine.JitMemory.finalize
  | .apply_jmp_patch p d => Machine.JitMemory.apply_jmp_patch p d
  | .apply_jmp_patch_address a d => Machine.JitMemory.apply_jmp_patch_address (BitVec.ofNat 64 a) d
  | op => itemsOnMachine (op.itemsOf.getD [])

end Monoasm

namespace Spec
open Monoasm

/-- The numbers that the caller passes are 64-bit numbers, and patch points are in the lower half of
    the address space. -/
def Numbers : Op → Prop
  | .cur (.poke pos _) => pos < 2 ^ 64
  | .page _ (.poke pos _) => pos < 2 ^ 64
  | .apply_jmp_patch_address a _ => a < 2 ^ 63
  | _ => True

/-- A relocation entry, label, page of the machine as one of the model. -/
def natTarget : Machine.TargetType → TargetType
  | .rel p off pos => .rel p off pos.toNat
  | .abs p pos => .abs p pos.toNat
def natLabel (i : Machine.LabelInfo) : LabelInfo :=
  ⟨i.loc.map fun l => (l.1, l.2.toNat), i.target.map natTarget⟩
def natPage (p : Machine.MemPage) : MemPage :=
  ⟨p.contents.toNat, p.counter.toNat, p.constants, p.data, p.code_len.toNat, p.code_block_top.toNat,
    p.code_block.map fun b => (b.1.toNat, b.2.1.toNat, b.2.2.toNat)⟩

/-- The state `t` of the machine is the state `s` of the model: same page selected, same numbers in the
    three pages and in the label table, same memory (at the addresses that the machine has). -/
structure Represents (t : Machine.JitMemory) (s : JitMemory) : Prop where
  page : s.page = t.page
  pages : ∀ p, p < 3 → s.pages p = natPage (t.pages p)
  labels : s.labels = t.labels.map natLabel
  mem : ∀ a : BitVec 64, t.mem a = s.mem a.toNat

/-- The same outcome: both return, or both panic with the same message; there is no overflow and no
    undefined pointer. -/
inductive SameOutcome {α β : Type} (R : α → β → Prop) : Res α → Machine.Res β → Prop where
  | ok {a b s t} : R a b → Represents t s → SameOutcome R (.ok a s) (.ok b t)
  | panic {e s t} : Represents t s → SameOutcome R (.panic e s) (.fault (.panic e) t)

end Spec

namespace Monoasm

/-- State reached, also when the call failed. -/
def Machine.Res.state {α} : Machine.Res α → Machine.JitMemory
  | .ok _ t => t
  | .fault _ t => t

/-- The state reached by a history in which every panic is caught. -/
def Machine.reach (chk : Bool) (base : Nat) (mem : Nat → Byte) (h : List Op) : Machine.JitMemory :=
  h.foldl (fun t op => (op.onMachine chk t).state)
    (Machine.JitMemory.new (BitVec.ofNat 64 base) fun a => mem a.toNat)

end Monoasm
