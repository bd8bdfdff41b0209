/-
  Model of `monoasm/src/lib.rs` (types shared by the runtime).

  Integers: `u8/i8` are `BitVec 8`, `u16/i16` are `BitVec 16`, `u32/i32` are `BitVec 32`,
  `u64/i64` are `BitVec 64` (signedness is a matter of interpretation: `BitVec.toInt` for the
  signed types). `usize` positions, addresses and indices are `Nat`.
-/

namespace Monoasm

/-- `u8`. -/
abbrev Byte := BitVec 8

/-- The Rust panics the modelled code can raise. Not a definition of the source: one constructor
    for each `panic!`, `assert!`, `expect`, `unwrap`, `unimplemented!` and index check that the
    modelled functions contain. -/
inductive Panic where
  /-- `panic!("Page size overflow")`, jit_memory.rs:57,66,214,223 -/
  | pageSizeOverflow
  /-- slice/array index out of bounds (`self.0[dest.0]` lib.rs:341,347; `self.pages[index.0]`
      jit_memory.rs:199,205) -/
  | indexOutOfBounds
  /-- `expect("The DestLabel has no position binding.")`, jit_memory.rs:396,533,541,549 -/
  | noPositionBinding
  /-- `assert!` failures: jit_memory.rs:266,582,590,596,604,698,862,863 -/
  | assertFailed
  /-- `unimplemented!` in `Rm::rip_ind_from`, lib.rs:235,245 -/
  | unimplemented
  /-- `panic!("Relocation overflow. ..")`, jit_memory.rs:438 -/
  | relocOverflow
  /-- immediate out of range, asm.rs (every `panic!` guarded by a failed `try_from`) -/
  | immOutOfRange
  /-- `panic!("... reg should be CL.")`, asm.rs:896,924 -/
  | regShouldBeCl
  /-- `NonZero::new(..).unwrap()` on a null pointer, lib.rs:36 -/
  | nullPointer
  /-- panic in an expression of the user (only in `Model/Expand.lean`) -/
  | userCode
deriving DecidableEq, Repr

/-- `const PAGE_SIZE: usize = 1024 * 1024 * 256;` lib.rs:8 -/
def PAGE_SIZE : Nat := 1024 * 1024 * 256

/-- `pub struct Reg(u8)`, lib.rs:46 -/
structure Reg where
  num : BitVec 8
deriving DecidableEq, Repr

/-- `Reg::from(num: u64) -> Reg(num as u8)`, lib.rs:49-51 (the cast truncates). -/
def Reg.from (num : BitVec 64) : Reg := ⟨num.setWidth 8⟩

/-- `Reg::rax`, lib.rs:67-69 -/
def Reg.rax : Reg := Reg.from 0
/-- `Reg::rcx`, lib.rs:70-72 -/
def Reg.rcx : Reg := Reg.from 1
/-- `Reg::rbp`, lib.rs:74-76 -/
def Reg.rbp : Reg := Reg.from 5
/-- `Reg::rip`, lib.rs:78-80 -/
def Reg.rip : Reg := Reg.from 16

/-- `Reg::is_rip`, lib.rs:53-55 -/
def Reg.is_rip (r : Reg) : Bool := r = Reg.rip
/-- `Reg::is_cl`, lib.rs:57-59 -/
def Reg.is_cl (r : Reg) : Bool := r = Reg.rcx
/-- `Reg::is_rax`, lib.rs:61-63 -/
def Reg.is_rax (r : Reg) : Bool := r = Reg.rax

/-- `pub struct DestLabel(usize)`, lib.rs:283 -/
abbrev DestLabel := Nat

/-- `i8::try_from(x: i64)`; std library conversion: `Ok` iff the value fits. -/
def i8TryFrom (x : BitVec 64) : Option (BitVec 8) :=
  if -128 ≤ x.toInt ∧ x.toInt ≤ 127 then some (x.setWidth 8) else none
/-- `i16::try_from(x: i64)`. -/
def i16TryFrom (x : BitVec 64) : Option (BitVec 16) :=
  if -32768 ≤ x.toInt ∧ x.toInt ≤ 32767 then some (x.setWidth 16) else none
/-- `i32::try_from(x: i64)`. -/
def i32TryFrom (x : BitVec 64) : Option (BitVec 32) :=
  if -2147483648 ≤ x.toInt ∧ x.toInt ≤ 2147483647 then some (x.setWidth 32) else none
/-- `i8::try_from(x: i32)`, used by `Disp::from_disp`. -/
def i8TryFrom32 (x : BitVec 32) : Option (BitVec 8) :=
  if -128 ≤ x.toInt ∧ x.toInt ≤ 127 then some (x.setWidth 8) else none

/-- `pub enum Disp`, lib.rs:91-96 -/
inductive Disp where
  | none
  | d8 (d : BitVec 8)
  | d32 (d : BitVec 32)
  | label (l : DestLabel)
deriving DecidableEq, Repr

/-- `Disp::from_disp(disp: i32)`, lib.rs:99-110 -/
def Disp.from_disp (disp : BitVec 32) : Disp :=
  if disp = 0 then .none
  else match i8TryFrom32 disp with
    | some d => .d8 d
    | Option.none => .d32 disp

/-- `Disp::from_label`, lib.rs:112-114 -/
def Disp.from_label (label : DestLabel) : Disp := .label label

/-- `pub enum Scale`, lib.rs:119-122 -/
inductive Scale where
  | none
  | s1 (scale : BitVec 8) (index : Reg)
deriving DecidableEq, Repr

/-- `Scale::index`, lib.rs:125-130 -/
def Scale.index : Scale → Reg
  | .none => ⟨0⟩
  | .s1 _ r => r

/-- `pub enum Imm`, lib.rs:133-139 -/
inductive Imm where
  | none
  | b (v : BitVec 8)
  | w (v : BitVec 16)
  | l (v : BitVec 32)
  | q (v : BitVec 64)
deriving DecidableEq, Repr

/-- `Imm::offset`, lib.rs:142-150 -/
def Imm.offset : Imm → BitVec 8
  | .none => 0
  | .b _ => 1
  | .w _ => 2
  | .l _ => 4
  | .q _ => 8

/-- `pub enum Mode`, lib.rs:164-167 -/
inductive Mode where
  | reg
  | ind (scale : Scale) (disp : Disp)
deriving DecidableEq, Repr

/-- `Mode::encode`, lib.rs:170-178 -/
def Mode.encode : Mode → BitVec 8
  | .reg => 3
  | .ind _ .none => 0
  | .ind _ (.d8 _) => 1
  | .ind _ (.d32 _) => 2
  | .ind _ (.label _) => 2

/-- `Mode::scale`, lib.rs:180-185 -/
def Mode.scale : Mode → Scale
  | .reg => .none
  | .ind scale _ => scale

/-- `Mode::disp`, lib.rs:187-192 -/
def Mode.disp : Mode → Disp
  | .reg => .none
  | .ind _ disp => disp

/-- `Mode::is_indirect_no_disp`, lib.rs:194-196 -/
def Mode.is_indirect_no_disp : Mode → Bool
  | .ind _ .none => true
  | _ => false

/-- `pub struct Rm`, lib.rs:201-204 -/
structure Rm where
  base : Reg
  mode : Mode
deriving DecidableEq, Repr

/-- `Rm::reg`, lib.rs:213-218 (also `From<Reg> for Rm`, lib.rs:206-210) -/
def Rm.reg (base : Reg) : Rm := ⟨base, .reg⟩

/-- `Rm::is_reg`, lib.rs:220-222 -/
def Rm.is_reg (rm : Rm) : Bool := rm.mode = .reg

/-- `Rm::is_rax`, lib.rs:224-226 -/
def Rm.is_rax (rm : Rm) : Bool := rm.mode = .reg && rm.base.is_rax

/-- `Rm::ind`, lib.rs:228-231 -/
def Rm.ind (base : Reg) (disp : Disp) (scale : Scale) : Rm := ⟨base, .ind scale disp⟩

/-- `Rm::rip_ind_from`, lib.rs:233-251; `unimplemented!` is the error value. -/
def Rm.rip_ind_from (rm : Rm) : Except Panic Rm :=
  match rm.mode with
  | .reg => .error .unimplemented
  | .ind .none (.d8 d) => .ok ⟨Reg.rbp, .ind .none (.d32 (d.signExtend 32))⟩
  | .ind .none (.d32 d) => .ok ⟨Reg.rbp, .ind .none (.d32 d)⟩
  | .ind .none .none => .ok ⟨Reg.rbp, .ind .none (.d32 0)⟩
  | .ind .none (.label l) => .ok ⟨Reg.rbp, .ind .none (.label l)⟩
  | .ind (.s1 _ _) _ => .error .unimplemented

/-- `pub struct Page(pub usize)`, jit_memory.rs:27 -/
abbrev Page := Nat

/-- `enum TargetType`, lib.rs:316-319 -/
inductive TargetType where
  | rel (page : Page) (offset : BitVec 8) (pos : Nat)
  | abs (page : Page) (pos : Nat)
deriving DecidableEq, Repr

/-- `struct LabelInfo`, lib.rs:298-304 -/
structure LabelInfo where
  loc : Option (Page × Nat)
  target : List TargetType
deriving DecidableEq, Repr

/-- `LabelInfo::new`, lib.rs:307-312 -/
def LabelInfo.new : LabelInfo := ⟨none, []⟩

/-- `enum DataType`, jit_memory.rs:174-180 -/
inductive DataType where
  | u64 (v : BitVec 64)
  | u32 (v : BitVec 32)
  | bytes (size : Nat)
  | absAddress (l : DestLabel)
  | align8
deriving DecidableEq, Repr

end Monoasm
