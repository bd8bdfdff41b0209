import Verif.Model.Compile
/-
  The public API of `monoasm` as a type of calls, so that properties can quantify over histories.

  Read-only queries (`get_current`, `get_label_address`, `as_slice`, ...) have no effect on the
  state; they are functions of the state (`Model/Memory.lean`) and are not listed as calls.

  Not representable as a call, and therefore not in the histories of most properties:
  * replacing whole `MemPage` values through `DerefMut` (`std::mem::swap(&mut *a, &mut *b)`), see C79,
  * writing the public field `MemPage::code_block`, see C78,
  * writing the generated memory through other raw pointers, see C69.
-/

namespace Monoasm
open JitMemory

/-- Methods of `MemPage`, jit_memory.rs:88-138, reached as `jit.f(..)` through `DerefMut`
    (jit_memory.rs:189-193) or as `jit[Page(p)].f(..)` (jit_memory.rs:203-207), and the indexing
    `jit[Pos::from(i)] = v` (jit_memory.rs:63-70, 220-227). -/
inductive PageCall where
  | align_page | align16 | align8 | align4
  | emitb (v : BitVec 8) | emitw (v : BitVec 16) | emitl (v : BitVec 32) | emitq (v : BitVec 64)
  | poke (pos : Nat) (v : BitVec 8)
deriving DecidableEq, Repr

/-- A `MemPage` method run on page `p`. -/
def PageCall.run (p : Page) : PageCall → M Unit
  | .align_page => MemPage.align_page p
  | .align16 => MemPage.align16 p
  | .align8 => MemPage.align8 p
  | .align4 => MemPage.align4 p
  | .emitb v => MemPage.emitb p v
  | .emitw v => MemPage.emitw p v
  | .emitl v => MemPage.emitl p v
  | .emitq v => MemPage.emitq p v
  | .poke pos v => MemPage.write p pos v

/-- Functions that create a label, jit_memory.rs:313-375. -/
inductive NewCall where
  | label
  | const_f64 (bits : BitVec 64) | const_i64 (v : BitVec 64) | const_i32 (v : BitVec 32)
  | constant (size : Nat)
  | data_i64 (v : BitVec 64) | data_i32 (v : BitVec 32) | data (size : Nat)
  | abs_address (l : DestLabel)
  | const_align8
deriving DecidableEq, Repr

def NewCall.run : NewCall → M DestLabel
  | .label => JitMemory.label
  | .const_f64 v => JitMemory.const_f64 v
  | .const_i64 v => JitMemory.const_i64 v
  | .const_i32 v => JitMemory.const_i32 v
  | .constant n => JitMemory.constant n
  | .data_i64 v => JitMemory.data_i64 v
  | .data_i32 v => JitMemory.data_i32 v
  | .data n => JitMemory.data n
  | .abs_address l => JitMemory.abs_address l
  | .const_align8 => JitMemory.const_align8

/-- The public encoders, jit_memory.rs:577-686. -/
inductive EncCall where
  | enc_o (op : Byte) (reg : Reg)
  | enc_oi (op : Byte) (reg : Reg)
  | enc_oi_byte (op : Byte) (reg : Reg)
  | enc_rexw_o (op : Byte) (reg : Reg)
  | enc_mi (op : Byte) (rm : Rm) (imm : Imm)
  | enc_rexw_mi (op : Byte) (rm : Rm) (imm : Imm)
  | enc_mi_byte (op : Byte) (rm : Rm) (imm : Imm)
  | enc_mr (op : List Byte) (reg : Reg) (rm : Rm)
  | enc_mr_byte (op : List Byte) (reg : Reg) (rm : Rm)
  | enc_rexw_mr (op : List Byte) (reg : Reg) (rm : Rm)
  | enc_m_byte (op : List Byte) (rm : Rm)
  | enc_d (op : List Byte) (dest : DestLabel)
  | enc_digit (op : List Byte) (rm : Rm) (digit : BitVec 8)
  | enc_digit_imm (op : List Byte) (rm : Rm) (digit : BitVec 8) (imm : Imm)
  | enc_digit_imm_byte (op : List Byte) (op_al : Byte) (rm : Rm) (digit : BitVec 8) (imm : Imm)
  | enc_rexw_digit (op : List Byte) (rm : Rm) (digit : BitVec 8) (imm : Imm)
deriving DecidableEq, Repr

def EncCall.run : EncCall → M Unit
  | .enc_o op reg => JitMemory.enc_o op reg
  | .enc_oi op reg => JitMemory.enc_oi op reg
  | .enc_oi_byte op reg => JitMemory.enc_oi_byte op reg
  | .enc_rexw_o op reg => JitMemory.enc_rexw_o op reg
  | .enc_mi op rm imm => JitMemory.enc_mi op rm imm
  | .enc_rexw_mi op rm imm => JitMemory.enc_rexw_mi op rm imm
  | .enc_mi_byte op rm imm => JitMemory.enc_mi_byte op rm imm
  | .enc_mr op reg rm => JitMemory.enc_mr op reg rm
  | .enc_mr_byte op reg rm => JitMemory.enc_mr_byte op reg rm
  | .enc_rexw_mr op reg rm => JitMemory.enc_rexw_mr op reg rm
  | .enc_m_byte op rm => JitMemory.enc_m_byte op rm
  | .enc_d op dest => JitMemory.enc_d op dest
  | .enc_digit op rm digit => JitMemory.enc_digit op rm digit
  | .enc_digit_imm op rm digit imm => JitMemory.enc_digit_imm op rm digit imm
  | .enc_digit_imm_byte op op_al rm digit imm => JitMemory.enc_digit_imm_byte op op_al rm digit imm
  | .enc_rexw_digit op rm digit imm => JitMemory.enc_rexw_digit op rm digit imm

/-- One call of the public API (or one statement of a `monoasm!` invocation). -/
inductive Op where
  | select_page (p : Nat)
  /-- `jit.f(..)`: method of the current page -/
  | cur (c : PageCall)
  /-- `jit[Page(p)].f(..)` -/
  | page (p : Page) (c : PageCall)
  | emit (bs : List Byte)
  | new (c : NewCall)
  | bind_label (l : DestLabel)
  | bind_label_with_page (p : Page) (l : DestLabel)
  | save_reloc (l : DestLabel) (off : BitVec 8)
  | enc (c : EncCall)
  /-- a statement of the `monoasm!` macro, with its Rust expressions evaluated -/
  | inst (i : Inst V DestLabel)
  | finalize
  | apply_jmp_patch (patch_point jmp_dest : DestLabel)
  | apply_jmp_patch_address (patch_point : Nat) (jmp_dest : DestLabel)

/-- Effect of a call. A statement the macro rejects at expansion has no run-time effect (the
    program containing it does not compile). -/
def Op.run : Op → M Unit
  | .select_page p => JitMemory.select_page p
  | .cur c => do c.run (← JitMemory.cur)
  | .page p c => do checkPage p; c.run p
  | .emit bs => JitMemory.emit bs
  | .new c => do let _ ← c.run
  | .bind_label l => JitMemory.bind_label l
  | .bind_label_with_page p l => JitMemory.bind_label_with_page p l
  | .save_reloc l off => JitMemory.save_reloc l off
  | .enc c => c.run
  | .inst i => match compile i with
    | .ok m => m
    | .error _ => pure ()
  | .finalize => JitMemory.finalize
  | .apply_jmp_patch p d => JitMemory.apply_jmp_patch p d
  | .apply_jmp_patch_address a d => JitMemory.apply_jmp_patch_address a d

/-- A history: the calls in order, stopping at the first panic. -/
def runOps : List Op → M Unit
  | [] => pure ()
  | op :: ops => do op.run; runOps ops

/-- State reached, also when the run ended in a panic. -/
def Res.state {α} : Res α → JitMemory
  | .ok _ s => s
  | .panic _ s => s

/-- A history in which every panic is caught (`catch_unwind`) and the history goes on with the
    state the panic left behind. -/
def runCaught (ops : List Op) (s : JitMemory) : JitMemory :=
  ops.foldl (fun s op => (op.run s).state) s

/-- The slice written to the temporary file by `dump_code`, jit_memory.rs:889-894
    (`self.code_block.last().unwrap()`, then `&asm[start_pos.0..code_end.0]`, which panics unless
    `start ≤ end ≤ asm.len()`). What is kept of the output of `objdump` is in `Model/Dump.lean`. -/
def JitMemory.dump_slice (s : JitMemory) : Option (List Byte) :=
  match (s.pages s.page).code_block.getLast? with
  | none => none
  | some (start, code_end, _) =>
    let asm := s.as_slice
    if start ≤ code_end ∧ code_end ≤ asm.length then some ((asm.take code_end).drop start) else none

end Monoasm
