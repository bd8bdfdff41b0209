import Verif.Spec.Leads
import Verif.Spec.Text
/-
  The example program of the manual, README.md:209-359 (`fn jit()` and the functions of `impl VM`
  called by it, in the order of the calls). `bind_label(fibo)` is written as the label statement
  `fibo:`, which the macro expands to that call (asm.rs:7).
-/

namespace Spec
open Monoasm

namespace fibo

/-- README.md:212-215: `fibo`, `label0`, `label1`, `end` -/
def labels : List NewCall := [.label, .label, .label, .label]

/-- `R(reg + 12)` -/
def R (reg : Nat) : Register Val := .expr (BitVec.ofNat 64 (reg + 12))

def rax : Register Val := .reg 0
def rsp : Register Val := .reg 4
def rbp : Register Val := .reg 5
def rdi : Register Val := .reg 7

/-- `[rbp-(offset)]` -/
def local_ (offset : Val) : MovOperand Val Nat := .ind ⟨rbp, .none, .expr true offset⟩

/-- README.md:295-301 -/
def prologue (locals : Nat) : List (Inst Val Nat) :=
  [.Pushq (.reg rbp), .Movq (.reg rbp) (.reg rsp), .Sub .QWORD (.reg rsp) (.imm (BitVec.ofNat 64 ((locals + locals % 2) * 8)))]

def epilogue : List (Inst Val Nat) := [.Movq (.reg rsp) (.reg rbp), .Popq (.reg rbp), .Ret]
def set_int (reg : Nat) (val : Val) : List (Inst Val Nat) := [.Movq (.reg (R reg)) (.imm val none)]
def get_local (reg : Nat) (offset : Val) : List (Inst Val Nat) := [.Movq (.reg (R reg)) (local_ offset)]
def sub (dest src : Nat) : List (Inst Val Nat) := [.Sub .QWORD (.reg (R dest)) (.reg (R src))]
def add (dest src : Nat) : List (Inst Val Nat) := [.Add .QWORD (.reg (R dest)) (.reg (R src))]
def cmp (dest src : Nat) : List (Inst Val Nat) := [.Cmp .QWORD (.reg (R dest)) (.reg (R src))]
def jne (dest : DestLabel) : List (Inst Val Nat) := [.Jcc .Ne dest]
def call_arg1 (dest : DestLabel) (arg ret : Nat) : List (Inst Val Nat) :=
  [.Movq (.reg rdi) (.reg (R arg)), .Call (.rel dest), .Movq (.reg (R ret)) (.reg rax)]

/-- README.md:209-280 -/
def program : List (Inst Val Nat) :=
  [.Label 0] ++ prologue 1
  ++ [.Pushq (.reg (.reg 12)), .Pushq (.reg (.reg 13)), .Pushq (.reg (.reg 14)), .Pushq (.reg (.reg 15)),
      .Movq (local_ 8) (.reg rdi)]
  ++ get_local 0 8 ++ set_int 1 0 ++ cmp 0 1 ++ jne 1
  ++ [.Movq (.reg rax) (.imm 0 none), .Jmp (.rel 3), .Label 1]
  ++ set_int 1 1 ++ cmp 0 1 ++ jne 2
  ++ [.Movq (.reg rax) (.imm 1 none), .Jmp (.rel 3), .Label 2]
  ++ get_local 0 8 ++ set_int 1 1 ++ sub 0 1 ++ call_arg1 0 0 0
  ++ get_local 1 8 ++ set_int 2 2 ++ sub 1 2 ++ call_arg1 0 1 1
  ++ add 0 1
  ++ [.Movq (.reg rax) (.reg (.expr 12))]
  ++ [.Label 3, .Popq (.reg (.reg 15)), .Popq (.reg (.reg 14)), .Popq (.reg (.reg 13)), .Popq (.reg (.reg 12))]
  ++ epilogue

/-! The same program as texts of macro calls. -/

/-- A scope with some variables. -/
def variables (xs : List (String × Nat)) (x : String) : Val := BitVec.ofNat 64 ((xs.lookup x).getD 0)

/-- The labels of `jit()`. -/
def names : String → Nat
  | "fibo" => 0
  | "label0" => 1
  | "label1" => 2
  | "end" => 3
  | _ => 4

/-- A macro call: the variables and labels in scope, and the text. -/
structure Call where
  vars : List (String × Nat)
  labels : String → Nat
  text : String

/-- A call in `jit()` (README.md:209-280). -/
def inJit (text : String) : Call := ⟨[("x_ofs", 8)], names, text⟩

/-- `VM::prologue`, README.md:295-301 -/
def prologueText (locals : Nat) : Call := ⟨[("locals", locals)], names, "
            pushq rbp;
            movq rbp, rsp;
            subq rsp, ((locals + locals % 2)*8);
"⟩

/-- `VM::epilogue`, README.md:303-309 -/
def epilogueText : Call := ⟨[], names, "
            movq rsp, rbp;
            popq rbp;
            ret;
"⟩

/-- `VM::set_int`, README.md:311-317 -/
def setIntText (reg val : Nat) : Call := ⟨[("reg", reg), ("val", val)], names, "
            movq R(reg + 12), (val as u64);
"⟩

/-- `VM::get_local`, README.md:325-329 -/
def getLocalText (reg offset : Nat) : Call := ⟨[("reg", reg), ("offset", offset)], names, "
            movq R(reg + 12), [rbp-(offset)];
"⟩

/-- `VM::sub`, README.md:331-335 -/
def subText (dest_reg src_reg : Nat) : Call := ⟨[("dest_reg", dest_reg), ("src_reg", src_reg)], names, "
            subq R(dest_reg + 12), R(src_reg + 12);
"⟩

/-- `VM::add`, README.md:337-341 -/
def addText (dest_reg src_reg : Nat) : Call := ⟨[("dest_reg", dest_reg), ("src_reg", src_reg)], names, "
            addq R(dest_reg + 12), R(src_reg + 12);
"⟩

/-- `VM::cmp`, README.md:343-347 -/
def cmpText (dest_reg src_reg : Nat) : Call := ⟨[("dest_reg", dest_reg), ("src_reg", src_reg)], names, "
            cmpq R(dest_reg + 12), R(src_reg + 12);
"⟩

/-- `VM::jne`, README.md:349-351 -/
def jneText (dest : DestLabel) : Call := ⟨[], fun _ => dest, "jne dest;"⟩

/-- `VM::call_arg1`, README.md:353-359 -/
def callArg1Text (dest : DestLabel) (arg ret : Nat) : Call := ⟨[("arg0_reg", arg), ("ret_reg", ret)], fun _ => dest, "
            movq rdi, R(arg0_reg + 12);
            call dest;
            movq R(ret_reg + 12), rax;
"⟩

/-- `jit()`, README.md:209-280. -/
def calls : List Call :=
  [inJit "fibo:", prologueText 1,
   inJit "
        pushq r12; pushq r13; pushq r14; pushq r15;
        // Load argument to x.
        // You can use Rust expression in displacement, register designation.. etc.
        // Rust expression must be wrapped with ().
        movq [rbp-(x_ofs)], rdi;
",
   getLocalText 0 8, setIntText 1 0, cmpText 0 1, jneText 1,
   inJit "
        movq rax, 0;
        jmp end;
    label0:
",
   setIntText 1 1, cmpText 0 1, jneText 2,
   inJit "
        movq rax, 1;
        jmp end;
    label1:
",
   getLocalText 0 8, setIntText 1 1, subText 0 1, callArg1Text 0 0 0,
   getLocalText 1 8, setIntText 2 2, subText 1 2, callArg1Text 0 1 1,
   addText 0 1,
   inJit "
        movq rax, R(12);
",
   inJit "
    end:
        popq r15; popq r14; popq r13; popq r12;
",
   epilogueText]

/-- The statements assembled by a list of calls. -/
def assembleAll : List Call → Option (List (Inst Val Nat))
  | [] => some []
  | c :: cs => match assemble (variables c.vars) c.labels c.text, assembleAll cs with
    | some is, some js => some (is ++ js)
    | _, _ => none

end fibo

/-! The short examples of the manual. -/

/-- README.md:27 -/
def valueText := "
        movq rax, (a * 10);
"

/-- README.md:37-41 -/
def labelText := "
        cmpq rax, 10;
        jne label;
    label:
        movq rax, 10;
        ret;
"


/-- The Fibonacci numbers. -/
def fib : Nat → Nat
  | 0 => 0
  | 1 => 1
  | n + 2 => fib n + fib (n + 1)

end Spec
