import Verif.Spec.Leads
import Verif.Spec.Text
/-
  The functions of the integration tests, monoasm/tests/*.rs: the text between the braces of
  `monoasm!`, and the labels created before. (`extern "C"` functions get their integer arguments in
  rdi, rsi, rdx, and return integers in rax and rdx; floating point numbers are in xmm0, xmm1.)
-/

namespace Spec
open Monoasm X86

/-- Addresses of the data page. -/
def DataPage (base : Nat) (x : BitVec 64) : Prop :=
  ∃ a, base + 2 * PAGE_SIZE ≤ a ∧ a < base + 3 * PAGE_SIZE ∧ x = BitVec.ofNat 64 a

/-- No addresses. -/
def Nothing (_ : Nat) (_ : BitVec 64) : Prop := False

/-- `text` is assembled (after creation of the labels `pre`) and linked without a panic, wherever
    memory is allocated (`base`); and a call of the address that is then given for the label `entry`,
    in any state `d` that satisfies `before`, always returns to the caller, with `after d d'` for the
    state `d'` then, having written only to addresses in `W`. -/
def Computes (pre : List NewCall) (vars : String → Val) (names : String → Nat) (text : String) (entry : Nat)
    (W : Nat → BitVec 64 → Prop) (before : Data → Prop) (after : Data → Data → Prop) : Prop :=
  ∃ is, assemble vars names text = some is ∧
  ∀ (base : Nat) (mem : Nat → Monoasm.Byte), Alloc base →
    (∃ s, runOps (simple pre is) (JitMemory.new base mem) = .ok () s) ∧
    ∃ a, JitMemory.get_label_u64 entry (reach base mem (simple pre is)) = .ok a (reach base mem (simple pre is)) ∧
    ∀ d, Loaded base mem (simple pre is) d → (∀ x, Within (d.gpr rsp) 8 x → ¬ W base x) → before d →
      Leads Described (fun s => Returned (W base) d s ∧ after d s.data) ⟨BitVec.ofNat 64 a, d⟩

/-- `text` is assembled and linked in the same way, but a call in any state that satisfies `before`
    always ends with a divide error: a `div` instruction for which there is no result. -/
def DivideError (pre : List NewCall) (vars : String → Val) (names : String → Nat) (text : String) (entry : Nat)
    (before : Data → Prop) : Prop :=
  ∃ is, assemble vars names text = some is ∧
  ∀ (base : Nat) (mem : Nat → Monoasm.Byte), Alloc base →
    (∃ s, runOps (simple pre is) (JitMemory.new base mem) = .ok () s) ∧
    ∃ a, JitMemory.get_label_u64 entry (reach base mem (simple pre is)) = .ok a (reach base mem (simple pre is)) ∧
    ∀ d, Loaded base mem (simple pre is) d → before d →
      Leads Described (fun s => ∃ sz a rest, decode (fetch s.data.mem s.rip) = some (.un .div sz (.gpr a), rest)
        ∧ 2 ^ sz.bits * ((s.data.gpr a).setWidth sz.bits).toNat ≤ (s.data.wide sz.bits).toNat) ⟨BitVec.ofNat 64 a, d⟩

namespace tests

/-- No variables, one label. -/
def noVars : String → Val := fun _ => 0
def oneLabel : String → Nat := fun _ => 0

/-- div.rs:16-21 -/
def udiv := "
    label:
      movq rcx, rdx;
      movq rax, rdi;
      movq rdx, rsi;
      div  rcx;
      ret;
"

/-- div.rs:48-53 -/
def idiv := "
    label:
      movq rcx, rdx;
      movq rax, rdi;
      movq rdx, rsi;
      idiv rcx;
      ret;
"

/-- divl.rs:19-25 -/
def divl := "
        begin:
            movq rax, (0xffff_ffff_ffff_ffffu64);
            movq rdx, rax;
            movl rax, rdi;
            cdq;
            divl rsi;
            ret;
"

/-- idivl.rs:13-19 -/
def idivl := "
        begin:
            xorl rdx, rdx;
            xorl rax, rax;
            movq rax, rdi;
            cdq;
            idivl rsi; // eax = -7, edx = 0
            ret;
"

/-- idivl.rs:34-41 -/
def idivl_rem := "
        begin:
            xorl rdx, rdx;
            xorl rax, rax;
            movq rax, rdi;
            cdq;
            idivl rsi; // eax = -5, edx = -3
            movl rax, rdx;
            ret;
"

/-- cdq.rs:13-17 -/
def cdq := "
        begin:
            movq rax, rdi;
            cdq;
            movl rax, rdx;
            ret;
"

/-- shift_dword.rs:13-17 -/
def shll := "
        begin:
            movq rax, rdi;
            movb cl, (0x1F); // 31, oops, its all gone since it is shll
            shll rax, cl;
            ret;
"
/-- shift_dword.rs:33-37 -/
def shrl := "
        begin:
            movq rax, rdi;
            movb cl, (0x01);
            shrl rax, cl;
            ret;
"
/-- shift_dword.rs:53-57 -/
def sall := "
        begin:
            movq rax, rdi;
            movb cl, (0x1F);
            sall rax, cl;
            ret;
"
/-- shift_dword.rs:73-77 -/
def sarl := "
        begin:
            movq rax, rdi;
            movb cl, (0x1F);
            sarl rax, cl; // dword operation, so it should carry the sign bit
            ret;
"
/-- shift_dword.rs:93-97 -/
def roll := "
        begin:
            movq rax, rdi;
            movb cl, (0x04);
            roll rax, cl;
            ret;
"
/-- shift_dword.rs:113-117 -/
def rorl := "
        begin:
            movq rax, rdi;
            movb cl, (0x04);
            rorl rax, cl;
            ret;
"

/-- counts.rs:14-19 -/
def popcntq := "
    label:
      lea  rsi, [rip + data];
      movq rcx, 8;
      movq [rsi + rcx * 2 + 4], rdi;
      popcntq rax, [rsi + rcx * 2 + 4];
      ret;
"
/-- counts.rs:35-40 -/
def lzcntq := "
    label:
      lea  rsi, [rip + data];
      movq rcx, 8;
      movq [rsi + rcx * 2 + 4], rdi;
      lzcntq rax, [rsi + rcx * 2 + 4];
      ret;
"
/-- counts.rs:56-61 -/
def tzcntq := "
    label:
      lea  rsi, [rip + data];
      movq rcx, 8;
      movq [rsi + rcx * 2 + 4], rdi;
      tzcntq rax, [rsi + rcx * 2 + 4];
      ret;
"
/-- counts.rs:9-10: `label`, `data` -/
def counts : List NewCall := [.label, .data 64]
def countsNames : String → Nat := fun l => if l = "data" then 1 else 0

/-- counts.rs:76-79 -/
def lzcntl := "
        begin:
            movq rax, rdi;
            lzcntl rax, rax;
            ret;
"
/-- counts.rs:95-98 -/
def tzcntl := "
        begin:
            movq rax, rdi;
            tzcntl rax, rax;
            ret;
"
/-- counts.rs:114-117 -/
def popcntl := "
        begin:
            movq rax, rdi;
            popcntl rax, rax;
            ret;
"

/-- andpd.rs:14-19 -/
def andpd := "
        begin:
            movq rax, (mask);
            movq xmm1, rax;

            andpd xmm0, xmm1;
            ret;
"
/-- andpd.rs:12 -/
def andpdVars : String → Val := fun _ => 0x7fffffffffffffff

/-- xorpd.rs:15-21 -/
def xorpd := "
        begin:
            movq rax, (mask);
            movq xmm1, rax;

            xorpd xmm0, xmm1;
            ret;
            movq rax, (foo);
"
/-- xorpd.rs:13; `foo` is the address of a function -/
def xorpdVars (foo : Val) : String → Val := fun x => if x = "mask" then 0x8000000000000000 else foo

/-- minmaxsd.rs:11-22 -/
def minmaxsd := "
    label0:
      lea  rsi, [rip + data];
      movq rcx, 8;
      movq [rsi + rcx * 2 + 4], xmm1;
      minsd xmm0, [rsi + rcx * 2 + 4];
      ret;
    label1:
      lea  rsi, [rip + data];
      movq rcx, 8;
      movq [rsi + rcx * 2 + 4], xmm1;
      maxsd xmm0, [rsi + rcx * 2 + 4];
      ret;
"
/-- minmaxsd.rs:7-9: `label0`, `label1`, `data` -/
def minmaxCounts : List NewCall := [.label, .label, .data 64]
def minmaxNames : String → Nat := fun l => if l = "data" then 2 else if l = "label1" then 1 else 0

/-- roundpd.rs:13-15 -/
def roundpd := "
        begin:
            roundpd xmm0, xmm0, (0x02); // 0x02 -> ceil
            ret;
"

/-- cvttsd2si.rs:14-16 -/
def cvttsd2si := "
        begin:
            cvttsd2siq rax, xmm0;
            ret;
"

/-- Lower half of an xmm register: a double as argument or result. -/
def double (d : Data) (r : BitVec 4) : BitVec 64 := (d.xmm r).setWidth 64

end tests
end Spec
