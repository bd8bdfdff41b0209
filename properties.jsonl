{"id": "C01", "title": "Little-endian append", "statement": "emitb/emitw/emitl/emitq/emit(slice) append exactly the 1/2/4/8/n little-endian bytes of their argument at the current position of the current page, advance get_current() by exactly that many bytes, and change no other byte of memory, no label, no other page.", "quantifier": "every JitMemory state with enough room, every value, every slice length", "why_tests_cant": "values range over 2^64 and slices are unbounded; 'no other byte changes' is a statement about the whole address space", "anchors": ["monoasm/src/jit_memory.rs: MemPage::{emitb,emitw,emitl,emitq}, JitMemory::emit, get_current"]}
{"id": "C02", "title": "Memory safety of code generation", "statement": "In every history of API calls, including calls that panic part-way, no byte outside the three 256 MiB pages obtained by JitMemory::new is ever written by emission, label, constant, data or finalize calls.", "quantifier": "every finite sequence of API calls with arbitrary arguments, including panicking ones whose panic is caught", "why_tests_cant": "an out-of-bounds write appears only in histories that fill a 256 MiB page at precisely the wrong offset; raw pointers make it silent", "anchors": ["monoasm/src/jit_memory.rs: IndexMut<Pos> for MemPage, MemPage::write32, write64, resolve_constants, resolve_data, fill_relocs"]}
{"id": "C03", "title": "Cursor stays inside the page", "statement": "After any history (panics included) the current position of every page is at most the page size; a write that does not fit panics with 'Page size overflow' instead of wrapping or spilling into the next page.", "quantifier": "every history of API calls", "why_tests_cant": "needs histories of arbitrary length that straddle the page end at every offset", "anchors": ["monoasm/src/jit_memory.rs: Index/IndexMut<Pos>, MemPage::{emit*,align*}", "monoasm/src/lib.rs: PAGE_SIZE, Add<i32> for Pos"]}
{"id": "C04", "title": "Alignment", "statement": "align4/align8/align16/align_page move the cursor to the least multiple of 4/8/16/4096 not below it, write nothing, never pass the page end, and because pages are page-size aligned the resulting absolute address has the same alignment.", "quantifier": "every cursor position, every history", "why_tests_cant": "unit tests check a few offsets; the bit-mask identity must hold for all positions", "anchors": ["monoasm/src/jit_memory.rs: MemPage::{align_page,align16,align8,align4}"]}
{"id": "C05", "title": "Page isolation", "statement": "While page p is selected, emission, alignment, instructions, labels, bind_label and const/data registration leave the bytes and the cursor of every other page unchanged. The selected page is the one that was selected last.", "quantifier": "every state, every non-finalize operation, every page pair", "why_tests_cant": "quantifies over all states and all untouched addresses", "anchors": ["monoasm/src/jit_memory.rs: Deref/DerefMut for JitMemory, select_page"]}
{"id": "C06", "title": "Label freshness", "statement": "Every label returned by label(), const_*, data_*, constant, data, abs_address or const_align8 differs from every label returned earlier in the history, and is unbound with no pending references when returned.", "quantifier": "every history of API calls, panics caught, except a finalize that panics while it fills references (C67)", "why_tests_cant": "histories are unbounded", "anchors": ["monoasm/src/lib.rs: Labels::new_label, DestLabel", "monoasm/src/jit_memory.rs: JitMemory::{label,const_f64,const_i64,const_i32,data_i64,data_i32,constant,data,abs_address,const_align8}"]}
{"id": "C07", "title": "Label addresses are stable", "statement": "After bind_label(l) get_label_address(l), get_label_addr, get_label_addr2 and get_label_u64 return the address of the position that was current (on the page that was current) at the bind, and keep returning it across any later sequence of calls that does not bind l again - page switches, emission, finalize and patching included.", "quantifier": "every history after the bind, panics caught, except a finalize that panics while it fills references (C67)", "why_tests_cant": "the later history is unbounded and includes finalize, which temporarily takes the label table away", "anchors": ["monoasm/src/jit_memory.rs: bind_label, bind_label_with_page, get_label_pos, get_label_address, get_label_addr, get_label_addr2, get_label_u64, fill_relocs"]}
{"id": "C08", "title": "Unbound labels are never given an address", "statement": "Asking for the address of a label that was never bound panics, and so does using a label this JitMemory never created; no call silently returns an address for it.", "quantifier": "every history, panics caught (for unbound labels: except a finalize that panics while it fills references, C67), and every label value", "why_tests_cant": "quantifies over all histories that fail to bind", "anchors": ["monoasm/src/jit_memory.rs: get_label_pos", "monoasm/src/lib.rs: Index<DestLabel> for Labels"]}
{"id": "C09", "title": "Relative relocations resolve to the label", "statement": "After finalize, the 32-bit field of every pending label reference whose label is bound, taken as a signed number and added to the address of the byte after the referencing instruction, is exactly the label's address - forward, backward, across the two code pages and into the data page.", "quantifier": "every history, every label, every number of references per label, every page combination", "why_tests_cant": "depends on the whole history of emissions, binds and page switches between reference, bind and finalize", "anchors": ["monoasm/src/jit_memory.rs: save_reloc, fill_relocs, enc_d, emit_disp_imm, write32", "monoasm/src/lib.rs: TargetType, LabelInfo"]}
{"id": "C10", "title": "No relocation overflow", "statement": "finalize never panics with 'Relocation overflow', in any history: every displacement between two positions of the three pages fits a signed 32-bit field.", "quantifier": "every history, every allocation address", "why_tests_cant": "the failing case would need gigabytes of generated code at the extreme ends of the pages", "anchors": ["monoasm/src/jit_memory.rs: fill_relocs", "monoasm/src/lib.rs: PAGE_SIZE"]}
{"id": "C11", "title": "Late binding", "statement": "A reference whose label is unbound at finalize is left as zero bytes and remains pending; the first later finalize at which the label is bound fills it correctly, however many finalizes, emissions and page switches happened in between.", "quantifier": "every interleaving of references, binds and finalizes, panics caught, except a finalize that panics while it fills references (C67); any calls after the reference has been filled", "why_tests_cant": "unbounded interleavings of incremental compilation steps", "anchors": ["monoasm/src/jit_memory.rs: fill_relocs, finalize"]}
{"id": "C12", "title": "finalize only touches relocation slots and fresh space", "statement": "finalize changes no byte below the cursors it starts from except those in pending relocation slots of bound labels, and otherwise writes only bytes between the old and the new cursor of a page.", "quantifier": "every reachable state", "why_tests_cant": "a frame condition over the whole memory and all reachable states", "anchors": ["monoasm/src/jit_memory.rs: finalize, resolve_constants, resolve_data, fill_relocs"]}
{"id": "C13", "title": "finalize is idempotent on code", "statement": "Calling finalize again with no calls in between changes no memory byte, no cursor and no label; it only appends one empty code block per page.", "quantifier": "every reachable state after a finalize", "why_tests_cant": "requires that all pending work was really consumed, in every state", "anchors": ["monoasm/src/jit_memory.rs: finalize, fill_relocs, resolve_constants, resolve_data"]}
{"id": "C14", "title": "Jump patching", "statement": "After apply_jmp_patch(p, d) (or apply_jmp_patch_address) on a 5-byte jmp/call rel32 located at p, that instruction transfers control exactly to the address of d, whichever pages p and d are in; the offset is never truncated.", "quantifier": "every pair of bound labels in every reachable state", "why_tests_cant": "cast `as i32` must be lossless for every pair of addresses", "anchors": ["monoasm/src/jit_memory.rs: apply_jmp_patch, apply_jmp_patch_address", "monoasm/src/lib.rs: Sub<CodePtr>"]}
{"id": "C15", "title": "Patches touch four bytes and survive finalize", "statement": "apply_jmp_patch writes exactly the four bytes after the opcode at the patch point; if that slot had already been resolved by a finalize, no later finalize undoes the patch.", "quantifier": "every reachable state, every later history without another patch of that slot", "why_tests_cant": "needs all later histories", "anchors": ["monoasm/src/jit_memory.rs: apply_jmp_patch_address, fill_relocs"]}
{"id": "C16", "title": "Constant pool", "statement": "After finalize every constant created by const_f64/const_i64/const_i32 since the previous finalize is located on the code page that was selected when it was created, its label address is 16-byte (64-bit values) or 4-byte (32-bit) aligned, and the bytes there are the little-endian bytes of the value.", "quantifier": "every sequence of constant requests interleaved with code on both pages", "why_tests_cant": "layout depends on the entire request sequence", "anchors": ["monoasm/src/jit_memory.rs: const_f64, const_i64, const_i32, resolve_constants"]}
{"id": "C17", "title": "Data section", "statement": "After finalize every object created by data_i64/data_i32/data is located on the non-executable data page whichever code page was selected at creation, is aligned (16/4/16), and holds the value.", "quantifier": "every sequence of data requests", "why_tests_cant": "layout depends on the entire request sequence", "anchors": ["monoasm/src/jit_memory.rs: data_i64, data_i32, data, resolve_data, DATA_PAGE"]}
{"id": "C18", "title": "No overlap", "statement": "The byte ranges given to distinct constants and data objects by finalize are pairwise disjoint and disjoint from all code emitted before; code emitted after finalize starts beyond them.", "quantifier": "every history", "why_tests_cant": "pairwise statement over unbounded sets of objects", "anchors": ["monoasm/src/jit_memory.rs: resolve_constants, resolve_data, finalize"]}
{"id": "C19", "title": "Absolute address constants", "statement": "After finalize the 8-byte slot of abs_address(l) is 8-byte aligned and holds the little-endian 64-bit address of l, whenever l is bound by then - also when l is itself a constant or data label placed by the same finalize, or is bound only before a later finalize.", "quantifier": "every history and label", "why_tests_cant": "depends on ordering between resolution passes", "anchors": ["monoasm/src/jit_memory.rs: abs_address, save_absolute_reloc, resolve_constants, fill_relocs, write64"]}
{"id": "C20", "title": "Zero-filled reservations", "statement": "constant(n) and data(n) yield 16-byte aligned blocks of exactly n zero bytes after finalize even though the underlying memory is uninitialised; const_align8 yields an 8-byte aligned position.", "quantifier": "every n, every prior memory content", "why_tests_cant": "memory from alloc is uninitialised, n is unbounded", "anchors": ["monoasm/src/jit_memory.rs: constant, data, const_align8, resolve_constants, resolve_data"]}
{"id": "C21", "title": "Code blocks tile the page", "statement": "In every history without panics, each finalize appends one (start, code_end, end) block to each page with start <= code_end <= end <= page size; the first block starts at 0, each block starts where the previous one ended, and the last block ends at the position where the next emission goes.", "quantifier": "every history", "why_tests_cant": "invariant over unbounded histories", "anchors": ["monoasm/src/jit_memory.rs: finalize, MemPage.code_block, code_block_top"]}
{"id": "C22", "title": "as_slice and dump_code ranges", "statement": "After finalize (also if it panicked) as_slice() is exactly the bytes of the current page from its start up to the end of code at that finalize, and dump_code's slice [start, code_end) of it is in range; before any finalize as_slice is empty. Indexing a page gives the byte at that position and panics beyond the end of the page. The text returned by dump_code is objdump's listing without its header: all lines of the listing in order and nothing else.", "quantifier": "every history", "why_tests_cant": "slice bounds must hold in every reachable state", "anchors": ["monoasm/src/jit_memory.rs: as_slice, dump_code, finalize"]}
{"id": "C23", "title": "include() recognises generated code", "statement": "include(p) is true exactly for addresses in the two executable pages.", "quantifier": "every state (both values of the selected page) and every address", "why_tests_cant": "depends on which page is selected", "anchors": ["monoasm/src/jit_memory.rs: include, select_page"]}
{"id": "C24", "title": "Operand encoding round-trip", "statement": "For every register operand and every memory operand [base + index*scale + disp] with a valid index, the ModRM/SIB/displacement/REX bytes emitted are decoded by the x86-64 rules to the same base, index, scale and displacement - including the rsp/r12 and rbp/r13 special cases.", "quantifier": "all registers, bases, indexes, scales and 2^32 displacements", "why_tests_cant": "the product space is about 2^46; the repository's gen.rb samples a handful of displacements", "anchors": ["monoasm/src/jit_memory.rs: encode, modrm, sib, rex, rexw, rex_none, rex_none_byte, emit_disp_imm", "monoasm/src/lib.rs: Rm, Mode, Scale, Disp"]}
{"id": "C25", "title": "RIP-relative operands", "statement": "[rip], [rip + disp] and [rip + label] are encoded as RIP-relative addressing with exactly that displacement (or a relocation for the label), for every instruction that takes a memory operand; after finalize the effective address of [rip + label] is the label's address, whatever immediate follows the displacement.", "quantifier": "all displacements, all labels, all instructions with memory operands and all immediates", "why_tests_cant": "interaction of immediate width with relocation offset over all instructions", "anchors": ["monoasm/src/lib.rs: Rm::rip_ind_from, Imm::offset", "monoasm/src/jit_memory.rs: encode, emit_disp_imm", "monoasm_macro/src/asm.rs: Inst::Roundpd"]}
{"id": "C26", "title": "Displacement compaction preserves the value", "statement": "The shortest of none/disp8/disp32 is chosen for a displacement and the address denoted never changes.", "quantifier": "all 2^32 displacements", "why_tests_cant": "exhaustive boundary behaviour at -129,-128,0,127,128 and everything between", "anchors": ["monoasm/src/lib.rs: Disp::from_disp, Mode::encode"]}
{"id": "C27", "title": "Byte registers", "statement": "Byte instructions applied to registers 4-7 always address spl/bpl/sil/dil and never ah/ch/dh/bh, in both the reg and the r/m position, and never need a prefix that breaks memory operands.", "quantifier": "all byte instructions, all register pairs, all memory operands", "why_tests_cant": "depends on the exact prefix condition for every combination", "anchors": ["monoasm/src/jit_memory.rs: rex_none_byte, enc_mr_byte, enc_mi_byte, enc_m_byte, enc_digit_imm_byte, enc_oi_byte"]}
{"id": "C28", "title": "Integer ALU instructions", "statement": "add/or/adc/sbb/and/sub/xor/cmp in q/l/w/b sizes, in every accepted operand form, are encoded as machine code that decodes to the same operation, size, destination and source.", "quantifier": "8 operations x 4 sizes x all operands x all immediates", "why_tests_cant": "2^60+ operand combinations", "anchors": ["monoasm_macro/src/asm.rs: binary_op, binary_opq, binary_opl, binary_opw, binary_opb"]}
{"id": "C29", "title": "Immediates are never truncated", "statement": "For every instruction taking an immediate, either the immediate the CPU will use (after sign extension) equals the 64-bit value written by the user, or code generation panics; no instruction silently encodes a different value.", "quantifier": "all 2^64 immediates, all instructions", "why_tests_cant": "boundary behaviour at every width", "anchors": ["monoasm_macro/src/asm.rs: movq, movl, movw, movb, binary_op*, Inst::Testq, Inst::Testb, shift_op, Inst::Call", "monoasm/src/lib.rs: Imm"]}
{"id": "C30", "title": "Data movement instructions", "statement": "movq/movl/movw/movb, movsx*/movzx*, lea, xchgq, pushq/popq and cmovcc are encoded as the machine instruction with the same operands, size and direction.", "quantifier": "all operands", "why_tests_cant": "operand space", "anchors": ["monoasm_macro/src/asm.rs: movq, movl, movw, movb, push_pop, Inst::{Lea,Xchg,Cmovcc,Movsxl,Movzxw,Movsxw,Movzxb,Movsxb}"]}
{"id": "C31", "title": "Shifts and rotates", "statement": "rol/ror/shl/sal/shr/sar by an immediate, by 1 or by cl are encoded as that operation with that count; any register other than cl as count panics.", "quantifier": "all operands, all immediates, all count registers", "why_tests_cant": "operand space", "anchors": ["monoasm_macro/src/asm.rs: shift_op"]}
{"id": "C32", "title": "Multiply, divide, count, test, neg, set", "statement": "imul, idiv, div (q/l), negq, testq/testb, lzcnt/tzcnt/popcnt, setcc, cqo, cdq are encoded as the machine instruction meant.", "quantifier": "all operands", "why_tests_cant": "operand space", "anchors": ["monoasm_macro/src/asm.rs: divide_op, count_op, Inst::{Imul,Negq,Testq,Testb,Setcc,Cqo,Cdq}"]}
{"id": "C33", "title": "SSE instructions", "statement": "movsd, addsd..maxsd, xorps, ucomisd, andpd, xorpd, roundpd, cvtsi2sdq, cvttsd2siq, sqrtpd, sqrtsd and movq with xmm operands are encoded as the machine instruction meant, with 64-bit integer width where the mnemonic ends in q.", "quantifier": "all operands", "why_tests_cant": "operand space; a 32-bit/64-bit confusion shows only for large values", "anchors": ["monoasm_macro/src/asm.rs: binary_sd_op, movq, Inst::{Movsd,Xorps,UComIsd,Andpd,Xorpd,Roundpd,Cvtsi2sdq,Cvttsd2siq,Sqrtpd,Sqrtsd}"]}
{"id": "C34", "title": "Control transfer instructions", "statement": "jmp/jcc/call/ret with label, register, memory or displacement operands are encoded as that transfer; after finalize direct jumps and calls go to the label's address.", "quantifier": "all destinations, all conditions", "why_tests_cant": "depends on final layout", "anchors": ["monoasm_macro/src/asm.rs: Inst::{Call,Jmp,Jcc,Ret,Leave,Syscall,Int3}", "monoasm/src/jit_memory.rs: enc_d, enc_digit"]}
{"id": "C35", "title": "Condition mnemonics", "statement": "Every accepted condition suffix of j*, set*, cmov* selects the x86 condition of that name (as a predicate on CF, ZF, SF, OF, PF), aliases select the same condition, and negated names select the complement.", "quantifier": "all suffixes, all flag states", "why_tests_cant": "semantic statement about flags for every spelling", "anchors": ["monoasm_macro/src/inst.rs: Cond, Cond::from, Parse for Inst"]}
{"id": "C36", "title": "Linear disassembly", "statement": "The concatenated code of any sequence of instructions decodes back to exactly that sequence of instructions: no instruction's bytes run into or are absorbed by the next.", "quantifier": "instruction sequences of any length followed by any bytes", "why_tests_cant": "unbounded sequences", "anchors": ["monoasm_macro/src/asm.rs: compile", "monoasm/src/jit_memory.rs: encode"]}
{"id": "C37", "title": "Splitting a macro call is unobservable", "statement": "monoasm!{jit, a b} has the same effect as monoasm!{jit, a} followed by monoasm!{jit, b}, panics included.", "quantifier": "all instruction sequences and states", "why_tests_cant": "unbounded sequences", "anchors": ["monoasm_macro/src/lib.rs: monoasm", "monoasm_macro/src/inst.rs: Parse for Stmts"]}
{"id": "C38", "title": "Unsupported forms are rejected", "statement": "An operand combination with no x86 encoding (memory-memory, immediate destination, xmm with immediate, lea of a register, rip as register operand, index rip, rsp as index, cl-less shift) is rejected at expansion or panics; it is never encoded as some other instruction.", "quantifier": "all operand combinations", "why_tests_cant": "negative space of all operand combinations", "anchors": ["monoasm_macro/src/asm.rs: compile", "monoasm/src/jit_memory.rs: encode, sib"]}
{"id": "C39", "title": "Computed registers", "statement": "R(e) and xmm(e) designate register number e for 0 <= e < 16, exactly as the named register would; values outside the register file do not silently select another register.", "quantifier": "all 2^64 values of e", "why_tests_cant": "all values of a run-time expression", "anchors": ["monoasm/src/lib.rs: Reg::from", "monoasm_macro/src/parse.rs: Register", "monoasm_macro/src/inst.rs: parse_xmm"]}
{"id": "C40", "title": "Register names", "statement": "Register names are recognised case-insensitively, select the x86 number of that register, and no two different names except cl/rcx select the same register.", "quantifier": "all identifiers", "why_tests_cant": "all strings", "anchors": ["monoasm_macro/src/parse.rs: Reg::from_str, Register::parse_register"]}
{"id": "C41", "title": "Assembly syntax round-trip", "statement": "Parsing the textual (token) form of an instruction yields exactly that instruction, for every accepted mnemonic and operand syntax: registers, R(e), [base], [base +/- disp], [base + index*scale +/- disp], [rip + label], immediates, (expr).", "quantifier": "all instructions and operands", "why_tests_cant": "all token sequences produced by the grammar", "anchors": ["monoasm_macro/src/inst.rs: Parse for Inst, RmOperand, RmiOperand, RiOperand, MovOperand, XmOperand", "monoasm_macro/src/parse.rs: Parse for IndAddr, Disp, Dest, Register"]}
{"id": "C42", "title": "Scale factors and signs in addresses", "statement": "index*1/2/4/8 is encoded with that factor, any other factor is rejected, and a leading minus negates the displacement.", "quantifier": "all literals", "why_tests_cant": "all literals", "anchors": ["monoasm_macro/src/parse.rs: Parse for IndAddr, Disp::neg"]}
{"id": "C43", "title": "Documented mnemonics work", "statement": "Every instruction mnemonic listed in README.md as supported is accepted by the macro with a register-register (or its natural) operand form.", "quantifier": "the README list", "why_tests_cant": "documentation drift", "anchors": ["README.md", "monoasm_macro/src/inst.rs: Parse for Inst", "monoasm_macro/src/asm.rs: compile"]}
{"id": "C44", "title": "Whole-program correctness", "statement": "For every program built through the macro on either page, interleaved with label binds, alignment, constants, data and any number of finalizes, after the last finalize the memory at the address of each instruction decodes to that instruction, with every label operand resolved to the address of the label.", "quantifier": "all programs, all histories ending in finalize", "why_tests_cant": "end-to-end statement over unbounded programs", "anchors": ["monoasm/src/jit_memory.rs: JitMemory", "monoasm_macro/src/asm.rs: compile"]}
{"id": "C45", "title": "Position independence", "statement": "Two runs of the same history with different allocation addresses produce identical code and constant bytes, except in the slots created by abs_address.", "quantifier": "all histories (panics are caught, those of finalize included), all pairs of allocation addresses", "why_tests_cant": "relational property over two allocations", "anchors": ["monoasm/src/jit_memory.rs: JitMemory::new, fill_relocs"]}
{"id": "C46", "title": "Order independence across pages", "statement": "Generating code for page 0 and page 1 in any interleaving gives the same final memory and cursors after finalize.", "quantifier": "all pairs of per-page programs, all interleavings", "why_tests_cant": "exponentially many interleavings", "anchors": ["monoasm/src/jit_memory.rs: select_page, resolve_constants, resolve_data, fill_relocs"]}
{"id": "C47", "title": "Macro hygiene", "statement": "Operand expressions written by the user are evaluated in the user's scope, exactly once.", "quantifier": "all programs, all user environments", "why_tests_cant": "all environments", "anchors": ["monoasm_macro/src/asm.rs: compile (let imm, let op1, let op2, let rm_op)", "monoasm_macro/src/lib.rs: let mut jit"]}
{"id": "C48", "title": "Failed instructions", "statement": "If emitting an instruction panics because an immediate is out of range, nothing has been emitted: the cursor and all memory are as before.", "quantifier": "all instructions, immediates, states", "why_tests_cant": "panic paths", "anchors": ["monoasm_macro/src/asm.rs: binary_opw, movw, movb, movl, shift_op"]}
{"id": "C49", "title": "Execution follows the source program", "statement": "Running the generated bytes on the processor's fetch-decode-execute loop performs, step by step, the source program's instructions with jumps to labels going to the instruction following the label, as long as the program does not overwrite its own code.", "quantifier": "all programs, all machine states, all execution lengths", "why_tests_cant": "unbounded executions", "anchors": ["monoasm/src/jit_memory.rs: JitMemory", "monoasm_macro/src/asm.rs: compile"]}
{"id": "C50", "title": "Code pointers", "statement": "CodePtr subtraction gives the signed distance, addition of that distance returns the original pointer, ordering agrees with addresses, and a null pointer is rejected.", "quantifier": "all pairs of addresses below 2^63", "why_tests_cant": "all addresses", "anchors": ["monoasm/src/lib.rs: CodePtr"]}
{"id": "C51", "title": "When finalize succeeds", "statement": "finalize returns without panic exactly when the pending constants and data objects fit behind the code of their pages, every label they name exists, and the fields to be filled lie inside their pages; after calls that did not panic, only room for the objects and unknown abs_address labels matter.", "quantifier": "all histories of API calls, with or without caught panics", "why_tests_cant": "all object sizes and all page fill levels up to 256 MiB", "anchors": ["monoasm/src/jit_memory.rs: finalize", "monoasm/src/jit_memory.rs: resolve_constants", "monoasm/src/jit_memory.rs: resolve_data", "monoasm/src/jit_memory.rs: fill_relocs"]}
{"id": "C52", "title": "Checked programs run as written", "statement": "A program (labels and objects are created, statements assembled, then finalize) whose text passes a decidable check - accepted operand forms, created and bound labels, immediates in range, enough room - is assembled and linked without panic wherever memory is allocated; label addresses are those of the code that follows them; and at each statement the processor executes exactly the instruction that the statement denotes (for roundpd with a label operand and cvttsd2siq: the one it is encoded as), continuing at the next statement.", "quantifier": "all programs that pass the check, all base addresses, all machine states in which the code is intact", "why_tests_cant": "all programs and all placements", "anchors": ["monoasm_macro/src/asm.rs: compile", "monoasm/src/jit_memory.rs: finalize", "monoasm/src/jit_memory.rs: fill_relocs"]}
{"id": "C53", "title": "The documented example computes Fibonacci numbers", "statement": "The texts of the README example program parse to the expected statements, which assemble without panic, and calling the function pointer returned for label fibo with argument n always returns, with rax = fib(n) mod 2^64, callee-saved registers and stack pointer restored, and no memory written other than the 64*(n+1) bytes below the stack pointer. The two short examples of the README load ten times the value of the variable, and return 10.", "quantifier": "all arguments n, all base addresses, all machine states with enough stack outside of the code memory", "why_tests_cant": "all arguments, unbounded recursion depth, all initial machine states", "anchors": ["README.md: fibo", "monoasm/src/jit_memory.rs: get_label_addr", "monoasm_macro/src/asm.rs: compile"]}
{"id": "C54", "title": "The functions of the integration tests", "statement": "Each function of the integration tests other than that of cvttsd2si.rs (udiv, idiv, divl, idivl, idivl_rem, cdq, shll, shrl, sall, sarl, roll, rorl, popcntq, lzcntq, tzcntq, popcntl, lzcntl, tzcntl, andpd, xorpd, minsd, maxsd, roundpd), from its source text through tokenizing, parsing, code generation and linking to the execution by the processor, returns the intended result for all arguments, restoring callee-saved registers and writing no memory other than its own data object; except that divl raises a divide error for every dividend of 2^31 or more.", "quantifier": "all arguments, all base addresses, all machine states in which the code is loaded", "why_tests_cant": "the tests call each function with one to three arguments at one address", "anchors": ["monoasm/tests/div.rs", "monoasm/tests/divl.rs", "monoasm/tests/idivl.rs", "monoasm/tests/cdq.rs", "monoasm/tests/shift_dword.rs", "monoasm/tests/counts.rs", "monoasm/tests/andpd.rs", "monoasm/tests/xorpd.rs", "monoasm/tests/roundpd.rs", "monoasm/tests/minmaxsd.rs", "monoasm_macro/src/inst.rs: parse", "monoasm_macro/src/asm.rs: compile"]}
{"id": "C55", "title": "From text to effect", "statement": "The expansion of a macro call whose text uses none of the names jit, imm, rm_op, op1, op2 has exactly the effect of assembling the statements of the text one after the other with the values that the variables have at the call, panics included, provided that no operand takes a remainder by zero; it is rejected by the macro if and only if one of the statements has operands of an unsupported form.", "quantifier": "all texts (arithmetic on integer literals and variables as expressions), all values of the variables, all states", "why_tests_cant": "all texts, all states in which the call is made", "anchors": ["monoasm_macro/src/lib.rs: monoasm", "monoasm_macro/src/asm.rs: compile", "monoasm_macro/src/inst.rs: Stmts::parse"]}
{"id": "C56", "title": "The conversion test", "statement": "The function of tests/cvttsd2si.rs, from its source text to the execution by the processor, returns its double argument truncated to a 64-bit signed integer.", "quantifier": "all arguments, all base addresses, all machine states in which the code is loaded", "why_tests_cant": "the test calls the function with one argument (3.14...), for which a 32-bit conversion gives the same result", "anchors": ["monoasm/tests/cvttsd2si.rs", "monoasm_macro/src/asm.rs: Inst::Cvttsd2siq"]}
{"id": "C57", "title": "Patched jumps execute as patched", "statement": "After a finalize has resolved a jmp or call to a label, and a later apply_jmp_patch or apply_jmp_patch_address redirects it to a bound label, the processor at that place executes exactly a jump (or call) to the place where the new label is bound - however often the jump was patched before, and whatever code is added, patched elsewhere and finalized afterwards.", "quantifier": "all histories, panics caught, except a finalize that panics while it fills references (C67); all machine states in which the code is intact", "why_tests_cant": "unbounded histories with any number of patches and finalizes", "anchors": ["monoasm/src/jit_memory.rs: apply_jmp_patch", "monoasm/src/jit_memory.rs: apply_jmp_patch_address", "monoasm/src/jit_memory.rs: fill_relocs"]}
{"id": "C58", "title": "Memory protection", "statement": "After JitMemory::new the two code pages are readable, writable and executable, the data page is readable and writable but not executable, and the protection of other memory is unchanged; all calls (patches inside of the pages included) write only to writable memory; the code of every statement is in executable memory, so a processor that enforces execute protection runs every program as one that does not; and it cannot execute the data page.", "quantifier": "all histories, all base addresses, all executions", "why_tests_cant": "all histories and executions", "anchors": ["monoasm/src/jit_memory.rs: new", "monoasm/src/jit_memory.rs: select_page"]}
{"id": "C59", "title": "Computed displacements", "statement": "The displacement of a memory operand [.. + (e)] is the value of e and that of [.. - (e)] is -e, whatever the value of e; values that cannot be encoded are rejected.", "quantifier": "all base and index registers, all values of e", "why_tests_cant": "all 64-bit values", "anchors": ["monoasm_macro/src/parse.rs: Parse for Disp", "monoasm_macro/src/parse.rs: Disp::neg"]}
{"id": "C60", "title": "Progress", "statement": "At the code of an assembled statement the processor always makes a step, except when a division is by zero or its quotient does not fit, a packed instruction has a misaligned memory operand, or the instruction is syscall or int3; the statements that can stop are exactly those of these kinds, and a well-formed program without them runs forever, or until it leaves its statements or overwrites its own code.", "quantifier": "all statements, programs, register contents and memories", "why_tests_cant": "all states, runs of any length", "anchors": ["monoasm_macro/src/asm.rs: compile", "monoasm/src/jit_memory.rs"]}
{"id": "C61", "title": "Nothing but the source", "statement": "While the processor is at statements of a well-formed program whose code has not been overwritten, everything that it executes is a run of the source program: k steps of the processor are k instructions of the source, with jumps going to where the labels are; different statements have different addresses.", "quantifier": "all well-formed programs, effects of instructions, states, runs of any length", "why_tests_cant": "all programs and runs", "anchors": ["monoasm_macro/src/asm.rs: compile", "monoasm/src/jit_memory.rs: finalize"]}
{"id": "C62", "title": "One trial run is enough", "statement": "If a history of calls (code for both pages, alignment, raw bytes, constants, data, labels bound before or after their use, any number of finalizes) passes a computable trial with the memory at one address - no panic, labels bound once, labels of statements bound in the end - then it passes wherever the memory is and whatever it contains, and there the processor executes exactly the source program: k steps through its statements are k instructions of the source and conversely, and it is not stuck except as in C60.", "quantifier": "all histories without patches, pokes and save_reloc that end with finalize; all pairs of addresses; all effects, states and runs of any length", "why_tests_cant": "says when a single test run generalises to all addresses, memory contents and executions", "anchors": ["monoasm/src/jit_memory.rs: finalize", "monoasm/src/jit_memory.rs: bind_label", "monoasm_macro/src/asm.rs: compile"]}
{"id": "C63", "title": "Diagnostics name the statement and show its operands", "statement": "Whenever a statement is refused, at expansion or because of an immediate out of range, the panic message names the instruction, its operands are shown in the order written, and an operand shown in a message, read as source text, denotes the operand that was written.", "quantifier": "all statements that can be written, all operands and expressions", "why_tests_cant": "tests do not look at panic messages; unboundedly many operands", "anchors": ["monoasm_macro/src/parse.rs: Display for IndAddr, Disp, Register", "monoasm_macro/src/inst.rs: Display for RmOperand, XmOperand, MovOperand", "monoasm_macro/src/asm.rs: panic!, unimplemented!"]}
{"id": "C64", "title": "Patching is rewriting", "statement": "Patching a jump or call of a complete program to a label of the program leaves exactly the state (code, labels, cursors, pending fields, registered objects) that assembling the program with the other label in the first place would have left; hence histories with patches anywhere end in the state of the program they amount to, which the processor executes; the last patch of a jump counts, patching back undoes a patch, patches of different jumps commute.", "quantifier": "all complete programs, jumps and labels that existed when the jump was assembled, all sequences of patches and further calls, all addresses and runs", "why_tests_cant": "all programs and sequences of patches", "anchors": ["monoasm/src/jit_memory.rs: apply_jmp_patch", "monoasm/src/jit_memory.rs: apply_jmp_patch_address", "monoasm/src/jit_memory.rs: fill_relocs"]}
{"id": "C65", "title": "Programs patched while they grow", "statement": "A history of calls that generates code, finalizes, patches jumps and calls of the code generated so far (also to labels newer than the jumps, any number of times), generates more code and so on, leaves code that the processor executes as the program in which each patched jump has the label of its last patch: every instruction of the program is a step of the processor and conversely, the position is determined, and only the documented kinds of statements can stop it. Whether a history is of this kind is decided exactly by a computable check, independently of the address and the contents of the memory.", "quantifier": "all histories, patches, addresses, data and effects of instructions, all numbers of steps", "why_tests_cant": "all interleavings of code generation and patching", "anchors": ["monoasm/src/jit_memory.rs: apply_jmp_patch", "monoasm/src/jit_memory.rs: apply_jmp_patch_address", "monoasm/src/jit_memory.rs: fill_relocs", "monoasm/src/jit_memory.rs: finalize"]}
{"id": "C66", "title": "Side effects and panics in operands", "statement": "The operand expressions of a statement are evaluated in a fixed order when the statement's turn comes, the statement is assembled with the values obtained, and if an expression panics, then the statements before it have been assembled and nothing of its own statement has.", "quantifier": "all programs, all expressions with side effects and panics, all states", "why_tests_cant": "all expressions and all states", "anchors": ["monoasm_macro/src/asm.rs: compile (order of the quoted calls)", "monoasm_macro/src/parse.rs: ToTokens for Register, IndAddr, Disp, Scale", "monoasm_macro/src/inst.rs: ToTokens for RmOperand, XmOperand"]}
{"id": "C67", "title": "A finalize that panics", "statement": "If finalize panics and the panic is caught, code, constants and data that are complete keep their bytes in whatever is called afterwards and run as before; all labels and all references that wait for a label survive; and the objects that waited to be placed can still be placed by a later finalize.", "quantifier": "all histories, panics caught", "why_tests_cant": "all histories before and after the panic; panics need a page of 256 MB to be full, or an unknown label", "anchors": ["monoasm/src/jit_memory.rs: finalize, resolve_constants, resolve_data, fill_relocs (std::mem::take of the lists and of the label table)", "monoasm/src/jit_memory.rs: MemPage::{write32,write64}, Index/IndexMut"]}
{"id": "C68", "title": "Machine arithmetic", "statement": "No computation of positions, addresses and offsets in usize, i64, i32 or u8 overflows, and no pointer arithmetic leaves the address space. So a build with overflow checks and one without behave the same: same bytes, positions, labels and panics.", "quantifier": "all histories of calls (panics caught) with 64-bit arguments, allocations and patch points in the lower half of the address space; all displacements", "why_tests_cant": "all cursor positions, label positions and argument values; a test runs one build and does not come near the limits", "anchors": ["monoasm/src/jit_memory.rs: MemPage::{align_page,align16,align8,align4,emitb,emitw,emitl,write32,write64}, fill_relocs, get_label_address, include, apply_jmp_patch_address", "monoasm/src/lib.rs: Add<i32> for Pos, Sub<CodePtr> for CodePtr", "monoasm_macro/src/parse.rs: Disp::neg"]}
{"id": "C69", "title": "Memory may change between the calls", "statement": "Calls never read memory. Whatever is written between the calls (by the generated code, by another JitMemory, by the host program), selected page, cursors, labels, pending objects, code blocks, addresses and panics are those of the calls alone, and so is each byte that nothing but the calls writes to. Two JitMemorys with disjoint allocations, called in any order, each end up as if they were alone, and no byte outside their pages changes.", "quantifier": "all histories of calls (panics caught) on one or two JitMemorys, with arbitrary changes of memory between the calls", "why_tests_cant": "tests assemble first and run afterwards, with one JitMemory; all interleavings and all memory changes", "anchors": ["monoasm/src/jit_memory.rs: MemPage::{emitb,emitw,emitl,emitq,write32,write64}, IndexMut<Pos>, finalize, fill_relocs, apply_jmp_patch_address", "monoasm/src/lib.rs: CodePtr"]}
{"id": "C70", "title": "Length of code", "statement": "Each statement takes a number of bytes that depends only on the statement: not on the state, the page or the position, and not on which labels it names. Only label statements take none, and no statement takes more than 12 bytes (x86 allows 15), so that n statements that can be assembled one by one are assembled whenever 12 n bytes are free.", "quantifier": "all accepted statements with all operand values, all states, all renamings of labels, all sequences of statements", "why_tests_cant": "the claim is about the longest of all combinations of operands and about all states; a test sees single lengths", "anchors": ["monoasm/src/jit_memory.rs: encode, enc_*", "monoasm_macro/src/asm.rs: compile"]}
{"id": "C71", "title": "Operands inside the expansion", "statement": "In the Rust code that the macro produces, an operand that the user wrote is read as a unit, whatever operators it contains, and has its value there. (The code violates this for displacements `(e)` and targets `call (e)`, where the conversion applies to the last operand of e only, and for negative floats after dq, whose expansion has no type.)", "quantifier": "all Rust expressions made of literals, variables, parentheses, unary, arithmetic and bit operators and conversions, with all types and values; all literals", "why_tests_cant": "the tests use literals and variables as displacements; precedence shows only with operators, types other than i32 and large values", "anchors": ["monoasm_macro/src/parse.rs: Disp::{parse,neg}, ToTokens for Disp, ToTokens for Register, parse_xmm", "monoasm_macro/src/asm.rs: compile (dq, call), `(#i) as i64`"]}
{"id": "C72", "title": "Calls of functions of the process", "statement": "A well-formed program that calls functions outside of the memory of the JitMemory enters them in exactly the states (registers, memory, address of the next statement on the stack) in which the source program enters them, and goes on where they return to, for any sequence of such visits; it leaves its memory only at ret and at jumps and calls to computed addresses, never at a jump or call to a label. If a called function obeys the calling convention, the program goes on with the next statement with code, stack pointer and callee-saved registers intact; the helper puts of the manual passes the register as argument, and a function of the program that uses it obeys the calling convention itself.", "quantifier": "all well-formed programs, effects of instructions, behaviours of the functions called, states, sequences of visits", "why_tests_cant": "all programs, all behaviours of the functions outside, runs of any length", "anchors": ["monoasm_macro/src/asm.rs: compile", "monoasm/src/jit_memory.rs: finalize", "monoasm/src/test.rs: PUTINT", "README.md: puts"]}
{"id": "C73", "title": "Macro calls with Rust operands", "statement": "A macro call whose operands are Rust expressions (literals, variables, parentheses, unary, arithmetic and bit operators, conversions) is parsed with exactly these expressions, and the code it expands to assembles its statements one after the other, each with the values that Rust gives to the operands at their places in the expansion: these values are the arguments that the library receives. The call is rejected at compile time if and only if a statement has operands of an unsupported form.", "quantifier": "all token sequences, statements, expressions, types and values of variables; with and without overflow checks; operands that mention none of the names of the expansion (C47) and whose evaluation does not panic", "why_tests_cant": "all expressions at all places of all statements", "anchors": ["monoasm_macro/src/lib.rs: monoasm", "monoasm_macro/src/parse.rs: Register, IndAddr, Disp, Dest", "monoasm_macro/src/inst.rs: Parse for Stmts, Inst and operands", "monoasm_macro/src/asm.rs: compile"]}
{"id": "C74", "title": "Compiling while the code runs", "statement": "Generated code and the functions of the process that it calls may take turns in any way, the functions calling the API as they like: they generate code, finalize and redirect jumps of code that is waiting for them. Such a run of the processor is exactly a run of a source program that changes with each call: a statement is executed as it stands in the program at that moment, the functions are entered and left in the states that the source says, and code that exists keeps its place, its labels and its statements except for the jumps that a patch names. If neither code nor functions write to the code pages, memory always holds the code of the calls so far; in particular a function can be compiled when it is first called.", "quantifier": "all interleavings of instructions, actions of functions (arbitrary, depending on the JitMemory) and calls, all histories that are complete when the processor returns to the code, all effects of instructions", "why_tests_cant": "tests compile everything before they run anything; all interleavings", "anchors": ["monoasm/src/jit_memory.rs: finalize, fill_relocs, apply_jmp_patch, apply_jmp_patch_address, get_label_u64, select_page", "monoasm/src/lib.rs: CodePtr"]}
{"id": "C75", "title": "Creation and lifetime", "statement": "JitMemory::new panics, or returns a JitMemory at an aligned address that is not null, in a block of its own, with two code pages that can be read, written and executed and a data page that cannot be executed; other blocks of the process keep contents and protection in both cases. When the allocator has no memory it panics. In a process that creates, uses and drops JitMemorys, every one ever created keeps its block to itself for the rest of the process, dropped or not, with the records and the code that its own calls produce alone, so that pointers to code stay valid. (The price: blocks of dropped JitMemorys are never returned, so that the number of JitMemorys that a process can ever create is bounded.)", "quantifier": "all answers of the allocator and of the operating system that obey their contracts, all sequences of creations, calls, drops and actions of other parts of the process", "why_tests_cant": "tests create one JitMemory that lives until the end of the process, and memory never runs out", "anchors": ["monoasm/src/jit_memory.rs: JitMemory::new, MemPage::new"]}
{"id": "C76", "title": "Compiling while another processor runs the code", "statement": "While one processor executes finished code (and functions outside of it), another may call the API to generate, bind, finalize: although the stores of a call become visible one after the other and the bytes it stores to may hold anything until it ends, the first processor executes at every moment exactly the instructions of the source of the finished code; the stores of calls other than patches never touch finished code. When no call is in progress, memory holds the code of all calls.", "quantifier": "all interleavings of instructions, beginnings, single stores and ends of calls, and stores of further processors outside the code pages; all histories", "why_tests_cant": "tests run the code after the calls, in one thread; the interleavings of stores and instructions cannot be enumerated", "anchors": ["monoasm/src/jit_memory.rs: JitMemory (emit, write_32_at, finalize, fill_relocs, apply_jmp_patch_address)"]}
{"id": "C77", "title": "Redirecting a jump while another processor executes it", "statement": "When a jump or call is redirected by apply_jmp_patch or apply_jmp_patch_address while another processor executes it, that processor goes to the old or to the new label. Stores within one line of the cache (64 bytes) are assumed to become visible at once.", "quantifier": "all complete programs, patches and interleavings of instructions, stores and calls", "why_tests_cant": "needs a second processor at the jump in the instant between the two halves of the store", "anchors": ["monoasm/src/jit_memory.rs: JitMemory::apply_jmp_patch, JitMemory::apply_jmp_patch_address"]}
{"id": "C78", "title": "The public field code_block", "statement": "Programs may write anything to the public field code_block of a page, at any time, without consequences for the code: memory, labels, cursors, pending objects and the outcome of every call are as without the writes. finalize appends one block per page to whatever is there and changes nothing of it, also if it panics; no other call touches the field. After the next finalize dump_code shows what it shows without the writes.", "quantifier": "all interleavings of API calls (panics caught) and writes to code_block of any page; all values written", "why_tests_cant": "the field can be given any value between any two calls; that nothing depends on it is a statement about all pairs of runs", "anchors": ["monoasm/src/jit_memory.rs: MemPage::code_block, JitMemory::finalize, JitMemory::dump_code"]}
{"id": "C79", "title": "Pages exchanged between JitMemorys", "statement": "Safe Rust can exchange pages of JitMemorys (std::mem::swap(&mut *a, &mut *b)). Labels and relocations go on referring to the code they were made for; calls never write outside the allocations, no two pages share memory, JitMemorys whose pages are not exchanged are not affected.", "quantifier": "any number of JitMemorys, all interleavings of API calls (panics caught) and exchanges of pages", "why_tests_cant": "no test exchanges pages; the number of arrangements of pages and pending objects is unbounded", "anchors": ["monoasm/src/jit_memory.rs: DerefMut for JitMemory, IndexMut<Page> for JitMemory, JitMemory::get_label_address, JitMemory::fill_relocs"]}
{"id": "C80", "title": "Arithmetic of positions", "statement": "Positions that a user computes with Pos::from, + i32 and - Pos are those of the integers, through any chain of additions, also when a position is negative on the way, in builds with and without overflow checks. Reading or writing jit[e] reaches the byte at the position that is meant, and panics without touching memory if the page has no such position. Differences are exact when not negative; p + (q - p) as i32 is q; counting back from get_current() finds the bytes just emitted.", "quantifier": "all expressions for positions, after all histories of calls (panics caught), both builds; numbers below 2^63 and differences that fit into i32", "why_tests_cant": "all chains of offsets and all states; a test runs one build", "anchors": ["monoasm/src/lib.rs: Pos::from, Add<i32> for Pos, Sub<Pos> for Pos", "monoasm/src/jit_memory.rs: Index<Pos>, IndexMut<Pos> for MemPage and JitMemory, get_current"]}
