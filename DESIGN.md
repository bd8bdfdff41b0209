# Formal model of monoasm in Lean 4

monoasm is a run-time x86-64 assembler: a runtime (`monoasm/src`: memory pages, labels,
relocations, instruction encoders) and a procedural macro (`monoasm_macro/src`: parser of the
assembly text and the compiler from instructions to runtime calls).

Everything is in `lean/Verif`: `Model` (the code), `Spec` (what the properties are stated with),
`Proofs` (helper lemmas), `Props` (one file per property: theorems `Cnn...` and examples showing that
the hypotheses can be met). `properties.jsonl` has the properties in English, `MANIFEST.json` the
theorems for each, `seeded/LOG.jsonl` the wrong programs that the theorems were tested against.

## What is modelled

| source | model | remarks |
|---|---|---|
| `monoasm/src/lib.rs` | `Model/Basic.lean`, `Model/Memory.lean` (`CodePtr`) | all types and methods except formatting |
| `monoasm/src/jit_memory.rs` 1-575 | `Model/Memory.lean` | pages, emission, alignment, labels, constants, data, `finalize`, patching, `include`, `as_slice`, the slice that `dump_code` passes to objdump |
| `monoasm/src/jit_memory.rs` 577-921 | `Model/Encode.lean` | all encoders |
| `monoasm/src/jit_memory.rs` 907-919 | `Model/Dump.lean` | what `dump_code` keeps of objdump's output |
| `monoasm/src/jit_memory.rs` 245-254 | `Model/Protect.lean` | memory protection |
| `monoasm/src/jit_memory.rs` 242-263 | `Model/Create.lean` | `JitMemory::new`: what it asks of allocator and operating system, and when it panics |
| `monoasm/src/jit_memory.rs` 1-575, `lib.rs` 14-26, 264-270 | `Model/Machine.lean` | the memory manager with machine arithmetic |
| `lib.rs` 256-278, `jit_memory.rs` 52-70, 209-227, 301-303 | `Model/Position.lean` | operations on positions that are offered to users |
| public API as a type of calls | `Model/Api.lean` | histories are lists of calls |
| `monoasm_macro/src/inst.rs`, `parse.rs` (types) | `Model/Inst.lean` | |
| `monoasm_macro/src/inst.rs`, `parse.rs` (parsers) | `Model/Parse.lean` | on token trees |
| `monoasm_macro/src/asm.rs` | `Model/Compile.lean` | on values of the user's expressions |
| `monoasm_macro/src/asm.rs`, `lib.rs` (the quoted code) | `Model/Expand.lean`, `Model/Eval.lean` | evaluation of the user's expressions: scope, order, number of times; `C47_values_partial` connects it with `Compile.lean` |
| `monoasm_macro/src/inst.rs`, `parse.rs` (`Display`), messages of `asm.rs` | `Model/Display.lean` | as tokens |
| `monoasm_macro/src/parse.rs` 131-140, 207, 447, 453-468, 487, `asm.rs` 9, 12, 67 …, 289 | `Model/Splice.lean` | the tokens around operands in the expansion; the place of each operand |
| `monoasm/tests/*.rs`, README example | `Spec/Tests.lean`, `Spec/Fibo.lean` | program texts |

Every definition of the model cites the lines it models.

Not modelled:
* `Debug` implementations, the texts of messages beyond names and operands, the debugging function `_p`, the helper functions of
  `monoasm/src/test.rs` (they print; code that calls one is covered as a call of any address, C72), the objdump process of `dump_code` (`Spec/Dump.lean` says what its output looks like);
* what allocator and operating system do: `JitMemory.new` is given the address of the allocation
  (hypothesis `Alloc`: aligned to the page size, not null, in the lower half of the address space); C75 derives
  this from the contracts of `alloc` and `region::protect` (`Model/Create.lean`);
* threads: calls take `&mut JitMemory`, so that two are never in progress; the generated code is executed between calls (C69), makes them itself through functions of the process (C74), or is executed by another processor meanwhile (C76, C77). There, memory is one for all processors, an instruction is fetched at one moment, and a call ends when its stores are visible;
* the `syn` crate beyond what is described in `Model/Parse.lean`; the parser of Rust expressions
  (`syn::Expr`) is a parameter, with the assumption (`Takes` in `Spec/Grammar.lean`) that it takes the
  expressions in question; C73 puts a parser for the expressions of `Spec/Rust.lean` in its place (tokens have
  no spacing in the model, so that `a && b` is not told from `a & &b`); groups without delimiters;
* Rust's type checker (a program that is rejected by it has no expansion to talk about), except for
  the types of `Spec/Rust.lean` in C71 and C73. The other properties take operands of the expansion for units;
  C71 says when they are;
* in histories of the other properties: exchanging `MemPage` values through `DerefMut` (C79 says what follows), writing
  the public field `code_block` (C78: nothing follows but for `dump_code`), writing generated memory through raw pointers
  other than by `apply_jmp_patch_address` (C69 says what follows when the memory is changed between the calls).

## Modelling decisions

* A computation is `M α = JitMemory → Res α` (`Model/Basic.lean`): a result and a state, or a panic
  that **keeps the partially updated state** (as a caught panic would), so that statements about
  panicking calls are possible.
* Memory is one flat map `Nat → Byte` of process memory, with arbitrary initial content
  (`alloc` does not initialise). The three pages are address ranges of it, so writing through a
  raw pointer (`apply_jmp_patch_address`) is modelled as a write to any address.
* `u8/u16/u32/u64/i8..i64` are `BitVec n`; `usize` addresses and positions are `Nat`.
* Overflow checks of debug builds are not part of this model. `Model/Machine.lean` is the memory manager
  once more, with 64-bit words and overflow checks; C68 proves that the two agree.
* Rust expressions inside the macro (`R(e)`, `(e)`, displacements) are a parameter `ε` of the syntax
  tree: token lists for the parser, values for the code generator, abstract expressions with side
  effects on the user's world for `Model/Expand.lean`. There they may panic; they do not assign to
  names of the expansion.

## Specifications

| file | what it is |
|---|---|
| `Spec/X86.lean` | x86-64 decoder, written from the architecture manual; larger than what monoasm emits |
| `Spec/Meaning.lean` | the machine instruction that a statement means |
| `Spec/Cpu.lean`, `Protect.lean` | fetch-decode-execute loop; control transfer defined, other instructions a parameter; with execute protection |
| `Spec/Effects.lean`, `Progress.lean` | the effect of the instructions other than control transfer; when there is none |
| `Spec/Reduced.lean` | register numbers modulo 16 |
| `Spec/NoIndex.lean` | replacing memory operands; leaving out an index `rsp` |
| `Spec/Rewrite.lean` | jumps that can go to another label; the program that a history with patches amounts to |
| `Spec/Evolve.lean` | what the calls of a history stand for after patches; complete histories; their execution; the check |
| `Spec/Trial.lean` | trial runs of a history; execution of the source program through positions at the same place |
| `Spec/Failed.lean` | bytes that are complete, for calls of `finalize` that panic |
| `Spec/Rust.lean` | Rust expressions: reading of tokens by precedence, types, values |
| `Spec/RustRead.lean` | a program that reads Rust expressions, and the code of a user who writes such operands |
| `Spec/Length.lean` | the length of the code of a statement, in every state |
| `Spec/Machine.lean` | histories with machine arithmetic; agreement with the model |
| `Spec/Outside.lean` | histories in which memory changes between the calls; two `JitMemory`s in one memory |
| `Spec/Host.lean` | a program that calls functions of its process: visits, calling convention, `puts` of README.md |
| `Spec/Session.lean` | processor and `JitMemory` with one memory; a source program that changes while it runs |
| `Spec/Lifetime.lean` | a process that creates, uses and drops `JitMemory`s |
| `Spec/Parallel.lean` | generated code on one processor while another one calls the API: beginnings, stores and ends of calls |
| `Spec/Edits.lean`, `Swap.lean` | programs that write `code_block`; that exchange pages of several `JitMemory`s |
| `Spec/Position.lean` | expressions of a user for positions, and the numbers that they mean |
| `Spec/Dump.lean` | what the output of `dump_code` looks like |
| `Spec/Double.lean` | double precision arithmetic: values, rounding, the operations of the SSE instructions |
| `Spec/Source.lean`, `Retarget.lean` | execution at the level of statements and labels; patched jumps |
| `Spec/Grammar.lean`, `Names.lean`, `Conditions.lean`, `Readme.lean` | the assembly language as documented |
| `Spec/Text.lean` | tokens of a text |
| `Spec/Print.lean`, `Shown.lean` | the statement as source tokens; which statements can be written; what a message shows |
| `Spec/Runtime.lean`, `Slots.lean`, `Objects.lean`, `Link.lean`, `Blocks.lean`, `Jump.lean`, `Past.lean`, `Program.lean`, `Move.lean`, `Interleave.lean`, `Capacity.lean` | bytes, addresses, relocation slots, objects, histories |
| `Spec/Classes.lean`, `Operand.lean`, `Ranges.lean`, `Accept.lean`, `Mentions.lean`, `Listing.lean` | operands, immediates, labels of a statement, instruction groups |
| `Spec/Hygiene.lean` | evaluations made by an expansion |
| `Spec/Evaluate.lean` | evaluation of the expressions of a statement, with side effects and panics; order of evaluation |
| `Spec/Simple.lean`, `Leads.lean`, `Fibo.lean`, `Tests.lean` | programs, and what it means that a call of one computes a function |

One choice in `Meaning.lean`: `[rax + label]` is accepted by the macro although it is meaningless as
an address; its displacement is taken to be the distance to the label, which is what is encoded.

The decoder was compared with GNU objdump 2.42 on about 68000 generated byte sequences and on 320000
random ones (155331 of them decoded; those that it does not decode were not compared), `Spec/Effects.lean`
with the processor of the development machine on about 95000 generated executions and on 155000 random
ones (146396 agree in registers, memory and defined flags, 4681 fault where the specification has no
effect; operands relative to rip and control transfer were not run, and instructions that it does not
describe are not compared), and `Spec/Double.lean`
with it on 18 operations applied to 6000 pairs of operands each. No difference was left. `Proofs/Round.lean` shows that the
rounding of `Spec/Double.lean` gives the nearest double, that with even significand if there are two,
for quotients (`round_nearest`, `round_infinite`) and square roots (`roundRoot_nearest`).

Two statements are not encoded as what they mean (`cvttsd2siq`, and `roundpd` with a label operand). The
statements about disassembly, linking and execution (C36, C44, C49, C52) are parametrised by a `Reading`
(`Spec/Listing.lean`): with the reading `encoded` they hold for all programs, with the reading `meaning`
for programs without the two.

## Plan per property

| id | what is modelled / how it is proved |
|---|---|
| C01 | emit functions on the flat memory; exact post-state by computation |
| C02 | every operation, ok or panicking, preserves memory outside the pages; induction on histories |
| C03 | invariant `counter ≤ PAGE_SIZE` over histories with panics |
| C04 | mask identity `(c+15) & !15`; least-multiple statement |
| C05 | frame lemma per operation |
| C06 | label counter monotone; induction on histories |
| C07, C08 | label table invariant across all operations, including the `mem::take` in `fill_relocs` |
| C09–C13 | exact functional specification of `finalize`: loop invariant over labels and targets, with slot-disjointness invariant over histories |
| C14, C15 | exact specification of the patch; two's complement arithmetic |
| C16–C20 | loop invariants of `resolve_constants`/`resolve_data` composed with `fill_relocs` |
| C21, C22 | block tiling invariant over histories |
| C23 | false when page 1 is selected: negation proved with a witness, `_partial` for page 0 |
| C24–C27 | independent decoder; `decode (encode x) = x` by bit-field lemmas |
| C28–C34 | per-instruction decode theorems built on C24 |
| C35 | condition codes as predicates on flags |
| C36 | prefix-decoding theorem lifted to lists by induction |
| C37 | monad law on the compile function |
| C38 | case analysis; known violations recorded with witnesses; the code for an index `rsp` is that without an index (`decode_mapAddr` in `Proofs/Decode6.lean` for `dropRsp`) |
| C39 | `Reg::from` truncation; negation for large values: the code is that of the numbers modulo 16 (`Spec/Reduced.lean`, `Proofs/Lower.lean`; `Proofs/RexZero.lean`: an empty REX prefix changes nothing but byte registers 4 to 7; `Proofs/Encoded.lean`: every assembled statement denotes an instruction under this reading) |
| C40–C42 | parser model over token lists; print/parse round trip |
| C43 | finite table; violations recorded (`xchgl/w/b`) |
| C44 | combination of the decode theorems with C09/C12 over histories |
| C45 | relational invariant between two runs |
| C46 | commutation of operations on different pages |
| C47 | separate expansion model with scopes; negation + partial |
| C48 | negation for `addw` etc. (a `0x66` byte is left behind), partial for the rest |
| C49 | simulation between decoded-memory execution and source-level execution |
| C50 | arithmetic |
| C51 | exact condition for `finalize` to return: room for the objects, existing labels, slots inside pages |
| C52 | decidable check of a program's text; soundness by composition of C29, C44, C49, C51 |
| C53 | evaluation of the parser on the texts of the README example, symbolic execution of the statements; induction on the argument |
| C54 | lexer, parser, code generator and linker evaluated on the text of the test functions; symbolic execution for all arguments |
| C55 | composition of the lexer, the parser and C47 |
| C56 | as C54; negation with a witness, exact result for all arguments |
| C57 | the field of the jump is settled after the `finalize`, so only patches change it; then as C14 and C49 |
| C58 | protection as a map, set up by the two `protect` calls; C02, C15 for writes; placement of statements and C49 for execution |
| C59 | arithmetic on top of the address lemmas of C42; negation with a witness |
| C60 | the forms of instructions that are generated (`usual`), by cases on statements; then each form has an effect unless `Stops` |
| C61 | places of a simple program increase; labels are skipped; then the one-step converse C49_only and induction |
| C62 | the trial is a program (Spec/Trial.lean); its outcome is transported by the relation of C45 between two runs; the facts it checks give `Ready` of C49 for all statements, then C49 and its one-step converse, C60; cursors never go back, so statements are apart |
| C63 | cases on the operands for reading back, with the grammar of C41; cases on the statement for the names; witnesses for the index, labels, `imul`, `movb` |
| C64 | a relation between the two runs: same cursors and labels, except for one pending field, and the same memory outside it; every call keeps it, `finalize` resolves both; then the four bytes are compared with those the patch writes; the rest by induction on the history |
| C65 | invariant by induction on the history: each statement that stands for an instruction has, at its place, the code of that instruction; a patch changes the field of one jump only and later calls spare it; the check keeps a table of entries, and is shown to accept exactly the complete histories and to commute with moving the memory |
| C66 | relation between generated code and evaluation followed by assembling, closed under the constructs of the expansion (arguments, `let`, blocks, branches on immediates, prefix bytes emitted first, panic messages); case split over all statements; induction on the list |
| C67 | bytes that no recorded field covers are preserved by every call; invariant on recorded fields (also dead ones) separates them from filled fields and placed objects; case split of `finalize`'s panics; symbolic witnesses on a full page |
| C68 | simulation between `Model/Memory.lean` (natural numbers) and `Model/Machine.lean` (64-bit words, overflow checks), function by function, under the invariant of C02/C03 |
| C69 | every call is `Blind`: from given records it makes fixed writes and ends with a fixed result, whatever memory contains; induction over events; C02 for two instances |
| C70 | the list of items of a statement (C36) has a fixed length; shape of every row of the encoder with bounds 1..12; renaming labels keeps the items up to targets |
| C71 | reading by precedence (`Spec/Rust.lean`) is deterministic and inverse to writing (two inductions); `as T` after a text converts the last operand; values by induction on the right spine, congruence modulo 2^32 |
| C72 | the converse of C49 (C61) for the stretches between the visits; a step to a foreign address is computed: labels have addresses in the pages (C51), so only `ret` and computed targets remain; calls by symbolic execution (`Leads`) |
| C73 | a reader with fuel (`Spec/RustRead.lean`) agrees with the relation of C71 (fuel four times the number of tokens); it instantiates C41; operands marked by their places (`placed`, `Model/Splice.lean`) instantiate C47 with Rust's types and values |
| C74 | each stretch between calls is C65 with the history so far (`live_back`, `live_forward`); calls depend on records only and write what they would write alone (C69), so the code pages always hold `reach` of the history; a longer history only changes patched statements (`becomes_append`); a function compiled when it is first called is executed symbolically |
| C75 | `JitMemory::new` as a relation between systems, unfolded once (`create_iff`); an invariant of worlds; calls as in C69; disjoint blocks are counted by their quotients |
| C76 | where a call stores does not depend on memory (C69); bytes of finished code are settled, calls keep settled bytes for all memories, so they do not store there; invariant of the process: memory holds the calls that have ended, except where the call in progress stores |
| C77 | the same invariant: a patch in one line has been made entirely or not at all; the jump across two lines is executed step by step |
| C78 | two runs that differ in the code blocks only stay so, through every function of the model; what `finalize` appends is the same in both |
| C79 | every function of the model, on pages anywhere, writes to these pages only and keeps their addresses; exchanges permute the pages of the allocations |
| C80 | the machine evaluates an expression for a position to the integer that it means (induction over the expression); indexing checks the result; states by C68 |

## Properties that the code violates

Each is proved as the negation of the claim with a concrete witness; the claim is proved for the rest.

* `cvttsd2siq` is encoded without REX.W, so it converts to 32 bits (C33, C56).
* `roundpd xmm, [rip + label], imm`: the address is off by one (C09, C25).
* 16-bit ALU instructions with an immediate out of range leave a 0x66 prefix behind when they panic (C48).
* `include(ptr)` depends on the selected page (C23).
* `rsp` as an index is encoded as no index (C38).
* `R(n)` with n > 15 is truncated to 8 bits and not checked (C39); only index registers are, when assembled.
* The variables of the expansion (`jit`, `imm`, `rm_op`, `op1`, `op2`) capture the user's; some register
  expressions are evaluated twice (C47).
* `xchgq`, `testq`, `testb` with a register expression mix two evaluations of it. A panic in an operand leaves
  behind the prefix byte that was emitted before its evaluation, or all of `roundpd` but its last byte (C66).
* A displacement `(e)` outside the range of `i32` is truncated silently; `[b - label]` is read as `[b + label]` (C59).
* `[b - (e)]` with `e = -2^31` panics in debug builds and means `[b - 2^31]` in others (C68).
* Messages do not show the index of an address, show a label like a variable and the size of an immediate in a form that cannot be written, and some name no statement or
  another one (C63).
* In the displacement `(e)` and in `call (e)` the conversion applies to the last operand of `e` only, so
  `[rax + (100 / n)]` can have the displacement 100 instead of 0; `dq` of a negative float cannot be compiled (C71).
* `xchgl`, `xchgw`, `xchgb` are documented but not implemented (C43).
* A `finalize` that panics while it fills references loses the label table (C06, C67) and can overwrite a complete
  instruction; objects that waited when it panics are forgotten; a second `finalize` after one that had no room for an
  object can lose all labels (C67); the code blocks of the pages do not tile afterwards (C21).
* A patch applied before `finalize` is undone by it (C15); a patch point more than 2 GiB away is
  patched with a truncated offset (C14).
* `apply_jmp_patch_address` writes the distance wherever the jump is; when it crosses a line of the cache, another processor that executes the jump may find half of each distance (C77).
* `DerefMut` and `IndexMut` hand out pages as a whole. When two are exchanged, labels and pending relocations refer to the wrong page; `finalize` then writes over the code of the other `JitMemory` (C79).
* The memory of a `JitMemory` that is dropped is never returned (C75).
* `dump_code` panics before the first `finalize` (C22).
* The function in `tests/divl.rs` raises a divide error for dividends of 2^31 or more (C54).

## Trusted base

* The Lean 4.33.0 kernel.
* Axioms: the theorems of `MANIFEST.json` depend on `propext`, `Classical.choice` and `Quot.sound` only.
  By `#print axioms`, all three are used except as follows.
  - only `Quot.sound` and `propext`: C01_emitb, C01_emitw, C01_emitl, C01_emitq, C01_emit, C15_early_undone, C21_panicked_wrong, C25_target, C28_denotes, C37_split, C37_reject, C39_named_partial, C39_number_partial, C39_wrong, C39_wrong_17, C39_wraps, C44_once_object, C46_two_binders, C47_values_partial, C47_captured, C47_captured_inside, C47_captured_types, C47_twice, C47_repeats, C47_messages, C49_operand, C50_sub, C52_check, C52_program_ok, C58_data, C63_rejected, C63_order, C63_immediate, C64_program_can, C66_witness, C66_mixed, C66_stray, C66_stray_harm, C66_half, C66_message, C67_complete, C67_objects_lost, C68_negate_partial, C68_patch_violated, C69_call, C69_records, C69_bytes, C69_outcome, C69_addresses, C69_intact, C70_longest, C71_unambiguous, C71_immediate, C71_partial, C71_unit_partial, C71_model, C71_float_partial, C71_float_violated, C73_reader, C73_expressions, C73_effect, C73_arguments, C73_values, C75_new, C75_null, C76_new, C78_written, C79_bases_ok, C79_moved, C79_corrupted, C80_difference.
  - only `propext`: C15_unbound, C25_denotes, C50_add_sub, C50_null, C50_add, C50_label, C58_layout, C59_truncated, C63_imul_wrong, C71_untyped, C73_placed, C73_places.
  - no axioms: C50_current, C63_sizes, C63_index_lost, C68_offset.
* The reading of the Rust source into the model (each definition cites file and lines).
* The specifications listed above as descriptions of x86-64 and of the documented language.
