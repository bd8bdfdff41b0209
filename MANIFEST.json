{
 "claims": [
  {
   "property": "C01",
   "status": "proved",
   "theorems": [
    "Monoasm.C01_emitb",
    "Monoasm.C01_emitw",
    "Monoasm.C01_emitl",
    "Monoasm.C01_emitq",
    "Monoasm.C01_emit"
   ],
   "note": ""
  },
  {
   "property": "C02",
   "status": "proved",
   "theorems": [
    "Monoasm.C02_call",
    "Monoasm.C02_history"
   ],
   "note": ""
  },
  {
   "property": "C03",
   "status": "proved",
   "theorems": [
    "Monoasm.C03_cursor",
    "Monoasm.C03_emitb",
    "Monoasm.C03_emitw",
    "Monoasm.C03_emitl",
    "Monoasm.C03_emitq",
    "Monoasm.C03_emit"
   ],
   "note": ""
  },
  {
   "property": "C04",
   "status": "proved",
   "theorems": [
    "Monoasm.C04_align4",
    "Monoasm.C04_align8",
    "Monoasm.C04_align16",
    "Monoasm.C04_align_page"
   ],
   "note": ""
  },
  {
   "property": "C05",
   "status": "proved",
   "theorems": [
    "Monoasm.C05",
    "Monoasm.C05_selected"
   ],
   "note": ""
  },
  {
   "property": "C06",
   "status": "proved",
   "theorems": [
    "Monoasm.C06_number",
    "Monoasm.C06_distinct",
    "Monoasm.C06_finalize_panic"
   ],
   "note": "Any history, panics caught, in which no finalize panics while it fills references. C06_finalize_panic and C67_labels_lost show that such a panic loses the label table, so that numbers are reused."
  },
  {
   "property": "C07",
   "status": "proved",
   "theorems": [
    "Monoasm.C07_bind_label",
    "Monoasm.C07_bind_label_with_page"
   ],
   "note": "Any history, panics caught, in which no finalize panics while it fills references (that loses the labels, see C67_labels_lost)."
  },
  {
   "property": "C08",
   "status": "proved",
   "theorems": [
    "Monoasm.C08_unbound",
    "Monoasm.C08_unplaced",
    "Monoasm.C08_unknown",
    "Monoasm.C08_unknown_inst"
   ],
   "note": "Unbound labels: any history, panics caught, in which no finalize panics while it fills references (C67_labels_lost). Unknown labels: any history."
  },
  {
   "property": "C09",
   "status": "partial",
   "theorems": [
    "Monoasm.C09_field",
    "Monoasm.C09_recorded",
    "Monoasm.C09_statement_partial",
    "Monoasm.C09_roundpd_wrong"
   ],
   "note": "Every operand position except the memory-with-label form of roundpd, which is recorded one byte off (C09_roundpd_wrong proves the property false there). Histories with a raw save_reloc call are excluded, since that call records a caller-chosen offset."
  },
  {
   "property": "C10",
   "status": "proved",
   "theorems": [
    "Monoasm.C10"
   ],
   "note": ""
  },
  {
   "property": "C11",
   "status": "proved",
   "theorems": [
    "Monoasm.C11_waits",
    "Monoasm.C11_zero",
    "Monoasm.C11_filled"
   ],
   "note": "Until the reference is filled: histories, panics caught, in which no finalize panics while it fills references (C67_labels_lost). Afterwards: any calls."
  },
  {
   "property": "C12",
   "status": "proved",
   "theorems": [
    "Monoasm.C12_changes",
    "Monoasm.C12_outside",
    "Monoasm.C12_code"
   ],
   "note": ""
  },
  {
   "property": "C13",
   "status": "proved",
   "theorems": [
    "Monoasm.C13_again",
    "Monoasm.C13_many"
   ],
   "note": ""
  },
  {
   "property": "C14",
   "status": "proved",
   "theorems": [
    "Monoasm.C14_address",
    "Monoasm.C14",
    "Monoasm.C14_exact",
    "Monoasm.C14_far_wrong"
   ],
   "note": ""
  },
  {
   "property": "C15",
   "status": "proved",
   "theorems": [
    "Monoasm.C15_address_four",
    "Monoasm.C15_four",
    "Monoasm.C15_unbound",
    "Monoasm.C15_written",
    "Monoasm.C15_survives",
    "Monoasm.C15_early_undone"
   ],
   "note": ""
  },
  {
   "property": "C16",
   "status": "proved",
   "theorems": [
    "Monoasm.C16_i64",
    "Monoasm.C16_f64",
    "Monoasm.C16_i32",
    "Monoasm.C16_code_page",
    "Monoasm.C16_stays"
   ],
   "note": ""
  },
  {
   "property": "C17",
   "status": "proved",
   "theorems": [
    "Monoasm.C17_i64",
    "Monoasm.C17_i32",
    "Monoasm.C17_zeros",
    "Monoasm.C17_never_selected"
   ],
   "note": ""
  },
  {
   "property": "C18",
   "status": "proved",
   "theorems": [
    "Monoasm.C18_created_const",
    "Monoasm.C18_created_data",
    "Monoasm.C18_fresh",
    "Monoasm.C18_disjoint",
    "Monoasm.C18_across"
   ],
   "note": ""
  },
  {
   "property": "C19",
   "status": "proved",
   "theorems": [
    "Monoasm.C19_bound",
    "Monoasm.C19_pending",
    "Monoasm.C19_late"
   ],
   "note": ""
  },
  {
   "property": "C20",
   "status": "proved",
   "theorems": [
    "Monoasm.C20_constant",
    "Monoasm.C20_data",
    "Monoasm.C20_align8",
    "Monoasm.C20_stays"
   ],
   "note": ""
  },
  {
   "property": "C21",
   "status": "proved",
   "theorems": [
    "Monoasm.C21_tiles",
    "Monoasm.C21_append",
    "Monoasm.C21_all",
    "Monoasm.C21_panicked",
    "Monoasm.C21_panicked_wrong",
    "Monoasm.C21_others"
   ],
   "note": ""
  },
  {
   "property": "C22",
   "status": "proved",
   "theorems": [
    "Monoasm.C22_as_slice",
    "Monoasm.C22_index",
    "Monoasm.C22_in_page",
    "Monoasm.C22_index_slice",
    "Monoasm.C22_dump",
    "Monoasm.C22_before",
    "Monoasm.C22_listing",
    "Monoasm.C22_lines"
   ],
   "note": ""
  },
  {
   "property": "C23",
   "status": "partial",
   "theorems": [
    "Monoasm.C23_partial",
    "Monoasm.C23_page1",
    "Monoasm.C23_wrong"
   ],
   "note": "Proved while page 0 is selected (C23_partial). The code violates the claim while page 1 is selected: it compares with the selected page, so it rejects page 0 and accepts the data page (C23_wrong, C23_page1)."
  },
  {
   "property": "C24",
   "status": "proved",
   "theorems": [
    "Monoasm.C24_operand"
   ],
   "note": ""
  },
  {
   "property": "C25",
   "status": "partial",
   "theorems": [
    "Monoasm.C25_target",
    "Monoasm.C25_rip_partial",
    "Monoasm.C25_cvttsd2siq_partial",
    "Monoasm.C25_denotes",
    "Monoasm.C25_linkable",
    "Monoasm.C25_roundpd_wrong",
    "Monoasm.C25_roundpd_not_faithful"
   ],
   "note": "Proved for all instructions except roundpd with a label operand and cvttsd2siq. The code violates the claim for `roundpd xmm, [rip + label], imm`: the relocation offset ignores the trailing immediate byte, so the address is off by one (C25_roundpd_wrong, C25_roundpd_not_faithful)."
  },
  {
   "property": "C26",
   "status": "proved",
   "theorems": [
    "Monoasm.C26_value",
    "Monoasm.C26_shortest"
   ],
   "note": ""
  },
  {
   "property": "C27",
   "status": "proved",
   "theorems": [
    "Monoasm.C27_byte"
   ],
   "note": ""
  },
  {
   "property": "C28",
   "status": "proved",
   "theorems": [
    "Monoasm.C28_alu",
    "Monoasm.C28_denotes"
   ],
   "note": ""
  },
  {
   "property": "C29",
   "status": "proved",
   "theorems": [
    "Monoasm.C29_exact",
    "Monoasm.C29_or_panics",
    "Monoasm.C29_never"
   ],
   "note": ""
  },
  {
   "property": "C30",
   "status": "proved",
   "theorems": [
    "Monoasm.C30_move"
   ],
   "note": ""
  },
  {
   "property": "C31",
   "status": "proved",
   "theorems": [
    "Monoasm.C31_shift",
    "Monoasm.C31_not_cl"
   ],
   "note": ""
  },
  {
   "property": "C32",
   "status": "proved",
   "theorems": [
    "Monoasm.C32_arith"
   ],
   "note": ""
  },
  {
   "property": "C33",
   "status": "partial",
   "theorems": [
    "Monoasm.C33_sse_partial",
    "Monoasm.C33_roundpd_partial",
    "Monoasm.C33_movq",
    "Monoasm.C33_cvttsd2siq_wrong",
    "Monoasm.C33_cvttsd2siq_not_faithful"
   ],
   "note": "Proved for every SSE instruction except cvttsd2siq, which the code encodes without REX.W, i.e. as the 32-bit conversion (C33 theorems ending in wrong / not_faithful give a concrete witness), and roundpd with a label operand (see C25)."
  },
  {
   "property": "C34",
   "status": "proved",
   "theorems": [
    "Monoasm.C34_control",
    "Monoasm.C34_target",
    "Monoasm.C34_after_finalize"
   ],
   "note": ""
  },
  {
   "property": "C35",
   "status": "proved",
   "theorems": [
    "Monoasm.C35_named",
    "Monoasm.C35_encoded",
    "Monoasm.C35_only",
    "Monoasm.C35_alias",
    "Monoasm.C35_negated"
   ],
   "note": ""
  },
  {
   "property": "C36",
   "status": "partial",
   "theorems": [
    "Monoasm.C36_partial",
    "Monoasm.C36_encoded",
    "Monoasm.C36_as_written",
    "Monoasm.C36_assembles",
    "Monoasm.C36_linkable"
   ],
   "note": "Proved for all sequences except those containing cvttsd2siq (encoded wrongly, see C33) or roundpd with a label operand (see C25). C36_encoded says for all sequences, without exception, what the bytes are; C36_as_written shows that exactly the two excluded kinds differ from what is written."
  },
  {
   "property": "C37",
   "status": "proved",
   "theorems": [
    "Monoasm.C37_split",
    "Monoasm.C37_reject"
   ],
   "note": ""
  },
  {
   "property": "C38",
   "status": "partial",
   "theorems": [
    "Monoasm.C38_partial",
    "Monoasm.C38_rejects",
    "Monoasm.C38_index_dropped",
    "Monoasm.C38_rsp_index_wrong"
   ],
   "note": "Proved for all operand combinations except rsp as an index, which the code accepts and encodes as no index (witness C38_rsp_index_wrong; in general: C38_rejects, the statement must denote something without that index, and C38_index_dropped, its code is that of the statement without it), and computed registers outside 0..15 (see C39)."
  },
  {
   "property": "C39",
   "status": "partial",
   "theorems": [
    "Monoasm.C39_named_partial",
    "Monoasm.C39_number_partial",
    "Monoasm.C39_wrong",
    "Monoasm.C39_wrong_17",
    "Monoasm.C39_wraps",
    "Monoasm.C39_reduces",
    "Monoasm.C39_encoded",
    "Monoasm.C39_listing",
    "Monoasm.C39_xchg",
    "Monoasm.C39_index_partial"
   ],
   "note": "The first half is proved for all values; the second half is false of the code: the value is truncated to 8 bits and not range-checked (C39_wrong, C39_wrong_17; C39_wraps for every value whose low byte is below 16; C39_reduces: whatever is assembled is the code for the register numbers modulo 16; C39_encoded: every statement that is assembled denotes an instruction under this reading, with an index rsp left out, and its code is that of this instruction, up to the known errors of roundpd and cvttsd2siq, see C25 and C33; C39_listing: the same for whole calls; exchanges of two registers none of which has number 0 are apart, C39_xchg gives their code). Index registers whose low byte is 16 or more are rejected at run time (C39_index_partial)."
  },
  {
   "property": "C40",
   "status": "proved",
   "theorems": [
    "Monoasm.C40_names",
    "Monoasm.C40_dest",
    "Monoasm.C40_distinct"
   ],
   "note": ""
  },
  {
   "property": "C41",
   "status": "proved",
   "theorems": [
    "Monoasm.C41_roundtrip",
    "Monoasm.C41_sound",
    "Monoasm.C41_program",
    "Monoasm.C41_macro",
    "Monoasm.C41_unambiguous",
    "Monoasm.C41_expressible",
    "Monoasm.C41_print",
    "Monoasm.C41_normal"
   ],
   "note": ""
  },
  {
   "property": "C42",
   "status": "proved",
   "theorems": [
    "Monoasm.C42_factor",
    "Monoasm.C42_scale",
    "Monoasm.C42_unscaled",
    "Monoasm.C42_sign",
    "Monoasm.C42_sign_expr",
    "Monoasm.C42_encoded"
   ],
   "note": ""
  },
  {
   "property": "C43",
   "status": "partial",
   "theorems": [
    "Monoasm.C43_partial",
    "Monoasm.C43_violated",
    "Monoasm.C43_false"
   ],
   "note": "Proved for every entry of the README list except xchgl, xchgw and xchgb. Those are parsed but the code generator has unimplemented!() for them (C43_violated, C43_false). README entries are read with their natural operand form (Spec/Readme.lean)."
  },
  {
   "property": "C44",
   "status": "partial",
   "theorems": [
    "Monoasm.C44_encoded",
    "Monoasm.C44_partial",
    "Monoasm.C44_instruction",
    "Monoasm.C44_instruction_partial",
    "Monoasm.C44_label",
    "Monoasm.C44_bind",
    "Monoasm.C44_once",
    "Monoasm.C44_once_object"
   ],
   "note": "Proved for every statement list except those that contain roundpd with a label operand or cvttsd2siq, whose encodings are wrong (see C25, C33). C44_encoded and C44_instruction cover all statement lists: they say what each statement, including these two, is encoded as."
  },
  {
   "property": "C45",
   "status": "proved",
   "theorems": [
    "Monoasm.C45_slots",
    "Monoasm.C45_bytes",
    "Monoasm.C45_memory",
    "Monoasm.C45_records",
    "Monoasm.C45_addresses",
    "Monoasm.C45_outcome"
   ],
   "note": ""
  },
  {
   "property": "C46",
   "status": "proved",
   "theorems": [
    "Monoasm.C46_order",
    "Monoasm.C46_before",
    "Monoasm.C46_outcome",
    "Monoasm.C46_two_binders"
   ],
   "note": "Any two interleavings of the same per-page programs (statements refer to labels by variables, assigned once and before use) started in any reachable state: both get through finalize or none, with the same bytes, page records and label addresses. Assumes that no label is bound by statements for different pages; C46_two_binders shows two interleavings that differ when one is."
  },
  {
   "property": "C47",
   "status": "partial",
   "theorems": [
    "Monoasm.C47_scope_partial",
    "Monoasm.C47_once_partial",
    "Monoasm.C47_at_most_twice",
    "Monoasm.C47_values_partial",
    "Monoasm.C47_captured",
    "Monoasm.C47_captured_inside",
    "Monoasm.C47_captured_types",
    "Monoasm.C47_twice",
    "Monoasm.C47_repeats",
    "Monoasm.C47_messages"
   ],
   "note": "False in general: the expansion's variables jit, imm, rm_op, op1, op2 have call-site hygiene and capture user names (C47_captured, C47_captured_inside); movq R(e),imm / xchgq R,R / testq,testb R(e),imm evaluate the register expression twice (C47_twice). Proved: correct scope when these names are not used, exactly once for all other statements, at most twice always, and the assembled code equals compile on the values. Model: expressions do not assign to captured names; side effects and panics are treated in C66; the precedence of the unparenthesised `#e as i32` is treated in C71."
  },
  {
   "property": "C48",
   "status": "partial",
   "theorems": [
    "Monoasm.C48_clean_partial",
    "Monoasm.C48_word_wrong"
   ],
   "note": "Proved for all instructions other than the 16-bit ALU forms. For those the 0x66 prefix is emitted before the range check panics, so one stray byte remains (C48_word_wrong)."
  },
  {
   "property": "C49",
   "status": "partial",
   "theorems": [
    "Monoasm.C49_step_partial",
    "Monoasm.C49_partial",
    "Monoasm.C49_as_written",
    "Monoasm.C49_encoded",
    "Monoasm.C49_only_partial",
    "Monoasm.C49_operand"
   ],
   "note": "Each statement executes as its source meaning and runs of any length correspond step by step. For the reading `meaning` this is restricted to programs without cvttsd2siq and roundpd with a label operand, whose encodings are wrong (C33, C25); C49_encoded has no restriction and uses the instructions that the statements are encoded as. The effect of non-control instructions on registers and memory is a parameter."
  },
  {
   "property": "C50",
   "status": "proved",
   "theorems": [
    "Monoasm.C50_sub",
    "Monoasm.C50_add_sub",
    "Monoasm.C50_order",
    "Monoasm.C50_null",
    "Monoasm.C50_add",
    "Monoasm.C50_current",
    "Monoasm.C50_label",
    "Monoasm.C50_label_null"
   ],
   "note": ""
  },
  {
   "property": "C51",
   "status": "proved",
   "theorems": [
    "Monoasm.C51",
    "Monoasm.C51_clean",
    "Monoasm.C51_code",
    "Monoasm.C51_again"
   ],
   "note": ""
  },
  {
   "property": "C52",
   "status": "proved",
   "theorems": [
    "Monoasm.C52_check",
    "Monoasm.C52",
    "Monoasm.C52_step",
    "Monoasm.C52_step_encoded",
    "Monoasm.C52_label",
    "Monoasm.C52_const",
    "Monoasm.C52_datum",
    "Monoasm.C52_program_ok"
   ],
   "note": ""
  },
  {
   "property": "C53",
   "status": "proved",
   "theorems": [
    "Monoasm.C53_text",
    "Monoasm.C53_assembles",
    "Monoasm.C53",
    "Monoasm.C53_value",
    "Monoasm.C53_label"
   ],
   "note": ""
  },
  {
   "property": "C54",
   "status": "proved",
   "theorems": [
    "Monoasm.C54_udiv",
    "Monoasm.C54_idiv",
    "Monoasm.C54_idivl",
    "Monoasm.C54_idivl_rem",
    "Monoasm.C54_cdq",
    "Monoasm.C54_shll",
    "Monoasm.C54_shrl",
    "Monoasm.C54_sall",
    "Monoasm.C54_sarl",
    "Monoasm.C54_roll",
    "Monoasm.C54_rorl",
    "Monoasm.C54_lzcntl",
    "Monoasm.C54_tzcntl",
    "Monoasm.C54_popcntl",
    "Monoasm.C54_andpd",
    "Monoasm.C54_divl",
    "Monoasm.C54_divl_error",
    "Monoasm.C54_popcntq",
    "Monoasm.C54_lzcntq",
    "Monoasm.C54_tzcntq",
    "Monoasm.C54_xorpd",
    "Monoasm.C54_minsd",
    "Monoasm.C54_maxsd",
    "Monoasm.C54_roundpd",
    "Monoasm.C54_ceil"
   ],
   "note": ""
  },
  {
   "property": "C55",
   "status": "proved",
   "theorems": [
    "Monoasm.C55"
   ],
   "note": ""
  },
  {
   "property": "C56",
   "status": "partial",
   "theorems": [
    "Monoasm.C56_actual",
    "Monoasm.C56_partial",
    "Monoasm.C56_violated"
   ],
   "note": "The code violates the claim: cvttsd2siq is encoded as the 32-bit conversion (C33). C56_violated proves the negation (argument -1); C56_partial proves the claim for arguments whose integer part is in 0..2^31-1; C56_actual says what is computed for all arguments."
  },
  {
   "property": "C57",
   "status": "proved",
   "theorems": [
    "Monoasm.C57",
    "Monoasm.C57_jmp",
    "Monoasm.C57_call"
   ],
   "note": ""
  },
  {
   "property": "C58",
   "status": "proved",
   "theorems": [
    "Monoasm.C58_layout_iff",
    "Monoasm.C58_layout",
    "Monoasm.C58_pages",
    "Monoasm.C58_writes",
    "Monoasm.C58_patch",
    "Monoasm.C58_code",
    "Monoasm.C58_run",
    "Monoasm.C58_data"
   ],
   "note": ""
  },
  {
   "property": "C59",
   "status": "partial",
   "theorems": [
    "Monoasm.C59_exact",
    "Monoasm.C59_partial",
    "Monoasm.C59_violated",
    "Monoasm.C59_truncated",
    "Monoasm.C59_label"
   ],
   "note": "The code violates the claim: the value is converted by `as i32` without a check (parse.rs:487). C59_exact: the displacement is exact iff it fits in i32; C59_violated: a value that does not fit is assembled as another displacement; C59_label: the sign in front of a label is dropped. C59_partial proves the claim for values that fit."
  },
  {
   "property": "C60",
   "status": "proved",
   "theorems": [
    "Monoasm.C60_effect",
    "Monoasm.C60",
    "Monoasm.C60_program",
    "Monoasm.C60_runs",
    "Monoasm.C60_kinds"
   ],
   "note": ""
  },
  {
   "property": "C61",
   "status": "proved",
   "theorems": [
    "Monoasm.C61",
    "Monoasm.C61_written",
    "Monoasm.C61_back",
    "Monoasm.C61_position"
   ],
   "note": ""
  },
  {
   "property": "C62",
   "status": "proved",
   "theorems": [
    "Monoasm.C62_anywhere",
    "Monoasm.C62_exact",
    "Monoasm.C62_simple",
    "Monoasm.C62",
    "Monoasm.C62_step",
    "Monoasm.C62_label",
    "Monoasm.C62_flow",
    "Monoasm.C62_only",
    "Monoasm.C62_written",
    "Monoasm.C62_position",
    "Monoasm.C62_progress",
    "Monoasm.C62_program_ok"
   ],
   "note": ""
  },
  {
   "property": "C63",
   "status": "partial",
   "theorems": [
    "Monoasm.C63_reg",
    "Monoasm.C63_register",
    "Monoasm.C63_memory_partial",
    "Monoasm.C63_xmm",
    "Monoasm.C63_operand_partial",
    "Monoasm.C63_rmi_partial",
    "Monoasm.C63_ri_partial",
    "Monoasm.C63_xm_partial",
    "Monoasm.C63_mov_partial",
    "Monoasm.C63_sizes",
    "Monoasm.C63_rejected",
    "Monoasm.C63_named_partial",
    "Monoasm.C63_order",
    "Monoasm.C63_immediate",
    "Monoasm.C63_complaint_partial",
    "Monoasm.C63_index_lost",
    "Monoasm.C63_reading",
    "Monoasm.C63_index_wrong",
    "Monoasm.C63_label_wrong",
    "Monoasm.C63_size_wrong",
    "Monoasm.C63_imul_wrong",
    "Monoasm.C63_byte_wrong"
   ],
   "note": "The code violates the claim: the index of an address is not shown (C63_index_lost, C63_index_wrong), a label is shown like a variable (C63_label_wrong), an immediate with a size in no readable form (C63_size_wrong), the messages for imul and 8-bit arithmetic name nothing, that for movb says MOVW (C63_imul_wrong, C63_byte_wrong). C63_operand_partial, C63_rmi_partial, C63_ri_partial, C63_xm_partial, C63_mov_partial, C63_named_partial, C63_complaint_partial prove it otherwise."
  },
  {
   "property": "C64",
   "status": "proved",
   "theorems": [
    "Monoasm.C64_layout",
    "Monoasm.C64_complete",
    "Monoasm.C64_address",
    "Monoasm.C64",
    "Monoasm.C64_history",
    "Monoasm.C64_flow",
    "Monoasm.C64_again",
    "Monoasm.C64_last",
    "Monoasm.C64_undo",
    "Monoasm.C64_order",
    "Monoasm.C64_program_can",
    "Monoasm.C64_program_labels"
   ],
   "note": ""
  },
  {
   "property": "C65",
   "status": "proved",
   "theorems": [
    "Monoasm.C65_check",
    "Monoasm.C65_exact",
    "Monoasm.C65_unique",
    "Monoasm.C65_anywhere",
    "Monoasm.C65_step",
    "Monoasm.C65_flow",
    "Monoasm.C65_only",
    "Monoasm.C65_position",
    "Monoasm.C65_progress",
    "Monoasm.C65_history_ok"
   ],
   "note": ""
  },
  {
   "property": "C66",
   "status": "partial",
   "theorems": [
    "Monoasm.C66_order_partial",
    "Monoasm.C66_panic_partial",
    "Monoasm.C66_raises_partial",
    "Monoasm.C66_witness",
    "Monoasm.C66_mixed",
    "Monoasm.C66_stray",
    "Monoasm.C66_stray_harm",
    "Monoasm.C66_half",
    "Monoasm.C66_message"
   ],
   "note": "False in general: xchgq/testq/testb with a register expression that changes the world mix two evaluations (C66_mixed); a panic in an operand leaves the prefix byte 66/f2/f3 that the statement emitted before evaluating (C66_stray), which changes the next instruction (C66_stray_harm), and roundpd leaves all but its last byte (C66_half); panic messages evaluate expressions again (C66_message). Proved for all other statements without reserved names (xchgq/testq/testb included if their registers are evaluated without side effects; they may panic): a call succeeds exactly if evaluating and assembling statement by statement does, with the same code and world; a panic happens at the first statement whose evaluation or assembling panics, and leaves at most one byte of it, or a roundpd without its last byte."
  },
  {
   "property": "C67",
   "status": "partial",
   "theorems": [
    "Monoasm.C67_bytes",
    "Monoasm.C67_fields",
    "Monoasm.C67_objects",
    "Monoasm.C67_complete",
    "Monoasm.C67_code",
    "Monoasm.C67_labels",
    "Monoasm.C67_kept_partial",
    "Monoasm.C67_labels_lost",
    "Monoasm.C67_torn",
    "Monoasm.C67_second_loses",
    "Monoasm.C67_objects_lost"
   ],
   "note": "Proved: bytes that are complete keep their values whatever is called and panics afterwards (C67_bytes); such bytes are filled fields (C67_fields), objects that have been placed (C67_objects), and all code if no reference waits (C67_complete), so programs run as in C49 (C67_code); exactly when the labels survive (C67_labels), in particular if no call before panicked (C67_kept_partial). False in general: after a jump that did not fit on its page finalize loses all labels (C67_labels_lost) and overwrites a complete instruction (C67_torn); a second finalize after one that had no room loses all labels (C67_second_loses); objects that were not placed are forgotten (C67_objects_lost)."
  },
  {
   "property": "C68",
   "status": "partial",
   "theorems": [
    "Monoasm.C68_state",
    "Monoasm.C68_call",
    "Monoasm.C68_never",
    "Monoasm.C68_builds",
    "Monoasm.C68_addresses",
    "Monoasm.C68_include",
    "Monoasm.C68_offset",
    "Monoasm.C68_negate_partial",
    "Monoasm.C68_negate_violated",
    "Monoasm.C68_patch_violated"
   ],
   "note": "The memory manager is modelled a second time with 64-bit arithmetic, with and without overflow checks (Model/Machine.lean). Proved for all histories: the machine state is the state of the model (C68_state), each call has the outcome of the model (C68_call), no overflow and no pointer outside the address space (C68_never), so debug and release builds do the same (C68_builds); likewise for the functions that return addresses. The code violates the claim in the negation of a displacement, which overflows for -2^31 (C68_negate_violated; C68_negate_partial: only then). Outside the quantifier, patch points in the upper half of the address space make builds differ (C68_patch_violated)."
  },
  {
   "property": "C69",
   "status": "proved",
   "theorems": [
    "Monoasm.C69_call",
    "Monoasm.C69_records",
    "Monoasm.C69_bytes",
    "Monoasm.C69_outcome",
    "Monoasm.C69_addresses",
    "Monoasm.C69_intact",
    "Monoasm.C69_two"
   ],
   "note": ""
  },
  {
   "property": "C70",
   "status": "proved",
   "theorems": [
    "Monoasm.C70_length",
    "Monoasm.C70_nonempty",
    "Monoasm.C70_label",
    "Monoasm.C70_longest",
    "Monoasm.C70_program"
   ],
   "note": ""
  },
  {
   "property": "C71",
   "status": "partial",
   "theorems": [
    "Monoasm.C71_unambiguous",
    "Monoasm.C71_immediate",
    "Monoasm.C71_register",
    "Monoasm.C71_dq",
    "Monoasm.C71_literal",
    "Monoasm.C71_partial",
    "Monoasm.C71_unit_partial",
    "Monoasm.C71_i32_partial",
    "Monoasm.C71_modular_partial",
    "Monoasm.C71_model",
    "Monoasm.C71_violated",
    "Monoasm.C71_call_violated",
    "Monoasm.C71_untyped",
    "Monoasm.C71_float_partial",
    "Monoasm.C71_float_violated"
   ],
   "note": "Violated by the code: C71_violated (displacement (100 / n)), C71_call_violated, C71_float_violated (dq -1.5 has an expansion without a type). Proved: how all the places are read; immediates, registers and integer literals are units; displacements are right without binary operators outside parentheses, with i32 operands, and modulo 2^32 for modular arithmetic."
  },
  {
   "property": "C72",
   "status": "proved",
   "theorems": [
    "Monoasm.C72",
    "Monoasm.C72_back",
    "Monoasm.C72_inside",
    "Monoasm.C72_call",
    "Monoasm.C72_puts",
    "Monoasm.C72_function"
   ],
   "note": ""
  },
  {
   "property": "C73",
   "status": "proved",
   "theorems": [
    "Monoasm.C73_reader",
    "Monoasm.C73_expressions",
    "Monoasm.C73_macro",
    "Monoasm.C73_placed",
    "Monoasm.C73_places",
    "Monoasm.C73_effect",
    "Monoasm.C73_arguments",
    "Monoasm.C73_values"
   ],
   "note": ""
  },
  {
   "property": "C74",
   "status": "proved",
   "theorems": [
    "Monoasm.C74",
    "Monoasm.C74_back",
    "Monoasm.C74_intact",
    "Monoasm.C74_process",
    "Monoasm.C74_stable",
    "Monoasm.C74_calls",
    "Monoasm.C74_stub_ok",
    "Monoasm.C74_compiled_ok",
    "Monoasm.C74_lazy"
   ],
   "note": ""
  },
  {
   "property": "C75",
   "status": "proved",
   "theorems": [
    "Monoasm.C75_new",
    "Monoasm.C75_null",
    "Monoasm.C75_possible",
    "Monoasm.C75",
    "Monoasm.C75_bound"
   ],
   "note": ""
  },
  {
   "property": "C76",
   "status": "proved",
   "theorems": [
    "Monoasm.C76",
    "Monoasm.C76_holding",
    "Monoasm.C76_apart",
    "Monoasm.C76_new",
    "Monoasm.C76_loop_ok"
   ],
   "note": ""
  },
  {
   "property": "C77",
   "status": "partial",
   "theorems": [
    "Monoasm.C77_partial",
    "Monoasm.C77_jump_partial",
    "Monoasm.C77_call_partial",
    "Monoasm.C77_line",
    "Monoasm.C77_loops_ok",
    "Monoasm.C77_program_ok",
    "Monoasm.C77_patched_ok",
    "Monoasm.C77_torn"
   ],
   "note": "Violated by the code: C77_torn (a jump whose distance crosses a line of the cache, redirected from a label before it to one behind it: the other processor finds half of each distance and goes 64 kilobytes astray; patch points are not aligned). Proved when the four bytes are in one line (C77_line: the jump is not at the last bytes of a line): every step is one of the program before or after the patch; the jump goes to the old or to the new label."
  },
  {
   "property": "C78",
   "status": "proved",
   "theorems": [
    "Monoasm.C78",
    "Monoasm.C78_outcome",
    "Monoasm.C78_slice",
    "Monoasm.C78_appends",
    "Monoasm.C78_dump",
    "Monoasm.C78_written"
   ],
   "note": ""
  },
  {
   "property": "C79",
   "status": "partial",
   "theorems": [
    "Monoasm.C79_call_partial",
    "Monoasm.C79_safe_partial",
    "Monoasm.C79_apart_partial",
    "Monoasm.C79_alone_partial",
    "Monoasm.C79_back_partial",
    "Monoasm.C79_bases_ok",
    "Monoasm.C79_moved",
    "Monoasm.C79_corrupted"
   ],
   "note": "Violated by the code: labels and relocations name a page by its number. C79_moved (after an exchange a label has an address in the other allocation, where its code is not), C79_corrupted (finalize writes the distance of a jump over the code of the other JitMemory). Proved: calls other than patches never write outside the allocations (C79_call_partial, C79_safe_partial), no two pages share memory (C79_apart_partial), JitMemorys whose pages are not exchanged are not affected (C79_alone_partial)."
  },
  {
   "property": "C80",
   "status": "proved",
   "theorems": [
    "Monoasm.C80_exact",
    "Monoasm.C80_read",
    "Monoasm.C80_write",
    "Monoasm.C80_same",
    "Monoasm.C80_difference",
    "Monoasm.C80_across",
    "Monoasm.C80_back"
   ],
   "note": ""
  }
 ]
}