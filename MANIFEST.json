{
 "claims": [
  {
   "property": "C01",
   "status": "proved",
   "theorems": [
    "AT.Props.C01_mov_reg_reg"
   ],
   "note": ""
  },
  {
   "property": "C02",
   "status": "proved",
   "theorems": [
    "AT.Props.C02_mov_reg_imm"
   ],
   "note": ""
  },
  {
   "property": "C03",
   "status": "proved",
   "theorems": [
    "AT.Props.C03_push_pop_reg"
   ],
   "note": ""
  },
  {
   "property": "C04",
   "status": "partial",
   "theorems": [
    "AT.Props.C04_push_imm_partial",
    "AT.Props.C04_push_u8_iff",
    "AT.Props.C04_push_u32_iff",
    "AT.Props.C04_push_u16",
    "AT.Props.C04_false"
   ],
   "note": "False of the code for u8 >= 128 and u32 >= 2^31 (sign extension); exact iff proved, counterexample push 200."
  },
  {
   "property": "C05",
   "status": "partial",
   "theorems": [
    "AT.Props.C05_mem_partial",
    "AT.Props.C05_mem_iff",
    "AT.Props.C05_false",
    "AT.Props.C05_constructors"
   ],
   "note": "False of the code for base-register displacements 128..=256 and displacements >= 2^31; exact iff proved."
  },
  {
   "property": "C06",
   "status": "proved",
   "theorems": [
    "AT.Props.C06_encodes",
    "AT.Props.C06_constructors"
   ],
   "note": ""
  },
  {
   "property": "C07",
   "status": "proved",
   "theorems": [
    "AT.Props.C07_streams",
    "AT.Props.C07_boundaries"
   ],
   "note": "Streams whose push immediates/displacements are representable decode to the requested list; boundaries are recovered for all operands."
  },
  {
   "property": "C08",
   "status": "proved",
   "theorems": [
    "AT.Props.C08_injective",
    "AT.Props.C08_injective_reg_imm",
    "AT.Props.C08_aliasing"
   ],
   "note": ""
  },
  {
   "property": "C09",
   "status": "proved",
   "theorems": [
    "AT.Props.C09_offset_64",
    "AT.Props.C09_offset_32"
   ],
   "note": ""
  },
  {
   "property": "C10",
   "status": "proved",
   "theorems": [
    "AT.Props.C10_array",
    "AT.Props.C10_with_len",
    "AT.Props.C10_integers",
    "AT.Props.C10_queries"
   ],
   "note": ""
  },
  {
   "property": "C11",
   "status": "proved",
   "theorems": [
    "AT.Props.C11_rex"
   ],
   "note": ""
  },
  {
   "property": "C12",
   "status": "proved",
   "theorems": [
    "AT.Props.C12_encoder",
    "AT.Props.C12_buffers",
    "AT.Props.C12_modrm_setters",
    "AT.Props.C12_rex_setters"
   ],
   "note": ""
  },
  {
   "property": "C13",
   "status": "proved",
   "theorems": [
    "AT.Props.C13_header_roundtrip",
    "AT.Props.C13_other_magic_panics"
   ],
   "note": ""
  },
  {
   "property": "C14",
   "status": "proved",
   "theorems": [
    "AT.Props.C14_segment_roundtrip",
    "AT.Props.C14_segment_write_ok_iff"
   ],
   "note": ""
  },
  {
   "property": "C15",
   "status": "proved",
   "theorems": [
    "AT.Props.C15_section_roundtrip",
    "AT.Props.C15_section_write_ok_iff",
    "AT.Props.C15_attrs_same_set",
    "AT.Props.C15_nul_name_counterexample"
   ],
   "note": ""
  },
  {
   "property": "C16",
   "status": "proved",
   "theorems": [
    "AT.Props.C16_symtab_roundtrip",
    "AT.Props.C16_dysymtab_roundtrip",
    "AT.Props.C16_build_version_roundtrip",
    "AT.Props.C16_build_tool_roundtrip"
   ],
   "note": ""
  },
  {
   "property": "C17",
   "status": "proved",
   "theorems": [
    "AT.Props.C17_load_command_roundtrip",
    "AT.Props.C17_load_commands_roundtrip",
    "AT.Props.C17_load_command_fields"
   ],
   "note": ""
  },
  {
   "property": "C18",
   "status": "proved",
   "theorems": [
    "AT.Props.C18_nlist_roundtrip"
   ],
   "note": ""
  },
  {
   "property": "C19",
   "status": "partial",
   "theorems": [
    "AT.Props.C19_reloc_roundtrip_partial",
    "AT.Props.C19_counterexample"
   ],
   "note": "False of the code for r_symbolnum >= 2^24 or r_type >= 16 (bit fields overlap); the round trip is proved exact for exactly the other entries."
  },
  {
   "property": "C20",
   "status": "proved",
   "theorems": [
    "AT.Props.C20_sizes",
    "AT.Props.C20_load_command_size"
   ],
   "note": ""
  },
  {
   "property": "C21",
   "status": "proved",
   "theorems": [
    "AT.Props.C21_short_input_panics",
    "AT.Props.C21_truncated_load_command_panics",
    "AT.Props.C21_load_command_consumes"
   ],
   "note": ""
  },
  {
   "property": "C22",
   "status": "proved",
   "theorems": [
    "AT.Props.C22_string_table",
    "AT.Props.C22_non_ascii_panics"
   ],
   "note": ""
  },
  {
   "property": "C23",
   "status": "proved",
   "theorems": [
    "AT.Props.C23_flags_accepted",
    "AT.Props.C23_attrs_accepted",
    "AT.Props.C23_words_survive",
    "AT.Props.C23_sets_survive",
    "AT.Props.C23_push"
   ],
   "note": ""
  },
  {
   "property": "C24",
   "status": "proved",
   "theorems": [
    "AT.Props.C24_readers_reject_inconsistent",
    "AT.Props.C24_release_wraps"
   ],
   "note": ""
  },
  {
   "property": "C25",
   "status": "proved",
   "theorems": [
    "AT.Props.C25_aligned_u32",
    "AT.Props.C25_aligned_u64",
    "AT.Props.C25_past_u32",
    "AT.Props.C25_past_u64",
    "AT.Props.C25_zero_panics"
   ],
   "note": ""
  },
  {
   "property": "C26",
   "status": "proved",
   "theorems": [
    "AT.Props.C26_headers"
   ],
   "note": ""
  },
  {
   "property": "C27",
   "status": "proved",
   "theorems": [
    "AT.Props.C27_section_bytes"
   ],
   "note": ""
  },
  {
   "property": "C28",
   "status": "proved",
   "theorems": [
    "AT.Props.C28_relocations"
   ],
   "note": ""
  },
  {
   "property": "C29",
   "status": "proved",
   "theorems": [
    "AT.Props.C29_symbol_table",
    "AT.Props.C29_nul_counterexample"
   ],
   "note": "The counterexample is a name that is not found because it contains a NUL."
  },
  {
   "property": "C30",
   "status": "proved",
   "theorems": [
    "AT.Props.C30_relocation_targets"
   ],
   "note": ""
  },
  {
   "property": "C31",
   "status": "proved",
   "theorems": [
    "AT.Props.C31_tiling"
   ],
   "note": ""
  },
  {
   "property": "C32",
   "status": "proved",
   "theorems": [
    "AT.Props.C32_addresses"
   ],
   "note": ""
  },
  {
   "property": "C33",
   "status": "partial",
   "theorems": [
    "AT.Props.C33_no_symbol_lost_partial",
    "AT.Props.C33_counterexample"
   ],
   "note": "False of the code: symbols of sections without contents are dropped. Proved for the symbols of non-empty sections."
  },
  {
   "property": "C34",
   "status": "proved",
   "theorems": [
    "AT.Props.C34_write_ok_iff"
   ],
   "note": ""
  },
  {
   "property": "C35",
   "status": "proved",
   "theorems": [
    "AT.Props.C35_sink_failure",
    "AT.Props.C35_panic_prefix"
   ],
   "note": ""
  },
  {
   "property": "C36",
   "status": "partial",
   "theorems": [
    "AT.Props.C36_abs_entry_partial",
    "AT.Props.C36_counterexample"
   ],
   "note": "False of the code: Abs symbols always carry the ordinal of their section. Type, external bit and value are proved right."
  },
  {
   "property": "C37",
   "status": "proved",
   "theorems": [
    "AT.Props.C37_numbers",
    "AT.Props.C37_literals",
    "AT.Props.C37_parse_u64",
    "AT.Props.C37_unambiguous"
   ],
   "note": ""
  },
  {
   "property": "C38",
   "status": "proved",
   "theorems": [
    "AT.Props.C38_expressions",
    "AT.Props.C38_small",
    "AT.Props.C38_panics",
    "AT.Props.C38_not_constant",
    "AT.Props.C38_debug_counterexample"
   ],
   "note": ""
  },
  {
   "property": "C39",
   "status": "proved",
   "theorems": [
    "AT.Props.C39_parse_display",
    "AT.Props.C39_display_parse",
    "AT.Props.C39_one_width",
    "AT.Props.C39_not_number",
    "AT.Props.C39_names",
    "AT.Props.C39_printed",
    "AT.Props.C39_distinct"
   ],
   "note": ""
  },
  {
   "property": "C40",
   "status": "proved",
   "theorems": [
    "AT.Props.C40_white_space",
    "AT.Props.C40_comment",
    "AT.Props.C40_blanks",
    "AT.Props.C40_blank_comment"
   ],
   "note": ""
  },
  {
   "property": "C41",
   "status": "proved",
   "theorems": [
    "AT.Props.C41_empty",
    "AT.Props.C41_section",
    "AT.Props.C41_global",
    "AT.Props.C41_label",
    "AT.Props.C41_errors"
   ],
   "note": ""
  },
  {
   "property": "C42",
   "status": "proved",
   "theorems": [
    "AT.Props.C42_data",
    "AT.Props.C42_errors",
    "AT.Props.C42_too_large",
    "AT.Props.C42_storable",
    "AT.Props.C42_items_unique"
   ],
   "note": ""
  },
  {
   "property": "C43",
   "status": "proved",
   "theorems": [
    "AT.Props.C43_instruction_lines",
    "AT.Props.C43_mov_reg",
    "AT.Props.C43_mov_const",
    "AT.Props.C43_mov_sym",
    "AT.Props.C43_errors",
    "AT.Props.C43_tab_counterexample"
   ],
   "note": "with a tab directly after mov the line is rejected (C43_tab_counterexample)"
  },
  {
   "property": "C44",
   "status": "proved",
   "theorems": [
    "AT.Props.C44_lines",
    "AT.Props.C44_push_value",
    "AT.Props.C44_errors",
    "AT.Props.C43_instruction_lines",
    "AT.Props.C44_push_200_counterexample"
   ],
   "note": "push 200 pushes 2^64-56 (see also C04)"
  },
  {
   "property": "C45",
   "status": "proved",
   "theorems": [
    "AT.Props.C45_sections_and_labels",
    "AT.Props.C45_succeeds"
   ],
   "note": ""
  },
  {
   "property": "C46",
   "status": "proved",
   "theorems": [
    "AT.Props.C46_global",
    "AT.Props.C46_defined"
   ],
   "note": ""
  },
  {
   "property": "C47",
   "status": "proved",
   "theorems": [
    "AT.Props.C47_relocations",
    "AT.Props.C47_complete",
    "AT.Props.C47_in_order"
   ],
   "note": ""
  },
  {
   "property": "C48",
   "status": "proved",
   "theorems": [
    "AT.Props.C48_two_inputs"
   ],
   "note": ""
  },
  {
   "property": "C49",
   "status": "proved",
   "theorems": [
    "AT.Props.C49_reported",
    "AT.Props.C49_only"
   ],
   "note": ""
  },
  {
   "property": "C50",
   "status": "proved",
   "theorems": [
    "AT.Props.C50_bss_empty",
    "AT.Props.C50_stops"
   ],
   "note": ""
  },
  {
   "property": "C51",
   "status": "proved",
   "theorems": [
    "AT.Props.C51_config",
    "AT.Props.C51_cases"
   ],
   "note": "Every argument list falls in one of three cases (C51_cases); the replaced extension is specified for every path by Renamed and HasName (directory part, file name, trailing slashes)."
  },
  {
   "property": "C52",
   "status": "partial",
   "theorems": [
    "AT.Props.C52_only_output_changes_partial",
    "AT.Props.C52_counterexample",
    "AT.Props.C52_input_counterexample",
    "AT.Props.C52_result"
   ],
   "note": "False of the code: the output is truncated before the input is read, so a failing run empties it, and an input named *.o is its own default output. Proved: only the output file ever changes, and nothing changes when the files cannot be opened."
  },
  {
   "property": "C53",
   "status": "partial",
   "theorems": [
    "AT.Props.C53_end_to_end_partial",
    "AT.Props.C53_run",
    "AT.Props.C53_push_counterexample",
    "AT.Props.C53_label_counterexample",
    "AT.Props.C53_undefined_counterexample"
   ],
   "note": "Proved for all programs whose push constants are representable, whose names are ASCII and defined in a non-empty section. The claim is false of other sources (counterexamples)."
  },
  {
   "property": "C54",
   "status": "proved",
   "theorems": [
    "AT.Props.C54_link",
    "AT.Props.C54_disassembly",
    "AT.Props.C54_address"
   ],
   "note": "For every acceptable program and all section base addresses that the moves can hold."
  },
  {
   "property": "C55",
   "status": "proved",
   "theorems": [
    "AT.Props.C55_lines",
    "AT.Props.C55_chunking"
   ],
   "note": ""
  },
  {
   "property": "C56",
   "status": "partial",
   "theorems": [
    "AT.Props.C56_counterexample",
    "AT.Props.C56_no_extra_text_partial"
   ],
   "note": "false of the code: ret foo, push rax rbx, mov rax, 1 + 2 + 3 are accepted; proved for all other accepted lines"
  },
  {
   "property": "C57",
   "status": "partial",
   "theorems": [
    "AT.Props.C57_counterexample",
    "AT.Props.C57_symbol_instead",
    "AT.Props.C57_symbol_instead_32",
    "AT.Props.C57_rejected_partial"
   ],
   "note": "false of the code for every numeral >= 2^64 in 64- and 32-bit moves; proved for 16-bit moves, push, data and 32-bit moves of numerals below 2^64"
  },
  {
   "property": "C58",
   "status": "proved",
   "theorems": [
    "AT.Props.C58_layout"
   ],
   "note": ""
  },
  {
   "property": "C59",
   "status": "proved",
   "theorems": [
    "AT.Props.C59_rewrite_exact",
    "AT.Props.C59_rewrite_exact_named",
    "AT.Props.C59_stab_counterexample"
   ],
   "note": ""
  },
  {
   "property": "C60",
   "status": "proved",
   "theorems": [
    "AT.Props.C60_from_bytes",
    "AT.Props.C60_get_suffix"
   ],
   "note": ""
  },
  {
   "property": "C61",
   "status": "proved",
   "theorems": [
    "AT.Props.C61_never_exits",
    "AT.Props.C61_panics"
   ],
   "note": ""
  },
  {
   "property": "C62",
   "status": "proved",
   "theorems": [
    "AT.Props.C62_run"
   ],
   "note": "For programs acceptable in the sense of C53/C54; the processor is the one of Spec/X86 and Spec/X86Run, which are part of the trusted base."
  },
  {
   "property": "C63",
   "status": "proved",
   "theorems": [
    "AT.Props.C63_main",
    "AT.Props.C63_read_from",
    "AT.Props.C63_write_into",
    "AT.Props.C63_load_command",
    "AT.Props.C63_line"
   ],
   "note": "Build profiles differ in integer overflow only (the code has no debug_assert or cfg(debug_assertions))."
  },
  {
   "property": "C64",
   "status": "proved",
   "theorems": [
    "AT.Props.C64_succeeds_iff",
    "AT.Props.C64_fitting",
    "AT.Props.C64_debug",
    "AT.Props.C64_success_means"
   ],
   "note": "C64_success_means is for sources below 16 MiB without NUL bytes (the names in the file are those of the source)."
  },
  {
   "property": "C65",
   "status": "proved",
   "theorems": [
    "AT.Props.C65_same_object",
    "AT.Props.C65_same_file",
    "AT.Props.C65_empty_lines"
   ],
   "note": ""
  },
  {
   "property": "C66",
   "status": "proved",
   "theorems": [
    "AT.Props.C66_messages",
    "AT.Props.C66_unique",
    "AT.Props.C66_printed"
   ],
   "note": ""
  },
  {
   "property": "C67",
   "status": "proved",
   "theorems": [
    "AT.Props.C67_numbers",
    "AT.Props.C67_registers",
    "AT.Props.C67_tokens",
    "AT.Props.C67_narrow",
    "AT.Props.C67_constants",
    "AT.Props.C67_sections",
    "AT.Props.C67_globals",
    "AT.Props.C67_data",
    "AT.Props.C67_instructions",
    "AT.Props.C67_opcodes",
    "AT.Props.C67_lines"
   ],
   "note": "Token::parse_str is unimplemented!() in the code and panics (model: parseTokenStr)."
  },
  {
   "property": "C68",
   "status": "proved",
   "theorems": [
    "AT.Props.C68_codes",
    "AT.Props.C68_cpu"
   ],
   "note": ""
  },
  {
   "property": "C69",
   "status": "proved",
   "theorems": [
    "AT.Props.C69_rerun",
    "AT.Props.C69_depends_on_input",
    "AT.Props.C69_commute"
   ],
   "note": ""
  },
  {
   "property": "C70",
   "status": "proved",
   "theorems": [
    "AT.Props.C70_recover",
    "AT.Props.C70_recover_object",
    "AT.Props.C70_injective"
   ],
   "note": ""
  },
  {
   "property": "C71",
   "status": "proved",
   "theorems": [
    "AT.Props.C71_line",
    "AT.Props.C71_defined",
    "AT.Props.C71_complete",
    "AT.Props.C71_program",
    "AT.Props.C71_any_statements",
    "AT.Props.C71_normal_form",
    "AT.Props.C71_same_object",
    "AT.Props.C71_any_contents"
   ],
   "note": ""
  },
  {
   "property": "C72",
   "status": "proved",
   "theorems": [
    "AT.Props.C72_source",
    "AT.Props.C72_object",
    "AT.Props.C72_rename",
    "AT.Props.C72_image"
   ],
   "note": ""
  },
  {
   "property": "C73",
   "status": "partial",
   "theorems": [
    "AT.Props.C73_debug_partial",
    "AT.Props.C73_debug_exact_partial",
    "AT.Props.C73_release_counterexample",
    "AT.Props.C73_cast_counterexample"
   ],
   "note": "False of the code. `len() as u32` cuts: code of 2^32+n bytes is written by every build as if the segment had n bytes (C73_cast_counterexample). Release builds wrap all sums (C73_release_counterexample). Proved: in debug builds an object none of whose counts reaches 2^32 is written iff it fits the format and is expressible. What is written otherwise: C78. Exactly which objects debug builds refuse: C82."
  },
  {
   "property": "C74",
   "status": "proved",
   "theorems": [
    "AT.Props.C74_exact",
    "AT.Props.C74_addresses"
   ],
   "note": ""
  },
  {
   "property": "C75",
   "status": "proved",
   "theorems": [
    "AT.Props.C75_read_ok",
    "AT.Props.C75_read_failed",
    "AT.Props.C75_write",
    "AT.Props.C75_bad_argument",
    "AT.Props.C75_no_failure",
    "AT.Props.C75_main"
   ],
   "note": ""
  },
  {
   "property": "C76",
   "status": "proved",
   "theorems": [
    "AT.Props.C76_structures",
    "AT.Props.C76_relocations",
    "AT.Props.C76_file"
   ],
   "note": "For absolute symbols the specification has the section number the code writes (see C36 for the deviation from nlist.h)."
  },
  {
   "property": "C77",
   "status": "proved",
   "theorems": [
    "AT.Props.C77_readers",
    "AT.Props.C77_arrives",
    "AT.Props.C77_load_commands",
    "AT.Props.C77_structures",
    "AT.Props.C77_cut_short",
    "AT.Props.C77_cut_load_command"
   ],
   "note": "`Read::read_exact` is std's default implementation. A relocation entry is read back if it fits its bit fields (C19)."
  },
  {
   "property": "C78",
   "status": "proved",
   "theorems": [
    "AT.Props.C78_release",
    "AT.Props.C78_written",
    "AT.Props.C78_panics",
    "AT.Props.C78_names",
    "AT.Props.C78_numbers",
    "AT.Props.C78_fits"
   ],
   "note": "Complements C73: what is written when numbers do not fit. Expressible says that names are ASCII, lengths are coded and every relocation finds its name through the recorded offsets; C78_names relates it to Writable."
  },
  {
   "property": "C79",
   "status": "proved",
   "theorems": [
    "AT.Props.C79_assemble",
    "AT.Props.C79_kinds",
    "AT.Props.C79_run",
    "AT.Props.C79_complete"
   ],
   "note": "Completeness (all used symbols defined, ASCII labels) decides between writing the file and a panic of the writer; a panicking writer leaves the beginning of the file, up to the relocations."
  },
  {
   "property": "C80",
   "status": "proved",
   "theorems": [
    "AT.Props.C80_bytes",
    "AT.Props.C80_panics",
    "AT.Props.C80_lines"
   ],
   "note": "Where several encodings of an instruction are valid (C01 only requires a valid one) this fixes the one chosen."
  },
  {
   "property": "C81",
   "status": "proved",
   "theorems": [
    "AT.Props.C81_structures",
    "AT.Props.C81_load_command",
    "AT.Props.C81_string_table"
   ],
   "note": "With C77 this holds for every source of bytes, however it delivers them."
  },
  {
   "property": "C82",
   "status": "proved",
   "theorems": [
    "AT.Props.C82_result",
    "AT.Props.C82_output",
    "AT.Props.C82_run"
   ],
   "note": "With C78 (release builds) this determines result and output of the object writer for every object; it says exactly which of the objects that C73 speaks of are refused."
  },
  {
   "property": "C83",
   "status": "proved",
   "theorems": [
    "AT.Props.C83_table",
    "AT.Props.C83_byte",
    "AT.Props.C83_table_faithful",
    "AT.Props.C83_sets",
    "AT.Props.C83_sets_faithful"
   ],
   "note": "The builders of std::fmt are modelled as the loops they are; Debug of char is modelled for ASCII."
  },
  {
   "property": "C84",
   "status": "proved",
   "theorems": [
    "AT.Props.C84_reg64",
    "AT.Props.C84_narrow",
    "AT.Props.C84_distinct"
   ],
   "note": "Finitely many registers: complete case analysis against Intel's numbering (Spec/X86Meaning)."
  },
  {
   "property": "C85",
   "status": "proved",
   "theorems": [
    "AT.Props.C85_sections",
    "AT.Props.C85_globals",
    "AT.Props.C85_data",
    "AT.Props.C85_instructions"
   ],
   "note": "The lenient counterpart of C67; that of numbers, registers and constants is C37, C39 and C38."
  },
  {
   "property": "C86",
   "status": "proved",
   "theorems": [
    "AT.Props.C86_read_numbers",
    "AT.Props.C86_read_total",
    "AT.Props.C86_write_numbers",
    "AT.Props.C86_numbers_back",
    "AT.Props.C86_read_name",
    "AT.Props.C86_write_name",
    "AT.Props.C86_name_back"
   ],
   "note": "For inputs that arrive in pieces see C77."
  },
  {
   "property": "C87",
   "status": "proved",
   "theorems": [
    "AT.Props.C87_version",
    "AT.Props.C87_symbol_type",
    "AT.Props.C87_symbol_type_back",
    "AT.Props.C87_section_numbers"
   ],
   "note": "The codes of the single enumerations are C68, flag words C23."
  },
  {
   "property": "C88",
   "status": "proved",
   "theorems": [
    "AT.Props.C88_calls",
    "AT.Props.C88_order",
    "AT.Props.C88_sib",
    "AT.Props.C88_parts"
   ],
   "note": "What the ModRM, SIB and displacement bytes mean is part of C12 and C05."
  },
  {
   "property": "C89",
   "status": "proved",
   "theorems": [
    "AT.Props.C89_join",
    "AT.Props.C89_succeeds",
    "AT.Props.C89_errors"
   ],
   "note": "That feeding both sources one after the other to one assembler is the same is C48."
  },
  {
   "property": "C90",
   "status": "proved",
   "theorems": [
    "AT.Props.C90_symbols",
    "AT.Props.C90_symbols_mut"
   ],
   "note": "symbols_mut is modelled as a loop that replaces each symbol by a function of it."
  },
  {
   "property": "C91",
   "status": "proved",
   "theorems": [
    "AT.Props.C91_equal",
    "AT.Props.C91_edit",
    "AT.Props.C91_from"
   ],
   "note": "A change through as_mut is modelled as a function on the bytes that keeps their number."
  },
  {
   "property": "C92",
   "status": "proved",
   "theorems": [
    "AT.Props.C92_link",
    "AT.Props.C92_links_iff",
    "AT.Props.C92_sections",
    "AT.Props.C92_meaning"
   ],
   "note": "The linker is a specification of its own (Spec/LinkMany.lean); it handles X86_64_RELOC_UNSIGNED entries only. Fewer than 2^24 symbols per object."
  },
  {
   "property": "C93",
   "status": "proved",
   "theorems": [
    "AT.Props.C93_written_mac",
    "AT.Props.C93_read_mac",
    "AT.Props.C93_written_rest",
    "AT.Props.C93_read_rest",
    "AT.Props.C93_equal"
   ],
   "note": "Which characters std prints unescaped is a parameter; nothing is assumed about it. Debug of string tables is in C83."
  },
  {
   "property": "C94",
   "status": "proved",
   "theorems": [
    "AT.Props.C94_form",
    "AT.Props.C94_every",
    "AT.Props.C94_exactly"
   ],
   "note": "Exact for release builds; debug builds: every object obtained has the form, and every object of the form with fewer than 2^30 bytes and 2^30 symbols is obtained."
  },
  {
   "property": "C95",
   "status": "proved",
   "theorems": [
    "AT.Props.C95_session",
    "AT.Props.C95_write"
   ],
   "note": "Spec/Session.lean says what the calls are and which source says the same. In debug builds that source has fewer than 2^32 lines."
  },
  {
   "property": "C96",
   "status": "proved",
   "theorems": [
    "AT.Props.C96_link",
    "AT.Props.C96_run"
   ],
   "note": "Uses the linker of several files of C92 and the processor of C62. Sources are acceptable programs; to be run they hold no data in .text and push constants that push can push (C04)."
  },
  {
   "property": "C97",
   "status": "proved",
   "theorems": [
    "AT.Props.C97_one_complaint",
    "AT.Props.C97_status",
    "AT.Props.C97_no_failure",
    "AT.Props.C97_success",
    "AT.Props.C97_stderr",
    "AT.Props.C97_bad_argument"
   ],
   "note": "That a panic is status 101 and exit(1) is status 1 is the Rust runtime's (Model/Process.lean). eprintln! is one write_all of the message. Status 0 implies the file of the object for files shorter than 2^60 bytes; the text of panic messages is not modelled."
  },
  {
   "property": "C98",
   "status": "proved",
   "theorems": [
    "AT.Props.C98_together",
    "AT.Props.C98_ends",
    "AT.Props.C98_same_output"
   ],
   "note": "The steps are the system calls of main (Model/Steps.lean); reads and writes of a file are atomic, and a write into a file that another process emptied leaves zeros before it. A process alone is proved to do what the model of whole runs (C75) does."
  },
  {
   "property": "C99",
   "status": "proved",
   "theorems": [
    "AT.Props.C99_same_file",
    "AT.Props.C99_same_parts"
   ],
   "note": "SaySame (Spec/SameFile.lean) speaks of the lines of the sources only. Same file -> same parts by reading the file back (C70), magic number for the byte order; same parts -> same file because the file is determined byte by byte (C76)."
  },
  {
   "property": "C100",
   "status": "proved",
   "theorems": [
    "AT.Props.C100_as_if",
    "AT.Props.C100_undisturbed",
    "AT.Props.C100_torn"
   ],
   "note": "Others are arbitrary functions on the file system between the system calls. heard and pasted (Spec/Steps.lean) say what the reads amount to, with a position counter of their own. C100_torn is an existence statement, by a run evaluated in the kernel."
  },
  {
   "property": "C101",
   "status": "proved",
   "theorems": [
    "AT.Props.C101_any",
    "AT.Props.C101_usage",
    "AT.Props.C101_emptied"
   ],
   "note": "No hypothesis on what others do. Puts and Produces (Spec/Steps.lean) describe the effect of the run's own steps on the file system, Shut that an open finds no file or no permission."
  },
  {
   "property": "C102",
   "status": "proved",
   "theorems": [
    "AT.Props.C102_linear",
    "AT.Props.C102_sharp"
   ],
   "note": "Source, Asks and main as in C97. The lower bound is for the release build; the debug build stops at file sizes beyond 32 bits (C79)."
  },
  {
   "property": "C103",
   "status": "proved",
   "theorems": [
    "AT.Props.C103_ends",
    "AT.Props.C103_ends_if",
    "AT.Props.C103_endless"
   ],
   "note": "firstMoves (Spec/Steps.lean) are the first n moves of an endless sequence; among (Model/Steps.lean) as in C100 and C101."
  },
  {
   "property": "C104",
   "status": "proved",
   "theorems": [
    "AT.Props.C104_local",
    "AT.Props.C104_differs"
   ],
   "note": "Alike and placeOf are in Spec/Local.lean. Two sources that differ in an operand, a data item and a comment are shown to meet the hypotheses."
  },
  {
   "property": "C105",
   "status": "proved",
   "theorems": [
    "AT.Props.C105_killed",
    "AT.Props.C105_again",
    "AT.Props.C105_between"
   ],
   "note": "The runs are those of C98 (Model/Steps.lean); to be killed means to make no further step."
  },
  {
   "property": "C106",
   "status": "proved",
   "theorems": [
    "AT.Props.C106_calls",
    "AT.Props.C106_files",
    "AT.Props.C106_pieces",
    "AT.Props.C106_run",
    "AT.Props.C106_count"
   ],
   "note": "The calls are those of the steps of C98 (Model/Steps.lean) with their answers (Model/Calls.lean); open calls are not interrupted in the model."
  },
  {
   "property": "C107",
   "status": "proved",
   "theorems": [
    "AT.Props.C107_calls",
    "AT.Props.C107_outcome",
    "AT.Props.C107_ends"
   ],
   "note": "The steps and calls are those of C98 and C106. The bad line must be ended by a line end: a last line without one is only known to be complete at the end of the input."
  },
  {
   "property": "C108",
   "status": "proved",
   "theorems": [
    "AT.Props.C108_cut",
    "AT.Props.C108_run",
    "AT.Props.C108_shared"
   ],
   "note": "The check reads the file with the readers of C13-C17 and needs nothing but the file. An output left from before the run is not told from a new one."
  },
  {
   "property": "C109",
   "status": "proved",
   "theorems": [
    "AT.Props.C109_moment",
    "AT.Props.C109_end",
    "AT.Props.C109_one",
    "AT.Props.C109_result",
    "AT.Props.C109_ends"
   ],
   "note": "The steps are those of C98, which shows that runs with different results and one output can leave a mixture. The zeros are gaps: a run goes on at its own place in a file that another run has emptied."
  }
 ]
}
