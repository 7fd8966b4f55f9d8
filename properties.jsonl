{"id": "C01", "title": "mov reg,reg encodes the requested move", "statement": "For Mov<Reg16,Reg16>, Mov<Reg32,Reg32> and Mov<Reg64,Reg64>, bytecode() returns without panicking a byte string that an x86-64 decoder written from the Intel manual reads as exactly that move: same width, same destination, same source, and nothing left over.", "quantifier": "every width, every ordered pair of the 16 registers of that width, and every following byte string", "why_tests_cant": "the unit tests cover 9 of 768 register pairs and compare with hand-written bytes, not with a decoder", "anchors": ["at-x64/src/instruction/mov.rs: Mov<Reg16,Reg16>/<Reg32,Reg32>/<Reg64,Reg64>::bytecode", "at-x64/src/encoder/mod.rs: Encoder::encode", "at-x64/src/reg.rs"]}
{"id": "C02", "title": "mov reg,imm encodes the requested constant", "statement": "For Mov<Reg16,u16>, Mov<Reg32,u32> and Mov<Reg64,u64>, bytecode() returns without panicking a byte string that decodes to a move of exactly that immediate into exactly that register with that width.", "quantifier": "all 16 registers of each width and all 2^16 / 2^32 / 2^64 immediates", "why_tests_cant": "2^64 immediates cannot be enumerated", "anchors": ["at-x64/src/instruction/mov.rs: Mov<Reg16,u16>/<Reg32,u32>/<Reg64,u64>::bytecode", "at-x64/src/bytes.rs: From<u16>/From<u32>/From<u64>"]}
{"id": "C03", "title": "push/pop reg encode the requested register", "statement": "Push<Reg16>, Push<Reg64>, Pop<Reg16>, Pop<Reg64>: bytecode() decodes to push/pop of exactly that register with 16- or 64-bit operand size.", "quantifier": "all registers of both widths, every following byte string", "why_tests_cant": "tests cover two registers per form", "anchors": ["at-x64/src/instruction/push.rs", "at-x64/src/instruction/pop.rs"]}
{"id": "C04", "title": "push imm pushes the requested number", "statement": "After Push<u8>/Push<u16>/Push<u32> with value n executes, the word pushed (16 bits for u16, 64 bits otherwise) equals n.", "quantifier": "all immediates of each type", "why_tests_cant": "the failure (sign extension of 0x80..0xFF and of values >= 2^31) only shows for values the tests never use", "anchors": ["at-x64/src/instruction/push.rs: Push<u8>/<u16>/<u32>::bytecode", "at-asm/src/parsers/instruction/push.rs: parse_str"]}
{"id": "C05", "title": "memory operands address the requested location", "statement": "For Lea<Reg64,Mem64> and Mov<Mem64,Reg64>, decoding bytecode() yields the same register operand and a memory operand whose effective address, for every register file and instruction pointer, is base + index*2^scale + disp (RIP-relative: rip + disp) as documented on Mem64, with index RSP meaning no index.", "quantifier": "every Mem64 value (base, index, scale 0..3, every u32 displacement), every register, every register file", "why_tests_cant": "2^32 displacements times 16*16*4 shapes times register files; tests use displacement 0 and 42 only", "anchors": ["at-x64/src/mem.rs: Mem64", "at-x64/src/encoder/mod.rs: impl RegMemLike for Mem64 (mode, rm, sib, disp_bytes, rex_b, rex_x)", "at-x64/src/instruction/lea.rs", "at-x64/src/instruction/mov.rs: Mov<Mem64,Reg64>"]}
{"id": "C06", "title": "encoding never panics and never exceeds 15 bytes", "statement": "bytecode() of every instruction the crate exports, with operands built through the public constructors, returns normally with 1 to 15 bytes.", "quantifier": "all instruction types and all operand values reachable through public constructors", "why_tests_cant": "the asserts and the panic in Encoder/BytesAtMost are guarded by data-dependent conditions over the full operand space", "anchors": ["at-x64/src/encoder/bytecode.rs: ByteCode::to_bytes", "at-x64/src/encoder/mod.rs: Encoder::encode", "at-x64/src/bytes.rs: BytesAtMost::with_len"]}
{"id": "C07", "title": "machine code streams are self-delimiting", "statement": "Concatenating the encodings of any list of instructions and disassembling the result recovers every instruction boundary: there are as many instructions as in the list, each one what it decodes to on its own, and no other reading. If every displacement and push immediate is representable (C04, C05) the result is exactly that list of instructions, in order, and nothing else.", "quantifier": "all finite lists of instructions (of any length)", "why_tests_cant": "quantifies over unbounded instruction sequences", "anchors": ["at-x64/src/instruction/mod.rs: Instruction::bytecode", "at-asm/src/assembler.rs: SectionMut::write_bytes"]}
{"id": "C08", "title": "distinct instructions have distinct encodings", "statement": "If two exported register/immediate instructions (mov, push, pop, ret, syscall, lea/store with representable displacement) have equal bytecode() then they denote the same operation on the same operands.", "quantifier": "all pairs of instructions", "why_tests_cant": "pairwise over an infinite-for-practical-purposes domain", "anchors": ["at-x64/src/instruction/*.rs", "at-x64/src/encoder/mod.rs"]}
{"id": "C09", "title": "offset_to_imm_bytes points at the immediate", "statement": "For Mov<Reg32,u32> and Mov<Reg64,u64>, bytecode()[offset_to_imm_bytes()..] is exactly the little-endian immediate, so overwriting those bytes with another value v gives the encoding of the same mov with immediate v.", "quantifier": "all registers, all immediates, all replacement values", "why_tests_cant": "tests check only the length sum for four instructions", "anchors": ["at-x64/src/instruction/mov.rs: offset_to_imm_bytes", "at-asm/src/parsers/instruction/mov.rs: LocalReloc.offset"]}
{"id": "C10", "title": "BytesAtMost stores exactly what it was given or panics", "statement": "BytesAtMost::<MAX>::from of an N-byte array or of a u8/u16/u32/u64 panics exactly when the value needs more than MAX bytes; otherwise len() is the number of bytes and as_ref() is the array, respectively the little-endian bytes; with_len(n) is n zero bytes or a panic when n > MAX.", "quantifier": "every MAX, every array and integer", "why_tests_cant": "const-generic over every MAX and every value; the u16 conversion has a wrong assert that only the later check masks", "anchors": ["at-x64/src/bytes.rs: BytesAtMost"]}
{"id": "C11", "title": "REX prefix is emitted exactly when needed and in the right place", "statement": "An encoded instruction contains a REX byte iff it has 64-bit operand size by REX.W or names one of r8-r15; it immediately precedes the opcode and follows the 0x66 prefix; its W/R/X/B bits are the operand-size and high register bits.", "quantifier": "all instructions of the crate", "why_tests_cant": "needs all operand combinations, including index registers", "anchors": ["at-x64/src/encoder/mod.rs: Encoder::encode", "at-x64/src/encoder/bytecode.rs: Rex, ByteCode::to_bytes"]}
{"id": "C12", "title": "the encoder panics exactly on its documented misuse", "statement": "Encoder::encode panics iff an 8-byte immediate is given without REX.W, or the ModRM reg field exceeds 3 bits, or the SIB scale exceeds 2 bits, or the parts add up to more than 15 bytes; otherwise its output is prefix, REX, opcode, ModRM, SIB, displacement, immediate, in that order.", "quantifier": "every encoder configuration", "why_tests_cant": "combinatorial over optional parts and sizes", "anchors": ["at-x64/src/encoder/mod.rs: Encoder", "at-x64/src/encoder/bytecode.rs: ByteCode, ModRM, Sib"]}
{"id": "C13", "title": "Mach-O header round-trip on any pair of byte orders", "statement": "Header64::read_from applied to the bytes written by Header64::write_into on a host of either byte order, for a header whose magic is Magic64 or Magic, returns the same header (flags as an ordered set, magic seen as Cigam64/Cigam when the byte orders differ), reports the writer's byte order, and leaves the rest of the input untouched; a header written with any other magic makes the reader panic.", "quantifier": "all headers, both host byte orders for writer and for reader, all trailing input", "why_tests_cant": "the cross-endian path cannot run on a test host", "anchors": ["at-mac/src/header.rs: Header64::read_from, write_into", "at-mac/src/io.rs"]}
{"id": "C14", "title": "segment command round-trip", "statement": "SegmentCommand64::read_from_in(write_into(c)) = c and consumes exactly the written bytes, for every command with cmd = TYPE, cmdsize = SIZE + nsects*Section64::SIZE, and a NUL-free ASCII segment name of at most 16 bytes; any longer or non-ASCII name makes write_into panic.", "quantifier": "all field values, both byte orders, all trailing input", "why_tests_cant": "field space is 2^400", "anchors": ["at-mac/src/load_command/segment64.rs: SegmentCommand64", "at-mac/src/io.rs: write_fixed_size_string, read_fixed_size_string"]}
{"id": "C15", "title": "section header round-trip", "statement": "Section64::read_from_in(write_into(s)) returns s with its attribute list sorted by bit and de-duplicated, all other fields unchanged, for names that are NUL-free ASCII of at most 16 bytes.", "quantifier": "all field values, all attribute lists, both byte orders, all trailing input", "why_tests_cant": "attribute lists are unbounded; tests use the empty list", "anchors": ["at-mac/src/load_command/segment64.rs: Section64, SectionAttrs, SectionType"]}
{"id": "C16", "title": "symtab, dysymtab and build-version round-trip", "statement": "SymtabCommand, DysymtabCommand, BuildVersionCommand and BuildToolVersion are read back unchanged from what write_into wrote whenever cmd/cmdsize are the ones the format fixes, consuming exactly the written bytes.", "quantifier": "all field values, both byte orders, all trailing input", "why_tests_cant": "2^640 field values", "anchors": ["at-mac/src/load_command/symtab.rs", "at-mac/src/load_command/dysymtab.rs", "at-mac/src/load_command/build_version.rs"]}
{"id": "C17", "title": "load command round-trip through the dispatching reader", "statement": "LoadCommand::read_from_in(write_into(c)) = c (attributes normalised) for every well-formed load command, including a segment with any number of sections and a build version with any number of tools; a list of load commands written back to back is read back as that list.", "quantifier": "all well-formed load commands and lists of them, any number of sections/tools", "why_tests_cant": "unbounded nesting; the re-injection of the command word is a stateful trick", "anchors": ["at-mac/src/load_command/mod.rs: LoadCommand::read_from_in, write_into"]}
{"id": "C18", "title": "symbol table entry round-trip", "statement": "NList64::read_from_in(write_into(e)) = e for every entry, consuming exactly 16 bytes.", "quantifier": "all entries, both byte orders, all trailing input", "why_tests_cant": "2^120 entries", "anchors": ["at-mac/src/nlist.rs: NList64, NTypeField"]}
{"id": "C19", "title": "relocation entry round-trip", "statement": "RelocationInfo::read_from_in(write_into(r)) = r for every relocation entry, on hosts of both byte orders.", "quantifier": "all relocation entries, both byte orders", "why_tests_cant": "the packed bit fields overlap only for large symbol numbers/types (>= 2^24, >= 16)", "anchors": ["at-mac/src/reloc.rs: RelocationInfo::read_from_in, write_into (both cfg variants)"]}
{"id": "C20", "title": "serialized sizes equal the SIZE constants", "statement": "Every at-mac structure whose write_into returns normally writes exactly SIZE bytes (segment: SIZE + 80 per section when written as a load command; build version: + 8 per tool).", "quantifier": "all values of all structures", "why_tests_cant": "must hold for every value, including panicking ones", "anchors": ["at-mac/src/*: SIZE constants and write_into"]}
{"id": "C21", "title": "truncated files are never accepted", "statement": "Reading any at-mac structure from fewer bytes than its size panics; reading any well-formed load command (with its sections or tools) from a strict prefix of its serialization panics; whatever the input, a returned load command was completely present in it and exactly its bytes were consumed.", "quantifier": "all structures, all values, all truncation points, both byte orders", "why_tests_cant": "quantifies over all truncation points of all values", "anchors": ["at-mac/src/io.rs: ReadExt", "at-mac/src/header.rs, load_command/*.rs, nlist.rs, reloc.rs: read_from/read_from_in"]}
{"id": "C22", "title": "string table stores and returns every pushed name", "statement": "After any sequence of push_with_null of NUL-free ASCII strings onto with_null(), get at the offset where a string was pushed returns that string, get(0) is empty, iter() yields the pushed strings in order followed by one empty string, and len() is 1 + sum(len+1); a non-ASCII push panics.", "quantifier": "all sequences of pushes of any length", "why_tests_cant": "histories are unbounded", "anchors": ["at-mac/src/string_table.rs: StringTable"]}
{"id": "C23", "title": "flag sets survive as sets of bits", "statement": "Flags::from_u32 and SectionAttrs::from_u32 accept exactly the words made of known bits (attributes: of the bits 8-31) and panic on others; to_u32(from_u32(n)) = n (attributes: the bits 8-31 of n); from_u32(to_u32(l)) contains exactly the members of l, once each, in bit order. to_u32 after any sequence of pushes is the number with exactly the pushed bits: two sequences give the same number iff they pushed the same members, in any order and any number of times.", "quantifier": "all 2^32 words and all lists of flags", "why_tests_cant": "2^32 words and unbounded lists", "anchors": ["at-mac/src/header.rs: Flags", "at-mac/src/load_command/segment64.rs: SectionAttrs"]}
{"id": "C24", "title": "readers reject inconsistent commands", "statement": "Whatever bytes are read, a returned SegmentCommand64 has cmd = 0x19 and cmdsize = 72 + 80*nsects, a SymtabCommand has cmd = 2 and cmdsize = 24, a DysymtabCommand has cmd = 0xB and cmdsize = 80, a BuildVersionCommand has cmd = 0x32 and cmdsize = 24 + 8*ntools (modulo 2^32 in a release build).", "quantifier": "all input byte strings, both byte orders, debug and release builds", "why_tests_cant": "quantifies over arbitrary (hostile) input files", "anchors": ["at-mac/src/load_command/*.rs: read_from_in assert_eq"]}
{"id": "C25", "title": "aligned/padding compute the next multiple", "statement": "n.aligned(a) is the least multiple of a that is >= n and n.padding(a) is aligned(n) - n < a, for every a > 0 and every n whose next multiple fits the type; a = 0 panics. When the next multiple does not fit the type, a debug build panics in both; a release build returns the multiple less 2^32 (2^64) from aligned, which is below n, and from padding still the distance to the multiple itself.", "quantifier": "all u32/u64/usize values", "why_tests_cant": "2^128 pairs", "anchors": ["at-obj/src/num.rs: NumExt::aligned, padding"]}
{"id": "C26", "title": "object file header and load commands are self-consistent", "statement": "In the file written by macho::write_into, parsing with the at-mac readers gives an x86-64 MH_OBJECT header with n_cmds = 2 whose size_of_cmds is exactly the number of bytes of the two load commands that follow, a segment command listing exactly the non-empty sections, and a symtab command.", "quantifier": "all objects that fit the 32-bit file format", "why_tests_cant": "object contents are unbounded", "anchors": ["at-obj/src/macho.rs: gen_header64, gen_segment_command64, gen_section64s, gen_symtab_command, write_into"]}
{"id": "C27", "title": "each section's bytes are where its header says", "statement": "For each file-backed section header in the output, file[offset .. offset+size] equals the bytes of that section of the object; the segment's [fileoff, fileoff+filesize) covers exactly the section data plus padding to a multiple of 8.", "quantifier": "all objects that fit the 32-bit file format", "why_tests_cant": "object contents are unbounded", "anchors": ["at-obj/src/macho.rs: gen_section64s, write_section_data_into"]}
{"id": "C28", "title": "each section's relocation entries are where its header says", "statement": "For each section header, the nreloc 8-byte entries at file offset reloff are exactly the relocations of that section of the object, in order.", "quantifier": "all objects that fit the format and can be written (C34), fewer than 2^24 symbols", "why_tests_cant": "unbounded number of relocations", "anchors": ["at-obj/src/macho.rs: gen_section64s, gen_relocation_infos"]}
{"id": "C29", "title": "symbol table lists every symbol of the emitted sections", "statement": "The nsyms entries at symoff are, in section order then definition order, the symbols of the non-empty sections; each has the symbol's name at stroff + n_strx (if the name contains no NUL; otherwise n_strx is the size of the string table), its external bit, and for a Ref symbol the ordinal of its section and value = section address + offset.", "quantifier": "all objects that fit the format and can be written (C34)", "why_tests_cant": "unbounded numbers of symbols; name lookup by linear scan of the string table", "anchors": ["at-obj/src/macho.rs: gen_nlist64s, gen_string_table, gen_symtab_command"]}
{"id": "C30", "title": "relocations refer to the symbol they name", "statement": "Each emitted relocation entry's symbol index selects a symbol table entry whose name is the relocation's symbol name (the first such), with the address, pc-relative flag and length of the relocation.", "quantifier": "all objects that fit the format and can be written (C34), with NUL-free names, fewer than 2^24 symbols", "why_tests_cant": "unbounded; search over the symbol table", "anchors": ["at-obj/src/macho.rs: gen_relocation_infos, get_sym_idx"]}
{"id": "C31", "title": "the file regions tile the file", "statement": "Header, load commands, section data with padding, relocation entries, symbol entries and string table follow each other without gaps or overlap; the file ends exactly at stroff + strsize, and the string table begins and ends with NUL.", "quantifier": "all objects that fit the format and can be written (C34)", "why_tests_cant": "unbounded object contents", "anchors": ["at-obj/src/macho.rs: write_into, gen_symtab_command"]}
{"id": "C32", "title": "section addresses are contiguous and disjoint", "statement": "Section headers have addresses 0, size1, size1+size2, ...; distinct sections occupy disjoint address ranges and the segment vmsize is their total.", "quantifier": "all objects that fit the format", "why_tests_cant": "unbounded sizes", "anchors": ["at-obj/src/macho.rs: gen_section64s, gen_segment_command64"]}
{"id": "C33", "title": "no symbol is lost", "statement": "Every symbol of the object appears in the symbol table of the written file.", "quantifier": "all objects", "why_tests_cant": "fails only for symbols in sections that stay empty", "anchors": ["at-obj/src/object.rs: Sections::iter", "at-obj/src/macho.rs: gen_nlist64s"]}
{"id": "C34", "title": "writing fails only for the documented reasons", "statement": "For an object that fits the format, macho::write_into panics iff some emitted symbol name is not ASCII, or some relocation names no emitted symbol, or has a length code above 3. (A symbol whose name contains a NUL answers to the empty name only.)", "quantifier": "all objects that fit the format, debug and release builds", "why_tests_cant": "negative condition over unbounded objects", "anchors": ["at-obj/src/macho.rs: get_sym_idx unwrap", "at-mac/src/string_table.rs: push_with_null", "at-mac/src/reloc.rs: RelocLength::from_u32"]}
{"id": "C35", "title": "a failed write leaves a prefix of the intended file", "statement": "If the sink fails after any number k of bytes, exactly the first k bytes of the intended output are in it. If the writer panics on an object that fits the format, the bytes already written are a prefix of the file of every writable object of the same shape (same section contents and numbers of relocations, symbols and name bytes).", "quantifier": "all objects, all crash points k", "why_tests_cant": "all crash points", "anchors": ["at-obj/src/macho.rs: write_into", "at-mac/src/io.rs: WriteExt"]}
{"id": "C36", "title": "absolute symbols carry no section", "statement": "An Abs symbol is written with n_sect = NO_SECT as nlist.rs documents.", "quantifier": "all objects containing an Abs symbol", "why_tests_cant": "Abs symbols are never produced by the assembler, only through the library API", "anchors": ["at-obj/src/macho.rs: gen_nlist64s", "at-mac/src/nlist.rs: NType::Abs"]}
{"id": "C37", "title": "number literals denote their value", "statement": "u64/u32/u16/u8 parsing accepts a decimal literal or a 0x-prefixed hexadecimal literal (either case, leading zeros allowed) iff its value fits the type, and returns exactly that value; it rejects every other string except the documented oddities (leading '+', repeated 0x).", "quantifier": "all strings", "why_tests_cant": "infinitely many strings", "anchors": ["at-asm/src/parsers/num.rs: impl_parse_str"]}
{"id": "C38", "title": "operand expressions are evaluated correctly", "statement": "An operand 'a', 'a + b' or 'a - b' evaluates to the mathematical result modulo 2^64; in a debug build a sum or difference whose signed 64-bit computation overflows panics instead, a release build never does.", "quantifier": "all number literals a, b, all whitespace between them", "why_tests_cant": "overflow behaviour at i64 boundaries and build-mode dependence", "anchors": ["at-asm/src/parsers/expr.rs: Expr::try_parse_str"]}
{"id": "C39", "title": "register names round-trip", "statement": "Parsing the printed name of a register gives that register, every accepted register name is the printed name of the result, and no string is a register name of two widths. The names are Intel's: the accepted strings are exactly Intel's 48 names of the 16, 32 and 64-bit registers, each for the register with that hardware number, and registers of all four widths are printed under Intel's names, different registers differently.", "quantifier": "all registers of 8/16/32/64 bits and all strings", "why_tests_cant": "ranges over all strings", "anchors": ["at-asm/src/parsers/reg.rs", "at-x64/src/reg.rs: Display"]}
{"id": "C40", "title": "comments and surrounding blanks do not matter", "statement": "Line::parse_str gives the same result when anything following a ';' is appended, and when blanks are added at the end of the line or before its first token.", "quantifier": "all lines and all comments/blank strings (Unicode white space)", "why_tests_cant": "ranges over all strings", "anchors": ["at-asm/src/parsers/line.rs: Line::parse_str"]}
{"id": "C41", "title": "directives are recognised exactly", "statement": "A line is read as section s iff its tokens are 'section' and the section name; as global n iff its tokens are 'global', n; as label n iff it has a single token consisting of n and colons; as empty iff it has no token; other arguments of section/global are errors.", "quantifier": "all lines", "why_tests_cant": "ranges over all strings", "anchors": ["at-asm/src/parsers/line.rs", "at-asm/src/parsers/section.rs", "at-asm/src/parsers/global_symbol.rs"]}
{"id": "C42", "title": "data directives emit exactly the listed items", "statement": "db/dw/dd/dq followed by a list of numbers and quoted strings (separated by one comma or blank and any further blanks) emits, in order, each number little-endian in 1/2/4/8 bytes (an error if it does not fit) and each string's UTF-8 bytes padded with zeros to a multiple of the width.", "quantifier": "all item lists of any length, all widths, all strings without quote or semicolon", "why_tests_cant": "unbounded lists", "anchors": ["at-asm/src/parsers/data.rs: Data::try_parse_str, DataDefIter, write_num, write_str"]}
{"id": "C43", "title": "mov lines produce the mov they spell", "statement": "A line 'mov r, x' yields the encoding of mov of x into r where x is a register of the same width, a constant that fits, or a symbol (64/32-bit: zero immediate plus an absolute relocation of the immediate's size at the immediate's offset); constants that do not fit 32/16 bits are errors, as is anything else as the source of a 16-bit move or a destination that is no register. Blanks may stand around the operands; the mnemonic is followed by a space.", "quantifier": "all registers, constants, symbol names, and blank placements", "why_tests_cant": "infinitely many spellings", "anchors": ["at-asm/src/parsers/instruction/mov.rs: parse_str"]}
{"id": "C44", "title": "push/ret/syscall lines produce the instruction they spell", "statement": "'push r64', 'push n' (n < 2^32), 'ret' and 'syscall' lines yield the encoding of that instruction; the word pushed by 'push n' is n exactly when n < 128 or 256 <= n < 2^31 (otherwise the sign extension of the byte or 32-bit immediate); other push operands are errors.", "quantifier": "all registers, constants and blank placements", "why_tests_cant": "infinitely many spellings", "anchors": ["at-asm/src/parsers/instruction/push.rs", "at-asm/src/parsers/instruction/mod.rs"]}
{"id": "C45", "title": "labels get the address of what follows them", "statement": "After assembling, each label's symbol is in the section current at its line with value equal to the number of bytes emitted into that section by earlier lines, and each section's bytes are the concatenation, in order, of the bytes of the lines assembled in it.", "quantifier": "all programs of any length, with arbitrary section switches", "why_tests_cant": "unbounded programs", "anchors": ["at-asm/src/assembler.rs: Assembler::read_from"]}
{"id": "C46", "title": "global marking is order independent", "statement": "A defined symbol is external in the result iff some 'global' line anywhere in the input names it.", "quantifier": "all programs, global lines before or after the definition", "why_tests_cant": "unbounded programs and orders", "anchors": ["at-asm/src/assembler.rs: Assembler::read_from (ext_symbols)"]}
{"id": "C47", "title": "relocations point at the immediate of their instruction", "statement": "Each relocation the assembler records has as address the offset within its section of the zero immediate bytes of the mov that named the symbol, with the immediate's length.", "quantifier": "all programs below 2 GiB per section", "why_tests_cant": "unbounded programs", "anchors": ["at-asm/src/assembler.rs: Line::Instruction branch", "at-asm/src/parsers/instruction/mov.rs"]}
{"id": "C48", "title": "assembling in pieces equals assembling the whole", "statement": "read_from(a) followed by read_from(b) gives the same object as read_from of the concatenation, when a ends with a newline.", "quantifier": "all pairs of inputs", "why_tests_cant": "all ways of cutting all inputs", "anchors": ["at-asm/src/assembler.rs: Assembler::read_from", "at-asm/src/reader.rs: Reader::next_line"]}
{"id": "C49", "title": "the first bad line is reported with its number", "statement": "If assembling stops with a parse error, the reported line number is the 1-based number of the first line that does not parse, and the message is that line's; lines after it have no effect.", "quantifier": "all inputs", "why_tests_cant": "unbounded inputs", "anchors": ["at-asm/src/assembler.rs: read_from error branch"]}
{"id": "C50", "title": "nothing is ever stored in .bss", "statement": "Emitting bytes or a relocation while .bss is current stops the assembler; so in every result the bss size is 0 and it holds only symbols with address 0.", "quantifier": "all programs", "why_tests_cant": "unbounded programs", "anchors": ["at-asm/src/assembler.rs: SectionMut::write_bytes, push_reloc, size"]}
{"id": "C51", "title": "command line selects the right files", "statement": "With arguments 'prog -o out in' or 'prog in -o out' the input is in and the output out; with 'prog in' the output is in with the extension of its file name replaced by .o (a path without a file name stays as it is); with no or several inputs the program exits with an error; '-o' without value panics.", "quantifier": "all argument lists", "why_tests_cant": "all argument lists and path spellings", "anchors": ["at-asm/src/main.rs: Config::init"]}
{"id": "C52", "title": "a failed run does not damage existing files", "statement": "If assembling fails, the previous output file and the input file are unchanged.", "quantifier": "all inputs and file system states", "why_tests_cant": "depends on the order open/truncate/read/parse", "anchors": ["at-asm/src/main.rs: main"]}
{"id": "C53", "title": "end to end: the .o contains the program", "statement": "For every source consisting of mov/push/ret/syscall lines, labels and section .text/global lines, the written Mach-O file's __text section disassembles to exactly the source's instructions in order, and each label/global appears in its symbol table at the offset of the instruction that follows it.", "quantifier": "all such sources", "why_tests_cant": "unbounded programs through every layer", "anchors": ["at-asm/src/assembler.rs", "at-obj/src/macho.rs", "at-x64/src/instruction"]}
{"id": "C54", "title": "after linking, mov reg, symbol loads the symbol's address", "statement": "Applying each absolute relocation of the output (storing section base + symbol value into the 2^len bytes at its address) turns every 'mov reg, sym' into a move of exactly sym's address into reg and changes no other instruction.", "quantifier": "all programs with defined symbols, all load addresses (32-bit moves: below 2^32)", "why_tests_cant": "unbounded programs, all load addresses", "anchors": ["at-asm/src/assembler.rs", "at-obj/src/macho.rs: gen_relocation_infos", "at-x64/src/instruction/mov.rs"]}
{"id": "C55", "title": "short reads do not change the result", "statement": "The lines seen by the assembler depend only on the input bytes, not on how the reader delivers them in chunks; together they are the input cut after each newline; invalid UTF-8 in a line panics.", "quantifier": "all inputs and all chunkings", "why_tests_cant": "all schedules of short reads", "anchors": ["at-asm/src/reader.rs: Reader::next_line"]}
{"id": "C56", "title": "no operand text is silently ignored", "statement": "A line is accepted only if all of its tokens are meaningful: extra tokens after an operand, expression or instruction are an error.", "quantifier": "all lines", "why_tests_cant": "ranges over all strings", "anchors": ["at-asm/src/parsers/expr.rs", "at-asm/src/parsers/instruction/push.rs", "at-asm/src/parsers/instruction/mod.rs"]}
{"id": "C57", "title": "out-of-range numbers are errors", "statement": "'mov r64, n' with a numeral n >= 2^64 is rejected.", "quantifier": "all numerals", "why_tests_cant": "ranges over all numerals", "anchors": ["at-asm/src/parsers/instruction/mov.rs: symbol fallback", "at-asm/src/parsers/num.rs"]}
{"id": "C58", "title": "written structures have the documented layout", "statement": "Wherever the bytes written by write_into are placed in a file, each field of the structure is found at the offset, width and byte order that mach-o/loader.h, nlist.h and reloc.h document, with the documented numeric code for enums, flags, names and bit fields.", "quantifier": "all structures, all field values (relocation: symbol number < 2^24, type < 16), both host byte orders, all surrounding bytes", "why_tests_cant": "a writer and reader that agree with each other on a wrong layout pass every round-trip test", "anchors": ["at-mac/src/header.rs, load_command/*.rs, nlist.rs, reloc.rs: write_into"]}
{"id": "C59", "title": "reading and writing back reproduces the bytes", "statement": "If a structure is read from any input, writing the result back gives exactly the bytes consumed: header (host byte order), symtab, dysymtab, build version, build tool, relocation entry, non-debug symbol entry, and segment/section headers whose name fields are NUL-padded ASCII.", "quantifier": "all input byte strings, both byte orders", "why_tests_cant": "quantifies over arbitrary input files, not only files this program wrote", "anchors": ["at-mac/src/header.rs, load_command/*.rs, nlist.rs, reloc.rs: read_from_in, write_into"]}
{"id": "C60", "title": "string tables are accepted exactly when well formed", "statement": "StringTable::from(bytes) succeeds iff bytes is the content of a table built by pushing NUL-free ASCII strings, and gives that table; otherwise it panics. get at an offset inside a name returns the rest of the name; at offset 0 and at the end it returns the empty string; an offset past the end panics.", "quantifier": "all byte vectors, all offsets", "why_tests_cant": "all byte vectors read from a file", "anchors": ["at-mac/src/string_table.rs: From<Vec<u8>>, get"]}
{"id": "C61", "title": "parsing a line never aborts except on overflow in debug builds", "statement": "Line::parse_str returns a line or a ParseError for every text; it panics exactly for 'mov register, a op b' whose signed 64-bit computation overflows, and only in a debug build; it never exits the process.", "quantifier": "all texts, both build profiles", "why_tests_cant": "all texts; tests see only chosen lines", "anchors": ["at-asm/src/parsers/line.rs: parse_str", "at-asm/src/parsers/expr.rs", "at-asm/src/parsers/instruction/*.rs", "at-asm/src/parsers/data.rs"]}
{"id": "C62", "title": "the linked program runs like its source", "statement": "Put the linked __text of the written file in memory at its address and start the processor (fetch, decode, execute) at the place of any source line. Executing the instruction lines of the source from there on, one after the other, and the processor have the same effects on registers and memory, in both directions, until a ret (which returns to the caller) or the end of the code, as long as the code is not overwritten.", "quantifier": "all acceptable programs with representable push constants, all base addresses that fit, all initial registers and memories, all system call behaviours, runs of any length", "why_tests_cant": "quantifies over all programs, machine states and run lengths", "anchors": ["at-asm/src/assembler.rs, parsers/instruction/*.rs", "at-x64/src/instruction/*.rs", "at-obj/src/macho.rs"]}
{"id": "C63", "title": "debug and release builds do the same", "statement": "Unless the debug build panics, the release build ends in the same way (same result, same error message) and leaves the same files; the same holds for parsing a line, Assembler::read_from, the object writer and the load command reader. When the debug build of the object writer panics, what it has written is a beginning of what the release build writes.", "quantifier": "all command lines, file systems, inputs, objects and byte strings, both host byte orders", "why_tests_cant": "tests are run in one build profile", "anchors": ["at-asm/src/main.rs: main", "at-asm/src/assembler.rs", "at-asm/src/parsers/*.rs", "at-obj/src/macho.rs", "at-mac/src/string_table.rs", "at-mac/src/load_command/*.rs"]}
{"id": "C64", "title": "a run succeeds exactly for complete programs", "statement": "For a source of less than 64 MiB, read from a readable file and written to another, writable file: the run succeeds exactly if every line is accepted, nothing is stored in .bss, all labels in non-empty sections are ASCII, and every symbol that is used is defined by a label in a non-empty section (a label containing a NUL defines the empty name only). For larger sources this holds together with the overflow checks of the assembler if the file fits the format; in debug builds a source below 512 MiB whose file does not fit always fails. A run that succeeds has written the object file of the program in the source (C53).", "quantifier": "all sources below 64 MiB, and all whose file fits the format; all file systems, both build profiles, both host byte orders, all ways of splitting the reads", "why_tests_cant": "quantifies over all sources; the size limits of the format must be shown to be out of reach", "anchors": ["at-asm/src/main.rs: main", "at-asm/src/assembler.rs", "at-obj/src/macho.rs"]}
{"id": "C65", "title": "layout and order of sections do not matter", "statement": "Two sources that have the same lines (labels, data, instructions) in each section, in the same order within the section, and declare the same names global give the same object, and the program writes the same file for both: blank lines, comments, the number and order of section switches, the place of global declarations and the line ends make no difference.", "quantifier": "all pairs of accepted sources (the second below 2^32 lines in debug builds), both build profiles, both host byte orders", "why_tests_cant": "relates the outputs for infinitely many pairs of sources", "anchors": ["at-asm/src/assembler.rs: read_from, write_into", "at-asm/src/main.rs: main"]}
{"id": "C66", "title": "every rejected line gets the message of what is wrong with it", "statement": "Line::parse_str fails with a message exactly when the text before the comment is one of the listed wrong forms (section and global directives with a missing, unknown or extra word; a label followed by something; a data item that is no number, too large for the element, or an unclosed string, the first such item being reported; a mov with malformed operands, a bad constant, or a constant too large for the register, naming its value; a push without or with a bad operand; anything else), with the message of that form. The message is unique, and is what the program prints with the line number.", "quantifier": "all texts, both build profiles", "why_tests_cant": "ranges over all strings; tests cover single messages", "anchors": ["at-asm/src/parsers/line.rs: parse_str", "at-asm/src/parsers/section.rs", "at-asm/src/parsers/global_symbol.rs", "at-asm/src/parsers/data.rs", "at-asm/src/parsers/expr.rs", "at-asm/src/parsers/instruction/mov.rs", "at-asm/src/parsers/instruction/push.rs"]}
{"id": "C67", "title": "single constructs are parsed strictly", "statement": "ParseStr::parse_str of a number, register, constant expression, section or global declaration, data definition or instruction succeeds exactly on the texts of that construct, with the value written there, and otherwise fails with the message of what is wrong (a general message if the text does not begin like that construct). Only a constant that overflows, alone or as the operand of mov, in a debug build, panics instead. The parsers of mov and of push, on any text, do the same for a text whose first word is their opcode and reject every other text with a message of their own. The lenient parser of lines accepts exactly what the strict one does. The tokens of a constant are the two signs and the numbers below 2^64; the strict parser of tokens is not implemented and panics on every text. Read as 32 or 16 bits, a constant keeps its value or, if it does not fit, is refused.", "quantifier": "all texts, both build profiles", "why_tests_cant": "ranges over all strings; these parsers are exercised in tests only on a few of them", "anchors": ["at-asm/src/parsers/mod.rs: ParseStr", "at-asm/src/parsers/num.rs", "at-asm/src/parsers/reg.rs", "at-asm/src/parsers/expr.rs", "at-asm/src/parsers/section.rs", "at-asm/src/parsers/global_symbol.rs", "at-asm/src/parsers/data.rs", "at-asm/src/parsers/instruction/mod.rs", "at-asm/src/parsers/line.rs"]}
{"id": "C68", "title": "enumerations have the documented numbers", "statement": "Every enumeration (magic, file type, header flag, section type and attribute, platform, tool, symbol type, debug symbol, relocation length, i386 and x86-64 relocation type, processor type) is stored as the number that Apple's headers give it, and that number and no other is read back as it; other numbers are a panic.", "quantifier": "all values of the enumerations, all 8- and 32-bit numbers", "why_tests_cant": "round trip tests cannot notice a number that is wrong in both directions", "anchors": ["at-mac/src/header.rs", "at-mac/src/load_command/segment64.rs", "at-mac/src/load_command/build_version.rs", "at-mac/src/nlist.rs", "at-mac/src/reloc.rs"]}
{"id": "C69", "title": "runs are reproducible and independent", "statement": "Running the program a second time with the same arguments changes no file and ends in the same way, also after a failed run. How a run ends and what it leaves in the output file depend only on the contents of the input file (if it differs from the output): not on names, not on what the output or other files contained, not on how the input is split into reads. Runs that write different files and do not read each other's output give the same files in either order.", "quantifier": "all file systems, argument lists, inputs and ways of splitting reads, both build profiles, both host byte orders", "why_tests_cant": "relates several runs from arbitrary states; tests start from one state", "anchors": ["at-asm/src/main.rs: main", "at-asm/src/main.rs: Config::init", "at-asm/src/assembler.rs"]}
{"id": "C70", "title": "an object can be recovered from its file on any host", "statement": "Reading a written object file on a host of any byte order, with the at-mac readers, gives back the names, contents, symbols (name, kind, value, visibility) and relocations (address, symbol name, pc-relative flag, length) of all non-empty sections and the names of the undefined symbols. Hence objects without undefined symbols whose empty sections have no symbols and relocations are recovered completely, and two different ones never have the same file.", "quantifier": "all objects that fit the format and are written successfully, with names without NUL and less than 2^24 symbols; both byte orders of writer and reader, both build profiles", "why_tests_cant": "quantifies over all objects and is a statement about pairs of objects", "anchors": ["at-obj/src/macho.rs: write_into", "at-mac/src/header.rs: read_from", "at-mac/src/load_command/mod.rs: read_from_in", "at-mac/src/nlist.rs", "at-mac/src/reloc.rs"]}
{"id": "C71", "title": "every source has a canonical form; everything can be written", "statement": "Every statement of the language (label, section, global, data of any element size with numbers and strings, and each supported instruction) that obeys the lexical rules is read back from its canonical spelling (decimal numbers, single blanks) as that statement. Conversely every line that is accepted at all is one of these statements, so every accepted source can be rewritten canonically, is then read by both build profiles as the same lines, and gives the same object. For all byte strings t and d there is a source whose text section is t and whose data section is d.", "quantifier": "all statements, all accepted lines and sources, all byte strings, both build profiles, all splittings into reads", "why_tests_cant": "the round trip is over the infinite set of sources, and completeness says there is nothing else", "anchors": ["at-asm/src/parsers/line.rs", "at-asm/src/parsers/data.rs", "at-asm/src/parsers/expr.rs", "at-asm/src/parsers/instruction/mov.rs", "at-asm/src/parsers/instruction/mod.rs", "at-asm/src/assembler.rs"]}
{"id": "C72", "title": "names of symbols do not matter", "statement": "Write the same source with its symbols renamed, different symbols to different allowed names. The object is the same with the symbols renamed: same contents, same symbol order, values and visibility, same relocations. Linked at the same addresses, the two object files give the same bytes in the same sections.", "quantifier": "all sources, all renamings that keep the symbols of the source apart, all section addresses, both build profiles and byte orders", "why_tests_cant": "relates two runs on arbitrary sources under arbitrary renamings", "anchors": ["at-asm/src/assembler.rs", "at-asm/src/parsers/line.rs", "at-asm/src/parsers/data.rs", "at-asm/src/parsers/instruction/mov.rs", "at-obj/src/macho.rs: write_into"]}
{"id": "C73", "title": "objects too large for the format are refused", "statement": "If the object writer reports success, then every file offset and size fits the 32-bit field it is stored in and every address fits 64 bits; so all numbers in the file are the true ones. Otherwise the writer stops with a panic.", "quantifier": "all objects of any size, both build profiles and byte orders", "why_tests_cant": "the critical objects have gigabytes of contents or billions of symbols", "anchors": ["at-obj/src/macho.rs: gen_segment_command64", "at-obj/src/macho.rs: gen_section64s", "at-obj/src/macho.rs: gen_symtab_command", "at-obj/src/macho.rs: gen_nlist64s", "at-obj/src/object.rs: file_size"]}
{"id": "C74", "title": "assembling succeeds exactly for valid sources, at any size", "statement": "read_from returns normally exactly if every line is text that parses, nothing is stored in .bss, and, in debug builds only, there are fewer than 2^32 lines and no relocation lies at one of the first positions from 2 GiB on (modulo 4 GiB) at which the 32-bit address overflows. Each relocation is recorded with the low 32 bits of its offset, read with sign.", "quantifier": "all inputs of any size, all ways of splitting the reads, both build profiles", "why_tests_cant": "the limits are only met by sources of gigabytes", "anchors": ["at-asm/src/assembler.rs: read_from"]}
{"id": "C75", "title": "failing I/O never produces a wrong result silently", "statement": "However the operating system cuts, interrupts or fails the reads of the input and the writes of the output, a run either does exactly what it does with ideal I/O, or panics, leaving every file but the output as it was and in the output a prefix of the intended file. In particular exit status 0 means that the complete file was written, and an error message is always that of the first bad line. Short and interrupted reads and writes alone change nothing. If a read fails, the complete lines before it are still checked. An argument that is not UTF-8 stops the program before any file is touched.", "quantifier": "all sequences of results of read and write calls, all file systems, arguments, inputs and objects, both build profiles and byte orders", "why_tests_cant": "disk-full, EINTR and EIO cannot be produced at every point of every run in a test", "anchors": ["at-asm/src/reader.rs: next_line", "at-asm/src/assembler.rs: read_from", "at-asm/src/main.rs: main"]}
{"id": "C76", "title": "the format determines every written byte", "statement": "The documented Mach-O format leaves nothing open in what is written. For every structure of at-mac, the bytes written are the only ones of the documented size with the documented fields (a relocation entry with a symbol number or type too large for its bits: the fields together, overlapping). For every object that fits the format, a byte string is an object file of it - header, load commands, section contents at their places, zero padding, relocation entries, symbol entries and string table, each with its literal offset, width and number, and nothing after them - if and only if it is exactly the file the writer writes.", "quantifier": "all structures, all objects that fit the format (names without NUL, fewer than 2^24 symbols), all byte strings, both build profiles and byte orders", "why_tests_cant": "a test looks at the fields it knows of in the files it writes; unspecified or stray bytes and fields it does not look at go unnoticed", "anchors": ["at-obj/src/macho.rs: write_into", "at-mac/src/header.rs: Header64::write_into"]}
{"id": "C77", "title": "how the bytes arrive makes no difference to a reader", "statement": "Every reader of at-mac may be given any `Read`: one whose calls deliver fewer bytes than asked for, are interrupted, or fail. Its result depends only on the bytes delivered before the first failure or the end of the file: the same value, with the next reader continuing behind it, or the same panic, as when those bytes lie in a buffer. In particular load commands, headers, symbol entries and relocation entries that were written are read back from every `Read` that delivers them, however cut into pieces, even where the dispatching reader puts the command number back; and when reading fails or ends before a structure is complete, its reader panics instead of returning a value.", "quantifier": "all sequences of results of `read`, all structures, all lists of well-formed load commands, both byte orders and build profiles", "why_tests_cant": "tests read from byte slices and cursors, which deliver everything in one call and never fail; the ways of cutting a file into reads are unbounded", "anchors": ["at-mac/src/header.rs: Header64::read_from", "at-mac/src/load_command/mod.rs: LoadCommand::read_from_in", "at-mac/src/nlist.rs: NList64::read_from_in", "at-mac/src/reloc.rs: RelocationInfo::read_from_in"]}
{"id": "C78", "title": "what is written for objects of any size", "statement": "For objects of any size a release build of the object writer writes a file if names and relocations can be expressed and panics otherwise, and whenever either build writes a file it is the one file that has every section, padding byte, relocation, symbol and string at its true place, with each number it records (offsets, sizes, counts, addresses) being the true one modulo the width of its field (the segment's file size: modulo 2^32; a symbol number that exceeds its 24 bits in a relocation entry spills into the other bits, or is cut in big-endian files). A relocation refers to the first symbol whose recorded name offset leads to its name, which is the first symbol of that name if the names take less than 2^32 bytes. If the object fits the format, that is the file of C76.", "quantifier": "all objects with sections shorter than 2^64 bytes (the limit of a Vec), of any number of symbols and relocations and with any names; both byte orders", "why_tests_cant": "the objects meant have gigabytes of contents or addresses beyond 2^64; what wraps and what does not cannot be found out by small examples", "anchors": ["at-obj/src/macho.rs: write_into", "at-obj/src/macho.rs: gen_section64s", "at-obj/src/num.rs: NumExt::padding"]}
{"id": "C79", "title": "every input has exactly one outcome, down to the bytes written", "statement": "Every input either is a program that stores nothing in .bss and passes the overflow checks of the build, and then assembling gives exactly the object made of what its lines emit, its labels and its relocations; or it has a first line that stops the assembler - not UTF-8, a line number or constant or address that overflows in a debug build, a wrong line, something stored in .bss - and then assembling ends exactly as specified for that line. The command line program then leaves an empty output, or, if it succeeds, the one file whose every byte is determined from the source; for a program with an undefined symbol or a label that is not ASCII (names below 4 GiB in total; otherwise as in C78) it panics and leaves exactly the beginning of that file, up to the relocations (release builds, or sizes within the format); otherwise it panics.", "quantifier": "all inputs of any content and size (for the file: less than 2^60 bytes), both build profiles, both byte orders, all ways of splitting the reads, all file systems and arguments with an output different from the input", "why_tests_cant": "it is a complete specification of the program as a function of the source text; tests sample single inputs", "anchors": ["at-asm/src/assembler.rs: Assembler::read_from", "at-asm/src/assembler.rs: Assembler::write_into", "at-asm/src/main.rs: main"]}
{"id": "C80", "title": "the exact bytes of every instruction and the exact reading of every line", "statement": "The bytes that the encoder gives for an instruction are exactly the ones computed by a direct transcription of the Intel encoding rules (prefixes, REX, opcode, ModRM, SIB, displacement, immediate), and it panics exactly for the operands that have no encoding. A line of source text is accepted exactly if it says something in the source language - an empty line, a section, a global declaration, a label, data, an instruction - and is then read as exactly that, an instruction as exactly those bytes and, for the address of a symbol, exactly one absolute relocation at the place of the immediate.", "quantifier": "all instructions and operands; all texts of lines, both build profiles", "why_tests_cant": "it fixes every byte of every instruction and the meaning of every line; tests compare single instructions", "anchors": ["at-x64/src/instruction/mov.rs: bytecode", "at-x64/src/encoder/mod.rs: Encoder::encode", "at-asm/src/parsers/line.rs: parse_line"]}
{"id": "C81", "title": "the readers decode exactly the documented layout", "statement": "Given any bytes whatever, each reader of at-mac (header, segment, section, symtab, dysymtab, build version, tool, nlist, relocation, load command with its sections or tools) returns a value exactly when the bytes, by the field offsets and numbers of Apple's headers, stand for that value; it consumes exactly the bytes of the structure; and it panics when they stand for nothing. A name is the UTF-8 text before the first NUL of its field, whatever follows; flags and attributes come in bit order and unknown bits are refused; the magic number tells the byte order of the rest; only the mask 0xe0 of a debugging symbol's type byte is looked at. For a string table of any bytes, the string at an index, pushing and iterating are fixed in the same way.", "quantifier": "all byte strings, both byte orders, both build profiles", "why_tests_cant": "a test feeds a reader a few files; malformed and non-canonical input is practically unlimited", "anchors": ["at-mac/src/header.rs: Header64::read_from", "at-mac/src/load_command/mod.rs: LoadCommand::read_from_in", "at-mac/src/load_command/segment64.rs: Section64::read_from_in", "at-mac/src/nlist.rs: NList64::read_from_in", "at-mac/src/reloc.rs: RelocationInfo::read_from_in", "at-mac/src/string_table.rs: StringTable::get"]}
{"id": "C82", "title": "which objects a debug build writes, and what it leaves otherwise", "statement": "For objects of any size a debug build of the object writer succeeds exactly if (a) the sizes of the sections add up to less than 2^64, (b) the contents padded to 8 bytes, the offsets of symbols and strings, the size of the string table and the offset of each name, each computed from lengths and counts cast to 32 bits, are less than 2^32, (c) no symbol's address reaches 2^64, and (d) names and relocations can be expressed; otherwise it panics. What it has written then is exactly the beginning of what a release build writes: the header if the numbers of the segment fail, with the segment command if those of the sections fail, with the section headers if those of the symbol table fail, and everything before the relocations if symbols or relocations fail. The assembler in a debug build succeeds, and leaves a partial file, accordingly.", "quantifier": "all objects with sections shorter than 2^64 bytes, both byte orders; all source files shorter than 2^60 bytes for the program", "why_tests_cant": "the limits lie at 4 GiB and beyond; a test cannot build such objects, let alone all of them", "anchors": ["at-obj/src/macho.rs: write_into", "at-obj/src/macho.rs: gen_segment_command64", "at-obj/src/macho.rs: gen_section64s", "at-obj/src/macho.rs: gen_symtab_command", "at-obj/src/macho.rs: gen_nlist64s", "at-obj/src/num.rs: aligned", "at-asm/src/main.rs: main"]}
{"id": "C83", "title": "debug output shows exactly what is there", "statement": "The Debug output of a string table is the list of its bytes in order, in brackets, separated by commas ({:?}) or one per indented line ({:#?}): a NUL as an empty string, a printable character in quotes, quotes, backslashes and control characters escaped. The Debug output of Flags and SectionAttrs is the set of the pushed names in the order they were pushed. Two tables, flags or attributes with the same output are equal.", "quantifier": "all string tables made by with_null, push_with_null and From<Vec<u8>>, all sequences of pushes of flags and attributes, both styles", "why_tests_cant": "tables are unbounded; that no two of them look alike is a statement about all pairs", "anchors": ["at-mac/src/string_table.rs: Debug for StringTable", "at-mac/src/header.rs: Flags::push, Debug for Flags", "at-mac/src/load_command/segment64.rs: SectionAttrs::push, Debug for SectionAttrs"]}
{"id": "C84", "title": "the bits of a register", "statement": "register_code, reg_bits and rm_bits are the low three bits of the register's hardware number, is_extended, rex_r_bit and rex_b_bit its fourth bit, mode_bits is the register mode; to_reg64 and to_reg32 give the wider register of the same number. Code and extension bit together tell the registers of one width apart, and every combination is a register.", "quantifier": "all registers of 64, 32 and 16 bits", "why_tests_cant": "a wrong bit shows only in instructions that use that register in that position", "anchors": ["at-x64/src/reg.rs: Reg64", "at-x64/src/reg.rs: Reg32::to_reg64", "at-x64/src/reg.rs: Reg16::to_reg32"]}
{"id": "C85", "title": "which texts a parser passes over, and which it refuses", "statement": "ParseStr::try_parse_str answers Ok(None) exactly for texts that do not begin like the construct: for a section or global declaration, if the first word is not section or global; for data, if the text is not a directive, possibly after a label, with something behind it; for an instruction, if the first word is none of mov, push, ret, syscall. It answers Ok(Some) exactly for the texts of the construct, with the value written there, and Err with the message of what is wrong exactly for texts that begin like the construct but are not one (for mov of a constant that overflows in a debug build, it panics).", "quantifier": "all texts, both build profiles", "why_tests_cant": "a line is tried as one construct after the other; a text passed over or refused by the wrong parser shows only in combination with another construct", "anchors": ["at-asm/src/parsers/section.rs: try_parse_str", "at-asm/src/parsers/global_symbol.rs: try_parse_str", "at-asm/src/parsers/data.rs: try_parse_str", "at-asm/src/parsers/instruction/mod.rs: try_parse_str"]}
{"id": "C86", "title": "numbers and fixed-size names are read and written one by one", "statement": "read_u8 and read_u16/u32/i32/u64_in(e) return the number stored in the first 1, 2, 4, 4, 8 bytes in byte order e and leave the rest of the input; they panic exactly if the input is shorter. write_u8 and write_*_native write exactly that many bytes, the number in host order (negative numbers modulo 2^32), and what was written is read back. read_fixed_size_string(size) takes exactly size bytes and returns the UTF-8 text before the first NUL, panicking exactly if the input is shorter or the text is not UTF-8; write_fixed_size_string writes the characters and zeros up to size, panicking without writing exactly if a character is not ASCII or there are more than size; a name is read back up to its first NUL.", "quantifier": "all inputs, numbers, strings, sizes, and both byte orders", "why_tests_cant": "each primitive is used at a few offsets by tests; signs, byte order and unterminated names need all values", "anchors": ["at-mac/src/io.rs: ReadExt", "at-mac/src/io.rs: WriteExt"]}
{"id": "C87", "title": "versions and symbol type bytes", "statement": "Version::to_u32 is major*2^16 + minor*2^8 + release, and from_u32 and to_u32 are inverse bijections. NTypeField::from_u8 returns a symbol with type t, private-external flag p and external flag x exactly for the byte 16p + code(t) + x, a debugging symbol exactly for the bytes 32 to 63, and panics exactly for the bytes from 64 and those below 32 whose bits 1-3 are no type; to_u8 gives that byte (32 for the debugging symbol) and from_u8(to_u8(t)) = t. NO_SECT is 0, every other byte is a section number, and MAX_SECT is the largest, 255.", "quantifier": "all 2^32 version words, all versions, all bytes and all symbol types", "why_tests_cant": "packing and masking errors only show for particular combinations of the fields", "anchors": ["at-mac/src/load_command/build_version.rs: Version", "at-mac/src/nlist.rs: NTypeField"]}
{"id": "C88", "title": "the encoder builds what the last calls asked for", "statement": "For every sequence of builder calls (prefix, rex_w, rex_b, opcode, mod_rm with any of the operand types, imm with an array or an unsigned number) on Encoder::new(), followed by encode(): if some opcode has more than 3 bytes or some immediate more than 8 it panics; otherwise the result is the one C12 describes for the parts given by the last call of each kind, with nothing for a part that no call concerned, so that calls of different kinds can be made in any order. Sib::new stores its three numbers in their fields and panics exactly if one does not fit; ByteCode::to_bytes is prefix, REX, opcode, ModRM, SIB, displacement and immediate one after the other, and panics exactly for more than 15 bytes.", "quantifier": "all finite sequences of calls with all arguments; all numbers; all combinations of parts", "why_tests_cant": "the instructions use a handful of fixed call orders; that a later call does not disturb an earlier one cannot be seen from them", "anchors": ["at-x64/src/encoder/mod.rs: Encoder", "at-x64/src/encoder/bytecode.rs: ByteCode::to_bytes", "at-x64/src/encoder/bytecode.rs: Sib::new"]}
{"id": "C89", "title": "assembling two sources together joins their objects", "statement": "If one source ends with a newline and leaves .text the current section, then assembling it followed by a second source gives the object of the first followed by that of the second, section by section: contents appended, the second's symbols and relocations moved by the size of the first's section, names declared global in either source external in both. Release builds can assemble the two together exactly if they can assemble each; if the first is wrong the error is the same, if only the second is wrong the error is its own with the line number increased by the lines of the first.", "quantifier": "all pairs of sources of any size, all ways of splitting the reads; debug builds for the object if the whole stays within the checked counters", "why_tests_cant": "tests assemble single small files; offsets into sections that already have contents, and global declarations across parts, are easily confused with those of the part", "anchors": ["at-asm/src/assembler.rs: Assembler::read_from", "at-asm/src/assembler.rs: SectionMut"]}
{"id": "C90", "title": "the symbols of an object, listed and changed in place", "statement": "Object::symbols lists the symbols of the code section, then those of the data section, then those of the bss section, each section's in order, with none left out or added; a new object has none. A loop over Object::symbols_mut that replaces each symbol by a function of it replaces the symbol at every position of that list by its image, leaves every symbol in its section, and changes no contents, size or relocation.", "quantifier": "all objects, all functions on symbols", "why_tests_cant": "ranges over all objects and all changes; a section left out of one of the two chains shows only on objects with symbols there", "anchors": ["at-obj/src/object.rs: Object::symbols", "at-obj/src/object.rs: Object::symbols_mut"]}
{"id": "C91", "title": "buffers of bytes: equality, change in place, conversions", "statement": "Two BytesAtMost values obtained through the public functions (with_len, the From conversions, and any changes through as_mut) compare equal with == exactly if as_ref gives the same bytes for both; what lies behind the length never matters. A change through as_mut changes exactly what as_ref gives, and keeps len, which is the length of as_ref and at most MAX. Converting a number is converting the array of its little-endian bytes, and with_len(n) is converting n zero bytes, in value and in when they panic.", "quantifier": "all MAX, all buffers reachable by any sequence of the public functions, all length-keeping changes of the bytes, all numbers of the four widths", "why_tests_cant": "ranges over all capacities and all histories of a buffer; equality is derived over the whole array, so a stray byte behind the length shows only for particular pairs", "anchors": ["at-x64/src/bytes.rs: BytesAtMost", "at-x64/src/bytes.rs: as_mut", "at-x64/src/bytes.rs: From"]}
{"id": "C92", "title": "object files written separately link together", "statement": "Take any objects that fit the format, with ASCII names without NUL and with relocations that name one of their own symbols (defined or undefined). Write each with Object::write_into on a host of any byte order. A linker that reads the files with the at-mac readers, given any addresses for the sections of the files, produces for every section of every file the same bytes as linking the objects themselves, and refuses the files exactly if it refuses the objects: a section's bytes are unchanged outside of the places of its relocations, and at each place (not overlapped by another) the number in it is increased by the address of the relocation's symbol, which is the first symbol of that name in the object: the address of its section plus its offset, its absolute value, or, if it is undefined there, the address of the external symbol of that name in whichever of the other objects defines it. Linking succeeds exactly if no external name is defined twice, and every relocation is absolute, lies in its section and names a symbol defined somewhere.", "quantifier": "all lists of objects, all hosts and profiles of the writers and of the reader, all load addresses", "why_tests_cant": "ranges over any number of files and all their symbols and addresses; a wrong symbol number, section number or address shows only for particular combinations of files", "anchors": ["at-obj/src/macho.rs: write_into", "at-obj/src/object.rs: Symbol", "at-mac/src/nlist.rs: NList64::read_from_in", "at-mac/src/reloc.rs: RelocationInfo::read_from_in"]}
{"id": "C93", "title": "debug output of every value shows all of it", "statement": "{:?} of a value of any type of the four crates is the name of its type or variant with all fields in the order they are declared, on one line: `Name { field: value, … }`, `Name(value, …)`, `[…]` for lists, `{…}` for flag and attribute sets, strings in quotes with quotes, backslashes, control characters and unprintable characters escaped. {:#?} is the same with every item on lines of its own, indented by four columns per level and followed by a comma. In both styles what is shown tells the value: two values of a type that are shown alike are equal, and inside of a larger output one can tell where a value ends.", "quantifier": "all values of all 41 types with a derived Debug and of Flags and SectionAttrs, both styles, whatever characters std takes for printable", "why_tests_cant": "the strings and lists are unbounded, and whether two different values are shown alike is a statement about all pairs of values", "anchors": ["at-mac/src/header.rs: Header64", "at-mac/src/load_command/mod.rs: LoadCommand", "at-mac/src/reloc.rs: RelocationInfo", "at-mac/src/nlist.rs: NList64", "at-obj/src/object.rs: Symbol", "at-x64/src/mem.rs: Mem64", "at-x64/src/bytes.rs: BytesAtMost", "at-asm/src/parsers/data.rs: Data", "at-asm/src/parsers/mod.rs: ParseError"]}
{"id": "C94", "title": "which objects a source can give", "statement": "The objects that assembling can give are exactly these. The relocations of a section are those of instructions that load the address of a symbol: each is absolute and lies at the zeros of the bytes 48/49 B8-BF and eight zeros (length 3) or B8-BF and four zeros (length 2), and the instructions do not overlap and come in the order of the relocations. The symbols of a section are labels in the order of their offsets, at most the size of the section and never inside of such an instruction, with allowed names; a name is external everywhere or nowhere. .bss has size 0 and its symbols the offset 0. Nothing else about the contents is restricted. Every object of this form is assembled from some source: by release builds always, by debug builds if it has fewer than 2^30 bytes and symbols.", "quantifier": "all sources, and all objects", "why_tests_cant": "that no source at all gives a certain object, and that every object of an unbounded family has a source, are statements about all sources and all objects", "anchors": ["at-asm/src/assembler.rs: Assembler::read_from", "at-asm/src/parsers/instruction/mov.rs: parse_str", "at-obj/src/object.rs: Object"]}
{"id": "C95", "title": "an assembler used by several calls", "statement": "An assembler on which sections are selected with set_cur_sect and sources are read with read_from, in any order and any number, holds the object of one source: the sources one after the other, with a line \"section <name>\" for every selection. It writes the same file. It stops the program exactly if reading that one source does, and with the same message, except that its line number does not count the selections before it. Every source but the last has to end at the end of a line; in debug builds the one source has fewer than 2^32 lines.", "quantifier": "all sequences of calls, all sources, any splitting of the sources into reads, both build profiles", "why_tests_cant": "sequences of calls and sources are unbounded; a test makes a few calls", "anchors": ["at-asm/src/assembler.rs: Assembler::set_cur_sect, Assembler::read_from, Assembler::write_into"]}
{"id": "C96", "title": "sources assembled separately are linked and run as one program", "statement": "Assemble any number of acceptable sources, each by its own run on a host of any byte order, and link the files at any addresses. Linking succeeds exactly if no name that one of the sources declares global is defined twice; labels that are not global may have the same name in several sources. Each section of each file then becomes what it becomes when the file is linked alone. Put the code of the sources one after the other in memory and start the processor at any line of any of them: it executes the instruction lines of that source from there on and then those of the following sources, each loading the addresses of its own symbols, and nothing else, until a ret (which returns to the caller) or the end of the code, as long as the code is not overwritten.", "quantifier": "all lists of acceptable sources, all builds and hosts that assemble them, all load addresses that fit, all initial registers and memories, all system call behaviours, runs of any length", "why_tests_cant": "ranges over any number of sources, addresses, machine states and run lengths", "anchors": ["at-asm/src/assembler.rs: Assembler::read_from, write_into", "at-obj/src/macho.rs: write_into", "at-x64/src/instruction/*.rs"]}
{"id": "C97", "title": "the exit status and standard error tell how a run ended", "statement": "Whatever the operating system does with the reads of the input, the writes of the output and the writes to standard error, a run of the assembler ends with status 0, 1 or 101. Status 0: nothing was printed, the arguments name a source that is a program, and the output file holds the object of that program (every other file is as it was). Status 1: there is a complaint, either about the arguments (no input file, or too many arguments) or about the first bad line of the source; the files are what they are after the run with ideal I/O, and standard error got exactly the complaint (nothing if it is closed). Status 101: the runtime reported a panic, before which nothing was printed or, if standard error failed, the beginning of the complaint. There is at most one complaint about a run; if no I/O fails the status is 1 exactly if there is one and 0 exactly if the run succeeds. How standard error behaves never changes what happens to the files.", "quantifier": "all argument lists (also ones that are not UTF-8), file systems, sources, build profiles and hosts, and all behaviours of reads, writes and standard error", "why_tests_cant": "ranges over all sources, arguments, file systems and I/O failures", "anchors": ["at-asm/src/main.rs: main, Config::init", "at-asm/src/assembler.rs: read_from error branch, write_bytes"]}
{"id": "C98", "title": "runs that go on at the same time do not disturb each other", "statement": "Any number of runs of the assembler go on at the same time on one file system, their system calls (open, read, write) interleaved in any order and answered with short transfers, interruptions or failures. If they write different files and none reads what another writes, every run that is done has ended as it does alone with ideal I/O and its output file holds what it then holds; or, if one of its own calls failed, it panicked and its output file holds the beginning of that. Files that are nobody's output never change. A run that gets on again and again comes to an end, whatever the others do. The condition is needed: two runs with the same output, all of whose calls succeed, can both end with success and leave a file that neither of them leaves alone.", "quantifier": "all numbers of runs, arguments and file systems, all interleavings and answers of the operating system, both build profiles, both host byte orders", "why_tests_cant": "ranges over all interleavings of any number of processes", "anchors": ["at-asm/src/main.rs: main", "at-asm/src/reader.rs: next_line", "at-asm/src/assembler.rs: read_from, write_into"]}
{"id": "C99", "title": "two sources give the same file exactly if they say the same", "statement": "Two sources that the assembler accepts (within the limits of the file format, labels ASCII without NUL, symbols defined) are assembled into the same file, byte for byte, exactly if the assemblers run on hosts of the same byte order and the sources say the same: the same bytes in every section, and in every section that is not empty the same labels at the same offsets in the same order, the same of them global, and the same references (offset, symbol, width) in the same order. So the file tells all this, and nothing else in the source (spelling of numbers, instructions written as data, layout, comments, labels of empty sections, declarations of other names, build profile, chunking of reads, paths) has any influence on it.", "quantifier": "all pairs of acceptable sources of any length, all argument lists and file systems, all ways of reading in chunks, both build profiles, both host byte orders", "why_tests_cant": "ranges over all pairs of programs", "anchors": ["at-asm/src/assembler.rs: read_from, write_into", "at-obj/src/macho.rs: write_into", "at-asm/src/main.rs: main"]}
{"id": "C100", "title": "whatever other programs do to the input during a run, the run is as on one fixed source", "statement": "While a run of at-asm goes on, other programs change the contents of its input file and of any other files except its output, at any moments between its system calls. The run ends as it does alone with ideal I/O on a fixed input: the bytes its reads delivered, in order, with a line end wherever a read met the end of the file within a line. Same exit code, same message, same output file; or, if a system call of the run itself failed, it panicked and the output holds a beginning of that. If the others leave the input alone too, the fixed input is the input. In general it need not be the input at any moment: a program appends to the input while a run goes on, the input before and after are fine and give the same file, and the run succeeds with another file.", "quantifier": "all argument lists, file systems and input bytes, all sequences of system calls with any sizes, interruptions and failures, all changes by other programs (any functions on the file system that keep paths, permissions and the output file), any number of them at any moments, both build profiles, both host byte orders", "why_tests_cant": "ranges over all interleavings with arbitrary other programs", "anchors": ["at-asm/src/main.rs: main", "at-asm/src/reader.rs: next_line", "at-asm/src/assembler.rs: read_from, write_into"]}
{"id": "C101", "title": "whatever other programs do to any file, the run reads and writes as on one fixed source", "statement": "While a run of at-asm goes on, other programs do anything to the file system between its system calls: change contents, also of the output, paths and permissions. Three cases. (1) At some moment the input could not be opened for reading or the output for writing; the run panics and has not changed anything. (2) All that the run does to the files is to empty the file to which the output path leads at that moment, and to write bytes one after the other into this file from its start on; its end (exit code, message) and the bytes are those of a run alone with ideal I/O on a fixed input, the bytes its reads delivered, with a line end wherever a read met the end of the file within a line. (3) A system call of the run failed; it panics and has written a beginning of that. A run whose arguments ask for nothing ends as alone and changes nothing. It does not matter whether input and output are the same file. In particular, if another program empties the output file while the run writes, what was written before is lost, the rest goes where it would have gone with zeros before it, and the run ends as if nothing had happened.", "quantifier": "all argument lists, file systems and input bytes, all sequences of system calls with any sizes, interruptions and failures, all functions on the file system as changes by others, any number of them at any moments, both build profiles, both host byte orders", "why_tests_cant": "ranges over all interleavings with arbitrary other programs", "anchors": ["at-asm/src/main.rs: main", "at-asm/src/reader.rs: next_line", "at-asm/src/assembler.rs: read_from, write_into"]}
{"id": "C102", "title": "the output is at most linear in the source, with a known factor", "statement": "However a run of at-asm on a source of n bytes ends, the output file is left with at most (17 n + 609) / 2 bytes. No line, repeated label or relocation can make it grow faster. The factor cannot be improved: a source of 4 + 2 k bytes, a ret and k labels with the empty name, becomes a file of 217 + 17 k bytes, for every k.", "quantifier": "all sources below 2^60 bytes, all argument lists and file systems in which the files can be opened, all ways to deliver the input in pieces, both build profiles, both host byte orders; all k below 2^58", "why_tests_cant": "a bound on the size for all sources and the family that meets it", "anchors": ["at-asm/src/main.rs: main", "at-asm/src/assembler.rs: read_from, write_into", "at-obj/src/macho.rs: write_into"]}
{"id": "C103", "title": "a run ends whatever other programs do, unless they make its input grow for ever", "statement": "While a run of at-asm goes on, other programs change the file system between its system calls, without end. If the system calls of the run are not interrupted for ever, and there is a limit to the lengths of the files to which the input path ever leads, the run comes to an end. In particular it ends if the others leave the paths alone and never leave the input, which is not the output, with more than L bytes. The limit is needed: if another program appends a blank to the input before each read, the run reads for ever, in both build profiles.", "quantifier": "all argument lists, file systems and endless sequences of system calls with any sizes, interruptions and failures, all functions on the file system as changes by others, any number of them at any moments, both build profiles, both host byte orders", "why_tests_cant": "termination under all endless interleavings with arbitrary other programs", "anchors": ["at-asm/src/main.rs: main", "at-asm/src/reader.rs: next_line", "at-asm/src/assembler.rs: read_from, write_into"]}
{"id": "C104", "title": "a change in some lines changes only their bytes in the output", "statement": "Let two sources that the assembler accepts have as many lines, and let each line of one differ from the same line of the other at most in the bytes it emits: it emits as many, and it defines the same label, asks for the same relocation, switches to the same section and declares the same name global. Then at-asm ends in the same way for both, and the two output files have the same length. Each line has its bytes at the same place in both files, given by a formula, and all bytes of the files that come from no line are the same. If the run succeeds, the files differ exactly at the places of the bytes in which the lines differ.", "quantifier": "all pairs of sources whose lines are alike in this sense, with any number of changed lines, of any size below 2^60 bytes, all file systems and argument lists with an input and an output, all ways to split the reads, both build profiles (also if writing the object panics), both host byte orders", "why_tests_cant": "relates two runs for all pairs of sources; a header field, symbol or pad byte that depends on contents would show only for particular contents", "anchors": ["at-asm/src/main.rs: main", "at-asm/src/assembler.rs: read_from", "at-obj/src/object.rs: Object", "at-obj/src/macho.rs: write_into"]}
{"id": "C105", "title": "runs that are killed can be repeated", "statement": "Any number of runs of the assembler go on at the same time on one file system, writing different files and not reading what others write, and are killed at any moment, also between two writes. The output file of each run is then as it was before, or it holds a beginning of what the run leaves when it goes on alone with ideal I/O. A run with the same arguments after that, if its files can be opened and its input is not its output, ends as it would have ended in the beginning (success, exit code, message) and leaves the same output. The replacement of an old output is not atomic: a run can be killed when its output is neither the old nor the new one.", "quantifier": "all numbers of runs, arguments and file systems, all interleavings of system calls and answers of the operating system (short transfers, interruptions, failures), all moments, both build profiles, both host byte orders", "why_tests_cant": "ranges over all moments of all interleavings of any number of processes", "anchors": ["at-asm/src/main.rs: main", "at-asm/src/reader.rs: next_line", "at-asm/src/assembler.rs: read_from, write_into"]}
{"id": "C106", "title": "the system calls of a run", "statement": "Whatever other programs do to the files meanwhile, a run of the assembler makes its system calls in one order: it opens the input for reading, then the output for writing, then it only reads the input, each read at the place where the last one ended, and then it only writes the output, each write at the place where the last one ended; it reads nothing after the first write, and no call follows one that was refused or failed, while an interrupted call is made again. A run changes the files by these calls and by nothing else. The bytes handed to write are the fields of the object file one by one: there is no buffering, and there are as many pieces as the format has fields that are not empty, of the sizes of these fields. A run alone that succeeds reads the source once from its beginning to its end, meets the end once (twice if the last line has no line end), and makes, not counting the interrupted ones, at most as many calls as source and output have bytes and four more; if no write is cut short there is one write for each field.", "quantifier": "all arguments, file systems and contents of files, all answers of the operating system (short transfers, interruptions, failures, refusals), all changes by other programs at any moment, all lengths of runs, both build profiles, both host byte orders", "why_tests_cant": "ranges over all answers of the operating system at all calls and all interleavings with other programs", "anchors": ["at-asm/src/main.rs: main", "at-asm/src/reader.rs: next_line", "at-asm/src/assembler.rs: read_from, write_into", "at-obj/src/macho.rs: write_into", "at-mac/src/io.rs: WriteExt"]}
{"id": "C107", "title": "a run ends at the first bad line, whatever follows it", "statement": "The input begins with whole lines of which the assembler refuses one. Then, whatever follows them, even if other programs change the rest of the input or make it grow for ever, and whatever they do to the other files, a run of the assembler reads only from places within these lines (what comes with them in one read aside), makes at most as many calls as these lines have bytes and two more (not counting interrupted ones), and never writes a byte. It ends after at most twice as many steps as these lines have bytes and three more, with the exit code and the message that these lines alone give; only a call that is refused or fails makes it end in another way.", "quantifier": "all beginnings of the input that end with a line end and are refused, all continuations, all changes by other programs to the rest at any moment, all answers of the operating system (short reads, interruptions, failures), all argument lists and file systems in which input and output are different files, both build profiles, both host byte orders", "why_tests_cant": "ranges over inputs that never end and over all interleavings with other programs", "anchors": ["at-asm/src/main.rs: main", "at-asm/src/reader.rs: next_line", "at-asm/src/assembler.rs: read_from"]}
{"id": "C108", "title": "an incomplete output can be recognised", "statement": "Call a file whole if the reader of at-mac reads its header and its two load commands, a segment and a symbol table, and the file ends exactly where the symbol table command says that the string table ends. Of the files that the object writer leaves after any number of bytes, whether it was stopped, panicked or finished, only the complete file of a write that succeeded is whole. For the assembler: at any moment of runs that do not share files, killed or not, the output file of a run is what it was before the run, or it is whole exactly if the run succeeds and this is everything it writes. That the runs have different outputs is needed: while two runs of one command go on, their output can look whole and have a gap in the middle.", "quantifier": "all objects that fit the format (for the assembler: all sources of less than 64 MiB, malformed ones included), all numbers of bytes after which writing stops, all argument lists and file systems, any number of runs taking turns at their system calls in any order, all answers of the operating system, both build profiles and both byte orders of the writing host and, independently, of the reading one", "why_tests_cant": "a test kills a run at a few moments with one source; this is about every moment and every source, and about no partial file being mistaken for a whole one", "anchors": ["at-obj/src/macho.rs: write_into, gen_symtab_command", "at-asm/src/main.rs: main", "at-mac/src/header.rs: Header64::read_from", "at-mac/src/load_command/mod.rs: LoadCommand::read_from_in"]}
{"id": "C109", "title": "runs that are to write the same may write it at the same time", "statement": "Any number of runs write the same output file at the same time, in any order of their system calls (the same command started several times, say, or sources that assemble to the same file), and alone each would leave the same bytes W. At any moment the file is what it was before, or it is no longer than W and each of its bytes is the byte that W has there or zero. When all of them have ended, and no call failed or every run succeeded, the file is exactly W and each run has ended as it would have alone. That one of them has succeeded is not enough: another one may have emptied the file since. More generally, runs that do not write what any of them reads, whether their outputs are the same files or not, never notice each other: each ends with the exit code and message it gives alone (or panics, if one of its own calls failed), and ends if it gets on again and again.", "quantifier": "any number of runs, all argument lists and file systems in which no input is the output and each run alone would leave the same bytes, all orders of the system calls, all answers of the operating system (short reads and writes, interruptions; at any moment also failures), both build profiles, both host byte orders", "why_tests_cant": "the orders in which the calls of several runs can come are without number, and a test meets few of them", "anchors": ["at-asm/src/main.rs: main", "at-obj/src/macho.rs: write_into", "at-asm/src/assembler.rs: read_from"]}
