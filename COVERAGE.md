# Functions of the code, their model, and the properties that speak about them

Every `fn` of the four crates outside tests.  "Model" is the Lean definition that models it;
"stated in" are the properties whose statements mention that definition, directly or through a
specification; "used by" are those whose proofs rest on it, given when no statement mentions it.
Where no definition is named, the function is a constructor or accessor that is a structure
constructor or projection in Lean, is written out where it is called, or is a trait declaration.
Functions made by `derive` are at the end.

## at-asm/src/assembler.rs

| function | lines | model | stated in | used by |
|---|---|---|---|---|
| `new` | 17-24 | `Asm.Assembler.new` | C45, C46, C47, C49, C50, C52, C53, C54 ... |  |
| `cur_sect_mut` | 26-32 | inlined in `Asm.Assembler.step` |  |  |
| `set_cur_sect` | 34-36 | `Asm.Assembler.setCurSect` | C95 | C45, C46, C47, C48, C49, C50, C52, C53 ... |
| `read_from` | 38-108 | `Asm.Assembler.step`, `Asm.reportAt`, `Asm.parseOrExit` ... | C45, C46, C47, C48, C49, C50, C52, C53 ... |  |
| `write_into` | 110-112 | `Asm.Assembler.writeInto` | C52, C53, C54, C62, C72, C95 |  |
| `size` | 122-130 | `Asm.Assembler.curSize` |  | C45, C46, C47, C48, C49, C50, C52, C53 ... |
| `push_symbol` | 132-140 | `Asm.Assembler.pushSymbol` |  | C45, C46, C47, C48, C49, C50, C52, C53 ... |
| `push_reloc` | 142-150 | `Asm.Assembler.pushReloc` |  | C45, C46, C47, C48, C49, C50, C52, C53 ... |
| `write_bytes` | 152-163 | `Asm.Assembler.writeBytes` |  | C45, C46, C47, C48, C49, C50, C52, C53 ... |

## at-asm/src/main.rs

| function | lines | model | stated in | used by |
|---|---|---|---|---|
| `main` | 4-22 | `Asm.main`, `Asm.mainIo`, `Asm.process`, `Asm.step`, `Asm.sysOf` | C52, C53, C63, C64, C65, C69, C75, C79 ... |  |
| `init` | 30-74 | `Asm.inputArg`, `Asm.Config.init`, `Asm.argsOf` | C51, C52, C53, C64, C65, C69, C75, C79 ... |  |

## at-asm/src/parsers/data.rs

| function | lines | model | stated in | used by |
|---|---|---|---|---|
| `try_parse_str` | 12-28 | `Asm.dataLoop`, `Asm.tryParseData` | C85 |  |
| `parse_str` | 30-35 | `Asm.parseDataStr` | C67 |  |
| `split_parts` | 47-71 | `Asm.splitParts` |  | C40, C41, C42, C43, C44, C45, C46, C47 ... |
| `split_whitespace_once` | 73-78 | `Asm.splitWhitespaceOnce` |  | C40, C41, C42, C43, C44, C45, C46, C47 ... |
| `write_to` | 87-92 | `Asm.DataDef.write` |  | C40, C41, C42, C43, C44, C45, C46, C47 ... |
| `write_num` | 95-128 | `Asm.writeNum` |  | C40, C41, C42, C43, C44, C45, C46, C47 ... |
| `write_str` | 130-147 | `Asm.strPad`, `Asm.writeStr` |  | C40, C41, C42, C43, C44, C45, C46, C47 ... |
| `new` | 154-156 | argument of `Asm.dataNext` |  |  |
| `next` | 162-193 | `Asm.isDelim`, `Asm.splitDelimOnce`, `Asm.dataNext` |  | C40, C41, C42, C43, C44, C45, C46, C47 ... |
| `split_delim_once` | 163-168 | `Asm.isDelim`, `Asm.splitDelimOnce`, `Asm.dataNext` |  | C40, C41, C42, C43, C44, C45, C46, C47 ... |

## at-asm/src/parsers/expr.rs

| function | lines | model | stated in | used by |
|---|---|---|---|---|
| `as_u64` | 8-10 | the `UInt64` itself |  |  |
| `as_u32` | 12-14 | `Asm.exprAsU32` | C67 | C40, C41, C42, C43, C44, C45, C46, C47 ... |
| `as_u16` | 16-18 | `Asm.exprAsU16` | C67 | C40, C41, C42, C43, C44, C45, C46, C47 ... |
| `try_parse_str` | 22-60 | `Asm.tryParseExpr` | C38 |  |
| `parse_str` | 62-67 | `Asm.parseExprStr` | C67 |  |
| `sign_to_u64` | 70-72 | `Asm.signToI64` |  | C38, C40, C41, C42, C43, C44, C45, C46 ... |
| `try_parse_str` | 81-90 | `Asm.Token.tryParse` | C67 | C38, C40, C41, C42, C43, C44, C45, C46 ... |
| `parse_str` | 92-94 | `Asm.parseTokenStr` | C67 |  |

## at-asm/src/parsers/global_symbol.rs

| function | lines | model | stated in | used by |
|---|---|---|---|---|
| `try_parse_str` | 7-28 | `Asm.tryParseGlobal` | C85 |  |
| `parse_str` | 30-35 | `Asm.parseGlobalStr` | C67 |  |

## at-asm/src/parsers/instruction/mod.rs

| function | lines | model | stated in | used by |
|---|---|---|---|---|
| `new` | 25-33 | `Asm.Instruction.new` |  | C40, C41, C42, C43, C44, C45, C46, C47 ... |
| `with_reloc` | 35-38 | `Asm.Instruction.withReloc` |  | C40, C41, C42, C43, C44, C45, C46, C47 ... |
| `try_parse_str` | 42-50 | `Asm.tryParseInstruction` | C85 |  |
| `parse_str` | 52-57 | `Asm.parseInstructionStr` | C67 |  |

## at-asm/src/parsers/instruction/mov.rs

| function | lines | model | stated in | used by |
|---|---|---|---|---|
| `parse_str` | 10-105 | `Asm.parseMov64`, `Asm.parseMov32`, `Asm.parseMov16` ... |  | C40, C41, C42, C43, C44, C45, C46, C47 ... |

## at-asm/src/parsers/instruction/push.rs

| function | lines | model | stated in | used by |
|---|---|---|---|---|
| `parse_str` | 7-46 | `Asm.parsePush` |  | C40, C41, C42, C43, C44, C45, C46, C47 ... |

## at-asm/src/parsers/line.rs

| function | lines | model | stated in | used by |
|---|---|---|---|---|
| `parse_str` | 16-63 | `Asm.stripComment`, `Asm.parseLine` | C40, C41, C42, C43, C44, C49, C56, C57 ... |  |
| `try_parse_str` | 65-67 | `Asm.tryParseLine` | C67 |  |

## at-asm/src/parsers/mod.rs

| function | lines | model | stated in | used by |
|---|---|---|---|---|
| `try_parse_str` | 17-17 | declaration |  |  |
| `parse_str` | 19-19 | declaration |  |  |
| `new` | 28-35 | `Asm.perr` |  | C37, C38, C40, C41, C42, C43, C44, C45 ... |
| `eol_expected` | 37-39 | inlined in the parsers |  |  |
| `msg` | 41-43 | argument of `Stop.parseErr` |  |  |

## at-asm/src/parsers/num.rs

| function | lines | model | stated in | used by |
|---|---|---|---|---|
| `try_parse_str` | 9-16 | `Asm.tryParseNum` |  | C37, C38, C39, C40, C41, C42, C43, C44 ... |
| `parse_str` | 18-23 | `Asm.parseU64`, `Asm.parseU32Str`, `Asm.parseU16Str` ... | C37, C67 |  |

## at-asm/src/parsers/reg.rs

| function | lines | model | stated in | used by |
|---|---|---|---|---|
| `try_parse_str` | 5-29 | `Asm.parseReg64` | C39 |  |
| `parse_str` | 31-39 | `Asm.parseReg64Str` | C67 |  |
| `try_parse_str` | 43-67 | `Asm.parseReg32` | C39 |  |
| `parse_str` | 69-77 | `Asm.parseReg32Str` | C67 |  |
| `try_parse_str` | 81-105 | `Asm.parseReg16` | C39 |  |
| `parse_str` | 107-115 | `Asm.parseReg16Str` | C67 |  |

## at-asm/src/parsers/section.rs

| function | lines | model | stated in | used by |
|---|---|---|---|---|
| `try_parse_str` | 11-37 | `Asm.tryParseSection` | C85 |  |
| `parse_str` | 39-45 | `Asm.parseSectionStr` | C67 |  |

## at-asm/src/reader.rs

| function | lines | model | stated in | used by |
|---|---|---|---|---|
| `new` | 9-14 | `Asm.Reader.new` | C55 |  |
| `next_line` | 16-24 | `Asm.Reader.nextLine`, `Asm.readUntilIoGo`, `Asm.ReaderIo.nextLine` | C55 |  |

## at-mac/src/header.rs

| function | lines | model | stated in | used by |
|---|---|---|---|---|
| `read_from` | 24-60 | `Mac.Magic.endian`, `Mac.Header64.readFrom`, `Mac.Header64.readFromIo` | C13, C21, C26, C27, C28, C29, C30, C31 ... |  |
| `write_into` | 62-72 | `Mac.Header64.writeInto` | C13, C20, C58, C59, C76, C77 |  |
| `from_u32_checked` | 99-101 | `Mac.Magic.fromU32?` | C68 |  |
| `from_u32` | 103-105 | `Mac.Magic.fromU32?` | C68 |  |
| `to_u32` | 107-109 | `Mac.Magic.toU32` | C68 |  |
| `from_i32_i32` | 133-145 | `Mac.CpuType.fromI32I32` | C68 |  |
| `to_i32_i32` | 147-152 | `Mac.CpuType.toI32I32` | C68 |  |
| `from_u32` | 170-172 | `Mac.FileType.fromU32?` | C68 |  |
| `to_u32` | 174-176 | `Mac.FileType.toU32` | C68 |  |
| `from_u32` | 201-203 | `Mac.Flag.fromU32?` | C68 |  |
| `to_u32` | 205-207 | `Mac.Flag.toU32` | C68 |  |
| `new` | 216-218 | `Mac.Flags.new` | C23, C83 |  |
| `push` | 220-222 | `Mac.Flags.push` | C23, C83 |  |
| `from_u32` | 224-235 | `Mac.Flags.fromStep`, `Mac.Flags.fromU32` | C23 |  |
| `to_u32` | 237-245 | `Mac.Flags.toU32` | C23 |  |
| `fmt` | 249-251 | `Mac.Flags.debug` | C83 |  |

## at-mac/src/io.rs

| function | lines | model | stated in | used by |
|---|---|---|---|---|
| `read_u8` | 32-34 | `Mac.readU8`, `Mac.readU8Io` | C86 |  |
| `read_u16_in` | 36-38 | `Mac.readU16`, `Mac.readU16Io` | C86 |  |
| `read_i32_in` | 40-42 | `Mac.readI32`, `Mac.readI32Io` | C86 |  |
| `read_u32_in` | 44-46 | `Mac.readU32`, `Mac.readU32Io` | C86 |  |
| `read_u64_in` | 48-50 | `Mac.readU64`, `Mac.readU64Io` | C86 |  |
| `read_fixed_size_string` | 52-59 | `Mac.readFixedStr`, `Mac.readFixedStrIo` | C86 |  |
| `write_u8` | 65-67 | `Mac.writeU8` | C86 |  |
| `write_u16_native` | 69-71 | `Mac.writeU16` | C86 |  |
| `write_i32_native` | 73-75 | `Mac.writeI32` | C86 |  |
| `write_u32_native` | 77-79 | `Mac.writeU32` | C86 |  |
| `write_u64_native` | 81-83 | `Mac.writeU64` | C86 |  |
| `write_fixed_size_string` | 85-96 | `Mac.writeFixedStr` | C86 |  |

## at-mac/src/load_command/build_version.rs

| function | lines | model | stated in | used by |
|---|---|---|---|---|
| `read_from_in` | 27-54 | `Mac.BuildVersionCommand.readFromIn`, `Mac.BuildVersionCommand.readFromInIo` | C16, C21, C24, C59, C77, C81 |  |
| `write_into` | 56-63 | `Mac.BuildVersionCommand.writeInto` | C16, C20, C58, C59, C76 |  |
| `from_u32` | 81-83 | `Mac.Platform.fromU32?` | C68 |  |
| `to_u32` | 85-87 | `Mac.Platform.toU32` | C68 |  |
| `from_u32` | 99-108 | `Mac.Version.fromU32` | C87 |  |
| `to_u32` | 110-116 | `Mac.Version.toU32` | C87 |  |
| `read_from_in` | 128-134 | `Mac.BuildToolVersion.readFromIn`, `Mac.BuildToolVersion.readFromInIo` | C16, C21, C59, C77, C81 |  |
| `write_into` | 136-139 | `Mac.BuildToolVersion.writeInto` | C16, C20, C58, C59, C76 |  |
| `from_u32` | 150-152 | `Mac.Tool.fromU32?` | C68 |  |
| `to_u32` | 154-156 | `Mac.Tool.toU32` | C68 |  |

## at-mac/src/load_command/dysymtab.rs

| function | lines | model | stated in | used by |
|---|---|---|---|---|
| `read_from_in` | 89-137 | `Mac.DysymtabCommand.readFromIn`, `Mac.DysymtabCommand.readFromInIo` | C16, C21, C24, C59, C77, C81 |  |
| `write_into` | 139-160 | `Mac.DysymtabCommand.writeInto` | C16, C20, C58, C59, C76 |  |

## at-mac/src/load_command/mod.rs

| function | lines | model | stated in | used by |
|---|---|---|---|---|
| `cmd` | 26-35 | `Mac.LoadCommand.cmd` | C17 |  |
| `cmd_size` | 37-46 | `Mac.LoadCommand.cmdSize` | C17 |  |
| `read_from_in` | 48-91 | `Mac.readN`, `Mac.unread`, `Mac.LoadCommand.readFromIn` ... | C17, C21, C26, C27, C28, C29, C30, C31 ... |  |
| `write_into` | 93-116 | `Mac.LoadCommand.writeInto` | C17, C20, C21, C77 |  |

## at-mac/src/load_command/segment64.rs

| function | lines | model | stated in | used by |
|---|---|---|---|---|
| `read_from_in` | 43-73 | `Mac.SegmentCommand64.readFromInIo`, `Mac.SegmentCommand64.readFromIn` | C14, C21, C24, C59, C77, C81 |  |
| `write_into` | 75-87 | `Mac.SegmentCommand64.writeInto` | C14, C20, C58, C59, C76 |  |
| `read_from_in` | 120-152 | `Mac.Section64.readFromInIo`, `Mac.Section64.readFromIn` | C15, C21, C59, C77, C81 |  |
| `write_into` | 154-170 | `Mac.Section64.writeInto` | C15, C20, C58, C59, C76 |  |
| `from_u32` | 187-189 | `Mac.SectionType.fromU32?` | C68 |  |
| `to_u32` | 191-193 | `Mac.SectionType.toU32` | C68 |  |
| `from_u32` | 225-228 | `Mac.SectionAttr.fromU32?` | C68 |  |
| `to_u32` | 230-232 | `Mac.SectionAttr.toU32` | C68 |  |
| `new` | 243-245 | `Mac.SectionAttrs.new` | C23, C83 |  |
| `push` | 247-249 | `Mac.SectionAttrs.push` | C23, C83 |  |
| `from_u32` | 251-260 | `Mac.SectionAttrs.fromStep`, `Mac.SectionAttrs.fromU32` | C23 |  |
| `to_u32` | 262-268 | `Mac.SectionAttrs.toU32` | C23 |  |
| `fmt` | 272-274 | `Mac.SectionAttrs.debug` | C83 |  |

## at-mac/src/load_command/symtab.rs

| function | lines | model | stated in | used by |
|---|---|---|---|---|
| `read_from_in` | 24-44 | `Mac.SymtabCommand.readFromIn`, `Mac.SymtabCommand.readFromInIo` | C16, C21, C24, C59, C77, C81 |  |
| `write_into` | 46-53 | `Mac.SymtabCommand.writeInto` | C16, C20, C58, C59, C76 |  |

## at-mac/src/nlist.rs

| function | lines | model | stated in | used by |
|---|---|---|---|---|
| `read_from_in` | 37-52 | `Mac.NList64.readFromInIo`, `Mac.NList64.readFromIn` | C18, C21, C29, C30, C33, C36, C53, C54 ... |  |
| `write_into` | 54-60 | `Mac.NList64.writeInto` | C18, C20, C58, C59, C76, C77 |  |
| `from_u8` | 82-96 | `Mac.NTypeField.fromU8` | C87 |  |
| `to_u8` | 98-107 | `Mac.NTypeField.toU8` | C87 |  |
| `from_u8` | 130-132 | `Mac.NType.fromU8?` | C68 |  |
| `to_u8` | 134-136 | `Mac.NType.toU8` | C68 |  |
| `from_u8` | 147-149 | `Mac.DebugSymbol.fromU8?` | C68 |  |
| `to_u8` | 151-153 | `Mac.DebugSymbol.toU8` | C68 |  |

## at-mac/src/reloc.rs

| function | lines | model | stated in | used by |
|---|---|---|---|---|
| `read_from_in` | 34-79 | `Mac.RelocationInfo.readFromInIo`, `Mac.RelocationInfo.unpack`, `Mac.RelocationInfo.readFromIn` | C19, C21, C28, C30, C53, C54, C59, C62 ... |  |
| `write_into` | 86-96 | `Mac.RelocationInfo.pack`, `Mac.RelocationInfo.writeInto` | C19, C20, C58, C59, C76, C77 |  |
| `write_into` | 103-113 | `Mac.RelocationInfo.pack`, `Mac.RelocationInfo.writeInto` | C19, C20, C58, C59, C76, C77 |  |
| `to_u32` | 129-131 | `Mac.RelocLength.toU32` | C68 |  |
| `from_u32` | 133-135 | `Mac.RelocLength.fromU32?` | C68 |  |
| `to_u8` | 149-151 | `Mac.X86RelocType.toU8` | C68 |  |
| `from_u8` | 153-163 | `Mac.X86RelocType.fromU8?` | C68 |  |
| `to_u8` | 191-193 | `Mac.X86_64RelocType.toU8` | C68 |  |
| `from_u8` | 195-209 | `Mac.X86_64RelocType.fromU8?` | C68 |  |

## at-mac/src/string_table.rs

| function | lines | model | stated in | used by |
|---|---|---|---|---|
| `with_null` | 8-10 | `Mac.StringTable.withNull` | C22, C60, C83 |  |
| `get` | 12-15 | `Mac.StringTable.get` | C22, C60, C81 |  |
| `push_with_null` | 17-25 | `Mac.StringTable.pushWithNull` | C22, C60, C81, C83 |  |
| `len` | 27-29 | `Mac.StringTable.len` | C22, C60 |  |
| `iter` | 31-36 | `Mac.StringTable.rawIter`, `Mac.StringTable.iter` | C22, C81 |  |
| `as_ref` | 40-42 | `Mac.StringTable.asRef` | C83 |  |
| `from` | 46-52 | `Mac.StringTable.ofVec` | C60, C83 |  |
| `fmt` | 56-71 | `Mac.StringTable.debugByte`, `Mac.StringTable.debug` | C83 |  |

## at-obj/src/macho.rs

| function | lines | model | stated in | used by |
|---|---|---|---|---|
| `write_into` | 42-75 | `Obj.writeInto` | C26, C27, C28, C29, C30, C31, C32, C33 ... |  |
| `gen_header64` | 79-91 | `Obj.genHeader64` |  | C26, C27, C28, C29, C30, C31, C32, C33 ... |
| `gen_segment_command64` | 93-118 | `Obj.dataStart`, `Obj.alignedFileSize`, `Obj.genSegmentCommand64` |  | C26, C27, C28, C29, C30, C31, C32, C33 ... |
| `gen_section64s` | 120-150 | `Obj.genSection64sGo`, `Obj.genSection64s` |  | C26, C27, C28, C29, C30, C31, C32, C33 ... |
| `gen_section64` | 152-160 | `Obj.genSection64` |  | C26, C27, C28, C29, C30, C31, C32, C33 ... |
| `gen_section64_from_text` | 162-185 | `Obj.relocAttrs`, `Obj.genSection64FromText` |  | C26, C27, C28, C29, C30, C31, C32, C33 ... |
| `gen_section64_from_data` | 187-208 | `Obj.genSection64FromData` |  | C26, C27, C28, C29, C30, C31, C32, C33 ... |
| `gen_section64_from_bss` | 210-225 | `Obj.genSection64FromBss` |  | C26, C27, C28, C29, C30, C31, C32, C33 ... |
| `gen_symtab_command` | 227-270 | `Obj.nameSize`, `Obj.sectStrSize`, `Obj.genSymtabCommand` |  | C26, C27, C28, C29, C30, C31, C32, C33 ... |
| `write_section_data_into` | 272-281 | `Obj.writeSectionDataGo`, `Obj.writeSectionDataInto` |  | C26, C27, C28, C29, C30, C31, C32, C33 ... |
| `gen_string_table` | 283-291 | `Obj.genStringTable` |  | C26, C27, C28, C29, C30, C31, C32, C33 ... |
| `gen_nlist64s` | 293-351 | `Obj.getStrxGo`, `Obj.getStrx`, `Obj.genNList64` ... |  | C26, C27, C28, C29, C30, C31, C32, C33 ... |
| `get_strx` | 294-305 | `Obj.getStrxGo`, `Obj.getStrx`, `Obj.genNList64s` |  | C26, C27, C28, C29, C30, C31, C32, C33 ... |
| `gen_relocation_infos` | 353-386 | `Obj.getSymIdxGo`, `Obj.getSymIdx`, `Obj.genRelocationInfo` ... |  | C26, C27, C28, C29, C30, C31, C32, C33 ... |
| `get_sym_idx` | 358-365 | `Obj.getSymIdxGo`, `Obj.getSymIdx`, `Obj.genRelocationInfos` |  | C26, C27, C28, C29, C30, C31, C32, C33 ... |

## at-obj/src/num.rs

| function | lines | model | stated in | used by |
|---|---|---|---|---|
| `aligned` | 4-4 | declaration |  |  |
| `padding` | 8-8 | declaration |  |  |
| `aligned` | 14-16 | `Obj.alignedU32`, `Obj.alignedU64` | C25 |  |
| `padding` | 18-20 | `Obj.paddingU32`, `Obj.paddingU64` | C25 |  |

## at-obj/src/object.rs

| function | lines | model | stated in | used by |
|---|---|---|---|---|
| `new` | 6-14 | constructor of `Obj.Object` |  |  |
| `sections` | 16-18 | field `Obj.Object.sections` |  |  |
| `symbols` | 20-27 | `Obj.Object.symbols` | C33, C36, C46, C70, C90 |  |
| `symbols_mut` | 29-36 | `Obj.Object.symbolsMut` | C90 | C46, C66, C79, C89 ... |
| `iter` | 47-54 | `Obj.Sections.iter` |  | C26, C27, C28, C29, C30, C31, C32, C33 ... |
| `len` | 56-58 | `Obj.Sections.len` |  | C26, C27, C28, C29, C30, C31, C32, C33 ... |
| `vm_size` | 68-76 | `Obj.SectionRef.vmSize` |  | C26, C27, C28, C29, C30, C31, C32, C33 ... |
| `is_empty` | 78-80 | `Obj.SectionRef.isEmpty` |  | C26, C27, C28, C29, C30, C31, C32, C33 ... |
| `file_data` | 82-92 | `Obj.SectionRef.fileData` |  | C26, C27, C28, C29, C30, C31, C32, C33 ... |
| `file_size` | 94-96 | `Obj.SectionRef.fileSize` |  | C26, C27, C28, C29, C30, C31, C32, C33 ... |
| `symbols` | 98-106 | `Obj.SectionRef.symbols` |  | C26, C27, C28, C29, C30, C31, C32, C33 ... |
| `relocs` | 108-118 | `Obj.SectionRef.relocs` |  | C26, C27, C28, C29, C30, C31, C32, C33 ... |
| `vm_size` | 122-122 | declaration, not implemented |  |  |
| `file_data` | 123-123 | declaration, not implemented |  |  |
| `symbols` | 124-124 | declaration, not implemented |  |  |
| `relocs` | 125-125 | declaration, not implemented |  |  |
| `file_size` | 127-129 | of a trait nothing implements |  |  |
| `new` | 139-145 | constructor of `Obj.TextSection` |  |  |
| `new` | 155-161 | constructor of `Obj.DataSection` |  |  |
| `new` | 170-175 | constructor of `Obj.BssSection` |  |  |
| `name` | 196-202 | `Obj.Symbol.name` | C26, C27, C28, C29, C30, C31, C32, C33 ... |  |

## at-x64/src/bytes.rs

| function | lines | model | stated in | used by |
|---|---|---|---|---|
| `with_len` | 10-17 | `X64.BytesAtMost.withLen` | C10, C91 |  |
| `len` | 19-21 | `X64.BytesAtMost.len` | C10, C91 |  |
| `is_empty` | 23-25 | `X64.BytesAtMost.isEmpty` | C10 |  |
| `as_ref` | 29-31 | `X64.BytesAtMost.asRef` | C01, C02, C03, C04, C05, C06, C07, C08 ... |  |
| `as_mut` | 35-37 | `X64.BytesAtMost.asMut`, `X64.BytesAtMost.overwrite` | C91 | C01, C02, C03, C04, C05, C06, C07, C08 ... |
| `from` | 41-47 | `X64.BytesAtMost.ofArray` | C10, C12, C88, C91 |  |
| `from` | 51-55 | `X64.BytesAtMost.ofU8` | C10, C88, C91 |  |
| `from` | 59-65 | `X64.BytesAtMost.ofU16` | C10, C88, C91 |  |
| `from` | 69-75 | `X64.BytesAtMost.ofU32` | C10, C88, C91 |  |
| `from` | 79-85 | `X64.BytesAtMost.ofU64` | C10, C88, C91 |  |

## at-x64/src/encoder/bytecode.rs

| function | lines | model | stated in | used by |
|---|---|---|---|---|
| `new` | 17-27 | constructor of `X64.ByteCode` |  |  |
| `to_bytes` | 29-65 | `X64.ByteCode.toBytes` | C88 |  |
| `default` | 69-71 | constructor of `X64.ByteCode` |  |  |
| `new` | 77-79 | `X64.Rex.new` | C12 |  |
| `byte` | 81-83 | projection |  |  |
| `set_w` | 85-91 | `X64.Rex.setW` | C12 |  |
| `set_r` | 93-99 | `X64.Rex.setR` | C12 |  |
| `set_x` | 101-107 | `X64.Rex.setX` | C12 |  |
| `set_b` | 109-115 | `X64.Rex.setB` | C12 |  |
| `new` | 121-123 | `X64.ModRM.new` |  | C01, C02, C03, C04, C05, C06, C07, C08 ... |
| `byte` | 125-127 | projection |  |  |
| `set_mode` | 130-133 | `X64.ModRM.setMode` | C12 |  |
| `set_reg` | 136-139 | `X64.ModRM.setReg` | C12 |  |
| `set_rm` | 142-145 | `X64.ModRM.setRm` | C12 |  |
| `new` | 151-157 | `X64.Sib.new` | C88 |  |
| `byte` | 159-161 | projection |  |  |

## at-x64/src/encoder/mod.rs

| function | lines | model | stated in | used by |
|---|---|---|---|---|
| `new` | 20-29 | `X64.Encoder.new` | C88 |  |
| `prefix` | 33-36 | `X64.Encoder.withPrefix` | C88 |  |
| `rex_w` | 38-41 | `X64.Encoder.withRexW` | C88 |  |
| `rex_b` | 53-56 | `X64.Encoder.withRexB` | C88 |  |
| `opcode` | 58-64 | `X64.Encoder.withOpcode` | C88 |  |
| `mod_rm` | 66-75 | `X64.Encoder.withModRm` | C88 |  |
| `imm` | 77-83 | `X64.Encoder.withImm` | C88 |  |
| `encode` | 85-137 | `X64.Encoder.encodeModRm`, `X64.Encoder.encode` | C12, C88 |  |
| `rex_r` | 142-142 | `X64.RegLike` | C88 |  |
| `reg` | 145-145 | `X64.RegLike` | C88 |  |
| `rex_b` | 150-150 | `X64.RegMemLike` | C88 |  |
| `rex_x` | 153-153 | `X64.RegMemLike` | C88 |  |
| `mode` | 156-156 | `X64.RegMemLike` | C88 |  |
| `rm` | 159-159 | `X64.RegMemLike` | C88 |  |
| `sib` | 162-162 | `X64.RegMemLike` | C88 |  |
| `disp_bytes` | 165-165 | `X64.RegMemLike` | C88 |  |
| `rex_r` | 169-171 | `X64.instRegLikeReg64` | C12, C88 |  |
| `reg` | 173-175 | `X64.instRegLikeReg64` | C12, C88 |  |
| `rex_r` | 179-181 | `X64.instRegLikeReg32` | C12, C88 |  |
| `reg` | 183-185 | `X64.instRegLikeReg32` | C12, C88 |  |
| `rex_r` | 189-191 | `X64.instRegLikeReg16` | C12, C88 |  |
| `reg` | 193-195 | `X64.instRegLikeReg16` | C12, C88 |  |
| `rex_r` | 200-202 | `X64.instRegLikeUInt8` | C12, C88 |  |
| `reg` | 204-206 | `X64.instRegLikeUInt8` | C12, C88 |  |
| `rex_b` | 210-212 | `X64.instRegMemLikeReg64` | C12, C88 |  |
| `rex_x` | 214-216 | `X64.instRegMemLikeReg64` | C12, C88 |  |
| `mode` | 218-220 | `X64.instRegMemLikeReg64` | C12, C88 |  |
| `rm` | 222-224 | `X64.instRegMemLikeReg64` | C12, C88 |  |
| `sib` | 226-228 | `X64.instRegMemLikeReg64` | C12, C88 |  |
| `disp_bytes` | 230-232 | `X64.instRegMemLikeReg64` | C12, C88 |  |
| `rex_b` | 236-238 | `X64.instRegMemLikeReg32` | C12, C88 |  |
| `rex_x` | 240-242 | `X64.instRegMemLikeReg32` | C12, C88 |  |
| `mode` | 244-246 | `X64.instRegMemLikeReg32` | C12, C88 |  |
| `rm` | 248-250 | `X64.instRegMemLikeReg32` | C12, C88 |  |
| `sib` | 252-254 | `X64.instRegMemLikeReg32` | C12, C88 |  |
| `disp_bytes` | 256-258 | `X64.instRegMemLikeReg32` | C12, C88 |  |
| `rex_b` | 262-264 | `X64.instRegMemLikeReg16` | C12, C88 |  |
| `rex_x` | 266-268 | `X64.instRegMemLikeReg16` | C12, C88 |  |
| `mode` | 270-272 | `X64.instRegMemLikeReg16` | C12, C88 |  |
| `rm` | 274-276 | `X64.instRegMemLikeReg16` | C12, C88 |  |
| `sib` | 278-280 | `X64.instRegMemLikeReg16` | C12, C88 |  |
| `disp_bytes` | 282-284 | `X64.instRegMemLikeReg16` | C12, C88 |  |
| `rex_b` | 288-297 | `X64.Mem64.rexB`, `X64.instRegMemLikeMem64` | C12, C88 |  |
| `rex_x` | 299-304 | `X64.Mem64.rexX`, `X64.instRegMemLikeMem64` | C12, C88 |  |
| `mode` | 306-330 | `X64.Mem64.mode`, `X64.instRegMemLikeMem64` | C12, C88 |  |
| `rm` | 332-338 | `X64.Mem64.rm`, `X64.instRegMemLikeMem64` | C12, C88 |  |
| `sib` | 340-365 | `X64.Mem64.sibByte`, `X64.instRegMemLikeMem64` | C12, C88 |  |
| `disp_bytes` | 367-391 | `X64.Mem64.dispBytes`, `X64.instRegMemLikeMem64` | C12, C88 |  |

## at-x64/src/instruction/lea.rs

| function | lines | model | stated in | used by |
|---|---|---|---|---|
| `new` | 6-8 | arguments of the definitions below |  |  |
| `bytecode` | 12-20 | `X64.leaReg64Mem` |  | C01, C02, C03, C04, C05, C06, C07, C08 ... |

## at-x64/src/instruction/mod.rs

| function | lines | model | stated in | used by |
|---|---|---|---|---|
| `bytecode` | 18-18 | declaration |  |  |

## at-x64/src/instruction/mov.rs

| function | lines | model | stated in | used by |
|---|---|---|---|---|
| `new` | 11-13 | arguments of the definitions below |  |  |
| `bytecode` | 17-25 | `X64.movMemReg64` |  | C01, C02, C03, C04, C05, C06, C07, C08 ... |
| `bytecode` | 29-37 | `X64.movReg16Reg16` |  | C01, C02, C03, C04, C05, C06, C07, C08 ... |
| `bytecode` | 41-48 | `X64.movReg32Reg32` |  | C01, C02, C03, C04, C05, C06, C07, C08 ... |
| `bytecode` | 52-60 | `X64.movReg64Reg64` |  | C01, C02, C03, C04, C05, C06, C07, C08 ... |
| `bytecode` | 64-73 | `X64.movReg16Imm` |  | C01, C02, C03, C04, C05, C06, C07, C08 ... |
| `bytecode` | 77-85 | `X64.movReg32Imm` |  | C01, C02, C03, C04, C05, C06, C07, C08 ... |
| `offset_to_imm_bytes` | 89-94 | `X64.movReg32ImmOffset` | C09 |  |
| `bytecode` | 98-107 | `X64.movReg64Imm` |  | C01, C02, C03, C04, C05, C06, C07, C08 ... |
| `offset_to_imm_bytes` | 111-114 | `X64.movReg64ImmOffset` | C09 |  |

## at-x64/src/instruction/pop.rs

| function | lines | model | stated in | used by |
|---|---|---|---|---|
| `new` | 9-11 | arguments of the definitions below |  |  |
| `bytecode` | 15-23 | `X64.popReg16` |  | C01, C02, C03, C04, C05, C06, C07, C08 ... |
| `bytecode` | 27-34 | `X64.popReg64` |  | C01, C02, C03, C04, C05, C06, C07, C08 ... |

## at-x64/src/instruction/push.rs

| function | lines | model | stated in | used by |
|---|---|---|---|---|
| `new` | 9-11 | arguments of the definitions below |  |  |
| `bytecode` | 15-19 | `X64.pushU8` |  | C01, C02, C03, C04, C05, C06, C07, C08 ... |
| `bytecode` | 23-27 | `X64.pushU16` |  | C01, C02, C03, C04, C05, C06, C07, C08 ... |
| `bytecode` | 31-35 | `X64.pushU32` |  | C01, C02, C03, C04, C05, C06, C07, C08 ... |
| `bytecode` | 41-49 | `X64.pushReg16` |  | C01, C02, C03, C04, C05, C06, C07, C08 ... |
| `bytecode` | 53-60 | `X64.pushReg64` |  | C01, C02, C03, C04, C05, C06, C07, C08 ... |

## at-x64/src/instruction/ret.rs

| function | lines | model | stated in | used by |
|---|---|---|---|---|
| `new` | 6-8 | arguments of the definitions below |  |  |
| `bytecode` | 12-14 | `X64.ret` |  | C01, C02, C03, C04, C05, C06, C07, C08 ... |

## at-x64/src/instruction/syscall.rs

| function | lines | model | stated in | used by |
|---|---|---|---|---|
| `new` | 6-8 | arguments of the definitions below |  |  |
| `bytecode` | 12-14 | `X64.syscall` |  | C01, C02, C03, C04, C05, C06, C07, C08 ... |

## at-x64/src/mem.rs

| function | lines | model | stated in | used by |
|---|---|---|---|---|
| `reg` | 29-31 | `X64.Mem64.mkReg` | C05, C06 |  |
| `reg_offset` | 33-35 | `X64.Mem64.mkRegOffset` | C05, C06 |  |
| `rip_offset` | 37-39 | `X64.Mem64.mkRipOffset` | C05, C06 |  |
| `sib` | 41-49 | `X64.Mem64.mkSib` | C05, C06 |  |

## at-x64/src/reg.rs

| function | lines | model | stated in | used by |
|---|---|---|---|---|
| `fmt` | 12-19 | `X64.Reg.display` | C39 |  |
| `register_code` | 59-72 | `X64.Reg64.registerCode` | C84 |  |
| `is_extended` | 74-81 | `X64.Reg64.isExtended` | C84 |  |
| `rex_r_bit` | 83-85 | `X64.Reg64.rexRBit` | C84 |  |
| `rex_b_bit` | 87-89 | `X64.Reg64.rexBBit` | C84 |  |
| `mode_bits` | 92-94 | `X64.Reg64.modeBits` | C84 |  |
| `reg_bits` | 97-99 | `X64.Reg64.regBits` | C84 |  |
| `rm_bits` | 102-104 | `X64.Reg64.rmBits` | C84 |  |
| `fmt` | 108-127 | `X64.Reg64.display` | C39 |  |
| `to_reg64` | 167-186 | `X64.Reg32.toReg64` | C84 |  |
| `register_code` | 188-190 | `X64.Reg32.registerCode` | C84 |  |
| `is_extended` | 193-195 | `X64.Reg32.isExtended` | C84 |  |
| `fmt` | 199-218 | `X64.Reg32.display` | C39 |  |
| `to_reg32` | 258-277 | `X64.Reg16.toReg32` | C84 |  |
| `register_code` | 279-281 | `X64.Reg16.registerCode` | C84 |  |
| `is_extended` | 284-286 | `X64.Reg16.isExtended` | C84 |  |
| `fmt` | 290-309 | `X64.Reg16.display` | C39 |  |
| `fmt` | 349-368 | `X64.Reg8.display` |  | C39 |

## Derived `Debug`

| type | declared at | model | stated in |
|---|---|---|---|
| `Endian` | at-mac/src/io.rs:4 | `Mac.Endian.debug` | C93 |
| `Magic` | header.rs:76 | `Mac.Magic.debug` | C93 |
| `CpuSubType` | header.rs:118,123 | `Mac.CpuSubType.debug` | C93 |
| `FileType` | header.rs:155 | `Mac.FileType.debug` | C93 |
| `SectionType` | segment64.rs:173 | `Mac.SectionType.debug` | C93 |
| `Platform` | build_version.rs:66 | `Mac.Platform.debug` | C93 |
| `Tool` | build_version.rs:142 | `Mac.Tool.debug` | C93 |
| `RelocLength` | reloc.rs:116 | `Mac.RelocLength.debug` | C93 |
| `X86RelocType` | reloc.rs:138 | `Mac.X86RelocType.debug` | C93 |
| `X86_64RelocType` | reloc.rs:166 | `Mac.X86_64RelocType.debug` | C93 |
| `NType` | nlist.rs:110 | `Mac.NType.debug` | C93 |
| `DebugSymbol` | nlist.rs:140 | `Mac.DebugSymbol.debug` | C93 |
| `Section` | at-asm/src/parsers/section.rs:3 | `Asm.Section.debug` | C93 |
| `Reg64` | at-x64/src/reg.rs:22 | `X64.Reg64.debug` | C93 |
| `Reg32` | reg.rs:130 | `X64.Reg32.debug` | C93 |
| `Reg16` | reg.rs:221 | `X64.Reg16.debug` | C93 |
| `Reg8` | reg.rs:312 | `X64.Reg8.debug` | C93 |
| `CpuType` | at-mac/src/header.rs:112 | `Mac.CpuType.debug` | C93 |
| `Header64` | header.rs:10 | `Mac.Header64.debug` | C93 |
| `SegmentCommand64` | load_command/segment64.rs:9 | `Mac.SegmentCommand64.debug` | C93 |
| `Section64` | segment64.rs:90 | `Mac.Section64.debug` | C93 |
| `SymtabCommand` | load_command/symtab.rs:4 | `Mac.SymtabCommand.debug` | C93 |
| `DysymtabCommand` | load_command/dysymtab.rs:42 | `Mac.DysymtabCommand.debug` | C93 |
| `Version` | load_command/build_version.rs:90 | `Mac.Version.debug` | C93 |
| `BuildVersionCommand` | build_version.rs:9 | `Mac.BuildVersionCommand.debug` | C93 |
| `BuildToolVersion` | build_version.rs:119 | `Mac.BuildToolVersion.debug` | C93 |
| `LoadCommand` | load_command/mod.rs:17 | `Mac.LoadCommand.debug` | C93 |
| `RelocationInfo` | reloc.rs:6 | `Mac.RelocationInfo.debug` | C93 |
| `NTypeField` | nlist.rs:63 | `Mac.NTypeField.debug` | C93 |
| `NList64` | nlist.rs:6 | `Mac.NList64.debug` | C93 |
| `Data` | at-asm/src/parsers/data.rs:5 | `Asm.Data.debug` | C93 |
| `GlobalSymbol` | at-asm/src/parsers/global_symbol.rs:3 | `Asm.globalSymbolDebug` | C93 |
| `ParseError` | at-asm/src/parsers/mod.rs:22 | `Asm.parseErrorDebug` | C93 |
| `Expr` | at-asm/src/parsers/expr.rs:4 | `Asm.exprDebug` | C93 |
| `BytesAtMost` | at-x64/src/bytes.rs:3 | `X64.BytesAtMost.debug` | C93 |
| `Mem64` | at-x64/src/mem.rs:3 | `X64.Mem64.debug` | C93 |
| `Reg` | at-x64/src/reg.rs:3 | `X64.Reg.debug` | C93 |
| `Symbol` | at-obj/src/object.rs:188 | `Obj.Symbol.debug` | C93 |
| `Flag` | header.rs:179 | `Mac.Flag.debug` | C83, C93 |
| `SectionAttr` | segment64.rs:196 | `Mac.SectionAttr.debugName` | C83, C93 |
