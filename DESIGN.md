# Formal model of AtsukiTak/seriese-A.T. in Lean 4

The repository is an x86-64 assembler for macOS: `at-x64` (instruction encoder),
`at-mac` (Mach-O structures, reader and writer), `at-obj` (object file writer),
`at-asm` (line parser, assembler, command line).  The model follows these four
crates function by function; the properties go from single bytes up to "the linked
program runs like its source".

## Layout

* `lean/Verif/Model/*` - the model.  Every definition cites the lines of /repo it models.
* `lean/Verif/Spec/*` - specifications, written from the Intel and Apple documents or from the
  intended meaning of the source language.  They use data types of the model; where they use a
  function of it, the file says so.
* `lean/Verif/Proofs/*` - helper lemmas.
* `lean/Verif/Props/*` - the property theorems `Cnn_*`, each with a concrete case.
* `lean/Verif/Tests/*` - the repository's own 33 unit tests and its four end-to-end test programs
  (`at-asm/tests/*.s`), evaluated on the model.  These are tests of the model, not proofs.
* `seeded/LOG.jsonl` - wrong programs tried against the theorems (see below).

| model file | models |
|---|---|
| Rust | std and byteorder facilities the code calls; not repository code |
| X64Bytes, X64Reg, X64Encoder, X64Inst | at-x64 `bytes.rs`, `reg.rs`, `mem.rs`, `encoder/*.rs`, `instruction/*.rs` |
| MacIo, MacHeader, MacSegment, MacLoadCommand, MacSymbols | at-mac `io.rs`, `header.rs`, `load_command/*.rs`, `nlist.rs`, `reloc.rs`, `string_table.rs` |
| MacDebug | at-mac: `Debug` of `StringTable`, `Flags`, `SectionAttrs`, their `new`, `push`, `as_ref` |
| Debug | derived `Debug` of all types |
| Obj, ObjMacho | at-obj `object.rs`, `num.rs`, `macho.rs` |
| MacRead | the at-mac readers over a `Read` whose calls deliver less than asked, are interrupted or fail |
| AsmReg, AsmParse, AsmParseStr, Asm, AsmIo | at-asm `parsers/*.rs`, `reader.rs`, `assembler.rs`, `main.rs` |
| Process | exit status and standard error of a run of at-asm (the Rust runtime around `main`) |
| Steps | `main` of at-asm as a process, one system call at a time; several of them; one among other programs |
| Calls | the system calls that the steps of `Steps` make, with their answers |

| spec file | says |
|---|---|
| X86 | decoder and single-step executor of the processor, from the Intel SDM; does not import the model |
| X86Meaning, X64EncoderSpec | what register names, memory operands, instructions and encoder configurations stand for |
| X86Run | running a program in memory, and running a list of instructions |
| MachO | offsets, widths, numeric codes of the Mach-O structures, from Apple's headers |
| ObjSpec | what the file of an object must contain |
| ObjFile | every byte of the file of an object |
| ObjWrap | every byte of the file of an object of any size |
| ObjChecks | which objects a debug build writes, and what it leaves otherwise |
| Outcome | the object of a program; every way a line can stop the assembler |
| X64Code | the bytes of every instruction |
| AsmReads | what a single line of source text says |
| MacDecode | what arbitrary bytes stand for, by structure |
| Shown | how lists, bytes of string tables, flags are shown by `{:?}` and `{:#?}` |
| Debug | how values of every type are shown, as trees written on one line or on several |
| ObjRead | reader of whole object files, made of the record readers |
| AsmRender | statements of the source language as data, how to write them, which can be written |
| Obtained | the objects that a source can give, said of the object alone |
| Session | calls on one assembler, and the source that says the same |
| Separate | several sources, their files, and the instructions they ask for together |
| Rename | renaming the symbols of statements, parsed lines and objects |
| AsmSpec, AsmStrict, AsmErrors | the source language: which texts mean what, which are wrong and why |
| AsmProg | what a list of lines means: bytes, labels, relocations per section |
| MacRead | the bytes a `Read` delivers before it first fails or ends |
| AsmIo | files whose reads and writes may be partial, interrupted or failing |
| Path | file names and extensions |
| Process | what the arguments ask for, and when the program complains |
| Steps | runs that go on at the same time; what the reads of a run amount to and what it does to the files while others change them |
| Calls | the order of the system calls of a run, the pieces it writes, what a call does to the files |
| Prompt | inputs of which the beginning is known while the rest may change |
| SameFile | sources that say the same |
| Whole | the object file of a whole source program |
| Join | joining the objects of two sources |
| X64Builder | sequences of encoder calls |

## Modelling decisions

* Bytes are `UInt8`, Rust integers are Lean fixed-width integers, `usize` is `Nat`
  (64-bit host; lengths never reach 2^64, where this matters it is a hypothesis).
* `String`/`&str` are `List Char`; UTF-8 encoding and decoding are Lean core's.
* A panic, `exit(code)` with its message, and a `ParseError` are three error values (`Stop`).
* `Build` (debug/release) selects whether integer overflow panics or wraps.
* The host byte order is a parameter (`Endian`), so both `cfg(target_endian)` variants are modelled.
* `Read` is a state monad over the remaining bytes; end of input is a panic, as the `unwrap`s make
  it.  `MacRead` repeats the readers over calls that may be short, interrupted or failing; C77 relates
  the two.  `Write` is the bytes written so far plus a result.
* The input of the assembler is a list of chunks, one per call of `read`; `BufReader::read_line` is
  modelled as a loop over them.
* `Asm` assumes reads and writes that do not fail; `AsmIo` repeats reader, `read_from` and `main` over
  calls that may be short, interrupted or failing, and C75 relates the two.
* The file system maps paths to nodes and nodes to contents, with read and write permission per node;
  two paths may name the same file.
* Generic functions over traits (`RegLike`, `RegMemLike`, `ParseStr`) are type classes or one function
  per instance.

## Plan and result per property

Full statements are in `properties.jsonl`, notes on the claims in `MANIFEST.json`.

| id | property | status | model and proof |
|---|---|---|---|
| C01 | mov reg,reg encodes the requested move | proved | Encoder/Mov modelled byte for byte; Intel-style decoder in Spec/X86; proof: case analysis on registers + decoder lemmas, for all trailing bytes. |
| C02 | mov reg,imm encodes the requested constant | proved | as C01; immediates by LE encode/decode lemma over all Nat < 2^k. |
| C03 | push/pop reg encode the requested register | proved | as C01. |
| C04 | push imm pushes the requested number | partial | false of the code for 0x80..0xFF (push imm8) and >= 2^31: exact characterisation (iff) + counterexample, partial. |
| C05 | memory operands address the requested location | partial | false of the code for disp 128..256 and >= 2^31: exact characterisation (iff) over all register files + counterexample, partial. |
| C06 | encoding never panics and never exceeds 15 bytes | proved | all instruction types; structural. |
| C07 | machine code streams are self-delimiting | proved | induction over instruction list using the with-rest decode theorems. |
| C08 | distinct instructions have distinct encodings | proved | from the decode theorems: decode is a left inverse. |
| C09 | offset_to_imm_bytes points at the immediate | proved | split of the encoding at the offset; patching lemma. |
| C10 | BytesAtMost stores exactly what it was given or panics | proved | BytesAtMost modelled with MAX as Nat and a fixed buffer. |
| C11 | REX prefix is emitted exactly when needed and in the right place | proved | structure theorem of the encoder output. |
| C12 | the encoder panics exactly on its documented misuse | proved | iff over all encoder configurations. |
| C13 | Mach-O header round-trip on any pair of byte orders | proved | reader as state monad over bytes; writer parametrised by host byte order. |
| C14 | segment command round-trip | proved | same. |
| C15 | section header round-trip | proved | same + attribute normal form. |
| C16 | symtab, dysymtab and build-version round-trip | proved | same. |
| C17 | load command round-trip through the dispatching reader | proved | same; induction on section/tool/command lists. |
| C18 | symbol table entry round-trip | proved | same; NTypeField finite case split. |
| C19 | relocation entry round-trip | partial | false for r_symbolnum >= 2^24 or r_type >= 16: partial + counterexample. |
| C20 | serialized sizes equal the SIZE constants | proved | length lemmas. |
| C21 | truncated files are never accepted | proved | generic 'exact reader' lemma: every reader consumes a fixed-length input or panics. |
| C22 | string table stores and returns every pushed name | proved | induction over push histories. |
| C23 | flag sets survive as sets of bits | proved | bit-level lemma on single bits + membership. |
| C24 | readers reject inconsistent commands | proved | inversion of the reader model on arbitrary bytes. |
| C25 | aligned/padding compute the next multiple | proved | `aligned`/`padding` with checked arithmetic; Nat lemmas; the value past the end of the type is stated for both profiles. |
| C26 | object file header and load commands are self-consistent | proved | writer modelled function by function; layout lemma. |
| C27 | each section's bytes are where its header says | proved | same. |
| C28 | each section's relocation entries are where its header says | proved | same. |
| C29 | symbol table lists every symbol of the emitted sections | proved | same + string table lookup lemma. |
| C30 | relocations refer to the symbol they name | proved | same + find lemma. |
| C31 | the file regions tile the file | proved | same. |
| C32 | section addresses are contiguous and disjoint | proved | fold lemma. |
| C33 | no symbol is lost | partial | false: counterexample; partial theorem for objects whose symbol-bearing sections are non-empty. |
| C34 | writing fails only for the documented reasons | proved | iff for objects that fit. |
| C35 | a failed write leaves a prefix of the intended file | proved | writer as chunk list; failing sink run; prefix theorem. |
| C36 | absolute symbols carry no section | partial | false: counterexample (n_sect is the section ordinal). |
| C37 | number literals denote their value | proved | parser on List Char; digits value spec. |
| C38 | operand expressions are evaluated correctly | proved | iff between texts and 64-bit values, with the overflow cases of debug builds split off. |
| C39 | register names round-trip | proved | table theorem over all strings. |
| C40 | comments and surrounding blanks do not matter | proved | string lemmas. |
| C41 | directives are recognised exactly | proved | iff over token lists. |
| C42 | data directives emit exactly the listed items | proved | rendering relation + induction on items. |
| C43 | mov lines produce the mov they spell | proved | rendering relation. |
| C44 | push/ret/syscall lines produce the instruction they spell | proved | same. |
| C45 | labels get the address of what follows them | proved | fold invariant. |
| C46 | global marking is order independent | proved | fold invariant. |
| C47 | relocations point at the immediate of their instruction | proved | fold invariant + C09. |
| C48 | assembling in pieces equals assembling the whole | proved | fold append + idempotent marking. |
| C49 | the first bad line is reported with its number | proved | induction. |
| C50 | nothing is ever stored in .bss | proved | invariant. |
| C51 | command line selects the right files | proved | args as a list of strings, `Path::with_extension` modelled on strings; table of all argument shapes. |
| C52 | a failed run does not damage existing files | partial | false: the output file is truncated before the input is read; counterexamples, and what does hold. |
| C53 | end to end: the .o contains the program | partial | composition of C07, C26-C32, C43-C47; false as stated because of C04 (push 128..255), C33 (dropped labels) and undefined symbols: partial plus counterexamples. |
| C54 | after linking, mov reg, symbol loads the symbol's address | proved | a linker step (`applyReloc`, `linkSection` in Props/EndToEnd) applied to the file as read back; C09 and C47 place the relocation on the immediate. |
| C55 | short reads do not change the result | proved | `read_line` loop over an arbitrary list of chunks; independence of the chunking. |
| C56 | no operand text is silently ignored | partial | false: counterexamples ('1 + 2 + 3', 'push rax rbx', 'ret x'). |
| C57 | out-of-range numbers are errors | partial | false: becomes a symbol; counterexample. |
| C58 | written structures have the documented layout | proved | every field at its documented offset: `Spec/MachO` lists offset, width and value of each field; image lemma for consecutive fields. |
| C59 | reading and writing back reproduces the bytes | proved | readers inverted on arbitrary bytes (`*_canon` lemmas); what reading forgets is stated (padding after names, stab bits). |
| C60 | string tables are accepted exactly when well formed | proved | `From<Vec<u8>>`, `get`, `iter` on arbitrary bytes. |
| C61 | parsing a line never aborts except on overflow in debug builds | proved | the parsers never return `panic` except the overflow cases of C38 in debug builds; case analysis over all parsers. |
| C62 | the linked program runs like its source | proved | simulation: a processor fetching from memory (`Step`) against the list of source instructions (`Runs`), by induction on the length of the run; programs whose text is not overwritten. |
| C63 | debug and release builds do the same | proved | relation `Agree` between the two builds, propagated through every function that takes the build parameter. |
| C64 | a run succeeds exactly for complete programs | proved | both directions; size limits excluded by bounding every field by the source length. |
| C65 | layout and order of sections do not matter | proved | the object is a function of the per-section line lists; invariance of that function. |
| C66 | every rejected line gets the message of what is wrong with it | proved | spec of wrong forms (`Spec/AsmErrors`) and an iff for each message. |
| C67 | single constructs are parsed strictly | proved | spec of single constructs (`Spec/AsmStrict`), iff per parser. |
| C68 | enumerations have the documented numbers | proved | numbering tables of `Spec/MachO`, both directions over all numbers. |
| C69 | runs are reproducible and independent | proved | `main` as a function of what it can see of the file system (`main_written`, `effect`). |
| C70 | an object can be recovered from its file on any host | proved | whole-file reader `Spec/ObjRead` made of the at-mac record readers; inverse of the writer. |
| C71 | every source has a canonical form; everything can be written | proved | printer `Spec/AsmRender`; parse after print by C41-C43; completeness by cases on the accepted lines. |
| C72 | names of symbols do not matter | proved | renaming of parsed lines (`Spec/Rename`) commutes with labels, relocations, table and linking. |
| C73 | objects too large for the format are refused | partial | invert the overflow checks of a debug build; counterexamples: long code for the casts, small objects with large addresses for release builds. |
| C74 | assembling succeeds exactly for valid sources, at any size | proved | `addI32_iff` gives the exact overflow condition; induction over the lines in both directions. |
| C75 | failing I/O never produces a wrong result silently | proved | Invariant of the buffered reader: buffer plus bytes delivered before the first failure; induction over the complete lines; `write_all` loop by induction over the results of `write`. |
| C76 | the format determines every written byte | proved | Consecutive fields determine the bytes they occupy; a file is the concatenation of its regions, each determined by its fields or table entries. |
| C77 | how the bytes arrive makes no difference to a reader | proved | read_exact over any Read takes the next bytes delivered; readers are built from it, so a relation between buffer and Read readers is preserved by sequencing; the put-back command number is used up before the inner Read is asked again. |
| C78 | what is written for objects of any size | proved | reduction modulo 2^32 commutes with all sums and products and, as 8 divides 2^32, with rounding up to 8; so a release build computes the image of the object; debug builds that do not panic do the same (C63). |
| C79 | every input has exactly one outcome, down to the bytes written | proved | the lines before the first one that stops the assembler keep the state invariant; the ways a line stops the assembler are exclusive; the object is determined by the invariant, the file by C78. |
| C80 | the exact bytes of every instruction and the exact reading of every line | proved | the encoder's configurations, one kind of operand at a time; the parser by C41-C43. |
| C81 | the readers decode exactly the documented layout | proved | each read step as an equivalence about the number at its offset; the tables of numbers in both directions. |
| C82 | which objects a debug build writes, and what it leaves otherwise | proved | each function of the writer succeeds in a debug build iff its sums fit (an exact result for each addition, sum and rounding), and then gives what it gives in a release build. |
| C83 | debug output shows exactly what is there | proved | the loop of the builders writes a joined or stacked list; no shown byte is a prefix of another (table of 128 x 128), names are letters only, hence lists parse back. |
| C84 | the bits of a register | proved | case analysis over the registers. |
| C85 | which texts a parser passes over, and which it refuses | proved | from C67, since parse_str is try_parse_str with Ok(None) turned into an error, and a case analysis of the first word. |
| C86 | numbers and fixed-size names are read and written one by one | proved | value of a byte string by induction on its length; the name by induction on its characters. |
| C87 | versions and symbol type bytes | proved | arithmetic on the masks; the type byte by a case analysis of all bytes lifted by a lemma. |
| C88 | the encoder builds what the last calls asked for | proved | induction on the calls, over the changing operand types; the fields of the SIB byte by a case analysis lifted by a lemma. |
| C89 | assembling two sources together joins their objects | proved | the specification of programs (C79) is compositional: lemmas on the section, contents, labels and relocations of appended lists of lines. |
| C90 | the symbols of an object, listed and changed in place | proved | position by position on the concatenation of three lists. |
| C91 | buffers of bytes: equality, change in place, conversions | proved | by induction on how the buffer was built, the unused part of the array is zero. |
| C92 | object files written separately link together | proved | each file reads back as an explicit image of its object; symbol numbers are positions of first names; induction over relocations. |
| C93 | debug output of every value shows all of it | proved | the builders write the trees of the specification; a tree can be read back from its text: names end at brackets, quotes at unescaped quotes, and indentation can be taken off again. |
| C94 | which objects a source can give | proved | induction over the placed lines one way; the other way a source is built byte by byte from contents, labels and loads. |
| C95 | an assembler used by several calls | proved | lines shifted by a number of lines, and marking external symbols twice, change nothing but the number; induction over the calls. |
| C96 | sources assembled separately are linked and run as one program | proved | C92 for the files; the symbols of an assembled object are its labels, so every name means its own definition; the codes disassemble one after the other, then as C62. |
| C97 | the exit status and standard error tell how a run ended | proved | C75 for the I/O, C51 for the arguments, C79 for the source; the object writer stops by panicking only (Proofs/Panics, structural); `write_all` for standard error. |
| C98 | runs that go on at the same time do not disturb each other | proved | A process alone does what `mainIo` does (induction on its calls); a step depends on and changes only the files of its process, so interleavings project to runs alone; lexicographic measure for the end; a race evaluated by the kernel. |
| C99 | two sources give the same file exactly if they say the same | proved | Reading the file back (C70) and its magic number give the one direction, the byte-by-byte description (C76), which depends on the object only through its non-empty sections, the other. |
| C100 | whatever other programs do to the input during a run, the run is as on one fixed source | proved | Induction on the moves with the position in the input as invariant; an end of file within a line acts as a line end (`readLoopIo_cut`); the writes are those of C75; a growing file evaluated by the kernel. |
| C101 | whatever other programs do to any file, the run reads and writes as on one fixed source | proved | As C100, with the written bytes collected from the effects of the run's own steps instead of read off the file at the end. |
| C102 | the output is at most linear in the source, with a known factor | proved | Each line costs at most 17 bytes for two of its own (the last line may lack its line feed); the file consists of these and at most 296 further bytes. For the family the sizes are computed by induction on the number of labels. |
| C103 | a run ends whatever other programs do, unless they make its input grow for ever | proved | The phase of the run and what may be left to read below the limit, or to write, decrease with every step of the run and do not depend on the files. The endless run is given explicitly, its states by induction. |
| C104 | a change in some lines changes only their bytes in the output | proved | Two objects that differ only in the bytes of their sections give the same commands, padding, relocations, symbols and strings, and pass the same overflow checks, as each of these is a function of the parts of the object with their bytes set to zero. Lines that are alike give such objects. |
| C105 | runs that are killed can be repeated | proved | Invariant: before the output is opened nothing has changed, after that its length is the position at which the run writes, so each step adds at its end. Every run can be brought to its end, and C100 says what is then in the file. |
| C106 | the system calls of a run | proved | The trace of calls is followed through the three phases of a run (opening, reading, writing), each with an inductive description of its calls; the sizes of the pieces are computed for each structure of the object file. |
| C107 | a run ends at the first bad line, whatever follows it | proved | Invariant: what is buffered and what is still to be read of these lines is a text that ends with a line end and that the assembler, as it is now, refuses; a read happens only when no line end is buffered, so its place is within these lines. |
| C108 | an incomplete output can be recognised | proved | Each reader panics on every proper beginning of what it reads; the load commands promise a string table of at least one byte behind everything else, which only a complete write reaches. |
| C109 | runs that are to write the same may write it at the same time | proved | A run does not look at its output, so it does what it does alone; every byte it writes is the byte of W at that place; the run that was the last to empty the file has written the beginning of W since. |

## Where the code does not do what the property says

For these the theorem that holds is suffixed `_partial` (or is an exact characterisation), and the
negation is proved with a concrete witness.

* C04: `push 128`..`push 255` push a negative number (`6A ib` sign-extends); the same from 2^31 on.
* C05: displacements 128..256 on a base register are encoded in one byte and read back negative (256
  becomes 0); the same from 2^31 on.
* C19: `r_symbolnum` of 2^24 or more and `r_type` of 16 or more spill into the neighbouring bits.
* C33: symbols of a section that stays empty are dropped.
* C36: absolute symbols are written with the ordinal of their section.
* C52: the output file is opened with truncation before the input is parsed, so a failing run
  destroys the previous output (and the input, if they are the same file).
* C53: false for the reasons of C04 and C33, and for undefined symbols (panic).
* C56: text after a complete operand is ignored (`ret foo`, `push rax rbx`, `mov rax, 1 + 2 + 3`).
* C57: a number of 2^64 or more in a 64- or 32-bit `mov` is taken as a symbol name.

Other behaviour stated by theorems and worth knowing: nothing can be stored in `.bss` (C50);
`global` of an undefined name is ignored (C46); in a release build the size check of load commands
is modulo 2^32 (C24); debug builds panic on overflow in constant expressions (C38, C61).

## Wrong programs

`seeded/LOG.jsonl` has one line per attempt: `definition` and `edit` (what was changed in a scratch
copy of the model), `claim_broken`, `failed` (declarations the rebuild stopped at, as
`file:declaration`), `theorems_failed` (property theorems that depend on those, computed from the
dependency graph, hence lost), `tightened` (theorems added or strengthened because of the attempt),
`outcome`.  When the edit breaks a helper lemma the build stops there; the theorems listed are those
whose proofs rest on it.

## Trusted base

* The Lean 4.33.0 kernel, and the axioms listed per theorem below: at most `propext`,
  `Classical.choice` and `Quot.sound`.  No axioms of our own, no `sorry`, no `native_decide`.  Tables
  over finitely many values use `decide +kernel`, which is checked by the kernel.
* That the model says what the Rust code does.  It was written by reading; nothing was run.  The
  repository's own tests pass on it (`Verif/Tests`), including assembling, linking and running its
  four test programs.
* `Model/Rust.lean`: std, byteorder and num-derive as documented: integer overflow per build profile,
  `str` methods (`trim`, `split_whitespace`, `split_once`, `strip_suffix`, ...), `char::is_whitespace`,
  `uN::from_str_radix`, UTF-8, `Path::with_extension`
  (as documented: `set_extension` on a copy of the path).  `Model/AsmIo.lean`: the retry loops of
  `BufRead::read_until` and `Write::write_all`.  `Model/MacRead.lean`: those of `Read::read_exact` and
  the reads of `Cursor` and `Chain`.  `Model/MacDebug.lean`: the list and set builders of `std::fmt` and
  `Debug` of ASCII characters.  `Model/Debug.lean`: the struct and tuple builders, `Debug` of integers,
  `bool`, `Option`, `Vec` and `str`, and that `derive` calls the builders field by field.
  `Model/Process.lean`: a panic of the main thread is status 101, `exit(code)` is the low byte of `code`,
  `eprintln!` panics if standard error fails and ignores that it is closed.
* The specifications: `Spec/X86` (processor) and `Spec/MachO` (file format) were written from memory of
  the public documents; `applyReloc`/`linkSection` (Props/EndToEnd) stand for what the linker does
  with the one kind of relocation the assembler emits (absolute, 4 or 8 bytes, external).  So do
  `linkFiles` and its parts (Spec/LinkMany) for several files.
  They were compared with other tools (`validation/README.md`): the decoder with GNU objdump on 200,000
  random instructions, decoder and executor with a real processor on 5,000, objects and `linkSection`
  with LLVM's linker on 300 random programs, `linkFiles` with it on 300 random sets of objects, the file format
  with objects made by clang.
  `Verif/Tests/Foreign` has samples of these inside Lean.

### Modelled

All functions of the four crates, except the following.  `COVERAGE.md` lists the functions file by
file with the model definition and the properties that speak of each.

* Trivial constructors and accessors, which are structure constructors and projections in Lean: `new`
  of the instruction structs, `ByteCode::new`/`default`, `byte()` of Rex/ModRM/Sib, `Expr::as_u64`,
  `ParseError::msg/eol_expected`, `DataDefIter::new`, `Object::sections`, `cur_sect_mut`
  (inlined in the assembler's step).
* The crate-private trait `Section` of at-obj/src/object.rs with its default `file_size`: nothing implements it.

### Not modelled

* Memory exhaustion, stack overflow, timing.  (Several runs at the same time are modelled, C98, and other programs
  that change the files during a run, C100, C101, C103, and runs that are killed, C105.)
* 32-bit hosts (`usize` of 32 bits).  at-mac does not compile for them: the discriminants `0xfeedfacf` of `Magic`
  and `0x80000000` of the section attributes do not fit a 32-bit `isize`.
* The text of panic messages.
* Non-Unix paths; path resolution beyond the map from paths to nodes.
* The real linker and operating system.

### Axioms of each theorem

p = `propext`, c = `Classical.choice`, q = `Quot.sound` (output of `#print axioms`); `-` = none.

| theorem | file | axioms |
|---|---|---|
| C01_mov_reg_reg | Props/X64.lean | pcq |
| C02_mov_reg_imm | Props/X64.lean | pcq |
| C03_push_pop_reg | Props/X64.lean | pcq |
| C04_push_imm_partial | Props/X64.lean | pcq |
| C04_push_u8_iff | Props/X64.lean | pcq |
| C04_push_u32_iff | Props/X64.lean | pcq |
| C04_push_u16 | Props/X64.lean | pcq |
| C04_false | Props/X64.lean | pcq |
| C05_mem_partial | Props/X64.lean | pcq |
| C05_mem_iff | Props/X64.lean | pcq |
| C05_false | Props/X64.lean | pcq |
| C05_constructors | Props/X64.lean | pcq |
| C06_encodes | Props/X64.lean | pcq |
| C06_constructors | Props/X64.lean | pq |
| C07_streams | Props/X64.lean | pcq |
| C07_boundaries | Props/X64.lean | pcq |
| C08_injective | Props/X64.lean | pcq |
| C08_injective_reg_imm | Props/X64.lean | pcq |
| C08_aliasing | Props/X64.lean | pq |
| C09_offset_64 | Props/X64.lean | pcq |
| C09_offset_32 | Props/X64.lean | pcq |
| C10_array | Props/X64Encoder.lean | pq |
| C10_with_len | Props/X64Encoder.lean | pq |
| C10_integers | Props/X64Encoder.lean | pq |
| C10_queries | Props/X64Encoder.lean | pq |
| C11_rex | Props/X64.lean | pcq |
| C12_encoder | Props/X64Encoder.lean | pcq |
| C12_buffers | Props/X64Encoder.lean | pq |
| C12_modrm_setters | Props/X64Encoder.lean | pq |
| C12_rex_setters | Props/X64Encoder.lean | pq |
| C13_header_roundtrip | Props/Mac.lean | pcq |
| C13_other_magic_panics | Props/Mac.lean | pq |
| C14_segment_roundtrip | Props/Mac.lean | pcq |
| C14_segment_write_ok_iff | Props/Mac.lean | pcq |
| C15_section_roundtrip | Props/Mac.lean | pcq |
| C15_section_write_ok_iff | Props/Mac.lean | pcq |
| C15_attrs_same_set | Props/Mac.lean | p |
| C15_nul_name_counterexample | Props/Mac.lean | pcq |
| C16_symtab_roundtrip | Props/Mac.lean | pcq |
| C16_dysymtab_roundtrip | Props/Mac.lean | pcq |
| C16_build_version_roundtrip | Props/Mac.lean | pcq |
| C16_build_tool_roundtrip | Props/Mac.lean | pcq |
| C17_load_command_roundtrip | Props/Mac.lean | pcq |
| C17_load_commands_roundtrip | Props/Mac.lean | pcq |
| C17_load_command_fields | Props/Mac.lean | pcq |
| C18_nlist_roundtrip | Props/Mac.lean | pcq |
| C19_reloc_roundtrip_partial | Props/Mac.lean | pcq |
| C19_counterexample | Props/Mac.lean | pq |
| C20_sizes | Props/Mac.lean | pcq |
| C20_load_command_size | Props/Mac.lean | pcq |
| C21_short_input_panics | Props/Mac.lean | pcq |
| C21_truncated_load_command_panics | Props/Mac.lean | pcq |
| C21_load_command_consumes | Props/Mac.lean | pcq |
| C22_string_table | Props/Mac.lean | pcq |
| C22_non_ascii_panics | Props/Mac.lean | pcq |
| C23_flags_accepted | Props/Mac.lean | pcq |
| C23_attrs_accepted | Props/Mac.lean | pcq |
| C23_words_survive | Props/Mac.lean | pcq |
| C23_sets_survive | Props/Mac.lean | pcq |
| C23_push | Props/Shown.lean | pcq |
| C24_readers_reject_inconsistent | Props/Mac.lean | pcq |
| C24_release_wraps | Props/Mac.lean | pcq |
| C25_aligned_u32 | Props/Obj.lean | pcq |
| C25_aligned_u64 | Props/Obj.lean | pcq |
| C25_past_u32 | Props/Obj.lean | pcq |
| C25_past_u64 | Props/Obj.lean | pcq |
| C25_zero_panics | Props/Obj.lean | p |
| C26_headers | Props/Obj.lean | pcq |
| C27_section_bytes | Props/Obj.lean | pcq |
| C28_relocations | Props/Obj.lean | pcq |
| C29_symbol_table | Props/Obj.lean | pcq |
| C29_nul_counterexample | Props/Obj.lean | pcq |
| C30_relocation_targets | Props/Obj.lean | pcq |
| C31_tiling | Props/Obj.lean | pcq |
| C32_addresses | Props/Obj.lean | pcq |
| C33_no_symbol_lost_partial | Props/Obj.lean | pcq |
| C33_counterexample | Props/Obj.lean | pcq |
| C34_write_ok_iff | Props/Obj.lean | pcq |
| C35_sink_failure | Props/Obj.lean | pcq |
| C35_panic_prefix | Props/Obj.lean | pcq |
| C36_abs_entry_partial | Props/Obj.lean | pcq |
| C36_counterexample | Props/Obj.lean | pcq |
| C37_numbers | Props/AsmExpr.lean | pcq |
| C37_literals | Props/AsmExpr.lean | pcq |
| C37_parse_u64 | Props/AsmExpr.lean | pcq |
| C37_unambiguous | Props/AsmExpr.lean | pcq |
| C38_expressions | Props/AsmExpr.lean | pcq |
| C38_small | Props/AsmExpr.lean | pcq |
| C38_panics | Props/AsmExpr.lean | pcq |
| C38_not_constant | Props/AsmExpr.lean | pcq |
| C38_debug_counterexample | Props/AsmExpr.lean | p |
| C39_parse_display | Props/AsmExpr.lean | - |
| C39_display_parse | Props/AsmExpr.lean | p |
| C39_one_width | Props/AsmExpr.lean | pq |
| C39_not_number | Props/AsmExpr.lean | pcq |
| C39_names | Props/AsmExpr.lean | p |
| C39_printed | Props/AsmExpr.lean | p |
| C39_distinct | Props/AsmExpr.lean | pq |
| C40_white_space | Props/AsmLine.lean | pcq |
| C40_comment | Props/AsmLine.lean | pcq |
| C40_blanks | Props/AsmLine.lean | pcq |
| C40_blank_comment | Props/AsmLine.lean | pcq |
| C41_empty | Props/AsmLine.lean | pcq |
| C41_section | Props/AsmLine.lean | pcq |
| C41_global | Props/AsmLine.lean | pcq |
| C41_label | Props/AsmLine.lean | pcq |
| C41_errors | Props/AsmLine.lean | pq |
| C42_data | Props/AsmData.lean | pcq |
| C42_errors | Props/AsmData.lean | pcq |
| C42_too_large | Props/AsmData.lean | pcq |
| C42_storable | Props/AsmData.lean | pcq |
| C42_items_unique | Props/AsmData.lean | pcq |
| C43_instruction_lines | Props/AsmReads.lean | pcq |
| C43_mov_reg | Props/AsmInst.lean | pcq |
| C43_mov_const | Props/AsmInst.lean | pcq |
| C43_mov_sym | Props/AsmInst.lean | pcq |
| C43_errors | Props/AsmInst.lean | pcq |
| C43_tab_counterexample | Props/AsmInst.lean | pq |
| C44_lines | Props/AsmInst.lean | pcq |
| C44_push_value | Props/AsmInst.lean | pcq |
| C44_errors | Props/AsmInst.lean | pcq |
| C43_instruction_lines | Props/AsmReads.lean | pcq |
| C44_push_200_counterexample | Props/AsmInst.lean | pcq |
| C45_sections_and_labels | Props/Asm.lean | pcq |
| C45_succeeds | Props/Asm.lean | pcq |
| C46_global | Props/Asm.lean | pcq |
| C46_defined | Props/Asm.lean | pcq |
| C47_relocations | Props/Asm.lean | pcq |
| C47_complete | Props/Asm.lean | pcq |
| C47_in_order | Props/Asm.lean | pcq |
| C48_two_inputs | Props/Asm.lean | pcq |
| C49_reported | Props/Asm.lean | pcq |
| C49_only | Props/Asm.lean | pcq |
| C50_bss_empty | Props/Asm.lean | pcq |
| C50_stops | Props/Asm.lean | pcq |
| C51_config | Props/Main.lean | pcq |
| C51_cases | Props/Main.lean | pcq |
| C52_only_output_changes_partial | Props/Main.lean | pcq |
| C52_counterexample | Props/Main.lean | pcq |
| C52_input_counterexample | Props/Main.lean | pcq |
| C52_result | Props/Main.lean | pcq |
| C53_end_to_end_partial | Props/EndToEnd.lean | pcq |
| C53_run | Props/EndToEnd.lean | pcq |
| C53_push_counterexample | Props/EndToEnd.lean | pcq |
| C53_label_counterexample | Props/EndToEnd.lean | pcq |
| C53_undefined_counterexample | Props/EndToEnd.lean | pcq |
| C54_link | Props/EndToEnd.lean | pcq |
| C54_disassembly | Props/EndToEnd.lean | pcq |
| C54_address | Props/EndToEnd.lean | pq |
| C55_lines | Props/Asm.lean | pcq |
| C55_chunking | Props/Asm.lean | pcq |
| C56_counterexample | Props/AsmInst.lean | pq |
| C56_no_extra_text_partial | Props/AsmReads.lean | pcq |
| C57_counterexample | Props/AsmInst.lean | pq |
| C57_symbol_instead | Props/AsmInst.lean | pcq |
| C57_symbol_instead_32 | Props/AsmInst.lean | pcq |
| C57_rejected_partial | Props/AsmInst.lean | pcq |
| C58_layout | Props/Mac.lean | pcq |
| C59_rewrite_exact | Props/Mac.lean | pcq |
| C59_rewrite_exact_named | Props/Mac.lean | pcq |
| C59_stab_counterexample | Props/Mac.lean | pq |
| C60_from_bytes | Props/MacStrings.lean | pcq |
| C60_get_suffix | Props/MacStrings.lean | pcq |
| C61_never_exits | Props/AsmStops.lean | pcq |
| C61_panics | Props/AsmStops.lean | pcq |
| C62_run | Props/Run.lean | pcq |
| C63_main | Props/Builds.lean | pcq |
| C63_read_from | Props/Builds.lean | pcq |
| C63_write_into | Props/Builds.lean | pcq |
| C63_load_command | Props/Builds.lean | pcq |
| C63_line | Props/Builds.lean | pq |
| C64_succeeds_iff | Props/Success.lean | pcq |
| C64_fitting | Props/Success.lean | pcq |
| C64_debug | Props/Success.lean | pcq |
| C64_success_means | Props/Success.lean | pcq |
| C65_same_object | Props/Layout.lean | pcq |
| C65_same_file | Props/Layout.lean | pcq |
| C65_empty_lines | Props/Layout.lean | pq |
| C66_messages | Props/AsmErrors.lean | pcq |
| C66_unique | Props/AsmErrors.lean | pcq |
| C66_printed | Props/AsmErrors.lean | pcq |
| C67_numbers | Props/AsmStrict.lean | pcq |
| C67_registers | Props/AsmStrict.lean | p |
| C67_tokens | Props/AsmStrict.lean | pcq |
| C67_narrow | Props/AsmStrict.lean | pq |
| C67_constants | Props/AsmStrict.lean | pcq |
| C67_sections | Props/AsmStrict.lean | pcq |
| C67_globals | Props/AsmStrict.lean | pq |
| C67_data | Props/AsmStrict.lean | pcq |
| C67_instructions | Props/AsmStrict.lean | pcq |
| C67_opcodes | Props/AsmStrict.lean | pcq |
| C67_lines | Props/AsmStrict.lean | pq |
| C68_codes | Props/MacCodes.lean | pcq |
| C68_cpu | Props/MacCodes.lean | pcq |
| C69_rerun | Props/Reruns.lean | pcq |
| C69_depends_on_input | Props/Reruns.lean | pcq |
| C69_commute | Props/Reruns.lean | pcq |
| C70_recover | Props/ObjRead.lean | pcq |
| C70_recover_object | Props/ObjRead.lean | pcq |
| C70_injective | Props/ObjRead.lean | pcq |
| C71_line | Props/AsmRender.lean | pcq |
| C71_defined | Props/AsmRender.lean | pcq |
| C71_complete | Props/AsmRender.lean | pcq |
| C71_program | Props/AsmRender.lean | pcq |
| C71_any_statements | Props/AsmRender.lean | pcq |
| C71_normal_form | Props/AsmRender.lean | pcq |
| C71_same_object | Props/AsmRender.lean | pcq |
| C71_any_contents | Props/AsmRender.lean | pcq |
| C72_source | Props/Rename.lean | pcq |
| C72_object | Props/Rename.lean | pcq |
| C72_rename | Props/Rename.lean | pcq |
| C72_image | Props/Rename.lean | pcq |
| C73_debug_partial | Props/Oversize.lean | pcq |
| C73_debug_exact_partial | Props/Oversize.lean | pcq |
| C73_release_counterexample | Props/Oversize.lean | pcq |
| C73_cast_counterexample | Props/Oversize.lean | pcq |
| C74_exact | Props/Asm.lean | pcq |
| C74_addresses | Props/Asm.lean | pcq |
| C75_read_ok | Props/AsmIo.lean | pcq |
| C75_read_failed | Props/AsmIo.lean | pcq |
| C75_write | Props/AsmIo.lean | pcq |
| C75_bad_argument | Props/AsmIo.lean | pcq |
| C75_no_failure | Props/AsmIo.lean | pcq |
| C75_main | Props/AsmIo.lean | pcq |
| C76_structures | Props/ObjFile.lean | pcq |
| C76_relocations | Props/ObjFile.lean | pcq |
| C76_file | Props/ObjFile.lean | pcq |
| C77_readers | Props/MacRead.lean | pcq |
| C77_arrives | Props/MacRead.lean | p |
| C77_load_commands | Props/MacRead.lean | pcq |
| C77_structures | Props/MacRead.lean | pcq |
| C77_cut_short | Props/MacRead.lean | pcq |
| C77_cut_load_command | Props/MacRead.lean | pcq |
| C78_release | Props/ObjWrap.lean | pcq |
| C78_written | Props/ObjWrap.lean | pcq |
| C78_panics | Props/ObjWrap.lean | pcq |
| C78_names | Props/ObjWrap.lean | pcq |
| C78_numbers | Props/ObjWrap.lean | pq |
| C78_fits | Props/ObjWrap.lean | pcq |
| C79_assemble | Props/Outcome.lean | pcq |
| C79_kinds | Props/Outcome.lean | pcq |
| C79_run | Props/Outcome.lean | pcq |
| C79_complete | Props/Outcome.lean | pcq |
| C80_bytes | Props/X64Code.lean | pcq |
| C80_panics | Props/X64Code.lean | pcq |
| C80_lines | Props/AsmReads.lean | pcq |
| C81_structures | Props/MacDecode.lean | pcq |
| C81_load_command | Props/MacDecode.lean | pcq |
| C81_string_table | Props/MacDecode.lean | pcq |
| C82_result | Props/ObjChecks.lean | pcq |
| C82_output | Props/ObjChecks.lean | pcq |
| C82_run | Props/ObjChecks.lean | pcq |
| C83_table | Props/Shown.lean | pcq |
| C83_byte | Props/Shown.lean | pcq |
| C83_table_faithful | Props/Shown.lean | pcq |
| C83_sets | Props/Shown.lean | pcq |
| C83_sets_faithful | Props/Shown.lean | pcq |
| C84_reg64 | Props/X64Regs.lean | - |
| C84_narrow | Props/X64Regs.lean | - |
| C84_distinct | Props/X64Regs.lean | p |
| C85_sections | Props/AsmTry.lean | pcq |
| C85_globals | Props/AsmTry.lean | pcq |
| C85_data | Props/AsmTry.lean | pcq |
| C85_instructions | Props/AsmTry.lean | pcq |
| C86_read_numbers | Props/MacPrims.lean | pq |
| C86_read_total | Props/MacPrims.lean | pq |
| C86_write_numbers | Props/MacPrims.lean | pcq |
| C86_numbers_back | Props/MacPrims.lean | pcq |
| C86_read_name | Props/MacPrims.lean | pcq |
| C86_write_name | Props/MacPrims.lean | pcq |
| C86_name_back | Props/MacPrims.lean | pcq |
| C87_version | Props/MacPrims.lean | pcq |
| C87_symbol_type | Props/MacPrims.lean | pcq |
| C87_symbol_type_back | Props/MacPrims.lean | pq |
| C87_section_numbers | Props/MacPrims.lean | pcq |
| C88_calls | Props/X64Builder.lean | pcq |
| C88_order | Props/X64Builder.lean | pq |
| C88_sib | Props/X64Builder.lean | pq |
| C88_parts | Props/X64Builder.lean | pq |
| C89_join | Props/Join.lean | pcq |
| C89_succeeds | Props/Join.lean | pcq |
| C89_errors | Props/Join.lean | pcq |
| C90_symbols | Props/ObjViews.lean | pq |
| C90_symbols_mut | Props/ObjViews.lean | pq |
| C91_equal | Props/X64Bytes.lean | pq |
| C91_edit | Props/X64Bytes.lean | pq |
| C91_from | Props/X64Bytes.lean | pq |
| C92_link | Props/LinkMany.lean | pcq |
| C92_links_iff | Props/LinkMany.lean | pcq |
| C92_sections | Props/LinkMany.lean | pcq |
| C92_meaning | Props/LinkMany.lean | pcq |
| C93_written_mac | Props/Debug.lean | pcq |
| C93_read_mac | Props/Debug.lean | pcq |
| C93_written_rest | Props/Debug.lean | pcq |
| C93_read_rest | Props/Debug.lean | pcq |
| C93_equal | Props/Debug.lean | - |
| C94_form | Props/Obtained.lean | pcq |
| C94_every | Props/Obtained.lean | pcq |
| C94_exactly | Props/Obtained.lean | pcq |
| C95_session | Props/Session.lean | pcq |
| C95_write | Props/Session.lean | pcq |
| C96_link | Props/Separate.lean | pcq |
| C96_run | Props/Separate.lean | pcq |
| C97_one_complaint | Props/Process.lean | pcq |
| C97_status | Props/Process.lean | pcq |
| C97_no_failure | Props/Process.lean | pcq |
| C97_success | Props/Process.lean | pcq |
| C97_stderr | Props/Process.lean | pcq |
| C97_bad_argument | Props/Process.lean | pcq |
| C98_together | Props/Together.lean | pcq |
| C98_ends | Props/Together.lean | pcq |
| C98_same_output | Props/Together.lean | pcq |
| C99_same_file | Props/SameFile.lean | pcq |
| C99_same_parts | Props/SameFile.lean | pq |
| C100_as_if | Props/Meddle.lean | pcq |
| C100_undisturbed | Props/Meddle.lean | pcq |
| C100_torn | Props/Meddle.lean | pcq |
| C101_any | Props/MeddleAny.lean | pcq |
| C101_usage | Props/MeddleAny.lean | pcq |
| C101_emptied | Props/MeddleAny.lean | pcq |
| C102_linear | Props/Linear.lean | pcq |
| C102_sharp | Props/Linear.lean | pcq |
| C103_ends | Props/MeddleEnds.lean | pcq |
| C103_ends_if | Props/MeddleEnds.lean | pcq |
| C103_endless | Props/MeddleEnds.lean | pcq |
| C104_local | Props/Local.lean | pcq |
| C104_differs | Props/Local.lean | pcq |
| C105_killed | Props/Killed.lean | pcq |
| C105_again | Props/Killed.lean | pcq |
| C105_between | Props/Killed.lean | pcq |
| C106_calls | Props/Calls.lean | pcq |
| C106_files | Props/Calls.lean | pcq |
| C106_pieces | Props/Calls.lean | pcq |
| C106_run | Props/Calls.lean | pcq |
| C106_count | Props/Calls.lean | pcq |
| C107_calls | Props/Prompt.lean | pcq |
| C107_outcome | Props/Prompt.lean | pcq |
| C107_ends | Props/Prompt.lean | pcq |
| C108_cut | Props/Incomplete.lean | pcq |
| C108_run | Props/Incomplete.lean | pcq |
| C108_shared | Props/SameTime.lean | pcq |
| C109_moment | Props/SameTime.lean | pcq |
| C109_end | Props/SameTime.lean | pcq |
| C109_one | Props/SameTime.lean | pcq |
| C109_result | Props/SameTime.lean | pcq |
| C109_ends | Props/SameTime.lean | pcq |
