# Validation of the specifications against other tools

The proofs say that the assembler meets `Spec/X86` (processor), `Spec/MachO` (file format) and
`linkSection`/`symbolAddress` (linker, in `Props/EndToEnd`).  These scripts compare the specifications
with tools that know nothing of them.  They are tests, not proofs.  Nothing of `/repo` is built or run;
the assembler here is the Lean model.  The `.lean.txt` files are Lean programs: drop the `.txt` and run
them in this directory's scratch copy with `lake env lean --run` from `lean/`.

| Specification | Compared with | Scripts | Result |
|---|---|---|---|
| `X86.decode` | GNU objdump 2.42 | `gen.py SEED N`, `as recs.s`, `objdump -d -M intel` to `recs.dis`, `Dec` to `recs.lean.txt`, `cmp.py` | 200,000 random instructions: same instruction, operands and length.  One difference, intended: `66 C3` is refused by `decode`. |
| `X86.decode` and `X86.exec` | the processor of the sandbox | `gencpu.py SEED N` (assembled by GNU `as`), `cpu.c`, `Exec` (constant `STUB` is the address `cpu` prints as its stub) | 5,000 random instructions from random states: same registers, instruction pointer and memory. |
| object files, `linkSection`, `symbolAddress` | LLVM's `ld.lld -flavor darwin` | `genasm.py`, `AsmRun2`, `ld.lld`, `mkexp.py` (with `macho.py`), `LinkCmp` | 300 random programs, 448 relocations: LLD accepts every object; section contents after linking and all symbol addresses are equal. |
| `linkFiles` (Spec/LinkMany) | LLVM's `ld.lld -flavor darwin` | `LinkGen`, `linkmany.py`, `mkexp2.py` (with `macho.py`), `LinkManyCmp` | 300 random sets of 1 to 4 objects (726 files, 3,279 relocations, 908 of them to symbols of other files): LLD accepts every set; the code and data of all files after linking are equal. |
| `Spec/MachO`, at-mac readers | objects made by clang 22 | `Rd` | all structures read as `clang` wrote them; one object is in `lean/Verif/Tests/Foreign.lean`. |

The first comparison found a mistake in the specification: with both `66` and REX.W, push and pop are
64-bit.  It has been corrected.
