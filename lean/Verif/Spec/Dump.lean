/-
  Specification: the output of `objdump -D -b binary`.
-/

namespace Spec

/-- A line, without the line feed, of the listing: an address, bytes, and the text of the instruction, as in
    `   5:\t48 8b 05 10 00 00 00 \tmov    rax,QWORD PTR [rip+0x10]        # 0x1c`. All that matters here is
    that it is not empty and does not contain the phrases of the header. -/
structure ListingLine (l : List Char) : Prop where
  nonempty : l ≠ []
  one : '\n' ∉ l
  format : ¬ "file format binary".toList <:+: l
  section_ : ¬ "Disassembly of section".toList <:+: l
  symbol : ¬ "<.data>".toList <:+: l

/-- What is printed before the listing for the file `path`. -/
def objdumpHeader (path : List Char) : List Char :=
  "\n".toList ++ path
    ++ ":     file format binary\n\n\nDisassembly of section .data:\n\n00000000 <.data>:\n".toList

/-- The lines of a listing, each ended by a line feed -/
def dumpLines (ls : List (List Char)) : List Char := (ls.map (· ++ ['\n'])).flatten

/-- The output for the file `path`, with the given lines. -/
def objdumpOutput (path : List Char) (ls : List (List Char)) : List Char := objdumpHeader path ++ dumpLines ls

end Spec
