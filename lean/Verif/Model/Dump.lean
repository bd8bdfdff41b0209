import Verif.Model.Basic
/-
  `dump_code`, monoasm/src/jit_memory.rs:907-919: what is kept of the output of `objdump`. (The bytes
  that are given to it are `JitMemory.dump_slice` in `Model/Api.lean`.)
-/

namespace Monoasm

/-- `str::split_inclusive('\n')`, jit_memory.rs:911: pieces that end after a line feed; the last one may
    have none, but is not empty. -/
def splitInclusive : List Char → List (List Char)
  | [] => []
  | c :: cs =>
    if c = '\n' then [c] :: splitInclusive cs
    else match splitInclusive cs with
      | [] => [[c]]
      | l :: ls => (c :: l) :: ls

/-- `str::contains` -/
def strContains (needle : List Char) : List Char → Bool
  | [] => needle.isEmpty
  | c :: cs => needle.isPrefixOf (c :: cs) || strContains needle cs

/-- `str::len`: the number of bytes -/
def strLen (s : List Char) : Nat := (s.map Char.utf8Size).sum

/-- The predicate of `filter`, jit_memory.rs:912-917 -/
def keepsLine (s : List Char) : Bool :=
  decide (strLen s > 1) && !strContains "file format binary".toList s && !strContains "Disassembly of section".toList s
    && !strContains "<.data>".toList s

/-- jit_memory.rs:908-918 -/
def dumpFilter (stdout : List Char) : List Char := ((splitInclusive stdout).filter keepsLine).flatten

end Monoasm
